import Verif.Model.Rust

/-! Lemmas about the emitted code. -/

set_option linter.unusedSimpArgs false

namespace Askama.RExpr

mutual
theorem beq_sound : ∀ (a b : RExpr), beq a b = true → a = b
  | .lit x0 x1, b, h => by
    unfold beq at h; split at h
    · simp only [Bool.and_eq_true, beq_iff_eq] at h
      obtain ⟨h0, h1⟩ := h
      have e0 := h0
      have e1 := h1
      subst e0 e1
      rfl
    · cases h
  | .self_, b, h => by
    unfold beq at h; split at h
    · rfl
    · cases h
  | .local_ x0, b, h => by
    unfold beq at h; split at h
    · simp only [Bool.and_eq_true, beq_iff_eq] at h
      have h0 := h
      have e0 := h0
      subst e0
      rfl
    · cases h
  | .field x0, b, h => by
    unfold beq at h; split at h
    · simp only [Bool.and_eq_true, beq_iff_eq] at h
      have h0 := h
      have e0 := h0
      subst e0
      rfl
    · cases h
  | .fieldRef x0, b, h => by
    unfold beq at h; split at h
    · simp only [Bool.and_eq_true, beq_iff_eq] at h
      have h0 := h
      have e0 := h0
      subst e0
      rfl
    · cases h
  | .path x0, b, h => by
    unfold beq at h; split at h
    · simp only [Bool.and_eq_true, beq_iff_eq] at h
      have h0 := h
      have e0 := h0
      subst e0
      rfl
    · cases h
  | .array x0, b, h => by
    unfold beq at h; split at h
    · skip
      have h0 := h
      have e0 := beqList_sound _ _ h0
      subst e0
      rfl
    · cases h
  | .attr x0 x1, b, h => by
    unfold beq at h; split at h
    · simp only [Bool.and_eq_true, beq_iff_eq] at h
      obtain ⟨h0, h1⟩ := h
      have e0 := beq_sound _ _ h0
      have e1 := h1
      subst e0 e1
      rfl
    · cases h
  | .loopIndex, b, h => by
    unfold beq at h; split at h
    · rfl
    · cases h
  | .loopIndex0, b, h => by
    unfold beq at h; split at h
    · rfl
    · cases h
  | .loopFirst, b, h => by
    unfold beq at h; split at h
    · rfl
    · cases h
  | .loopLast, b, h => by
    unfold beq at h; split at h
    · rfl
    · cases h
  | .index x0 x1, b, h => by
    unfold beq at h; split at h
    · simp only [Bool.and_eq_true, beq_iff_eq] at h
      obtain ⟨h0, h1⟩ := h
      have e0 := beq_sound _ _ h0
      have e1 := beq_sound _ _ h1
      subst e0 e1
      rfl
    · cases h
  | .asRef x0, b, h => by
    unfold beq at h; split at h
    · skip
      have h0 := h
      have e0 := beq_sound _ _ h0
      subst e0
      rfl
    · cases h
  | .deref x0, b, h => by
    unfold beq at h; split at h
    · skip
      have h0 := h
      have e0 := beq_sound _ _ h0
      subst e0
      rfl
    · cases h
  | .escape x0 x1, b, h => by
    unfold beq at h; split at h
    · simp only [Bool.and_eq_true, beq_iff_eq] at h
      obtain ⟨h0, h1⟩ := h
      have e0 := h0
      have e1 := beq_sound _ _ h1
      subst e0 e1
      rfl
    · cases h
  | .safe x0, b, h => by
    unfold beq at h; split at h
    · skip
      have h0 := h
      have e0 := beq_sound _ _ h0
      subst e0
      rfl
    · cases h
  | .format x0 x1, b, h => by
    unfold beq at h; split at h
    · simp only [Bool.and_eq_true, beq_iff_eq] at h
      obtain ⟨h0, h1⟩ := h
      have e0 := h0
      have e1 := beqList_sound _ _ h1
      subst e0 e1
      rfl
    · cases h
  | .join x0, b, h => by
    unfold beq at h; split at h
    · skip
      have h0 := h
      have e0 := beqList_sound _ _ h0
      subst e0
      rfl
    · cases h
  | .filter x0 x1 x2, b, h => by
    unfold beq at h; split at h
    · simp only [Bool.and_eq_true, beq_iff_eq] at h
      obtain ⟨⟨h0, h1⟩, h2⟩ := h
      have e0 := h0
      have e1 := h1
      have e2 := beqList_sound _ _ h2
      subst e0 e1 e2
      rfl
    · cases h
  | .unary x0 x1, b, h => by
    unfold beq at h; split at h
    · simp only [Bool.and_eq_true, beq_iff_eq] at h
      obtain ⟨h0, h1⟩ := h
      have e0 := h0
      have e1 := beq_sound _ _ h1
      subst e0 e1
      rfl
    · cases h
  | .binop x0 x1 x2, b, h => by
    unfold beq at h; split at h
    · simp only [Bool.and_eq_true, beq_iff_eq] at h
      obtain ⟨⟨h0, h1⟩, h2⟩ := h
      have e0 := h0
      have e1 := beq_sound _ _ h1
      have e2 := beq_sound _ _ h2
      subst e0 e1 e2
      rfl
    · cases h
  | .range x0 x1 x2, b, h => by
    unfold beq at h; split at h
    · simp only [Bool.and_eq_true, beq_iff_eq] at h
      obtain ⟨⟨h0, h1⟩, h2⟩ := h
      have e0 := h0
      have e1 := beqOpt_sound _ _ h1
      have e2 := beqOpt_sound _ _ h2
      subst e0 e1 e2
      rfl
    · cases h
  | .group x0, b, h => by
    unfold beq at h; split at h
    · skip
      have h0 := h
      have e0 := beq_sound _ _ h0
      subst e0
      rfl
    · cases h
  | .tuple x0, b, h => by
    unfold beq at h; split at h
    · skip
      have h0 := h
      have e0 := beqList_sound _ _ h0
      subst e0
      rfl
    · cases h
  | .call x0 x1, b, h => by
    unfold beq at h; split at h
    · simp only [Bool.and_eq_true, beq_iff_eq] at h
      obtain ⟨h0, h1⟩ := h
      have e0 := beq_sound _ _ h0
      have e1 := beqList_sound _ _ h1
      subst e0 e1
      rfl
    · cases h
  | .cycle x0, b, h => by
    unfold beq at h; split at h
    · skip
      have h0 := h
      have e0 := beq_sound _ _ h0
      subst e0
      rfl
    · cases h
  | .rustMacro x0 x1, b, h => by
    unfold beq at h; split at h
    · simp only [Bool.and_eq_true, beq_iff_eq] at h
      obtain ⟨h0, h1⟩ := h
      have e0 := h0
      have e1 := h1
      subst e0 e1
      rfl
    · cases h
  | .try_ x0, b, h => by
    unfold beq at h; split at h
    · skip
      have h0 := h
      have e0 := beq_sound _ _ h0
      subst e0
      rfl
    · cases h
theorem beqList_sound : ∀ (a b : List RExpr), beqList a b = true → a = b
  | [], b, h => by cases b <;> simp_all [beqList]
  | x :: xs, b, h => by
    unfold beqList at h; split at h
    · simp only [Bool.and_eq_true] at h
      rw [beq_sound _ _ h.1, beqList_sound _ _ h.2]
    · cases h
theorem beqOpt_sound : ∀ (a b : Option RExpr), beqOpt a b = true → a = b
  | none, b, h => by cases b <;> simp_all [beqOpt]
  | some x, b, h => by
    unfold beqOpt at h; split at h
    · rw [beq_sound _ _ h]
    · cases h
end

end Askama.RExpr
