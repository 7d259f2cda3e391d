import Verif.Lemmas.Rust
import Verif.Model.Gen

/-! Equality of statements can be decided; for evaluating concrete cases. -/

set_option linter.unusedSimpArgs false

namespace Askama

mutual
/-- Equality of targets. -/
def sameTarget : Target → Target → Bool
  | .name x0, b => match b with
    | .name y0 => (x0 == y0)
    | _ => false
  | .tuple x0 x1, b => match b with
    | .tuple y0 y1 => (x0 == y0) && sameTargets x1 y1
    | _ => false
  | .struct x0 x1, b => match b with
    | .struct y0 y1 => (x0 == y0) && sameFields x1 y1
    | _ => false
  | .numLit x0, b => match b with
    | .numLit y0 => (x0 == y0)
    | _ => false
  | .strLit x0, b => match b with
    | .strLit y0 => (x0 == y0)
    | _ => false
  | .charLit x0, b => match b with
    | .charLit y0 => (x0 == y0)
    | _ => false
  | .boolLit x0, b => match b with
    | .boolLit y0 => (x0 == y0)
    | _ => false
  | .path x0, b => match b with
    | .path y0 => (x0 == y0)
    | _ => false
  | .orChain x0, b => match b with
    | .orChain y0 => sameTargets x0 y0
    | _ => false
/-- ... of lists. -/
def sameTargets : List Target → List Target → Bool
  | [], b => b.isEmpty
  | x :: xs, b => match b with
    | [] => false
    | y :: ys => sameTarget x y && sameTargets xs ys
/-- ... of fields. -/
def sameFields : List (Str × Target) → List (Str × Target) → Bool
  | [], b => b.isEmpty
  | (n, x) :: xs, b => match b with
    | [] => false
    | (m, y) :: ys => (n == m) && sameTarget x y && sameFields xs ys
end

mutual
theorem sameTarget_sound : ∀ a b : Target, sameTarget a b = true → a = b
  | .name x0, b, h => by
    unfold sameTarget at h; (try dsimp only at h); split at h
    · try simp only [Bool.and_eq_true, beq_iff_eq] at h
      have h0 := h
      have e0 := h0
      subst e0
      rfl
    · cases h
  | .tuple x0 x1, b, h => by
    unfold sameTarget at h; (try dsimp only at h); split at h
    · try simp only [Bool.and_eq_true, beq_iff_eq] at h
      obtain ⟨h0, h1⟩ := h
      have e0 := h0
      have e1 := sameTargets_sound _ _ h1
      subst e0 e1
      rfl
    · cases h
  | .struct x0 x1, b, h => by
    unfold sameTarget at h; (try dsimp only at h); split at h
    · try simp only [Bool.and_eq_true, beq_iff_eq] at h
      obtain ⟨h0, h1⟩ := h
      have e0 := h0
      have e1 := sameFields_sound _ _ h1
      subst e0 e1
      rfl
    · cases h
  | .numLit x0, b, h => by
    unfold sameTarget at h; (try dsimp only at h); split at h
    · try simp only [Bool.and_eq_true, beq_iff_eq] at h
      have h0 := h
      have e0 := h0
      subst e0
      rfl
    · cases h
  | .strLit x0, b, h => by
    unfold sameTarget at h; (try dsimp only at h); split at h
    · try simp only [Bool.and_eq_true, beq_iff_eq] at h
      have h0 := h
      have e0 := h0
      subst e0
      rfl
    · cases h
  | .charLit x0, b, h => by
    unfold sameTarget at h; (try dsimp only at h); split at h
    · try simp only [Bool.and_eq_true, beq_iff_eq] at h
      have h0 := h
      have e0 := h0
      subst e0
      rfl
    · cases h
  | .boolLit x0, b, h => by
    unfold sameTarget at h; (try dsimp only at h); split at h
    · try simp only [Bool.and_eq_true, beq_iff_eq] at h
      have h0 := h
      have e0 := h0
      subst e0
      rfl
    · cases h
  | .path x0, b, h => by
    unfold sameTarget at h; (try dsimp only at h); split at h
    · try simp only [Bool.and_eq_true, beq_iff_eq] at h
      have h0 := h
      have e0 := h0
      subst e0
      rfl
    · cases h
  | .orChain x0, b, h => by
    unfold sameTarget at h; (try dsimp only at h); split at h
    · try simp only [Bool.and_eq_true, beq_iff_eq] at h
      have h0 := h
      have e0 := sameTargets_sound _ _ h0
      subst e0
      rfl
    · cases h
theorem sameTargets_sound : ∀ a b : List Target, sameTargets a b = true → a = b
  | [], b, h => by cases b with | nil => rfl | cons _ _ => cases h
  | x :: xs, b, h => by
    cases b with
    | nil => cases h
    | cons y ys =>
      unfold sameTargets at h
      simp only [Bool.and_eq_true, beq_iff_eq] at h
      have e1 := sameTarget_sound _ _ h.1
      have e2 := sameTargets_sound _ _ h.2
      subst e1 e2
      rfl
theorem sameFields_sound : ∀ a b : List (Str × Target), sameFields a b = true → a = b
  | [], b, h => by cases b with | nil => rfl | cons _ _ => cases h
  | (n, x) :: xs, b, h => by
    cases b with
    | nil => cases h
    | cons y ys =>
      obtain ⟨m, y⟩ := y
      unfold sameFields at h
      simp only [Bool.and_eq_true, beq_iff_eq] at h
      have e0 := h.1.1
      have e1 := sameTarget_sound _ _ h.1.2
      have e2 := sameFields_sound _ _ h.2
      subst e0 e1 e2
      rfl
end

/-- Equality of conditions. -/
def sameCond : RCond → RCond → Bool
  | .always, b => match b with
    | .always => true
    | _ => false
  | .test x0, b => match b with
    | .test y0 => RExpr.beq x0 y0
    | _ => false
  | .let_ x0 x1, b => match b with
    | .let_ y0 y1 => sameTarget x0 y0 && RExpr.beq x1 y1
    | _ => false
  | .letChain x0 x1 x2 x3, b => match b with
    | .letChain y0 y1 y2 y3 => (x0 == y0) && sameTarget x1 y1 && RExpr.beq x2 y2 && RExpr.beq x3 y3
    | _ => false

theorem sameCond_sound : ∀ a b : RCond, sameCond a b = true → a = b
  | .always, b, h => by
    unfold sameCond at h; (try dsimp only at h); split at h
    · rfl
    · cases h
  | .test x0, b, h => by
    unfold sameCond at h; (try dsimp only at h); split at h
    · try simp only [Bool.and_eq_true, beq_iff_eq] at h
      have h0 := h
      have e0 := RExpr.beq_sound _ _ h0
      subst e0
      rfl
    · cases h
  | .let_ x0 x1, b, h => by
    unfold sameCond at h; (try dsimp only at h); split at h
    · try simp only [Bool.and_eq_true, beq_iff_eq] at h
      obtain ⟨h0, h1⟩ := h
      have e0 := sameTarget_sound _ _ h0
      have e1 := RExpr.beq_sound _ _ h1
      subst e0 e1
      rfl
    · cases h
  | .letChain x0 x1 x2 x3, b, h => by
    unfold sameCond at h; (try dsimp only at h); split at h
    · try simp only [Bool.and_eq_true, beq_iff_eq] at h
      obtain ⟨⟨⟨h0, h1⟩, h2⟩, h3⟩ := h
      have e0 := h0
      have e1 := sameTarget_sound _ _ h1
      have e2 := RExpr.beq_sound _ _ h2
      have e3 := RExpr.beq_sound _ _ h3
      subst e0 e1 e2 e3
      rfl
    · cases h

/-- Equality of arguments of `write!`. -/
def sameArg (a b : FmtArg) : Bool := a.id == b.id && a.esc == b.esc && RExpr.beq a.expr b.expr

theorem sameArg_sound (a b : FmtArg) (h : sameArg a b = true) : a = b := by
  obtain ⟨i, e, r⟩ := a
  obtain ⟨j, f, s⟩ := b
  simp only [sameArg, Bool.and_eq_true, beq_iff_eq] at h
  have e0 := h.1.1
  have e1 := h.1.2
  have e2 := RExpr.beq_sound _ _ h.2
  subst e0 e1 e2
  rfl

/-- ... of lists. -/
def sameArgs : List FmtArg → List FmtArg → Bool
  | [], b => b.isEmpty
  | x :: xs, b => match b with
    | [] => false
    | y :: ys => sameArg x y && sameArgs xs ys

theorem sameArgs_sound : ∀ a b : List FmtArg, sameArgs a b = true → a = b
  | [], b, h => by cases b with | nil => rfl | cons _ _ => cases h
  | x :: xs, b, h => by
    cases b with
    | nil => cases h
    | cons y ys =>
      unfold sameArgs at h
      simp only [Bool.and_eq_true, beq_iff_eq] at h
      have e1 := sameArg_sound _ _ h.1
      have e2 := sameArgs_sound _ _ h.2
      subst e1 e2
      rfl

mutual
/-- Equality of statements. -/
def sameStmt : Stmt → Stmt → Bool
  | .writeLit x0, b => match b with
    | .writeLit y0 => (x0 == y0)
    | _ => false
  | .writeFmt x0 x1, b => match b with
    | .writeFmt y0 y1 => (x0 == y0) && sameArgs x1 y1
    | _ => false
  | .letDecl x0, b => match b with
    | .letDecl y0 => sameTarget x0 y0
    | _ => false
  | .letInit x0 x1, b => match b with
    | .letInit y0 y1 => sameTarget x0 y0 && RExpr.beq x1 y1
    | _ => false
  | .assign x0 x1, b => match b with
    | .assign y0 y1 => (x0 == y0) && RExpr.beq x1 y1
    | _ => false
  | .letMany x0 x1, b => match b with
    | .letMany y0 y1 => (x0 == y0) && RExpr.beqList x1 y1
    | _ => false
  | .letStr x0 x1, b => match b with
    | .letStr y0 y1 => (x0 == y0) && (x1 == y1)
    | _ => false
  | .letFmt x0 x1 x2, b => match b with
    | .letFmt y0 y1 y2 => (x0 == y0) && (x1 == y1) && sameArgs x2 y2
    | _ => false
  | .if_ x0, b => match b with
    | .if_ y0 => sameBranches x0 y0
    | _ => false
  | .match_ x0 x1, b => match b with
    | .match_ y0 y1 => RExpr.beq x0 y0 && sameArms x1 y1
    | _ => false
  | .block x0, b => match b with
    | .block y0 => sameStmts x0 y0
    | _ => false
  | .letDid, b => match b with
    | .letDid => true
    | _ => false
  | .setDid, b => match b with
    | .setDid => true
    | _ => false
  | .letIter x0, b => match b with
    | .letIter y0 => RExpr.beq x0 y0
    | _ => false
  | .filterIter x0 x1, b => match b with
    | .filterIter y0 y1 => sameTarget x0 y0 && RExpr.beq x1 y1
    | _ => false
  | .forIter x0 x1, b => match b with
    | .forIter y0 y1 => sameTarget x0 y0 && sameStmts x1 y1
    | _ => false
  | .ifNotDid x0, b => match b with
    | .ifNotDid y0 => sameStmts x0 y0
    | _ => false
  | .brk, b => match b with
    | .brk => true
    | _ => false
  | .cont, b => match b with
    | .cont => true
    | _ => false
  | .includeBytes x0, b => match b with
    | .includeBytes y0 => (x0 == y0)
    | _ => false
termination_by structural x => x
/-- ... of lists. -/
def sameStmts : List Stmt → List Stmt → Bool
  | [], b => b.isEmpty
  | x :: xs, b => match b with
    | [] => false
    | y :: ys => sameStmt x y && sameStmts xs ys
termination_by structural x => x
/-- ... of branches. -/
def sameBranches : List Branch → List Branch → Bool
  | [], b => b.isEmpty
  | .mk c x :: xs, b => match b with
    | [] => false
    | .mk d y :: ys => sameCond c d && sameStmts x y && sameBranches xs ys
termination_by structural x => x
/-- ... of arms. -/
def sameArms : List Arm → List Arm → Bool
  | [], b => b.isEmpty
  | .mk c x :: xs, b => match b with
    | [] => false
    | .mk d y :: ys => sameTarget c d && sameStmts x y && sameArms xs ys
termination_by structural x => x
end

mutual
theorem sameStmt_sound : ∀ a b : Stmt, sameStmt a b = true → a = b
  | .writeLit x0, b, h => by
    unfold sameStmt at h; (try dsimp only at h); split at h
    · try simp only [Bool.and_eq_true, beq_iff_eq] at h
      have h0 := h
      have e0 := h0
      subst e0
      rfl
    · cases h
  | .writeFmt x0 x1, b, h => by
    unfold sameStmt at h; (try dsimp only at h); split at h
    · try simp only [Bool.and_eq_true, beq_iff_eq] at h
      obtain ⟨h0, h1⟩ := h
      have e0 := h0
      have e1 := sameArgs_sound _ _ h1
      subst e0 e1
      rfl
    · cases h
  | .letDecl x0, b, h => by
    unfold sameStmt at h; (try dsimp only at h); split at h
    · try simp only [Bool.and_eq_true, beq_iff_eq] at h
      have h0 := h
      have e0 := sameTarget_sound _ _ h0
      subst e0
      rfl
    · cases h
  | .letInit x0 x1, b, h => by
    unfold sameStmt at h; (try dsimp only at h); split at h
    · try simp only [Bool.and_eq_true, beq_iff_eq] at h
      obtain ⟨h0, h1⟩ := h
      have e0 := sameTarget_sound _ _ h0
      have e1 := RExpr.beq_sound _ _ h1
      subst e0 e1
      rfl
    · cases h
  | .assign x0 x1, b, h => by
    unfold sameStmt at h; (try dsimp only at h); split at h
    · try simp only [Bool.and_eq_true, beq_iff_eq] at h
      obtain ⟨h0, h1⟩ := h
      have e0 := h0
      have e1 := RExpr.beq_sound _ _ h1
      subst e0 e1
      rfl
    · cases h
  | .letMany x0 x1, b, h => by
    unfold sameStmt at h; (try dsimp only at h); split at h
    · try simp only [Bool.and_eq_true, beq_iff_eq] at h
      obtain ⟨h0, h1⟩ := h
      have e0 := h0
      have e1 := RExpr.beqList_sound _ _ h1
      subst e0 e1
      rfl
    · cases h
  | .letStr x0 x1, b, h => by
    unfold sameStmt at h; (try dsimp only at h); split at h
    · try simp only [Bool.and_eq_true, beq_iff_eq] at h
      obtain ⟨h0, h1⟩ := h
      have e0 := h0
      have e1 := h1
      subst e0 e1
      rfl
    · cases h
  | .letFmt x0 x1 x2, b, h => by
    unfold sameStmt at h; (try dsimp only at h); split at h
    · try simp only [Bool.and_eq_true, beq_iff_eq] at h
      obtain ⟨⟨h0, h1⟩, h2⟩ := h
      have e0 := h0
      have e1 := h1
      have e2 := sameArgs_sound _ _ h2
      subst e0 e1 e2
      rfl
    · cases h
  | .if_ x0, b, h => by
    unfold sameStmt at h; (try dsimp only at h); split at h
    · try simp only [Bool.and_eq_true, beq_iff_eq] at h
      have h0 := h
      have e0 := sameBranches_sound _ _ h0
      subst e0
      rfl
    · cases h
  | .match_ x0 x1, b, h => by
    unfold sameStmt at h; (try dsimp only at h); split at h
    · try simp only [Bool.and_eq_true, beq_iff_eq] at h
      obtain ⟨h0, h1⟩ := h
      have e0 := RExpr.beq_sound _ _ h0
      have e1 := sameArms_sound _ _ h1
      subst e0 e1
      rfl
    · cases h
  | .block x0, b, h => by
    unfold sameStmt at h; (try dsimp only at h); split at h
    · try simp only [Bool.and_eq_true, beq_iff_eq] at h
      have h0 := h
      have e0 := sameStmts_sound _ _ h0
      subst e0
      rfl
    · cases h
  | .letDid, b, h => by
    unfold sameStmt at h; (try dsimp only at h); split at h
    · rfl
    · cases h
  | .setDid, b, h => by
    unfold sameStmt at h; (try dsimp only at h); split at h
    · rfl
    · cases h
  | .letIter x0, b, h => by
    unfold sameStmt at h; (try dsimp only at h); split at h
    · try simp only [Bool.and_eq_true, beq_iff_eq] at h
      have h0 := h
      have e0 := RExpr.beq_sound _ _ h0
      subst e0
      rfl
    · cases h
  | .filterIter x0 x1, b, h => by
    unfold sameStmt at h; (try dsimp only at h); split at h
    · try simp only [Bool.and_eq_true, beq_iff_eq] at h
      obtain ⟨h0, h1⟩ := h
      have e0 := sameTarget_sound _ _ h0
      have e1 := RExpr.beq_sound _ _ h1
      subst e0 e1
      rfl
    · cases h
  | .forIter x0 x1, b, h => by
    unfold sameStmt at h; (try dsimp only at h); split at h
    · try simp only [Bool.and_eq_true, beq_iff_eq] at h
      obtain ⟨h0, h1⟩ := h
      have e0 := sameTarget_sound _ _ h0
      have e1 := sameStmts_sound _ _ h1
      subst e0 e1
      rfl
    · cases h
  | .ifNotDid x0, b, h => by
    unfold sameStmt at h; (try dsimp only at h); split at h
    · try simp only [Bool.and_eq_true, beq_iff_eq] at h
      have h0 := h
      have e0 := sameStmts_sound _ _ h0
      subst e0
      rfl
    · cases h
  | .brk, b, h => by
    unfold sameStmt at h; (try dsimp only at h); split at h
    · rfl
    · cases h
  | .cont, b, h => by
    unfold sameStmt at h; (try dsimp only at h); split at h
    · rfl
    · cases h
  | .includeBytes x0, b, h => by
    unfold sameStmt at h; (try dsimp only at h); split at h
    · try simp only [Bool.and_eq_true, beq_iff_eq] at h
      have h0 := h
      have e0 := h0
      subst e0
      rfl
    · cases h
theorem sameStmts_sound : ∀ a b : List Stmt, sameStmts a b = true → a = b
  | [], b, h => by cases b with | nil => rfl | cons _ _ => simp [sameStmts] at h
  | x :: xs, b, h => by
    cases b with
    | nil => simp [sameStmts] at h
    | cons y ys =>
      unfold sameStmts at h
      simp only [Bool.and_eq_true, beq_iff_eq] at h
      have e1 := sameStmt_sound _ _ h.1
      have e2 := sameStmts_sound _ _ h.2
      subst e1 e2
      rfl
theorem sameBranches_sound : ∀ a b : List Branch, sameBranches a b = true → a = b
  | [], b, h => by cases b with | nil => rfl | cons _ _ => simp [sameBranches] at h
  | .mk c x :: xs, b, h => by
    cases b with
    | nil => simp [sameBranches] at h
    | cons y ys =>
      obtain ⟨d, y⟩ := y
      unfold sameBranches at h
      simp only [Bool.and_eq_true, beq_iff_eq] at h
      have e0 := sameCond_sound _ _ h.1.1
      have e1 := sameStmts_sound _ _ h.1.2
      have e2 := sameBranches_sound _ _ h.2
      subst e0 e1 e2
      rfl
theorem sameArms_sound : ∀ a b : List Arm, sameArms a b = true → a = b
  | [], b, h => by cases b with | nil => rfl | cons _ _ => simp [sameArms] at h
  | .mk c x :: xs, b, h => by
    cases b with
    | nil => simp [sameArms] at h
    | cons y ys =>
      obtain ⟨d, y⟩ := y
      unfold sameArms at h
      simp only [Bool.and_eq_true, beq_iff_eq] at h
      have e0 := sameTarget_sound _ _ h.1.1
      have e1 := sameStmts_sound _ _ h.1.2
      have e2 := sameArms_sound _ _ h.2
      subst e0 e1 e2
      rfl
end

/-- Was this generated? -/
def gives (x : Except GErr (List Stmt)) (sts : List Stmt) : Bool :=
  match x with
  | .ok y => sameStmts y sts
  | .error _ => false

theorem gives_sound {x : Except GErr (List Stmt)} {sts : List Stmt} (h : gives x sts = true) : x = .ok sts := by
  unfold gives at h
  split at h
  · exact congrArg _ (sameStmts_sound _ _ h)
  · cases h

end Askama
