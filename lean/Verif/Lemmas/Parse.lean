import Verif.Lemmas.ParseNode

/-!
# Helpers for the parser properties
-/

namespace Askama

open Spec PT

set_option linter.unusedVariables false in
mutual
/-- A weaker condition follows everywhere. -/
theorem AllN.mono {f g : Bool → Node → Prop} (hfg : ∀ b n, f b n → g b n) :
    ∀ (b : Bool) (n : Node), AllN f b n → AllN g b n
  | b, .if_ w bs, h => ⟨hfg _ _ h.1, AllC.mono hfg b bs h.2⟩
  | b, .match_ w1 e arms w2, h => ⟨hfg _ _ h.1, AllW.mono hfg b arms h.2⟩
  | b, .loop w1 v it c body w2 els w3, h => ⟨hfg _ _ h.1, AllNs.mono hfg true body h.2.1, AllNs.mono hfg b els h.2.2⟩
  | b, .blockDef w1 n ns w2, h => ⟨hfg _ _ h.1, AllNs.mono hfg b ns h.2⟩
  | b, .macro w1 n as ns w2, h => ⟨hfg _ _ h.1, AllNs.mono hfg b ns h.2⟩
  | b, .filterBlock w1 f ns w2, h => ⟨hfg _ _ h.1, AllNs.mono hfg b ns h.2⟩
  | b, .lit l, h => hfg _ _ h
  | b, .comment w c, h => hfg _ _ h
  | b, .expr w e, h => hfg _ _ h
  | b, .call w s n as, h => hfg _ _ h
  | b, .let_ w v e, h => hfg _ _ h
  | b, .extends_ p, h => hfg _ _ h
  | b, .include w p, h => hfg _ _ h
  | b, .import_ w p s, h => hfg _ _ h
  | b, .raw w1 l w2, h => hfg _ _ h
  | b, .break_ w, h => hfg _ _ h
  | b, .continue_ w, h => hfg _ _ h
theorem AllNs.mono {f g : Bool → Node → Prop} (hfg : ∀ b n, f b n → g b n) :
    ∀ (b : Bool) (ns : List Node), AllNs f b ns → AllNs g b ns
  | _, [], _ => trivial
  | b, n :: ns, h => ⟨AllN.mono hfg b n h.1, AllNs.mono hfg b ns h.2⟩
theorem AllC.mono {f g : Bool → Node → Prop} (hfg : ∀ b n, f b n → g b n) :
    ∀ (b : Bool) (cs : List Cond), AllC f b cs → AllC g b cs
  | _, [], _ => trivial
  | b, .mk _ _ ns :: cs, h => ⟨AllNs.mono hfg b ns h.1, AllC.mono hfg b cs h.2⟩
theorem AllW.mono {f g : Bool → Node → Prop} (hfg : ∀ b n, f b n → g b n) :
    ∀ (b : Bool) (cs : List When), AllW f b cs → AllW g b cs
  | _, [], _ => trivial
  | b, .mk _ _ ns :: cs, h => ⟨AllNs.mono hfg b ns h.1, AllW.mono hfg b cs h.2⟩
end

/-- The lines before a position that does not directly follow a newline. -/
theorem strLines_go (s : Str) : ∀ acc : Str, '\n' ∉ acc → (s = [] → acc ≠ []) → s.getLast? ≠ some '\n' →
    (strLines.go s acc).length = s.count '\n' + 1 ∧
    ∃ l, (strLines.go s acc).getLast? = some l ∧
      l.length = ((s.reverse ++ acc).takeWhile (· != '\n')).length := by
  induction s with
  | nil =>
    intro acc hacc hne _
    have h1 : acc.isEmpty = false := by cases acc with | nil => exact absurd rfl (hne rfl) | cons => rfl
    refine ⟨by simp [strLines.go, h1], acc.reverse, by simp [strLines.go, h1], ?_⟩
    have : acc.takeWhile (· != '\n') = acc := by
      clear hne h1
      induction acc with
      | nil => rfl
      | cons a acc ih =>
        simp only [List.mem_cons, not_or] at hacc
        rw [List.takeWhile_cons_of_pos (by simpa using fun h => hacc.1 h.symm), ih hacc.2]
    simp [this]
  | cons c s ih =>
    intro acc hacc _ hlast
    by_cases hc : c = '\n'
    · subst hc
      rw [strLines.go]
      have hs : s ≠ [] := by
        rintro rfl
        exact hlast (by simp)
      have h1 := ih [] (by simp) (fun h => absurd h hs) (by
        intro h; apply hlast; rw [List.getLast?_cons, h]; rfl)
      refine ⟨by simp [h1.1], ?_⟩
      obtain ⟨l, hl, hlen⟩ := h1.2
      refine ⟨l, by rw [List.getLast?_cons, hl]; rfl, ?_⟩
      rw [hlen]
      simp only [List.append_nil, List.reverse_cons, List.append_assoc, List.cons_append, List.nil_append]
      rw [List.takeWhile_append]
      split
      · rename_i he
        simp [he]
      · rfl
    · have e : strLines.go (c :: s) acc = strLines.go s (c :: acc) := by
        rw [strLines.go]
        intro h; exact hc h
      rw [e]
      have h1 := ih (c :: acc) (by simp; exact ⟨fun h => hc h.symm, hacc⟩) (by simp) (by
        intro h
        apply hlast
        rw [List.getLast?_cons, h]; rfl)
      refine ⟨?_, ?_⟩
      · rw [h1.1, List.count_cons]
        simp [hc]
      · obtain ⟨l, hl, hlen⟩ := h1.2
        exact ⟨l, hl, by simpa using hlen⟩

end Askama
