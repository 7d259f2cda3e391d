import Verif.Lemmas.Code
import Verif.Spec.Parse

/-! The arguments of a macro call. -/

namespace Askama

open Askama.Spec Askama.Gen

/-- A named argument, as the parser makes it. -/
abbrev asNamed (x : Str × Expr) : Expr := .namedArg x.1 x.2

theorem namedArgs_split {params : List Str} {tail : List Expr} (ht : ∀ e ∈ tail, ∀ n v, e ≠ .namedArg n v) :
    (l : List (Str × Expr)) → {m : List (Str × Expr)} → namedArgs params (l.map asNamed ++ tail) = .ok m →
      m = l.reverse.map (fun x => (x.1, asNamed x)) ∧ ∀ x ∈ l, x.1 ∈ params
  | [], m, h => by
    cases tail with
    | nil =>
      simp only [List.map_nil, List.append_nil, namedArgs, Except.ok.injEq] at h
      subst h
      exact ⟨rfl, by simp⟩
    | cons e tail =>
      have he := ht e (List.mem_cons_self ..)
      simp only [List.map_nil, List.nil_append] at h
      unfold namedArgs at h
      split at h
      · rename_i heq; cases heq; exact absurd rfl (he _ _)
      · cases h; exact ⟨rfl, by simp⟩
  | x :: l, m, h => by
    simp only [List.map_cons, List.cons_append, namedArgs] at h
    split at h
    · rename_i hx
      obtain ⟨m', h1, h2⟩ := except_bind h
      obtain ⟨rfl, h3⟩ := namedArgs_split ht l h1
      cases h2
      refine ⟨by simp, ?_⟩
      intro y hy
      rcases List.mem_cons.mp hy with rfl | hy
      · simpa using hx
      · exact h3 y hy
    · cases h

/-- Parameters are bound to positional arguments up to the first that has a named one. -/
theorem bindParams_prefix {I : GenInput} {named : List (Str × Expr)} {args : List Expr} : (ps : List Str) → {k : Nat} →
    {ap : Bool} → {L L' : Locals} → {ns : List Str} → {rs : List RExpr} →
    bindParams I named args ps k ap L = .ok (ns, rs, L') →
      ∃ un nm, ps = un ++ nm ∧ (∀ p ∈ un, lastOf named p = none) ∧ (∀ p ∈ nm, (lastOf named p).isSome)
        ∧ (ap = false → un = []) ∧ (un ≠ [] → k + un.length ≤ args.length)
  | [], _, _, _, _, _, _, _ => ⟨[], [], rfl, by simp, by simp, by simp, by simp⟩
  | p :: ps, k, ap, L, L', ns, rs, h => by
    simp only [bindParams] at h
    obtain ⟨⟨e, ap'⟩, h1, h⟩ := except_bind h
    obtain ⟨q, h2, h⟩ := except_bind h
    have hrest : ∃ un nm, ps = un ++ nm ∧ (∀ p ∈ un, lastOf named p = none) ∧ (∀ p ∈ nm, (lastOf named p).isSome)
        ∧ (ap' = false → un = []) ∧ (un ≠ [] → k + 1 + un.length ≤ args.length) := by
      cases q with
      | inl r => exact bindParams_prefix ps h
      | inr r =>
        obtain ⟨⟨ns', rs', L2⟩, h3, -⟩ := except_bind h
        exact bindParams_prefix ps h3
    obtain ⟨un, nm, rfl, h3, h4, h5, h6⟩ := hrest
    unfold paramArg at h1
    cases hl : lastOf named p with
    | some e' =>
      rw [hl] at h1
      cases h1
      cases h5 rfl
      refine ⟨[], p :: nm, rfl, by simp, ?_, by simp, by simp⟩
      intro x hx
      rcases List.mem_cons.mp hx with rfl | hx
      · simp [hl]
      · exact h4 x hx
    | none =>
      rw [hl] at h1
      dsimp only at h1
      cases ap with
      | false => cases h1
      | true =>
        simp only [if_true] at h1
        cases ha : args[k]? with
        | none => rw [ha] at h1; cases h1
        | some e' =>
          have hk : k < args.length := (List.getElem?_eq_some_iff.mp ha).1
          refine ⟨p :: un, nm, rfl, ?_, h4, by simp, ?_⟩
          · intro x hx
            rcases List.mem_cons.mp hx with rfl | hx
            · exact hl
            · exact h3 x hx
          · intro _
            by_cases hu : un = []
            · subst hu; simp; omega
            · have := h6 hu
              simp; omega

theorem lastOf_isSome {l : List (Str × Expr)} {p : Str} : (lastOf l p).isSome = true ↔ p ∈ l.map (·.1) := by
  unfold lastOf assoc
  rw [Option.isSome_map, List.find?_isSome]
  simp only [List.mem_reverse, beq_iff_eq, List.mem_map]

theorem plainL_pos : (pos : List Expr) → PlainL pos → ∀ e ∈ pos, ∀ n v, e ≠ .namedArg n v
  | e :: pos, h, _, .head _, n, v => by rintro rfl; exact h.1
  | _ :: pos, h, _, .tail _ hm, n, v => plainL_pos pos h.2 _ hm n v

/-- With parameters of different names, each gets exactly one argument: the one with its name, or the positional one in its
place. No argument is left over, and none is for a parameter that does not exist. -/
theorem params_bound {I : GenInput} {args : List Expr} {params : List Str} (ha : ArgList args)
    (hnd : params.Nodup) (hlen : args.length = params.length) {named : List (Str × Expr)} (hn : namedArgs params args.reverse = .ok named)
    {L L' : Locals} {ns : List Str} {rs : List RExpr} (hb : bindParams I named args params 0 true L = .ok (ns, rs, L')) :
    ∃ (pos : List Expr) (nms : List (Str × Expr)) (front back : List Str), args = pos ++ nms.map asNamed
      ∧ (∀ e ∈ pos, ∀ n v, e ≠ .namedArg n v) ∧ params = front ++ back ∧ front.length = pos.length
      ∧ (nms.map (·.1)).Nodup ∧ (∀ n, n ∈ nms.map (·.1) ↔ n ∈ back) := by
  obtain ⟨pos, nms, rfl, hpl, -, hd⟩ := ha
  have hpos := plainL_pos pos hpl
  rw [List.reverse_append, ← List.map_reverse] at hn
  obtain ⟨hnm, hsub⟩ := namedArgs_split (fun e he => hpos e (List.mem_reverse.mp he)) nms.reverse hn
  rw [List.reverse_reverse] at hnm
  obtain ⟨un, nm, rfl, h1, h2, -, -⟩ := bindParams_prefix _ hb
  have hmem : ∀ p, (lastOf named p).isSome = true ↔ p ∈ nms.map (·.1) := by
    intro p
    rw [lastOf_isSome, hnm]
    simp
  have hback : ∀ n, n ∈ nms.map (·.1) ↔ n ∈ nm := by
    intro n
    constructor
    · intro h
      obtain ⟨x, hx, rfl⟩ := List.mem_map.mp h
      rcases List.mem_append.mp (hsub x (List.mem_reverse.mpr hx)) with h3 | h3
      · have := h1 _ h3
        have h4 := (hmem x.1).mpr h
        rw [this] at h4; cases h4
      · exact h3
    · intro h
      exact (hmem n).mp (h2 n h)
  have hnm2 : nm.Nodup := (List.nodup_append.mp hnd).2.1
  have hcount : nm.length = (nms.map (·.1)).length := by
    have p : List.Perm nm (nms.map (·.1)) :=
      (List.perm_ext_iff_of_nodup hnm2 hd).mpr (fun a => (hback a).symm)
    exact p.length_eq
  refine ⟨pos, nms, un, nm, rfl, hpos, rfl, ?_, hd, hback⟩
  simp at hlen hcount
  omega

end Askama
