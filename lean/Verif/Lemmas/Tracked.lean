import Verif.Lemmas.Collect
import Verif.Lemmas.NoPanic
import Verif.Model.Derive

/-! The collection of templates reads no other files than those of the templates it returns. -/

namespace Askama

/-- The loaders agree, and they read the same from the files of these templates. -/
structure SameSources (ld ld' : Loader) (m : List (Str × List Node)) : Prop where
  find : ld'.find = ld.find
  parse : ld'.parse = ld.parse
  source : ∀ p r q, ld.find p r = some q → Known m q → ld'.source q = ld.source q

theorem SameSources.of {ld ld' : Loader} {m m' : List (Str × List Node)} (h : SameSources ld ld' m)
    (hk : ∀ q, Known m' q → Known m q) : SameSources ld ld' m' :=
  ⟨h.find, h.parse, fun p r q h1 h2 => h.source p r q h1 (hk q h2)⟩

theorem addToCheck_tracked {ld ld' : Loader} {st st' : UseSt} {p r q : Str} (hf : ld.find p r = some q)
    (h : addToCheck ld st q = .ok st') (hs : SameSources ld ld' st'.map) : addToCheck ld' st q = .ok st' := by
  have hk := (addToCheck_grow hf h).2
  unfold addToCheck at h ⊢
  rw [hs.source p r q hf hk]
  exact h

theorem useNode_tracked {ld ld' : Loader} {path : Str} {top : Bool} {st st' : UseSt} {n : Node}
    (h : useNode ld path top st n = .ok st') (hs : SameSources ld ld' st'.map) : useNode ld' path top st n = .ok st' := by
  unfold useNode at h ⊢
  rw [hs.find]
  split at h
  · split at h
    · split at h
      · cases h
      · rename_i q hf
        split at h
        · cases h
        · rename_i h1
          split at h
          · cases h
          · rename_i h2
            simp only [*, if_true]
            exact addToCheck_tracked hf h hs
    · rename_i ht
      rw [if_neg ht]; exact h
  · split at h
    · split at h
      · cases h
      · rename_i q hf
        simp only [*, if_true]
        exact addToCheck_tracked hf h hs
    · rename_i ht
      rw [if_neg ht]; exact h
  · split at h
    · cases h
    · rename_i q hf
      exact addToCheck_tracked hf h hs
  · exact h

theorem useNodes_tracked {ld ld' : Loader} {path : Str} {top : Bool} : (ns : List Node) → {st st' : UseSt} →
    {nested nested' : List (List Node)} → useNodes ld path top ns st nested = .ok (st', nested') →
    SameSources ld ld' st'.map → useNodes ld' path top ns st nested = .ok (st', nested')
  | [], st, st', nested, nested', h, _ => h
  | n :: ns, st, st', nested, nested', h, hs => by
    simp only [useNodes] at h ⊢
    obtain ⟨st1, h1, h⟩ := except_bind h
    obtain ⟨own, g, -⟩ := useNodes_grow ns h
    rw [useNode_tracked h1 (hs.of fun q hq => g.known hq)]
    exact useNodes_tracked ns h hs

theorem useLoop_tracked {ld ld' : Loader} {path : Str} : (fuel : Nat) → {top : Bool} → {nested : List (List Node)} →
    {st st' : UseSt} → useLoop ld path fuel top nested st = .ok st' → SameSources ld ld' st'.map →
    useLoop ld' path fuel top nested st = .ok st'
  | 0, top, nested, st, st', h, _ => by
    unfold useLoop at h ⊢
    cases nested with
    | nil => exact h
    | cons ns rest => cases h
  | fuel + 1, top, nested, st, st', h, hs => by
    unfold useLoop at h ⊢
    cases nested with
    | nil => exact h
    | cons ns rest =>
      obtain ⟨⟨st1, nested1⟩, h1, h⟩ := except_bind h
      obtain ⟨g, -⟩ := useLoop_grow fuel h (R := stackRefs nested1) (by
        intro r; cases nested1 <;> simp [stackRefs])
      dsimp only
      rw [useNodes_tracked ns h1 (hs.of fun q hq => g.known hq)]
      exact useLoop_tracked fuel h hs

theorem useTemplate_tracked {ld ld' : Loader} {path src : Str} {st st' : UseSt}
    (h : useTemplate ld path src st = .ok st') (hs : SameSources ld ld' st'.map) : useTemplate ld' path src st = .ok st' := by
  unfold useTemplate at h ⊢
  rw [hs.parse]
  split at h
  · cases h
  · obtain ⟨st1, h1, h⟩ := except_bind h
    cases h
    rw [useLoop_tracked _ h1 (hs.of fun q hq => known_cons.2 (.inr hq))]
    rfl

theorem useTemplate_keeps {ld : Loader} {path src : Str} {st st' : UseSt} (h : useTemplate ld path src st = .ok st')
    {q : Str} (hq : Known st.map q) : Known st'.map q := by
  unfold useTemplate at h
  split at h
  · cases h
  · rename_i nodes _
    obtain ⟨st1, h1, h⟩ := except_bind h
    cases h
    obtain ⟨g, -⟩ := useLoop_grow _ h1 (R := Spec.refsOfL true nodes) (by simp [stackRefs])
    exact known_cons.2 (.inr (g.known hq))

theorem checkLoop_keeps {ld : Loader} : (fuel : Nat) → {st : UseSt} → {m : List (Str × List Node)} →
    checkLoop ld fuel st = .ok m → {q : Str} → Known st.map q → Known m q
  | fuel, st, m, h, q, hq => by
    unfold checkLoop at h
    cases hc : st.check with
    | nil => rw [hc] at h; cases h; exact hq
    | cons e rest =>
      obtain ⟨path, s⟩ := e
      rw [hc] at h
      cases fuel with
      | zero => cases h
      | succ fuel =>
        obtain ⟨st1, h1, h⟩ := except_bind h
        exact checkLoop_keeps fuel h (useTemplate_keeps h1 hq)

theorem checkLoop_tracked {ld ld' : Loader} : (fuel : Nat) → {st : UseSt} → {m : List (Str × List Node)} →
    checkLoop ld fuel st = .ok m → SameSources ld ld' m → checkLoop ld' fuel st = .ok m
  | fuel, st, m, h, hs => by
    unfold checkLoop at h ⊢
    cases hc : st.check with
    | nil => rw [hc] at h; exact h
    | cons e rest =>
      obtain ⟨path, s⟩ := e
      rw [hc] at h
      cases fuel with
      | zero => cases h
      | succ fuel =>
        obtain ⟨st1, h1, h⟩ := except_bind h
        dsimp only
        rw [useTemplate_tracked h1 (hs.of fun q hq => checkLoop_keeps fuel h hq)]
        exact checkLoop_tracked fuel h hs

/-- The path is that of the main template, or it was found. -/
def IsFound (ld : Loader) (main q : Str) : Prop := q = main ∨ ∃ p r, ld.find p r = some q

theorem checkLoop_found {ld : Loader} {main : Str} : (fuel : Nat) → {st : UseSt} → {m : List (Str × List Node)} →
    checkLoop ld fuel st = .ok m → (∀ q, Known st.map q → IsFound ld main q) → (∀ e ∈ st.check, IsFound ld main e.1) →
    ∀ q, Known m q → IsFound ld main q
  | fuel, st, m, h, h1, h2 => by
    unfold checkLoop at h
    cases hc : st.check with
    | nil => rw [hc] at h; cases h; exact h1
    | cons e rest =>
      obtain ⟨path, s⟩ := e
      rw [hc] at h h2
      cases fuel with
      | zero => cases h
      | succ fuel =>
        obtain ⟨st1, h3, h⟩ := except_bind h
        unfold useTemplate at h3
        split at h3
        · cases h3
        · rename_i nodes _
          obtain ⟨st2, h4, h3⟩ := except_bind h3
          cases h3
          obtain ⟨g, -⟩ := useLoop_grow _ h4 (R := Spec.refsOfL true nodes) (by simp [stackRefs])
          refine checkLoop_found fuel h ?_ ?_
          · intro q hq
            rcases known_cons.1 hq with rfl | hq
            · exact h2 _ List.mem_cons_self
            · rcases g.new q hq with hq | ⟨⟨r, -, hr⟩, -⟩
              · exact h1 q hq
              · exact .inr ⟨_, r, hr⟩
          · intro e he
            rcases g.todo e he with he | ⟨⟨r, -, hr⟩, -, -⟩
            · exact h2 e (List.mem_cons_of_mem _ he)
            · exact .inr ⟨_, r, hr⟩

end Askama
