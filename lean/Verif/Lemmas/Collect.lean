import Verif.Lemmas.Input

/-! `find_used_templates`. -/

namespace Askama

open Askama.Spec

/-! ## Errors -/

theorem addToCheck_error {ld : Loader} {st : UseSt} {q : Str} {e : GErr} (h : addToCheck ld st q = .error e) : e = .err := by
  unfold addToCheck at h
  split at h
  · cases h
  · split at h <;> cases h; rfl

theorem useNode_error {ld : Loader} {path : Str} {top : Bool} {st : UseSt} {n : Node} {e : GErr}
    (h : useNode ld path top st n = .error e) : e = .err := by
  unfold useNode at h
  repeat' split at h
  all_goals first
    | exact addToCheck_error h
    | (cases h; rfl)
    | cases h

theorem useNodes_bound {ld : Loader} {path : Str} {top : Bool} : (ns : List Node) → (st : UseSt) →
    (nested : List (List Node)) →
    match useNodes ld path top ns st nested with
    | .error e => e = .err
    | .ok (_, nested') => stackLists nested' ≤ Node.listsL ns + stackLists nested
  | [], st, nested => by simp [useNodes, Node.listsL]
  | n :: ns, st, nested => by
    simp only [useNodes]
    cases h : useNode ld path top st n with
    | error e => exact useNode_error h
    | ok st1 =>
      have ih := useNodes_bound (ld := ld) (path := path) (top := top) ns st1 (useNested top n ++ nested)
      show match useNodes ld path top ns st1 (useNested top n ++ nested) with
        | .error e => e = .err
        | .ok (_, nested') => _
      cases h2 : useNodes ld path top ns st1 (useNested top n ++ nested) with
      | error e => rw [h2] at ih; exact ih
      | ok st2 =>
        rw [h2] at ih
        rw [stackLists_append] at ih
        have := useNested_lists top n
        simp only [Node.listsL] at *
        omega

theorem useLoop_error {ld : Loader} {path : Str} : (fuel : Nat) → (top : Bool) → (nested : List (List Node)) →
    (st : UseSt) → stackLists nested ≤ fuel → ∀ e, useLoop ld path fuel top nested st = .error e → e = .err
  | 0, top, nested, st, hf, e, h => by
    unfold useLoop at h
    cases nested with
    | nil => cases h
    | cons ns rest => simp [stackLists] at hf
  | fuel + 1, top, nested, st, hf, e, h => by
    unfold useLoop at h
    cases nested with
    | nil => cases h
    | cons ns rest =>
      dsimp only at h
      have h1 := useNodes_bound (ld := ld) (path := path) (top := top) ns st rest
      cases h2 : useNodes ld path top ns st rest with
      | error e1 => rw [h2] at h h1; cases h; exact h1
      | ok r =>
        rw [h2] at h h1
        refine useLoop_error fuel false r.2 r.1 ?_ e h
        simp only [stackLists, List.map_cons, List.sum_cons] at hf h1 ⊢
        omega

theorem useTemplate_error {ld : Loader} {path src : Str} {st : UseSt} {e : GErr} (h : useTemplate ld path src st = .error e) :
    e = .err := by
  unfold useTemplate at h
  split at h
  · cases h; rfl
  · rename_i nodes _
    cases h1 : useLoop ld path (Node.listsL nodes + 1) true [nodes] st with
    | error e1 =>
      rw [h1] at h; cases h
      exact useLoop_error _ _ _ _ (by simp [stackLists]) _ h1
    | ok st1 => rw [h1] at h; cases h

/-! ## What one template adds -/

/-- Paths with an entry. -/
def Known (m : List (Str × List Node)) (p : Str) : Prop := (assoc m p).isSome = true

/-- The state after some of the references `R` of the template at `path` have been added. -/
structure Grow (ld : Loader) (path : Str) (R : List Str) (st st' : UseSt) : Prop where
  keep : ∀ p, Known st.map p → assoc st'.map p = assoc st.map p
  new : ∀ p, Known st'.map p → Known st.map p ∨ ((∃ r ∈ R, ld.find path r = some p) ∧ ∃ s, (p, s) ∈ st'.check)
  old : ∀ e ∈ st.check, e ∈ st'.check
  todo : ∀ e ∈ st'.check, e ∈ st.check ∨
    ((∃ r ∈ R, ld.find path r = some e.1) ∧ ld.source e.1 = some e.2 ∧ Known st'.map e.1)

namespace Grow

variable {ld : Loader} {path : Str} {R R' : List Str} {st st1 st2 : UseSt}

theorem refl (st : UseSt) : Grow ld path R st st := ⟨fun _ _ => rfl, fun _ h => .inl h, fun _ h => h, fun _ h => .inl h⟩

theorem known (h : Grow ld path R st st1) {p : Str} (hp : Known st.map p) : Known st1.map p := by
  unfold Known; rw [h.keep p hp]; exact hp

theorem mono (h : Grow ld path R st st1) (hR : ∀ r ∈ R, r ∈ R') : Grow ld path R' st st1 where
  keep := h.keep
  new := fun p hp => (h.new p hp).imp id fun ⟨⟨r, hr, hf⟩, hs⟩ => ⟨⟨r, hR r hr, hf⟩, hs⟩
  old := h.old
  todo := fun e he => (h.todo e he).imp id fun ⟨⟨r, hr, hf⟩, hs⟩ => ⟨⟨r, hR r hr, hf⟩, hs⟩

theorem trans (h : Grow ld path R st st1) (h' : Grow ld path R st1 st2) : Grow ld path R st st2 where
  keep := fun p hp => (h'.keep p (h.known hp)).trans (h.keep p hp)
  new := by
    intro p hp
    rcases h'.new p hp with h1 | h1
    · rcases h.new p h1 with h2 | ⟨h2, s, hs⟩
      · exact .inl h2
      · exact .inr ⟨h2, s, h'.old _ hs⟩
    · exact .inr h1
  old := fun e he => h'.old e (h.old e he)
  todo := by
    intro e he
    rcases h'.todo e he with h1 | h1
    · rcases h.todo e h1 with h2 | ⟨h2, h3, h4⟩
      · exact .inl h2
      · exact .inr ⟨h2, h3, h'.known h4⟩
    · exact .inr h1

end Grow

theorem addToCheck_grow {ld : Loader} {path r q : Str} {st st' : UseSt} (hf : ld.find path r = some q)
    (h : addToCheck ld st q = .ok st') : Grow ld path [r] st st' ∧ Known st'.map q := by
  unfold addToCheck at h
  split at h
  · rename_i hk
    cases h
    exact ⟨.refl _, hk⟩
  · rename_i hk
    split at h
    · cases h
    · rename_i src hs
      cases h
      refine ⟨⟨?_, ?_, ?_, ?_⟩, by simp [Known, assoc_cons]⟩
      · intro p hp
        rw [assoc_cons, if_neg]
        rintro rfl
        exact hk hp
      · intro p hp
        by_cases hqp : q = p
        · subst hqp
          exact .inr ⟨⟨r, by simp, hf⟩, src, by simp⟩
        · left
          unfold Known at hp ⊢
          rwa [assoc_cons, if_neg hqp] at hp
      · intro e he; exact List.mem_cons_of_mem _ he
      · intro e he
        rcases List.mem_cons.mp he with rfl | he
        · exact .inr ⟨⟨r, by simp, hf⟩, hs, by simp [Known, assoc_cons]⟩
        · exact .inl he

/-- The references of a node itself, without those of nodes inside. -/
def ownRefs (top : Bool) : Node → List Str
  | .extends_ p => if top then [p] else []
  | .import_ _ p _ => if top then [p] else []
  | .include _ p => [p]
  | _ => []

theorem useNode_grow {ld : Loader} {path : Str} {top : Bool} {st st' : UseSt} {n : Node}
    (h : useNode ld path top st n = .ok st') : Grow ld path (ownRefs top n) st st'
      ∧ ∀ r ∈ ownRefs top n, ∃ q, ld.find path r = some q ∧ Known st'.map q := by
  have key : ∀ {r q : Str} {st1 : UseSt}, st1.map = st.map → st1.check = st.check → ld.find path r = some q →
      addToCheck ld st1 q = .ok st' →
      Grow ld path [r] st st' ∧ ∀ r' ∈ [r], ∃ q, ld.find path r' = some q ∧ Known st'.map q := by
    intro r q st1 h1 h2 hf h
    obtain ⟨hg, hk⟩ := addToCheck_grow hf h
    refine ⟨⟨?_, ?_, ?_, ?_⟩, ?_⟩
    · rw [← h1]; exact hg.keep
    · rw [← h1]; exact hg.new
    · rw [← h2]; exact hg.old
    · rw [← h2]; exact hg.todo
    · intro r' hr'
      rw [List.mem_singleton] at hr'
      subst hr'
      exact ⟨q, hf, hk⟩
  cases n with
  | extends_ p =>
    cases top
    · cases h; exact ⟨.refl _, by simp [ownRefs]⟩
    · simp only [useNode, if_true] at h
      split at h
      · cases h
      · rename_i q hq
        split at h
        · cases h
        · split at h
          · cases h
          · refine key ?_ ?_ hq h <;> rfl
  | import_ w p s =>
    cases top
    · cases h; exact ⟨.refl _, by simp [ownRefs]⟩
    · simp only [useNode, if_true] at h
      split at h
      · cases h
      · rename_i q hq
        exact key rfl rfl hq h
  | «include» w p =>
    simp only [useNode] at h
    split at h
    · cases h
    · rename_i q hq
      exact key rfl rfl hq h
  | _ => cases h; exact ⟨.refl _, by simp [ownRefs]⟩

/-- All references of the lists on the stack. -/
def stackRefs (nested : List (List Node)) : List Str := nested.flatMap (refsOfL false)

theorem stackRefs_append (a b : List (List Node)) : stackRefs (a ++ b) = stackRefs a ++ stackRefs b := by
  simp [stackRefs]

theorem cond_refs : (cs : List Cond) → ∀ r, r ∈ refsOfC cs ↔ r ∈ stackRefs (cs.map Cond.nodes)
  | [], r => by simp [refsOfC, stackRefs]
  | .mk _ _ nodes :: cs, r => by
    have := cond_refs cs r
    simp only [refsOfC, stackRefs, List.map_cons, List.flatMap_cons, List.mem_append, Cond.nodes] at this ⊢
    rw [this]

theorem when_refs : (cs : List When) → ∀ r, r ∈ refsOfW cs ↔ r ∈ stackRefs (cs.map When.nodes)
  | [], r => by simp [refsOfW, stackRefs]
  | .mk _ _ nodes :: cs, r => by
    have := when_refs cs r
    simp only [refsOfW, stackRefs, List.map_cons, List.flatMap_cons, List.mem_append, When.nodes] at this ⊢
    rw [this]

theorem stackRefs_reverse (a : List (List Node)) (r : Str) : r ∈ stackRefs a.reverse ↔ r ∈ stackRefs a := by
  simp [stackRefs]

theorem node_refs (top : Bool) (n : Node) (r : Str) :
    r ∈ refsOf top n ↔ r ∈ ownRefs top n ∨ r ∈ stackRefs (useNested top n) := by
  cases n with
  | if_ w bs =>
    simp only [refsOf, useNested, ctxNested, ownRefs]
    rw [stackRefs_reverse, cond_refs]; simp
  | match_ w e arms w2 =>
    simp only [refsOf, useNested, ctxNested, ownRefs]
    rw [stackRefs_reverse, when_refs]; simp
  | loop => simp [refsOf, useNested, ctxNested, ownRefs, stackRefs, or_comm]
  | blockDef => simp [refsOf, useNested, ctxNested, ownRefs, stackRefs]
  | filterBlock => simp [refsOf, useNested, ownRefs, stackRefs]
  | «macro» => cases top <;> simp [refsOf, useNested, ownRefs, stackRefs]
  | _ => simp [refsOf, useNested, ctxNested, ownRefs, stackRefs]

theorem useNodes_grow {ld : Loader} {path : Str} {top : Bool} : (ns : List Node) → {st st' : UseSt} →
    {nested nested' : List (List Node)} → useNodes ld path top ns st nested = .ok (st', nested') →
    ∃ own, Grow ld path own st st' ∧ (∀ r ∈ own, ∃ q, ld.find path r = some q ∧ Known st'.map q)
      ∧ ∀ r, (r ∈ refsOfL top ns ∨ r ∈ stackRefs nested) ↔ (r ∈ own ∨ r ∈ stackRefs nested')
  | [], st, st', nested, nested', h => by
    simp only [useNodes, Except.ok.injEq, Prod.mk.injEq] at h
    obtain ⟨rfl, rfl⟩ := h
    exact ⟨[], .refl _, by simp, by simp [refsOfL]⟩
  | n :: ns, st, st', nested, nested', h => by
    simp only [useNodes] at h
    obtain ⟨st1, h1, h⟩ := except_bind h
    obtain ⟨g1, k1⟩ := useNode_grow h1
    obtain ⟨own, g2, k2, k3⟩ := useNodes_grow ns h
    refine ⟨ownRefs top n ++ own, (g1.mono (by simp +contextual)).trans (g2.mono (by simp +contextual)), ?_, ?_⟩
    · intro r hr
      rcases List.mem_append.mp hr with hr | hr
      · obtain ⟨q, hq, hk⟩ := k1 r hr
        exact ⟨q, hq, g2.known hk⟩
      · exact k2 r hr
    · intro r
      have := k3 r
      simp only [refsOfL, List.mem_append, stackRefs_append, node_refs] at this ⊢
      grind

theorem useLoop_grow {ld : Loader} {path : Str} : (fuel : Nat) → {top : Bool} → {nested : List (List Node)} →
    {st st' : UseSt} → useLoop ld path fuel top nested st = .ok st' → {R : List Str} →
    (∀ r, r ∈ R ↔ match nested with | [] => False | ns :: rest => r ∈ refsOfL top ns ∨ r ∈ stackRefs rest) →
    Grow ld path R st st' ∧ ∀ r ∈ R, ∃ q, ld.find path r = some q ∧ Known st'.map q
  | 0, top, nested, st, st', h, R, hR => by
    unfold useLoop at h
    cases nested with
    | nil => cases h; exact ⟨.refl _, fun r hr => ((hR r).mp hr).elim⟩
    | cons ns rest => cases h
  | fuel + 1, top, nested, st, st', h, R, hR => by
    unfold useLoop at h
    cases nested with
    | nil => cases h; exact ⟨.refl _, fun r hr => ((hR r).mp hr).elim⟩
    | cons ns rest =>
      dsimp only at h hR
      obtain ⟨⟨st1, nested1⟩, h1, h⟩ := except_bind h
      obtain ⟨own, g1, k1, k2⟩ := useNodes_grow ns h1
      obtain ⟨g2, k3⟩ := useLoop_grow fuel h (R := stackRefs nested1) (by
        intro r
        cases nested1 with
        | nil => simp [stackRefs]
        | cons a b => simp [stackRefs])
      refine ⟨(g1.mono ?_).trans (g2.mono ?_), ?_⟩
      · intro r hr; exact (hR r).mpr ((k2 r).mpr (.inl hr))
      · intro r hr; exact (hR r).mpr ((k2 r).mpr (.inr hr))
      · intro r hr
        rcases (k2 r).mp ((hR r).mp hr) with hr | hr
        · obtain ⟨q, hq, hk⟩ := k1 r hr
          exact ⟨q, hq, g2.known hk⟩
        · exact k3 r hr

theorem useNodes_self {ld : Loader} {path : Str} : (ns : List Node) → {st : UseSt} → {nested : List (List Node)} →
    {r : UseSt × List (List Node)} → useNodes ld path true ns st nested = .ok r →
    ∀ p, .extends_ p ∈ ns → ld.find path p ≠ some path
  | [], _, _, _, _, p, hp => by cases hp
  | n :: ns, st, _, _, h, p, hp => by
    simp only [useNodes] at h
    obtain ⟨st1, h1, h⟩ := except_bind h
    rcases List.mem_cons.mp hp with rfl | hp
    · intro hf
      simp [useNode, hf] at h1
    · exact useNodes_self ns h p hp

theorem useLoop_self {ld : Loader} {path : Str} {fuel : Nat} {ns : List Node} {st st' : UseSt}
    (h : useLoop ld path fuel true [ns] st = .ok st') : ∀ p, .extends_ p ∈ ns → ld.find path p ≠ some path := by
  unfold useLoop at h
  cases fuel with
  | zero => cases h
  | succ fuel =>
    obtain ⟨r, h1, h⟩ := except_bind h
    exact useNodes_self ns h1

/-! ## All templates -/

theorem known_cons {m : List (Str × List Node)} {k p : Str} {v : List Node} :
    Known ((k, v) :: m) p ↔ k = p ∨ Known m p := by
  unfold Known
  rw [assoc_cons]
  by_cases h : k = p <;> simp [h]

/-- What holds before each round of the outer loop. -/
structure Collected (ld : Loader) (main src : Str) (st : UseSt) : Prop where
  todo : ∀ e ∈ st.check, Reachable ld main src e.1 ∧ ld.parse e.2 = parsed ld main src e.1
  reach : ∀ p, Known st.map p → Reachable ld main src p
  done : ∀ p, Known st.map p → (∃ s, (p, s) ∈ st.check) ∨ ∃ nodes, parsed ld main src p = some nodes
    ∧ assoc st.map p = some nodes ∧ (∀ r ∈ refsOfL true nodes, ∃ q, ld.find p r = some q ∧ Known st.map q)
    ∧ ∀ r, .extends_ r ∈ nodes → ld.find p r ≠ some p
  main : Known st.map main ∨ ∃ s, (main, s) ∈ st.check

theorem useTemplate_collected {ld : Loader} {main src path s : Str} {st st' : UseSt} {rest : List (Str × Str)}
    (hm : ∀ p r, ld.find p r = some main → ld.source main = some src) (hc : st.check = (path, s) :: rest)
    (inv : Collected ld main src st) (h : useTemplate ld path s { st with check := rest } = .ok st') :
    Collected ld main src st' := by
  unfold useTemplate at h
  split at h
  · cases h
  · rename_i nodes hp
    obtain ⟨st1, h1, h⟩ := except_bind h
    cases h
    obtain ⟨g, k⟩ := useLoop_grow _ h1 (R := refsOfL true nodes) (by simp [stackRefs])
    obtain ⟨hr, hpp⟩ := inv.todo (path, s) (by rw [hc]; simp)
    dsimp only at hr hpp
    rw [hp] at hpp
    have hfind : ∀ q, (∃ r ∈ refsOfL true nodes, ld.find path r = some q) → Reachable ld main src q :=
      fun q ⟨r, hrn, hf⟩ => .step hr hpp.symm hrn hf
    refine ⟨?_, ?_, ?_, ?_⟩
    · intro e he
      rcases g.todo e he with h2 | ⟨h2, h3, -⟩
      · exact inv.todo e (by rw [hc]; exact List.mem_cons_of_mem _ h2)
      · refine ⟨hfind _ h2, ?_⟩
        unfold parsed
        by_cases hem : e.1 = main
        · obtain ⟨r, -, hf⟩ := h2
          rw [if_pos hem]
          rw [hem] at hf h3
          rw [hm _ _ hf] at h3
          cases h3; rfl
        · rw [if_neg hem, h3]; rfl
    · intro p hk
      rcases known_cons.mp hk with rfl | hk
      · exact hr
      · rcases g.new p hk with h2 | ⟨h2, -⟩
        · exact inv.reach p h2
        · exact hfind p h2
    · intro p hk
      by_cases hpath : path = p
      · subst hpath
        right
        refine ⟨nodes, hpp.symm, by rw [assoc_cons, if_pos rfl], ?_, useLoop_self h1⟩
        intro r hrn
        obtain ⟨q, hq, hkq⟩ := k r hrn
        exact ⟨q, hq, known_cons.mpr (.inr hkq)⟩
      · have hk1 : Known st1.map p := (known_cons.mp hk).resolve_left hpath
        rcases g.new p hk1 with h2 | ⟨-, h2⟩
        · rcases inv.done p h2 with ⟨s', hs'⟩ | ⟨ns, hd1, hd2, hd3, hd4⟩
          · left
            rw [hc] at hs'
            rcases List.mem_cons.mp hs' with hs' | hs'
            · cases hs'; exact absurd rfl hpath
            · exact ⟨s', g.old _ hs'⟩
          · right
            refine ⟨ns, hd1, ?_, ?_, hd4⟩
            · rw [assoc_cons, if_neg hpath, g.keep p h2]; exact hd2
            · intro r hrn
              obtain ⟨q, hq, hkq⟩ := hd3 r hrn
              exact ⟨q, hq, known_cons.mpr (.inr (g.known hkq))⟩
        · exact .inl h2
    · rcases inv.main with h2 | ⟨s', hs'⟩
      · exact .inl (known_cons.mpr (.inr (g.known h2)))
      · rw [hc] at hs'
        rcases List.mem_cons.mp hs' with hs' | hs'
        · cases hs'; exact .inl (known_cons.mpr (.inl rfl))
        · exact .inr ⟨s', g.old _ hs'⟩

/-- The templates in the end. -/
structure AllCollected (ld : Loader) (main src : Str) (m : List (Str × List Node)) : Prop where
  keys : ∀ p, (assoc m p).isSome = true ↔ Reachable ld main src p
  nodes : ∀ p, Reachable ld main src p → assoc m p = parsed ld main src p
  refs : ∀ p nodes, assoc m p = some nodes → ∀ r ∈ refsOfL true nodes, ∃ q, ld.find p r = some q ∧ (assoc m q).isSome = true
  noSelf : ∀ p nodes, assoc m p = some nodes → ∀ r, .extends_ r ∈ nodes → ld.find p r ≠ some p

theorem Collected.all {ld : Loader} {main src : Str} {st : UseSt} (inv : Collected ld main src st) (hc : st.check = []) :
    AllCollected ld main src st.map := by
  have done : ∀ p, Known st.map p → ∃ nodes, parsed ld main src p = some nodes
      ∧ assoc st.map p = some nodes ∧ (∀ r ∈ refsOfL true nodes, ∃ q, ld.find p r = some q ∧ Known st.map q)
      ∧ ∀ r, .extends_ r ∈ nodes → ld.find p r ≠ some p := by
    intro p hp
    rcases inv.done p hp with ⟨s, hs⟩ | h
    · rw [hc] at hs; cases hs
    · exact h
  have hr : ∀ p, Reachable ld main src p → Known st.map p := by
    intro p hp
    induction hp with
    | main =>
      rcases inv.main with h | ⟨s, hs⟩
      · exact h
      · rw [hc] at hs; cases hs
    | step _ hpn hrn hf ih =>
      obtain ⟨nodes, h1, -, h3, -⟩ := done _ ih
      rw [hpn] at h1; cases h1
      obtain ⟨q, hq, hk⟩ := h3 _ hrn
      rw [hf] at hq; cases hq
      exact hk
  refine ⟨fun p => ⟨inv.reach p, hr p⟩, ?_, ?_, ?_⟩
  · intro p hp
    obtain ⟨nodes, h1, h2, -⟩ := done p (hr p hp)
    rw [h1, h2]
  · intro p nodes hp r hrn
    obtain ⟨nodes', -, h2, h3, -⟩ := done p (by unfold Known; rw [hp]; rfl)
    rw [hp] at h2; cases h2
    exact h3 r hrn
  · intro p nodes hp
    obtain ⟨nodes', -, h2, -, h3⟩ := done p (by unfold Known; rw [hp]; rfl)
    rw [hp] at h2; cases h2
    exact h3

theorem checkLoop_all {ld : Loader} {main src : Str} (hm : ∀ p r, ld.find p r = some main → ld.source main = some src) :
    (fuel : Nat) → {st : UseSt} → {m : List (Str × List Node)} → Collected ld main src st →
    checkLoop ld fuel st = .ok m → AllCollected ld main src m
  | fuel, st, m, inv, h => by
    unfold checkLoop at h
    cases hc : st.check with
    | nil => rw [hc] at h; cases h; exact inv.all hc
    | cons e rest =>
      obtain ⟨path, s⟩ := e
      rw [hc] at h
      cases fuel with
      | zero => cases h
      | succ fuel =>
        obtain ⟨st1, h1, h⟩ := except_bind h
        exact checkLoop_all hm fuel (useTemplate_collected hm hc inv h1) h

theorem findUsedTemplates_all {ld : Loader} {main src : Str} (hm : ∀ p r, ld.find p r = some main → ld.source main = some src)
    {fuel : Nat} {m : List (Str × List Node)} (h : findUsedTemplates ld fuel main src = .ok m) :
    AllCollected ld main src m := by
  refine checkLoop_all hm fuel ⟨?_, ?_, ?_, ?_⟩ h
  · intro e he
    rw [List.mem_singleton] at he
    subst he
    exact ⟨.main, by simp [parsed]⟩
  · intro p hp; cases hp
  · intro p hp; cases hp
  · exact .inr ⟨src, by simp⟩

/-! ## Termination -/

/-- How many templates are still to be visited at most. -/
def left (dom : List Str) (st : UseSt) : Nat := (dom.filter fun p => (assoc st.map p).isNone).length + st.check.length

theorem filter_length_lt {α : Type} {f g : α → Bool} {l : List α} (hfg : ∀ x ∈ l, f x = true → g x = true) {a : α}
    (ha : a ∈ l) (hg : g a = true) (hf : f a = false) : (l.filter f).length < (l.filter g).length := by
  induction l with
  | nil => cases ha
  | cons x l ih =>
    have h1 : (l.filter f).length ≤ (l.filter g).length := by
      clear ih ha
      induction l with
      | nil => exact Nat.le_refl _
      | cons y l ih =>
        have ih := ih fun z hz => hfg z (by rcases List.mem_cons.mp hz with rfl | hz <;> simp_all)
        have hy := hfg y (by simp)
        by_cases h : f y = true
        · rw [List.filter_cons_of_pos h, List.filter_cons_of_pos (hy h)]; simpa using ih
        · rw [List.filter_cons_of_neg h]
          by_cases h' : g y = true
          · rw [List.filter_cons_of_pos h', List.length_cons]; omega
          · rw [List.filter_cons_of_neg h']; exact ih
    rcases List.mem_cons.mp ha with rfl | ha
    · rw [List.filter_cons_of_neg (by simp [hf]), List.filter_cons_of_pos hg, List.length_cons]; omega
    · have ih := ih (fun z hz => hfg z (List.mem_cons_of_mem _ hz)) ha
      have hx := hfg x (by simp)
      by_cases h : f x = true
      · rw [List.filter_cons_of_pos h, List.filter_cons_of_pos (hx h)]; simpa using ih
      · rw [List.filter_cons_of_neg h]
        by_cases h' : g x = true
        · rw [List.filter_cons_of_pos h', List.length_cons]; omega
        · rw [List.filter_cons_of_neg h']; exact ih

theorem addToCheck_left {ld : Loader} {dom : List Str} {st st' : UseSt} {q : Str} (hq : q ∈ dom)
    (h : addToCheck ld st q = .ok st') : left dom st' ≤ left dom st := by
  unfold addToCheck at h
  split at h
  · cases h; exact Nat.le_refl _
  · rename_i hk
    split at h
    · cases h
    · cases h
      unfold left
      have := filter_length_lt (f := fun p => (assoc ((q, []) :: st.map) p).isNone)
        (g := fun p => (assoc st.map p).isNone) (l := dom) (by
          intro x _ hx
          rw [assoc_cons] at hx
          split at hx
          · cases hx
          · exact hx) hq (by simpa using hk) (by simp [assoc_cons])
      simp only [List.length_cons]
      omega

theorem useNode_left {ld : Loader} {dom : List Str} (hd : ∀ p r q, ld.find p r = some q → q ∈ dom) {path : Str} {top : Bool}
    {st st' : UseSt} {n : Node} (h : useNode ld path top st n = .ok st') : left dom st' ≤ left dom st := by
  unfold useNode at h
  repeat' split at h
  all_goals first
    | (cases h; exact Nat.le_refl _)
    | (cases h; done)
    | (rename_i hq; exact addToCheck_left (hd _ _ _ hq) h)
    | (rename_i hq _ _
       have := addToCheck_left (hd _ _ _ hq) h
       exact this)

theorem useNodes_left {ld : Loader} {dom : List Str} (hd : ∀ p r q, ld.find p r = some q → q ∈ dom) {path : Str} {top : Bool} :
    (ns : List Node) → {st : UseSt} → {nested : List (List Node)} → {r : UseSt × List (List Node)} →
    useNodes ld path top ns st nested = .ok r → left dom r.1 ≤ left dom st
  | [], _, _, _, h => by cases h; exact Nat.le_refl _
  | n :: ns, _, _, _, h => by
    simp only [useNodes] at h
    obtain ⟨st1, h1, h⟩ := except_bind h
    exact Nat.le_trans (useNodes_left hd ns h) (useNode_left hd h1)

theorem useLoop_left {ld : Loader} {dom : List Str} (hd : ∀ p r q, ld.find p r = some q → q ∈ dom) {path : Str} :
    (fuel : Nat) → {top : Bool} → {nested : List (List Node)} → {st st' : UseSt} →
    useLoop ld path fuel top nested st = .ok st' → left dom st' ≤ left dom st
  | fuel, top, nested, st, st', h => by
    unfold useLoop at h
    cases nested with
    | nil => cases h; exact Nat.le_refl _
    | cons ns rest =>
      cases fuel with
      | zero => cases h
      | succ fuel =>
        obtain ⟨r, h1, h⟩ := except_bind h
        exact Nat.le_trans (useLoop_left hd fuel h) (useNodes_left hd ns h1)

theorem useTemplate_left {ld : Loader} {dom : List Str} (hd : ∀ p r q, ld.find p r = some q → q ∈ dom) {path src : Str}
    {st st' : UseSt} (h : useTemplate ld path src st = .ok st') : left dom st' ≤ left dom st := by
  unfold useTemplate at h
  split at h
  · cases h
  · rename_i nodes _
    obtain ⟨st1, h1, h⟩ := except_bind h
    cases h
    refine Nat.le_trans ?_ (useLoop_left hd _ h1)
    unfold left
    have : ∀ l : List Str, (l.filter fun p => (assoc ((path, nodes) :: st1.map) p).isNone).length
        ≤ (l.filter fun p => (assoc st1.map p).isNone).length := by
      intro l
      rw [← List.countP_eq_length_filter, ← List.countP_eq_length_filter]
      refine List.countP_mono_left fun x _ hx => ?_
      rw [assoc_cons] at hx
      split at hx
      · cases hx
      · exact hx
    have := this dom
    dsimp only
    omega

theorem checkLoop_error {ld : Loader} {dom : List Str} (hd : ∀ p r q, ld.find p r = some q → q ∈ dom) :
    (fuel : Nat) → {st : UseSt} → left dom st ≤ fuel → {e : GErr} → checkLoop ld fuel st = .error e → e = .err
  | fuel, st, hf, e, h => by
    unfold checkLoop at h
    cases hc : st.check with
    | nil => rw [hc] at h; cases h
    | cons x rest =>
      obtain ⟨path, s⟩ := x
      rw [hc] at h
      cases fuel with
      | zero => unfold left at hf; rw [hc] at hf; simp at hf
      | succ fuel =>
        dsimp only at h
        cases h1 : useTemplate ld path s { st with check := rest } with
        | error e1 => rw [h1] at h; cases h; exact useTemplate_error h1
        | ok st1 =>
          rw [h1] at h
          have hl := useTemplate_left hd h1
          refine checkLoop_error hd fuel ?_ h
          unfold left at hl hf ⊢
          rw [hc] at hf
          simp only [List.length_cons] at hf hl
          omega

theorem findUsedTemplates_error {ld : Loader} {dom : List Str} (hd : ∀ p r q, ld.find p r = some q → q ∈ dom)
    {fuel : Nat} (hf : dom.length + 1 ≤ fuel) {main src : Str} {e : GErr}
    (h : findUsedTemplates ld fuel main src = .error e) : e = .err := by
  refine checkLoop_error hd fuel ?_ h
  unfold left
  have := List.length_filter_le (fun p => (assoc ([] : List (Str × List Node)) p).isNone) dom
  simp only [List.length_cons, List.length_nil]
  omega

end Askama
