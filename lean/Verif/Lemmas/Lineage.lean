import Verif.Lemmas.Collect

/-! The contexts of the collected templates, and the chain of `extends`. -/

namespace Askama

open Askama.Spec Askama.Gen

/-! ## Contexts refer to collected templates -/

/-- The paths in a context are those of references. -/
def RefsFrom (find : Str → Option Str) (R : List Str) (ex : Option Str) (imports : List (Str × Str)) : Prop :=
  (∀ q, ex = some q → ∃ r ∈ R, find r = some q) ∧ (∀ e ∈ imports, ∃ r ∈ R, find r = some e.2)

theorem ctxNode_refs {find : Str → Option Str} {top : Bool} {st st' : CtxSt} {n : Node} {R : List Str}
    (h : ctxNode find top st n = .ok st') (hR : top = true → ∀ r ∈ ownRefs true n, r ∈ R)
    (hp : RefsFrom find R st.extends_ st.imports) : RefsFrom find R st'.extends_ st'.imports := by
  cases n with
  | extends_ p =>
    cases top
    · cases h
    · simp only [ctxNode, if_true] at h
      repeat' split at h
      · cases h
      · rename_i q hq
        cases h
        refine ⟨fun q' hq' => ?_, hp.2⟩
        cases hq'
        exact ⟨p, hR rfl p (by simp [ownRefs]), hq⟩
      · cases h
  | import_ w p s =>
    cases top
    · cases h
    · simp only [ctxNode, if_true] at h
      split at h
      · rename_i q hq
        cases h
        refine ⟨hp.1, fun e he => ?_⟩
        rcases List.mem_cons.mp he with rfl | he
        · exact ⟨p, hR rfl p (by simp [ownRefs]), hq⟩
        · exact hp.2 e (List.mem_filter.mp he).1
      · cases h
  | «macro» =>
    cases top
    · cases h
    · cases h; exact hp
  | _ => cases h; exact hp

theorem ctxNodes_refs {find : Str → Option Str} {top : Bool} {R : List Str} : (ns : List Node) → {st st' : CtxSt} →
    ctxNodes find top ns st = .ok st' → (top = true → ∀ r ∈ refsOfL true ns, r ∈ R) →
    RefsFrom find R st.extends_ st.imports → RefsFrom find R st'.extends_ st'.imports
  | [], _, _, h, _, hp => by cases h; exact hp
  | n :: ns, _, _, h, hR, hp => by
    unfold ctxNodes at h
    obtain ⟨st1, h1, h⟩ := except_bind h
    refine ctxNodes_refs ns h (fun ht r hr => hR ht r ?_) (ctxNode_refs h1 (fun ht r hr => hR ht r ?_) hp)
    · simp [refsOfL, hr]
    · simp only [refsOfL, List.mem_append, node_refs]; exact .inl (.inl hr)

theorem ctxLoop_refs {find : Str → Option Str} {R : List Str} : (fuel : Nat) → {top : Bool} → {st st' : CtxSt} →
    ctxLoop find fuel top st = .ok st' → (top = true → ∃ ns, st.nested = [ns] ∧ ∀ r ∈ refsOfL true ns, r ∈ R) →
    RefsFrom find R st.extends_ st.imports → RefsFrom find R st'.extends_ st'.imports
  | fuel, top, st, st', h, hR, hp => by
    unfold ctxLoop at h
    split at h
    · cases h; exact hp
    · rename_i ns rest hn
      cases fuel with
      | zero => cases h
      | succ fuel =>
        dsimp only at h
        obtain ⟨st1, h1, h⟩ := except_bind h
        refine ctxLoop_refs fuel h (by intro h; cases h) (ctxNodes_refs ns h1 ?_ hp)
        intro ht r hr
        obtain ⟨ns', h2, h3⟩ := hR ht
        rw [hn] at h2; cases h2
        exact h3 r hr

theorem contextNew_refs {find : Str → Option Str} {nodes : List Node} {c : Ctx} (h : contextNew find nodes = .ok c) :
    RefsFrom find (refsOfL true nodes) c.extends_ c.imports ∧ c.nodes = nodes := by
  unfold contextNew at h
  obtain ⟨st, h1, h⟩ := except_bind h
  cases h
  refine ⟨ctxLoop_refs _ h1 (fun _ => ⟨nodes, rfl, fun _ h => h⟩) ⟨?_, ?_⟩, rfl⟩
  · intro q hq; cases hq
  · intro e he; cases he

theorem assoc_dedup {α : Type} : (m : List (Str × α)) → (seen : List Str) → (p : Str) →
    assoc (dedupKeys m seen) p = if p ∈ seen then none else assoc m p
  | [], seen, p => by simp [dedupKeys, assoc]
  | (k, v) :: rest, seen, p => by
    unfold dedupKeys
    by_cases hk : seen.contains k = true
    · rw [if_pos hk, assoc_dedup rest seen p, assoc_cons]
      by_cases hp : p ∈ seen
      · simp [hp]
      · have : k ≠ p := by rintro rfl; exact hp (by simpa using hk)
        simp [hp, this]
    · rw [if_neg hk, assoc_cons, assoc_dedup rest (k :: seen) p, assoc_cons]
      by_cases hkp : k = p
      · subst hkp
        simp_all
      · have : p ≠ k := fun h => hkp h.symm
        simp [hkp, this]

/-- All contexts of a template. -/
theorem contexts_refs {ld : Loader} {main src : Str} {m : List (Str × List Node)} (hm : AllCollected ld main src m)
    {cs : List (Str × Ctx)} (h : makeContexts ld.find (dedupKeys m []) = .ok cs) {p : Str} {c : Ctx}
    (hp : assoc cs p = some c) : Reachable ld main src p ∧ (parsed ld main src p = some c.nodes)
      ∧ contextNew (ld.find p) c.nodes = .ok c := by
  obtain ⟨nodes, h1, h2⟩ := makeContexts_assoc h hp
  rw [assoc_dedup] at h1
  simp only [List.not_mem_nil, if_false] at h1
  have hr := (hm.keys p).mp (by rw [h1]; rfl)
  have hn := (contextNew_refs h2).2
  rw [hn]
  refine ⟨hr, ?_, h2⟩
  rw [← hm.nodes p hr, h1]

theorem assoc_isSome {α : Type} {m : List (Str × α)} {p : Str} : (assoc m p).isSome = true ↔ p ∈ m.map (·.1) := by
  induction m with
  | nil => simp [assoc]
  | cons e m ih =>
    obtain ⟨k, v⟩ := e
    rw [assoc_cons]
    by_cases h : k = p
    · simp [h]
    · rw [if_neg h, ih]
      have : p ≠ k := fun h' => h h'.symm
      simp [this]

theorem contexts_some {ld : Loader} {main src : Str} {m : List (Str × List Node)} (hm : AllCollected ld main src m)
    {cs : List (Str × Ctx)} (h : makeContexts ld.find (dedupKeys m []) = .ok cs) (p : Str) :
    (assoc cs p).isSome = true ↔ Reachable ld main src p := by
  rw [← hm.keys p, assoc_isSome, makeContexts_keys h, ← assoc_isSome, assoc_dedup]
  simp

/-! ## The chain of `extends` -/

theorem ancestor_add (contexts : List (Str × Ctx)) : (a b : Nat) → (c : Ctx) →
    ancestor contexts (a + b) c = (ancestor contexts a c).bind (ancestor contexts b)
  | 0, b, c => by simp [ancestor]
  | a + 1, b, c => by
    rw [show a + 1 + b = (a + b) + 1 by omega]
    simp only [ancestor]
    cases c.extends_.bind (assoc contexts) with
    | none => rfl
    | some p => exact ancestor_add contexts a b p

theorem ancestor_le {contexts : List (Str × Ctx)} {a b : Nat} {c : Ctx} (h : a ≤ b)
    (hb : (ancestor contexts b c).isSome = true) : (ancestor contexts a c).isSome = true := by
  obtain ⟨k, rfl⟩ := Nat.exists_eq_add_of_le h
  rw [ancestor_add] at hb
  cases ha : ancestor contexts a c with
  | none => rw [ha] at hb; cases hb
  | some p => rfl

theorem heritageChain_diverge (contexts : List (Str × Ctx)) : (fuel : Nat) → (c : Ctx) →
    heritageChain contexts fuel c = .error .diverge ↔ (ancestor contexts fuel c).isSome = true
  | 0, c => by simp [heritageChain, ancestor]
  | fuel + 1, c => by
    unfold heritageChain
    simp only [ancestor]
    cases c.extends_ with
    | none => simp
    | some path =>
      simp only [Option.bind_some]
      cases assoc contexts path with
      | none => simp
      | some p =>
        have ih := heritageChain_diverge contexts fuel p
        simp only [Option.bind_some]
        rw [← ih]
        cases heritageChain contexts fuel p with
        | error e => exact Iff.rfl
        | ok l => exact ⟨fun h => (by cases h), fun h => (by cases h)⟩

theorem nodup_length {l m : List Str} (hn : l.Nodup) (hs : ∀ x ∈ l, x ∈ m) : l.length ≤ m.length := by
  induction l generalizing m with
  | nil => simp
  | cons a l ih =>
    rw [List.nodup_cons] at hn
    have ha : a ∈ m := hs a (by simp)
    have := ih hn.2 (m := m.erase a) (by
      intro x hx
      rw [List.mem_erase_of_ne (by rintro rfl; exact hn.1 hx)]
      exact hs x (by simp [hx]))
    rw [List.length_erase_of_mem ha] at this
    have := List.length_pos_of_mem ha
    simp only [List.length_cons]
    omega

/-- A chain of more than `contexts.length` references never ends. -/
theorem ancestor_forever {contexts : List (Str × Ctx)} {c : Ctx}
    (h : (ancestor contexts (contexts.length + 1) c).isSome = true) (n : Nat) : (ancestor contexts n c).isSome = true := by
  -- the paths along the chain
  let path : Nat → Str := fun i => ((ancestor contexts i c).bind (·.extends_)).getD []
  have hstep : ∀ i, i ≤ contexts.length → ancestor contexts (i + 1) c = assoc contexts (path i)
      ∧ (assoc contexts (path i)).isSome = true := by
    intro i hi
    have hs : (ancestor contexts (i + 1) c).isSome = true := ancestor_le (by omega) h
    rw [ancestor_add] at hs ⊢
    cases ha : ancestor contexts i c with
    | none => rw [ha] at hs; cases hs
    | some d =>
      rw [ha] at hs
      simp only [Option.bind_some, ancestor, path, ha] at hs ⊢
      cases he : d.extends_ with
      | none => rw [he] at hs; cases hs
      | some q =>
        rw [he] at hs
        simp only [Option.bind_some, Option.getD_some] at hs ⊢
        cases hq : assoc contexts q with
        | none => rw [hq] at hs; cases hs
        | some d' => simp
  have hrep : ∃ i j, i < j ∧ j ≤ contexts.length ∧ path i = path j := by
    apply Classical.byContradiction
    intro hno
    have hnd : ((List.range (contexts.length + 1)).map path).Nodup := by
      rw [List.nodup_iff_pairwise_ne, List.pairwise_map]
      refine List.Pairwise.imp_of_mem ?_ List.pairwise_lt_range
      intro i j hi hj hij heq
      exact hno ⟨i, j, hij, by have := List.mem_range.mp hj; omega, heq⟩
    have := nodup_length hnd (m := contexts.map (·.1)) (by
      intro x hx
      obtain ⟨i, hi, rfl⟩ := List.mem_map.mp hx
      exact assoc_isSome.mp (hstep i (by have := List.mem_range.mp hi; omega)).2)
    simp at this
    omega
  obtain ⟨i, j, hij, hj, hpath⟩ := hrep
  have heq : ancestor contexts (i + 1) c = ancestor contexts (j + 1) c := by
    rw [(hstep i (by omega)).1, (hstep j hj).1, hpath]
  induction n using Nat.strongRecOn with
  | _ n ih =>
    by_cases hn : n ≤ j + 1
    · exact ancestor_le (by omega) h
    · have : n = (j + 1) + (n - (j + 1)) := by omega
      rw [this, ancestor_add, ← heq, ← ancestor_add]
      exact ih _ (by omega)

theorem heritageNew_diverge {contexts : List (Str × Ctx)} {c : Ctx} :
    heritageNew contexts c = .error .diverge ↔ ∀ n, (ancestor contexts n c).isSome = true := by
  unfold heritageNew
  constructor
  · intro h n
    refine ancestor_forever ?_ n
    refine ancestor_le (b := contexts.length + 2) (by omega) ?_
    rw [← heritageChain_diverge]
    cases hh : heritageChain contexts (contexts.length + 2) c with
    | error e => rw [hh] at h; cases h; rfl
    | ok l => rw [hh] at h; cases h
  · intro h
    rw [(heritageChain_diverge contexts _ c).mpr (h _)]
    rfl

/-- A chain whose references are all there does not panic. -/
theorem heritageChain_no_panic {contexts : List (Str × Ctx)}
    (h : ∀ p c q, assoc contexts p = some c → c.extends_ = some q → (assoc contexts q).isSome = true) :
    (fuel : Nat) → {c : Ctx} → (∀ q, c.extends_ = some q → (assoc contexts q).isSome = true) →
    {e : GErr} → heritageChain contexts fuel c = .error e → e = .diverge
  | 0, c, _, e, he => by cases he; rfl
  | fuel + 1, c, hc, e, he => by
    unfold heritageChain at he
    cases hx : c.extends_ with
    | none => rw [hx] at he; cases he
    | some path =>
      rw [hx] at he
      have := hc path hx
      cases ha : assoc contexts path with
      | none => rw [ha] at this; cases this
      | some p =>
        dsimp only at he
        rw [ha] at he
        dsimp only at he
        cases hr : heritageChain contexts fuel p with
        | error e1 =>
          rw [hr] at he; cases he
          exact heritageChain_no_panic h fuel (fun q hq => h path p q ha hq) hr
        | ok l => rw [hr] at he; cases he

end Askama
