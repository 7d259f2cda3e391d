import Verif.Lemmas.GenMain
import Verif.Spec.Collect

/-! Collecting templates and their contexts: the bounds on loops are never reached, and maps have distinct keys. -/

namespace Askama

open Askama.Spec Askama.Gen

/-! ## `Context::new` -/

theorem mapInsert_keys {α : Type} {m : List (Str × α)} (h : (m.map (·.1)).Nodup) (k : Str) (v : α) :
    ((mapInsert m k v).map (·.1)).Nodup := by
  unfold mapInsert
  rw [List.map_cons, List.nodup_cons]
  refine ⟨by simp, ?_⟩
  exact (List.filter_sublist.map _).nodup h

theorem assoc_mapInsert {α : Type} (m : List (Str × α)) (k : Str) (v : α) (n : Str) :
    assoc (mapInsert m k v) n = if k = n then some v else assoc m n := by
  unfold mapInsert
  rw [assoc_cons]
  split
  · rfl
  · rename_i hk
    induction m with
    | nil => rfl
    | cons e m ih =>
      obtain ⟨a, b⟩ := e
      by_cases ha : a = k
      · subst ha
        rw [List.filter_cons_of_neg (by simp), ih, assoc_cons, if_neg hk]
      · rw [List.filter_cons_of_pos (by simpa using ha), assoc_cons, assoc_cons, ih]

theorem ctxNode_blocks {find : Str → Option Str} {top : Bool} {st st' : CtxSt} {n : Node}
    (h : ctxNode find top st n = .ok st') (hb : (st.blocks.map (·.1)).Nodup) : (st'.blocks.map (·.1)).Nodup := by
  unfold ctxNode at h
  repeat' split at h
  all_goals cases h
  all_goals first | exact hb | exact mapInsert_keys hb _ _

theorem ctxNodes_blocks {find : Str → Option Str} {top : Bool} : (ns : List Node) → {st st' : CtxSt} →
    ctxNodes find top ns st = .ok st' → (st.blocks.map (·.1)).Nodup → (st'.blocks.map (·.1)).Nodup
  | [], _, _, h, hb => by cases h; exact hb
  | n :: ns, _, _, h, hb => by
    unfold ctxNodes at h
    obtain ⟨st1, h1, h⟩ := except_bind h
    exact ctxNodes_blocks ns h (ctxNode_blocks h1 hb)

theorem ctxLoop_blocks {find : Str → Option Str} : (fuel : Nat) → {top : Bool} → {st st' : CtxSt} →
    ctxLoop find fuel top st = .ok st' → (st.blocks.map (·.1)).Nodup → (st'.blocks.map (·.1)).Nodup
  | 0, top, st, st', h, hb => by
    unfold ctxLoop at h
    split at h
    · cases h; exact hb
    · cases h
  | fuel + 1, top, st, st', h, hb => by
    unfold ctxLoop at h
    split at h
    · cases h; exact hb
    · dsimp only at h
      obtain ⟨st1, h1, h⟩ := except_bind h
      exact ctxLoop_blocks fuel h (ctxNodes_blocks _ h1 hb)

theorem contextNew_blocks {find : Str → Option Str} {nodes : List Node} {c : Ctx} (h : contextNew find nodes = .ok c) :
    BlocksOk c := by
  unfold contextNew at h
  obtain ⟨st, h1, h⟩ := except_bind h
  cases h
  exact ctxLoop_blocks _ h1 List.nodup_nil

theorem makeContexts_assoc {find : Str → Str → Option Str} : {l : List (Str × List Node)} → {cs : List (Str × Ctx)} →
    makeContexts find l = .ok cs → {p : Str} → {c : Ctx} → assoc cs p = some c →
    ∃ nodes, assoc l p = some nodes ∧ contextNew (find p) nodes = .ok c
  | [], _, h, _, _, hp => by cases h; cases hp
  | (q, nodes) :: rest, cs, h, p, c, hp => by
    unfold makeContexts at h
    obtain ⟨c1, h1, h⟩ := except_bind h
    obtain ⟨cs1, h2, h⟩ := except_bind h
    cases h
    rw [assoc_cons] at hp ⊢
    split at hp
    · rename_i hq; subst hq; cases hp
      exact ⟨nodes, by rw [if_pos rfl], h1⟩
    · rename_i hq
      rw [if_neg hq]
      exact makeContexts_assoc h2 hp

theorem makeContexts_keys {find : Str → Str → Option Str} : {l : List (Str × List Node)} → {cs : List (Str × Ctx)} →
    makeContexts find l = .ok cs → cs.map (·.1) = l.map (·.1)
  | [], _, h => by cases h; rfl
  | (q, nodes) :: rest, cs, h => by
    unfold makeContexts at h
    obtain ⟨c1, h1, h⟩ := except_bind h
    obtain ⟨cs1, h2, h⟩ := except_bind h
    cases h
    simp [makeContexts_keys h2]

/-! ## The bounds -/

/-- The number of node lists on the stack, with all that are inside. -/
def stackLists (l : List (List Node)) : Nat := (l.map fun ns => Node.listsL ns + 1).sum

theorem stackLists_append (a b : List (List Node)) : stackLists (a ++ b) = stackLists a + stackLists b := by
  simp [stackLists]

theorem stackLists_reverse (a : List (List Node)) : stackLists a.reverse = stackLists a := by
  unfold stackLists
  rw [List.map_reverse, List.sum_reverse]

theorem cond_lists : (cs : List Cond) → stackLists (cs.map Cond.nodes) = Cond.listsL cs
  | [] => rfl
  | .mk _ _ nodes :: cs => by
    have := cond_lists cs
    simp only [stackLists, List.map_cons, List.sum_cons, Cond.listsL, Cond.nodes] at this ⊢
    rw [this]

theorem when_lists : (cs : List When) → stackLists (cs.map When.nodes) = When.listsL cs
  | [] => rfl
  | .mk _ _ nodes :: cs => by
    have := when_lists cs
    simp only [stackLists, List.map_cons, List.sum_cons, When.listsL, When.nodes] at this ⊢
    rw [this]

theorem ctxNested_lists (n : Node) : stackLists (ctxNested n) ≤ Node.lists n := by
  cases n with
  | if_ w bs => simp only [ctxNested, Node.lists]; rw [stackLists_reverse, cond_lists]; exact Nat.le_refl _
  | match_ w e arms w2 => simp only [ctxNested, Node.lists]; rw [stackLists_reverse, when_lists]; exact Nat.le_refl _
  | loop => simp [ctxNested, Node.lists, stackLists]; omega
  | blockDef => simp [ctxNested, Node.lists, stackLists]
  | _ => simp [ctxNested, stackLists]

theorem useNested_lists (top : Bool) (n : Node) : stackLists (useNested top n) ≤ Node.lists n := by
  cases n with
  | «macro» => simp only [useNested]; split <;> simp [Node.lists, stackLists]
  | filterBlock => simp [useNested, Node.lists, stackLists]
  | _ => simp only [useNested]; exact ctxNested_lists _

theorem ctxNode_nested {find : Str → Option Str} {top : Bool} {st : CtxSt} {n : Node} :
    match ctxNode find top st n with
    | .error e => e = .err
    | .ok st' => stackLists st'.nested ≤ Node.lists n + stackLists st.nested := by
  have key : ∀ n, stackLists (ctxNested n ++ st.nested) ≤ Node.lists n + stackLists st.nested := by
    intro n
    rw [stackLists_append]
    have := ctxNested_lists n
    omega
  cases n with
  | extends_ p =>
    simp only [ctxNode]
    repeat' split
    all_goals rename_i h <;> (repeat' split at h) <;> cases h <;> simp
  | «macro» =>
    simp only [ctxNode]
    repeat' split
    all_goals rename_i h <;> (repeat' split at h) <;> cases h <;> simp
  | import_ =>
    simp only [ctxNode]
    repeat' split
    all_goals rename_i h <;> (repeat' split at h) <;> cases h <;> simp
  | blockDef w name nodes w2 => exact key (.blockDef w name nodes w2)
  | _ => exact key _

theorem ctxNodes_nested {find : Str → Option Str} {top : Bool} : (ns : List Node) → (st : CtxSt) →
    match ctxNodes find top ns st with
    | .error e => e = .err
    | .ok st' => stackLists st'.nested ≤ Node.listsL ns + stackLists st.nested
  | [], st => by simp [ctxNodes, Node.listsL]
  | n :: ns, st => by
    have h1 := ctxNode_nested (find := find) (top := top) (st := st) (n := n)
    simp only [ctxNodes]
    cases h : ctxNode find top st n with
    | error e => rw [h] at h1; exact h1
    | ok st1 =>
      rw [h] at h1
      have ih := ctxNodes_nested (find := find) (top := top) ns st1
      show match ctxNodes find top ns st1 with
        | .error e => e = .err
        | .ok st' => _
      cases h2 : ctxNodes find top ns st1 with
      | error e => rw [h2] at ih; exact ih
      | ok st2 =>
        rw [h2] at ih
        simp only [Node.listsL] at *
        omega

theorem ctxLoop_bound {find : Str → Option Str} : (fuel : Nat) → (top : Bool) → (st : CtxSt) →
    stackLists st.nested ≤ fuel → ∀ e, ctxLoop find fuel top st = .error e → e = .err
  | 0, top, st, hf, e, h => by
    unfold ctxLoop at h
    split at h
    · cases h
    · rename_i ns rest hn; rw [hn] at hf; simp [stackLists] at hf
  | fuel + 1, top, st, hf, e, h => by
    unfold ctxLoop at h
    split at h
    · cases h
    · rename_i ns rest hn
      have h1 := ctxNodes_nested (find := find) (top := top) ns { st with nested := rest }
      dsimp only at h
      cases h2 : ctxNodes find top ns { st with nested := rest } with
      | error e1 => rw [h2] at h h1; cases h; exact h1
      | ok st1 =>
        rw [h2] at h h1
        refine ctxLoop_bound fuel false st1 ?_ e h
        rw [hn] at hf
        simp only [stackLists, List.map_cons, List.sum_cons] at hf h1 ⊢
        omega

/-- `Context::new` stops: the bound on its rounds is never reached. -/
theorem contextNew_error {find : Str → Option Str} {nodes : List Node} {e : GErr} (h : contextNew find nodes = .error e) :
    e = .err := by
  unfold contextNew at h
  cases h1 : ctxLoop find (Node.listsL nodes + 1) true ⟨none, [], [], [], [nodes]⟩ with
  | error e1 =>
    rw [h1] at h; cases h
    exact ctxLoop_bound _ _ _ (by simp [stackLists]) _ h1
  | ok st => rw [h1] at h; cases h

end Askama
