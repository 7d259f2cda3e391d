import Verif.Lemmas.Names

/-! C56 and C58: identifiers and scope chains. -/

namespace Askama.Props

open Askama Askama.Spec

/-! ## C56 -/

/-- C56: exactly the Rust keywords get the raw form; every other identifier stays as it is. -/
theorem C56_exact (x : Str) : normalizeIdentifier x = if x ∈ rustKeywords then c!"r#" ++ x else x :=
  normalizeIdentifier_eq x

/-- C56: two different identifiers never become the same Rust identifier. -/
theorem C56_injective (x y : Str) (hx : '#' ∉ x) (hy : '#' ∉ y)
    (h : normalizeIdentifier x = normalizeIdentifier y) : x = y := by
  rw [C56_exact, C56_exact] at h
  split at h <;> split at h
  · exact List.append_cancel_left h
  · exact absurd (h ▸ (by simp : '#' ∈ c!"r#" ++ x)) hy
  · exact absurd (h ▸ (by simp : '#' ∈ c!"r#" ++ y)) hx
  · exact h

/-- C56: normalising twice is normalising once. -/
theorem C56_idempotent (x : Str) : normalizeIdentifier (normalizeIdentifier x) = normalizeIdentifier x :=
  normalizeIdentifier_idem x

example : normalizeIdentifier c!"type" = c!"r#type" ∧ normalizeIdentifier c!"types" = c!"types"
    ∧ normalizeIdentifier c!"überfn" = c!"überfn" ∧ normalizeIdentifier c!"self" = c!"self" := by decide

/-! ## C58 -/

/-- An operation on a `MapChain`. -/
def applyOp {α : Type} : ScopeOp α → MapChain α → MapChain α
  | .push, m => m.push
  | .pop, m => m.pop
  | .insert k v, m => m.insert k v

private theorem find_append {α : Type} (a b : MapStack α) (x : Str) :
    (a ++ b).find x = (a.find x).orElse fun _ => b.find x := by
  induction a with
  | nil => rfl
  | cons f a ih =>
    rw [List.cons_append, MapStack.find, MapStack.find, ih]
    cases f x <;> rfl

private theorem get_find {α : Type} (m : MapChain α) (x : Str) :
    m.get x = MapStack.find (m.scopes.map (fun s => s.get) ++ m.parent.map (fun s => s.get)) x := by
  rw [MapChain.get_eq, ← List.map_append]
  induction m.scopes ++ m.parent with
  | nil => rfl
  | cons s l ih =>
    rw [lookupStack, List.map_cons, MapStack.find, ih]
    unfold Scope.get
    cases s.find? (fun e => e.1 == x) <;> rfl

private theorem apply_abs {α : Type} (op : ScopeOp α) (m : MapChain α) :
    (applyOp op m).scopes.map (fun s => s.get) = op.apply (m.scopes.map fun s => s.get)
      ∧ (applyOp op m).parent = m.parent := by
  cases op with
  | push => exact ⟨rfl, rfl⟩
  | pop => exact ⟨by simp [applyOp, MapChain.pop, ScopeOp.apply, List.map_tail], rfl⟩
  | insert k v =>
    obtain ⟨scopes, parent⟩ := m
    cases scopes with
    | nil => exact ⟨rfl, rfl⟩
    | cons s rest =>
      refine ⟨?_, rfl⟩
      simp only [applyOp, MapChain.insert, List.map_cons, ScopeOp.apply, List.cons.injEq, and_true]
      funext x
      unfold Scope.get
      rw [List.find?_cons]
      by_cases hx : x = k
      · subst hx; simp
      · have : (k == x) = false := beq_eq_false_iff_ne.mpr (Ne.symm hx)
        simp [this, hx]

/-- C58: after any sequence of operations, starting from the fresh chain of a generator with or without a parent, a
lookup gives the innermost binding of a stack of maps that went through the same operations, and what the parent says
if there is none. -/
theorem C58_stack_of_maps {α : Type} (p : MapChain α) (ops : List (ScopeOp α)) (x : Str) :
    (ops.foldl (fun m op => applyOp op m) p.withParent).get x
      = ((stackAfter ops).find x).orElse fun _ => p.get x := by
  have h : ∀ (ops : List (ScopeOp α)) (m : MapChain α),
      ((ops.foldl (fun m op => applyOp op m) m).scopes.map fun s => s.get)
        = ops.foldl (fun (st : MapStack α) op => op.apply st) (m.scopes.map fun s => s.get)
      ∧ (ops.foldl (fun m op => applyOp op m) m).parent = m.parent := by
    intro ops
    induction ops with
    | nil => intro m; exact ⟨rfl, rfl⟩
    | cons op ops ih =>
      intro m
      simp only [List.foldl_cons]
      obtain ⟨h1, h2⟩ := ih (applyOp op m)
      obtain ⟨h3, h4⟩ := apply_abs op m
      exact ⟨by rw [h1, h3], by rw [h2, h4]⟩
  obtain ⟨h1, h2⟩ := h ops p.withParent
  rw [get_find, h1, h2, find_append]
  congr 1
  funext _
  rw [get_find p x, ← List.map_append]
  rfl

/-- C58: without a parent nothing is found but what was inserted. -/
theorem C58_no_parent {α : Type} (ops : List (ScopeOp α)) (x : Str) :
    (ops.foldl (fun m op => applyOp op m) MapChain.empty).get x
      = (stackAfter ops).find x := by
  have h := C58_stack_of_maps (α := α) ⟨[], []⟩ ops x
  have h2 : (⟨[], []⟩ : MapChain α).get x = none := rfl
  rw [h2] at h
  have h3 : (MapChain.withParent (⟨[], []⟩ : MapChain α)) = MapChain.empty := rfl
  rw [h3] at h
  rw [h]
  cases (stackAfter ops).find x <;> rfl

/-- C58: entering and leaving scopes in a balanced way, whatever is declared inside, restores every lookup. -/
theorem C58_balanced_restores {α : Type} (m : MapChain α) (ops : List (ScopeOp α)) (hb : balanced 0 ops = true) :
    (ops.foldl (fun m op => applyOp op m) m) = m := by
  have h : ∀ (ops : List (ScopeOp α)) (inner : List (Scope α)) , balanced inner.length ops = true →
      ops.foldl (fun m op => applyOp op m) ⟨inner ++ m.scopes, m.parent⟩ = m := by
    intro ops
    induction ops with
    | nil =>
      intro inner hb
      simp [balanced] at hb
      subst hb
      rfl
    | cons op ops ih =>
      intro inner hb
      rw [List.foldl_cons]
      cases op with
      | push => exact ih ([] :: inner) (by simpa [balanced] using hb)
      | pop =>
        cases inner with
        | nil => simp [balanced] at hb
        | cons s inner => exact ih inner (by simpa [balanced] using hb)
      | insert k v =>
        cases inner with
        | nil => simp [balanced] at hb
        | cons s inner => exact ih (((k, v) :: s) :: inner) (by simpa [balanced] using hb)
  exact h ops [] hb

example : ([ScopeOp.insert c!"x" 1, .push, .insert c!"x" 2].foldl (fun m op => applyOp op m) MapChain.empty).get c!"x"
    = some 2 := by decide

example : balanced 0 [ScopeOp.push, .insert c!"x" 2, .push, .pop, .pop] = true := rfl

example : ([ScopeOp.push, .insert c!"x" 2, .pop].foldl (fun m op => applyOp op m)
    (MapChain.withParent (MapChain.empty.insert c!"x" 1))).get c!"x" = some 1 := by decide

end Askama.Props
