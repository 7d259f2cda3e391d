import Verif.Model.Runtime

/-! # Specification of iteration -/

namespace Askama.Spec

/-- The source, started in state `s`, yields exactly the items `xs` and then `None`. -/
inductive Yields (it : Iter σ α) : σ → List α → Prop
  | stop {s s'} : it.step s = (none, s') → Yields it s []
  | item {s s' x xs} : it.step s = (some x, s') → Yields it s' xs → Yields it s (x :: xs)

/-- The first `n` calls to the source yield the items `xs` and leave it in state `s'`. -/
inductive Reads (it : Iter σ α) : σ → List α → σ → Prop
  | zero {s} : Reads it s [] s
  | more {s s' s'' x xs} : it.step s = (some x, s') → Reads it s' xs s'' → Reads it s (x :: xs) s''

/-- The loop items for a complete run over `xs`: position, first, last. -/
def loopItems (xs : List α) : List (α × LoopItem) :=
  (List.range xs.length).filterMap fun i =>
    xs[i]?.map fun x => (x, { index := i, first := decide (i = 0), last := decide (i + 1 = xs.length) })

end Askama.Spec
