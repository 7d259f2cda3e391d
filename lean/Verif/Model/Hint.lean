import Verif.Model.Base

/-! Size hints of the code generator (askama_derive/src/generator.rs), as functions of the hints of the parts. -/

namespace Askama

/-- Insertion into a sorted list, for `sort_unstable` of the sizes: for numbers every sorting algorithm gives the same
list. -/
def insertSize (n : Nat) : List Nat → List Nat
  | [] => [n]
  | m :: ms => if n ≤ m then n :: m :: ms else m :: insertSize n ms

/-- `sizes.sort_unstable()` (askama_derive/src/generator.rs:2075). -/
def sortSizes : List Nat → List Nat
  | [] => []
  | n :: ns => insertSize n (sortSizes ns)

/-- `median` (askama_derive/src/generator.rs:2074-2081); `none` is the panic on an empty list. -/
def median (sizes : List Nat) : Option Nat :=
  let sorted := sortSizes sizes
  if sorted.length % 2 = 1 then sorted[sorted.length / 2]?
  else if sorted.length = 0 then none
  else
    match sorted[sorted.length / 2 - 1]?, sorted[sorted.length / 2]? with
    | some a, some b => some ((a + b) / 2)
    | _, _ => none

/-- The hint that `write_if` returns (askama_derive/src/generator.rs:346-417): `flushes` are the hints of the pending
output written before each branch and at the end, `arms` what `handle` returned for each branch. -/
def ifHint (flushes arms : List Nat) (hasElse : Bool) : Option Nat :=
  (median (if hasElse then arms else arms ++ [0])).map (flushes.sum + ·)

/-- The hint that `write_match` returns (askama_derive/src/generator.rs:433-466): each arm counts with the output that
was pending at its end. -/
def matchHint (flushed : Nat) (arms : List (Nat × Nat)) : Option Nat :=
  (median (arms.map fun a => a.1 + a.2)).map (flushed + ·)

/-- The hint that `write_loop` returns (askama_derive/src/generator.rs:551). -/
def loopHint (flushed body rest : Nat) : Nat := flushed + (body * 3 + rest) / 2

end Askama
