import Verif.Spec.Whole
import Verif.Spec.Escaping

/-!
# Outside of blocks

What in a template that extends another one can be there or not. Used for C77.
-/

namespace Askama.Spec

open Askama

/-- Blocks, macros, imports and `extends`. -/
def defines : Node → Bool
  | .blockDef .. | .macro .. | .import_ .. | .extends_ _ => true
  | _ => false

/-- A node that defines nothing, and in which nothing is defined: text, comments, expressions, calls of macros, `let` and
includes, and also conditions, matches, loops and filter blocks made of these. -/
def idle (n : Node) : Bool := (parts n).all fun m => !defines m

/-- Two versions of a template: the same, or both extend another one and are the same but for idle nodes outside of all other
nodes. -/
def SameInside (x y : List Node) : Prop :=
  x = y ∨ (∃ p, Node.extends_ p ∈ x) ∧ x.filter (fun n => !idle n) = y.filter (fun n => !idle n)

/-- Two templates, loaded with all that belong to them, have the same settings, and all templates of the first are there in the
second, in another version perhaps. -/
structure SameBlocks (a b : Whole) : Prop where
  ws : a.input.ws = b.input.ws
  escaper : a.input.escaper = b.input.escaper
  escapers : a.input.escapers = b.input.escapers
  json : a.input.json = b.input.json
  block : a.input.block = b.input.block
  find : a.input.find = b.input.find
  templates : ∀ p x, assoc a.input.contexts p = some x → ∃ y, assoc b.input.contexts p = some y ∧ SameInside x.nodes y.nodes
  main : SameInside a.ctx.nodes b.ctx.nodes

end Askama.Spec
