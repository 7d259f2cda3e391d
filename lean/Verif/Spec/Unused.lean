import Verif.Spec.Outside

/-!
# Definitions nobody uses

Blocks, macros and imports in templates that extend another one, under names that are not used otherwise. Used for C78.
-/

namespace Askama.Spec

open Askama

/-- Names for blocks, for macros and for imports. -/
structure NewNames where
  block : Str → Bool
  macro_ : Str → Bool
  scope : Str → Bool

/-- The node defines one of these names. -/
def NewNames.has (E : NewNames) : Node → Bool
  | .blockDef _ name _ _ => E.block name
  | .macro _ name _ _ _ => E.macro_ name
  | .import_ _ _ scope => E.scope scope
  | _ => false

/-- The node, and all inside of it, define nothing but these names. -/
def NewNames.spare (E : NewNames) (n : Node) : Bool := (parts n).all fun m => !defines m || E.has m

/-- Two versions of a template: the same, or both extend another one and are the same but for spare nodes outside of all other
nodes. -/
def SameUsed (E : NewNames) (x y : List Node) : Prop :=
  x = y ∨ (∃ p, Node.extends_ p ∈ x) ∧ x.filter (fun n => !E.spare n) = y.filter (fun n => !E.spare n)

/-- The template has no block, macro or import of these names. -/
structure NewNames.Fresh (E : NewNames) (x : Ctx) : Prop where
  blocks : ∀ n, E.block n = true → assoc x.blocks n = none
  macros : ∀ n, E.macro_ n = true → assoc x.macros n = none
  imports : ∀ n, E.scope n = true → assoc x.imports n = none

/-- Two templates, loaded with all that belong to them, have the same settings, and all templates of the first, which do not define the
new names, are there in the second, in another version perhaps. -/
structure SameButUnused (E : NewNames) (a b : Whole) : Prop where
  ws : a.input.ws = b.input.ws
  escaper : a.input.escaper = b.input.escaper
  escapers : a.input.escapers = b.input.escapers
  json : a.input.json = b.input.json
  block : a.input.block = b.input.block
  find : a.input.find = b.input.find
  fresh : ∀ p x, assoc a.input.contexts p = some x → E.Fresh x
  templates : ∀ p x, assoc a.input.contexts p = some x → ∃ y, assoc b.input.contexts p = some y ∧ SameUsed E x.nodes y.nodes
  main : SameUsed E a.ctx.nodes b.ctx.nodes

end Askama.Spec
