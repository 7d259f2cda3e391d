import Verif.Spec.Accept
import Verif.Spec.Meaning

/-!
# Trees of templates that compile

The rules of `Verif.Spec.Accept` for a template together with the templates it extends, includes and imports.
-/

namespace Askama.Spec

/-- The rules for nodes that are nested at most `n` deep, where the calls of macros, the blocks and the included templates
count. What is written where is as for `Render`: the nodes are part of the template `ctx`, the templates from the one that is
rendered to the root of its inheritance are `chain`, and `cur` is the block around the nodes and how many times `super()`
led here. A macro that is called is defined or imported; a block is not inside of itself; `super()` is inside of a block that
has another definition further up; and an included template is there and keeps the rules where it is included. -/
def treeFits (I : GenInput) : Nat → Bool → List Ctx → Ctx → Option (Str × Nat) → List Node → Bool
  | 0, _, _, _, _, _ => false
  | n + 1, top, chain, ctx, cur, nodes =>
    let block (name : Str) (k : Nat) : Bool :=
      match (blockDefs chain name)[k]? with
      | some (c, d) => treeFits I n false chain (withMacrosOf c ctx) (some (name, k)) d.nodes
      | none => false
    nodes.all fun
      | .blockDef _ name _ _ => cur.map (·.1) != some name && block name 0
      | .call _ scope name args =>
        if name = c!"super" then
          match cur with
          | some (b, k) => block b (k + 1)
          | none => false
        else
          match macroOf I ctx scope name with
          | some (d, own) => argsFit d.args args && exprsFit I.options args && treeFits I n false chain own cur d.nodes
          | none => false
      | .include _ path =>
        match I.find path with
        | none => false
        | some p =>
          match assoc I.contexts p with
          | none => false
          | some c =>
            match chainOf I.contexts (withMacrosOf c ctx) with
            | none => false
            | some chain =>
              let root := chain.getLastD (withMacrosOf c ctx)
              treeFits I n true chain root none root.nodes
      | m => tagFits I.options (treeFits I n false chain ctx cur) top m

/-- A template that keeps the rules together with all that belongs to it. -/
def Whole.fits (w : Whole) (n : Nat) : Bool := treeFits w.input n true w.chain w.root none w.root.nodes

/-- All templates have only what is checked in full. -/
def Whole.simple (w : Whole) : Prop :=
  ∀ p c, assoc w.input.contexts p = some c → (partsL c.nodes).all simpleNode = true

end Askama.Spec
