import Verif.Spec.Escaping
import Verif.Spec.Whole

/-!
# References that can be followed

Checks of loaded templates: blocks stand where they are collected, and the templates referred to have been loaded.
-/

namespace Askama.Spec

/-- Anything but the definition of a block. -/
def notBlock : Node → Bool
  | .blockDef .. => false
  | _ => true

/-- There is no block inside a macro or filter block. -/
def blocksPlaced : Node → Bool
  | .macro _ _ _ ns _ | .filterBlock _ _ ns _ => (partsL ns).all notBlock
  | _ => true

/-- An included template that is found has been loaded. -/
def includeLoaded (I : GenInput) : Node → Bool
  | .include _ path =>
    match I.find path with
    | some p => (assoc I.contexts p).isSome
    | none => true
  | _ => true

/-- No template has a block inside a macro or filter block. -/
def _root_.Askama.GenInput.placed (I : GenInput) : Bool := I.contexts.all fun e => (partsL e.2.nodes).all blocksPlaced

/-- All included templates have been loaded. -/
def _root_.Askama.GenInput.includesLoaded (I : GenInput) : Bool :=
  I.contexts.all fun e => (partsL e.2.nodes).all (includeLoaded I)

/-- Anything but a macro. -/
def notMacro : Node → Bool
  | .macro .. => false
  | _ => true

/-- Macros are at the top level of the templates. -/
def _root_.Askama.GenInput.topMacros (I : GenInput) : Bool :=
  I.contexts.all fun e => e.2.nodes.all fun n => (parts n).tail.all notMacro

end Askama.Spec
