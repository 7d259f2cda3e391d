import Verif.Model.Gen

/-! Specification of pieces of output text: a text that may fail to be produced is an `Option Str`. -/

namespace Askama.Spec

/-- One text after the other; it fails if one of them fails. -/
def oapp (a b : Option Str) : Option Str := a.bind fun s => b.map (s ++ ·)

/-- Texts in order. -/
def ojoin : List (Option Str) → Option Str
  | [] => some []
  | t :: ts => oapp t (ojoin ts)

/-- Displaying a value always shows the same text. Everything in a template has this property, except for the `Display`
that the `join` filter returns, which is used up by the first display. -/
def Stable {U : Type} (W : World U) : Prop := ∀ u k, W.disp u k = W.disp u 0

end Askama.Spec
