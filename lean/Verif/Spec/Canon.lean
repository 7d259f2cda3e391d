import Verif.Spec.Grammar

/-!
# Usual expressions

The oddities of accepted expressions: what can be read, but has no spelling in the usual layout.
-/

namespace Askama.Spec

/-- Does the expression end with a number? -/
def endsNumber : Expr → Bool
  | .numLit _ => true
  | .attr _ n => isDigits n
  | _ => false

/-- Does the expression end with a filter without arguments? -/
def endsBare : Expr → Bool
  | .filter _ args => args.length == 1
  | .binop _ _ b => endsBare b
  | _ => false

mutual
/-- Fields are names or decimal numbers, and these are not fields of numbers (`a.-1`, `a.0.1` and `1 .0` are read); the
arguments of Rust macros are such that quotes and backslashes make no difference (`m!('"')` is not, but can be read) and the macro is not `true` or `false`; and the
left operand of `|` does not end with a filter without arguments (`a|f | 1` is read). -/
def usual : Expr → Prop
  | .array es | .tuple es => usualAll es
  | .attr e n => usual e ∧ (Name n ∨ isDigits n = true ∧ endsNumber e = false)
  | .index e k => usual e ∧ usual k
  | .filter _ args => usualAll args
  | .namedArg _ e | .unary _ e | .group e | .try_ e => usual e
  | .binop op a b => usual a ∧ usual b ∧ (op = c!"|" → endsBare a = false)
  | .range _ a b => usualOpt a ∧ usualOpt b
  | .call e args => usual e ∧ usualAll args
  | .rustMacro p a => MacroText a ∧ p ≠ [c!"true"] ∧ p ≠ [c!"false"]
  | _ => True
/-- ... every one. -/
def usualAll : List Expr → Prop
  | [] => True
  | e :: es => usual e ∧ usualAll es
/-- ... the end of a range. -/
def usualOpt : Option Expr → Prop
  | none => True
  | some e => usual e
end

end Askama.Spec
