import Verif.Spec.Canon
import Verif.Spec.GrammarNode

/-!
# Usual patterns and templates

The oddities of accepted templates, and what the grammar of C72 leaves to other properties.
-/

namespace Askama.Spec

/-- The first segment of a path, after a leading `::`. -/
def firstSeg : List Str → Str
  | [] :: s :: _ => s
  | s :: _ => s
  | [] => []

/-- No Boolean. -/
def noBool (s : Str) : Prop := s ≠ c!"true" ∧ s ≠ c!"false"

/-- The first word of an expression, if it starts with one. -/
def firstWord : Expr → Str
  | .var n | .boolLit n | .path (n :: _) | .rustMacro (n :: _) _ => n
  | .attr e _ | .index e _ | .call e _ | .try_ e | .filter _ (e :: _) | .binop _ e _ | .range _ (some e) _ => firstWord e
  | _ => []

/-- A range without end. -/
def openRange : Expr → Bool
  | .range _ _ none => true
  | _ => false

/-- The arguments of a call of a template macro, with or without names. -/
def usualArgs : List Expr → Prop
  | [] => True
  | .namedArg _ e :: es => usual e ∧ usualArgs es
  | e :: es => usual e ∧ usualArgs es

section
variable (isLower : Char → Bool)

mutual
/-- Names in patterns start with a lower-case letter and are no Booleans, paths do not start with Booleans, and there are no
tuples of one element without a name (`(a,)` is read). -/
def usualPat : Target → Prop
  | .name n => (∀ c, n.head? = some c → isLower c = true) ∧ noBool n
  | .path p => noBool (firstSeg p)
  | .tuple p ps => (p = [] → ps.length ≠ 1) ∧ noBool (firstSeg p) ∧ usualPats ps
  | .struct p fs => noBool (firstSeg p) ∧ usualFields fs
  | .orChain ps => usualPats ps
  | _ => True
/-- ... every one. -/
def usualPats : List Target → Prop
  | [] => True
  | p :: ps => usualPat p ∧ usualPats ps
/-- ... the patterns of fields. -/
def usualFields : List (Str × Target) → Prop
  | [] => True
  | f :: fs => usualPat f.2 ∧ usualFields fs
end

/-- A condition does not start with the words `let` and `set` if it is an expression. -/
def usualTest : CondTest → Prop
  | ⟨none, e⟩ => usual e ∧ firstWord e ≠ c!"let" ∧ firstWord e ≠ c!"set"
  | ⟨some p, e⟩ => usualPat isLower p ∧ usual e

/-- ... if there is one. -/
def usualTestOpt : Option CondTest → Prop
  | none => True
  | some c => usualTest isLower c

variable (syn : Syntax)

mutual
/-- Text does not end with the beginning of an opening delimiter; comments without a marker do not begin like one with a
marker; a loop over a range without end has no filter; there is no `endraw` in the text of `raw`; expressions, conditions and
patterns are usual ones. -/
def usualNode : Node → Prop
  | .lit l => ∀ d ∈ [syn.blockStart, syn.commentStart, syn.exprStart], ∀ a, a ≠ [] → a <+: d → ¬ a <:+ l.text
  | .comment w c => w.l = none → ∀ x, c.head? = some x → x ∉ c!"+-~"
  | .expr _ e => usual e
  | .call _ _ _ args => usualArgs args
  | .let_ _ p v => usualPat isLower p ∧ usualOpt v
  | .if_ _ bs => usualConds bs
  | .match_ _ e arms _ => usual e ∧ usualArms true arms
  | .loop _ p e c body _ els _ => usualPat isLower p ∧ usual e ∧ usualOpt c ∧ (c.isSome → openRange e = false) ∧
      usualNodes body ∧ usualNodes els
  | .blockDef _ _ ns _ | .macro _ _ _ ns _ => usualNodes ns
  | .filterBlock _ f ns _ => usualAll f.args ∧ usualNodes ns
  | .raw _ l _ => RawFree syn l.text
  | .break_ _ | .continue_ _ | .extends_ _ | .include _ _ | .import_ _ _ _ => True
/-- ... every one. -/
def usualNodes : List Node → Prop
  | [] => True
  | n :: ns => usualNode n ∧ usualNodes ns
/-- The branches of an `if`. -/
def usualConds : List Cond → Prop
  | [] => True
  | .mk _ c ns :: bs => usualTestOpt isLower c ∧ usualNodes ns ∧ usualConds bs
/-- The arms of a `match`. `else` (an arm for `_`) is the last one, and not the first one. -/
def usualArms (first : Bool) : List When → Prop
  | [] => True
  | .mk _ p ns :: as => (usualPat isLower p ∨ first = false ∧ as = [] ∧ p = .name c!"_") ∧ usualNodes ns ∧ usualArms false as
end

end

end Askama.Spec
