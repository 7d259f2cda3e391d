import Verif.Spec.CanonNode

/-!
# What of the trees is needed to write them down

`usualNodes` together with what holds of all accepted templates.
-/

namespace Askama.Spec

/-- The arguments of a call of a template macro: those with names come last, no name twice. -/
def writableArgs : List Expr → Prop
  | [] => True
  | .namedArg n e :: es => usual e ∧ (∀ a ∈ es, ∃ m v, a = .namedArg m v ∧ m ≠ n) ∧ writableArgs es
  | e :: es => usual e ∧ writableArgs es

section
variable (isLower : Char → Bool)

/-- Is it text? -/
def isLitN : Node → Bool
  | .lit _ => true
  | _ => false

variable (syn : Syntax)

mutual
/-- Text does not end with the beginning of an opening delimiter; comments without a marker do not begin like one with a
marker; named arguments come last; a loop over a range without end has no filter; there is no `endraw` in the text of `raw`,
`break` and `continue` are in loops (`loop`); expressions, conditions and patterns are usual ones. -/
def writableNode (loop : Bool) : Node → Prop
  | .lit l => ∀ d ∈ [syn.blockStart, syn.commentStart, syn.exprStart], ∀ a, a ≠ [] → a <+: d → ¬ a <:+ l.text
  | .comment w c => w.l = none → ∀ x, c.head? = some x → x ∉ c!"+-~"
  | .expr _ e => usual e
  | .call _ _ _ args => writableArgs args
  | .let_ _ p v => usualPat isLower p ∧ usualOpt v
  | .if_ _ bs => writableConds loop bs
  | .match_ _ e arms _ => usual e ∧ writableArms loop true arms
  | .loop _ p e c body _ els _ => usualPat isLower p ∧ usual e ∧ usualOpt c ∧ (c.isSome → openRange e = false) ∧
      writableNodes true body ∧ writableNodes loop els
  | .blockDef _ _ ns _ | .macro _ _ _ ns _ => writableNodes loop ns
  | .filterBlock _ f ns _ => usualAll f.args ∧ writableNodes loop ns
  | .raw _ l _ => RawFree syn l.text
  | .break_ _ | .continue_ _ => loop = true
  | .extends_ _ | .include _ _ | .import_ _ _ _ => True
/-- No two texts in a row. -/
def writableNodes (loop : Bool) : List Node → Prop
  | [] => True
  | n :: ns => writableNode loop n ∧ (isLitN n = true → ∀ m, ns.head? = some m → isLitN m = false) ∧ writableNodes loop ns
/-- The branches of an `if`. -/
def writableConds (loop : Bool) : List Cond → Prop
  | [] => True
  | .mk _ c ns :: bs => usualTestOpt isLower c ∧ writableNodes loop ns ∧ writableConds loop bs
/-- The arms of a `match`. `else` is the last one, and not the first one. -/
def writableArms (loop first : Bool) : List When → Prop
  | [] => True
  | .mk _ p ns :: as => (usualPat isLower p ∨ first = false ∧ as = [] ∧ p = .name c!"_") ∧ writableNodes loop ns ∧
      writableArms loop false as
end

end

end Askama.Spec
