import Verif.Spec.Parse
import Verif.Model.Lex

/-!
# Delimiters

Delimiters with which a template can be written: what closes a tag must not go on with the expression before it, and the
delimiters that open tags must be told apart.
-/

namespace Askama.Spec

/-- Characters that cannot start an operand, go on with a name, number, call, field or pattern, or mark white space. -/
def outside (c : Char) : Bool := c!"%}]>#@$^/\\;<&*`".contains c

/-- A delimiter that closes a tag: at least two such characters, and not an operator. -/
def Closing (d : Str) : Prop := 2 ≤ d.length ∧ d.all outside = true ∧ d ∉ [c!"<<", c!">>", c!"&&"]

instance (d : Str) : Decidable (Closing d) := by unfold Closing; infer_instance

/-- Delimiters with which a template can be written. -/
class Usable (syn : Syntax) : Prop where
  blockEnd : Closing syn.blockEnd
  exprEnd : Closing syn.exprEnd
  commentEnd : syn.commentEnd ≠ []
  /-- Delimiters are not empty and have no white space in them. -/
  start : ∀ d ∈ [syn.blockStart, syn.exprStart, syn.commentStart], d ≠ [] ∧ ∀ c ∈ d, ¬ isBlank c
  /-- No delimiter that opens a tag is the beginning of another one. -/
  distinct : ∀ p ∈ [(syn.blockStart, syn.exprStart), (syn.blockStart, syn.commentStart), (syn.exprStart, syn.commentStart)],
    ¬ p.1 <+: p.2 ∧ ¬ p.2 <+: p.1

end Askama.Spec
