import Verif.Model.Input

/-!
# Specification of automatic escaping

What the rendered text of a template may consist of: literal text of the templates, and displayed values, which went
through the template's escaper unless the outermost filter of the displayed expression is `safe`, `escape` or `e`.
-/

namespace Askama.Spec

mutual
/-- A node and all nodes inside of it. -/
def parts : Node → List Node
  | .if_ ws branches => .if_ ws branches :: partsC branches
  | .match_ ws1 e arms ws2 => .match_ ws1 e arms ws2 :: partsW arms
  | .loop ws1 v i c body ws2 els ws3 => .loop ws1 v i c body ws2 els ws3 :: (partsL body ++ partsL els)
  | .blockDef ws1 name nodes ws2 => .blockDef ws1 name nodes ws2 :: partsL nodes
  | .macro ws1 name args nodes ws2 => .macro ws1 name args nodes ws2 :: partsL nodes
  | .filterBlock ws1 f nodes ws2 => .filterBlock ws1 f nodes ws2 :: partsL nodes
  | .lit l => [.lit l]
  | .comment ws c => [.comment ws c]
  | .expr ws e => [.expr ws e]
  | .call ws s n args => [.call ws s n args]
  | .let_ ws v e => [.let_ ws v e]
  | .extends_ p => [.extends_ p]
  | .include ws p => [.include ws p]
  | .import_ ws p s => [.import_ ws p s]
  | .raw ws1 l ws2 => [.raw ws1 l ws2]
  | .break_ ws => [.break_ ws]
  | .continue_ ws => [.continue_ ws]
/-- All nodes of a list and inside of it. -/
def partsL : List Node → List Node
  | [] => []
  | n :: ns => parts n ++ partsL ns
/-- All nodes in the branches of an `if`. -/
def partsC : List Cond → List Node
  | [] => []
  | .mk _ _ nodes :: cs => partsL nodes ++ partsC cs
/-- All nodes in the arms of a `match`. -/
def partsW : List When → List Node
  | [] => []
  | .mk _ _ nodes :: ws => partsL nodes ++ partsW ws
end

/-- The node displays the value of this expression: `{{ e }}`, or `{% filter f %}…{% endfilter %}`, which displays `f`
of a variable that holds the text in between. -/
inductive Shows : Node → Expr → Prop where
  | expr (ws : Ws) (e : Expr) : Shows (.expr ws e) e
  | filter (ws1 : Ws) (f : FilterApp) (nodes : List Node) (ws2 : Ws) (x : Str) :
      Shows (.filterBlock ws1 f nodes ws2) (.filter f.name (Gen.insertFirst x f.args))

/-- The node is a piece of literal text. -/
inductive IsText : Node → Lit → Prop where
  | lit (l : Lit) : IsText (.lit l) l
  | raw (ws1 : Ws) (l : Lit) (ws2 : Ws) : IsText (.raw ws1 l ws2) l

/-- What can become of a piece of literal text: whitespace around it is kept, dropped or reduced to one character. -/
def TextPiece (l : Lit) (s : Str) : Prop := s = l.val ∨ s = l.lws ∨ s = l.rws ∨ s = c!" " ∨ s = c!"\n"

/-- The outermost filter takes the expression out of automatic escaping. -/
def OptsOut (e : Expr) : Prop := ∃ name args, e = .filter name args ∧ (name = c!"safe" ∨ name = c!"escape" ∨ name = c!"e")

section

variable {U : Type} (W : World U) (I : GenInput)

/-- The value is a value of the expression, for some scopes and variables. -/
def ValueOf (e : Expr) (v : Val U) : Prop :=
  ∃ L ρ r w, visitExpr I L e = .ok (r, w) ∧ r.eval W ρ = some v

/-- A text that consists of literal text of the templates, escaped displays, and displays of values of expressions that
opt out of escaping. `P` are the nodes of the templates. -/
inductive Woven (P : Node → Prop) : Str → Prop where
  | nil : Woven P []
  | text (n : Node) (l : Lit) (s t : Str) : P n → IsText n l → TextPiece l s → Woven P t → Woven P (s ++ t)
  | escaped (s t : Str) : Woven P t → Woven P (W.escape I.escaper s ++ t)
  | optedOut (n : Node) (e : Expr) (v : Val U) (k : Nat) (s t : Str) : P n → Shows n e → OptsOut e → ValueOf W I e v →
      W.show_ v k = some s → Woven P t → Woven P (s ++ t)

end

/-- The nodes of the templates that belong to a template. -/
def NodesOf (I : GenInput) (n : Node) : Prop := ∃ p c, assoc I.contexts p = some c ∧ n ∈ partsL c.nodes

end Askama.Spec
