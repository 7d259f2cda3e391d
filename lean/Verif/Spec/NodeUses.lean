import Verif.Model.StmtText
import Verif.Model.Input

/-!
# The parts of a template that are written into the generated code

`nodesUses X nodes`: every expression, pattern and name of the nodes is one of those that `X` describes, together with what it
is used for. Nothing is said about literal text, comments and whitespace.
-/

namespace Askama.Spec

open Askama

/-- What the condition of a branch is used for: after `let`, the operators `||` and `&&` at the top of the expression join it
with a further condition. -/
def condUse : CondTest → Use
  | ⟨none, e⟩ => .test e
  | ⟨some t, .binop op a b⟩ => if op = c!"||" ∨ op = c!"&&" then .letChain op t a b else .letTest t (.binop op a b)
  | ⟨some t, e⟩ => .letTest t e

/-- Has the branch of the template no condition? -/
def noTest : Cond → Bool
  | .mk _ c _ => c.isNone

mutual
/-- Every part of a node. -/
def nodeUses (X : Use → Prop) : Node → Prop
  | .expr _ e => X (.shown e)
  | .call _ _ name args => name = c!"super" ∨ ∀ e ∈ args, X (.arg e)
  | .let_ _ t val => X (.letVar t) ∧ ∀ e, val = some e → X (.letVal e)
  | .if_ _ bs => X (.elses (bs.map noTest)) ∧ condUses X bs
  | .match_ _ e arms _ => X (.matched e) ∧ whenUses X arms
  | .loop _ t iter cond body _ els _ =>
    X (.loopVar t) ∧ X (.iter iter) ∧ (∀ c, cond = some c → X (.filter t c)) ∧ nodesUses X body ∧ nodesUses X els
  | .blockDef _ _ nodes _ => nodesUses X nodes
  | .macro _ _ args nodes _ => (∀ p ∈ args, X (.param p)) ∧ nodesUses X nodes
  | .filterBlock _ f nodes _ =>
    (∀ id, X (.shown (.filter f.name (Gen.insertFirst (Gen.filterVar id) f.args)))) ∧ nodesUses X nodes
  | .lit _ | .comment _ _ | .extends_ _ | .include _ _ | .import_ _ _ _ | .raw _ _ _ | .break_ _ | .continue_ _ => True
/-- ... of nodes. -/
def nodesUses (X : Use → Prop) : List Node → Prop
  | [] => True
  | n :: ns => nodeUses X n ∧ nodesUses X ns
/-- ... of the branches of an `if`. -/
def condUses (X : Use → Prop) : List Cond → Prop
  | [] => True
  | .mk _ c nodes :: bs => (∀ t, c = some t → X (condUse t)) ∧ nodesUses X nodes ∧ condUses X bs
/-- ... of the arms of a `match`. -/
def whenUses (X : Use → Prop) : List When → Prop
  | [] => True
  | .mk _ t nodes :: ws => X (.arm t) ∧ nodesUses X nodes ∧ whenUses X ws
end

/-- Every part of a macro. -/
def macroUses (X : Use → Prop) (d : MacroDef) : Prop := (∀ p ∈ d.args, X (.param p)) ∧ nodesUses X d.nodes

/-- Every part of a template, with its macros and blocks. -/
structure CtxUses (X : Use → Prop) (c : Ctx) : Prop where
  nodes : nodesUses X c.nodes
  macros : ∀ e ∈ c.macros, macroUses X e.2
  blocks : ∀ e ∈ c.blocks, nodesUses X e.2.nodes

/-- Every part of a template and of those it extends. -/
def HeritageUses (X : Use → Prop) (H : Option Heritage) : Prop :=
  ∀ h, H = some h → CtxUses X h.root ∧ ∀ e ∈ h.blocks, ∀ cd ∈ e.2, CtxUses X cd.1 ∧ nodesUses X cd.2.nodes

/-- A part of one of these templates: whatever covers all of their parts has it. -/
def PartOf (templates : List (Str × List Node)) (u : Use) : Prop :=
  ∀ X : Use → Prop, (∀ e ∈ templates, nodesUses X e.2) → X u

end Askama.Spec
