import Verif.Model.Gen

/-!
# The expressions of a template

All expressions that stand in a template, in order. The expression of a filter block is its filters applied to a variable
`x` that holds the text of its content.
-/

namespace Askama.Spec

open Askama

mutual
/-- Expressions of a node. -/
def nodeExprs (x : Str) : Node → List Expr
  | .expr _ e => [e]
  | .call _ _ _ args => args
  | .let_ _ _ val => val.toList
  | .if_ _ bs => condExprs x bs
  | .match_ _ e arms _ => e :: whenExprs x arms
  | .loop _ _ iter cond body _ els _ => iter :: (cond.toList ++ (nodesExprs x body ++ nodesExprs x els))
  | .blockDef _ _ nodes _ => nodesExprs x nodes
  | .macro _ _ _ nodes _ => nodesExprs x nodes
  | .filterBlock _ f nodes _ => .filter f.name (Gen.insertFirst x f.args) :: nodesExprs x nodes
  | .lit _ | .comment _ _ | .extends_ _ | .include _ _ | .import_ _ _ _ | .raw _ _ _ | .break_ _ | .continue_ _ => []
/-- Expressions of several nodes. -/
def nodesExprs (x : Str) : List Node → List Expr
  | [] => []
  | n :: ns => nodeExprs x n ++ nodesExprs x ns
/-- Expressions of the branches of an `if`. -/
def condExprs (x : Str) : List Cond → List Expr
  | [] => []
  | .mk _ c nodes :: bs => (c.map (·.expr)).toList ++ (nodesExprs x nodes ++ condExprs x bs)
/-- Expressions of the arms of a `match`. -/
def whenExprs (x : Str) : List When → List Expr
  | [] => []
  | .mk _ _ nodes :: ws => nodesExprs x nodes ++ whenExprs x ws
end

end Askama.Spec
