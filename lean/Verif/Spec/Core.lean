import Verif.Spec.Whole

/-!
# Templates without variables of their own

A class of templates that can be recognised at a glance, and on which the generator is faithful without further checks:
text, expressions, conditionals, `match`, loops, blocks, `super()`, included templates and filter blocks around text. Not
in the class are `let` and macro calls; blocks and included templates must not stand in the scope of a variable of a loop
or a pattern.
-/

namespace Askama.Spec

/-- An expression whose names are spelt as the parser demands (variables begin with a lower-case letter, paths of one name
with `_` or an upper-case letter), and are not among those the generated code uses for itself. -/
def ownExpr (e : Expr) : Bool := exprOk ([], []) none e

/-- The same for the names a pattern binds. -/
def ownNames (t : Target) : Bool :=
  (t.names.all fun n => !claimed n && !pathLike n) && (Target.singles t).all fun n => !claimed n && pathLike n

mutual
/-- A node of the class. `top` says that no variable is in scope. -/
def core (top : Bool) : Node → Bool
  | .lit _ | .comment _ _ | .raw _ _ _ | .break_ _ | .continue_ _ | .extends_ _ | .import_ _ _ _ | .macro _ _ _ _ _ => true
  | .expr _ e => ownExpr e
  | .call _ _ name _ => name == c!"super" && top
  | .let_ _ _ _ => false
  | .if_ _ branches => coreConds top branches
  | .match_ _ e arms _ => ownExpr e && coreArms arms
  | .loop _ t iter cond body _ elseNodes _ =>
    ownExpr iter && ownNames t && exprOptOk ([], []) none cond && coreList false body
      && coreList top elseNodes
  | .blockDef _ _ nodes _ => top && coreList true nodes
  | .include _ _ => top
  | .filterBlock _ f nodes _ =>
    quietList nodes && nodes.any visible && exprListOk ([], []) none f.args && coreList top nodes
/-- The same for lists of nodes. -/
def coreList (top : Bool) : List Node → Bool
  | [] => true
  | n :: ns => core top n && coreList top ns
/-- The same for the branches of an `if`. -/
def coreConds (top : Bool) : List Cond → Bool
  | [] => true
  | .mk _ none nodes :: rest => coreList top nodes && coreConds top rest
  | .mk _ (some ⟨none, e⟩) nodes :: rest => ownExpr e && coreList top nodes && coreConds top rest
  | .mk _ (some ⟨some t, e⟩) nodes :: rest =>
    ownExpr e && ownNames t && coreList false nodes && coreConds top rest
/-- The same for the arms of a `match`. -/
def coreArms : List When → Bool
  | [] => true
  | .mk _ t nodes :: rest => ownNames t && coreList false nodes && coreArms rest
end

/-- All templates that belong to a template are of the class. -/
def Whole.core (w : Whole) : Bool := w.input.contexts.all fun e => coreList true e.2.nodes

end Askama.Spec
