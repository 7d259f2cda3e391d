import Verif.Model.Input

/-!
# Which templates belong to a template

The references of a template are read off its syntax tree; the templates that belong to it are the ones that can be
reached through references.
-/

namespace Askama.Spec

mutual
/-- The paths a node refers to. `extends` and `import` count at the top level only, and so do the bodies of macros. -/
def refsOf (top : Bool) : Node → List Str
  | .extends_ p => if top then [p] else []
  | .import_ _ p _ => if top then [p] else []
  | .include _ p => [p]
  | .macro _ _ _ nodes _ => if top then refsOfL false nodes else []
  | .filterBlock _ _ nodes _ => refsOfL false nodes
  | .blockDef _ _ nodes _ => refsOfL false nodes
  | .if_ _ branches => refsOfC branches
  | .match_ _ _ arms _ => refsOfW arms
  | .loop _ _ _ _ body _ elseNodes _ => refsOfL false body ++ refsOfL false elseNodes
  | .lit _ | .comment _ _ | .expr _ _ | .call _ _ _ _ | .let_ _ _ _ | .raw _ _ _ | .break_ _ | .continue_ _ => []
/-- The paths a list of nodes refers to. -/
def refsOfL (top : Bool) : List Node → List Str
  | [] => []
  | n :: ns => refsOf top n ++ refsOfL top ns
/-- The paths branches refer to. -/
def refsOfC : List Cond → List Str
  | [] => []
  | .mk _ _ nodes :: cs => refsOfL false nodes ++ refsOfC cs
/-- The paths arms refer to. -/
def refsOfW : List When → List Str
  | [] => []
  | .mk _ _ nodes :: ws => refsOfL false nodes ++ refsOfW ws
end

/-- The parsed template at a path; the text of the first one is given. -/
def parsed (ld : Loader) (main src p : Str) : Option (List Node) :=
  if p = main then ld.parse src else (ld.source p).bind ld.parse

/-- The templates that belong to the one at `main`. -/
inductive Reachable (ld : Loader) (main src : Str) : Str → Prop
  | main : Reachable ld main src main
  | step {p q r : Str} {nodes : List Node} : Reachable ld main src p → parsed ld main src p = some nodes →
    r ∈ refsOfL true nodes → ld.find p r = some q → Reachable ld main src q

/-- The template that a template extends, and so on, `n` times. -/
def ancestor (contexts : List (Str × Ctx)) : Nat → Ctx → Option Ctx
  | 0, c => some c
  | n + 1, c => (c.extends_.bind (assoc contexts)).bind (ancestor contexts n)

end Askama.Spec
