import Verif.Spec.Good
import Verif.Model.Input

/-!
# The meaning of a whole template

From the attribute and the files to the rendered text: the templates are loaded, and the root of the inheritance chain is
rendered by the interpreter of `Verif.Spec.Render`.
-/

namespace Askama.Spec

/-- The templates along the inheritance chain, from the template itself to the root; none if there are no blocks and
nothing is extended. -/
def chainOf (contexts : List (Str × Ctx)) (ctx : Ctx) : Option (List Ctx) :=
  if ctx.blocks.isEmpty && ctx.extends_.isNone then some [] else lineage contexts (contexts.length + 2) ctx

/-- A template with everything that belongs to it. -/
structure Whole where
  /-- settings and templates -/
  input : GenInput
  /-- the template -/
  ctx : Ctx
  /-- its inheritance chain -/
  chain : List Ctx

/-- Load a template and all templates that belong to it (see `C54_reachable` for which these are). -/
def load (env : DeriveEnv) (c : Config) (ident : Str) (args : TemplateArgs) (fuel : Nat) : Option Whole :=
  match TemplateInput.new env.files env.guess c ident args with
  | .error _ => none
  | .ok t =>
    match mainSource env t with
    | .error _ => none
    | .ok src =>
      match findUsedTemplates (env.loader c t.syn) fuel t.path src with
      | .error _ => none
      | .ok templates =>
        match makeContexts (env.loader c t.syn).find (dedupKeys templates []) with
        | .error _ => none
        | .ok contexts =>
          (assoc contexts t.path).bind fun ctx =>
            (chainOf contexts ctx).map fun chain => ⟨genInput env c t contexts, ctx, chain⟩

/-- The text of a template. -/
def Whole.text {U : Type} (w : Whole) (W : World U) (fuel : Nat) : Option Str := render W w.input fuel w.chain w.ctx

/-- Is the generator faithful on the template? -/
def Whole.good (w : Whole) (fuel : Nat) : Bool := goodTemplate w.input fuel w.chain w.ctx

/-- Running a rendering function from the beginning. -/
def output {U : Type} (W : World U) (code : List Stmt) : Option Str :=
  (execList W ⟨[], none, false, []⟩ code).map (·.1)

end Askama.Spec
