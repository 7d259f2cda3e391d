import Verif.Spec.Refs

/-!
# Templates that compile

The rules for templates that stand alone: what is written in them is all there is to them, since they refer to no other
template. A template that keeps the rules is accepted; what the Rust compiler says about the generated code is another
matter.
-/

namespace Askama.Spec

/-- What the rules depend on besides the template. -/
structure Options where
  /-- the feature `serde-json` -/
  json : Bool
  /-- the escapers by the names they are known for -/
  escapers : List (List Str × Str)

/-- The options of an input. -/
def _root_.Askama.GenInput.options (I : GenInput) : Options := ⟨I.json, I.escapers⟩

/-- A filter that looks at how its arguments are written: how many of them there are, and that a format or the name of an
escaper is a string literal. All others take anything. The first argument is the filtered value. -/
def filterFits (o : Options) (name : Str) (args : List Expr) : Bool :=
  if name ∈ [c!"as_ref", c!"deref", c!"safe"] then args.length == 1
  else if name ∈ [c!"json", c!"tojson"] then o.json && args.length == 1
  else if name ∈ [c!"escape", c!"e"] then
    match args with
    | [_] => true
    | [_, .strLit esc] => o.escapers.any fun e => e.1.contains esc
    | _ => false
  else if name = c!"fmt" then
    match args with
    | [_, .strLit _] => true
    | _ => false
  else if name = c!"format" then
    match args with
    | .strLit _ :: _ => true
    | _ => false
  else true

/-- An array literal without elements. -/
def emptyArray : Expr → Bool
  | .array [] => true
  | _ => false

mutual
/-- The rules for expressions: `loop` has the attributes `index`, `index0`, `first` and `last` and the method `cycle`,
which takes one argument that is not an empty array; and filters get the arguments they ask for. -/
def exprFits (o : Options) : Expr → Bool
  | .boolLit _ | .numLit _ | .strLit _ | .charLit _ | .var _ | .path _ | .rustMacro _ _ | .generated _ => true
  | .array es | .tuple es => exprsFit o es
  | .attr (.var x) a => x != c!"loop" || [c!"index", c!"index0", c!"first", c!"last"].contains a
  | .attr e _ | .namedArg _ e | .unary _ e | .group e | .try_ e => exprFits o e
  | .index a b | .binop _ a b => exprFits o a && exprFits o b
  | .filter name args => filterFits o name args && exprsFit o args
  | .range _ a b => optFits o a && optFits o b
  | .call (.attr (.var x) m) args =>
    exprsFit o args && (x != c!"loop" || (m == c!"cycle" && args.length == 1 && !args.any emptyArray))
  | .call f args => exprFits o f && exprsFit o args
/-- ... for all of them. -/
def exprsFit (o : Options) : List Expr → Bool
  | [] => true
  | e :: es => exprFits o e && exprsFit o es
/-- ... for the ends of a range. -/
def optFits (o : Options) : Option Expr → Bool
  | none => true
  | some e => exprFits o e
end

mutual
/-- A pattern made of names only. -/
def binds : Target → Bool
  | .name _ => true
  | .tuple _ ts => bindsAll ts
  | .struct _ ts => bindsFields ts
  | _ => false
/-- ... all of them. -/
def bindsAll : List Target → Bool
  | [] => true
  | t :: ts => binds t && bindsAll ts
/-- ... all fields. -/
def bindsFields : List (Str × Target) → Bool
  | [] => true
  | (_, t) :: ts => binds t && bindsFields ts
end

/-- The name of an argument that has one. -/
def argLabel : Expr → Option Str
  | .namedArg n _ => some n
  | _ => none

/-- The arguments of a call fit the parameters: positional ones for the first, and those with a name for the others. -/
def argsFit (params : List Str) (args : List Expr) : Bool :=
  let named := args.filterMap argLabel
  let first := args.length - named.length
  args.length == params.length && (params.take first).all (fun p => !named.contains p) &&
    (params.drop first).all (fun p => named.contains p) && named.all (fun n => params.contains n)

mutual
/-- The filters of a filter block, applied to something. -/
def piped (v : Expr) : List Expr → List Expr
  | [] => [v]
  | e :: rest => pipedInto v e ++ rest
/-- ... by the first of several filters. -/
def pipedInto (v : Expr) : Expr → List Expr
  | .filter name args => [.filter name (piped v args)]
  | e => [v, e]
end

/-- The rules for a tag, other than a call, a block, `include` and `extends`; `inside` is what is asked for of the nodes inside of it.
Macros and `import` are at the top. -/
def tagFits (o : Options) (inside : List Node → Bool) (top : Bool) : Node → Bool
  | .lit _ | .comment _ _ | .raw _ _ _ | .break_ _ | .continue_ _ => true
  | .expr _ e => exprFits o e
  | .let_ _ _ none => true
  | .let_ _ t (some e) => binds t && exprFits o e
  | .if_ _ bs => bs.all fun
    | .mk _ test ns => test.all (fun t => exprFits o t.expr) && inside ns
  | .match_ _ e arms _ => exprFits o e && arms.all fun
    | .mk _ _ ns => inside ns
  | .loop _ _ iter cond body _ els _ => exprFits o iter && optFits o cond && inside body && inside els
  | .filterBlock _ f ns _ => exprFits o (.filter f.name (piped (.boolLit c!"true") f.args)) && inside ns
  | .macro _ _ _ _ _ | .import_ _ _ _ => top
  | .call _ _ _ _ | .blockDef _ _ _ _ | .include _ _ | .extends_ _ => false

/-- The rules for nodes that are nested at most `n` deep, calls of macros included. -/
def nodesFit (o : Options) (macros : List (Str × MacroDef)) : Nat → Bool → List Node → Bool
  | 0, _, _ => false
  | n + 1, top, nodes => nodes.all fun
    | .call _ none name args =>
      name != c!"super" && match assoc macros name with
        | some d => argsFit d.args args && exprsFit o args && nodesFit o macros n false d.nodes
        | none => false
    | .call _ (some _) _ _ | .blockDef _ _ _ _ | .include _ _ | .import_ _ _ _ | .extends_ _ => false
    | m => tagFits o (nodesFit o macros n false) top m

/-- The macros of a template, the last one first. -/
def ownMacros (nodes : List Node) : List (Str × MacroDef) :=
  (nodes.filterMap fun
    | .macro ws1 name params body ws2 => some (name, ⟨ws1, params, body, ws2⟩)
    | _ => none).reverse

/-- Anything that neither refers to another template nor is a block. -/
def ownNode : Node → Bool
  | .extends_ _ | .include _ _ | .import_ _ _ _ | .blockDef _ _ _ _ => false
  | _ => true

/-- A template that stands alone: no node refers to another template, there are no blocks, and all macros are at the top. -/
def standsAlone (nodes : List Node) : Bool :=
  (partsL nodes).all ownNode && nodes.all fun n => (parts n).tail.all notMacro

/-- A template that stands alone and keeps the rules, with at most `n` tags and calls of macros inside of each other. -/
def wellFormed (o : Options) (n : Nat) (nodes : List Node) : Bool :=
  standsAlone nodes && nodesFit o (ownMacros nodes) n true nodes

/-- Anything but what is not checked in full: filter blocks, assignments to more than names, and macros with two parameters
of the same name. -/
def simpleNode : Node → Bool
  | .filterBlock _ _ _ _ => false
  | .let_ _ t (some _) => binds t
  | .macro _ _ params _ _ => decide params.Nodup
  | _ => true

end Askama.Spec
