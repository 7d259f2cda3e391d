import Verif.Spec.Render

/-!
# Templates on which the code generator is faithful

The generator translates names by looking them up when output is written, not when an expression is met, it passes some
macro arguments by text, and it lets variables of blocks and included templates run into the enclosing Rust scope. On
templates that make use of the difference, generated code and template semantics disagree (see the `_false` theorems).
`good` is a static check that rules these templates out; it is computed from the syntax tree alone.
-/

namespace Askama.Spec

mutual
/-- The names an expression refers to, as Rust identifiers. -/
def Expr.vars : Expr → List Str
  | .boolLit _ | .numLit _ | .strLit _ | .charLit _ | .rustMacro _ _ | .generated _ => []
  | .var x => [rawIdent x]
  | .path [n] => [n]
  | .path _ => []
  | .array es => Expr.varsList es
  | .attr e _ => Expr.vars e
  | .index e k => Expr.vars e ++ Expr.vars k
  | .filter _ es => Expr.varsList es
  | .namedArg _ e => Expr.vars e
  | .unary _ e => Expr.vars e
  | .binop _ a b => Expr.vars a ++ Expr.vars b
  | .range _ a b => Expr.varsOpt a ++ Expr.varsOpt b
  | .group e => Expr.vars e
  | .tuple es => Expr.varsList es
  | .call f es => Expr.vars f ++ Expr.varsList es
  | .try_ e => Expr.vars e
/-- Names of a list of expressions. -/
def Expr.varsList : List Expr → List Str
  | [] => []
  | e :: es => Expr.vars e ++ Expr.varsList es
/-- Names of an optional expression. -/
def Expr.varsOpt : Option Expr → List Str
  | none => []
  | some e => Expr.vars e
end

/-- The names the generator makes up for filter blocks. No template can refer to them. -/
def internal (n : Str) : Bool := (c!"__filter_block").isPrefixOf n

/-- Names that the generated code uses for itself. -/
def claimed (n : Str) : Bool :=
  internal n || n == c!"writer" || n == c!"self" || n == c!"_loop_item" || n == c!"_iter" || n == c!"_did_loop"

/-- Names that the parser makes a path of. (For letters beyond ASCII it is a matter of Unicode whether they are lower case;
here they count as if they were.) -/
def pathLike (n : Str) : Bool :=
  match n with
  | [] => false
  | c :: _ => c == '_' || c.isUpper

/-- Names that no variable has in a template. -/
def strange (n : Str) : Bool := internal n || pathLike n

mutual
/-- The paths of one name in a pattern. It is a matter of the surrounding program whether they are constants or variables. -/
def Target.singles : Target → List Str
  | .path [n] => if n = c!"_" then [] else [n]
  | .tuple _ ts => Target.singlesList ts
  | .struct _ ts => Target.singlesFields ts
  | .orChain ts => Target.singlesList ts
  | .name _ | .path _ | .numLit _ | .strLit _ | .charLit _ | .boolLit _ => []
/-- The same for lists. -/
def Target.singlesList : List Target → List Str
  | [] => []
  | t :: ts => Target.singles t ++ Target.singlesList ts
/-- The same for the fields of a struct. -/
def Target.singlesFields : List (Str × Target) → List Str
  | [] => []
  | (_, t) :: ts => Target.singles t ++ Target.singlesFields ts
end

/-- What may be called: not a parameter that stands for its argument's text. -/
def calleeOk (R : List Str) : Expr → Bool
  | .var x => !R.contains (rawIdent x)
  | .namedArg _ _ => false
  | _ => true

mutual
/-- Expressions the parser can produce and whose calls and paths are as they seem: `R.1` are the names that stand for the
text of a macro argument, `R.2` those that cannot be used as paths. `hole` is the place of the text in the filters of a
filter block. -/
def exprOk (R : List Str × List Str) (hole : Option Str) : Expr → Bool
  | .boolLit _ | .numLit _ | .strLit _ | .charLit _ | .rustMacro _ _ => true
  | .path [n] => pathLike n && !claimed n && !R.2.contains n
  | .path _ => true
  | .var x => !strange (rawIdent x)
  | .array es => exprListOk R hole es
  | .attr e _ => exprOk R hole e
  | .index e k => exprOk R hole e && exprOk R hole k
  | .filter _ es => exprListOk R hole es
  | .namedArg _ e => exprOk R hole e
  | .unary _ e => exprOk R hole e
  | .binop _ a b => exprOk R hole a && exprOk R hole b
  | .range _ a b => exprOptOk R hole a && exprOptOk R hole b
  | .group e => exprOk R hole e
  | .tuple es => exprListOk R hole es
  | .call f es => calleeOk R.1 f && exprOk R hole f && exprListOk R hole es
  | .try_ e => exprOk R hole e
  | .generated s => hole == some s
/-- The same for lists. -/
def exprListOk (R : List Str × List Str) (hole : Option Str) : List Expr → Bool
  | [] => true
  | e :: es => exprOk R hole e && exprListOk R hole es
/-- The same for optional expressions. -/
def exprOptOk (R : List Str × List Str) (hole : Option Str) : Option Expr → Bool
  | none => true
  | some e => exprOk R hole e
end

mutual
/-- Does an expression refer to the innermost loop? -/
def usesLoop : Expr → Bool
  | .boolLit _ | .numLit _ | .strLit _ | .charLit _ | .path _ | .rustMacro _ _ | .generated _ => false
  | .var x => x == c!"loop"
  | .array es => usesLoopList es
  | .attr e _ => usesLoop e
  | .index e k => usesLoop e || usesLoop k
  | .filter _ es => usesLoopList es
  | .namedArg _ e => usesLoop e
  | .unary _ e => usesLoop e
  | .binop _ a b => usesLoop a || usesLoop b
  | .range _ a b => usesLoopOpt a || usesLoopOpt b
  | .group e => usesLoop e
  | .tuple es => usesLoopList es
  | .call f es => usesLoop f || usesLoopList es
  | .try_ e => usesLoop e
/-- The same for lists. -/
def usesLoopList : List Expr → Bool
  | [] => false
  | e :: es => usesLoop e || usesLoopList es
/-- The same for optional expressions. -/
def usesLoopOpt : Option Expr → Bool
  | none => false
  | some e => usesLoop e
end

/-- What the check keeps track of. -/
structure Sets where
  /-- names that must not be bound again: macro parameters, names in arguments passed by text, and names visible around
  an included template or block -/
  K : List Str
  /-- names that may stand for an argument's text -/
  R : List Str
  /-- all names that may be local variables -/
  V : List Str
  /-- names that are local variables with a value -/
  D : List Str
  /-- names used by output that may not be written yet -/
  P : List Str

/-- Names without a common element. -/
def disj (a b : List Str) : Bool := a.all fun x => !b.contains x

/-- Names that may be neither called nor used as a path: those standing for text, and those visible around a block, which
generated code sees and the template does not. -/
def Sets.refused (S : Sets) : List Str × List Str := (S.R, S.K)

/-- May the names of the pattern be bound? -/
def bindOk (S : Sets) (t : Target) : Bool :=
  (t.names.all fun n => !S.K.contains n && !claimed n && !pathLike n)
    && (Target.singles t).all fun n => !S.K.contains n && !claimed n && pathLike n

/-- The names of the pattern are bound to values. -/
def Sets.bind (S : Sets) (t : Target) : Sets :=
  { S with V := t.names ++ Target.singles t ++ S.V, D := t.names ++ S.D }

/-- All output is written. -/
def Sets.flushed (S : Sets) : Sets := { S with P := [] }

/-- Names that Rust has no other spelling for. -/
def simpleName (n : Str) : Bool := !rustKeywords.contains n && !(c!"r#").isPrefixOf n && n != c!"_"

/-- Literals as the parser makes them. -/
def litOk (l : Lit) : Bool := !l.val.isEmpty || l.rws.isEmpty

/-- A `let` tag: a variable that output still to be written may use must not change its meaning, unless the generator
is sure to write the output first. -/
def goodLet (S : Sets) (t : Target) (val : Option Expr) : Option Sets :=
  if bindOk S t && (Target.singles t).isEmpty then
    match val with
    | none =>
      if t.names.all simpleName then
        some { S with V := t.names ++ S.V, D := S.D.filter (fun n => !t.names.contains n), P := [] }
      else none
    | some e =>
      if exprOk S.refused none e then
        if t.names.any (fun n => S.D.contains n) then some (S.bind t).flushed
        else if disj t.names S.P then some (S.bind t)
        else none
      else none
  else none

/-- The condition of a branch; the result is for the body of the branch. -/
def goodCond (S : Sets) : Option CondTest → Option Sets
  | none => some S
  | some ⟨none, e⟩ => if exprOk S.refused none e then some S else none
  | some ⟨some t, e⟩ => if exprOk S.refused none e && bindOk S t then some (S.bind t) else none

/-- The recursive check of a list of nodes. -/
abbrev GoodRec := List Ctx → Ctx → Option (Str × Nat) → Sets → List Node → Option Sets

/-- The branches of an `if`. -/
def goodIf (rec : Sets → List Node → Option Sets) (S : Sets) : List Cond → Bool
  | [] => true
  | .mk _ cond nodes :: rest =>
    match goodCond S cond with
    | none => false
    | some S' => (rec S'.flushed nodes).isSome && goodIf rec S rest

/-- The arms of a `match`. -/
def goodMatch (rec : Sets → List Node → Option Sets) (S : Sets) : List When → Bool
  | [] => true
  | .mk _ t nodes :: rest =>
    bindOk S t && (rec (S.bind t).flushed nodes).isSome && goodMatch rec S rest

/-- A loop. -/
def goodLoop (rec : Sets → List Node → Option Sets) (S : Sets) (t : Target) (iter : Expr) (cond : Option Expr)
    (body elseNodes : List Node) : Bool :=
  exprOk S.refused none iter && bindOk S t && exprOptOk S.refused none cond
    && (rec (S.bind t).flushed body).isSome && (rec S.flushed elseNodes).isSome

/-- Positional arguments first, then named ones with different names (the parser makes sure of it). -/
def argsShape : List Expr → List Str → Bool
  | [], _ => true
  | .namedArg n _ :: rest, seen => !seen.contains n && argsShape rest (n :: seen)
  | _ :: rest, seen => seen.isEmpty && argsShape rest seen

/-- A parameter of a macro. -/
def paramOk (S : Sets) (p : Str) : Bool := simpleName p && !claimed p && !pathLike p && !S.K.contains p

/-- A macro call: no parameter has the name of a variable used in the arguments; inside, parameters and variables passed
by text are not bound again; `loop.…` is not passed by text. -/
def goodCall (I : GenInput) (rec : Ctx → Sets → List Node → Option Sets) (ctx : Ctx) (S : Sets) (scope : Option Str)
    (name : Str) (args : List Expr) : Bool :=
  match macroOf I ctx scope name with
  | none => false
  | some (d, own) =>
    argsShape args [] && exprListOk S.refused none args && d.args.all (paramOk S)
      && disj d.args (Expr.varsList args)
      && args.all (fun e => match e with
          | .namedArg _ e => !lazyArg e || !usesLoop e
          | e => !lazyArg e || !usesLoop e)
      && (rec own { K := d.args ++ Expr.varsList args ++ S.K, R := d.args ++ S.R, V := d.args ++ S.V,
                    D := S.D.filter (fun n => !d.args.contains n), P := [] } d.nodes).isSome

/-- A block: it binds no name that is visible around it, and the names it uses are not local variables around it. -/
def goodBlock (rec : GoodRec) (chain : List Ctx) (ctx : Ctx) (S : Sets) (name : Str) (k : Nat) : Option Sets :=
  match (blockDefs chain name)[k]? with
  | none => none
  | some (c, d) =>
    match rec chain (withMacrosOf c ctx) (some (name, k)) ⟨S.V ++ S.K, [], [], [], []⟩ d.nodes with
    | none => none
    | some S' => if disj S'.P S.V then some { S with P := S'.P } else none

/-- An included template: it binds no name that is visible around it. -/
def goodInclude (I : GenInput) (rec : GoodRec) (ctx : Ctx) (S : Sets) (path : Str) : Bool :=
  match I.find path with
  | none => false
  | some p =>
    match assoc I.contexts p with
    | none => false
    | some c =>
      let child := withMacrosOf c ctx
      match (if child.blocks.isEmpty && child.extends_.isNone then some []
             else lineage I.contexts (I.contexts.length + 2) child) with
      | none => false
      | some chain =>
        let root := chain.getLastD child
        (rec chain root none { S with K := S.V ++ S.K, P := [] } root.nodes).isSome

/-- Nodes that are sure to make some text (or to display an expression). -/
def visible : Node → Bool
  | .expr _ _ | .filterBlock _ _ _ _ => true
  | .lit l => !l.val.isEmpty
  | .raw _ l _ => !l.val.isEmpty
  | _ => false

mutual
/-- Nodes that only make text. -/
def quiet : Node → Bool
  | .lit _ | .comment _ _ | .expr _ _ | .raw _ _ _ => true
  | .filterBlock _ _ nodes _ => quietList nodes && nodes.any visible
  | _ => false
/-- The same for lists. -/
def quietList : List Node → Bool
  | [] => true
  | n :: ns => quiet n && quietList ns
end

/-- A filter block: only text inside, and not nothing. -/
def goodFilter (rec : Sets → List Node → Option Sets) (S : Sets) (f : FilterApp) (nodes : List Node) : Option Sets :=
  if quietList nodes && nodes.any visible && exprListOk S.refused none f.args && (rec S.flushed nodes).isSome then
    some { S with P := Expr.varsList f.args ++ S.P }
  else none

/-- One node. -/
def goodNode (I : GenInput) (rec : GoodRec) (chain : List Ctx) (ctx : Ctx) (sup : Option (Str × Nat)) (S : Sets) :
    Node → Option Sets
  | .lit l => if litOk l then some S else none
  | .comment _ _ => some S
  | .expr _ e => if exprOk S.refused none e then some { S with P := Expr.vars e ++ S.P } else none
  | .call _ scope name args =>
    if name = c!"super" then
      match sup with
      | none => none
      | some (b, k) => goodBlock rec chain ctx S b (k + 1)
    else if goodCall I (fun own => rec chain own sup) ctx S scope name args then some S.flushed else none
  | .let_ _ t val => goodLet S t val
  | .if_ _ branches => if goodIf (rec chain ctx sup) S branches then some S.flushed else none
  | .match_ _ e arms _ =>
    if exprOk S.refused none e && goodMatch (rec chain ctx sup) S arms then some S.flushed else none
  | .loop _ t iter cond body _ elseNodes _ =>
    if goodLoop (rec chain ctx sup) S t iter cond body elseNodes then some S.flushed else none
  | .extends_ _ => none
  | .blockDef _ name _ _ => goodBlock rec chain ctx S name 0
  | .include _ path => if goodInclude I rec ctx S path then some S.flushed else none
  | .import_ _ _ _ => some S
  | .macro _ _ _ _ _ => some S
  | .raw _ l _ => if litOk l then some S else none
  | .break_ _ => some S.flushed
  | .continue_ _ => some S.flushed
  | .filterBlock _ f nodes _ => goodFilter (rec chain ctx sup) S f nodes

/-- Is this node a literal? -/
def isLitNode : Node → Bool
  | .lit _ => true
  | _ => false

/-- Nodes in order; there are no two literals in a row. -/
def goodNodes (I : GenInput) (rec : GoodRec) (chain : List Ctx) (ctx : Ctx) (sup : Option (Str × Nat)) :
    Sets → List Node → Option Sets
  | S, [] => some S
  | S, n :: ns =>
    if isLitNode n && (ns.head?.map isLitNode).getD false then none
    else match goodNode I rec chain ctx sup S n with
      | none => none
      | some S' => goodNodes I rec chain ctx sup S' ns

/-- The check to a depth of `fuel` nested lists of nodes. -/
def good (I : GenInput) : Nat → GoodRec
  | 0 => fun _ _ _ _ _ => none
  | fuel + 1 => fun chain ctx sup S ns => goodNodes I (good I fuel) chain ctx sup S ns

/-- The check of a whole template. -/
def goodTemplate (I : GenInput) (fuel : Nat) (chain : List Ctx) (ctx : Ctx) : Bool :=
  let root := chain.getLastD ctx
  (good I fuel chain root none ⟨[], [], [], [], []⟩ root.nodes).isSome

end Askama.Spec
