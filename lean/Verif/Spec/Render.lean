import Verif.Spec.Text
import Verif.Spec.Names

/-!
# What a template means

A direct interpreter for parsed templates, written from the book's description of the language and independent of the
code generator: no pending output, no text substitution, no caches. The operations on values are those of a `World`.
Matching a value against a pattern and binding its variables is Rust's and shared with `Verif.Model.Rust`.
-/

namespace Askama.Spec

variable {U : Type}

/-- The variables of a template while it is being rendered: values, innermost first; which names are local variables
here, and whether they have a value yet; and the state of the innermost loop. -/
structure Store (U : Type) where
  vars : List (Str × Option (Val U))
  known : List (Str × Bool)
  item : Option LoopItem

/-- Is this a local variable, and was it given a value? -/
def Store.status (st : Store U) (n : Str) : Option Bool := (st.known.find? (fun e => e.1 == n)).map (·.2)

/-- The value of a name: that of the innermost local variable, else the field of the context. -/
def Store.name (W : World U) (st : Store U) (x : Str) : Option (Val U) :=
  match st.status (rawIdent x) with
  | some _ => (st.vars.find? (fun e => e.1 == rawIdent x)).bind (·.2)
  | none => W.attr W.self_ (rawIdent x)

/-- The value of a path. A name that does not begin with a lower case letter (`_x`, `FOO`) is a path of one name; it is
the local variable of that name, if there is one. -/
def Store.path (W : World U) (st : Store U) : List Str → Option (Val U)
  | [n] =>
    match st.status n with
    | some _ => (st.vars.find? (fun e => e.1 == n)).bind (·.2)
    | none => W.path [n]
  | p => W.path p

/-! ## Expressions -/

/-- `loop.cycle(values)`. -/
def cycleOf (vs : List (Val U)) (item : LoopItem) : Option (Val U) :=
  if vs.isEmpty then none else vs[item.index % vs.length]?

mutual
/-- The value of an expression. `hole` is the text that a filter block filters. -/
def evalE (W : World U) (I : GenInput) (st : Store U) (hole : Option (Val U)) : Expr → Option (Val U)
  | .boolLit s => some (W.lit .bool s)
  | .numLit s => some (W.lit .num s)
  | .strLit s => some (W.lit .str s)
  | .charLit s => some (W.lit .char s)
  | .var x => if x = c!"self" then some W.self_ else st.name W x
  | .path p => st.path W p
  | .array es => (evalEs W I st hole es).bind W.array
  | .attr (.var x) a =>
    if x = c!"loop" then
      if a = c!"index" then st.item.map fun i => W.nat (i.index + 1)
      else if a = c!"index0" then st.item.map fun i => W.nat i.index
      else if a = c!"first" then st.item.map fun i => W.bool i.first
      else if a = c!"last" then st.item.map fun i => W.bool i.last
      else none
    else (if x = c!"self" then some W.self_ else st.name W x).bind fun v => W.attr v (rawIdent a)
  | .attr e a => (evalE W I st hole e).bind fun v => W.attr v (rawIdent a)
  | .index e k => (evalE W I st hole e).bind fun v => (evalE W I st hole k).bind fun w => W.index v w
  | .filter name args =>
    if name = c!"as_ref" then
      match args with
      | [a] => evalE W I st hole a
      | _ => none
    else if name = c!"deref" then
      match args with
      | [a] => (evalE W I st hole a).bind W.deref
      | _ => none
    else if name = c!"escape" ∨ name = c!"e" then
      match args with
      | [a] => (evalE W I st hole a).map (.esc I.escaper)
      | [a, .strLit n] =>
        match I.escapers.find? (fun e => e.1.contains n) with
        | some x => (evalE W I st hole a).map (.esc x.2)
        | none => none
      | _ => none
    else if name = c!"fmt" then
      match args with
      | [a, .strLit f] => (evalE W I st hole a).bind fun v => W.format f [v]
      | _ => none
    else if name = c!"format" then
      match args with
      | .strLit f :: rest => (evalEs W I st hole rest).bind (W.format f)
      | _ => none
    else if name = c!"join" then (evalEs W I st hole args).bind W.join
    else if name = c!"json" ∨ name = c!"tojson" then
      match args with
      | [a] => (evalE W I st hole a).bind fun v => W.filter true c!"json" [v]
      | _ => none
    else if name = c!"safe" then
      match args with
      | [a] => (evalE W I st hole a).map .safe
      | _ => none
    else (evalEs W I st hole args).bind (W.filter (builtInFilters.contains name) name)
  | .namedArg _ e => evalE W I st hole e
  | .unary op e => (evalE W I st hole e).bind (W.unop op)
  | .binop op a b =>
    (evalE W I st hole a).bind fun v =>
      if op = c!"&&" then
        (W.truthy v).bind fun t =>
          if t then ((evalE W I st hole b).bind W.truthy).map W.bool else some (W.bool false)
      else if op = c!"||" then
        (W.truthy v).bind fun t =>
          if t then some (W.bool true) else ((evalE W I st hole b).bind W.truthy).map W.bool
      else (evalE W I st hole b).bind fun w => W.binop op v w
  | .range op a b => (evalO W I st hole a).bind fun v => (evalO W I st hole b).bind fun w => W.range op v w
  | .group e => evalE W I st hole e
  | .tuple es => (evalEs W I st hole es).bind W.tuple
  | .call (.attr (.var x) m) args =>
    if x = c!"loop" then
      if m = c!"cycle" then
        match args with
        | [a] => (evalE W I st hole a).bind fun v => (W.elems v).bind fun vs => st.item.bind fun i => cycleOf vs i
        | _ => none
      else none
    else (if x = c!"self" then some W.self_ else st.name W x).bind fun v =>
      (evalEs W I st hole args).bind fun vs => W.method v (rawIdent m) vs
  | .call (.attr e m) args =>
    (evalE W I st hole e).bind fun v => (evalEs W I st hole args).bind fun vs => W.method v (rawIdent m) vs
  | .call (.var x) args => (st.name W x).bind fun v => (evalEs W I st hole args).bind fun vs => W.call v vs
  | .call f args => (evalE W I st hole f).bind fun v => (evalEs W I st hole args).bind fun vs => W.call v vs
  | .rustMacro p a => W.rustMacro p a
  | .try_ e => (evalE W I st hole e).bind W.try_
  | .generated _ => hole
/-- The values of a list of expressions. -/
def evalEs (W : World U) (I : GenInput) (st : Store U) (hole : Option (Val U)) : List Expr → Option (List (Val U))
  | [] => some []
  | e :: es => (evalE W I st hole e).bind fun v => (evalEs W I st hole es).map (v :: ·)
/-- The value of an optional expression. -/
def evalO (W : World U) (I : GenInput) (st : Store U) (hole : Option (Val U)) : Option Expr → Option (Option (Val U))
  | none => some none
  | some e => (evalE W I st hole e).map some
end

/-- Expressions whose result is displayed as it is: the outermost filter is `safe`, `escape` or `e`. -/
def marked : Expr → Bool
  | .filter name _ => name = c!"safe" || name = c!"escape" || name = c!"e"
  | _ => false

/-- The text of `{{ e }}`. -/
def showE (W : World U) (I : GenInput) (st : Store U) (hole : Option (Val U)) (e : Expr) : Option Str :=
  (evalE W I st hole e).bind fun v =>
    if marked e then W.show_ v 0 else (W.show_ v 0).map (W.escape I.escaper)

/-! ## Whitespace -/

/-- What remains of whitespace. -/
def applyWs (h : WH) (s : Str) : Str :=
  match h with
  | .preserve => s
  | .suppress => []
  | .minimize => if s = [] then [] else if '\n' ∈ s then ['\n'] else [' ']

/-- The handling asked for at one side of a tag: the marker there, or the configured default. -/
def sideOf (I : GenInput) : Option Wsp → WH
  | some .suppress => .suppress
  | some .preserve => .preserve
  | some .minimize => .minimize
  | none => I.ws

/-- The text of a literal between two tags: `before` is the handling asked for by the tag before it (`preserve` at the
start of the template), `after` by the tag after it (`none` at the end of the template). A literal of nothing but
whitespace is dropped if the tag before suppresses, and is otherwise up to the tag after it. -/
def litText (before : WH) (l : Lit) (after : Option WH) : Str :=
  if l.val = [] then
    if before = .suppress then [] else applyWs (after.getD before) l.lws
  else applyWs before l.lws ++ l.val ++ applyWs (after.getD .preserve) l.rws

/-- The marker at the left end of a node. -/
def leftMark : Node → Option Wsp
  | .lit _ => none
  | .extends_ _ => none
  | .comment ws _ | .expr ws _ | .call ws _ _ _ | .let_ ws _ _ | .include ws _ | .import_ ws _ _ | .break_ ws
  | .continue_ ws => ws.l
  | .if_ _ branches =>
    match branches with
    | .mk ws _ _ :: _ => ws.l
    | [] => none
  | .match_ ws1 _ _ _ | .loop ws1 _ _ _ _ _ _ _ | .blockDef ws1 _ _ _ | .macro ws1 _ _ _ _ | .raw ws1 _ _
  | .filterBlock ws1 _ _ _ => ws1.l

/-- The marker at the right end of a node. -/
def rightMark : Node → Option Wsp
  | .lit _ => none
  | .extends_ _ => none
  | .comment ws _ | .expr ws _ | .call ws _ _ _ | .let_ ws _ _ | .include ws _ | .import_ ws _ _ | .break_ ws
  | .continue_ ws | .if_ ws _ => ws.r
  | .match_ _ _ _ ws2 | .blockDef _ _ _ ws2 | .macro _ _ _ _ ws2 | .raw _ _ ws2 | .filterBlock _ _ _ ws2 => ws2.r
  | .loop _ _ _ _ _ _ _ ws3 => ws3.r

/-- The handling asked for by what follows a node: the next node, or what follows the list. -/
def nextSide (I : GenInput) (ns : List Node) (after : Option WH) : Option WH :=
  match ns with
  | [] => after
  | n :: _ => some (sideOf I (leftMark n))

/-! ## Variables -/

/-- Declare the variables of a pattern. -/
def Store.declare (st : Store U) (ns : List Str) (vs : List (Val U)) (defined : Bool) : Store U :=
  { st with vars := bindVars ns vs st.vars, known := ns.foldl (fun k n => (n, defined) :: k) st.known }

/-- Leave a scope: the variables declared in it go away, and the loop is the one of the outer scope. -/
def Store.leave (outer inner : Store U) : Store U :=
  { vars := leaveVars outer.vars inner.vars, known := outer.known, item := outer.item }

/-! ## Nodes -/

/-- The result of rendering: the text, which is `none` if an expression in it cannot be displayed; how the nodes were
left (`break` and `continue` leave them early); and the variables. The whole is `none` if a condition, an iterator or
the value of a variable cannot be evaluated. -/
abbrev Res (U : Type) := Option (Option Str × Sig × Store U)

/-- A result without text. -/
def silent (st : Store U) : Res U := some (some [], .next, st)

/-- Rendering of a list of nodes, given: the templates from the rendered one to the root of its inheritance chain (none
if blocks are not used), the template the nodes belong to, the block they are part of and how many times `super()` led
here, the handling of whitespace before them, the nodes, and the handling of whitespace after them. -/
abbrev Render (U : Type) := List Ctx → Ctx → Option (Str × Nat) → WH → List Node → Option WH → Store U → Res U

/-- A `let` tag. Giving a value to a variable that was declared without one initialises that variable; otherwise `let`
makes a new variable. -/
def runLet (W : World U) (I : GenInput) (st : Store U) (t : Target) (val : Option Expr) : Res U :=
  match val with
  | none => silent (st.declare (t.bound W) [] false)
  | some e =>
    (evalE W I st none e).bind fun v =>
      match t with
      | .name n =>
        if st.status (rawIdent n) = some false then
          (assignVar (rawIdent n) v st.vars).bind fun vars =>
            silent { st with vars := vars, known := (rawIdent n, true) :: st.known }
        else (patMatch W t v).bind fun vs => silent (st.declare (t.bound W) vs true)
      | t => (patMatch W t v).bind fun vs => silent (st.declare (t.bound W) vs true)

/-- Does the condition of a branch hold, and with which variables? -/
def runCond (W : World U) (I : GenInput) (st : Store U) : Option CondTest → Option (Option (Store U))
  | none => some (some st)
  | some ⟨none, e⟩ => ((evalE W I st none e).bind W.truthy).map fun b => if b then some st else none
  | some ⟨some t, .binop op a b⟩ =>
    if op = c!"||" then none
    else if op = c!"&&" then
      (evalE W I st none a).bind fun v =>
        match patMatch W t v with
        | none => some none
        | some vs =>
          ((evalE W I (st.declare (t.bound W) vs true) none b).bind W.truthy).map fun c =>
            if c then some (st.declare (t.bound W) vs true) else none
    else (evalE W I st none (.binop op a b)).map fun v =>
      (patMatch W t v).map fun vs => st.declare (t.bound W) vs true
  | some ⟨some t, e⟩ => (evalE W I st none e).map fun v =>
      (patMatch W t v).map fun vs => st.declare (t.bound W) vs true

/-- The left handling of what follows a branch or arm: the next one, or the closing tag. -/
def condAfter (I : GenInput) (rest : List Cond) (ws : Ws) : WH :=
  match rest with
  | .mk ws' _ _ :: _ => sideOf I ws'.l
  | [] => sideOf I ws.l

/-- The first branch whose condition holds is rendered. -/
def runIf (W : World U) (I : GenInput) (rec : WH → List Node → Option WH → Store U → Res U) (ws : Ws) (st : Store U) :
    List Cond → Res U
  | [] => silent st
  | .mk w cond nodes :: rest =>
    (runCond W I st cond).bind fun
      | some st' => (rec (sideOf I w.r) nodes (some (condAfter I rest ws)) st').map fun (s, sig, st'') =>
          (s, sig, st.leave st'')
      | none => runIf W I rec ws st rest

/-- The left handling of what follows an arm. -/
def whenAfter (I : GenInput) (rest : List When) (ws : Ws) : WH :=
  match rest with
  | .mk ws' _ _ :: _ => sideOf I ws'.l
  | [] => sideOf I ws.l

/-- The first arm whose pattern matches is rendered; there must be one. -/
def runMatch (W : World U) (I : GenInput) (rec : WH → List Node → Option WH → Store U → Res U) (ws : Ws) (st : Store U)
    (v : Val U) : List When → Res U
  | [] => none
  | .mk w t nodes :: rest =>
    match patMatch W t v with
    | some vs => (rec (sideOf I w.r) nodes (some (whenAfter I rest ws)) (st.declare (t.bound W) vs true)).map
        fun (s, sig, st'') => (s, sig, st.leave st'')
    | none => runMatch W I rec ws st v rest

/-- The items of a loop that pass its `if`. -/
def keepItems (W : World U) (I : GenInput) (st : Store U) (t : Target) (c : Expr) :
    List (Val U) → Option (List (Val U))
  | [] => some []
  | v :: vs =>
    (patMatch W t v).bind fun ws =>
      ((evalE W I (st.declare (t.bound W) ws true) none c).bind W.truthy).bind fun b =>
        (keepItems W I st t c vs).map fun rest => if b then v :: rest else rest

/-- The iterations of a loop. -/
def runItems (W : World U) (t : Target) (body : Store U → Res U) : List (Val U) → Nat → Store U →
    Option (Option Str × Store U)
  | [], _, st => some (some [], st)
  | v :: vs, i, st =>
    (patMatch W t v).bind fun ws =>
      (body { st.declare (t.bound W) ws true with
              item := some { index := i, first := i == 0, last := vs.isEmpty } }).bind fun (s, sig, st') =>
        if sig = .brk then some (s, st.leave st')
        else (runItems W t body vs (i + 1) (st.leave st')).map fun (s', st'') => (oapp s s', st'')

/-- A loop: its body once for each item, or the `else` part if there is no item. -/
def runLoop (W : World U) (I : GenInput) (rec : WH → List Node → Option WH → Store U → Res U) (st : Store U) (ws1 : Ws)
    (t : Target) (iter : Expr) (cond : Option Expr) (body : List Node) (ws2 : Ws) (elseNodes : List Node) (ws3 : Ws) :
    Res U :=
  (evalE W I st none iter).bind fun v =>
    (W.iter v).bind fun vs =>
      (match cond with
        | none => some vs
        | some c => keepItems W I st t c vs).bind fun vs =>
          if vs.isEmpty then
            if elseNodes.isEmpty then silent st
            else (rec (sideOf I ws2.r) elseNodes (some (sideOf I ws3.l)) st).map fun (s, sig, st') =>
              (s, sig, st.leave st')
          else (runItems W t (rec (sideOf I ws1.r) body (some (sideOf I ws2.l))) vs 0 st).map fun (s, st') =>
            (s, .next, st')

/-! ### Macros -/

/-- The macro of a call and the template it is defined in. -/
def macroOf (I : GenInput) (ctx : Ctx) (scope : Option Str) (name : Str) : Option (MacroDef × Ctx) :=
  match scope with
  | none => (assoc ctx.macros name).map fun d => (d, ctx)
  | some s =>
    (assoc ctx.imports s).bind fun path => (assoc I.contexts path).bind fun mctx =>
      (assoc mctx.macros name).map fun d => (d, mctx)

/-- The argument for a parameter: the one named like it, else the one at its position. -/
def argFor (args : List Expr) (p : Str) (i : Nat) : Option Expr :=
  match args.find? (fun | .namedArg n _ => n == p | _ => false) with
  | some e => some e
  | none => args[i]?

/-- Arguments that are passed without being evaluated first. -/
def lazyArg : Expr → Bool
  | .var x => x ≠ c!"self"
  | .attr _ _ => true
  | _ => false

/-- The values of the parameters, all of them in the scope of the call. The value of a name or attribute need not
exist as long as the parameter is not used. -/
def argValues (W : World U) (I : GenInput) (st : Store U) (args : List Expr) : List Str → Nat →
    Option (List (Str × Option (Val U)))
  | [], _ => some []
  | p :: ps, i =>
    (argFor args p i).bind fun e =>
      let v := evalE W I st none e
      if v.isNone && !lazyArg e then none
      else (argValues W I st args ps (i + 1)).map ((p, v) :: ·)

/-- A macro call: the body of the macro with its parameters bound. -/
def runCall (W : World U) (I : GenInput) (rec : Ctx → WH → List Node → Option WH → Store U → Res U) (ctx : Ctx)
    (st : Store U) (scope : Option Str) (name : Str) (args : List Expr) : Res U :=
  (macroOf I ctx scope name).bind fun (d, own) =>
    (argValues W I st args d.args 0).bind fun ps =>
      let st' := { st with vars := ps.reverse ++ st.vars, known := (ps.map fun p => (p.1, true)).reverse ++ st.known }
      (rec own (sideOf I d.ws1.r) d.nodes (some (sideOf I d.ws2.l)) st').map fun (s, sig, st'') =>
        (s, sig, st.leave st'')

/-! ### Inheritance and includes -/

/-- The templates from `ctx` up to the root of its inheritance chain. -/
def lineage (contexts : List (Str × Ctx)) : Nat → Ctx → Option (List Ctx)
  | 0, _ => none
  | fuel + 1, ctx =>
    match ctx.extends_ with
    | none => some [ctx]
    | some path => (assoc contexts path).bind fun p => (lineage contexts fuel p).map (ctx :: ·)

/-- The definitions of a block, the most derived first. -/
def blockDefs (chain : List Ctx) (name : Str) : List (Ctx × BlockDefn) :=
  chain.filterMap fun c => (assoc c.blocks name).map fun d => (c, d)

/-- A template in which the macros and imports of another can be used as well. -/
def withMacrosOf (child ctx : Ctx) : Ctx :=
  { child with macros := child.macros ++ ctx.macros, imports := child.imports ++ ctx.imports }

/-- A block, or `super()`: the definition number `k` of the block. Local variables are not visible inside. -/
def runBlock (I : GenInput) (rec : Render U) (chain : List Ctx) (ctx : Ctx) (st : Store U) (name : Str) (k : Nat) :
    Res U :=
  match (blockDefs chain name)[k]? with
  | none => none
  | some (c, d) =>
    (rec chain (withMacrosOf c ctx) (some (name, k)) (sideOf I d.ws1.r) d.nodes (some (sideOf I d.ws2.l))
      { st with vars := [], known := [] }).map fun (s, sig, _) => (s, sig, st)

/-- An included template: rendered with the variables of the place of inclusion. -/
def runInclude (I : GenInput) (rec : Render U) (ctx : Ctx) (st : Store U) (path : Str) : Res U :=
  (I.find path).bind fun p => (assoc I.contexts p).bind fun c =>
    let child := withMacrosOf c ctx
    (if child.blocks.isEmpty && child.extends_.isNone then some [] else lineage I.contexts (I.contexts.length + 2) child).bind
      fun chain =>
        let root := chain.getLastD child
        (rec chain root none .preserve root.nodes none st).map fun (s, sig, st') => (s, sig, st.leave st')

/-! ### Filter blocks -/

mutual
/-- The arguments of a filter block's filters with the text put in: it is the first argument of the innermost filter. -/
def fillHole : List Expr → List Expr
  | [] => [.generated []]
  | e :: rest => fillFirst e ++ rest
/-- The first argument with the text put in, or after the text if it is not a filter. -/
def fillFirst : Expr → List Expr
  | .filter name args => [.filter name (fillHole args)]
  | e => [.generated [], e]
end

/-- A filter block: its text is passed through the filters and displayed like the value of an expression. -/
def runFilter (W : World U) (I : GenInput) (rec : WH → List Node → Option WH → Store U → Res U) (st : Store U) (ws1 : Ws)
    (f : FilterApp) (nodes : List Node) (ws2 : Ws) : Res U :=
  (rec (sideOf I ws1.r) nodes (some (sideOf I ws2.l)) st).map fun (s, sig, st') =>
    (s.bind fun s => showE W I st' (some (W.str s)) (.filter f.name (fillHole f.args)), sig, st')

/-! ### The interpreter -/

/-- Rendering of one node. `before` matters for literals only: it is the handling of whitespace asked for by the tag
before. -/
def runNode (W : World U) (I : GenInput) (rec : Render U) (chain : List Ctx) (ctx : Ctx) (sup : Option (Str × Nat))
    (before : WH) (after : Option WH) (st : Store U) : Node → Res U
  | .lit l => some (some (litText before l after), .next, st)
  | .comment _ _ => silent st
  | .expr _ e => some (showE W I st none e, .next, st)
  | .call _ scope name args =>
    if name = c!"super" then
      match sup with
      | none => none
      | some (b, k) => runBlock I rec chain ctx st b (k + 1)
    else runCall W I (fun own => rec chain own sup) ctx st scope name args
  | .let_ _ t val => runLet W I st t val
  | .if_ ws branches => runIf W I (rec chain ctx sup) ws st branches
  | .match_ _ e arms ws2 => (evalE W I st none e).bind fun v => runMatch W I (rec chain ctx sup) ws2 st v arms
  | .loop ws1 t iter cond body ws2 elseNodes ws3 =>
    runLoop W I (rec chain ctx sup) st ws1 t iter cond body ws2 elseNodes ws3
  | .extends_ _ => silent st
  | .blockDef _ name _ _ => runBlock I rec chain ctx st name 0
  | .include _ path => runInclude I rec ctx st path
  | .import_ _ _ _ => silent st
  | .macro _ _ _ _ _ => silent st
  | .raw ws1 l ws2 => some (some (litText (sideOf I ws1.r) l (some (sideOf I ws2.l))), .next, st)
  | .break_ _ => some (some [], .brk, st)
  | .continue_ _ => some (some [], .cont, st)
  | .filterBlock ws1 f nodes ws2 => runFilter W I (rec chain ctx sup) st ws1 f nodes ws2

/-- Rendering of nodes in order, up to a `break` or `continue`. -/
def runNodes (W : World U) (I : GenInput) (rec : Render U) (chain : List Ctx) (ctx : Ctx) (sup : Option (Str × Nat)) :
    WH → List Node → Option WH → Store U → Res U
  | _, [], _, st => silent st
  | before, n :: ns, after, st =>
    (runNode W I rec chain ctx sup before (nextSide I ns after) st n).bind fun (s, sig, st') =>
      if sig = .next then
        (runNodes W I rec chain ctx sup (sideOf I (rightMark n)) ns after st').map fun (s', sig', st'') =>
          (oapp s s', sig', st'')
      else some (s, sig, st')

/-- Rendering to a depth of `fuel` nested lists of nodes. -/
def run (W : World U) (I : GenInput) : Nat → Render U
  | 0 => fun _ _ _ _ _ _ _ => none
  | fuel + 1 => fun chain ctx sup before ns after st => runNodes W I (run W I fuel) chain ctx sup before ns after st

/-- The text of a whole template: the root of its inheritance chain is rendered, without any local variables. -/
def render (W : World U) (I : GenInput) (fuel : Nat) (chain : List Ctx) (ctx : Ctx) : Option Str :=
  let root := chain.getLastD ctx
  (run W I fuel chain root none .preserve root.nodes none ⟨[], [], none⟩).bind (·.1)

end Askama.Spec
