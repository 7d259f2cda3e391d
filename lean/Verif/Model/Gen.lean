import Verif.Model.Rust

/-!
# The code generator

Models `askama_derive/src/generator.rs` (and the parts of `heritage.rs` it uses). The output is the tree of the emitted
statements instead of their text; see `Verif.Model.Rust`. The `Buffer` is represented by the list of statements written
so far, its `indent` counter and its `discard` flag; `&mut self` is the returned state. Size hints only feed the constant
`SIZE_HINT` and are modelled separately.
-/

namespace Askama

/-- How code generation fails: a `CompileError`, a panic, or no answer at all (endless recursion). -/
inductive GErr where
  | err
  | panic
  | diverge
  deriving DecidableEq, Repr

/-- `WhitespaceHandling` (askama_derive/src/config.rs:213-225). -/
inductive WH where
  | preserve
  | suppress
  | minimize
  deriving DecidableEq, Repr

/-- `node::Macro` (askama_parser/src/node.rs). -/
structure MacroDef where
  ws1 : Ws
  args : List Str
  nodes : List Node
  ws2 : Ws

/-- `node::BlockDef` (askama_parser/src/node.rs). -/
structure BlockDefn where
  ws1 : Ws
  nodes : List Node
  ws2 : Ws

/-- `heritage::Context` (askama_derive/src/heritage.rs:40-46); the `HashMap`s are association lists in which the first
entry of a key counts. -/
structure Ctx where
  nodes : List Node
  extends_ : Option Str
  blocks : List (Str × BlockDefn)
  macros : List (Str × MacroDef)
  imports : List (Str × Str)

/-- `heritage::Heritage` (askama_derive/src/heritage.rs:11-14, 38). -/
structure Heritage where
  root : Ctx
  blocks : List (Str × List (Ctx × BlockDefn))

/-- What the generator reads from `TemplateInput` and from the map of contexts
(askama_derive/src/generator.rs:20-26). -/
structure GenInput where
  /-- `config.whitespace` -/
  ws : WH
  /-- `input.escaper` -/
  escaper : Str
  /-- `config.escapers` -/
  escapers : List (List Str × Str)
  /-- feature `serde-json` -/
  json : Bool
  /-- `input.block` -/
  block : Option Str
  /-- `config.find_template(path, Some(&input.path))` -/
  find : Str → Option Str
  /-- `contexts` -/
  contexts : List (Str × Ctx)

/-- `HashMap::get`. -/
def assoc {α : Type} (l : List (Str × α)) (k : Str) : Option α := (l.find? (fun e => e.1 == k)).map (·.2)

/-- `LocalMeta` (askama_derive/src/generator.rs:1894-1898); `refs` is the text a name stands for. -/
structure LocalMeta where
  refs : Option RExpr
  initialized : Bool

/-- `self.locals`. -/
abbrev Locals := MapChain LocalMeta

/-- `MapChain::resolve` (askama_derive/src/generator.rs:1979-1985). -/
def Locals.resolve (L : Locals) (name : Str) : Option RExpr :=
  let name := normalizeIdentifier name
  (MapChain.get L name).map fun m =>
    match m.refs with
    | some e => e
    | none => .local_ name

/-- `MapChain::resolve_or_self` (askama_derive/src/generator.rs:1987-1990). -/
def Locals.resolveOrSelf (L : Locals) (name : Str) : RExpr :=
  let name := normalizeIdentifier name
  (Locals.resolve L name).getD (.field name)

/-! ## Expressions -/

/-- `BUILT_IN_FILTERS` (askama_derive/src/lib.rs:151-180). -/
def builtInFilters : List Str :=
  [c!"abs", c!"capitalize", c!"center", c!"e", c!"escape", c!"filesizeformat", c!"fmt", c!"format", c!"indent",
   c!"into_f64", c!"into_isize", c!"join", c!"linebreaks", c!"linebreaksbr", c!"paragraphbreaks", c!"lower",
   c!"lowercase", c!"safe", c!"title", c!"trim", c!"truncate", c!"upper", c!"uppercase", c!"urlencode",
   c!"urlencode_strict", c!"wordcount", c!"json"]

/-- The lookup of a named escaper in `_visit_escape_filter` (askama_derive/src/generator.rs:1349-1356). -/
def findEscaper (I : GenInput) (name : Str) : Option Str :=
  (I.escapers.find? (fun e => e.1.contains name)).map (·.2)

/-- `Expr::Array(arr) if arr.is_empty()`. -/
def isEmptyArray : Expr → Bool
  | .array es => es.isEmpty
  | _ => false

/-- An attribute of a variable (askama_derive/src/generator.rs:1483-1484): `self.a` is the same text as a field that is
named without `self`. -/
def varAttr (L : Locals) (x a : Str) : RExpr :=
  if x = c!"self" then .field a else .attr (L.resolveOrSelf x) a

mutual
/-- `visit_expr` (askama_derive/src/generator.rs:1188-1220) with `visit_try` … `visit_num_lit` (1222-1688). The result
is the emitted expression and whether it is `DisplayWrap::Wrapped`. `visit_var` normalises the resolved text once more,
which changes nothing: a local's name is normalised already, and no other resolved text is a keyword. -/
def visitExpr (I : GenInput) (L : Locals) : Expr → Except GErr (RExpr × Bool)
  | .boolLit s => .ok (.lit .bool s, false)
  | .numLit s => .ok (.lit .num s, false)
  | .strLit s => .ok (.lit .str s, false)
  | .charLit s => .ok (.lit .char s, false)
  | .var s => .ok (if s = c!"self" then .self_ else L.resolveOrSelf s, false)
  | .path p => .ok (.path p, false)
  | .array es => do
    let rs ← visitList I L es
    return (.array rs, false)
  | .attr (.var x) a =>
    if x = c!"loop" then
      if a = c!"index" then .ok (.loopIndex, false)
      else if a = c!"index0" then .ok (.loopIndex0, false)
      else if a = c!"first" then .ok (.loopFirst, false)
      else if a = c!"last" then .ok (.loopLast, false)
      else .error .err
    else .ok (varAttr L x (normalizeIdentifier a), false)
  | .attr e a => do
    let (r, _) ← visitExpr I L e
    return (.attr r (normalizeIdentifier a), false)
  | .index e k => do
    let (r, _) ← visitExpr I L e
    let (s, _) ← visitExpr I L k
    return (.index r s, false)
  | .filter name args =>
    if name = c!"as_ref" then
      match args with
      | [a] => do let (r, _) ← visitExpr I L a; return (.asRef r, false)
      | _ => .error .err
    else if name = c!"deref" then
      match args with
      | [a] => do let (r, _) ← visitExpr I L a; return (.deref r, false)
      | _ => .error .err
    else if name = c!"escape" ∨ name = c!"e" then
      match args with
      | [] => .error .panic
      | [a] => do let (r, _) ← visitExpr I L a; return (.escape I.escaper r, true)
      | [a, .strLit n] =>
        match findEscaper I n with
        | some x => do let (r, _) ← visitExpr I L a; return (.escape x r, true)
        | none => .error .err
      | _ => .error .err
    else if name = c!"fmt" then
      match args with
      | [a, .strLit f] => do let (r, _) ← visitExpr I L a; return (.format f [r], false)
      | _ => .error .err
    else if name = c!"format" then
      match args with
      | .strLit f :: rest => do let rs ← visitList I L rest; return (.format f rs, false)
      | _ => .error .err
    else if name = c!"join" then do
      let rs ← visitList I L args
      return (.join rs, false)
    else if name = c!"json" ∨ name = c!"tojson" then
      if I.json then
        match args with
        | [a] => do let (r, _) ← visitExpr I L a; return (.filter true c!"json" [r], false)
        | _ => .error .err
      else .error .err
    else if name = c!"safe" then
      match args with
      | [a] => do let (r, _) ← visitExpr I L a; return (.safe r, true)
      | _ => .error .err
    else do
      let rs ← visitList I L args
      return (.filter (builtInFilters.contains name) name rs, false)
  | .namedArg _ e => do
    let (r, _) ← visitExpr I L e
    return (r, false)
  | .unary op e => do
    let (r, _) ← visitExpr I L e
    return (.unary op r, false)
  | .binop op a b => do
    let (r, _) ← visitExpr I L a
    let (s, _) ← visitExpr I L b
    return (.binop op r s, false)
  | .range op a b => do
    let r ← visitOpt I L a
    let s ← visitOpt I L b
    return (.range op r s, false)
  | .group e => do
    let (r, _) ← visitExpr I L e
    return (.group r, false)
  | .tuple es => do
    let rs ← visitList I L es
    return (.tuple rs, false)
  | .call (.attr (.var x) m) args =>
    if x = c!"loop" then
      if m = c!"cycle" then
        match args with
        | [a] =>
          if isEmptyArray a then .error .err
          else do let (r, _) ← visitExpr I L a; return (.cycle r, false)
        | _ => .error .err
      else .error .err
    else do
      let rs ← visitList I L args
      return (.call (varAttr L x (normalizeIdentifier m)) rs, false)
  | .call (.var x) args => do
    let f := (L.resolve x).getD (.fieldRef (normalizeIdentifier x))
    let rs ← visitList I L args
    return (.call f rs, false)
  | .call f args => do
    let (r, _) ← visitExpr I L f
    let rs ← visitList I L args
    return (.call r rs, false)
  | .rustMacro p a => .ok (.rustMacro p a, false)
  | .try_ e => do
    let (r, _) ← visitExpr I L e
    return (.try_ r, false)
  | .generated s => .ok (.local_ s, false)
/-- `_visit_args` (askama_derive/src/generator.rs:1425-1456) and the other loops over lists of expressions. -/
def visitList (I : GenInput) (L : Locals) : List Expr → Except GErr (List RExpr)
  | [] => .ok []
  | e :: es => do
    let (r, _) ← visitExpr I L e
    let rs ← visitList I L es
    return r :: rs
/-- The optional ends of a range (askama_derive/src/generator.rs:1562-1577). -/
def visitOpt (I : GenInput) (L : Locals) : Option Expr → Except GErr (Option RExpr)
  | none => .ok none
  | some e => do
    let (r, _) ← visitExpr I L e
    return some r
end

mutual
/-- `is_cacheable` (askama_derive/src/generator.rs:2042-2072). -/
def isCacheable : Expr → Bool
  | .boolLit _ | .numLit _ | .strLit _ | .charLit _ | .var _ | .path _ | .generated _ => true
  | .array es => isCacheableList es
  | .attr e _ => isCacheable e
  | .index a b => isCacheable a && isCacheable b
  | .filter _ es => isCacheableList es
  | .unary _ e => isCacheable e
  | .binop _ a b => isCacheable a && isCacheable b
  | .range _ a b => isCacheableOpt a && isCacheableOpt b
  | .group e => isCacheable e
  | .tuple es => isCacheableList es
  | .namedArg _ e => isCacheable e
  | .call _ _ | .rustMacro _ _ | .try_ _ => false
def isCacheableList : List Expr → Bool
  | [] => true
  | e :: es => isCacheable e && isCacheableList es
def isCacheableOpt : Option Expr → Bool
  | none => true
  | some e => isCacheable e
end

/-! ## State -/

/-- `Writable` (askama_derive/src/generator.rs:2159-2163). -/
inductive Writable where
  | lit (s : Str)
  | expr (e : Expr)
  | generated (r : RExpr) (wrapped : Bool)

/-- The mutable part of `Generator` (askama_derive/src/generator.rs:20-42) and of `Buffer` (1829-1837). -/
structure Gen where
  locals : Locals
  nextWs : Option Str
  skipWs : WH
  superBlock : Option (Str × Nat)
  /-- `buf_writable.buf` -/
  pend : List Writable
  /-- `buf_writable.discard` -/
  pdiscard : Bool
  named : Nat
  /-- `buf.indent` -/
  indent : Nat
  /-- `buf.discard` -/
  discard : Bool

/-- `AstLevel` (askama_derive/src/generator.rs:2124-2128). -/
inductive Level where
  | top
  | block
  | nested
  deriving DecidableEq, Repr

/-- Result of the functions that write to the buffer: the statements and the new state. -/
abbrev GRes := Except GErr (List Stmt × Gen)

namespace Gen

/-- `Generator::new` (askama_derive/src/generator.rs:45-65), with the buffer it is going to write to. -/
def new (I : GenInput) (locals : Locals) (indent : Nat) (discard : Bool) : Gen :=
  { locals, nextWs := none, skipWs := .preserve, superBlock := none, pend := [], pdiscard := I.block.isSome,
    named := 0, indent, discard }

/-- `WritableBuffer::push` (askama_derive/src/generator.rs:2143-2147). -/
def push (g : Gen) (w : Writable) : Gen := if g.pdiscard then g else { g with pend := g.pend ++ [w] }

/-- Statements written to the buffer, which drops them if `discard` is set (askama_derive/src/generator.rs:1849-1852,
1867-1870). -/
def emit (g : Gen) (s : List Stmt) : List Stmt := if g.discard then [] else s

/-- A statement with statements inside: if its own lines are dropped the inner ones remain. -/
def wrap (g : Gen) (f : List Stmt → Stmt) (b : List Stmt) : List Stmt := if g.discard then b else [f b]

/-- `writeln` of a line ending in `{` (askama_derive/src/generator.rs:1859-1861). -/
def openLine (g : Gen) : Gen := if g.discard then g else { g with indent := g.indent + 1 }

/-- `Buffer::dedent` (askama_derive/src/generator.rs:1885-1891). -/
def dedent (g : Gen) : Except GErr Gen :=
  if g.indent = 0 then .error .err else .ok { g with indent := g.indent - 1 }

/-- `writeln("}")` (askama_derive/src/generator.rs:1849-1855). -/
def closeLine (g : Gen) : Except GErr Gen := if g.discard then .ok g else g.dedent

/-! ### Whitespace -/

/-- `should_trim_ws` (askama_derive/src/generator.rs:1780-1787). -/
def shouldTrimWs (I : GenInput) : Option Wsp → WH
  | some .suppress => .suppress
  | some .preserve => .preserve
  | some .minimize => .minimize
  | none => I.ws

/-- What remains of whitespace under `Minimize` (askama_derive/src/generator.rs:1157-1161, 1811-1815). -/
def minimized (s : Str) : Str := if s.contains '\n' then c!"\n" else c!" "

/-- `flush_ws` (askama_derive/src/generator.rs:1792-1819). -/
def flushWs (I : GenInput) (g : Gen) (ws : Ws) : Gen :=
  match g.nextWs with
  | none => g
  | some val =>
    let g' := match shouldTrimWs I ws.l with
      | .preserve => if val.isEmpty then g else g.push (.lit val)
      | .minimize => if val.isEmpty then g else g.push (.lit (minimized val))
      | .suppress => g
    { g' with nextWs := none }

/-- `prepare_ws` (askama_derive/src/generator.rs:1824-1826). -/
def prepareWs (I : GenInput) (g : Gen) (ws : Ws) : Gen := { g with skipWs := shouldTrimWs I ws.r }

/-- `handle_ws` (askama_derive/src/generator.rs:1775-1778). -/
def handleWs (I : GenInput) (g : Gen) (ws : Ws) : Gen := prepareWs I (flushWs I g ws) ws

/-- `From<WhitespaceHandling> for Whitespace` (askama_derive/src/config.rs:227-235). -/
def WH.toWsp : WH → Wsp
  | .suppress => .suppress
  | .preserve => .preserve
  | .minimize => .minimize

/-- The leading whitespace of a literal in `visit_lit` (askama_derive/src/generator.rs:1147-1164); the failing
assertion is a panic. -/
def visitLws (g : Gen) (l : Lit) : Except GErr Gen :=
  if l.lws.isEmpty then .ok g
  else match g.skipWs with
    | .suppress => .ok g
    | .preserve =>
      if l.val.isEmpty then
        if l.rws.isEmpty then .ok { g with nextWs := some l.lws } else .error .panic
      else .ok (g.push (.lit l.lws))
    | .minimize =>
      if l.val.isEmpty then
        if l.rws.isEmpty then .ok { g with nextWs := some l.lws } else .error .panic
      else .ok (g.push (.lit (minimized l.lws)))

/-- `visit_lit` (askama_derive/src/generator.rs:1145-1174); the failing assertion is a panic. -/
def visitLit (g : Gen) (l : Lit) : Except GErr Gen :=
  if g.nextWs.isSome then .error .panic
  else do
    let g ← visitLws g l
    let g := if l.val.isEmpty then g else ({ g with skipWs := .preserve } : Gen).push (.lit l.val)
    return if l.rws.isEmpty then g else { g with nextWs := some l.rws }

/-! ### Pending output -/

/-- `s.replace('{', "{{").replace('}', "}}")` (askama_derive/src/generator.rs:1071). -/
def escapeBraces (s : Str) : Str :=
  (s.flatMap fun c => if c = '{' then ['{', '{'] else [c]).flatMap fun c => if c = '}' then ['}', '}'] else [c]

/-- State of the loop of `prepare_format`: `expr_cache`, `buf_format`, `buf_expr` and `self.named`. -/
structure FmtSt where
  cache : List ((Option Str × RExpr) × Nat)
  format : Str
  args : List FmtArg
  named : Nat

/-- Lookup in `expr_cache`. -/
def FmtSt.find (st : FmtSt) (key : Option Str × RExpr) : Option Nat :=
  (st.cache.find? (fun e => e.1.1 == key.1 && RExpr.beq e.1.2 key.2)).map (·.2)

/-- `named_expression` (askama_derive/src/generator.rs:1106-1143). -/
def namedExpression (I : GenInput) (st : FmtSt) (r : RExpr) (wrapped cacheable : Bool) : FmtSt :=
  let esc := if wrapped then none else some I.escaper
  match st.find (esc, r), cacheable with
  | some id, true => { st with format := st.format ++ ['{'] ++ argName id ++ ['}'] }
  | found, _ =>
    let id := st.named
    { cache := if found.isNone then ((esc, r), id) :: st.cache else st.cache,
      format := st.format ++ ['{'] ++ argName id ++ ['}'],
      args := st.args ++ [{ id, esc, expr := r }],
      named := id + 1 }

/-- The loop of `prepare_format` (askama_derive/src/generator.rs:1068-1096). -/
def formatLoop (I : GenInput) (L : Locals) : List Writable → FmtSt → Except GErr FmtSt
  | [], st => .ok st
  | .lit s :: ws, st => formatLoop I L ws { st with format := st.format ++ escapeBraces s }
  | .expr e :: ws, st => do
    let (r, wrapped) ← visitExpr I L e
    formatLoop I L ws (namedExpression I st r wrapped (isCacheable e))
  | .generated r wrapped :: ws, st => formatLoop I L ws (namedExpression I st r wrapped false)

/-- `matches!(w, Writable::Lit(_))`. -/
def _root_.Askama.Writable.isLit : Writable → Bool
  | .lit _ => true
  | _ => false

/-- The text of a literal, for the loop at askama_derive/src/generator.rs:1045-1049. -/
def _root_.Askama.Writable.litText : Writable → Str
  | .lit s => s
  | _ => []

/-- `WritePartsBuffers` (askama_derive/src/generator.rs:2181-2184). -/
inductive Parts where
  | none
  | plain (s : Str)
  | formatted (fmt : Str) (args : List FmtArg)

/-- `prepare_format` (askama_derive/src/generator.rs:1032-1104). -/
def prepareFormat (I : GenInput) (g : Gen) : Except GErr (Parts × Gen) :=
  if g.pend.isEmpty then .ok (.none, g)
  else if g.pend.all Writable.isLit then
    .ok (.plain (g.pend.flatMap Writable.litText), { g with pend := [] })
  else do
    let st ← formatLoop I g.locals g.pend ⟨[], [], [], g.named⟩
    return (.formatted st.format st.args, { g with pend := [], named := st.named })

/-- `write_buf_writable` (askama_derive/src/generator.rs:1005-1027). -/
def writeBuf (I : GenInput) (g : Gen) : GRes := do
  let (p, g) ← prepareFormat I g
  match p with
  | .none => return ([], g)
  | .plain s => return (g.emit [.writeLit s], g)
  | .formatted fmt args => return (g.emit [.writeFmt fmt args], g)

/-! ### Targets -/

/-- The effect of `visit_target` (askama_derive/src/generator.rs:1690-1769) on the locals. -/
def declare (g : Gen) (t : Target) (initialized : Bool) : Gen :=
  { g with locals := t.names.foldl (fun L n => L.insert n { refs := none, initialized }) g.locals }

mutual
/-- `is_shadowing_variable` (askama_derive/src/generator.rs:836-869). -/
def isShadowing (L : Locals) : Target → Except GErr Bool
  | .name n =>
    match L.get (normalizeIdentifier n) with
    | none => .ok false
    | some m => .ok m.initialized
  | .tuple _ ts => isShadowingList L ts
  | .struct _ ts => isShadowingFields L ts
  | _ => .error .err
def isShadowingList (L : Locals) : List Target → Except GErr Bool
  | [] => .ok false
  | t :: ts =>
    match isShadowing L t with
    | .ok false => isShadowingList L ts
    | outcome => outcome
def isShadowingFields (L : Locals) : List (Str × Target) → Except GErr Bool
  | [] => .ok false
  | (_, t) :: ts =>
    match isShadowing L t with
    | .ok false => isShadowingFields L ts
    | outcome => outcome
end

/-- The name of a `Target::Name`. -/
def targetName : Target → Option Str
  | .name n => some n
  | _ => none

/-! ### Nodes -/

/-- The type of `handle`: heritage, context, nodes, level and state. -/
abbrev Handler := Option Heritage → Ctx → List Node → Level → Gen → GRes

/-- `write_expr` (askama_derive/src/generator.rs:999-1002). -/
def writeExpr (I : GenInput) (g : Gen) (ws : Ws) (e : Expr) : Gen := (handleWs I g ws).push (.expr e)

/-- The flush before a shadowing `let` (askama_derive/src/generator.rs:884-889), also at the end of a block (970-974). -/
def flushIf (I : GenInput) (c : Bool) (g : Gen) : GRes := if c then writeBuf I g else .ok ([], g)

/-- `write_let` (askama_derive/src/generator.rs:871-899). -/
def writeLet (I : GenInput) (g : Gen) (ws : Ws) (var : Target) (val : Option Expr) : GRes := do
  let g := handleWs I g ws
  match val with
  | none =>
    let (s, g) ← writeBuf I g
    return (s ++ g.emit [.letDecl var], declare g var false)
  | some e =>
    let (r, _) ← visitExpr I g.locals e
    let shadowed ← isShadowing g.locals var
    let (s, g) ← flushIf I shadowed g
    let st : Stmt :=
      match targetName var with
      | some n => if shadowed || (g.locals.get n).isNone then .letInit var r else .assign (normalizeIdentifier n) r
      | none => .letInit var r
    return (s ++ g.emit [st], declare g var true)

/-- The condition of a branch in `write_if` (askama_derive/src/generator.rs:357-403). -/
def branchCond (I : GenInput) (g : Gen) : Option CondTest → Except GErr (RCond × Gen)
  | none => .ok (.always, g)
  | some ⟨none, e⟩ => do
    let (r, _) ← visitExpr I g.locals e
    return (.test r, g)
  | some ⟨some t, .binop op a b⟩ =>
    if op = c!"||" ∨ op = c!"&&" then do
      let (l, _) ← visitExpr I g.locals a
      let g := declare g t true
      let (r, _) ← visitExpr I g.locals b
      return (.letChain op t l r, g)
    else do
      let (r, _) ← visitExpr I g.locals (.binop op a b)
      return (.let_ t r, declare g t true)
  | some ⟨some t, e⟩ => do
    let (r, _) ← visitExpr I g.locals e
    return (.let_ t r, declare g t true)

/-- `buf.dedent()?` in front of `else` (askama_derive/src/generator.rs:354-356). -/
def dedentUnless (first : Bool) (g : Gen) : Except GErr Gen := if first then .ok g else g.dedent

/-- The branches of `write_if` after the first `handle_ws` and flush (askama_derive/src/generator.rs:350-415). The
loop body of the code starts with the whitespace of the branch and the flush into the branch before; here that is done
at the end of the branch before. -/
def ifBranches (rec : Handler) (I : GenInput) (H : Option Heritage) (ctx : Ctx) (wsEnd : Ws) (first : Bool) :
    List Cond → Gen → Except GErr (List Branch × Gen)
  | [], g => .ok ([], g)
  | .mk _ cond nodes :: rest, g => do
    let g := { g with locals := g.locals.push }
    let g ← dedentUnless first g
    let (c, g) ← branchCond I g cond
    let g := g.openLine
    let (body, g) ← rec H ctx nodes .nested g
    match rest with
    | [] =>
      let (fl, g) ← writeBuf I (handleWs I g wsEnd)
      return ([.mk c (body ++ fl)], g)
    | .mk ws' _ _ :: _ =>
      let (fl, g) ← writeBuf I (handleWs I g ws')
      let (bs, g) ← ifBranches rec I H ctx wsEnd false rest { g with locals := g.locals.pop }
      return (.mk c (body ++ fl) :: bs, g)

/-- The statements inside the branches. -/
def branchBodies : List Branch → List Stmt
  | [] => []
  | .mk _ b :: bs => b ++ branchBodies bs

/-- `write_if` (askama_derive/src/generator.rs:340-418). The parser never produces an `if` without branches. -/
def writeIf (rec : Handler) (I : GenInput) (H : Option Heritage) (ctx : Ctx) (g : Gen) (ws : Ws)
    (branches : List Cond) : GRes :=
  match branches with
  | [] => .error .panic
  | .mk ws1 _ _ :: _ => do
    let (pre, g) ← writeBuf I (handleWs I g ws1)
    let (bs, g) ← ifBranches rec I H ctx ws true branches g
    let g ← g.closeLine
    let code := if g.discard then branchBodies bs else [.if_ bs]
    return (pre ++ code, { g with locals := g.locals.pop })

/-- The arms of `write_match` (askama_derive/src/generator.rs:439-460). As for `if`, the end of an arm is handled
together with the arm. -/
def matchArms (rec : Handler) (I : GenInput) (H : Option Heritage) (ctx : Ctx) (ws2 : Ws) :
    List When → Gen → Except GErr (List Arm × Gen)
  | [], g => .ok ([], g)
  | .mk _ target nodes :: rest, g => do
    let g := declare { g with locals := g.locals.push } target true
    let g := g.openLine
    let (body, g) ← rec H ctx nodes .nested g
    let ws' := match rest with
      | [] => ws2
      | .mk ws' _ _ :: _ => ws'
    let (fl, g) ← writeBuf I (handleWs I g ws')
    let g ← g.closeLine
    let (arms, g) ← matchArms rec I H ctx ws2 rest { g with locals := g.locals.pop }
    return (.mk target (body ++ fl) :: arms, g)

/-- The statements inside the arms. -/
def armBodies : List Arm → List Stmt
  | [] => []
  | .mk _ b :: bs => b ++ armBodies bs

/-- `write_match` (askama_derive/src/generator.rs:421-467). The parser never produces a `match` without arms. -/
def writeMatch (rec : Handler) (I : GenInput) (H : Option Heritage) (ctx : Ctx) (g : Gen) (ws1 : Ws) (e : Expr)
    (arms : List When) (ws2 : Ws) : GRes :=
  match arms with
  | [] => .error .panic
  | .mk ws _ _ :: _ => do
    let (pre, g) ← writeBuf I (flushWs I g ws1)
    let (r, _) ← visitExpr I g.locals e
    let g := g.openLine
    let (as, g) ← matchArms rec I H ctx ws2 arms (handleWs I g ws)
    let g ← g.closeLine
    return (pre ++ (if g.discard then armBodies as else [.match_ r as]), g)

/-- The filter of a loop (askama_derive/src/generator.rs:508-516). -/
def loopFilter (I : GenInput) (g : Gen) (var : Target) : Option Expr → Except GErr (List Stmt)
  | none => .ok []
  | some c => do
    let (rc, _) ← visitExpr I (declare { g with locals := g.locals.push } var true).locals c
    .ok (g.emit [.filterIter var rc])

/-- `write_loop` (askama_derive/src/generator.rs:470-552). -/
def writeLoop (rec : Handler) (I : GenInput) (H : Option Heritage) (ctx : Ctx) (g : Gen) (ws1 : Ws) (var : Target)
    (iter : Expr) (cond : Option Expr) (body : List Node) (ws2 : Ws) (elseNodes : List Node) (ws3 : Ws) : GRes := do
  let g := handleWs I g ws1
  let g := { g with locals := g.locals.push }
  let (r, _) ← visitExpr I g.locals iter
  let hasElse := !elseNodes.isEmpty
  let (pre, g) ← writeBuf I g
  let g := g.openLine
  let filt ← loopFilter I g var cond
  let head := g.emit ((if hasElse then [.letDid] else []) ++ [.letIter r]) ++ filt
  let g := declare { g with locals := g.locals.push } var true
  let g := g.openLine
  let set := g.emit (if hasElse then [.setDid] else [])
  let (b, g) ← rec H ctx body .nested g
  let (fl, g) ← writeBuf I (handleWs I g ws2)
  let g := { g with locals := g.locals.pop }
  let g ← g.closeLine
  let loopCode := g.wrap (.forIter var) (set ++ b ++ fl)
  if hasElse then
    let g := g.openLine
    let g := { g with locals := g.locals.push }
    let (eb, g) ← rec H ctx elseNodes .nested g
    let (fl, g) ← writeBuf I (handleWs I g ws3)
    let g := { g with locals := g.locals.pop }
    let g ← g.closeLine
    let code := head ++ loopCode ++ g.wrap .ifNotDid (eb ++ fl)
    let g ← g.closeLine
    return (pre ++ g.wrap .block code, { g with locals := g.locals.pop })
  else
    let (fl, g) ← writeBuf I (handleWs I g ws3)
    let code := head ++ loopCode ++ fl
    let g ← g.closeLine
    return (pre ++ g.wrap .block code, { g with locals := g.locals.pop })

/-! #### Macro calls -/

/-- The named arguments of a call, last first (askama_derive/src/generator.rs:612-626): an unknown name is an error. -/
def namedArgs (params : List Str) : List Expr → Except GErr (List (Str × Expr))
  | .namedArg n e :: rest =>
    if params.contains n then do
      let m ← namedArgs params rest
      return m ++ [(n, .namedArg n e)]
    else .error .err
  | _ => .ok []

/-- `HashMap::get` after inserting the pairs in order: the last one counts. -/
def lastOf (m : List (Str × Expr)) (k : Str) : Option Expr := assoc m.reverse k

/-- The argument for a parameter (askama_derive/src/generator.rs:638-655), and whether later parameters may still take
positional arguments. -/
def paramArg (named : List (Str × Expr)) (args : List Expr) (p : Str) (index : Nat) (allowPos : Bool) :
    Except GErr (Expr × Bool) :=
  match lastOf named p with
  | some e => .ok (e, false)
  | none =>
    if allowPos then
      match args[index]? with
      | some e => .ok (e, true)
      | none => .error .panic
    else .error .err

/-- How an argument is passed (askama_derive/src/generator.rs:656-687): by the text it stands for (`inl`) or through a
new variable (`inr`). `self.locals.resolve` of an attribute's text (668) finds nothing, since that text is never an
identifier. -/
def passArg (I : GenInput) (L : Locals) : Expr → Except GErr (RExpr ⊕ RExpr)
  | .var x => if x = c!"self" then .ok (.inr .self_) else .ok (.inl (L.resolveOrSelf x))
  | .attr obj a => (visitExpr I L (.attr obj a)).map fun r => .inl r.1
  | e => (visitExpr I L e).map fun r => .inr r.1

/-- The loop over the parameters in `write_call` (askama_derive/src/generator.rs:637-688). The result are the names and
values of the variables to declare, and the locals. -/
def bindParams (I : GenInput) (named : List (Str × Expr)) (args : List Expr) :
    List Str → Nat → Bool → Locals → Except GErr (List Str × List RExpr × Locals)
  | [], _, _, L => .ok ([], [], L)
  | p :: ps, index, allowPos, L => do
    let (e, allowPos) ← paramArg named args p index allowPos
    match ← passArg I L e with
    | .inl r => bindParams I named args ps (index + 1) allowPos (L.insert p { refs := some r, initialized := true })
    | .inr r =>
      let L := L.insert p { refs := none, initialized := false }
      let (ns, rs, L) ← bindParams I named args ps (index + 1) allowPos L
      return (p :: ns, r :: rs, L)

/-- The macro a call refers to and the context of its definition (askama_derive/src/generator.rs:570-592). -/
def findMacro (I : GenInput) (ctx : Ctx) (scope : Option Str) (name : Str) : Except GErr (MacroDef × Ctx) :=
  match scope with
  | some s =>
    match assoc ctx.imports s with
    | none => .error .err
    | some path =>
      match assoc I.contexts path with
      | none => .error .err
      | some mctx =>
        match assoc mctx.macros name with
        | none => .error .err
        | some d => .ok (d, mctx)
  | none =>
    match assoc ctx.macros name with
    | none => .error .err
    | some d => .ok (d, ctx)

/-- `write_call` for macros (askama_derive/src/generator.rs:554-705). -/
def writeCall (rec : Handler) (I : GenInput) (H : Option Heritage) (ctx : Ctx) (g : Gen) (ws : Ws)
    (scope : Option Str) (name : Str) (args : List Expr) : GRes := do
  let (d, ownCtx) ← findMacro I ctx scope name
  let g := flushWs I g ws
  let g := { g with locals := g.locals.push }
  let (pre, g) ← writeBuf I g
  let g := g.openLine
  let g := prepareWs I g d.ws1
  if args.length ≠ d.args.length then .error .err
  else do
    let named ← namedArgs d.args args.reverse
    let (ns, rs, L) ← bindParams I named args d.args 0 true g.locals
    let g := { g with locals := L }
    let lets := g.emit (if ns.isEmpty then [] else [.letMany ns rs])
    let (b, g) ← rec H ownCtx d.nodes .nested g
    let (fl, g) ← writeBuf I (flushWs I g d.ws2)
    let g ← g.closeLine
    let g := prepareWs I { g with locals := g.locals.pop } ws
    return (pre ++ g.wrap .block (lets ++ b ++ fl), g)

/-! #### Filter blocks -/

/-- `__filter_block{id}` (askama_derive/src/generator.rs:716). -/
def filterVar (id : Nat) : Str := c!"__filter_block" ++ Nat.toDigits 10 id

/-- The search for an unused variable name (askama_derive/src/generator.rs:715-721). Among the first `k + 1` names one
is free when there are at most `k` locals, so the bound is never reached. -/
def freeFilterVar (L : Locals) : Nat → Nat → Str
  | 0, id => filterVar id
  | k + 1, id => if (L.get (filterVar id)).isNone then filterVar id else freeFilterVar L k (id + 1)

/-- Number of entries of the locals. -/
def localsSize (L : Locals) : Nat := ((L.scopes ++ L.parent).map List.length).sum

mutual
/-- `insert_first_filter_argument` (askama_derive/src/generator.rs:2115-2121). -/
def insertFirst (v : Str) : List Expr → List Expr
  | [] => [.generated v]
  | e :: rest => insertInto v e ++ rest
/-- The case distinction of `insert_first_filter_argument` on the first argument. -/
def insertInto (v : Str) : Expr → List Expr
  | .filter name args => [.filter name (insertFirst v args)]
  | e => [.generated v, e]
end

/-- `write_filter_block` (askama_derive/src/generator.rs:707-773). -/
def writeFilterBlock (rec : Handler) (I : GenInput) (H : Option Heritage) (ctx : Ctx) (g : Gen) (ws1 : Ws)
    (f : FilterApp) (nodes : List Node) (ws2 : Ws) : GRes := do
  let g := flushWs I g ws1
  let x := freeFilterVar g.locals (localsSize g.locals) 0
  let current := g.pend
  let g := prepareWs I { g with pend := [] } ws1
  let (b, g) ← rec H ctx nodes .nested g
  let (p, g) ← prepareFormat I (flushWs I g ws2)
  match p with
  | .none => return (b, g)
  | p =>
    let st : Stmt := match p with
      | .plain s => .letStr x s
      | .formatted fmt args => .letFmt x fmt args
      | .none => .brk
    let g := { g with pend := current }
    let (r, wrapped) ← visitExpr I g.locals (.filter f.name (insertFirst x f.args))
    let g := prepareWs I (g.push (.generated r wrapped)) ws2
    return (b ++ g.emit [st],
      { g with locals := g.locals.insert x { refs := none, initialized := true } })

/-! #### Blocks and includes -/

/-- The context of a block or included template, completed by the macros and imports of the referring one
(askama_derive/src/generator.rs:800-812, 948-957). -/
def mergeCtx (child ctx : Ctx) : Ctx :=
  { child with macros := child.macros ++ ctx.macros, imports := child.imports ++ ctx.imports }

/-- The name and generation of a block (askama_derive/src/generator.rs:914-928). -/
def currentBlock : Option Str → Option (Str × Nat) → Except GErr (Str × Nat)
  | some n, none => .ok (n, 0)
  | some n, some (prev, _) => if n = prev then .error GErr.err else .ok (n, 0)
  | none, some (prev, gen) => .ok (prev, gen + 1)
  | none, none => .error .err

/-- `write_block` (askama_derive/src/generator.rs:904-997). -/
def writeBlock (rec : Handler) (I : GenInput) (H : Option Heritage) (ctx : Ctx) (g : Gen) (name : Option Str)
    (outer : Ws) : GRes := do
  let g := flushWs I g outer
  let cur ← currentBlock name g.superBlock
  let (pre, g) ← writeBuf I g
  let fragment := (I.block == name) && g.pdiscard
  let pdiscard := if fragment then false else g.pdiscard
  let prevDiscard := g.discard
  match H with
  | none => .error .err
  | some h =>
    match assoc h.blocks cur.1 with
    | none => .error .panic
    | some defs =>
      match defs[cur.2]? with
      | none => .error .err
      | some (cctx, d) =>
        let child : Gen := { new I .empty g.indent pdiscard with pend := g.pend, pdiscard := pdiscard }
        let child := prepareWs I child d.ws1
        let child := { child with superBlock := some cur }
        let (b, child) ← rec H (mergeCtx cctx ctx) d.nodes .block child
        let (fl, child) ← flushIf I (!child.locals.isCurrentEmpty) child
        let child := flushWs I child d.ws2
        let g := { g with pend := child.pend, pdiscard := if fragment then true else child.pdiscard,
                          indent := child.indent, discard := prevDiscard }
        return (pre ++ b ++ fl, prepareWs I g outer)

/-- `Heritage::new` (askama_derive/src/heritage.rs:16-34), following at most `fuel` references: a longer chain is a
cyclic one, on which the code does not return. A missing context is a panic. -/
def heritageChain (contexts : List (Str × Ctx)) : Nat → Ctx → Except GErr (List Ctx)
  | 0, _ => .error .diverge
  | fuel + 1, ctx =>
    match ctx.extends_ with
    | none => .ok [ctx]
    | some path =>
      match assoc contexts path with
      | none => .error .panic
      | some parent => do
        let rest ← heritageChain contexts fuel parent
        return ctx :: rest

/-- The block map of `Heritage::new`: for each name the definitions along the chain. -/
def addBlocks (ctx : Ctx) (blocks : List (Str × List (Ctx × BlockDefn))) : List (Str × List (Ctx × BlockDefn)) :=
  ctx.blocks.foldl (fun m (nd : Str × BlockDefn) =>
    match assoc m nd.1 with
    | none => m ++ [(nd.1, [(ctx, nd.2)])]
    | some _ => m.map fun e => if e.1 = nd.1 then (e.1, e.2 ++ [(ctx, nd.2)]) else e) blocks

/-- `Heritage::new` (askama_derive/src/heritage.rs:16-34). -/
def heritageNew (contexts : List (Str × Ctx)) (ctx : Ctx) : Except GErr Heritage := do
  let chain ← heritageChain contexts (contexts.length + 2) ctx
  return { root := chain.getLastD ctx, blocks := chain.foldl (fun m c => addBlocks c m) [] }

/-- The heritage of an included template (askama_derive/src/generator.rs:816-820). -/
def includeHeritage (I : GenInput) (ctx : Ctx) : Except GErr (Option Heritage) :=
  if !ctx.blocks.isEmpty || ctx.extends_.isSome then (heritageNew I.contexts ctx).map some else .ok none

/-- `handle_include` (askama_derive/src/generator.rs:775-834). -/
def handleInclude (rec : Handler) (I : GenInput) (ctx : Ctx) (g : Gen) (ws : Ws) (path : Str) : GRes := do
  let (pre, g) ← writeBuf I (flushWs I g ws)
  match I.find path with
  | none => .error .err
  | some p =>
    match assoc I.contexts p with
    | none => .error .panic
    | some c =>
      let childCtx := mergeCtx c ctx
      let H ← includeHeritage I childCtx
      let handleCtx := match H with
        | some h => h.root
        | none => childCtx
      let child := { new I g.locals.withParent g.indent g.discard with pdiscard := g.pdiscard }
      let (b, child) ← rec H handleCtx handleCtx.nodes .top child
      let (fl, child) ← writeBuf I child
      let g := { g with indent := child.indent, discard := child.discard }
      return (pre ++ g.emit [.includeBytes p] ++ b ++ fl, prepareWs I g ws)

/-! #### `handle` -/

/-- One node in the loop of `handle` (askama_derive/src/generator.rs:256-325). -/
def handleNode (rec : Handler) (I : GenInput) (H : Option Heritage) (ctx : Ctx) (level : Level) (g : Gen) :
    Node → GRes
  | .lit l => do let g ← visitLit g l; return ([], g)
  | .comment ws _ => .ok ([], handleWs I g ws)
  | .expr ws e => .ok ([], writeExpr I g ws e)
  | .let_ ws var val => writeLet I g ws var val
  | .if_ ws branches => writeIf rec I H ctx g ws branches
  | .match_ ws1 e arms ws2 => writeMatch rec I H ctx g ws1 e arms ws2
  | .loop ws1 var iter cond body ws2 elseNodes ws3 =>
    writeLoop rec I H ctx g ws1 var iter cond body ws2 elseNodes ws3
  | .blockDef ws1 name _ ws2 => writeBlock rec I H ctx g (some name) ⟨ws1.l, ws2.r⟩
  | .include ws path => handleInclude rec I ctx g ws path
  | .call ws scope name args =>
    if name = c!"super" then writeBlock rec I H ctx g none ws
    else writeCall rec I H ctx g ws scope name args
  | .filterBlock ws1 f nodes ws2 => writeFilterBlock rec I H ctx g ws1 f nodes ws2
  | .macro ws1 _ _ _ ws2 =>
    if level = .top then .ok ([], prepareWs I (flushWs I g ws1) ws2) else .error .err
  | .raw ws1 l ws2 => do
    let g ← visitLit (handleWs I g ws1) l
    return ([], handleWs I g ws2)
  | .import_ ws _ _ => if level = .top then .ok ([], handleWs I g ws) else .error .err
  | .extends_ _ => if level = .top then .ok ([], g) else .error .err
  | .break_ ws => do
    let (s, g) ← writeBuf I (handleWs I g ws)
    return (s ++ g.emit [.brk], g)
  | .continue_ ws => do
    let (s, g) ← writeBuf I (handleWs I g ws)
    return (s ++ g.emit [.cont], g)

/-- The loop of `handle`. -/
def handleNodes (rec : Handler) (I : GenInput) (H : Option Heritage) (ctx : Ctx) (level : Level) :
    List Node → Gen → GRes
  | [], g => .ok ([], g)
  | n :: ns, g => do
    let (s, g) ← handleNode rec I H ctx level g n
    let (s', g) ← handleNodes rec I H ctx level ns g
    return (s ++ s', g)

/-- The end of `handle` (askama_derive/src/generator.rs:328-335). -/
def handleEnd (I : GenInput) (level : Level) (g : Gen) : GRes :=
  if level = .top then
    let g := if g.nextWs.isSome then flushWs I g ⟨some (WH.toWsp g.skipWs), none⟩ else g
    writeBuf I g
  else .ok ([], g)

/-- `handle` (askama_derive/src/generator.rs:248-338). `fuel` bounds the depth of nested calls; macros that call
themselves and templates that include themselves have no finite depth and the code overflows the stack. -/
def handle (I : GenInput) : Nat → Handler
  | 0, _, _, _, _, _ => .error .diverge
  | fuel + 1, H, ctx, nodes, level, g => do
    let (s, g) ← handleNodes (handle I fuel) I H ctx level nodes g
    let (s', g) ← handleEnd I level g
    return (s ++ s', g)

end Gen

mutual
/-- Whether the lines of a statement can be written with the indentation `d`. `Buffer::write` counts the spaces of a new
line by `self.indent * 4` in `u8` (askama_derive/src/generator.rs:1866-1879), which overflows from 64 on: a panic, as
derive macros are built with overflow checks by default. The argument lines of `write!` and `format!` are indented by
one and two more (1018, 1064, 731). Not counted are the lines inside of expressions, for calls that are arguments of
calls (1441-1445). -/
def Stmt.fits (d : Nat) : Stmt → Bool
  | .writeFmt _ _ => d + 1 < 64
  | .letFmt _ _ _ => d + 2 < 64
  | .if_ bs => d < 64 && fitsBranches (d + 1) bs
  | .match_ _ arms => d < 64 && fitsArms (d + 1) arms
  | .block b => d < 64 && fitsList (d + 1) b
  | .forIter _ b => d < 64 && fitsList (d + 1) b
  | .ifNotDid b => d < 64 && fitsList (d + 1) b
  | _ => d < 64
/-- All statements of a list. -/
def fitsList (d : Nat) : List Stmt → Bool
  | [] => true
  | s :: ss => s.fits d && fitsList d ss
/-- The statements in the branches of an `if`. -/
def fitsBranches (d : Nat) : List Branch → Bool
  | [] => true
  | .mk _ b :: bs => fitsList d b && fitsBranches d bs
/-- The arms of a `match`, which are lines of their own. -/
def fitsArms (d : Nat) : List Arm → Bool
  | [] => true
  | .mk _ b :: bs => d < 64 && fitsList (d + 1) b && fitsArms d bs
end

/-- The body of `render_into` generated by `impl_template` (askama_derive/src/generator.rs:87-115), without the
`include_bytes!` lines; `H` is the heritage made by `build_template` (askama_derive/src/lib.rs:66-88). The overflow of
the indentation is checked at the end; the code comes to it while it writes the line, so that an error after it is not
reported. -/
def generate (I : GenInput) (fuel : Nat) (H : Option Heritage) (ctx : Ctx) : Except GErr (List Stmt) := do
  let c := match H with
    | some h => h.root
    | none => ctx
  let (s, g) ← Gen.handle I fuel H c c.nodes .top (Gen.new I .empty 2 false)
  if !fitsList 2 s then .error .panic
  else
    -- the closing braces of the function and of the `impl`
    let g ← g.closeLine
    let _ ← g.closeLine
    return s

end Askama
