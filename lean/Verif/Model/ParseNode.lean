import Verif.Model.ParseExpr

/-!
# Node parser (`askama_parser/src/node.rs`) and entry point (`lib.rs` 90-123)

The two cells of `State` (lib.rs 531-591) are the threaded state. `Node::many` and `Target::parse` are recursive;
each recursive call happens after `State::nest`, so the model recurses on a `fuel` argument and running out of
fuel is `stuck`.
-/

namespace Askama

open PT

/-- The cells of `State`, lib.rs 531-535. -/
structure PState where
  level : Nat
  loopDepth : Nat
  deriving DecidableEq, Repr

/-- Node parsers. -/
abbrev SP (α : Type) := PT PState α

/-- `State::nest`, lib.rs 546-550. -/
def nest : SP Unit := fun s i =>
  if maxDepth ≤ s.level then (.err true i none, s) else (.ok i (), { s with level := s.level + 1 })

/-- `State::leave`, lib.rs 552-554. (The level is positive whenever this is called.) -/
def leave (s : PState) : PState := { s with level := s.level - 1 }

/-- `Expr::parse(i, s.level.get())`. -/
def exprHere (env : PEnv) : SP Expr := fun s i => ((exprP env (maxDepth - s.level) .parse () i).1, s)

/-- `Expr::arguments(i, s.level.get(), is_template_macro)`. -/
def argsHere (env : PEnv) (m : Bool) : SP (List Expr) := fun s i =>
  ((exprP env (maxDepth - s.level) (.args m) () i).1, s)

/-- `filter(i, s.level.get())`, lib.rs 639-646. -/
def filterHere (env : PEnv) : SP (Str × Option (List Expr)) := fun s i =>
  ((filterP (exprP env (maxDepth - s.level)) () i).1, s)

/-- `Whitespace::parse`, node.rs 427-435. -/
def wsMark : SP Wsp := lift <|
  alt ((char '+').map fun _ => Wsp.preserve) <| alt ((char '-').map fun _ => .suppress)
    ((char '~').map fun _ => .minimize)

/-- `keyword` in a node parser. -/
def kw (k : Str) : SP Str := lift (keyword k)

/-- `identifier` in a node parser. -/
def ident : SP Str := lift identifier

/-! ### Targets -/

/-- `Target::verify_name`, node.rs 288-296. -/
def verifyName (input name : Str) : SP Target :=
  if name = c!"self" ∨ name = c!"writer" then failAt input (some (.named c!"cannot use as a name" name))
  else pure (.name name)

/-- `Target::lit`, node.rs 262-269. -/
def targetLit : SP Target := lift <|
  alt (strLit.map .strLit) <| alt (charLit.map .charLit) <| alt (numLit.map .numLit) (boolLit.map .boolLit)

/-- `opt(ws(char(c)))` mapped to `is_some`, node.rs 194-196. -/
def optChar (c : Char) : SP Bool := (opt (ws (char c))).map (·.isSome)

/-- The closure `path` in `Target::parse_one`, node.rs 231-236: `Err::Error` for a plain identifier. -/
def targetPath (env : PEnv) : SP (List Str) := do
  let i ← pos
  match ← lift (pathOrIdent env) with
  | .path v => pure v
  | .ident _ => do goto i; error

/-- `Target::named`, node.rs 271-286. -/
def targetNamed (self : SP Target) : SP (Str × Target) := do
  let i ← pos
  let src ← ident
  match ← opt (do let _ ← ws (char ':'); self) with
  | some t => pure (src, t)
  | none => do let t ← verifyName i src; pure (src, t)

/-- `Target::parse_one`, node.rs 193-260. -/
def targetOne (env : PEnv) (self : SP Target) : SP Target := do
  match ← opt targetLit with
  | some t => pure t
  | none => do
  if ← optChar '(' then do
    if ← optChar ')' then pure (.tuple [] [])
    else do
      let first ← self
      if ← optChar ')' then pure first
      else cut do
        let ts ← many0 (do let _ ← ws (char ','); self)
        let _ ← opt (ws (char ','))
        let _ ← ws (cut (char ')'))
        pure (.tuple [] (first :: ts))
  else do
  match ← opt (targetPath env) with
  | some path => do
    let before ← pos
    let _ ← opt (ws (kw c!"with"))
    if ← optChar '(' then do
      let ts ← alt (do let _ ← char ')'; pure [])
        (do
          let ts ← cut (sepList1 (ws (char ',')) self)
          let _ ← opt (ws (char ','))
          let _ ← ws (cut (char ')'))
          pure ts)
      pure (.tuple path ts)
    else if ← optChar '{' then do
      let ts ← alt (do let _ ← char '}'; pure [])
        (do
          let ts ← cut (sepList1 (ws (char ',')) (targetNamed self))
          let _ ← opt (ws (char ','))
          let _ ← ws (cut (char '}'))
          pure ts)
      pure (.struct path ts)
    else do
      goto before
      pure (.path path)
  | none => do
    let i ← pos
    let n ← ident
    verifyName i n

/-- The element of the list in `Target::parse`, node.rs 177-182: a failing `parse_one` leaves without
`leave`. -/
def targetElem (env : PEnv) (self : SP Target) : SP Target := do
  nest
  let t ← targetOne env self
  modify leave
  pure t

/-- `Target::parse`, node.rs 174-190. -/
def target (env : PEnv) : Nat → SP Target
  | 0 => stuck
  | fuel + 1 => do
    let ts ← sepList1 (ws (tag c!"or")) (targetElem env (target env fuel))
    match ts with
    | [t] => pure t
    | ts => pure (.orChain ts)

/-! ### Literals and comments -/

/-- `str::trim_end_matches(is_ws)`. -/
def trimEndWs (s : Str) : Str := (s.reverse.dropWhile isWsp).reverse

/-- `Lit::split_ws_parts`, node.rs 862-874. -/
def splitWsParts (s : Str) : Lit :=
  let trimmedStart := s.dropWhile isWsp
  let lenStart := s.length - trimmedStart.length
  let trimmed := trimEndWs trimmedStart
  { lws := s.take lenStart, val := trimmed, rws := trimmedStart.drop trimmed.length }

/-- `p_start` of `Lit::parse`, node.rs 839-843. -/
def anyStart (syn : Syntax) : P Str :=
  alt (tag syn.blockStart) <| alt (tag syn.commentStart) (tag syn.exprStart)

/-- `Lit::parse`, node.rs 838-860. -/
def litP (env : PEnv) : P Lit := do
  not eof
  match ← opt (recognize (skipTill (anyStart env.syn))) with
  | some [] => error
  | some content => pure (splitWsParts content)
  | none => do
    let i ← pos
    goto []
    pure (splitWsParts i)

/-- `tag` of `Comment::parse`, node.rs 1053-1058: `true` is `Tag::Open`. -/
def commentTag (syn : Syntax) : P Bool :=
  alt ((tag syn.commentStart).map fun _ => true) ((tag syn.commentEnd).map fun _ => false)

/-- The loop of `content` in `Comment::parse`, node.rs 1060-1084. (`depth` does not overflow a `usize`: every
increment consumes input.) -/
def commentContent (syn : Syntax) : Nat → Nat → P Unit
  | 0, _ => stuck
  | fuel + 1, depth => do
    let i ← pos
    match ← opt (skipTill (commentTag syn)) with
    | none => failAt i (some (.unclosed c!"comment" syn.commentEnd))
    | some (j, true) => do goto j; commentContent syn fuel (depth + 1)
    | some (j, false) =>
      match depth with
      | 0 => goto j
      | depth + 1 => do goto j; commentContent syn fuel depth

/-- The whitespace marker at the end of a comment, node.rs 1091-1099. -/
def commentNws (syn : Syntax) (content : Str) : Option Wsp :=
  if syn.commentEnd.isSuffixOf content then
    match (content.take (content.length - syn.commentEnd.length)).getLast? with
    | some '-' => some .suppress
    | some '+' => some .preserve
    | some '~' => some .minimize
    | _ => none
  else none

/-- `Comment::parse`, node.rs 1046-1109. -/
def commentP (env : PEnv) : SP (Ws × Str) := do
  let _ ← tag env.syn.commentStart
  let pws ← opt wsMark
  let i ← pos
  let content ← recognize (cut (lift (commentContent env.syn (i.length + 1) 0)))
  pure (⟨pws, commentNws env.syn content⟩, content)

/-! ### Tags without a body -/

/-- `Node::r#break` and `Node::r#continue`, node.rs 107-137. -/
def breakP (word : Str) (mk : Ws → Node) (msg : Str) : SP Node := do
  let i ← pos
  let pws ← opt wsMark
  let _ ← ws (kw word)
  let nws ← opt wsMark
  if (← get).loopDepth = 0 then failAt i (some (.text msg)) else pure (mk ⟨pws, nws⟩)

/-- `alt((value(true, end), value(false, ws(eof))))`, used for the end of a block and an expression. -/
def closing (t : Str) : SP Bool := alt ((tag t).map fun _ => true) ((ws eof).map fun _ => false)

/-- `Node::expr`, node.rs 139-156. -/
def exprNode (env : PEnv) : SP Node := do
  let _ ← tag env.syn.exprStart
  let (pws, e) ← cut do
    let pws ← opt wsMark
    let e ← ws (exprHere env)
    pure (pws, e)
  let (nws, closed) ← cut do
    let nws ← opt wsMark
    let closed ← closing env.syn.exprEnd
    pure (nws, closed)
  if closed then pure (.expr ⟨pws, nws⟩ e)
  else do
    let i ← pos
    failAt i (some (.unclosed c!"expression" env.syn.exprEnd))

/-- `Let::parse`, node.rs 918-943. -/
def letP (env : PEnv) (tgt : SP Target) : SP Node := do
  let pws ← opt wsMark
  let _ ← ws (alt (kw c!"let") (kw c!"set"))
  cut do
    let var ← ws tgt
    let val ← opt do
      let _ ← ws (char '=')
      ws (exprHere env)
    let nws ← opt wsMark
    pure (.let_ ⟨pws, nws⟩ var val)

/-- `Include::parse`, node.rs 997-1012. -/
def includeP : SP Node := do
  let pws ← opt wsMark
  let _ ← ws (kw c!"include")
  cut do
    let path ← ws (lift strLit)
    let nws ← opt wsMark
    pure (.include ⟨pws, nws⟩ path)

/-- `Extends::parse`, node.rs 1020-1036. -/
def extendsP : SP Node := do
  let start ← pos
  let pws ← opt wsMark
  let _ ← ws (kw c!"extends")
  let (path, nws) ← cut do
    let path ← ws (lift strLit)
    let nws ← opt wsMark
    pure (path, nws)
  match pws, nws with
  | none, none => pure (.extends_ path)
  | _, _ => failAt start (some (.text c!"whitespace control is not allowed on `extends`"))

/-- `Import::parse`, node.rs 660-680. -/
def importP : SP Node := do
  let pws ← opt wsMark
  let _ ← ws (kw c!"import")
  cut do
    let path ← ws (lift strLit)
    let _ ← ws (kw c!"as")
    cut do
      let scope ← ws ident
      let nws ← opt wsMark
      pure (.import_ ⟨pws, nws⟩ path scope)

/-- `Call::parse`, node.rs 691-715. -/
def callP (env : PEnv) : SP Node := do
  let pws ← opt wsMark
  let _ ← ws (kw c!"call")
  cut do
    let scope ← opt do
      let n ← ws ident
      let _ ← ws (tag c!"::")
      pure n
    let name ← ws ident
    let args ← opt (ws (argsHere env true))
    let nws ← opt wsMark
    pure (.call ⟨pws, nws⟩ scope name (args.getD []))

/-- `endraw` of `Raw::parse`, node.rs 886-892. -/
def endraw (env : PEnv) : SP (Option Wsp × Option Wsp) := do
  let _ ← tag env.syn.blockStart
  let pws2 ← opt wsMark
  let _ ← ws (kw c!"endraw")
  let nws2 ← opt wsMark
  let _ ← peek (tag env.syn.blockEnd)
  pure (pws2, nws2)

/-- `Raw::parse`, node.rs 885-909. -/
def rawP (env : PEnv) : SP Node := do
  let pws1 ← opt wsMark
  let _ ← ws (kw c!"raw")
  let (nws1, contents, j, pws2, nws2) ← cut do
    let nws1 ← opt wsMark
    let _ ← tag env.syn.blockEnd
    let (contents, j, pws2, nws2) ← consumed (skipTill (endraw env))
    pure (nws1, contents, j, pws2, nws2)
  goto j
  pure (.raw ⟨pws1, nws1⟩ (splitWsParts contents) ⟨pws2, nws2⟩)

/-! ### Tags with a body; `many` is `Node::many` -/

section
variable (env : PEnv) (tgt : SP Target) (many : SP (List Node))

/-- `CondTest::parse_cond`, node.rs 402-413. -/
def parseCond : SP CondTest := do
  let target ← opt do
    let _ ← ws (alt (kw c!"let") (kw c!"set"))
    let t ← ws tgt
    let _ ← ws (char '=')
    pure t
  let e ← ws (exprHere env)
  pure ⟨target, e⟩

/-- `CondTest::parse`, node.rs 398-400. -/
def condTest : SP CondTest := do
  let _ ← ws (kw c!"if")
  cut (parseCond env tgt)

/-- `Cond::parse`, node.rs 363-387. -/
def condP : SP Cond := do
  let _ ← tag env.syn.blockStart
  let pws ← opt wsMark
  let cond ← alt
    (do let _ ← ws (kw c!"else"); opt (condTest env tgt))
    (do let _ ← ws (kw c!"elif"); cut ((parseCond env tgt).map some))
  let nws ← opt wsMark
  let _ ← cut (tag env.syn.blockEnd)
  let nodes ← cut many
  pure (.mk ⟨pws, nws⟩ cond nodes)

/-- The end of a block tag pair: `tag_block_start, opt(Whitespace), ws(keyword)`. -/
def endTag (word : Str) : SP (Option Wsp) := do
  let _ ← tag env.syn.blockStart
  let pws ← opt wsMark
  let _ ← ws (kw word)
  pure pws

/-- `If::parse`, node.rs 952-988. -/
def ifP : SP Node := do
  let pws1 ← opt wsMark
  let cond ← condTest env tgt
  cut do
    let nws1 ← opt wsMark
    let _ ← tag env.syn.blockEnd
    cut do
      let nodes ← many
      let elifs ← many0 (condP env tgt many)
      cut do
        let pws2 ← endTag env c!"endif"
        let nws2 ← opt wsMark
        pure (.if_ ⟨pws2, nws2⟩ (.mk ⟨pws1, nws1⟩ (some cond) nodes :: elifs))

/-- `content` of `Loop::parse`, node.rs 452-457. -/
def loopContent : SP (List Node) := fun s i =>
  let r := many { s with loopDepth := s.loopDepth + 1 } i
  (r.1, { r.2 with loopDepth := r.2.loopDepth - 1 })

/-- `else_block` of `Loop::parse`, node.rs 464-479. -/
def loopElse : SP (Option Wsp × List Node × Option Wsp) := do
  let _ ← ws (kw c!"else")
  cut do
    let pws ← opt wsMark
    let _ ← tag env.syn.blockEnd
    let nodes ← many
    let _ ← tag env.syn.blockStart
    let nws ← opt wsMark
    pure (pws, nodes, nws)

/-- `Loop::parse`, node.rs 451-521. -/
def loopP : SP Node := do
  let pws1 ← opt wsMark
  let _ ← ws (kw c!"for")
  cut do
    let var ← ws tgt
    let _ ← ws (kw c!"in")
    cut do
      let iter ← ws (exprHere env)
      let cond ← opt (do let _ ← ws (kw c!"if"); cut (ws (exprHere env)))
      let nws1 ← opt wsMark
      let _ ← tag env.syn.blockEnd
      cut do
        let body ← loopContent many
        cut do
          let _ ← tag env.syn.blockStart
          let pws2 ← opt wsMark
          let els ← opt (loopElse env many)
          let _ ← ws (kw c!"endfor")
          let nws2 ← opt wsMark
          let (nws3, elseNodes, pws3) := els.getD (none, [], none)
          pure (.loop ⟨pws1, nws1⟩ var iter cond body ⟨pws2, nws3⟩ elseNodes ⟨pws3, nws2⟩)

/-- `When::r#match`, node.rs 309-330 (the else arm). -/
def whenElse : SP When := do
  let pws ← endTag env c!"else"
  cut do
    let nws ← opt wsMark
    let _ ← tag env.syn.blockEnd
    let nodes ← cut many
    pure (.mk ⟨pws, nws⟩ (.name c!"_") nodes)

/-- `When::when`, node.rs 333-351. -/
def whenP : SP When := do
  let pws ← endTag env c!"when"
  cut do
    let t ← ws tgt
    let nws ← opt wsMark
    let _ ← tag env.syn.blockEnd
    let nodes ← cut many
    pure (.mk ⟨pws, nws⟩ t nodes)

/-- `Match::parse`, node.rs 726-766. -/
def matchP : SP Node := do
  let pws1 ← opt wsMark
  let _ ← ws (kw c!"match")
  cut do
    let e ← ws (exprHere env)
    let nws1 ← opt wsMark
    let _ ← tag env.syn.blockEnd
    cut do
      let _ ← ws (many0 (ws ((commentP env).map fun _ => ())))
      let arms ← many1 (whenP env tgt many)
      cut do
        let els ← opt (whenElse env many)
        cut do
          let _ ← ws (tag env.syn.blockStart)
          let pws2 ← opt wsMark
          let _ ← ws (kw c!"endmatch")
          let nws2 ← opt wsMark
          pure (.match_ ⟨pws1, nws1⟩ e (arms ++ els.toList) ⟨pws2, nws2⟩)

/-- `opt(|before| { ws(identifier); check_end_name })`, node.rs 803-806 and 566-569, with `check_end_name`,
node.rs 817-836. -/
def endName (kind name : Str) : SP (Option Str) := opt do
  let before ← pos
  let n ← ws ident
  if name = n then pure n else failAt before (some (.endName kind name n))

/-- `BlockDef::parse`, node.rs 777-814. -/
def blockP : SP Node := do
  let pws1 ← opt wsMark
  let _ ← ws (kw c!"block")
  let (name, nws1) ← cut do
    let name ← ws ident
    let nws1 ← opt wsMark
    let _ ← tag env.syn.blockEnd
    pure (name, nws1)
  cut do
    let nodes ← many
    cut do
      let pws2 ← endTag env c!"endblock"
      cut do
        let _ ← endName c!"block" name
        let nws2 ← opt wsMark
        pure (.blockDef ⟨pws1, nws1⟩ name nodes ⟨pws2, nws2⟩)

/-- `parameters` of `Macro::parse`, node.rs 535-541. -/
def parameters : SP (List Str) := do
  let _ ← ws (char '(')
  let ps ← sepList0 (char ',') (ws ident)
  let _ ← opt (ws (char ','))
  let _ ← char ')'
  pure ps

/-- `Macro::parse`, node.rs 534-588. -/
def macroP : SP Node := do
  let i ← pos
  let pws1 ← opt wsMark
  let _ ← ws (kw c!"macro")
  let (name, params, nws1) ← cut do
    let name ← ws ident
    let params ← opt (ws parameters)
    let nws1 ← opt wsMark
    let _ ← tag env.syn.blockEnd
    pure (name, params, nws1)
  if name = c!"super" then failAt i (some (.text c!"'super' is not a valid name for a macro"))
  else cut do
    let nodes ← many
    cut do
      let pws2 ← endTag env c!"endmacro"
      cut do
        let _ ← endName c!"macro" name
        let nws2 ← opt wsMark
        pure (.macro ⟨pws1, nws1⟩ name (params.getD []) nodes ⟨pws2, nws2⟩)

/-- `FilterBlock::parse`, node.rs 599-650. -/
def filterBlockP : SP Node := do
  let pws1 ← opt wsMark
  let _ ← ws (kw c!"filter")
  let (name, params, extra, nws1) ← cut do
    let name ← ws ident
    let params ← opt (argsHere env false)
    let extra ← many0 (filterHere env)
    ws (pure ())
    let nws1 ← opt wsMark
    let _ ← tag env.syn.blockEnd
    pure (name, params, extra, nws1)
  let filters := extra.foldl (fun (f : FilterApp) x => ⟨x.1, .filter f.name f.args :: x.2.getD []⟩)
    ⟨name, params.getD []⟩
  cut do
    let nodes ← many
    cut do
      let pws2 ← endTag env c!"endfilter"
      let nws2 ← opt wsMark
      pure (.filterBlock ⟨pws1, nws1⟩ filters nodes ⟨pws2, nws2⟩)

/-- The dispatch on the tag name in `Node::parse`, node.rs 70-93; `none` for an unknown name. -/
def tagParser (word : Str) : Option (SP Node) :=
  if word = c!"call" then some (callP env)
  else if word = c!"let" ∨ word = c!"set" then some (letP env tgt)
  else if word = c!"if" then some (ifP env tgt many)
  else if word = c!"for" then some (loopP env tgt many)
  else if word = c!"match" then some (matchP env tgt many)
  else if word = c!"extends" then some extendsP
  else if word = c!"include" then some includeP
  else if word = c!"import" then some importP
  else if word = c!"block" then some (blockP env many)
  else if word = c!"macro" then some (macroP env many)
  else if word = c!"raw" then some (rawP env)
  else if word = c!"break" then some (breakP c!"break" .break_ c!"you can only `break` inside a `for` loop")
  else if word = c!"continue" then
    some (breakP c!"continue" .continue_ c!"you can only `continue` inside a `for` loop")
  else if word = c!"filter" then some (filterBlockP env many)
  else none

/-- `s.nest(j)?; let result = func(i, s); s.leave(); let (i, node) = result?;`, node.rs 95-98. -/
def nested (p : SP Node) : SP Node := do
  nest
  fun s i => let r := p s i; (r.1, leave r.2)

/-- `Node::parse`, node.rs 52-105. -/
def nodeP : SP Node := do
  let i ← pos
  let word ← do
    let _ ← tag env.syn.blockStart
    peek do
      let _ ← opt wsMark
      skipWs
      ident
  match tagParser env tgt many word with
  | none => do goto i; error
  | some p => do
    let node ← nested p
    if ← cut (closing env.syn.blockEnd) then pure node
    else do
      let j ← pos
      failAt j (some (.unclosed c!"block" env.syn.blockEnd))

end

/-- One round of `Node::many`, node.rs 44-49. -/
def nodeAlt (env : PEnv) (tgt : SP Target) (many : SP (List Node)) : SP Node :=
  alt ((lift (litP env)).map .lit) <| alt ((commentP env).map fun c => .comment c.1 c.2) <|
  alt (exprNode env) (nodeP env tgt many)

/-- Fuel for `Target::parse` and `Node::many`: one more than the nesting limit. -/
def nestFuel : Nat := maxDepth + 1

/-- `Node::many`, node.rs 43-50. -/
def nodesP (env : PEnv) : Nat → SP (List Node)
  | 0 => stuck
  | fuel + 1 => many0 (nodeAlt env (target env nestFuel) (nodesP env fuel))

/-! ### Entry point -/

/-- `str::lines`: pieces between newlines, a final newline does not start another line, one `'\r'` before a
newline is not part of the line (nor is one at the very end kept out). -/
def strLines : Str → List Str
  | [] => []
  | s => go s []
where
  go : Str → Str → List Str
    | [], acc => if acc.isEmpty then [] else [acc.reverse]
    | '\n' :: r, acc => (if acc.head? = some '\r' then acc.tail.reverse else acc.reverse) :: go r []
    | c :: r, acc => go r (c :: acc)

/-- `ParseError::Details` (lib.rs 129-140) without the file path; `sourceAfter` is the text handed to the
`{:?}` formatter and whether it is followed by `...`. -/
structure ParseErr where
  msg : Option Msg
  row : Nat
  column : Nat
  sourceAfter : Str × Bool
  deriving DecidableEq, Repr

/-- Outcome of `Ast::from_str`. `panic` also stands for not returning. -/
inductive ParseOut where
  | ok (nodes : List Node)
  | err (e : ParseErr)
  | panic

/-- Construction of `ParseError::Details`, lib.rs 106-122. -/
def mkParseErr (src input : Str) (msg : Option Msg) : ParseOut :=
  let offset := src.blen - input.blen
  if src.blen < input.blen then .panic else
  match Str.takeB src offset, Str.dropB src offset with
  | some before, some after =>
    let sa := if 40 < after.length then (after.take 40, true) else (after, false)
    let last := (strLines before).getLast?
    .err ⟨msg, (strLines before).length - 1, (last.getD []).length, sa⟩
  | _, _ => .panic

/-- `Ast::from_str`, lib.rs 90-123. -/
def parseTemplate (env : PEnv) (src : Str) : ParseOut :=
  match (do let ns ← nodesP env nestFuel; cut eof; pure ns : SP (List Node)) ⟨0, 0⟩ src with
  | (.ok [] nodes, _) => .ok nodes
  | (.ok _ _, _) => .panic
  | (.err _ input msg, _) => mkParseErr src input msg
  | (.stuck, _) => .panic

end Askama
