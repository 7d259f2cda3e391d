import Verif.Model.Lex

/-!
# Expression parser (`askama_parser/src/expr.rs`)

Every parsing function of expr.rs first calls `level.nest(i)?`, which is a `Failure` at level 128
(lib.rs 616-636), and passes the incremented level on. The model therefore is one function `exprP` defined by
recursion on the number of remaining levels, with one case per Rust function (`NT`).
-/

namespace Askama

open PT

/-- `Level::MAX_DEPTH`, lib.rs 635. -/
def maxDepth : Nat := 128

/-- The functions of expr.rs that take a level. `bin k` is the `k`-th `expr_prec_layer!` (176-184). -/
inductive NT where
  | parse
  | bin (k : Nat)
  | filtered
  | prefix
  | suffix
  | single
  | group
  | array
  | args (isTemplateMacro : Bool)
  | named
  | index
  | call

/-- Result types. -/
@[reducible] def NT.ty : NT → Type
  | .args _ => List Expr
  | .call => List Expr
  | .named => Str × Expr
  | .parse => Expr
  | .bin _ => Expr
  | .filtered => Expr
  | .prefix => Expr
  | .suffix => Expr
  | .single => Expr
  | .group => Expr
  | .array => Expr
  | .index => Expr

/-- Number of `expr_prec_layer!` functions. -/
def nLayers : Nat := 9

/-- The operators of each `expr_prec_layer!`, expr.rs 176-184. -/
def layerOps : Nat → List Str
  | 0 => [c!"||"]
  | 1 => [c!"&&"]
  | 2 => [c!"==", c!"!=", c!">=", c!">", c!"<=", c!"<"]
  | 3 => [c!"|"]
  | 4 => [c!"^"]
  | 5 => [c!"&"]
  | 6 => [c!">>", c!"<<"]
  | 7 => [c!"+", c!"-"]
  | _ => [c!"*", c!"/", c!"%"]

/-- Failure of `Level::nest`, lib.rs 621-628. -/
def tooDeep {σ α : Type} : PT σ α := fun s i => (.err true i none, s)

/-- What a function of expr.rs sees of the others, one level deeper. -/
abbrev Self := (nt : NT) → P nt.ty

/-- `enum Suffix`, expr.rs 309-316. -/
inductive Suffix where
  | attr (n : Str)
  | index (e : Expr)
  | call (args : List Expr)
  | macroCall (args : Str)
  | try_

/-- The loop of `nested_parenthesis`, expr.rs 349-384: the text from the closing parenthesis on (`none` if the
loop ends without reaching one), together with the final nesting count. -/
def nestedParenGo : Str → Nat → Bool → Bool → Option Str × Nat
  | [], nested, _, _ => (none, nested)
  | c :: cs, nested, inStr, esc =>
    -- `if escaped && c != '\\' { escaped = false; }` at the end of each round
    let fin := fun (nested : Nat) (inStr esc : Bool) =>
      nestedParenGo cs nested inStr (esc && c == '\\')
    if !(c == '(' || c == ')') || !inStr then
      if c == '(' then fin (nested + 1) inStr esc
      else if c == ')' then
        if nested = 0 then (some (c :: cs), 0) else fin (nested - 1) inStr esc
      else if c == '"' then
        if inStr then fin nested esc esc else fin nested true esc
      else if c == '\\' then fin nested inStr (!esc)
      else fin nested inStr esc
    else fin nested inStr esc

/-- `nested_parenthesis`, expr.rs 347-391. If no closing parenthesis is met `last` is still 0 and nothing is
consumed. -/
def nestedParen : P Unit := fun s i =>
  match nestedParenGo i 0 false false with
  | (some r, _) => (.ok r (), s)
  | (none, 0) => (.ok i (), s)
  | (none, _ + 1) => (.err false i none, s)

/-- `Suffix::r#macro`, expr.rs 346-400. -/
def suffixMacro : P Suffix := do
  let _ ← ws (char '!')
  let _ ← char '('
  cut do
    let a ← recognize nestedParen
    let _ ← char ')'
    pure (.macroCall a)

/-- `Suffix::attr`, expr.rs 402-410. -/
def suffixAttr : P Suffix := do
  let _ ← ws (do let _ ← char '.'; not (char '.'))
  let a ← cut (alt numLit identifier)
  pure (.attr a)

/-- `Suffix::r#try`, expr.rs 428-430. -/
def suffixTry : P Suffix := do
  skipWs
  let _ ← char '?'
  pure .try_

/-- `Expr::path_var_bool`, expr.rs 278-285. -/
def pathVarBool (env : PEnv) : P Expr := do
  match ← pathOrIdent env with
  | .path v => pure (.path v)
  | .ident v => if v = c!"true" ∨ v = c!"false" then pure (.boolLit v) else pure (.var v)

section
variable (self : Self)

/-- The operand parser of layer `k`: the next layer, after the last one `filtered`. -/
def operand (k : Nat) : P Expr := if k + 1 < nLayers then self (.bin (k + 1)) else self .filtered

/-- One operator and its right operand. -/
def binRest (k : Nat) : P (Str × Expr) := do
  let op ← ws (altTags (layerOps k))
  let r ← operand self k
  pure (op, r)

/-- `expr_prec_layer!`, expr.rs 19-52. -/
def binBody (k : Nat) : P Expr := do
  let left ← operand self k
  let right ← many0 (binRest self k)
  pure (right.foldl (fun l p => .binop p.1 l p.2) left)

/-- `range_right` of `Expr::parse`, expr.rs 155-160. -/
def rangeRight : P (Str × Option Expr) := do
  let op ← ws (altTags [c!"..=", c!".."])
  let r ← opt (self (.bin 0))
  pure (op, r)

/-- `Expr::parse`, expr.rs 153-173. -/
def parseBody : P Expr :=
  alt (do let (op, r) ← rangeRight self; pure (.range op none r))
    (do
      let left ← self (.bin 0)
      match ← opt (rangeRight self) with
      | some (op, r) => pure (.range op (some left) r)
      | none => pure left)

/-- `filter`, lib.rs 639-646. -/
def filterP : P (Str × Option (List Expr)) := do
  let _ ← char '|'
  let n ← ws identifier
  let a ← opt (self (.args false))
  pure (n, a)

/-- `Expr::filtered`, expr.rs 186-204. -/
def filteredBody : P Expr := do
  let obj ← self .prefix
  let fs ← many0 (filterP self)
  pure (fs.foldl (fun res f => .filter f.1 (res :: f.2.getD [])) obj)

/-- `Expr::prefix`, expr.rs 206-221; `rem` is the number of levels left on entry: the loop nests once per
operator. -/
def prefixBody (rem : Nat) : P Expr := do
  let ops ← many0 (ws (altTags [c!"!", c!"-"]))
  let e ← self .suffix
  if ops.length ≤ rem then pure (ops.foldr (fun op e => .unary op e) e) else tooDeep

/-- `Expr::single`, expr.rs 223-233. -/
def singleBody (env : PEnv) : P Expr :=
  alt (numLit.map .numLit) <| alt (strLit.map .strLit) <| alt (charLit.map .charLit) <|
  alt (pathVarBool env) <| alt (self .array) (self .group)

/-- `Expr::group`, expr.rs 235-262. -/
def groupBody : P Expr := do
  let _ ← ws (char '(')
  match ← opt (self .parse) with
  | none => do
    let _ ← char ')'
    pure (.tuple [])
  | some e => do
    match ← ws (opt (peek (char ','))) with
    | none => do
      let _ ← char ')'
      pure (.group e)
    | some _ => do
      let es ← many0 (do let _ ← char ','; ws (self .parse))
      let _ ← ws (opt (char ','))
      let _ ← char ')'
      pure (.tuple (e :: es))

/-- `Expr::array`, expr.rs 264-276. -/
def arrayBody : P Expr := do
  let _ ← ws (char '[')
  cut do
    let es ← sepList0 (char ',') (ws (self .parse))
    let _ ← opt (ws (char ','))
    let _ ← char ']'
    pure (.array es)

/-- The element parser of `Expr::arguments`, expr.rs 93-118, with `Expr::named_argument`, 127-151; its state is
the set `named_arguments`. -/
def argument (start : Str) (isMacro : Bool) : PT (List Str) Expr := do
  let hasNamed := !(← get).isEmpty
  let e ← alt
    (if isMacro then do
      let (n, v) ← lift (self .named)
      if n ∈ (← get) then
        failAt start (some (.named c!"passed more than once" n))
      else do
        modify (n :: ·)
        pure (.namedArg n v)
    else error)
    (lift (self .parse))
  match hasNamed, e with
  | true, .namedArg _ _ => pure e
  | true, _ => failAt start (some (.text c!"named arguments must always be passed last"))
  | false, _ => pure e

/-- `Expr::arguments`, expr.rs 80-125. The fresh set `named_arguments` is local to the call. -/
def argsBody (isMacro : Bool) : P (List Expr) := do
  let start ← pos
  let _ ← ws (char '(')
  cut do
    let es ← (fun s i => ((sepList0 (char ',') (ws (argument self start isMacro)) [] i).1, s) : P (List Expr))
    let _ ← opt (ws (char ','))
    let _ ← char ')'
    pure es

/-- The parsing part of `Expr::named_argument`, expr.rs 142-144. -/
def namedBody : P (Str × Expr) := do
  let n ← identifier
  let _ ← ws (char '=')
  let v ← self .parse
  pure (n, v)

/-- `Suffix::index`, expr.rs 412-421. -/
def indexBody : P Expr := do
  let _ ← ws (char '[')
  cut do
    let e ← ws (self .parse)
    let _ ← char ']'
    pure e

/-- One round of the loop of `Suffix::parse`, expr.rs 321-327. -/
def suffixOne : P (Option Suffix) :=
  opt <| alt suffixAttr <| alt ((self .index).map .index) <| alt ((self .call).map .call) <|
    alt suffixTry suffixMacro

/-- The loop of `Suffix::parse`, expr.rs 320-343. It has no progress check of its own; `fuel` bounds the rounds
and running out of it is `stuck`. -/
def suffixLoop : Nat → Expr → P Expr
  | 0, _ => stuck
  | fuel + 1, e => do
    let i ← pos
    match ← suffixOne self with
    | some (.attr a) => suffixLoop fuel (.attr e a)
    | some (.index k) => suffixLoop fuel (.index e k)
    | some (.call args) => suffixLoop fuel (.call e args)
    | some .try_ => suffixLoop fuel (.try_ e)
    | some (.macroCall a) =>
      match e with
      | .path p => suffixLoop fuel (.rustMacro p a)
      | .var n => suffixLoop fuel (.rustMacro [n] a)
      | _ => failAt i none
    | none => pure e

/-- `Suffix::parse`, expr.rs 317-344. -/
def suffixBody : P Expr := do
  let e ← self .single
  let i ← pos
  suffixLoop self (i.length + 1) e

end

/-- The functions of expr.rs with the call to `nest` removed; `rem` is the number of levels left on entry. -/
def exprBody (env : PEnv) (self : Self) (rem : Nat) : (nt : NT) → P nt.ty
  | .parse => parseBody self
  | .bin k => binBody self k
  | .filtered => filteredBody self
  | .prefix => prefixBody self rem
  | .suffix => suffixBody self
  | .single => singleBody self env
  | .group => groupBody self
  | .array => arrayBody self
  | .args m => argsBody self m
  | .named => namedBody self
  | .index => indexBody self
  | .call => self (.args false)   -- `Suffix::call`, expr.rs 423-426

/-- A function of expr.rs called with `rem` levels left (`level = 128 - rem`). -/
def exprP (env : PEnv) : Nat → (nt : NT) → P nt.ty
  | 0, _ => tooDeep
  | n + 1, nt => exprBody env (exprP env n) (n + 1) nt

end Askama
