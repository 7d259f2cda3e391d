import Verif.Model.Gen

/-!
# The text of emitted expressions

Models the same functions of `askama_derive/src/generator.rs` as `visitExpr`, but with the text they write to the buffer
instead of the tree (`RExpr`). Where `visit_expr` fails, the text is of no use and left empty. Left out are the spaces
that `Buffer::write` puts in front of a line (1871-1876): they come after a line break, between tokens.
-/

namespace Askama

/-- What `self.locals` says of a name (askama_derive/src/generator.rs:1894-1898, 1979-1985): nothing, that it is a local
variable, or the text it stands for. -/
abbrev TextLocals := Str → Option (Option Str)

/-- `MapChain::resolve` (askama_derive/src/generator.rs:1979-1985). -/
def TextLocals.resolve (T : TextLocals) (name : Str) : Option Str :=
  let name := normalizeIdentifier name
  (T name).map fun m =>
    match m with
    | some text => text
    | none => name

/-- `MapChain::resolve_or_self` (askama_derive/src/generator.rs:1987-1990). -/
def TextLocals.resolveOrSelf (T : TextLocals) (name : Str) : Str :=
  let name := normalizeIdentifier name
  (T.resolve name).getD (c!"self." ++ name)

/-- `is_attr_self` (askama_derive/src/generator.rs:2033-2040). -/
def isAttrSelf : Expr → Bool
  | .attr (.var x) _ => x == c!"self"
  | .attr (.attr e a) _ => isAttrSelf (.attr e a)
  | _ => false

/-- `is_copyable_within_op` (askama_derive/src/generator.rs:2008-2030). -/
def isCopyableWithinOp (withinOp : Bool) : Expr → Bool
  | .boolLit _ | .numLit _ | .strLit _ | .charLit _ => true
  | .unary _ e => isCopyableWithinOp true e
  | .binop _ a b => isCopyableWithinOp true a && isCopyableWithinOp true b
  | .range _ _ _ | .call _ _ | .path _ => true
  | e => withinOp && isAttrSelf e

/-- `is_copyable` (askama_derive/src/generator.rs:2004-2006). -/
def isCopyable (e : Expr) : Bool := isCopyableWithinOp false e

/-- `Expr::Call(left, _) if !matches!(left.as_ref(), Expr::Path(_))` (askama_derive/src/generator.rs:1441). -/
def isBraced : Expr → Bool
  | .call (.path _) _ => false
  | .call _ _ => true
  | _ => false

/-- One argument in `_visit_args` (askama_derive/src/generator.rs:1435-1453), given its text. -/
def wrapArg (e : Expr) (s : Str) : Str :=
  let s := if isBraced e then c!"{\n" ++ s ++ c!"}\n" else s
  if isCopyable e then s else c!"&(" ++ s ++ c!")"

/-- `visit_path` (askama_derive/src/generator.rs:1643-1651). -/
def pathText : List Str → Str
  | [] => []
  | [s] => s
  | s :: p => s ++ c!"::" ++ pathText p

/-- `visit_var` (askama_derive/src/generator.rs:1653-1661). -/
def varText (T : TextLocals) (x : Str) : Str :=
  if x = c!"self" then x else normalizeIdentifier (T.resolveOrSelf x)

/-- A call of one of askama's filters with the escaper as first argument (askama_derive/src/generator.rs:1327-1332,
1359-1364). -/
def escText (name escaper arg : Str) : Str :=
  c!"::askama" ++ c!"::filters::" ++ name ++ c!"(" ++ escaper ++ c!", " ++ arg ++ c!")?"

/-- The text of a format filter (askama_derive/src/generator.rs:1377-1384, 1395-1400), with the arguments after the
format string. -/
def fmtCallText (fmt args : Str) : Str := c!"::std::format!(" ++ (c!"\"" ++ fmt ++ c!"\"") ++ args ++ c!")"

/-- The text around the operand of `?` (askama_derive/src/generator.rs:1227-1231). -/
def tryText (e : Str) : Str :=
  c!"::core::result::Result::map_err(" ++ e ++ c!", |err| " ++ c!"::askama"
    ++ c!"::shared::Error::Custom(::core::convert::Into::into(err)))?"

/-- The text for `loop.cycle(e)` (askama_derive/src/generator.rs:1515-1525). -/
def cycleText (e : Str) : Str :=
  c!"({" ++ c!"let _cycle = &(" ++ e ++ c!");\n" ++ c!"let _len = _cycle.len();\n" ++ c!"if _len == 0 {\n"
    ++ c!"return ::core::result::Result::Err(" ++ c!"::askama" ++ c!"::Error::Fmt(::core::fmt::Error));\n" ++ c!"}\n"
    ++ c!"_cycle[_loop_item.index % _len]\n" ++ c!"})\n"

mutual
/-- The text written by `visit_expr` (askama_derive/src/generator.rs:1188-1688). -/
def exprText (I : GenInput) (T : TextLocals) : Expr → Str
  | .boolLit s => s
  | .numLit s => s
  | .strLit s => c!"\"" ++ s ++ c!"\""
  | .charLit s => c!"'" ++ s ++ c!"'"
  | .var s => varText T s
  | .path p => pathText p
  | .array es => c!"[" ++ sepText I T es ++ c!"]"
  | .attr (.var x) a =>
    if x = c!"loop" then
      if a = c!"index" then c!"(_loop_item.index + 1)"
      else if a = c!"index0" then c!"_loop_item.index"
      else if a = c!"first" then c!"_loop_item.first"
      else if a = c!"last" then c!"_loop_item.last"
      else []
    else varText T x ++ (c!"." ++ normalizeIdentifier a)
  | .attr e a => exprText I T e ++ (c!"." ++ normalizeIdentifier a)
  | .index e k => c!"&" ++ exprText I T e ++ c!"[" ++ exprText I T k ++ c!"]"
  | .filter name args =>
    if name = c!"as_ref" then
      match args with
      | [a] => c!"&" ++ exprText I T a
      | _ => []
    else if name = c!"deref" then
      match args with
      | [a] => c!"*" ++ exprText I T a
      | _ => []
    else if name = c!"escape" ∨ name = c!"e" then
      match args with
      | [] => []
      | [a] => escText c!"escape" I.escaper (wrapArg a (exprText I T a))
      | [a, .strLit n] =>
        match findEscaper I n with
        | some x => escText c!"escape" x (wrapArg a (exprText I T a))
        | none => []
      | _ => []
    else if name = c!"fmt" then
      match args with
      | [a, .strLit f] => fmtCallText f (c!", " ++ wrapArg a (exprText I T a))
      | _ => []
    else if name = c!"format" then
      match args with
      | .strLit f :: rest => fmtCallText f (moreText I T rest)
      | _ => []
    else if name = c!"join" then
      match args with
      | [] => []
      | a :: rest => c!"::askama" ++ c!"::filters::join((&" ++ exprText I T a ++ c!").into_iter()" ++ joinText I T rest ++ c!")?"
    else if name = c!"json" ∨ name = c!"tojson" then
      match args with
      | [a] => c!"::askama" ++ c!"::filters::json(" ++ wrapArg a (exprText I T a) ++ c!")?"
      | _ => []
    else if name = c!"safe" then
      match args with
      | [a] => escText c!"safe" I.escaper (wrapArg a (exprText I T a))
      | _ => []
    else
      (if builtInFilters.contains name then c!"::askama" ++ c!"::filters::" ++ name ++ c!"("
        else c!"filters::" ++ name ++ c!"(") ++ argsText I T args ++ c!")?"
  | .namedArg _ e => exprText I T e
  | .unary op e => op ++ exprText I T e
  | .binop op a b => exprText I T a ++ (c!" " ++ op ++ c!" ") ++ exprText I T b
  | .range op a b => optText I T a ++ op ++ optText I T b
  | .group e => c!"(" ++ exprText I T e ++ c!")"
  | .tuple es => c!"(" ++ tupleText I T es ++ c!")"
  | .call (.attr (.var x) m) args =>
    if x = c!"loop" then
      match args with
      | [a] => cycleText (exprText I T a)
      | _ => []
    else varText T x ++ (c!"." ++ normalizeIdentifier m) ++ c!"(" ++ argsText I T args ++ c!")"
  | .call (.var x) args =>
    (T.resolve x).getD (c!"(&self." ++ normalizeIdentifier x ++ c!")") ++ c!"(" ++ argsText I T args ++ c!")"
  | .call f args => exprText I T f ++ c!"(" ++ argsText I T args ++ c!")"
  | .rustMacro p a => pathText p ++ c!"!(" ++ a ++ c!")"
  | .try_ e => tryText (exprText I T e)
  | .generated s => s
/-- `_visit_args` (askama_derive/src/generator.rs:1425-1456). -/
def argsText (I : GenInput) (T : TextLocals) : List Expr → Str
  | [] => []
  | e :: es => wrapArg e (exprText I T e) ++ moreText I T es
/-- The arguments after the first (askama_derive/src/generator.rs:1431-1433). -/
def moreText (I : GenInput) (T : TextLocals) : List Expr → Str
  | [] => []
  | e :: es => c!", " ++ wrapArg e (exprText I T e) ++ moreText I T es
/-- The arguments of `join` after the first (askama_derive/src/generator.rs:1412-1416). -/
def joinText (I : GenInput) (T : TextLocals) : List Expr → Str
  | [] => []
  | e :: es => c!", &" ++ exprText I T e ++ joinText I T es
/-- The elements of an array (askama_derive/src/generator.rs:1632-1638). -/
def sepText (I : GenInput) (T : TextLocals) : List Expr → Str
  | [] => []
  | e :: es => exprText I T e ++ sepMore I T es
/-- ... after the first. -/
def sepMore (I : GenInput) (T : TextLocals) : List Expr → Str
  | [] => []
  | e :: es => c!", " ++ exprText I T e ++ sepMore I T es
/-- The elements of a tuple (askama_derive/src/generator.rs:1608-1614). -/
def tupleText (I : GenInput) (T : TextLocals) : List Expr → Str
  | [] => []
  | e :: es => exprText I T e ++ c!"," ++ tupleMore I T es
/-- ... after the first. -/
def tupleMore (I : GenInput) (T : TextLocals) : List Expr → Str
  | [] => []
  | e :: es => c!" " ++ exprText I T e ++ c!"," ++ tupleMore I T es
/-- The ends of a range (askama_derive/src/generator.rs:1569-1575). -/
def optText (I : GenInput) (T : TextLocals) : Option Expr → Str
  | none => []
  | some e => exprText I T e
end

end Askama
