import Verif.Model.Base

/-!
# Syntax trees of templates

The AST types of `askama_parser` (`expr.rs`, `node.rs`). Borrowed `&str` slices are `Str` values,
`Box<T>` is `T`, structures carried by one node variant are inlined as constructor arguments where
Lean's nested inductive types require it.
-/

namespace Askama

/-- `node::Whitespace`, node.rs 421-426. -/
inductive Wsp where
  | preserve
  | suppress
  | minimize
  deriving DecidableEq, Repr

/-- `node::Ws(Option<Whitespace>, Option<Whitespace>)`, node.rs 1111-1115. -/
structure Ws where
  l : Option Wsp
  r : Option Wsp
  deriving DecidableEq, Repr

/-- `expr::Expr`, expr.rs 54-77, with `Filter { name, arguments }` (expr.rs 303-307) inlined in `filter`. -/
inductive Expr where
  | boolLit (s : Str)
  | numLit (s : Str)
  | strLit (s : Str)
  | charLit (s : Str)
  | var (s : Str)
  | path (p : List Str)
  | array (es : List Expr)
  | attr (e : Expr) (a : Str)
  | index (e k : Expr)
  | filter (name : Str) (args : List Expr)
  | namedArg (n : Str) (e : Expr)
  | unary (op : Str) (e : Expr)
  | binop (op : Str) (a b : Expr)
  | range (op : Str) (a b : Option Expr)
  | group (e : Expr)
  | tuple (es : List Expr)
  | call (e : Expr) (args : List Expr)
  | rustMacro (p : List Str) (args : Str)
  | try_ (e : Expr)
  | generated (s : Str)
  deriving Repr

/-- `node::Target`, node.rs 158-169. -/
inductive Target where
  | name (n : Str)
  | tuple (p : List Str) (ts : List Target)
  | struct (p : List Str) (ts : List (Str × Target))
  | numLit (s : Str)
  | strLit (s : Str)
  | charLit (s : Str)
  | boolLit (s : Str)
  | path (p : List Str)
  | orChain (ts : List Target)
  deriving Repr

/-- `node::Lit`, node.rs 830-835. -/
structure Lit where
  lws : Str
  val : Str
  rws : Str
  deriving DecidableEq, Repr

/-- The whole text of a literal. -/
def Lit.text (l : Lit) : Str := l.lws ++ l.val ++ l.rws

/-- `node::CondTest`, node.rs 390-394. -/
structure CondTest where
  target : Option Target
  expr : Expr
  deriving Repr

/-- `node::Filter` of a filter block. -/
structure FilterApp where
  name : Str
  args : List Expr
  deriving Repr

mutual
/-- `node::Node`, node.rs 20-40. -/
inductive Node where
  | lit (l : Lit)
  | comment (ws : Ws) (content : Str)
  | expr (ws : Ws) (e : Expr)
  | call (ws : Ws) (scope : Option Str) (name : Str) (args : List Expr)
  | let_ (ws : Ws) (var : Target) (val : Option Expr)
  | if_ (ws : Ws) (branches : List Cond)
  | match_ (ws1 : Ws) (expr : Expr) (arms : List When) (ws2 : Ws)
  | loop (ws1 : Ws) (var : Target) (iter : Expr) (cond : Option Expr) (body : List Node) (ws2 : Ws)
      (elseNodes : List Node) (ws3 : Ws)
  | extends_ (path : Str)
  | blockDef (ws1 : Ws) (name : Str) (nodes : List Node) (ws2 : Ws)
  | include (ws : Ws) (path : Str)
  | import_ (ws : Ws) (path scope : Str)
  | macro (ws1 : Ws) (name : Str) (args : List Str) (nodes : List Node) (ws2 : Ws)
  | raw (ws1 : Ws) (l : Lit) (ws2 : Ws)
  | break_ (ws : Ws)
  | continue_ (ws : Ws)
  | filterBlock (ws1 : Ws) (filters : FilterApp) (nodes : List Node) (ws2 : Ws)
/-- `node::When`, node.rs 300-306. -/
inductive When where
  | mk (ws : Ws) (target : Target) (nodes : List Node)
/-- `node::Cond`, node.rs 354-360. -/
inductive Cond where
  | mk (ws : Ws) (cond : Option CondTest) (nodes : List Node)
end

end Askama
