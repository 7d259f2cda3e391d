import Verif.Model.Ast
import Verif.Model.Names
import Verif.Model.Runtime

/-!
# The emitted Rust code and its meaning

The code generator writes Rust source text. The model keeps the tree that `rustc` reads from that text: expressions
(`RExpr`) and statements (`Stmt`), one constructor per form the generator emits. `RExpr.eval` and `Stmt.exec` give
them the meaning they have in Rust; values, operators, calls, filters and so on of the user's program are the fields of
a `World`. Borrowing (`&`, `&(…)`), automatic dereferencing and the braces around call arguments do not change the
value and are not represented.
-/

namespace Askama

/-- Rust values: the user's values, and the `MarkupDisplay`s that the `safe` and `escape` filters return
(askama/src/filters/mod.rs:72-90). -/
inductive Val (U : Type) where
  | user (u : U)
  | safe (v : Val U)
  | esc (escaper : Str) (v : Val U)

/-- Kinds of literals. -/
inductive LitKind where
  | bool | num | str | char
  deriving DecidableEq, Repr

/-- Everything the emitted code takes from the user's program and from Rust. Every operation may fail (`none`): an error
returned with `?`, or an operation that does not exist. Values are taken to be pure, except that displaying the same
value a second time may show something else (`disp u k` is what the `k`-th display of a value shows, counted within one
`write!`). -/
structure World (U : Type) where
  lit : LitKind → Str → Val U
  nat : Nat → Val U
  bool : Bool → Val U
  str : Str → Val U
  /-- `self`. -/
  self_ : Val U
  /-- What a path denotes: a function, a constant, … -/
  path : List Str → Option (Val U)
  /-- Is there a constant or the like of this name, which a pattern of this name is compared with? -/
  constant : Str → Bool
  array : List (Val U) → Option (Val U)
  tuple : List (Val U) → Option (Val U)
  attr : Val U → Str → Option (Val U)
  index : Val U → Val U → Option (Val U)
  unop : Str → Val U → Option (Val U)
  binop : Str → Val U → Val U → Option (Val U)
  truthy : Val U → Option Bool
  range : Str → Option (Val U) → Option (Val U) → Option (Val U)
  call : Val U → List (Val U) → Option (Val U)
  method : Val U → Str → List (Val U) → Option (Val U)
  try_ : Val U → Option (Val U)
  deref : Val U → Option (Val U)
  /-- `format!`, on the text of the format string as it stands in the source. -/
  format : Str → List (Val U) → Option (Val U)
  join : List (Val U) → Option (Val U)
  /-- `askama::filters::name` (`true`) or `filters::name` (`false`). -/
  filter : Bool → Str → List (Val U) → Option (Val U)
  /-- A macro call; its argument text is taken not to mention template variables. -/
  rustMacro : List Str → Str → Option (Val U)
  /-- Matching against a pattern: the values of its variables in order, or no match. -/
  pmatch : Target → Val U → Option (List (Val U))
  /-- The items of an iterable value, which are finitely many. -/
  iter : Val U → Option (List (Val U))
  /-- The elements of a value that has `len()` and can be indexed. -/
  elems : Val U → Option (List (Val U))
  disp : U → Nat → Option Str
  escape : Str → Str → Str

namespace World

variable {U : Type} (W : World U)

/-- Display of a value, the `k`-th time. -/
def show_ : Val U → Nat → Option Str
  | .user u, k => W.disp u k
  | .safe v, k => show_ v k
  | .esc e v, k => (show_ v k).map (W.escape e)

end World

/-! ## Expressions -/

/-- Expressions as emitted by `visit_expr` and its helpers (askama_derive/src/generator.rs:1188-1688). -/
inductive RExpr where
  /-- `true`, `12`, `"…"`, `'…'` (1670-1688). -/
  | lit (k : LitKind) (s : Str)
  /-- `self` (1657). -/
  | self_
  /-- A local variable (1661, and `Expr::Generated`, 1665). -/
  | local_ (n : Str)
  /-- `self.n` (1990). -/
  | field (n : Str)
  /-- `(&self.n)`, only in front of call arguments (1538). -/
  | fieldRef (n : Str)
  | path (p : List Str)
  | array (es : List RExpr)
  | attr (e : RExpr) (a : Str)
  /-- `(_loop_item.index + 1)`, `_loop_item.index`, `_loop_item.first`, `_loop_item.last` (1466-1477). -/
  | loopIndex
  | loopIndex0
  | loopFirst
  | loopLast
  | index (e k : RExpr)
  /-- `&e` (1281). -/
  | asRef (e : RExpr)
  /-- `*e` (1295). -/
  | deref (e : RExpr)
  /-- `askama::filters::escape(escaper, e)?` (1359-1364). -/
  | escape (escaper : Str) (e : RExpr)
  /-- `askama::filters::safe(escaper, e)?` (1327-1332). -/
  | safe (e : RExpr)
  /-- `::std::format!("fmt", args)` (1377-1384, 1396-1400). -/
  | format (fmt : Str) (args : List RExpr)
  /-- `askama::filters::join((&a).into_iter(), &b)?` (1410-1421). -/
  | join (args : List RExpr)
  /-- `askama::filters::name(args)?` or `filters::name(args)?` (1262-1268, 1311-1314). -/
  | filter (builtin : Bool) (name : Str) (args : List RExpr)
  | unary (op : Str) (e : RExpr)
  | binop (op : Str) (a b : RExpr)
  | range (op : Str) (a b : Option RExpr)
  | group (e : RExpr)
  | tuple (es : List RExpr)
  | call (f : RExpr) (args : List RExpr)
  /-- The block emitted for `loop.cycle(e)` (1515-1525). -/
  | cycle (e : RExpr)
  | rustMacro (p : List Str) (args : Str)
  /-- `Result::map_err(e, …)?` (1227-1231). -/
  | try_ (e : RExpr)

/-- Variables of a running `render_into`: the Rust locals (innermost first; `none` is declared but not assigned), and
the internal variables `_loop_item`, `_did_loop` and `_iter`. -/
structure REnv (U : Type) where
  vars : List (Str × Option (Val U))
  item : Option LoopItem
  did : Bool
  iter : List (Val U)

/-- Value of a local variable: the innermost declaration of that name. -/
def lookupVar {U : Type} (vars : List (Str × Option (Val U))) (n : Str) : Option (Val U) :=
  (vars.find? (fun e => e.1 == n)).bind (·.2)

/-- What a path denotes where these variables are in scope. The parser makes a path of every name that does not begin with
a lower case letter (`_x`, `FOO`), and Rust takes a path of one name for the variable of that name, if there is one.
Simplified: the internal variables `_loop_item`, `_iter` and `_did_loop` are not found under their names. -/
def pathVal {U : Type} (W : World U) (vars : List (Str × Option (Val U))) : List Str → Option (Val U)
  | [n] =>
    match vars.find? (fun e => e.1 == n) with
    | some e => e.2
    | none => W.path [n]
  | p => W.path p

namespace RExpr

variable {U : Type} (W : World U)

mutual
/-- Value of an emitted expression. -/
def eval (ρ : REnv U) : RExpr → Option (Val U)
  | .lit k s => some (W.lit k s)
  | .self_ => some W.self_
  | .local_ n => lookupVar ρ.vars n
  | .field n => W.attr W.self_ n
  | .fieldRef n => W.attr W.self_ n
  | .path p => pathVal W ρ.vars p
  | .array es => (evalList ρ es).bind W.array
  | .attr e a => (eval ρ e).bind fun v => W.attr v a
  | .loopIndex => ρ.item.map fun i => W.nat (i.index + 1)
  | .loopIndex0 => ρ.item.map fun i => W.nat i.index
  | .loopFirst => ρ.item.map fun i => W.bool i.first
  | .loopLast => ρ.item.map fun i => W.bool i.last
  | .index e k => (eval ρ e).bind fun v => (eval ρ k).bind fun w => W.index v w
  | .asRef e => eval ρ e
  | .deref e => (eval ρ e).bind W.deref
  | .escape escaper e => (eval ρ e).map (.esc escaper)
  | .safe e => (eval ρ e).map .safe
  | .format fmt args => (evalList ρ args).bind (W.format fmt)
  | .join args => (evalList ρ args).bind W.join
  | .filter b n args => (evalList ρ args).bind (W.filter b n)
  | .unary op e => (eval ρ e).bind (W.unop op)
  | .binop op a b =>
    (eval ρ a).bind fun v =>
      if op = c!"&&" then
        (W.truthy v).bind fun t =>
          if t then ((eval ρ b).bind W.truthy).map W.bool else some (W.bool false)
      else if op = c!"||" then
        (W.truthy v).bind fun t =>
          if t then some (W.bool true) else ((eval ρ b).bind W.truthy).map W.bool
      else (eval ρ b).bind fun w => W.binop op v w
  | .range op a b => (evalOpt ρ a).bind fun v => (evalOpt ρ b).bind fun w => W.range op v w
  | .group e => eval ρ e
  | .tuple es => (evalList ρ es).bind W.tuple
  -- `x.f(…)` is a method call in Rust, also when `x.f` is what a name stands for
  | .call (.attr e a) args => (eval ρ e).bind fun v => (evalList ρ args).bind fun vs => W.method v a vs
  | .call (.field n) args => (evalList ρ args).bind fun vs => W.method W.self_ n vs
  | .call f args => (eval ρ f).bind fun v => (evalList ρ args).bind fun vs => W.call v vs
  | .cycle e =>
    (eval ρ e).bind fun v => (W.elems v).bind fun vs => ρ.item.bind fun i => (loopCycle vs i).bind id
  | .rustMacro p a => W.rustMacro p a
  | .try_ e => (eval ρ e).bind W.try_
/-- Values of a list of expressions. -/
def evalList (ρ : REnv U) : List RExpr → Option (List (Val U))
  | [] => some []
  | e :: es => (eval ρ e).bind fun v => (evalList ρ es).map (v :: ·)
/-- Value of an optional expression. -/
def evalOpt (ρ : REnv U) : Option RExpr → Option (Option (Val U))
  | none => some none
  | some e => (eval ρ e).map some
end

mutual
/-- Equality of emitted expressions (the generator compares their text, which the model does not keep). -/
def beq : RExpr → RExpr → Bool
  | .lit x0 x1, b => match b with
    | .lit y0 y1 => (x0 == y0) && (x1 == y1)
    | _ => false
  | .self_, b => match b with
    | .self_ => true
    | _ => false
  | .local_ x0, b => match b with
    | .local_ y0 => (x0 == y0)
    | _ => false
  | .field x0, b => match b with
    | .field y0 => (x0 == y0)
    | _ => false
  | .fieldRef x0, b => match b with
    | .fieldRef y0 => (x0 == y0)
    | _ => false
  | .path x0, b => match b with
    | .path y0 => (x0 == y0)
    | _ => false
  | .array x0, b => match b with
    | .array y0 => beqList x0 y0
    | _ => false
  | .attr x0 x1, b => match b with
    | .attr y0 y1 => beq x0 y0 && (x1 == y1)
    | _ => false
  | .loopIndex, b => match b with
    | .loopIndex => true
    | _ => false
  | .loopIndex0, b => match b with
    | .loopIndex0 => true
    | _ => false
  | .loopFirst, b => match b with
    | .loopFirst => true
    | _ => false
  | .loopLast, b => match b with
    | .loopLast => true
    | _ => false
  | .index x0 x1, b => match b with
    | .index y0 y1 => beq x0 y0 && beq x1 y1
    | _ => false
  | .asRef x0, b => match b with
    | .asRef y0 => beq x0 y0
    | _ => false
  | .deref x0, b => match b with
    | .deref y0 => beq x0 y0
    | _ => false
  | .escape x0 x1, b => match b with
    | .escape y0 y1 => (x0 == y0) && beq x1 y1
    | _ => false
  | .safe x0, b => match b with
    | .safe y0 => beq x0 y0
    | _ => false
  | .format x0 x1, b => match b with
    | .format y0 y1 => (x0 == y0) && beqList x1 y1
    | _ => false
  | .join x0, b => match b with
    | .join y0 => beqList x0 y0
    | _ => false
  | .filter x0 x1 x2, b => match b with
    | .filter y0 y1 y2 => (x0 == y0) && (x1 == y1) && beqList x2 y2
    | _ => false
  | .unary x0 x1, b => match b with
    | .unary y0 y1 => (x0 == y0) && beq x1 y1
    | _ => false
  | .binop x0 x1 x2, b => match b with
    | .binop y0 y1 y2 => (x0 == y0) && beq x1 y1 && beq x2 y2
    | _ => false
  | .range x0 x1 x2, b => match b with
    | .range y0 y1 y2 => (x0 == y0) && beqOpt x1 y1 && beqOpt x2 y2
    | _ => false
  | .group x0, b => match b with
    | .group y0 => beq x0 y0
    | _ => false
  | .tuple x0, b => match b with
    | .tuple y0 => beqList x0 y0
    | _ => false
  | .call x0 x1, b => match b with
    | .call y0 y1 => beq x0 y0 && beqList x1 y1
    | _ => false
  | .cycle x0, b => match b with
    | .cycle y0 => beq x0 y0
    | _ => false
  | .rustMacro x0 x1, b => match b with
    | .rustMacro y0 y1 => (x0 == y0) && (x1 == y1)
    | _ => false
  | .try_ x0, b => match b with
    | .try_ y0 => beq x0 y0
    | _ => false
/-- Equality of lists of expressions. -/
def beqList : List RExpr → List RExpr → Bool
  | [], b => b.isEmpty
  | x :: xs, b => match b with
    | y :: ys => beq x y && beqList xs ys
    | [] => false
/-- Equality of optional expressions. -/
def beqOpt : Option RExpr → Option RExpr → Bool
  | none, b => b.isNone
  | some x, b => match b with
    | some y => beq x y
    | none => false
end

end RExpr

/-! ## Format strings -/

/-- A piece of a Rust format string. -/
inductive Piece where
  | ch (c : Char)
  | arg (name : Str)
  deriving DecidableEq, Repr

/-- Rust's reading of a format string with plain named arguments: `{{` and `}}` are braces, `{name}` an argument. The
first parameter is the name read so far when inside an argument. -/
def parseFmt : Option Str → Str → Option (List Piece)
  | none, [] => some []
  | some _, [] => none
  | some name, '}' :: s => (parseFmt none s).map (.arg name :: ·)
  | some name, c :: s => parseFmt (some (name ++ [c])) s
  | none, '{' :: '{' :: s => (parseFmt none s).map (.ch '{' :: ·)
  | none, '{' :: s => parseFmt (some []) s
  | none, '}' :: '}' :: s => (parseFmt none s).map (.ch '}' :: ·)
  | none, '}' :: _ => none
  | none, c :: s => (parseFmt none s).map (.ch c :: ·)

/-- A named argument `exprN = &e` of `write!` or `format!`; `esc = some x` is `MarkupDisplay::new_unsafe(&(e), x)`
(askama_derive/src/generator.rs:1116-1120). -/
structure FmtArg where
  id : Nat
  esc : Option Str
  expr : RExpr

/-- `expr{id}` (askama_derive/src/generator.rs:1127, 1139). -/
def argName (id : Nat) : Str := c!"expr" ++ Nat.toDigits 10 id

section

variable {U : Type} (W : World U)

/-- Evaluate the arguments of `write!`: name, escaper and value of each. -/
def evalArgs (ρ : REnv U) : List FmtArg → Option (List (Str × Option Str × Val U))
  | [] => some []
  | a :: as => (a.expr.eval W ρ).bind fun v => (evalArgs ρ as).map ((argName a.id, a.esc, v) :: ·)

/-- Display of an argument, the `k`-th time. -/
def showArg (esc : Option Str) (v : Val U) (k : Nat) : Option Str :=
  match esc with
  | some x => (W.show_ v k).map (W.escape x)
  | none => W.show_ v k

/-- Formatting the pieces in order; `seen` are the names of the arguments shown so far. -/
def showPieces (args : List (Str × Option Str × Val U)) : List Str → List Piece → Option Str
  | _, [] => some []
  | seen, .ch c :: ps => (showPieces args seen ps).map (c :: ·)
  | seen, .arg n :: ps =>
    (args.find? (fun a => a.1 == n)).bind fun a =>
      (showArg W a.2.1 a.2.2 (seen.count n)).bind fun s => (showPieces args (n :: seen) ps).map (s ++ ·)

/-- What `format!(fmt, args)` produces. -/
def formatText (ρ : REnv U) (fmt : Str) (args : List FmtArg) : Option Str :=
  (parseFmt none fmt).bind fun ps => (evalArgs W ρ args).bind fun vs => showPieces W vs [] ps

end

/-! ## Statements -/

/-- Condition of an `if` branch (askama_derive/src/generator.rs:357-403). -/
inductive RCond where
  /-- `else` -/
  | always
  /-- `*(&(e) as &bool)` -/
  | test (e : RExpr)
  /-- `let t = &e` -/
  | let_ (t : Target) (e : RExpr)
  /-- `let t = &l op r` -/
  | letChain (op : Str) (t : Target) (l r : RExpr)

mutual
/-- Statements emitted by the generator. -/
inductive Stmt where
  /-- `writer.write_str(s)?;` (1010). -/
  | writeLit (s : Str)
  /-- `write!(writer, fmt, args)?;` (1017-1023). -/
  | writeFmt (fmt : Str) (args : List FmtArg)
  /-- `let t;` (876-878). -/
  | letDecl (t : Target)
  /-- `let t = e;` (895-898). -/
  | letInit (t : Target) (e : RExpr)
  /-- `n = e;` (897-898). -/
  | assign (n : Str) (e : RExpr)
  /-- `let (names) = (values);` (692). -/
  | letMany (names : List Str) (es : List RExpr)
  /-- `let x = "s";` (735). -/
  | letStr (x s : Str)
  /-- `let x = format!(fmt, args);` (742-746). -/
  | letFmt (x : Str) (fmt : Str) (args : List FmtArg)
  | if_ (bs : List Branch)
  | match_ (e : RExpr) (arms : List Arm)
  /-- `{ … }` -/
  | block (b : List Stmt)
  /-- `let mut _did_loop = false;` (486). -/
  | letDid
  /-- `_did_loop = true;` (526). -/
  | setDid
  /-- `let _iter = …;` (488-507). -/
  | letIter (e : RExpr)
  /-- `let _iter = _iter.filter(|t| -> bool { c });` (510-514). -/
  | filterIter (t : Target) (c : RExpr)
  /-- `for (t, _loop_item) in TemplateLoop::new(_iter) { … }` (519-523). -/
  | forIter (t : Target) (b : List Stmt)
  /-- `if !_did_loop { … }` (536). -/
  | ifNotDid (b : List Stmt)
  | brk
  | cont
  /-- `include_bytes!(path);` (790-796). -/
  | includeBytes (p : Str)
inductive Branch where
  | mk (c : RCond) (b : List Stmt)
inductive Arm where
  | mk (t : Target) (b : List Stmt)
end

mutual
/-- The variables of a pattern in the order in which `visit_target` (askama_derive/src/generator.rs:1690-1769) comes
to them, as Rust identifiers: those the generator knows of. -/
def Target.names : Target → List Str
  | .name n => if n = c!"_" then [] else [normalizeIdentifier n]
  | .tuple _ ts => Target.namesList ts
  | .struct _ ts => Target.namesFields ts
  | .orChain ts => Target.namesList ts
  | .numLit _ | .strLit _ | .charLit _ | .boolLit _ | .path _ => []
/-- Variables of a list of patterns. -/
def Target.namesList : List Target → List Str
  | [] => []
  | t :: ts => t.names ++ Target.namesList ts
/-- Variables of the fields of a struct pattern. -/
def Target.namesFields : List (Str × Target) → List Str
  | [] => []
  | (_, t) :: ts => t.names ++ Target.namesFields ts
end

/-- How a statement ends. -/
inductive Sig where
  | next
  | brk
  | cont
  deriving DecidableEq, Repr

section

variable {U : Type}

/-- Declare names in order with the given values; names left over are not initialised. -/
def bindVars : List Str → List (Val U) → List (Str × Option (Val U)) → List (Str × Option (Val U))
  | [], _, vars => vars
  | n :: ns, v :: vs, vars => bindVars ns vs ((n, some v) :: vars)
  | n :: ns, [], vars => bindVars ns [] ((n, none) :: vars)

/-- Assign to the innermost variable of a name. -/
def assignVar (n : Str) (v : Val U) : List (Str × Option (Val U)) → Option (List (Str × Option (Val U)))
  | [] => none
  | (m, w) :: vars => if m = n then some ((m, some v) :: vars) else (assignVar n v vars).map ((m, w) :: ·)

/-- The variables left when a scope is closed that was opened with `outer`: assignments to outer variables stay, inner
declarations go. -/
def leaveVars (outer inner : List (Str × Option (Val U))) : List (Str × Option (Val U)) :=
  inner.drop (inner.length - outer.length)

variable (W : World U)

mutual
/-- The variables that Rust binds in a pattern, in order: those of `Target.names`, and the paths of one name
(askama_derive/src/generator.rs:1690-1769 writes them as they are) that are not the name of a constant. -/
def Target.bound : Target → List Str
  | .name n => if n = c!"_" then [] else [normalizeIdentifier n]
  | .path [n] => if n = c!"_" ∨ W.constant n = true then [] else [n]
  | .path _ => []
  | .tuple _ ts => Target.boundList ts
  | .struct _ ts => Target.boundFields ts
  | .orChain ts => Target.boundList ts
  | .numLit _ | .strLit _ | .charLit _ | .boolLit _ => []
/-- Variables of a list of patterns. -/
def Target.boundList : List Target → List Str
  | [] => []
  | t :: ts => t.bound ++ Target.boundList ts
/-- Variables of the fields of a struct pattern. -/
def Target.boundFields : List (Str × Target) → List Str
  | [] => []
  | (_, t) :: ts => t.bound ++ Target.boundFields ts
end

/-- Matching a value against a pattern. -/
def patMatch (t : Target) (v : Val U) : Option (List (Val U)) :=
  match t with
  | .name n => if n = c!"_" then some [] else some [v]
  | .path [n] => if n = c!"_" then some [] else if W.constant n then W.pmatch t v else some [v]
  | t => W.pmatch t v

/-- Does a branch condition hold, and with which variables? -/
def RCond.holds (ρ : REnv U) : RCond → Option (Option (REnv U))
  | .always => some (some ρ)
  | .test e => ((e.eval W ρ).bind W.truthy).map fun t => if t then some ρ else none
  | .let_ t e => (e.eval W ρ).map fun v =>
      (patMatch W t v).map fun vs => { ρ with vars := bindVars (t.bound W) vs ρ.vars }
  | .letChain op t l r =>
    -- only `&&` can follow a `let` condition in Rust
    if op = c!"&&" then
      (l.eval W ρ).bind fun v =>
        match patMatch W t v with
        | none => some none
        | some vs =>
          let ρ' := { ρ with vars := bindVars (t.bound W) vs ρ.vars }
          ((r.eval W ρ').bind W.truthy).map fun t => if t then some ρ' else none
    else none

/-- The items that pass the filter closure. Simplified: the iterator adapter `filter` calls the closure when the loop asks
for the next item, here all calls come first. The closure has no effects. The difference is that a closure that panics on
an item after a `break` is never called in the code. -/
def filterItems (ρ : REnv U) (t : Target) (c : RExpr) : List (Val U) → Option (List (Val U))
  | [] => some []
  | v :: vs =>
    (patMatch W t v).bind fun ws =>
      ((c.eval W { ρ with vars := bindVars (t.bound W) ws ρ.vars }).bind W.truthy).bind fun b =>
        (filterItems ρ t c vs).map fun rest => if b then v :: rest else rest

/-- The iterations of a `for` loop over `TemplateLoop` (C17 shows that it yields these `LoopItem`s). -/
def forItems (t : Target) (body : REnv U → Option (Str × Sig × REnv U)) :
    List (Val U) → Nat → REnv U → Option (Str × REnv U)
  | [], _, ρ => some ([], ρ)
  | v :: vs, i, ρ =>
    (patMatch W t v).bind fun ws =>
      (body { ρ with vars := bindVars (t.bound W) ws ρ.vars,
                     item := some { index := i, first := i == 0, last := vs.isEmpty } }).bind fun (s, sig, ρ') =>
        let ρ'' := { ρ' with vars := leaveVars ρ.vars ρ'.vars, item := ρ.item }
        match sig with
        | .brk => some (s, ρ'')
        | _ => (forItems t body vs (i + 1) ρ'').map fun (s', ρ''') => (s ++ s', ρ''')

mutual
/-- Run a statement: the text written, how it ended and the variables afterwards. `none` is an error return. -/
def Stmt.exec (ρ : REnv U) : Stmt → Option (Str × Sig × REnv U)
  | .writeLit s => some (s, .next, ρ)
  | .writeFmt fmt args => (formatText W ρ fmt args).map fun s => (s, .next, ρ)
  | .letDecl t => some ([], .next, { ρ with vars := bindVars (t.bound W) [] ρ.vars })
  | .letInit t e =>
    (e.eval W ρ).bind fun v => (patMatch W t v).map fun vs =>
      ([], .next, { ρ with vars := bindVars (t.bound W) vs ρ.vars })
  | .assign n e =>
    (e.eval W ρ).bind fun v => (assignVar n v ρ.vars).map fun vars => ([], .next, { ρ with vars := vars })
  | .letMany names es =>
    (RExpr.evalList W ρ es).map fun vs => ([], .next, { ρ with vars := bindVars names vs ρ.vars })
  | .letStr x s => some ([], .next, { ρ with vars := bindVars [x] [W.str s] ρ.vars })
  | .letFmt x fmt args =>
    (formatText W ρ fmt args).map fun s => ([], .next, { ρ with vars := bindVars [x] [W.str s] ρ.vars })
  | .if_ bs => execIf ρ bs
  | .match_ e arms => (e.eval W ρ).bind fun v => execMatch ρ v arms
  | .block b => (execList ρ b).map fun (s, sig, ρ') =>
      (s, sig, { vars := leaveVars ρ.vars ρ'.vars, item := ρ.item, did := ρ.did, iter := ρ.iter })
  | .letDid => some ([], .next, { ρ with did := false })
  | .setDid => some ([], .next, { ρ with did := true })
  | .letIter e => (e.eval W ρ).bind fun v => (W.iter v).map fun vs => ([], .next, { ρ with iter := vs })
  | .filterIter t c => (filterItems W ρ t c ρ.iter).map fun vs => ([], .next, { ρ with iter := vs })
  | .forIter t b =>
    (forItems W t (fun ρ' => execList ρ' b) ρ.iter 0 ρ).map fun (s, ρ') => (s, .next, ρ')
  | .ifNotDid b =>
    if ρ.did then some ([], .next, ρ)
    else (execList ρ b).map fun (s, sig, ρ') => (s, sig, { ρ' with vars := leaveVars ρ.vars ρ'.vars })
  | .brk => some ([], .brk, ρ)
  | .cont => some ([], .cont, ρ)
  | .includeBytes _ => some ([], .next, ρ)
/-- Run statements in order, up to the first that does not end normally. -/
def execList (ρ : REnv U) : List Stmt → Option (Str × Sig × REnv U)
  | [] => some ([], .next, ρ)
  | st :: sts =>
    (Stmt.exec ρ st).bind fun (s, sig, ρ') =>
      match sig with
      | .next => (execList ρ' sts).map fun (s', sig', ρ'') => (s ++ s', sig', ρ'')
      | sig => some (s, sig, ρ')
/-- Run the first branch whose condition holds. -/
def execIf (ρ : REnv U) : List Branch → Option (Str × Sig × REnv U)
  | [] => some ([], .next, ρ)
  | .mk c b :: bs =>
    (c.holds W ρ).bind fun
      | some ρ' => (execList ρ' b).map fun (s, sig, ρ'') => (s, sig, { ρ'' with vars := leaveVars ρ.vars ρ''.vars })
      | none => execIf ρ bs
/-- Run the first arm whose pattern matches; there must be one. -/
def execMatch (ρ : REnv U) (v : Val U) : List Arm → Option (Str × Sig × REnv U)
  | [] => none
  | .mk t b :: arms =>
    match patMatch W t v with
    | some vs => (execList { ρ with vars := bindVars (t.bound W) vs ρ.vars } b).map fun (s, sig, ρ') =>
        (s, sig, { ρ' with vars := leaveVars ρ.vars ρ'.vars })
    | none => execMatch ρ v arms
end

end

end Askama
