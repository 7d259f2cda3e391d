import Verif.Model.Text
import Verif.Spec.RustRead

/-!
# What the text of an expression should say

`Spells t r`: the Rust expression `t` is the modelled expression `r` (`RExpr`): the same operators with the same operands,
the same calls with the same arguments. References (`&e`) count for nothing, as Rust follows them by itself.
`shaped` and `ordinary` describe the template expressions: what the grammar guarantees, and what it does not.
-/

namespace Askama.Spec

open Askama

/-- A path into askama's crate. -/
def inAskama (p : List Str) : Tree := .path ([] :: c!"askama" :: p)

/-- What `loop.cycle(e)` stands for. -/
def cycleTree (t : Tree) : Tree :=
  .paren (.block
    [.let_ c!"_cycle" (.borrow (.paren t)),
     .let_ c!"_len" (.call (.field (.path [c!"_cycle"]) c!"len") []),
     .if_ (.binary .eq (.path [c!"_len"]) (.lit (.num c!"0")))
       (.block [.ret (.call (.path [[], c!"core", c!"result", c!"Result", c!"Err"])
         [.call (inAskama [c!"Error", c!"Fmt"]) [.path [[], c!"core", c!"fmt", c!"Error"]]])] none)]
    (some (.index (.path [c!"_cycle"])
      (.binary .rem (.field (.path [c!"_loop_item"]) c!"index") (.path [c!"_len"])))))

/-- What `e?` stands for. -/
def tryTree (t : Tree) : Tree :=
  .try_ (.call (.path [[], c!"core", c!"result", c!"Result", c!"map_err"])
    [t, .closure c!"err" (.call (inAskama [c!"shared", c!"Error", c!"Custom"])
      [.call (.path [[], c!"core", c!"convert", c!"Into", c!"into"]) [.path [c!"err"]]])])

mutual
/-- The Rust expression is the modelled one; `esc` is the text of the template's escaper. -/
inductive Spells (esc : Str) : Tree → RExpr → Prop
  | num (s : Str) : Spells esc (.lit (.num s)) (.lit .num s)
  | str (s : Str) : Spells esc (.lit (.str s)) (.lit .str s)
  | char (s : Str) : Spells esc (.lit (.chr s)) (.lit .char s)
  | bool (s : Str) : Spells esc (.path [s]) (.lit .bool s)
  | self_ : Spells esc (.path [c!"self"]) .self_
  | local_ (n : Str) : Spells esc (.path [n]) (.local_ n)
  | field (n : Str) : Spells esc (.field (.path [c!"self"]) n) (.field n)
  /-- `self.n`, however it is written. -/
  | selfAttr {t : Tree} (n : Str) : Spells esc t (.attr .self_ n) → Spells esc t (.field n)
  | fieldRef (n : Str) : Spells esc (.paren (.borrow (.field (.path [c!"self"]) n))) (.fieldRef n)
  | path (p : List Str) : Spells esc (.path p) (.path p)
  | array {ts : List Tree} {rs : List RExpr} : SpellsAll esc ts rs → Spells esc (.array ts) (.array rs)
  | attr {t : Tree} {r : RExpr} (a : Str) : Spells esc t r → Spells esc (.field t a) (.attr r a)
  /-- `e.0.1` -/
  | attr2 {t : Tree} {r : RExpr} (a b : Str) : Spells esc t r →
      Spells esc (.field (.field t a) b) (.attr r (a ++ c!"." ++ b))
  | loopIndex : Spells esc
      (.paren (.binary .add (.field (.path [c!"_loop_item"]) c!"index") (.lit (.num c!"1")))) .loopIndex
  | loopIndex0 : Spells esc (.field (.path [c!"_loop_item"]) c!"index") .loopIndex0
  | loopFirst : Spells esc (.field (.path [c!"_loop_item"]) c!"first") .loopFirst
  | loopLast : Spells esc (.field (.path [c!"_loop_item"]) c!"last") .loopLast
  | index {t k : Tree} {r s : RExpr} : Spells esc t r → Spells esc k s → Spells esc (.index t k) (.index r s)
  /-- References count for nothing. -/
  | borrow {t : Tree} {r : RExpr} : Spells esc t r → Spells esc (.borrow t) r
  | asRef {t : Tree} {r : RExpr} : Spells esc t r → Spells esc (.borrow t) (.asRef r)
  | deref {t : Tree} {r : RExpr} : Spells esc t r → Spells esc (.unary c!"*" t) (.deref r)
  | escape {t u : Tree} {r : RExpr} {e : Str} : ReadsAs e u → SpellsArg esc t r →
      Spells esc (.try_ (.call (inAskama [c!"filters", c!"escape"]) [u, t])) (.escape e r)
  | safe {t u : Tree} {r : RExpr} : ReadsAs esc u → SpellsArg esc t r →
      Spells esc (.try_ (.call (inAskama [c!"filters", c!"safe"]) [u, t])) (.safe r)
  /-- `format!("f", …)`: the arguments are what the tokens in the parentheses are read as. -/
  | format {body : List Tok} {ts : List Tree} {rs : List RExpr} (f : Str) :
      (∃ N, ∀ n, N ≤ n → rList n ')' (body ++ [.cls ')']) = some (.lit (.str f) :: ts, [])) → SpellsArgs esc ts rs →
      Spells esc (.mac [[], c!"std", c!"format"] body) (.format f rs)
  | join {t : Tree} {ts : List Tree} {r : RExpr} {rs : List RExpr} : Spells esc t r → SpellsAll esc ts rs →
      Spells esc (.try_ (.call (inAskama [c!"filters", c!"join"])
        (.call (.field (.paren (.borrow t)) c!"into_iter") [] :: ts.map .borrow))) (.join (r :: rs))
  | builtIn {ts : List Tree} {rs : List RExpr} (n : Str) : SpellsArgs esc ts rs →
      Spells esc (.try_ (.call (inAskama [c!"filters", n]) ts)) (.filter true n rs)
  | filter {ts : List Tree} {rs : List RExpr} (n : Str) : SpellsArgs esc ts rs →
      Spells esc (.try_ (.call (.path [c!"filters", n]) ts)) (.filter false n rs)
  | unary {t : Tree} {r : RExpr} (op : UnOp) : Spells esc t r → Spells esc (.unary op.sym t) (.unary op.sym r)
  | binop {t u : Tree} {r s : RExpr} (op : BinOp) : Spells esc t r → Spells esc u s →
      Spells esc (.binary op t u) (.binop op.sym r s)
  | range {t u : Option Tree} {r s : Option RExpr} (op : Str) : SpellsOpt esc t r → SpellsOpt esc u s →
      Spells esc (.range op t u) (.range op r s)
  | group {t : Tree} {r : RExpr} : Spells esc t r → Spells esc (.paren t) (.group r)
  | tuple {ts : List Tree} {rs : List RExpr} : SpellsAll esc ts rs → Spells esc (.tuple ts) (.tuple rs)
  | call {t : Tree} {ts : List Tree} {r : RExpr} {rs : List RExpr} : Spells esc t r → SpellsArgs esc ts rs →
      Spells esc (.call t ts) (.call r rs)
  | cycle {t : Tree} {r : RExpr} : Spells esc t r → Spells esc (cycleTree t) (.cycle r)
  | rustMacro {a : Str} {body : List Tok} (p : List Str) : lex a = some body →
      Spells esc (.mac p body) (.rustMacro p a)
  | try_ {t : Tree} {r : RExpr} : Spells esc t r → Spells esc (tryTree t) (.try_ r)
/-- An argument, perhaps in braces or behind a reference. -/
inductive SpellsArg (esc : Str) : Tree → RExpr → Prop
  | plain {t : Tree} {r : RExpr} : Spells esc t r → SpellsArg esc t r
  | ref {t : Tree} {r : RExpr} : Spells esc t r → SpellsArg esc (.borrow (.paren t)) r
  | block {t : Tree} {r : RExpr} : Spells esc t r → SpellsArg esc (.block [] (some t)) r
/-- A list of arguments. -/
inductive SpellsArgs (esc : Str) : List Tree → List RExpr → Prop
  | nil : SpellsArgs esc [] []
  | cons {t : Tree} {ts : List Tree} {r : RExpr} {rs : List RExpr} : SpellsArg esc t r → SpellsArgs esc ts rs →
      SpellsArgs esc (t :: ts) (r :: rs)
/-- A list of expressions. -/
inductive SpellsAll (esc : Str) : List Tree → List RExpr → Prop
  | nil : SpellsAll esc [] []
  | cons {t : Tree} {ts : List Tree} {r : RExpr} {rs : List RExpr} : Spells esc t r → SpellsAll esc ts rs →
      SpellsAll esc (t :: ts) (r :: rs)
/-- The end of a range. -/
inductive SpellsOpt (esc : Str) : Option Tree → Option RExpr → Prop
  | none : SpellsOpt esc none none
  | some {t : Tree} {r : RExpr} : Spells esc t r → SpellsOpt esc (some t) (some r)
end

/-! ## Template expressions -/

/-- The operator with this text. -/
def binOpOf (s : Str) : Option BinOp :=
  ([.or, .and, .eq, .ne, .ge, .gt, .le, .lt, .bitor, .xor, .bitand, .shr, .shl, .add, .sub, .mul, .div, .rem] :
    List BinOp).find? (fun o => o.sym == s)

/-- How tightly the outermost part of a template expression binds: ranges, the binary operators, filters, prefix
operators, suffixes. -/
def strength : Expr → Nat
  | .range _ _ _ | .namedArg _ _ => 0
  | .binop op _ _ =>
    match binOpOf op with
    | some o => o.prec + 1
    | none => 0
  | .filter _ _ => 10
  | .unary _ _ => 11
  | _ => 12

/-- Words between `::`. -/
def pathNames : List Str → Bool
  | [] => false
  | [] :: r => !r.isEmpty && r.all isName
  | s :: r => isName s && r.all isName

/-- The number of a field of a tuple. -/
def isFieldNumber (s : Str) : Bool := !s.isEmpty && s.all isDec

/-- Two of them: `0.1` -/
def isTwoFields (s : Str) : Bool :=
  match s.span isDec with
  | (a, '.' :: b) => isFieldNumber a && isFieldNumber b
  | _ => false

mutual
/-- What the grammar of template expressions guarantees: words, numbers and literals are such, and operands bind as
tightly as their operator demands. -/
def shaped : Expr → Bool
  | .boolLit s => s == c!"true" || s == c!"false"
  | .numLit s => isNumber s
  | .strLit s => isStrBody s
  | .charLit s => isChrBody s
  | .var x => isName x
  | .path p => pathNames p
  | .array es => shapedAll es
  | .attr e a => decide (12 ≤ strength e) && shaped e && (isName a || headIs (fun c => isDec c || c == '-') a)
  | .index e k => decide (12 ≤ strength e) && shaped e && shaped k
  | .filter n args =>
    isName n && shapedAll args && (match args with
      | a :: _ => decide (10 ≤ strength a)
      | [] => false)
  | .namedArg _ e => shaped e
  | .unary op e => (op == c!"!" || op == c!"-") && decide (11 ≤ strength e) && shaped e
  | .binop op a b =>
    (match binOpOf op with
      | some o => decide (o.prec + 1 ≤ strength a) && decide (o.prec + 2 ≤ strength b)
      | none => false) && shaped a && shaped b
  | .range op a b => (op == c!".." || op == c!"..=") && shapedOpt a && shapedOpt b
  | .group e => shaped e
  | .tuple es => shapedAll es
  | .call f args => decide (12 ≤ strength f) && shaped f && shapedAll args
  | .rustMacro p _ => pathNames p
  | .try_ e => decide (12 ≤ strength e) && shaped e
  | .generated s => isName s
/-- ... every one. -/
def shapedAll : List Expr → Bool
  | [] => true
  | e :: es => shaped e && shapedAll es
/-- ... the end of a range. -/
def shapedOpt : Option Expr → Bool
  | none => true
  | some e => decide (1 ≤ strength e) && shaped e
end

/-- Names that can be written in Rust: not the keywords askama leaves as they are. -/
def plainName (x : Str) : Bool := isName x && ![c!"loop", c!"self", c!"Self", c!"super"].contains x

/-- Attributes: a name, the number of a field, or two of them. -/
def plainAttr (a : Str) : Bool := plainName a || isFieldNumber a || isTwoFields a

/-- The argument text of a Rust macro: it has tokens of its own, with closed brackets, also before a closing
parenthesis. -/
def MacroArgs (a : Str) : Prop :=
  ∃ ts, lex a = some ts ∧ Shut ts ∧ ∀ rest us, lex rest = some us → lex (a ++ ')' :: rest) = some (ts ++ .cls ')' :: us)

mutual
/-- What the grammar does not guarantee: no name is a keyword that has no raw form; no path or filter has a keyword for a
name; attributes of numbers are words (`1 .5` would become `1.5`); comparisons are not chained; the arguments of `join`
need no parentheses behind `&`; the arguments of Rust macros are tokens. -/
def ordinary : Expr → Prop
  | .var x => x = c!"self" ∨ plainName x = true
  | .path p => p.all segOk = true
  | .array es => ordinaryAll es
  | .attr (.var x) a => x = c!"loop" ∨ (x = c!"self" ∨ plainName x = true) ∧ plainAttr a = true
  | .attr (.numLit _) a => plainName a = true
  | .attr e a => ordinary e ∧ plainAttr a = true
  | .index e k => ordinary e ∧ ordinary k
  | .filter n args => segOk n = true ∧ ordinaryAll args ∧ (n = c!"join" → ∀ a ∈ args, 10 ≤ strength a)
  | .namedArg _ e => ordinary e
  | .unary _ e => ordinary e
  | .binop op a b => ((binOpOf op).any (fun o => o.prec == 2) = true → 4 ≤ strength a) ∧ ordinary a ∧ ordinary b
  | .range _ a b => ordinaryOpt a ∧ ordinaryOpt b
  | .group e => ordinary e
  | .tuple es => ordinaryAll es
  | .call (.attr (.var x) m) args =>
    (x = c!"loop" ∨ (x = c!"self" ∨ plainName x = true) ∧ plainAttr m = true) ∧ ordinaryAll args
  | .call (.var x) args => plainName x = true ∧ ordinaryAll args
  | .call f args => ordinary f ∧ ordinaryAll args
  | .rustMacro p a => p.all segOk = true ∧ MacroArgs a
  | .try_ e => ordinary e
  | .generated s => nameOk s = true
  | _ => True
/-- ... every one. -/
def ordinaryAll : List Expr → Prop
  | [] => True
  | e :: es => ordinary e ∧ ordinaryAll es
/-- ... the end of a range. -/
def ordinaryOpt : Option Expr → Prop
  | none => True
  | some e => ordinary e
end

/-- The text of an escaper is a path. -/
def EscaperPath (s : Str) : Prop := ∃ p, s = joinPath p ∧ pathNames p = true ∧ p.all segOk = true

/-! ## Scopes -/

/-- Expressions whose text a parameter of a macro may stand for. -/
def passable : Expr → Bool
  | .var x => x != c!"self"
  | .attr _ _ => true
  | _ => false

mutual
/-- The texts that names stand for, and the modelled expressions. -/
inductive Agree (I : GenInput) : TextLocals → Locals → Prop
  | mk {T : TextLocals} {L : Locals} : (∀ n, AgreeAt I (T n) (MapChain.get L n)) → Agree I T L
/-- ... for one name: it is unknown, a local variable, or stands for the text of an argument. -/
inductive AgreeAt (I : GenInput) : Option (Option Str) → Option LocalMeta → Prop
  | unknown : AgreeAt I none none
  | variable (i : Bool) : AgreeAt I (some none) (some { refs := none, initialized := i })
  | stands {T : TextLocals} {L : Locals} {e : Expr} {r : RExpr} {w : Bool} (i : Bool) : Agree I T L →
      passable e = true → shaped e = true → ordinary e → visitExpr I L e = .ok (r, w) →
      AgreeAt I (some (some (exprText I T e))) (some { refs := some r, initialized := i })
end

end Askama.Spec
