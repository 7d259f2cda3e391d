import Verif.Model.StmtText
import Verif.Spec.StmtRead

/-!
# What the text of statements should say

`SpellsStmt t st`: the Rust statement `t` is the modelled statement `st`; `SpellsPat p t`: the Rust pattern `p` is the target
`t` of the template. `Use.fine` describes the parts of templates whose text comes out as intended.
-/

namespace Askama.Spec

open Askama

/-! ## Patterns -/

/-- Literals. -/
inductive SpellsLit : Pat → Target → Prop
  | num (s : Str) : SpellsLit (.lit (.num s)) (.numLit s)
  | neg (s : Str) : SpellsLit (.neg s) (.numLit ('-' :: s))
  | str (s : Str) : SpellsLit (.lit (.str s)) (.strLit s)
  | char (s : Str) : SpellsLit (.lit (.chr s)) (.charLit s)
  | bool (s : Str) : SpellsLit (.path [s]) (.boolLit s)

mutual
/-- The Rust pattern is the one of the template. Behind the references that askama puts around values (`first`), literals
are patterns for references. -/
inductive SpellsPat : Bool → Pat → Target → Prop
  | wild (first : Bool) : SpellsPat first .wild (.name c!"_")
  /-- The parser takes `_` for a path, as it is no lowercase letter. -/
  | wildPath (first : Bool) : SpellsPat first .wild (.path [c!"_"])
  | name {n : Str} (first : Bool) : n ≠ c!"_" → SpellsPat first (.path [normalizeIdentifier n]) (.name n)
  | ref {p : Pat} {t : Target} : SpellsLit p t → SpellsPat true (.ref p) t
  | lit {p : Pat} {t : Target} : SpellsLit p t → SpellsPat false p t
  | path (first : Bool) (p : List Str) : SpellsPat first (.path p) (.path p)
  | tuple {ps : List Pat} {ts : List Target} (first : Bool) : SpellsPats false ps ts → SpellsPat first (.tuple ps) (.tuple [] ts)
  | tupleStruct {s : Str} {p : List Str} {ps : List Pat} {ts : List Target} (first : Bool) : SpellsPats false ps ts →
      SpellsPat first (.tupleStruct (s :: p) ps) (.tuple (s :: p) ts)
  | struct {p : List Str} {fs : List (Str × Pat)} {ts : List (Str × Target)} (first : Bool) : SpellsFields fs ts →
      SpellsPat first (.struct p fs) (.struct p ts)
  | or {ps : List Pat} {ts : List Target} {first : Bool} : SpellsPats first ps ts → SpellsPat first (.or ps) (.orChain ts)
/-- ... a list. -/
inductive SpellsPats : Bool → List Pat → List Target → Prop
  | nil (first : Bool) : SpellsPats first [] []
  | cons {first : Bool} {p : Pat} {ps : List Pat} {t : Target} {ts : List Target} : SpellsPat first p t →
      SpellsPats first ps ts → SpellsPats first (p :: ps) (t :: ts)
/-- ... fields. -/
inductive SpellsFields : List (Str × Pat) → List (Str × Target) → Prop
  | nil : SpellsFields [] []
  | cons {n : Str} {p : Pat} {fs : List (Str × Pat)} {t : Target} {ts : List (Str × Target)} : SpellsPat false p t →
      SpellsFields fs ts → SpellsFields ((normalizeIdentifier n, p) :: fs) ((n, t) :: ts)
end

/-! ## Statements -/

/-- One variable, or several in parentheses. -/
def namesPat : List Str → Pat
  | [x] => .paren (.path [x])
  | xs => .tuple (xs.map fun x => .path [x])

/-- One value, or several in parentheses, each of them in parentheses. -/
def valuesTree : List Tree → Tree
  | [t] => .paren (.paren t)
  | ts => .tuple (ts.map .paren)

section

variable (esc : Str)

/-- An argument of `write!`: the value behind a reference, perhaps with the escaper to use for it. -/
inductive SpellsShown : Option Str × Tree → FmtArg → Prop
  | wrapped {t : Tree} {r : RExpr} (id : Nat) : Spells esc t r →
      SpellsShown (some (argName id), .borrow t) ⟨id, none, r⟩
  | unwrapped {t u : Tree} {r : RExpr} {e : Str} (id : Nat) : Spells esc t r → ReadsAs e u →
      SpellsShown (some (argName id), .borrow (.call (inAskama [c!"MarkupDisplay", c!"new_unsafe"]) [.borrow (.paren t), u]))
        ⟨id, some e, r⟩

/-- The arguments of `write!`. -/
inductive SpellsShowns : List (Option Str × Tree) → List FmtArg → Prop
  | nil : SpellsShowns [] []
  | cons {x : Option Str × Tree} {xs : List (Option Str × Tree)} {a : FmtArg} {as : List FmtArg} : SpellsShown esc x a →
      SpellsShowns xs as → SpellsShowns (x :: xs) (a :: as)

/-- What a loop goes through: a range as it is, and other values by `iter` or `into_iter`. -/
inductive SpellsIter : Tree → RExpr → Prop
  | range {t : Tree} {op : Str} {a b : Option RExpr} : Spells esc t (.range op a b) → SpellsIter t (.range op a b)
  | iter {t : Tree} {rs : List RExpr} : Spells esc t (.array rs) → SpellsIter (.call (.field t c!"iter") []) (.array rs)
  | into {t : Tree} {r : RExpr} : Spells esc t r → SpellsIter (.call (.field (.paren t) c!"into_iter") []) r

/-- What an `if` tests. -/
inductive SpellsTest : Test → RCond → Prop
  | always : SpellsTest .always .always
  | test {t : Tree} {r : RExpr} : Spells esc t r → SpellsTest (.cast (.borrow (.paren t)) c!"bool") (.test r)
  | let_ {p : Pat} {t : Target} {u : Tree} {r : RExpr} : SpellsPat true p t → Spells esc u r →
      SpellsTest (.let_ p (.borrow u) []) (.let_ t r)
  | letChain {p : Pat} {t : Target} {u v : Tree} {l r : RExpr} : SpellsPat true p t → Spells esc u l → Spells esc v r →
      SpellsTest (.let_ p (.borrow u) [v]) (.letChain c!"&&" t l r)

mutual
/-- The Rust statement is the modelled one; `esc` is the text of the template's escaper. -/
inductive SpellsStmt : STree → Stmt → Prop
  | writeLit {b s : Str} : strValue b = some s →
      SpellsStmt (.expr (.try_ (.call (.field (.path [c!"writer"]) c!"write_str") [.lit (.str b)]))) (.writeLit s)
  /-- The arguments are what the tokens in the parentheses are read as. -/
  | writeFmt {body : List Tok} {b fmt : Str} {xs : List (Option Str × Tree)} {args : List FmtArg} :
      (∃ N, ∀ n, N ≤ n → rNamed n body = some ((none, .path [c!"writer"]) :: (none, .lit (.str b)) :: xs)) →
      strValue b = some fmt → SpellsShowns esc xs args →
      SpellsStmt (.expr (.try_ (.mac [[], c!"std", c!"write"] body))) (.writeFmt fmt args)
  | letDecl {p : Pat} {t : Target} : SpellsPat true p t → SpellsStmt (.let_ p none) (.letDecl t)
  | letInit {p : Pat} {t : Target} {u : Tree} {r : RExpr} : SpellsPat true p t → Spells esc u r →
      SpellsStmt (.let_ p (some u)) (.letInit t r)
  | assign {n : Str} {u : Tree} {r : RExpr} : Spells esc u r → SpellsStmt (.assign n u) (.assign n r)
  | letMany {ns : List Str} {us : List Tree} {rs : List RExpr} : SpellsAll esc us rs →
      SpellsStmt (.let_ (namesPat ns) (some (valuesTree us))) (.letMany ns rs)
  | letStr {x b s : Str} : strValue b = some s → SpellsStmt (.let_ (.path [x]) (some (.lit (.str b)))) (.letStr x s)
  | letFmt {body : List Tok} {x b fmt : Str} {xs : List (Option Str × Tree)} {args : List FmtArg} :
      (∃ N, ∀ n, N ≤ n → rNamed n body = some ((none, .lit (.str b)) :: xs)) →
      strValue b = some fmt → SpellsShowns esc xs args →
      SpellsStmt (.let_ (.path [x]) (some (.mac [c!"format"] body))) (.letFmt x fmt args)
  | if_ {ts : List SBranch} {bs : List Branch} : SpellsBranches ts bs → SpellsStmt (.if_ ts) (.if_ bs)
  | match_ {u : Tree} {r : RExpr} {ts : List SArm} {arms : List Arm} : Spells esc u r → SpellsArms ts arms →
      SpellsStmt (.match_ (.borrow u) ts) (.match_ r arms)
  | block {ts : List STree} {b : List Stmt} : SpellsStmts ts b → SpellsStmt (.block ts) (.block b)
  | letDid : SpellsStmt (.letMut c!"_did_loop" (.path [c!"false"])) .letDid
  | setDid : SpellsStmt (.assign c!"_did_loop" (.path [c!"true"])) .setDid
  | letIter {u : Tree} {r : RExpr} : SpellsIter esc u r → SpellsStmt (.let_ (.path [c!"_iter"]) (some u)) (.letIter r)
  /-- The pattern is what the tokens between the bars are read as. -/
  | filterIter {ps : List Tok} {p : Pat} {t : Target} {u : Tree} {r : RExpr} :
      (∃ N, ∀ n, N ≤ n → rPat1 n ps = some (p, [])) → SpellsPat true p t → Spells esc u r →
      SpellsStmt (.let_ (.path [c!"_iter"]) (some (.call (.field (.path [c!"_iter"]) c!"filter")
        [.fn_ ps c!"bool" (.block [] (some u))]))) (.filterIter t r)
  | forIter {p : Pat} {t : Target} {ts : List STree} {b : List Stmt} : SpellsPat true p t → SpellsStmts ts b →
      SpellsStmt (.for_ (.tuple [p, .path [c!"_loop_item"]])
        (.call (inAskama [c!"helpers", c!"TemplateLoop", c!"new"]) [.path [c!"_iter"]]) ts) (.forIter t b)
  | ifNotDid {ts : List STree} {b : List Stmt} : SpellsStmts ts b →
      SpellsStmt (.if_ [.mk (.expr (.unary c!"!" (.path [c!"_did_loop"]))) ts]) (.ifNotDid b)
  | brk : SpellsStmt .brk .brk
  | cont : SpellsStmt .cont .cont
  | includeBytes {b p : Str} : strValue b = some p →
      SpellsStmt (.expr (.mac [c!"include_bytes"] [.str b])) (.includeBytes p)
/-- ... statements in order. -/
inductive SpellsStmts : List STree → List Stmt → Prop
  | nil : SpellsStmts [] []
  | cons {t : STree} {ts : List STree} {s : Stmt} {ss : List Stmt} : SpellsStmt t s → SpellsStmts ts ss →
      SpellsStmts (t :: ts) (s :: ss)
/-- ... the branches of an `if` in order. -/
inductive SpellsBranches : List SBranch → List Branch → Prop
  | nil : SpellsBranches [] []
  | cons {c : Test} {d : RCond} {t : List STree} {b : List Stmt} {ts : List SBranch} {bs : List Branch} :
      SpellsTest esc c d → SpellsStmts t b → SpellsBranches ts bs → SpellsBranches (.mk c t :: ts) (.mk d b :: bs)
/-- ... the arms of a `match` in order. -/
inductive SpellsArms : List SArm → List Arm → Prop
  | nil : SpellsArms [] []
  | cons {p : Pat} {d : Target} {t : List STree} {b : List Stmt} {ts : List SArm} {bs : List Arm} :
      SpellsPat true p d → SpellsStmts t b → SpellsArms ts bs → SpellsArms (.mk p t :: ts) (.mk d b :: bs)
end

end

/-! ## Parts of templates -/

/-- A path that can be written in a pattern. -/
def plainPath (p : List Str) : Bool := pathNames p && p.all segOk && p.head? != some c!"_"

mutual
/-- Patterns that can be written in Rust: names and paths are not keywords, literals are such, and alternatives are not
directly inside of alternatives. -/
def plainTarget : Target → Bool
  | .orChain ts => decide (2 ≤ ts.length) && plainAlts ts
  | .name n => n == c!"_" || plainName n
  | .tuple p ts => (p.isEmpty || plainPath p) && plainTargets ts
  | .struct p ts => plainPath p && plainFields ts
  | .path p => p == [c!"_"] || plainPath p
  | .numLit s => isNumber s || (headIs (· == '-') s && isNumber (s.drop 1))
  | .strLit s => isStrBody s
  | .charLit s => isChrBody s
  | .boolLit s => s == c!"true" || s == c!"false"
/-- ... every one. -/
def plainTargets : List Target → Bool
  | [] => true
  | t :: ts => plainTarget t && plainTargets ts
/-- ... alternatives. -/
def plainAlts : List Target → Bool
  | [] => true
  | t :: ts => plainTarget t && !isOr t && plainAlts ts
/-- ... fields. -/
def plainFields : List (Str × Target) → Bool
  | [] => true
  | (n, t) :: ts => plainName n && plainTarget t && plainFields ts
/-- Alternatives. -/
def isOr : Target → Bool
  | .orChain _ => true
  | _ => false
end

/-- Literals. -/
def isLitTarget : Target → Bool
  | .numLit _ | .strLit _ | .charLit _ | .boolLit _ => true
  | _ => false

/-- Are the branches without condition the last ones? -/
def elseLast : List Bool → Bool
  | [] => true
  | [_] => true
  | b :: bs => !b && elseLast bs

/-- An expression whose text is read as intended. -/
def Fine (e : Expr) : Prop := shaped e = true ∧ ordinary e

/-- The parts of templates whose text is read as intended:
* expressions that are written behind `&` need no parentheses there: the ones of `match` and `if let`, and those that a
  loop goes through unless they are ranges (or arrays, calls and indices);
* a condition after `if let` is joined by `&&` and binds tighter;
* the patterns of `let` and of loops with a condition are without alternatives;
* only the last branch of an `if` has no condition, and not the first. -/
def _root_.Askama.Use.fine : Use → Prop
  | .shown e | .test e | .letVal e | .arg e => Fine e
  | .letTest t e => plainTarget t = true ∧ Fine e ∧ 10 ≤ strength e
  | .letChain op t l r => plainTarget t = true ∧ op = c!"&&" ∧ Fine l ∧ 10 ≤ strength l ∧ Fine r ∧ 3 ≤ strength r
  | .elses bs => bs.head? ≠ some true ∧ elseLast bs = true
  | .matched e => Fine e ∧ 10 ≤ strength e
  | .arm t | .loopVar t => plainTarget t = true
  | .letVar t => plainTarget t = true ∧ isOr t = false
  | .iter e => Fine e ∧ ((∃ op a b, e = .range op a b) ∨ 10 ≤ strength e)
  | .filter t c => plainTarget t = true ∧ isOr t = false ∧ isLitTarget t = false ∧ Fine c ∧ 1 ≤ strength c
  | .param n => isName n = true ∧ segOk n = true ∧ n ≠ c!"_"

/-- The expressions in a part of a template. -/
def _root_.Askama.Use.exprs : Use → List Expr
  | .shown e | .test e | .letVal e | .arg e | .letTest _ e | .matched e | .iter e | .filter _ e => [e]
  | .letChain op _ l r => [.binop op l r]
  | .elses _ | .arm _ | .loopVar _ | .letVar _ | .param _ => []

/-- `Use.fine` without what the grammar of templates guarantees. -/
def _root_.Askama.Use.plain : Use → Prop
  | .shown e | .test e | .letVal e | .arg e => ordinary e
  | .letTest t e => plainTarget t = true ∧ ordinary e ∧ 10 ≤ strength e
  | .letChain op t l r => plainTarget t = true ∧ op = c!"&&" ∧ ordinary l ∧ 10 ≤ strength l ∧ ordinary r
  | .elses bs => bs.head? ≠ some true ∧ elseLast bs = true
  | .matched e => ordinary e ∧ 10 ≤ strength e
  | .arm t | .loopVar t => plainTarget t = true
  | .letVar t => plainTarget t = true ∧ isOr t = false
  | .iter e => ordinary e ∧ ((∃ op a b, e = .range op a b) ∨ 10 ≤ strength e)
  | .filter t c => plainTarget t = true ∧ isOr t = false ∧ isLitTarget t = false ∧ ordinary c ∧ 1 ≤ strength c
  | .param n => isName n = true ∧ segOk n = true ∧ n ≠ c!"_"

end Askama.Spec
