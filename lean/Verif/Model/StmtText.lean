import Verif.Spec.Spells

/-!
# The text of emitted statements

Models the same functions of `askama_derive/src/generator.rs` as `Gen.handle`, with the text they write to the buffer
instead of the statements (`Stmt`). A statement does not determine its text, as an `RExpr` does not say which template
expression it comes from; so this is a relation, `StmtText`, and its parameter `X` says which parts of a template the
text may come from. As in `Verif.Model.Text`, the spaces that `Buffer::write` puts in front of a line (1871-1876) are left
out.
-/

namespace Askama

open Askama.Spec

/-! ## String literals -/

/-- A hexadecimal digit. -/
def hexChar (d : Nat) : Char := Char.ofNat (if d < 10 then d + 48 else d + 87)

/-- The hexadecimal digits of a number, at most as many as the first argument says. -/
def hexText : Nat → Nat → Str
  | 0, _ => []
  | k + 1, n => if n < 16 then [hexChar n] else hexText k (n / 16) ++ [hexChar (n % 16)]

/-- `char::escape_debug_ext` of the standard library, as `Debug for str` uses it. `plain` says which of the other
characters are printable and no combining marks (tables of Unicode, not modelled). -/
def debugChar (plain : Char → Bool) (c : Char) : Str :=
  if c = Char.ofNat 0 then c!"\\0"
  else if c = '\t' then c!"\\t"
  else if c = '\r' then c!"\\r"
  else if c = '\n' then c!"\\n"
  else if c = '"' then c!"\\\""
  else if c = '\\' then c!"\\\\"
  else if plain c then [c]
  else c!"\\u{" ++ hexText 6 c.toNat ++ c!"}"

/-- The inside of the string literal that `{:#?}` gives (askama_derive/src/generator.rs:735, 743, 1010, 1020). -/
def debugBody (plain : Char → Bool) (s : Str) : Str := s.flatMap (debugChar plain)

/-- The string literal. -/
def debugStr (plain : Char → Bool) (s : Str) : Str := c!"\"" ++ debugBody plain s ++ c!"\""

/-! ## Targets -/

mutual
/-- The text written by `visit_target` (askama_derive/src/generator.rs:1690-1769). -/
def targetText (first : Bool) : Target → Str
  | .name n => if n = c!"_" then c!"_" else normalizeIdentifier n
  | .orChain [] => c!"_"
  | .orChain (t :: ts) => targetText first t ++ altsText first ts
  | .tuple p ts => pathText p ++ c!"(" ++ elemsText ts ++ c!")"
  | .struct p ts => pathText p ++ c!" { " ++ fieldsText ts ++ c!" }"
  | .path p => pathText p
  | .strLit s => (if first then c!"&" else []) ++ (c!"\"" ++ s ++ c!"\"")
  | .numLit s => (if first then c!"&" else []) ++ s
  | .charLit s => (if first then c!"&" else []) ++ (c!"'" ++ s ++ c!"'")
  | .boolLit s => (if first then c!"&" else []) ++ s
/-- The alternatives after the first (1715-1718). -/
def altsText (first : Bool) : List Target → Str
  | [] => []
  | t :: ts => c!" | " ++ targetText first t ++ altsText first ts
/-- The parts of a tuple (1724-1727). -/
def elemsText : List Target → Str
  | [] => []
  | t :: ts => targetText false t ++ c!"," ++ elemsText ts
/-- The fields of a struct (1733-1738). -/
def fieldsText : List (Str × Target) → Str
  | [] => []
  | (n, t) :: ts => normalizeIdentifier n ++ c!": " ++ targetText false t ++ c!"," ++ fieldsText ts
end

/-! ## Parts of templates -/

/-- A part of a template, and what it is used for. -/
inductive Use where
  /-- An expression whose value is written. -/
  | shown (e : Expr)
  /-- A condition. -/
  | test (e : Expr)
  /-- `let` as a condition. -/
  | letTest (t : Target) (e : Expr)
  /-- ... with a further condition. -/
  | letChain (op : Str) (t : Target) (l r : Expr)
  /-- Which branches of an `if` have no condition. -/
  | elses (bs : List Bool)
  /-- The expression of a `match`. -/
  | matched (e : Expr)
  /-- The pattern of an arm. -/
  | arm (t : Target)
  /-- The pattern of a `let`. -/
  | letVar (t : Target)
  /-- ... its expression. -/
  | letVal (e : Expr)
  /-- What a loop goes through. -/
  | iter (e : Expr)
  /-- The variable of a loop. -/
  | loopVar (t : Target)
  /-- ... with a condition. -/
  | filter (t : Target) (c : Expr)
  /-- A parameter of a macro. -/
  | param (n : Str)
  /-- ... the argument for it. -/
  | arg (e : Expr)

/-- `s` is the text of the template expression `e`, which is modelled by `r`; `w` is the result of `visit_expr`. -/
def Written (I : GenInput) (e : Expr) (r : RExpr) (w : Bool) (s : Str) : Prop :=
  ∃ T L, Agree I T L ∧ visitExpr I L e = .ok (r, w) ∧ s = exprText I T e

section

variable (I : GenInput) (plain : Char → Bool) (X : Use → Prop)

/-! ## Arguments of `write!` -/

/-- An argument of `write!` (askama_derive/src/generator.rs:1115-1131), without the comma. -/
inductive ArgText : FmtArg → Str → Prop
  | wrapped {e : Expr} {r : RExpr} {s : Str} (id : Nat) : X (.shown e) → Written I e r true s →
      ArgText ⟨id, none, r⟩ (argName id ++ c!" = " ++ c!"&" ++ s)
  | unwrapped {e : Expr} {r : RExpr} {s : Str} (id : Nat) : X (.shown e) → Written I e r false s →
      ArgText ⟨id, some I.escaper, r⟩
        (argName id ++ c!" = " ++ c!"&" ++ (c!"::askama" ++ c!"::MarkupDisplay::new_unsafe(&(" ++ s ++ c!"), " ++ I.escaper ++ c!")"))

/-- The arguments of `write!`, one in each line: `expr.buf.trim()` (askama_derive/src/generator.rs:744, 1021). -/
inductive ArgsText : List FmtArg → Str → Prop
  | one {a : FmtArg} {s : Str} : ArgText I X a s → ArgsText [a] (s ++ c!",")
  | more {a b : FmtArg} {as : List FmtArg} {s t : Str} : ArgText I X a s → ArgsText (b :: as) t →
      ArgsText (a :: b :: as) (s ++ c!",\n" ++ t)

/-! ## Conditions, loops and macros -/

/-- The condition of a branch (askama_derive/src/generator.rs:354-403), up to ` {`. -/
inductive CondText (first : Bool) : RCond → Str → Prop
  | always : first = false → CondText first .always c!"} else"
  | test {e : Expr} {r : RExpr} {w : Bool} {s : Str} : X (.test e) → Written I e r w s →
      CondText first (.test r) ((if first then c!"if " else c!"} else if ") ++ (c!"*(&(" ++ s ++ c!") as &bool)"))
  | let_ {t : Target} {e : Expr} {r : RExpr} {w : Bool} {s : Str} : X (.letTest t e) → Written I e r w s →
      CondText first (.let_ t r)
        ((if first then c!"if " else c!"} else if ") ++ (c!"let " ++ targetText true t ++ c!" = &" ++ s))
  | letChain {op : Str} {t : Target} {a b : Expr} {l r : RExpr} {w w' : Bool} {s s' : Str} : X (.letChain op t a b) →
      Written I a l w s → Written I b r w' s' →
      CondText first (.letChain op t l r)
        ((if first then c!"if " else c!"} else if ")
          ++ (c!"let " ++ targetText true t ++ c!" = &" ++ (s ++ (c!" " ++ op ++ c!" ") ++ s')))

/-- `expr_code.starts_with("self.")` (askama_derive/src/generator.rs:499). -/
def startsSelf (s : Str) : Bool := c!"self.".isPrefixOf s

/-- What a loop goes through (askama_derive/src/generator.rs:488-507), given the text of the expression. -/
def iterText (e : Expr) (s : Str) : Str :=
  match e with
  | .range _ _ _ => s
  | .array _ => s ++ c!".iter()"
  | .call _ _ | .index _ _ => c!"(" ++ s ++ c!").into_iter()"
  | e =>
    if startsSelf s then c!"(&" ++ s ++ c!").into_iter()"
    else match e with
      | .attr _ _ => c!"(&" ++ s ++ c!").into_iter()"
      | _ => c!"(" ++ s ++ c!").into_iter()"

/-- The names of the variables for arguments of macros (askama_derive/src/generator.rs:676-682). -/
def namesText : List Str → Str
  | [] => []
  | [n] => n
  | n :: ns => n ++ c!", " ++ namesText ns

/-- ... their values (askama_derive/src/generator.rs:678-686). -/
inductive ValuesText : List RExpr → Str → Prop
  | one {e : Expr} {r : RExpr} {w : Bool} {s : Str} : X (.arg e) → Written I e r w s → ValuesText [r] (c!"(" ++ s ++ c!")")
  | more {e : Expr} {r r' : RExpr} {rs : List RExpr} {w : Bool} {s t : Str} : X (.arg e) → Written I e r w s →
      ValuesText (r' :: rs) t → ValuesText (r :: r' :: rs) (c!"(" ++ s ++ c!")" ++ c!", " ++ t)

/-- Has the branch no condition? -/
def isElse : Branch → Bool
  | .mk .always _ => true
  | _ => false

/-! ## Statements -/

mutual
/-- The text of a statement. -/
inductive StmtText : Stmt → Str → Prop
  /-- askama_derive/src/generator.rs:1010 -/
  | writeLit (s : Str) : StmtText (.writeLit s) (c!"writer.write_str(" ++ debugStr plain s ++ c!")?;\n")
  /-- askama_derive/src/generator.rs:1017-1023 -/
  | writeFmt {args : List FmtArg} {s : Str} (fmt : Str) : ArgsText I X args s →
      StmtText (.writeFmt fmt args)
        (c!"::std::write!(\n" ++ c!"writer,\n" ++ (debugStr plain fmt ++ c!",\n") ++ (s ++ c!"\n") ++ c!")?;\n")
  /-- askama_derive/src/generator.rs:876-878 -/
  | letDecl {t : Target} : X (.letVar t) → StmtText (.letDecl t) (c!"let " ++ targetText true t ++ c!";\n")
  /-- askama_derive/src/generator.rs:894-898 -/
  | letInit {t : Target} {e : Expr} {r : RExpr} {w : Bool} {s : Str} : X (.letVar t) → X (.letVal e) → Written I e r w s →
      StmtText (.letInit t r) (c!"let " ++ targetText true t ++ (c!" = " ++ s ++ c!";\n"))
  /-- askama_derive/src/generator.rs:897-898 -/
  | assign {n : Str} {e : Expr} {r : RExpr} {w : Bool} {s : Str} : X (.letVar (.name n)) → X (.letVal e) → Written I e r w s →
      StmtText (.assign (normalizeIdentifier n) r) (targetText true (.name n) ++ (c!" = " ++ s ++ c!";\n"))
  /-- askama_derive/src/generator.rs:692 -/
  | letMany {ns : List Str} {rs : List RExpr} {s : Str} : ns.length = rs.length → (∀ n ∈ ns, X (.param n)) →
      ValuesText I X rs s → StmtText (.letMany ns rs) (c!"let (" ++ namesText ns ++ c!") = (" ++ s ++ c!");\n")
  /-- askama_derive/src/generator.rs:735 -/
  | letStr (id : Nat) (s : Str) :
      StmtText (.letStr (Gen.filterVar id) s) (c!"let " ++ Gen.filterVar id ++ c!" = " ++ debugStr plain s ++ c!";\n")
  /-- askama_derive/src/generator.rs:742-746 -/
  | letFmt {args : List FmtArg} {s : Str} (id : Nat) (fmt : Str) : ArgsText I X args s →
      StmtText (.letFmt (Gen.filterVar id) fmt args)
        (c!"let " ++ Gen.filterVar id ++ c!" = format!(" ++ debugStr plain fmt ++ c!", " ++ s ++ c!");\n")
  /-- askama_derive/src/generator.rs:350-411 -/
  | if_ {bs : List Branch} {s : Str} : X (.elses (bs.map isElse)) → BranchesText true bs s → StmtText (.if_ bs) (s ++ c!"}\n")
  /-- askama_derive/src/generator.rs:435-463 -/
  | match_ {e : Expr} {r : RExpr} {w : Bool} {s u : Str} {arms : List Arm} : X (.matched e) → Written I e r w s →
      ArmsText arms u → StmtText (.match_ r arms) (c!"match &" ++ s ++ c!" {\n" ++ u ++ c!"}\n")
  /-- askama_derive/src/generator.rs:484, 548, 598, 701 -/
  | block {b : List Stmt} {s : Str} : StmtsText b s → StmtText (.block b) (c!"{\n" ++ s ++ c!"}\n")
  /-- askama_derive/src/generator.rs:486 -/
  | letDid : StmtText .letDid c!"let mut _did_loop = false;\n"
  /-- askama_derive/src/generator.rs:526 -/
  | setDid : StmtText .setDid c!"_did_loop = true;\n"
  /-- askama_derive/src/generator.rs:488-507 -/
  | letIter {e : Expr} {r : RExpr} {w : Bool} {s : Str} : X (.iter e) → Written I e r w s →
      StmtText (.letIter r) (c!"let _iter = " ++ iterText e s ++ c!";\n")
  /-- askama_derive/src/generator.rs:510-514 -/
  | filterIter {t : Target} {e : Expr} {r : RExpr} {w : Bool} {s : Str} : X (.filter t e) → Written I e r w s →
      StmtText (.filterIter t r)
        (c!"let _iter = _iter.filter(|" ++ targetText true t ++ c!"| -> bool {" ++ s ++ c!"});\n")
  /-- askama_derive/src/generator.rs:519-532 -/
  | forIter {t : Target} {b : List Stmt} {s : Str} : X (.loopVar t) → StmtsText b s →
      StmtText (.forIter t b) (c!"for (" ++ targetText true t ++ c!", _loop_item) in " ++ c!"::askama"
        ++ c!"::helpers::TemplateLoop::new(_iter) {\n" ++ s ++ c!"}\n")
  /-- askama_derive/src/generator.rs:536-542 -/
  | ifNotDid {b : List Stmt} {s : Str} : StmtsText b s → StmtText (.ifNotDid b) (c!"if !_did_loop {\n" ++ s ++ c!"}\n")
  /-- askama_derive/src/generator.rs:318 -/
  | brk : StmtText .brk c!"break;\n"
  /-- askama_derive/src/generator.rs:323 -/
  | cont : StmtText .cont c!"continue;\n"
  /-- askama_derive/src/generator.rs:790-796. The literal is written by `quote!`; it is taken to be the one `{:?}` gives. -/
  | includeBytes (p : Str) : StmtText (.includeBytes p) (c!"include_bytes!(" ++ debugStr plain p ++ c!");\n")
/-- ... of statements. -/
inductive StmtsText : List Stmt → Str → Prop
  | nil : StmtsText [] []
  | cons {st : Stmt} {sts : List Stmt} {s t : Str} : StmtText st s → StmtsText sts t → StmtsText (st :: sts) (s ++ t)
/-- ... of branches, each without its closing brace. -/
inductive BranchesText : Bool → List Branch → Str → Prop
  | nil : BranchesText false [] []
  | cons {first : Bool} {c : RCond} {b : List Stmt} {bs : List Branch} {s t u : Str} : CondText I X first c s →
      StmtsText b t → BranchesText false bs u → BranchesText first (.mk c b :: bs) (s ++ c!" {\n" ++ t ++ u)
/-- ... of arms (askama_derive/src/generator.rs:439-460). -/
inductive ArmsText : List Arm → Str → Prop
  | nil : ArmsText [] []
  | cons {t : Target} {b : List Stmt} {as : List Arm} {s u : Str} : X (.arm t) → StmtsText b s → ArmsText as u →
      ArmsText (.mk t b :: as) (targetText true t ++ c!" => {\n" ++ s ++ c!"}\n" ++ u)
end

end

end Askama
