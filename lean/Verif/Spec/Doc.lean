import Verif.Spec.Parse
import Verif.Spec.Prec
import Verif.Spec.Delims

/-!
# Templates as they are written (C66)

A template is a list of pieces: text, comments, expressions and tags, the latter with the pieces inside them. `Doc.src`
is how a piece is written, and `Doc.node` is what it means. Every tag has a layout: the white space in each place where white
space may stand (at least one blank between two words), and whether lists have a comma after their last element; a whitespace
marker stands directly inside a delimiter. Expressions are those of `Verif.Spec.Prec`.
-/

namespace Askama.Spec

open Askama

/-! ### Patterns -/

mutual
/-- Patterns, as in `let`, `for`, `when` and `if let`. -/
inductive Pt where
  | var (n : Str)
  | num (s : Str)
  | str (s : Str)
  | chr (s : Str)
  | bool (b : Bool)
  /-- `A::B`, or `::A::B`. -/
  | path (root : Bool) (p : List Str)
  /-- `(a, b)`. -/
  | tup (ts : List Pt)
  /-- `A::B(a, b)`, or `A::B with (a, b)`. -/
  | tupOf (root : Bool) (p : List Str) (word : Bool) (ts : List Pt)
  /-- `A::B { a, b: c }`, or `A::B with { a, b: c }`. -/
  | recOf (root : Bool) (p : List Str) (word : Bool) (fs : List Fd)
  /-- `a or b`. -/
  | any (ts : List Pt)
  /-- `(a)`. -/
  | parens (t : Pt)
/-- Fields of a struct pattern. -/
inductive Fd where
  /-- `a`. -/
  | short (n : Str)
  /-- `a: b`. -/
  | long (n : Str) (t : Pt)
end

/-- The segments of a path. -/
def pathParts (root : Bool) (p : List Str) : List Str := if root then [] :: p else p

/-- `with` between a path and what it holds. -/
def withText (g : Gaps) (word : Bool) : Str := if word then sep (g.gap 1) ++ c!"with" else []

/-- A comma between elements of a pattern. -/
def commaText (g : Gaps) : Str := g.gap 0 ++ ',' :: g.gap 1

/-- `or` between alternatives. -/
def orText (g : Gaps) : Str := sep (g.gap 1) ++ (c!"or" ++ sep (g.gap 3))

/-- The comma after the last field. -/
def endComma (g : Gaps) (b : Bool) : Str := if b then g.gap 0 ++ [','] else []

mutual
/-- The text of a pattern in a layout. -/
def Pt.write (g : Gaps) : Pt → Str
  | .var n => n
  | .num s => s
  | .str s => '"' :: (s ++ ['"'])
  | .chr s => '\'' :: (s ++ ['\''])
  | .bool b => boolText b
  | .path root p => pathWrite g root p
  | .tup ts => '(' :: (g.gap 0 ++ (Pt.writes commaText (g.sub 0) ts ++ (g.gap 2 ++ [')'])))
  | .tupOf root p word ts => pathWrite (g.sub 1) root p ++ (withText g word ++ (g.gap 4 ++
      '(' :: (g.gap 0 ++ (Pt.writes commaText (g.sub 0) ts ++ (g.gap 2 ++ [')'])))))
  | .recOf root p word fs => pathWrite (g.sub 1) root p ++ (withText g word ++ (g.gap 3 ++
      '{' :: (g.gap 5 ++ (Fd.writes (g.sub 0) fs ++ (endComma g (g.comma [] && !fs.isEmpty) ++ (g.gap 7 ++ ['}']))))))
  | .any ts => Pt.writes orText (g.sub 0) ts
  | .parens t => '(' :: (g.gap 0 ++ (t.write (g.sub 0) ++ (g.gap 2 ++ [')'])))
/-- ... of the elements of a list, with separators. -/
def Pt.writes (s : Gaps → Str) (g : Gaps) : List Pt → Str
  | [] => []
  | t :: ts => t.write (g.sub 0) ++ Pt.more s (g.sub 1) ts
/-- ... of the further elements of a list. -/
def Pt.more (s : Gaps → Str) (g : Gaps) : List Pt → Str
  | [] => []
  | t :: ts => s g ++ (t.write (g.sub 0) ++ Pt.more s (g.sub 1) ts)
/-- The text of a field. -/
def Fd.write (g : Gaps) : Fd → Str
  | .short n => n
  | .long n t => n ++ (g.gap 0 ++ ':' :: (g.gap 1 ++ t.write (g.sub 0)))
/-- ... of the fields of a list. -/
def Fd.writes (g : Gaps) : List Fd → Str
  | [] => []
  | f :: fs => f.write (g.sub 0) ++ Fd.more (g.sub 1) fs
/-- ... of the further fields. -/
def Fd.more (g : Gaps) : List Fd → Str
  | [] => []
  | f :: fs => commaText g ++ (f.write (g.sub 0) ++ Fd.more (g.sub 1) fs)
end

mutual
/-- The syntax tree of a pattern: its own structure. Parentheses only group. -/
def Pt.tree : Pt → Target
  | .var n => .name n
  | .num s => .numLit s
  | .str s => .strLit s
  | .chr s => .charLit s
  | .bool b => .boolLit (boolText b)
  | .path root p => .path (pathParts root p)
  | .tup ts => .tuple [] (Pt.trees ts)
  | .tupOf root p _ ts => .tuple (pathParts root p) (Pt.trees ts)
  | .recOf root p _ fs => .struct (pathParts root p) (Fd.trees fs)
  | .any ts => .orChain (Pt.trees ts)
  | .parens t => t.tree
/-- ... of the elements of a list. -/
def Pt.trees : List Pt → List Target
  | [] => []
  | t :: ts => t.tree :: Pt.trees ts
/-- ... of a field: `a` stands for `a: a`. -/
def Fd.tree : Fd → Str × Target
  | .short n => (n, .name n)
  | .long n t => (n, t.tree)
/-- ... of the fields. -/
def Fd.trees : List Fd → List (Str × Target)
  | [] => []
  | f :: fs => f.tree :: Fd.trees fs
end

/-- Alternatives cannot be nested directly. -/
def Pt.isAny : Pt → Bool
  | .any _ => true
  | _ => false

mutual
/-- Nesting levels the pattern takes. -/
def Pt.need : Pt → Nat
  | .var _ | .num _ | .str _ | .chr _ | .bool _ | .path _ _ => 1
  | .tup ts => Pt.needs ts + 1
  | .tupOf _ _ _ ts => Pt.needs ts + 1
  | .recOf _ _ _ fs => Fd.needs fs + 1
  | .any ts => Pt.needs ts
  | .parens t => t.need + 1
/-- ... a list takes. -/
def Pt.needs : List Pt → Nat
  | [] => 0
  | t :: ts => max t.need (Pt.needs ts)
/-- ... a field takes. -/
def Fd.need : Fd → Nat
  | .short _ => 0
  | .long _ t => t.need
/-- ... the fields take. -/
def Fd.needs : List Fd → Nat
  | [] => 0
  | f :: fs => max f.need (Fd.needs fs)
end

/-- A name a template may bind. -/
def Binder (n : Str) : Prop := Name n ∧ n ≠ c!"self" ∧ n ≠ c!"writer"

section

variable (isLower : Char → Bool)

/-- A path: names; a single one is not lower case, lest it be a variable; the first one is not a Boolean. -/
def PatPath (root : Bool) (p : List Str) : Prop :=
  (Tm.path root p).Ok isLower ∧ p.head? ≠ some c!"true" ∧ p.head? ≠ some c!"false"

mutual
/-- Well-formed patterns. A tuple of one element is not written without a path, and a
tuple not with a comma at the end. -/
def Pt.Ok : Pt → Prop
  | .var n => Variable isLower n ∧ n ≠ c!"self" ∧ n ≠ c!"writer"
  | .num s => Number s ∨ ∃ t, s = '-' :: t ∧ Number t
  | .str s => StrBody s
  | .chr s => ChrBody s
  | .bool _ => True
  | .path root p => PatPath isLower root p
  | .tup ts => ts.length ≠ 1 ∧ Pt.Oks ts
  | .tupOf root p _ ts => PatPath isLower root p ∧ Pt.Oks ts
  | .recOf root p _ fs => PatPath isLower root p ∧ Fd.Oks fs
  | .any ts => 2 ≤ ts.length ∧ (∀ t ∈ ts, t.isAny = false) ∧ Pt.Oks ts
  | .parens t => t.Ok
/-- ... all of a list. -/
def Pt.Oks : List Pt → Prop
  | [] => True
  | t :: ts => t.Ok ∧ Pt.Oks ts
/-- Well-formed fields. -/
def Fd.Ok : Fd → Prop
  | .short n => Binder n
  | .long n t => Name n ∧ t.Ok
/-- ... all of a list. -/
def Fd.Oks : List Fd → Prop
  | [] => True
  | f :: fs => f.Ok ∧ Fd.Oks fs
end

end

/-! ### Pieces of tags -/

/-- The whitespace markers of a tag and its layout. -/
structure Lay where
  l : Option Wsp
  r : Option Wsp
  g : Gaps
  ok : g.Ok

/-- The whitespace markers. -/
abbrev Lay.ws (w : Lay) : Ws := ⟨w.l, w.r⟩

/-- The usual layout. -/
def Lay.std (l r : Option Wsp) : Lay := ⟨l, r, .std, std_ok⟩

/-- A tag: delimiters, whitespace markers, and the words of the tag. -/
def tagText (syn : Syntax) (w : Lay) (inner : Str) : Str :=
  syn.blockStart ++ (mark w.l ++ (w.g.gap 1 ++ (inner ++ (w.g.gap 3 ++ (mark w.r ++ syn.blockEnd)))))

/-- The word before a binding: `let`, or `set`. -/
def letWord (set : Bool) : Str := if set then c!"set" else c!"let"

/-- A condition: an expression, or `let` (or `set`) with a pattern. -/
inductive DocTest where
  | plain (e : Tm)
  | bind (set : Bool) (p : Pt) (e : Tm)

/-- The text of a condition. -/
def DocTest.write (g : Gaps) : DocTest → Str
  | .plain e => e.write (g.sub 0)
  | .bind set p e => letWord set ++ (sep (g.gap 1) ++ (p.write (g.sub 1) ++ (g.gap 3 ++ '=' :: (g.gap 5 ++ e.write (g.sub 0)))))

/-- What a condition means. -/
def DocTest.tree : DocTest → CondTest
  | .plain e => ⟨none, e.tree⟩
  | .bind _ p e => ⟨some p.tree, e.tree⟩

/-- The first word of an expression, if it starts with one. -/
def Tm.first : Tm → Str
  | .var n => n
  | .bool b => boolText b
  | .path false (n :: _) => n
  | .mac false (n :: _) _ => n
  | .attr e _ => if e.loose 11 then [] else e.first
  | .index e _ => if e.loose 11 then [] else e.first
  | .call e _ => if e.loose 11 then [] else e.first
  | .try_ e => if e.loose 11 then [] else e.first
  | .filter e _ _ => if e.loose 9 then [] else e.first
  | .bin op a _ => if a.loose op.prec then [] else a.first
  | .range _ (some a) _ => if a.loose 0 then [] else a.first
  | _ => []

/-- Well-formed conditions; an expression that starts with the word `let` or `set` is taken for a pattern. -/
def DocTest.Ok (isLower : Char → Bool) : DocTest → Prop
  | .plain e => e.Ok isLower ∧ e.first ≠ c!"let" ∧ e.first ≠ c!"set"
  | .bind _ p e => p.Ok isLower ∧ e.Ok isLower

/-- Nesting levels of a condition. -/
def DocTest.need : DocTest → Nat
  | .plain e => e.need + 12
  | .bind _ p e => max p.need (e.need + 12)

/-- A list between parentheses: commas in between, and perhaps one at the end. -/
def listText (g : Gaps) (l : List (Gaps → Str)) : Str :=
  '(' :: (elems (g.sub 0) l ++ (lastComma g (g.comma [] && !l.isEmpty) ++ [')']))
where
  /-- The elements. -/
  elems (g : Gaps) : List (Gaps → Str) → Str
    | [] => g.gap 0
    | a :: l => g.gap 0 ++ (a (g.sub 0) ++ more (g.sub 1) l)
  /-- Further elements. -/
  more (g : Gaps) : List (Gaps → Str) → Str
    | [] => g.gap 0
    | a :: l => g.gap 0 ++ ',' :: (g.gap 1 ++ (a (g.sub 0) ++ more (g.sub 1) l))

/-- The text of an argument with a name. -/
def namedText (a : Str × Tm) (g : Gaps) : Str := a.1 ++ (g.gap 1 ++ '=' :: (g.gap 3 ++ a.2.write (g.sub 0)))

/-- The text of the arguments of a macro call: first the ones without names, then those with names. -/
def argsSrc (g : Gaps) (args : List Tm) (named : List (Str × Tm)) : Str :=
  listText g (args.map (fun e g => e.write g) ++ named.map namedText)

/-- The text of the parameters of a macro. -/
def paramsSrc (g : Gaps) (params : List Str) : Str := listText g (params.map fun n _ => n)

/-- The macro that is called, perhaps of another template. -/
def scopeText (g : Gaps) : Option Str → Str
  | some m => m ++ (g.gap 0 ++ (c!"::" ++ g.gap 2))
  | none => []

/-- A filter in a `filter` tag. -/
structure Flt where
  name : Str
  args : List Tm

/-- The text of a filter. -/
def Flt.write (g : Gaps) (f : Flt) : Str := f.name ++ (if f.args.isEmpty then [] else
  g.gap 0 ++ '(' :: (Tm.writes (g.sub 0) f.args ++ (lastComma g (g.comma [] && !f.args.isEmpty) ++ [')'])))

/-- Several filters one after the other: each is applied to what the one before makes. -/
def Flt.chain (f : Flt) (fs : List Flt) : FilterApp :=
  fs.foldl (fun acc g => ⟨g.name, .filter acc.name acc.args :: Tm.trees g.args⟩) ⟨f.name, Tm.trees f.args⟩

/-- The text of further filters. -/
def Flt.more (g : Gaps) : List Flt → Str
  | [] => []
  | f :: fs => '|' :: (g.gap 0 ++ (f.write (g.sub 0) ++ Flt.more (g.sub 1) fs))

/-- The text of several filters. -/
def Flt.texts (g : Gaps) (f : Flt) (fs : List Flt) : Str := f.write (g.sub 0) ++ Flt.more (g.sub 1) fs

/-- Nesting levels of filters. -/
def Flt.needs : List Flt → Nat
  | [] => 0
  | f :: fs => max (Tm.needs f.args + 13) (Flt.needs fs)

/-- Text, its leading and trailing white space told apart. -/
def litOf (s : Str) : Lit :=
  let rest := s.dropWhile isBlankB
  { lws := s.takeWhile isBlankB
    val := (rest.reverse.dropWhile isBlankB).reverse
    rws := (rest.reverse.takeWhile isBlankB).reverse }
where
  /-- White space. -/
  isBlankB (c : Char) : Bool := c == ' ' || c == '\t' || c == '\r' || c == '\n'

/-! ### Templates -/

mutual
/-- The pieces of a template. -/
inductive Doc where
  | text (s : Str)
  | comment (w : Lay) (s : Str)
  | expr (w : Lay) (e : Tm)
  | call (w : Lay) (scope : Option Str) (name : Str) (args : List Tm) (named : List (Str × Tm))
  /-- `call` without parentheses. -/
  | callBare (w : Lay) (scope : Option Str) (name : Str)
  | let_ (w : Lay) (set : Bool) (p : Pt) (val : Option Tm)
  | if_ (w : Lay) (c : DocTest) (body : List Doc) (more : List DocBranch) (fin : Lay)
  | for_ (w : Lay) (p : Pt) (iter : Tm) (cond : Option Tm) (body : List Doc) (els : Else) (fin : Lay)
  /-- `gap`: white space between the tag and the first `when`. -/
  | match_ (w : Lay) (e : Tm) (gap : Str) (arms : List DocArm) (els : Else) (fin : Lay)
  | extends_ (w : Lay) (path : Str)
  | include_ (w : Lay) (path : Str)
  | import_ (w : Lay) (path scope : Str)
  /-- `again`: the end tag repeats the name. -/
  | block (w : Lay) (name : Str) (body : List Doc) (again : Bool) (fin : Lay)
  | macro (w : Lay) (name : Str) (params : List Str) (body : List Doc) (again : Bool) (fin : Lay)
  | filter (w : Lay) (f : Flt) (fs : List Flt) (body : List Doc) (fin : Lay)
  | raw (w : Lay) (s : Str) (fin : Lay)
  | break_ (w : Lay)
  | continue_ (w : Lay)
/-- Further branches of an `if`. -/
inductive DocBranch where
  /-- `else if`, or `elif`. -/
  | elseIf (short : Bool) (w : Lay) (c : DocTest) (body : List Doc)
  | else_ (w : Lay) (body : List Doc)
/-- Arms of a `match`. -/
inductive DocArm where
  | mk (w : Lay) (p : Pt) (body : List Doc)
/-- The `else` of a `for` or a `match`. -/
inductive Else where
  | none
  | some (w : Lay) (body : List Doc)
end

/-- The name after `endblock` or `endmacro`. -/
def againText (g : Gaps) (again : Bool) (name : Str) : Str := if again then sep (g.gap 5) ++ name else []

/-- The blanks before an expression between delimiters: without a whitespace marker, a leading minus sign would be taken for one. -/
def startGap (w : Lay) (e : Tm) : Str :=
  if w.l = none ∧ (e.write (w.g.sub 0)).head? = some '-' then sep (w.g.gap 1) else w.g.gap 1

/-- The start of a loop. -/
def forText (g : Gaps) (p : Pt) (iter : Tm) (cond : Option Tm) : Str :=
  c!"for" ++ (sep (g.gap 5) ++ (p.write (g.sub 0) ++ (sep (g.gap 7) ++ (c!"in" ++ (sep (g.gap 9) ++ (iter.write (g.sub 1) ++
  match cond with
  | some e => sep (g.gap 11) ++ (c!"if" ++ (sep (g.gap 13) ++ e.write (g.sub 2)))
  | none => []))))))

/-- The usual layout, with the same whitespace markers. -/
def Lay.plain (w : Lay) : Lay := .std w.l w.r

/-- A condition in the usual spelling: `let` for `set`. -/
def DocTest.usual : DocTest → DocTest
  | .plain e => .plain e
  | .bind _ p e => .bind false p e

mutual
/-- A piece in the usual spelling: one space where white space may stand in a tag, `let` for `set`, `else if` for `elif`, no
white space before the first arm of a `match`, and no name in an end tag. -/
def Doc.plain : Doc → Doc
  | .text s => .text s
  | .comment w s => .comment w.plain s
  | .expr w e => .expr w.plain e
  | .call w scope name args named => .call w.plain scope name args named
  | .callBare w scope name => .call w.plain scope name [] []
  | .let_ w _ p val => .let_ w.plain false p val
  | .if_ w c body more fin => .if_ w.plain c.usual (Doc.plains body) (DocBranch.plains more) fin.plain
  | .for_ w p iter cond body els fin => .for_ w.plain p iter cond (Doc.plains body) els.plain fin.plain
  | .match_ w e _ arms els fin => .match_ w.plain e [] (DocArm.plains arms) els.plain fin.plain
  | .extends_ w path => .extends_ w.plain path
  | .include_ w path => .include_ w.plain path
  | .import_ w path scope => .import_ w.plain path scope
  | .block w name body _ fin => .block w.plain name (Doc.plains body) false fin.plain
  | .macro w name params body _ fin => .macro w.plain name params (Doc.plains body) false fin.plain
  | .filter w f fs body fin => .filter w.plain f fs (Doc.plains body) fin.plain
  | .raw w s fin => .raw w.plain s fin.plain
  | .break_ w => .break_ w.plain
  | .continue_ w => .continue_ w.plain
/-- A template in the usual spelling. -/
def Doc.plains : List Doc → List Doc
  | [] => []
  | d :: ds => d.plain :: Doc.plains ds
/-- A branch in the usual spelling. -/
def DocBranch.plain : DocBranch → DocBranch
  | .elseIf _ w c body => .elseIf false w.plain c.usual (Doc.plains body)
  | .else_ w body => .else_ w.plain (Doc.plains body)
/-- Branches in the usual spelling. -/
def DocBranch.plains : List DocBranch → List DocBranch
  | [] => []
  | b :: bs => b.plain :: DocBranch.plains bs
/-- An arm in the usual spelling. -/
def DocArm.plain : DocArm → DocArm
  | .mk w p body => .mk w.plain p (Doc.plains body)
/-- Arms in the usual spelling. -/
def DocArm.plains : List DocArm → List DocArm
  | [] => []
  | a :: as => a.plain :: DocArm.plains as
/-- An `else` in the usual spelling. -/
def Else.plain : Else → Else
  | .none => .none
  | .some w body => .some w.plain (Doc.plains body)
end

section

variable (syn : Syntax)

mutual
/-- The text of a piece. -/
def Doc.src : Doc → Str
  | .text s => s
  | .comment w s => syn.commentStart ++ mark w.l ++ s ++ mark w.r ++ syn.commentEnd
  | .expr w e => syn.exprStart ++ (mark w.l ++ (startGap w e ++ (e.write (w.g.sub 0) ++ (w.g.gap 3 ++ (mark w.r ++ syn.exprEnd)))))
  | .call w scope name args named => tagText syn w (c!"call" ++ (sep (w.g.gap 5) ++ (scopeText w.g scope ++ (name ++
      (w.g.gap 4 ++ argsSrc (w.g.sub 0) args named)))))
  | .callBare w scope name => tagText syn w (c!"call" ++ (sep (w.g.gap 5) ++ (scopeText w.g scope ++ name)))
  | .let_ w set p val => tagText syn w (letWord set ++ (sep (w.g.gap 5) ++ (p.write (w.g.sub 0) ++
      match val with
      | some e => w.g.gap 7 ++ '=' :: (w.g.gap 9 ++ e.write (w.g.sub 1))
      | Option.none => [])))
  | .if_ w c body more fin => tagText syn w (c!"if" ++ (sep (w.g.gap 5) ++ c.write (w.g.sub 0))) ++ Doc.texts body ++
      DocBranch.texts more ++ tagText syn fin c!"endif"
  | .for_ w p iter cond body els fin =>
    tagText syn w (forText w.g p iter cond) ++ Doc.texts body ++ els.src ++ tagText syn fin c!"endfor"
  | .match_ w e gap arms els fin =>
    tagText syn w (c!"match" ++ (sep (w.g.gap 5) ++ e.write (w.g.sub 0))) ++ gap ++ DocArm.texts arms ++ els.src ++
    tagText syn fin c!"endmatch"
  | .extends_ w path => tagText syn w (c!"extends" ++ (w.g.gap 5 ++ '"' :: (path ++ ['"'])))
  | .include_ w path => tagText syn w (c!"include" ++ (w.g.gap 5 ++ '"' :: (path ++ ['"'])))
  | .import_ w path scope => tagText syn w (c!"import" ++ (w.g.gap 5 ++ '"' :: (path ++ '"' :: (w.g.gap 7 ++
      (c!"as" ++ (sep (w.g.gap 9) ++ scope))))))
  | .block w name body again fin =>
    tagText syn w (c!"block" ++ (sep (w.g.gap 5) ++ name)) ++ Doc.texts body ++
    tagText syn fin (c!"endblock" ++ againText fin.g again name)
  | .macro w name params body again fin =>
    tagText syn w (c!"macro" ++ (sep (w.g.gap 5) ++ (name ++ (w.g.gap 4 ++ paramsSrc (w.g.sub 0) params)))) ++ Doc.texts body ++
    tagText syn fin (c!"endmacro" ++ againText fin.g again name)
  | .filter w f fs body fin =>
    tagText syn w (c!"filter" ++ (sep (w.g.gap 5) ++ Flt.texts (w.g.sub 0) f fs)) ++ Doc.texts body ++ tagText syn fin c!"endfilter"
  | .raw w s fin => tagText syn w c!"raw" ++ s ++ tagText syn fin c!"endraw"
  | .break_ w => tagText syn w c!"break"
  | .continue_ w => tagText syn w c!"continue"
/-- The text of a template. -/
def Doc.texts : List Doc → Str
  | [] => []
  | d :: ds => d.src ++ Doc.texts ds
/-- The text of a branch. -/
def DocBranch.text : DocBranch → Str
  | .elseIf short w c body => tagText syn w ((if short then c!"elif" else c!"else" ++ (sep (w.g.gap 7) ++ c!"if")) ++
      (sep (w.g.gap 5) ++ c.write (w.g.sub 0))) ++ Doc.texts body
  | .else_ w body => tagText syn w c!"else" ++ Doc.texts body
/-- The text of the branches. -/
def DocBranch.texts : List DocBranch → Str
  | [] => []
  | b :: bs => b.text ++ DocBranch.texts bs
/-- The text of an arm. -/
def DocArm.text : DocArm → Str
  | .mk w p body => tagText syn w (c!"when" ++ (sep (w.g.gap 5) ++ p.write (w.g.sub 0))) ++ Doc.texts body
/-- The text of the arms. -/
def DocArm.texts : List DocArm → Str
  | [] => []
  | a :: as => a.text ++ DocArm.texts as
/-- The text of an `else`. -/
def Else.src : Else → Str
  | .none => []
  | .some w body => tagText syn w c!"else" ++ Doc.texts body
end

mutual
/-- What a piece means. -/
def Doc.node : Doc → Node
  | .text s => .lit (litOf s)
  | .comment w s => .comment w.ws (s ++ mark w.r ++ syn.commentEnd)
  | .expr w e => .expr w.ws e.tree
  | .call w scope name args named =>
    .call w.ws scope name (Tm.trees args ++ named.map fun a => .namedArg a.1 a.2.tree)
  | .callBare w scope name => .call w.ws scope name []
  | .let_ w _ p val => .let_ w.ws p.tree (val.map Tm.tree)
  | .if_ w c body more fin => .if_ fin.ws (.mk w.ws (some c.tree) (Doc.nodes body) :: DocBranch.nodes more)
  | .for_ w p iter cond body .none fin =>
    .loop w.ws p.tree iter.tree (cond.map Tm.tree) (Doc.nodes body) ⟨fin.l, Option.none⟩ [] ⟨Option.none, fin.r⟩
  | .for_ w p iter cond body (.some w' els) fin =>
    .loop w.ws p.tree iter.tree (cond.map Tm.tree) (Doc.nodes body) w'.ws (Doc.nodes els) fin.ws
  | .match_ w e _ arms .none fin => .match_ w.ws e.tree (DocArm.nodes arms) fin.ws
  | .match_ w e _ arms (.some w' els) fin =>
    .match_ w.ws e.tree (DocArm.nodes arms ++ [.mk w'.ws (.name c!"_") (Doc.nodes els)]) fin.ws
  | .extends_ _ path => .extends_ path
  | .include_ w path => .include w.ws path
  | .import_ w path scope => .import_ w.ws path scope
  | .block w name body _ fin => .blockDef w.ws name (Doc.nodes body) fin.ws
  | .macro w name params body _ fin => .macro w.ws name params (Doc.nodes body) fin.ws
  | .filter w f fs body fin => .filterBlock w.ws (Flt.chain f fs) (Doc.nodes body) fin.ws
  | .raw w s fin => .raw w.ws (litOf s) fin.ws
  | .break_ w => .break_ w.ws
  | .continue_ w => .continue_ w.ws
/-- What a template means. -/
def Doc.nodes : List Doc → List Node
  | [] => []
  | d :: ds => d.node :: Doc.nodes ds
/-- What a branch means. -/
def DocBranch.node : DocBranch → Cond
  | .elseIf _ w c body => .mk w.ws (some c.tree) (Doc.nodes body)
  | .else_ w body => .mk w.ws none (Doc.nodes body)
/-- What the branches mean. -/
def DocBranch.nodes : List DocBranch → List Cond
  | [] => []
  | b :: bs => b.node :: DocBranch.nodes bs
/-- What an arm means. -/
def DocArm.node : DocArm → When
  | .mk w p body => .mk w.ws p.tree (Doc.nodes body)
/-- What the arms mean. -/
def DocArm.nodes : List DocArm → List When
  | [] => []
  | a :: as => a.node :: DocArm.nodes as
end

/-- Text between tags: no opening delimiter in it, none that it makes with what follows. -/
def TextOk (s : Str) : Prop :=
  s ≠ [] ∧ ∀ d ∈ [syn.blockStart, syn.commentStart, syn.exprStart], ¬ d <:+: s ∧ ∀ a, a ≠ [] → a <+: d → ¬ a <:+ s

/-- The text of a comment: comments inside it are closed, and it does not start or end with what could be a marker. -/
def CommentOk (w : Lay) (s : Str) : Prop :=
  (∀ r, CommentTo syn.commentStart syn.commentEnd (s ++ mark w.r ++ syn.commentEnd ++ r) r) ∧
  (w.l = none → ∀ c, (s ++ mark w.r ++ syn.commentEnd).head? = some c → c ∉ c!"+-~") ∧
  (w.r = none → ∀ c, s.getLast? = some c → c ∉ c!"+-~")

/-- The text of a `raw` block: no `endraw` tag in it. -/
def RawFree (s : Str) : Prop :=
  ∀ x y r, s = x ++ y → y ≠ [] → ¬ EndRaw syn.blockStart syn.blockEnd (y ++ syn.blockStart ++ r)

end

/-- Is it text? -/
def Doc.isText : Doc → Bool
  | .text _ => true
  | _ => false

section

variable (syn : Syntax) (isLower : Char → Bool)

/-- Well-formed filters. -/
def Flt.Ok (f : Flt) : Prop := Name f.name ∧ Tm.Oks isLower f.args

/-- Arguments of a macro call: names are names, no name twice. -/
def ArgsOk (args : List Tm) (named : List (Str × Tm)) : Prop :=
  Tm.Oks isLower args ∧ (∀ a ∈ named, Name a.1 ∧ a.2.Ok isLower) ∧ (named.map (·.1)).Nodup

mutual
/-- Well-formed pieces; `loop`: inside the body of a `for`. -/
def Doc.Ok (loop : Bool) : Doc → Prop
  | .text s => TextOk syn s
  | .comment w s => CommentOk syn w s
  | .expr _ e => e.Ok isLower
  | .call _ scope name args named => (∀ m, scope = some m → Name m) ∧ Name name ∧ ArgsOk isLower args named
  | .callBare _ scope name => (∀ m, scope = some m → Name m) ∧ Name name
  | .let_ _ _ p val => p.Ok isLower ∧ ∀ e, val = some e → e.Ok isLower
  | .if_ _ c body more _ => c.Ok isLower ∧ Doc.Oks loop body ∧ DocBranch.Oks loop more
  | .for_ _ p iter cond body els _ => p.Ok isLower ∧ iter.Ok isLower ∧
      (∀ e, cond = some e → e.Ok isLower ∧ iter.endsOpen = false) ∧ Doc.Oks true body ∧ els.Ok loop
  | .match_ _ e gap arms els _ => e.Ok isLower ∧ Blank gap ∧ arms ≠ [] ∧ DocArm.Oks loop arms ∧ els.Ok loop
  | .extends_ w path => w.ws = ⟨none, none⟩ ∧ StrBody path
  | .include_ _ path => StrBody path
  | .import_ _ path scope => StrBody path ∧ Name scope
  | .block _ name body _ _ => Name name ∧ Doc.Oks loop body
  | .macro _ name params body _ _ => Name name ∧ name ≠ c!"super" ∧ (∀ p ∈ params, Name p) ∧ Doc.Oks loop body
  | .filter _ f fs body _ => f.Ok isLower ∧ (∀ g ∈ fs, g.Ok isLower) ∧ Doc.Oks loop body
  | .raw _ s _ => RawFree syn s
  | .break_ _ | .continue_ _ => loop = true
/-- Well-formed templates: no two pieces of text in a row. -/
def Doc.Oks (loop : Bool) : List Doc → Prop
  | [] => True
  | d :: ds => d.Ok loop ∧ (d.isText = true → ∀ e, ds.head? = some e → e.isText = false) ∧ Doc.Oks loop ds
/-- Well-formed branches. -/
def DocBranch.Ok (loop : Bool) : DocBranch → Prop
  | .elseIf _ _ c body => c.Ok isLower ∧ Doc.Oks loop body
  | .else_ _ body => Doc.Oks loop body
/-- ... all of them. -/
def DocBranch.Oks (loop : Bool) : List DocBranch → Prop
  | [] => True
  | b :: bs => b.Ok loop ∧ DocBranch.Oks loop bs
/-- Well-formed arms. -/
def DocArm.Ok (loop : Bool) : DocArm → Prop
  | .mk _ p body => p.Ok isLower ∧ Doc.Oks loop body
/-- ... all of them. -/
def DocArm.Oks (loop : Bool) : List DocArm → Prop
  | [] => True
  | a :: as => a.Ok loop ∧ DocArm.Oks loop as
/-- A well-formed `else`. -/
def Else.Ok (loop : Bool) : Else → Prop
  | .none => True
  | .some _ body => Doc.Oks loop body
end

end

/-- Nesting levels of optional expressions. -/
def optNeed : Option Tm → Nat
  | none => 0
  | some e => e.need + 12

mutual
/-- Nesting levels the piece takes. -/
def Doc.need : Doc → Nat
  | .text _ | .comment _ _ => 0
  | .expr _ e => e.need + 12
  | .call _ _ _ args named => max (Tm.needs args) (Tm.needs (named.map (·.2))) + 15
  | .let_ _ _ p val => max p.need (optNeed val) + 1
  | .if_ _ c body more _ => max c.need (max (Doc.needs body) (DocBranch.needs more)) + 1
  | .for_ _ p iter cond body els _ =>
    max p.need (max (iter.need + 12) (max (optNeed cond) (max (Doc.needs body) els.need))) + 1
  | .match_ _ e _ arms els _ => max (e.need + 12) (max (DocArm.needs arms) els.need) + 1
  | .callBare _ _ _ => 2
  | .extends_ _ _ | .include_ _ _ | .import_ _ _ _ | .raw _ _ _ | .break_ _ | .continue_ _ => 1
  | .block _ _ body _ _ => Doc.needs body + 1
  | .macro _ _ _ body _ _ => Doc.needs body + 1
  | .filter _ f fs body _ => max (Flt.needs (f :: fs)) (Doc.needs body) + 1
/-- ... a template takes. -/
def Doc.needs : List Doc → Nat
  | [] => 0
  | d :: ds => max d.need (Doc.needs ds)
/-- ... a branch takes. -/
def DocBranch.need : DocBranch → Nat
  | .elseIf _ _ c body => max c.need (Doc.needs body)
  | .else_ _ body => Doc.needs body
/-- ... the branches take. -/
def DocBranch.needs : List DocBranch → Nat
  | [] => 0
  | b :: bs => max b.need (DocBranch.needs bs)
/-- ... an arm takes. -/
def DocArm.need : DocArm → Nat
  | .mk _ p body => max p.need (Doc.needs body)
/-- ... the arms take. -/
def DocArm.needs : List DocArm → Nat
  | [] => 0
  | a :: as => max a.need (DocArm.needs as)
/-- ... an `else` takes. -/
def Else.need : Else → Nat
  | .none => 0
  | .some _ body => Doc.needs body
end

end Askama.Spec
