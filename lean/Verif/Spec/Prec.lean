import Verif.Spec.Parse

/-!
# Operator precedence

Expressions, their text with the parentheses Rust's precedence table makes necessary, and the syntax tree that text stands
for. From loosest to tightest: ranges, `||`, `&&`, the comparisons, `|`, `^`, `&`, the shifts, `+ -`, `* / %`, filters,
prefix operators, suffixes (`.name`, `[index]`, `(arguments)`, `?`). Binary operators associate to the left.
-/

namespace Askama.Spec

/-- Binary operators. -/
inductive BinOp where
  | or | and | eq | ne | ge | gt | le | lt | bitor | xor | bitand | shr | shl | add | sub | mul | div | rem
  deriving DecidableEq, Repr

/-- Their text. -/
def BinOp.sym : BinOp → Str
  | .or => c!"||"
  | .and => c!"&&"
  | .eq => c!"=="
  | .ne => c!"!="
  | .ge => c!">="
  | .gt => c!">"
  | .le => c!"<="
  | .lt => c!"<"
  | .bitor => c!"|"
  | .xor => c!"^"
  | .bitand => c!"&"
  | .shr => c!">>"
  | .shl => c!"<<"
  | .add => c!"+"
  | .sub => c!"-"
  | .mul => c!"*"
  | .div => c!"/"
  | .rem => c!"%"

/-- Rust's precedence table. -/
def BinOp.prec : BinOp → Nat
  | .or => 0
  | .and => 1
  | .eq | .ne | .ge | .gt | .le | .lt => 2
  | .bitor => 3
  | .xor => 4
  | .bitand => 5
  | .shr | .shl => 6
  | .add | .sub => 7
  | .mul | .div | .rem => 8

/-- Prefix operators. -/
inductive UnOp where
  | not | neg
  deriving DecidableEq, Repr

/-- Their text. -/
def UnOp.sym : UnOp → Str
  | .not => c!"!"
  | .neg => c!"-"

/-- Expressions; parentheses that are necessary are not part of them. -/
inductive Tm where
  | var (n : Str)
  | num (s : Str)
  | str (s : Str)
  | chr (s : Str)
  | bool (b : Bool)
  /-- `a::b`, or `::a::b`. -/
  | path (root : Bool) (p : List Str)
  | array (es : List Tm)
  | tuple (es : List Tm)
  | attr (e : Tm) (n : Str)
  | index (e k : Tm)
  | call (e : Tm) (es : List Tm)
  /-- `a::b!(...)`: a call of a Rust macro. -/
  | mac (root : Bool) (p : List Str) (args : Str)
  /-- Parentheses that are not necessary. -/
  | parens (e : Tm)
  | try_ (e : Tm)
  | unary (op : UnOp) (e : Tm)
  | filter (e : Tm) (n : Str) (es : List Tm)
  | bin (op : BinOp) (a b : Tm)
  | range (incl : Bool) (a b : Option Tm)
  deriving Repr

/-- Precedence of the outermost operator. -/
def Tm.prec : Tm → Nat
  | .var _ | .num _ | .str _ | .chr _ | .bool _ | .path _ _ | .array _ | .tuple _ | .parens _ => 12
  | .attr _ _ | .index _ _ | .call _ _ | .mac _ _ _ | .try_ _ => 11
  | .unary _ _ => 10
  | .filter _ _ _ => 9
  | .bin op _ _ => op.prec
  | .range _ _ _ => 0

/-- Does the expression need parentheses where operators from precedence `q` on may stand? -/
def Tm.loose (q : Nat) : Tm → Bool
  | .range _ _ _ => true
  | e => decide (e.prec < q)

/-- How an expression is laid out: the blanks in every place where blanks may stand, and whether a list has a comma after its
last element. A place is given by the way to the part of the expression it belongs to and a number. -/
structure Gaps where
  blank : List Nat → Nat → Str
  comma : List Nat → Bool

/-- Blanks of the outermost part. -/
def Gaps.gap (g : Gaps) (k : Nat) : Str := g.blank [] k

/-- The layout of a part. -/
def Gaps.sub (g : Gaps) (i : Nat) : Gaps := ⟨fun p => g.blank (i :: p), fun p => g.comma (i :: p)⟩

/-- Only white space. -/
def Gaps.Ok (g : Gaps) : Prop := ∀ p k, Blank (g.blank p k)

/-- The usual layout: blanks around binary operators and after commas; these places have odd numbers. -/
def Gaps.std : Gaps := ⟨fun _ k => if k % 2 = 1 then c!" " else [], fun _ => false⟩

theorem std_ok : Gaps.std.Ok := by
  intro p k c hc
  unfold Gaps.std at hc
  dsimp only at hc
  split at hc
  · simp at hc; exact .inl hc
  · simp at hc

/-- At least one blank. -/
def sep (s : Str) : Str := if s.isEmpty then c!" " else s

/-- Parentheses if needed. -/
def paren (g : Gaps) (b : Bool) (s : Str) : Str := if b then '(' :: (g.gap 0 ++ (s ++ (g.gap 2 ++ [')']))) else s

/-- The text of a Boolean. -/
def boolText (b : Bool) : Str := if b then c!"true" else c!"false"

/-- Further segments of a path. -/
def segText (g : Gaps) : List Str → Str
  | [] => []
  | s :: p => g.gap 0 ++ (c!"::" ++ (g.gap 2 ++ (s ++ segText (g.sub 0) p)))

/-- The text of a path. -/
def pathWrite (g : Gaps) (root : Bool) : List Str → Str
  | [] => []
  | s :: p => (if root then c!"::" ++ g.gap 0 else []) ++ (s ++ segText (g.sub 0) p)

/-- `..` or `..=`. -/
def dots (incl : Bool) : Str := if incl then c!"..=" else c!".."

/-- The comma after the last element of a list. -/
def lastComma (g : Gaps) (b : Bool) : Str := if b then ',' :: g.gap 0 else []

mutual
/-- The text of an expression: parentheses only around operands of lower precedence (and right operands of the same
precedence). -/
def Tm.write (g : Gaps) : Tm → Str
  | .var n => n
  | .num s => s
  | .str s => '"' :: (s ++ ['"'])
  | .chr s => '\'' :: (s ++ ['\''])
  | .bool b => boolText b
  | .path root p => pathWrite g root p
  | .array es => '[' :: (Tm.writes (g.sub 0) es ++ (lastComma g (g.comma [] && !es.isEmpty) ++ [']']))
  | .tuple es => '(' :: (Tm.writes (g.sub 0) es ++ (lastComma g (es.length = 1 || g.comma [] && !es.isEmpty) ++ [')']))
  | .attr e n => paren (g.sub 1) (e.loose 11) (e.write (g.sub 0)) ++ (g.gap 0 ++ '.' :: (g.gap 2 ++ n))
  | .index e k => paren (g.sub 1) (e.loose 11) (e.write (g.sub 0)) ++ (g.gap 0 ++ '[' :: (g.gap 2 ++ (k.write (g.sub 2) ++ (g.gap 4 ++ [']']))))
  | .call e es => paren (g.sub 1) (e.loose 11) (e.write (g.sub 0)) ++ (g.gap 2 ++ '(' :: (Tm.writes (g.sub 2) es ++
      (lastComma g (g.comma [] && !es.isEmpty) ++ [')'])))
  | .mac root p args => pathWrite (g.sub 0) root p ++ (g.gap 0 ++ '!' :: (g.gap 2 ++ '(' :: (args ++ [')'])))
  | .parens e => '(' :: (g.gap 0 ++ (e.write (g.sub 0) ++ (g.gap 2 ++ [')'])))
  | .try_ e => paren (g.sub 1) (e.loose 11) (e.write (g.sub 0)) ++ (g.gap 0 ++ ['?'])
  | .unary op e => op.sym ++ (g.gap 0 ++ paren (g.sub 1) (e.loose 10) (e.write (g.sub 0)))
  | .filter e n es => paren (g.sub 1) (e.loose 9) (e.write (g.sub 0)) ++ '|' :: (g.gap 2 ++ (n ++ (if es.isEmpty then [] else
      g.gap 4 ++ '(' :: (Tm.writes (g.sub 2) es ++ (lastComma g (g.comma [] && !es.isEmpty) ++ [')'])))))
  | .bin op a b => paren (g.sub 1) (a.loose op.prec) (a.write (g.sub 0)) ++ ((if op = .bitor then sep (g.gap 1) else g.gap 1) ++
      (op.sym ++ (g.gap 3 ++ paren (g.sub 3) (b.loose (op.prec + 1)) (b.write (g.sub 2)))))
  | .range incl a b => Tm.leftText (g.sub 0) a ++ (dots incl ++ Tm.rightText (g.sub 1) b)
/-- The text of a list: commas in between. -/
def Tm.writes (g : Gaps) : List Tm → Str
  | [] => g.gap 0
  | e :: es => g.gap 0 ++ (e.write (g.sub 0) ++ Tm.more (g.sub 1) es)
/-- Further elements of a list. -/
def Tm.more (g : Gaps) : List Tm → Str
  | [] => g.gap 0
  | e :: es => g.gap 0 ++ ',' :: (g.gap 1 ++ (e.write (g.sub 0) ++ Tm.more (g.sub 1) es))
/-- The start of a range. -/
def Tm.leftText (g : Gaps) : Option Tm → Str
  | none => []
  | some e => paren (g.sub 1) (e.loose 0) (e.write (g.sub 0)) ++ g.gap 1
/-- The end of a range. -/
def Tm.rightText (g : Gaps) : Option Tm → Str
  | none => []
  | some e => g.gap 1 ++ paren (g.sub 1) (e.loose 0) (e.write (g.sub 0))
end

/-- The text of an expression in the usual layout. -/
abbrev Tm.text (e : Tm) : Str := e.write .std

/-- Expressions separated by commas, each comma followed by one blank. -/
abbrev Tm.texts (es : List Tm) : Str := Tm.writes .std es

/-- The text of a path in the usual layout. -/
abbrev pathSrc (root : Bool) (p : List Str) : Str := pathWrite .std root p

/-- The syntax tree of a parenthesised operand. -/
def group (b : Bool) (e : Expr) : Expr := if b then .group e else e

mutual
/-- The syntax tree of an expression: its own structure. -/
def Tm.tree : Tm → Expr
  | .var n => .var n
  | .num s => .numLit s
  | .str s => .strLit s
  | .chr s => .charLit s
  | .bool b => .boolLit (boolText b)
  | .path root p => .path (if root then [] :: p else p)
  | .array es => .array (Tm.trees es)
  | .tuple es => .tuple (Tm.trees es)
  | .attr e n => .attr (group (e.loose 11) e.tree) n
  | .index e k => .index (group (e.loose 11) e.tree) k.tree
  | .call e es => .call (group (e.loose 11) e.tree) (Tm.trees es)
  | .mac root p args => .rustMacro (if root then [] :: p else p) args
  | .parens e => .group e.tree
  | .try_ e => .try_ (group (e.loose 11) e.tree)
  | .unary op e => .unary op.sym (group (e.loose 10) e.tree)
  | .filter e n es => .filter n (group (e.loose 9) e.tree :: Tm.trees es)
  | .bin op a b => .binop op.sym (group (a.loose op.prec) a.tree) (group (b.loose (op.prec + 1)) b.tree)
  | .range incl a b => .range (dots incl) (Tm.endTree a) (Tm.endTree b)
/-- ... of the elements of a list. -/
def Tm.trees : List Tm → List Expr
  | [] => []
  | e :: es => e.tree :: Tm.trees es
/-- ... of an end of a range. -/
def Tm.endTree : Option Tm → Option Expr
  | none => none
  | some e => some (group (e.loose 0) e.tree)
end

/-- Does the text end with a filter without arguments, or with `..`? -/
def Tm.endsFilter : Tm → Bool
  | .filter _ _ es => es.isEmpty
  | .bin op _ b => !b.loose (op.prec + 1) && b.endsFilter
  | .range _ _ none => true
  | .range _ _ (some b) => !b.loose 0 && b.endsFilter
  | _ => false

/-- Is it a range without end? -/
def Tm.endsOpen : Tm → Bool
  | .range _ _ none => true
  | _ => false

/-- Decimal digits. -/
def isDigits (s : Str) : Bool := !s.isEmpty && s.all fun c => '0' ≤ c && c ≤ '9'

/-- Does the text end with a number? -/
def Tm.endsNum : Tm → Bool
  | .num _ => true
  | .attr _ n => isDigits n
  | _ => false

mutual
/-- Nesting levels the expression takes. -/
def Tm.need : Tm → Nat
  | .var _ | .num _ | .str _ | .chr _ | .bool _ | .path _ _ | .mac _ _ _ => 3
  | .array es | .tuple es => Tm.needs es + 15
  | .attr e _ | .try_ e => e.need + if e.loose 11 then 15 else 0
  | .parens e => e.need + 15
  | .index e k => max (e.need + if e.loose 11 then 15 else 0) (k.need + 14)
  | .call e es => max (e.need + if e.loose 11 then 15 else 0) (Tm.needs es + 15)
  | .unary _ e => e.need + (if e.loose 10 then 15 else 0) + 1
  | .filter e _ es => max (e.need + if e.loose 9 then 15 else 0) (if es.isEmpty then 0 else Tm.needs es + 12)
  | .bin op a b => max (a.need + if a.loose op.prec then 15 else 0) (b.need + if b.loose (op.prec + 1) then 15 else 0)
  | .range _ a b => max (Tm.endNeed a) (Tm.endNeed b)
/-- ... a list takes. -/
def Tm.needs : List Tm → Nat
  | [] => 3
  | e :: es => max e.need (Tm.needs es)
/-- ... an end of a range takes. -/
def Tm.endNeed : Option Tm → Nat
  | none => 3
  | some e => e.need + if e.loose 0 then 15 else 0
end

/-- A name: a letter, `_` or any non-ASCII character, then these or digits. -/
def Name (n : Str) : Prop :=
  (∃ c t, n = c :: t ∧ identChar c ∧ ¬ ('0' ≤ c ∧ c ≤ '9')) ∧ ∀ c ∈ n, identChar c

/-- A variable: a name that starts with a lower-case letter and is not a Boolean. -/
def Variable (isLower : Char → Bool) (n : Str) : Prop :=
  Name n ∧ (∀ c, n.head? = some c → isLower c = true) ∧ n ≠ c!"true" ∧ n ≠ c!"false"

/-- The text between the quotes of a string: no quotes but after a backslash, and something after each backslash. -/
inductive StrBody : Str → Prop
  | nil : StrBody []
  | char {s : Str} (c : Char) : c ≠ '"' → c ≠ '\\' → StrBody s → StrBody (c :: s)
  | escape {s : Str} (c : Char) : StrBody s → StrBody ('\\' :: c :: s)

/-- A decimal digit. -/
def decDigit (c : Char) : Bool := '0' ≤ c && c ≤ '9'

/-- A hexadecimal digit. -/
def hexaDigit (c : Char) : Bool := decDigit c || 'a' ≤ c && c ≤ 'f' || 'A' ≤ c && c ≤ 'F'

/-- The digits after `0b`, `0o` and `0x`. -/
def baseDigit (l c : Char) : Bool :=
  if l = 'b' then c = '0' || c = '1' else if l = 'o' then '0' ≤ c && c ≤ '7' else hexaDigit c

/-- The value of a hexadecimal digit. -/
def hexaVal (c : Char) : Nat :=
  if decDigit c then c.toNat - 48 else if 'a' ≤ c && c ≤ 'f' then c.toNat - 87 else c.toNat - 55

/-- The value of hexadecimal digits. -/
def hexaNat (s : Str) : Nat := s.foldl (fun n c => 16 * n + hexaVal c) 0

/-- The text between the quotes of a character: one character, a simple escape sequence, `\x` with two digits for an ASCII
character, or `\u{...}` with at most six digits. -/
inductive ChrBody : Str → Prop
  | char (c : Char) : c ≠ '\'' → c ≠ '\\' → ChrBody [c]
  | escape (c : Char) : c ∈ c!"nrt\\0'\"" → ChrBody ['\\', c]
  | ascii (a b : Char) : hexaDigit a = true → hexaDigit b = true → hexaNat [a, b] ≤ 127 → ChrBody ['\\', 'x', a, b]
  | unicode (s : Str) : s ≠ [] → s.length ≤ 6 → s.all hexaDigit = true → hexaNat s ≤ 0x10FFFF →
      ChrBody ('\\' :: 'u' :: '{' :: (s ++ ['}']))

/-- A text between single quotes: no quotes but after a backslash, and something after each backslash. -/
inductive QuoteBody : Str → Prop
  | nil : QuoteBody []
  | char {s : Str} (c : Char) : c ≠ '\'' → c ≠ '\\' → QuoteBody s → QuoteBody (c :: s)
  | escape {s : Str} (c : Char) : QuoteBody s → QuoteBody ('\\' :: c :: s)

/-- Digits, with underscores after the first one. -/
def Digits (d : Char → Bool) (s : Str) : Prop := (∃ c t, s = c :: t ∧ d c = true) ∧ ∀ c ∈ s, c = '_' ∨ d c = true

/-- The types of integers. -/
def intTypes : List Str :=
  [c!"i8", c!"i16", c!"i32", c!"i64", c!"i128", c!"isize", c!"u8", c!"u16", c!"u32", c!"u64", c!"u128", c!"usize"]

/-- The types of floating-point numbers. -/
def floatTypes : List Str := [c!"f32", c!"f64"]

/-- Numbers. -/
inductive Number : Str → Prop
  /-- `1_000`, `1u8`, `1f32`. -/
  | whole {a ty : Str} : Digits decDigit a → ty ∈ [] :: intTypes ++ floatTypes → Number (a ++ ty)
  /-- `1.5`, `1.5f32`. -/
  | frac {a b ty : Str} : Digits decDigit a → Digits decDigit b → ty ∈ [] :: floatTypes → Number (a ++ '.' :: (b ++ ty))
  /-- `1e5`, `1.5E-3f64`. -/
  | exp {a fr us d ty : Str} {e : Char} {sg : Str} : Digits decDigit a → (fr = [] ∨ ∃ b, fr = '.' :: b ∧ Digits decDigit b) →
      e ∈ c!"eE" → sg ∈ [[], c!"+", c!"-"] → (∀ c ∈ us, c = '_') → Digits decDigit d → ty ∈ [] :: floatTypes →
      Number (a ++ (fr ++ e :: (sg ++ (us ++ (d ++ ty)))))
  /-- `0b1`, `0o7`, `0x_ffu8`. -/
  | based {us d ty : Str} {l : Char} : l ∈ c!"box" → (∀ c ∈ us, c = '_') → Digits (baseDigit l) d → ty ∈ [] :: intTypes →
      Number ('0' :: l :: (us ++ (d ++ ty)))

/-- Text that can stand between the parentheses of a macro call: parentheses in it are closed, strings are whole. -/
inductive MacroText : Str → Prop
  | nil : MacroText []
  | char {s : Str} (c : Char) : c ∉ c!"()\"\\" → MacroText s → MacroText (c :: s)
  | escape {s : Str} (c : Char) : c ∉ c!"()\"" → MacroText s → MacroText ('\\' :: c :: s)
  | paren {a s : Str} : MacroText a → MacroText s → MacroText ('(' :: (a ++ ')' :: s))
  | str {b s : Str} : StrBody b → MacroText s → MacroText ('"' :: (b ++ '"' :: s))

section

variable (isLower : Char → Bool)

/-- A path: names; a single one is not lower case, lest it be a variable. -/
def PathTm (root : Bool) (p : List Str) : Prop :=
  (∀ s ∈ p, Name s) ∧
    (2 ≤ p.length ∨ p.length = 1 ∧ (root = true ∨ ∀ s c, p.head? = some s → s.head? = some c → isLower c = false))

mutual
/-- Well-formed names and literals; no filter without arguments directly before `|`: there the two readings of `|` collide;
and no numbered field directly after a number: the two would be read as one number. -/
def Tm.Ok : Tm → Prop
  | .var n => Variable isLower n
  | .num s => Number s
  | .str s => StrBody s
  | .chr s => ChrBody s
  | .bool _ => isLower 't' = true ∧ isLower 'f' = true
  | .path root p => PathTm isLower root p
  | .mac root p args => (PathTm isLower root p ∨ root = false ∧ ∃ n, p = [n] ∧ Variable isLower n) ∧ MacroText args
  | .parens e => e.Ok
  | .array es | .tuple es => Tm.Oks es
  | .attr e n => e.Ok ∧ (Name n ∨ isDigits n = true ∧ e.endsNum = false)
  | .index e k => e.Ok ∧ k.Ok
  | .call e es => e.Ok ∧ Tm.Oks es
  | .try_ e => e.Ok
  | .unary _ e => e.Ok
  | .filter e n es => e.Ok ∧ Name n ∧ Tm.Oks es
  | .bin op a b => a.Ok ∧ b.Ok ∧ (op = .bitor → ¬ (a.loose 3 = false ∧ a.endsFilter = true))
  | .range _ a b => Tm.endOk a ∧ Tm.endOk b
/-- ... of the elements of a list. -/
def Tm.Oks : List Tm → Prop
  | [] => True
  | e :: es => e.Ok ∧ Tm.Oks es
/-- ... of an end of a range. -/
def Tm.endOk : Option Tm → Prop
  | none => True
  | some e => e.Ok
end

end

end Askama.Spec
