import Verif.Spec.Prec

/-!
# Reading Rust expressions

How the Rust compiler reads the text of an expression: a lexer (whole words, numbers, literals and the longest operators
that fit) and a reader that follows Rust's precedence table (`BinOp.prec`). Only the forms that occur in the code askama
writes are read; other text is rejected (`none`), and so are comments. The reader accepts some text that the compiler
rejects for other reasons (unknown escapes in string literals, for instance), so what is said about it is said about
every text that compiles.
-/

namespace Askama.Spec

/-! ## Tokens -/

/-- A token. `amp` is one `&`, with a mark if another `&` follows immediately: `&&` is an operator after an operand, and
two references before one. -/
inductive Tok where
  | word (s : Str)
  | num (s : Str)
  | str (s : Str)
  | chr (s : Str)
  | amp (joint : Bool)
  | op (s : Str)
  | opn (c : Char)
  | cls (c : Char)
  deriving DecidableEq, Repr

/-- Decimal digits. -/
def isDec (c : Char) : Bool := '0' ≤ c && c ≤ '9'

/-- Hexadecimal digits. -/
def isHex (c : Char) : Bool := isDec c || ('a' ≤ c && c ≤ 'f') || ('A' ≤ c && c ≤ 'F')

/-- First character of a word (all characters beyond ASCII are taken as letters). -/
def wordStart (c : Char) : Bool := ('a' ≤ c && c ≤ 'z') || ('A' ≤ c && c ≤ 'Z') || c == '_' || 128 ≤ c.toNat

/-- Further characters of a word. -/
def wordCont (c : Char) : Bool := wordStart c || isDec c

/-- White space. -/
def isWhite (c : Char) : Bool := c == ' ' || c == '\n' || c == '\t' || c == '\r'

/-- Does the text begin with a character like this? -/
def headIs (p : Char → Bool) : Str → Bool
  | [] => false
  | c :: _ => p c

/-- A run of decimal digits and underscores. -/
def decRun (s : Str) : Str × Str := s.span fun c => isDec c || c == '_'

/-- A run of hexadecimal digits and underscores. -/
def hexRun (s : Str) : Str × Str := s.span fun c => isHex c || c == '_'

/-- An exponent, after the `e`. -/
def lexExp : Str → Str × Str
  | c :: r =>
    if c == '+' || c == '-' then (c :: (decRun r).1, (decRun r).2) else decRun (c :: r)
  | [] => ([], [])

/-- An exponent, if there is one. -/
def lexExpOpt : Str → Str × Str
  | c :: r => if c == 'e' || c == 'E' then (c :: (lexExp r).1, (lexExp r).2) else ([], c :: r)
  | [] => ([], [])

/-- Fraction and exponent. A dot belongs to the number unless another dot or a word follows. -/
def lexFrac : Str → Str × Str
  | '.' :: r =>
    if headIs (fun c => c == '.' || wordStart c) r then ([], '.' :: r)
    else if headIs isDec r then
      ('.' :: ((decRun r).1 ++ (lexExpOpt (decRun r).2).1), (lexExpOpt (decRun r).2).2)
    else (['.'], r)
  | s => lexExpOpt s

/-- The digits a number begins with. -/
def lexDigits : Str → Str × Str
  | '0' :: c :: r =>
    if c == 'x' then ('0' :: c :: (hexRun r).1, (hexRun r).2)
    else if c == 'b' || c == 'o' then ('0' :: c :: (decRun r).1, (decRun r).2)
    else decRun ('0' :: c :: r)
  | s => decRun s

/-- A number, with its suffix. -/
def lexNum (s : Str) : Str × Str :=
  let a := lexDigits s
  let b := lexFrac a.2
  let c := if headIs wordStart b.2 then b.2.span wordCont else ([], b.2)
  (a.1 ++ b.1 ++ c.1, c.2)

/-- The text up to the closing quote, and what follows that quote. -/
def scanQuoted (q : Char) : Str → Option (Str × Str)
  | [] => none
  | ['\\'] => none
  | '\\' :: c :: r => (scanQuoted q r).map fun p => ('\\' :: c :: p.1, p.2)
  | c :: r => if c = q then some ([], r) else (scanQuoted q r).map fun p => (c :: p.1, p.2)

/-- A word; `r#name` is one. No quote or `#` may follow. -/
def lexWord (s : Str) : Option (List Tok × Str) :=
  let w := s.span wordCont
  match w.2 with
  | '#' :: r =>
    if w.1 = c!"r" ∧ headIs wordStart r = true then
      if headIs (fun c => c == '"' || c == '\'' || c == '#') (r.span wordCont).2 then none
      else some ([.word (c!"r#" ++ (r.span wordCont).1)], (r.span wordCont).2)
    else none
  | r => if headIs (fun c => c == '"' || c == '\'') r then none else some ([.word w.1], r)

/-- A string literal, after the quote. -/
def lexStr (s : Str) : Option (List Tok × Str) :=
  match scanQuoted '"' s with
  | some (t, r) => if headIs wordStart r then none else some ([.str t], r)
  | none => none

/-- A character literal, after the quote. -/
def lexChr : Str → Option (List Tok × Str)
  | '\\' :: c :: r =>
    match scanQuoted '\'' r with
    | some (t, r) => if headIs wordStart r then none else some ([.chr ('\\' :: c :: t)], r)
    | none => none
  | c :: '\'' :: r => if c = '\'' ∨ headIs wordStart r = true then none else some ([.chr [c]], r)
  | _ => none

/-- Operators, longer ones first. -/
def operators : List Str :=
  [c!"..=", c!"...", c!"<<=", c!">>=", c!"||", c!"==", c!"!=", c!"<=", c!">=", c!"<<", c!">>", c!"..", c!"::", c!"->",
   c!"=>", c!"+=", c!"-=", c!"*=", c!"/=", c!"%=", c!"^=", c!"|=", c!"+", c!"-", c!"*", c!"/", c!"%", c!"^", c!"!", c!"|",
   c!"=", c!"<", c!">", c!"@", c!".", c!",", c!";", c!":", c!"#", c!"$", c!"?", c!"~"]

/-- The next token: `[]` for white space, and two tokens for a dot and a number (after a dot, `0.1` is two fields). -/
def lexOne : Str → Option (List Tok × Str)
  | [] => none
  | c :: r =>
    if isWhite c then some ([], r)
    else if wordStart c then lexWord (c :: r)
    else if isDec c then some ([.num (lexNum (c :: r)).1], (lexNum (c :: r)).2)
    else if c == '"' then lexStr r
    else if c == '\'' then lexChr r
    else if c == '(' || c == '[' || c == '{' then some ([.opn c], r)
    else if c == ')' || c == ']' || c == '}' then some ([.cls c], r)
    else if c == '&' then
      if headIs (· == '=') r then some ([.op c!"&="], r.drop 1) else some ([.amp (headIs (· == '&') r)], r)
    else if c == '.' && headIs isDec r then some ([.op c!".", .num (r.span wordCont).1], (r.span wordCont).2)
    else if c == '/' && headIs (fun d => d == '/' || d == '*') r then none
    else match operators.find? (fun o => o.isPrefixOf (c :: r)) with
      | some o => some ([.op o], (c :: r).drop o.length)
      | none => none

/-- The tokens of a text; the first argument bounds their number. -/
def lexN : Nat → Str → Option (List Tok)
  | _, [] => some []
  | 0, _ => none
  | n + 1, s => do
    let (ts, r) ← lexOne s
    let us ← lexN n r
    some (ts ++ us)

/-- The tokens of a text: there are no more of them than characters. -/
def lex (s : Str) : Option (List Tok) := lexN s.length s

/-! ## Syntax trees -/

/-- Rust expressions (and the statements of a block). -/
inductive Tree where
  /-- A number, string or character. -/
  | lit (t : Tok)
  /-- `a::b`; the first part of `::a` is empty. -/
  | path (p : List Str)
  | field (e : Tree) (n : Str)
  | index (e k : Tree)
  | call (f : Tree) (args : List Tree)
  | try_ (e : Tree)
  | mac (p : List Str) (body : List Tok)
  | unary (op : Str) (e : Tree)
  /-- `&e` -/
  | borrow (e : Tree)
  | binary (op : BinOp) (a b : Tree)
  | range (op : Str) (a b : Option Tree)
  | array (es : List Tree)
  | tuple (es : List Tree)
  | paren (e : Tree)
  /-- `|x| e` -/
  | closure (x : Str) (e : Tree)
  /-- `|p| -> ty { … }`, with the tokens of the parameter -/
  | fn_ (ps : List Tok) (ty : Str) (body : Tree)
  | ret (e : Tree)
  /-- `let x = e;` -/
  | let_ (x : Str) (e : Tree)
  /-- `if c { … }` -/
  | if_ (c body : Tree)
  | block (stmts : List Tree) (last : Option Tree)

/-! ## The reader -/

/-- Keywords that cannot stand in a path. -/
def reserved : List Str :=
  [c!"as", c!"async", c!"await", c!"break", c!"const", c!"continue", c!"dyn", c!"else", c!"enum", c!"extern", c!"fn",
   c!"for", c!"if", c!"impl", c!"in", c!"let", c!"loop", c!"match", c!"mod", c!"move", c!"mut", c!"pub", c!"ref",
   c!"return", c!"static", c!"struct", c!"trait", c!"type", c!"unsafe", c!"use", c!"where", c!"while", c!"abstract",
   c!"become", c!"box", c!"do", c!"final", c!"macro", c!"override", c!"priv", c!"typeof", c!"unsized", c!"virtual",
   c!"yield", c!"try"]

/-- Keywords that can stand in a path, but are not names of fields. -/
def pathWords : List Str := [c!"self", c!"Self", c!"super", c!"crate", c!"true", c!"false"]

/-- Can the word be part of a path? -/
def segOk (s : Str) : Bool := !reserved.contains s

/-- Can the word be the name of a field or a variable? -/
def nameOk (s : Str) : Bool := !reserved.contains s && !pathWords.contains s

/-- A binary operator. -/
def binOpAt : List Tok → Option (BinOp × List Tok)
  | .amp true :: .amp _ :: r => some (.and, r)
  | .amp false :: r => some (.bitand, r)
  | .op s :: r =>
    (([.or, .eq, .ne, .ge, .gt, .le, .lt, .bitor, .xor, .shr, .shl, .add, .sub, .mul, .div, .rem] : List BinOp).find?
      (fun o => o.sym == s)).map fun o => (o, r)
  | _ => none

/-- `..` or `..=` -/
def rangeAt : List Tok → Option (Str × List Tok)
  | .op s :: r => if s = c!".." ∨ s = c!"..=" then some (s, r) else none
  | _ => none

/-- Can an expression begin here? -/
def canBegin : List Tok → Bool
  | .word s :: _ => segOk s
  | .num _ :: _ | .str _ :: _ | .chr _ :: _ | .amp _ :: _ => true
  | .opn _ :: _ => true
  | .op s :: _ => [c!"!", c!"-", c!"*", c!"::", c!"|", c!"||", c!"<", c!"<<"].contains s
  | _ => false

/-- Further parts of a path. -/
def pathRest : List Tok → List Str × List Tok
  | .op [':', ':'] :: .word s :: r => if segOk s then (s :: (pathRest r).1, (pathRest r).2) else ([], .op c!"::" :: .word s :: r)
  | ts => ([], ts)

/-- The bracket that closes this one. -/
def closer (c : Char) : Char := if c = '(' then ')' else if c = '[' then ']' else '}'

/-- The tokens up to the bracket that closes the last of the open brackets, whose closing brackets are given. -/
def untilClose : List Char → List Tok → Option (List Tok × List Tok)
  | st, .opn c :: r => (untilClose (closer c :: st) r).map fun p => (.opn c :: p.1, p.2)
  | [], _ => none
  | [d], .cls c :: r => if c = d then some ([], r) else none
  | d :: st, .cls c :: r => if c = d then (untilClose st r).map fun p => (.cls c :: p.1, p.2) else none
  | st, t :: r => (untilClose st r).map fun p => (t :: p.1, p.2)
  | _, [] => none

/-- The brackets are closed in order: whatever closes the brackets opened before closes them after these tokens too. -/
def Shut (ts : List Tok) : Prop :=
  ∀ st d r x, untilClose (d :: st) r = some x → untilClose (d :: st) (ts ++ r) = some (ts ++ x.1, x.2)

/-- The tokens up to the next `|` outside of brackets (of which the given number are open). -/
def untilBar : Nat → List Tok → Option (List Tok × List Tok)
  | _, [] => none
  | d, t :: r =>
    match t, d with
    | .op ['|'], 0 => some ([], r)
    | .opn c, d => (untilBar (d + 1) r).map fun p => (.opn c :: p.1, p.2)
    | .cls _, 0 => none
    | .cls c, d + 1 => (untilBar d r).map fun p => (.cls c :: p.1, p.2)
    | t, d => (untilBar d r).map fun p => (t :: p.1, p.2)

/-- The head of a closure with a type and a block: the parameter, the type and what follows the opening brace. -/
def fnHead (ts : List Tok) : Option (List Tok × Str × List Tok) :=
  match untilBar 0 ts with
  | some (ps, .op ['-', '>'] :: .word ty :: .opn '{' :: r) => some (ps, ty, r)
  | _ => none

/-- A path, or the call of a macro: the path and what follows. -/
def afterPath (p : List Str) : List Tok → Option (Tree × List Tok)
  | .op ['!'] :: r =>
    match r with
    | .opn '(' :: r => (untilClose [')'] r).map fun x => (.mac p x.1, x.2)
    | _ => none
  | r => some (.path p, r)

mutual
/-- An expression. The first argument bounds the depth of the recursion. -/
def rExpr : Nat → List Tok → Option (Tree × List Tok)
  | 0, _ => none
  | n + 1, ts =>
    match ts with
    | .op ['|'] :: r =>
      match fnHead r with
      | some (ps, ty, r) => do
        let (ss, e, r) ← rBlock n r
        some (.fn_ ps ty (.block ss e), r)
      | none =>
        match r with
        | .word x :: .op ['|'] :: r => do
          let (e, r) ← rExpr n r
          some (.closure x e, r)
        | _ => none
    | .word ['r', 'e', 't', 'u', 'r', 'n'] :: r => do
      let (e, r) ← rExpr n r
      some (.ret e, r)
    | _ =>
      match rangeAt ts with
      | some (op, r) =>
        if canBegin r then do
          let (b, r) ← rBin n 0 r
          some (.range op none (some b), r)
        else some (.range op none none, r)
      | none => do
        let (a, r) ← rBin n 0 ts
        match rangeAt r with
        | some (op, r) =>
          if canBegin r then do
            let (b, r) ← rBin n 0 r
            some (.range op (some a) (some b), r)
          else some (.range op (some a) none, r)
        | none => some (a, r)
/-- Operators of precedence `k` and higher. -/
def rBin : Nat → Nat → List Tok → Option (Tree × List Tok)
  | 0, _, _ => none
  | n + 1, k, ts =>
    if k < 9 then do
      let (a, r) ← rBin n (k + 1) ts
      rBinLoop n k a r
    else rUnary n ts
/-- Operators of precedence `k` after their first operand. Comparisons cannot be chained. -/
def rBinLoop : Nat → Nat → Tree → List Tok → Option (Tree × List Tok)
  | 0, _, _, _ => none
  | n + 1, k, a, ts =>
    match binOpAt ts with
    | some (op, r) =>
      if op.prec = k then do
        let (b, r) ← rBin n (k + 1) r
        if k = 2 then
          if (binOpAt r).any (fun x => x.1.prec == 2) then none else some (.binary op a b, r)
        else rBinLoop n k (.binary op a b) r
      else some (a, ts)
    | none => some (a, ts)
/-- Prefix operators. -/
def rUnary : Nat → List Tok → Option (Tree × List Tok)
  | 0, _ => none
  | n + 1, ts =>
    match ts with
    | .amp _ :: r => do
      let (e, r) ← rUnary n r
      some (.borrow e, r)
    | .op ['-'] :: r => do
      let (e, r) ← rUnary n r
      some (.unary c!"-" e, r)
    | .op ['!'] :: r => do
      let (e, r) ← rUnary n r
      some (.unary c!"!" e, r)
    | .op ['*'] :: r => do
      let (e, r) ← rUnary n r
      some (.unary c!"*" e, r)
    | _ => do
      let (e, r) ← rPrimary n ts
      rPost n e r
/-- Fields, calls, indices and `?` after an operand. -/
def rPost : Nat → Tree → List Tok → Option (Tree × List Tok)
  | 0, _, _ => none
  | n + 1, e, ts =>
    match ts with
    | .op ['.'] :: .word x :: r => if nameOk x then rPost n (.field e x) r else none
    | .op ['.'] :: .num x :: r => if x.all isDec then rPost n (.field e x) r else none
    | .op ['?'] :: r => rPost n (.try_ e) r
    | .opn '(' :: r => do
      let (es, r) ← rList n ')' r
      rPost n (.call e es) r
    | .opn '[' :: r => do
      let (k, r) ← rExpr n r
      match r with
      | .cls ']' :: r => rPost n (.index e k) r
      | _ => none
    | _ => some (e, ts)
/-- Literals, paths, macro calls, and everything in brackets. -/
def rPrimary : Nat → List Tok → Option (Tree × List Tok)
  | 0, _ => none
  | n + 1, ts =>
    match ts with
    | .num s :: r => some (.lit (.num s), r)
    | .str s :: r => some (.lit (.str s), r)
    | .chr s :: r => some (.lit (.chr s), r)
    | .word s :: r => if segOk s then afterPath (s :: (pathRest r).1) (pathRest r).2 else none
    | .op [':', ':'] :: .word s :: r =>
      if segOk s then afterPath ([] :: s :: (pathRest r).1) (pathRest r).2 else none
    | .opn '(' :: .cls ')' :: r => some (.tuple [], r)
    | .opn '(' :: r => do
      let (e, r) ← rExpr n r
      match r with
      | .cls ')' :: r => some (.paren e, r)
      | .op [','] :: r => do
        let (es, r) ← rList n ')' r
        some (.tuple (e :: es), r)
      | _ => none
    | .opn '[' :: r => do
      let (es, r) ← rList n ']' r
      some (.array es, r)
    | .opn '{' :: r => do
      let (ss, e, r) ← rBlock n r
      some (.block ss e, r)
    | _ => none
/-- Expressions separated by commas, up to the closing bracket. -/
def rList : Nat → Char → List Tok → Option (List Tree × List Tok)
  | 0, _, _ => none
  | n + 1, close, ts =>
    match ts with
    | .cls c :: r => if c = close then some ([], r) else none
    | _ => do
      let (e, r) ← rExpr n ts
      match r with
      | .op [','] :: r => do
        let (es, r) ← rList n close r
        some (e :: es, r)
      | .cls c :: r => if c = close then some ([e], r) else none
      | _ => none
/-- The inside of a block. (A statement that begins with `{` is not read.) -/
def rBlock : Nat → List Tok → Option (List Tree × Option Tree × List Tok)
  | 0, _ => none
  | n + 1, ts =>
    match ts with
    | .cls '}' :: r => some ([], none, r)
    | .opn '{' :: _ => none
    | .word ['l', 'e', 't'] :: .word x :: .op ['='] :: r => do
      let (e, r) ← rExpr n r
      match r with
      | .op [';'] :: r => do
        let (ss, l, r) ← rBlock n r
        some (.let_ x e :: ss, l, r)
      | _ => none
    | .word ['i', 'f'] :: r => do
      let (c, r) ← rExpr n r
      match r with
      | .opn '{' :: r => do
        let (ss, l, r) ← rBlock n r
        let (ss', l', r) ← rBlock n r
        some (.if_ c (.block ss l) :: ss', l', r)
      | _ => none
    | _ => do
      let (e, r) ← rExpr n ts
      match r with
      | .op [';'] :: r => do
        let (ss, l, r) ← rBlock n r
        some (e :: ss, l, r)
      | .cls '}' :: r => some ([], some e, r)
      | _ => none
end

/-! ## Words and literals -/

/-- A word: a letter or underscore, then letters, digits and underscores. -/
def isName (s : Str) : Bool := headIs wordStart s && s.all wordCont

/-- A number: the lexer takes all of it. (Not `1.`, which is another number before a dot.) -/
def isNumber (s : Str) : Bool := headIs isDec s && decide (lexNum s = (s, [])) && !(s.getLast? == some '.')

/-- The inside of a string literal. -/
def isStrBody (s : Str) : Bool := scanQuoted '"' (s ++ ['"']) == some (s, [])

/-- The inside of a character literal. -/
def isChrBody (s : Str) : Bool := lexChr (s ++ ['\'']) == some ([.chr s], [])

/-- The text of a path. -/
def joinPath : List Str → Str
  | [] => []
  | [s] => s
  | s :: p => s ++ c!"::" ++ joinPath p

/-! ## Readings -/

/-- The whole text is read as this expression (for every sufficiently large bound on the recursion). -/
def ReadsAs (s : Str) (t : Tree) : Prop :=
  ∃ ts, lex s = some ts ∧ ∃ N, ∀ n, N ≤ n → rExpr n ts = some (t, [])

/-- A text has at most one reading. -/
theorem ReadsAs.unique {s : Str} {t u : Tree} (h : ReadsAs s t) (h' : ReadsAs s u) : t = u := by
  obtain ⟨ts, h1, N, h2⟩ := h
  obtain ⟨us, h3, M, h4⟩ := h'
  rw [h1] at h3
  cases h3
  have a := h2 (max N M) (by omega)
  rw [h4 (max N M) (by omega)] at a
  simpa using a.symm

end Askama.Spec
