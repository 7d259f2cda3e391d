import Verif.Model.Nom
import Verif.Model.Ast

/-!
# Lexical parsers of the template language (`askama_parser/src/lib.rs`)
-/

namespace Askama

open PT

/-- Parsers without state. -/
abbrev P (α : Type) := PT Unit α

/-- `Syntax`, lib.rs 593-601. -/
structure Syntax where
  blockStart : Str
  blockEnd : Str
  exprStart : Str
  exprEnd : Str
  commentStart : Str
  commentEnd : Str
  deriving DecidableEq, Repr

/-- `Syntax::default`, lib.rs 603-614. -/
def Syntax.default : Syntax where
  blockStart := c!"{%"
  blockEnd := c!"%}"
  exprStart := c!"{{"
  exprEnd := c!"}}"
  commentStart := c!"{#"
  commentEnd := c!"#}"

/-- `is_ws`, lib.rs 246-248. -/
def isWsp (c : Char) : Bool := c == ' ' || c == '\t' || c == '\r' || c == '\n'

section
variable {σ α : Type}

/-- `take_till(not_ws)`. -/
def skipWs : PT σ Unit := (takeWhile isWsp).map fun _ => ()

/-- `ws`, lib.rs 254-258. -/
def ws (p : PT σ α) : PT σ α := do
  skipWs
  let a ← p
  skipWs
  pure a

/-- The loop of `skip_till`, lib.rs 262-280: `alt(end, anychar)` until `end` succeeds. -/
def skipTillGo (e : PT σ α) : σ → Str → PRes (Str × α) × σ
  | s, [] =>
    match e s [] with
    | (.ok j a, s') => (.ok [] (j, a), s')
    | (.err false _ _, s') => (.err false [] none, s')
    | (.err true j m, s') => (.err true j m, s')
    | (.stuck, s') => (.stuck, s')
  | s, c :: cs =>
    match e s (c :: cs) with
    | (.ok j a, s') => (.ok (c :: cs) (j, a), s')
    | (.err false _ _, s') => skipTillGo e s' cs
    | (.err true j m, s') => (.err true j m, s')
    | (.stuck, s') => (.stuck, s')

/-- `skip_till`, lib.rs 262-280. -/
def skipTill (e : PT σ α) : PT σ (Str × α) := skipTillGo e

end

/-- nom's `AsChar::is_alpha` on `char`: ASCII letters. -/
def isAsciiAlpha (c : Char) : Bool := ('a' ≤ c && c ≤ 'z') || ('A' ≤ c && c ≤ 'Z')

/-- `char::is_digit(radix)` for the radices 2, 8, 10, 16; also `is_ascii_hexdigit` (radix 16). -/
def isDigitR (radix : Nat) (c : Char) : Bool :=
  (('0' ≤ c && c ≤ '9') && (c.toNat - '0'.toNat < radix)) ||
  (('a' ≤ c && c ≤ 'z') && (c.toNat - 'a'.toNat + 10 < radix)) ||
  (('A' ≤ c && c ≤ 'Z') && (c.toNat - 'A'.toNat + 10 < radix))

/-- Characters that may start an identifier, lib.rs 294-299. -/
def identStart (c : Char) : Bool := isAsciiAlpha c || c == '_' || 128 ≤ c.toNat

/-- Characters that may continue an identifier, lib.rs 301-306. -/
def identCont (c : Char) : Bool := isAsciiAlpha c || isDigitR 10 c || c == '_' || 128 ≤ c.toNat

/-- `identifier`, lib.rs 293-309. -/
def identifier : P Str := recognize do
  let _ ← takeWhile1 identStart
  opt (takeWhile1 identCont)

/-- `keyword`, lib.rs 282-291. -/
def keyword (k : Str) : P Str := do
  let i ← pos
  let v ← identifier
  if k = v then pure v else do goto i; error

/-- `bool_lit`, lib.rs 311-313. -/
def boolLit : P Str := alt (keyword c!"false") (keyword c!"true")

/-- `alt` of several tags; the list is never empty where it is used. -/
def altTags : List Str → P Str
  | [] => error
  | [t] => tag t
  | t :: ts => alt (tag t) (altTags ts)

/-- `integer_suffix`, lib.rs 316-331. -/
def integerSuffix : P Str :=
  altTags [c!"i8", c!"i16", c!"i32", c!"i64", c!"i128", c!"isize",
    c!"u8", c!"u16", c!"u32", c!"u64", c!"u128", c!"usize"]

/-- `float_suffix`, lib.rs 332. -/
def floatSuffix : P Str := altTags [c!"f32", c!"f64"]

/-- `separated_digits`, lib.rs 371-382. -/
def separatedDigits (radix : Nat) (start : Bool) : P Str := recognize do
  let _ ← if start then (pure [] : P (List Char)) else many0 (char '_')
  let _ ← satisfy (isDigitR radix)
  many0 (satisfy fun c => c == '_' || isDigitR radix c)

/-- The alternatives after the first digits of a decimal number, lib.rs 348-362. -/
def numTail : P Str :=
  alt integerSuffix <| alt floatSuffix <|
  alt (recognize do
      let _ ← opt (do let _ ← char '.'; separatedDigits 10 true)
      let _ ← oneOf c!"eE"
      let _ ← opt (oneOf c!"+-")
      let _ ← separatedDigits 10 false
      opt floatSuffix) <|
  recognize do
    let _ ← char '.'
    let _ ← separatedDigits 10 true
    opt floatSuffix

/-- `num_lit`, lib.rs 315-367. -/
def numLit : P Str := recognize do
  let _ ← opt (char '-')
  alt
    (recognize do
      let _ ← char '0'
      let _ ← alt (recognize do let _ ← char 'b'; separatedDigits 2 false) <|
        alt (recognize do let _ ← char 'o'; separatedDigits 8 false)
          (recognize do let _ ← char 'x'; separatedDigits 16 false)
      opt integerSuffix)
    (recognize do
      let _ ← separatedDigits 10 true
      opt numTail)

/-- Scanning part of nom's `escaped(is_not("\\q"), '\\', anychar)`: consumed and remaining text, `none` if the
input ends after the control character. -/
def escapedScan (q : Char) : Str → Option (Str × Str)
  | [] => some ([], [])
  | '\\' :: c :: r => (escapedScan q r).map fun p => ('\\' :: c :: p.1, p.2)
  | ['\\'] => none
  | c :: r =>
    if c = q then some ([], c :: r)
    else (escapedScan q r).map fun p => (c :: p.1, p.2)

/-- nom's `escaped(is_not("\\q"), '\\', anychar)`: `Err::Error` if nothing is consumed from a non-empty input. -/
def escapedBody (q : Char) : P Str := fun s i =>
  match escapedScan q i with
  | none => (.err false i none, s)
  | some (t, r) => if t.isEmpty && !i.isEmpty then (.err false i none, s) else (.ok r t, s)

/-- `str_lit`, lib.rs 384-391. -/
def strLit : P Str := do
  let _ ← char '"'
  let s ← opt (escapedBody '"')
  let _ ← char '"'
  pure (s.getD [])

/-- `enum Char`, lib.rs 443-453. -/
inductive CharKind where
  | literal
  | escaped
  | asciiEscape (nb : Str)
  | unicodeEscape (nb : Str)

/-- `Char::parse`, lib.rs 456-492. -/
def charKind : P CharKind := fun s i =>
  if i.length = 1 then (.ok [] .literal, s) else
    (do
      let _ ← char '\\'
      alt ((oneOf c!"nrt\\0'\"").map fun _ => CharKind.escaped) <|
      alt (do let _ ← char 'x'; let h ← takeWhileMN 2 2 (isDigitR 16); pure (.asciiEscape h)) <|
      do let _ ← tag c!"u{"; let h ← takeWhileMN 1 6 (isDigitR 16); let _ ← char '}'; pure (.unicodeEscape h)
      : P CharKind) s i

/-- Value of a hexadecimal digit. -/
def hexVal (c : Char) : Nat :=
  if '0' ≤ c && c ≤ '9' then c.toNat - '0'.toNat
  else if 'a' ≤ c && c ≤ 'f' then c.toNat - 'a'.toNat + 10
  else c.toNat - 'A'.toNat + 10

/-- `u32::from_str_radix(_, 16)` on one to six hexadecimal digits (never overflows). -/
def hexNat (s : Str) : Nat := s.foldl (fun n c => n * 16 + hexVal c) 0

/-- `char_lit`, lib.rs 395-440. -/
def charLit : P Str := do
  let start ← pos
  let _ ← char '\''
  let s ← opt (escapedBody '\'')
  let _ ← char '\''
  match s with
  | none => failAt start (some (.text c!"empty character literal"))
  | some s =>
    match (charKind () s).1 with
    | .ok [] .literal => pure s
    | .ok [] .escaped => pure s
    | .ok [] (.asciiEscape nb) =>
      if hexNat nb > 0x7F then failAt start (some (.text c!"must be a character in the range [\\x00-\\x7f]"))
      else pure s
    | .ok [] (.unicodeEscape nb) =>
      if hexNat nb > 0x10FFFF then failAt start (some (.text c!"unicode escape must be at most 10FFFF"))
      else pure s
    | _ => failAt start (some (.text c!"invalid character"))

/-- `enum PathOrIdentifier`, lib.rs 495-498. -/
inductive PathOrIdent where
  | path (p : List Str)
  | ident (n : Str)
  deriving DecidableEq, Repr

/-- What the parser needs besides the source: the delimiters, and Unicode's `char::is_lowercase`, which is a
parameter of the model. -/
structure PEnv where
  syn : Syntax
  isLower : Char → Bool

/-- `path_or_identifier`, lib.rs 500-529. -/
def pathOrIdent (env : PEnv) : P PathOrIdent := do
  let root ← ws (opt (tag c!"::"))
  let start ← identifier
  let rest ← opt (many1 (do let _ ← ws (tag c!"::"); identifier))
  let rest := rest.getD []
  match root, rest with
  | some _, _ => pure (.path ([] :: start :: rest))
  | none, [] =>
    if start.head?.all env.isLower then pure (.ident start) else pure (.path [start])
  | none, _ => pure (.path (start :: rest))

end Askama
