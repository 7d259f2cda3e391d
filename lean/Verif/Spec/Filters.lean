import Verif.Model.Base

/-!
# Specifications for the text filters
-/

namespace Askama.Spec

/-- Percent-decoding: `%XX` is a byte, any other ASCII character is its own byte; `none` if malformed. -/
def hexDigitVal (c : Char) : Option Nat :=
  if '0' ≤ c ∧ c ≤ '9' then some (c.toNat - 0x30)
  else if 'A' ≤ c ∧ c ≤ 'F' then some (c.toNat - 0x41 + 10)
  else if 'a' ≤ c ∧ c ≤ 'f' then some (c.toNat - 0x61 + 10)
  else none

def percentDecode : Str → Option (List UInt8)
  | [] => some []
  | '%' :: a :: b :: r =>
    match hexDigitVal a, hexDigitVal b, percentDecode r with
    | some x, some y, some bs => some (UInt8.ofNat (x * 16 + y) :: bs)
    | _, _, _ => none
  | c :: r => if c = '%' ∨ 128 ≤ c.toNat then none else (percentDecode r).map (UInt8.ofNat c.toNat :: ·)

/-- RFC 3986 unreserved characters. -/
def isUnreserved (c : Char) : Bool :=
  (decide ('a' ≤ c) && decide (c ≤ 'z')) || (decide ('A' ≤ c) && decide (c ≤ 'Z')) ||
  (decide ('0' ≤ c) && decide (c ≤ '9')) || c == '-' || c == '_' || c == '.' || c == '~'

/-- Two upper-case hexadecimal digits. -/
def isHexUpper (c : Char) : Bool := (decide ('0' ≤ c) && decide (c ≤ '9')) || (decide ('A' ≤ c) && decide (c ≤ 'F'))

/-- Well-formed percent-encoded text over the allowed plain characters. -/
inductive PercentText (allowed : Char → Bool) : Str → Prop
  | nil : PercentText allowed []
  | plain {c r} : allowed c = true → PercentText allowed r → PercentText allowed (c :: r)
  | triple {a b r} : isHexUpper a = true → isHexUpper b = true → PercentText allowed r →
      PercentText allowed ('%' :: a :: b :: r)

/-- What `truncate n` has to output for a text: either nothing is cut and no proper prefix has `n` bytes already, or
it is cut after the shortest prefix (of whole characters) that has at least `n` bytes. -/
def Truncated (s : Str) (n : Nat) (out : Str) : Prop :=
  (out = s ∧ ∀ p q, s = p ++ q → q ≠ [] → Str.blen p < n) ∨
  (∃ p q, s = p ++ q ∧ q ≠ [] ∧ out = p ++ c!"..." ∧ n ≤ Str.blen p ∧
    ∀ p' q', s = p' ++ q' → n ≤ Str.blen p' → p <+: p')

/-- A text indented by `w`: after every newline that is not the last character, `w` spaces are inserted. -/
inductive Indented (w : Nat) : Str → Str → Prop
  | nil : Indented w [] []
  | lastNewline : Indented w ['\n'] ['\n']
  | newline {c s t} : Indented w (c :: s) t → Indented w ('\n' :: c :: s) ('\n' :: (List.replicate w ' ' ++ t))
  | other {c s t} : c ≠ '\n' → Indented w s t → Indented w (c :: s) (c :: t)

/-- Removing `w` characters after each newline that is not the last character. -/
def unindentGo (w : Nat) : (skip : Nat) → Str → Str
  | _, [] => []
  | k + 1, _ :: cs => unindentGo w k cs
  | 0, c :: cs => c :: unindentGo w (if c = '\n' then w else 0) cs

/-- `t` is `s` without its maximal surrounding whitespace. -/
def IsTrim (ws : Char → Bool) (s t : Str) : Prop :=
  (∃ a b, s = a ++ t ++ b ∧ (∀ c ∈ a, ws c = true) ∧ (∀ c ∈ b, ws c = true)) ∧
  (∀ c, t.head? = some c → ws c = false) ∧ (∀ c, t.getLast? = some c → ws c = false)

/-- Line breaks: a pair of newlines (from the left) is a paragraph break, a single one a line break. -/
def lineBreaks : Str → Str
  | '\n' :: '\n' :: r => c!"</p><p>" ++ lineBreaks r
  | '\n' :: r => c!"<br/>" ++ lineBreaks r
  | c :: r => c :: lineBreaks r
  | [] => []

/-- The paragraphs of a text: cut at pairs of newlines, from the left. -/
def paragraphs : Str → List Str
  | '\n' :: '\n' :: r => [] :: paragraphs r
  | c :: r => match paragraphs r with
    | p :: ps => (c :: p) :: ps
    | [] => [[c]]
  | [] => [[]]

/-- `needle` occurs in the text. -/
def Occurs (needle s : Str) : Prop := ∃ a b, s = a ++ needle ++ b

/-- Each character with the one before it. -/
def withPrev (s : Str) : List (Option Char × Char) := List.zip (none :: s.map some) s

/-- A word starts at a non-whitespace character that is first or follows whitespace. -/
def startsWord (ws : Char → Bool) : Option Char × Char → Bool
  | (none, c) => !ws c
  | (some p, c) => ws p && !ws c

end Askama.Spec
