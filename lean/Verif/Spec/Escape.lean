import Verif.Model.Base

/-!
# Specification of escaping

Independent of the model: what HTML escaping, its inverse and the JSON filter's character replacement mean.
-/

namespace Askama.Spec

/-- The entity for each of the five special characters; every other character stands for itself. -/
def htmlChar : Char → Str
  | '<' => c!"&lt;"
  | '>' => c!"&gt;"
  | '&' => c!"&amp;"
  | '"' => c!"&quot;"
  | '\'' => c!"&#x27;"
  | c => [c]

/-- HTML escape of a text. -/
def htmlEscape (s : Str) : Str := s.flatMap htmlChar

/-- The five entities. -/
def entities : List Str := [c!"&lt;", c!"&gt;", c!"&amp;", c!"&quot;", c!"&#x27;"]

/-- Reading the five entities back. -/
def htmlDecode : Str → Str
  | '&' :: 'l' :: 't' :: ';' :: r => '<' :: htmlDecode r
  | '&' :: 'g' :: 't' :: ';' :: r => '>' :: htmlDecode r
  | '&' :: 'a' :: 'm' :: 'p' :: ';' :: r => '&' :: htmlDecode r
  | '&' :: 'q' :: 'u' :: 'o' :: 't' :: ';' :: r => '"' :: htmlDecode r
  | '&' :: '#' :: 'x' :: '2' :: '7' :: ';' :: r => '\'' :: htmlDecode r
  | c :: r => c :: htmlDecode r
  | [] => []

/-- The text is inert in HTML text and quoted attributes: none of the delimiters occurs, and an ampersand only at
the start of one of the five entities. -/
def HtmlInert (out : Str) : Prop :=
  (∀ c ∈ out, c ≠ '<' ∧ c ≠ '>' ∧ c ≠ '"' ∧ c ≠ '\'') ∧
  ∀ pre post, out = pre ++ '&' :: post → ∃ e ∈ entities, e <+: '&' :: post

/-- The JSON filter's replacement of the four characters by their JSON unicode escapes. -/
def jsonChar : Char → Str
  | '&' => c!"\\u0026"
  | '\'' => c!"\\u0027"
  | '<' => c!"\\u003c"
  | '>' => c!"\\u003e"
  | c => [c]

def jsonEscape (s : Str) : Str := s.flatMap jsonChar

/-- Hexadecimal digit value. -/
def hexVal (c : Char) : Option Nat :=
  if '0' ≤ c ∧ c ≤ '9' then some (c.toNat - '0'.toNat)
  else if 'a' ≤ c ∧ c ≤ 'f' then some (c.toNat - 'a'.toNat + 10)
  else if 'A' ≤ c ∧ c ≤ 'F' then some (c.toNat - 'A'.toNat + 10)
  else none

/-- A fragment of a JSON string body as a sequence of symbols: an escape sequence `\uXXXX` or `\x`, or a plain
character. This is how a JSON reader tokenises the inside of a string. -/
inductive JSym where
  | plain (c : Char)
  | esc (c : Char)
  | uni (n : Nat)
  deriving DecidableEq, Repr

/-- JSON's reading of a string body. `\` followed by `u` and four hex digits is a code unit, `\` followed by any
other character is a short escape. -/
def jsonRead : Str → List JSym
  | '\\' :: 'u' :: a :: b :: c :: d :: r =>
    match hexVal a, hexVal b, hexVal c, hexVal d with
    | some a', some b', some c', some d' => .uni (a' * 4096 + b' * 256 + c' * 16 + d') :: jsonRead r
    | _, _, _, _ => .esc 'u' :: jsonRead (a :: b :: c :: d :: r)
  | '\\' :: x :: r => .esc x :: jsonRead r
  | x :: r => .plain x :: jsonRead r
  | [] => []

/-- The body is well-formed JSON: only the short escapes of the JSON grammar occur (so every `\\u` is followed by four
hexadecimal digits). -/
def JsonBody (s : Str) : Prop := ∀ c, JSym.esc c ∈ jsonRead s → c ∈ ['"', '\\', '/', 'b', 'f', 'n', 'r', 't']

/-- The value denoted by a symbol, identifying an escaped code unit with the plain character. -/
def JSym.value : JSym → JSym
  | .uni n => if n = 0x26 ∨ n = 0x27 ∨ n = 0x3c ∨ n = 0x3e then .plain (Char.ofNat n) else .uni n
  | s => s

/-- Meaning of a JSON string body. -/
def jsonMeaning (s : Str) : List JSym := (jsonRead s).map JSym.value

end Askama.Spec
