/-!
# Basic vocabulary of the model

Rust `&str`/`String` values are modelled as lists of Unicode scalar values (`Str`).
Byte offsets are those of the UTF-8 encoding; the encoding itself is Lean core's
`String.utf8EncodeChar` (one `Char` to its list of bytes) and `Char.utf8Size`.
-/

namespace Askama

/-- A Rust `str`: a sequence of Unicode scalar values. -/
abbrev Str := List Char

open Lean in
/-- `c!"abc"` is the explicit list `['a', 'b', 'c']`. -/
macro:max "c!" s:str : term => do
  let cs := s.getString.toList.map (fun c => Syntax.mkCharLit c)
  let arr := cs.toArray
  `(([$arr,*] : List Char))

namespace Str

/-- `str::len` in bytes. -/
def blen : Str → Nat
  | [] => 0
  | c :: cs => c.utf8Size + blen cs

/-- `str::bytes`. -/
def bytes (s : Str) : List UInt8 := s.flatMap String.utf8EncodeChar

/-- `&s[n..]`: `none` is the panic of slicing outside the string or inside a character. -/
def dropB : Str → Nat → Option Str
  | s, 0 => some s
  | [], _ + 1 => none
  | c :: cs, n + 1 => if c.utf8Size ≤ n + 1 then dropB cs (n + 1 - c.utf8Size) else none

/-- `&s[..n]`: `none` is the panic of slicing outside the string or inside a character. -/
def takeB : Str → Nat → Option Str
  | _, 0 => some []
  | [], _ + 1 => none
  | c :: cs, n + 1 =>
    if c.utf8Size ≤ n + 1 then (takeB cs (n + 1 - c.utf8Size)).map (c :: ·) else none

/-- `&s[a..b]`: `none` is a panic. -/
def sliceB (s : Str) (a b : Nat) : Option Str :=
  if a ≤ b then (dropB s a).bind (fun t => takeB t (b - a)) else none

/-- `str::is_char_boundary`. -/
def isBoundary (s : Str) (n : Nat) : Bool := (dropB s n).isSome

end Str

/-- Result of a run of `fmt::Write` calls: the chunks accepted by the destination so far, and
whether everything succeeded, a `fmt::Error` was returned, or the code panicked. -/
inductive WRes where
  | ok (acc : List Str)
  | err (acc : List Str)
  | panic
  deriving DecidableEq, Repr

namespace WRes

/-- The `?` operator after a write. -/
def andThen (r : WRes) (f : List Str → WRes) : WRes :=
  match r with
  | .ok acc => f acc
  | .err acc => .err acc
  | .panic => .panic

end WRes

/-- A destination implementing `fmt::Write`: given what it accepted so far and the next chunk it decides
whether `write_str` succeeds. (A chunk is accepted or rejected as a whole.) -/
abbrev Sink := List Str → Str → Bool

/-- The destination of `String`: never fails. -/
def Sink.total : Sink := fun _ _ => true

/-- One `write_str` call. -/
def put (sink : Sink) (chunk : Str) (acc : List Str) : WRes :=
  if sink acc chunk then .ok (acc ++ [chunk]) else .err acc

/-- What a `Display` implementation does: it writes some chunks and then succeeds, or fails by itself. If
the destination fails the failure is propagated (the contract of `fmt::Display`). -/
structure Disp where
  chunks : List Str
  fails : Bool := false
  deriving DecidableEq, Repr

/-- The complete text a `Display` writes. -/
def Disp.text (d : Disp) : Str := d.chunks.flatten

/-- Run a list of `write_str` calls through a writer function. -/
def writeAll (w : Str → List Str → WRes) : List Str → List Str → WRes
  | [], acc => .ok acc
  | c :: cs, acc => (w c acc).andThen (writeAll w cs)

/-- `Display::fmt` of a value into a writer function. -/
def Disp.fmt (d : Disp) (w : Str → List Str → WRes) (acc : List Str) : WRes :=
  (writeAll w d.chunks acc).andThen fun acc => if d.fails then .err acc else .ok acc

end Askama
