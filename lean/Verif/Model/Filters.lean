import Verif.Model.Escape

/-!
# Built-in filters

Models `askama/src/filters/mod.rs`. A filter's argument is a `Disp` (the chunks its `Display` writes and whether it
then fails). Filters taking `impl ToString` call `to_string`, which panics if `Display` fails: `none`.
-/

namespace Askama

/-- `MAX_LEN` (askama/src/filters/mod.rs:44). -/
def MAX_LEN : Nat := 10000

/-- `ToString::to_string`: the complete text, or a panic (`none`) if `Display::fmt` returns an error. -/
def Disp.toStr (d : Disp) : Option Str := if d.fails then none else some d.text

/-- `char::is_whitespace` (Unicode `White_Space`). -/
def isWs (c : Char) : Bool :=
  let n := c.toNat
  (9 ≤ n && n ≤ 13) || n == 0x20 || n == 0x85 || n == 0xa0 || n == 0x1680 || (0x2000 ≤ n && n ≤ 0x200a) ||
    n == 0x2028 || n == 0x2029 || n == 0x202f || n == 0x205f || n == 0x3000

/-! ## urlencode -/

/-- `u8::is_ascii_alphanumeric`. -/
def isAlnumByte (n : Nat) : Bool :=
  (0x30 ≤ n && n ≤ 0x39) || (0x41 ≤ n && n ≤ 0x5a) || (0x61 ≤ n && n ≤ 0x7a)

/-- `URLENCODE_STRICT_SET` (askama/src/filters/mod.rs:31-35): `percent_encoding::NON_ALPHANUMERIC` (every ASCII byte
that is not a letter or digit) without `_ . - ~`. -/
def strictSet (n : Nat) : Bool :=
  decide (n < 128) && !isAlnumByte n && n != 0x5f && n != 0x2e && n != 0x2d && n != 0x7e

/-- `URLENCODE_SET` (askama/src/filters/mod.rs:39): additionally without `/`. -/
def pathSet (n : Nat) : Bool := strictSet n && n != 0x2f

/-- Upper-case hexadecimal digit, as in `percent_encoding::percent_encode_byte`. -/
def hexDigit (n : Nat) : Char := if n < 10 then Char.ofNat (0x30 + n) else Char.ofNat (0x41 + (n - 10))

/-- `percent_encoding::percent_encode`: a byte outside ASCII or in the set becomes `%XX`, any other byte stays. (The
real iterator merges runs of unencoded bytes into one chunk; here every byte is a chunk.) -/
def encByte (set : Nat → Bool) (b : UInt8) : Str :=
  if 128 ≤ b.toNat || set b.toNat then ['%', hexDigit (b.toNat / 16), hexDigit (b.toNat % 16)]
  else [Char.ofNat b.toNat]

/-- `Writer::write_str` of `UrlencodeFilter` (askama/src/filters/mod.rs:176-181). -/
def urlWrite (set : Nat → Bool) (sink : Sink) (s : Str) (acc : List Str) : WRes :=
  writeAll (put sink) ((Str.bytes s).map (encByte set)) acc

/-- `UrlencodeFilter::fmt` (askama/src/filters/mod.rs:171-186); `urlencode` (145) and `urlencode_strict` (164). -/
def urlencodeFmt (set : Nat → Bool) (d : Disp) (sink : Sink) (acc : List Str) : WRes :=
  d.fmt (urlWrite set sink) acc

/-! ## truncate -/

/-- `while !s.is_char_boundary(rem) { rem += 1 }` (askama/src/filters/mod.rs:334-336), with as many steps as there
are bytes left (the end of the string is a boundary). -/
def nextBoundary (s : Str) : (fuel rem : Nat) → Nat
  | 0, rem => rem
  | f + 1, rem => if Str.isBoundary s rem then rem else nextBoundary s f (rem + 1)

/-- State of `TruncateFilter`'s `Writer` (askama/src/filters/mod.rs:320-323): whether `dest` is `Some`, and
`remaining`. -/
structure TruncSt where
  alive : Bool
  remaining : Nat
  deriving DecidableEq, Repr

/-- `Writer::write_str` (askama/src/filters/mod.rs:326-350). -/
def truncWrite (sink : Sink) (st : TruncSt) (s : Str) (acc : List Str) : TruncSt × WRes :=
  if !st.alive then (st, .ok acc)
  else
    let rem := st.remaining
    if rem ≥ Str.blen s then
      match put sink s acc with
      | .ok acc => ({ st with remaining := st.remaining - Str.blen s }, .ok acc)
      | r => (st, r)
    else
      let dots (acc : List Str) : TruncSt × WRes :=
        match put sink c!"..." acc with
        | .ok acc => ({ st with alive := false }, .ok acc)
        | r => (st, r)
      if rem > 0 then
        let rem := nextBoundary s (Str.blen s - rem) rem
        if rem = Str.blen s then ({ st with remaining := 0 }, put sink s acc)
        else
          match Str.takeB s rem with
          | none => (st, .panic)
          | some p =>
            match put sink p acc with
            | .ok acc => dots acc
            | r => (st, r)
      else dots acc

/-- The chunks of the value written one after the other into the stateful writer. -/
def truncRun (sink : Sink) : List Str → TruncSt → List Str → WRes
  | [], _, acc => .ok acc
  | c :: cs, st, acc =>
    match truncWrite sink st c acc with
    | (st', .ok acc') => truncRun sink cs st' acc'
    | (_, r) => r

/-- `TruncateFilter::fmt` (askama/src/filters/mod.rs:318-374). -/
def truncateFmt (d : Disp) (n : Nat) (sink : Sink) (acc : List Str) : WRes :=
  (truncRun sink d.chunks ⟨true, n⟩ acc).andThen fun acc => if d.fails then .err acc else .ok acc

/-! ## indent -/

/-- Body of the loop of `indent` (askama/src/filters/mod.rs:384-392) over `char_indices`, `i` being the byte index
and `len = s.len()`. -/
def indentLoop (len width : Nat) : (i : Nat) → Str → Str
  | _, [] => []
  | i, c :: cs =>
    c :: ((if c = '\n' ∧ i < len - 1 then List.replicate width ' ' else []) ++
      indentLoop len width (i + c.utf8Size) cs)

/-- `indent` (askama/src/filters/mod.rs:378-396) on the text. -/
def indent (s : Str) (width : Nat) : Str :=
  if width ≥ MAX_LEN ∨ Str.blen s ≥ MAX_LEN then s else indentLoop (Str.blen s) width 0 s

/-! ## trim -/

/-- `str::trim_start`. -/
def trimStart (s : Str) : Str := s.dropWhile isWs

/-- `str::trim_end`. -/
def trimEnd (s : Str) : Str := (s.reverse.dropWhile isWs).reverse

/-- `Collector::write_str` of `trim` (askama/src/filters/mod.rs:288-293). -/
def trimCollect (acc : Str) (s : Str) : Str := if acc.isEmpty then acc ++ trimStart s else acc ++ s

/-- `trim` (askama/src/filters/mod.rs:284-301); `none` is the returned error. -/
def trimFilter (d : Disp) : Option Str :=
  if d.fails then none else some (trimEnd (d.chunks.foldl trimCollect []))

/-! ## join -/

/-- The loop of `JoinFilter::fmt` (askama/src/filters/mod.rs:451-457) over the (finite) iterator. -/
def joinLoop (sep : Disp) (sink : Sink) : (idx : Nat) → List Disp → List Str → WRes
  | _, [], acc => .ok acc
  | idx, t :: ts, acc =>
    (if idx = 0 then t.fmt (put sink) acc
     else (sep.fmt (put sink) acc).andThen (t.fmt (put sink))).andThen (joinLoop sep sink (idx + 1) ts)

/-- `JoinFilter` (askama/src/filters/mod.rs:441): the cell. -/
abbrev JoinFilter := Option (List Disp × Disp)

/-- `join` (askama/src/filters/mod.rs:418-425). -/
def join (input : List Disp) (sep : Disp) : JoinFilter := some (input, sep)

/-- `JoinFilter::fmt` (askama/src/filters/mod.rs:443-460): the cell is emptied, the result is the cell's new
content and what was written. -/
def JoinFilter.fmt (cell : JoinFilter) (sink : Sink) (acc : List Str) : JoinFilter × WRes :=
  match cell with
  | none => (none, .ok acc)
  | some (items, sep) => (none, joinLoop sep sink 0 items acc)

/-! ## line breaks -/

/-- `str::replace(pat, rep)` for a non-empty pattern: matches are found from the left and do not overlap. `skip` counts
the characters of a match still to be passed over. -/
def replaceGo (pat rep : Str) : (skip : Nat) → Str → Str
  | _, [] => []
  | skip + 1, _ :: cs => replaceGo pat rep skip cs
  | 0, c :: cs =>
    if pat.isPrefixOf (c :: cs) then rep ++ replaceGo pat rep (pat.length - 1) cs
    else c :: replaceGo pat rep 0 cs

def strReplace (s pat rep : Str) : Str := replaceGo pat rep 0 s

/-- `linebreaks` (askama/src/filters/mod.rs:222-229). -/
def linebreaks (s : Str) : Str :=
  c!"<p>" ++ strReplace (strReplace s c!"\n\n" c!"</p><p>") c!"\n" c!"<br/>" ++ c!"</p>"

/-- `linebreaksbr` (askama/src/filters/mod.rs:232-238). -/
def linebreaksbr (s : Str) : Str := strReplace s c!"\n" c!"<br/>"

/-- `paragraphbreaks` (askama/src/filters/mod.rs:245-252). -/
def paragraphbreaks (s : Str) : Str :=
  c!"<p>" ++ strReplace (strReplace s c!"\n\n" c!"</p><p>") c!"<p></p>" [] ++ c!"</p>"

/-! ## center -/

/-- `{: ^width$}`: `Formatter::pad` with fill space and centre alignment for a value whose `Display` honours the
width (`honours`), such as strings and numbers; other implementations write their text as it is. -/
def padCenter (honours : Bool) (s : Str) (width : Nat) : Str :=
  if honours ∧ s.length < width then
    List.replicate ((width - s.length) / 2) ' ' ++ s ++ List.replicate ((width - s.length + 1) / 2) ' '
  else s

/-- `Center::fmt` (askama/src/filters/mod.rs:498-506). -/
def center (honours : Bool) (s : Str) (width : Nat) : Str :=
  if width < MAX_LEN then padCenter honours s width else s

/-! ## case and words -/

/-- The standard library's Unicode case functions, which are not modelled: `char::to_uppercase`,
`char::to_lowercase`, `str::to_lowercase` (context dependent), `char::is_uppercase`, `char::is_lowercase`. -/
structure CaseOps where
  up : Char → Str
  low : Char → Str
  lowStr : Str → Str
  isUp : Char → Bool
  isLow : Char → Bool

/-- `capitalize` (askama/src/filters/mod.rs:473-485). The slice is at the end of the first character. -/
def capitalize (o : CaseOps) (s : Str) : Option Str :=
  match s with
  | c :: _ => (Str.dropB s c.utf8Size).map fun rest => o.up c ++ o.lowStr rest
  | [] => some s

/-- The loop of `title` (askama/src/filters/mod.rs:527-543), `need` being `need_capitalization`. -/
def titleLoop (o : CaseOps) : (need : Bool) → Str → Str
  | _, [] => []
  | need, c :: cs =>
    if isWs c then c :: titleLoop o true cs
    else if need then (if o.isUp c then [c] else o.up c) ++ titleLoop o false cs
    else (if o.isLow c then [c] else o.low c) ++ titleLoop o need cs

/-- `title` (askama/src/filters/mod.rs:520-545). -/
def title (o : CaseOps) (s : Str) : Str := titleLoop o true s

/-- `str::split(pred)`: the pieces between the characters satisfying the predicate. -/
def splitOnWs : Str → List Str
  | [] => [[]]
  | c :: cs =>
    if isWs c then [] :: splitOnWs cs
    else match splitOnWs cs with
      | p :: ps => (c :: p) :: ps
      | [] => [[c]]

/-- `wordcount` (askama/src/filters/mod.rs:510-515): `split_whitespace` is `split` with the empty pieces removed. -/
def wordcount (s : Str) : Nat := ((splitOnWs s).filter (fun p => !p.isEmpty)).length

end Askama
