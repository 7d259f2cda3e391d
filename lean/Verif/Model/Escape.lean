import Verif.Model.Base

/-!
# `askama_escape` and the JSON filter writer

Models `askama_escape/src/lib.rs` and `askama/src/filters/json.rs`.
-/

namespace Askama

/-- `TABLE` of `Html::write_escaped` (askama_escape/src/lib.rs:112-123): one optional entity for each byte from
`MIN_CHAR = b'"'` (0x22) to `MAX_CHAR = b'>'` (0x3e). -/
def htmlTable : List (Option Str) :=
  (((((List.replicate (0x3e - 0x22 + 1) none).set (0x3c - 0x22) (some c!"&lt;")).set
    (0x3e - 0x22) (some c!"&gt;")).set
    (0x26 - 0x22) (some c!"&amp;")).set
    (0x22 - 0x22) (some c!"&quot;")).set
    (0x27 - 0x22) (some c!"&#x27;")

/-- The per-byte decision of `Html::write_escaped` (askama_escape/src/lib.rs:125-128). -/
def htmlByte (b : UInt8) : Option Str :=
  if 0x22 ≤ b.toNat ∧ b.toNat ≤ 0x3e then
    match htmlTable[b.toNat - 0x22]? with
    | some e => e
    | none => none
  else none

/-- The per-byte decision of the JSON writer (askama/src/filters/json.rs:59-65). -/
def jsonByte (b : UInt8) : Option Str :=
  if b = 0x26 then some c!"\\u0026"
  else if b = 0x27 then some c!"\\u0027"
  else if b = 0x3c then some c!"\\u003c"
  else if b = 0x3e then some c!"\\u003e"
  else none

/-- The loop shared by `Html::write_escaped` (askama_escape/src/lib.rs:108-137) and the JSON `write`
(askama/src/filters/json.rs:55-73): walk over the bytes with `index`, keep the start `last` of the text not yet
written, on an escapable byte write `string[last..index]`, then the replacement, and continue after the byte;
finally write `string[last..]`. Slicing off a character boundary is a panic in the HTML escaper; in the JSON
writer it would be an invalid `str` (undefined behaviour), so `panic` stands for both. -/
def escLoop (tbl : UInt8 → Option Str) (sink : Sink) (s : Str) :
    List UInt8 → (index last : Nat) → List Str → WRes
  | [], _, last, acc =>
    match Str.dropB s last with
    | none => .panic
    | some t => put sink t acc
  | b :: bs, index, last, acc =>
    match tbl b with
    | none => escLoop tbl sink s bs (index + 1) last acc
    | some e =>
      match Str.sliceB s last index with
      | none => .panic
      | some t =>
        (put sink t acc).andThen fun acc =>
          (put sink e acc).andThen fun acc =>
            escLoop tbl sink s bs (index + 1) (index + 1) acc

/-- `Escaper` implementations: `Html` (askama_escape/src/lib.rs:101-138), `Text` (140-149) and user-defined ones. -/
inductive Escaper where
  | html
  | text
  | custom (write : Sink → Str → List Str → WRes)

/-- `Escaper::write_escaped`. -/
def Escaper.writeEscaped (e : Escaper) (sink : Sink) (s : Str) (acc : List Str) : WRes :=
  match e with
  | .html => escLoop htmlByte sink s (Str.bytes s) 0 0 acc
  | .text => put sink s acc
  | .custom w => w sink s acc

/-- `write` of the JSON filter for one chunk (askama/src/filters/json.rs:55-73); the serializer's chunks are UTF-8
text (serde_json emits whole `str` fragments), so a chunk is a `Str`. -/
def jsonWrite (sink : Sink) (s : Str) (acc : List Str) : WRes :=
  escLoop jsonByte sink s (Str.bytes s) 0 0 acc

/-- `escape(string, escaper)` displayed (askama_escape/src/lib.rs:79-99). -/
def escaped (e : Escaper) (s : Str) (sink : Sink) (acc : List Str) : WRes :=
  e.writeEscaped sink s acc

/-- `ToJson` displayed (askama/src/filters/json.rs:29-34): the serializer writes its output in chunks through
`JsonWriter`; a serializer failure is a `fmt::Error`. -/
def jsonFmt (d : Disp) (sink : Sink) (acc : List Str) : WRes :=
  d.fmt (jsonWrite sink) acc

/-- `DisplayValue` (askama_escape/src/lib.rs:151-158). -/
inductive DisplayValue (α : Type) where
  | safe (v : α)
  | unsafe_ (v : α)

/-- `MarkupDisplay` (askama_escape/src/lib.rs:8-16). -/
structure MarkupDisplay (α : Type) where
  value : DisplayValue α
  escaper : Escaper

namespace MarkupDisplay

/-- `MarkupDisplay::new_unsafe` (askama_escape/src/lib.rs:23-28); also `filters::escape`, `filters::e`
(askama/src/filters/mod.rs:72-88). -/
def newUnsafe (v : α) (e : Escaper) : MarkupDisplay α := ⟨.unsafe_ v, e⟩

/-- `MarkupDisplay::new_safe` (askama_escape/src/lib.rs:30-35); also `filters::safe` (askama/src/filters/mod.rs:55-61). -/
def newSafe (v : α) (e : Escaper) : MarkupDisplay α := ⟨.safe v, e⟩

/-- `MarkupDisplay::mark_safe` (askama_escape/src/lib.rs:38-44). -/
def markSafe (m : MarkupDisplay α) : MarkupDisplay α :=
  { m with value := match m.value with
    | .unsafe_ t => .safe t
    | v => v }

/-- `Display for MarkupDisplay` (askama_escape/src/lib.rs:47-65) with `EscapeWriter::write_str` (73-81). -/
def fmt (m : MarkupDisplay Disp) (sink : Sink) (acc : List Str) : WRes :=
  match m.value with
  | .unsafe_ t => t.fmt (m.escaper.writeEscaped sink) acc
  | .safe t => t.fmt (put sink) acc

end MarkupDisplay

end Askama
