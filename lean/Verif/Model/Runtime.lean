import Verif.Model.Base

/-!
# Run-time support: loops, the `Template` trait and the web integrations

Models `askama/src/helpers.rs`, `askama/src/lib.rs` and `askama_{axum,actix,warp,rocket}/src/lib.rs`.
-/

namespace Askama

/-! ## Loops -/

/-- A Rust iterator as a state machine; nothing is assumed about its behaviour after it returned `None`. -/
structure Iter (σ α : Type) where
  step : σ → Option α × σ

/-- `LoopItem` (askama/src/helpers.rs:45-49). `usize` is modelled by `Nat`. -/
structure LoopItem where
  index : Nat
  first : Bool
  last : Bool
  deriving DecidableEq, Repr

/-- State of `Peekable<Enumerate<I>>` (askama/src/helpers.rs:7): the source's state, `Enumerate::count` and
`Peekable::peeked`. -/
structure TLoop (σ α : Type) where
  src : σ
  count : Nat
  peeked : Option (Option (Nat × α))

namespace TLoop

variable {σ α : Type}

/-- `TemplateLoop::new` (askama/src/helpers.rs:15-19). -/
def new (s : σ) : TLoop σ α := ⟨s, 0, none⟩

/-- `Enumerate::next`. -/
def enumNext (it : Iter σ α) (t : TLoop σ α) : Option (Nat × α) × TLoop σ α :=
  match it.step t.src with
  | (some a, s') => (some (t.count, a), { t with src := s', count := t.count + 1 })
  | (none, s') => (none, { t with src := s' })

/-- `Peekable::next`. -/
def peekNext (it : Iter σ α) (t : TLoop σ α) : Option (Nat × α) × TLoop σ α :=
  match t.peeked with
  | some v => (v, { t with peeked := none })
  | none => enumNext it t

/-- `Peekable::peek`. -/
def peek (it : Iter σ α) (t : TLoop σ α) : Option (Nat × α) × TLoop σ α :=
  match t.peeked with
  | some v => (v, t)
  | none =>
    let (v, t') := enumNext it t
    (v, { t' with peeked := some v })

/-- `TemplateLoop::next` (askama/src/helpers.rs:29-41). -/
def next (it : Iter σ α) (t : TLoop σ α) : Option (α × LoopItem) × TLoop σ α :=
  match peekNext it t with
  | (none, t') => (none, t')
  | (some (index, item), t') =>
    let (p, t'') := peek it t'
    (some (item, { index := index, first := index == 0, last := p.isNone }), t'')

/-- A `for` loop: `next` is called until it returns `None`; at most `n` iterations are run. The Boolean tells whether
the loop ended. -/
def forLoop (it : Iter σ α) : (n : Nat) → TLoop σ α → List (α × LoopItem) × Bool × TLoop σ α
  | 0, t => ([], false, t)
  | n + 1, t =>
    match next it t with
    | (none, t') => ([], true, t')
    | (some x, t') =>
      let (xs, e, t'') := forLoop it n t'
      (x :: xs, e, t'')

end TLoop

/-- The code emitted for `loop.cycle(arg)` (askama_derive/src/generator.rs:1509-1531): `none` is the early return of
an error for an empty sequence; indexing is in range by construction of the remainder, an out-of-range index would be
`some none` (panic). -/
def loopCycle (cycle : List α) (item : LoopItem) : Option (Option α) :=
  let len := cycle.length
  if len = 0 then none else some (cycle[item.index % len]?)

/-! ## The `Template` trait -/

/-- `askama::Error` (askama/src/error.rs:26-36), by kind. -/
inductive TErr where
  | fmt
  | custom (msg : Str)
  | json (msg : Str)
  deriving DecidableEq, Repr

/-- `Display for Error` (askama/src/error.rs:50-59). -/
def TErr.text : TErr → Str
  | .fmt => c!"formatting error: an error occurred when formatting an argument"
  | .custom m => m
  | .json m => c!"json conversion error: " ++ m

/-- A template value's generated `render_into`: the chunks it writes and the error with which it ends, if any. What
it writes does not depend on the destination, which can only make it stop early. -/
structure TProg where
  chunks : List Str
  error : Option TErr
  mime : Str
  ext : Option Str
  sizeHint : Nat

/-- `askama::Result<()>` of `render_into`, with what the destination accepted. -/
inductive RRes where
  | ok (acc : List Str)
  | err (e : TErr) (acc : List Str)
  deriving DecidableEq, Repr

/-- The writes of the generated code, each followed by `?` (askama_derive/src/generator.rs:1079-1097): a failing write
is converted with `From<fmt::Error>` (askama/src/error.rs:61-65). -/
def runChunks (sink : Sink) : List Str → List Str → Except (List Str) (List Str)
  | [], acc => .ok acc
  | c :: cs, acc => if sink acc c then runChunks sink cs (acc ++ [c]) else .error acc

/-- `Template::render_into`. -/
def TProg.renderInto (p : TProg) (sink : Sink) : RRes :=
  match runChunks sink p.chunks [] with
  | .error acc => .err .fmt acc
  | .ok acc => match p.error with
    | none => .ok acc
    | some e => .err e acc

/-- `Template::render` (askama/src/lib.rs:81-86). -/
def TProg.render (p : TProg) : Except TErr Str :=
  match p.renderInto Sink.total with
  | .ok acc => .ok acc.flatten
  | .err e _ => .error e

/-- The generated `Display` (askama_derive/src/generator.rs:139-147): errors become `fmt::Error`. -/
def TProg.display (p : TProg) (sink : Sink) : WRes :=
  match p.renderInto sink with
  | .ok acc => .ok acc
  | .err _ acc => .err acc

/-- `ToString::to_string` through `Display`; `none` is its panic on an error. -/
def TProg.toStr (p : TProg) : Option Str :=
  match p.display Sink.total with
  | .ok acc => some acc.flatten
  | _ => none

/-- `Template::write_into` (askama/src/lib.rs:92-94): `io::Write::write_fmt` of the `Display` output, each chunk
given to `write_all` as UTF-8 bytes. `none` is an error (or, if the stream did not fail but the template did, a panic
in recent standard libraries). -/
def TProg.writeInto (p : TProg) (sink : Sink) : Option (List UInt8) × List Str :=
  match p.display sink with
  | .ok acc => (some (Str.bytes acc.flatten), acc)
  | .err acc => (none, acc)
  | .panic => (none, [])

/-- `impl Template for &T` (askama/src/lib.rs:118-139). -/
def TProg.viaRef (p : TProg) : TProg := p

/-- `DynTemplate` for `T` (askama/src/lib.rs:165-193) and `Display for dyn DynTemplate` (195-199). -/
structure DynT where
  dynRender : Except TErr Str
  dynRenderInto : Sink → RRes
  dynWriteInto : Sink → Option (List UInt8) × List Str
  dynExtension : Option Str
  dynSizeHint : Nat
  dynMime : Str

def TProg.toDyn (p : TProg) : DynT where
  dynRender := p.render
  dynRenderInto := p.renderInto
  dynWriteInto := p.writeInto
  dynExtension := p.ext
  dynSizeHint := p.sizeHint
  dynMime := p.mime

/-- `Display for dyn DynTemplate` (askama/src/lib.rs:195-199). -/
def DynT.display (d : DynT) (sink : Sink) : WRes :=
  match d.dynRenderInto sink with
  | .ok acc => .ok acc
  | .err _ acc => .err acc

/-! ## Web integrations -/

/-- A response: status code, content type and body. -/
structure Resp where
  status : Nat
  contentType : Str
  body : Str
  deriving DecidableEq, Repr

/-- The frameworks with an integration crate. -/
inductive Framework where
  | axum | actix | warp | rocket
  deriving DecidableEq, Repr

/-- `try_into_response` (askama_axum/src/lib.rs:19-28, askama_actix/src/lib.rs:24-31, askama_warp/src/lib.rs:28-35,
askama_rocket/src/lib.rs:40-48): all four render first, then build a 200 response with the MIME type. -/
def tryIntoResponse (p : TProg) : Except TErr Resp :=
  match p.render with
  | .error e => .error e
  | .ok s => .ok ⟨200, p.mime, s⟩

/-- `into_response` of each integration. For axum the error becomes `ErrorResponse::from(String)`, and axum_core turns
a `String` into a 200 `text/plain` response (askama_axum/src/lib.rs:12-16); actix uses the default `ResponseError`
(status 500, plain text of the error; askama_actix/src/lib.rs:19-21,51); warp and rocket build a 500 `text/plain`
response (askama_warp/src/lib.rs:12-25, askama_rocket/src/lib.rs:19-36). -/
def intoResponse (f : Framework) (p : TProg) : Resp :=
  match tryIntoResponse p with
  | .ok r => r
  | .error e =>
    match f with
    | .axum => ⟨200, c!"text/plain; charset=utf-8", e.text⟩
    | .actix => ⟨500, c!"text/plain; charset=utf-8", e.text⟩
    | .warp => ⟨500, c!"text/plain; charset=utf-8", e.text⟩
    | .rocket => ⟨500, c!"text/plain; charset=utf-8", e.text⟩

/-- Rocket's `respond` (askama_rocket/src/lib.rs:13-15), the code of the generated `Responder`: `Err(500)` makes
Rocket run its error catcher instead of sending a page. -/
def rocketRespond (p : TProg) : Except Nat Resp :=
  match tryIntoResponse p with
  | .ok r => .ok r
  | .error _ => .error 500

end Askama
