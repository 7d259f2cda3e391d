import Verif.Model.Derive

/-! What the arguments of `#[template(…)]` mean, and which files an implementation is made from. -/

namespace Askama.Spec

/-- The key and the string of an argument `key = "value"`. -/
def argOf : AttrItem → Option (Str × Str)
  | .nameValue [k] (.lit (.str v)) => some (k, v)
  | .nameValue [k] (.groupLit (.str v)) => some (k, v)
  | _ => none

/-- The keys of the documentation. -/
def knownKeys : List Str :=
  [c!"path", c!"source", c!"block", c!"print", c!"escape", c!"ext", c!"syntax", c!"config", c!"whitespace"]

/-- The values of `print`. -/
def printModes : List (Str × Print) := [(c!"all", .all), (c!"ast", .ast), (c!"code", .code), (c!"none", .none)]

/-- The arguments are strings for known keys, with at most one template. -/
structure Proper (pairs : List (Str × Str)) : Prop where
  known : ∀ p ∈ pairs, p.1 ∈ knownKeys
  print : ∀ p ∈ pairs, p.1 = c!"print" → ∃ m, (p.2, m) ∈ printModes
  one : (pairs.filter fun p => p.1 = c!"path" ∨ p.1 = c!"source").length ≤ 1

/-- The value given last for a key. -/
def lastValue (pairs : List (Str × Str)) (key : Str) : Option Str :=
  (pairs.reverse.find? fun p => p.1 = key).map (·.2)

/-- What the arguments say. -/
structure Says (pairs : List (Str × Str)) (a : DeriveArgs) : Prop where
  path : ∀ s, a.source = some (.path s) ↔ (c!"path", s) ∈ pairs
  source : ∀ s, a.source = some (.source s) ↔ (c!"source", s) ∈ pairs
  block : a.block = lastValue pairs c!"block"
  print : match lastValue pairs c!"print" with
    | none => a.print = .none
    | some v => (v, a.print) ∈ printModes
  escape : a.escaping = lastValue pairs c!"escape"
  ext : a.ext = lastValue pairs c!"ext"
  syn : a.syn = lastValue pairs c!"syntax"
  config : a.config = lastValue pairs c!"config"
  whitespace : a.whitespace = lastValue pairs c!"whitespace"

/-- The attributes named `template`. -/
def templateAttrs (attrs : List Attr) : List Attr := attrs.filter fun a => a.path = [c!"template"]

/-- The attributes hold exactly one `template(…)`, with these arguments. -/
def Given (attrs : List Attr) (pairs : List (Str × Str)) : Prop :=
  ∃ a items, templateAttrs attrs = [a] ∧ a.args = some items ∧ items.map argOf = pairs.map some

/-- The project with other contents in its files; the same files exist. -/
def withContents (P : Project) (read : Str → Option Str) : Project :=
  { P with env := { P.env with files := { P.env.files with read } } }

/-- The files that the implementation names in `include_bytes!` have the same contents: when none of them changed, the
compiler does not run the macro again. (The lines of this kind in the body of `render_into` are not counted.) -/
def Unchanged (P : Project) (i : Impl) (read : Str → Option Str) : Prop :=
  ∀ p q, P.canon p = some q → q ∈ i.includes → read p = P.env.files.read p

/-- The configuration file that the arguments name. -/
def configPath (P : Project) (a : DeriveArgs) : Str := Path.join P.root (a.config.getD c!"askama.toml")

/-- What stands in for a template that does not compile: it renders nothing. -/
structure StandIn (i : Impl) : Prop where
  body : i.body = []
  includes : i.includes = []
  extension : i.extension = some c!"txt"

/-- Names of types. -/
def TypeIdent (ident : Str) : Prop := ident ≠ [] ∧ '/' ∉ ident ∧ '.' ∉ ident

end Askama.Spec
