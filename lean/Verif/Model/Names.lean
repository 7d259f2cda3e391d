import Verif.Model.Base

/-!
# Identifiers and scopes of the code generator

Models `normalize_identifier` and `MapChain` of `askama_derive/src/generator.rs`.
-/

namespace Askama

/-! ## `normalize_identifier` -/

/-- The tables `KW0` … `KW8` (askama_derive/src/generator.rs:2208-2262), by length of the keyword: each entry is the
replacement, padded with `_` to ten characters. -/
def kwTables : List (List Str) :=
  [ [],
    [],
    [c!"r#as______", c!"r#do______", c!"r#fn______", c!"r#if______", c!"r#in______"],
    [c!"r#box_____", c!"r#dyn_____", c!"r#for_____", c!"r#let_____", c!"r#mod_____", c!"r#mut_____",
     c!"r#pub_____", c!"r#ref_____", c!"r#try_____", c!"r#use_____"],
    [c!"r#else____", c!"r#enum____", c!"r#impl____", c!"r#move____", c!"r#priv____", c!"r#true____",
     c!"r#type____"],
    [c!"r#async___", c!"r#await___", c!"r#break___", c!"r#const___", c!"r#crate___", c!"r#false___",
     c!"r#final___", c!"r#macro___", c!"r#match___", c!"r#trait___", c!"r#where___", c!"r#while___",
     c!"r#yield___"],
    [c!"r#become__", c!"r#extern__", c!"r#return__", c!"r#static__", c!"r#struct__", c!"r#typeof__",
     c!"r#unsafe__"],
    [c!"r#unsized_", c!"r#virtual_"],
    [c!"r#abstract", c!"r#continue", c!"r#override"] ]

/-- `padded_ident` (askama_derive/src/generator.rs:2287-2288): the bytes of the identifier, filled up with `_` to
eight bytes. -/
def padIdent (ident : Str) : List UInt8 :=
  Str.bytes ident ++ List.replicate (8 - Str.blen ident) (UInt8.ofNat '_'.toNat)

/-- `normalize_identifier` (askama_derive/src/generator.rs:2197-2304). The slice `&replacement[..ident.len() + 2]` of
an ASCII string is a prefix of that many characters. -/
def normalizeIdentifier (ident : Str) : Str :=
  if 8 < Str.blen ident then ident
  else match kwTables[Str.blen ident]? with
    | none => ident
    | some kws =>
      match kws.find? (fun probe => padIdent ident == Str.bytes (probe.drop 2)) with
      | some replacement => replacement.take (Str.blen ident + 2)
      | none => ident

/-! ## `MapChain` -/

/-- One `HashMap` of a `MapChain`, as an association list: inserting puts the new entry in front, which hides an
older entry of the same key. -/
abbrev Scope (α : Type) := List (Str × α)

/-- `HashMap::get`. -/
def Scope.get {α : Type} (s : Scope α) (key : Str) : Option α :=
  (s.find? (fun e => e.1 == key)).map (·.2)

/-- `MapChain` (askama_derive/src/generator.rs:1918-1925). `scopes` is the vector of scopes with the innermost first;
`parent` the scopes of the borrowed parent followed by those of its parents (they cannot change while borrowed). -/
structure MapChain (α : Type) where
  scopes : List (Scope α)
  parent : List (Scope α)

namespace MapChain

variable {α : Type}

/-- `MapChain::default` (askama_derive/src/generator.rs:1993-2000). -/
def empty : MapChain α := ⟨[[]], []⟩

/-- `MapChain::with_parent` (askama_derive/src/generator.rs:1931-1936). -/
def withParent (p : MapChain α) : MapChain α := ⟨[[]], p.scopes ++ p.parent⟩

/-- `MapChain::get` (askama_derive/src/generator.rs:1940-1945). -/
def get (m : MapChain α) (key : Str) : Option α :=
  match m.scopes.findSome? (fun s => s.get key) with
  | some v => some v
  | none => m.parent.findSome? (fun s => s.get key)

/-- `MapChain::is_current_empty` (askama_derive/src/generator.rs:1947-1949). The vector of scopes is never empty. -/
def isCurrentEmpty (m : MapChain α) : Bool :=
  match m.scopes with
  | s :: _ => s.isEmpty
  | [] => true

/-- `MapChain::insert` (askama_derive/src/generator.rs:1951-1959). -/
def insert (m : MapChain α) (key : Str) (v : α) : MapChain α :=
  match m.scopes with
  | s :: rest => { m with scopes := ((key, v) :: s) :: rest }
  | [] => m

/-- `MapChain::push` (askama_derive/src/generator.rs:1968-1970). -/
def push (m : MapChain α) : MapChain α := { m with scopes := [] :: m.scopes }

/-- `MapChain::pop` (askama_derive/src/generator.rs:1972-1975). The assertion that a scope remains holds because
every `pop` of the generator follows its own `push`. -/
def pop (m : MapChain α) : MapChain α := { m with scopes := m.scopes.tail }

end MapChain

end Askama
