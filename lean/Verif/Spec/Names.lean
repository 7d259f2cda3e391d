import Verif.Model.Base

/-! Specification of identifiers: which template names need Rust's raw form. -/

namespace Askama.Spec

/-- The Rust keywords that may be raw identifiers and are not used by the template language itself. -/
def rustKeywords : List Str :=
  [c!"as", c!"do", c!"fn", c!"if", c!"in", c!"box", c!"dyn", c!"for", c!"let", c!"mod", c!"mut", c!"pub", c!"ref",
   c!"try", c!"use", c!"else", c!"enum", c!"impl", c!"move", c!"priv", c!"true", c!"type", c!"async", c!"await",
   c!"break", c!"const", c!"crate", c!"false", c!"final", c!"macro", c!"match", c!"trait", c!"where", c!"while",
   c!"yield", c!"become", c!"extern", c!"return", c!"static", c!"struct", c!"typeof", c!"unsafe", c!"unsized",
   c!"virtual", c!"abstract", c!"continue", c!"override"]

/-- The Rust identifier for a template name. -/
def rawIdent (x : Str) : Str := if x ∈ rustKeywords then c!"r#" ++ x else x

/-- A stack of maps: innermost first. -/
def lookupStack {α : Type} : List (List (Str × α)) → Str → Option α
  | [], _ => none
  | s :: rest, x =>
    match s.find? (fun e => e.1 == x) with
    | some e => some e.2
    | none => lookupStack rest x

/-- What can happen to a scope chain. -/
inductive ScopeOp (α : Type) where
  | push
  | pop
  | insert (k : Str) (v : α)

/-- A stack of partial maps, innermost first. -/
abbrev MapStack (α : Type) := List (Str → Option α)

/-- The meaning of an operation on a stack of maps. -/
def ScopeOp.apply {α : Type} : ScopeOp α → MapStack α → MapStack α
  | .push, st => (fun _ => none) :: st
  | .pop, st => st.tail
  | .insert k v, f :: st => (fun x => if x = k then some v else f x) :: st
  | .insert _ _, [] => []

/-- The innermost binding of a name. -/
def MapStack.find {α : Type} : MapStack α → Str → Option α
  | [], _ => none
  | f :: st, x => (f x).orElse fun _ => MapStack.find st x

/-- A stack of maps, at first with one empty map, after some operations. -/
def stackAfter {α : Type} (ops : List (ScopeOp α)) : MapStack α :=
  ops.foldl (fun (st : MapStack α) op => op.apply st) [fun _ => none]

/-- Operations in which every scope that is left was entered before: `d` is the number of scopes entered. -/
def balanced {α : Type} : Nat → List (ScopeOp α) → Bool
  | d, [] => d == 0
  | d, .push :: ops => balanced (d + 1) ops
  | 0, .pop :: _ => false
  | d + 1, .pop :: ops => balanced d ops
  | 0, .insert _ _ :: _ => false
  | d + 1, .insert _ _ :: ops => balanced (d + 1) ops

end Askama.Spec
