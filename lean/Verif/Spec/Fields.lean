import Verif.Spec.Escaping
import Verif.Spec.Names

/-!
# What a template may use

What the expressions of a template name of the program it is part of: fields and methods of the context, filters, functions and
constants, and macros of Rust.
-/

namespace Askama.Spec

/-- Something of the program that an expression may name. -/
inductive Named where
  /-- `self` as a value of its own. -/
  | self_
  /-- A field or method of `self`. -/
  | field (n : Str)
  /-- A filter: one of askama (`true`) or one of the module `filters` of the program. -/
  | filter (builtin : Bool) (n : Str)
  /-- A function or constant. -/
  | path (p : List Str)
  /-- A call of a macro of Rust. -/
  | rustMacro (p : List Str) (args : Str)
  deriving DecidableEq

/-- Is it part of the context? -/
def Named.ofContext : Named → Bool
  | .self_ | .field _ => true
  | .filter _ _ | .path _ | .rustMacro _ _ => false

/-- The filters that are not calls of a function: operators of Rust, `format!`, and the marks for escaping. `join` is counted
among them. -/
def filtersOfTheLanguage : List Str :=
  [c!"as_ref", c!"deref", c!"escape", c!"e", c!"safe", c!"fmt", c!"format", c!"join"]

/-- The other filters that come with askama. -/
def filtersOfAskama : List Str :=
  [c!"abs", c!"capitalize", c!"center", c!"filesizeformat", c!"indent", c!"into_f64", c!"into_isize", c!"linebreaks",
   c!"linebreaksbr", c!"paragraphbreaks", c!"lower", c!"lowercase", c!"title", c!"trim", c!"truncate", c!"upper", c!"uppercase",
   c!"urlencode", c!"urlencode_strict", c!"wordcount"]

/-- The function that a filter of this name calls: that of askama, if there is one, and otherwise that of the program. -/
def filterNamed (name : Str) : List Named :=
  if filtersOfTheLanguage.contains name then []
  else if name = c!"json" ∨ name = c!"tojson" then [.filter true c!"json"]
  else [.filter (filtersOfAskama.contains name) name]

mutual
/-- What an expression names. Of `self`: for a name the field of that name, for `self.a` the field `a`, and for the word
`self` in any other place all of it. `loop` in front of a dot is the state of the loop. -/
def reads : Expr → List Named
  | .var x => if x = c!"self" then [.self_] else [.field (rawIdent x)]
  | .attr (.var x) a =>
    if x = c!"self" then [.field (rawIdent a)] else if x = c!"loop" then [] else [.field (rawIdent x)]
  | .attr e _ | .unary _ e | .group e | .try_ e | .namedArg _ e => reads e
  | .index a b | .binop _ a b => reads a ++ reads b
  | .range _ a b => readsO a ++ readsO b
  | .array es | .tuple es => readsL es
  | .filter n es => filterNamed n ++ readsL es
  | .call e es => reads e ++ readsL es
  | .path p => [.path p]
  | .rustMacro p a => [.rustMacro p a]
  | .boolLit _ | .numLit _ | .strLit _ | .charLit _ | .generated _ => []
/-- ... expressions. -/
def readsL : List Expr → List Named
  | [] => []
  | e :: es => reads e ++ readsL es
/-- ... an optional expression. -/
def readsO : Option Expr → List Named
  | none => []
  | some e => reads e
end

/-- What the expressions of a tag name, without those of the tags inside of it. -/
def readsN : Node → List Named
  | .expr _ e => reads e
  | .let_ _ _ v => readsO v
  | .if_ _ bs => bs.flatMap fun | .mk _ c _ => readsO (c.map (·.expr))
  | .match_ _ e _ _ => reads e
  | .loop _ _ e c _ _ _ _ => reads e ++ readsO c
  | .call _ _ _ args => readsL args
  | .filterBlock _ f _ _ => filterNamed f.name ++ readsL f.args
  | _ => []

/-- What may be different in another program: the value of the context, the filters, functions, constants and macros. -/
structure Program (U : Type) where
  self_ : Val U
  filter : Bool → Str → List (Val U) → Option (Val U)
  path : List Str → Option (Val U)
  rustMacro : List Str → Str → Option (Val U)

/-- The same world with another program. -/
def _root_.Askama.World.withProgram {U : Type} (W : World U) (p : Program U) : World U :=
  { W with self_ := p.self_, filter := p.filter, path := p.path, rustMacro := p.rustMacro }

/-- The same world with another context. -/
def _root_.Askama.World.withSelf {U : Type} (W : World U) (v : Val U) : World U :=
  W.withProgram ⟨v, W.filter, W.path, W.rustMacro⟩

/-- Another program is alike in something: for a name, the fields of that name have the same value, and the methods of that
name return the same for the same arguments; a filter gives the same for the same arguments; the rest is the same value. -/
def AlikeIn {U : Type} (W : World U) (p : Program U) : Named → Prop
  | .self_ => W.self_ = p.self_
  | .field n => W.attr W.self_ n = W.attr p.self_ n ∧ ∀ vs, W.method W.self_ n vs = W.method p.self_ n vs
  | .filter b n => ∀ vs, W.filter b n vs = p.filter b n vs
  | .path q => W.path q = p.path q
  | .rustMacro q a => W.rustMacro q a = p.rustMacro q a

/-- Two values of the context are alike in a name. -/
def AlikeOn {U : Type} (W : World U) (v : Val U) (x : Named) : Prop := AlikeIn W ⟨v, W.filter, W.path, W.rustMacro⟩ x

end Askama.Spec
