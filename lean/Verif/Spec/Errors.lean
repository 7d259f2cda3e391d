import Verif.Model.Rust

/-!
# Worlds in which more goes wrong

`FailsMore W W'`: the operations of `W` give the same values as those of `W'`, or fail. Whether a pattern matches is not a
question of failure.
-/

namespace Askama.Spec

variable {U : Type}

/-- The first computation fails, or does the same as the second. -/
def FailsOr {α : Type} (a b : Option α) : Prop := a = none ∨ a = b

/-- `W` is `W'` with some operations failing. -/
structure FailsMore (W W' : World U) : Prop where
  lit : W.lit = W'.lit
  nat : W.nat = W'.nat
  bool : W.bool = W'.bool
  str : W.str = W'.str
  self_ : W.self_ = W'.self_
  pmatch : W.pmatch = W'.pmatch
  constant : W.constant = W'.constant
  escape : W.escape = W'.escape
  path : ∀ p, FailsOr (W.path p) (W'.path p)
  array : ∀ vs, FailsOr (W.array vs) (W'.array vs)
  tuple : ∀ vs, FailsOr (W.tuple vs) (W'.tuple vs)
  attr : ∀ v n, FailsOr (W.attr v n) (W'.attr v n)
  index : ∀ v w, FailsOr (W.index v w) (W'.index v w)
  unop : ∀ op v, FailsOr (W.unop op v) (W'.unop op v)
  binop : ∀ op v w, FailsOr (W.binop op v w) (W'.binop op v w)
  truthy : ∀ v, FailsOr (W.truthy v) (W'.truthy v)
  range : ∀ op v w, FailsOr (W.range op v w) (W'.range op v w)
  call : ∀ v vs, FailsOr (W.call v vs) (W'.call v vs)
  method : ∀ v n vs, FailsOr (W.method v n vs) (W'.method v n vs)
  try_ : ∀ v, FailsOr (W.try_ v) (W'.try_ v)
  deref : ∀ v, FailsOr (W.deref v) (W'.deref v)
  format : ∀ s vs, FailsOr (W.format s vs) (W'.format s vs)
  join : ∀ vs, FailsOr (W.join vs) (W'.join vs)
  filter : ∀ b n vs, FailsOr (W.filter b n vs) (W'.filter b n vs)
  rustMacro : ∀ p a, FailsOr (W.rustMacro p a) (W'.rustMacro p a)
  iter : ∀ v, FailsOr (W.iter v) (W'.iter v)
  elems : ∀ v, FailsOr (W.elems v) (W'.elems v)
  disp : ∀ u k, FailsOr (W.disp u k) (W'.disp u k)

end Askama.Spec
