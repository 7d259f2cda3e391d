import Verif.Model.Base

/-!
# Parser combinators

The part of `nom` 7 the template parser uses, over `&str` inputs modelled as the list of remaining
characters. `nom` itself is not part of the repository; these definitions are transcriptions of its
documented behaviour (complete, not streaming, parsers) and belong to the trusted base.

Parsers thread a state `σ` (the `Cell`s of `askama_parser::State`), which keeps its changes when a parser
fails, as interior mutability does.
-/

namespace Askama

/-- Error messages of `ErrorContext`. -/
inductive Msg where
  | text (s : Str)
  | unclosed (kind tag : Str)
  | named (text name : Str)
  | endName (kind name endName : Str)
  deriving DecidableEq, Repr

/-- `nom::IResult` with `ErrorContext` (lib.rs 186-190): success with the remaining input; `Err::Error`
(`cut = false`) or `Err::Failure` (`cut = true`) at an input position. `stuck` stands for a run that does not
return: a panic or a loop that never ends. -/
inductive PRes (α : Type) where
  | ok (rest : Str) (val : α)
  | err (cut : Bool) (input : Str) (msg : Option Msg)
  | stuck
  deriving Repr, DecidableEq

/-- A parser with threaded state. -/
def PT (σ α : Type) := σ → Str → PRes α × σ

namespace PT

variable {σ α β γ : Type}

/-- Success without consuming. -/
protected def pure (a : α) : PT σ α := fun s i => (.ok i a, s)

/-- Sequencing (`tuple`, `pair`, `preceded`, ... and the `?` operator). -/
protected def bind (p : PT σ α) (f : α → PT σ β) : PT σ β := fun s i =>
  match p s i with
  | (.ok r a, s') => f a s' r
  | (.err c j m, s') => (.err c j m, s')
  | (.stuck, s') => (.stuck, s')

instance : Monad (PT σ) where
  pure := PT.pure
  bind := PT.bind

/-- The current position. -/
def pos : PT σ Str := fun s i => (.ok i i, s)

/-- Continue at another position. -/
def goto (j : Str) : PT σ Unit := fun s _ => (.ok j (), s)

/-- Read the state. -/
def get : PT σ σ := fun s i => (.ok i s, s)

/-- Change the state. -/
def modify (f : σ → σ) : PT σ Unit := fun s i => (.ok i (), f s)

/-- `Err(nom::Err::Error(..))` at the current position. -/
def error : PT σ α := fun s i => (.err false i none, s)

/-- `Err(nom::Err::Failure(..))` at the given position. -/
def failAt (j : Str) (m : Option Msg) : PT σ α := fun s _ => (.err true j m, s)

/-- A run that does not return. -/
def stuck : PT σ α := fun s _ => (.stuck, s)

/-- A parser without state used in one with state. -/
def lift (p : PT Unit α) : PT σ α := fun s i => ((p () i).1, s)

/-- `combinator::map`. -/
protected def map (f : α → β) (p : PT σ α) : PT σ β := p.bind fun a => PT.pure (f a)

/-- `branch::alt` of two parsers: the second is tried if the first returns `Err::Error`; its error replaces
the first (`ErrorContext::append` and `or` keep the later error, lib.rs 221-231). -/
def alt (p q : PT σ α) : PT σ α := fun s i =>
  match p s i with
  | (.err false _ _, s') => q s' i
  | r => r

/-- `combinator::opt`. -/
def opt (p : PT σ α) : PT σ (Option α) := fun s i =>
  match p s i with
  | (.ok r a, s') => (.ok r (some a), s')
  | (.err false _ _, s') => (.ok i none, s')
  | (.err true j m, s') => (.err true j m, s')
  | (.stuck, s') => (.stuck, s')

/-- `combinator::cut`. -/
def cut (p : PT σ α) : PT σ α := fun s i =>
  match p s i with
  | (.err _ j m, s') => (.err true j m, s')
  | r => r

/-- `combinator::peek`. -/
def peek (p : PT σ α) : PT σ α := fun s i =>
  match p s i with
  | (.ok _ a, s') => (.ok i a, s')
  | r => r

/-- `combinator::not`. -/
def not (p : PT σ α) : PT σ Unit := fun s i =>
  match p s i with
  | (.ok _ _, s') => (.err false i none, s')
  | (.err false _ _, s') => (.ok i (), s')
  | (.err true j m, s') => (.err true j m, s')
  | (.stuck, s') => (.stuck, s')

/-- `combinator::consumed`: also return the consumed text. -/
def consumed (p : PT σ α) : PT σ (Str × α) := fun s i =>
  match p s i with
  | (.ok r a, s') => (.ok r (i.take (i.length - r.length), a), s')
  | (.err c j m, s') => (.err c j m, s')
  | (.stuck, s') => (.stuck, s')

/-- `combinator::recognize`: return the consumed text. -/
def recognize (p : PT σ α) : PT σ Str := (consumed p).map (·.1)

/-- `bytes::complete::tag`. -/
def tag (t : Str) : PT σ Str := fun s i =>
  if t.isPrefixOf i then (.ok (i.drop t.length) t, s) else (.err false i none, s)

/-- `character::complete::satisfy`. -/
def satisfy (f : Char → Bool) : PT σ Char := fun s i =>
  match i with
  | c :: r => if f c then (.ok r c, s) else (.err false i none, s)
  | [] => (.err false i none, s)

/-- `character::complete::char`. -/
def char (c : Char) : PT σ Char := satisfy (· == c)

/-- `character::complete::anychar`. -/
def anychar : PT σ Char := satisfy fun _ => true

/-- `character::complete::one_of`. -/
def oneOf (cs : Str) : PT σ Char := satisfy fun c => cs.contains c

/-- `combinator::eof`. -/
def eof : PT σ Unit := fun s i =>
  if i.isEmpty then (.ok i (), s) else (.err false i none, s)

/-- `bytes::complete::take_while` (`take_till` with the negated predicate). -/
def takeWhile (f : Char → Bool) : PT σ Str := fun s i => (.ok (i.dropWhile f) (i.takeWhile f), s)

/-- `split_at_position1_complete`: `take_while1`. -/
def takeWhile1 (f : Char → Bool) : PT σ Str := fun s i =>
  if (i.takeWhile f).isEmpty then (.err false i none, s) else (.ok (i.dropWhile f) (i.takeWhile f), s)

/-- `bytes::complete::take_while_m_n`. -/
def takeWhileMN (m n : Nat) (f : Char → Bool) : PT σ Str := fun s i =>
  let t := (i.takeWhile f).take n
  if t.length < m then (.err false i none, s) else (.ok (i.drop t.length) t, s)

/-- The loop of `multi::many0`, `fold_many0` and `many0_count`: repeat until `Err::Error`; a repetition that
consumes nothing is an `Err::Error`. `fuel` bounds the number of rounds; running out of it is `stuck`. -/
def many0F (p : PT σ α) : Nat → PT σ (List α)
  | 0 => stuck
  | fuel + 1 => fun s i =>
    match p s i with
    | (.ok r a, s') =>
      if r.length = i.length then (.err false i none, s')
      else (many0F p fuel |>.map (a :: ·)) s' r
    | (.err false _ _, s') => (.ok i [], s')
    | (.err true j m, s') => (.err true j m, s')
    | (.stuck, s') => (.stuck, s')

/-- `multi::many0`. -/
def many0 (p : PT σ α) : PT σ (List α) := fun s i => many0F p (i.length + 1) s i

/-- `multi::many1`: as `many0`, but the first round must succeed. (The first round is not checked for progress.) -/
def many1 (p : PT σ α) : PT σ (List α) := p.bind fun a => (many0 p).map (a :: ·)

/-- The loop of `multi::separated_list0` and `separated_list1` after the first element. -/
def sepRestF (sep : PT σ γ) (p : PT σ α) : Nat → PT σ (List α)
  | 0 => stuck
  | fuel + 1 => fun s i =>
    match sep s i with
    | (.err false _ _, s') => (.ok i [], s')
    | (.err true j m, s') => (.err true j m, s')
    | (.stuck, s') => (.stuck, s')
    | (.ok r _, s') =>
      if r.length = i.length then (.err false r none, s')
      else match p s' r with
        | (.err false _ _, s'') => (.ok i [], s'')
        | (.err true j m, s'') => (.err true j m, s'')
        | (.stuck, s'') => (.stuck, s'')
        | (.ok r' a, s'') => (sepRestF sep p fuel |>.map (a :: ·)) s'' r'

/-- The loop with enough fuel for the input. -/
def sepRest (sep : PT σ γ) (p : PT σ α) : PT σ (List α) := fun s i => sepRestF sep p (i.length + 1) s i

/-- `multi::separated_list1`. -/
def sepList1 (sep : PT σ γ) (p : PT σ α) : PT σ (List α) := p.bind fun a => (sepRest sep p).map (a :: ·)

/-- `multi::separated_list0`. -/
def sepList0 (sep : PT σ γ) (p : PT σ α) : PT σ (List α) := fun s i =>
  match p s i with
  | (.err false _ _, s') => (.ok i [], s')
  | (.err true j m, s') => (.err true j m, s')
  | (.stuck, s') => (.stuck, s')
  | (.ok r a, s') => (sepRest sep p |>.map (a :: ·)) s' r

end PT

end Askama
