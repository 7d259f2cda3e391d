import Verif.Model.Base

/-! Specification vocabulary for configuration and files. -/

namespace Askama.Spec

/-- `x` is the first element of the list with a property. -/
def IsFirst {α : Type} (p : α → Prop) (l : List α) (x : α) : Prop :=
  ∃ before after, l = before ++ x :: after ∧ p x ∧ ∀ y ∈ before, ¬p y

/-- `path` is `dir/name`, where `name` has no further `/`. -/
def InDir (path dir name : Str) : Prop := path = dir ++ ['/'] ++ name ∧ '/' ∉ name

/-- The name has the form `stem.ext`, where `ext` has no further dot and the stem is not empty; the name `..` does not
count. -/
def HasExt (name stem ext : Str) : Prop :=
  name = stem ++ ['.'] ++ ext ∧ '.' ∉ ext ∧ stem ≠ [] ∧ name ≠ ['.', '.']

/-- The name has no extension: no dot except possibly at its start. -/
def NoExt (name : Str) : Prop := ¬∃ stem ext, HasExt name stem ext

/-- The escapers every project has, after those it configures, and the extensions they are for; `krate` is the name of the
askama crate. -/
def builtinEscapers (krate : Str) : List (List Str × Str) :=
  [([c!"html", c!"htm", c!"svg", c!"xml"], krate ++ c!"::Html"),
   ([c!"md", c!"none", c!"txt", c!"typ", c!"yml", c!""], krate ++ c!"::Text"),
   ([c!"j2", c!"jinja", c!"jinja2"], krate ++ c!"::Html")]

/-- What a delimiter must be: two bytes or more, no white space in it, and no operator of the expression language. -/
def DelimOk (isWs : Char → Bool) (d : Str) : Prop :=
  2 ≤ Str.blen d ∧ (∀ x ∈ d, isWs x = false) ∧
    d ∉ [c!"||", c!"&&", c!"==", c!"!=", c!">=", c!"<=", c!"<<", c!">>", c!"..", c!"..="]

end Askama.Spec
