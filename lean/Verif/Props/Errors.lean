import Verif.Lemmas.Errors
import Verif.Lemmas.Writer
import Verif.Spec.Whole
import Verif.Spec.Toy

/-! Errors while rendering: C20. -/

namespace Askama.Props

open Askama Askama.Spec

variable {U σ : Type}

/-- C20: a failing operation is never replaced by something else. In a world where more operations fail, every generated
rendering function fails, or renders the same (then it did not come to a failing operation). -/
theorem C20_errors_not_swallowed (W W' : World U) (h : FailsMore W W') (code : List Stmt) :
    output W code = none ∨ output W code = output W' code := by
  rcases execList_fails h ⟨[], none, false, []⟩ code with h | h
  · left; unfold output; rw [h]; rfl
  · right; unfold output; rw [h]

/-- `toy` where the context has no field `y`. -/
def noY : World Toy := { toy with attr := fun v n => if n = c!"y" then none else toy.attr v n }

theorem noY_fails : FailsMore noY toy where
  lit := rfl
  nat := rfl
  bool := rfl
  str := rfl
  self_ := rfl
  pmatch := rfl
  constant := rfl
  escape := rfl
  path _ := .inr rfl
  array _ := .inr rfl
  tuple _ := .inr rfl
  attr v n := by
    show FailsOr (if n = c!"y" then none else toy.attr v n) _
    split
    · exact .inl rfl
    · exact .inr rfl
  index _ _ := .inr rfl
  unop _ _ := .inr rfl
  binop _ _ _ := .inr rfl
  truthy _ := .inr rfl
  range _ _ _ := .inr rfl
  call _ _ := .inr rfl
  method _ _ _ := .inr rfl
  try_ _ := .inr rfl
  deref _ := .inr rfl
  format _ _ := .inr rfl
  join _ := .inr rfl
  filter _ _ _ := .inr rfl
  rustMacro _ _ := .inr rfl
  iter _ := .inr rfl
  elems _ := .inr rfl
  disp _ _ := .inr rfl

/-- The code of a template in the file `a.html`. -/
def codeOf (src : Str) : List Stmt :=
  match buildTemplate (toyEnv [(c!"t/a.html", src)]) (toyConfig .preserve) c!"T" (toyArgs c!"a.html" none) 50 with
  | .ok code => code
  | .error _ => []

/-- A failing expression matters if it is reached, and not otherwise. -/
example : output noY (codeOf c!"a{% if x == \"x\" %}{{ y|f }}{% endif %}b") = none
    ∧ output noY (codeOf c!"a{% if x == \"z\" %}{{ y|f }}{% endif %}b") = some c!"ab"
    ∧ output toy (codeOf c!"a{% if x == \"x\" %}{{ y|f }}{% endif %}b") = some c!"af(y)b" := by decide +kernel

/-- Pieces of displayed values are right: together they make the text, if displaying succeeds. -/
def PiecesOf (W : World U) (D : Display U) : Prop :=
  ∀ x v n s, showArg W x v n = some s → (D x v n).flatten = s

/-- C20: errors of the writer. There is a list of pieces such that the rendering function writes them one after the other
up to the first that is refused; it returns `Ok` exactly if none was refused and nothing else failed; and if nothing
else fails the pieces make the text of the template. -/
theorem C20_writer (W : World U) (D : Display U) (hD : PiecesOf W D) (k : Writer σ) (code : List Stmt) :
    ∃ cs : List Str, (∀ s, renderTo W D k code s = ((k.putAll s cs).1, (k.putAll s cs).2 && (output W code).isSome))
      ∧ ∀ t, output W code = some t → cs.flatten = t := by
  obtain ⟨cs, o, h1, h2, h3⟩ := execListTo_traced W D k hD ⟨[], none, false, []⟩ code
  refine ⟨cs, ?_, ?_⟩
  · intro s
    unfold renderTo output
    rw [h1, h2]
    cases hp : (k.putAll s cs).2 <;> cases execList W ⟨[], none, false, []⟩ code <;> simp
  · intro t ht
    unfold output at ht
    cases he : execList W ⟨[], none, false, []⟩ code with
    | none => rw [he] at ht; cases ht
    | some r => rw [he] at ht; cases ht; exact h3 r.1 r.2 he

/-- A writer that keeps what it accepted, and may refuse any piece at any time. -/
def keeping (refuse : Str → Str → Bool) : Writer Str := ⟨fun s c => if refuse s c then (s, false) else (s ++ c, true)⟩

theorem keeping_putAll (refuse : Str → Str → Bool) (cs : List Str) :
    ∀ s, ∃ t, ((keeping refuse).putAll s cs).1 = s ++ t ∧ t <+: cs.flatten
      ∧ (((keeping refuse).putAll s cs).2 = true → t = cs.flatten) := by
  induction cs with
  | nil => intro s; exact ⟨[], by simp [Writer.putAll], List.prefix_refl _, fun _ => rfl⟩
  | cons c cs ih =>
    intro s
    simp only [Writer.putAll, keeping]
    by_cases hr : refuse s c = true
    · simp only [hr, if_true, Bool.false_eq_true, if_false]
      exact ⟨[], by simp, List.nil_prefix, fun h => by cases h⟩
    · simp only [hr, Bool.false_eq_true, if_false, if_true]
      obtain ⟨t, h1, h2, h3⟩ := ih (s ++ c)
      refine ⟨c ++ t, ?_, ?_, ?_⟩
      · show ((keeping refuse).putAll (s ++ c) cs).1 = _
        rw [h1, List.append_assoc]
      · rw [List.flatten_cons]
        exact (List.prefix_append_right_inj c).2 h2
      · intro h
        rw [List.flatten_cons, h3 h]

/-- C20: what a failing writer has got is the beginning of the text of the template, and all of it exactly if `Ok` is
returned. -/
theorem C20_prefix (W : World U) (D : Display U) (hD : PiecesOf W D) (refuse : Str → Str → Bool) (code : List Stmt)
    (t : Str) (h : output W code = some t) :
    (renderTo W D (keeping refuse) code []).1 <+: t
      ∧ ((renderTo W D (keeping refuse) code []).2 = true → (renderTo W D (keeping refuse) code []).1 = t) := by
  obtain ⟨cs, h1, h2⟩ := C20_writer W D hD (keeping refuse) code
  obtain ⟨t', h3, h4, h5⟩ := keeping_putAll refuse cs []
  rw [h1, h, h3, ← h2 t h]
  refine ⟨by simpa using h4, ?_⟩
  intro hok
  simp only [Option.isSome_some, Bool.and_true] at hok
  simpa using h5 hok

/-- Values of `toy` that write themselves character by character. -/
def slowly : Display Toy := fun x v n => ((showArg toy x v n).getD []).map fun c => [c]

theorem slowly_pieces : PiecesOf toy slowly := by
  intro x v n s h
  unfold slowly
  rw [h]
  clear h
  induction s with
  | nil => rfl
  | cons c s ih => simpa using ih

/-- A writer with room for six characters. -/
example : renderTo toy slowly (keeping fun s c => decide (6 < (s ++ c).length)) (codeOf c!"<p>{{ x }}{{ x|upper }}</p>") []
      = (c!"<p>xup", false)
    ∧ renderTo toy slowly (keeping fun s c => decide (60 < (s ++ c).length)) (codeOf c!"<p>{{ x }}{{ x|upper }}</p>") []
      = (c!"<p>xupper(x)</p>", true) := by decide +kernel

end Askama.Props
