import Verif.Lemmas.Escapers
import Verif.Props.Counter
import Verif.Spec.Whole

/-! Whether a template compiles does not depend on the escaper: C80. -/

namespace Askama.Props

open Askama Askama.Spec

/-- C80: with any two values of the argument `escape` that name an escaper the derivation ends in the same way: both succeed, or
both end in an error, a panic or no answer. -/
theorem C80_escape_argument (env : DeriveEnv) (c : Config) (ident : Str) (args : TemplateArgs) (fuel : Nat) {a b : Str}
    (ha : ∃ e ∈ c.escapers, a ∈ e.1) (hb : ∃ e ∈ c.escapers, b ∈ e.1) :
    ((∃ code, buildTemplate env c ident { args with escaping := some a } fuel = .ok code)
      ↔ ∃ code, buildTemplate env c ident { args with escaping := some b } fuel = .ok code)
    ∧ ∀ x, buildTemplate env c ident { args with escaping := some a } fuel = .error x
      ↔ buildTemplate env c ident { args with escaping := some b } fuel = .error x := by
  have known : ∀ (l : List (List Str × Str)) (x : Str), (∃ e ∈ l, x ∈ e.1) → ∃ p, selectEscaper l x = some p := by
    intro l x
    induction l with
    | nil => rintro ⟨e, he, -⟩; cases he
    | cons y l ih =>
      obtain ⟨exts, path⟩ := y
      rintro ⟨e, he, hx⟩
      unfold selectEscaper
      by_cases hc : exts.contains x = true
      · exact ⟨path, by rw [if_pos hc]⟩
      · rw [if_neg hc]
        refine ih ⟨e, ?_, hx⟩
        rcases List.mem_cons.mp he with rfl | he
        · exact absurd (by simpa using hx) hc
        · exact he
  obtain ⟨p, hp⟩ := known _ _ ha
  obtain ⟨q, hq⟩ := known _ _ hb
  have key : Even Any (buildTemplate env c ident { args with escaping := some a } fuel)
      (buildTemplate env c ident { args with escaping := some b } fuel) := by
    unfold buildTemplate
    have ht : Even (fun t t' => t' = { t with escaper := q })
        (TemplateInput.new env.files env.guess c ident { args with escaping := some a })
        (TemplateInput.new env.files env.guess c ident { args with escaping := some b }) := by
      unfold TemplateInput.new
      dsimp only
      cases args.source with
      | none => exact .fail
      | some source =>
        dsimp only
        refine Even.same rfl fun path _ => ?_
        refine Even.same rfl fun syn _ => ?_
        simp only [Option.getD_some, hp, hq]
        exact .pure rfl
    refine ht.bind fun t t' htt => ?_
    subst htt
    refine Even.same rfl fun src _ => ?_
    refine Even.same rfl fun templates _ => ?_
    refine Even.same rfl fun contexts _ => ?_
    dsimp only
    cases assoc contexts t.path with
    | none => exact .fail
    | some ctx =>
      dsimp only
      refine Even.same rfl fun H _ => ?_
      exact generate_alike (I := genInput env c t contexts) (z := q) H ctx fuel
  rcases key with ⟨e, h1, h2⟩ | ⟨x, y, h1, h2, -⟩ <;> rw [h1, h2]
  · exact ⟨⟨fun ⟨_, h⟩ => (by cases h), fun ⟨_, h⟩ => (by cases h)⟩, fun _ => Iff.rfl⟩
  · exact ⟨⟨fun _ => ⟨_, rfl⟩, fun _ => ⟨_, rfl⟩⟩, fun _ => ⟨fun h => (by cases h), fun h => (by cases h)⟩⟩

/-- A template with filters, a macro and a filter block. -/
def escaperSample : List (Str × Str) :=
  one c!"{% macro m(a) %}{{ a|e }}{{ a|escape(\"html\") }}{% endmacro %}{% let y = x %}{% call m(y) %}{% filter f %}{{ y }}<{% endfilter %}"

/-- The outcome, and the text. -/
def escaperRun (files : List (Str × Str)) (a : Str) : Except GErr (Option Str) :=
  match buildTemplate (toyEnv files) (toyConfig .preserve) c!"T" ⟨some (.path c!"a.html"), none, some a, none, none⟩ 50 with
  | .error e => .error e
  | .ok code => .ok (output toy code)

set_option maxRecDepth 100000 in
example : (∃ e ∈ (toyConfig .preserve).escapers, c!"html" ∈ e.1) ∧ (∃ e ∈ (toyConfig .preserve).escapers, c!"none" ∈ e.1)
    ∧ (escaperRun escaperSample c!"html").toOption.isSome = true ∧ (escaperRun escaperSample c!"none").toOption.isSome = true
    ∧ escaperRun (one c!"{{ x|json }}") c!"html" = .error .err ∧ escaperRun (one c!"{{ x|json }}") c!"none" = .error .err := by
  decide +kernel

end Askama.Props
