import Verif.Lemmas.Woven
import Verif.Props.Render
import Verif.Props.Escape

/-! Automatic escaping in whole templates: C49. -/

namespace Askama.Props

open Askama Askama.Spec

variable {U : Type}

theorem generate_nodesOf {W : World U} {env : DeriveEnv} {c : Config} {ident : Str} {args : TemplateArgs} {fuel : Nat}
    {code : List Stmt} (h : buildTemplate env c ident args fuel = .ok code) :
    ∃ w t, load env c ident args fuel = some w ∧ TemplateInput.new env.files env.guess c ident args = .ok t
      ∧ w.input.escaper = t.escaper ∧ SW W w.input (NodesOf w.input) code := by
  obtain ⟨w, H, t, h1, h2, h3, h4, h5, h6, -, -, h9⟩ := build_loads h
  refine ⟨w, t, h1, h2, by rw [h3]; rfl, ?_⟩
  have hI : ∀ p x, assoc w.input.contexts p = some x → CtxOk (NodesOf w.input) x := fun p x hp =>
    contextNew_parts (h5 p x hp) fun n hn => ⟨p, x, hp, hn⟩
  refine generate_woven hI ?_ (hI _ _ h4) h9
  rintro hh rfl
  unfold heritageOf at h6
  split at h6
  · obtain ⟨hh', h10, h6⟩ := except_bind h6
    have : hh' = hh := by
      cases hb : t.block with
      | none => rw [hb] at h6; cases h6; rfl
      | some b =>
        rw [hb] at h6
        dsimp only at h6
        split at h6
        · cases h6
        · cases h6; rfl
    subst this
    exact heritageNew_ok hI (hI _ _ h4) h10
  · cases h6

/-- C49: for every template that compiles, every setting and every world of values, the rendered text consists of
literal text of the templates that belong to it, of texts that went through the template's escaper, and of values of
displayed expressions whose outermost filter is `safe`, `escape` or `e`. -/
theorem C49_no_holes (W : World U) (env : DeriveEnv) (c : Config) (ident : Str) (args : TemplateArgs) (fuel : Nat)
    (code : List Stmt) (h : buildTemplate env c ident args fuel = .ok code) (text : Str)
    (ht : output W code = some text) :
    ∃ w t, load env c ident args fuel = some w ∧ TemplateInput.new env.files env.guess c ident args = .ok t
      ∧ w.input.escaper = t.escaper ∧ Woven W w.input (NodesOf w.input) text := by
  obtain ⟨w, t, h1, h2, h3, h4⟩ := generate_nodesOf (W := W) h
  refine ⟨w, t, h1, h2, h3, ?_⟩
  unfold output at ht
  rw [Option.map_eq_some_iff] at ht
  obtain ⟨x, h5, rfl⟩ := ht
  exact h4 _ x h5

/-- C49 for HTML: if the template's escaper is the HTML escaper and nothing opts out, the rendered text is made of literal
text of the templates and of texts that are inert in HTML. -/
theorem C49_html (W : World U) (env : DeriveEnv) (c : Config) (ident : Str) (args : TemplateArgs) (fuel : Nat)
    (code : List Stmt) (h : buildTemplate env c ident args fuel = .ok code) (text : Str)
    (ht : output W code = some text) :
    ∃ w, load env c ident args fuel = some w
      ∧ ((∀ s, W.escape w.input.escaper s = htmlEscape s) → (∀ n e, NodesOf w.input n → Shows n e → ¬ OptsOut e) →
        ∃ pieces : List Str, text = pieces.flatten
          ∧ ∀ s ∈ pieces, HtmlInert s ∨ ∃ n l, NodesOf w.input n ∧ IsText n l ∧ TextPiece l s) := by
  obtain ⟨w, t, h1, -, -, h4⟩ := C49_no_holes W env c ident args fuel code h text ht
  refine ⟨w, h1, fun hesc hno => ?_⟩
  generalize NodesOf w.input = P at h4 hno
  clear ht h h1
  induction h4 with
  | nil => exact ⟨[], rfl, by simp⟩
  | text n l s u hn hl hs _ ih =>
    obtain ⟨ps, rfl, hp⟩ := ih
    refine ⟨s :: ps, rfl, ?_⟩
    intro x hx
    rcases List.mem_cons.mp hx with rfl | hx
    · exact .inr ⟨n, l, hn, hl, hs⟩
    · exact hp x hx
  | escaped s u _ ih =>
    obtain ⟨ps, rfl, hp⟩ := ih
    refine ⟨W.escape w.input.escaper s :: ps, rfl, ?_⟩
    intro x hx
    rcases List.mem_cons.mp hx with rfl | hx
    · left; rw [hesc]; exact htmlEscape_inert s
    · exact hp x hx
  | optedOut n e v k s u hn he ho _ _ _ _ => exact absurd ho (hno n e hn he)

/-- Does the node display something that opts out? -/
def optsOutB : Node → Bool
  | .expr _ (.filter n _) => [c!"safe", c!"escape", c!"e"].contains n
  | .filterBlock _ f _ _ => [c!"safe", c!"escape", c!"e"].contains f.name
  | _ => false

theorem optsOutB_spec (n : Node) (h : optsOutB n = false) (e : Expr) (hs : Shows n e) : ¬ OptsOut e := by
  rintro ⟨name, args, rfl, hn⟩
  cases hs <;> simp_all [optsOutB]

/-- Values that look like markup. -/
def markup : World Toy := { toy with escape := fun _ s => htmlEscape s }

/-- A template, its base and a template with macros, which display markup. -/
def escSample (last : Str) : List (Str × Str) :=
  [(c!"t/a.html", c!"{% extends \"base.html\" %}{% import \"m.html\" as m %}{% block main %}{% let y = \"<i>\" %}{% call m::bold(y) %}{% filter upper %}<u>{{ y }}{% endfilter %}"
      ++ last ++ c!"{% endblock %}"),
   (c!"t/base.html", c!"<p>{% block main %}{% endblock %}</p>"),
   (c!"t/m.html", c!"{% macro bold(t) %}<b>{{ t }}</b>{% endmacro %}")]

/-- All displayed values are escaped, the text of a filter block too; `safe` opts out. -/
example : ((buildTemplate (toyEnv (escSample [])) (toyConfig .preserve) c!"T" (toyArgs c!"a.html" none) 50).toOption.bind
      (output markup) = some c!"<p><b>&lt;i&gt;</b>upper(&lt;u&gt;&amp;lt;i&amp;gt;)</p>")
    ∧ ((load (toyEnv (escSample [])) (toyConfig .preserve) c!"T" (toyArgs c!"a.html" none) 50).map fun w =>
        w.input.contexts.map fun x => (partsL x.2.nodes).any optsOutB) = some [false, false, false]
    ∧ ((buildTemplate (toyEnv (escSample c!"{{ y|safe }}")) (toyConfig .preserve) c!"T" (toyArgs c!"a.html" none) 50).toOption.bind
      (output markup) = some c!"<p><b>&lt;i&gt;</b>upper(&lt;u&gt;&amp;lt;i&amp;gt;)<i></p>") := by decide +kernel

end Askama.Props
