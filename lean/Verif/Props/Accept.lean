import Verif.Lemmas.Needed
import Verif.Props.Doc
import Verif.Props.Render

/-!
# Which templates compile (C67)

Templates that stand alone and keep the rules of `Verif.Spec.Accept` are accepted.
-/

namespace Askama.Props

open Spec PT

/-- C67: a template that stands alone and keeps the rules compiles, whatever the configuration, with every bound on the
nesting that it keeps below. -/
theorem C67_compiles {isWs : Char → Bool} {krate root : Str} {raw : RawConfig} {ws : Option Str} {env : DeriveEnv} {c : Config}
    (hc : Config.new isWs krate root raw ws = .ok c) {ident : Str} {args : TemplateArgs} {t : TemplateInput}
    (ht : TemplateInput.new env.files env.guess c ident args = .ok t) {src : Str} (hs : mainSource env t = .ok src)
    {nodes : List Node} (hp : parseNodes env.isLower t.syn src = some nodes) {n : Nat} (hn : n ≤ 29)
    (hw : wellFormed ⟨env.json, c.escapers⟩ n nodes = true) :
    ∃ code, ∀ fuel ≥ n, buildTemplate env c ident args fuel = .ok code := by
  obtain ⟨k, hk⟩ := newInput_syntax ht
  obtain ⟨code, h⟩ := alone_builds ht (config_comments hc _ (assoc_pair hk)) hs hp hn hw
  refine ⟨code, fun fuel hf => ?_⟩
  rcases buildTemplate_mono env c ident args hf with e | e
  · rw [h] at e; cases e
  · exact e.symm.trans h

/-- C67: what compiles keeps the rules, for templates that stand alone. Left out are the constructs that are not checked in
full (`C67_unchecked`). -/
theorem C67_rules_needed {isWs : Char → Bool} {krate root : Str} {raw : RawConfig} {ws : Option Str} {env : DeriveEnv} {c : Config}
    (hc : Config.new isWs krate root raw ws = .ok c) {ident : Str} {args : TemplateArgs} (hb : args.block = none)
    {t : TemplateInput} (ht : TemplateInput.new env.files env.guess c ident args = .ok t) {src : Str}
    (hs : mainSource env t = .ok src) {nodes : List Node} (hp : parseNodes env.isLower t.syn src = some nodes)
    (ha : standsAlone nodes = true) (hsi : (partsL nodes).all simpleNode = true) {fuel : Nat} {code : List Stmt}
    (h : buildTemplate env c ident args fuel = .ok code) : wellFormed ⟨env.json, c.escapers⟩ fuel nodes = true := by
  obtain ⟨k, hk⟩ := newInput_syntax ht
  exact alone_needs hb ht (newInput_block ht) (config_comments hc _ (assoc_pair hk)) hs hp ha hsi h

/-- C67: so the rules decide which templates compile. -/
theorem C67_compiles_iff {isWs : Char → Bool} {krate root : Str} {raw : RawConfig} {ws : Option Str} {env : DeriveEnv} {c : Config}
    (hc : Config.new isWs krate root raw ws = .ok c) {ident : Str} {args : TemplateArgs} (hb : args.block = none)
    {t : TemplateInput} (ht : TemplateInput.new env.files env.guess c ident args = .ok t) {src : Str}
    (hs : mainSource env t = .ok src) {nodes : List Node} (hp : parseNodes env.isLower t.syn src = some nodes)
    (ha : standsAlone nodes = true) (hsi : (partsL nodes).all simpleNode = true) {fuel : Nat} (hf : fuel ≤ 29) :
    (∃ code, buildTemplate env c ident args fuel = .ok code) ↔ wellFormed ⟨env.json, c.escapers⟩ fuel nodes = true :=
  ⟨fun ⟨_, h⟩ => C67_rules_needed hc hb ht hs hp ha hsi h,
    fun h => let ⟨code, hk⟩ := C67_compiles hc ht hs hp hf h; ⟨code, hk fuel (Nat.le_refl _)⟩⟩

/-- Rules are not checked in a filter block without text at its end, in the rest of a pattern after a name that is shadowed,
and for the arguments that are not used when two parameters have the same name. -/
theorem C67_unchecked : [c!"{% filter fmt(1) %}{% endfilter %}", c!"{{ x|fmt(y) }}{% filter upper %}{% endfilter %}",
    c!"{% let x = 1 %}{% let (x, 2) = y %}", c!"{% macro m(a, a) %}{% endmacro %}{% call m(x|fmt(y), a = 1) %}"].all (fun s =>
      (parseNodes Char.isLower Syntax.default s).map (wellFormed ⟨false, (toyConfig .preserve).escapers⟩ 20) = some false
      ∧ (buildTemplate (toyEnv [(c!"t/a.html", s)]) (toyConfig .preserve) c!"T" (toyArgs c!"a.html" none) 20).toOption.isSome
        = true) = true := by decide +kernel

/-- C67: the whole way from the text to what is rendered. A template with usable delimiters that is written as in
`Verif.Spec.Doc`, stands alone and keeps the rules is read as it is written, compiles, and renders what it says or fails as
it would, for the constructs of `Verif.Spec.Core`. -/
theorem C67_written_to_rendered (W : World U) (hs : Stable W) {isWs : Char → Bool} {krate root : Str} {raw : RawConfig}
    {ws : Option Str} {env : DeriveEnv} {c : Config} (hc : Config.new isWs krate root raw ws = .ok c) {ident : Str}
    {args : TemplateArgs} (hb : args.block = none) {t : TemplateInput}
    (ht : TemplateInput.new env.files env.guess c ident args = .ok t) (hsyn : Usable t.syn) {ds : List Doc}
    (hsrc : mainSource env t = .ok (Doc.texts t.syn ds)) (hok : Doc.Oks t.syn env.isLower false ds) (hd : Doc.needs ds ≤ 128) {n : Nat}
    (hn : n ≤ 29) (hw : wellFormed ⟨env.json, c.escapers⟩ n (Doc.nodes t.syn ds) = true)
    (hcore : coreList true (Doc.nodes t.syn ds) = true) {fuel : Nat} (hf : n ≤ fuel) :
    ∃ code w, buildTemplate env c ident args fuel = .ok code ∧ load env c ident args fuel = some w
      ∧ w.ctx.nodes = Doc.nodes t.syn ds ∧ output W code = w.text W fuel := by
  have hp : parseNodes env.isLower t.syn (Doc.texts t.syn ds) = some (Doc.nodes t.syn ds) := by
    unfold parseNodes
    rw [C66_tags_read t.syn hsyn env.isLower ds hok hd]
  obtain ⟨code, h⟩ := C67_compiles hc ht hsrc hp hn hw
  have h := h fuel hf
  obtain ⟨w, h1, h2⟩ := C38_code_is_faithful W hs env c hc ident args hb fuel code h
  have hal : standsAlone (Doc.nodes t.syn ds) = true := by
    unfold wellFormed at hw
    exact (Bool.and_eq_true_iff.mp hw).1
  cases fuel with
  | zero =>
    obtain rfl : n = 0 := by omega
    simp [wellFormed, nodesFit] at hw
  | succ fuel =>
    obtain ⟨h3, h4⟩ := alone_load ht hsrc hp hal h1
    refine ⟨code, w, h, h1, h4, h2 ?_⟩
    unfold Whole.core
    rw [h3]
    simp [h4, hcore]

/-! ## The hypotheses can be met -/

/-- A template with most of what may be written in a template that stands alone. -/
def aloneText : Str :=
  c!"{% macro m(a, b) %}<{{ a }}{% if b %}!{% endif %}>{% endmacro %}Hi {{ x.y|upper|e }}{% let (p, q) = r %}{% for i in p if i > 2 %}{{ loop.index }}{% call m(loop.cycle([1, 2]), b = q) %}{% else %}-{% endfor %}{% match z %}{% when Some with (v) %}{% filter fmt(\"{:?}\")|trim %}{{ v }}{% endfilter %}{% when None %}{% call m(b = true, a = q) %}{% endmatch %}"

example : (parseNodes Char.isLower Syntax.default aloneText).map
    (wellFormed ⟨false, (toyConfig .preserve).escapers⟩ 4) = some true := by decide +kernel

example : (buildTemplate (toyEnv [(c!"t/a.html", aloneText)]) (toyConfig .preserve) c!"T" (toyArgs c!"a.html" none) 4).toOption.isSome
    = true := by decide +kernel

/-- What breaks a rule. -/
example : [c!"{{ loop.length }}", c!"{{ loop.cycle([]) }}", c!"{{ x|fmt(y) }}", c!"{{ x|e(\"nope\") }}", c!"{{ x|safe(1) }}",
    c!"{{ x|json }}", c!"{% call m() %}", c!"{% macro m(a) %}{% endmacro %}{% call m(1, 2) %}",
    c!"{% macro m(a) %}{% endmacro %}{% call m(b = 2) %}", c!"{% macro m() %}{% call m() %}{% endmacro %}{% call m() %}",
    c!"{% let 1 = x %}", c!"{% filter e(1) %}{% endfilter %}"].all (fun s =>
      (parseNodes Char.isLower Syntax.default s).map (wellFormed ⟨false, (toyConfig .preserve).escapers⟩ 20) = some false)
    = true := by decide +kernel

/-- `Hi {{- x|upper }}{% if y %}!{% else %}{% for i in z %}{{ loop.index }}{% endfor %}{% endif %}` -/
def aloneDoc : List Doc :=
  [.text c!"Hi ", .expr (.std (some .suppress) none) (.filter (.var c!"x") c!"upper" []),
   .if_ (.std none none) (.plain (.var c!"y")) [.text c!"!"]
     [.else_ (.std none none) [.for_ (.std none none) (.var c!"i") (.var c!"z") none
       [.expr (.std none none) (.attr (.var c!"loop") c!"index")] .none (.std none none)]] (.std none none)]

example : Doc.texts Syntax.default aloneDoc
    = c!"Hi {{- x|upper }}{% if y %}!{% else %}{% for i in z %}{{ loop.index }}{% endfor %}{% endif %}" := by decide +kernel

example : Doc.Oks Syntax.default Char.isLower false aloneDoc ∧ Doc.needs aloneDoc ≤ 128
    ∧ wellFormed ⟨false, (toyConfig .preserve).escapers⟩ 3 (Doc.nodes Syntax.default aloneDoc) = true
    ∧ coreList true (Doc.nodes Syntax.default aloneDoc) = true := by
  refine ⟨?_, by decide +kernel, by decide +kernel, by decide +kernel⟩
  simp only [aloneDoc, Doc.Oks, Doc.Ok, DocBranch.Oks, DocBranch.Ok, Else.Ok, DocTest.Ok, Tm.Ok, Tm.Oks, Pt.Ok, Tm.first]
  repeat' first
    | exact trivial
    | exact name_b (by decide)
    | exact var_b (by decide)
    | exact text_b (by decide)
    | exact number_digits (by decide)
    | exact .inl (by decide)
    | decide
    | apply And.intro
    | (intro _ h; cases h; done)
  exact .inl (name_b (by decide))

end Askama.Props
