import Verif.Lemmas.TreeNeeded
import Verif.Props.Accept

/-!
# Which templates compile (C67): templates with all that belongs to them

As in `Verif.Props.Accept`, for templates that extend, include and import others. The rules are in `Verif.Spec.Tree`.
-/

namespace Askama.Props

open Spec

/-- C67: a template compiles if all templates that belong to it were found and read, and it keeps the rules together with
them: its own nodes, the blocks where they end up, the macros it calls, and the templates it includes. -/
theorem C67_tree_compiles {isWs : Char → Bool} {krate root : Str} {raw : RawConfig} {ws : Option Str} {env : DeriveEnv}
    {c : Config} (hc : Config.new isWs krate root raw ws = .ok c) {ident : Str} {args : TemplateArgs} (hb : args.block = none)
    {m : Nat} {w : Whole} (hl : load env c ident args m = some w) {n : Nat} (hn : n ≤ 29) (hw : w.fits n = true) :
    ∃ code, ∀ fuel, m ≤ fuel → n ≤ fuel → buildTemplate env c ident args fuel = .ok code := by
  have hk : ∀ k, m ≤ k → load env c ident args k = some w := by
    intro k hk
    rcases load_mono env c ident args hk with e | e
    · rw [hl] at e; cases e
    · rw [← e]; exact hl
  obtain ⟨code, h⟩ := tree_builds (config_comments hc) hb (hk (max m n) (by omega)) hn hw (by omega)
  refine ⟨code, fun fuel h1 h2 => ?_⟩
  rcases buildTemplate_mono env c ident args (show max m n ≤ fuel by omega) with e | e
  · rw [h] at e; cases e
  · exact e.symm.trans h

/-- C67: and it renders what it says or fails as it would, with the constructs of `Verif.Spec.Core` or if the check passes. -/
theorem C67_tree_renders (W : World U) (hs : Stable W) {isWs : Char → Bool} {krate root : Str} {raw : RawConfig}
    {ws : Option Str} {env : DeriveEnv} {c : Config} (hc : Config.new isWs krate root raw ws = .ok c) {ident : Str}
    {args : TemplateArgs} (hb : args.block = none) {m : Nat} {w : Whole} (hl : load env c ident args m = some w) {n : Nat}
    (hn : n ≤ 29) (hw : w.fits n = true) {fuel : Nat} (h1 : m ≤ fuel) (h2 : n ≤ fuel)
    (hg : w.core = true ∨ w.good fuel = true) :
    ∃ code, buildTemplate env c ident args fuel = .ok code ∧ output W code = w.text W fuel := by
  obtain ⟨code, h⟩ := C67_tree_compiles hc hb hl hn hw
  have h := h fuel h1 h2
  have hl' : load env c ident args fuel = some w := by
    rcases load_mono env c ident args h1 with e | e
    · rw [hl] at e; cases e
    · rw [← e]; exact hl
  refine ⟨code, h, ?_⟩
  rcases hg with hg | hg
  · obtain ⟨w', e, k⟩ := C38_code_is_faithful W hs env c hc ident args hb fuel code h
    rw [hl'] at e; cases e
    exact k hg
  · obtain ⟨w', e, k⟩ := C38_code_is_faithful_partial W hs env c ident args hb fuel code h
    rw [hl'] at e; cases e
    exact k hg

/-- C67: what compiles was found and read, and keeps the rules. Left out are the constructs that are not checked in full
(`C67_unchecked`). -/
theorem C67_tree_rules_needed {isWs : Char → Bool} {krate root : Str} {raw : RawConfig} {ws : Option Str} {env : DeriveEnv}
    {c : Config} (hc : Config.new isWs krate root raw ws = .ok c) {ident : Str} {args : TemplateArgs} (hb : args.block = none)
    {fuel : Nat} {code : List Stmt} (h : buildTemplate env c ident args fuel = .ok code) :
    ∃ w, load env c ident args fuel = some w ∧ (w.simple → w.fits fuel = true) :=
  tree_needs (config_comments hc) hb h

/-- C67: so the rules decide which templates compile. -/
theorem C67_tree_compiles_iff {isWs : Char → Bool} {krate root : Str} {raw : RawConfig} {ws : Option Str} {env : DeriveEnv}
    {c : Config} (hc : Config.new isWs krate root raw ws = .ok c) {ident : Str} {args : TemplateArgs} (hb : args.block = none)
    {fuel : Nat} (hf : fuel ≤ 29) (hs : ∀ w, load env c ident args fuel = some w → w.simple) :
    (∃ code, buildTemplate env c ident args fuel = .ok code) ↔
      ∃ w, load env c ident args fuel = some w ∧ w.fits fuel = true := by
  constructor
  · rintro ⟨code, h⟩
    obtain ⟨w, h1, h2⟩ := C67_tree_rules_needed hc hb h
    exact ⟨w, h1, h2 (hs w h1)⟩
  · rintro ⟨w, h1, h2⟩
    obtain ⟨code, h⟩ := C67_tree_compiles hc hb h1 hf h2
    exact ⟨code, h fuel (Nat.le_refl _) (Nat.le_refl _)⟩

/-! ## The hypotheses can be met -/

/-- Three templates without filter blocks. -/
def treeSample : List (Str × Str) :=
  [(c!"t/a.html", c!"{% extends \"base.html\" %}{% import \"m.html\" as m %}{% block main %}{% call super() %}{% let y = x %}{% call m::bold(y, n = 5) %}{% block inner %}{% include \"m.html\" %}{% endblock %}{% endblock %}"),
   (c!"t/base.html", c!"<h1>{{ title }}</h1>{% block main %}[{{ x }}]{% endblock %}{% block inner %}{% endblock %}"),
   (c!"t/m.html", c!"{% macro bold(t, n) %}<b>{{ t }}:{{ n|e }}</b>{% endmacro %}text")]

example : (load (toyEnv treeSample) (toyConfig .preserve) c!"T" (toyArgs c!"a.html" none) 5).map (fun w =>
    (w.input.contexts.all fun e => (partsL e.2.nodes).all simpleNode, w.fits 5)) = some (true, true)
  ∧ (buildTemplate (toyEnv treeSample) (toyConfig .preserve) c!"T" (toyArgs c!"a.html" none) 5).toOption.isSome = true := by
  decide +kernel

/-- The sample of `Verif.Props.Render`: with `extends`, `super()`, `include`, `import` and a macro from elsewhere. -/
example : (load (toyEnv sample) (toyConfig .preserve) c!"T" (toyArgs c!"a.html" none) 4).map (fun w => (w.fits 4, w.fits 3, w.good 50))
    = some (true, false, true) := by decide +kernel

/-- What breaks a rule: `super()` outside of a block or without a definition further up, a block inside of itself, a
template that includes itself, and a macro that is not in the imported template. -/
example : [c!"{% call super() %}", c!"{% block a %}{% call super() %}{% endblock %}",
    c!"{% block a %}{% include \"a.html\" %}{% endblock %}", c!"{% import \"m.html\" as m %}{% call m::other() %}",
    c!"{% extends \"base.html\" %}{% block a %}{% macro m() %}{% endmacro %}{% endblock %}{% block main %}{% block main %}{% endblock %}{% endblock %}"].all
    (fun s => match load (toyEnv ((c!"t/a.html", s) :: sample.drop 1)) (toyConfig .preserve) c!"T" (toyArgs c!"a.html" none) 5 with
      | some w => !w.fits 20
      | none => true) = true := by decide +kernel

end Askama.Props
