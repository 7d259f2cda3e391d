import Verif.Lemmas.Setting
import Verif.Lemmas.Outside
import Verif.Props.Space
import Verif.Props.NoPanic
import Verif.Props.Counter

/-! Whether a template compiles does not depend on the setting of white space, but for filter blocks and panics: C79. -/

namespace Askama.Props

open Askama Askama.Spec

/-- The heritage of a template is made of the templates. -/
theorem heritageOf_ok {P : Node → Prop} {cs : List (Str × Ctx)} {b : Option Str} {x : Ctx} {K : Option Heritage}
    (hcs : ∀ p y, assoc cs p = some y → CtxOk P y) (hx : CtxOk P x) (hK : heritageOf cs b x = .ok K) :
    ∀ k, K = some k → HOk P k := by
  rintro k rfl
  unfold heritageOf at hK
  split at hK
  · obtain ⟨k', e, hK⟩ := except_bind hK
    have : k' = k := by
      cases b with
      | none => cases hK; rfl
      | some b =>
        dsimp only at hK
        split at hK
        · cases hK
        · cases hK; rfl
    subst this
    exact heritageNew_ok hcs hx e
  · cases hK

/-- C79: a template without filter blocks that compiles with one setting of `whitespace` compiles with any other, or else the
macro panics; it never ends in an error or without an answer. What is missing for the full claim: filter blocks, for which it is
false (`C79_false`), and the panic, which does happen (`C79_false_panic`) and is ruled out in `C79_shallow_partial`. -/
theorem C79_setting_partial {env : DeriveEnv} {c : Config} (ws : WH) {ident : Str} {args : TemplateArgs} {fuel : Nat}
    {code : List Stmt} (h : buildTemplate env c ident args fuel = .ok code)
    (hf : ∀ w, load env c ident args fuel = some w → ∀ n, NodesOf w.input n → noFilterBlock n = true) :
    (∃ code', buildTemplate env { c with whitespace := ws } ident args fuel = .ok code')
      ∨ buildTemplate env { c with whitespace := ws } ident args fuel = .error .panic := by
  obtain ⟨w, H, t, h1, h2, h3, h4, h5, h6, -, -, h9⟩ := build_loads h
  have hI : ∀ p x, assoc w.input.contexts p = some x → CtxOk NoFb x := fun p x hp =>
    contextNew_parts (h5 p x hp) fun n hn => hf w h1 n ⟨p, x, hp, hn⟩
  have hl : load env { c with whitespace := ws } ident args fuel = some { w with input := { w.input with ws := ws } } := by
    rw [load_whitespace, h1]; rfl
  obtain ⟨t', k1, -, -, -, -, k6⟩ := load_parts hl
  have ht : t' = t := by
    have : TemplateInput.new env.files env.guess { c with whitespace := ws } ident args
        = TemplateInput.new env.files env.guess c ident args := rfl
    rw [this, h2] at k1
    exact (Except.ok.inj k1).symm
  subst ht
  have k6 : buildTemplate env { c with whitespace := ws } ident args fuel
      = (heritageOf w.input.contexts t'.block w.ctx).bind fun H => generate (wsI w.input ws) fuel H w.ctx := k6
  rw [k6, h6]
  rcases generate_like (w := ws) hI (heritageOf_ok hI (hI _ _ h4) h6) (hI _ _ h4) fuel _ h9 with e | ⟨code', e, -⟩
  · exact .inr e
  · exact .inl ⟨code', e⟩

/-- The argument `whitespace` of the attribute that asks for a setting. -/
def settingArg : WH → Str
  | .preserve => c!"preserve"
  | .suppress => c!"suppress"
  | .minimize => c!"minimize"

/-- The argument gives the configuration with that setting. -/
theorem config_setting {isWs : Char → Bool} {krate root : Str} {raw : RawConfig} {a : Option Str} {c : Config}
    (hc : Config.new isWs krate root raw a = .ok c) (ws : WH) :
    Config.new isWs krate root raw (some (settingArg ws)) = .ok { c with whitespace := ws } := by
  have e : ∀ g, whitespaceArg g (some (settingArg ws)) = .ok ws := by
    intro g; cases ws <;> rfl
  unfold Config.new at hc ⊢
  obtain ⟨general, syntaxes, escapers⟩ := raw
  cases general <;>
  · dsimp only at hc ⊢
    obtain ⟨x, -, hc⟩ := except_bind hc
    obtain ⟨s, h2, hc⟩ := except_bind hc
    simp only [e, h2, bind, Except.bind]
    split at hc
    · cases hc
    · rename_i hn
      rw [if_neg hn]
      cases hc
      rfl

/-- C79: for templates that are not deeply nested, with no filter blocks, no block in a macro and nothing included that is not
loaded, the argument `whitespace` has no part in whether the template compiles. -/
theorem C79_shallow_partial {isWs : Char → Bool} {krate root : Str} {raw : RawConfig} {a : Option Str} {env : DeriveEnv} {c : Config}
    (hc : Config.new isWs krate root raw a = .ok c) (ws : WH) {ident : Str} {args : TemplateArgs} {fuel : Nat} (hfuel : fuel ≤ 29)
    (hw : ∀ w, load env c ident args fuel = some w →
      w.input.placed = true ∧ w.input.includesLoaded = true ∧ ∀ n, NodesOf w.input n → noFilterBlock n = true) :
    ∃ c', Config.new isWs krate root raw (some (settingArg ws)) = .ok c' ∧ c'.whitespace = ws
      ∧ ((∃ code, buildTemplate env c ident args fuel = .ok code) ↔ ∃ code, buildTemplate env c' ident args fuel = .ok code) := by
  have hc' := config_setting hc ws
  refine ⟨_, hc', rfl, ?_, ?_⟩
  · rintro ⟨code, h⟩
    have ha : args.source ≠ none := by
      intro e
      unfold buildTemplate TemplateInput.new at h
      rw [e] at h
      cases h
    refine (C79_setting_partial ws h fun w hl => (hw w hl).2.2).resolve_right ?_
    refine shallow_no_panic env _ hc' ident args ha hfuel fun w hl => ?_
    rw [load_whitespace] at hl
    cases hl' : load env c ident args fuel with
    | none => rw [hl'] at hl; cases hl
    | some v =>
      rw [hl'] at hl
      cases hl
      exact ⟨(hw v hl').1, (hw v hl').2.1⟩
  · rintro ⟨code, h⟩
    have ha : args.source ≠ none := by
      intro e
      unfold buildTemplate TemplateInput.new at h
      rw [e] at h
      cases h
    have key := C79_setting_partial c.whitespace h fun w hl => by
      rw [load_whitespace] at hl
      cases hl' : load env c ident args fuel with
      | none => rw [hl'] at hl; cases hl
      | some v =>
        rw [hl'] at hl
        cases hl
        exact (hw v hl').2.2
    exact key.resolve_right (shallow_no_panic env c hc ident args ha hfuel fun w hl => ⟨(hw w hl).1, (hw w hl).2.1⟩)

/-- C79 is false with filter blocks: what is between the tags is dropped with one setting and a text with the other, and only with
a text is the filter looked at. -/
theorem C79_false :
    compiled (one c!"{% filter json %} {% endfilter %}") c!"a.html" none .preserve = .error .err
      ∧ compiled (one c!"{% filter json %} {% endfilter %}") c!"a.html" none .suppress = .ok (some []) := by decide +kernel

/-- A space inside of loops inside of each other. -/
def spaceInLoops (n : Nat) : Str :=
  (List.replicate n c!"{% for i in x %}").flatten ++ c!" " ++ (List.replicate n c!"{% endfor %}").flatten

/-- C79 is false without filter blocks: in 31 loops the line that writes the space is indented too far, and with the setting
`suppress` there is no such line. -/
theorem C79_false_panic : compiled (one (spaceInLoops 31)) c!"a.html" none .preserve = .error .panic
    ∧ ∃ out, compiled (one (spaceInLoops 31)) c!"a.html" none .suppress = .ok out :=
  ⟨by decide +kernel, none, by decide +kernel⟩

/-- A template with a base, in three settings. -/
def settingSample (ws : WH) : Except GErr (List Stmt) :=
  buildTemplate (toyEnv (spaceSample true)) (toyConfig ws) c!"T" (toyArgs c!"a.html" none) 20

/-- The conditions of `C79_shallow_partial` on what is loaded. -/
def settingFine (ws : WH) : Bool :=
  (load (toyEnv (spaceSample true)) (toyConfig ws) c!"T" (toyArgs c!"a.html" none) 20).any fun w =>
    w.input.placed && w.input.includesLoaded && w.input.contexts.all fun x => (partsL x.2.nodes).all noFilterBlock

/-- The configuration of the samples comes from a configuration file. -/
def settingRaw : RawConfig := { general := some { dirs := some [c!"t"], defaultSyntax := none, whitespace := .preserve }, syntaxes := none, escapers := none }

set_option maxRecDepth 100000 in
example : (∀ ws ∈ [WH.preserve, .suppress, .minimize], settingFine ws = true ∧ (settingSample ws).toOption.isSome = true)
    ∧ compiled (spaceSample true) c!"a.html" none .preserve ≠ compiled (spaceSample true) c!"a.html" none .suppress := by
  decide +kernel

example (ws : WH) : Config.new (fun _ => false) [] [] settingRaw (some (settingArg ws)) = .ok (toyConfig ws) := by
  cases ws <;> rfl

end Askama.Props
