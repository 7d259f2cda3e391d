import Verif.Lemmas.Fuel
import Verif.Lemmas.NoPanic
import Verif.Props.Render

/-!
C60: what keeps the derive macro from panicking. A panic is the error `.panic` of the model; the checks are in
`Verif.Spec.Refs`.
-/

namespace Askama.Props

open Askama Askama.Spec

/-- C60: reading the configuration never panics. -/
theorem C60_config_no_panic (isWs : Char → Bool) (krate root : Str) (raw : RawConfig) (ws : Option Str) :
    Config.new isWs krate root raw ws ≠ .error .panic := config_calm.not_panic

theorem _root_.Askama.Calm.got {α : Type} {x : Except GErr α} (h : Calm x) : Sat (fun a => x = .ok a) x :=
  h.also.mono fun _ h => h.2

theorem newInput_calm {files : Files} {guess : Str → Option Str} {c : Config}
    (hc : (assoc c.syntaxes c.defaultSyntax).isSome = true) {ident : Str} {args : TemplateArgs} (ha : args.source ≠ none) :
    Calm (TemplateInput.new files guess c ident args) := by
  unfold TemplateInput.new
  split
  · rename_i h; exact absurd h ha
  · refine Calm.bind ?_ fun path => Calm.bind ?_ fun syn => ?_
    · unfold templatePath
      repeat' split
      all_goals first | trivial | exact sat_err
    · unfold templateSyntax
      repeat' split
      · trivial
      · rename_i h; rw [h] at hc; cases hc
      · trivial
      · exact sat_err
    · dsimp only
      split
      · exact sat_err
      · trivial

theorem shallow_no_panic {isWs : Char → Bool} {krate root : Str} {raw : RawConfig} {ws : Option Str} (env : DeriveEnv)
    (c : Config) (hc : Config.new isWs krate root raw ws = .ok c) (ident : Str) (args : TemplateArgs)
    (ha : args.source ≠ none) {fuel : Nat} (hfuel : fuel ≤ 29)
    (hw : ∀ w, load env c ident args fuel = some w → w.input.placed = true ∧ w.input.includesLoaded = true) :
    buildTemplate env c ident args fuel ≠ .error .panic := by
  have hdef : (assoc c.syntaxes c.defaultSyntax).isSome = true := by
    have := config_calm (isWs := isWs) (krate := krate) (root := root) (raw := raw) (ws := ws)
    rw [hc] at this; exact this
  apply Sat.not_panic (P := fun _ => True)
  unfold buildTemplate
  refine Sat.bind (P := fun t => TemplateInput.new env.files env.guess c ident args = .ok t)
    (newInput_calm hdef ha).got fun t h1 => ?_
  refine Sat.bind (P := fun src => mainSource env t = .ok src) (Calm.got ?_) fun src h2 => ?_
  · unfold mainSource
    repeat' split
    all_goals first | trivial | exact sat_err
  refine Sat.bind (P := fun m => findUsedTemplates (env.loader c t.syn) fuel t.path src = .ok m)
    (checkLoop_calm _ _).got fun m h3 => ?_
  refine Sat.bind (P := fun cs => makeContexts (env.loader c t.syn).find (dedupKeys m []) = .ok cs)
    (makeContexts_calm _).got fun contexts h4 => ?_
  obtain ⟨hrefs, hmain⟩ := findUsedTemplates_refs h3
  have hparent : ∀ p x q, assoc contexts p = some x → x.extends_ = some q → (assoc contexts q).isSome = true := by
    intro p x q hp hq
    obtain ⟨nodes, h5, h6⟩ := makeContexts_assoc h4 hp
    rw [assoc_dedup] at h5
    simp only [List.not_mem_nil, if_false] at h5
    obtain ⟨r, hr, hf⟩ := (contextNew_refs h6).1.1 q hq
    obtain ⟨q', hq', hk⟩ := hrefs p nodes h5 r hr
    rw [hf] at hq'
    cases hq'
    rw [makeContexts_known h4]; exact hk
  have hx : (assoc contexts t.path).isSome = true := by rw [makeContexts_known h4]; exact hmain
  cases hctx : assoc contexts t.path with
  | none => rw [hctx] at hx; cases hx
  | some ctx =>
    dsimp only
    have hcn : ∀ p x, assoc contexts p = some x → contextNew ((env.loader c t.syn).find p) x.nodes = .ok x := by
      intro p x hp
      obtain ⟨nodes, -, h7⟩ := makeContexts_assoc h4 hp
      rw [(contextNew_refs h7).2]
      exact h7
    have hbl : ∀ p x, assoc contexts p = some x → BlocksOk x := fun p x hp => contextNew_blocks (hcn p x hp)
    refine Sat.bind (P := fun H => heritageOf contexts t.block ctx = .ok H) (Calm.got ?_)
      fun H h5 => ?_
    · unfold heritageOf
      split
      · refine Sat.bind (P := fun _ => True) (Sat.of ?_) fun h _ => ?_
        · intro h
          unfold Gen.heritageNew at h
          cases hch : Gen.heritageChain contexts (contexts.length + 2) ctx with
          | ok chain => rw [hch] at h; cases h
          | error e =>
            rw [hch] at h
            have := heritageChain_no_panic hparent _ (hparent _ _ · hctx) hch
            subst this
            cases h
        · repeat' split
          all_goals first | trivial | exact sat_err
      · trivial
    · obtain ⟨chain, h6, h7, h8⟩ := heritageOf_chain (I := genInput env c t contexts) rfl hbl (hbl _ _ hctx) h5
      obtain ⟨hpl, hinc⟩ := hw ⟨genInput env c t contexts, ctx, chain⟩ (by
        unfold load
        simp only [h1, h2, h3, h4, hctx, Option.bind_some]
        rw [show chainOf contexts ctx = some chain from h6]
        rfl)
      obtain ⟨n, hn⟩ := newInput_syntax h1
      have hI : ∀ p x, assoc (genInput env c t contexts).contexts p = some x → FineCtx (genInput env c t contexts) x := by
        intro p x hp
        refine contextNew_fine (hcn p x hp) (contexts_parsed (config_comments hc _ (assoc_pair hn)) h3 h4 hp) ?_ ?_
          (hparent p x · hp)
        · exact List.all_eq_true.mp (List.all_eq_true.mp hpl _ (assoc_pair hp))
        · exact List.all_eq_true.mp (List.all_eq_true.mp hinc _ (assoc_pair hp))
      have hc1 := hI _ _ hctx
      refine generate_calm hI hfuel ?_
      unfold heritageOf at h5
      split at h5
      · obtain ⟨h, h9, h5⟩ := except_bind h5
        have hs := heritageNew_calm hI hc1
        rw [show Gen.heritageNew (genInput env c t contexts).contexts ctx = .ok h from h9] at hs
        repeat' split at h5
        all_goals first | (cases h5; done) | (cases h5; exact hs)
      · rename_i hcond
        cases h5
        have he : ctx.extends_ = none := by
          cases hx : ctx.extends_ with
          | none => rfl
          | some p => rw [hx] at hcond; simp at hcond
        exact ⟨fun h n defs hh => (by cases hh), hc1.nodes none (fun h n hh => by cases hh), hc1.macros, hc1.root he⟩

/-- C60: compiling a template never panics — not while it is read, parsed and collected with the templates it refers
to, nor in the code generator — except for the ways that the checks `placed` (see `C60_false`) and
`includesLoaded` (see `C52_false_panic`) rule out and the overflow of the indentation (see `C60_false_depth`), which is
ruled out if at most 29 templates, blocks, tags and macro calls are inside of each other, so that the model comes to an
end with this depth. The configuration and the template are arbitrary otherwise; every template has a `path` or
`source` argument, without which the macro panics on purpose. -/
theorem C60_no_panic_partial {isWs : Char → Bool} {krate root : Str} {raw : RawConfig} {ws : Option Str} (env : DeriveEnv)
    (c : Config) (hc : Config.new isWs krate root raw ws = .ok c) (ident : Str) (args : TemplateArgs)
    (ha : args.source ≠ none) (fuel : Nat) (hd : buildTemplate env c ident args 29 ≠ .error .diverge)
    (hw : ∀ w, load env c ident args fuel = some w → w.input.placed = true ∧ w.input.includesLoaded = true) :
    buildTemplate env c ident args fuel ≠ .error .panic := by
  by_cases hf : fuel ≤ 29
  · exact shallow_no_panic env c hc ident args ha hf hw
  · rcases buildTemplate_mono env c ident args (show 29 ≤ fuel by omega) with h | h
    · exact absurd h hd
    · rw [← h]
      refine shallow_no_panic env c hc ident args ha (Nat.le_refl _) fun w hl => hw w ?_
      rcases load_mono env c ident args (show 29 ≤ fuel by omega) with h | h
      · rw [h] at hl; cases hl
      · rw [← h]; exact hl

/-- C60: if references mean the same in all templates, as when all of them are in one directory, what is to be avoided
is only a block or macro inside a macro or filter block. -/
theorem C60_no_panic_one_directory {isWs : Char → Bool} {krate root : Str} {raw : RawConfig} {ws : Option Str}
    (env : DeriveEnv) (c : Config) (hc : Config.new isWs krate root raw ws = .ok c) (ident : Str) (args : TemplateArgs)
    (ha : args.source ≠ none) (fuel : Nat) (hd : buildTemplate env c ident args 29 ≠ .error .diverge)
    (hw : ∀ w, load env c ident args fuel = some w → w.input.placed = true ∧ w.input.topMacros = true
      ∧ ∀ p ∈ w.input.contexts.map (·.1), ∀ r, c.findTemplate env.files r (some p) = w.input.find r) :
    buildTemplate env c ident args fuel ≠ .error .panic := by
  refine C60_no_panic_partial env c hc ident args ha fuel hd fun w hl => ⟨(hw w hl).1, ?_⟩
  obtain ⟨-, htop, hdir⟩ := hw w hl
  unfold load at hl
  split at hl
  · cases hl
  · rename_i t h1
    split at hl
    · cases hl
    · rename_i src h2
      split at hl
      · cases hl
      · rename_i m h3
        split at hl
        · cases hl
        · rename_i contexts h4
          cases hctx : assoc contexts t.path with
          | none => rw [hctx] at hl; cases hl
          | some ctx =>
            rw [hctx] at hl
            dsimp only [Option.bind_some] at hl
            cases hch : chainOf contexts ctx with
            | none => rw [hch] at hl; cases hl
            | some chain =>
              rw [hch] at hl
              cases hl
              obtain ⟨hrefs, -⟩ := findUsedTemplates_refs h3
              unfold GenInput.includesLoaded
              refine List.all_eq_true.mpr fun e he => List.all_eq_true.mpr fun n hn => ?_
              cases n with
              | «include» w r =>
                have hr := include_refs e.2.nodes (List.all_eq_true.mp htop e he) hn
                have hk : ∃ nodes, assoc m e.1 = some nodes ∧ e.2.nodes = nodes := makeContexts_mem h4 he
                obtain ⟨nodes, h5, h6⟩ := hk
                rw [h6] at hr
                obtain ⟨q, h7, h8⟩ := hrefs e.1 nodes h5 r hr
                have h9 : (genInput env c t contexts).find r = some q := by
                  rw [← h7]; exact (hdir e.1 (List.mem_map_of_mem he) r).symm
                simp only [includeLoaded, h9]
                exact (makeContexts_known h4 q).trans h8
              | _ => rfl

/-! ## Examples -/

/-- The checks, on the templates of `sample`: a base, a template that is included and one with macros. -/
theorem sample_checks : (load (toyEnv sample) (toyConfig .preserve) c!"T" (toyArgs c!"a.html" none) 50).map
      (fun w => (w.input.placed, w.input.includesLoaded, w.input.topMacros, w.input.contexts.map (·.1)))
    = some (true, true, true, [c!"t/foot.html", c!"t/base.html", c!"t/m.html", c!"t/a.html"]) := by decide +kernel

theorem sample_shallow : buildTemplate (toyEnv sample) (toyConfig .preserve) c!"T" (toyArgs c!"a.html" none) 29
    ≠ .error .diverge := by
  have : (match buildTemplate (toyEnv sample) (toyConfig .preserve) c!"T" (toyArgs c!"a.html" none) 29 with
    | .error .diverge => true
    | _ => false) = false := by decide +kernel
  intro h
  rw [h] at this
  cases this

example : buildTemplate (toyEnv sample) (toyConfig .preserve) c!"T" (toyArgs c!"a.html" none) 50 ≠ .error .panic := by
  refine C60_no_panic_partial _ _ toyConfig_new _ _ (by simp [toyArgs]) _ sample_shallow fun w hw => ?_
  have := sample_checks
  rw [hw] at this
  simp only [Option.map_some, Option.some.injEq, Prod.mk.injEq] at this
  exact ⟨this.1, this.2.1⟩

/-- Errors remain: an unknown filter, block fragment, macro or template. -/
example : compiled (one c!"{{ x|json }}") c!"a.html" = .error .err
    ∧ compiled (one c!"{% block a %}{% endblock %}") c!"a.html" (some c!"b") = .error .err
    ∧ compiled (one c!"{% call m() %}") c!"a.html" = .error .err
    ∧ compiled (one c!"{% include \"b.html\" %}") c!"a.html" = .error .err := by decide +kernel

end Askama.Props
