import Verif.Lemmas.Comments
import Verif.Spec.Toy

/-! # What comments say is irrelevant: C25 -/

namespace Askama.Props

open Askama Askama.Spec Askama.Gen

theorem findTemplate_exist {fs fs' : Files} {c c' : Config} (h : fs'.exist = fs.exist) (hc : c'.dirs = c.dirs) (p : Str)
    (s : Option Str) : c'.findTemplate fs' p s = c.findTemplate fs p s := by
  have hd : ∀ ds, findInDirs fs' p ds = findInDirs fs p ds := by
    intro ds
    induction ds with
    | nil => rfl
    | cons d ds ih => simp only [findInDirs, h, ih]
  unfold Config.findTemplate
  simp only [h, hd, hc]

theorem map_some_same {p q : Str → Option (List Node)} {x y : Str} (h : (p x).map silenceAll = (q y).map silenceAll) :
    (some y).map (fun x => (q x).map silenceAll) = (some x).map (fun x => (p x).map silenceAll) := congrArg some h.symm

theorem sameFile_map {isLower : Char → Bool} {s s' : Syntax} {a b : Option Str} (h : SameFile isLower s s' a b) :
    b.map (fun x => (parseNodes isLower s' x).map silenceAll) = a.map (fun x => (parseNodes isLower s x).map silenceAll) := by
  cases a with
  | none =>
    cases b with
    | none => rw [Option.map_none, Option.map_none]
    | some y => exact h.elim
  | some x =>
    cases b with
    | none => exact h.elim
    | some y =>
      have h : SameButComments isLower s s' x y := h
      exact map_some_same h

section
variable {c c' : Config} {s s' : Syntax} {env env' : DeriveEnv} {args args' : TemplateArgs}
  (h : DifferInSyntax c c' s s' env env' args args')
include h

/-- The template is read from the same place, with the same settings. -/
theorem input_same (ident : Str) :
    match TemplateInput.new env.files env.guess c ident args, TemplateInput.new env'.files env'.guess c' ident args' with
    | .ok t, .ok t' => t.syn = s ∧ t' = { t with source := t'.source, syn := s' } ∧ SameSource env.isLower s s' (some t.source) (some t'.source)
    | .error e, .error e' => e' = e
    | _, _ => False := by
  have hp : ∀ (src src' : Source), SameSource env.isLower s s' (some src) (some src') →
      templatePath env'.files c' ident args.ext src' = templatePath env.files c ident args.ext src := by
    intro src src' hs
    cases src with
    | path p =>
      cases src' with
      | path q =>
        have : p = q := hs
        subst this
        simp only [templatePath, findTemplate_exist h.exist h.dirs]
      | source _ => exact hs.elim
    | source a =>
      cases src' with
      | path q => exact hs.elim
      | source b => rfl
  have hso := h.source
  unfold TemplateInput.new
  rw [h.escaping, h.ext, h.block, h.guess, h.escapers]
  cases ha : args.source with
  | none =>
    cases hb : args'.source with
    | none => rfl
    | some b => rw [ha, hb] at hso; exact hso.elim
  | some a =>
    cases hb : args'.source with
    | none => rw [ha, hb] at hso; cases a <;> exact hso.elim
    | some b =>
      rw [ha, hb] at hso
      dsimp only
      rw [hp a b hso]
      cases templatePath env.files c ident args.ext a with
      | error e => rfl
      | ok path =>
        rw [h.known, h.known']
        simp only [bind, Except.bind]
        cases selectEscaper c.escapers (args.escaping.getD ((Path.extension path).getD [])) with
        | none => rfl
        | some x => exact ⟨rfl, rfl, hso⟩

theorem main_same {t t' : TemplateInput} (ht : t' = { t with source := t'.source, syn := s' })
    (hs : SameSource env.isLower s s' (some t.source) (some t'.source)) :
    match mainSource env t, mainSource env' t' with
    | .ok a, .ok b => SameButComments env.isLower s s' a b
    | .error e, .error e' => e' = e
    | _, _ => False := by
  have hp : t'.path = t.path := by rw [ht]
  unfold mainSource
  cases ha : t.source with
  | path p =>
    cases hb : t'.source with
    | source b => rw [ha, hb] at hs; exact hs.elim
    | path q =>
      have hf := h.files t.path
      dsimp only
      rw [hp]
      cases h1 : getTemplateSource env.files t.path with
      | none =>
        cases h2 : getTemplateSource env'.files t.path with
        | none => rfl
        | some y => rw [h1, h2] at hf; exact hf.elim
      | some x =>
        cases h2 : getTemplateSource env'.files t.path with
        | none => rw [h1, h2] at hf; exact hf.elim
        | some y => rw [h1, h2] at hf; exact hf
  | source a =>
    cases hb : t'.source with
    | source b => rw [ha, hb] at hs; exact hs
    | path q => rw [ha, hb] at hs; exact hs.elim

theorem loader_same : SameLoader (env.loader c s) (env'.loader c' s') where
  find := by
    funext frm p
    exact findTemplate_exist h.exist h.dirs p (some frm)
  source := by
    intro p
    have hf := sameFile_map (h.files p)
    have hp : (env'.loader c' s').parse = parseNodes env.isLower s' := by
      show parseNodes env'.isLower s' = _
      rw [h.isLower]
    rw [hp]
    exact hf

end

theorem heritageOf_uncommented (contexts : List (Str × Ctx)) (block : Option Str) (ctx : Ctx) :
    heritageOf (onSnd Ctx.quiet contexts) block ctx.quiet =
      (heritageOf contexts block ctx).map (Option.map Heritage.quiet) := by
  unfold heritageOf
  have h1 : ctx.quiet.blocks.isEmpty = ctx.blocks.isEmpty := by rw [quiet_blocks, onSnd_isEmpty]
  have h2 : ctx.quiet.extends_ = ctx.extends_ := rfl
  rw [h1, h2]
  split
  · rw [heritageNew_uncommented]
    cases heritageNew contexts ctx with
    | error e => rfl
    | ok h =>
      cases block with
      | none => rfl
      | some b =>
        simp only [Except.map, bind, Except.bind]
        have : (assoc h.quiet.blocks b).isNone = (assoc h.blocks b).isNone := by
          show (assoc (onSnd _ h.blocks) b).isNone = _
          rw [assoc_onSnd, Option.isNone_map]
        rw [this]
        split <;> rfl
  · rfl

/-- What follows on the parsed templates. -/
def fromTemplates (env : DeriveEnv) (c : Config) (t : TemplateInput) (fuel : Nat) (templates : List (Str × List Node)) :
    Except GErr (List Stmt) := do
  let contexts ← makeContexts (env.loader c t.syn).find (dedupKeys templates [])
  match assoc contexts t.path with
  | none => .error .panic
  | some ctx =>
    let h ← heritageOf contexts t.block ctx
    generate (genInput env c t contexts) fuel h ctx

theorem fromTemplates_uncommented (env : DeriveEnv) (c : Config) (t : TemplateInput) (fuel : Nat)
    (templates : List (Str × List Node)) :
    fromTemplates env c t fuel (onSnd silenceAll templates) = fromTemplates env c t fuel templates := by
  unfold fromTemplates
  rw [dedupKeys_onSnd, makeContexts_uncommented]
  cases makeContexts (env.loader c t.syn).find (dedupKeys templates []) with
  | error e => rfl
  | ok contexts =>
    simp only [Except.map, bind, Except.bind]
    rw [assoc_onSnd]
    cases assoc contexts t.path with
    | none => rfl
    | some ctx =>
      dsimp only [Option.map]
      rw [heritageOf_uncommented]
      cases heritageOf contexts t.block ctx with
      | error e => rfl
      | ok h => exact generate_uncommented (genInput env c t contexts) fuel h ctx

theorem buildTemplate_eq (env : DeriveEnv) (c : Config) (ident : Str) (args : TemplateArgs) (fuel : Nat) :
    buildTemplate env c ident args fuel =
      (TemplateInput.new env.files env.guess c ident args).bind fun t => (mainSource env t).bind fun src =>
        (findUsedTemplates (env.loader c t.syn) fuel t.path src).bind (fromTemplates env c t fuel) := rfl

/-- C70: whatever delimiters a template and all templates it uses are written with, the same code is generated, or the same
kind of error reported. -/
theorem C70_same_code (c c' : Config) (s s' : Syntax) (env env' : DeriveEnv) (ident : Str) (args args' : TemplateArgs)
    (fuel : Nat) (h : DifferInSyntax c c' s s' env env' args args') :
    buildTemplate env' c' ident args' fuel = buildTemplate env c ident args fuel := by
  rw [buildTemplate_eq, buildTemplate_eq]
  have h1 := input_same h ident
  cases ht : TemplateInput.new env.files env.guess c ident args with
  | error e =>
    rw [ht] at h1
    cases ht' : TemplateInput.new env'.files env'.guess c' ident args' with
    | error e' => rw [ht'] at h1; cases h1; simp only [Except.bind]
    | ok t' => rw [ht'] at h1; exact h1.elim
  | ok t =>
    rw [ht] at h1
    cases ht' : TemplateInput.new env'.files env'.guess c' ident args' with
    | error e' => rw [ht'] at h1; exact h1.elim
    | ok t' =>
      rw [ht'] at h1
      obtain ⟨hsy, htt, hso⟩ := h1
      have h2 := main_same h htt hso
      simp only [Except.bind]
      cases hm : mainSource env t with
      | error e =>
        rw [hm] at h2
        cases hm' : mainSource env' t' with
        | error e' => rw [hm'] at h2; cases h2; dsimp only
        | ok b => rw [hm'] at h2; exact h2.elim
      | ok a =>
        rw [hm] at h2
        cases hm' : mainSource env' t' with
        | error e' => rw [hm'] at h2; exact h2.elim
        | ok b =>
          rw [hm'] at h2
          have hsy' : t'.syn = s' := by rw [htt]
          have hpa : t'.path = t.path := by rw [htt]
          have hbl : t'.block = t.block := by rw [htt]
          have hes : t'.escaper = t.escaper := by rw [htt]
          have hl := loader_same h
          have h3 := findUsedTemplates_same hl fuel t.path (src := a) (src' := b) (by
            show Option.map _ (parseNodes env'.isLower s' b) = _
            rw [h.isLower]
            exact h2.symm)
          dsimp only
          rw [hpa, hsy, hsy']
          have hf : ∀ l, fromTemplates env' c' t' fuel l = fromTemplates env c t fuel l := by
            intro l
            unfold fromTemplates
            rw [hpa, hbl, hsy, hsy', hl.find]
            have hg : ∀ cs, genInput env' c' t' cs = genInput env c t cs := by
              intro cs
              unfold genInput
              rw [hes, hbl, h.json, hpa, h.escapers, h.whitespace]
              congr 1
              funext p
              exact findTemplate_exist h.exist h.dirs p _
            simp only [hg]
          cases hx : findUsedTemplates (env'.loader c' s') fuel t.path b with
          | error e' =>
            rw [hx] at h3
            cases hy : findUsedTemplates (env.loader c s) fuel t.path a with
            | error e => rw [hy] at h3; cases h3; dsimp only
            | ok y => rw [hy] at h3; cases h3
          | ok x =>
            rw [hx] at h3
            cases hy : findUsedTemplates (env.loader c s) fuel t.path a with
            | error e => rw [hy] at h3; cases h3
            | ok y =>
              rw [hy] at h3
              have h3 := Except.ok.inj h3
              dsimp only
              rw [hf, ← fromTemplates_uncommented, h3, fromTemplates_uncommented]

/-- C25: whatever the comments of a template and of all templates it uses say, the same code is generated, or the same
kind of error reported. -/
theorem C25_text_ignored (c : Config) (s : Syntax) (env env' : DeriveEnv) (ident : Str) (args args' : TemplateArgs)
    (fuel : Nat) (h : DifferInComments c s env env' args args') :
    buildTemplate env' c ident args' fuel = buildTemplate env c ident args fuel :=
  C70_same_code c c s s env env' ident args args' fuel
    ⟨rfl, rfl, rfl, h.exist, h.isLower, h.guess, h.json, h.block, h.escaping, h.ext, h.known, by rw [h.syn, h.known], h.source, h.files⟩

/-- C25: a comment makes no code, and adds to the text that is about to be written at most the whitespace that the text
before it ends in. -/
theorem C25_writes_nothing (rec : Handler) (I : GenInput) (H : Option Heritage) (ctx : Ctx) (level : Level) (g : Gen)
    (ws : Ws) (text : Str) : ∃ g', handleNode rec I H ctx level g (.comment ws text) = .ok ([], g') ∧
      (g'.pend = g.pend ∨ ∃ w, g.nextWs = some w ∧
        (g'.pend = g.pend ++ [.lit w] ∨ g'.pend = g.pend ++ [.lit c!" "] ∨ g'.pend = g.pend ++ [.lit c!"\n"])) := by
  refine ⟨handleWs I g ws, rfl, ?_⟩
  have hp : (handleWs I g ws).pend = (flushWs I g ws).pend := rfl
  rw [hp]
  have hpush : ∀ w, (g.push w).pend = g.pend ∨ (g.push w).pend = g.pend ++ [w] := by
    intro w
    unfold push
    split
    · exact .inl rfl
    · exact .inr rfl
  unfold flushWs
  cases g.nextWs with
  | none => exact .inl rfl
  | some w =>
    dsimp only
    cases shouldTrimWs I ws.l with
    | suppress => exact .inl rfl
    | preserve =>
      dsimp only
      split
      · exact .inl rfl
      · rcases hpush (.lit w) with h | h
        · exact .inl h
        · exact .inr ⟨w, rfl, .inl h⟩
    | minimize =>
      dsimp only
      split
      · exact .inl rfl
      · rcases hpush (.lit (minimized w)) with h | h
        · exact .inl h
        · refine .inr ⟨w, rfl, .inr ?_⟩
          rw [h]
          unfold minimized
          split
          · exact .inr rfl
          · exact .inl rfl

/-- Two templates with a comment inside a filter block, as an inline source. -/
example : DifferInComments (toyConfig .preserve) Syntax.default (toyEnv []) (toyEnv [])
    ⟨some (.source c!"{% filter f %}a{# b #}{% endfilter %}"), none, none, some c!"txt", none⟩
    ⟨some (.source c!"{% filter f %}a{# {{ x {# #} #}{% endfilter %}"), none, none, some c!"txt", none⟩ where
  exist := rfl
  isLower := rfl
  guess := rfl
  json := rfl
  block := rfl
  escaping := rfl
  ext := rfl
  syn := rfl
  known := rfl
  source := by
    show Option.map _ _ = Option.map _ _
    rfl
  files := fun _ => trivial

end Askama.Props
