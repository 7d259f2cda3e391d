import Verif.Lemmas.SpaceCtx
import Verif.Lemmas.SpaceRun
import Verif.Lemmas.Fuel
import Verif.Props.Escaping

/-! What white space control can change: C76. -/

namespace Askama.Props

open Askama Askama.Spec

variable {U : Type}

theorem heritageOf_bare {contexts cs : List (Str × Ctx)} (hcs : BareCs contexts cs) {block : Option Str} {ctx : Ctx}
    {H : Option Heritage} (h : heritageOf contexts block ctx = .ok H) : heritageOf cs block ctx.bare = .ok (H.map Heritage.bare) := by
  unfold heritageOf at h ⊢
  rw [hasBlocks_bare]
  split at h
  · rename_i hcond
    rw [if_pos hcond]
    obtain ⟨hh, h1, h⟩ := except_bind h
    rw [heritageNew_bare hcs, h1]
    cases block with
    | none => cases h; rfl
    | some b =>
      have e : assoc hh.bare.blocks b = (assoc hh.blocks b).map (List.map fun e => (e.1.bare, e.2.bare)) := assoc_onSnd _ _ _
      dsimp only [Except.map, bind, Except.bind] at h ⊢
      rw [e, Option.isNone_map]
      split at h
      · cases h
      · rename_i hn
        rw [if_neg hn]
        cases h
        rfl
  · rename_i hcond
    rw [if_neg hcond]
    cases h
    rfl

/-- Without white space the generator makes the code without white space. -/
theorem generate_bare {I : GenInput} {cs : List (Str × Ctx)} (hcs : BareCs I.contexts cs)
    (hI : ∀ p c, assoc I.contexts p = some c → CtxOk SpaceOk c) {H : Option Heritage} (hH : ∀ h, H = some h → HOk SpaceOk h)
    {ctx : Ctx} (hc : CtxOk SpaceOk ctx) {fuel : Nat} {code : List Stmt} (h : generate I fuel H ctx = .ok code) :
    FineS code ∧ ∃ g, Gen.handle (bareI I cs) fuel (H.map Heritage.bare) (rootOf (H.map Heritage.bare) ctx.bare)
      (rootOf (H.map Heritage.bare) ctx.bare).nodes .top (Gen.new (bareI I cs) .empty 2 false) = .ok (bareS code, g) := by
  unfold generate at h
  obtain ⟨⟨s, g⟩, h1, h⟩ := except_bind h
  have hs : s = code := by
    dsimp only at h
    split at h
    · cases h
    · obtain ⟨g1, -, h⟩ := except_bind h
      obtain ⟨g2, -, h⟩ := except_bind h
      cases h
      rfl
  subst hs
  change Gen.handle I fuel H (rootOf H ctx) (rootOf H ctx).nodes .top (Gen.new I .empty 2 false) = .ok (s, g) at h1
  have hroot : CtxOk SpaceOk (rootOf H ctx) := by
    cases H with
    | none => exact hc
    | some hh => exact (hH hh rfl).root
  have st := handle_bare hcs hI fuel _ _ _ _ _ _ _ h1 hH hroot hroot.nodes (by intro s hs; cases hs)
  refine ⟨st.fine, bareG g, ?_⟩
  have e := st.run
  cases H with
  | none => exact e
  | some hh => exact e

theorem same_but_space (W : World U) {env env' : DeriveEnv} {c c' : Config} (hc : ∀ e ∈ c.syntaxes, e.2.CommentOk)
    (hc' : ∀ e ∈ c'.syntaxes, e.2.CommentOk)
    (hfind : ∀ p q, c.findTemplate env.files q (some p) = c'.findTemplate env'.files q (some p)) {ident ident' : Str}
    {args args' : TemplateArgs} {fuel : Nat} {code code' : List Stmt} (h : buildTemplate env c ident args fuel = .ok code)
    (h' : buildTemplate env' c' ident' args' fuel = .ok code') :
    ∃ w w', load env c ident args fuel = some w ∧ load env' c' ident' args' fuel = some w'
      ∧ (SameButSpace w w' → (∀ n, NodesOf w.input n ∨ NodesOf w'.input n → noFilterBlock n = true) →
          (output W code).map squeeze = (output W code').map squeeze) := by
  obtain ⟨w, H, t, h1, -, h3, h4, h5, h6, -, -, h9⟩ := build_loads h
  obtain ⟨w', H', t', h1', -, h3', h4', h5', h6', -, -, h9'⟩ := build_loads h'
  refine ⟨w, w', h1, h1', fun hs hf => ?_⟩
  -- the nodes of the templates
  have hI : ∀ p x, assoc w.input.contexts p = some x → CtxOk SpaceOk x := fun p x hp =>
    contextNew_parts (h5 p x hp) (parsed_space (load_parsed hc h1 p x hp) fun n hn => hf n (.inl ⟨p, x, hp, hn⟩))
  have hI' : ∀ p x, assoc w'.input.contexts p = some x → CtxOk SpaceOk x := fun p x hp =>
    contextNew_parts (h5' p x hp) (parsed_space (load_parsed hc' h1' p x hp) fun n hn => hf n (.inr ⟨p, x, hp, hn⟩))
  have hH : ∀ {cs : List (Str × Ctx)} {b : Option Str} {x : Ctx} {K : Option Heritage},
      (∀ p y, assoc cs p = some y → CtxOk SpaceOk y) → CtxOk SpaceOk x → heritageOf cs b x = .ok K →
      ∀ k, K = some k → HOk SpaceOk k := by
    rintro cs b x K hcs hx hK k rfl
    unfold heritageOf at hK
    split at hK
    · obtain ⟨k', e, hK⟩ := except_bind hK
      have : k' = k := by
        cases b with
        | none => cases hK; rfl
        | some b =>
          dsimp only at hK
          split at hK
          · cases hK
          · cases hK; rfl
      subst this
      exact heritageNew_ok hcs hx e
    · cases hK
  -- the templates without white space are the same
  have hcs : BareCs w.input.contexts (onSnd Ctx.bare w.input.contexts) :=
    ⟨by simp [onSnd], fun p => assoc_onSnd _ _ p⟩
  have hcs' : BareCs w'.input.contexts (onSnd Ctx.bare w.input.contexts) := by
    refine ⟨?_, fun p => ?_⟩
    · have := congrArg List.length hs.templates
      simpa [onSnd] using this
    · rw [assoc_onSnd]
      have e : (assoc w.input.contexts p).map (fun x => bareL x.nodes) = (assoc w'.input.contexts p).map (fun x => bareL x.nodes) := by
        rw [← assoc_onSnd, ← assoc_onSnd]
        exact congrArg (assoc · p) hs.templates
      cases ha : assoc w.input.contexts p with
      | none =>
        rw [ha] at e
        cases hb : assoc w'.input.contexts p with
        | none => rfl
        | some y => rw [hb] at e; cases e
      | some x =>
        rw [ha] at e
        cases hb : assoc w'.input.contexts p with
        | none => rw [hb] at e; cases e
        | some y =>
          rw [hb] at e
          have e2 : bareL x.nodes = bareL y.nodes := Option.some.inj e
          have e3 := contextNew_bare (h5 p x ha)
          have e4 := contextNew_bare (h5' p y hb)
          have e5 : (env.loader c t.syn).find p = (env'.loader c' t'.syn).find p := funext (hfind p)
          rw [e2, e5, e4] at e3
          exact congrArg some (Except.ok.inj e3).symm
  have hctx : w'.ctx.bare = w.ctx.bare := by
    have e3 := contextNew_bare (h5 _ _ h4)
    have e4 := contextNew_bare (h5' _ _ h4')
    have e5 : (env.loader c t.syn).find t.path = (env'.loader c' t'.syn).find t'.path := by
      have := hs.find
      rw [h3, h3'] at this
      exact this
    rw [hs.main, e5, e4] at e3
    exact Except.ok.inj e3
  have hset : bareI w'.input (onSnd Ctx.bare w.input.contexts) = bareI w.input (onSnd Ctx.bare w.input.contexts) := by
    unfold bareI
    rw [← hs.escaper, ← hs.escapers, ← hs.json, ← hs.block, ← hs.find]
  have hblock : t'.block = t.block := by
    have := hs.block
    rw [h3, h3'] at this
    exact this.symm
  have hher : H'.map Heritage.bare = H.map Heritage.bare := by
    have e1 := heritageOf_bare hcs h6
    have e2 := heritageOf_bare hcs' h6'
    rw [hctx, hblock, e1] at e2
    exact (Except.ok.inj e2).symm
  -- and so is the code
  obtain ⟨f1, g1, r1⟩ := generate_bare hcs hI (hH hI (hI _ _ h4) h6) (hI _ _ h4) h9
  obtain ⟨f2, g2, r2⟩ := generate_bare hcs' hI' (hH hI' (hI' _ _ h4') h6') (hI' _ _ h4') h9'
  rw [hset, hher, hctx, r1] at r2
  have e : bareS code = bareS code' := congrArg Prod.fst (Except.ok.inj r2)
  rw [← output_bare W f1, ← output_bare W f2, e]

/-- C76: white space control does nothing but to control white space. Let two templates compile that are the same but for white
space within and around their texts, the marks `-`, `+` and `~`, the setting `whitespace`, comments, the words `raw` and `endraw`,
and the delimiters (`SameButSpace`). Then they render texts that are the same but for white space, or fail alike, in any world of
values. Filter blocks are left out, see `C76_false`: their text is handed to a filter, white space and all. -/
theorem C76_only_white_space (W : World U) {env env' : DeriveEnv} {c c' : Config} (hc : ∀ e ∈ c.syntaxes, e.2.CommentOk)
    (hc' : ∀ e ∈ c'.syntaxes, e.2.CommentOk)
    (hfind : ∀ p q, c.findTemplate env.files q (some p) = c'.findTemplate env'.files q (some p)) {ident ident' : Str}
    {args args' : TemplateArgs} {fuel fuel' : Nat} {code code' : List Stmt} (h : buildTemplate env c ident args fuel = .ok code)
    (h' : buildTemplate env' c' ident' args' fuel' = .ok code') :
    ∃ w w', load env c ident args fuel = some w ∧ load env' c' ident' args' fuel' = some w'
      ∧ (SameButSpace w w' → (∀ n, NodesOf w.input n ∨ NodesOf w'.input n → noFilterBlock n = true) →
          (output W code).map squeeze = (output W code').map squeeze) := by
  obtain ⟨w, -, -, h1, -⟩ := build_loads h
  obtain ⟨w', -, -, h1', -⟩ := build_loads h'
  refine ⟨w, w', h1, h1', ?_⟩
  have b1 : buildTemplate env c ident args (max fuel fuel') = .ok code := by
    rcases buildTemplate_mono env c ident args (Nat.le_max_left fuel fuel') with e | e
    · rw [h] at e; cases e
    · rw [← e]; exact h
  have b2 : buildTemplate env' c' ident' args' (max fuel fuel') = .ok code' := by
    rcases buildTemplate_mono env' c' ident' args' (Nat.le_max_right fuel fuel') with e | e
    · rw [h'] at e; cases e
    · rw [← e]; exact h'
  have l1 : load env c ident args (max fuel fuel') = some w := by
    rcases load_mono env c ident args (Nat.le_max_left fuel fuel') with e | e
    · rw [h1] at e; cases e
    · rw [← e]; exact h1
  have l2 : load env' c' ident' args' (max fuel fuel') = some w' := by
    rcases load_mono env' c' ident' args' (Nat.le_max_right fuel fuel') with e | e
    · rw [h1'] at e; cases e
    · rw [← e]; exact h1'
  obtain ⟨v, v', k1, k2, key⟩ := same_but_space W hc hc' hfind b1 b2
  rw [l1] at k1
  rw [l2] at k2
  cases k1
  cases k2
  exact key

/-- The setting has no part in loading templates. -/
theorem load_whitespace (env : DeriveEnv) (c : Config) (ws : WH) (ident : Str) (args : TemplateArgs) (fuel : Nat) :
    load env { c with whitespace := ws } ident args fuel
      = (load env c ident args fuel).map fun w => { w with input := { w.input with ws := ws } } := by
  have ht : TemplateInput.new env.files env.guess { c with whitespace := ws } ident args
      = TemplateInput.new env.files env.guess c ident args := rfl
  unfold load
  rw [ht]
  cases TemplateInput.new env.files env.guess c ident args with
  | error e => rfl
  | ok t =>
    dsimp only
    cases mainSource env t with
    | error e => rfl
    | ok src =>
      dsimp only
      rw [show env.loader { c with whitespace := ws } t.syn = env.loader c t.syn from rfl]
      cases findUsedTemplates (env.loader c t.syn) fuel t.path src with
      | error e => rfl
      | ok templates =>
        dsimp only
        cases makeContexts (env.loader c t.syn).find (dedupKeys templates []) with
        | error e => rfl
        | ok contexts =>
          dsimp only
          cases assoc contexts t.path with
          | none => rfl
          | some ctx =>
            simp only [Option.bind_some]
            cases chainOf contexts ctx <;> rfl

/-- C76: in particular, the setting `whitespace` of the configuration changes nothing but white space in what a template without
filter blocks renders. -/
theorem C76_setting (W : World U) {env : DeriveEnv} {c : Config} (hc : ∀ e ∈ c.syntaxes, e.2.CommentOk) (ws : WH) {ident : Str}
    {args : TemplateArgs} {fuel : Nat} {code code' : List Stmt} (h : buildTemplate env c ident args fuel = .ok code)
    (h' : buildTemplate env { c with whitespace := ws } ident args fuel = .ok code') :
    ∃ w, load env c ident args fuel = some w
      ∧ ((∀ n, NodesOf w.input n → noFilterBlock n = true) → (output W code).map squeeze = (output W code').map squeeze) := by
  obtain ⟨w, w', h1, h2, key⟩ := C76_only_white_space W hc (c' := { c with whitespace := ws }) hc (fun _ _ => rfl) h h'
  rw [load_whitespace, h1] at h2
  cases h2
  exact ⟨w, h1, fun hf => key ⟨rfl, rfl, rfl, rfl, rfl, rfl, rfl⟩ fun n hn => hf n (hn.elim id id)⟩

/-- A template with a base, a loop, a comment and raw text, in two layouts. -/
def spaceSample : Bool → List (Str × Str)
  | true =>
    [(c!"t/a.html", c!"{% extends \"base.html\" %}{% block main %}  {% for x in [1, 2] %} a {{ x }}\n{% else %} none {% endfor %}{# c #} {% raw %} {{ }} {% endraw %}{% endblock %}"),
     (c!"t/base.html", c!"<p>  \n{% block main %}{% endblock %} </p>")]
  | false =>
    [(c!"t/a.html", c!"\n{% extends \"base.html\" %}{%- block main -%}{% for x in [1, 2] ~%} a {{- x -}}\n{%+ else %}none{# c #}{% endfor %}{% raw ~%} {{ }} {%~ endraw %}{% endblock %}"),
     (c!"t/base.html", c!"<p>{% block main %}\t{% endblock -%} </p>")]

/-- The two settings. -/
def spaceConfig (b : Bool) : Config := toyConfig (if b then .preserve else .suppress)

/-- Two templates that compile, of which all but the white space is the same. -/
theorem spaceLoaded {env env' : DeriveEnv} {c c' : Config} {args : TemplateArgs} {path : Str}
    (hb : (buildTemplate env c c!"T" args 50).toOption.isSome = true) (hb' : (buildTemplate env' c' c!"T" args 50).toOption.isSome = true)
    (hp : (TemplateInput.new env.files env.guess c c!"T" args).toOption.map (·.path) = some path)
    (hp' : (TemplateInput.new env'.files env'.guess c' c!"T" args).toOption.map (·.path) = some path)
    (hf : ∀ q, c.findTemplate env.files q (some path) = c'.findTemplate env'.files q (some path))
    (hrest : (load env c c!"T" args 50).map (fun w => (w.input.escaper, w.input.escapers, w.input.json, w.input.block,
        w.input.contexts.map (fun x => (x.1, bareL x.2.nodes)), bareL w.ctx.nodes))
      = (load env' c' c!"T" args 50).map (fun w => (w.input.escaper, w.input.escapers, w.input.json, w.input.block,
        w.input.contexts.map (fun x => (x.1, bareL x.2.nodes)), bareL w.ctx.nodes))) :
    ∃ code code' w w', buildTemplate env c c!"T" args 50 = .ok code ∧ buildTemplate env' c' c!"T" args 50 = .ok code'
      ∧ load env c c!"T" args 50 = some w ∧ load env' c' c!"T" args 50 = some w' ∧ SameButSpace w w' := by
  cases h : buildTemplate env c c!"T" args 50 with
  | error e => rw [h] at hb; cases hb
  | ok code =>
    cases h' : buildTemplate env' c' c!"T" args 50 with
    | error e => rw [h'] at hb'; cases hb'
    | ok code' =>
      obtain ⟨w, H, t, h1, h2, h3, -⟩ := build_loads h
      obtain ⟨w', H', t', h1', h2', h3', -⟩ := build_loads h'
      refine ⟨code, code', w, w', rfl, rfl, h1, h1', ?_⟩
      rw [h1, h1'] at hrest
      rw [h2] at hp
      rw [h2'] at hp'
      simp only [Option.map_some, Option.some.injEq, Prod.mk.injEq] at hrest
      obtain ⟨r1, r2, r3, r4, r5, r6⟩ := hrest
      refine ⟨r1, r2, r3, r4, ?_, r5, r6⟩
      rw [h3, h3']
      have e : t.path = path := Option.some.inj hp
      have e' : t'.path = path := Option.some.inj hp'
      funext q
      show c.findTemplate env.files q (some t.path) = c'.findTemplate env'.files q (some t'.path)
      rw [e, e', hf]

theorem spaceSample_files : (toyEnv (spaceSample true)).files.exist = (toyEnv (spaceSample false)).files.exist := by
  funext p
  have e (b : Bool) : (spaceSample b).map (·.1) = [c!"t/a.html", c!"t/base.html"] := by cases b <;> rfl
  have key (b : Bool) : (assoc (spaceSample b) p).isSome = [c!"t/a.html", c!"t/base.html"].any fun k => k == p := by
    rw [← e b]
    simp only [assoc, Option.isSome_map, List.any_map]
    rw [List.isSome_find?]
    rfl
  exact (key true).trans (key false).symm

theorem spaceSample_find (p q : Str) : (spaceConfig true).findTemplate (toyEnv (spaceSample true)).files q (some p)
    = (spaceConfig false).findTemplate (toyEnv (spaceSample false)).files q (some p) := by
  have e : ∀ ds, findInDirs (toyEnv (spaceSample true)).files q ds = findInDirs (toyEnv (spaceSample false)).files q ds := by
    intro ds
    induction ds with
    | nil => rfl
    | cons d ds ih => unfold findInDirs; rw [spaceSample_files, ih]
  unfold Config.findTemplate
  dsimp only
  rw [spaceSample_files, e]
  rfl

/-- No filter blocks in what is loaded. -/
def noFilters (b : Bool) : Bool :=
  (load (toyEnv (spaceSample b)) (spaceConfig b) c!"T" (toyArgs c!"a.html" none) 50).any fun w =>
    w.input.contexts.all fun x => (partsL x.2.nodes).all noFilterBlock

set_option maxRecDepth 100000 in
example : (∀ b, ∀ e ∈ (spaceConfig b).syntaxes, e.2.CommentOk)
    ∧ (∃ code code' w w',
      buildTemplate (toyEnv (spaceSample true)) (spaceConfig true) c!"T" (toyArgs c!"a.html" none) 50 = .ok code
      ∧ buildTemplate (toyEnv (spaceSample false)) (spaceConfig false) c!"T" (toyArgs c!"a.html" none) 50 = .ok code'
      ∧ load (toyEnv (spaceSample true)) (spaceConfig true) c!"T" (toyArgs c!"a.html" none) 50 = some w
      ∧ load (toyEnv (spaceSample false)) (spaceConfig false) c!"T" (toyArgs c!"a.html" none) 50 = some w' ∧ SameButSpace w w')
    ∧ (∀ b, noFilters b = true)
    ∧ compiled (spaceSample true) c!"a.html" none .preserve = .ok (some c!"<p>  \n   a 1\n a 2\n  {{ }}  </p>")
    ∧ compiled (spaceSample false) c!"a.html" none .suppress = .ok (some c!"<p> a1 a2 {{ }} </p>") := by
  refine ⟨?_, ?_, by decide +kernel, by decide +kernel, by decide +kernel⟩
  · intro b e he
    simp only [spaceConfig, toyConfig, List.mem_singleton] at he
    subst he
    simp [Syntax.CommentOk, Syntax.default]
  · exact spaceLoaded (path := c!"t/a.html") (by decide +kernel) (by decide +kernel) (by decide +kernel) (by decide +kernel)
      (spaceSample_find _) (by rfl)

/-- A world with a filter that tells whether a text begins with a space. -/
def spaceTeller : World Toy :=
  { toy with filter := fun _ _ vs =>
      (vs.head?.bind Toy.text?).map fun s => .user (.text (if s.head? = some ' ' then c!"yes" else c!"no")) }

/-- A template with a filter block. -/
def spaceFilter : DeriveEnv := toyEnv [(c!"t/a.html", c!"{% filter f %} x {% endfilter %}")]

/-- C76: with filter blocks it is not so. -/
theorem C76_false : ∃ (W : World Toy) (env : DeriveEnv) (c c' : Config) (args : TemplateArgs) (code code' : List Stmt) (w w' : Whole),
    (∀ p q, c.findTemplate env.files q (some p) = c'.findTemplate env.files q (some p))
      ∧ buildTemplate env c c!"T" args 50 = .ok code ∧ buildTemplate env c' c!"T" args 50 = .ok code'
      ∧ load env c c!"T" args 50 = some w ∧ load env c' c!"T" args 50 = some w' ∧ SameButSpace w w'
      ∧ (output W code).map squeeze = some c!"yes" ∧ (output W code').map squeeze = some c!"no" := by
  have hout : ∀ b, (buildTemplate spaceFilter (spaceConfig b) c!"T" (toyArgs c!"a.html" none) 50).toOption.map
      (fun code => (output spaceTeller code).map squeeze) = some (some (if b then c!"yes" else c!"no")) := by
    decide +kernel
  obtain ⟨code, code', w, w', h1, h2, h3, h4, h5⟩ := spaceLoaded (env := spaceFilter) (env' := spaceFilter) (c := spaceConfig true)
    (c' := spaceConfig false) (args := toyArgs c!"a.html" none) (path := c!"t/a.html") (by decide +kernel) (by decide +kernel)
    (by decide +kernel) (by decide +kernel) (fun _ => rfl) (by rfl)
  have o1 := hout true
  have o2 := hout false
  rw [h1] at o1
  rw [h2] at o2
  exact ⟨spaceTeller, spaceFilter, spaceConfig true, spaceConfig false, toyArgs c!"a.html" none, code, code', w, w',
    fun _ _ => rfl, h1, h2, h3, h4, h5, Option.some.inj o1, Option.some.inj o2⟩

end Askama.Props
