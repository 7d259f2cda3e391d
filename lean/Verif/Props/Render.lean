import Verif.Lemmas.Core
import Verif.Props.Config
import Verif.Props.Counter
import Verif.Spec.Whole

/-!
What generated code renders: C38. The meaning of a template is given by the interpreter of `Verif.Spec.Render`; the
check `good` of `Verif.Spec.Good` rules out the templates of the `_false` theorems.
-/

namespace Askama.Props

open Askama Askama.Spec

variable {U : Type}

theorem heritageOf_chain {contexts : List (Str × Ctx)} {I : GenInput} (hI : I.contexts = contexts)
    (hb : AllBlocksOk I) {c : Ctx} (hc : BlocksOk c) {block : Option Str} {H : Option Heritage}
    (h : heritageOf contexts block c = .ok H) :
    ∃ chain, chainOf contexts c = some chain ∧ rootOf H c = chain.getLastD c ∧ HChain H chain := by
  subst hI
  unfold heritageOf at h
  unfold chainOf
  split at h
  · rename_i hcond
    rw [if_neg (by cases hb : c.blocks.isEmpty <;> cases he : c.extends_ <;> simp_all)]
    obtain ⟨hh, h1, h⟩ := except_bind h
    have hH : H = some hh := by
      cases block with
      | none => cases h; rfl
      | some b =>
        dsimp only at h
        split at h
        · cases h
        · cases h; rfl
    subst hH
    obtain ⟨chain, h2, h3, h4⟩ := heritageNew_chain hb hc h1
    exact ⟨chain, h2, h3, h4⟩
  · rename_i hcond
    cases h
    rw [if_pos (by cases hb : c.blocks.isEmpty <;> cases he : c.extends_ <;> simp_all)]
    exact ⟨[], rfl, rfl, by intro h hh; cases hh⟩

/-- If a template compiles, all that belongs to it has been loaded, and the code comes from the generator. -/
theorem build_loads {env : DeriveEnv} {c : Config} {ident : Str} {args : TemplateArgs} {fuel : Nat}
    {code : List Stmt} (h : buildTemplate env c ident args fuel = .ok code) :
    ∃ w H t, load env c ident args fuel = some w ∧ TemplateInput.new env.files env.guess c ident args = .ok t
      ∧ w.input = genInput env c t w.input.contexts ∧ assoc w.input.contexts t.path = some w.ctx
      ∧ (∀ p x, assoc w.input.contexts p = some x → contextNew ((env.loader c t.syn).find p) x.nodes = .ok x)
      ∧ heritageOf w.input.contexts t.block w.ctx = .ok H ∧ HChain H w.chain
      ∧ rootOf H w.ctx = w.chain.getLastD w.ctx ∧ generate w.input fuel H w.ctx = .ok code := by
  unfold buildTemplate at h
  obtain ⟨t, h1, h⟩ := except_bind h
  obtain ⟨src, h2, h⟩ := except_bind h
  obtain ⟨m, h3, h⟩ := except_bind h
  obtain ⟨contexts, h4, h⟩ := except_bind h
  cases hctx : assoc contexts t.path with
  | none => rw [hctx] at h; cases h
  | some ctx =>
    rw [hctx] at h
    dsimp only at h
    obtain ⟨H, h5, h⟩ := except_bind h
    have hcn : ∀ p x, assoc contexts p = some x → contextNew ((env.loader c t.syn).find p) x.nodes = .ok x := by
      intro p x hp
      obtain ⟨nodes, -, h7⟩ := makeContexts_assoc h4 hp
      rw [(contextNew_refs h7).2]
      exact h7
    have hbl : ∀ p x, assoc contexts p = some x → BlocksOk x := fun p x hp => contextNew_blocks (hcn p x hp)
    obtain ⟨chain, h6, h7, h8⟩ := heritageOf_chain (I := genInput env c t contexts) rfl hbl (hbl _ _ hctx) h5
    refine ⟨⟨genInput env c t contexts, ctx, chain⟩, H, t, ?_, h1, rfl, hctx, hcn, h5, h8, h7, h⟩
    unfold load
    simp only [h1, h2, h3, h4, hctx, Option.bind_some]
    rw [show chainOf contexts ctx = some chain from h6]
    rfl

theorem newInput_block {files : Files} {guess : Str → Option Str} {c : Config} {ident : Str} {args : TemplateArgs}
    {t : TemplateInput} (h : TemplateInput.new files guess c ident args = .ok t) : t.block = args.block := by
  unfold TemplateInput.new at h
  split at h
  · cases h
  · obtain ⟨path, -, h⟩ := except_bind h
    obtain ⟨syn, -, h⟩ := except_bind h
    dsimp only at h
    split at h
    · cases h
    · cases h; rfl

theorem build_load {env : DeriveEnv} {c : Config} {ident : Str} {args : TemplateArgs} (hb : args.block = none) {fuel : Nat}
    {code : List Stmt} (h : buildTemplate env c ident args fuel = .ok code) :
    ∃ w H, load env c ident args fuel = some w ∧ w.input.block = none ∧ AllBlocksOk w.input ∧ HChain H w.chain
      ∧ rootOf H w.ctx = w.chain.getLastD w.ctx ∧ generate w.input fuel H w.ctx = .ok code := by
  obtain ⟨w, H, t, h1, h2, h3, h4, h5, h6, h7, h8, h9⟩ := build_loads h
  refine ⟨w, H, h1, ?_, fun p x hp => contextNew_blocks (h5 p x hp), h7, h8, h9⟩
  rw [h3]
  exact (newInput_block h2).trans hb

/-- C38: generated code renders what the template says, here with everything the generator supports. For every template
that compiles and passes the check, in every world of values in which displaying a value again gives the same text, the
code and the interpreter make the same text, or both fail. Missing are the templates that fail the check; for some of
them the two disagree (`C39_false`, `C43_false` and so on). `C38_code_is_faithful` is without the check, for the
constructs that need none. -/
theorem C38_code_is_faithful_partial (W : World U) (hs : Stable W) (env : DeriveEnv) (c : Config) (ident : Str)
    (args : TemplateArgs) (hb : args.block = none) (fuel : Nat) (code : List Stmt)
    (h : buildTemplate env c ident args fuel = .ok code) :
    ∃ w, load env c ident args fuel = some w ∧ (w.good fuel = true → output W code = w.text W fuel) := by
  obtain ⟨w, H, h1, h2, h3, h4, h5, h6⟩ := build_load hb h
  exact ⟨w, h1, fun hg => generate_sound h2 hs h3 h4 h5 hg h6 _ _⟩

theorem newInput_syntax {files : Files} {guess : Str → Option Str} {c : Config} {ident : Str} {args : TemplateArgs}
    {t : TemplateInput} (h : TemplateInput.new files guess c ident args = .ok t) :
    ∃ n, assoc c.syntaxes n = some t.syn := by
  unfold TemplateInput.new at h
  split at h
  · cases h
  · obtain ⟨path, -, h⟩ := except_bind h
    obtain ⟨syn, h1, h⟩ := except_bind h
    dsimp only at h
    split at h
    · cases h
    · cases h
      unfold templateSyntax at h1
      split at h1
      · split at h1
        · rename_i s hs; cases h1; exact ⟨_, hs⟩
        · cases h1
      · split at h1
        · rename_i s hs; cases h1; exact ⟨_, hs⟩
        · cases h1

theorem addSyntaxes_comments {isWs : Char → Bool} : (rs : List RawSyntax) → {m m' : List (Str × Syntax)} →
    addSyntaxes isWs rs m = .ok m' → (∀ e ∈ m, e.2.CommentOk) → ∀ e ∈ m', e.2.CommentOk
  | [], _, _, h, hm => by cases h; exact hm
  | r :: rs, m, m', h, hm => by
    unfold addSyntaxes at h
    obtain ⟨s, h1, h⟩ := except_bind h
    split at h
    · cases h
    · refine addSyntaxes_comments rs h ?_
      intro e he
      rcases List.mem_cons.mp he with rfl | he
      · have := (C55_unambiguous_partial h1).1
        have h2 := (this s.commentStart (by simp)).1
        have h3 := (this s.commentEnd (by simp)).1
        refine ⟨fun h0 => ?_, fun h0 => ?_⟩
        · rw [h0] at h2; simp [Str.blen] at h2
        · rw [h0] at h3; simp [Str.blen] at h3
      · exact hm e he

/-- In a configuration that was accepted the delimiters of comments are not empty. -/
theorem config_comments {isWs : Char → Bool} {krate root : Str} {raw : RawConfig} {ws : Option Str} {c : Config}
    (h : Config.new isWs krate root raw ws = .ok c) : ∀ e ∈ c.syntaxes, e.2.CommentOk := by
  unfold Config.new at h
  dsimp only at h
  obtain ⟨w, -, h⟩ := except_bind h
  obtain ⟨m, h1, h⟩ := except_bind h
  have hm := addSyntaxes_comments _ h1 (by simp [Syntax.CommentOk, Syntax.default])
  repeat' split at h
  all_goals first | (cases h; done) | (simp only [pure, Except.pure, Except.ok.injEq] at h; rw [← h]; exact hm)

theorem load_parsed {env : DeriveEnv} {c : Config} (hc : ∀ e ∈ c.syntaxes, e.2.CommentOk) {ident : Str}
    {args : TemplateArgs} {fuel : Nat} {w : Whole} (h : load env c ident args fuel = some w) :
    ∀ p x, assoc w.input.contexts p = some x → ParsedList x.nodes := by
  unfold load at h
  split at h
  · cases h
  · rename_i t ht
    split at h
    · cases h
    · rename_i src hsrc
      split at h
      · cases h
      · rename_i m hm
        split at h
        · cases h
        · rename_i contexts hcs
          cases hctx : assoc contexts t.path with
          | none => rw [hctx] at h; cases h
          | some ctx =>
            rw [hctx] at h
            dsimp only [Option.bind_some] at h
            cases hch : chainOf contexts ctx with
            | none => rw [hch] at h; cases h
            | some chain =>
              rw [hch] at h
              cases h
              obtain ⟨n, hn⟩ := newInput_syntax ht
              exact fun p x hp => contexts_parsed (hc _ (assoc_pair hn)) hm hcs hp

theorem load_chain {env : DeriveEnv} {c : Config} {ident : Str} {args : TemplateArgs} {fuel : Nat} {w : Whole}
    (h : load env c ident args fuel = some w) : chainOf w.input.contexts w.ctx = some w.chain := by
  unfold load at h
  repeat' split at h
  all_goals first | (cases h; done) | skip
  rename_i t _ _ _ _ _ _ _ _ contexts _
  cases hctx : assoc contexts t.path with
  | none => rw [hctx] at h; cases h
  | some ctx =>
    rw [hctx] at h
    dsimp only [Option.bind_some] at h
    cases hch : chainOf contexts ctx with
    | none => rw [hch] at h; cases h
    | some chain =>
      rw [hch] at h
      cases h
      exact hch

theorem core_good {w : Whole} (hI : w.input.block = none) (hcore : w.core = true)
    (hp : ∀ p x, assoc w.input.contexts p = some x → ParsedList x.nodes)
    (hx : ∀ p x, assoc w.input.contexts p = some x → ∃ find, contextNew find x.nodes = .ok x) {q : Str}
    (hq : assoc w.input.contexts q = some w.ctx) {H : Option Heritage} (hH : HChain H w.chain)
    (hch : chainOf w.input.contexts w.ctx = some w.chain) (hr : rootOf H w.ctx = w.chain.getLastD w.ctx)
    {fuel : Nat} {code : List Stmt} (h : generate w.input fuel H w.ctx = .ok code) : w.good fuel = true := by
  have hfit : AllFit w.input := by
    intro p x hpx
    obtain ⟨find, hf⟩ := hx p x hpx
    refine contextNew_fit hf ⟨?_, hp p x hpx⟩
    have := List.all_eq_true.mp hcore _ (assoc_pair hpx)
    exact this
  have hb : AllBlocksOk w.input := by
    intro p x hpx
    obtain ⟨find, hf⟩ := hx p x hpx
    exact contextNew_blocks hf
  obtain ⟨q1, q2, q3⟩ := chain_fit hfit (hfit _ _ hq) hch
  unfold generate at h
  obtain ⟨⟨s, g⟩, h1, h⟩ := except_bind h
  change Gen.handle w.input fuel H (rootOf H w.ctx) (rootOf H w.ctx).nodes .top (Gen.new w.input .empty 2 false) = .ok (s, g) at h1
  rw [hr] at h1
  have hc : Clean (Gen.new w.input .empty 2 false) :=
    ⟨by simp [Gen.new, hI], rfl, by simp [Gen.new, MapChain.empty]⟩
  obtain ⟨S', e, -⟩ := handle_fit hb hfit fuel h1 hc hH q1 q2 (fun _ => q3) (S := ⟨[], [], [], [], []⟩)
    ⟨rfl, rfl, fun _ => rfl⟩
  unfold Whole.good goodTemplate
  exact Option.isSome_iff_exists.mpr ⟨S', e⟩

/-- C38: generated code renders what the template says. For every configuration, every set of files and every template
without `let` and macro calls (`Verif.Spec.Core`), if it compiles, the code makes the text the template means, or both
fail. -/
theorem C38_code_is_faithful (W : World U) (hs : Stable W) {isWs : Char → Bool} {krate root : Str} {raw : RawConfig}
    {ws : Option Str} (env : DeriveEnv) (c : Config) (hc : Config.new isWs krate root raw ws = .ok c) (ident : Str)
    (args : TemplateArgs) (hb : args.block = none) (fuel : Nat) (code : List Stmt)
    (h : buildTemplate env c ident args fuel = .ok code) :
    ∃ w, load env c ident args fuel = some w ∧ (w.core = true → output W code = w.text W fuel) := by
  obtain ⟨w, H, t, h1, h2, h3, h4, h5, h6, h7, h8, h9⟩ := build_loads h
  refine ⟨w, h1, fun hcore => ?_⟩
  have hI : w.input.block = none := by rw [h3]; exact (newInput_block h2).trans hb
  have hbl : AllBlocksOk w.input := fun p x hp => contextNew_blocks (h5 p x hp)
  have hch : chainOf w.input.contexts w.ctx = some w.chain := load_chain h1
  have hg := core_good hI hcore (load_parsed (config_comments hc) h1) (fun p x hp => ⟨_, h5 p x hp⟩) h4 h7 hch h8 h9
  exact generate_sound hI hs hbl h7 h8 hg h9 _ _

/-- The world of `toy`, with values that can be displayed again. -/
def calm : World Toy := { toy with disp := fun u _ => u.disp 0 }

theorem calm_stable : Stable calm := fun _ _ => rfl

/-- A template, its base, a template it includes and one with macros. -/
def sample : List (Str × Str) :=
  [(c!"t/a.html", c!"{% extends \"base.html\" %}{% import \"m.html\" as m %}{% block main %}{% for i in [1,2,3] if i != 2 %}{% if loop.first %}<{{ i }}>{% else if i == 3 %}{% break %}{% else %}{{ loop.index }}{% endif %}{% else %}none{% endfor %}{% call super() %}{% let y = x|f %}{% call m::bold(y, n = 5) %}{# no #}{% match y %}{% when \"z\" %}Z{% when _ %}{% raw %}{{ raw }}{% endraw %}{% endmatch %}{% endblock %}"),
   (c!"t/base.html", c!"<h1>{{ title }}</h1>\n  {%- block main %}[{{ x }}]{% endblock ~%}\n  {% include \"foot.html\" %}"),
   (c!"t/m.html", c!"{% macro bold(t, n) %}<b>{{ t }}:{{ n|e }}</b>{% endmacro %}"),
   (c!"t/foot.html", c!"{% filter upper|trim %}{{ loop_ }}--{{ x|safe }}{% endfilter %}")]

example : (load (toyEnv sample) (toyConfig .preserve) c!"T" (toyArgs c!"a.html" none) 50).map
      (fun w => (w.good 50, w.chain.length, w.text calm 50))
    = some (true, 2, some c!"<h1>title</h1><2>[x]<b>f(x):5</b>{{ raw }}\n  trim(upper(loop_--x))") := by decide +kernel

/-- The configuration of the examples is accepted. -/
theorem toyConfig_new : Config.new Char.isWhitespace [] [] ⟨some ⟨some [c!"t"], none, .preserve⟩, none, none⟩ none
    = .ok (toyConfig .preserve) := rfl

/-- A template without `let` and macro calls, its base and a template it includes. -/
def coreSample : List (Str × Str) :=
  [(c!"t/a.html", c!"{% extends \"base.html\" %}{% block main %}{% for i in [1,2,3] if i != 2 %}{% if loop.first %}<{{ i }}>{% else if i == 3 %}{% break %}{% else %}{{ loop.index }}{% endif %}{% else %}none{% endfor %}{% call super() %}{# no #}{% match y %}{% when \"z\" %}Z{% when _ %}{% raw %}{{ raw }}{% endraw %}{% endmatch %}{% endblock %}"),
   (c!"t/base.html", c!"<h1>{{ title }}</h1>\n  {%- block main %}[{{ x }}]{% endblock ~%}\n  {% include \"foot.html\" %}"),
   (c!"t/foot.html", c!"{% filter upper|trim %}{{ loop_ }}--{{ x|safe }}{% endfilter %}")]

example : (load (toyEnv coreSample) (toyConfig .preserve) c!"T" (toyArgs c!"a.html" none) 50).map
      (fun w => (w.core, w.chain.length, w.text calm 50))
    = some (true, 2, some c!"<h1>title</h1><2>[x]{{ raw }}\n  trim(upper(loop_--x))") := by decide +kernel

example : (buildTemplate (toyEnv coreSample) (toyConfig .preserve) c!"T" (toyArgs c!"a.html" none) 50).toOption.map
      (output calm) = some (some c!"<h1>title</h1><2>[x]{{ raw }}\n  trim(upper(loop_--x))") := by decide +kernel

end Askama.Props
