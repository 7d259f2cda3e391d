import Verif.Lemmas.Layout
import Verif.Props.Text
import Verif.Props.Counter

/-! C24, C25, C33 and C45 for templates of every kind: what the text is made of, whatever the values are. -/

namespace Askama.Props

open Askama Askama.Spec

variable {U : Type} {W : World U} {I : GenInput}

/-! ## The layout of the text -/

/-- The text that the code of a template writes is laid out as its source says: literal text, displayed values and the
texts of blocks, calls and includes are in their places, with nothing between them. Unlike `C38_unbounded` this is for
all templates with tidy filter blocks, but leaves open which values are displayed and which branches are taken. -/
theorem layout_partial (hs : Stable W) {code : List Stmt} {w : Whole} (h : Builds code w) {s : Str}
    (he : Finishes W code s) : w.Lays W s := by
  obtain ⟨⟨isWs, krate, root, raw, ws, c, env, ident, args, hc, hb, ⟨n, h⟩, ⟨k, hl⟩⟩, htidy⟩ := h
  obtain ⟨w', H, t, h1, h2, h3, h4, h5, h6, h7, h8, h9⟩ := build_loads h
  have hw : w' = w := by
    have e1 := failsOr_some (load_mono (env := env) (c := c) (ident := ident) (args := args) (Nat.le_max_left n k)) h1
    have e2 := failsOr_some (load_mono (env := env) (c := c) (ident := ident) (args := args) (Nat.le_max_right n k)) hl
    exact Option.some.inj (e1.symm.trans e2)
  subst hw
  have hI : w'.input.block = none := by rw [h3]; exact (newInput_block h2).trans hb
  have hbl : AllBlocksOk w'.input := fun p x hp => contextNew_blocks (h5 p x hp)
  have hch : chainOf w'.input.contexts w'.ctx = some w'.chain := load_chain h1
  have hn : ∀ p x, assoc w'.input.contexts p = some x → NeatCtx x := by
    intro p x hp
    refine contextNew_neat (h5 p x hp) ⟨load_parsed (config_comments hc) h1 p x hp, ?_⟩
    intro m hm
    exact List.all_eq_true.mp (List.all_eq_true.mp htidy _ (assoc_pair hp)) m hm
  obtain ⟨hq1, hq2, hq3⟩ := chain_neat hn (hn _ _ h4) hch
  obtain ⟨ρ, he⟩ := he
  exact generate_lays hI hs hbl hn h7 h8 hq1 hq2 hq3 h9 he

theorem laid_split {chain : List Ctx} {ctx : Ctx} {sup : Option (Str × Nat)} {n : Node} {post : List Node}
    {after : Option WH} : {pre : List Node} → {before : WH} → {s : Str} →
    Laid W I chain ctx sup before (pre ++ n :: post) after s .next →
    ∃ a m b, Laid W I chain ctx sup before pre (nextSide I (n :: post) after) a .next
      ∧ LaidNode W I chain ctx sup (endSide I before pre) n (nextSide I post after) m .next
      ∧ Laid W I chain ctx sup (endSide I before (pre ++ [n])) post after b .next ∧ s = a ++ m ++ b
  | [], before, s, h => by
    cases h with
    | cons h1 h2 => exact ⟨[], _, _, .nil .., h1, h2, rfl⟩
    | stop _ h2 => exact absurd rfl h2
  | x :: pre, before, s, h => by
    cases h with
    | cons h1 h2 =>
      obtain ⟨a, m, b, h3, h4, h5, rfl⟩ := laid_split h2
      rw [show pre.append (n :: post) = pre ++ n :: post from rfl, nextSide_append] at h1
      refine ⟨_ ++ a, m, b, .cons h1 h3, ?_, ?_, by simp⟩
      · rw [endSide_cons]; exact h4
      · rw [List.cons_append, endSide_cons]; exact h5
    | stop _ h2 => exact absurd rfl h2

theorem lays_around (hs : Stable W) {code : List Stmt} {w : Whole} (h : Builds code w) {pre post : List Node}
    {n : Node} (hr : w.root.nodes = pre ++ n :: post) {part : WH → Option WH → Str → Prop}
    (hp : ∀ before after m, LaidNode W w.input w.chain w.root none before n after m .next → part before after m) {s : Str}
    (he : Finishes W code s) : w.LaysAround W pre n post part s := by
  have h1 := layout_partial hs h he
  unfold Whole.Lays at h1
  rw [hr] at h1
  obtain ⟨a, m, b, h2, h3, h4, h5⟩ := laid_split h1
  exact ⟨a, m, b, h2, hp _ _ _ h3, h4, h5⟩

/-! ## C24 -/

theorem laid_raw {chain : List Ctx} {ctx : Ctx} {sup : Option (Str × Nat)} {before : WH} {after : Option WH}
    {ws1 ws2 : Ws} {l : Lit} {s : Str} {sig : Sig} : LaidNode W I chain ctx sup before (.raw ws1 l ws2) after s sig ↔
      s = litText (sideOf I ws1.r) l (some (sideOf I ws2.l)) ∧ sig = .next := by
  constructor
  · intro h
    cases h with
    | raw => exact ⟨rfl, rfl⟩
    | shown h => obtain ⟨e, v, t, h1, -⟩ := h; cases h1
  · rintro ⟨rfl, rfl⟩; exact .raw ..

/-- C24 for all templates with tidy filter blocks: a raw block of the layout contributes its content, with the whitespace
that its own tags leave, to the text that the template renders. Missing are templates with an empty filter block or with
one that has control flow in it, of which this is false (`C24_false`). -/
theorem C24_laid_partial (hs : Stable W) {code : List Stmt} {w : Whole} (h : Builds code w) {pre post : List Node}
    {ws1 ws2 : Ws} {l : Lit} (hr : w.root.nodes = pre ++ .raw ws1 l ws2 :: post) {s : Str} (he : Finishes W code s) :
    w.LaysAround W pre (.raw ws1 l ws2) post
      (fun _ _ m => m = litText (sideOf w.input ws1.r) l (some (sideOf w.input ws2.l))) s :=
  lays_around hs h hr (fun _ _ _ h => (laid_raw.mp h).1) he

/-- C24 is false: an empty filter block removes the content of the raw block before it. -/
theorem C24_false : compiled (one c!"{% raw %}{{ x }}{% endraw %}{% filter upper %}{% endfilter %}") c!"a.html" = .ok (some [])
    ∧ compiled (one c!"{% raw %}{{ x }}{% endraw %}") c!"a.html" = .ok (some c!"{{ x }}") := by decide +kernel

/-! ## C25 -/

theorem laid_comment {chain : List Ctx} {ctx : Ctx} {sup : Option (Str × Nat)} {before : WH} {after : Option WH}
    {ws : Ws} {c : Str} {s : Str} {sig : Sig} : LaidNode W I chain ctx sup before (.comment ws c) after s sig ↔
      s = [] ∧ sig = .next := by
  constructor
  · intro h
    cases h with
    | comment => exact ⟨rfl, rfl⟩
    | shown h => obtain ⟨e, v, t, h1, -⟩ := h; cases h1
  · rintro ⟨rfl, rfl⟩; exact .comment ..

/-- C25 for all templates with tidy filter blocks: a comment of the layout contributes nothing. -/
theorem C25_laid_partial (hs : Stable W) {code : List Stmt} {w : Whole} (h : Builds code w) {pre post : List Node}
    {ws : Ws} {c : Str} (hr : w.root.nodes = pre ++ .comment ws c :: post) {s : Str} (he : Finishes W code s) :
    w.LaysAround W pre (.comment ws c) post (fun _ _ m => m = []) s :=
  lays_around hs h hr (fun _ _ _ h => (laid_comment.mp h).1) he

/-! ## C33 -/

theorem laid_lit {chain : List Ctx} {ctx : Ctx} {sup : Option (Str × Nat)} {before : WH} {after : Option WH}
    {l : Lit} {s : Str} {sig : Sig} : LaidNode W I chain ctx sup before (.lit l) after s sig ↔
      s = litText before l after ∧ sig = .next := by
  constructor
  · intro h
    cases h with
    | lit => exact ⟨rfl, rfl⟩
    | shown h => obtain ⟨e, v, t, h1, -⟩ := h; cases h1
  · rintro ⟨rfl, rfl⟩; exact .lit ..

/-- C33 for all templates with tidy filter blocks: a piece of literal text of the layout contributes what the tag before it
and the tag after it leave of it. Missing are templates with an empty filter block or with one that has control flow in
it, of which this is false (`C33_false`). -/
theorem C33_laid_partial (hs : Stable W) {code : List Stmt} {w : Whole} (h : Builds code w) {pre post : List Node}
    {l : Lit} (hr : w.root.nodes = pre ++ .lit l :: post) {s : Str} (he : Finishes W code s) :
    w.LaysAround W pre (.lit l) post (fun before after m => m = litText before l after) s :=
  lays_around hs h hr (fun _ _ _ h => (laid_lit.mp h).1) he

/-- C33 is false: the whitespace at the end of a literal is removed although the tag after it asks to keep it. -/
theorem C33_false : compiled (one c!"a \n {%+ filter upper %}{% endfilter %}b") c!"a.html" = .ok (some c!"b")
    ∧ compiled (one c!"a \n {%+ filter upper %}c{% endfilter %}b") c!"a.html" = .ok (some c!"a \n upper(c)b") := by
  decide +kernel

/-! ## C45 -/

/-- C45 for all templates with tidy filter blocks: a block of the layout contributes a text of the definition of the most
derived template that has one. -/
theorem C45_laid (hs : Stable W) {code : List Stmt} {w : Whole} (h : Builds code w) {pre post : List Node}
    {ws1 ws2 : Ws} {name : Str} {nodes : List Node} (hr : w.root.nodes = pre ++ .blockDef ws1 name nodes ws2 :: post)
    {s : Str} (he : Finishes W code s) :
    w.LaysAround W pre (.blockDef ws1 name nodes ws2) post
      (fun _ _ m => ∃ c d, Defines w.chain name 0 c d
        ∧ Laid W w.input w.chain (withMacrosOf c w.root) (some (name, 0)) (sideOf w.input d.ws1.r) d.nodes
            (some (sideOf w.input d.ws2.l)) m .next) s := by
  refine lays_around hs h hr (fun _ _ m h => ?_) he
  cases h with
  | block h1 h2 => exact ⟨_, _, (blockDefs_iff _).mp h1, h2⟩
  | shown h => obtain ⟨e, v, t, h1, -⟩ := h; cases h1

/-! ## The hypotheses are met -/

/-- From evaluation to the hypotheses of the theorems. -/
theorem builds_of {files : List (Str × Str)} {main : Str} {f : Node → Nat} {s : Str} {kinds : List Nat}
    (h1 : (buildTemplate (toyEnv files) (toyConfig .preserve) c!"T" (toyArgs main none) 50).toOption.map
      (fun code => (output calm code, straysList code)) = some (some s, false))
    (h2 : (load (toyEnv files) (toyConfig .preserve) c!"T" (toyArgs main none) 50).map
      (fun w => (w.input.tidy, w.root.nodes.map f)) = some (true, kinds)) :
    ∃ code w, Builds code w ∧ Finishes calm code s ∧ w.root.nodes.map f = kinds := by
  obtain ⟨code, h3, h4⟩ := Option.map_eq_some_iff.mp h1
  obtain ⟨w, h5, h6⟩ := Option.map_eq_some_iff.mp h2
  have h3 : buildTemplate (toyEnv files) (toyConfig .preserve) c!"T" (toyArgs main none) 50 = .ok code := by
    cases hb : buildTemplate (toyEnv files) (toyConfig .preserve) c!"T" (toyArgs main none) 50 with
    | error e => rw [hb] at h3; cases h3
    | ok x => rw [hb] at h3; cases h3; rfl
  simp only [Prod.mk.injEq] at h4 h6
  exact ⟨code, w, ⟨⟨_, _, _, _, _, _, _, _, _, toyConfig_new, rfl, ⟨50, h3⟩, ⟨50, h5⟩⟩, h6.1⟩,
    (finishes_iff h4.2).mpr h4.1, h6.2⟩

/-- The kind of a node that the theorems above are about. -/
def laidKind : Node → Nat
  | .lit _ => 1
  | .raw .. => 2
  | .comment .. => 3
  | .blockDef .. => 4
  | _ => 0

/-- A layout with a macro, `let` and a filter block, and a template that extends it. -/
def laidSample : List (Str × Str) :=
  [(c!"t/a.html", c!"{% extends \"base.html\" %}{% block main %}new {% call super() %}{% endblock %}"),
   (c!"t/base.html", c!"{% macro m(a) %}{% let b = a %}<{{ b }}>{% endmacro %}{% let a = x %} {%- raw +%} {{ y }}{%~ endraw %}{# no #}{% call m(a) %}{% block main %}[{{ b }}]{% endblock %}{% filter upper %}f{{ a }}{% endfilter %} end")]

/-- There are templates as in the theorems above, which do not pass the check of `Translates`. -/
theorem laidSample_builds : ∃ code w, Builds code w ∧ Finishes calm code c!" {{ y }}<x>new [b]upper(fx) end"
    ∧ w.root.nodes.map laidKind = [0, 0, 1, 2, 3, 0, 4, 0, 1] :=
  builds_of (files := laidSample) (main := c!"a.html") (by decide +kernel) (by decide +kernel)

example : (load (toyEnv laidSample) (toyConfig .preserve) c!"T" (toyArgs c!"a.html" none) 50).map
    (fun w => w.core || w.good 50) = some false := by decide +kernel

example : ∃ code w s pre n post, Stable calm ∧ Builds code w ∧ Finishes calm code s ∧ w.root.nodes = pre ++ n :: post
    ∧ laidKind n = 2 := by
  obtain ⟨code, w, h1, h2, h3⟩ := laidSample_builds
  obtain ⟨pre, n, post, h4, h5⟩ := split_at (b := 2) w.root.nodes (by rw [h3]; decide)
  exact ⟨code, w, _, pre, n, post, calm_stable, h1, h2, h4, h5⟩

end Askama.Props
