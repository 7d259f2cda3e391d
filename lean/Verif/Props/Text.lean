import Verif.Lemmas.Flat
import Verif.Props.Language
import Verif.Props.ParseTags

/-! C23, C24, C25 and C33, from the source text to the rendered text. -/

namespace Askama.Props

open Askama Askama.Spec

variable {U : Type} {W : World U} {I : GenInput}

/-! ## Templates without expressions -/

/-- A template of text, comments and raw blocks compiles, and what it renders are its literals, with the whitespace that
the tags around them leave. This holds in every world: nothing of the type the template is derived for is used. -/
theorem plain_renders {isWs : Char → Bool} {krate root : Str} {raw : RawConfig} {ws : Option Str} {env : DeriveEnv}
    {c : Config} (hc : Config.new isWs krate root raw ws = .ok c) {ident : Str} {args : TemplateArgs}
    (hb : args.block = none) {t : TemplateInput} (ht : TemplateInput.new env.files env.guess c ident args = .ok t)
    {src : Str} (hsrc : mainSource env t = .ok src) {ns : List Node}
    (hns : parseTemplate ⟨t.syn, env.isLower⟩ src = .ok ns) (hp : ∀ n ∈ ns, plain n = true) :
    ∃ code, (∀ fuel, buildTemplate env c ident args (fuel + 1) = .ok code)
      ∧ ∀ {U : Type} (W : World U), Finishes W code (plainText c.whitespace .preserve ns) := by
  obtain ⟨code, h1, h2⟩ := build_plain (config_comments hc) hb ht hsrc hns hp 0
  refine ⟨code, fun fuel => ?_, h2⟩
  obtain ⟨code', h1', -⟩ := build_plain (config_comments hc) hb ht hsrc hns hp fuel
  rcases buildTemplate_mono env c ident args (show 0 + 1 ≤ fuel + 1 by omega) with h | h
  · rw [h1] at h; cases h
  · rw [← h]; exact h1

/-! ## C23 -/

/-- C23: a template without any of the opening delimiters compiles and renders to exactly its source, whatever the
configuration. -/
theorem C23_renders_itself {isWs : Char → Bool} {krate root : Str} {raw : RawConfig} {ws : Option Str} {env : DeriveEnv}
    {c : Config} (hc : Config.new isWs krate root raw ws = .ok c) {ident : Str} {args : TemplateArgs}
    (hb : args.block = none) {t : TemplateInput} (ht : TemplateInput.new env.files env.guess c ident args = .ok t)
    {src : Str} (hsrc : mainSource env t = .ok src) (hd : ∀ a b, src = a ++ b → ¬ startsDelim t.syn.starts b) :
    ∃ code, (∀ fuel, buildTemplate env c ident args (fuel + 1) = .ok code)
      ∧ ∀ {U : Type} (W : World U), Finishes W code src := by
  rcases C23_plain_text ⟨t.syn, env.isLower⟩ src hd with ⟨rfl, hns⟩ | ⟨l, hns, hl⟩
  · exact plain_renders hc hb ht hsrc hns (by simp)
  · obtain ⟨code, h1, h2⟩ := plain_renders hc hb ht hsrc hns (by simp [plain])
    refine ⟨code, h1, fun W => ?_⟩
    have h3 := h2 W
    obtain ⟨n, hn⟩ := newInput_syntax ht
    obtain ⟨-, b, hok⟩ := parse_parsed (config_comments hc _ (assoc_pair hn)) hns
    have hlit := litOk_parsed (show LitOk l from hok.1.2.2.2.2.1.1)
    have : plainText c.whitespace .preserve [.lit l] = src := by
      rw [← hl]
      simp only [plainText, List.head?_nil, Option.map_none, List.append_nil, litText, Lit.text, Option.getD_none, applyWs]
      split
      · rename_i hv
        have : l.rws = [] := by simpa [litOk, hv] using hlit
        simp [hv, this]
      · rfl
    rwa [this] at h3

theorem noStarts {starts : List Str} {src : Str}
    (h : (List.range (src.length + 1)).all (fun k => starts.all fun d => !d.isPrefixOf (src.drop k)) = true) :
    ∀ a b, src = a ++ b → ¬ startsDelim starts b := by
  rintro a b rfl ⟨d, hd, hp⟩
  have h1 := List.all_eq_true.mp h a.length (List.mem_range.mpr (by simp; omega))
  have h2 := List.all_eq_true.mp h1 d hd
  rw [List.drop_left, List.isPrefixOf_iff_prefix.mpr hp] at h2
  cases h2

/-- A text with everything that could be mistaken for something else. -/
def oddText : Str := c!" \n{ a } {1} \"{0:?}\\\" # } % }} %} \t\n "

example : ∃ (env : DeriveEnv) (c : Config) (args : TemplateArgs) (t : TemplateInput) (raw : RawConfig),
    Config.new Char.isWhitespace [] [] raw none = .ok c ∧ args.block = none
      ∧ TemplateInput.new env.files env.guess c c!"T" args = .ok t ∧ mainSource env t = .ok oddText
      ∧ ∀ a b, oddText = a ++ b → ¬ startsDelim t.syn.starts b :=
  ⟨toyEnv [(c!"t/odd.html", oddText)], toyConfig .suppress, toyArgs c!"odd.html" none, _,
    ⟨some ⟨some [c!"t"], none, .suppress⟩, none, none⟩, rfl, rfl, rfl, rfl, noStarts (by decide +kernel)⟩

/-! ## C24 -/

/-- C24: a template that consists of one raw block compiles and renders to what is inside of it, up to whitespace at its
ends, which is handled as configured. If whitespace is preserved it is exactly the body. -/
theorem C24_renders_body {isWs : Char → Bool} {krate root : Str} {raw : RawConfig} {ws : Option Str} {env : DeriveEnv}
    {c : Config} (hc : Config.new isWs krate root raw ws = .ok c) {ident : Str} {args : TemplateArgs}
    (hb : args.block = none) {t : TemplateInput} (ht : TemplateInput.new env.files env.guess c ident args = .ok t)
    (hsyn : t.syn = Syntax.default) {body : Str} (hsrc : mainSource env t = .ok (c!"{% raw %}" ++ body ++ c!"{% endraw %}"))
    (hfirst : ∀ x y, body = x ++ y → y ≠ [] → ¬ EndRaw c!"{%" c!"%}" (y ++ c!"{% endraw %}")) :
    ∃ code lead val trail, (∀ fuel, buildTemplate env c ident args (fuel + 1) = .ok code)
      ∧ body = lead ++ val ++ trail ∧ Blank lead ∧ Blank trail
      ∧ (∀ {U : Type} (W : World U),
          Finishes W code (applyWs c.whitespace lead ++ val ++ applyWs c.whitespace trail))
      ∧ (c.whitespace = .preserve → ∀ {U : Type} (W : World U), Finishes W code body) := by
  obtain ⟨l, hl, hns⟩ := C24_raw_template env.isLower body hfirst
  obtain ⟨code, h1, h2⟩ := plain_renders hc hb ht hsrc (by rw [hsyn]; exact hns) (by simp [plain])
  obtain ⟨n, hn⟩ := newInput_syntax ht
  obtain ⟨-, b, hok⟩ := parse_parsed (env := ⟨t.syn, env.isLower⟩) (config_comments hc _ (assoc_pair hn)) (by rw [hsyn]; exact hns)
  have hlo : LitOk l := hok.1.2.2.2.2.1
  have hlit := litOk_parsed hlo
  have ht : plainText c.whitespace .preserve [.raw ⟨none, none⟩ l ⟨none, none⟩]
      = applyWs c.whitespace l.lws ++ l.val ++ applyWs c.whitespace l.rws := by
    simp only [plainText, asks, litText, List.append_nil, Option.getD_some]
    split
    · rename_i hv
      have : l.rws = [] := by simpa [litOk, hv] using hlit
      rw [this, hv]
      cases c.whitespace <;> simp [applyWs]
    · rfl
  refine ⟨code, l.lws, l.val, l.rws, h1, ?_, hlo.1, hlo.2.1, fun W => by rw [← ht]; exact h2 W, fun hw _ W => ?_⟩
  · rw [← hl]; rfl
  · have := h2 W
    rw [ht, hw] at this
    rw [← hl]
    exact this

theorem noEndRaw {body : Str}
    (h : (List.range body.length).all (fun k => !(c!"{%").isPrefixOf (body.drop k ++ c!"{% endraw %}")) = true) :
    ∀ x y, body = x ++ y → y ≠ [] → ¬ EndRaw c!"{%" c!"%}" (y ++ c!"{% endraw %}") := by
  rintro x y rfl hy ⟨m1, w1, w2, m2, r, h1, -, he⟩
  have h2 := List.all_eq_true.mp h x.length (List.mem_range.mpr (by simpa using List.length_pos_iff.2 hy))
  rw [List.drop_left, he] at h2
  simp [wordTag] at h2

example : ∃ (env : DeriveEnv) (c : Config) (args : TemplateArgs) (t : TemplateInput) (raw : RawConfig) (body : Str),
    Config.new Char.isWhitespace [] [] raw none = .ok c ∧ args.block = none
      ∧ TemplateInput.new env.files env.guess c c!"T" args = .ok t ∧ t.syn = Syntax.default
      ∧ mainSource env t = .ok (c!"{% raw %}" ++ body ++ c!"{% endraw %}")
      ∧ (∀ x y, body = x ++ y → y ≠ [] → ¬ EndRaw c!"{%" c!"%}" (y ++ c!"{% endraw %}"))
      ∧ body = c!" {{ x }}{# " :=
  ⟨toyEnv [(c!"t/r.html", c!"{% raw %} {{ x }}{# {% endraw %}")], toyConfig .suppress, toyArgs c!"r.html" none, _,
    ⟨some ⟨some [c!"t"], none, .suppress⟩, none, none⟩, _, rfl, rfl, rfl, rfl, rfl, noEndRaw (by decide +kernel), rfl⟩

/-- C24: a raw block in the layout of a template renders its content, with the whitespace that its own tags leave; it uses
and changes no variables. -/
theorem C24_rendered (hs : Stable W) {code : List Stmt} {w : Whole} (h : Translates code w) {pre post : List Node}
    {ws1 ws2 : Ws} {l : Lit} (hr : w.root.nodes = pre ++ .raw ws1 l ws2 :: post) (s : Str) :
    Finishes W code s ↔ w.Around W pre (.raw ws1 l ws2) post
      (fun p m st => m = litText (sideOf w.input ws1.r) l (some (sideOf w.input ws2.l)) ∧ st = p.store) s :=
  translates_around hs h hr _ (fun _ _ _ => by rw [makes_raw]; simp) s

/-- C24: the same for a raw block at any place. -/
theorem C24_everywhere {p : Place U} {ws1 ws2 : Ws} {l : Lit} {s : Str} {sig : Sig} {st : Store U} :
    Makes W I p [.raw ws1 l ws2] s sig st
      ↔ s = litText (sideOf I ws1.r) l (some (sideOf I ws2.l)) ∧ sig = .next ∧ st = p.store := makes_raw

/-! ## C25 -/

/-- C25: a comment in the layout of a template renders to nothing, and changes no variables. -/
theorem C25_rendered (hs : Stable W) {code : List Stmt} {w : Whole} (h : Translates code w) {pre post : List Node}
    {ws : Ws} {c : Str} (hr : w.root.nodes = pre ++ .comment ws c :: post) (s : Str) :
    Finishes W code s ↔ w.Around W pre (.comment ws c) post (fun p m st => m = [] ∧ st = p.store) s :=
  translates_around hs h hr _ (fun _ _ _ => by rw [makes_comment]; simp) s

/-- C25: the same for a comment at any place. -/
theorem C25_everywhere {p : Place U} {ws : Ws} {c : Str} {s : Str} {sig : Sig} {st : Store U} :
    Makes W I p [.comment ws c] s sig st ↔ s = [] ∧ sig = .next ∧ st = p.store := makes_comment

/-! ## C33 -/

/-- C33: the text of a literal in the layout of a template is made from the literal by what the tag before it and the tag
after it ask for, and by nothing else. -/
theorem C33_rendered (hs : Stable W) {code : List Stmt} {w : Whole} (h : Translates code w) {pre post : List Node}
    {l : Lit} (hr : w.root.nodes = pre ++ .lit l :: post) (s : Str) :
    Finishes W code s ↔ ∃ a b st1 st, Makes W w.input (w.start.front w.input (.lit l :: post)) pre a .next st1
      ∧ Makes W w.input (w.start.rear w.input (pre ++ [.lit l]) st1) post b .next st
      ∧ s = a ++ litText (endSide w.input .preserve pre) l (nextSide w.input post none) ++ b := by
  rw [translates_around hs h hr (fun p m st => m = litText p.before l p.after ∧ st = p.store)
    (fun _ _ _ => by rw [makes_lit]; simp) s]
  unfold Whole.Around
  constructor
  · rintro ⟨a, m, b, st1, st2, st, h1, ⟨rfl, rfl⟩, h3, h4⟩
    exact ⟨a, b, _, st, h1, h3, h4⟩
  · rintro ⟨a, b, st1, st, h1, h3, h4⟩
    exact ⟨a, _, b, st1, st1, st, h1, ⟨rfl, rfl⟩, h3, h4⟩

/-- C33: the same for a literal at any place. -/
theorem C33_everywhere {p : Place U} {l : Lit} {s : Str} {sig : Sig} {st : Store U} :
    Makes W I p [.lit l] s sig st ↔ s = litText p.before l p.after ∧ sig = .next ∧ st = p.store := makes_lit

/-! ## The hypotheses are met -/

/-- Whether a node is a literal, a raw block or a comment. -/
def textKind : Node → Nat
  | .lit _ => 1
  | .raw .. => 2
  | .comment .. => 3
  | _ => 0

/-- From evaluation to the hypotheses of the theorems. -/
theorem translates_of {files : List (Str × Str)} {main : Str} {f : Node → Nat} {s : Str} {kinds : List Nat}
    (h1 : (buildTemplate (toyEnv files) (toyConfig .preserve) c!"T" (toyArgs main none) 50).toOption.map
      (fun code => (output calm code, straysList code)) = some (some s, false))
    (h2 : (load (toyEnv files) (toyConfig .preserve) c!"T" (toyArgs main none) 50).map
      (fun w => (w.core || w.good 50, w.root.nodes.map f)) = some (true, kinds)) :
    ∃ code w, Translates code w ∧ Finishes calm code s ∧ w.root.nodes.map f = kinds := by
  obtain ⟨code, h3, h4⟩ := Option.map_eq_some_iff.mp h1
  obtain ⟨w, h5, h6⟩ := Option.map_eq_some_iff.mp h2
  have h3 : buildTemplate (toyEnv files) (toyConfig .preserve) c!"T" (toyArgs main none) 50 = .ok code := by
    cases hb : buildTemplate (toyEnv files) (toyConfig .preserve) c!"T" (toyArgs main none) 50 with
    | error e => rw [hb] at h3; cases h3
    | ok x => rw [hb] at h3; cases h3; rfl
  simp only [Prod.mk.injEq] at h4 h6
  refine ⟨code, w, ⟨⟨_, _, _, _, _, _, _, _, _, toyConfig_new, rfl, ⟨50, h3⟩, ⟨50, h5⟩⟩, ?_⟩,
    (finishes_iff h4.2).mpr h4.1, h6.2⟩
  rcases Bool.or_eq_true .. ▸ h6.1 with h | h
  · exact .inl h
  · exact .inr ⟨50, h⟩

example : ∃ code w, Translates code w ∧ Finishes calm code c!"<x> {{ y }} b c"
    ∧ w.root.nodes.map textKind = [1, 0, 1, 2, 3, 1, 0, 1] :=
  translates_of (files := [(c!"t/a.html", c!"<{{ x }}> \n {%- raw +%} {{ y }}{%~ endraw %}{#- no -#} {{ \" b\"|safe }} c")])
    (main := c!"a.html") (by decide +kernel) (by decide +kernel)

end Askama.Props
