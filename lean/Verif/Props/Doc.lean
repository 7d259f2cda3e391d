import Verif.Lemmas.DocRead

/-!
# Property C66: template tags are read as they are written

`Spec.Doc` is a piece of a template, `Doc.src` its text, `Doc.node` what it means.
-/

namespace Askama.Props

open Spec PT

/-- C66: with any usable delimiters, the parser accepts the text of every well-formed template within the nesting limit, and
reads it as the template it is the text of. -/
theorem C66_tags_read (syn : Syntax) (hs : Usable syn) (isLower : Char → Bool) (ds : List Doc) (hok : Doc.Oks syn isLower false ds)
    (hd : Doc.needs ds ≤ 128) : parseTemplate ⟨syn, isLower⟩ (Doc.texts syn ds) = .ok (Doc.nodes syn ds) :=
  doc_read hs isLower ds hok hd

/-- C66: no text can be read in two ways. -/
theorem C66_one_reading (syn : Syntax) (hs : Usable syn) (isLower : Char → Bool) (ds ds' : List Doc)
    (h : Doc.Oks syn isLower false ds) (h' : Doc.Oks syn isLower false ds') (hd : Doc.needs ds ≤ 128) (hd' : Doc.needs ds' ≤ 128)
    (ht : Doc.texts syn ds = Doc.texts syn ds') : Doc.nodes syn ds = Doc.nodes syn ds' := by
  have e := C66_tags_read syn hs isLower ds h hd
  rw [ht, C66_tags_read syn hs isLower ds' h' hd'] at e
  exact (ParseOut.ok.inj e).symm

section

variable (syn : Syntax)

theorem plain_test (c : DocTest) : c.usual.tree = c.tree := by cases c <;> rfl

mutual
theorem plain_doc : (d : Doc) → d.plain.node syn = d.node syn
  | .if_ _ _ body more _ => by simp only [Doc.plain, Doc.node, plain_docs body, plain_branches more, plain_test]; rfl
  | .for_ _ _ _ _ body .none _ => by simp only [Doc.plain, Else.plain, Doc.node, plain_docs body]; rfl
  | .for_ _ _ _ _ body (.some _ els) _ => by simp only [Doc.plain, Else.plain, Doc.node, plain_docs body, plain_docs els]; rfl
  | .match_ _ _ _ arms .none _ => by simp only [Doc.plain, Else.plain, Doc.node, plain_arms arms]; rfl
  | .match_ _ _ _ arms (.some _ els) _ => by simp only [Doc.plain, Else.plain, Doc.node, plain_arms arms, plain_docs els]; rfl
  | .block _ _ body _ _ => by simp only [Doc.plain, Doc.node, plain_docs body]; rfl
  | .macro _ _ _ body _ _ => by simp only [Doc.plain, Doc.node, plain_docs body]; rfl
  | .filter _ _ _ body _ => by simp only [Doc.plain, Doc.node, plain_docs body]; rfl
  | .comment _ _ => by simp only [Doc.plain, Doc.node]; rfl
  | .text _ => by simp only [Doc.plain]
  | .expr _ _ => by simp only [Doc.plain, Doc.node]; rfl
  | .call _ _ _ _ _ => by simp only [Doc.plain, Doc.node]; rfl
  | .callBare _ _ _ => by simp only [Doc.plain, Doc.node]; rfl
  | .let_ _ _ _ _ => by simp only [Doc.plain, Doc.node]; rfl
  | .extends_ _ _ => by simp only [Doc.plain, Doc.node]
  | .include_ _ _ => by simp only [Doc.plain, Doc.node]; rfl
  | .import_ _ _ _ => by simp only [Doc.plain, Doc.node]; rfl
  | .raw _ _ _ => by simp only [Doc.plain, Doc.node]; rfl
  | .break_ _ => by simp only [Doc.plain, Doc.node]; rfl
  | .continue_ _ => by simp only [Doc.plain, Doc.node]; rfl
theorem plain_docs : (ds : List Doc) → Doc.nodes syn (Doc.plains ds) = Doc.nodes syn ds
  | [] => by simp only [Doc.plains]
  | d :: ds => by simp only [Doc.plains, Doc.nodes, plain_doc d, plain_docs ds]
theorem plain_branches : (bs : List DocBranch) → DocBranch.nodes syn (DocBranch.plains bs) = DocBranch.nodes syn bs
  | [] => by simp only [DocBranch.plains]
  | .elseIf _ _ _ body :: bs => by
    simp only [DocBranch.plains, DocBranch.plain, DocBranch.nodes, DocBranch.node, plain_docs body, plain_branches bs, plain_test]; rfl
  | .else_ _ body :: bs => by
    simp only [DocBranch.plains, DocBranch.plain, DocBranch.nodes, DocBranch.node, plain_docs body, plain_branches bs]; rfl
theorem plain_arms : (as : List DocArm) → DocArm.nodes syn (DocArm.plains as) = DocArm.nodes syn as
  | [] => by simp only [DocArm.plains]
  | .mk _ _ body :: as => by
    simp only [DocArm.plains, DocArm.plain, DocArm.nodes, DocArm.node, plain_docs body, plain_arms as]; rfl
end

end

/-- C66: white space in tags changes nothing, nor does the choice between `let` and `set`, `elif` and `else if`, or whether an
end tag repeats the name: templates that are the same in the usual spelling are read as the same nodes. -/
theorem C66_layout (syn : Syntax) (hs : Usable syn) (isLower : Char → Bool) (ds ds' : List Doc)
    (h : Doc.Oks syn isLower false ds) (h' : Doc.Oks syn isLower false ds') (hd : Doc.needs ds ≤ 128) (hd' : Doc.needs ds' ≤ 128)
    (hp : Doc.plains ds = Doc.plains ds') :
    parseTemplate ⟨syn, isLower⟩ (Doc.texts syn ds) = parseTemplate ⟨syn, isLower⟩ (Doc.texts syn ds') := by
  rw [C66_tags_read syn hs isLower ds h hd, C66_tags_read syn hs isLower ds' h' hd', ← plain_docs syn ds, hp, plain_docs syn ds']

/-- The default delimiters can be used. -/
theorem usable_default : Usable Syntax.default where
  blockEnd := by decide
  exprEnd := by decide
  commentEnd := by decide
  start := by
    have : ∀ d ∈ [Syntax.default.blockStart, Syntax.default.exprStart, Syntax.default.commentStart], d ≠ [] ∧ ∀ c ∈ d, isWsp c = false := by
      decide
    exact fun d hd => ⟨(this d hd).1, fun c hc hb => by have := (this d hd).2 c hc; rw [isWsp_iff.2 hb] at this; cases this⟩
  distinct := by decide

/-- Delimiters as in ERB templates, and comments as in HTML. -/
def erb : Syntax := ⟨c!"<%", c!"%>", c!"<@", c!"@>", c!"<!--", c!"-->"⟩

/-- They can be used as well. -/
theorem usable_erb : Usable erb where
  blockEnd := by decide
  exprEnd := by decide
  commentEnd := by decide
  start := by
    have : ∀ d ∈ [erb.blockStart, erb.exprStart, erb.commentStart], d ≠ [] ∧ ∀ c ∈ d, isWsp c = false := by
      decide
    exact fun d hd => ⟨(this d hd).1, fun c hc hb => by have := (this d hd).2 c hc; rw [isWsp_iff.2 hb] at this; cases this⟩
  distinct := by decide

/-! ## The hypotheses can be met -/

def nameB : Str → Bool
  | [] => false
  | c :: t => decide (('a' ≤ c ∧ c ≤ 'z') ∨ ('A' ≤ c ∧ c ≤ 'Z')) &&
      t.all fun c => decide (('a' ≤ c ∧ c ≤ 'z') ∨ ('A' ≤ c ∧ c ≤ 'Z'))

theorem name_b {n : Str} (h : nameB n = true) : Name n := by
  cases n with
  | nil => simp [nameB] at h
  | cons c t =>
    simp only [nameB, Bool.and_eq_true, decide_eq_true_eq, List.all_eq_true] at h
    have hc : ∀ x : Char, (('a' ≤ x ∧ x ≤ 'z') ∨ ('A' ≤ x ∧ x ≤ 'Z')) → identChar x :=
      fun x hx => hx.elim .inl fun hx => .inr (.inl hx)
    refine ⟨⟨c, t, rfl, hc c h.1, ?_⟩, fun x hx => ?_⟩
    · have h1 := h.1
      simp only [Char.le_def, UInt32.le_iff_toNat_le] at h1 ⊢
      have e1 : 'a'.val.toNat = 97 := rfl
      have e2 : 'A'.val.toNat = 65 := rfl
      have e3 : '9'.val.toNat = 57 := rfl
      omega
    · rcases List.mem_cons.1 hx with rfl | hx
      · exact hc _ h.1
      · exact hc _ (h.2 x hx)

theorem var_b {n : Str} (h : (nameB n && n.head?.any Char.isLower && decide (n ≠ c!"true" ∧ n ≠ c!"false")) = true) :
    Variable Char.isLower n := by
  simp only [Bool.and_eq_true, decide_eq_true_eq] at h
  refine ⟨name_b h.1.1, fun c hc => ?_, h.2.1, h.2.2⟩
  have := h.1.2
  rw [hc] at this
  exact this

theorem text_b {syn : Syntax} {s : Str} (h : (decide (s ≠ []) && [syn.blockStart, syn.commentStart, syn.exprStart].all fun d =>
    !(decide (d <:+: s)) && (List.range d.length).all fun n => !(decide (d.take (n + 1) <:+ s))) = true) : TextOk syn s := by
  simp only [Bool.and_eq_true, decide_eq_true_eq, List.all_eq_true, Bool.not_eq_true', decide_eq_false_iff_not, List.mem_range] at h
  refine ⟨h.1, fun d hd => ⟨(h.2 d hd).1, fun a ha hp hsuf => ?_⟩⟩
  have hl := List.length_pos_iff.2 ha
  have hle := hp.length_le
  have := (h.2 d hd).2 (a.length - 1) (by omega)
  rw [show a.length - 1 + 1 = a.length by omega, ← List.prefix_iff_eq_take.1 hp] at this
  exact this hsuf

private def n0 : Lay := .std none none

/-- A template with most of the tags. -/
def doc1 : List Doc :=
  [.extends_ n0 c!"a",
   .text c!" Hi ",
   .if_ (.std none (some .suppress)) (.bind false (.tupOf false [c!"Some"] false [.var c!"x"]) (.attr (.var c!"a") c!"b"))
     [.expr (.std (some .minimize) none) (.filter (.var c!"x") c!"upper" [])]
     [.elseIf false n0 (.bind true (.tupOf false [c!"Some"] true [.var c!"x"]) (.var c!"c")) [.text c!"y"], .elseIf true n0 (.plain (.var c!"d")) [],
      .else_ (.std (some .preserve) (some .preserve)) [.text c!"z"]] n0,
   .for_ n0 (.tup [.var c!"i", .var c!"j"]) (.var c!"k") (some (.var c!"l"))
     [.expr n0 (.var c!"j"), .continue_ n0, .if_ n0 (.plain (.var c!"i")) [.break_ n0] [] n0] (.some n0 [.text c!"none"]) n0,
   .match_ n0 (.var c!"m") c!"\n "
     [.mk n0 (.any [.recOf false [c!"A", c!"B"] true [.short c!"f", .long c!"g" (.num c!"1")], .path false [c!"None"]]) [.text c!"n"],
      .mk n0 (.parens (.str c!"s")) []] (.some n0 [.let_ n0 false (.var c!"o") (some (.var c!"p")), .let_ n0 true (.var c!"o") none]) (.std (some .suppress) none),
   .macro n0 c!"q" [c!"r", c!"s"] [.text c!"t"] true n0,
   .call n0 none c!"q" [.num c!"1"] [(c!"s", .bool true)],
   .callBare n0 (some c!"y") c!"z",
   .block n0 c!"u" [.filter n0 ⟨c!"v", []⟩ [⟨c!"w", [.num c!"2"]⟩] [.text c!"x"] n0] false n0]

example : Doc.texts Syntax.default doc1 = c!"{% extends \"a\" %} Hi {% if let Some(x) = a.b -%}{{~ x|upper }}{% else if set Some with(x) = c %}y{% elif d %}{%+ else +%}z{% endif %}{% for (i, j) in k if l %}{{ j }}{% continue %}{% if i %}{% break %}{% endif %}{% else %}none{% endfor %}{% match m %}\n {% when A::B with { f, g: 1 } or None %}n{% when (\"s\") %}{% else %}{% let o = p %}{% set o %}{%- endmatch %}{% macro q(r, s) %}t{% endmacro q %}{% call q(1, s = true) %}{% call y::z %}{% block u %}{% filter v|w(2) %}x{% endfilter %}{% endblock %}" := by
  decide +kernel

example : Doc.texts erb (doc1.drop 7) = c!"<% call y::z %><% block u %><% filter v|w(2) %>x<% endfilter %><% endblock %>" := by
  decide +kernel

/-- It is well-formed with both sorts of delimiters. -/
theorem doc1_ok (syn : Syntax) (hsyn : syn = Syntax.default ∨ syn = erb) : Doc.Oks syn Char.isLower false doc1 ∧ Doc.needs doc1 ≤ 128 := by
  refine ⟨?_, by decide +kernel⟩
  have hs : ∀ c : Char, c ≠ '"' → c ≠ '\\' → StrBody [c] := fun c h1 h2 => .char c h1 h2 .nil
  have hns : ∀ l : List Str, l.all nameB = true → ∀ s ∈ l, Name s := fun l h s hs => name_b (List.all_eq_true.1 h s hs)
  have hp : ∀ n : Str, nameB n = true → n.head?.any Char.isLower = false →
      ∀ (s : Str) (c : Char), [n].head? = some s → s.head? = some c → c.isLower = false := by
    intro n _ h s c hs hc
    simp at hs
    subst hs
    rw [hc] at h
    exact h
  simp only [doc1, Doc.Oks, Doc.Ok, DocBranch.Oks, DocBranch.Ok, DocArm.Oks, DocArm.Ok, Else.Ok, DocTest.Ok, Flt.Ok, ArgsOk, Tm.Ok, Tm.Oks,
    Pt.Ok, Pt.Oks, Fd.Ok, Fd.Oks, PatPath, Tm.first, Binder]
  repeat' first
    | exact trivial
    | exact name_b (by decide)
    | exact var_b (by decide)
    | (rcases hsyn with rfl | rfl <;> exact text_b (by decide))
    | exact hs _ (by decide) (by decide)
    | exact hns _ (by decide)
    | exact number_digits (by decide)
    | exact .inl (number_digits (by decide))
    | exact .inl (by decide)
    | exact .inr ⟨rfl, .inr (hp _ (by decide) (by decide))⟩
    | decide
    | apply And.intro
    | (intro _ h; cases h; done)
  · exact .inl (name_b (by decide))
  · rintro e ⟨⟩
    exact ⟨var_b (by decide), rfl⟩
  · intro c hc
    simp at hc
    rcases hc with rfl | rfl
    · exact .inr (.inr (.inr rfl))
    · exact .inl rfl
  · rintro e ⟨⟩
    exact var_b (by decide)
  · intro a ha
    simp at ha
    subst ha
    exact ⟨name_b (by decide), (show Char.isLower 't' = true ∧ Char.isLower 'f' = true by decide)⟩
  · rintro m ⟨⟩
    exact name_b (by decide)
  · intro g hg
    simp at hg
    subst hg
    exact ⟨name_b (by decide), number_digits (by decide), trivial⟩

/-- White space between all tokens, or between none that can do without. -/
private def wide : Lay := ⟨none, some .suppress, ⟨fun _ _ => c!"\n", fun _ => true⟩, fun _ _ c hc => by simp at hc; exact .inr (.inr (.inr hc))⟩
private def tight : Lay := ⟨none, some .suppress, ⟨fun _ _ => [], fun _ => false⟩, fun _ _ c hc => by simp at hc⟩

/-- A template with both layouts. -/
private def doc2 (w : Lay) (gap : Str) (b : Bool) : List Doc :=
  [.if_ w (.plain (.bin .add (.var c!"a") (.num c!"1"))) [.let_ w b (.tup [.var c!"x", .var c!"y"]) (some (.var c!"z"))]
     [.elseIf b w (.bind b (.tupOf false [c!"Some"] false [.var c!"x"]) (.var c!"c")) []] w,
   .match_ w (.var c!"m") gap [.mk w (.any [.num c!"1", .str c!"s"]) [.call w none c!"f" [.var c!"i"] [(c!"k", .var c!"j")]]] .none w,
   .block w c!"q" [.for_ w (.var c!"i") (.var c!"k") none [.expr w (.var c!"i")] .none w] b w]

example : Doc.texts Syntax.default (doc2 wide c!" " true) = c!"{%\nif\na\n+\n1\n-%}{%\nset\n(\nx\n,\ny\n)\n=\nz\n-%}{%\nelif\nset\nSome\n(\nx\n)\n=\nc\n-%}{%\nendif\n-%}{%\nmatch\nm\n-%} {%\nwhen\n1\nor\n\"s\"\n-%}{%\ncall\nf\n(\ni\n,\nk\n=\nj\n,\n)\n-%}{%\nendmatch\n-%}{%\nblock\nq\n-%}{%\nfor\ni\nin\nk\n-%}{{\ni\n-}}{%\nendfor\n-%}{%\nendblock\nq\n-%}" := by
  decide +kernel

example : Doc.texts Syntax.default (doc2 tight [] false) = c!"{%if a+1-%}{%let (x,y)=z-%}{%else if let Some(x)=c-%}{%endif-%}{%match m-%}{%when 1 or \"s\"-%}{%call f(i,k=j)-%}{%endmatch-%}{%block q-%}{%for i in k-%}{{i-}}{%endfor-%}{%endblock-%}" := by
  decide +kernel

private theorem doc2_ok (w : Lay) (gap : Str) (b : Bool) (hg : Blank gap) : Doc.Oks Syntax.default Char.isLower false (doc2 w gap b) := by
  have hs : ∀ c : Char, c ≠ '"' → c ≠ '\\' → StrBody [c] := fun c h1 h2 => .char c h1 h2 .nil
  have hns : ∀ l : List Str, l.all nameB = true → ∀ s ∈ l, Name s := fun l h s hs => name_b (List.all_eq_true.1 h s hs)
  have hp : ∀ n : Str, nameB n = true → n.head?.any Char.isLower = false →
      ∀ (s : Str) (c : Char), [n].head? = some s → s.head? = some c → c.isLower = false := by
    intro n _ h s c hs hc
    simp at hs
    subst hs
    rw [hc] at h
    exact h
  simp only [doc2, Doc.Oks, Doc.Ok, DocBranch.Oks, DocBranch.Ok, DocArm.Oks, DocArm.Ok, Else.Ok, DocTest.Ok, ArgsOk, Tm.Ok, Tm.Oks,
    Pt.Ok, Pt.Oks, PatPath, Tm.first]
  repeat' first
    | exact trivial
    | exact hg
    | exact name_b (by decide)
    | exact var_b (by decide)
    | exact hs _ (by decide) (by decide)
    | exact number_digits (by decide)
    | exact .inl (number_digits (by decide))
    | exact hns _ (by decide)
    | exact .inr ⟨rfl, .inr (hp _ (by decide) (by decide))⟩
    | exact .inl (by decide)
    | (rintro e ⟨⟩; exact var_b (by decide))
    | (intro h; cases h; done)
    | decide
    | apply And.intro
    | (intro _ h; cases h; done)
  intro a ha
  simp at ha
  subst ha
  exact ⟨name_b (by decide), var_b (by decide)⟩

example : parseTemplate ⟨Syntax.default, Char.isLower⟩ (Doc.texts Syntax.default (doc2 wide c!" " true)) =
    parseTemplate ⟨Syntax.default, Char.isLower⟩ (Doc.texts Syntax.default (doc2 tight [] false)) :=
  C66_layout _ usable_default _ _ _ (doc2_ok _ _ _ blank_sp) (doc2_ok _ _ _ blank_nil) (by decide +kernel) (by decide +kernel) rfl

/-- `{#- a #}` -/
example : CommentOk Syntax.default (.std (some .suppress) none) c!" a " := by
  refine ⟨fun r => ?_, by simp, fun _ c hc => ?_⟩
  · show CommentTo c!"{#" c!"#}" (c!" a " ++ [] ++ c!"#}" ++ r) r
    refine CommentTo.close (t := c!" a ") ?_ (by simp)
    intro a b hab hb
    rintro ⟨d, hd, hp⟩
    have hh : ∃ x y t, b ++ (c!"#}" ++ r) = x :: y :: t ∧ x ≠ '{' ∧ x ≠ '#' := by
      match a, hab with
      | [], hab => exact ⟨' ', 'a', _, by rw [← List.nil_append b, ← hab]; rfl, by decide, by decide⟩
      | [_], hab => simp at hab; exact ⟨'a', ' ', _, by rw [← hab.2]; rfl, by decide, by decide⟩
      | [_, _], hab => simp at hab; exact ⟨' ', '#', _, by rw [← hab.2.2]; rfl, by decide, by decide⟩
      | [_, _, _], hab => simp at hab; exact absurd hab.2.2.2 hb
      | _ :: _ :: _ :: _ :: _, hab => simp at hab
    obtain ⟨x, y, t, h, h1, h2⟩ := hh
    rw [h] at hp
    obtain ⟨q, hq⟩ := hp
    simp at hd
    rcases hd with rfl | rfl <;> simp at hq
    · exact h1 hq.1.symm
    · exact h2 hq.1.symm
  · simp at hc
    subst hc
    decide

/-- `{% raw %}{{ a }}{% endraw %}` -/
example : RawFree Syntax.default c!"{{ a }}" := by
  rintro x y r hxy hy ⟨m1, w1, w2, m2, q, -, -, he⟩
  change y ++ c!"{%" ++ r = wordTag c!"{%" c!"%}" m1 w1 c!"endraw" w2 m2 ++ q at he
  have key : ∀ k, k < 7 → ¬ (c!"{%" <+: (c!"{{ a }}").drop k ++ c!"{%" ++ r) := by
    intro k hk
    match k, hk with
    | 0, _ | 1, _ | 2, _ | 3, _ | 4, _ | 5, _ | 6, _ => rintro ⟨t, ht⟩; simp at ht
    | k + 7, hk => omega
  have hl : x.length < 7 := by
    have := congrArg List.length hxy
    have := List.length_pos_iff.2 hy
    simp at *
    omega
  have := key x.length hl
  rw [hxy, List.drop_left, he] at this
  exact this ⟨_, by simp only [wordTag, List.append_assoc]; rfl⟩

/-- A condition that starts with the word `set` is no expression, even where an expression is what it looks like: a call of
a function with this name, compared with something. -/
theorem C66_set_reserved : ∃ e, parseTemplate ⟨Syntax.default, Char.isLower⟩ c!"{% if set(a) == b %}x{% endif %}" = .err e := ⟨_, rfl⟩

end Askama.Props
