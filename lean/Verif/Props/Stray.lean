import Verif.Lemmas.Stray
import Verif.Props.ParseTags
import Verif.Props.Doc

/-!
# Tags that are out of place (C69)

Whatever tags are open around a place in a template, and whatever pieces stand before it (`Start`), these are refused there:
the end of the template while a tag is open; an end tag, `else`, `elif` or `when` that does not belong to the innermost open
tag, and words that are no tags; `break` and `continue` outside of loops; whitespace control on `extends`; and a macro with
the name `super`.
-/

namespace Askama.Props

open Spec PT

variable {q : Option Msg → Prop}

/-- A template that is refused. -/
theorem refused {syn : Syntax} (hs : Usable syn) {isLower : Char → Bool} {src : Str} (h : Refuses q (nodesP ⟨syn, isLower⟩ nestFuel) ⟨0, 0⟩ src) :
    ∃ e, parseTemplate ⟨syn, isLower⟩ src = .err e ∧ q e.msg := by
  obtain ⟨j, m, s', h, hq⟩ := h
  have hp : parseTemplate ⟨syn, isLower⟩ src = mkParseErr src j m := by
    unfold parseTemplate
    rw [bind_err h]
  rcases C22_total ⟨syn, isLower⟩ ⟨start_ne.2.2, hs.commentEnd⟩ src with ⟨ns, h1⟩ | ⟨e, _, _, h1, -⟩
  · rw [hp] at h1
    exact absurd h1.symm (mkParseErr_not_ok _ _ _ _)
  · refine ⟨e, h1, ?_⟩
    rw [hp] at h1
    unfold mkParseErr at h1
    dsimp only at h1
    split at h1
    · simp at h1
    · split at h1
      · injection h1 with h1
        rw [← h1]
        exact hq
      · simp at h1

/-- What is refused in place, with `k` levels of nesting left, is refused. -/
theorem refused_deep {syn : Syntax} (hs : Usable syn) {isLower : Char → Bool} {b : Start} {r : Str} (k : Nat) (hb : b.Ok syn isLower)
    (hd : b.need + k ≤ maxDepth) (hk : 1 ≤ k) (hr : ∃ d ∈ [syn.blockStart, syn.commentStart, syn.exprStart], d <+: r)
    (h : ∀ s : PState, ∀ fuel, s.level + k ≤ maxDepth → (b.loop = false → s.loopDepth = 0) →
      Refuses q (nodeAlt ⟨syn, isLower⟩ (target ⟨syn, isLower⟩ nestFuel)
        (nodesP ⟨syn, isLower⟩ fuel)) s r) :
    ∃ e, parseTemplate ⟨syn, isLower⟩ (b.text syn ++ r) = .err e ∧ q e.msg := by
  refine refused hs ?_
  have hloop : b.loop = tagsLoop false b.tags := (tagsLoop_eq false b.tags).symm
  have hd' : tagsNeed b.last b.tags + k ≤ maxDepth := hd
  have hfuel : maxDepth < nestFuel := by unfold nestFuel; omega
  have leaf : ∀ s' fuel', Doc.Oks syn isLower (tagsLoop false b.tags) b.last → Doc.needs b.last + 1 ≤ fuel' →
      s'.level + (Doc.needs b.last + k) ≤ maxDepth → (tagsLoop false b.tags = true ↔ s'.loopDepth ≠ 0) →
      Refuses q (nodesP ⟨syn, isLower⟩ fuel') s' (Doc.texts syn b.last ++ r) := by
    intro s' fuel' h1 h2 h3 h4
    obtain ⟨n, rfl⟩ : ∃ n, fuel' = n + 1 := ⟨fuel' - 1, by omega⟩
    refine docs_refuse (env := ⟨syn, isLower⟩) hs ?_ (h s' n (by omega) ?_) b.last h1 (by omega) (by omega) h4.1
    · obtain ⟨d, hd, hr⟩ := hr
      refine ⟨d, ?_, hr⟩
      rw [starts_std (env := ⟨syn, isLower⟩) hs]
      simp at hd
      rcases hd with rfl | rfl | rfl <;> simp
    · intro hl
      rw [hloop] at hl
      rw [hl] at h4
      simpa using h4
  have key := tags_astray (env := ⟨syn, isLower⟩) (q := q) (extra := k) (r := r) hs b.tags false ⟨0, 0⟩ nestFuel [] hb (by omega)
    (by dsimp only; omega) (by simp) (fun s' fuel' h1 h2 h3 h4 => .inl (leaf s' fuel' h1 h2 h3 h4))
  rw [start_text]
  by_cases ht : b.tags = []
  · have hb' : tagsOk syn isLower b.last false b.tags := hb
    rw [ht] at hb' hd' leaf ⊢
    exact leaf ⟨0, 0⟩ nestFuel hb' (by simp only [tagsNeed] at hd'; omega) (by simp only [tagsNeed] at hd'; dsimp only; omega)
      (by simp [tagsLoop])
  · exact key.2 ht

/-- What is refused in place, is refused. -/
theorem refused_there {syn : Syntax} (hs : Usable syn) {isLower : Char → Bool} {b : Start} {r : Str} (hb : b.Ok syn isLower) (hd : b.need < maxDepth)
    (hr : syn.blockStart <+: r ∨ syn.commentStart <+: r)
    (h : ∀ s : PState, ∀ fuel, s.level < maxDepth → (b.loop = false → s.loopDepth = 0) →
      Refuses q (nodeAlt ⟨syn, isLower⟩ (target ⟨syn, isLower⟩ nestFuel)
        (nodesP ⟨syn, isLower⟩ fuel)) s r) :
    ∃ e, parseTemplate ⟨syn, isLower⟩ (b.text syn ++ r) = .err e ∧ q e.msg := by
  refine refused_deep hs 1 hb (by omega) (by omega) ?_ fun s fuel h1 h2 => h s fuel (by omega) h2
  rcases hr with hr | hr
  · exact ⟨_, by simp, hr⟩
  · exact ⟨_, by simp, hr⟩

theorem tagOf_of {syn : Syntax} {word r : Str} (h : FollowsTag syn word r) : TagOf syn word r ∧ IsIdent word := by
  obtain ⟨h1, m, b, i, rfl, hb, h2⟩ := h
  refine ⟨⟨m, b, i, by simp, hb, ?_⟩, isIdent_of_name h1⟩
  intro c hc
  have := h2 c hc
  cases h : identCont c with
  | false => rfl
  | true => exact absurd (identCont_iff.1 h) this

/-- C69. What must not follow at a place in a template, is refused there: the end of the template while a tag is open, and
a tag whose word begins no piece and does not continue or end the innermost open tag. -/
theorem C69_stray (syn : Syntax) (hs : Usable syn) (isLower : Char → Bool) (b : Start) (r : Str) (hb : b.Ok syn isLower) (hd : b.need ≤ maxDepth) (hr : Stray syn b r) :
    ∃ e, parseTemplate ⟨syn, isLower⟩ (b.text syn ++ r) = .err e := by
  have hd' : tagsNeed b.last b.tags ≤ maxDepth := hd
  have hfuel : maxDepth < nestFuel := by unfold nestFuel; omega
  have hst : StrayTo syn b.closers r := by
    rcases hr with ⟨rfl, -⟩ | ⟨word, h1, h2, h3⟩
    · exact .inl rfl
    · exact .inr ⟨word, (tagOf_of h1).1, (tagOf_of h1).2, h2, h3⟩
  have hcl : b.closers = tagsClosers [] b.tags := (tagsClosers_eq [] b.tags).symm
  have key := tags_astray (env := ⟨syn, isLower⟩) (q := fun _ => True) (extra := 0) (r := r) hs b.tags false ⟨0, 0⟩ nestFuel [] hb (by omega)
    (by dsimp only; omega) (by simp) (fun s' fuel' h1 h2 h3 h4 => .inr ⟨fun _ => trivial,
      ⟨_, sem_docs (env := ⟨syn, isLower⟩) hs _ b.last h1 fuel' s' r h2 h3 h4.1 hst.stops⟩, hcl ▸ hst, by simp⟩)
  rw [start_text]
  have hdone : Refuses (fun _ => True) (nodesP ⟨syn, isLower⟩ nestFuel) ⟨0, 0⟩ (tagsText syn b.tags ++ (Doc.texts syn b.last ++ r)) →
      ∃ e, parseTemplate ⟨syn, isLower⟩ (tagsText syn b.tags ++ (Doc.texts syn b.last ++ r)) = .err e := fun h =>
    let ⟨e, h, _⟩ := refused hs h
    ⟨e, h⟩
  by_cases ht : b.tags = []
  · rcases key.1 with h | ⟨-, ⟨ns, h⟩, -, -⟩
    · exact hdone h
    · have hne : r ≠ [] := by
        rcases hr with ⟨-, h⟩ | ⟨word, h1, -⟩
        · exact absurd ht h
        · obtain ⟨-, m, b', i, rfl, -⟩ := h1
          simp [start_ne (syn := syn)]
      obtain ⟨c, t, rfl⟩ := List.exists_cons_of_ne_nil hne
      have hp : ∃ j m, parseTemplate ⟨syn, isLower⟩ (tagsText syn b.tags ++ (Doc.texts syn b.last ++ c :: t)) =
          mkParseErr (tagsText syn b.tags ++ (Doc.texts syn b.last ++ c :: t)) j m := by
        unfold parseTemplate
        rw [bind_ok h, bind_err (cut_err (c := false) (j := c :: t) (m := none) (s' := ⟨0, 0⟩) rfl)]
        exact ⟨_, _, rfl⟩
      obtain ⟨j, m, hp⟩ := hp
      rcases C22_total ⟨syn, isLower⟩ ⟨start_ne.2.2, hs.commentEnd⟩
        (tagsText syn b.tags ++ (Doc.texts syn b.last ++ c :: t)) with ⟨ns, h1⟩ | ⟨e, _, _, h1, -⟩
      · rw [hp] at h1
        exact absurd h1.symm (mkParseErr_not_ok _ _ _ _)
      · exact ⟨e, h1⟩
  · exact hdone (key.2 ht)

/-- C69. `break` and `continue` where no loop is open are refused, with these messages. -/
theorem C69_break_outside (syn : Syntax) (hs : Usable syn) (isLower : Char → Bool) (b : Start) (w : Lay) (rest : Str) (hb : b.Ok syn isLower) (hd : b.need < maxDepth)
    (hl : b.loop = false) :
    (∃ e, parseTemplate ⟨syn, isLower⟩ (b.text syn ++ (tagText syn w c!"break" ++ rest)) = .err e ∧
      e.msg = some (.text c!"you can only `break` inside a `for` loop")) ∧
    (∃ e, parseTemplate ⟨syn, isLower⟩ (b.text syn ++ (tagText syn w c!"continue" ++ rest)) = .err e ∧
      e.msg = some (.text c!"you can only `continue` inside a `for` loop")) := by
  have key : ∀ (word : Str) (mk : Ws → Node) (msg : Str), IsIdent word → ∀ s : PState, s.loopDepth = 0 →
      Refuses (· = some (.text msg)) (breakP word mk msg) s (mark w.l ++ (w.g.gap 1 ++ (word ++ tagEnd syn w rest))) := by
    intro word mk msg hw s hd
    unfold breakP
    refine refuses_step (p := pos) rfl (refuses_step (markStart gapB hw) (refuses_step (kwEnd gapB hw) (refuses_step markClose
      (refuses_step (p := PT.get) rfl ?_))))
    rw [if_pos hd]
    exact ⟨_, _, _, rfl, rfl⟩
  constructor
  · rw [tagText_eq]
    refine refused_there (q := (· = some (.text c!"you can only `break` inside a `for` loop"))) hs hb hd
      (.inl (List.prefix_append _ _)) fun s fuel h1 h2 => ?_
    exact node_refuses (env := ⟨syn, isLower⟩) hs gapB ⟨by simp, by decide, by decide⟩ tagEnd_noIdent rfl h1
      (key _ _ _ ⟨by simp, by decide, by decide⟩ _ (h2 hl))
  · rw [tagText_eq]
    refine refused_there (q := (· = some (.text c!"you can only `continue` inside a `for` loop"))) hs hb hd
      (.inl (List.prefix_append _ _)) fun s fuel h1 h2 => ?_
    exact node_refuses (env := ⟨syn, isLower⟩) hs gapB ⟨by simp, by decide, by decide⟩ tagEnd_noIdent rfl h1
      (key _ _ _ ⟨by simp, by decide, by decide⟩ _ (h2 hl))

/-- C69. Whitespace control on either side of `extends` is refused, with this message. -/
theorem C69_extends_marked (syn : Syntax) (hs : Usable syn) (isLower : Char → Bool) (b : Start) (w : Lay) (path rest : Str) (hb : b.Ok syn isLower)
    (hd : b.need < maxDepth) (hp : StrBody path) (hw : w.l ≠ none ∨ w.r ≠ none) :
    ∃ e, parseTemplate ⟨syn, isLower⟩ (b.text syn ++ (tagText syn w (c!"extends" ++ (w.g.gap 5 ++ '"' :: (path ++ ['"']))) ++ rest)) = .err e ∧
      e.msg = some (.text c!"whitespace control is not allowed on `extends`") := by
  have hk : IsIdent c!"extends" := ⟨by simp, by decide, by decide⟩
  have hsrc : tagText syn w (c!"extends" ++ (w.g.gap 5 ++ '"' :: (path ++ ['"']))) ++ rest = syn.blockStart ++ (mark w.l ++ (w.g.gap 1 ++ (c!"extends" ++ (w.g.gap 5 ++
      ('"' :: (path ++ '"' :: tagEnd syn w rest)))))) := by
    simp [tagText, tagEnd]
  rw [hsrc]
  refine refused_there (q := (· = some (.text c!"whitespace control is not allowed on `extends`"))) hs hb hd
    (.inl (List.prefix_append _ _)) fun s fuel h1 _ => ?_
  refine node_refuses (env := ⟨syn, isLower⟩) hs gapB hk quote_noIdent rfl h1 ?_
  unfold extendsP
  generalize ({ s with level := s.level + 1 } : PState) = s'
  have hc : (PT.cut (do
      let path ← ws (lift strLit)
      let nws ← opt wsMark
      pure (path, nws)) : SP (Str × Option Wsp)) s' ('"' :: (path ++ '"' :: tagEnd syn w rest)) =
      (.ok (syn.blockEnd ++ rest) (path, w.r), s') := by
    refine cut_ok ?_
    rw [bind_ok (wsStrEnd (env := ⟨syn, isLower⟩) hp), bind_ok (markClose (syn := syn))]
    rfl
  refine refuses_step (p := pos) rfl (refuses_step (markStart gapB hk) (refuses_step (kwStr gapB hk) (refuses_step hc ?_)))
  obtain ⟨l, r, g, hg⟩ := w
  cases l with
  | none =>
    cases r with
    | none => simp at hw
    | some v => exact ⟨_, _, _, rfl, rfl⟩
  | some v => exact ⟨_, _, _, rfl, rfl⟩

/-- C69. A macro cannot have the name `super`. -/
theorem C69_macro_super (syn : Syntax) (hs : Usable syn) (isLower : Char → Bool) (b : Start) (w : Lay) (params : List Str) (rest : Str) (hb : b.Ok syn isLower)
    (hd : b.need < maxDepth) (hp : ∀ p ∈ params, Name p) :
    ∃ e, parseTemplate ⟨syn, isLower⟩ (b.text syn ++
      (tagText syn w (c!"macro" ++ (sep (w.g.gap 5) ++ (c!"super" ++ (w.g.gap 4 ++ paramsSrc (w.g.sub 0) params)))) ++ rest)) = .err e ∧
      e.msg = some (.text c!"'super' is not a valid name for a macro") := by
  have hk : IsIdent c!"macro" := ⟨by simp, by decide, by decide⟩
  have hi : IsIdent c!"super" := ⟨by simp, by decide, by decide⟩
  have hsrc : tagText syn w (c!"macro" ++ (sep (w.g.gap 5) ++ (c!"super" ++ (w.g.gap 4 ++ paramsSrc (w.g.sub 0) params)))) ++ rest =
      syn.blockStart ++ (mark w.l ++ (w.g.gap 1 ++ (c!"macro" ++ (sep (w.g.gap 5) ++ (c!"super" ++ (w.g.gap 4 ++ (paramsSrc (w.g.sub 0) params ++
        tagEnd syn w rest))))))) := by
    rw [tagText_eq]
    simp
  rw [hsrc]
  refine refused_there (q := (· = some (.text c!"'super' is not a valid name for a macro"))) hs hb hd
    (.inl (List.prefix_append _ _)) fun s fuel h1 _ => ?_
  refine node_refuses (env := ⟨syn, isLower⟩) hs gapB hk sp_noIdent rfl h1 ?_
  unfold macroP
  generalize ({ s with level := s.level + 1 } : PState) = s'
  have hhead : (PT.cut (do
      let name ← ws ident
      let params ← opt (ws parameters)
      let nws1 ← opt wsMark
      let _ ← tag syn.blockEnd
      pure (name, params, nws1)) : SP (Str × Option (List Str) × Option Wsp)) s'
        (c!"super" ++ (w.g.gap 4 ++ (paramsSrc (w.g.sub 0) params ++ tagEnd syn w rest))) = (.ok rest (c!"super", some params, w.r), s') := by
    refine cut_ok ?_
    have hname : ws ident s' (c!"super" ++ (w.g.gap 4 ++ (paramsSrc (w.g.sub 0) params ++ tagEnd syn w rest))) =
        (.ok (paramsSrc (w.g.sub 0) params ++ tagEnd syn w rest) c!"super", s') :=
      wsIdent hi (char_noIdent gapB (by decide)) gapB (noWs_cons (by decide))
    rw [bind_ok hname, bind_ok (opt_ok (parameters_read (env := ⟨syn, isLower⟩) hp)), bind_ok (markClose (syn := syn)),
      bind_ok tag_ok]
    rfl
  refine refuses_step (p := pos) rfl (refuses_step (markStart gapB hk) (refuses_step (kwSp gapB hk (noWs_ident hi)) (refuses_step hhead ?_)))
  dsimp only
  rw [if_pos rfl]
  exact ⟨_, _, _, rfl, rfl⟩

/-- C69. A comment that is not closed is refused, wherever it begins. -/
theorem C69_unclosed_comment (syn : Syntax) (hs : Usable syn) (isLower : Char → Bool) (b : Start) (m : Option Wsp) (i : Str) (hb : b.Ok syn isLower)
    (hd : b.need < maxDepth) (hm : m = none → i.head? ≠ some '+' ∧ i.head? ≠ some '-' ∧ i.head? ≠ some '~')
    (h : ∀ r, ¬ CommentTo syn.commentStart syn.commentEnd i r) :
    ∃ e, parseTemplate ⟨syn, isLower⟩ (b.text syn ++ (syn.commentStart ++ (mark m ++ i))) = .err e := by
  have := refused_there (q := fun _ => True) (r := syn.commentStart ++ (mark m ++ i)) hs hb hd (.inr (List.prefix_append _ _)) fun s fuel _ _ => by
    obtain ⟨j, msg, h⟩ := C25_unclosed_comment ⟨syn, isLower⟩ (target ⟨syn, isLower⟩ nestFuel)
      (nodesP ⟨syn, isLower⟩ fuel) s (start_ne (syn := syn)).2.2 (hs.commentEnd) m i hm
      (comment_not (syn := syn)).1 h
    exact ⟨j, msg, s, h, trivial⟩
  obtain ⟨e, he, -⟩ := this
  exact ⟨e, he⟩

private def n0 : Lay := .std none none

/-- In a block, in the body of a loop, in the second arm of a `match`, in the `else` branch of an `if`. -/
def deep : Start :=
  ⟨[([.text c!"Hi "], .else_ n0 (.plain (.var c!"a")) [.text c!"x"] [] n0),
    ([], .when n0 (.var c!"m") c!" " [.mk n0 (.var c!"p") []] (.std (some .suppress) none) (.num c!"1")),
    ([.expr n0 (.var c!"b")], .for_ n0 (.var c!"i") (.var c!"k") none),
    ([], .block n0 c!"c")],
   [.text c!"y"]⟩

/-- In a block in the `else` part of a loop. -/
def shallow : Start :=
  ⟨[([], .forElse n0 (.var c!"i") (.var c!"k") none [.break_ n0] n0), ([.text c!"z"], .block n0 c!"c")], []⟩

example : deep.text Syntax.default = c!"Hi {% if a %}x{% else %}{% match m %} {% when p %}{%- when 1 %}{{ b }}{% for i in k %}{% block c %}y" ∧
    shallow.text Syntax.default = c!"{% for i in k %}{% break %}{% else %}z{% block c %}" := by
  decide +kernel

example : deep.need ≤ 20 ∧ deep.loop = true ∧ deep.closers = [c!"endblock"] ∧ shallow.need ≤ 20 ∧ shallow.loop = false := by
  decide +kernel

theorem deep_ok : deep.Ok Syntax.default Char.isLower := by
  simp only [deep, Start.Ok, tagsOk, Opening.Ok, ForOk, Doc.Oks, Doc.Ok, DocBranch.Oks, DocArm.Oks, DocArm.Ok, DocTest.Ok,
    Tm.Ok, Pt.Ok, Tm.first]
  repeat' first
    | exact trivial
    | exact name_b (by decide)
    | exact var_b (by decide)
    | exact text_b (by decide)
    | decide
    | apply And.intro
    | (intro _ h; cases h; done)
  · intro c hc
    simp at hc
    subst hc
    exact .inl rfl
  · exact .inl (number_digits (by decide))

theorem shallow_ok : shallow.Ok Syntax.default Char.isLower := by
  simp only [shallow, Start.Ok, tagsOk, Opening.Ok, ForOk, Doc.Oks, Doc.Ok, Tm.Ok, Pt.Ok]
  repeat' first
    | exact trivial
    | exact name_b (by decide)
    | exact var_b (by decide)
    | exact text_b (by decide)
    | decide
    | apply And.intro
    | (intro _ h; cases h; done)

/-- The loop cannot end while the block is open, and the template cannot end. -/
example : (∃ e, parseTemplate ⟨Syntax.default, Char.isLower⟩ (deep.text Syntax.default ++ c!"{% endfor %} more") = .err e) ∧
    (∃ e, parseTemplate ⟨Syntax.default, Char.isLower⟩ (deep.text Syntax.default ++ []) = .err e) :=
  ⟨C69_stray _ usable_default _ _ _ deep_ok (by decide +kernel) (.inr ⟨c!"endfor", ⟨name_b (by decide), none, c!" ", c!" %} more", rfl, blank_sp, by
      intro c hc; simp at hc; subst hc; exact fun h => by simp [identChar] at h⟩, by decide, by decide⟩),
    C69_stray _ usable_default _ _ _ deep_ok (by decide +kernel) (.inl ⟨rfl, by simp [deep]⟩)⟩

example : ∃ e, parseTemplate ⟨Syntax.default, Char.isLower⟩ (shallow.text Syntax.default ++ c!"{%- break %}{% endblock %}{% endfor %}") = .err e ∧
    e.msg = some (.text c!"you can only `break` inside a `for` loop") :=
  (C69_break_outside _ usable_default _ _ (.std (some .suppress) none) c!"{% endblock %}{% endfor %}" shallow_ok (by decide +kernel) (by decide)).1

example : ∃ e, parseTemplate ⟨Syntax.default, Char.isLower⟩ (shallow.text Syntax.default ++ c!"{% extends \"a\" -%}") = .err e ∧
    e.msg = some (.text c!"whitespace control is not allowed on `extends`") :=
  C69_extends_marked _ usable_default _ _ (.std none (some .suppress)) c!"a" [] shallow_ok (by decide +kernel) (.char 'a' (by decide) (by decide) .nil)
    (.inr (by simp [Lay.std]))

end Askama.Props
