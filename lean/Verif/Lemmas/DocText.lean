import Verif.Lemmas.DocTags

/-!
# Text, comments and expressions are read as they are written (C66)
-/

namespace Askama

open Spec PT Props

/-! ### Text -/

theorem isBlankB_eq : litOf.isBlankB = isWsp := rfl

theorem take_sub {p : Char → Bool} (l : Str) : l.take (l.length - (l.dropWhile p).length) = l.takeWhile p := by
  have h := List.takeWhile_append_dropWhile (p := p) (l := l)
  have hl : l.length = (l.takeWhile p).length + (l.dropWhile p).length := by
    rw [← List.length_append, h]
  rw [hl, Nat.add_sub_cancel]
  conv => lhs; arg 2; rw [← h]
  exact List.take_left

theorem splitWsParts_eq (t : Str) : splitWsParts t = litOf t := by
  unfold splitWsParts litOf trimEndWs
  rw [isBlankB_eq]
  simp only [take_sub, Lit.mk.injEq, true_and]
  generalize t.dropWhile isWsp = u
  have h := List.takeWhile_append_dropWhile (p := isWsp) (l := u.reverse)
  have hu : u = (u.reverse.dropWhile isWsp).reverse ++ (u.reverse.takeWhile isWsp).reverse := by
    rw [← List.reverse_append, h, List.reverse_reverse]
  conv => lhs; arg 2; rw [hu]
  rw [List.drop_left]

variable {env : PEnv} {s : PState}

theorem starts_std (hs : Std env) : ∀ d, d ∈ env.syn.starts ↔ d = env.syn.blockStart ∨ d = env.syn.commentStart ∨ d = env.syn.exprStart := by
  intro d
  simp [Syntax.starts]

theorem text_read {t : Str} {tgt : SP Target} {many : SP (List Node)} {rest : Str} (hs : Std env) (h : TextOk env.syn t)
    (hr : rest = [] ∨ startsDelim env.syn.starts rest) :
    nodeAlt env tgt many s (t ++ rest) = (.ok rest (.lit (litOf t)), s) := by
  obtain ⟨hne, hfree⟩ := h
  -- no delimiter starts inside the text
  have hno : ∀ a b, t = a ++ b → b ≠ [] → ¬ startsDelim env.syn.starts (b ++ rest) := by
    rintro a b rfl hb ⟨d, hd, hp⟩
    obtain ⟨h1, h2⟩ := hfree d (by simpa [starts_std hs] using hd)
    rcases List.prefix_or_prefix_of_prefix hp (List.prefix_append b rest) with h' | h'
    · exact h1 (h'.isInfix.trans (List.suffix_append a b).isInfix)
    · exact h2 b hb h' (List.suffix_append a b)
  have hlit : litP env () (t ++ rest) = (.ok rest (litOf t), ()) := by
    unfold litP
    have hne' : (PT.not PT.eof : P Unit) () (t ++ rest) = (.ok (t ++ rest) (), ()) := by
      cases t with
      | nil => exact absurd rfl hne
      | cons c t => rfl
    rw [bind_ok hne']
    rcases skipTill_anyStart env (t ++ rest) with ⟨t', r, x, hi, hrun, hd, hf⟩ | ⟨⟨j, m, hrun⟩, hall⟩
    · have htt : t = t' ∧ rest = r := by
        rcases List.append_eq_append_iff.1 hi with ⟨a, h1, h2⟩ | ⟨a, h1, h2⟩
        · -- `t' = t ++ a`
          cases a with
          | nil => exact ⟨by simpa using h1.symm, by simpa using h2⟩
          | cons c a =>
            exfalso
            rcases hr with rfl | hr
            · simp at h2
            · exact hf t (c :: a) h1 (by simp) (h2 ▸ hr)
        · cases a with
          | nil => exact ⟨by simpa using h1, by simpa using h2.symm⟩
          | cons c a => exact absurd (h2 ▸ hd) (hno t' (c :: a) h1 (by simp))
      obtain ⟨rfl, rfl⟩ := htt
      have h3 := opt_ok (recognize_ok hrun)
      rw [show skipTill (anyStart env.syn) = skipTillGo (anyStart env.syn) from rfl, bind_ok h3]
      cases t with
      | nil => exact absurd rfl hne
      | cons c t =>
        show (pure (splitWsParts (c :: t)) : P Lit) () rest = _
        rw [splitWsParts_eq]
        rfl
    · have hrest : rest = [] := by
        rcases hr with h | h
        · exact h
        · exact absurd h (hall t rest rfl)
      subst hrest
      rw [show skipTill (anyStart env.syn) = skipTillGo (anyStart env.syn) from rfl,
        bind_ok (opt_err (recognize_err hrun))]
      show ((.ok [] (splitWsParts (t ++ [])), ()) : PRes Lit × Unit) = _
      rw [List.append_nil, splitWsParts_eq]
  unfold nodeAlt
  exact alt_ok (map_ok (lift_ok (u := ()) hlit))

/-! ### Comments -/

theorem comment_read {w : Lay} {t : Str} (hs : Std env) (h : CommentOk env.syn w t) : ReadsLeaf env (.comment w t) := by
  intro many s rest _
  obtain ⟨h1, h2, h3⟩ := h
  have hsrc : (Doc.comment w t).src env.syn ++ rest = env.syn.commentStart ++ (mark w.l ++ (t ++ mark w.r ++ env.syn.commentEnd ++ rest)) := by
    simp [Doc.src]
  rw [hsrc]
  have hm : w.l = none → NoMark (t ++ mark w.r ++ env.syn.commentEnd ++ rest) := by
    intro hw
    have h2 := h2 hw
    cases hu : t ++ mark w.r ++ env.syn.commentEnd with
    | nil => exact absurd (List.append_eq_nil_iff.1 hu).2 hs.commentEnd
    | cons c u =>
      rw [hu] at h2
      have := h2 c rfl
      simp at this
      exact ⟨by simp [this], by simp [this], by simp [this]⟩
  obtain ⟨c, hc, hrun⟩ := commentP_closed (env := env) (s := s)
    (List.length_pos_iff.2 start_ne.2.2) (List.length_pos_iff.2 (hs.commentEnd)) hm (h1 rest)
  have hc := (List.append_cancel_right hc).symm
  subst hc
  have hnws : commentNws env.syn (t ++ mark w.r ++ env.syn.commentEnd) = w.r := by
    unfold commentNws
    rw [if_pos (List.isSuffixOf_iff_suffix.2 (List.suffix_append _ _))]
    rw [show (t ++ mark w.r ++ env.syn.commentEnd).length - env.syn.commentEnd.length = (t ++ mark w.r).length by simp; omega,
      List.take_left]
    cases hw : w.r with
    | some v => cases v <;> simp [mark]
    | none =>
      have h3 := h3 hw
      simp only [mark, List.append_nil]
      cases hl : t.getLast? with
      | none => rfl
      | some c =>
        have := h3 c hl
        simp at this
        split
        · rename_i heq; simp at heq; exact absurd heq this.2.1
        · rename_i heq; simp at heq; exact absurd heq this.1
        · rename_i heq; simp at heq; exact absurd heq this.2.2
        · rfl
  rw [hnws] at hrun
  rw [nodeAlt_comment (List.prefix_append _ _) comment_not.1
    (by simp [start_ne (syn := env.syn)])]
  exact alt_ok (map_ok hrun)

/-! ### Expressions -/

/-- An expression starts with no whitespace marker but perhaps a minus sign. -/
theorem expr_noMark {g : Gaps} (hg : g.Ok) {e : Tm} (h : e.Ok env.isLower) (hd : (e.write g).head? ≠ some '-') (r : Str) :
    NoMark (e.write g ++ r) := by
  have hi := (sem_tm (env := env) e h g hg).1
  have hno : ∀ c t, e.write g ++ [')'] = c :: t → ¬ BadStart c := by
    intro c t he hb
    obtain ⟨x, _, hx⟩ := hi.parse (e.need + 20) [')'] (ending_close (g := []) blank_nil (.inl rfl)) (by omega)
    rw [he] at hx
    obtain ⟨j, m, hj⟩ := parse_bad (env := env) (n := e.need + 20) (bad_cons (c := c) (r := t) hb) (by omega)
    rw [hj] at hx
    cases hx
  cases hw : e.write g with
  | nil => exact absurd (by simp [BadStart]) (hno ')' [] (by rw [hw]; rfl))
  | cons c t =>
    have hc := hno c (t ++ [')']) (by rw [hw]; rfl)
    rw [hw] at hd
    simp at hd
    have hp : c ≠ '+' := fun he => hc (by simp [BadStart, he])
    have ht : c ≠ '~' := fun he => hc (by simp [BadStart, he])
    exact ⟨by simpa using hp, by simpa using hd, by simpa using ht⟩

theorem ws_lead {σ α : Type} {p : PT σ α} {s : σ} {b i : Str} (hb : Blank b) : ws p s (b ++ i) = ws p s i := by
  unfold ws
  rw [bind_ok skipWs_run, bind_ok skipWs_run, blank_drop hb]

theorem expr_read {w : Lay} {e : Tm} (hs : Std env) (h : e.Ok env.isLower) : ReadsLeaf env (.expr w e) := by
  intro many s rest hl
  simp only [Doc.need] at hl
  have hsrc : (Doc.expr w e).src env.syn ++ rest =
      env.syn.exprStart ++ (mark w.l ++ (startGap w e ++ (e.write (w.g.sub 0) ++ (w.g.gap 3 ++ (mark w.r ++ (env.syn.exprEnd ++ rest)))))) := by
    simp [Doc.src]
  have hdrop : (w.g.gap 3 ++ (mark w.r ++ (env.syn.exprEnd ++ rest))).dropWhile isWsp = mark w.r ++ (env.syn.exprEnd ++ rest) :=
    gap_drop gapB (ends_noWs hs.exprEnd)
  have hE : Ending (w.g.gap 3 ++ (mark w.r ++ (env.syn.exprEnd ++ rest))) := ends_ending hs.exprEnd hdrop
  have hgap : Blank (startGap w e) := by
    unfold startGap
    split
    · exact sepB (g := w.g)
    · exact gapB (g := w.g)
  rw [hsrc, nodeAlt_expr (List.prefix_append _ _) expr_not.1 expr_not.2 (by simp [start_ne (syn := env.syn)])]
  refine alt_ok ?_
  have hw : ws (exprHere env) s (startGap w e ++ (e.write (w.g.sub 0) ++ (w.g.gap 3 ++ (mark w.r ++ (env.syn.exprEnd ++ rest))))) =
      (.ok (mark w.r ++ (env.syn.exprEnd ++ rest)) e.tree, s) := by
    rw [ws_lead hgap]
    exact wsExpr (s := s) h hl hE hdrop
  have hm : PT.opt wsMark s (mark w.l ++ (startGap w e ++ (e.write (w.g.sub 0) ++ (w.g.gap 3 ++ (mark w.r ++ (env.syn.exprEnd ++ rest)))))) =
      (.ok (startGap w e ++ (e.write (w.g.sub 0) ++ (w.g.gap 3 ++ (mark w.r ++ (env.syn.exprEnd ++ rest))))) w.l, s) := by
    cases hl : w.l with
    | some v => exact optMark_some v
    | none =>
      refine optMark_none ?_
      rw [show mark none = [] from rfl, List.nil_append]
      unfold startGap
      split
      · exact sp_noMark (g := w.g)
      · rename_i hd
        exact gap_noMark (gapB (g := w.g)) (expr_noMark (w.ok.sub 0) h (fun he => hd ⟨hl, he⟩) _)
  unfold exprNode
  rw [bind_ok tag_ok]
  have hc1 : (PT.cut (do
      let pws ← opt wsMark
      let e ← ws (exprHere env)
      pure (pws, e)) : SP (Option Wsp × Expr)) s
        (mark w.l ++ (startGap w e ++ (e.write (w.g.sub 0) ++ (w.g.gap 3 ++ (mark w.r ++ (env.syn.exprEnd ++ rest)))))) =
      (.ok (mark w.r ++ (env.syn.exprEnd ++ rest)) (w.l, e.tree), s) := by
    refine cut_ok ?_
    rw [bind_ok hm, bind_ok hw]
    rfl
  have hc2 : (PT.cut (do
      let nws ← opt wsMark
      let closed ← closing env.syn.exprEnd
      pure (nws, closed)) : SP (Option Wsp × Bool)) s (mark w.r ++ (env.syn.exprEnd ++ rest)) = (.ok rest (w.r, true), s) := by
    refine cut_ok ?_
    have : closing env.syn.exprEnd s (env.syn.exprEnd ++ rest) = (.ok rest true, s) := alt_ok (map_ok tag_ok)
    rw [bind_ok (optMark_ok (ends_noMark hs.exprEnd)), bind_ok this]
    rfl
  rw [bind_ok hc1]
  dsimp only
  rw [bind_ok hc2]
  rfl

/-! ### Where a list of pieces ends -/

/-- Nothing that begins a piece follows. -/
def Stops (syn : Syntax) (r : Str) : Prop :=
  r = [] ∨ ∃ m b w i, r = syn.blockStart ++ (mark m ++ (b ++ (w ++ i))) ∧ Blank b ∧ IsIdent w ∧ NoIdent i ∧ w ∉ tagWords

theorem stops_tag {syn : Syntax} [Usable syn] {w : Lay} {word i rest : Str} (h1 : IsIdent word) (h2 : word ∉ tagWords) (h3 : NoIdent (i ++ tagEnd syn w rest)) :
    Stops syn (tagText syn w (word ++ i) ++ rest) := by
  refine .inr ⟨w.l, w.g.gap 1, word, i ++ tagEnd syn w rest, ?_, gapB, h1, h3, h2⟩
  rw [tagText_eq]
  simp

theorem stops_word {syn : Syntax} [Usable syn] {w : Lay} {word rest : Str} (h1 : IsIdent word) (h2 : word ∉ tagWords) : Stops syn (tagText syn w word ++ rest) := by
  have := stops_tag (syn := syn) (w := w) (i := []) (rest := rest) h1 h2 tagEnd_noIdent
  rwa [List.append_nil] at this

theorem stops_delim {r : Str} (hs : Std env) (h : Stops env.syn r) : r = [] ∨ startsDelim env.syn.starts r := by
  rcases h with h | ⟨m, b, w, i, rfl, _⟩
  · exact .inl h
  · exact .inr ⟨env.syn.blockStart, by simp [starts_std hs], List.prefix_append _ _⟩

theorem stops_run {r : Str} {tgt : SP Target} {many : SP (List Node)} (hs : Std env) (h : Stops env.syn r) :
    ∃ j m, nodeAlt env tgt many s r = (.err false j m, s) := by
  rcases h with rfl | ⟨mk, b, w, i, rfl, hb, hw, hi, hn⟩
  · have hp : ∀ {d : Str}, d ≠ [] → ¬ d <+: [] := by
      intro d hd hp
      exact hd (List.prefix_nil.1 hp)
    have h1 : PT.map Node.lit (PT.lift (litP env)) s [] = (.err false [] none, s) := rfl
    have h2 : PT.map (fun c : Ws × Str => Node.comment c.1 c.2) (commentP env) s [] = (.err false [] none, s) := by
      refine map_err ?_
      unfold commentP
      exact bind_err (tag_err (hp start_ne.2.2))
    have h3 : exprNode env s [] = (.err false [] none, s) := by
      unfold exprNode
      exact bind_err (tag_err (hp start_ne.2.1))
    have h4 : nodeP env tgt many s [] = (.err false [] none, s) := by
      unfold nodeP
      rw [pos_bind, bind_err (tag_err (hp start_ne.1))]
    refine ⟨[], none, ?_⟩
    unfold nodeAlt
    rw [alt_err h1, alt_err h2, alt_err h3, h4]
  · rw [nodeAlt_block (List.prefix_append _ _) block_not.1 block_not.2]
    refine ⟨env.syn.blockStart ++ (mark mk ++ (b ++ (w ++ i))), none, ?_⟩
    · unfold nodeP
      rw [pos_bind, bind_ok tag_ok]
      have hpk : (PT.peek (do let _ ← opt wsMark; skipWs; ident) : SP Str) s (mark mk ++ (b ++ (w ++ i))) =
          (.ok (mark mk ++ (b ++ (w ++ i))) w, s) := by
        refine peek_ok (r := i) ?_
        rw [bind_ok (markStart hb hw), bind_ok skipWs_run, gap_drop hb (noWs_ident hw)]
        exact ident_ok hw hi
      have hnone : tagParser env tgt many w = none := by
        cases hp : tagParser env tgt many w with
        | none => rfl
        | some p => exact absurd (tagParser_word hp) hn
      rw [bind_ok hpk, hnone]
      rfl

end Askama
