import Verif.Lemmas.DocBlocks

/-!
# Whole templates are read as they are written (C66)
-/

namespace Askama

open Spec PT Props

variable {env : PEnv} {s : PState} {loop : Bool}

/-! ### `match` -/

theorem arm_read {w : Lay} {p : Pt} {body : List Doc} {fuel : Nat} {rest : Str} (hs : Std env) (h1 : p.Ok env.isLower)
    (h2 : DocsSem env loop body) (hn : (DocArm.mk w p body).need + 1 ≤ fuel) (hl : s.level + (DocArm.mk w p body).need ≤ maxDepth)
    (hloop : loop = true → s.loopDepth ≠ 0) (hst : Stops env.syn rest) :
    whenP env (target env nestFuel) (nodesP env fuel) s ((DocArm.mk w p body).text env.syn ++ rest) =
      (.ok rest ((DocArm.mk w p body).node env.syn), s) := by
  simp only [DocArm.need] at hn hl
  have hsrc : (DocArm.mk w p body).text env.syn ++ rest = env.syn.blockStart ++ (mark w.l ++ (w.g.gap 1 ++ (c!"when" ++ (sep (w.g.gap 5) ++ (p.write (w.g.sub 0) ++
      tagEnd env.syn w (Doc.texts env.syn body ++ rest)))))) := by
    rw [DocArm.text, List.append_assoc, tagText_eq]
    simp
  rw [hsrc]
  unfold whenP
  rw [bind_ok (endTag_more hs gapB ident_when.1 (pt_noWs h1 _))]
  refine cut_ok ?_
  rw [bind_ok (wsTarget h1 (by omega) tagEnd_ptEnd tagEnd_drop), bind_ok markClose, bind_ok tag_ok,
    bind_ok (cut_ok (h2 fuel s _ (by omega) (by omega) hloop hst))]
  rfl

theorem whenP_stop {many : SP (List Node)} {r : Str} (hs : Std env) (h : TagOf env.syn c!"endmatch" r ∨ TagOf env.syn c!"else" r) :
    ∃ j m, whenP env (target env nestFuel) many s r = (.err false j m, s) := by
  have : ∃ j m, endTag env c!"when" s r = (.err false j m, s) := by
    rcases h with h | h
    · exact endTag_no hs h ident_endmatch.1 (by decide)
    · exact endTag_no hs h ident_else.1 (by decide)
  obtain ⟨j, m, hj⟩ := this
  exact ⟨j, m, by unfold whenP; exact bind_err hj⟩

theorem commentP_no {r : Str} (hs : Std env) : ∃ j m, commentP env s (env.syn.blockStart ++ r) = (.err false j m, s) := by
  refine ⟨env.syn.blockStart ++ r, none, ?_⟩
  unfold commentP
  exact bind_err (tag_err block_not.1)

theorem match_read {w fin : Lay} {e : Tm} {gap : Str} {arms : List DocArm} {els : Else} (hs : Std env) (h1 : e.Ok env.isLower)
    (h2 : Blank gap) (h3 : arms ≠ []) (h4 : ArmsSem env loop arms) (h5 : ElseSem env loop els) :
    DocSem env loop (.match_ w e gap arms els fin) := by
  intro fuel s rest hn hl hloop _
  simp only [Doc.need] at hn hl
  have hsrc : (Doc.match_ w e gap arms els fin).src env.syn ++ rest = env.syn.blockStart ++ (mark w.l ++ (w.g.gap 1 ++ (c!"match" ++ (sep (w.g.gap 5) ++ (e.write (w.g.sub 0) ++
      tagEnd env.syn w (gap ++ (DocArm.texts env.syn arms ++ (els.src env.syn ++ (tagText env.syn fin c!"endmatch" ++ rest))))))))) := by
    simp [Doc.src, tagText, tagEnd]
  have hk : IsIdent c!"match" := ⟨by simp, by decide, by decide⟩
  rw [hsrc]
  refine node_tag hs gapB hk sp_noIdent rfl (by omega) ?_
  generalize hs' : ({ s with level := s.level + 1 } : PState) = s'
  have hlev : s'.level = s.level + 1 := by rw [← hs']
  have hlp : loop = true → s'.loopDepth ≠ 0 := by rw [← hs']; exact hloop
  unfold matchP
  rw [bind_ok (markStart gapB hk), bind_ok (kwSp gapB hk (tm_noWs h1 _))]
  refine cut_ok ?_
  rw [bind_ok (wsExpr h1 (by omega) tagEnd_ending tagEnd_drop), bind_ok markClose, bind_ok tag_ok]
  refine cut_ok ?_
  -- the gap
  have hopen : ∃ r, DocArm.texts env.syn arms ++ (els.src env.syn ++ (tagText env.syn fin c!"endmatch" ++ rest)) = env.syn.blockStart ++ r := by
    cases arms with
    | nil => exact absurd rfl h3
    | cons a as =>
      cases a with
      | mk wa p body =>
        rw [DocArm.texts, DocArm.text, List.append_assoc, List.append_assoc, tagText_eq]
        exact ⟨_, rfl⟩
  obtain ⟨r0, hr0⟩ := hopen
  have hgap : (ws (PT.many0 (ws ((commentP env).map fun _ => ()))) : SP (List Unit)) s'
      (gap ++ (DocArm.texts env.syn arms ++ (els.src env.syn ++ (tagText env.syn fin c!"endmatch" ++ rest)))) =
      (.ok (DocArm.texts env.syn arms ++ (els.src env.syn ++ (tagText env.syn fin c!"endmatch" ++ rest))) [], s') := by
    rw [hr0]
    obtain ⟨j, m, hj⟩ := commentP_no (s := s') (r := r0) hs
    have h0 : NoWs (env.syn.blockStart ++ r0) := blockStart_noWs
    refine ws_run (w2 := []) (allWs_iff.2 h2) h0 (many0_stop (j := j) (m := m) (ws_err ?_)) (by intro c hc; simp at hc) h0
    rw [noWs_drop h0]
    exact map_err hj
  rw [bind_ok hgap]
  have harms : ∀ r, TagOf env.syn c!"endmatch" r ∨ TagOf env.syn c!"else" r → PT.many1 (whenP env (target env nestFuel) (nodesP env fuel)) s'
      (DocArm.texts env.syn arms ++ r) = (.ok r (DocArm.nodes env.syn arms), s') :=
    fun r hr => (h4 fuel s' r (by omega) (by omega) hlp hr).2 h3
  -- the end tag
  have hfin : ∀ (as : List When), ((do
      let _ ← ws (tag env.syn.blockStart)
      let pws2 ← opt wsMark
      let _ ← ws (kw c!"endmatch")
      let nws2 ← opt wsMark
      pure (Node.match_ ⟨w.l, w.r⟩ e.tree as ⟨pws2, nws2⟩)) : SP Node) s' (tagText env.syn fin c!"endmatch" ++ rest) =
      (.ok (env.syn.blockEnd ++ rest) (.match_ w.ws e.tree as fin.ws), s') := by
    intro as
    rw [tagText_eq]
    show _ = (PRes.ok (env.syn.blockEnd ++ rest) (Node.match_ ⟨w.l, w.r⟩ e.tree as ⟨fin.l, fin.r⟩), s')
    cases hm : fin.l with
    | none =>
      have h6 : (ws (tag env.syn.blockStart) : SP Str) s' (env.syn.blockStart ++ (mark none ++ (fin.g.gap 1 ++ (c!"endmatch" ++ tagEnd env.syn fin rest)))) =
          (.ok (c!"endmatch" ++ tagEnd env.syn fin rest) env.syn.blockStart, s') :=
        ws_run (w := []) (w2 := fin.g.gap 1) (by intro c hc; simp at hc) blockStart_noWs tag_ok (allWs_iff.2 gapB)
          (noWs_ident ident_endmatch.1)
      rw [bind_ok h6, bind_ok (optMark_none (noMark_ident ident_endmatch.1)),
        bind_ok (show ws (kw c!"endmatch") s' (c!"endmatch" ++ tagEnd env.syn fin rest) = (.ok (mark fin.r ++ (env.syn.blockEnd ++ rest)) c!"endmatch", s')
          from kwEnd (b := []) blank_nil ident_endmatch.1),
        bind_ok markClose]
      rfl
    | some v =>
      have h6 : (ws (tag env.syn.blockStart) : SP Str) s' (env.syn.blockStart ++ (mark (some v) ++ (fin.g.gap 1 ++ (c!"endmatch" ++ tagEnd env.syn fin rest)))) =
          (.ok (mark (some v) ++ (fin.g.gap 1 ++ (c!"endmatch" ++ tagEnd env.syn fin rest))) env.syn.blockStart, s') :=
        ws_run (w := []) (w2 := []) (by intro c hc; simp at hc) blockStart_noWs tag_ok (by intro c hc; simp at hc)
          (by cases v <;> exact noWs_cons (by decide))
      rw [bind_ok h6, bind_ok (markStart gapB ident_endmatch.1), bind_ok (kwEnd gapB ident_endmatch.1), bind_ok markClose]
      rfl
  cases els with
  | none =>
    have ht : TagOf env.syn c!"endmatch" (Else.none.src env.syn ++ (tagText env.syn fin c!"endmatch" ++ rest)) := tagOf_word
    rw [bind_ok (harms _ (.inl ht))]
    refine cut_ok ?_
    obtain ⟨j, m, hj⟩ := endTag_no (s := s') (word := c!"else") hs ht ident_endmatch.1 (by decide)
    have helse : PT.opt (whenElse env (nodesP env fuel)) s' (Else.none.src env.syn ++ (tagText env.syn fin c!"endmatch" ++ rest)) =
        (.ok (Else.none.src env.syn ++ (tagText env.syn fin c!"endmatch" ++ rest)) none, s') :=
      opt_err (j := j) (m := m) (by unfold whenElse; exact bind_err hj)
    rw [bind_ok helse]
    refine cut_ok ?_
    have := hfin (DocArm.nodes env.syn arms ++ (none : Option When).toList)
    simp only [Option.toList, List.append_nil] at this ⊢
    exact this
  | some w' eb =>
    simp only [Else.need] at hn hl
    have hsrc' : (Else.some w' eb).src env.syn ++ (tagText env.syn fin c!"endmatch" ++ rest) =
        tagText env.syn w' c!"else" ++ (Doc.texts env.syn eb ++ (tagText env.syn fin c!"endmatch" ++ rest)) := by rw [Else.src, List.append_assoc]
    rw [hsrc', bind_ok (harms _ (.inr tagOf_word))]
    refine cut_ok ?_
    have helse : PT.opt (whenElse env (nodesP env fuel)) s'
        (tagText env.syn w' c!"else" ++ (Doc.texts env.syn eb ++ (tagText env.syn fin c!"endmatch" ++ rest))) =
        (.ok (tagText env.syn fin c!"endmatch" ++ rest) (some (.mk w'.ws (.name c!"_") (Doc.nodes env.syn eb))), s') := by
      refine opt_ok ?_
      unfold whenElse
      rw [bind_ok (endTag_ok hs ident_else.1)]
      refine cut_ok ?_
      rw [bind_ok markClose, bind_ok tag_ok,
        bind_ok (cut_ok (h5 fuel s' _ (by omega) (by omega) hlp (tagOf_word.stops ident_endmatch.1 ident_endmatch.2)))]
      rfl
    rw [bind_ok helse]
    refine cut_ok ?_
    exact hfin _

/-! ### `block` and `macro` -/

theorem close_noStart [hs : Usable env.syn] {m : Option Wsp} {r : Str} :
    (mark m ++ (env.syn.blockEnd ++ r)).head?.any identStart = false := by
  obtain ⟨c, t, h, hc⟩ := close_head (syn := env.syn) m r
  rw [h]
  show identStart c = false
  clear h
  revert hc
  revert c
  decide

/-- The end tag, with or without the name. -/
theorem endNamed_read {kind name word rest : Str} {again : Bool} {fin : Lay} (hs : Std env) (hi : IsIdent name) (hw : IsIdent word) :
    ∃ r, endTag env word s (tagText env.syn fin (word ++ againText fin.g again name) ++ rest) = (.ok r fin.l, s) ∧
      ∃ o, endName kind name s r = (.ok (mark fin.r ++ (env.syn.blockEnd ++ rest)) o, s) := by
  rw [tagText_eq]
  cases again with
  | true =>
    refine ⟨name ++ tagEnd env.syn fin rest, ?_, some name, ?_⟩
    · have := endTag_more (s := s) (m := fin.l) (g := fin.g) (k := 5) (rest := name ++ tagEnd env.syn fin rest) hs (gapB (g := fin.g) (k := 1)) hw
        (noWs_ident hi)
      rw [← this]
      simp [againText]
    · unfold endName
      refine opt_ok ?_
      rw [pos_bind, bind_ok (wsIdentEnd hi), if_pos rfl]
      rfl
  | false =>
    refine ⟨mark fin.r ++ (env.syn.blockEnd ++ rest), ?_, none, ?_⟩
    · have := endTag_ok (s := s) (w := fin) (rest := rest) hs hw
      rw [← this, tagText_eq]
      simp [againText]
    · unfold endName
      refine opt_err (j := mark fin.r ++ (env.syn.blockEnd ++ rest)) (m := none) ?_
      rw [pos_bind]
      refine bind_err (ws_err (lift_err (u := ()) ?_))
      rw [noWs_drop close_noWs]
      exact identifier_err close_noStart

theorem again_stops [Usable env.syn] {w : Lay} {word name rest : Str} {again : Bool} (h1 : IsIdent word) (h2 : word ∉ tagWords) :
    Stops env.syn (tagText env.syn w (word ++ againText w.g again name) ++ rest) := by
  refine stops_tag h1 h2 ?_
  cases again with
  | true => exact by rw [againText, if_pos rfl, List.append_assoc]; exact sp_noIdent
  | false => exact tagEnd_noIdent

theorem block_read {w fin : Lay} {name : Str} {body : List Doc} {again : Bool} (hs : Std env) (h1 : Name name)
    (h2 : DocsSem env loop body) : DocSem env loop (.block w name body again fin) := by
  intro fuel s rest hn hl hloop _
  simp only [Doc.need] at hn hl
  have hi := isIdent_of_name h1
  have hsrc : (Doc.block w name body again fin).src env.syn ++ rest = env.syn.blockStart ++ (mark w.l ++ (w.g.gap 1 ++ (c!"block" ++ (sep (w.g.gap 5) ++ (name ++
      tagEnd env.syn w (Doc.texts env.syn body ++ (tagText env.syn fin (c!"endblock" ++ againText fin.g again name) ++ rest))))))) := by
    rw [Doc.src, List.append_assoc, List.append_assoc, tagText_eq]
    simp
  have hk : IsIdent c!"block" := ⟨by simp, by decide, by decide⟩
  rw [hsrc]
  refine node_tag hs gapB hk sp_noIdent rfl (by omega) ?_
  generalize hs' : ({ s with level := s.level + 1 } : PState) = s'
  have hlev : s'.level = s.level + 1 := by rw [← hs']
  have hlp : loop = true → s'.loopDepth ≠ 0 := by rw [← hs']; exact hloop
  unfold blockP
  rw [bind_ok (markStart gapB hk), bind_ok (kwSp gapB hk (noWs_ident hi))]
  generalize hR : Doc.texts env.syn body ++ (tagText env.syn fin (c!"endblock" ++ againText fin.g again name) ++ rest) = R
  have hhead : (PT.cut (do
      let name ← ws ident
      let nws1 ← opt wsMark
      let _ ← tag env.syn.blockEnd
      pure (name, nws1)) : SP (Str × Option Wsp)) s' (name ++ tagEnd env.syn w R) = (.ok R (name, w.r), s') := by
    refine cut_ok ?_
    rw [bind_ok (wsIdentEnd hi), bind_ok markClose, bind_ok tag_ok]
    rfl
  rw [bind_ok hhead]
  subst hR
  dsimp only
  refine cut_ok ?_
  rw [bind_ok (h2 fuel s' _ (by omega) (by omega) hlp (again_stops ident_endblock.1 ident_endblock.2))]
  refine cut_ok ?_
  obtain ⟨r, hr1, o, hr2⟩ := endNamed_read (s := s') (kind := c!"block") (again := again) (fin := fin) (rest := rest) hs hi ident_endblock.1
  rw [bind_ok hr1]
  refine cut_ok ?_
  rw [bind_ok hr2, bind_ok markClose]
  rfl

theorem sepList0_of1 {σ α γ : Type} {sepP : PT σ γ} {p : PT σ α} {s s' : σ} {i y : Str} {l : List α}
    (h : sepList1 sepP p s i = (.ok y l, s')) : sepList0 sepP p s i = (.ok y l, s') := by
  unfold sepList1 PT.bind at h
  unfold sepList0
  cases hp : p s i with
  | mk x s1 =>
    rw [hp] at h
    cases x with
    | ok r a => exact h
    | err c j m => simp at h
    | stuck => simp at h

theorem param_ok {a : Str} (ha : Name a) {i r : Str} (hr : ArgEnd r) (hi : i.dropWhile isWsp = a ++ r) :
    ws ident s i = (.ok (r.dropWhile isWsp) a, s) := by
  refine ws_ok ?_
  rw [hi]
  exact ident_ok (isIdent_of_name ha) hr.facts.2.1

theorem param_no {i r : Str} (hi : i.dropWhile isWsp = ')' :: r) : ws ident s i = (.err false (')' :: r) none, s) := by
  refine ws_err ?_
  rw [hi]
  exact lift_err (u := ()) (identifier_err rfl)

theorem params_rest {g' : Gaps} (hg' : g'.Ok) {b : Bool} {r : Str} : ∀ (l : List Str) (g : Gaps) (fuel : Nat), g.Ok → l.length < fuel →
    (∀ a ∈ l, Name a) →
    sepRestF (char ',') (ws ident) fuel s ((listText.more g (l.map fun n _ => n) ++ (lastComma g' b ++ ')' :: r)).dropWhile isWsp) =
      (.ok (lastComma g' b ++ ')' :: r) l, s)
  | [], g, fuel + 1, hg, _, _ => by
    rw [show (listText.more g (List.map (fun n _ => n) []) ++ (lastComma g' b ++ ')' :: r)).dropWhile isWsp = lastComma g' b ++ ')' :: r from
      gap_drop (hg.gap 0) (lastComma_noWs _ _ _)]
    unfold sepRestF
    cases b with
    | false => rw [show lastComma g' false ++ ')' :: r = ')' :: r from rfl, char_err (by simp)]
    | true =>
      have h := param_no (s := s) (gap_drop (hg'.gap 0) (noWs_cons (by decide)) : List.dropWhile isWsp (g'.gap 0 ++ ')' :: r) = _)
      rw [show lastComma g' true ++ ')' :: r = ',' :: (g'.gap 0 ++ ')' :: r) from rfl, char_ok]
      dsimp only
      rw [if_neg (by simp), h]
  | a :: l, g, fuel + 1, hg, hf, hl => by
    have ha := hl a (by simp)
    have hel := param_ok (s := s) ha (argEnd_more (l.map fun n _ => n) (hg.sub 1) (lastComma_head g' b r))
      (i := g.gap 1 ++ (a ++ (listText.more (g.sub 1) (l.map fun n _ => n) ++ (lastComma g' b ++ ')' :: r))))
      (gap_drop (hg.gap 1) (noWs_ident (isIdent_of_name ha)))
    have ih := params_rest (r := r) (b := b) hg' l (g.sub 1) fuel (hg.sub 1) (by simpa using hf) (fun b hb => hl b (by simp [hb]))
    have htx : (listText.more g ((a :: l).map fun n _ => n) ++ (lastComma g' b ++ ')' :: r)).dropWhile isWsp =
        ',' :: (g.gap 1 ++ (a ++ (listText.more (g.sub 1) (l.map fun n _ => n) ++ (lastComma g' b ++ ')' :: r)))) := by
      rw [List.map_cons, listText.more, List.append_assoc, List.cons_append, gap_drop (hg.gap 0) (noWs_cons (by decide))]
      simp
    unfold sepRestF
    rw [htx, char_ok]
    dsimp only
    rw [if_neg (by simp), hel]
    exact map_ok ih

/-- The parameters of a macro. -/
theorem parameters_read [hs : Usable env.syn] {g : Gaps} [hg : GapsOk g] {params : List Str} (h : ∀ p ∈ params, Name p) {w : Lay} {r : Str} :
    ws parameters s (paramsSrc g params ++ tagEnd env.syn w r) = (.ok (mark w.r ++ (env.syn.blockEnd ++ r)) params, s) := by
  rw [← tagEnd_drop]
  refine ws_ok ?_
  generalize tagEnd env.syn w r = R
  have hsrc : paramsSrc g params ++ R = '(' :: (listText.elems (g.sub 0) (params.map fun n _ => n) ++
      (lastComma g (g.comma [] && !(params.map (fun n (_ : Gaps) => n)).isEmpty) ++ ')' :: R)) := by simp [paramsSrc, listText]
  rw [hsrc, noWs_drop (noWs_cons (by decide))]
  generalize hc : (g.comma [] && !(params.map (fun n (_ : Gaps) => n)).isEmpty) = b
  have hgs := hg.ok.sub 0
  have hopen : ∀ i, (ws (char '(') : SP Char) s ('(' :: i) = (.ok (i.dropWhile isWsp) '(', s) := fun i =>
    ws_ok (by rw [noWs_drop (noWs_cons (by decide))]; exact char_ok)
  unfold parameters
  rw [bind_ok (hopen _)]
  have hlist : sepList0 (char ',' : SP Char) (ws ident) s
      ((listText.elems (g.sub 0) (params.map fun n _ => n) ++ (lastComma g b ++ ')' :: R)).dropWhile isWsp) =
        (.ok (lastComma g b ++ ')' :: R) params, s) := by
    cases params with
    | nil =>
      have hb : b = false := by rw [← hc]; simp
      subst hb
      have he : (listText.elems (g.sub 0) (List.map (fun n (_ : Gaps) => n) []) ++ (lastComma g false ++ ')' :: R)).dropWhile isWsp = ')' :: R :=
        gap_drop (hgs.gap 0) (noWs_cons (by decide))
      rw [he]
      unfold sepList0
      rw [param_no (noWs_drop (noWs_cons (by decide)))]
      rfl
    | cons a l =>
      have ha := h a (by simp)
      have he : (listText.elems (g.sub 0) ((a :: l).map fun n _ => n) ++ (lastComma g b ++ ')' :: R)).dropWhile isWsp =
          a ++ (listText.more ((g.sub 0).sub 1) (l.map fun n _ => n) ++ (lastComma g b ++ ')' :: R)) := by
        rw [List.map_cons, listText.elems, List.append_assoc, List.append_assoc]
        exact gap_drop (hgs.gap 0) (noWs_ident (isIdent_of_name ha))
      rw [he]
      refine sepList0_of1 ?_
      unfold sepList1
      refine (bind_ok (param_ok ha (argEnd_more _ (hgs.sub 1) (lastComma_head g b R)) (noWs_drop (noWs_ident (isIdent_of_name ha))))).trans ?_
      refine map_ok (params_rest hg.ok l _ _ (hgs.sub 1) ?_ fun x hx => h x (by simp [hx]))
      have := listMore_length (l.map fun n _ => n) ((g.sub 0).sub 1) (hgs.sub 1) (lastComma g b ++ ')' :: R) (lastComma_noWs _ _ _)
      simp at this ⊢
      omega
  rw [bind_ok hlist]
  have hcomma : ∃ o, PT.opt (ws (char ',') : SP Char) s (lastComma g b ++ ')' :: R) = (.ok (')' :: R) o, s) := by
    cases b with
    | false => exact ⟨none, optComma_no (by rw [show lastComma g false ++ ')' :: R = ')' :: R from rfl, noWs_drop (noWs_cons (by decide))]; simp)⟩
    | true =>
      refine ⟨some ',', opt_ok ?_⟩
      exact ws_run (w := []) (i := ',' :: (g.gap 0 ++ ')' :: R)) (by intro c hc; simp at hc) (noWs_cons (by decide)) char_ok
        (allWs_iff.2 gapB) (noWs_cons (by decide))
  obtain ⟨o, ho⟩ := hcomma
  rw [bind_ok ho, bind_ok char_ok]
  rfl

theorem macro_read {w fin : Lay} {name : Str} {params : List Str} {body : List Doc} {again : Bool} (hs : Std env) (h1 : Name name)
    (h2 : name ≠ c!"super") (h3 : ∀ p ∈ params, Name p) (h4 : DocsSem env loop body) :
    DocSem env loop (.macro w name params body again fin) := by
  intro fuel s rest hn hl hloop _
  simp only [Doc.need] at hn hl
  have hi := isIdent_of_name h1
  have hsrc : (Doc.macro w name params body again fin).src env.syn ++ rest = env.syn.blockStart ++ (mark w.l ++ (w.g.gap 1 ++ (c!"macro" ++ (sep (w.g.gap 5) ++ (name ++
      (w.g.gap 4 ++ (paramsSrc (w.g.sub 0) params ++
      tagEnd env.syn w (Doc.texts env.syn body ++ (tagText env.syn fin (c!"endmacro" ++ againText fin.g again name) ++ rest))))))))) := by
    rw [Doc.src, List.append_assoc, List.append_assoc, tagText_eq]
    simp
  have hk : IsIdent c!"macro" := ⟨by simp, by decide, by decide⟩
  rw [hsrc]
  refine node_tag hs gapB hk sp_noIdent rfl (by omega) ?_
  generalize hs' : ({ s with level := s.level + 1 } : PState) = s'
  have hlev : s'.level = s.level + 1 := by rw [← hs']
  have hlp : loop = true → s'.loopDepth ≠ 0 := by rw [← hs']; exact hloop
  unfold macroP
  rw [pos_bind, bind_ok (markStart gapB hk), bind_ok (kwSp gapB hk (noWs_ident hi))]
  generalize hR : Doc.texts env.syn body ++ (tagText env.syn fin (c!"endmacro" ++ againText fin.g again name) ++ rest) = R
  have hhead : (PT.cut (do
      let name ← ws ident
      let params ← opt (ws parameters)
      let nws1 ← opt wsMark
      let _ ← tag env.syn.blockEnd
      pure (name, params, nws1)) : SP (Str × Option (List Str) × Option Wsp)) s'
        (name ++ (w.g.gap 4 ++ (paramsSrc (w.g.sub 0) params ++ tagEnd env.syn w R))) = (.ok R (name, some params, w.r), s') := by
    refine cut_ok ?_
    have hname : ws ident s' (name ++ (w.g.gap 4 ++ (paramsSrc (w.g.sub 0) params ++ tagEnd env.syn w R))) =
        (.ok (paramsSrc (w.g.sub 0) params ++ tagEnd env.syn w R) name, s') :=
      wsIdent hi (char_noIdent gapB (by decide)) gapB (noWs_cons (by decide))
    rw [bind_ok hname, bind_ok (opt_ok (parameters_read h3)), bind_ok markClose, bind_ok tag_ok]
    rfl
  rw [bind_ok hhead]
  subst hR
  dsimp only
  rw [if_neg h2]
  refine cut_ok ?_
  rw [bind_ok (h4 fuel s' _ (by omega) (by omega) hlp (again_stops ident_endmacro.1 ident_endmacro.2))]
  refine cut_ok ?_
  obtain ⟨r, hr1, o, hr2⟩ := endNamed_read (s := s') (kind := c!"macro") (again := again) (fin := fin) (rest := rest) hs hi ident_endmacro.1
  rw [bind_ok hr1]
  refine cut_ok ?_
  rw [bind_ok hr2, bind_ok markClose]
  rfl

/-! ### `filter` -/

theorem argsHere_no {i : Str} (hw : NoWs i) (hh : i.head? ≠ some '(') (hl : s.level < maxDepth) :
    PT.opt (argsHere env false) s i = (.ok i none, s) := by
  refine opt_err (j := i) (m := none) ?_
  unfold argsHere
  obtain ⟨n, hn⟩ : ∃ n, maxDepth - s.level = n + 1 := ⟨maxDepth - s.level - 1, by omega⟩
  rw [hn]
  have ha : exprP env (n + 1) (.args false) () i = (.err false i none, ()) := by
    show argsBody (exprP env n) false () _ = _
    unfold argsBody
    rw [pos_bind]
    refine bind_err (ws_err ?_)
    rw [noWs_drop hw]
    exact char_err hh
  rw [ha]

theorem argsHere_ok {g : Gaps} [hg : GapsOk g] {b : Bool} {es : List Tm} {r : Str} (h : Tm.Oks env.isLower es)
    (hl : s.level + (Tm.needs es + 13) ≤ maxDepth) :
    PT.opt (argsHere env false) s ('(' :: (Tm.writes (g.sub 0) es ++ (lastComma g (b && !es.isEmpty) ++ ')' :: r))) = (.ok r (some (Tm.trees es)), s) := by
  refine opt_ok ?_
  unfold argsHere
  obtain ⟨n, hn⟩ : ∃ n, maxDepth - s.level = n + 1 := ⟨maxDepth - s.level - 1, by omega⟩
  have := args_ok (a := []) (rest := r) blank_nil (sem_list es h) (by omega : Tm.needs es + 12 ≤ n) (needs3 es) (hg.ok.sub 0) hg.ok b
  rw [List.nil_append] at this
  rw [hn]
  exact congrArg (fun x => match x with | (r, _) => (r, s)) this

/-- What is left of the arguments of a filter. -/
def fltParams (f : Flt) : Option (List Expr) := if f.args.isEmpty then none else some (Tm.trees f.args)

theorem fltParams_getD (f : Flt) : (fltParams f).getD [] = Tm.trees f.args := by
  unfold fltParams
  cases h : f.args with
  | nil => rfl
  | cons a l => rfl

/-- The text after a filter. -/
def FltEnd (syn : Syntax) (R : Str) : Prop :=
  NoIdent R ∧ (R.dropWhile isWsp).head? ≠ some '(' ∧ (R = R.dropWhile isWsp ∨ ∃ m r, R = tagEnd syn m r)

/-- The name and the arguments of a filter. -/
theorem flt_read {g : Gaps} [hg : GapsOk g] {f : Flt} {R : Str} (h : f.Ok env.isLower) (hl : s.level + Flt.needs [f] ≤ maxDepth) (hR : FltEnd env.syn R) :
    ∃ r, ws ident s (f.write g ++ R) = (.ok r f.name, s) ∧ ∃ y, (y = R ∨ y = R.dropWhile isWsp) ∧
      PT.opt (argsHere env false) s r = (.ok y (fltParams f), s) := by
  have hi := isIdent_of_name h.1
  simp only [Flt.needs] at hl
  unfold Flt.write
  unfold fltParams
  cases ha : f.args with
  | nil =>
    refine ⟨R.dropWhile isWsp, ?_, R.dropWhile isWsp, .inr rfl, ?_⟩
    · simp only [List.isEmpty_nil, if_true, List.append_nil]
      exact ws_ok (by rw [noWs_drop (noWs_ident hi)]; exact ident_ok hi hR.1)
    · exact argsHere_no (by
        intro c hc
        have := List.head?_dropWhile_not isWsp R
        rw [hc] at this
        simpa using this) hR.2.1 (by omega)
  | cons a l =>
    rw [← ha]
    have he : f.args.isEmpty = false := by rw [ha]; rfl
    refine ⟨'(' :: (Tm.writes (g.sub 0) f.args ++ (lastComma g (g.comma [] && !f.args.isEmpty) ++ ')' :: R)), ?_, R, .inl rfl, ?_⟩
    · simp only [he, Bool.false_eq_true, if_false]
      rw [List.append_assoc, List.append_assoc]
      rw [show '(' :: (Tm.writes (g.sub 0) f.args ++ (lastComma g (g.comma [] && !false) ++ [')'])) ++ R =
        '(' :: (Tm.writes (g.sub 0) f.args ++ (lastComma g (g.comma [] && !false) ++ ')' :: R)) by simp]
      exact wsIdent hi (char_noIdent gapB (by decide)) gapB (noWs_cons (by decide))
    · simp only [he, Bool.false_eq_true, if_false]
      have := argsHere_ok (s := s) (g := g) (b := g.comma []) (r := R) h.2 (by omega)
      rwa [he] at this

theorem lift_bind {σ α β : Type} (p : PT Unit α) (f : α → PT Unit β) (s : σ) (i : Str) :
    lift (p >>= f) s i = (lift p >>= fun a => lift (f a)) s i := by
  show lift (p.bind f) s i = (lift p).bind (fun a => lift (f a)) s i
  unfold lift PT.bind
  cases h : p () i with
  | mk x u => cases x <;> simp only [h]

theorem lift_opt {σ α : Type} (p : PT Unit α) (s : σ) (i : Str) : lift (PT.opt p) s i = PT.opt (lift p) s i := by
  unfold lift PT.opt
  cases h : p () i with
  | mk x u => cases x with
    | ok r a => simp only [h]
    | err c j m => cases c <;> simp only [h]
    | stuck => simp only [h]

theorem lift_ws {σ α : Type} (p : PT Unit α) (s : σ) (i : Str) : lift (ws p) s i = ws (lift p) s i := by
  unfold ws
  rw [lift_bind]
  refine congrFun (congrFun (congrArg _ (funext fun _ => funext fun s => funext fun i => ?_)) s) i
  rw [lift_bind]
  rfl

theorem unlift {σ α : Type} {p : PT Unit α} {s : σ} {i : Str} {x : PRes α} (h : lift p s i = (x, s)) : p () i = (x, ()) := by
  unfold lift at h
  have h' : (p () i).1 = x := congrArg Prod.fst h
  exact Prod.ext h' rfl

theorem filterHere_ok {i r y n : Str} {a : Option (List Expr)} (h1 : ws ident s i = (.ok r n, s))
    (h2 : PT.opt (argsHere env false) s r = (.ok y a, s)) : filterHere env s ('|' :: i) = (.ok y (n, a), s) := by
  have e1 : ws identifier () i = (.ok r n, ()) := unlift (s := s) (by rw [lift_ws]; exact h1)
  have e2 : PT.opt (exprP env (maxDepth - s.level) (.args false)) () r = (.ok y a, ()) :=
    unlift (s := s) (by rw [lift_opt]; exact h2)
  show lift (filterP (exprP env (maxDepth - s.level))) s _ = _
  refine lift_ok (u := ()) ?_
  unfold filterP
  rw [bind_ok char_ok, bind_ok e1, bind_ok e2]
  rfl

theorem filterHere_no {i : Str} (h : i.head? ≠ some '|') : filterHere env s i = (.err false i none, s) := by
  show lift (filterP (exprP env (maxDepth - s.level))) s _ = _
  refine lift_err (u := ()) ?_
  unfold filterP
  exact bind_err (char_err h)

theorem fltEnd_of [hs : Usable env.syn] {g : Gaps} {fs : List Flt} {w : Lay} {r : Str} :
    FltEnd env.syn (Flt.more g fs ++ tagEnd env.syn w r) := by
    cases fs with
    | nil =>
      refine ⟨tagEnd_noIdent, ?_, .inr ⟨w, r, rfl⟩⟩
      simp only [Flt.more, List.nil_append, tagEnd_drop]
      obtain ⟨c, t, h, hc⟩ := close_head (syn := env.syn) w.r r
      rw [h]
      simp [head_facts hc]
    | cons f fs =>
      have hw : NoWs (Flt.more g (f :: fs) ++ tagEnd env.syn w r) := noWs_cons (by decide)
      refine ⟨?_, ?_, .inl (noWs_drop hw).symm⟩
      · intro c hc; simp [Flt.more] at hc; subst hc; decide
      · rw [noWs_drop hw]; simp [Flt.more]

theorem gap_head_ne {b r : Str} {c : Char} (hb : Blank b) (hc : isWsp c = false) (hr : r.head? ≠ some c) : (b ++ r).head? ≠ some c := by
  cases b with
  | nil => exact hr
  | cons d b =>
    rcases hb d (by simp) with rfl | rfl | rfl | rfl <;> (intro h; simp at h; subst h; revert hc; decide)

/-- Several filters, each after a bar. -/
theorem flts_read [hs : Usable env.syn] {w : Lay} {r : Str} : ∀ (fs : List Flt) (g : Gaps) [GapsOk g], (∀ f ∈ fs, f.Ok env.isLower) →
    s.level + Flt.needs fs ≤ maxDepth → s.level < maxDepth →
    ∀ x, (x = Flt.more g fs ++ tagEnd env.syn w r ∨
      x = (Flt.more g fs ++ tagEnd env.syn w r).dropWhile isWsp) →
    ∃ y, (y = tagEnd env.syn w r ∨ y = mark w.r ++ (env.syn.blockEnd ++ r)) ∧
      PT.many0 (filterHere env) s x = (.ok y (fs.map fun f => (f.name, fltParams f)), s)
  | [], g, _, _, _, hl, x, hx => by
    simp only [Flt.more, List.nil_append, tagEnd_drop] at hx
    refine ⟨x, hx, many0_stop (j := x) (m := none) ?_⟩
    have hc : (mark w.r ++ (env.syn.blockEnd ++ r)).head? ≠ some '|' := by
      obtain ⟨c, t, h, hc⟩ := close_head (syn := env.syn) w.r r
      rw [h]
      simp [head_facts hc]
    refine filterHere_no ?_
    rcases hx with rfl | rfl
    · exact gap_head_ne gapB (by decide) hc
    · exact hc
  | f :: fs, g, hg, h, hn, hl, x, hx => by
    simp only [Flt.needs] at hn
    have hx' : x = '|' :: (g.gap 0 ++ (f.write (g.sub 0) ++ (Flt.more (g.sub 1) fs ++ tagEnd env.syn w r))) := by
      rcases hx with rfl | rfl
      · simp [Flt.more]
      · rw [noWs_drop (by rw [Flt.more]; exact noWs_cons (by decide))]
        simp [Flt.more]
    subst hx'
    have hR := fltEnd_of (env := env) (g := g.sub 1) (fs := fs) (w := w) (r := r)
    obtain ⟨r1, h1, y, hy, h2⟩ := flt_read (s := s) (g := g.sub 0) (h f (by simp)) (by simp only [Flt.needs]; omega) hR
    obtain ⟨z, hz, h3⟩ := flts_read fs (g.sub 1) (fun g hg => h g (by simp [hg])) (by omega) hl y hy
    refine ⟨z, hz, many0_cons (r := y) ?_ ?_ h3⟩
    · exact filterHere_ok ((ws_lead gapB).trans h1) h2
    · have : y.length ≤ (Flt.more (g.sub 1) fs ++ tagEnd env.syn w r).length := by
        rcases hy with rfl | rfl
        · exact Nat.le_refl _
        · exact (List.dropWhile_suffix isWsp).length_le
      simp only [List.length_cons, List.length_append] at this ⊢
      omega

theorem filter_read {w fin : Lay} {f : Flt} {fs : List Flt} {body : List Doc} (hs : Std env) (h1 : f.Ok env.isLower)
    (h2 : ∀ g ∈ fs, g.Ok env.isLower) (h3 : DocsSem env loop body) : DocSem env loop (.filter w f fs body fin) := by
  intro fuel s rest hn hl hloop _
  simp only [Doc.need, Flt.needs] at hn hl
  have hi := isIdent_of_name h1.1
  have hsrc : (Doc.filter w f fs body fin).src env.syn ++ rest = env.syn.blockStart ++ (mark w.l ++ (w.g.gap 1 ++ (c!"filter" ++ (sep (w.g.gap 5) ++ (f.write ((w.g.sub 0).sub 0) ++
      (Flt.more ((w.g.sub 0).sub 1) fs ++
      tagEnd env.syn w (Doc.texts env.syn body ++ (tagText env.syn fin c!"endfilter" ++ rest)))))))) := by
    rw [Doc.src, List.append_assoc, List.append_assoc, tagText_eq]
    simp [Flt.texts]
  have hk : IsIdent c!"filter" := ⟨by simp, by decide, by decide⟩
  rw [hsrc]
  refine node_tag hs gapB hk sp_noIdent rfl (by omega) ?_
  generalize hs' : ({ s with level := s.level + 1 } : PState) = s'
  have hlev : s'.level = s.level + 1 := by rw [← hs']
  have hlp : loop = true → s'.loopDepth ≠ 0 := by rw [← hs']; exact hloop
  unfold filterBlockP
  rw [bind_ok (markStart gapB hk), bind_ok (kwSp gapB hk (by unfold Flt.write; rw [List.append_assoc]; exact noWs_ident hi))]
  generalize hR : Doc.texts env.syn body ++ (tagText env.syn fin c!"endfilter" ++ rest) = R
  have hhead : (PT.cut (do
      let name ← ws ident
      let params ← PT.opt (argsHere env false)
      let extra ← PT.many0 (filterHere env)
      ws (pure ())
      let nws1 ← PT.opt wsMark
      let _ ← tag env.syn.blockEnd
      pure (name, params, extra, nws1)) : SP (Str × Option (List Expr) × List (Str × Option (List Expr)) × Option Wsp)) s'
        (f.write ((w.g.sub 0).sub 0) ++ (Flt.more ((w.g.sub 0).sub 1) fs ++ tagEnd env.syn w R)) =
        (.ok R (f.name, fltParams f, fs.map (fun f => (f.name, fltParams f)), w.r), s') := by
    refine cut_ok ?_
    obtain ⟨r1, e1, y, hy, e2⟩ := flt_read (s := s') (g := (w.g.sub 0).sub 0) h1 (by simp only [Flt.needs]; omega) (fltEnd_of (env := env) (g := (w.g.sub 0).sub 1) (fs := fs) (w := w) (r := R))
    obtain ⟨z, hz, e3⟩ := flts_read (s := s') fs ((w.g.sub 0).sub 1) h2 (by omega) (by omega) y hy
    have e4 : (ws (pure ()) : SP Unit) s' z = (.ok (mark w.r ++ (env.syn.blockEnd ++ R)) (), s') := by
      have hz' : z.dropWhile isWsp = mark w.r ++ (env.syn.blockEnd ++ R) := by
        rcases hz with rfl | rfl
        · exact tagEnd_drop
        · exact noWs_drop close_noWs
      rw [← noWs_drop (close_noWs (m := w.r) (r := R)), ← hz']
      exact ws_ok rfl
    rw [bind_ok e1, bind_ok e2, bind_ok e3, bind_ok e4, bind_ok markClose, bind_ok tag_ok]
    rfl
  rw [bind_ok hhead]
  subst hR
  dsimp only
  have hchain : (fs.map fun f => (f.name, fltParams f)).foldl (fun (f : FilterApp) x => ⟨x.1, .filter f.name f.args :: x.2.getD []⟩)
      ⟨f.name, (fltParams f).getD []⟩ = Flt.chain f fs := by
    unfold Flt.chain
    rw [List.foldl_map]
    simp only [fltParams_getD]
  rw [hchain]
  refine cut_ok ?_
  rw [bind_ok (h3 fuel s' _ (by omega) (by omega) hlp (tagOf_word.stops ident_endfilter.1 ident_endfilter.2))]
  refine cut_ok ?_
  rw [bind_ok (endTag_ok hs ident_endfilter.1), bind_ok markClose]
  rfl

/-! ### All pieces -/

theorem leaf_sem {d : Doc} (h : ReadsLeaf env d) : DocSem env loop d := fun _ s rest _ hl _ _ => h _ s rest hl

/-- Pieces that are not text start with a delimiter. -/
theorem src_delim (hs : Std env) {d : Doc} (h : d.isText = false) (r : Str) : d.src env.syn ≠ [] ∧ startsDelim env.syn.starts (d.src env.syn ++ r) := by
  have key : ∃ x ∈ [env.syn.exprStart, env.syn.blockStart, env.syn.commentStart], ∃ t, d.src env.syn = x ++ t := by
    cases d with
    | text s => simp [Doc.isText] at h
    | comment w s => exact ⟨env.syn.commentStart, by simp, _, by rw [Doc.src, List.append_assoc, List.append_assoc, List.append_assoc]⟩
    | expr w e => exact ⟨env.syn.exprStart, by simp, _, by rw [Doc.src]⟩
    | _ => exact ⟨env.syn.blockStart, by simp, _, by simp only [Doc.src, tagText, List.append_assoc]; rfl⟩
  obtain ⟨x, hx, t, ht⟩ := key
  rw [ht]
  refine ⟨?_, x, ?_, ?_⟩
  · simp at hx
    rcases hx with rfl | rfl | rfl <;> simp [start_ne (syn := env.syn)]
  · rw [starts_std hs]
    simp at hx
    rcases hx with rfl | rfl | rfl <;> simp
  · rw [List.append_assoc]
    exact List.prefix_append _ _

theorem branch_stops [Usable env.syn] {bs : List DocBranch} {rest : Str} (h : TagOf env.syn c!"endif" rest) : Stops env.syn (DocBranch.texts env.syn bs ++ rest) := by
  cases bs with
  | nil => exact h.stops ident_endif.1 ident_endif.2
  | cons b bs =>
    cases b with
    | elseIf short w c body =>
      rw [DocBranch.texts, DocBranch.text, List.append_assoc, List.append_assoc]
      cases short with
      | true => exact stops_tag (i := sep (w.g.gap 5) ++ c.write (w.g.sub 0)) ident_elif.1 ident_elif.2 (by rw [List.append_assoc]; exact sp_noIdent)
      | false =>
        have := stops_tag (syn := env.syn) (w := w) (word := c!"else") (i := sep (w.g.gap 7) ++ (c!"if" ++ (sep (w.g.gap 5) ++ c.write (w.g.sub 0))))
          (rest := Doc.texts env.syn body ++ (DocBranch.texts env.syn bs ++ rest)) ident_else.1 ident_else.2
          (by rw [List.append_assoc]; exact sp_noIdent (g := w.g))
        simpa only [Bool.false_eq_true, if_false, List.append_assoc] using this
    | else_ w body =>
      rw [DocBranch.texts, DocBranch.text, List.append_assoc, List.append_assoc]
      exact stops_word ident_else.1 ident_else.2

theorem arm_stops [Usable env.syn] {as : List DocArm} {rest : Str} (h : TagOf env.syn c!"endmatch" rest ∨ TagOf env.syn c!"else" rest) :
    Stops env.syn (DocArm.texts env.syn as ++ rest) := by
  cases as with
  | nil =>
    rcases h with h | h
    · exact h.stops ident_endmatch.1 ident_endmatch.2
    · exact h.stops ident_else.1 ident_else.2
  | cons a as =>
    cases a with
    | mk w p body =>
      rw [DocArm.texts, DocArm.text, List.append_assoc, List.append_assoc]
      exact stops_tag (i := sep (w.g.gap 5) ++ p.write (w.g.sub 0)) ident_when.1 ident_when.2 (by rw [List.append_assoc]; exact sp_noIdent)

theorem condP_stop {many : SP (List Node)} {r : Str} (hs : Std env) (h : TagOf env.syn c!"endif" r) :
    ∃ j m, condP env (target env nestFuel) many s r = (.err false j m, s) := by
  obtain ⟨mk, b, i, rfl, hb, hi⟩ := h
  obtain ⟨j1, m1, h1⟩ := kwOther (s := s) (k := c!"else") hb ident_endif.1 hi (by decide)
  obtain ⟨j2, m2, h2⟩ := kwOther (s := s) (k := c!"elif") hb ident_endif.1 hi (by decide)
  refine ⟨j2, m2, ?_⟩
  unfold condP
  rw [bind_ok tag_ok, bind_ok (markStart hb ident_endif.1)]
  exact bind_err ((alt_err (bind_err h1)).trans (bind_err h2))

mutual
theorem sem_doc (hs : Std env) : ∀ (loop : Bool) (d : Doc), d.Ok env.syn env.isLower loop → DocSem env loop d
  | loop, .text t, h => fun fuel s rest _ _ _ hr => text_read hs h (hr rfl)
  | loop, .comment w t, h => leaf_sem (comment_read hs h)
  | loop, .expr w e, h => leaf_sem (expr_read hs h)
  | loop, .call w scope name args named, h => leaf_sem (call_read hs h.1 h.2.1 h.2.2)
  | loop, .callBare w scope name, h => leaf_sem (callBare_read hs h.1 h.2)
  | loop, .let_ w set p val, h => leaf_sem (let_read hs h.1 h.2)
  | loop, .if_ w c body more fin, h =>
    if_read hs h.1 (sem_docs hs loop body h.2.1) (sem_branches hs loop more h.2.2) fun _ => branch_stops
  | loop, .for_ w p iter cond body els fin, h =>
    for_read hs h.1 h.2.1 h.2.2.1 (sem_docs hs true body h.2.2.2.1) (sem_else hs loop els h.2.2.2.2)
  | loop, .match_ w e gap arms els fin, h =>
    match_read hs h.1 h.2.1 h.2.2.1 (sem_arms hs loop arms h.2.2.2.1) (sem_else hs loop els h.2.2.2.2)
  | loop, .extends_ w path, h => leaf_sem (extends_read hs h.1 h.2)
  | loop, .include_ w path, h => leaf_sem (include_read hs h)
  | loop, .import_ w path scope, h => leaf_sem (import_read hs h.1 h.2)
  | loop, .block w name body again fin, h => block_read hs h.1 (sem_docs hs loop body h.2)
  | loop, .macro w name params body again fin, h => macro_read hs h.1 h.2.1 h.2.2.1 (sem_docs hs loop body h.2.2.2)
  | loop, .filter w f fs body fin, h => filter_read hs h.1 h.2.1 (sem_docs hs loop body h.2.2)
  | loop, .raw w t fin, h => leaf_sem (raw_read hs h (splitWsParts_eq t))
  | loop, .break_ w, h => fun _ _ _ _ hl hloop _ => (break_read hs (by simp only [Doc.need] at hl; omega) (hloop h)).1
  | loop, .continue_ w, h => fun _ _ _ _ hl hloop _ => (break_read hs (by simp only [Doc.need] at hl; omega) (hloop h)).2
theorem sem_docs (hs : Std env) : ∀ (loop : Bool) (ds : List Doc), Doc.Oks env.syn env.isLower loop ds → DocsSem env loop ds
  | loop, [], _ => fun fuel s rest hn _ _ hst => by
    obtain ⟨n, rfl⟩ : ∃ n, fuel = n + 1 := ⟨fuel - 1, by omega⟩
    obtain ⟨j, m, hj⟩ := stops_run (s := s) (tgt := target env nestFuel) (many := nodesP env n) hs hst
    exact many0_stop hj
  | loop, d :: ds, h => fun fuel s rest hn hl hloop hst => by
    have h1 := sem_doc hs loop d h.1
    have h2 := sem_docs hs loop ds h.2.2
    simp only [Doc.needs] at hn hl
    obtain ⟨n, rfl⟩ : ∃ n, fuel = n + 1 := ⟨fuel - 1, by omega⟩
    have hnext : d.isText = true → Doc.texts env.syn ds ++ rest = [] ∨ startsDelim env.syn.starts (Doc.texts env.syn ds ++ rest) := by
      intro ht
      cases ds with
      | nil => exact stops_delim hs hst
      | cons e es =>
        rw [Doc.texts, List.append_assoc]
        exact .inr (src_delim hs (h.2.1 ht e rfl) _).2
    have hne : d.src env.syn ≠ [] := by
      cases ht : d.isText with
      | false => exact (src_delim hs ht []).1
      | true =>
        cases d with
        | text t => exact h.1.1
        | _ => simp [Doc.isText] at ht
    have hlen : 0 < (d.src env.syn).length := List.length_pos_iff.2 hne
    rw [Doc.texts, List.append_assoc, Doc.nodes]
    show PT.many0 (nodeAlt env (target env nestFuel) (nodesP env n)) s _ = _
    refine many0_cons (h1 n s _ (by omega) (by omega) hloop hnext) (by simp only [List.length_append]; omega) ?_
    exact h2 (n + 1) s rest (by omega) (by omega) hloop hst
theorem sem_branches (hs : Std env) : ∀ (loop : Bool) (bs : List DocBranch), DocBranch.Oks env.syn env.isLower loop bs → BranchesSem env loop bs
  | loop, [], _ => fun fuel s rest _ _ _ hr => by
    obtain ⟨j, m, hj⟩ := condP_stop (s := s) (many := nodesP env fuel) hs hr
    exact many0_stop hj
  | loop, .elseIf short w c body :: bs, h => fun fuel s rest hn hl hloop hr => by
    have h1 := sem_docs hs loop body h.1.2
    have h2 := sem_branches hs loop bs h.2
    simp only [DocBranch.needs] at hn hl
    rw [DocBranch.texts, List.append_assoc, DocBranch.nodes]
    refine many0_cons (branch_read hs (b := .elseIf short w c body) ⟨h.1.1, h1⟩ (by omega) (by omega) hloop (branch_stops hr)) ?_
      (h2 fuel s rest (by omega) (by omega) hloop hr)
    simp only [DocBranch.text, tagText, List.length_append, List.length_cons]
    have := List.length_pos_iff.2 (start_ne (syn := env.syn)).1
    omega
  | loop, .else_ w body :: bs, h => fun fuel s rest hn hl hloop hr => by
    have h1 := sem_docs hs loop body h.1
    have h2 := sem_branches hs loop bs h.2
    simp only [DocBranch.needs] at hn hl
    rw [DocBranch.texts, List.append_assoc, DocBranch.nodes]
    refine many0_cons (branch_read hs (b := .else_ w body) h1 (by omega) (by omega) hloop (branch_stops hr)) ?_
      (h2 fuel s rest (by omega) (by omega) hloop hr)
    simp only [DocBranch.text, tagText, List.length_append, List.length_cons]
    omega
theorem sem_arms (hs : Std env) : ∀ (loop : Bool) (as : List DocArm), DocArm.Oks env.syn env.isLower loop as → ArmsSem env loop as
  | loop, [], _ => fun fuel s rest _ _ _ hr => by
    obtain ⟨j, m, hj⟩ := whenP_stop (s := s) (many := nodesP env fuel) hs hr
    exact ⟨many0_stop hj, fun h => absurd rfl h⟩
  | loop, .mk w p body :: as, h => fun fuel s rest hn hl hloop hr => by
    have h1 := sem_docs hs loop body h.1.2
    have h2 := sem_arms hs loop as h.2
    simp only [DocArm.needs] at hn hl
    have h3 := (h2 fuel s rest (by omega) (by omega) hloop hr).1
    have h4 := arm_read (s := s) (w := w) (fuel := fuel) hs h.1.1 h1 (by omega) (by omega) hloop (arm_stops (as := as) hr)
    rw [DocArm.texts, List.append_assoc, DocArm.nodes]
    refine ⟨many0_cons h4 ?_ h3, fun _ => (bind_ok h4).trans (map_ok h3)⟩
    simp only [DocArm.text, tagText, List.length_append, List.length_cons]
    omega
theorem sem_else (hs : Std env) : ∀ (loop : Bool) (e : Else), e.Ok env.syn env.isLower loop → ElseSem env loop e
  | _, .none, _ => trivial
  | loop, .some _ body, h => sem_docs hs loop body h
end

/-- Whole templates. -/
theorem doc_read {syn : Syntax} (hs : Usable syn) (isLower : Char → Bool) (ds : List Doc) (hok : Doc.Oks syn isLower false ds)
    (hd : Doc.needs ds ≤ maxDepth) : parseTemplate ⟨syn, isLower⟩ (Doc.texts syn ds) = .ok (Doc.nodes syn ds) := by
  have h := sem_docs (env := ⟨syn, isLower⟩) hs false ds hok nestFuel ⟨0, 0⟩ [] (by unfold nestFuel; omega) (by simpa using hd)
    (by simp) (.inl rfl)
  rw [List.append_nil] at h
  unfold parseTemplate
  rw [bind_ok h]
  rfl

end Askama
