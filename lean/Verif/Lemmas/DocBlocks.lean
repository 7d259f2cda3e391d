import Verif.Lemmas.DocText

/-!
# Tags with pieces inside are read as they are written (C66)
-/

namespace Askama

open Spec PT Props

/-! ### What is to be shown -/

/-- A piece is read. -/
def DocSem (env : PEnv) (loop : Bool) (d : Doc) : Prop := ∀ (fuel : Nat) (s : PState) (rest : Str),
  d.need ≤ fuel → s.level + d.need ≤ maxDepth → (loop = true → s.loopDepth ≠ 0) →
  (d.isText = true → rest = [] ∨ startsDelim env.syn.starts rest) →
  nodeAlt env (target env nestFuel) (nodesP env fuel) s (d.src env.syn ++ rest) = (.ok rest (d.node env.syn), s)

/-- A list of pieces is read. -/
def DocsSem (env : PEnv) (loop : Bool) (ds : List Doc) : Prop := ∀ (fuel : Nat) (s : PState) (rest : Str),
  Doc.needs ds + 1 ≤ fuel → s.level + Doc.needs ds ≤ maxDepth → (loop = true → s.loopDepth ≠ 0) → Stops env.syn rest →
  nodesP env fuel s (Doc.texts env.syn ds ++ rest) = (.ok rest (Doc.nodes env.syn ds), s)

/-- A tag that starts with this word follows. -/
def TagOf (syn : Syntax) (word r : Str) : Prop := ∃ m b i, r = syn.blockStart ++ (mark m ++ (b ++ (word ++ i))) ∧ Blank b ∧ NoIdent i

/-- The branches of an `if` are read. -/
def BranchesSem (env : PEnv) (loop : Bool) (bs : List DocBranch) : Prop := ∀ (fuel : Nat) (s : PState) (rest : Str),
  DocBranch.needs bs + 1 ≤ fuel → s.level + DocBranch.needs bs ≤ maxDepth → (loop = true → s.loopDepth ≠ 0) →
  TagOf env.syn c!"endif" rest →
  PT.many0 (condP env (target env nestFuel) (nodesP env fuel)) s (DocBranch.texts env.syn bs ++ rest) =
    (.ok rest (DocBranch.nodes env.syn bs), s)

/-- The arms of a `match` are read. -/
def ArmsSem (env : PEnv) (loop : Bool) (as : List DocArm) : Prop := ∀ (fuel : Nat) (s : PState) (rest : Str),
  DocArm.needs as + 1 ≤ fuel → s.level + DocArm.needs as ≤ maxDepth → (loop = true → s.loopDepth ≠ 0) →
  TagOf env.syn c!"endmatch" rest ∨ TagOf env.syn c!"else" rest →
  PT.many0 (whenP env (target env nestFuel) (nodesP env fuel)) s (DocArm.texts env.syn as ++ rest) =
    (.ok rest (DocArm.nodes env.syn as), s) ∧
  (as ≠ [] → PT.many1 (whenP env (target env nestFuel) (nodesP env fuel)) s (DocArm.texts env.syn as ++ rest) =
    (.ok rest (DocArm.nodes env.syn as), s))

/-- The body of an `else` is read. -/
def ElseSem (env : PEnv) (loop : Bool) : Else → Prop
  | .none => True
  | .some _ body => DocsSem env loop body

variable {env : PEnv} {s : PState} {loop : Bool}

theorem tagOf_text {syn : Syntax} {w : Lay} {word i rest : Str} (h : NoIdent (i ++ tagEnd syn w rest)) : TagOf syn word (tagText syn w (word ++ i) ++ rest) :=
  ⟨w.l, w.g.gap 1, i ++ tagEnd syn w rest, by rw [tagText_eq]; simp, gapB, h⟩

theorem tagOf_word {syn : Syntax} [Usable syn] {w : Lay} {word rest : Str} : TagOf syn word (tagText syn w word ++ rest) :=
  ⟨w.l, w.g.gap 1, tagEnd syn w rest, by rw [tagText_eq], gapB, tagEnd_noIdent⟩

theorem TagOf.stops {word r : Str} (h : TagOf env.syn word r) (h1 : IsIdent word) (h2 : word ∉ tagWords) : Stops env.syn r := by
  obtain ⟨m, b, i, rfl, hb, hi⟩ := h
  exact .inr ⟨m, b, word, i, rfl, hb, h1, hi, h2⟩

theorem ident_else : IsIdent c!"else" ∧ c!"else" ∉ tagWords := ⟨⟨by simp, by decide, by decide⟩, by decide⟩
theorem ident_elif : IsIdent c!"elif" ∧ c!"elif" ∉ tagWords := ⟨⟨by simp, by decide, by decide⟩, by decide⟩
theorem ident_endif : IsIdent c!"endif" ∧ c!"endif" ∉ tagWords := ⟨⟨by simp, by decide, by decide⟩, by decide⟩
theorem ident_endfor : IsIdent c!"endfor" ∧ c!"endfor" ∉ tagWords := ⟨⟨by simp, by decide, by decide⟩, by decide⟩
theorem ident_when : IsIdent c!"when" ∧ c!"when" ∉ tagWords := ⟨⟨by simp, by decide, by decide⟩, by decide⟩
theorem ident_endmatch : IsIdent c!"endmatch" ∧ c!"endmatch" ∉ tagWords := ⟨⟨by simp, by decide, by decide⟩, by decide⟩
theorem ident_endblock : IsIdent c!"endblock" ∧ c!"endblock" ∉ tagWords := ⟨⟨by simp, by decide, by decide⟩, by decide⟩
theorem ident_endmacro : IsIdent c!"endmacro" ∧ c!"endmacro" ∉ tagWords := ⟨⟨by simp, by decide, by decide⟩, by decide⟩
theorem ident_endfilter : IsIdent c!"endfilter" ∧ c!"endfilter" ∉ tagWords := ⟨⟨by simp, by decide, by decide⟩, by decide⟩

/-- The end of a block. -/
theorem endTag_ok (hs : Std env) {word rest : Str} {w : Lay} (h : IsIdent word) :
    endTag env word s (tagText env.syn w word ++ rest) = (.ok (mark w.r ++ (env.syn.blockEnd ++ rest)) w.l, s) := by
  rw [tagText_eq]
  unfold endTag
  rw [bind_ok tag_ok, bind_ok (markStart gapB h), bind_ok (kwEnd gapB h)]
  rfl

/-- ... with more words in the tag. -/
theorem endTag_more (hs : Std env) {word rest b : Str} {m : Option Wsp} {g : Gaps} [GapsOk g] {k : Nat} (hb : Blank b) (h : IsIdent word)
    (hr : NoWs rest) :
    endTag env word s (env.syn.blockStart ++ (mark m ++ (b ++ (word ++ (sep (g.gap k) ++ rest))))) = (.ok rest m, s) := by
  unfold endTag
  rw [bind_ok tag_ok, bind_ok (markStart hb h), bind_ok (kwSp hb h hr)]
  rfl

theorem endTag_no (hs : Std env) {word word' r : Str} (h : TagOf env.syn word' r) (h' : IsIdent word') (hne : word' ≠ word) :
    ∃ j m, endTag env word s r = (.err false j m, s) := by
  obtain ⟨m, b, i, rfl, hb, hi⟩ := h
  obtain ⟨j, m', hj⟩ := kwOther (s := s) (k := word) hb h' hi hne
  refine ⟨j, m', ?_⟩
  unfold endTag
  rw [bind_ok tag_ok, bind_ok (markStart hb h'), bind_err hj]

/-! ### `if` -/

theorem test_noWs {g : Gaps} [GapsOk g] {c : DocTest} (h : c.Ok env.isLower) (r : Str) : NoWs (c.write g ++ r) := by
  cases c with
  | plain e => exact tm_noWs h.1 r
  | bind set p e => cases set <;> exact noWs_cons (by decide)

theorem ident_if : IsIdent c!"if" := ⟨by simp, by decide, by decide⟩

/-- `if` and a condition. -/
theorem condTest_read [hs : Usable env.syn] {g g' : Gaps} [GapsOk g] [GapsOk g'] {k : Nat} {b : Str} (hb : Blank b) {c : DocTest} (h : c.Ok env.isLower)
    (hl : s.level + c.need ≤ maxDepth) {w : Lay} {r : Str} :
    condTest env (target env nestFuel) s (b ++ (c!"if" ++ (sep (g'.gap k) ++ (c.write g ++ tagEnd env.syn w r)))) =
      (.ok (mark w.r ++ (env.syn.blockEnd ++ r)) c.tree, s) := by
  unfold condTest
  rw [bind_ok (kwSp hb ident_if (test_noWs h _))]
  exact cut_ok (cond_read h hl)

theorem if_read {w fin : Lay} {c : DocTest} {body : List Doc} {more : List DocBranch} (hs : Std env) (h1 : c.Ok env.isLower)
    (h2 : DocsSem env loop body) (h3 : BranchesSem env loop more)
    (hst : ∀ rest, TagOf env.syn c!"endif" rest → Stops env.syn (DocBranch.texts env.syn more ++ rest)) :
    DocSem env loop (.if_ w c body more fin) := by
  intro fuel s rest hn hl hloop _
  simp only [Doc.need] at hn hl
  have hsrc : (Doc.if_ w c body more fin).src env.syn ++ rest = env.syn.blockStart ++ (mark w.l ++ (w.g.gap 1 ++ (c!"if" ++ (sep (w.g.gap 5) ++ (c.write (w.g.sub 0) ++
      tagEnd env.syn w (Doc.texts env.syn body ++ (DocBranch.texts env.syn more ++ (tagText env.syn fin c!"endif" ++ rest)))))))) := by
    rw [Doc.src, List.append_assoc, List.append_assoc, List.append_assoc, tagText_eq]
    simp
  rw [hsrc]
  refine node_tag hs gapB ident_if sp_noIdent rfl (by omega) ?_
  generalize hs' : ({ s with level := s.level + 1 } : PState) = s'
  have hlev : s'.level = s.level + 1 := by rw [← hs']
  have hlp : loop = true → s'.loopDepth ≠ 0 := by rw [← hs']; exact hloop
  unfold ifP
  rw [bind_ok (markStart gapB ident_if), bind_ok (condTest_read gapB h1 (by omega))]
  refine cut_ok ?_
  rw [bind_ok markClose, bind_ok tag_ok]
  refine cut_ok ?_
  rw [bind_ok (h2 fuel s' _ (by omega) (by omega) hlp (hst _ tagOf_word)),
    bind_ok (h3 fuel s' _ (by omega) (by omega) hlp tagOf_word)]
  refine cut_ok ?_
  rw [bind_ok (endTag_ok hs ident_endif.1), bind_ok markClose]
  rfl

theorem branch_read {b : DocBranch} {fuel : Nat} {rest : Str} (hs : Std env)
    (hb : match b with
      | .elseIf _ _ c body => c.Ok env.isLower ∧ DocsSem env loop body
      | .else_ _ body => DocsSem env loop body)
    (hn : b.need + 1 ≤ fuel) (hl : s.level + b.need ≤ maxDepth) (hloop : loop = true → s.loopDepth ≠ 0) (hst : Stops env.syn rest) :
    condP env (target env nestFuel) (nodesP env fuel) s (b.text env.syn ++ rest) = (.ok rest (b.node env.syn), s) := by
  unfold condP
  cases b with
  | elseIf short w c body =>
    obtain ⟨h1, h2⟩ := hb
    simp only [DocBranch.need] at hn hl
    cases short with
    | false =>
      have hsrc : (DocBranch.elseIf false w c body).text env.syn ++ rest = env.syn.blockStart ++ (mark w.l ++ (w.g.gap 1 ++ (c!"else" ++ (sep (w.g.gap 7) ++
          (c!"if" ++ (sep (w.g.gap 5) ++ (c.write (w.g.sub 0) ++ tagEnd env.syn w (Doc.texts env.syn body ++ rest)))))))) := by
        rw [DocBranch.text, List.append_assoc, tagText_eq]
        simp
      rw [hsrc, bind_ok tag_ok, bind_ok (markStart gapB ident_else.1)]
      rw [bind_ok (alt_ok ?_)]
      rotate_left 4
      · rw [bind_ok (kwSp gapB ident_else.1 (noWs_ident ident_if))]
        exact opt_ok (condTest_read (b := []) blank_nil h1 (by omega))
      rw [bind_ok markClose, bind_ok (cut_ok tag_ok), bind_ok (cut_ok (h2 fuel s _ (by omega) (by omega) hloop hst))]
      rfl
    | true =>
      have hsrc : (DocBranch.elseIf true w c body).text env.syn ++ rest = env.syn.blockStart ++ (mark w.l ++ (w.g.gap 1 ++ (c!"elif" ++ (sep (w.g.gap 5) ++
          (c.write (w.g.sub 0) ++ tagEnd env.syn w (Doc.texts env.syn body ++ rest)))))) := by
        rw [DocBranch.text, List.append_assoc, tagText_eq]
        simp
      rw [hsrc, bind_ok tag_ok, bind_ok (markStart gapB ident_elif.1)]
      obtain ⟨j, m, hj⟩ := kwOther (s := s) (k := c!"else") (r := sep (w.g.gap 5) ++ (c.write (w.g.sub 0) ++ tagEnd env.syn w (Doc.texts env.syn body ++ rest)))
        (gapB (g := w.g) (k := 1)) ident_elif.1 sp_noIdent (by decide)
      have halt : (PT.alt
          (do let _ ← ws (kw c!"else"); opt (condTest env (target env nestFuel)))
          (do let _ ← ws (kw c!"elif"); cut ((parseCond env (target env nestFuel)).map some)) : SP (Option CondTest)) s
          (w.g.gap 1 ++ (c!"elif" ++ (sep (w.g.gap 5) ++ (c.write (w.g.sub 0) ++ tagEnd env.syn w (Doc.texts env.syn body ++ rest))))) =
          (.ok (mark w.r ++ (env.syn.blockEnd ++ (Doc.texts env.syn body ++ rest))) (some c.tree), s) := by
        rw [alt_err (bind_err hj), bind_ok (kwSp gapB ident_elif.1 (test_noWs h1 _))]
        exact cut_ok (map_ok (cond_read h1 (by omega)))
      rw [bind_ok halt, bind_ok markClose, bind_ok (cut_ok tag_ok),
        bind_ok (cut_ok (h2 fuel s _ (by omega) (by omega) hloop hst))]
      rfl
  | else_ w body =>
    simp only [DocBranch.need] at hn hl
    have hsrc : (DocBranch.else_ w body).text env.syn ++ rest = env.syn.blockStart ++ (mark w.l ++ (w.g.gap 1 ++ (c!"else" ++
        tagEnd env.syn w (Doc.texts env.syn body ++ rest)))) := by
      rw [DocBranch.text, List.append_assoc, tagText_eq]
    rw [hsrc, bind_ok tag_ok, bind_ok (markStart gapB ident_else.1)]
    obtain ⟨j, m, hj⟩ := kwClose (syn := env.syn) (s := s) (k := c!"if") (m := w.r) (r := Doc.texts env.syn body ++ rest) (by simp)
    have halt : (PT.alt
        (do let _ ← ws (kw c!"else"); opt (condTest env (target env nestFuel)))
        (do let _ ← ws (kw c!"elif"); cut ((parseCond env (target env nestFuel)).map some)) : SP (Option CondTest)) s
        (w.g.gap 1 ++ (c!"else" ++ tagEnd env.syn w (Doc.texts env.syn body ++ rest))) =
        (.ok (mark w.r ++ (env.syn.blockEnd ++ (Doc.texts env.syn body ++ rest))) none, s) := by
      refine alt_ok ?_
      rw [bind_ok (kwEnd gapB ident_else.1)]
      exact opt_err (bind_err hj)
    rw [bind_ok halt, bind_ok markClose, bind_ok (cut_ok tag_ok),
      bind_ok (cut_ok (hb fuel s _ (by omega) (by omega) hloop hst))]
    rfl

/-! ### `for` -/

theorem loopContent_read {body : List Doc} {fuel : Nat} {rest : Str} (h : DocsSem env true body)
    (hn : Doc.needs body + 1 ≤ fuel) (hl : s.level + Doc.needs body ≤ maxDepth) (hst : Stops env.syn rest) :
    loopContent (nodesP env fuel) s (Doc.texts env.syn body ++ rest) = (.ok rest (Doc.nodes env.syn body), s) := by
  unfold loopContent
  rw [h fuel { s with loopDepth := s.loopDepth + 1 } rest hn hl (fun _ => by simp) hst]
  rfl

theorem ident_for : IsIdent c!"for" := ⟨by simp, by decide, by decide⟩
theorem ident_in : IsIdent c!"in" := ⟨by simp, by decide, by decide⟩

/-- The text of the condition of a loop. -/
def condSrc (g : Gaps) : Option Tm → Str
  | some e => sep (g.gap 11) ++ (c!"if" ++ (sep (g.gap 13) ++ e.write (g.sub 2)))
  | none => []

theorem for_read {w fin : Lay} {p : Pt} {iter : Tm} {cond : Option Tm} {body : List Doc} {els : Else} (hs : Std env)
    (h1 : p.Ok env.isLower) (h2 : iter.Ok env.isLower)
    (h3 : ∀ e, cond = some e → e.Ok env.isLower ∧ iter.endsOpen = false)
    (h4 : DocsSem env true body) (h5 : ElseSem env loop els) : DocSem env loop (.for_ w p iter cond body els fin) := by
  intro fuel s rest hn hl hloop _
  simp only [Doc.need] at hn hl
  have hsrc : (Doc.for_ w p iter cond body els fin).src env.syn ++ rest = env.syn.blockStart ++ (mark w.l ++ (w.g.gap 1 ++ (c!"for" ++ (sep (w.g.gap 5) ++ (p.write (w.g.sub 0) ++
      (sep (w.g.gap 7) ++ (c!"in" ++ (sep (w.g.gap 9) ++ (iter.write (w.g.sub 1) ++ (condSrc w.g cond ++
      tagEnd env.syn w (Doc.texts env.syn body ++ (els.src env.syn ++ (tagText env.syn fin c!"endfor" ++ rest))))))))))))) := by
    cases cond <;> simp [Doc.src, tagText, tagEnd, condSrc, forText]
  rw [hsrc]
  refine node_tag hs gapB ident_for sp_noIdent rfl (by omega) ?_
  generalize hs' : ({ s with level := s.level + 1 } : PState) = s'
  have hlev : s'.level = s.level + 1 := by rw [← hs']
  have hlp : loop = true → s'.loopDepth ≠ 0 := by rw [← hs']; exact hloop
  unfold loopP
  generalize hR : Doc.texts env.syn body ++ (els.src env.syn ++ (tagText env.syn fin c!"endfor" ++ rest)) = R
  rw [bind_ok (markStart gapB ident_for), bind_ok (kwSp gapB ident_for (pt_noWs h1 _))]
  refine cut_ok ?_
  rw [bind_ok (wsTarget h1 (by omega) in_ptEnd in_drop),
    bind_ok (kwSp' ident_in (tm_noWs h2 _))]
  refine cut_ok ?_
  -- the iterated expression and the condition
  have hcond : ∃ r1, ws (exprHere env) s' (iter.write (w.g.sub 1) ++ (condSrc w.g cond ++ tagEnd env.syn w R)) = (.ok r1 iter.tree, s') ∧
      (PT.opt (do let _ ← ws (kw c!"if"); cut (ws (exprHere env))) : SP (Option Expr)) s' r1 =
        (.ok (mark w.r ++ (env.syn.blockEnd ++ R)) (cond.map Tm.tree), s') := by
    cases cond with
    | none =>
      obtain ⟨j, m, hj⟩ := kwClose (syn := env.syn) (s := s') (k := c!"if") (m := w.r) (r := R) (by simp)
      exact ⟨_, wsExpr h2 (by omega) (r := [] ++ tagEnd env.syn w R) tagEnd_ending tagEnd_drop, opt_err (bind_err hj)⟩
    | some e =>
      obtain ⟨h3, ho⟩ := h3 e rfl
      simp only [optNeed] at hl
      have he : condSrc w.g (some e) ++ tagEnd env.syn w R =
          sep (w.g.gap 11) ++ (c!"if" ++ (sep (w.g.gap 13) ++ (e.write (w.g.sub 2) ++ tagEnd env.syn w R))) := by simp [condSrc]
      rw [he]
      refine ⟨c!"if" ++ (sep (w.g.gap 13) ++ (e.write (w.g.sub 2) ++ tagEnd env.syn w R)), ?_, opt_ok ?_⟩
      · exact wsExpr_word h2 ho (by omega) ⟨sep (w.g.gap 11), 'i', _, rfl, sepB, (sep_blank gapB).2, by decide⟩
          (gap_drop sepB (noWs_cons (by decide)))
      · rw [bind_ok (kwSp' ident_if (tm_noWs h3 _))]
        exact cut_ok (wsExpr h3 (by omega) tagEnd_ending tagEnd_drop)
  obtain ⟨r1, hi1, hi2⟩ := hcond
  rw [bind_ok hi1, bind_ok hi2]
  rw [bind_ok markClose, bind_ok tag_ok]
  refine cut_ok ?_
  subst hR
  cases els with
  | none =>
    have hst : Stops env.syn (Else.none.src env.syn ++ (tagText env.syn fin c!"endfor" ++ rest)) := tagOf_word.stops ident_endfor.1 ident_endfor.2
    rw [bind_ok (loopContent_read h4 (by omega) (by omega) hst)]
    refine cut_ok ?_
    rw [show Else.none.src env.syn ++ (tagText env.syn fin c!"endfor" ++ rest) = tagText env.syn fin c!"endfor" ++ rest from rfl, tagText_eq,
      bind_ok tag_ok, bind_ok (markStart gapB ident_endfor.1)]
    obtain ⟨j, m, hj⟩ := kwOther (s := s') (k := c!"else") (r := tagEnd env.syn fin rest) (gapB (g := fin.g) (k := 1)) ident_endfor.1 tagEnd_noIdent (by decide)
    have helse : PT.opt (loopElse env (nodesP env fuel)) s' (fin.g.gap 1 ++ (c!"endfor" ++ tagEnd env.syn fin rest)) =
        (.ok (fin.g.gap 1 ++ (c!"endfor" ++ tagEnd env.syn fin rest)) none, s') := by
      refine opt_err (j := j) (m := m) ?_
      unfold loopElse
      exact bind_err hj
    rw [bind_ok helse, bind_ok (kwEnd gapB ident_endfor.1), bind_ok markClose]
    rfl
  | some w' eb =>
    simp only [Else.need] at hn hl
    have hsrc' : (Else.some w' eb).src env.syn ++ (tagText env.syn fin c!"endfor" ++ rest) =
        tagText env.syn w' c!"else" ++ (Doc.texts env.syn eb ++ (tagText env.syn fin c!"endfor" ++ rest)) := by rw [Else.src, List.append_assoc]
    rw [hsrc']
    have hst : Stops env.syn (tagText env.syn w' c!"else" ++ (Doc.texts env.syn eb ++ (tagText env.syn fin c!"endfor" ++ rest))) :=
      tagOf_word.stops ident_else.1 ident_else.2
    rw [bind_ok (loopContent_read h4 (by omega) (by omega) hst)]
    refine cut_ok ?_
    rw [tagText_eq w', bind_ok tag_ok, bind_ok (markStart gapB ident_else.1)]
    have helse : PT.opt (loopElse env (nodesP env fuel)) s'
        (w'.g.gap 1 ++ (c!"else" ++ tagEnd env.syn w' (Doc.texts env.syn eb ++ (tagText env.syn fin c!"endfor" ++ rest)))) =
        (.ok (fin.g.gap 1 ++ (c!"endfor" ++ tagEnd env.syn fin rest)) (some (w'.r, Doc.nodes env.syn eb, fin.l)), s') := by
      refine opt_ok ?_
      unfold loopElse
      rw [bind_ok (kwEnd gapB ident_else.1)]
      refine cut_ok ?_
      rw [bind_ok markClose, bind_ok tag_ok,
        bind_ok (h5 fuel s' _ (by omega) (by omega) hlp (tagOf_word.stops ident_endfor.1 ident_endfor.2)), tagText_eq,
        bind_ok tag_ok, bind_ok (markStart gapB ident_endfor.1)]
      rfl
    rw [bind_ok helse, bind_ok (kwEnd gapB ident_endfor.1), bind_ok markClose]
    rfl

end Askama
