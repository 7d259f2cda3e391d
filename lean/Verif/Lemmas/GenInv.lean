import Verif.Lemmas.GenOut

/-! The steps of the generator one by one: what a successful run consists of. -/

namespace Askama

open Askama.Spec

namespace Gen

theorem openLine_eq (g : Gen) : ∃ k, g.openLine = { g with indent := k } := by
  unfold openLine
  split
  · exact ⟨g.indent, rfl⟩
  · exact ⟨_, rfl⟩

theorem dedent_eq {g g' : Gen} (h : g.dedent = .ok g') : ∃ k, g' = { g with indent := k } := by
  unfold dedent at h
  split at h
  · cases h
  · cases h; exact ⟨_, rfl⟩

theorem closeLine_eq {g g' : Gen} (h : g.closeLine = .ok g') : ∃ k, g' = { g with indent := k } := by
  unfold closeLine at h
  split at h
  · cases h; exact ⟨g.indent, rfl⟩
  · exact dedent_eq h

theorem dedentUnless_eq {g g' : Gen} {b : Bool} (h : dedentUnless b g = .ok g') : ∃ k, g' = { g with indent := k } := by
  unfold dedentUnless at h
  split at h
  · cases h; exact ⟨g.indent, rfl⟩
  · exact dedent_eq h

variable {I : GenInput} {rec : Handler} {H : Option Heritage} {ctx : Ctx}

theorem writeIf_inv {g g' : Gen} {ws : Ws} {branches : List Cond} {code : List Stmt}
    (h : writeIf rec I H ctx g ws branches = .ok (code, g')) :
    ∃ ws1 c ns rest pre g1 bs g2 g3, branches = .mk ws1 c ns :: rest
      ∧ writeBuf I (handleWs I g ws1) = .ok (pre, g1)
      ∧ ifBranches rec I H ctx ws true branches g1 = .ok (bs, g2)
      ∧ g2.closeLine = .ok g3
      ∧ code = pre ++ (if g3.discard then branchBodies bs else [.if_ bs])
      ∧ g' = { g3 with locals := g3.locals.pop } := by
  unfold writeIf at h
  split at h
  · cases h
  · rename_i ws1 c ns rest
    obtain ⟨⟨pre, g1⟩, h1, h⟩ := except_bind h
    obtain ⟨⟨bs, g2⟩, h2, h⟩ := except_bind h
    obtain ⟨g3, h3, h⟩ := except_bind h
    simp only [pure, Except.pure, Except.ok.injEq, Prod.mk.injEq] at h
    exact ⟨ws1, c, ns, rest, pre, g1, bs, g2, g3, rfl, h1, h2, h3, h.1.symm, h.2.symm⟩

/-- The whitespace after a branch. -/
def condEnd (rest : List Cond) (wsEnd : Ws) : Ws :=
  match rest with
  | [] => wsEnd
  | .mk ws' _ _ :: _ => ws'

theorem ifBranches_inv {g g' : Gen} {wsEnd w : Ws} {first : Bool} {cond : Option CondTest} {nodes : List Node}
    {rest : List Cond} {bs : List Branch}
    (h : ifBranches rec I H ctx wsEnd first (.mk w cond nodes :: rest) g = .ok (bs, g')) :
    ∃ g1 c g2 body g3 fl g4, dedentUnless first { g with locals := g.locals.push } = .ok g1
      ∧ branchCond I g1 cond = .ok (c, g2)
      ∧ rec H ctx nodes .nested g2.openLine = .ok (body, g3)
      ∧ writeBuf I (handleWs I g3 (condEnd rest wsEnd)) = .ok (fl, g4)
      ∧ ((rest = [] ∧ bs = [.mk c (body ++ fl)] ∧ g' = g4)
        ∨ ∃ bs', rest ≠ [] ∧ ifBranches rec I H ctx wsEnd false rest { g4 with locals := g4.locals.pop } = .ok (bs', g')
            ∧ bs = .mk c (body ++ fl) :: bs') := by
  unfold ifBranches at h
  obtain ⟨g1, h1, h⟩ := except_bind h
  obtain ⟨⟨c, g2⟩, h2, h⟩ := except_bind h
  obtain ⟨⟨body, g3⟩, h3, h⟩ := except_bind h
  cases rest with
  | nil =>
    obtain ⟨⟨fl, g4⟩, h4, h⟩ := except_bind h
    simp only [pure, Except.pure, Except.ok.injEq, Prod.mk.injEq] at h
    exact ⟨g1, c, g2, body, g3, fl, g4, h1, h2, h3, h4, .inl ⟨rfl, h.1.symm, h.2.symm⟩⟩
  | cons c2 rest2 =>
    obtain ⟨w2, cond2, nodes2⟩ := c2
    obtain ⟨⟨fl, g4⟩, h4, h⟩ := except_bind h
    obtain ⟨⟨bs', g5⟩, h5, h⟩ := except_bind h
    simp only [pure, Except.pure, Except.ok.injEq, Prod.mk.injEq] at h
    refine ⟨g1, c, g2, body, g3, fl, g4, h1, h2, h3, h4, .inr ⟨bs', by simp, ?_, h.1.symm⟩⟩
    rw [← h.2]; exact h5

theorem writeMatch_inv {g g' : Gen} {ws1 ws2 : Ws} {e : Expr} {arms : List When} {code : List Stmt}
    (h : writeMatch rec I H ctx g ws1 e arms ws2 = .ok (code, g')) :
    ∃ ws t ns rest pre g1 r w as g2 g3, arms = .mk ws t ns :: rest
      ∧ writeBuf I (flushWs I g ws1) = .ok (pre, g1)
      ∧ visitExpr I g1.locals e = .ok (r, w)
      ∧ matchArms rec I H ctx ws2 arms (handleWs I g1.openLine ws) = .ok (as, g2)
      ∧ g2.closeLine = .ok g3
      ∧ code = pre ++ (if g3.discard then armBodies as else [.match_ r as])
      ∧ g' = g3 := by
  unfold writeMatch at h
  split at h
  · cases h
  · rename_i ws t ns rest
    obtain ⟨⟨pre, g1⟩, h1, h⟩ := except_bind h
    obtain ⟨⟨r, w⟩, h2, h⟩ := except_bind h
    obtain ⟨⟨as, g2⟩, h3, h⟩ := except_bind h
    obtain ⟨g3, h4, h⟩ := except_bind h
    simp only [pure, Except.pure, Except.ok.injEq, Prod.mk.injEq] at h
    exact ⟨ws, t, ns, rest, pre, g1, r, w, as, g2, g3, rfl, h1, h2, h3, h4, h.1.symm, h.2.symm⟩

/-- The whitespace after an arm. -/
def whenEnd (rest : List When) (wsEnd : Ws) : Ws :=
  match rest with
  | [] => wsEnd
  | .mk ws' _ _ :: _ => ws'

theorem matchArms_inv {g g' : Gen} {ws2 w : Ws} {t : Target} {nodes : List Node} {rest : List When} {as : List Arm}
    (h : matchArms rec I H ctx ws2 (.mk w t nodes :: rest) g = .ok (as, g')) :
    ∃ body g1 fl g2 g3 as', rec H ctx nodes .nested (declare { g with locals := g.locals.push } t true).openLine
        = .ok (body, g1)
      ∧ writeBuf I (handleWs I g1 (whenEnd rest ws2)) = .ok (fl, g2)
      ∧ g2.closeLine = .ok g3
      ∧ matchArms rec I H ctx ws2 rest { g3 with locals := g3.locals.pop } = .ok (as', g')
      ∧ as = .mk t (body ++ fl) :: as' := by
  unfold matchArms at h
  obtain ⟨⟨body, g1⟩, h1, h⟩ := except_bind h
  obtain ⟨⟨fl, g2⟩, h2, h⟩ := except_bind h
  obtain ⟨g3, h3, h⟩ := except_bind h
  obtain ⟨⟨as', g4⟩, h4, h⟩ := except_bind h
  simp only [pure, Except.pure, Except.ok.injEq, Prod.mk.injEq] at h
  refine ⟨body, g1, fl, g2, g3, as', h1, ?_, h3, ?_, h.1.symm⟩
  · unfold whenEnd; exact h2
  · rw [← h.2]; exact h4

theorem writeLoop_inv {g g' : Gen} {ws1 ws2 ws3 : Ws} {var : Target} {iter : Expr} {cond : Option Expr}
    {body elseNodes : List Node} {code : List Stmt}
    (h : writeLoop rec I H ctx g ws1 var iter cond body ws2 elseNodes ws3 = .ok (code, g')) :
    ∃ r w pre g1 filt b g2 fl g3 g4, 
      visitExpr I (MapChain.push (handleWs I g ws1).locals) iter = .ok (r, w)
      ∧ writeBuf I { handleWs I g ws1 with locals := (handleWs I g ws1).locals.push } = .ok (pre, g1)
      ∧ loopFilter I g1.openLine var cond = .ok filt
      ∧ rec H ctx body .nested (declare { g1.openLine with locals := g1.openLine.locals.push } var true).openLine
          = .ok (b, g2)
      ∧ writeBuf I (handleWs I g2 ws2) = .ok (fl, g3)
      ∧ closeLine { g3 with locals := g3.locals.pop } = .ok g4
      ∧ ((elseNodes ≠ [] ∧ ∃ eb g5 fl2 g6 g7 g8, 
            rec H ctx elseNodes .nested { g4.openLine with locals := g4.openLine.locals.push } = .ok (eb, g5)
            ∧ writeBuf I (handleWs I g5 ws3) = .ok (fl2, g6)
            ∧ closeLine { g6 with locals := g6.locals.pop } = .ok g7
            ∧ g7.closeLine = .ok g8
            ∧ code = pre ++ g8.wrap .block (g1.openLine.emit [.letDid, .letIter r] ++ filt
                ++ g4.wrap (.forIter var)
                    ((declare { g1.openLine with locals := g1.openLine.locals.push } var true).openLine.emit [.setDid]
                      ++ b ++ fl)
                ++ g7.wrap .ifNotDid (eb ++ fl2))
            ∧ g' = { g8 with locals := g8.locals.pop })
        ∨ (elseNodes = [] ∧ ∃ fl2 g6 g8, 
            writeBuf I (handleWs I g4 ws3) = .ok (fl2, g6)
            ∧ g6.closeLine = .ok g8
            ∧ code = pre ++ g8.wrap .block (g1.openLine.emit [.letIter r] ++ filt
                ++ g4.wrap (.forIter var)
                    ((declare { g1.openLine with locals := g1.openLine.locals.push } var true).openLine.emit []
                      ++ b ++ fl)
                ++ fl2)
            ∧ g' = { g8 with locals := g8.locals.pop })) := by
  unfold writeLoop at h
  obtain ⟨⟨r, w⟩, h1, h⟩ := except_bind h
  obtain ⟨⟨pre, g1⟩, h2, h⟩ := except_bind h
  obtain ⟨filt, h3, h⟩ := except_bind h
  obtain ⟨⟨b, g2⟩, h4, h⟩ := except_bind h
  obtain ⟨⟨fl, g3⟩, h5, h⟩ := except_bind h
  obtain ⟨g4, h6, h⟩ := except_bind h
  refine ⟨r, w, pre, g1, filt, b, g2, fl, g3, g4, h1, h2, h3, h4, h5, h6, ?_⟩
  cases he : elseNodes with
  | nil =>
    simp only [he, List.isEmpty_nil, Bool.not_true, Bool.false_eq_true, if_false] at h
    obtain ⟨⟨fl2, g6⟩, h7, h⟩ := except_bind h
    obtain ⟨g8, h8, h⟩ := except_bind h
    simp only [pure, Except.pure, Except.ok.injEq, Prod.mk.injEq] at h
    exact .inr ⟨rfl, fl2, g6, g8, h7, h8, h.1.symm, h.2.symm⟩
  | cons n ns =>
    simp only [he, List.isEmpty_cons, Bool.not_false, if_true] at h
    obtain ⟨⟨eb, g5⟩, h7, h⟩ := except_bind h
    obtain ⟨⟨fl2, g6⟩, h8, h⟩ := except_bind h
    obtain ⟨g7, h9, h⟩ := except_bind h
    obtain ⟨g8, h10, h⟩ := except_bind h
    simp only [pure, Except.pure, Except.ok.injEq, Prod.mk.injEq] at h
    exact .inl ⟨by simp, eb, g5, fl2, g6, g7, g8, h7, h8, h9, h10, h.1.symm, h.2.symm⟩

theorem writeCall_inv {g g' : Gen} {ws : Ws} {scope : Option Str} {name : Str} {args : List Expr} {code : List Stmt}
    (h : writeCall rec I H ctx g ws scope name args = .ok (code, g')) :
    ∃ d own pre g1 named ns rs L b g2 fl g3 g4, findMacro I ctx scope name = .ok (d, own)
      ∧ writeBuf I { flushWs I g ws with locals := (flushWs I g ws).locals.push } = .ok (pre, g1)
      ∧ args.length = d.args.length
      ∧ namedArgs d.args args.reverse = .ok named
      ∧ bindParams I named args d.args 0 true (prepareWs I g1.openLine d.ws1).locals = .ok (ns, rs, L)
      ∧ rec H own d.nodes .nested { prepareWs I g1.openLine d.ws1 with locals := L } = .ok (b, g2)
      ∧ writeBuf I (flushWs I g2 d.ws2) = .ok (fl, g3)
      ∧ g3.closeLine = .ok g4
      ∧ g' = prepareWs I { g4 with locals := g4.locals.pop } ws
      ∧ code = pre ++ g'.wrap .block ((prepareWs I g1.openLine d.ws1).emit (if ns.isEmpty then [] else [.letMany ns rs])
          ++ b ++ fl) := by
  unfold writeCall at h
  obtain ⟨⟨d, own⟩, h1, h⟩ := except_bind h
  obtain ⟨⟨pre, g1⟩, h2, h⟩ := except_bind h
  simp only at h
  split at h
  · cases h
  · rename_i hlen
    obtain ⟨named, h3, h⟩ := except_bind h
    obtain ⟨⟨ns, rs, L⟩, h4, h⟩ := except_bind h
    obtain ⟨⟨b, g2⟩, h5, h⟩ := except_bind h
    obtain ⟨⟨fl, g3⟩, h6, h⟩ := except_bind h
    obtain ⟨g4, h7, h⟩ := except_bind h
    simp only [pure, Except.pure, Except.ok.injEq, Prod.mk.injEq] at h
    refine ⟨d, own, pre, g1, named, ns, rs, L, b, g2, fl, g3, g4, h1, h2, by simpa using hlen, h3, h4, h5, h6, h7,
      h.2.symm, ?_⟩
    rw [← h.2]; exact h.1.symm

theorem writeFilterBlock_inv {g g' : Gen} {ws1 ws2 : Ws} {f : FilterApp} {nodes : List Node} {code : List Stmt}
    (h : writeFilterBlock rec I H ctx g ws1 f nodes ws2 = .ok (code, g')) :
    ∃ b g1 p g2, rec H ctx nodes .nested (prepareWs I { flushWs I g ws1 with pend := [] } ws1) = .ok (b, g1)
      ∧ prepareFormat I (flushWs I g1 ws2) = .ok (p, g2)
      ∧ ((p = .none ∧ code = b ∧ g' = g2)
        ∨ ∃ st r w, p ≠ .none
          ∧ st = (match p with
              | .plain s => Stmt.letStr (freeFilterVar (flushWs I g ws1).locals (localsSize (flushWs I g ws1).locals) 0) s
              | .formatted fmt args =>
                .letFmt (freeFilterVar (flushWs I g ws1).locals (localsSize (flushWs I g ws1).locals) 0) fmt args
              | .none => .brk)
          ∧ visitExpr I g2.locals (.filter f.name
              (insertFirst (freeFilterVar (flushWs I g ws1).locals (localsSize (flushWs I g ws1).locals) 0) f.args))
              = .ok (r, w)
          ∧ code = b ++ (prepareWs I (({ g2 with pend := (flushWs I g ws1).pend } : Gen).push (.generated r w)) ws2).emit
              [st]
          ∧ g' = { prepareWs I (({ g2 with pend := (flushWs I g ws1).pend } : Gen).push (.generated r w)) ws2 with
              locals := (prepareWs I (({ g2 with pend := (flushWs I g ws1).pend } : Gen).push (.generated r w)) ws2).locals.insert
                (freeFilterVar (flushWs I g ws1).locals (localsSize (flushWs I g ws1).locals) 0)
                { refs := none, initialized := true } }) := by
  unfold writeFilterBlock at h
  obtain ⟨⟨b, g1⟩, h1, h⟩ := except_bind h
  obtain ⟨⟨p, g2⟩, h2, h⟩ := except_bind h
  refine ⟨b, g1, p, g2, h1, h2, ?_⟩
  cases p with
  | none =>
    simp only [pure, Except.pure, Except.ok.injEq, Prod.mk.injEq] at h
    exact .inl ⟨rfl, h.1.symm, h.2.symm⟩
  | plain s =>
    obtain ⟨⟨r, w⟩, h3, h⟩ := except_bind h
    simp only [pure, Except.pure, Except.ok.injEq, Prod.mk.injEq] at h
    exact .inr ⟨_, r, w, by simp, rfl, h3, h.1.symm, h.2.symm⟩
  | formatted fmt args =>
    obtain ⟨⟨r, w⟩, h3, h⟩ := except_bind h
    simp only [pure, Except.pure, Except.ok.injEq, Prod.mk.injEq] at h
    exact .inr ⟨_, r, w, by simp, rfl, h3, h.1.symm, h.2.symm⟩

theorem writeBlock_inv {g g' : Gen} {name : Option Str} {outer : Ws} {code : List Stmt}
    (h : writeBlock rec I H ctx g name outer = .ok (code, g')) (hd : g.pdiscard = false)
    (hdd : g.discard = false) :
    ∃ cur pre g1 hh defs cctx d b g2 fl g3, currentBlock name g.superBlock = .ok cur
      ∧ writeBuf I (flushWs I g outer) = .ok (pre, g1)
      ∧ H = some hh ∧ assoc hh.blocks cur.1 = some defs ∧ defs[cur.2]? = some (cctx, d)
      ∧ rec H (mergeCtx cctx ctx) d.nodes .block
          { new I .empty g1.indent false with
            pend := [], pdiscard := false, skipWs := sideOf I d.ws1.r, superBlock := some cur } = .ok (b, g2)
      ∧ flushIf I (!g2.locals.isCurrentEmpty) g2 = .ok (fl, g3)
      ∧ code = pre ++ b ++ fl
      ∧ g' = { g1 with pend := (flushWs I g3 d.ws2).pend, pdiscard := (flushWs I g3 d.ws2).pdiscard,
                       indent := (flushWs I g3 d.ws2).indent, discard := false, skipWs := sideOf I outer.r } := by
  unfold writeBlock at h
  obtain ⟨cur, h1, h⟩ := except_bind h
  obtain ⟨⟨pre, g1⟩, h2, h⟩ := except_bind h
  obtain ⟨nn, hg1⟩ := writeBuf_state h2
  have hs : (flushWs I g outer).superBlock = g.superBlock := by rw [flushWs_eq I outer hd]
  have hpd : g1.pdiscard = false := by rw [hg1, flushWs_eq I outer hd]; exact hd
  have hpend : g1.pend = [] := by rw [hg1]
  have hgd : g1.discard = false := by rw [hg1, flushWs_eq I outer hd]; exact hdd
  rw [hs] at h1
  simp only [hpd, Bool.and_false, Bool.false_eq_true, if_false] at h
  cases H with
  | none => cases h
  | some hh =>
    cases hdefs : assoc hh.blocks cur.1 with
    | none => simp [hdefs] at h
    | some defs =>
      simp only [hdefs] at h
      cases hcd : defs[cur.2]? with
      | none => simp [hcd] at h
      | some cd =>
        obtain ⟨cctx, d⟩ := cd
        simp only [hcd] at h
        obtain ⟨⟨b, g2⟩, h3, h⟩ := except_bind h
        obtain ⟨⟨fl, g3⟩, h4, h⟩ := except_bind h
        simp only [pure, Except.pure, Except.ok.injEq, Prod.mk.injEq] at h
        refine ⟨cur, pre, g1, hh, defs, cctx, d, b, g2, fl, g3, h1, h2, rfl, hdefs, hcd, ?_, h4, h.1.symm, ?_⟩
        · rw [← h3]
          simp only [prepareWs, shouldTrimWs_side, hpend]
        · rw [← h.2]
          simp only [prepareWs, shouldTrimWs_side, hgd]

theorem handleInclude_inv {g g' : Gen} {ws : Ws} {path : Str} {code : List Stmt}
    (h : handleInclude rec I ctx g ws path = .ok (code, g')) :
    ∃ pre g1 p c Hc b g2 fl g3, writeBuf I (flushWs I g ws) = .ok (pre, g1) ∧ I.find path = some p
      ∧ assoc I.contexts p = some c ∧ includeHeritage I (mergeCtx c ctx) = .ok Hc
      ∧ rec Hc (match Hc with | some h => h.root | none => mergeCtx c ctx)
          (match Hc with | some h => h.root | none => mergeCtx c ctx).nodes .top
          { new I g1.locals.withParent g1.indent g1.discard with pdiscard := g1.pdiscard } = .ok (b, g2)
      ∧ writeBuf I g2 = .ok (fl, g3)
      ∧ code = pre ++ ({ g1 with indent := g3.indent, discard := g3.discard } : Gen).emit [.includeBytes p] ++ b ++ fl
      ∧ g' = prepareWs I { g1 with indent := g3.indent, discard := g3.discard } ws := by
  unfold handleInclude at h
  obtain ⟨⟨pre, g1⟩, h1, h⟩ := except_bind h
  simp only at h
  split at h
  · cases h
  · rename_i p hp
    split at h
    · cases h
    · rename_i c hc
      obtain ⟨Hc, h2, h⟩ := except_bind h
      obtain ⟨⟨b, g2⟩, h3, h⟩ := except_bind h
      obtain ⟨⟨fl, g3⟩, h4, h⟩ := except_bind h
      simp only [pure, Except.pure, Except.ok.injEq, Prod.mk.injEq] at h
      exact ⟨pre, g1, p, c, Hc, b, g2, fl, g3, h1, hp, hc, h2, h3, h4, h.1.symm, h.2.symm⟩

theorem writeLet_inv {g g' : Gen} {ws : Ws} {var : Target} {val : Option Expr} {code : List Stmt}
    (h : writeLet I g ws var val = .ok (code, g')) :
    (∃ s g1, val = none ∧ writeBuf I (handleWs I g ws) = .ok (s, g1) ∧ code = s ++ g1.emit [.letDecl var]
      ∧ g' = declare g1 var false)
    ∨ ∃ e r w shadowed s g1, val = some e ∧ visitExpr I (handleWs I g ws).locals e = .ok (r, w)
      ∧ isShadowing (handleWs I g ws).locals var = .ok shadowed
      ∧ flushIf I shadowed (handleWs I g ws) = .ok (s, g1)
      ∧ code = s ++ g1.emit [match targetName var with
          | some n => if shadowed || (g1.locals.get n).isNone then .letInit var r else .assign (normalizeIdentifier n) r
          | none => .letInit var r]
      ∧ g' = declare g1 var true := by
  unfold writeLet at h
  cases val with
  | none =>
    obtain ⟨⟨s, g1⟩, h1, h⟩ := except_bind h
    simp only [pure, Except.pure, Except.ok.injEq, Prod.mk.injEq] at h
    exact .inl ⟨s, g1, rfl, h1, h.1.symm, h.2.symm⟩
  | some e =>
    obtain ⟨⟨r, w⟩, h1, h⟩ := except_bind h
    obtain ⟨sh, h2, h⟩ := except_bind h
    obtain ⟨⟨s, g1⟩, h3, h⟩ := except_bind h
    simp only [pure, Except.pure, Except.ok.injEq, Prod.mk.injEq] at h
    exact .inr ⟨e, r, w, sh, s, g1, rfl, h1, h2, h3, h.1.symm, h.2.symm⟩

theorem branchCond_locals {g g' : Gen} {cond : Option CondTest} {c : RCond} (h : branchCond I g cond = .ok (c, g')) :
    g' = g ∨ ∃ t, g' = declare g t true := by
  unfold branchCond at h
  split at h
  · cases h; exact .inl rfl
  · obtain ⟨⟨r, w⟩, h1, h⟩ := except_bind h
    cases h; exact .inl rfl
  · rename_i t op a b
    split at h
    · obtain ⟨⟨r, w⟩, h1, h⟩ := except_bind h
      obtain ⟨⟨r2, w2⟩, h2, h⟩ := except_bind h
      cases h; exact .inr ⟨t, rfl⟩
    · obtain ⟨⟨r, w⟩, h1, h⟩ := except_bind h
      cases h; exact .inr ⟨t, rfl⟩
  · rename_i t e _
    obtain ⟨⟨r, w⟩, h1, h⟩ := except_bind h
    cases h; exact .inr ⟨t, rfl⟩

end Gen

end Askama
