import Verif.Lemmas.GenInv

/-! What the generator leaves as it was: scopes, the block it is in, and the state of whitespace after a tag. -/

namespace Askama

open Askama.Spec

/-- Output is being collected and there is a scope for variables. -/
structure Clean (g : Gen) : Prop where
  pd : g.pdiscard = false
  d : g.discard = false
  wf : g.locals.scopes ≠ []

/-- A piece of code was generated: only the innermost scope has changed. -/
structure Frame (g g' : Gen) : Prop where
  clean : Clean g'
  sup : g'.superBlock = g.superBlock
  parent : g'.locals.parent = g.locals.parent
  tail : g'.locals.scopes.tail = g.locals.scopes.tail

namespace Frame

theorem refl {g : Gen} (h : Clean g) : Frame g g := ⟨h, rfl, rfl, rfl⟩

theorem trans {a b c : Gen} (h : Frame a b) (h2 : Frame b c) : Frame a c :=
  ⟨h2.clean, h2.sup.trans h.sup, h2.parent.trans h.parent, h2.tail.trans h.tail⟩

/-- States that agree in what matters here. -/
theorem of_eq {g g' : Gen} (h : Clean g) (h1 : g'.pdiscard = g.pdiscard) (h2 : g'.discard = g.discard)
    (h3 : g'.superBlock = g.superBlock) (h4 : g'.locals = g.locals) : Frame g g' :=
  ⟨⟨h1.trans h.pd, h2.trans h.d, by rw [h4]; exact h.wf⟩, h3, by rw [h4], by rw [h4]⟩

/-- After `push` and `pop` the locals are the same. -/
theorem pop {g g' : Gen} {L : Locals} (h : Frame g g') (hL : g.locals = L.push) : g'.locals.pop = L := by
  have h1 := h.parent
  have h2 := h.tail
  rw [hL] at h1 h2
  obtain ⟨s, p⟩ := L
  simp only [MapChain.push, List.tail_cons] at h1 h2
  simp only [MapChain.pop, h1]
  congr 1

end Frame

theorem insert_frame (L : Locals) (h : L.scopes ≠ []) (n : Str) (m : LocalMeta) :
    (L.insert n m).parent = L.parent ∧ (L.insert n m).scopes.tail = L.scopes.tail := by
  unfold MapChain.insert
  cases hs : L.scopes with
  | nil => exact absurd hs h
  | cons a b => simp

theorem inserts_frame (ns : List Str) (m : LocalMeta) : (L : Locals) → L.scopes ≠ [] →
    (ns.foldl (fun L n => L.insert n m) L).parent = L.parent
      ∧ (ns.foldl (fun L n => L.insert n m) L).scopes.tail = L.scopes.tail := by
  induction ns with
  | nil => intro L _; exact ⟨rfl, rfl⟩
  | cons n ns ih =>
    intro L h
    have h1 := ih (L.insert n m) (MapChain.insert_scopes h n m)
    have h2 := insert_frame L h n m
    exact ⟨h1.1.trans h2.1, h1.2.trans h2.2⟩

namespace Gen

variable {I : GenInput} {rec : Handler} {H : Option Heritage} {ctx : Ctx}

theorem handleWs_frame {g : Gen} (h : Clean g) (ws : Ws) : Frame g (handleWs I g ws) := by
  rw [handleWs_eq I ws h.pd]; exact .of_eq h rfl rfl rfl rfl

theorem flushWs_frame {g : Gen} (h : Clean g) (ws : Ws) : Frame g (flushWs I g ws) := by
  rw [flushWs_eq I ws h.pd]; exact .of_eq h rfl rfl rfl rfl

theorem prepareWs_frame {g : Gen} (h : Clean g) (ws : Ws) : Frame g (prepareWs I g ws) := .of_eq h rfl rfl rfl rfl

theorem writeBuf_frame {g g' : Gen} {code : List Stmt} (h : Clean g) (hw : writeBuf I g = .ok (code, g')) :
    Frame g g' := by
  obtain ⟨n, rfl⟩ := writeBuf_state hw; exact .of_eq h rfl rfl rfl rfl

theorem declare_frame {g : Gen} (h : Clean g) (t : Target) (b : Bool) : Frame g (declare g t b) := by
  have := inserts_frame t.names { refs := none, initialized := b } g.locals h.wf
  exact ⟨⟨h.pd, h.d, MapChain.inserts_scopes h.wf _ _⟩, rfl, this.1, this.2⟩

theorem openLine_frame {g : Gen} (h : Clean g) : Frame g g.openLine := by
  obtain ⟨k, hk⟩ := openLine_eq g; rw [hk]; exact .of_eq h rfl rfl rfl rfl

theorem closeLine_frame {g g' : Gen} (h : Clean g) (hc : g.closeLine = .ok g') : Frame g g' := by
  obtain ⟨k, rfl⟩ := closeLine_eq hc; exact .of_eq h rfl rfl rfl rfl

theorem dedentUnless_frame {g g' : Gen} {b : Bool} (h : Clean g) (hc : dedentUnless b g = .ok g') : Frame g g' := by
  obtain ⟨k, rfl⟩ := dedentUnless_eq hc; exact .of_eq h rfl rfl rfl rfl

theorem branchCond_frame {g g' : Gen} {cond : Option CondTest} {c : RCond} (h : Clean g)
    (hc : branchCond I g cond = .ok (c, g')) : Frame g g' := by
  rcases branchCond_locals hc with rfl | ⟨t, rfl⟩
  · exact .refl h
  · exact declare_frame h t true

theorem push_clean {g : Gen} (h : Clean g) : Clean { g with locals := g.locals.push } :=
  ⟨h.pd, h.d, by simp [MapChain.push]⟩

theorem flushIf_frame {g g' : Gen} {c : Bool} {code : List Stmt} (h : Clean g) (hw : flushIf I c g = .ok (code, g')) :
    Frame g g' := by
  unfold flushIf at hw
  split at hw
  · exact writeBuf_frame h hw
  · cases hw; exact .refl h

/-- The same of the handler for nested nodes. -/
def RecFrame (rec : Handler) : Prop := ∀ H ctx nodes level g code g', rec H ctx nodes level g = .ok (code, g') →
  Clean g → Frame g g'

theorem ifBranches_frame (hr : RecFrame rec) {wsEnd : Ws} : (bs : List Cond) → (first : Bool) → {g g' : Gen} →
    {out : List Branch} → bs ≠ [] → Clean g → ifBranches rec I H ctx wsEnd first bs g = .ok (out, g') →
      Frame { g with locals := g.locals.push } g' ∧ g'.nextWs = none ∧ g'.skipWs = sideOf I wsEnd.r ∧ g'.pend = []
  | [], _, _, _, _, h, _, _ => absurd rfl h
  | .mk w cond nodes :: rest, first, g, g', out, _, hc, h => by
    obtain ⟨g1, c, g2, body, g3, fl, g4, h1, h2, h3, h4, h5⟩ := ifBranches_inv h
    have f1 := dedentUnless_frame (push_clean hc) h1
    have f2 := f1.trans (branchCond_frame f1.clean h2)
    have f3 := f2.trans (openLine_frame f2.clean)
    have f4 := f3.trans (hr _ _ _ _ _ _ _ h3 f3.clean)
    have f5 := f4.trans (handleWs_frame (I := I) f4.clean (condEnd rest wsEnd))
    have f6 := f5.trans (writeBuf_frame f5.clean h4)
    rcases h5 with ⟨rfl, rfl, rfl⟩ | ⟨bs', hne, h5, rfl⟩
    · refine ⟨f6, ?_⟩
      obtain ⟨n, hn⟩ := writeBuf_state h4
      rw [hn, handleWs_eq I _ f4.clean.pd]
      exact ⟨rfl, rfl, rfl⟩
    · have hpop := f6.pop rfl
      rw [hpop] at h5
      have hc' : Clean { g4 with locals := g.locals } := ⟨f6.clean.pd, f6.clean.d, hc.wf⟩
      obtain ⟨f7, h6⟩ := ifBranches_frame hr rest false hne hc' h5
      exact ⟨⟨f7.clean, f7.sup.trans f6.sup, f7.parent, f7.tail⟩, h6⟩

theorem writeIf_frame (hr : RecFrame rec) {g g' : Gen} {ws : Ws} {branches : List Cond} {code : List Stmt}
    (hc : Clean g) (h : writeIf rec I H ctx g ws branches = .ok (code, g')) :
    Frame g g' ∧ g'.locals = g.locals ∧ g'.nextWs = none ∧ g'.skipWs = sideOf I ws.r ∧ g'.pend = [] := by
  obtain ⟨ws1, c, ns, rest, pre, g1, bs, g2, g3, rfl, h1, h2, h3, -, rfl⟩ := writeIf_inv h
  have f1 := handleWs_frame (I := I) hc ws1
  have f2 := f1.trans (writeBuf_frame f1.clean h1)
  have hl : g1.locals = g.locals := by
    obtain ⟨n, hn⟩ := writeBuf_state h1
    rw [hn, handleWs_eq I _ hc.pd]
  obtain ⟨f3, h4⟩ := ifBranches_frame hr _ _ (by simp) f2.clean h2
  obtain ⟨k, rfl⟩ := closeLine_eq h3
  have hpop := f3.pop rfl
  refine ⟨⟨⟨f3.clean.pd, f3.clean.d, ?_⟩, f3.sup.trans f2.sup, ?_, ?_⟩, ?_, h4⟩
  · simp only [hpop]; exact f2.clean.wf
  · simp only [hpop, hl]
  · simp only [hpop, hl]
  · simp only [hpop, hl]

theorem matchArms_frame (hr : RecFrame rec) {ws2 : Ws} : (as : List When) → {g g' : Gen} → {out : List Arm} → Clean g →
    matchArms rec I H ctx ws2 as g = .ok (out, g') →
      Frame g g' ∧ g'.locals = g.locals
        ∧ (as ≠ [] → g'.nextWs = none ∧ g'.skipWs = sideOf I ws2.r ∧ g'.pend = [])
  | [], g, g', out, hc, h => by
    simp only [matchArms, Except.ok.injEq, Prod.mk.injEq] at h
    rw [← h.2]
    exact ⟨.refl hc, rfl, fun h => absurd rfl h⟩
  | .mk w t nodes :: rest, g, g', out, hc, h => by
    obtain ⟨body, g1, fl, g2, g3, as', h1, h2, h3, h4, rfl⟩ := matchArms_inv h
    have f1 := declare_frame (push_clean hc) t true
    have f2 := f1.trans (openLine_frame f1.clean)
    have f3 := f2.trans (hr _ _ _ _ _ _ _ h1 f2.clean)
    have f4 := f3.trans (handleWs_frame (I := I) f3.clean (whenEnd rest ws2))
    have f5 := f4.trans (writeBuf_frame f4.clean h2)
    have f6 := f5.trans (closeLine_frame f5.clean h3)
    have hpop := f6.pop rfl
    rw [hpop] at h4
    have hc' : Clean { g3 with locals := g.locals } := ⟨f6.clean.pd, f6.clean.d, hc.wf⟩
    obtain ⟨f7, hl, h6⟩ := matchArms_frame hr rest hc' h4
    refine ⟨⟨f7.clean, f7.sup.trans f6.sup, f7.parent, f7.tail⟩, hl, fun _ => ?_⟩
    cases rest with
    | nil =>
      simp only [matchArms, Except.ok.injEq, Prod.mk.injEq] at h4
      obtain ⟨n, hn⟩ := writeBuf_state h2
      obtain ⟨k, hk⟩ := closeLine_eq h3
      rw [← h4.2, hk, hn, handleWs_eq I _ f3.clean.pd]
      exact ⟨rfl, rfl, rfl⟩
    | cons a b => exact h6 (by simp)

theorem writeMatch_frame (hr : RecFrame rec) {g g' : Gen} {ws1 ws2 : Ws} {e : Expr} {arms : List When}
    {code : List Stmt} (hc : Clean g) (h : writeMatch rec I H ctx g ws1 e arms ws2 = .ok (code, g')) :
    Frame g g' ∧ g'.locals = g.locals ∧ g'.nextWs = none ∧ g'.skipWs = sideOf I ws2.r ∧ g'.pend = [] := by
  obtain ⟨ws, t, ns, rest, pre, g1, r, w, as, g2, g3, rfl, h1, h2, h3, h4, -, rfl⟩ := writeMatch_inv h
  have f1 := flushWs_frame (I := I) hc ws1
  have f2 := f1.trans (writeBuf_frame f1.clean h1)
  have f3 := f2.trans (openLine_frame f2.clean)
  have f4 := f3.trans (handleWs_frame (I := I) f3.clean ws)
  have hl : g1.locals = g.locals := by
    obtain ⟨n, hn⟩ := writeBuf_state h1
    rw [hn, flushWs_eq I _ hc.pd]
  obtain ⟨f5, hl2, h6⟩ := matchArms_frame hr _ f4.clean h3
  obtain ⟨k, rfl⟩ := closeLine_eq h4
  refine ⟨(f4.trans f5).trans (.of_eq f5.clean rfl rfl rfl rfl), ?_, h6 (by simp)⟩
  obtain ⟨k2, hk2⟩ := openLine_eq g1
  show g2.locals = g.locals
  rw [hl2, handleWs_eq I _ f3.clean.pd, hk2]
  exact hl

theorem writeLoop_frame (hr : RecFrame rec) {g g' : Gen} {ws1 ws2 ws3 : Ws} {var : Target} {iter : Expr}
    {cond : Option Expr} {body elseNodes : List Node} {code : List Stmt} (hc : Clean g)
    (h : writeLoop rec I H ctx g ws1 var iter cond body ws2 elseNodes ws3 = .ok (code, g')) :
    Frame g g' ∧ g'.locals = g.locals ∧ g'.nextWs = none ∧ g'.skipWs = sideOf I ws3.r ∧ g'.pend = [] := by
  obtain ⟨r, w, pre, g1, filt, b, g2, fl, g3, g4, h1, h2, h3, h4, h5, h6, h7⟩ := writeLoop_inv h
  have f0 := handleWs_frame (I := I) hc ws1
  have hl0 : (handleWs I g ws1).locals = g.locals := by rw [handleWs_eq I _ hc.pd]
  have f1 := writeBuf_frame (push_clean f0.clean) h2
  have f2 := f1.trans (openLine_frame f1.clean)
  have hl2 : g1.openLine.locals = g.locals.push := by
    obtain ⟨n, hn⟩ := writeBuf_state h2
    obtain ⟨k, hk⟩ := openLine_eq g1
    rw [hk, hn]
    simp only [hl0]
  have f3 := declare_frame (push_clean f2.clean) var true
  have f4 := f3.trans (openLine_frame f3.clean)
  have f5 := f4.trans (hr _ _ _ _ _ _ _ h4 f4.clean)
  have f6 := f5.trans (handleWs_frame (I := I) f5.clean ws2)
  have f7 := f6.trans (writeBuf_frame f6.clean h5)
  have hpop := f7.pop rfl
  rw [hpop] at h6
  obtain ⟨k, rfl⟩ := closeLine_eq h6
  have c4 : Clean { g3 with locals := g1.openLine.locals, indent := k } := ⟨f7.clean.pd, f7.clean.d, f2.clean.wf⟩
  have hsup : g3.superBlock = g.superBlock := (f7.sup.trans f2.sup).trans f0.sup
  rcases h7 with ⟨hne, eb, g5, fl2, g6, g7, g8, e1, e2, e3, e4, -, rfl⟩ | ⟨rfl, fl2, g6, g8, e1, e2, -, rfl⟩
  · have f8 := openLine_frame c4
    have f9 := hr _ _ _ _ _ _ _ e1 (push_clean f8.clean)
    have f10 := f9.trans (handleWs_frame (I := I) f9.clean ws3)
    have f11 := f10.trans (writeBuf_frame f10.clean e2)
    have hpop2 := f11.pop rfl
    rw [hpop2] at e3
    obtain ⟨k2, rfl⟩ := closeLine_eq e3
    obtain ⟨k3, rfl⟩ := closeLine_eq e4
    have hl8 : (openLine { g3 with locals := g1.openLine.locals, indent := k }).locals = g.locals.push := by
      obtain ⟨k4, hk4⟩ := openLine_eq { g3 with locals := g1.openLine.locals, indent := k }
      rw [hk4]; exact hl2
    have hpp : MapChain.pop (openLine { g3 with locals := g1.openLine.locals, indent := k }).locals = g.locals := by
      rw [hl8]; simp [MapChain.pop, MapChain.push]
    have hs6 : g6.superBlock = g.superBlock := by
      rw [f11.sup]
      exact f8.sup.trans hsup
    obtain ⟨n, hn⟩ := writeBuf_state e2
    rw [handleWs_eq I _ f9.clean.pd] at hn
    refine ⟨⟨⟨f11.clean.pd, f11.clean.d, ?_⟩, hs6, ?_, ?_⟩, hpp, ?_⟩
    · simp only [hpp]; exact hc.wf
    · simp only [hpp]
    · simp only [hpp]
    · rw [hn]; exact ⟨rfl, rfl, rfl⟩
  · have f9 := handleWs_frame (I := I) c4 ws3
    have f10 := f9.trans (writeBuf_frame f9.clean e1)
    obtain ⟨k2, rfl⟩ := closeLine_eq e2
    obtain ⟨n, hn⟩ := writeBuf_state e1
    rw [handleWs_eq I _ c4.pd] at hn
    have hpp : MapChain.pop g6.locals = g.locals := by
      rw [hn]; simp only [hl2]; simp [MapChain.pop, MapChain.push]
    refine ⟨⟨⟨f10.clean.pd, f10.clean.d, ?_⟩, f10.sup.trans hsup, ?_, ?_⟩, hpp, ?_⟩
    · simp only [hpp]; exact hc.wf
    · simp only [hpp]
    · simp only [hpp]
    · rw [hn]; exact ⟨rfl, rfl, rfl⟩

theorem bindParams_frame {named : List (Str × Expr)} {args : List Expr} : (ps : List Str) → {i : Nat} → {a : Bool} →
    {L L' : Locals} → {ns : List Str} → {rs : List RExpr} → L.scopes ≠ [] →
    bindParams I named args ps i a L = .ok (ns, rs, L') →
      L'.scopes ≠ [] ∧ L'.parent = L.parent ∧ L'.scopes.tail = L.scopes.tail
  | [], i, a, L, L', ns, rs, hw, h => by
    simp only [bindParams, Except.ok.injEq, Prod.mk.injEq] at h
    rw [← h.2.2]; exact ⟨hw, rfl, rfl⟩
  | p :: ps, i, a, L, L', ns, rs, hw, h => by
    simp only [bindParams] at h
    obtain ⟨⟨e, a'⟩, h1, h⟩ := except_bind h
    obtain ⟨q, h2, h⟩ := except_bind h
    cases q with
    | inl r =>
      have := bindParams_frame ps (MapChain.insert_scopes hw _ _) h
      have h2 := insert_frame L hw p { refs := some r, initialized := true }
      exact ⟨this.1, this.2.1.trans h2.1, this.2.2.trans h2.2⟩
    | inr r =>
      obtain ⟨⟨ns', rs', L2⟩, h3, h⟩ := except_bind h
      simp only [pure, Except.pure, Except.ok.injEq, Prod.mk.injEq] at h
      have := bindParams_frame ps (MapChain.insert_scopes hw _ _) h3
      have h2 := insert_frame L hw p { refs := none, initialized := false }
      rw [← h.2.2]
      exact ⟨this.1, this.2.1.trans h2.1, this.2.2.trans h2.2⟩

theorem writeCall_frame (hr : RecFrame rec) {g g' : Gen} {ws : Ws} {scope : Option Str} {name : Str}
    {args : List Expr} {code : List Stmt} (hc : Clean g)
    (h : writeCall rec I H ctx g ws scope name args = .ok (code, g')) :
    Frame g g' ∧ g'.locals = g.locals ∧ g'.nextWs = none ∧ g'.skipWs = sideOf I ws.r ∧ g'.pend = [] := by
  obtain ⟨d, own, pre, g1, named, ns, rs, L, b, g2, fl, g3, g4, h1, h2, h3, h4, h5, h6, h7, h8, rfl, -⟩ :=
    writeCall_inv h
  have f0 := flushWs_frame (I := I) hc ws
  have hl0 : (flushWs I g ws).locals = g.locals := by rw [flushWs_eq I _ hc.pd]
  have f1 := writeBuf_frame (push_clean f0.clean) h2
  have f2 := f1.trans (openLine_frame f1.clean)
  have f3 := f2.trans (prepareWs_frame (I := I) f2.clean d.ws1)
  have hL := bindParams_frame _ f3.clean.wf h5
  have f4 : Frame { flushWs I g ws with locals := (flushWs I g ws).locals.push }
      { prepareWs I g1.openLine d.ws1 with locals := L } :=
    ⟨⟨f3.clean.pd, f3.clean.d, hL.1⟩, f3.sup, hL.2.1.trans f3.parent, hL.2.2.trans f3.tail⟩
  have f5 := f4.trans (hr _ _ _ _ _ _ _ h6 f4.clean)
  have f6 := f5.trans (flushWs_frame (I := I) f5.clean d.ws2)
  have f7 := f6.trans (writeBuf_frame f6.clean h7)
  have f8 := f7.trans (closeLine_frame f7.clean h8)
  have hpop := f8.pop rfl
  rw [hl0] at hpop
  obtain ⟨n, hn⟩ := writeBuf_state h7
  rw [flushWs_eq I _ f5.clean.pd] at hn
  obtain ⟨k, hk⟩ := closeLine_eq h8
  have h9 : g4.nextWs = none ∧ g4.pend = [] := by rw [hk, hn]; exact ⟨rfl, rfl⟩
  refine ⟨⟨⟨f8.clean.pd, f8.clean.d, ?_⟩, f8.sup.trans f0.sup, ?_, ?_⟩, ?_, h9.1, ?_, h9.2⟩
  · simp only [prepareWs, hpop]; exact hc.wf
  · simp only [prepareWs, hpop]
  · simp only [prepareWs, hpop]
  · simp only [prepareWs, hpop]
  · simp only [prepareWs, shouldTrimWs_side]

theorem writeBlock_frame {g g' : Gen} {name : Option Str} {outer : Ws} {code : List Stmt}
    (hr : RecFrame rec) (hc : Clean g) (h : writeBlock rec I H ctx g name outer = .ok (code, g')) :
    Frame g g' ∧ g'.locals = g.locals ∧ g'.nextWs = none ∧ g'.skipWs = sideOf I outer.r := by
  obtain ⟨cur, pre, g1, hh, defs, cctx, d, b, g2, fl, g3, h1, h2, rfl, h3, h4, h5, h6, -, rfl⟩ :=
    writeBlock_inv h hc.pd hc.d
  have f0 := flushWs_frame (I := I) hc outer
  have f1 := f0.trans (writeBuf_frame f0.clean h2)
  have hc0 : Clean { new I .empty g1.indent false with
            pend := [], pdiscard := false, skipWs := sideOf I d.ws1.r, superBlock := some cur } :=
    ⟨rfl, rfl, by simp [new, MapChain.empty]⟩
  have f2 := hr _ _ _ _ _ _ _ h5 hc0
  have f3 := f2.trans (flushIf_frame f2.clean h6)
  have f4 := f3.trans (flushWs_frame (I := I) f3.clean d.ws2)
  obtain ⟨n, hn⟩ := writeBuf_state h2
  rw [flushWs_eq I _ hc.pd] at hn
  have hl : g1.locals = g.locals := by rw [hn]
  exact ⟨⟨⟨f4.clean.pd, rfl, f1.clean.wf⟩, f1.sup, f1.parent, f1.tail⟩, hl, by rw [hn], rfl⟩

theorem handleInclude_frame {g g' : Gen} {ws : Ws} {path : Str} {code : List Stmt} (hr : RecFrame rec) (hc : Clean g)
    (h : handleInclude rec I ctx g ws path = .ok (code, g')) :
    Frame g g' ∧ g'.locals = g.locals ∧ g'.nextWs = none ∧ g'.skipWs = sideOf I ws.r ∧ g'.pend = [] := by
  obtain ⟨pre, g1, p, c, Hc, b, g2, fl, g3, h1, h2, h3, h4, h5, h6, -, rfl⟩ := handleInclude_inv h
  have f0 := flushWs_frame (I := I) hc ws
  have f1 := f0.trans (writeBuf_frame f0.clean h1)
  have hc0 : Clean { new I g1.locals.withParent g1.indent g1.discard with pdiscard := g1.pdiscard } :=
    ⟨f1.clean.pd, f1.clean.d, by simp [new, MapChain.withParent]⟩
  have f2 := hr _ _ _ _ _ _ _ h5 hc0
  have f3 := f2.trans (writeBuf_frame f2.clean h6)
  obtain ⟨n, hn⟩ := writeBuf_state h1
  rw [flushWs_eq I _ hc.pd] at hn
  have hl : g1.locals = g.locals := by rw [hn]
  refine ⟨⟨⟨f1.clean.pd, f3.clean.d, f1.clean.wf⟩, f1.sup, f1.parent, f1.tail⟩, hl, by rw [hn]; rfl, ?_, by rw [hn]; rfl⟩
  simp only [prepareWs, shouldTrimWs_side]

theorem prepareFormat_frame {g g' : Gen} {p : Parts} (hc : Clean g) (h : prepareFormat I g = .ok (p, g')) :
    Frame g g' := by
  obtain ⟨n, rfl⟩ := prepareFormat_state I h; exact .of_eq hc rfl rfl rfl rfl

theorem writeFilterBlock_frame (hr : RecFrame rec) {g g' : Gen} {ws1 ws2 : Ws} {f : FilterApp} {nodes : List Node}
    {code : List Stmt} (hc : Clean g) (h : writeFilterBlock rec I H ctx g ws1 f nodes ws2 = .ok (code, g')) :
    Frame g g' := by
  obtain ⟨b, g1, p, g2, h1, h2, h3⟩ := writeFilterBlock_inv h
  have f0 := flushWs_frame (I := I) hc ws1
  have f1 : Frame g (prepareWs I { flushWs I g ws1 with pend := [] } ws1) :=
    f0.trans (.of_eq f0.clean rfl rfl rfl rfl)
  have f2 := f1.trans (hr _ _ _ _ _ _ _ h1 f1.clean)
  have f3 := f2.trans (flushWs_frame (I := I) f2.clean ws2)
  have f4 := f3.trans (prepareFormat_frame f3.clean h2)
  rcases h3 with ⟨rfl, rfl, rfl⟩ | ⟨st, r, w, hp, -, h4, -, rfl⟩
  · exact f4
  · have hpush : (({ g2 with pend := (flushWs I g ws1).pend } : Gen).push (.generated r w))
        = { g2 with pend := (flushWs I g ws1).pend ++ [.generated r w] } := by
      simp [push, f4.clean.pd]
    rw [hpush]
    have hi := insert_frame g2.locals f4.clean.wf
      (freeFilterVar (flushWs I g ws1).locals (localsSize (flushWs I g ws1).locals) 0)
      { refs := none, initialized := true }
    exact ⟨⟨f4.clean.pd, f4.clean.d, MapChain.insert_scopes f4.clean.wf _ _⟩, f4.sup, hi.1.trans f4.parent,
      hi.2.trans f4.tail⟩

theorem visitLit_frame {g g' : Gen} {l : Lit} (hc : Clean g) (h : visitLit g l = .ok g') : Frame g g' := by
  have hpush : ∀ (g : Gen) w, Clean g → Frame g (g.push w) := by
    intro g w hc
    unfold push
    rw [if_neg (by simp [hc.pd])]
    exact .of_eq hc rfl rfl rfl rfl
  unfold visitLit at h
  split at h
  · cases h
  · obtain ⟨g2, h1, h⟩ := except_bind h
    have f1 : Frame g g2 := by
      unfold visitLws at h1
      split at h1
      · cases h1; exact .refl hc
      · split at h1
        · cases h1; exact .refl hc
        · split at h1
          · split at h1
            · cases h1; exact .of_eq hc rfl rfl rfl rfl
            · cases h1
          · cases h1; exact hpush _ _ hc
        · split at h1
          · split at h1
            · cases h1; exact .of_eq hc rfl rfl rfl rfl
            · cases h1
          · cases h1; exact hpush _ _ hc
    simp only [pure, Except.pure, Except.ok.injEq] at h
    subst h
    have f2 : Frame g (if l.val.isEmpty then g2 else ({ g2 with skipWs := .preserve } : Gen).push (.lit l.val)) := by
      split
      · exact f1
      · have f2 : Frame g { g2 with skipWs := .preserve } := f1.trans (.of_eq f1.clean rfl rfl rfl rfl)
        exact f2.trans (hpush _ _ f2.clean)
    split
    · exact f2
    · exact f2.trans (.of_eq f2.clean rfl rfl rfl rfl)

theorem writeLet_frame {g g' : Gen} {ws : Ws} {var : Target} {val : Option Expr} {code : List Stmt} (hc : Clean g)
    (h : writeLet I g ws var val = .ok (code, g')) :
    Frame g g' ∧ g'.nextWs = none ∧ g'.skipWs = sideOf I ws.r := by
  have f0 := handleWs_frame (I := I) hc ws
  have h0 := handleWs_eq I ws hc.pd
  rcases writeLet_inv h with ⟨s, g1, rfl, h1, -, rfl⟩ | ⟨e, r, w, sh, s, g1, rfl, h1, h2, h3, -, rfl⟩
  · have f1 := f0.trans (writeBuf_frame f0.clean h1)
    obtain ⟨n, hn⟩ := writeBuf_state h1
    rw [h0] at hn
    refine ⟨f1.trans (declare_frame f1.clean var false), ?_⟩
    rw [hn]; exact ⟨rfl, rfl⟩
  · have f1 := f0.trans (flushIf_frame f0.clean h3)
    refine ⟨f1.trans (declare_frame f1.clean var true), ?_⟩
    unfold flushIf at h3
    split at h3
    · obtain ⟨n, hn⟩ := writeBuf_state h3
      rw [h0] at hn
      rw [hn]; exact ⟨rfl, rfl⟩
    · cases h3
      rw [h0]; exact ⟨rfl, rfl⟩

theorem handleNode_frame (hr : RecFrame rec) {level : Level} {g g' : Gen} {n : Node}
    {code : List Stmt} (hc : Clean g) (h : handleNode rec I H ctx level g n = .ok (code, g')) : Frame g g' := by
  have hpush : ∀ (g : Gen) w, Clean g → Frame g (g.push w) := by
    intro g w hc
    unfold push
    rw [if_neg (by simp [hc.pd])]
    exact .of_eq hc rfl rfl rfl rfl
  cases n with
  | lit l =>
    obtain ⟨g2, h1, h⟩ := except_bind h
    cases h
    exact visitLit_frame hc h1
  | comment ws s => cases h; exact handleWs_frame hc ws
  | expr ws e =>
    cases h
    have f := handleWs_frame (I := I) hc ws
    exact f.trans (hpush _ _ f.clean)
  | let_ ws t v => exact (writeLet_frame hc h).1
  | if_ ws bs => exact (writeIf_frame hr hc h).1
  | match_ ws1 e arms ws2 => exact (writeMatch_frame hr hc h).1
  | loop ws1 var iter cond body ws2 els ws3 => exact (writeLoop_frame hr hc h).1
  | blockDef ws1 name ns ws2 => exact (writeBlock_frame hr hc h).1
  | «include» ws p => exact (handleInclude_frame hr hc h).1
  | call ws scope name args =>
    simp only [handleNode] at h
    split at h
    · exact (writeBlock_frame hr hc h).1
    · exact (writeCall_frame hr hc h).1
  | filterBlock ws1 f ns ws2 => exact writeFilterBlock_frame hr hc h
  | «macro» ws1 nm ps ns ws2 =>
    simp only [handleNode] at h
    split at h
    · cases h
      have f := flushWs_frame (I := I) hc ws1
      exact f.trans (prepareWs_frame f.clean ws2)
    · cases h
  | raw ws1 l ws2 =>
    obtain ⟨g2, h1, h⟩ := except_bind h
    cases h
    have f := handleWs_frame (I := I) hc ws1
    have f2 := f.trans (visitLit_frame f.clean h1)
    exact f2.trans (handleWs_frame f2.clean ws2)
  | import_ ws p s =>
    simp only [handleNode] at h
    split at h
    · cases h; exact handleWs_frame hc ws
    · cases h
  | extends_ p =>
    simp only [handleNode] at h
    split at h
    · cases h; exact .refl hc
    · cases h
  | break_ ws =>
    obtain ⟨⟨s, g2⟩, h1, h⟩ := except_bind h
    cases h
    have f := handleWs_frame (I := I) hc ws
    exact f.trans (writeBuf_frame f.clean h1)
  | continue_ ws =>
    obtain ⟨⟨s, g2⟩, h1, h⟩ := except_bind h
    cases h
    have f := handleWs_frame (I := I) hc ws
    exact f.trans (writeBuf_frame f.clean h1)

theorem handleNodes_frame (hr : RecFrame rec) {level : Level} : (ns : List Node) → {g g' : Gen} →
    {code : List Stmt} → Clean g → handleNodes rec I H ctx level ns g = .ok (code, g') → Frame g g'
  | [], g, g', code, hc, h => by
    simp only [handleNodes, Except.ok.injEq, Prod.mk.injEq] at h
    rw [← h.2]; exact .refl hc
  | n :: ns, g, g', code, hc, h => by
    simp only [handleNodes] at h
    obtain ⟨⟨s, g1⟩, h1, h⟩ := except_bind h
    obtain ⟨⟨s', g2⟩, h2, h⟩ := except_bind h
    simp only [pure, Except.pure, Except.ok.injEq, Prod.mk.injEq] at h
    have f1 := handleNode_frame hr hc h1
    rw [← h.2]
    exact f1.trans (handleNodes_frame hr ns f1.clean h2)

theorem handleEnd_frame {level : Level} {g g' : Gen} {code : List Stmt} (hc : Clean g)
    (h : handleEnd I level g = .ok (code, g')) : Frame g g' := by
  unfold handleEnd at h
  split at h
  · simp only at h
    split at h
    · have f := flushWs_frame (I := I) hc ⟨some (WH.toWsp g.skipWs), none⟩
      exact f.trans (writeBuf_frame f.clean h)
    · exact writeBuf_frame hc h
  · cases h; exact .refl hc

theorem handle_frame : (fuel : Nat) → RecFrame (handle I fuel)
  | 0 => by intro H ctx nodes level g code g' h; cases h
  | fuel + 1 => by
    intro H ctx nodes level g code g' h hc
    unfold handle at h
    obtain ⟨⟨s, g1⟩, h1, h⟩ := except_bind h
    obtain ⟨⟨s', g2⟩, h2, h⟩ := except_bind h
    simp only [pure, Except.pure, Except.ok.injEq, Prod.mk.injEq] at h
    have f1 := handleNodes_frame (handle_frame fuel) nodes hc h1
    rw [← h.2]
    exact f1.trans (handleEnd_frame f1.clean h2)

end Gen

end Askama
