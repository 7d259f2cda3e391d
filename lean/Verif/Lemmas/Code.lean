import Verif.Lemmas.Tame
import Verif.Lemmas.Meaning
import Verif.Lemmas.GenMain
import Verif.Spec.Code

/-! Running the code of loops, conditionals and `match`. -/

namespace Askama

open Askama.Spec

variable {U : Type} {W : World U} {I : GenInput}

theorem eval_env {ρ ρ' : REnv U} (hv : ρ'.vars = ρ.vars) (hi : ρ'.item = ρ.item) (r : RExpr) :
    r.eval W ρ' = r.eval W ρ :=
  RExpr.eval_congr W _ _ r (fun x _ => by rw [hv]) (fun _ => hi)

theorem filterItems_kept {ρ : REnv U} {t : Target} {c : RExpr} : (all : List (Val U)) → {kept : List (Val U)} →
    filterItems W ρ t c all = some kept → ∃ passes : Val U → Bool, kept = all.filter passes ∧
      ∀ v ∈ all, ∃ ws, patMatch W t v = some ws
        ∧ (c.eval W { ρ with vars := bindVars (t.bound W) ws ρ.vars }).bind W.truthy = some (passes v)
  | all, kept, h => by
    let P : Val U → Option Bool := fun v => (patMatch W t v).bind fun ws =>
      (c.eval W { ρ with vars := bindVars (t.bound W) ws ρ.vars }).bind W.truthy
    have key : ∀ (all kept : List (Val U)), filterItems W ρ t c all = some kept →
        (∀ v ∈ all, ∃ b, P v = some b) ∧ kept = all.filter (fun v => P v = some true) := by
      intro all
      induction all with
      | nil => intro kept h; simp only [filterItems] at h; cases h; simp
      | cons v vs ih =>
        intro kept h
        simp only [filterItems, Option.bind_eq_some_iff] at h
        obtain ⟨ws, h1, b, h2, h3⟩ := h
        obtain ⟨rest, h4, h5⟩ := Option.map_eq_some_iff.mp h3
        obtain ⟨h6, h7⟩ := ih rest h4
        have hP : P v = some b := by
          simp only [P, h1, Option.bind_some]
          exact Option.bind_eq_some_iff.mpr h2
        refine ⟨?_, ?_⟩
        · intro x hx
          rcases List.mem_cons.mp hx with rfl | hx
          · exact ⟨b, hP⟩
          · exact h6 x hx
        · rw [List.filter_cons]
          cases b <;> simp [hP, ← h5, h7]
    obtain ⟨h1, h2⟩ := key all kept h
    refine ⟨fun v => P v = some true, h2, fun v hv => ?_⟩
    obtain ⟨b, hb⟩ := h1 v hv
    obtain ⟨ws, h3, h4⟩ := Option.bind_eq_some_iff.mp hb
    exact ⟨ws, h3, by rw [h4]; cases b <;> simp [hb]⟩

theorem codeRounds_nil {t : Target} {b : List Stmt} {i : Nat} {vars vars' : Vars U} {ss : List Str}
    (h : CodeRounds W t b i [] vars ss vars') : ss = [] := by cases h; rfl

/-- The rounds of a loop, where the body may begin with `_did_loop = true`. -/
theorem forItems_rounds {t : Target} {body : List Stmt} (hb : tameList body = true) {hasElse : Bool} :
    (vs : List (Val U)) → {i : Nat} → {ρ ρ' : REnv U} → {s : Str} →
    forItems W t (fun ρ => execList W ρ ((if hasElse then [.setDid] else []) ++ body)) vs i ρ = some (s, ρ') →
    (∃ ss, CodeRounds W t body i vs ρ.vars ss ρ'.vars ∧ s = ss.flatten) ∧ ρ'.item = ρ.item
      ∧ (hasElse = true → vs ≠ [] → ρ'.did = true) ∧ (vs = [] → ρ' = ρ) ∧ (ρ.did = true → ρ'.did = true)
  | [], i, ρ, ρ', s, h => by
    simp only [forItems] at h
    cases h
    exact ⟨⟨[], .done, rfl⟩, rfl, fun _ h => absurd rfl h, fun _ => rfl, id⟩
  | v :: vs, i, ρ, ρ', s, h => by
    simp only [forItems, Option.bind_eq_some_iff] at h
    obtain ⟨ws, h1, ⟨s1, sig, ρ1⟩, h2, h3⟩ := h
    -- the start of the round proper
    obtain ⟨e, he1, he2, he3, h2, he4⟩ : ∃ e : REnv U, e.vars = bindVars (t.bound W) ws ρ.vars
        ∧ e.item = some ⟨i, i == 0, vs.isEmpty⟩ ∧ (hasElse = true → e.did = true)
        ∧ execList W e body = some (s1, sig, ρ1) ∧ (ρ.did = true → e.did = true) := by
      cases hasElse with
      | false => exact ⟨_, rfl, rfl, by simp, h2, id⟩
      | true =>
        simp only [if_true, List.cons_append, List.nil_append, execList, Stmt.exec, Option.bind_some] at h2
        obtain ⟨⟨s2, sig2, ρ2⟩, h4, h5⟩ := Option.map_eq_some_iff.mp h2
        cases h5
        exact ⟨_, rfl, rfl, fun _ => rfl, h4, fun _ => rfl⟩
    have ht := execList_tame body hb h2
    have hdid : hasElse = true → ρ1.did = true := fun h => ht.did.trans (he3 h)
    have hdid2 : ρ.did = true → ρ1.did = true := fun h => ht.did.trans (he4 h)
    by_cases hs : sig = .brk
    · subst hs
      simp only [Option.some.injEq, Prod.mk.injEq] at h3
      obtain ⟨rfl, rfl⟩ := h3
      exact ⟨⟨[s1], .stop h1 he1 he2 h2, by simp⟩, rfl, fun h _ => hdid h, by simp, hdid2⟩
    · have h3' : (forItems W t (fun ρ => execList W ρ ((if hasElse then [.setDid] else []) ++ body)) vs (i + 1)
          { ρ1 with vars := leaveVars ρ.vars ρ1.vars, item := ρ.item }).map (fun (s', ρ''') => (s1 ++ s', ρ'''))
          = some (s, ρ') := by
        cases sig with
        | next => exact h3
        | brk => exact absurd rfl hs
        | cont => exact h3
      obtain ⟨⟨s2, ρ2⟩, h4, h5⟩ := Option.map_eq_some_iff.mp h3'
      simp only [Prod.mk.injEq] at h5
      obtain ⟨rfl, rfl⟩ := h5
      obtain ⟨⟨ss, a1, a2⟩, a3, a4, a5, a6⟩ := forItems_rounds hb vs h4
      refine ⟨⟨s1 :: ss, .next h1 he1 he2 h2 hs a1, by simp [a2]⟩, a3, fun h _ => ?_, by simp, fun h => ?_⟩
      · exact a6 (hdid h)
      · exact a6 (hdid2 h)

namespace Gen

theorem _root_.Askama.Clean.going {g : Gen} (h : Clean g) : Going g := ⟨h.pd, h.d, h.wf⟩

theorem _root_.Askama.Clean.of_going {g : Gen} (h : Going g) : Clean g := ⟨h.1, h.2.1, h.2.2⟩

variable {H : Option Heritage} {ctx : Ctx}

theorem writeBuf_empty {g g' : Gen} {code : List Stmt} (hp : g.pend = []) (h : writeBuf I g = .ok (code, g')) :
    code = [] := by
  unfold writeBuf prepareFormat at h
  rw [hp] at h
  simp only [List.isEmpty_nil, if_true, bind, Except.bind, pure, Except.pure] at h
  cases h
  rfl

theorem wrap_clean {g : Gen} (hd : g.discard = false) (f : List Stmt → Stmt) (b : List Stmt) : g.wrap f b = [f b] := by
  simp [wrap, hd]

theorem emit_clean {g : Gen} (hd : g.discard = false) (b : List Stmt) : g.emit b = b := by simp [emit, hd]

/-- The shape of the code of a loop, and of what is in it. -/
theorem loop_shape (hI : I.block = none) {fuel : Nat} {level : Level} {g g' : Gen} {ws1 ws2 ws3 : Ws} {t : Target}
    {iter : Expr} {cond : Option Expr} {body els : List Node} {code : List Stmt} (hc : Clean g)
    (h : handleNode (handle I fuel) I H ctx level g (.loop ws1 t iter cond body ws2 els ws3) = .ok (code, g')) :
    ∃ pre r filt rc b eb, code = pre ++ [.block ((if els.isEmpty then [] else [.letDid]) ++ [.letIter r] ++ filt
          ++ [.forIter t ((if els.isEmpty then [] else [.setDid]) ++ b)] ++ (if els.isEmpty then [] else [.ifNotDid eb]))]
      ∧ ExprFor I g.locals.push iter r
      ∧ OptExprFor I (scopeOf g.locals.push t) cond rc
      ∧ filt = (rc.map fun c => [Stmt.filterIter t c]).getD []
      ∧ CodeFor I H ctx g.superBlock (scopeOf g.locals.push t) body ws2 b ∧ tameList b = true
      ∧ ((els = [] ∧ eb = []) ∨ (els ≠ [] ∧ CodeFor I H ctx g.superBlock g.locals.push.push els ws3 eb)) := by
  have h : writeLoop (handle I fuel) I H ctx g ws1 t iter cond body ws2 els ws3 = .ok (code, g') := h
  have hf := handle_frame (I := I) fuel
  have hr := handle_tame (I := I) fuel
  have hfr := writeLoop_frame hf hc h
  obtain ⟨r, w, pre, g1, filt, b, g2, fl, g3, g4, h1, h2, h3, h4, h5, h6, h7⟩ := writeLoop_inv h
  have f0 := handleWs_frame (I := I) hc ws1
  have hl0 : (handleWs I g ws1).locals = g.locals := by rw [handleWs_eq I _ hc.pd]
  rw [hl0] at h1 h2
  have hc0 : Clean { handleWs I g ws1 with locals := g.locals.push } :=
    ⟨f0.clean.pd, f0.clean.d, by simp [MapChain.push]⟩
  have f1 := writeBuf_frame hc0 h2
  have hl1 : g1.locals = g.locals.push := by
    obtain ⟨n, hn⟩ := writeBuf_state h2
    rw [hn]
  obtain ⟨k1, e1⟩ := openLine_eq g1
  have f2 := f1.trans (openLine_frame f1.clean)
  have hd2 : g1.openLine.discard = false := f2.clean.d
  have hl2 : g1.openLine.locals = g.locals.push := by rw [e1]; exact hl1
  have f3 := declare_frame (push_clean f2.clean) t true
  have f4 := f3.trans (openLine_frame f3.clean)
  have hl4 : (declare { g1.openLine with locals := g1.openLine.locals.push } t true).openLine.locals
      = scopeOf g.locals.push t := by
    obtain ⟨k, e⟩ := openLine_eq (declare { g1.openLine with locals := g1.openLine.locals.push } t true)
    rw [e]
    simp only [declare, hl2, scopeOf]
  have hs2 : g1.openLine.superBlock = g.superBlock := by
    rw [f2.sup]
    exact f0.sup
  have hs4 : (declare { g1.openLine with locals := g1.openLine.locals.push } t true).openLine.superBlock = g.superBlock :=
    f4.sup.trans hs2
  have t4 := hr _ _ _ _ _ _ _ h4 f4.clean
  have f5 := f4.trans (hf _ _ _ _ _ _ _ h4 f4.clean)
  have f6 := f5.trans (handleWs_frame (I := I) f5.clean ws2)
  have f7 := f6.trans (writeBuf_frame f6.clean h5)
  have hpop : g3.locals.pop = g.locals.push := by rw [f7.pop rfl]; exact hl2
  obtain ⟨k4, e4⟩ := closeLine_eq h6
  have hd4 : g4.discard = false := by rw [e4]; exact f7.clean.d
  have hl4' : g4.locals = g.locals.push := by rw [e4]; exact hpop
  have hcode : CodeFor I H ctx g.superBlock (scopeOf g.locals.push t) body ws2 (b ++ fl) :=
    ⟨_, _, b, g2, fl, g3, f4.clean.going, hs4, hl4, h4, h5, rfl⟩
  have htame := tame_append t4 (writeBuf_tame h5)
  have hfilt : ∃ rc, OptExprFor I (scopeOf g.locals.push t) cond rc
      ∧ filt = (rc.map fun c => [Stmt.filterIter t c]).getD [] := by
    unfold loopFilter at h3
    cases cond with
    | none => cases h3; exact ⟨none, trivial, rfl⟩
    | some c =>
      obtain ⟨⟨rc, w'⟩, h8, h3⟩ := except_bind h3
      cases h3
      refine ⟨some rc, ⟨w', ?_⟩, ?_⟩
      · rw [← h8]; simp only [declare, hl2, scopeOf]
      · rw [emit_clean hd2]; rfl
  obtain ⟨rc, hrc, hfilt⟩ := hfilt
  have hdd : (declare { g1.openLine with locals := g1.openLine.locals.push } t true).openLine.discard = false := f4.clean.d
  rcases h7 with ⟨hne, eb, g5, fl2, g6, g7, g8, h8, h9, h10, h11, rfl, rfl⟩ | ⟨rfl, fl2, g6, g8, h8, h9, rfl, rfl⟩
  · refine ⟨pre, r, filt, rc, b ++ fl, eb ++ fl2, ?_, ⟨w, h1⟩, hrc, hfilt, hcode, htame, .inr ⟨hne, ?_⟩⟩
    · have hd8 : g8.discard = false := hfr.1.clean.d
      have hcl4 : Clean g4 := ⟨by rw [e4]; exact f7.clean.pd, hd4, by rw [hl4']; simp [MapChain.push]⟩
      have f8 := openLine_frame hcl4
      have f9 := hf _ _ _ _ _ _ _ h8 (push_clean f8.clean)
      have f10 := f9.trans (handleWs_frame (I := I) f9.clean ws3)
      have f11 := f10.trans (writeBuf_frame f10.clean h9)
      obtain ⟨k7, e7⟩ := closeLine_eq h10
      have hd7 : g7.discard = false := by rw [e7]; exact f11.clean.d
      have hie : els.isEmpty = false := by cases els with
        | nil => exact absurd rfl hne
        | cons => rfl
      rw [wrap_clean hd8, emit_clean hd2, wrap_clean hd4, emit_clean hdd, wrap_clean hd7, hie]
      simp
    · have hcl4 : Clean g4 := ⟨by rw [e4]; exact f7.clean.pd, hd4, by rw [hl4']; simp [MapChain.push]⟩
      refine ⟨_, _, eb, g5, fl2, g6, (push_clean (openLine_frame hcl4).clean).going, ?_, ?_, h8, h9, rfl⟩
      · rw [show g4.openLine.superBlock = g4.superBlock from (openLine_frame hcl4).sup, e4]
        exact f7.sup.trans hs2
      · obtain ⟨k, e⟩ := openLine_eq g4
        simp only [e, hl4']
  · refine ⟨pre, r, filt, rc, b ++ fl, [], ?_, ⟨w, h1⟩, hrc, hfilt, hcode, htame, .inl ⟨rfl, rfl⟩⟩
    have hd8 : g8.discard = false := hfr.1.clean.d
    have hfl2 : fl2 = [] := by
      refine writeBuf_empty ?_ h8
      obtain ⟨n, hn⟩ := writeBuf_state h5
      rw [handleWs_eq I _ f5.clean.pd] at hn
      have hpd : g4.pdiscard = false := by rw [e4]; exact f7.clean.pd
      rw [handleWs_eq I _ hpd, e4, hn]
      simp [applyWs_nil, wsLit]
    rw [wrap_clean hd8, emit_clean hd2, wrap_clean hd4, emit_clean hdd, hfl2]
    simp

end Gen

/-- Running the block of a loop. -/
theorem loop_ran {t : Target} {r : RExpr} {rc : Option RExpr} {b eb : List Stmt} (hb : tameList b = true)
    {noElse : Bool} (he : noElse = true → eb = []) {ρ ρ' : REnv U} {s : Str} {sig : Sig}
    (h : Stmt.exec W ρ (.block ((if noElse then [] else [.letDid]) ++ [.letIter r]
        ++ (rc.map fun c => [Stmt.filterIter t c]).getD []
        ++ [.forIter t ((if noElse then [] else [.setDid]) ++ b)] ++ (if noElse then [] else [.ifNotDid eb])))
      = some (s, sig, ρ')) : RanLoop W ρ t r rc b eb s sig ρ'.vars := by
  simp only [Stmt.exec] at h
  obtain ⟨⟨s1, sig1, ρ1⟩, hx, h0⟩ := Option.map_eq_some_iff.mp h
  clear h
  cases h0
  -- the head
  have step : ∀ {ρ : REnv U} {st : Stmt} {b : List Stmt} {ρ2 : REnv U}, Stmt.exec W ρ st = some ([], .next, ρ2) →
      execList W ρ (st :: b) = execList W ρ2 b := by
    intro ρ st b ρ2 hst
    simp only [execList, hst, Option.bind_some, List.nil_append]
    cases execList W ρ2 b <;> rfl
  obtain ⟨ρ2, hv2, hi2, hd2, h⟩ : ∃ ρ2 : REnv U, ρ2.vars = ρ.vars ∧ ρ2.item = ρ.item ∧ (noElse = false → ρ2.did = false)
      ∧ execList W ρ2 (.letIter r :: ((rc.map fun c => [Stmt.filterIter t c]).getD []
        ++ [.forIter t ((if noElse then [] else [.setDid]) ++ b)] ++ (if noElse then [] else [.ifNotDid eb])))
        = some (s1, sig1, ρ1) := by
    cases noElse with
    | true => exact ⟨ρ, rfl, rfl, by simp, by simpa using hx⟩
    | false =>
      refine ⟨{ ρ with did := false }, rfl, rfl, fun _ => rfl, ?_⟩
      rw [← hx]
      simp only [Bool.false_eq_true, if_false, List.cons_append, List.nil_append]
      rw [step (ρ := ρ) (st := .letDid) (ρ2 := { ρ with did := false }) (by simp [Stmt.exec])]
  simp only [execList, Option.bind_eq_some_iff] at h
  obtain ⟨⟨s3, sig3, ρ3⟩, h3, h⟩ := h
  simp only [Stmt.exec, Option.bind_eq_some_iff] at h3
  obtain ⟨v, hv, all, hall, h3⟩ : ∃ v, RExpr.eval W ρ2 r = some v ∧ ∃ all, W.iter v = some all
      ∧ (([], .next, { ρ2 with iter := all }) : Str × Sig × REnv U) = (s3, sig3, ρ3) := by
    obtain ⟨v, hv, h3⟩ := h3
    obtain ⟨all, hall, h3⟩ := Option.map_eq_some_iff.mp h3
    exact ⟨v, hv, all, hall, h3⟩
  cases h3
  rw [eval_env hv2 hi2] at hv
  obtain ⟨⟨s4, sig4, ρ4⟩, h4, h⟩ := Option.map_eq_some_iff.mp h
  simp only [List.nil_append, Prod.mk.injEq] at h
  obtain ⟨rfl, rfl, rfl⟩ := h
  -- the filter
  obtain ⟨kept, hkept, h4⟩ : ∃ kept, KeptBy W ρ t rc all kept
      ∧ execList W { ρ2 with iter := kept } ([.forIter t ((if noElse then [] else [.setDid]) ++ b)]
        ++ (if noElse then [] else [.ifNotDid eb])) = some (s4, sig4, ρ4) := by
    cases rc with
    | none => exact ⟨all, rfl, by simpa using h4⟩
    | some c =>
      simp only [Option.map_some, Option.getD_some, List.cons_append, List.nil_append] at h4
      rw [execList] at h4
      obtain ⟨⟨s5, sig5, ρ5⟩, h5, h4⟩ := Option.bind_eq_some_iff.mp h4
      simp only [Stmt.exec] at h5
      obtain ⟨kept, h6, h5⟩ := Option.map_eq_some_iff.mp h5
      cases h5
      obtain ⟨⟨s7, sig7, ρ7⟩, h7, h4⟩ := Option.map_eq_some_iff.mp h4
      simp only [List.nil_append, Prod.mk.injEq] at h4
      obtain ⟨rfl, rfl, rfl⟩ := h4
      refine ⟨kept, ?_, h7⟩
      obtain ⟨passes, p1, p2⟩ := filterItems_kept all h6
      refine ⟨passes, p1, fun x hx => ?_⟩
      obtain ⟨ws, p3, p4⟩ := p2 x hx
      refine ⟨ws, p3, ?_⟩
      rw [← p4]
      congr 1
      exact (eval_env (by simp [hv2]) (by simp [hi2]) c).symm
  simp only [List.cons_append, List.nil_append] at h4
  rw [execList] at h4
  obtain ⟨⟨s5, sig5, ρ5⟩, h5, h4⟩ := Option.bind_eq_some_iff.mp h4
  simp only [Stmt.exec] at h5
  obtain ⟨⟨s6, ρ6⟩, h6, h5⟩ := Option.map_eq_some_iff.mp h5
  cases h5
  obtain ⟨⟨s7, sig7, ρ7⟩, h7, h4⟩ := Option.map_eq_some_iff.mp h4
  simp only [Prod.mk.injEq] at h4
  obtain ⟨rfl, rfl, rfl⟩ := h4
  have h6' : forItems W t (fun ρ => execList W ρ ((if (!noElse) then [.setDid] else []) ++ b)) kept 0
      { ρ2 with iter := kept } = some (s6, ρ6) := by
    rw [← h6]; cases noElse <;> rfl
  obtain ⟨⟨ss, a1, rfl⟩, a3, a4, a5, -⟩ := forItems_rounds hb kept h6'
  dsimp only at a1 a3
  rw [hv2] at a1
  refine ⟨v, all, kept, hv, hall, hkept, ?_⟩
  by_cases hk : kept = []
  · left
    have e5 := a5 hk
    refine ⟨hk, ?_⟩
    have hss : ss = [] := by subst hk; exact codeRounds_nil a1
    subst hss
    cases noElse with
    | true =>
      rw [he rfl]
      simp only [if_true, execList, Option.some.injEq, Prod.mk.injEq] at h7
      obtain ⟨rfl, rfl, rfl⟩ := h7
      exact ⟨ρ6, ρ6, by rw [e5]; exact hv2, by rw [e5]; exact hi2, by simp [execList], rfl⟩
    | false =>
      simp only [Bool.false_eq_true, if_false, execList] at h7
      obtain ⟨⟨s8, sig8, ρ8⟩, h8, h7⟩ := Option.bind_eq_some_iff.mp h7
      have hd5 : ρ6.did = false := by rw [e5]; exact hd2 rfl
      simp only [Stmt.exec, hd5, Bool.false_eq_true, if_false] at h8
      obtain ⟨⟨s9, sig9, ρ9⟩, h9, h8⟩ := Option.map_eq_some_iff.mp h8
      cases h8
      have hv5 : ρ6.vars = ρ.vars := by rw [e5]; exact hv2
      refine ⟨ρ6, ρ9, hv5, by rw [e5]; exact hi2, ?_, ?_⟩
      · cases sig9 with
        | next =>
          simp only [Option.map_some, Option.some.injEq, Prod.mk.injEq, List.append_nil] at h7
          obtain ⟨rfl, rfl, rfl⟩ := h7
          simpa using h9
        | brk => cases h7; simpa using h9
        | cont => cases h7; simpa using h9
      · have : ρ7.vars = leaveVars ρ6.vars ρ9.vars := by
          cases sig9 with
          | next =>
            simp only [Option.map_some, Option.some.injEq, Prod.mk.injEq, List.append_nil] at h7
            obtain ⟨rfl, rfl, rfl⟩ := h7
            rfl
          | brk => cases h7; rfl
          | cont => cases h7; rfl
        dsimp only
        rw [this, hv5]
        simp only [leaveVars, List.length_drop, List.drop_drop]
        congr 1
        omega
  · right
    refine ⟨hk, ?_⟩
    have hvars : ρ7.vars = ρ6.vars ∧ sig7 = .next ∧ s7 = [] := by
      cases noElse with
      | true =>
        simp only [if_true, execList, Option.some.injEq, Prod.mk.injEq] at h7
        obtain ⟨rfl, rfl, rfl⟩ := h7
        exact ⟨rfl, rfl, rfl⟩
      | false =>
        have hd5 : ρ6.did = true := a4 rfl hk
        simp only [Bool.false_eq_true, if_false, execList, Stmt.exec, hd5, if_true, Option.bind_some, Option.map_some,
          Option.some.injEq, Prod.mk.injEq] at h7
        obtain ⟨rfl, rfl, rfl⟩ := h7
        exact ⟨rfl, rfl, rfl⟩
    obtain ⟨hv7, rfl, rfl⟩ := hvars
    exact ⟨rfl, ss, ρ6.vars, a1, by dsimp only; rw [hv7], by simp⟩

theorem execIf_ran {ρ ρ' : REnv U} {s : Str} {sig : Sig} : (bs : List Branch) →
    execIf W ρ bs = some (s, sig, ρ') → RanIf W ρ bs s sig ρ'.vars
  | [], h => by
    simp only [execIf] at h
    cases h
    exact .inr ⟨by simp, rfl, rfl, rfl⟩
  | .mk c b :: bs, h => by
    simp only [execIf] at h
    obtain ⟨q, hc, h⟩ := Option.bind_eq_some_iff.mp h
    cases q with
    | some ρ1 =>
      obtain ⟨⟨s2, sig2, ρ2⟩, h2, h⟩ := Option.map_eq_some_iff.mp h
      cases h
      exact .inl ⟨[], c, b, bs, ρ1, ρ2, rfl, by simp, hc, h2, rfl⟩
    | none =>
      rcases execIf_ran bs h with ⟨pre, c', b', post, ρ1, ρ2, rfl, h1, h2, h3, h4⟩ | ⟨h1, h2⟩
      · refine .inl ⟨.mk c b :: pre, c', b', post, ρ1, ρ2, rfl, ?_, h2, h3, h4⟩
        intro x hx
        rcases List.mem_cons.mp hx with rfl | hx
        · exact ⟨c, b, rfl, hc⟩
        · exact h1 x hx
      · refine .inr ⟨?_, h2⟩
        intro x hx
        rcases List.mem_cons.mp hx with rfl | hx
        · exact ⟨c, b, rfl, hc⟩
        · exact h1 x hx

theorem execMatch_ran {ρ ρ' : REnv U} {v : Val U} {s : Str} {sig : Sig} : (arms : List Arm) →
    execMatch W ρ v arms = some (s, sig, ρ') → RanMatch W ρ v arms s sig ρ'.vars
  | [], h => by simp only [execMatch] at h; cases h
  | .mk t b :: arms, h => by
    simp only [execMatch] at h
    cases hp : patMatch W t v with
    | some ws =>
      rw [hp] at h
      obtain ⟨⟨s2, sig2, ρ2⟩, h2, h⟩ := Option.map_eq_some_iff.mp h
      cases h
      exact ⟨[], t, b, arms, ws, ρ2, rfl, by simp, hp, h2, rfl⟩
    | none =>
      rw [hp] at h
      obtain ⟨pre, t', b', post, ws, ρ2, rfl, h1, h2, h3, h4⟩ := execMatch_ran arms h
      refine ⟨.mk t b :: pre, t', b', post, ws, ρ2, rfl, ?_, h2, h3, h4⟩
      intro x hx
      rcases List.mem_cons.mp hx with rfl | hx
      · exact ⟨t, b, rfl, hp⟩
      · exact h1 x hx

namespace Gen

variable {H : Option Heritage} {ctx : Ctx}

theorem condEnd_eq (rest : List Cond) (ws : Ws) : condEnd rest ws = (rest.head?.map Cond.tag).getD ws := by
  cases rest with
  | nil => rfl
  | cons c rest => obtain ⟨w, c, n⟩ := c; rfl

theorem whenEnd_eq (rest : List When) (ws : Ws) : whenEnd rest ws = (rest.head?.map When.tag).getD ws := by
  cases rest with
  | nil => rfl
  | cons c rest => obtain ⟨w, c, n⟩ := c; rfl

theorem ifBranches_for (hI : I.block = none) {fuel : Nat} {wsEnd : Ws} : (bs : List Cond) → (first : Bool) →
    {g g' : Gen} → {out : List Branch} → Clean g →
    ifBranches (handle I fuel) I H ctx wsEnd first bs g = .ok (out, g') → BranchesFor I H ctx g.superBlock g.locals wsEnd bs out
  | [], _, _, _, _, _, h => by simp only [ifBranches] at h; cases h; exact .nil
  | .mk w cond nodes :: rest, first, g, g', out, hc, h => by
    have hf := handle_frame (I := I) fuel
    obtain ⟨g1, c, g2, body, g3, fl, g4, h1, h2, h3, h4, h5⟩ := ifBranches_inv h
    have f1 := dedentUnless_frame (push_clean hc) h1
    have f2 := f1.trans (branchCond_frame f1.clean h2)
    have f3 := f2.trans (openLine_frame f2.clean)
    have f4 := f3.trans (hf _ _ _ _ _ _ _ h3 f3.clean)
    have f5 := f4.trans (handleWs_frame (I := I) f4.clean (condEnd rest wsEnd))
    have f6 := f5.trans (writeBuf_frame f5.clean h4)
    have a1 : CondFor I g.locals.push cond c g2.locals := by
      refine ⟨g1, g2, ?_, h2, rfl⟩
      obtain ⟨k, e⟩ := dedentUnless_eq h1
      rw [e]
    have a2 : CodeFor I H ctx g.superBlock g2.locals nodes ((rest.head?.map Cond.tag).getD wsEnd) (body ++ fl) := by
      rw [condEnd_eq] at h4
      refine ⟨_, g2.openLine, body, g3, fl, g4, f3.clean.going, f3.sup, ?_, h3, h4, rfl⟩
      obtain ⟨k, e⟩ := openLine_eq g2
      rw [e]
    rcases h5 with ⟨rfl, rfl, rfl⟩ | ⟨bs', hne, h5, rfl⟩
    · exact .cons a1 a2 .nil
    · have hpop := f6.pop rfl
      rw [hpop] at h5
      have hc' : Clean { g4 with locals := g.locals } := ⟨f6.clean.pd, f6.clean.d, hc.wf⟩
      have hs' : g4.superBlock = g.superBlock := f6.sup
      rw [← hs'] at a2 ⊢
      exact .cons a1 a2 (ifBranches_for hI rest false (g := { g4 with locals := g.locals }) hc' h5)

theorem if_shape (hI : I.block = none) {fuel : Nat} {level : Level} {g g' : Gen} {ws : Ws} {bs : List Cond}
    {code : List Stmt} (hc : Clean g)
    (h : handleNode (handle I fuel) I H ctx level g (.if_ ws bs) = .ok (code, g')) :
    ∃ pre out, code = pre ++ [.if_ out] ∧ BranchesFor I H ctx g.superBlock g.locals ws bs out := by
  have h : writeIf (handle I fuel) I H ctx g ws bs = .ok (code, g') := h
  have hfr := writeIf_frame (handle_frame fuel) hc h
  obtain ⟨ws1, c, ns, rest, pre, g1, out, g2, g3, hb, h1, h2, h3, rfl, rfl⟩ := writeIf_inv h
  have f1 := handleWs_frame (I := I) hc ws1
  have f2 := f1.trans (writeBuf_frame f1.clean h1)
  have hl : g1.locals = g.locals := by
    obtain ⟨n, hn⟩ := writeBuf_state h1
    rw [hn, handleWs_eq I _ hc.pd]
  refine ⟨pre, out, ?_, ?_⟩
  · have hd : g3.discard = false := hfr.1.clean.d
    rw [hd]; rfl
  · rw [← hl, ← f2.sup]
    exact ifBranches_for hI _ _ f2.clean h2

theorem matchArms_for (hI : I.block = none) {fuel : Nat} {ws2 : Ws} : (as : List When) → {g g' : Gen} →
    {out : List Arm} → Clean g → matchArms (handle I fuel) I H ctx ws2 as g = .ok (out, g') →
    ArmsFor I H ctx g.superBlock g.locals ws2 as out
  | [], _, _, _, _, h => by simp only [matchArms] at h; cases h; exact .nil
  | .mk w t nodes :: rest, g, g', out, hc, h => by
    have hf := handle_frame (I := I) fuel
    obtain ⟨body, g1, fl, g2, g3, as', h1, h2, h3, h4, rfl⟩ := matchArms_inv h
    have f1 := declare_frame (push_clean hc) t true
    have f2 := f1.trans (openLine_frame f1.clean)
    have f3 := f2.trans (hf _ _ _ _ _ _ _ h1 f2.clean)
    have f4 := f3.trans (handleWs_frame (I := I) f3.clean (whenEnd rest ws2))
    have f5 := f4.trans (writeBuf_frame f4.clean h2)
    have f6 := f5.trans (closeLine_frame f5.clean h3)
    have hpop := f6.pop rfl
    rw [hpop] at h4
    have hc' : Clean { g3 with locals := g.locals } := ⟨f6.clean.pd, f6.clean.d, hc.wf⟩
    have a2 : CodeFor I H ctx g.superBlock (scopeOf g.locals t) nodes ((rest.head?.map When.tag).getD ws2) (body ++ fl) := by
      rw [whenEnd_eq] at h2
      refine ⟨_, _, body, g1, fl, g2, f2.clean.going, f2.sup, ?_, h1, h2, rfl⟩
      obtain ⟨k, e⟩ := openLine_eq (declare { g with locals := g.locals.push } t true)
      rw [e]; rfl
    have hs' : g3.superBlock = g.superBlock := f6.sup
    rw [← hs'] at a2 ⊢
    exact .cons a2 (matchArms_for hI rest (g := { g3 with locals := g.locals }) hc' h4)

theorem match_shape (hI : I.block = none) {fuel : Nat} {level : Level} {g g' : Gen} {ws1 ws2 : Ws} {e : Expr}
    {arms : List When} {code : List Stmt} (hc : Clean g)
    (h : handleNode (handle I fuel) I H ctx level g (.match_ ws1 e arms ws2) = .ok (code, g')) :
    ∃ pre r out, code = pre ++ [.match_ r out] ∧ ExprFor I g.locals e r ∧ ArmsFor I H ctx g.superBlock g.locals ws2 arms out := by
  have h : writeMatch (handle I fuel) I H ctx g ws1 e arms ws2 = .ok (code, g') := h
  have hfr := writeMatch_frame (handle_frame fuel) hc h
  obtain ⟨ws, t, ns, rest, pre, g1, r, w, out, g2, g3, hb, h1, h2, h3, h4, rfl, rfl⟩ := writeMatch_inv h
  have f1 := flushWs_frame (I := I) hc ws1
  have f2 := f1.trans (writeBuf_frame f1.clean h1)
  have f3 := f2.trans (openLine_frame f2.clean)
  have f4 := f3.trans (handleWs_frame (I := I) f3.clean ws)
  have hl : g1.locals = g.locals := by
    obtain ⟨n, hn⟩ := writeBuf_state h1
    rw [hn, flushWs_eq I _ hc.pd]
  have hl2 : (handleWs I g1.openLine ws).locals = g.locals := by
    rw [handleWs_eq I _ f3.clean.pd]
    obtain ⟨k, e⟩ := openLine_eq g1
    simp only [e, hl]
  rw [hl] at h2
  refine ⟨pre, r, out, ?_, ⟨w, h2⟩, ?_⟩
  · rw [hfr.1.clean.d]; rfl
  · rw [← hl2, ← f4.sup]
    exact matchArms_for hI _ f4.clean h3

theorem handleNodes_split (hI : I.block = none) {fuel : Nat} {level : Level} {n : Node} {post : List Node} :
    (pre : List Node) → {g g' : Gen} → {code : List Stmt} → Clean g →
    handleNodes (handle I fuel) I H ctx level (pre ++ n :: post) g = .ok (code, g') →
    ∃ c1 cn c2 L, NodeCode I H ctx g.superBlock L n cn ∧ code = c1 ++ cn ++ c2
  | [], g, g', code, hc, h => by
    simp only [List.nil_append, handleNodes] at h
    obtain ⟨⟨s, g1⟩, h1, h⟩ := except_bind h
    obtain ⟨⟨s', g2⟩, h2, h⟩ := except_bind h
    cases h
    exact ⟨[], s, s', g.locals, ⟨fuel, level, g, g1, hc.going, rfl, rfl, h1⟩, rfl⟩
  | m :: pre, g, g', code, hc, h => by
    simp only [List.cons_append, handleNodes] at h
    obtain ⟨⟨s, g1⟩, h1, h⟩ := except_bind h
    obtain ⟨⟨s', g2⟩, h2, h⟩ := except_bind h
    cases h
    have f1 := handleNode_frame (handle_frame fuel) hc h1
    obtain ⟨c1, cn, c2, L, h3, rfl⟩ := handleNodes_split hI pre f1.clean h2
    rw [f1.sup] at h3
    exact ⟨s ++ c1, cn, c2, L, h3, by simp⟩

/-- The generator meets each of the nodes it is called for. -/
theorem handled_split (hI : I.block = none) {sup : Option (Str × Nat)} {n : Node} {pre post : List Node}
    {code : List Stmt} (h : Handled I H ctx sup (pre ++ n :: post) code) :
    ∃ c1 cn c2 L, NodeCode I H ctx sup L n cn ∧ code = c1 ++ cn ++ c2 := by
  obtain ⟨fuel, level, g, g', hg, rfl, h⟩ := h
  cases fuel with
  | zero => cases h
  | succ fuel =>
    unfold handle at h
    obtain ⟨⟨s, g1⟩, h1, h⟩ := except_bind h
    obtain ⟨⟨s', g2⟩, h2, h⟩ := except_bind h
    cases h
    obtain ⟨c1, cn, c2, L, h3, rfl⟩ := handleNodes_split hI pre (.of_going hg) h1
    exact ⟨c1, cn, c2 ++ s', L, h3, by simp⟩

theorem codeFor_handled {sup : Option (Str × Nat)} {L : Locals} {nodes : List Node} {ws : Ws} {code : List Stmt}
    (h : CodeFor I H ctx sup L nodes ws code) : ∃ b rest, Handled I H ctx sup nodes b ∧ code = b ++ rest := by
  obtain ⟨fuel, g, b, g1, fl, g2, hg, hs, -, h1, -, rfl⟩ := h
  exact ⟨b, fl, ⟨fuel, _, g, g1, hg, hs, h1⟩, rfl⟩

theorem generate_handled (hI : I.block = none) {fuel : Nat} {code : List Stmt} (h : generate I fuel H ctx = .ok code) :
    Handled I H (rootOf H ctx) none (rootOf H ctx).nodes code := by
  unfold generate at h
  obtain ⟨⟨s, g⟩, h1, h⟩ := except_bind h
  replace h := (fits_ok h).2
  obtain ⟨g2, h2, h⟩ := except_bind h
  obtain ⟨g3, h3, h⟩ := except_bind h
  cases h
  exact ⟨fuel, .top, _, g, ⟨by simp [Gen.new, hI], rfl, by simp [Gen.new, MapChain.empty]⟩, rfl, h1⟩

theorem nodeCode_loop (hI : I.block = none) {sup : Option (Str × Nat)} {L : Locals} {ws1 ws2 ws3 : Ws} {t : Target}
    {iter : Expr} {cond : Option Expr} {body els : List Node} {code : List Stmt}
    (h : NodeCode I H ctx sup L (.loop ws1 t iter cond body ws2 els ws3) code) :
    ∃ pre stmt, code = pre ++ [stmt] ∧ LoopCode I H ctx sup L t iter cond body ws2 els ws3 stmt := by
  obtain ⟨fuel, level, g, g', hg, rfl, rfl, h⟩ := h
  obtain ⟨pre, r, filt, rc, b, eb, rfl, h1, h2, rfl, h4, h5, h6⟩ := loop_shape hI (.of_going hg) h
  refine ⟨pre, _, rfl, r, rc, b, eb, h1, h2, h4, h6, ?_⟩
  intro U W ρ ρ' s sig hx
  refine loop_ran h5 (noElse := els.isEmpty) ?_ hx
  intro he
  rcases h6 with ⟨-, h6⟩ | ⟨hne, -⟩
  · exact h6
  · exact absurd (List.isEmpty_iff.mp he) hne

theorem nodeCode_if (hI : I.block = none) {sup : Option (Str × Nat)} {L : Locals} {ws : Ws} {bs : List Cond}
    {code : List Stmt} (h : NodeCode I H ctx sup L (.if_ ws bs) code) :
    ∃ pre stmt, code = pre ++ [stmt] ∧ IfCode I H ctx sup L ws bs stmt := by
  obtain ⟨fuel, level, g, g', hg, rfl, rfl, h⟩ := h
  obtain ⟨pre, out, rfl, h1⟩ := if_shape hI (.of_going hg) h
  refine ⟨pre, _, rfl, out, h1, ?_⟩
  intro U W ρ ρ' s sig hx
  simp only [Stmt.exec] at hx
  exact execIf_ran out hx

theorem nodeCode_match (hI : I.block = none) {sup : Option (Str × Nat)} {L : Locals} {ws1 ws2 : Ws} {e : Expr}
    {arms : List When} {code : List Stmt} (h : NodeCode I H ctx sup L (.match_ ws1 e arms ws2) code) :
    ∃ pre stmt, code = pre ++ [stmt] ∧ MatchCode I H ctx sup L e arms ws2 stmt := by
  obtain ⟨fuel, level, g, g', hg, rfl, rfl, h⟩ := h
  obtain ⟨pre, r, out, rfl, h1, h2⟩ := match_shape hI (.of_going hg) h
  refine ⟨pre, _, rfl, r, out, h1, h2, ?_⟩
  intro U W ρ ρ' s sig hx
  simp only [Stmt.exec] at hx
  obtain ⟨v, hv, hx⟩ := Option.bind_eq_some_iff.mp hx
  exact ⟨v, hv, execMatch_ran out hx⟩

theorem writeBlock_code (hI : I.block = none) {chain : List Ctx} (hH : HChain H chain) {fuel : Nat} {g g' : Gen}
    {name : Option Str} {outer : Ws} {code : List Stmt} (hc : Clean g)
    (h : writeBlock (handle I fuel) I H ctx g name outer = .ok (code, g')) :
    ∃ cur c d c1 b c2, currentBlock name g.superBlock = .ok cur ∧ Defines chain cur.1 cur.2 c d
      ∧ Handled I H (mergeCtx c ctx) (some cur) d.nodes b ∧ code = c1 ++ b ++ c2 := by
  obtain ⟨cur, pre, g1, hh, defs, c, d, b, g2, fl, g3, h1, h2, rfl, h3, h4, h5, h6, rfl, -⟩ :=
    writeBlock_inv h hc.pd hc.d
  refine ⟨cur, c, d, pre, b, fl, h1, ?_, ⟨fuel, _, _, g2, ⟨rfl, rfl, ?_⟩, rfl, h5⟩, rfl⟩
  · rw [← blockDefs_iff, ← hH hh rfl _ _ h3]; exact h4
  · simp [Gen.new, MapChain.empty]

theorem nodeCode_block (hI : I.block = none) {chain : List Ctx} (hH : HChain H chain) {sup : Option (Str × Nat)}
    {L : Locals} {ws1 ws2 : Ws} {name : Str} {nodes : List Node} {code : List Stmt}
    (h : NodeCode I H ctx sup L (.blockDef ws1 name nodes ws2) code) :
    ∃ c d c1 b c2, Defines chain name 0 c d ∧ Handled I H (mergeCtx c ctx) (some (name, 0)) d.nodes b
      ∧ code = c1 ++ b ++ c2 := by
  obtain ⟨fuel, level, g, g', hg, rfl, rfl, h⟩ := h
  obtain ⟨cur, c, d, c1, b, c2, h1, h2, h3, h4⟩ := writeBlock_code hI hH (.of_going hg) h
  have : cur = (name, 0) := by
    cases hs : g.superBlock with
    | none => rw [hs] at h1; cases h1; rfl
    | some nk =>
      obtain ⟨n, k⟩ := nk
      rw [hs] at h1
      simp only [currentBlock] at h1
      split at h1
      · cases h1
      · cases h1; rfl
  subst this
  exact ⟨c, d, c1, b, c2, h2, h3, h4⟩

theorem nodeCode_super (hI : I.block = none) {chain : List Ctx} (hH : HChain H chain) {sup : Option (Str × Nat)}
    {L : Locals} {ws : Ws} {scope : Option Str} {args : List Expr} {code : List Stmt}
    (h : NodeCode I H ctx sup L (.call ws scope c!"super" args) code) :
    ∃ name k c d c1 b c2, sup = some (name, k) ∧ Defines chain name (k + 1) c d
      ∧ Handled I H (mergeCtx c ctx) (some (name, k + 1)) d.nodes b ∧ code = c1 ++ b ++ c2 := by
  obtain ⟨fuel, level, g, g', hg, rfl, rfl, h⟩ := h
  have h : writeBlock (handle I fuel) I H ctx g none ws = .ok (code, g') := by
    simpa only [handleNode, if_true] using h
  obtain ⟨cur, c, d, c1, b, c2, h1, h2, h3, h4⟩ := writeBlock_code hI hH (.of_going hg) h
  cases hs : g.superBlock with
  | none => rw [hs] at h1; cases h1
  | some nk =>
    obtain ⟨n, k⟩ := nk
    rw [hs] at h1
    cases h1
    exact ⟨n, k, c, d, c1, b, c2, rfl, h2, h3, h4⟩

theorem nodeCode_include (hI : I.block = none) (hb : AllBlocksOk I) {sup : Option (Str × Nat)}
    {L : Locals} {ws : Ws} {path : Str} {code : List Stmt} (h : NodeCode I H ctx sup L (.include ws path) code) :
    ∃ q c chain Hc c1 b c2, I.find path = some q ∧ assoc I.contexts q = some c
      ∧ includeChain I (withMacrosOf c ctx) = some chain ∧ HChain Hc chain
      ∧ Handled I Hc (chain.getLastD (withMacrosOf c ctx)) none (chain.getLastD (withMacrosOf c ctx)).nodes b
      ∧ code = c1 ++ b ++ c2 := by
  obtain ⟨fuel, level, g, g', hg, rfl, rfl, h⟩ := h
  have h : handleInclude (handle I fuel) I ctx g ws path = .ok (code, g') := h
  have hc := Clean.of_going hg
  obtain ⟨pre, g1, p, c, Hc, b, g2, fl, g3, h1, h2, h3, h4, h5, h6, rfl, -⟩ := handleInclude_inv h
  have f1 := flushWs_frame (I := I) hc ws
  have f2 := f1.trans (writeBuf_frame f1.clean h1)
  obtain ⟨chain, h7, h8, h9⟩ := includeHeritage_chain (c := mergeCtx c ctx) hb (show BlocksOk c from hb _ _ h3) h4
  have h7 : includeChain I (withMacrosOf c ctx) = some chain := h7
  refine ⟨p, c, chain, Hc, _, b, fl, h2, h3, h7, h9, ?_, rfl⟩
  have h5 : handle I fuel Hc (rootOf Hc (mergeCtx c ctx)) (rootOf Hc (mergeCtx c ctx)).nodes .top _ = .ok (b, g2) := h5
  have h8 : rootOf Hc (mergeCtx c ctx) = chain.getLastD (withMacrosOf c ctx) := h8
  rw [h8] at h5
  exact ⟨fuel, .top, { new I g1.locals.withParent g1.indent g1.discard with pdiscard := g1.pdiscard }, g2,
    ⟨f2.clean.pd, f2.clean.d, by simp [MapChain.withParent, Gen.new]⟩, rfl, h5⟩

theorem nodeCode_call (hI : I.block = none) {sup : Option (Str × Nat)} {L : Locals} {ws : Ws} {scope : Option Str}
    {name : Str} (hn : name ≠ c!"super") {args : List Expr} {code : List Stmt}
    (h : NodeCode I H ctx sup L (.call ws scope name args) code) :
    ∃ d own c1 head b c2, findMacro I ctx scope name = .ok (d, own) ∧ args.length = d.args.length
      ∧ Handled I H own sup d.nodes b ∧ code = c1 ++ [.block (head ++ b ++ c2)] := by
  obtain ⟨fuel, level, g, g', hg, rfl, rfl, h⟩ := h
  have h : writeCall (handle I fuel) I H ctx g ws scope name args = .ok (code, g') := by
    simpa only [handleNode, if_neg hn] using h
  have hc := Clean.of_going hg
  have hfr := writeCall_frame (handle_frame fuel) hc h
  obtain ⟨d, own, pre, g1, named, ns, rs, L, b, g2, fl, g3, g4, h1, h2, h3, h4, h5, h6, h7, h8, h9, rfl⟩ :=
    writeCall_inv h
  have f1 := flushWs_frame (I := I) hc ws
  have f2 := writeBuf_frame (push_clean f1.clean) h2
  have f3 := f2.trans (openLine_frame f2.clean)
  have f4 := f3.trans (prepareWs_frame (I := I) f3.clean d.ws1)
  have hL : L.scopes ≠ [] := (bindParams_frame _ f4.clean.wf h5).1
  rw [wrap_clean hfr.1.clean.d]
  refine ⟨d, own, pre, _, b, fl, h1, h3, ⟨fuel, .nested, { prepareWs I g1.openLine d.ws1 with locals := L }, g2,
    ⟨f4.clean.pd, f4.clean.d, hL⟩, ?_, h6⟩, rfl⟩
  exact f4.sup.trans f1.sup

theorem nodeCode_filter {sup : Option (Str × Nat)} {L : Locals} {ws1 ws2 : Ws} {f : FilterApp}
    {nodes : List Node} {code : List Stmt} (h : NodeCode I H ctx sup L (.filterBlock ws1 f nodes ws2) code) :
    ∃ b c2, Handled I H ctx sup nodes b ∧ code = b ++ c2 := by
  obtain ⟨fuel, level, g, g', hg, rfl, rfl, h⟩ := h
  have h : writeFilterBlock (handle I fuel) I H ctx g ws1 f nodes ws2 = .ok (code, g') := h
  have hc := Clean.of_going hg
  obtain ⟨b, g1, p, g2, h1, h2, h3⟩ := writeFilterBlock_inv h
  have f1 := flushWs_frame (I := I) hc ws1
  have hc2 : Clean { flushWs I g ws1 with pend := [] } := ⟨f1.clean.pd, f1.clean.d, f1.clean.wf⟩
  have f2 := prepareWs_frame (I := I) hc2 ws1
  have hH : Handled I H ctx g.superBlock nodes b := ⟨fuel, _, _, g1, f2.clean.going, f2.sup.trans f1.sup, h1⟩
  rcases h3 with ⟨-, rfl, -⟩ | ⟨st, r, w, -, -, -, rfl, -⟩
  · exact ⟨code, [], hH, by simp⟩
  · exact ⟨b, _, hH, rfl⟩

end Gen

end Askama
