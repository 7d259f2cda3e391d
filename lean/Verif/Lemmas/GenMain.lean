import Verif.Lemmas.GenBlock

/-! The generated code does what the template means. -/

namespace Askama

open Askama.Spec Askama.Gen

variable {U : Type}

/-! ## What the check keeps -/

theorem goodLet_keep {S S' : Sets} {t : Target} {val : Option Expr} (h : goodLet S t val = some S') :
    S'.K = S.K := by
  unfold goodLet at h
  split at h
  · cases val with
    | none =>
      dsimp only at h
      split at h
      · cases h; rfl
      · cases h
    | some e =>
      dsimp only at h
      split at h
      · split at h
        · cases h; rfl
        · split at h
          · cases h; rfl
          · cases h
      · cases h
  · cases h

theorem goodBlock_keep {rc : GoodRec} {chain : List Ctx} {ctx : Ctx} {S S' : Sets} {name : Str} {k : Nat}
    (h : goodBlock rc chain ctx S name k = some S') : S'.K = S.K := by
  unfold goodBlock at h
  split at h
  · cases h
  · split at h
    · cases h
    · split at h
      · cases h; rfl
      · cases h

/-- The names that must not be bound do not change. -/
theorem goodNode_keep {I : GenInput} {rc : GoodRec} {chain : List Ctx} {ctx : Ctx} {sup : Option (Str × Nat)}
    {S S' : Sets} {n : Node} (h : goodNode I rc chain ctx sup S n = some S') : S'.K = S.K := by
  have hif : ∀ {c : Bool} (X : Sets), X.K = S.K → (if c = true then some X else none) = some S' → S'.K = S.K := by
    intro c X hX h
    split at h
    · cases h; exact hX
    · cases h
  have hS : ∀ (X : Sets), X.K = S.K → some X = some S' → S'.K = S.K := by
    intro X hX h; cases h; exact hX
  cases n with
  | lit l => exact hif S rfl h
  | expr w e => exact hif { S with P := Expr.vars e ++ S.P } rfl h
  | call w scope name args =>
    simp only [goodNode] at h
    split at h
    · cases sup with
      | none => cases h
      | some bk => exact goodBlock_keep h
    · exact hif S.flushed rfl h
  | let_ w t val => exact goodLet_keep h
  | if_ w bs => exact hif S.flushed rfl h
  | match_ w e arms w2 => exact hif S.flushed rfl h
  | loop w t iter cond body w2 els w3 => exact hif S.flushed rfl h
  | extends_ p => cases h
  | blockDef w name ns w2 => exact goodBlock_keep h
  | «include» w p => exact hif S.flushed rfl h
  | raw w l w2 => exact hif S rfl h
  | filterBlock w f nodes w2 =>
    simp only [goodNode, goodFilter] at h
    exact hif { S with P := Expr.varsList f.args ++ S.P } rfl h
  | comment w c => exact hS S rfl h
  | import_ w a b => exact hS S rfl h
  | «macro» w a b c d => exact hS S rfl h
  | break_ w => exact hS S.flushed rfl h
  | continue_ w => exact hS S.flushed rfl h

theorem good_keeps (I : GenInput) : (fuel : Nat) → GdKeeps (good I fuel)
  | 0 => by intro _ _ _ _ _ _ h; cases h
  | fuel + 1 => by
    intro chain ctx sup S nodes S' h
    simp only [good] at h
    induction nodes generalizing S with
    | nil => simp only [goodNodes, Option.some.injEq] at h; subst h; rfl
    | cons n ns ih =>
      simp only [goodNodes] at h
      split at h
      · cases h
      · cases hn : goodNode I (good I fuel) chain ctx sup S n with
        | none => rw [hn] at h; cases h
        | some S1 =>
          rw [hn] at h
          exact (ih S1 h).trans (goodNode_keep hn)

section

variable {W : World U} {I : GenInput} {S S' : Sets} {cells : List (Cell U)} {st : Store U} {ρ : REnv U} {g g' : Gen}
  {ts : List (Option Str)} {rec : Handler} {sp : Render U} {gd : GoodRec} {H : Option Heritage} {chain : List Ctx}
  {ctx : Ctx} {sup : Option (Str × Nat)} {level : Level}

/-- Text is pending, no code is written. -/
theorem Ran.pending (R : Rel W S' cells st g'.locals ρ) {ts' : List (Option Str)}
    (hp : PRel W I S' st g'.locals ρ g'.pend ts') {s p : Option Str} {nl : Option WH}
    (ht : oapp (ojoin ts') (some (wsTail nl g')) = oapp p s) {K : List Str} :
    Ran K cells ρ (execList W ρ []) (some (s, .next, st)) p (RanPost W I S' nl g') := by
  simp only [execList]
  unfold Ran
  refine .inr ⟨[], ρ, cells, rfl, .refl _ _, R.svars, R.rvars, rfl, rfl, rfl, R.item, ?_⟩
  rw [if_pos rfl]
  exact ⟨_, by simpa using ht, R, ts', hp, rfl⟩

theorem Ran.jump (hs : Stable W) (hc : Clean g) (R : Rel W S cells st g.locals ρ)
    (hp : PRel W I S st g.locals ρ g.pend ts) {ws : Ws} {pre : List Stmt} {g1 : Gen}
    (h : writeBuf I (Gen.handleWs I g ws) = .ok (pre, g1)) {stm : Stmt} {sig : Sig} (hsig : sig ≠ .next)
    (hst : ∀ ρ : REnv U, stm.exec W ρ = some ([], sig, ρ)) {Q : List (Cell U) → Store U → REnv U → Option Str → Prop} :
    Ran S.K cells ρ (execList W ρ (pre ++ [stm])) (some (some [], sig, st)) (pendText ts (some (sideOf I ws.l)) g) Q := by
  rw [execList_append, handle_flush hs hc R hp h]
  unfold Ran
  cases pendText ts (some (sideOf I ws.l)) g with
  | none => exact .inl ⟨rfl, rfl⟩
  | some s =>
    refine .inr ⟨s, ρ, cells, ?_, .refl _ _, R.svars, R.rvars, rfl, rfl, rfl, R.item, ?_⟩
    · simp [seqE, execList_single, hst]
    · rw [if_neg hsig]; simp

theorem node_sound (hs : Stable W) (hb : AllBlocksOk I) (ok : HandlerOk W I rec sp gd)
    (fr : RecFrame rec) (qr : RecQuiet rec) (qs : SpQuiet sp) (qg : GdQuiet gd) (kg : GdKeeps gd) (td : TopDone rec) (hH : HChain H chain)
    {n : Node} {code : List Stmt} {before : WH} (h : handleNode rec I H ctx level g n = .ok (code, g'))
    (hg : goodNode I gd chain ctx sup S n = some S') (hc : Clean g) (hsup : g.superBlock = sup)
    (hlit : isLitNode n = true → g.nextWs = none ∧ g.skipWs = before)
    (R : Rel W S cells st g.locals ρ) (hp : PRel W I S st g.locals ρ g.pend ts) (nl : Option WH) :
    Ran S.K cells ρ (execList W ρ code) (runNode W I sp chain ctx sup before nl st n)
      (pendText ts (some (sideOf I (leftMark n))) g) (RanPost W I S' nl g')
      ∧ (isLitNode n = false → g'.nextWs = none ∧ g'.skipWs = sideOf I (rightMark n)) := by
  have hif : ∀ {c : Bool} {X : Sets}, (if c = true then some X else none) = some S' → c = true ∧ S' = X := by
    intro c X h
    split at h
    · rename_i hc; cases h; exact ⟨hc, rfl⟩
    · cases h
  cases n with
  | lit l =>
    obtain ⟨g2, h1, h⟩ := except_bind h
    cases h
    obtain ⟨hl, rfl⟩ := hif hg
    obtain ⟨hnw, hsk⟩ := hlit rfl
    obtain ⟨out, nw, sk, rfl, -, ht⟩ := visitLit_eq hc.pd hl h1
    refine ⟨?_, by simp [isLitNode]⟩
    refine Ran.pending (g' := { g with pend := g.pend ++ out.map .lit, nextWs := nw, skipWs := sk }) (S' := S') R
      (hp.append (.lits _)) ?_
    rw [ojoin_append, ojoin_somes, ← hsk, ← ht nl]
    simp [pendText, wsTail_none hnw, oapp_assoc]
  | comment w c =>
    cases h; cases hg
    obtain ⟨ts', h1, h2⟩ := hp.handleWs hc w
    refine ⟨?_, fun _ => by rw [handleWs_eq I w hc.pd]; exact ⟨rfl, rfl⟩⟩
    refine Ran.pending (S' := S) (by rw [handleWs_locals hc]; exact R) h1 ?_
    rw [wsTail_none (by rw [handleWs_eq I w hc.pd]), h2]
    rfl
  | expr w e =>
    obtain ⟨he, rfl⟩ := hif hg
    cases h
    obtain ⟨ts', h1, h2⟩ := hp.handleWs hc w
    have f1 := handleWs_frame (I := I) hc w
    have hpush : writeExpr I g w e = { Gen.handleWs I g w with pend := (Gen.handleWs I g w).pend ++ [.expr e] } := by
      unfold writeExpr push
      rw [if_neg (by simp [f1.clean.pd])]
    have hl := handleWs_locals (I := I) hc w
    refine ⟨?_, fun _ => by rw [hpush, handleWs_eq I w hc.pd]; exact ⟨rfl, rfl⟩⟩
    refine Ran.pending (ts' := ts' ++ [showE W I st none e]) (by rw [hpush, hl]; exact R.setP _) ?_ ?_
    · rw [hpush]
      refine PRel.append ?_ (.cons (.expr e he fun y hy => List.mem_append_left _ hy) .nil)
      exact h1.moreP _
    · rw [wsTail_none (by rw [hpush, handleWs_eq I w hc.pd]), ojoin_append, h2]
      simp [ojoin]; rfl
  | call w scope name args =>
    simp only [handleNode, goodNode, runNode] at h hg ⊢
    split at h
    · rename_i hn
      rw [if_pos hn] at hg ⊢
      cases sup with
      | none => cases hg
      | some bk =>
        refine ⟨block_sound hs ok kg fr hH (cur := (bk.1, bk.2 + 1)) h (by rw [hsup]; rfl) hg hc R hp nl, fun _ => ?_⟩
        exact (writeBlock_frame fr hc h).2.2
    · rename_i hn
      rw [if_neg hn] at hg ⊢
      obtain ⟨hgc, rfl⟩ := hif hg
      have hf := writeCall_frame fr hc h
      exact ⟨call_sound hs ok fr hH h hgc hc hsup R hp nl, fun _ => ⟨hf.2.2.1, hf.2.2.2.1⟩⟩
  | let_ w t val => exact ⟨let_sound hs h hg hc R hp nl, fun _ => (writeLet_frame hc h).2⟩
  | if_ w bs =>
    obtain ⟨hgc, rfl⟩ := hif hg
    have hf := writeIf_frame fr hc h
    exact ⟨if_sound hs ok fr hH h hgc hc hsup R hp nl, fun _ => ⟨hf.2.2.1, hf.2.2.2.1⟩⟩
  | match_ w e arms w2 =>
    obtain ⟨hgc, rfl⟩ := hif hg
    rw [Bool.and_eq_true] at hgc
    have hf := writeMatch_frame fr hc h
    exact ⟨match_sound hs ok fr hH h hgc.1 hgc.2 hc hsup R hp nl, fun _ => ⟨hf.2.2.1, hf.2.2.2.1⟩⟩
  | loop w t iter cond body w2 els w3 =>
    obtain ⟨hgc, rfl⟩ := hif hg
    have hf := writeLoop_frame fr hc h
    exact ⟨loop_sound hs ok fr hH h hgc hc hsup R hp nl, fun _ => ⟨hf.2.2.1, hf.2.2.2.1⟩⟩
  | extends_ p => cases hg
  | blockDef w name ns w2 =>
    simp only [handleNode] at h
    obtain ⟨cur, -, -, -, -, -, -, -, -, -, -, h1, -⟩ := writeBlock_inv h hc.pd hc.d
    have hcur : cur = (name, 0) := by
      cases hsb : g.superBlock with
      | none => rw [hsb] at h1; cases h1; rfl
      | some pg =>
        rw [hsb] at h1
        simp only [currentBlock] at h1
        split at h1
        · cases h1
        · cases h1; rfl
    subst hcur
    exact ⟨block_sound hs ok kg fr hH h h1 hg hc R hp nl, fun _ => (writeBlock_frame fr hc h).2.2⟩
  | «include» w p =>
    obtain ⟨hgc, rfl⟩ := hif hg
    have hf := handleInclude_frame fr hc h
    exact ⟨include_sound hs hb ok fr td h hgc hc R hp nl, fun _ => ⟨hf.2.2.1, hf.2.2.2.1⟩⟩
  | raw w l w2 =>
    obtain ⟨hl, rfl⟩ := hif hg
    obtain ⟨g2, h1, h⟩ := except_bind h
    cases h
    have f1 := handleWs_frame (I := I) hc w
    have f2 := f1.trans (visitLit_frame f1.clean h1)
    obtain ⟨ts', h3, h4⟩ := hp.handleWs hc w
    obtain ⟨out, nw, sk, hg2, -, ht⟩ := visitLit_eq f1.clean.pd hl h1
    have hws := handleWs_eq I (g := g) w hc.pd
    refine ⟨?_, fun _ => by rw [handleWs_eq I w2 f2.clean.pd]; exact ⟨rfl, rfl⟩⟩
    have h5 : PRel W I S' st g2.locals ρ g2.pend (ts' ++ out.map some) := by
      rw [hg2]; exact h3.append (.lits _)
    obtain ⟨ts2, h6, h7⟩ := h5.handleWs f2.clean w2
    refine Ran.pending (by
      rw [handleWs_locals f2.clean, hg2]
      show Rel W S' cells st (Gen.handleWs I g w).locals ρ
      rw [handleWs_locals hc]; exact R) h6 ?_
    rw [wsTail_none (by rw [handleWs_eq I w2 f2.clean.pd]), h7]
    have hsk : (Gen.handleWs I g w).skipWs = sideOf I w.r := by rw [hws]
    have ht' := ht (some (sideOf I w2.l))
    rw [hsk] at ht'
    unfold pendText
    rw [ojoin_append, ojoin_somes, h4, ← ht']
    simp [pendText, leftMark, oapp_assoc]
  | import_ w a b =>
    simp only [handleNode] at h
    split at h
    · cases h; cases hg
      obtain ⟨ts', h1, h2⟩ := hp.handleWs hc w
      refine ⟨?_, fun _ => by rw [handleWs_eq I w hc.pd]; exact ⟨rfl, rfl⟩⟩
      refine Ran.pending (S' := S) (by rw [handleWs_locals hc]; exact R) h1 ?_
      rw [wsTail_none (by rw [handleWs_eq I w hc.pd]), h2]
      rfl
    · cases h
  | «macro» w a b c w2 =>
    simp only [handleNode] at h
    split at h
    · cases h; cases hg
      obtain ⟨ts', h1, h2⟩ := hp.flushWs hc w
      refine ⟨?_, fun _ => ?_⟩
      · refine Ran.pending (g' := prepareWs I (Gen.flushWs I g w) w2) (S' := S) (by
          show Rel W S cells st (Gen.flushWs I g w).locals ρ
          rw [flushWs_locals hc]; exact R) h1 ?_
        rw [wsTail_none (by show (Gen.flushWs I g w).nextWs = none; rw [flushWs_eq I w hc.pd]), h2]
        rfl
      · refine ⟨?_, shouldTrimWs_side I _⟩
        show (Gen.flushWs I g w).nextWs = none
        rw [flushWs_eq I w hc.pd]
    · cases h
  | break_ w =>
    cases hg
    obtain ⟨⟨s, g1⟩, h1, h⟩ := except_bind h
    cases h
    have f1 := handleWs_frame (I := I) hc w
    have f2 := f1.trans (writeBuf_frame f1.clean h1)
    have hemit : (emit g' [.brk] : List Stmt) = [.brk] := by unfold emit; rw [if_neg (by simp [f2.clean.d])]
    obtain ⟨b1, b2, b3, b4, b5⟩ := writeBuf_locals h1
    rw [handleWs_eq I w hc.pd] at b3 b4
    rw [hemit]
    exact ⟨Ran.jump hs hc R hp h1 (by simp) (fun _ => rfl), fun _ => ⟨b3, b4⟩⟩
  | continue_ w =>
    cases hg
    obtain ⟨⟨s, g1⟩, h1, h⟩ := except_bind h
    cases h
    have f1 := handleWs_frame (I := I) hc w
    have f2 := f1.trans (writeBuf_frame f1.clean h1)
    have hemit : (emit g' [.cont] : List Stmt) = [.cont] := by unfold emit; rw [if_neg (by simp [f2.clean.d])]
    obtain ⟨b1, b2, b3, b4, b5⟩ := writeBuf_locals h1
    rw [handleWs_eq I w hc.pd] at b3 b4
    rw [hemit]
    exact ⟨Ran.jump hs hc R hp h1 (by simp) (fun _ => rfl), fun _ => ⟨b3, b4⟩⟩
  | filterBlock w f nodes w2 =>
    refine ⟨filter_sound hs ok fr qr qs qg hH h hg hc hsup R hp nl, fun _ => ?_⟩
    simp only [goodNode, goodFilter] at hg
    obtain ⟨hg, -⟩ := hif hg
    simp only [Bool.and_eq_true] at hg
    exact writeFilterBlock_ws fr hc qr hg.1.1.1 hg.1.1.2 h

theorem nodes_sound (hs : Stable W) (hb : AllBlocksOk I) (ok : HandlerOk W I rec sp gd)
    (fr : RecFrame rec) (qr : RecQuiet rec) (qs : SpQuiet sp) (qg : GdQuiet gd) (kg : GdKeeps gd) (td : TopDone rec) (hH : HChain H chain)
    {after : Option WH} : (ns : List Node) → {before : WH} → {S S' : Sets} → {g g' : Gen} → {code : List Stmt} →
    {cells : List (Cell U)} → {st : Store U} → {ρ : REnv U} → {ts : List (Option Str)} →
    handleNodes rec I H ctx level ns g = .ok (code, g') → goodNodes I gd chain ctx sup S ns = some S' → Clean g →
    g.superBlock = sup → ((ns.head?.map isLitNode).getD false = true → g.nextWs = none ∧ g.skipWs = before) →
    Rel W S cells st g.locals ρ → PRel W I S st g.locals ρ g.pend ts →
    Ran S.K cells ρ (execList W ρ code) (runNodes W I sp chain ctx sup before ns after st)
      (pendText ts (nextSide I ns after) g) (RanPost W I S' after g')
  | [], before, S, S', g, g', code, cells, st, ρ, ts, h, hg, hc, hsup, hlit, R, hp => by
    simp only [handleNodes, Except.ok.injEq, Prod.mk.injEq] at h
    obtain ⟨rfl, rfl⟩ := h
    simp only [goodNodes, Option.some.injEq] at hg
    subst hg
    exact Ran.pending R hp (by simp [pendText, nextSide])
  | n :: ns, before, S, S', g, g', code, cells, st, ρ, ts, h, hg, hc, hsup, hlit, R, hp => by
    simp only [handleNodes] at h
    obtain ⟨⟨s1, g1⟩, h1, h⟩ := except_bind h
    obtain ⟨⟨s2, g2⟩, h2, h⟩ := except_bind h
    cases h
    simp only [goodNodes] at hg
    split at hg
    · cases hg
    · rename_i hlits
      cases hn : goodNode I gd chain ctx sup S n with
      | none => rw [hn] at hg; cases hg
      | some S1 =>
        rw [hn] at hg
        dsimp only at hg
        obtain ⟨o1, o2⟩ := node_sound hs hb ok fr qr qs qg kg td hH h1 hn hc hsup (by simpa using hlit) R hp
          (nextSide I ns after)
        have f1 := handleNode_frame fr hc h1
        rw [execList_append]
        refine Ran.seq o1 ?_
        rintro cells' st' ρ' q - - - - ⟨R', ts', hp', rfl⟩
        have ih := nodes_sound (after := after) hs hb ok fr qr qs qg kg td hH ns (before := sideOf I (rightMark n)) h2 hg f1.clean
          (f1.sup.trans hsup) (fun hh => o2 (by
            cases hl : isLitNode n with
            | false => rfl
            | true => rw [hl, hh] at hlits; simp at hlits)) R' hp'
        rw [goodNode_keep hn] at ih
        exact ih

theorem handle_top {fuel : Nat} : TopDone (handle I fuel) := by
  intro H ctx nodes g code g' h
  cases fuel with
  | zero => cases h
  | succ fuel =>
    unfold handle at h
    obtain ⟨⟨s, g1⟩, h1, h⟩ := except_bind h
    obtain ⟨⟨s', g2⟩, h2, h⟩ := except_bind h
    cases h
    unfold handleEnd at h2
    rw [if_pos rfl] at h2
    obtain ⟨b1, b2, b3, b4, b5⟩ := writeBuf_locals h2
    rw [b3]
    split
    · unfold flushWs
      split
      · assumption
      · rfl
    · rename_i hn; simpa using hn

theorem handle_written {fuel : Nat} {nodes : List Node} {code : List Stmt}
    (h : handle I fuel H ctx nodes .top g = .ok (code, g')) : g'.pend = [] := by
  cases fuel with
  | zero => cases h
  | succ fuel =>
    unfold handle at h
    obtain ⟨⟨s, g1⟩, h1, h⟩ := except_bind h
    obtain ⟨⟨s', g2⟩, h2, h⟩ := except_bind h
    cases h
    unfold handleEnd at h2
    rw [if_pos rfl] at h2
    exact (writeBuf_locals h2).2.1

/-- The end of a whole template. -/
theorem top_end (hs : Stable W) (hc : Clean g) {code : List Stmt} (h : handleEnd I .top g = .ok (code, g'))
    (R : Rel W S cells st g.locals ρ) (hp : PRel W I S st g.locals ρ g.pend ts) {K : List Str} :
    Ran K cells ρ (execList W ρ code) (silent st) (pendText ts none g) (RanPost W I S none g') := by
  unfold handleEnd at h
  rw [if_pos rfl] at h
  have key : ∀ g1, Clean g1 → g1.locals = g.locals → g1.nextWs = none → ∀ ts', PRel W I S st g1.locals ρ g1.pend ts' →
      ojoin ts' = pendText ts none g → writeBuf I g1 = .ok (code, g') →
      Ran K cells ρ (execList W ρ code) (silent st) (pendText ts none g) (RanPost W I S none g') := by
    intro g1 hc1 hl hnw ts' hp' ht hw
    obtain ⟨b1, b2, b3, b4, b5⟩ := writeBuf_locals hw
    rw [writeBuf_exec hs hw hc1.d (by rw [hl]; exact R) hp', ← ht]
    unfold Ran silent
    cases ojoin ts' with
    | none => exact .inl ⟨rfl, rfl⟩
    | some s =>
      refine .inr ⟨s, ρ, cells, rfl, .refl _ _, R.svars, R.rvars, rfl, rfl, rfl, R.item, ?_⟩
      rw [if_pos rfl]
      refine ⟨some [], by simp, by rw [b1, hl]; exact R, [], by rw [b2]; exact .nil, ?_⟩
      rw [wsTail_none (b3.trans hnw)]
      simp [ojoin]
  dsimp only at h
  split at h
  · obtain ⟨ts', h1, h2⟩ := hp.flushWs hc ⟨some (WH.toWsp g.skipWs), none⟩
    refine key _ (flushWs_frame hc _).clean (flushWs_locals hc _) (by rw [flushWs_eq I _ hc.pd]) ts' h1 ?_ h
    rw [h2]
    have : sideOf I (some (WH.toWsp g.skipWs)) = g.skipWs := by cases g.skipWs <;> rfl
    simp [pendText, wsTail, this]
  · rename_i hn
    have hn : g.nextWs = none := by simpa using hn
    refine key g hc rfl hn ts hp ?_ h
    simp [pendText, wsTail_none hn]

end

/-- The generator is faithful at any depth. -/
theorem handle_ok {W : World U} {I : GenInput} (hs : Stable W) (hb : AllBlocksOk I) :
    (fuel : Nat) → HandlerOk W I (handle I fuel) (run W I fuel) (good I fuel)
  | 0 => by intro h; cases h
  | fuel + 1 => by
    have ih : HandlerOk W I (handle I fuel) (run W I fuel) (good I fuel) := handle_ok hs hb fuel
    rename_i H chain ctx sup before nodes after level S S' g g' code cells st ρ ts
    intro h hg hc hsup hH hlv hlit R hp
    unfold handle at h
    obtain ⟨⟨s, g1⟩, h1, h⟩ := except_bind h
    obtain ⟨⟨s', g2⟩, h2, h⟩ := except_bind h
    cases h
    have f1 := handleNodes_frame (handle_frame fuel) nodes hc h1
    have o1 := nodes_sound (after := after) hs hb ih (handle_frame fuel)
      (handle_quiet fuel) (run_quiet W I fuel) (good_quiet I fuel) (good_keeps I fuel) handle_top hH nodes h1 hg hc hsup hlit R hp
    by_cases hl : level = .top
    · subst hl
      have ha := hlv.mp rfl
      subst ha
      rw [execList_append]
      have := Ran.seq (kE := fun ρ' => execList W ρ' s') (kS := silent) o1 (Q' := RanPost W I S' none g') (by
        rintro cells' st' ρ' q - - - - ⟨R', ts', hp', rfl⟩
        exact top_end hs f1.clean h2 R' hp')
      rw [seqS_silent_right] at this
      exact this
    · unfold handleEnd at h2
      rw [if_neg hl] at h2
      cases h2
      rw [List.append_nil]
      exact o1

/-- At the start there are no variables. -/
theorem Rel.start {W : World U} (did : Bool) (iter : List (Val U)) :
    Rel W ⟨[], [], [], [], []⟩ [] ⟨[], [], none⟩ MapChain.empty ⟨[], none, did, iter⟩ := by
  have hn : ∀ n, MapChain.get (MapChain.empty : Locals) n = none := MapChain.get_empty
  refine ⟨rfl, rfl, rfl, by simp [MapChain.empty], ?_, ?_, ?_, ?_, ?_, ?_, ?_, ?_, ?_, ?_,
    fun n _ _ _ => .inl ⟨rfl, fun c hc => by cases hc⟩, ?_, rfl⟩
  · intro n m h; rw [hn] at h; cases h
  · intro n m h; rw [hn] at h; cases h
  · intro n m h; rw [hn] at h; cases h
  · intro n _ _; rfl
  · intro n m _ h; rw [hn] at h; cases h
  · intro n m r h; rw [hn] at h; cases h
  all_goals intro n h; cases h

/-- Running the body of `render_into` makes the text of the template and ends like it. -/
theorem generate_ran {W : World U} {I : GenInput} (hI : I.block = none) (hs : Stable W) (hb : AllBlocksOk I)
    {H : Option Heritage} {chain : List Ctx} {ctx : Ctx} (hH : HChain H chain) (hr : rootOf H ctx = chain.getLastD ctx)
    {fuel : Nat} {code : List Stmt} (hg : goodTemplate I fuel chain ctx = true)
    (h : generate I fuel H ctx = .ok code) (did : Bool) (iter : List (Val U)) :
    (execList W ⟨[], none, did, iter⟩ code).map (fun r => (r.1, r.2.1))
      = (run W I fuel chain (chain.getLastD ctx) none .preserve (chain.getLastD ctx).nodes none ⟨[], [], none⟩).bind
          fun r => r.1.map (·, r.2.1) := by
  unfold generate at h
  obtain ⟨⟨s, g⟩, h1, h⟩ := except_bind h
  replace h := (fits_ok h).2
  obtain ⟨g2, h2, h⟩ := except_bind h
  obtain ⟨g3, h3, h⟩ := except_bind h
  cases h
  change handle I fuel H (rootOf H ctx) (rootOf H ctx).nodes .top (Gen.new I .empty 2 false) = .ok (code, g) at h1
  rw [hr] at h1
  have hh := h1
  unfold goodTemplate at hg
  obtain ⟨S', hS⟩ := Option.isSome_iff_exists.mp hg
  have hc : Clean (Gen.new I .empty 2 false) := ⟨by simp [Gen.new, hI], rfl, by simp [Gen.new, MapChain.empty]⟩
  have := handle_ok hs hb fuel (before := .preserve) (after := none) h1 hS hc rfl hH (by simp)
    (fun _ => ⟨rfl, rfl⟩) (Rel.start (W := W) did iter) (ts := []) .nil
  generalize run W I fuel chain (chain.getLastD ctx) none .preserve (chain.getLastD ctx).nodes none ⟨[], [], none⟩ = q
    at this
  rw [show pendText [] (nextSide I (chain.getLastD ctx).nodes none) (Gen.new I .empty 2 false) = some [] from by
    simp [pendText, ojoin, Gen.new, wsTail]] at this
  unfold Ran at this
  cases q with
  | none => simp only at this; rw [this]; rfl
  | some q =>
    obtain ⟨s, sig, st'⟩ := q
    dsimp only at this
    rcases this with ⟨h1, h2⟩ | ⟨o, ρ', cells', h1, -, -, -, -, -, -, -, h2⟩
    · rw [h1]
      simp only [oapp_nil_left] at h2
      rw [h2]; rfl
    · rw [h1]
      simp only [oapp_nil_left] at h2
      split at h2
      · obtain ⟨q, h3, -, ts', hp', hq⟩ := h2
        rw [handle_written hh] at hp'
        cases hp'
        rw [wsTail_none (handle_top _ _ _ _ _ _ hh)] at hq
        subst hq
        rw [← h3]
        simp [ojoin]
      · rw [h2]; rfl

/-- Running the body of `render_into` makes the text of the template. -/
theorem generate_sound {W : World U} {I : GenInput} (hI : I.block = none) (hs : Stable W) (hb : AllBlocksOk I)
    {H : Option Heritage} {chain : List Ctx} {ctx : Ctx} (hH : HChain H chain) (hr : rootOf H ctx = chain.getLastD ctx)
    {fuel : Nat} {code : List Stmt} (hg : goodTemplate I fuel chain ctx = true)
    (h : generate I fuel H ctx = .ok code) (did : Bool) (iter : List (Val U)) :
    (execList W ⟨[], none, did, iter⟩ code).map (·.1) = render W I fuel chain ctx := by
  have e := congrArg (Option.map Prod.fst) (generate_ran hI hs hb hH hr hg h did iter)
  rw [Option.map_map] at e
  unfold render
  rw [show (fun r : Str × Sig × REnv U => r.1) = Prod.fst ∘ fun r => (r.1, r.2.1) from rfl, e]
  dsimp only
  cases run W I fuel chain (chain.getLastD ctx) none .preserve (chain.getLastD ctx).nodes none ⟨[], [], none⟩ with
  | none => rfl
  | some q => obtain ⟨s, sig, st⟩ := q; cases s <;> rfl

end Askama
