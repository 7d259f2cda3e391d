import Verif.Lemmas.GenStatic

/-! Generated code keeps its hands off the bookkeeping of loops around it: `_did_loop`, `_iter` and the loop item. -/

namespace Askama

open Askama.Spec

mutual
/-- The statement does not use the variables `_did_loop` and `_iter`, except inside a block of its own. -/
def tame : Stmt → Bool
  | .letDid | .setDid | .letIter _ | .filterIter _ _ | .forIter _ _ | .ifNotDid _ => false
  | .if_ bs => tameIf bs
  | .match_ _ arms => tameArms arms
  | _ => true
/-- The same for statements in order. -/
def tameList : List Stmt → Bool
  | [] => true
  | s :: ss => tame s && tameList ss
/-- The same for branches. -/
def tameIf : List Branch → Bool
  | [] => true
  | .mk _ b :: bs => tameList b && tameIf bs
/-- The same for arms. -/
def tameArms : List Arm → Bool
  | [] => true
  | .mk _ b :: arms => tameList b && tameArms arms
end

section

variable {U : Type} {W : World U}

/-- The bookkeeping of the loop around is the same. -/
structure SameLoop (ρ ρ' : REnv U) : Prop where
  item : ρ'.item = ρ.item
  did : ρ'.did = ρ.did
  iter : ρ'.iter = ρ.iter

theorem SameLoop.trans {a b c : REnv U} (h : SameLoop a b) (h2 : SameLoop b c) : SameLoop a c :=
  ⟨h2.item.trans h.item, h2.did.trans h.did, h2.iter.trans h.iter⟩

theorem holds_same {ρ ρ' : REnv U} {c : RCond} (h : c.holds W ρ = some (some ρ')) : SameLoop ρ ρ' := by
  cases c with
  | always => simp only [RCond.holds] at h; cases h; exact ⟨rfl, rfl, rfl⟩
  | test e =>
    simp only [RCond.holds] at h
    obtain ⟨b, -, h⟩ := Option.map_eq_some_iff.mp h
    cases b
    · cases h
    · cases h; exact ⟨rfl, rfl, rfl⟩
  | let_ t e =>
    simp only [RCond.holds] at h
    obtain ⟨v, -, h⟩ := Option.map_eq_some_iff.mp h
    obtain ⟨vs, -, h⟩ := Option.map_eq_some_iff.mp h
    cases h; exact ⟨rfl, rfl, rfl⟩
  | letChain op t l r =>
    simp only [RCond.holds] at h
    split at h
    · obtain ⟨v, -, h⟩ := Option.bind_eq_some_iff.mp h
      split at h
      · cases h
      · obtain ⟨b, -, h⟩ := Option.map_eq_some_iff.mp h
        cases b
        · cases h
        · cases h; exact ⟨rfl, rfl, rfl⟩
    · cases h

mutual
theorem exec_tame {ρ ρ' : REnv U} {s : Str} {sig : Sig} : (st : Stmt) → tame st = true →
    Stmt.exec W ρ st = some (s, sig, ρ') → SameLoop ρ ρ'
  | .writeLit _, _, h => by simp only [Stmt.exec] at h; cases h; exact ⟨rfl, rfl, rfl⟩
  | .writeFmt _ _, _, h => by
    simp only [Stmt.exec, Option.map_eq_some_iff] at h; obtain ⟨_, -, h⟩ := h; cases h; exact ⟨rfl, rfl, rfl⟩
  | .letDecl _, _, h => by simp only [Stmt.exec] at h; cases h; exact ⟨rfl, rfl, rfl⟩
  | .letInit _ _, _, h => by
    simp only [Stmt.exec, Option.bind_eq_some_iff, Option.map_eq_some_iff] at h
    obtain ⟨_, -, _, -, h⟩ := h; cases h; exact ⟨rfl, rfl, rfl⟩
  | .assign _ _, _, h => by
    simp only [Stmt.exec, Option.bind_eq_some_iff, Option.map_eq_some_iff] at h
    obtain ⟨_, -, _, -, h⟩ := h; cases h; exact ⟨rfl, rfl, rfl⟩
  | .letMany _ _, _, h => by
    simp only [Stmt.exec, Option.map_eq_some_iff] at h; obtain ⟨_, -, h⟩ := h; cases h; exact ⟨rfl, rfl, rfl⟩
  | .letStr _ _, _, h => by simp only [Stmt.exec] at h; cases h; exact ⟨rfl, rfl, rfl⟩
  | .letFmt _ _ _, _, h => by
    simp only [Stmt.exec, Option.map_eq_some_iff] at h; obtain ⟨_, -, h⟩ := h; cases h; exact ⟨rfl, rfl, rfl⟩
  | .if_ bs, hs, h => by
    simp only [Stmt.exec] at h
    exact execIf_tame bs (by simpa only [tame] using hs) h
  | .match_ _ arms, hs, h => by
    simp only [Stmt.exec, Option.bind_eq_some_iff] at h
    obtain ⟨v, -, h⟩ := h
    exact execMatch_tame arms (by simpa only [tame] using hs) h
  | .block b, _, h => by
    simp only [Stmt.exec, Option.map_eq_some_iff] at h
    obtain ⟨⟨s1, sig1, ρ1⟩, -, h⟩ := h
    cases h; exact ⟨rfl, rfl, rfl⟩
  | .letDid, hs, _ => by simp [tame] at hs
  | .setDid, hs, _ => by simp [tame] at hs
  | .letIter _, hs, _ => by simp [tame] at hs
  | .filterIter _ _, hs, _ => by simp [tame] at hs
  | .forIter _ _, hs, _ => by simp [tame] at hs
  | .ifNotDid _, hs, _ => by simp [tame] at hs
  | .brk, _, h => by simp only [Stmt.exec] at h; cases h; exact ⟨rfl, rfl, rfl⟩
  | .cont, _, h => by simp only [Stmt.exec] at h; cases h; exact ⟨rfl, rfl, rfl⟩
  | .includeBytes _, _, h => by simp only [Stmt.exec] at h; cases h; exact ⟨rfl, rfl, rfl⟩
termination_by st => sizeOf st
theorem execList_tame {ρ ρ' : REnv U} {s : Str} {sig : Sig} : (b : List Stmt) → tameList b = true →
    execList W ρ b = some (s, sig, ρ') → SameLoop ρ ρ'
  | [], _, h => by simp only [execList] at h; cases h; exact ⟨rfl, rfl, rfl⟩
  | st :: sts, hs, h => by
    simp only [tameList, Bool.and_eq_true] at hs
    simp only [execList, Option.bind_eq_some_iff] at h
    obtain ⟨⟨s1, sig1, ρ1⟩, h1, h⟩ := h
    have a := exec_tame st hs.1 h1
    cases sig1 with
    | next =>
      obtain ⟨⟨s2, sig2, ρ2⟩, h2, h⟩ := Option.map_eq_some_iff.mp h
      cases h
      exact a.trans (execList_tame sts hs.2 h2)
    | brk => cases h; exact a
    | cont => cases h; exact a
termination_by b => sizeOf b
theorem execIf_tame {ρ ρ' : REnv U} {s : Str} {sig : Sig} : (bs : List Branch) → tameIf bs = true →
    execIf W ρ bs = some (s, sig, ρ') → SameLoop ρ ρ'
  | [], _, h => by simp only [execIf] at h; cases h; exact ⟨rfl, rfl, rfl⟩
  | .mk c b :: bs, hs, h => by
    simp only [tameIf, Bool.and_eq_true] at hs
    simp only [execIf, Option.bind_eq_some_iff] at h
    obtain ⟨r, hr, h⟩ := h
    cases r with
    | none => exact execIf_tame bs hs.2 h
    | some ρ1 =>
      obtain ⟨⟨s2, sig2, ρ2⟩, h2, h⟩ := Option.map_eq_some_iff.mp h
      cases h
      have a := (holds_same hr).trans (execList_tame b hs.1 h2)
      exact ⟨a.item, a.did, a.iter⟩
termination_by bs => sizeOf bs
theorem execMatch_tame {ρ ρ' : REnv U} {v : Val U} {s : Str} {sig : Sig} : (arms : List Arm) → tameArms arms = true →
    execMatch W ρ v arms = some (s, sig, ρ') → SameLoop ρ ρ'
  | [], _, h => by simp only [execMatch] at h; cases h
  | .mk t b :: arms, hs, h => by
    simp only [tameArms, Bool.and_eq_true] at hs
    simp only [execMatch] at h
    cases hp : patMatch W t v with
    | none => rw [hp] at h; exact execMatch_tame arms hs.2 h
    | some vs =>
      rw [hp] at h
      obtain ⟨⟨s2, sig2, ρ2⟩, h2, h⟩ := Option.map_eq_some_iff.mp h
      cases h
      have a := execList_tame b hs.1 h2
      exact ⟨a.item, a.did, a.iter⟩
termination_by arms => sizeOf arms
end

end

theorem tameList_append (a b : List Stmt) : tameList (a ++ b) = (tameList a && tameList b) := by
  induction a with
  | nil => rfl
  | cons s a ih => simp only [List.cons_append, tameList, ih, Bool.and_assoc]

theorem tame_append {a b : List Stmt} (ha : tameList a = true) (hb : tameList b = true) : tameList (a ++ b) = true := by
  rw [tameList_append, ha, hb]; rfl

namespace Gen

variable {I : GenInput} {rec : Handler} {H : Option Heritage} {ctx : Ctx}

theorem tame_emit {g : Gen} {s : List Stmt} (h : tameList s = true) : tameList (g.emit s) = true := by
  unfold emit; split
  · rfl
  · exact h

theorem writeBuf_tame {g g' : Gen} {code : List Stmt} (h : writeBuf I g = .ok (code, g')) : tameList code = true := by
  unfold writeBuf at h
  obtain ⟨⟨p, g1⟩, -, h⟩ := except_bind h
  cases p with
  | none => cases h; rfl
  | plain s => cases h; exact tame_emit rfl
  | formatted f as => cases h; exact tame_emit rfl

theorem flushIf_tame {g g' : Gen} {c : Bool} {code : List Stmt} (h : flushIf I c g = .ok (code, g')) :
    tameList code = true := by
  unfold flushIf at h
  split at h
  · exact writeBuf_tame h
  · cases h; rfl

/-- The handler for nested nodes makes such code. -/
def RecTame (rec : Handler) : Prop := ∀ H ctx nodes level g code g', rec H ctx nodes level g = .ok (code, g') →
  Clean g → tameList code = true

theorem ifBranches_tame (hf : RecFrame rec) (hr : RecTame rec) {wsEnd : Ws} : (bs : List Cond) → (first : Bool) →
    {g g' : Gen} → {out : List Branch} → Clean g → ifBranches rec I H ctx wsEnd first bs g = .ok (out, g') →
      tameIf out = true
  | [], _, _, _, _, _, h => by simp only [ifBranches] at h; cases h; rfl
  | .mk w cond nodes :: rest, first, g, g', out, hc, h => by
    obtain ⟨g1, c, g2, body, g3, fl, g4, h1, h2, h3, h4, h5⟩ := ifBranches_inv h
    have f1 := dedentUnless_frame (push_clean hc) h1
    have f2 := f1.trans (branchCond_frame f1.clean h2)
    have f3 := f2.trans (openLine_frame f2.clean)
    have t3 := hr _ _ _ _ _ _ _ h3 f3.clean
    have f4 := f3.trans (hf _ _ _ _ _ _ _ h3 f3.clean)
    have f5 := f4.trans (handleWs_frame (I := I) f4.clean (condEnd rest wsEnd))
    have f6 := f5.trans (writeBuf_frame f5.clean h4)
    have t := tame_append t3 (writeBuf_tame h4)
    rcases h5 with ⟨rfl, rfl, rfl⟩ | ⟨bs', hne, h5, rfl⟩
    · simp only [tameIf, t, Bool.and_self]
    · have hpop := f6.pop rfl
      rw [hpop] at h5
      have hc' : Clean { g4 with locals := g.locals } := ⟨f6.clean.pd, f6.clean.d, hc.wf⟩
      simp only [tameIf, t, ifBranches_tame hf hr rest false hc' h5, Bool.and_self]

theorem writeIf_tame (hf : RecFrame rec) (hr : RecTame rec) {g g' : Gen} {ws : Ws} {branches : List Cond}
    {code : List Stmt} (hc : Clean g) (h : writeIf rec I H ctx g ws branches = .ok (code, g')) :
    tameList code = true := by
  have hfr := writeIf_frame hf hc h
  obtain ⟨ws1, c, ns, rest, pre, g1, bs, g2, g3, rfl, h1, h2, h3, rfl, rfl⟩ := writeIf_inv h
  have f1 := handleWs_frame (I := I) hc ws1
  have f2 := f1.trans (writeBuf_frame f1.clean h1)
  have hd : g3.discard = false := hfr.1.clean.d
  rw [hd]
  refine tame_append (writeBuf_tame h1) ?_
  simp only [Bool.false_eq_true, if_false, tameList, tame, ifBranches_tame hf hr _ _ f2.clean h2, Bool.and_self]

theorem matchArms_tame (hf : RecFrame rec) (hr : RecTame rec) {ws2 : Ws} : (as : List When) → {g g' : Gen} →
    {out : List Arm} → Clean g → matchArms rec I H ctx ws2 as g = .ok (out, g') → tameArms out = true
  | [], _, _, _, _, h => by simp only [matchArms] at h; cases h; rfl
  | .mk w t nodes :: rest, g, g', out, hc, h => by
    obtain ⟨body, g1, fl, g2, g3, as', h1, h2, h3, h4, rfl⟩ := matchArms_inv h
    have f1 := declare_frame (push_clean hc) t true
    have f2 := f1.trans (openLine_frame f1.clean)
    have t3 := hr _ _ _ _ _ _ _ h1 f2.clean
    have f3 := f2.trans (hf _ _ _ _ _ _ _ h1 f2.clean)
    have f4 := f3.trans (handleWs_frame (I := I) f3.clean (whenEnd rest ws2))
    have f5 := f4.trans (writeBuf_frame f4.clean h2)
    have f6 := f5.trans (closeLine_frame f5.clean h3)
    have hpop := f6.pop rfl
    rw [hpop] at h4
    have hc' : Clean { g3 with locals := g.locals } := ⟨f6.clean.pd, f6.clean.d, hc.wf⟩
    simp only [tameArms, tame_append t3 (writeBuf_tame h2), matchArms_tame hf hr rest hc' h4, Bool.and_self]

theorem writeMatch_tame (hf : RecFrame rec) (hr : RecTame rec) {g g' : Gen} {ws1 ws2 : Ws} {e : Expr} {arms : List When}
    {code : List Stmt} (hc : Clean g) (h : writeMatch rec I H ctx g ws1 e arms ws2 = .ok (code, g')) :
    tameList code = true := by
  have hfr := writeMatch_frame hf hc h
  obtain ⟨ws, t, ns, rest, pre, g1, r, w, as, g2, g3, rfl, h1, h2, h3, h4, rfl, rfl⟩ := writeMatch_inv h
  have f1 := flushWs_frame (I := I) hc ws1
  have f2 := f1.trans (writeBuf_frame f1.clean h1)
  have f3 := f2.trans (openLine_frame f2.clean)
  have f4 := f3.trans (handleWs_frame (I := I) f3.clean ws)
  rw [hfr.1.clean.d]
  refine tame_append (writeBuf_tame h1) ?_
  simp only [Bool.false_eq_true, if_false, tameList, tame, matchArms_tame hf hr _ f4.clean h3, Bool.and_self]

theorem wrap_block_tame {g : Gen} (hd : g.discard = false) (b : List Stmt) : tameList (g.wrap .block b) = true := by
  simp [wrap, hd, tameList, tame]

theorem writeLoop_tame (hf : RecFrame rec) {g g' : Gen} {ws1 ws2 ws3 : Ws} {var : Target} {iter : Expr}
    {cond : Option Expr} {body elseNodes : List Node} {code : List Stmt} (hc : Clean g)
    (h : writeLoop rec I H ctx g ws1 var iter cond body ws2 elseNodes ws3 = .ok (code, g')) : tameList code = true := by
  have hfr := writeLoop_frame hf hc h
  obtain ⟨r, w, pre, g1, filt, b, g2, fl, g3, g4, h1, h2, h3, h4, h5, h6, h7⟩ := writeLoop_inv h
  rcases h7 with ⟨-, eb, g5, fl2, g6, g7, g8, -, -, -, -, rfl, rfl⟩ | ⟨-, fl2, g6, g8, -, -, rfl, rfl⟩
  · exact tame_append (writeBuf_tame h2) (wrap_block_tame hfr.1.clean.d _)
  · exact tame_append (writeBuf_tame h2) (wrap_block_tame hfr.1.clean.d _)

theorem writeCall_tame (hf : RecFrame rec) {g g' : Gen} {ws : Ws} {scope : Option Str} {name : Str} {args : List Expr}
    {code : List Stmt} (hc : Clean g) (h : writeCall rec I H ctx g ws scope name args = .ok (code, g')) :
    tameList code = true := by
  have hfr := writeCall_frame hf hc h
  obtain ⟨d, own, pre, g1, named, ns, rs, L, b, g2, fl, g3, g4, h1, h2, h3, h4, h5, h6, h7, h8, h9, rfl⟩ :=
    writeCall_inv h
  exact tame_append (writeBuf_tame h2) (wrap_block_tame hfr.1.clean.d _)

theorem writeBlock_tame (hr : RecTame rec) {g g' : Gen} {name : Option Str}
    {outer : Ws} {code : List Stmt} (hc : Clean g) (h : writeBlock rec I H ctx g name outer = .ok (code, g')) :
    tameList code = true := by
  obtain ⟨cur, pre, g1, hh, defs, cctx, d, b, g2, fl, g3, h1, h2, rfl, h3, h4, h5, h6, rfl, rfl⟩ :=
    writeBlock_inv h hc.pd hc.d
  have hc0 : Clean { new I .empty g1.indent false with
            pend := [], pdiscard := false, skipWs := sideOf I d.ws1.r, superBlock := some cur } :=
    ⟨rfl, rfl, by simp [new, MapChain.empty]⟩
  exact tame_append (tame_append (writeBuf_tame h2) (hr _ _ _ _ _ _ _ h5 hc0)) (flushIf_tame h6)

theorem handleInclude_tame {g g' : Gen} {ws : Ws} {path : Str} {code : List Stmt} (hr : RecTame rec) (hc : Clean g)
    (h : handleInclude rec I ctx g ws path = .ok (code, g')) : tameList code = true := by
  obtain ⟨pre, g1, p, c, Hc, b, g2, fl, g3, h1, h2, h3, h4, h5, h6, rfl, rfl⟩ := handleInclude_inv h
  have f0 := flushWs_frame (I := I) hc ws
  have f1 := f0.trans (writeBuf_frame f0.clean h1)
  have hc0 : Clean { new I g1.locals.withParent g1.indent g1.discard with pdiscard := g1.pdiscard } :=
    ⟨f1.clean.pd, f1.clean.d, by simp [new, MapChain.withParent]⟩
  exact tame_append (tame_append (tame_append (writeBuf_tame h1) (tame_emit rfl)) (hr _ _ _ _ _ _ _ h5 hc0))
    (writeBuf_tame h6)

theorem writeFilterBlock_tame (hr : RecTame rec) {g g' : Gen} {ws1 ws2 : Ws} {f : FilterApp}
    {nodes : List Node} {code : List Stmt} (hc : Clean g)
    (h : writeFilterBlock rec I H ctx g ws1 f nodes ws2 = .ok (code, g')) : tameList code = true := by
  obtain ⟨b, g1, p, g2, h1, h2, h3⟩ := writeFilterBlock_inv h
  have f0 := flushWs_frame (I := I) hc ws1
  have f1 : Frame g (prepareWs I { flushWs I g ws1 with pend := [] } ws1) :=
    f0.trans (.of_eq f0.clean rfl rfl rfl rfl)
  have t1 := hr _ _ _ _ _ _ _ h1 f1.clean
  rcases h3 with ⟨rfl, rfl, rfl⟩ | ⟨st, r, w, hp, hst, h4, rfl, rfl⟩
  · exact t1
  · refine tame_append t1 (tame_emit ?_)
    cases p with
    | none => exact absurd rfl hp
    | plain s => subst hst; rfl
    | formatted f as => subst hst; rfl

theorem writeLet_tame {g g' : Gen} {ws : Ws} {var : Target} {val : Option Expr} {code : List Stmt}
    (h : writeLet I g ws var val = .ok (code, g')) : tameList code = true := by
  rcases writeLet_inv h with ⟨s, g1, rfl, h1, rfl, rfl⟩ | ⟨e, r, w, sh, s, g1, rfl, h1, h2, h3, rfl, rfl⟩
  · exact tame_append (writeBuf_tame h1) (tame_emit rfl)
  · refine tame_append (flushIf_tame h3) (tame_emit ?_)
    cases targetName var with
    | none => rfl
    | some n => dsimp only; split <;> rfl

theorem handleNode_tame (hf : RecFrame rec) (hr : RecTame rec) {level : Level} {g g' : Gen}
    {n : Node} {code : List Stmt} (hc : Clean g) (h : handleNode rec I H ctx level g n = .ok (code, g')) :
    tameList code = true := by
  cases n with
  | lit l =>
    obtain ⟨g2, h1, h⟩ := except_bind h
    cases h; rfl
  | comment ws s => cases h; rfl
  | expr ws e => cases h; rfl
  | let_ ws t v => exact writeLet_tame h
  | if_ ws bs => exact writeIf_tame hf hr hc h
  | match_ ws1 e arms ws2 => exact writeMatch_tame hf hr hc h
  | loop ws1 var iter cond body ws2 els ws3 => exact writeLoop_tame hf hc h
  | blockDef ws1 name ns ws2 => exact writeBlock_tame hr hc h
  | «include» ws p => exact handleInclude_tame hr hc h
  | call ws scope name args =>
    simp only [handleNode] at h
    split at h
    · exact writeBlock_tame hr hc h
    · exact writeCall_tame hf hc h
  | filterBlock ws1 f ns ws2 => exact writeFilterBlock_tame hr hc h
  | «macro» ws1 nm ps ns ws2 =>
    simp only [handleNode] at h
    split at h
    · cases h; rfl
    · cases h
  | raw ws1 l ws2 =>
    obtain ⟨g2, h1, h⟩ := except_bind h
    cases h; rfl
  | import_ ws p s =>
    simp only [handleNode] at h
    split at h
    · cases h; rfl
    · cases h
  | extends_ p =>
    simp only [handleNode] at h
    split at h
    · cases h; rfl
    · cases h
  | break_ ws =>
    obtain ⟨⟨s, g2⟩, h1, h⟩ := except_bind h
    cases h
    exact tame_append (writeBuf_tame h1) (tame_emit rfl)
  | continue_ ws =>
    obtain ⟨⟨s, g2⟩, h1, h⟩ := except_bind h
    cases h
    exact tame_append (writeBuf_tame h1) (tame_emit rfl)

theorem handleNodes_tame (hf : RecFrame rec) (hr : RecTame rec) {level : Level} :
    (ns : List Node) → {g g' : Gen} → {code : List Stmt} → Clean g →
    handleNodes rec I H ctx level ns g = .ok (code, g') → tameList code = true
  | [], g, g', code, hc, h => by simp only [handleNodes] at h; cases h; rfl
  | n :: ns, g, g', code, hc, h => by
    simp only [handleNodes] at h
    obtain ⟨⟨s, g1⟩, h1, h⟩ := except_bind h
    obtain ⟨⟨s', g2⟩, h2, h⟩ := except_bind h
    cases h
    have f1 := handleNode_frame hf hc h1
    exact tame_append (handleNode_tame hf hr hc h1) (handleNodes_tame hf hr ns f1.clean h2)

theorem handle_tame : (fuel : Nat) → RecTame (handle I fuel)
  | 0 => by intro H ctx nodes level g code g' h; cases h
  | fuel + 1 => by
    intro H ctx nodes level g code g' h hc
    unfold handle at h
    obtain ⟨⟨s, g1⟩, h1, h⟩ := except_bind h
    obtain ⟨⟨s', g2⟩, h2, h⟩ := except_bind h
    cases h
    refine tame_append (handleNodes_tame (handle_frame fuel) (handle_tame fuel) nodes hc h1) ?_
    unfold handleEnd at h2
    split at h2
    · exact writeBuf_tame h2
    · cases h2; rfl

end Gen

end Askama
