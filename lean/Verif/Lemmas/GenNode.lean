import Verif.Lemmas.GenStatic

/-! Each kind of node: the generated code does what the template means. -/

namespace Askama

open Askama.Spec Askama.Gen

variable {U : Type}

/-- What holds after code was generated for some nodes and run: variables agree and `q` is the text still to be written.
`nl` is the handling of whitespace asked for by what follows. -/
def RanPost (W : World U) (I : GenInput) (S' : Sets) (nl : Option WH) (g' : Gen) (cells' : List (Cell U)) (st' : Store U)
    (ρ' : REnv U) (q : Option Str) : Prop :=
  Rel W S' cells' st' g'.locals ρ' ∧ ∃ ts, PRel W I S' st' g'.locals ρ' g'.pend ts
    ∧ q = oapp (ojoin ts) (some (wsTail nl g'))

/-- The heritage is that of the chain of templates. -/
def HChain (H : Option Heritage) (chain : List Ctx) : Prop :=
  ∀ h, H = some h → ∀ n defs, assoc h.blocks n = some defs → defs = blockDefs chain n

/-- The text that is written if output is written now and `h` is asked for on the left. -/
def pendText (ts : List (Option Str)) (nl : Option WH) (g : Gen) : Option Str :=
  oapp (ojoin ts) (some (wsTail nl g))

/-- The handler for nested nodes is faithful. -/
def HandlerOk (W : World U) (I : GenInput) (rec : Handler) (sp : Render U) (gd : GoodRec) : Prop :=
  ∀ {H : Option Heritage} {chain : List Ctx} {ctx : Ctx} {sup : Option (Str × Nat)} {before : WH} {nodes : List Node}
    {after : Option WH} {level : Level} {S S' : Sets} {g g' : Gen} {code : List Stmt} {cells : List (Cell U)}
    {st : Store U} {ρ : REnv U} {ts : List (Option Str)},
    rec H ctx nodes level g = .ok (code, g') → gd chain ctx sup S nodes = some S' → Clean g → g.superBlock = sup →
    HChain H chain → (level = .top ↔ after = none) →
    ((nodes.head?.map isLitNode).getD false = true → g.nextWs = none ∧ g.skipWs = before) →
    Rel W S cells st g.locals ρ → PRel W I S st g.locals ρ g.pend ts →
    Ran S.K cells ρ (execList W ρ code) (sp chain ctx sup before nodes after st)
      (pendText ts (nextSide I nodes after) g) (RanPost W I S' after g')

section

variable {W : World U} {I : GenInput} {S S' : Sets} {cells : List (Cell U)} {st : Store U} {ρ : REnv U} {g g1 : Gen}
  {ts : List (Option Str)} {pre : List Stmt}

/-- Whitespace is dealt with. -/
theorem PRel.handleWs (h : PRel W I S st g.locals ρ g.pend ts) (hc : Clean g) (ws : Ws) :
    ∃ ts', PRel W I S st (handleWs I g ws).locals ρ (handleWs I g ws).pend ts'
      ∧ ojoin ts' = pendText ts (some (sideOf I ws.l)) g := by
  rw [handleWs_eq I ws hc.pd]
  refine ⟨_, h.append (.lits _), ?_⟩
  simp [pendText, ojoin_append, ojoin_somes, wsTail]

theorem PRel.flushWs (h : PRel W I S st g.locals ρ g.pend ts) (hc : Clean g) (ws : Ws) :
    ∃ ts', PRel W I S st (flushWs I g ws).locals ρ (flushWs I g ws).pend ts'
      ∧ ojoin ts' = pendText ts (some (sideOf I ws.l)) g := by
  rw [flushWs_eq I ws hc.pd]
  refine ⟨_, h.append (.lits _), ?_⟩
  simp [pendText, ojoin_append, ojoin_somes, wsTail]

/-- Pending output is written first. -/
theorem Ran.after_flush {K : List Str} {p : Option Str} {Sx : Res U} {X : List Stmt}
    {Q : List (Cell U) → Store U → REnv U → Option Str → Prop}
    (hE : execList W ρ pre = p.map fun s => (s, .next, ρ)) (R : Rel W S cells st g.locals ρ)
    (h : Ran K cells ρ (execList W ρ X) Sx (some []) Q) : Ran K cells ρ (execList W ρ (pre ++ X)) Sx p Q := by
  have h1 : Ran K cells ρ (execList W ρ pre) (silent st) p
      (fun cells' st' ρ' q => cells' = cells ∧ st' = st ∧ ρ' = ρ ∧ q = some []) := by
    rw [hE]
    unfold Ran silent
    cases p with
    | none => exact .inl ⟨rfl, rfl⟩
    | some s =>
      exact .inr ⟨s, ρ, cells, rfl, .refl K cells, R.svars, R.rvars, rfl, rfl, rfl, R.item,
        by rw [if_pos rfl]; exact ⟨some [], rfl, rfl, rfl, rfl, rfl⟩⟩
  rw [execList_append]
  have := Ran.seq (Q' := Q) (kE := fun ρ' => execList W ρ' X) (kS := fun _ => Sx) h1 (by
    rintro cells' st' ρ' q _ _ _ _ ⟨rfl, rfl, rfl, rfl⟩
    exact h)
  rwa [seqS_silent_left] at this

/-- Pending output is written before a tag. -/
theorem handle_flush (hs : Stable W) (hc : Clean g) (R : Rel W S cells st g.locals ρ)
    (hp : PRel W I S st g.locals ρ g.pend ts) {ws : Ws} (h : writeBuf I (Gen.handleWs I g ws) = .ok (pre, g1)) :
    execList W ρ pre = (pendText ts (some (sideOf I ws.l)) g).map fun s => (s, .next, ρ) := by
  obtain ⟨ts', h1, h2⟩ := hp.handleWs hc ws
  have hl : (Gen.handleWs I g ws).locals = g.locals := by rw [handleWs_eq I ws hc.pd]
  rw [← h2]
  exact writeBuf_exec hs h (handleWs_frame hc ws).clean.d (by rw [hl]; exact R) h1

theorem flush_flush (hs : Stable W) (hc : Clean g) (R : Rel W S cells st g.locals ρ)
    (hp : PRel W I S st g.locals ρ g.pend ts) {ws : Ws} (h : writeBuf I (Gen.flushWs I g ws) = .ok (pre, g1)) :
    execList W ρ pre = (pendText ts (some (sideOf I ws.l)) g).map fun s => (s, .next, ρ) := by
  obtain ⟨ts', h1, h2⟩ := hp.flushWs hc ws
  have hl : (Gen.flushWs I g ws).locals = g.locals := by rw [flushWs_eq I ws hc.pd]
  rw [← h2]
  exact writeBuf_exec hs h (flushWs_frame hc ws).clean.d (by rw [hl]; exact R) h1

/-- The end of nested nodes: their output is written. -/
theorem Ran.then_flush (hs : Stable W) {K : List Str} {E : Option (Str × Sig × REnv U)} {Sx : Res U} {p : Option Str}
    {body fl : List Stmt} {ws : Ws} {g2 : Gen}
    (h : Ran K cells ρ (execList W ρ body) Sx p (RanPost W I S' (some (sideOf I ws.l)) g1)) (hc : Clean g1)
    (hw : writeBuf I (Gen.handleWs I g1 ws) = .ok (fl, g2) ∨ writeBuf I (Gen.flushWs I g1 ws) = .ok (fl, g2)) :
    Ran K cells ρ (execList W ρ (body ++ fl)) Sx p
      (fun cells' st' ρ' q => Rel W S' cells' st' g1.locals ρ' ∧ q = some []) := by
  rw [execList_append, ← seqS_silent_right Sx]
  refine Ran.seq h ?_
  rintro cells' st' ρ' q _ _ _ _ ⟨R, ts', hp, rfl⟩
  have hE : execList W ρ' fl = (pendText ts' (some (sideOf I ws.l)) g1).map fun s => (s, .next, ρ') := by
    rcases hw with hw | hw
    · exact handle_flush hs hc R hp hw
    · exact flush_flush hs hc R hp hw
  rw [hE]
  show Ran K cells' ρ' _ (silent st') (pendText ts' (some (sideOf I ws.l)) g1) _
  unfold Ran silent
  cases pendText ts' (some (sideOf I ws.l)) g1 with
  | none => exact .inl ⟨rfl, rfl⟩
  | some s =>
    exact .inr ⟨s, ρ', cells', rfl, .refl K cells', R.svars, R.rvars, rfl, rfl, rfl, R.item,
      by rw [if_pos rfl]; exact ⟨some [], rfl, R, rfl⟩⟩

/-- Leaving a scope. -/
theorem Ran.leaveScope {L : Locals} (R : Rel W S cells st L ρ) {cells1 : List (Cell U)} {ρ1 : REnv U}
    {E : Option (Str × Sig × REnv U)} {Sx : Res U} {p : Option Str}
    {Q : List (Cell U) → Store U → REnv U → Option Str → Prop} (hext : Ext S.K cells cells1)
    (h : Ran S.K cells1 ρ1 E Sx p Q) (hQ : ∀ cells' st' ρ' q, Q cells' st' ρ' q → q = some []) {f : REnv U → REnv U}
    (hf : ∀ ρ', ρ'.item = ρ1.item → ρ'.did = ρ1.did → ρ'.iter = ρ1.iter →
      f ρ' = { vars := leaveVars ρ.vars ρ'.vars, item := ρ.item, did := ρ.did, iter := ρ.iter }) :
    Ran S.K cells ρ (E.map fun r => (r.1, r.2.1, f r.2.2)) (Sx.map fun r => (r.1, r.2.1, st.leave r.2.2)) p
      (fun cells' st' ρ' q => Upd S.K cells cells' ∧ Rel W S cells' st' L ρ' ∧ st'.known = st.known ∧ q = some []) := by
  unfold Ran at h
  match Sx, h with
  | none, h => subst h; exact rfl
  | some (s, sig, st'), h =>
    rcases h with ⟨rfl, hp⟩ | ⟨o, ρ', cells', rfl, he, h3, h4, h5, h6, h7, h8, h9⟩
    · exact .inl ⟨rfl, hp⟩
    · have R' := R.congrEnv (ρ' := ρ) rfl rfl
      obtain ⟨old, hu, k1, k2, k3⟩ := R'.leave (hext.trans he.ext) (st' := st')
        (ρ' := { vars := ρ'.vars, item := ρ.item, did := ρ.did, iter := ρ.iter }) h3 h4 rfl
      simp only [Option.map_some]
      rw [hf ρ' h5 h6 h7]
      refine .inr ⟨o, _, old, rfl, .of_upd hu, k1, k2, rfl, rfl, rfl, R.item, ?_⟩
      split at h9
      · rename_i hs; rw [if_pos hs]
        obtain ⟨q, hq, hQ1⟩ := h9
        exact ⟨q, hq, hu, k3, rfl, hQ _ _ _ _ hQ1⟩
      · rename_i hs; rw [if_neg hs]; exact h9

/-! ## `if` -/

theorem handleWs_locals (hc : Clean g) (ws : Ws) : (Gen.handleWs I g ws).locals = g.locals := by
  rw [handleWs_eq I ws hc.pd]

theorem flushWs_locals (hc : Clean g) (ws : Ws) : (Gen.flushWs I g ws).locals = g.locals := by
  rw [flushWs_eq I ws hc.pd]

theorem writeBuf_locals {g g' : Gen} {code : List Stmt} (h : writeBuf I g = .ok (code, g')) :
    g'.locals = g.locals ∧ g'.pend = [] ∧ g'.nextWs = g.nextWs ∧ g'.skipWs = g.skipWs
      ∧ g'.superBlock = g.superBlock := by
  obtain ⟨n, rfl⟩ := writeBuf_state h; exact ⟨rfl, rfl, rfl, rfl, rfl⟩

theorem openLine_same (g : Gen) : g.openLine.locals = g.locals ∧ g.openLine.pend = g.pend
    ∧ g.openLine.nextWs = g.nextWs ∧ g.openLine.skipWs = g.skipWs ∧ g.openLine.superBlock = g.superBlock := by
  obtain ⟨k, hk⟩ := openLine_eq g; rw [hk]; exact ⟨rfl, rfl, rfl, rfl, rfl⟩

/-- A pattern is bound to values. -/
theorem Rel.bindTarget {L : Locals} (R : Rel W S cells st L ρ) {t : Target} (hb : bindOk S t = true)
    (vs : List (Val U)) :
    Rel W (S.bind t) (bindCells (t.bound W) vs cells) (st.declare (t.bound W) vs true)
      (t.names.foldl (fun L n => L.insert n { refs := none, initialized := true }) L)
      { ρ with vars := bindVars (t.bound W) vs ρ.vars } :=
  R.bind hb vs true
    (fun h => by cases h) (fun n hn => by
      rcases List.mem_append.mp hn with h | h
      · exact .inl ⟨h, rfl⟩
      · exact .inr (.inr ⟨rfl, h⟩)) _

theorem bindTarget_ext {t : Target} (hb : bindOk S t = true) (vs : List (Val U)) :
    Ext S.K cells (bindCells (t.bound W) vs cells) :=
  bindCells_ext vs cells fun n hn => (bindOk_bound hb W n hn).1

/-- What the condition of a branch does, and what is meant. -/
def CondOk (W : World U) (S S1 : Sets) (cells : List (Cell U)) (ρ : REnv U) (L1 : Locals) (c : RCond) :
    Option (Option (Store U)) → Prop
  | none => c.holds W ρ = none
  | some none => c.holds W ρ = some none
  | some (some st1) => ∃ cells1 ρ1, c.holds W ρ = some (some ρ1) ∧ Ext S.K cells cells1
      ∧ Rel W S1 cells1 st1 L1 ρ1 ∧ ρ1.item = ρ.item ∧ ρ1.did = ρ.did ∧ ρ1.iter = ρ.iter ∧ S1.K = S.K

/-- The condition of a branch. -/
theorem cond_sound {cond : Option CondTest} {c : RCond} {S1 : Sets} (h : branchCond I g cond = .ok (c, g1))
    (hg : goodCond S cond = some S1) (R : Rel W S cells st g.locals ρ) :
    CondOk W S S1 cells ρ g1.locals c (runCond W I st cond) := by
  have letCase : ∀ (t : Target) (e : Expr), exprOk S.refused none e = true → bindOk S t = true →
      (visitExpr I g.locals e >>= fun x => pure (RCond.let_ t x.1, declare g t true)) = Except.ok (c, g1) →
      CondOk W S (S.bind t) cells ρ g1.locals c ((evalE W I st none e).map fun v =>
        (patMatch W t v).map fun vs => st.declare (t.bound W) vs true) := by
    intro t e ok hb hh
    obtain ⟨⟨r, w⟩, hv, hh⟩ := except_bind hh
    simp only [pure, Except.pure, Except.ok.injEq, Prod.mk.injEq] at hh
    obtain ⟨rfl, rfl⟩ := hh
    have hev := (visit_sound R.agree' e ok hv).1
    cases he : evalE W I st none e with
    | none => rw [he] at hev; simp [CondOk, RCond.holds, hev]
    | some v =>
      rw [he] at hev
      simp only [Option.map_some]
      cases hm : patMatch W t v with
      | none => simp [CondOk, RCond.holds, hev, hm]
      | some vs =>
        exact ⟨_, _, by simp [RCond.holds, hev, hm], bindTarget_ext hb vs, R.bindTarget hb vs, rfl, rfl, rfl, rfl⟩
  match cond, h, hg with
  | none, h, hg =>
    simp only [branchCond, Except.ok.injEq, Prod.mk.injEq] at h
    simp only [goodCond, Option.some.injEq] at hg
    obtain ⟨rfl, rfl⟩ := h
    subst hg
    exact ⟨cells, ρ, rfl, .refl _ _, R, rfl, rfl, rfl, rfl⟩
  | some ⟨none, e⟩, h, hg =>
    simp only [branchCond] at h
    obtain ⟨⟨r, w⟩, hv, h⟩ := except_bind h
    simp only [pure, Except.pure, Except.ok.injEq, Prod.mk.injEq] at h
    obtain ⟨rfl, rfl⟩ := h
    simp only [goodCond] at hg
    split at hg
    · rename_i ok
      cases hg
      have hev := (visit_sound R.agree' e ok hv).1
      simp only [runCond]
      cases ht : (evalE W I st none e).bind W.truthy with
      | none => simp [CondOk, RCond.holds, hev, ht]
      | some b =>
        cases b with
        | false => simp [CondOk, RCond.holds, hev, ht]
        | true => exact ⟨cells, ρ, by simp [RCond.holds, hev, ht], .refl _ _, R, rfl, rfl, rfl, rfl⟩
    · cases hg
  | some ⟨some t, e⟩, h, hg =>
    simp only [goodCond] at hg
    split at hg
    · rename_i ok
      simp only [Bool.and_eq_true] at ok
      cases hg
      cases e with
      | binop op a b =>
        simp only [branchCond] at h
        split at h
        · rename_i hop
          obtain ⟨⟨l, w1⟩, hv1, h⟩ := except_bind h
          obtain ⟨⟨r, w2⟩, hv2, h⟩ := except_bind h
          simp only [pure, Except.pure, Except.ok.injEq, Prod.mk.injEq] at h
          obtain ⟨rfl, rfl⟩ := h
          rcases hop with rfl | rfl
          · simp [runCond, CondOk, RCond.holds]
          · have ok1 := ok.1
            simp only [exprOk, Bool.and_eq_true] at ok1
            have hev := (visit_sound R.agree' a ok1.1 hv1).1
            simp only [runCond, if_true]
            rw [if_neg (by decide)]
            cases he : evalE W I st none a with
            | none => rw [he] at hev; simp [CondOk, RCond.holds, hev]
            | some v =>
              rw [he] at hev
              simp only [Option.bind_some]
              cases hm : patMatch W t v with
              | none => simp [CondOk, RCond.holds, hev, hm]
              | some vs =>
                have R1 := R.bindTarget ok.2 vs
                have hev2 := (visit_sound R1.agree' b ok1.2 hv2).1
                simp only
                cases ht : (evalE W I (st.declare (t.bound W) vs true) none b).bind W.truthy with
                | none => simp only [CondOk, RCond.holds, hev, hm, hev2, ht, if_true, Option.bind_some, Option.map_none, Option.map_some, Bool.false_eq_true, if_false]
                | some x =>
                  cases x with
                  | false => simp only [CondOk, RCond.holds, hev, hm, hev2, ht, if_true, Option.bind_some, Option.map_none, Option.map_some, Bool.false_eq_true, if_false]
                  | true =>
                    exact ⟨_, _, by
                      simp only [RCond.holds, hev, hm, hev2, ht, if_true, Option.bind_some, Option.map_some], bindTarget_ext ok.2 vs, R1, rfl, rfl,
                      rfl, rfl⟩
        · rename_i hop
          have h1 : op ≠ c!"||" := fun hh => hop (.inl hh)
          have h2 : op ≠ c!"&&" := fun hh => hop (.inr hh)
          have := letCase t _ ok.1 ok.2 h
          simpa only [runCond, h1, h2, if_false] using this
      | _ =>
        have := letCase t _ ok.1 ok.2 h
        exact this
    · cases hg

variable {rec : Handler} {sp : Render U} {gd : GoodRec} {H : Option Heritage} {chain : List Ctx} {ctx : Ctx}
  {sup : Option (Str × Nat)}

theorem pendText_empty {nl : Option WH} (h : g.nextWs = none) : pendText [] nl g = some [] := by
  simp [pendText, wsTail, h, ojoin]

/-- What holds after a scope was left. -/
def ScopeLeft (W : World U) (S : Sets) (cells : List (Cell U)) (st : Store U) (L : Locals) (cells' : List (Cell U))
    (st' : Store U) (ρ' : REnv U) (q : Option Str) : Prop :=
  Upd S.K cells cells' ∧ Rel W S cells' st' L ρ' ∧ st'.known = st.known ∧ q = some []

/-- Nested nodes in a scope of their own. -/
theorem scope_sound_sub (hs : Stable W) (ok : HandlerOk W I rec sp gd) (fr : RecFrame rec) {L : Locals}
    (R : Rel W S cells st L ρ) {cells1 : List (Cell U)} (hext : Ext S.K cells cells1) {S1 : Sets} {st1 : Store U}
    {ρ1 : REnv U} (R1 : Rel W S1 cells1 st1 g.locals ρ1) (hK : ∀ x ∈ S.K, x ∈ S1.K) {nodes : List Node} {body fl : List Stmt}
    {g2 g3 : Gen} (h : rec H ctx nodes .nested g = .ok (body, g2))
    (hg : (gd chain ctx sup S1.flushed nodes).isSome = true) (hc : Clean g) (hsup : g.superBlock = sup)
    (hH : HChain H chain) (hpend : g.pend = []) (hnw : g.nextWs = none) {before : WH} (hsk : g.skipWs = before)
    {ws : Ws} (hw : writeBuf I (Gen.handleWs I g2 ws) = .ok (fl, g3) ∨ writeBuf I (Gen.flushWs I g2 ws) = .ok (fl, g3))
    {f : REnv U → REnv U} (hf : ∀ ρ', ρ'.item = ρ1.item → ρ'.did = ρ1.did → ρ'.iter = ρ1.iter →
      f ρ' = { vars := leaveVars ρ.vars ρ'.vars, item := ρ.item, did := ρ.did, iter := ρ.iter }) :
    Ran S.K cells ρ ((execList W ρ1 (body ++ fl)).map fun r => (r.1, r.2.1, f r.2.2))
      ((sp chain ctx sup before nodes (some (sideOf I ws.l)) st1).map fun r => (r.1, r.2.1, st.leave r.2.2)) (some [])
      (ScopeLeft W S cells st L) := by
  obtain ⟨S', hS'⟩ := Option.isSome_iff_exists.mp hg
  have h1 := ok (before := before) (after := some (sideOf I ws.l)) (ts := []) h hS' hc hsup hH (by simp)
    (fun _ => ⟨hnw, hsk⟩) R1.flushed (by rw [hpend]; exact .nil)
  rw [pendText_empty hnw] at h1
  have h2 := Ran.then_flush hs (E := none) h1 (fr _ _ _ _ _ _ _ h hc).clean hw
  have h3 := h2.mono (K := S.K) hK
  exact Ran.leaveScope R hext h3 (fun _ _ _ _ hq => hq.2) hf

theorem scope_sound (hs : Stable W) (ok : HandlerOk W I rec sp gd) (fr : RecFrame rec) {L : Locals}
    (R : Rel W S cells st L ρ) {cells1 : List (Cell U)} (hext : Ext S.K cells cells1) {S1 : Sets} {st1 : Store U}
    {ρ1 : REnv U} (R1 : Rel W S1 cells1 st1 g.locals ρ1) (hK : S1.K = S.K) {nodes : List Node} {body fl : List Stmt}
    {g2 g3 : Gen} (h : rec H ctx nodes .nested g = .ok (body, g2))
    (hg : (gd chain ctx sup S1.flushed nodes).isSome = true) (hc : Clean g) (hsup : g.superBlock = sup)
    (hH : HChain H chain) (hpend : g.pend = []) (hnw : g.nextWs = none) {before : WH} (hsk : g.skipWs = before)
    {ws : Ws} (hw : writeBuf I (Gen.handleWs I g2 ws) = .ok (fl, g3) ∨ writeBuf I (Gen.flushWs I g2 ws) = .ok (fl, g3))
    {f : REnv U → REnv U} (hf : ∀ ρ', ρ'.item = ρ1.item → ρ'.did = ρ1.did → ρ'.iter = ρ1.iter →
      f ρ' = { vars := leaveVars ρ.vars ρ'.vars, item := ρ.item, did := ρ.did, iter := ρ.iter }) :
    Ran S.K cells ρ ((execList W ρ1 (body ++ fl)).map fun r => (r.1, r.2.1, f r.2.2))
      ((sp chain ctx sup before nodes (some (sideOf I ws.l)) st1).map fun r => (r.1, r.2.1, st.leave r.2.2)) (some [])
      (ScopeLeft W S cells st L) := by
  exact scope_sound_sub hs ok fr R hext R1 (by intro x hx; rw [hK]; exact hx) h hg hc hsup hH hpend hnw hsk hw hf

theorem branches_sound (hs : Stable W) (ok : HandlerOk W I rec sp gd) (fr : RecFrame rec) (hH : HChain H chain)
    {wsEnd : Ws} : (bs : List Cond) → (first : Bool) → {g g' : Gen} → {out : List Branch} → {cells : List (Cell U)} →
    {st : Store U} → {ρ : REnv U} → Clean g → g.superBlock = sup → g.pend = [] → g.nextWs = none →
    (∀ w c ns rest, bs = .mk w c ns :: rest → g.skipWs = sideOf I w.r) →
    Rel W S cells st g.locals ρ → goodIf (gd chain ctx sup) S bs = true →
    ifBranches rec I H ctx wsEnd first bs g = .ok (out, g') →
    Ran S.K cells ρ (execIf W ρ out) (runIf W I (sp chain ctx sup) wsEnd st bs) (some []) (ScopeLeft W S cells st g.locals)
  | [], _, g, g', out, cells, st, ρ, hc, _, _, _, _, R, _, h => by
    simp only [ifBranches, Except.ok.injEq, Prod.mk.injEq] at h
    rw [← h.1]
    simp only [execIf, runIf]
    exact Ran.skip R.svars R.rvars R.item ⟨.refl _ _, R, rfl, rfl⟩
  | .mk w cond nodes :: rest, first, g, g', out, cells, st, ρ, hc, hsup, hpend, hnw, hsk, R, hgood, h => by
    obtain ⟨g1, c, g2, body, g3, fl, g4, h1, h2, h3, h4, h5⟩ := ifBranches_inv h
    have f1 := dedentUnless_frame (push_clean hc) h1
    have f2 := f1.trans (branchCond_frame f1.clean h2)
    have f3 := f2.trans (openLine_frame f2.clean)
    have f4 := f3.trans (fr _ _ _ _ _ _ _ h3 f3.clean)
    have f5 := f4.trans (handleWs_frame (I := I) f4.clean (condEnd rest wsEnd))
    have f6 := f5.trans (writeBuf_frame f5.clean h4)
    obtain ⟨k, hk⟩ := dedentUnless_eq h1
    have R1 : Rel W S cells st g1.locals ρ := by rw [hk]; exact R.push
    obtain ⟨o1, o2, o3, o4, o5⟩ := openLine_same g2
    have hg2 : g2.pend = [] ∧ g2.nextWs = none ∧ g2.skipWs = sideOf I w.r := by
      have hs := hsk _ _ _ _ rfl
      rcases branchCond_locals h2 with rfl | ⟨t, rfl⟩ <;> (rw [hk]; exact ⟨hpend, hnw, hs⟩)
    have hafter : some (condAfter I rest wsEnd) = some (sideOf I (condEnd rest wsEnd).l) := by
      cases rest with
      | nil => rfl
      | cons c2 rest => obtain ⟨a, b, c⟩ := c2; rfl
    simp only [goodIf] at hgood
    split at hgood
    · cases hgood
    · rename_i S1 hS1
      simp only [Bool.and_eq_true] at hgood
      have hcond := cond_sound h2 hS1 R1
      have hout : ∃ bs', out = .mk c (body ++ fl) :: bs'
          ∧ Ran S.K cells ρ (execIf W ρ bs') (runIf W I (sp chain ctx sup) wsEnd st rest) (some [])
              (ScopeLeft W S cells st g.locals) := by
        rcases h5 with ⟨rfl, rfl, rfl⟩ | ⟨bs', hne, h5, rfl⟩
        · refine ⟨[], rfl, ?_⟩
          simp only [execIf, runIf]
          exact Ran.skip R.svars R.rvars R.item ⟨.refl _ _, R, rfl, rfl⟩
        · have hpop := f6.pop rfl
          rw [hpop] at h5
          obtain ⟨b1, b2, b3, b4, b5⟩ := writeBuf_locals h4
          rw [handleWs_eq I _ f4.clean.pd] at b3 b4
          have := branches_sound hs ok fr hH rest false (g := { g4 with locals := g.locals }) (cells := cells)
            (st := st) (ρ := ρ) ⟨f6.clean.pd, f6.clean.d, hc.wf⟩ (by exact f6.sup.trans hsup) b2 b3
            (by rintro w2 c2 ns2 rest2 rfl; exact b4) R hgood.2 h5
          exact ⟨bs', rfl, this⟩
      obtain ⟨bs', rfl, hrest⟩ := hout
      simp only [runIf, execIf]
      cases hr : runCond W I st cond with
      | none =>
        rw [hr] at hcond
        simp only [CondOk] at hcond
        rw [hcond]; exact rfl
      | some x =>
        cases x with
        | none =>
          rw [hr] at hcond
          simp only [CondOk] at hcond
          rw [hcond]; exact hrest
        | some st1 =>
          rw [hr] at hcond
          obtain ⟨cells1, ρ1, hc1, hext, R2, i1, i2, i3, hK⟩ := hcond
          rw [hc1]
          simp only [Option.bind_some]
          rw [hafter]
          exact scope_sound hs ok fr R hext (g := g2.openLine) (by rw [o1]; exact R2) hK h3 hgood.1 f3.clean
            (f3.sup.trans hsup) hH (o2.trans hg2.1) (o3.trans hg2.2.1) (o4.trans hg2.2.2) (.inl h4)
            (f := fun ρ'' => { ρ'' with vars := leaveVars ρ.vars ρ''.vars })
            (fun ρ' j1 j2 j3 => by simp only [j1, j2, j3, i1, i2, i3])

/-- After a tag whose output has been written. -/
theorem RanPost.written {g' : Gen} {nl : Option WH} {cells' : List (Cell U)} {st' : Store U} {ρ' : REnv U}
    (R : Rel W S cells' st' g'.locals ρ') (hp : g'.pend = []) (hn : g'.nextWs = none) :
    RanPost W I S.flushed nl g' cells' st' ρ' (some []) :=
  ⟨R.flushed, [], by rw [hp]; exact .nil, by simp [ojoin, wsTail, hn]⟩

theorem if_sound (hs : Stable W) (ok : HandlerOk W I rec sp gd) (fr : RecFrame rec) (hH : HChain H chain) {ws : Ws}
    {branches : List Cond} {g' : Gen} {code : List Stmt} (h : writeIf rec I H ctx g ws branches = .ok (code, g'))
    (hg : goodIf (gd chain ctx sup) S branches = true) (hc : Clean g) (hsup : g.superBlock = sup)
    (R : Rel W S cells st g.locals ρ) (hp : PRel W I S st g.locals ρ g.pend ts) (nl : Option WH) :
    Ran S.K cells ρ (execList W ρ code) (runIf W I (sp chain ctx sup) ws st branches)
      (pendText ts (some (sideOf I (leftMark (.if_ ws branches)))) g) (RanPost W I S.flushed nl g') := by
  have hfr := writeIf_frame fr hc h
  obtain ⟨ws1, c, ns, rest, pre, g1, bs, g2, g3, rfl, h1, h2, h3, rfl, rfl⟩ := writeIf_inv h
  have f1 := handleWs_frame (I := I) hc ws1
  have f2 := f1.trans (writeBuf_frame f1.clean h1)
  obtain ⟨b1, b2, b3, b4, b5⟩ := writeBuf_locals h1
  rw [handleWs_eq I _ hc.pd] at b1 b3 b4 b5
  have hd : g3.discard = false := hfr.1.clean.d
  rw [if_neg (by simp [hd])]
  refine Ran.after_flush (handle_flush hs hc R hp h1) R ?_
  rw [execList_single]
  simp only [Stmt.exec]
  have := branches_sound hs ok fr hH _ true f2.clean (f2.sup.trans hsup) b2 b3
    (by rintro w2 c2 ns2 rest2 heq; cases heq; exact b4) (by rw [b1]; exact R) hg h2
  refine this.conseq ?_
  rintro cells' st' ρ' q ⟨hu, R', hk, rfl⟩
  refine RanPost.written ?_ hfr.2.2.2.2 hfr.2.2.1
  rw [hfr.2.1]
  rw [b1] at R'
  exact R'

/-! ## `match` -/

theorem arms_sound (hs : Stable W) (ok : HandlerOk W I rec sp gd) (fr : RecFrame rec) (hH : HChain H chain)
    {ws2 : Ws} (v : Val U) : (as : List When) → {g g' : Gen} → {out : List Arm} → {cells : List (Cell U)} →
    {st : Store U} → {ρ : REnv U} → Clean g → g.superBlock = sup → g.pend = [] → g.nextWs = none →
    (∀ w c ns rest, as = .mk w c ns :: rest → g.skipWs = sideOf I w.r) →
    Rel W S cells st g.locals ρ → goodMatch (gd chain ctx sup) S as = true →
    matchArms rec I H ctx ws2 as g = .ok (out, g') →
    Ran S.K cells ρ (execMatch W ρ v out) (runMatch W I (sp chain ctx sup) ws2 st v as) (some [])
      (ScopeLeft W S cells st g.locals)
  | [], g, g', out, cells, st, ρ, hc, _, _, _, _, R, _, h => by
    simp only [matchArms, Except.ok.injEq, Prod.mk.injEq] at h
    rw [← h.1]
    simp only [execMatch, runMatch]
    exact rfl
  | .mk w t nodes :: rest, g, g', out, cells, st, ρ, hc, hsup, hpend, hnw, hsk, R, hgood, h => by
    obtain ⟨body, g1, fl, g2, g3, as', h1, h2, h3, h4, rfl⟩ := matchArms_inv h
    have f1 := declare_frame (push_clean hc) t true
    have f2 := f1.trans (openLine_frame f1.clean)
    have f3 := f2.trans (fr _ _ _ _ _ _ _ h1 f2.clean)
    have f4 := f3.trans (handleWs_frame (I := I) f3.clean (whenEnd rest ws2))
    have f5 := f4.trans (writeBuf_frame f4.clean h2)
    have f6 := f5.trans (closeLine_frame f5.clean h3)
    have hpop := f6.pop rfl
    rw [hpop] at h4
    obtain ⟨o1, o2, o3, o4, o5⟩ := openLine_same (declare { g with locals := g.locals.push } t true)
    have hafter : some (whenAfter I rest ws2) = some (sideOf I (whenEnd rest ws2).l) := by
      cases rest with
      | nil => rfl
      | cons c2 rest => obtain ⟨a, b, c⟩ := c2; rfl
    simp only [goodMatch, Bool.and_eq_true] at hgood
    obtain ⟨⟨hb, hg1⟩, hg2⟩ := hgood
    simp only [runMatch, execMatch]
    cases hm : patMatch W t v with
    | some vs =>
      have R1 := R.push.bindTarget hb vs
      simp only
      rw [hafter]
      exact scope_sound hs ok fr R (bindTarget_ext hb vs) (S1 := S.bind t)
        (g := (declare { g with locals := g.locals.push } t true).openLine)
        (by rw [o1]; exact R1) rfl h1 hg1 f2.clean
        (f2.sup.trans hsup) hH (o2.trans hpend) (o3.trans hnw) (o4.trans (hsk _ _ _ _ rfl)) (.inl h2)
        (f := fun ρ'' => { ρ'' with vars := leaveVars ρ.vars ρ''.vars })
        (fun ρ' j1 j2 j3 => by simp only [j1, j2, j3])
    | none =>
      simp only
      obtain ⟨b1, b2, b3, b4, b5⟩ := writeBuf_locals h2
      rw [handleWs_eq I _ f3.clean.pd] at b3 b4
      obtain ⟨k, rfl⟩ := closeLine_eq h3
      exact arms_sound hs ok fr hH v rest (g := { g2 with locals := g.locals, indent := k }) (cells := cells)
        (st := st) (ρ := ρ) ⟨f6.clean.pd, f6.clean.d, hc.wf⟩ (by exact f6.sup.trans hsup) b2 b3
        (by rintro w2 c2 ns2 rest2 rfl; exact b4) R hg2 h4

theorem match_sound (hs : Stable W) (ok : HandlerOk W I rec sp gd) (fr : RecFrame rec) (hH : HChain H chain)
    {ws1 ws2 : Ws} {e : Expr} {arms : List When} {g' : Gen} {code : List Stmt}
    (h : writeMatch rec I H ctx g ws1 e arms ws2 = .ok (code, g')) (he : exprOk S.refused none e = true)
    (hg : goodMatch (gd chain ctx sup) S arms = true) (hc : Clean g) (hsup : g.superBlock = sup)
    (R : Rel W S cells st g.locals ρ) (hp : PRel W I S st g.locals ρ g.pend ts) (nl : Option WH) :
    Ran S.K cells ρ (execList W ρ code)
      ((evalE W I st none e).bind fun v => runMatch W I (sp chain ctx sup) ws2 st v arms)
      (pendText ts (some (sideOf I ws1.l)) g) (RanPost W I S.flushed nl g') := by
  have hfr := writeMatch_frame fr hc h
  obtain ⟨ws, t, ns, rest, pre, g1, r, w, as, g2, g3, rfl, h1, h2, h3, h4, rfl, rfl⟩ := writeMatch_inv h
  have f1 := flushWs_frame (I := I) hc ws1
  have f2 := f1.trans (writeBuf_frame f1.clean h1)
  have f3 := f2.trans (openLine_frame f2.clean)
  have f4 := f3.trans (handleWs_frame (I := I) f3.clean ws)
  obtain ⟨b1, b2, b3, b4, b5⟩ := writeBuf_locals h1
  rw [flushWs_eq I _ hc.pd] at b1 b3 b4 b5
  rw [if_neg (by simp [hfr.1.clean.d])]
  refine Ran.after_flush (flush_flush hs hc R hp h1) R ?_
  rw [execList_single]
  simp only [Stmt.exec]
  have R1 : Rel W S cells st g1.locals ρ := by rw [b1]; exact R
  have hev := (visit_sound R1.agree' e he h2).1
  rw [hev]
  cases evalE W I st none e with
  | none => exact rfl
  | some v =>
    simp only [Option.bind_some]
    obtain ⟨o1, o2, o3, o4, o5⟩ := openLine_same g1
    have hw := handleWs_eq I (g := g1.openLine) ws f3.clean.pd
    have hl : (Gen.handleWs I g1.openLine ws).locals = g.locals := by rw [hw]; exact o1.trans b1
    have := arms_sound (S := S) (cells := cells) (st := st) (ρ := ρ) hs ok fr hH v _ f4.clean (f4.sup.trans hsup)
      (by rw [hw, o2, o3, b2, b3]; simp [wsLit]) (by rw [hw])
      (by rintro w2 c2 ns2 rest2 heq; cases heq; rw [hw]) (by rw [hl]; exact R) hg h3
    refine this.conseq ?_
    rintro cells' st' ρ' q ⟨hu, R', hk, rfl⟩
    refine RanPost.written ?_ hfr.2.2.2.2 hfr.2.2.1
    rw [hfr.2.1]
    rw [hl] at R'
    exact R'

end

end Askama
