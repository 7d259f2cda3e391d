import Verif.Lemmas.GenRel

/-! Pending output, whitespace, and running generated code against the template's meaning. -/

namespace Askama

open Askama.Spec

variable {U : Type}

/-! ## Running statements in order -/

/-- First one piece of code, then, if it ended normally, the other. -/
def seqE (E : Option (Str × Sig × REnv U)) (k : REnv U → Option (Str × Sig × REnv U)) : Option (Str × Sig × REnv U) :=
  E.bind fun r => match r.2.1 with
    | .next => (k r.2.2).map fun r' => (r.1 ++ r'.1, r'.2)
    | sig => some (r.1, sig, r.2.2)

/-- The same for the meaning of nodes. -/
def seqS (S : Res U) (k : Store U → Res U) : Res U :=
  S.bind fun r => if r.2.1 = .next then (k r.2.2).map fun r' => (oapp r.1 r'.1, r'.2) else some r

theorem execList_cons (W : World U) (ρ : REnv U) (s : Stmt) (b : List Stmt) :
    execList W ρ (s :: b) = seqE (s.exec W ρ) fun ρ' => execList W ρ' b := by
  rw [execList]
  unfold seqE
  cases s.exec W ρ with
  | none => rfl
  | some r =>
    obtain ⟨o, sig, ρ'⟩ := r
    cases sig <;> simp

theorem execList_append (W : World U) (ρ : REnv U) (a b : List Stmt) :
    execList W ρ (a ++ b) = seqE (execList W ρ a) fun ρ' => execList W ρ' b := by
  induction a generalizing ρ with
  | nil =>
    simp only [List.nil_append, execList, seqE, Option.bind_some]
    cases execList W ρ b <;> rfl
  | cons s a ih =>
    rw [List.cons_append, execList_cons, execList_cons]
    cases hs : s.exec W ρ with
    | none => rfl
    | some r =>
      obtain ⟨o, sig, ρ'⟩ := r
      simp only [seqE, Option.bind_some]
      cases sig with
      | next =>
        simp only [ih]
        unfold seqE
        cases execList W ρ' a with
        | none => rfl
        | some r2 =>
          obtain ⟨o2, sig2, ρ2⟩ := r2
          cases sig2 with
          | next =>
            simp only [Option.bind_some, Option.map_some]
            cases execList W ρ2 b <;> simp
          | brk => simp
          | cont => simp
      | brk => simp
      | cont => simp

theorem execList_single (W : World U) (ρ : REnv U) (s : Stmt) : execList W ρ [s] = s.exec W ρ := by
  rw [execList]
  cases h : s.exec W ρ with
  | none => rfl
  | some r =>
    obtain ⟨o, sig, ρ'⟩ := r
    cases sig <;> simp [execList]

theorem seqE_nil_left (ρ : REnv U) (k : REnv U → Option (Str × Sig × REnv U)) :
    seqE (some ([], .next, ρ)) k = k ρ := by
  simp only [seqE, Option.bind_some]
  cases k ρ <;> simp

theorem seqE_nil_right (E : Option (Str × Sig × REnv U)) : seqE E (fun ρ => some ([], .next, ρ)) = E := by
  unfold seqE
  cases E with
  | none => rfl
  | some r =>
    obtain ⟨o, sig, ρ'⟩ := r
    cases sig <;> simp

theorem seqS_silent_left (st : Store U) (k : Store U → Res U) : seqS (silent st) k = k st := by
  simp only [seqS, silent, Option.bind_some, if_true]
  cases k st <;> simp

theorem seqS_silent_right (S : Res U) : seqS S silent = S := by
  unfold seqS silent
  cases S with
  | none => rfl
  | some r =>
    obtain ⟨o, sig, ρ'⟩ := r
    simp only [Option.bind_some]
    split
    · rename_i h; subst h; simp
    · rfl

/-! ## Agreement of an execution with the meaning -/

/-- `E` is what the generated code does in `ρ`, `S` what is meant; `p` is the text that was pending before. After the
normal end `Q` holds of the variables and of the text pending then. -/
def Ran (K : List Str) (cells : List (Cell U)) (ρ : REnv U) (E : Option (Str × Sig × REnv U)) (S : Res U)
    (p : Option Str) (Q : List (Cell U) → Store U → REnv U → Option Str → Prop) : Prop :=
  match S with
  | none => E = none
  | some (s, sig, st') =>
    (E = none ∧ oapp p s = none) ∨
      ∃ o ρ' cells', E = some (o, sig, ρ') ∧ Adds K cells cells' ∧ st'.vars = specVars cells' ∧ ρ'.vars = rustVars cells'
        ∧ ρ'.item = ρ.item ∧ ρ'.did = ρ.did ∧ ρ'.iter = ρ.iter ∧ st'.item = ρ'.item
        ∧ (if sig = .next then ∃ q, oapp (some o) q = oapp p s ∧ Q cells' st' ρ' q else oapp p s = some o)

namespace Ran

variable {K : List Str} {cells : List (Cell U)} {ρ : REnv U} {E : Option (Str × Sig × REnv U)} {S : Res U}
  {p : Option Str} {Q Q' : List (Cell U) → Store U → REnv U → Option Str → Prop}

theorem conseq (h : Ran K cells ρ E S p Q) (hQ : ∀ cells' st' ρ' q, Q cells' st' ρ' q → Q' cells' st' ρ' q) :
    Ran K cells ρ E S p Q' := by
  unfold Ran at h ⊢
  match S, h with
  | none, h => exact h
  | some (s, sig, st'), h =>
    rcases h with h | ⟨o, ρ', cells', h1, h2, h3, h4, h5, h6, h7, h8, h9⟩
    · exact .inl h
    · refine .inr ⟨o, ρ', cells', h1, h2, h3, h4, h5, h6, h7, h8, ?_⟩
      split at h9
      · rename_i hs; rw [if_pos hs]
        obtain ⟨q, hq, hQ1⟩ := h9
        exact ⟨q, hq, hQ _ _ _ _ hQ1⟩
      · rename_i hs; rw [if_neg hs]; exact h9

theorem mono {K' : List Str} (hK : ∀ x ∈ K, x ∈ K') (h : Ran K' cells ρ E S p Q) : Ran K cells ρ E S p Q := by
  unfold Ran at h ⊢
  match S, h with
  | none, h => exact h
  | some (s, sig, st'), h =>
    rcases h with h | ⟨o, ρ', cells', h1, h2, h3⟩
    · exact .inl h
    · exact .inr ⟨o, ρ', cells', h1, h2.mono hK, h3⟩

theorem seq (h : Ran K cells ρ E S p Q) {kE : REnv U → Option (Str × Sig × REnv U)} {kS : Store U → Res U}
    (hk : ∀ cells' st' ρ' q, Adds K cells cells' → ρ'.item = ρ.item → ρ'.did = ρ.did → ρ'.iter = ρ.iter →
      Q cells' st' ρ' q → Ran K cells' ρ' (kE ρ') (kS st') q Q') :
    Ran K cells ρ (seqE E kE) (seqS S kS) p Q' := by
  unfold Ran at h
  match S, h with
  | none, h => subst h; exact rfl
  | some (s, sig, st'), h =>
    simp only [seqS, Option.bind_some]
    rcases h with ⟨rfl, hp⟩ | ⟨o, ρ', cells', rfl, he, h3, h4, h5, h6, h7, h8, h9⟩
    · simp only [seqE, Option.bind_none]
      unfold Ran
      split
      · rfl
      · rename_i s2 sig2 st2 heq
        refine .inl ⟨rfl, ?_⟩
        split at heq
        · cases hk' : kS st' with
          | none => rw [hk'] at heq; simp at heq
          | some r =>
            rw [hk'] at heq
            simp only [Option.map_some, Option.some.injEq, Prod.mk.injEq] at heq
            rw [← heq.1, ← oapp_assoc, hp]; rfl
        · simp only [Option.some.injEq, Prod.mk.injEq] at heq
          rw [← heq.1, hp]
    · by_cases hsig : sig = .next
      · subst hsig
        simp only [if_true] at h9 ⊢
        obtain ⟨q, hq, hQ⟩ := h9
        have hout := hk cells' st' ρ' q he h5 h6 h7 hQ
        simp only [seqE, Option.bind_some]
        unfold Ran at hout
        split at hout
        · rename_i hS
          rw [hout, hS]; exact rfl
        · rename_i s2 sig2 st2 hS
          rw [hS]
          simp only [Option.map_some, Ran]
          rcases hout with ⟨hE, hp2⟩ | ⟨o2, ρ2, cells2, hE, he2, g3, g4, g5, g6, g7, g8, g9⟩
          · rw [hE]
            refine .inl ⟨rfl, ?_⟩
            rw [← oapp_assoc, ← hq, oapp_assoc, hp2]; simp
          · rw [hE]
            refine .inr ⟨o ++ o2, ρ2, cells2, rfl, he.trans he2, g3, g4, g5.trans h5, g6.trans h6, g7.trans h7, g8, ?_⟩
            split at g9
            · rename_i hs2; rw [if_pos hs2]
              obtain ⟨q2, hq2, hQ2⟩ := g9
              refine ⟨q2, ?_, hQ2⟩
              rw [← oapp_assoc, ← hq, oapp_assoc, ← hq2, ← oapp_assoc]; simp
            · rename_i hs2; rw [if_neg hs2]
              rw [← oapp_assoc, ← hq, oapp_assoc, g9]; simp
      · simp only [hsig, if_false] at h9 ⊢
        have : seqE (some (o, sig, ρ')) kE = some (o, sig, ρ') := by
          cases sig <;> simp_all [seqE]
        rw [this]
        exact .inr ⟨o, ρ', cells', rfl, he, h3, h4, h5, h6, h7, h8, by rw [if_neg hsig]; exact h9⟩

/-- Nothing happens. -/
theorem skip {st : Store U} (hs : st.vars = specVars cells) (hr : ρ.vars = rustVars cells) (hi : st.item = ρ.item)
    (hQ : Q cells st ρ p) : Ran K cells ρ (some ([], .next, ρ)) (silent st) p Q := by
  unfold Ran silent
  exact .inr ⟨[], ρ, cells, rfl, .refl K cells, hs, hr, rfl, rfl, rfl, hi, by rw [if_pos rfl]; exact ⟨p, by simp, hQ⟩⟩

end Ran

/-! ## Pending output -/

section

variable (W : World U) (I : GenInput)

/-- `t` is the text of a piece of pending output, and will be so as long as the variables in `P` and `K` and those made
for filter blocks keep their values. -/
inductive PEntry (S : Sets) (st : Store U) (L : Locals) (ρ : REnv U) : Writable → Option Str → Prop where
  | lit (s : Str) : PEntry S st L ρ (.lit s) (some s)
  | expr (e : Expr) (ok : exprOk S.refused none e = true) (hv : ∀ y ∈ Expr.vars e, y ∈ S.P) :
      PEntry S st L ρ (.expr e) (showE W I st none e)
  | gen (r : RExpr) (w : Bool)
      (hl : ∀ y ∈ r.locals, (internal y = false ∧ (y ∈ S.P ∨ y ∈ S.K)) ∨ (internal y = true ∧ L.get y ≠ none))
      (hx : ∃ y, internal y = true ∧ L.get y ≠ none) :
      PEntry S st L ρ (.generated r w) ((r.eval W ρ).bind fun v => showArg W (escOf I w) v 0)

/-- The same for all pending output. -/
inductive PRel (S : Sets) (st : Store U) (L : Locals) (ρ : REnv U) : List Writable → List (Option Str) → Prop where
  | nil : PRel S st L ρ [] []
  | cons {w : Writable} {t : Option Str} {ws : List Writable} {ts : List (Option Str)} : PEntry W I S st L ρ w t →
      PRel S st L ρ ws ts → PRel S st L ρ (w :: ws) (t :: ts)

end

namespace PRel

variable {W : World U} {I : GenInput} {S S' : Sets} {st st' : Store U} {L L' : Locals} {ρ ρ' : REnv U}
  {ws ws' : List Writable} {ts ts' : List (Option Str)}

theorem append (h : PRel W I S st L ρ ws ts) (h' : PRel W I S st L ρ ws' ts') :
    PRel W I S st L ρ (ws ++ ws') (ts ++ ts') := by
  induction h with
  | nil => exact h'
  | cons he _ ih => exact .cons he ih

theorem lits (l : List Str) : PRel W I S st L ρ (l.map .lit) (l.map some) := by
  induction l with
  | nil => exact .nil
  | cons s l ih => exact .cons (.lit s) ih

theorem imp (h : PRel W I S st L ρ ws ts) (hi : ∀ w t, PEntry W I S st L ρ w t → PEntry W I S' st' L' ρ' w t) :
    PRel W I S' st' L' ρ' ws ts := by
  induction h with
  | nil => exact .nil
  | cons he _ ih => exact .cons (hi _ _ he) ih

/-- Pending output stays what it is. -/
theorem keep (h : PRel W I S st L ρ ws ts) (hR : S'.refused = S.refused) (hP : ∀ y ∈ S.P, y ∈ S'.P)
    (hi : st.item = st'.item) (hi' : ρ.item = ρ'.item) (hn : ∀ n ∈ S.P, SameName W st st' n)
    (hl : ∀ y, internal y = false → y ∈ S.P ∨ y ∈ S.K → RExpr.varOf ρ.vars y = RExpr.varOf ρ'.vars y)
    (hl' : ∀ y, internal y = true → L.get y ≠ none → L'.get y ≠ none ∧ RExpr.varOf ρ.vars y = RExpr.varOf ρ'.vars y) :
    PRel W I S' st' L' ρ' ws ts := by
  have hK : S'.K = S.K := congrArg Prod.snd hR
  refine h.imp ?_
  intro w t he
  cases he with
  | lit s => exact .lit s
  | expr e ok hv =>
    rw [showE_congr hi e (fun x hx => hn x (hv _ hx))]
    exact .expr e (by rw [hR]; exact ok) (fun y hy => hP y (hv y hy))
  | gen r w hloc hx =>
    have : r.eval W ρ = r.eval W ρ' := by
      refine RExpr.eval_congr W _ _ r (fun y hy => ?_) (fun _ => hi')
      rcases hloc y hy with ⟨h1, h2⟩ | ⟨h1, h2⟩
      · exact hl y h1 h2
      · exact (hl' y h1 h2).2
    rw [this]
    refine .gen r w (fun y hy => ?_) ?_
    · rcases hloc y hy with ⟨h1, h2 | h2⟩ | ⟨h1, h2⟩
      · exact .inl ⟨h1, .inl (hP y h2)⟩
      · exact .inl ⟨h1, .inr (hK ▸ h2)⟩
      · exact .inr ⟨h1, (hl' y h1 h2).1⟩
    · obtain ⟨y, h1, h2⟩ := hx
      exact ⟨y, h1, (hl' y h1 h2).1⟩

theorem congrL (h : PRel W I S st L ρ ws ts) (hg : ∀ n, L'.get n = L.get n) : PRel W I S st L' ρ ws ts :=
  h.keep rfl (fun _ h => h) rfl rfl (fun _ _ => .refl _ _ _) (fun _ _ _ => rfl)
    (fun y _ h => ⟨by rw [hg]; exact h, rfl⟩)

theorem moreP (h : PRel W I S st L ρ ws ts) (P : List Str) : PRel W I { S with P := P ++ S.P } st L ρ ws ts :=
  h.keep rfl (fun _ h => List.mem_append_right _ h) rfl rfl (fun _ _ => .refl _ _ _) (fun _ _ _ => rfl)
    (fun _ _ h => ⟨h, rfl⟩)

end PRel

/-- What the pending output prints when it is written. -/
theorem pend_text {W : World U} (hs : Stable W) {I : GenInput} {S : Sets} {cells : List (Cell U)} {st : Store U}
    {ρ : REnv U} {g g' : Gen} {p : Gen.Parts} {ts : List (Option Str)} (h : Gen.prepareFormat I g = .ok (p, g'))
    (R : Rel W S cells st g.locals ρ) (hp : PRel W I S st g.locals ρ g.pend ts) : partsText W ρ p = ojoin ts := by
  rw [prepareFormat_text W I hs ρ h]
  have hv : ∀ e, .expr e ∈ g.pend → ∃ r, visitExpr I g.locals e = .ok r := by
    intro e he
    unfold Gen.prepareFormat at h
    have hne : g.pend.isEmpty = false := by
      cases hg : g.pend with
      | nil => rw [hg] at he; simp at he
      | cons a b => rfl
    have hnl : g.pend.all Writable.isLit = false := by
      rw [List.all_eq_false]
      exact ⟨.expr e, he, by simp [Writable.isLit]⟩
    simp only [hne, hnl, Bool.false_eq_true, if_false] at h
    obtain ⟨fs, hf, _⟩ := except_bind h
    have key : ∀ (ws : List Writable) (st0 st1 : Gen.FmtSt), Gen.formatLoop I g.locals ws st0 = .ok st1 →
        .expr e ∈ ws → ∃ r, visitExpr I g.locals e = .ok r := by
      intro ws
      induction ws with
      | nil => intro _ _ _ h; simp at h
      | cons x ws ih =>
        intro st0 st1 hl hm
        cases x with
        | lit s =>
          simp only [Gen.formatLoop] at hl
          exact ih _ _ hl (by simpa using hm)
        | generated r w =>
          simp only [Gen.formatLoop] at hl
          exact ih _ _ hl (by simpa using hm)
        | expr e' =>
          simp only [Gen.formatLoop] at hl
          obtain ⟨r, hr, hl⟩ := except_bind hl
          rcases List.mem_cons.mp hm with heq | hm
          · cases heq; exact ⟨r, hr⟩
          · exact ih _ _ hl hm
    exact key _ _ _ hf he
  clear h
  generalize g.pend = pend at hp hv
  revert hv
  induction hp with
  | nil => intro _; rfl
  | @cons w t ws ts he _ ih =>
    intro hv
    rw [List.map_cons, ojoin, ojoin, ih (fun e he => hv e (List.mem_cons_of_mem _ he))]
    congr 1
    cases he with
    | lit s => rfl
    | gen r w => rfl
    | expr e ok hvars =>
      obtain ⟨⟨r, w⟩, hr⟩ := hv e List.mem_cons_self
      have := visit_sound R.agree' e ok hr
      simp only [wText, hr, showE, this.1]
      congr 1
      funext v
      rw [← this.2]
      cases w <;> simp [escOf, showArg]

/-- Writing the pending output. -/
theorem writeBuf_exec {W : World U} (hs : Stable W) {I : GenInput} {S : Sets} {cells : List (Cell U)} {st : Store U}
    {ρ : REnv U} {g g' : Gen} {code : List Stmt} {ts : List (Option Str)} (h : Gen.writeBuf I g = .ok (code, g'))
    (hd : g.discard = false) (R : Rel W S cells st g.locals ρ) (hp : PRel W I S st g.locals ρ g.pend ts) :
    execList W ρ code = (ojoin ts).map fun s => (s, .next, ρ) := by
  unfold Gen.writeBuf at h
  obtain ⟨⟨p, gg⟩, hpf, h⟩ := except_bind h
  have ht := pend_text hs hpf R hp
  obtain ⟨k, hk⟩ := prepareFormat_state I hpf
  have hdd : gg.discard = false := by rw [hk]; exact hd
  rw [← ht]
  cases p with
  | none =>
    simp only [pure, Except.pure, Except.ok.injEq, Prod.mk.injEq] at h
    rw [← h.1]; rfl
  | plain s =>
    simp only [pure, Except.pure, Except.ok.injEq, Prod.mk.injEq] at h
    rw [← h.1]; simp [Gen.emit, hdd, execList, Stmt.exec, partsText]
  | formatted fmt args =>
    simp only [pure, Except.pure, Except.ok.injEq, Prod.mk.injEq] at h
    rw [← h.1]
    simp only [Gen.emit, hdd, execList, Stmt.exec, partsText, Bool.false_eq_true, if_false]
    cases formatText W ρ fmt args <;> simp [execList]

theorem writeBuf_state {I : GenInput} {g g' : Gen} {code : List Stmt} (h : Gen.writeBuf I g = .ok (code, g')) :
    ∃ n, g' = { g with pend := [], named := n } := by
  unfold Gen.writeBuf at h
  obtain ⟨⟨p, gg⟩, hpf, h⟩ := except_bind h
  obtain ⟨k, hk⟩ := prepareFormat_state I hpf
  refine ⟨k, ?_⟩
  rw [← hk]
  cases p <;> (simp only [pure, Except.pure, Except.ok.injEq, Prod.mk.injEq] at h; exact h.2.symm)

theorem writeBuf_out {W : World U} (hs : Stable W) {I : GenInput} {S : Sets} {cells : List (Cell U)} {st : Store U}
    {ρ : REnv U} {g g' : Gen} {code : List Stmt} {ts : List (Option Str)} (h : Gen.writeBuf I g = .ok (code, g'))
    (hd : g.discard = false) (R : Rel W S cells st g.locals ρ) (hp : PRel W I S st g.locals ρ g.pend ts) (K : List Str) :
    Ran K cells ρ (execList W ρ code) (silent st) (ojoin ts)
      (fun cells' st' ρ' q => cells' = cells ∧ st' = st ∧ ρ' = ρ ∧ q = some []) := by
  rw [writeBuf_exec hs h hd R hp]
  unfold Ran silent
  cases ho : ojoin ts with
  | none => exact .inl ⟨rfl, rfl⟩
  | some s =>
    exact .inr ⟨s, ρ, cells, rfl, .refl K cells, R.svars, R.rvars, rfl, rfl, rfl, R.item,
      by rw [if_pos rfl]; exact ⟨some [], rfl, rfl, rfl, rfl, rfl⟩⟩

/-! ## Whitespace -/

theorem shouldTrimWs_side (I : GenInput) (w : Option Wsp) : Gen.shouldTrimWs I w = sideOf I w := by
  cases w with
  | none => rfl
  | some w => cases w <;> rfl

theorem minimized_ws {s : Str} (h : s ≠ []) : Gen.minimized s = applyWs .minimize s := by
  simp [Gen.minimized, applyWs, h]

@[simp] theorem applyWs_nil (h : WH) : applyWs h [] = [] := by cases h <;> rfl

/-- Whitespace to be written. -/
def wsLit (t : Str) : List Str := if t = [] then [] else [t]

@[simp] theorem wsLit_flatten (t : Str) : (wsLit t).flatten = t := by unfold wsLit; split <;> simp_all

theorem ojoin_somes (l : List Str) : ojoin (l.map some) = some l.flatten := by
  induction l with
  | nil => rfl
  | cons s l ih => simp [ojoin, ih]

theorem flushWs_eq (I : GenInput) {g : Gen} (ws : Ws) (hd : g.pdiscard = false) :
    Gen.flushWs I g ws = { g with
      nextWs := none,
      pend := g.pend ++ (wsLit (applyWs (sideOf I ws.l) (g.nextWs.getD []))).map .lit } := by
  unfold Gen.flushWs
  cases hn : g.nextWs with
  | none => simp only [Option.getD_none, applyWs_nil]; rw [← hn]; simp [wsLit]
  | some val =>
    simp only [shouldTrimWs_side, Option.getD_some]
    cases sideOf I ws.l with
    | suppress => simp [applyWs, wsLit]
    | preserve =>
      simp only
      by_cases h : val = []
      · simp [h, wsLit]
      · simp [h, wsLit, applyWs, Gen.push, hd]
    | minimize =>
      simp only
      by_cases h : val = []
      · simp [h, wsLit]
      · have : applyWs .minimize val ≠ [] := by simp [applyWs, h]; split <;> simp
        simp [h, wsLit, this, minimized_ws, Gen.push, hd]

theorem handleWs_eq (I : GenInput) {g : Gen} (ws : Ws) (hd : g.pdiscard = false) :
    Gen.handleWs I g ws = { g with
      nextWs := none,
      skipWs := sideOf I ws.r,
      pend := g.pend ++ (wsLit (applyWs (sideOf I ws.l) (g.nextWs.getD []))).map .lit } := by
  unfold Gen.handleWs Gen.prepareWs
  rw [flushWs_eq I ws hd, shouldTrimWs_side]

/-- What is going to be written for the whitespace at the end of a literal, given what is asked for by what follows. -/
def wsTail (nl : Option WH) (g : Gen) : Str := applyWs (nl.getD g.skipWs) (g.nextWs.getD [])

theorem wsTail_none {nl : Option WH} {g : Gen} (h : g.nextWs = none) : wsTail nl g = [] := by simp [wsTail, h]

theorem visitLit_eq {g g' : Gen} {l : Lit} (hd : g.pdiscard = false) (hok : litOk l = true)
    (h : Gen.visitLit g l = .ok g') :
    ∃ out nw sk, g' = { g with pend := g.pend ++ out.map .lit, nextWs := nw, skipWs := sk }
      ∧ (l.val ≠ [] → out ≠ []) ∧ ∀ nl, out.flatten ++ wsTail nl g' = litText g.skipWs l nl := by
  unfold Gen.visitLit at h
  split at h
  · cases h
  · rename_i hnw
    have hnw : g.nextWs = none := by simpa using hnw
    obtain ⟨g2, hg2, h⟩ := except_bind h
    by_cases hve : l.val = []
    · have hrw : l.rws = [] := by simpa [litOk, hve] using hok
      unfold Gen.visitLws at hg2
      simp only [hve, hrw, List.isEmpty_nil, if_true, pure, Except.pure, Except.ok.injEq] at h hg2
      subst h
      by_cases hlw : l.lws = []
      · simp only [hlw, List.isEmpty_nil, if_true, Except.ok.injEq] at hg2
        subst hg2
        refine ⟨[], g.nextWs, g.skipWs, by simp, fun h => absurd hve h, ?_⟩
        intro nl
        simp [litText, hve, hlw, wsTail, hnw]
      · simp only [List.isEmpty_iff, hlw, if_false] at hg2
        cases hsk : g.skipWs with
        | suppress =>
          rw [hsk] at hg2
          simp only [Except.ok.injEq] at hg2
          subst hg2
          refine ⟨[], g.nextWs, g.skipWs, by simp, fun h => absurd hve h, ?_⟩
          intro nl
          simp [litText, hve, wsTail, hnw]
        | preserve =>
          rw [hsk] at hg2
          simp only [Except.ok.injEq] at hg2
          subst hg2
          refine ⟨[], some l.lws, .preserve, by simp [← hsk], fun h => absurd hve h, ?_⟩
          intro nl
          simp [litText, hve, wsTail]
        | minimize =>
          rw [hsk] at hg2
          simp only [Except.ok.injEq] at hg2
          subst hg2
          refine ⟨[], some l.lws, .minimize, by simp [← hsk], fun h => absurd hve h, ?_⟩
          intro nl
          simp [litText, hve, wsTail]
    · have hve' : l.val.isEmpty = false := by simpa using hve
      have hlead : g2 = { g with pend := g.pend ++ (wsLit (applyWs g.skipWs l.lws)).map .lit } := by
        unfold Gen.visitLws at hg2
        by_cases hlw : l.lws = []
        · simp only [hlw, List.isEmpty_nil, if_true, Except.ok.injEq] at hg2
          subst hg2
          simp [hlw, wsLit]
        · simp only [List.isEmpty_iff, hlw, if_false, hve] at hg2
          cases hsk : g.skipWs with
          | suppress =>
            rw [hsk] at hg2
            simp only [Except.ok.injEq] at hg2
            subst hg2
            simp [applyWs, wsLit, ← hsk]
          | preserve =>
            rw [hsk] at hg2
            simp only [Except.ok.injEq] at hg2
            subst hg2
            simp [applyWs, wsLit, hlw, Gen.push, hd, ← hsk]
          | minimize =>
            rw [hsk] at hg2
            simp only [Except.ok.injEq] at hg2
            subst hg2
            have : applyWs .minimize l.lws ≠ [] := by simp [applyWs, hlw]; split <;> simp
            simp [wsLit, this, Gen.push, hd, minimized_ws hlw]
            exact hsk
      simp only [hve', Bool.false_eq_true, if_false, pure, Except.pure, Except.ok.injEq] at h
      subst h hlead
      by_cases hrw : l.rws = []
      · refine ⟨wsLit (applyWs g.skipWs l.lws) ++ [l.val], g.nextWs, .preserve, ?_, by simp, ?_⟩
        · simp [hrw, Gen.push, hd]
        · intro nl
          simp [hrw, Gen.push, hd, litText, hve, wsTail, hnw]
      · refine ⟨wsLit (applyWs g.skipWs l.lws) ++ [l.val], some l.rws, .preserve, ?_, by simp, ?_⟩
        · simp [hrw, Gen.push, hd]
        · intro nl
          simp [hrw, Gen.push, hd, litText, hve, wsTail]

end Askama
