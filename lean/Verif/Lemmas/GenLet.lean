import Verif.Lemmas.GenLoop

/-! `let` nodes: the generated code does what the template means. -/

namespace Askama

open Askama.Spec Askama.Gen

variable {U : Type}

/-- Is this a local variable with a value? -/
def hasValue (L : Locals) (n : Str) : Bool := ((L.get n).map (·.initialized)).getD false

mutual
theorem isShadowing_eq {L : Locals} (hu : L.get c!"_" = none) : (t : Target) → {b : Bool} → isShadowing L t = .ok b →
    t.names.any (hasValue L) = b
  | .name n, b, h => by
    simp only [isShadowing] at h
    simp only [Target.names]
    split
    · rename_i hn
      subst hn
      have : normalizeIdentifier c!"_" = c!"_" := by decide
      rw [this, hu] at h
      cases h; rfl
    · simp only [List.any_cons, List.any_nil, Bool.or_false, hasValue]
      split at h
      · rename_i hg; rw [hg]; cases h; rfl
      · rename_i m hg; rw [hg]; cases h; rfl
  | .tuple _ ts, b, h => by simp only [isShadowing] at h; simp only [Target.names]; exact isShadowingList_eq hu ts h
  | .struct _ ts, b, h => by simp only [isShadowing] at h; simp only [Target.names]; exact isShadowingFields_eq hu ts h
  | .orChain _, b, h | .numLit _, b, h | .strLit _, b, h | .charLit _, b, h | .boolLit _, b, h | .path _, b, h => by
    simp [isShadowing] at h
theorem isShadowingList_eq {L : Locals} (hu : L.get c!"_" = none) : (ts : List Target) → {b : Bool} →
    isShadowingList L ts = .ok b → (Target.namesList ts).any (hasValue L) = b
  | [], b, h => by cases h; rfl
  | t :: ts, b, h => by
    simp only [isShadowingList] at h
    simp only [Target.namesList, List.any_append]
    cases ht : isShadowing L t with
    | error e => simp [ht] at h
    | ok x =>
      rw [isShadowing_eq hu t ht]
      cases x with
      | false => simp only [ht] at h; rw [isShadowingList_eq hu ts h]; rfl
      | true => simp only [ht, Except.ok.injEq] at h; rw [← h]; rfl
theorem isShadowingFields_eq {L : Locals} (hu : L.get c!"_" = none) : (ts : List (Str × Target)) → {b : Bool} →
    isShadowingFields L ts = .ok b → (Target.namesFields ts).any (hasValue L) = b
  | [], b, h => by cases h; rfl
  | (_, t) :: ts, b, h => by
    simp only [isShadowingFields] at h
    simp only [Target.namesFields, List.any_append]
    cases ht : isShadowing L t with
    | error e => simp [ht] at h
    | ok x =>
      rw [isShadowing_eq hu t ht]
      cases x with
      | false => simp only [ht] at h; rw [isShadowingFields_eq hu ts h]; rfl
      | true => simp only [ht, Except.ok.injEq] at h; rw [← h]; rfl
end

theorem assignVar_find {n : Str} {v : Val U} {y : Str} (hy : y ≠ n) : {vars vars' : List (Str × Option (Val U))} →
    assignVar n v vars = some vars' → vars'.find? (fun e => e.1 == y) = vars.find? (fun e => e.1 == y)
  | [], vars', h => by simp [assignVar] at h
  | (m, w) :: vars, vars', h => by
    simp only [assignVar] at h
    split at h
    · rename_i hm
      cases h
      rw [List.find?_cons_of_neg (by simpa [hm] using fun e => hy e.symm),
        List.find?_cons_of_neg (by simpa [hm] using fun e => hy e.symm)]
    · obtain ⟨vs, h1, rfl⟩ := Option.map_eq_some_iff.mp h
      have ih := assignVar_find hy h1
      by_cases hm : m = y
      · rw [List.find?_cons_of_pos (by simpa using hm), List.find?_cons_of_pos (by simpa using hm)]
      · rw [List.find?_cons_of_neg (by simpa using hm), List.find?_cons_of_neg (by simpa using hm), ih]

theorem bindVars_find {ns : List Str} {y : Str} (hy : y ∉ ns) : {vs : List (Val U)} →
    {vars : List (Str × Option (Val U))} →
    (bindVars ns vs vars).find? (fun e => e.1 == y) = vars.find? (fun e => e.1 == y) := by
  induction ns with
  | nil => intro vs vars; rfl
  | cons n ns ih =>
    intro vs vars
    simp only [List.mem_cons, not_or] at hy
    cases vs with
    | nil => simp only [bindVars]; rw [ih hy.2, List.find?_cons_of_neg (by simpa using fun e => hy.1 e.symm)]
    | cons v vs => simp only [bindVars]; rw [ih hy.2, List.find?_cons_of_neg (by simpa using fun e => hy.1 e.symm)]

section

variable {W : World U} {I : GenInput} {S S' : Sets} {cells : List (Cell U)} {st : Store U} {ρ : REnv U} {g g' : Gen}
  {ts : List (Option Str)}

/-- A variable declared before got its value. -/
theorem Rel.markInit {L : Locals} (h : Rel W S cells st L ρ) {x : Str} {m : LocalMeta} (hx : x ∉ S.K)
    (hi : internal x = false) (hm : L.get x = some m) (hr : m.refs = none) :
    Rel W { S with V := x :: S.V, D := x :: S.D } cells { st with known := (x, true) :: st.known } (L.insert x { refs := none, initialized := true })
      ρ := by
  have hget := MapChain.get_insert (α := LocalMeta) h.wf x { refs := none, initialized := true }
  have hst : ∀ n, n ≠ x → ({ st with known := (x, true) :: st.known } : Store U).status n = st.status n := by
    intro n hn
    simp only [Store.status]
    rw [List.find?_cons_of_neg (by simpa using fun e => hn e.symm)]
  have hstx : ({ st with known := (x, true) :: st.known } : Store U).status x = some true := by
    simp only [Store.status]
    rw [List.find?_cons_of_pos (by simp)]; rfl
  have hlow : pathLike x = false := h.lower x m hm hi
  have hxu : x ≠ c!"_" := (h.keys x m hm).2
  refine ⟨h.svars, h.rvars, h.item, MapChain.insert_scopes h.wf _ _, ?_, ?_, ?_, ?_, ?_, ?_, ?_, h.kint, ?_, ?_, ?_, ?_,
    by rw [hst _ (Ne.symm hxu)]; exact h.under⟩
  · intro n k hk
    rw [hget] at hk
    split at hk
    · rename_i hn; subst hn; exact h.keys _ m hm
    · exact h.keys n k hk
  · intro n k hk hin
    rw [hget] at hk
    split at hk
    · rename_i hn; subst hn; exact List.mem_cons_self
    · exact List.mem_cons_of_mem _ (h.inV n k hk hin)
  · intro n k hk hin
    rw [hget] at hk
    split at hk
    · rename_i hn; subst hn; exact hlow
    · exact h.lower n k hk hin
  · intro n hin hk
    rw [hget] at hk
    split at hk
    · cases hk
    · rename_i hn; rw [hst n hn]; exact h.unknown n hin hk
  · intro n k hin hk hkr
    rw [hget] at hk
    split at hk
    · rename_i hn; subst hn
      cases hk
      exact ⟨⟨true, hstx, fun _ => rfl⟩, (h.plain _ m hi hm hr).2.1, by simp⟩
    · rename_i hn
      obtain ⟨h1, h2, h3⟩ := h.plain n k hin hk hkr
      exact ⟨by rw [hst n hn]; exact h1, h2, h3⟩
  · intro n k r hk hkr
    rw [hget] at hk
    split at hk
    · cases hk; cases hkr
    · rename_i hn
      obtain ⟨h1, h2, h3, h4, h5⟩ := h.refd n k r hk hkr
      exact ⟨h1, h2, by rw [hst n hn]; exact h3, h4, h5⟩
  · intro n hn
    rw [hget]
    split
    · exact ⟨_, rfl, rfl⟩
    · rename_i hne
      rcases List.mem_cons.mp hn with hn | hn
      · exact absurd hn hne
      · exact h.dset n hn
  · intro n hn
    rcases List.mem_cons.mp hn with hn | hn
    · subst hn; exact hi
    · exact h.vint n hn
  · intro n hn; exact List.mem_cons_of_mem _ (h.rv n hn)
  · intro n hp hin hK
    rw [hst n (by rintro rfl; rw [hlow] at hp; cases hp)]
    exact h.paths n hp hin hK
  · intro c hc hp hin
    exact (h.cellsIn c hc hp hin).imp (List.mem_cons_of_mem _) id

/-- New variables do not change output still to be written if it does not use them. -/
theorem PRel.bind {L : Locals} (h : PRel W I S st L ρ g.pend ts) {t : Target} (hwf : L.scopes ≠ [])
    (hb : bindOk S t = true) (hsg : Target.singles t = []) (hd : disj t.names S.P = true) (vs : List (Val U)) :
    PRel W I (S.bind t) (st.declare (t.bound W) vs true)
      (t.names.foldl (fun L n => L.insert n { refs := none, initialized := true }) L)
      { ρ with vars := bindVars (t.bound W) vs ρ.vars } g.pend ts := by
  have hb := (bindOk_spec hb).1
  have hd : ∀ n ∈ t.names, n ∉ S.P := by simpa [disj] using hd
  rw [Target.bound_eq W t hsg]
  refine h.keep rfl (fun _ h => h) rfl rfl ?_ ?_ ?_
  · intro m hx
    have hn : m ∉ t.names := fun hh => hd _ hh hx
    refine ⟨fun x hxm => ?_, ?_⟩
    · subst hxm
      simp only [Store.name, status_declare, if_neg hn]
      simp only [Store.declare, bindVars_find hn]
    · simp only [Store.path, status_declare, if_neg hn]
      simp only [Store.declare, bindVars_find hn]
  · intro y hy hp
    refine (bindVars_lookup_ne ?_).symm
    intro hn
    rcases hp with hp | hp
    · exact hd y hn hp
    · exact (hb y hn).1 hp
  · intro y hy hg
    have hn : y ∉ t.names := fun hh => by rw [internal_of_claimed (hb y hh).2.1] at hy; cases hy
    refine ⟨?_, (bindVars_lookup_ne hn).symm⟩
    rw [MapChain.get_inserts hwf, if_neg hn]; exact hg

/-- What holds after a `let` with a value. -/
def AfterLet (W : World U) (I : GenInput) (S : Sets) (t : Target) (st : Store U) (L : Locals) (ρ : REnv U)
    (p : Option Str) (cells' : List (Cell U)) (st' : Store U) (ρ' : REnv U) (q : Option Str) : Prop :=
  q = p ∧ Rel W (S.bind t) cells' st' (t.names.foldl (fun L n => L.insert n { refs := none, initialized := true }) L) ρ'
    ∧ (disj t.names S.P = true → ∀ (g : Gen) ts, PRel W I S st L ρ g.pend ts → PRel W I (S.bind t) st'
        (t.names.foldl (fun L n => L.insert n { refs := none, initialized := true }) L) ρ' g.pend ts)

/-- The variables of a `let` are tracked by the generator. -/
theorem bindTarget_adds {t : Target} (hb : bindOk S t = true) (hsg : Target.singles t = []) (vs : List (Val U)) :
    Adds S.K cells (bindCells (t.bound W) vs cells) := by
  rw [Target.bound_eq W t hsg]
  refine bindCells_adds vs cells (fun n hn => ((bindOk_spec hb).1 n hn).1) fun n hn h => ?_
  rw [((bindOk_spec hb).1 n hn).2.2] at h; cases h

theorem letInit_sound {L : Locals} (R : Rel W S cells st L ρ) {t : Target} (hb : bindOk S t = true)
    (hsg : Target.singles t = []) {e : Expr} {r : RExpr} (hev : r.eval W ρ = evalE W I st none e) (p : Option Str) :
    Ran S.K cells ρ (Stmt.exec W ρ (.letInit t r))
      ((evalE W I st none e).bind fun v => (patMatch W t v).bind fun vs => silent (st.declare (t.bound W) vs true)) p
      (AfterLet W I S t st L ρ p) := by
  simp only [Stmt.exec, hev]
  cases evalE W I st none e with
  | none => exact rfl
  | some v =>
    simp only [Option.bind_some]
    cases patMatch W t v with
    | none => exact rfl
    | some vs =>
      have R1 := R.bindTarget hb vs
      refine .inr ⟨[], _, _, rfl, bindTarget_adds hb hsg vs, R1.svars, R1.rvars, rfl, rfl, rfl, R1.item, ?_⟩
      rw [if_pos rfl]
      exact ⟨p, by simp, rfl, R1, fun hd g ts hp => hp.bind R.wf hb hsg hd vs⟩

theorem letAssign_sound {L : Locals} (R : Rel W S cells st L ρ) {t : Target} {x : Str} (hb : bindOk S t = true)
    (hsg : Target.singles t = []) (hnm : t.names = [x]) {e : Expr} {r : RExpr} (hev : r.eval W ρ = evalE W I st none e) {m : LocalMeta} (hm : L.get x = some m) (hr : m.refs = none)
    (p : Option Str) :
    Ran S.K cells ρ (Stmt.exec W ρ (.assign x r))
      ((evalE W I st none e).bind fun v => (assignVar x v st.vars).bind fun vars =>
            silent { st with vars := vars, known := (x, true) :: st.known }) p
      (AfterLet W I S t st L ρ p) := by
  simp only [Stmt.exec, hev]
  have hx : x ∉ S.K ∧ internal x = false := by
    have := (bindOk_spec hb).1 x (by rw [hnm]; exact List.mem_singleton_self _)
    exact ⟨this.1, internal_of_claimed this.2.1⟩
  have hbind : S.bind t = { S with V := x :: S.V, D := x :: S.D } := by simp [Sets.bind, hnm, hsg]
  cases evalE W I st none e with
  | none => exact rfl
  | some v =>
    simp only [Option.bind_some]
    obtain ⟨w, hw⟩ := (R.plain x m hx.2 hm hr).2.1
    obtain ⟨cs', h1, h2, hu⟩ := assign_cells hx.1 v hw
    rw [R.svars, R.rvars, h1, h2]
    simp only [Option.bind_some, Option.map_some]
    have R1 := (R.upd hu (st' := { st with vars := specVars cs' }) (ρ' := { ρ with vars := rustVars cs' }) rfl rfl rfl rfl
      rfl).markInit hx.1 hx.2 hm hr
    refine .inr ⟨[], _, _, rfl, .of_upd hu, R1.svars, R1.rvars, rfl, rfl, rfl, R1.item, ?_⟩
    rw [if_pos rfl]
    refine ⟨p, by simp, rfl, by rw [hbind, hnm]; exact R1, ?_⟩
    intro hd g ts hp
    rw [hbind, hnm]
    have hd : x ∉ S.P := by simpa [disj, hnm] using hd
    refine hp.keep rfl (fun _ h => h) rfl rfl ?_ ?_ ?_
    · intro m hy
      have hn : m ≠ x := fun hh => hd (by rw [← hh]; exact hy)
      refine ⟨fun y hym => ?_, ?_⟩
      · subst hym
        simp only [Store.name, Store.status]
        rw [List.find?_cons_of_neg (by simpa using fun e => hn e.symm)]
        rw [R.svars, assignVar_find hn h1]
      · simp only [Store.path, Store.status]
        rw [List.find?_cons_of_neg (by simpa using fun e => hn e.symm)]
        rw [R.svars, assignVar_find hn h1]
    · intro y hy hp
      have hn : y ≠ x := by
        rintro rfl
        rcases hp with hp | hp
        · exact hd hp
        · exact hx.1 hp
      simp only [RExpr.varOf, R.rvars, assignVar_find hn h2]
    · intro y hy hg
      have hn : y ≠ x := by rintro rfl; rw [hx.2] at hy; cases hy
      refine ⟨?_, by simp only [RExpr.varOf, R.rvars, assignVar_find hn h2]⟩
      show (MapChain.insert L x _).get y ≠ none
      rw [MapChain.get_insert R.wf, if_neg hn]; exact hg

theorem letStep_sound {L : Locals} (R : Rel W S cells st L ρ) {t : Target} (hb : bindOk S t = true)
    (hsg : Target.singles t = []) {e : Expr} {r : RExpr} (hev : r.eval W ρ = evalE W I st none e) {sh : Bool} (hsh : isShadowing L t = .ok sh) (p : Option Str) :
    Ran S.K cells ρ (Stmt.exec W ρ (match targetName t with
          | some n => if sh || (L.get n).isNone then .letInit t r else .assign (normalizeIdentifier n) r
          | none => .letInit t r))
      (runLet W I st t (some e)) p (AfterLet W I S t st L ρ p) := by
  cases t with
  | name n =>
    simp only [runLet, targetName]
    by_cases hu : n = c!"_"
    · subst hu
      have hg : L.get c!"_" = none := by
        cases h : L.get c!"_" with
        | none => rfl
        | some m => exact absurd rfl (R.keys _ m h).2
      have hri : rawIdent c!"_" = c!"_" := by decide
      rw [hri, R.under, hg]
      simp only [reduceCtorEq, if_false, Option.isNone_none, Bool.or_true, if_true]
      exact letInit_sound R hb hsg hev p
    · have hnames : Target.names (.name n) = [rawIdent n] := by
        simp only [Target.names, if_neg hu, normalizeIdentifier_eq]
      have hx : rawIdent n ∉ S.K ∧ internal (rawIdent n) = false := by
        have := (bindOk_spec hb).1 (rawIdent n) (by rw [hnames]; exact List.mem_singleton_self _)
        exact ⟨this.1, internal_of_claimed this.2.1⟩
      have hxp : pathLike (rawIdent n) = false :=
        ((bindOk_spec hb).1 (rawIdent n) (by rw [hnames]; exact List.mem_singleton_self _)).2.2
      simp only [isShadowing, normalizeIdentifier_eq] at hsh
      cases hg : L.get (rawIdent n) with
      | none =>
        rw [hg] at hsh
        simp only [Except.ok.injEq] at hsh
        have hn : L.get n = none := by
          by_cases hk : n ∈ rustKeywords
          · cases h : L.get n with
            | none => rfl
            | some m => exact absurd hk (R.keys _ m h).1
          · have : rawIdent n = n := if_neg hk
            rw [← this]; exact hg
        rw [R.unknown _ (by simp only [strange, hx.2, hxp, Bool.or_false]) hg, hn]
        simp only [reduceCtorEq, if_false, Option.isNone_none, Bool.or_true, if_true]
        exact letInit_sound R hb hsg hev p
      | some m =>
        have hr : m.refs = none := by
          cases h : m.refs with
          | none => rfl
          | some q => exact absurd (R.refd _ m q hg h).1 hx.1
        obtain ⟨⟨b, hb1, hb2⟩, _, h3⟩ := R.plain _ m hx.2 hg hr
        rw [hg] at hsh
        simp only [Except.ok.injEq] at hsh
        rw [hb1, hb2 hx.1]
        cases hi : m.initialized with
        | true =>
          rw [hi] at hsh
          subst hsh
          simp only [Option.some.injEq, Bool.true_eq_false, if_false, Bool.true_or, if_true]
          exact letInit_sound R hb hsg hev p
        | false =>
          rw [hi] at hsh
          subst hsh
          have hk : n ∉ rustKeywords := by
            intro hk
            have hr' : rawIdent n = c!"r#" ++ n := if_pos hk
            have := h3 hi hx.1
            rw [hr'] at this
            simp [List.isPrefixOf] at this
          have hri : rawIdent n = n := if_neg hk
          rw [hri] at hg
          simp only [if_true, hg, Option.isNone_some, Bool.or_false, Bool.false_eq_true, if_false, normalizeIdentifier_eq]
          exact letAssign_sound R hb hsg hnames hev (by rw [hri]; exact hg) hr p
  | _ => exact letInit_sound R hb hsg hev p

theorem let_sound (hs : Stable W) {ws : Ws} {t : Target} {val : Option Expr} {code : List Stmt}
    (h : writeLet I g ws t val = .ok (code, g')) (hg : goodLet S t val = some S') (hc : Clean g)
    (R : Rel W S cells st g.locals ρ) (hp : PRel W I S st g.locals ρ g.pend ts) (nl : Option WH) :
    Ran S.K cells ρ (execList W ρ code) (runLet W I st t val) (pendText ts (some (sideOf I ws.l)) g)
      (RanPost W I S' nl g') := by
  have hl0 : (Gen.handleWs I g ws).locals = g.locals := handleWs_locals hc ws
  have f1 := handleWs_frame (I := I) hc ws
  have hws := handleWs_eq I (g := g) ws hc.pd
  unfold goodLet at hg
  split at hg
  · rename_i hb
    simp only [Bool.and_eq_true, List.isEmpty_iff] at hb
    obtain ⟨hb, hsg⟩ := hb
    rcases writeLet_inv h with ⟨s, g1, rfl, h1, rfl, rfl⟩ | ⟨e, r, w, sh, s, g1, rfl, h1, h2, h3, rfl, rfl⟩
    · simp only at hg
      split at hg
      · rename_i hsn
        cases hg
        obtain ⟨b1, b2, b3, b4, b5⟩ := writeBuf_locals h1
        have f2 := f1.trans (writeBuf_frame f1.clean h1)
        refine Ran.after_flush (handle_flush hs hc R hp h1) R ?_
        simp only [emit, f2.clean.d, Bool.false_eq_true, if_false, execList_single, Stmt.exec, runLet]
        have R1 := R.bind hb
          ([] : List (Val U)) false (fun _ => hsn) (D := S.D.filter (fun n => !t.names.contains n)) (fun n hn => by
            simp only [List.mem_filter, Bool.not_eq_true', List.contains_eq_mem, decide_eq_false_iff_not] at hn
            exact .inr (.inl ⟨hn.2, hn.1⟩)) []
        refine .inr ⟨[], _, _, rfl, bindTarget_adds hb hsg _, R1.svars, R1.rvars, rfl, rfl, rfl, R1.item, ?_⟩
        rw [if_pos rfl]
        refine ⟨some [], rfl, RanPost.written (S := { S with V := t.names ++ S.V, D := S.D.filter (fun n => !t.names.contains n), P := [] }) ?_ b2 ?_⟩
        · simp only [declare, b1, hl0]; rw [hsg, List.append_nil] at R1; exact R1
        · exact b3.trans (by rw [hws])
      · cases hg
    · simp only at hg
      rw [hl0] at h1 h2
      split at hg
      · rename_i hok
        have hev := (visit_sound R.agree' e hok h1).1
        have hund : MapChain.get g.locals c!"_" = none := by
          cases hh : MapChain.get g.locals c!"_" with
          | none => rfl
          | some m => exact absurd rfl (R.keys _ m hh).2
        have hshv := isShadowing_eq hund t h2
        cases sh with
        | true =>
          simp only [flushIf, if_true] at h3
          obtain ⟨b1, b2, b3, b4, b5⟩ := writeBuf_locals h3
          have f2 := f1.trans (writeBuf_frame f1.clean h3)
          refine Ran.after_flush (handle_flush hs hc R hp h3) R ?_
          have := letStep_sound R hb hsg hev h2 (some [])
          rw [hl0] at b1
          simp only [emit, f2.clean.d, Bool.false_eq_true, if_false, execList_single, b1]
          refine this.conseq ?_
          rintro cells' st' ρ' q ⟨rfl, R', -⟩
          have hpost : RanPost W I (S.bind t).flushed nl (declare g1 t true) cells' st' ρ' (some []) := by
            refine RanPost.written ?_ b2 (b3.trans (by rw [hws]))
            simp only [declare, b1]; exact R'
          split at hg
          · cases hg; exact hpost
          · split at hg
            · cases hg
              obtain ⟨q1, ts', q2, q3⟩ := hpost
              refine ⟨?_, [], ?_, ?_⟩
              · simp only [declare, b1]; exact R'
              · have : (declare g1 t true).pend = [] := b2
                rw [this]; exact .nil
              · have : (declare g1 t true).nextWs = none := b3.trans (by rw [hws])
                simp [ojoin, wsTail, this]
            · cases hg
        | false =>
          simp only [flushIf, Bool.false_eq_true, if_false, Except.ok.injEq, Prod.mk.injEq] at h3
          obtain ⟨rfl, rfl⟩ := h3
          have hnD : t.names.any (fun n => S.D.contains n) = false := by
            rw [List.any_eq_false] at hshv ⊢
            intro n hn hD
            obtain ⟨m, hm1, hm2⟩ := R.dset n (by simpa using hD)
            exact hshv n hn (by simp [hasValue, hm1, hm2])
          rw [hnD] at hg
          simp only [Bool.false_eq_true, if_false] at hg
          split at hg
          · rename_i hdj
            cases hg
            have := letStep_sound R hb hsg hev h2 (pendText ts (some (sideOf I ws.l)) g)
            simp only [emit, f1.clean.d, Bool.false_eq_true, if_false, execList_single, List.nil_append, hl0]
            refine this.conseq ?_
            rintro cells' st' ρ' q ⟨rfl, R', hP⟩
            obtain ⟨ts', q1, q2⟩ := hp.handleWs hc ws
            refine ⟨?_, ts', ?_, ?_⟩
            · simp only [declare, hl0]; exact R'
            · simp only [declare, hl0]
              rw [hl0] at q1
              exact hP hdj _ _ q1
            · have : (declare (Gen.handleWs I g ws) t true).nextWs = none := by
                show (Gen.handleWs I g ws).nextWs = none
                rw [hws]
              rw [← q2]
              simp [wsTail, this]
          · cases hg
      · cases hg
  · cases hg

end

end Askama
