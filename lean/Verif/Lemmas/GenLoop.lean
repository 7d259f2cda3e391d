import Verif.Lemmas.GenNode

/-! Loops: the generated code does what the template means. -/

namespace Askama

open Askama.Spec Askama.Gen

variable {U : Type}

theorem leaveVars_of_le {a b : List (Str × Option (Val U))} (h : b.length ≤ a.length) : leaveVars a b = b := by
  unfold leaveVars; rw [Nat.sub_eq_zero_of_le h]; rfl

theorem leaveVars_length (a b : List (Str × Option (Val U))) : (leaveVars a b).length ≤ a.length := by
  unfold leaveVars; rw [List.length_drop]; omega

theorem leave_self (st : Store U) : st.leave st = st := by
  unfold Store.leave; rw [leaveVars_of_le (Nat.le_refl _)]

theorem leave_leave (st x : Store U) : st.leave (st.leave x) = st.leave x := by
  unfold Store.leave
  rw [leaveVars_of_le (leaveVars_length _ _)]

theorem runItems_leave {W : World U} {t : Target} {body : Store U → Res U} : (vs : List (Val U)) → (i : Nat) →
    (st : Store U) → {s : Option Str} → {st' : Store U} → runItems W t body vs i st = some (s, st') →
    st.leave st' = st'
  | [], i, st, s, st', h => by
    simp only [runItems, Option.some.injEq, Prod.mk.injEq] at h
    rw [← h.2]; exact leave_self st
  | v :: vs, i, st, s, st', h => by
    simp only [runItems] at h
    obtain ⟨ws, h1, h⟩ := Option.bind_eq_some_iff.mp h
    obtain ⟨⟨s1, sig, st1⟩, h2, h⟩ := Option.bind_eq_some_iff.mp h
    simp only at h
    split at h
    · simp only [Option.some.injEq, Prod.mk.injEq] at h
      rw [← h.2]; exact leave_leave st st1
    · obtain ⟨⟨s2, st2⟩, h3, h⟩ := Option.map_eq_some_iff.mp h
      simp only [Prod.mk.injEq] at h
      have ih := runItems_leave vs (i + 1) _ h3
      rw [h.2] at ih
      rw [← ih]
      have h5 : (leaveVars (st.leave st1).vars st'.vars).length ≤ st.vars.length :=
        Nat.le_trans (leaveVars_length _ _) (leaveVars_length _ _)
      simp only [Store.leave] at h5 ⊢
      rw [leaveVars_of_le h5]

section

variable {W : World U} {I : GenInput} {S : Sets} {cells : List (Cell U)} {st : Store U} {ρ : REnv U} {g : Gen}
  {rec : Handler} {sp : Render U} {gd : GoodRec} {H : Option Heritage} {chain : List Ctx} {ctx : Ctx}
  {sup : Option (Str × Nat)}

/-- The items of a loop that pass its condition. -/
theorem keep_sound {L : Locals} (R : Rel W S cells st L ρ) {t : Target} (hb : bindOk S t = true) {c : Expr}
    {r : RExpr} {w : Bool} (hc : exprOk S.refused none c = true)
    (hv : visitExpr I (t.names.foldl (fun L n => L.insert n { refs := none, initialized := true }) L) c = .ok (r, w)) :
    (vs : List (Val U)) → filterItems W ρ t r vs = keepItems W I st t c vs
  | [] => rfl
  | v :: vs => by
    simp only [filterItems, keepItems]
    cases patMatch W t v with
    | none => rfl
    | some ws =>
      have R1 := R.bindTarget hb ws
      have := (visit_sound R1.agree' c hc hv).1
      simp only [Option.bind_some, this, keep_sound R hb hc hv vs]

/-- What the iterations of a loop do, and what is meant. -/
def ItemsOk (W : World U) (S : Sets) (cells : List (Cell U)) (st : Store U) (L : Locals) (ρ : REnv U) (did : Bool)
    (E : Option (Str × REnv U)) : Option (Option Str × Store U) → Prop
  | none => E = none
  | some (s, st') => (E = none ∧ s = none)
      ∨ ∃ o ρ' cells', E = some (o, ρ') ∧ s = some o ∧ Upd S.K cells cells' ∧ Rel W S cells' st' L ρ'
          ∧ st'.known = st.known ∧ ρ'.item = ρ.item ∧ ρ'.iter = ρ.iter ∧ ρ'.did = did

/-- The iterations of a loop. -/
theorem items_sound (hs : Stable W) (ok : HandlerOk W I rec sp gd) (fr : RecFrame rec) (hH : HChain H chain)
    {L : Locals} {t : Target} (hb : bindOk S t = true) {nodes : List Node} {b fl : List Stmt} {g2 g3 : Gen}
    (hl : g.locals = t.names.foldl (fun L n => L.insert n { refs := none, initialized := true }) L.push)
    (h : rec H ctx nodes .nested g = .ok (b, g2)) (hg : (gd chain ctx sup (S.bind t).flushed nodes).isSome = true)
    (hc : Clean g) (hsup : g.superBlock = sup) (hpend : g.pend = []) (hnw : g.nextWs = none) {before : WH}
    (hsk : g.skipWs = before) {ws : Ws} (hw : writeBuf I (Gen.handleWs I g2 ws) = .ok (fl, g3)) (hasElse : Bool) :
    (vs : List (Val U)) → (i : Nat) → {cells : List (Cell U)} → {st : Store U} → {ρ : REnv U} →
    Rel W S cells st L ρ →
    ItemsOk W S cells st L ρ (if vs.isEmpty then ρ.did else if hasElse then true else ρ.did)
      (forItems W t (fun ρ' => execList W ρ' ((if hasElse then [.setDid] else []) ++ (b ++ fl))) vs i ρ)
      (runItems W t (sp chain ctx sup before nodes (some (sideOf I ws.l))) vs i st)
  | [], i, cells, st, ρ, R => by
    simp only [runItems, forItems]
    exact .inr ⟨[], ρ, cells, rfl, rfl, .refl _ _, R, rfl, rfl, rfl, rfl⟩
  | v :: vs, i, cells, st, ρ, R => by
    simp only [runItems, forItems]
    cases hm : patMatch W t v with
    | none => rfl
    | some ws' =>
      simp only [Option.bind_some]
      let item : Option LoopItem := some { index := i, first := i == 0, last := vs.isEmpty }
      let ρd : REnv U := if hasElse then { ρ with did := true } else ρ
      have hρd : ρd.vars = ρ.vars ∧ ρd.item = ρ.item ∧ ρd.iter = ρ.iter
          ∧ ρd.did = (if hasElse then true else ρ.did) := by
        cases hasElse <;> exact ⟨rfl, rfl, rfl, rfl⟩
      have Rd : Rel W S cells st L ρd := R.congrEnv hρd.1 hρd.2.1
      have R1 : Rel W (S.bind t) (bindCells (t.bound W) ws' cells)
          { st.declare (t.bound W) ws' true with item := item } g.locals
          { vars := bindVars (t.bound W) ws' ρ.vars, item := item, did := ρd.did, iter := ρ.iter } := by
        rw [hl]
        exact ((R.push.bindTarget hb ws').setItem item).congrEnv rfl rfl
      have key := scope_sound hs ok fr Rd (bindTarget_ext hb ws') R1 rfl h hg hc hsup hH hpend hnw hsk (ws := ws)
        (.inl hw) (f := fun ρ' => { ρ' with vars := leaveVars ρ.vars ρ'.vars, item := ρ.item })
        (fun ρ' j1 j2 j3 => by simp only [j2, j3, hρd.1, hρd.2.1, hρd.2.2.1])
      have hset : execList W { vars := bindVars (t.bound W) ws' ρ.vars, item := item, did := ρ.did, iter := ρ.iter }
          ((if hasElse then [Stmt.setDid] else []) ++ (b ++ fl))
          = execList W { vars := bindVars (t.bound W) ws' ρ.vars, item := item, did := ρd.did, iter := ρ.iter } (b ++ fl) := by
        rw [hρd.2.2.2]
        cases hasElse with
        | false => rfl
        | true =>
          rw [if_pos rfl, execList_append, execList_single]
          simp only [Stmt.exec]
          rw [seqE_nil_left]; rfl
      rw [hset]
      generalize execList W { vars := bindVars (t.bound W) ws' ρ.vars, item := item, did := ρd.did, iter := ρ.iter } (b ++ fl)
        = E at key
      unfold Ran at key
      cases hsp : sp chain ctx sup before nodes (some (sideOf I ws.l))
          { st.declare (t.bound W) ws' true with item := item } with
      | none =>
        rw [hsp] at key
        simp only [Option.map_none, Option.map_eq_none_iff] at key
        rw [key]; rfl
      | some res =>
        obtain ⟨s, sig, st1⟩ := res
        rw [hsp] at key
        simp only [Option.map_some] at key
        simp only [Option.bind_some]
        rcases key with ⟨hE, hsn⟩ | ⟨o, ρ', cells', hE, hext, k3, k4, k5, k6, k7, k8, k9⟩
        · have hE : E = none := by simpa using hE
          have hsn : s = none := by simpa using hsn
          rw [hE, hsn]
          by_cases hsig : sig = .brk
          · simp only [hsig, if_true]; exact .inl ⟨rfl, rfl⟩
          · simp only [hsig, if_false]
            cases runItems W t (sp chain ctx sup before nodes (some (sideOf I ws.l))) vs (i + 1) (st.leave st1) with
            | none => rfl
            | some r2 => exact .inl ⟨rfl, rfl⟩
        · obtain ⟨⟨o1, sig1, ρ1⟩, hE1, hE2⟩ := Option.map_eq_some_iff.mp hE
          simp only [Prod.mk.injEq] at hE2
          obtain ⟨rfl, rfl, rfl⟩ := hE2
          have hso : s = some o1 ∧ ∃ cells'', Upd S.K cells cells'' ∧ Rel W S cells'' (st.leave st1) L
              { ρ1 with vars := leaveVars ρ.vars ρ1.vars, item := ρ.item } := by
            obtain ⟨new, old, rfl, hu, hn⟩ := hext
            have hlen := hu.spec_length
            have k3' : (st.leave st1).vars = specVars (new ++ old) := k3
            have k4' : leaveVars ρ.vars ρ1.vars = rustVars (new ++ old) := k4
            -- the scope was left, so nothing new remains
            have n1 : specVars new = [] := by
              have h1 := leaveVars_length st.vars st1.vars
              have h2 : (leaveVars st.vars st1.vars).length = (specVars new).length + (specVars old).length := by
                have := congrArg List.length k3'
                rw [specVars_append, List.length_append] at this
                exact this
              rw [h2, R.svars, hlen] at h1
              exact List.eq_nil_of_length_eq_zero (by omega)
            have n2 : rustVars new = [] := by
              have h1 := leaveVars_length ρ.vars ρ1.vars
              have h2 : (leaveVars ρ.vars ρ1.vars).length = (rustVars new).length + (rustVars old).length := by
                rw [k4', rustVars_append, List.length_append]
              rw [h2, R.rvars, hu.rust_length] at h1
              exact List.eq_nil_of_length_eq_zero (by omega)
            have R2 : Rel W S old (st.leave st1) L { ρ1 with vars := leaveVars ρ.vars ρ1.vars, item := ρ.item } :=
              R.upd hu (by rw [k3', specVars_append, n1]; rfl) rfl (by rw [k4', rustVars_append, n2]; rfl) rfl rfl
            refine ⟨?_, old, hu, R2⟩
            split at k9
            · obtain ⟨q, hq, -, -, -, rfl⟩ := k9
              simpa using hq.symm
            · simpa using k9
          obtain ⟨rfl, cells'', hu, R2⟩ := hso
          rw [hE1]
          simp only [Option.bind_some]
          have hdid : ρ1.did = (if hasElse then true else ρ.did) := k6.trans hρd.2.2.2
          have hiter : ρ1.iter = ρ.iter := k7.trans hρd.2.2.1
          have ih := items_sound hs ok fr hH hb hl h hg hc hsup hpend hnw hsk hw hasElse vs (i + 1) R2
          have more : ItemsOk W S cells st L ρ (if (v :: vs).isEmpty then ρ.did else if hasElse then true else ρ.did)
              ((forItems W t (fun ρ' => execList W ρ' ((if hasElse then [.setDid] else []) ++ (b ++ fl))) vs (i + 1)
                { ρ1 with vars := leaveVars ρ.vars ρ1.vars, item := ρ.item }).map fun x => (o1 ++ x.1, x.2))
              ((runItems W t (sp chain ctx sup before nodes (some (sideOf I ws.l))) vs (i + 1) (st.leave st1)).map
                fun x => (oapp (some o1) x.1, x.2)) := by
            revert ih
            cases runItems W t (sp chain ctx sup before nodes (some (sideOf I ws.l))) vs (i + 1) (st.leave st1) with
            | none => intro ih; simp only [ItemsOk] at ih; rw [ih]; exact rfl
            | some r2 =>
              obtain ⟨s2, st2⟩ := r2
              intro ih
              rcases ih with ⟨hE, rfl⟩ | ⟨o2, ρ2, cells2, hE, rfl, hu2, R3, hk, hi, hit, hd⟩
              · rw [hE]; exact .inl ⟨rfl, rfl⟩
              · rw [hE]
                refine .inr ⟨o1 ++ o2, ρ2, cells2, rfl, rfl, hu.trans hu2, R3, hk, hi, hit.trans hiter, ?_⟩
                rw [hd]
                simp only [hdid]
                cases hasElse <;> cases vs.isEmpty <;> rfl
          cases sig1 with
          | brk => exact .inr ⟨o1, _, cells'', rfl, rfl, hu, R2, rfl, rfl, hiter, hdid⟩
          | next => exact more
          | cont => exact more

/-- A block of generated code in which nothing remains declared. -/
theorem Ran.block {L : Locals} (R : Rel W S cells st L ρ) {ρ3 : REnv U} {b : List Stmt} {Sx : Res U} {p : Option Str}
    (h : Ran S.K cells ρ3 (execList W ρ b) Sx p (ScopeLeft W S cells st L))
    (hid : (Sx.map fun r => (r.1, r.2.1, st.leave r.2.2)) = Sx) :
    Ran S.K cells ρ (execList W ρ [.block b]) Sx p (ScopeLeft W S cells st L) := by
  have := Ran.leaveScope (ρ := ρ) R (.refl _ _) h (fun _ _ _ _ hq => hq.2.2.2)
    (f := fun ρ' => { vars := leaveVars ρ.vars ρ'.vars, item := ρ.item, did := ρ.did, iter := ρ.iter })
    (fun _ _ _ _ => rfl)
  rw [hid] at this
  rw [execList_single]
  exact this

/-- The loop after its items have been computed. -/
theorem loop_core (hs : Stable W) (ok : HandlerOk W I rec sp gd) (fr : RecFrame rec) (hH : HChain H chain)
    {L : Locals} (R : Rel W S cells st L ρ) {t : Target} (hb : bindOk S t = true) {nodes elseNodes : List Node}
    {b fl tail : List Stmt} {g2 g3 : Gen}
    (hl : g.locals = t.names.foldl (fun L n => L.insert n { refs := none, initialized := true }) L.push)
    (h : rec H ctx nodes .nested g = .ok (b, g2)) (hg : (gd chain ctx sup (S.bind t).flushed nodes).isSome = true)
    (hc : Clean g) (hsup : g.superBlock = sup) (hpend : g.pend = []) (hnw : g.nextWs = none) {before before2 : WH}
    (hsk : g.skipWs = before) {ws ws3 : Ws} (hw : writeBuf I (Gen.handleWs I g2 ws) = .ok (fl, g3)) {vs : List (Val U)}
    (hiter : ρ.iter = vs) (hdid : elseNodes ≠ [] → ρ.did = false)
    (htail : (elseNodes = [] ∧ tail = []) ∨ ∃ ge eb g5 fl2 g6, elseNodes ≠ [] ∧ tail = [.ifNotDid (eb ++ fl2)]
      ∧ rec H ctx elseNodes .nested ge = .ok (eb, g5) ∧ ge.locals = L.push ∧ Clean ge ∧ ge.superBlock = sup
      ∧ ge.pend = [] ∧ ge.nextWs = none ∧ ge.skipWs = before2
      ∧ (gd chain ctx sup S.flushed elseNodes).isSome = true
      ∧ writeBuf I (Gen.handleWs I g5 ws3) = .ok (fl2, g6))
    {ρ3 : REnv U} (hρ3 : ρ3 = { ρ with did := if vs.isEmpty then ρ.did else if !elseNodes.isEmpty then true else ρ.did }) :
    Ran S.K cells ρ3
      (execList W ρ (.forIter t ((if !elseNodes.isEmpty then [.setDid] else []) ++ (b ++ fl)) :: tail))
      (if vs.isEmpty then
        if elseNodes.isEmpty then silent st
        else (sp chain ctx sup before2 elseNodes (some (sideOf I ws3.l)) st).map fun r => (r.1, r.2.1, st.leave r.2.2)
      else (runItems W t (sp chain ctx sup before nodes (some (sideOf I ws.l))) vs 0 st).map fun r => (r.1, .next, r.2))
      (some []) (ScopeLeft W S cells st L) := by
  have items := items_sound (cells := cells) (st := st) (ρ := ρ) hs ok fr hH hb hl h hg hc hsup hpend hnw hsk hw
    (!elseNodes.isEmpty) vs 0 R
  rw [execList_cons]
  simp only [Stmt.exec, hiter]
  cases vs with
  | nil =>
    rw [show ρ3 = ρ from hρ3]
    simp only [forItems, Option.map_some, List.isEmpty_nil, if_true]
    rw [seqE_nil_left]
    rcases htail with ⟨rfl, rfl⟩ | ⟨ge, eb, g5, fl2, g6, hne, rfl, e1, e2, e3, e4, e5, e6, e7, e8, e9⟩
    · simp only [List.isEmpty_nil, if_true, execList]
      exact Ran.skip R.svars R.rvars R.item ⟨.refl _ _, R, rfl, rfl⟩
    · have : elseNodes.isEmpty = false := by simpa using hne
      rw [if_neg (by simp [this]), execList_single]
      simp only [Stmt.exec, hdid hne, Bool.false_eq_true, if_false]
      exact scope_sound hs ok fr R (.refl _ _) (S1 := S) (by rw [e2]; exact R.push) rfl e1 e8 e3 e4 hH e5 e6 e7 (.inl e9)
        (f := fun ρ' => { ρ' with vars := leaveVars ρ.vars ρ'.vars })
        (fun ρ' j1 j2 j3 => by simp only [j1, j2, j3])
  | cons v vs =>
    have i3 : ρ3.item = ρ.item := by rw [hρ3]
    have t3 : ρ3.iter = ρ.iter := by rw [hρ3]
    have d3 : ρ3.did = if !elseNodes.isEmpty then true else ρ.did := by rw [hρ3]; rfl
    clear hρ3
    simp only [List.isEmpty_cons, Bool.false_eq_true, if_false] at items ⊢
    revert items
    cases runItems W t (sp chain ctx sup before nodes (some (sideOf I ws.l))) (v :: vs) 0 st with
    | none =>
      intro items
      simp only [ItemsOk] at items
      rw [items]; exact rfl
    | some r =>
      obtain ⟨s, st'⟩ := r
      intro items
      rcases items with ⟨hE, rfl⟩ | ⟨o, ρ', cells', hE, rfl, hu, R', hk, hi, hit, hd⟩
      · rw [hE]; exact .inl ⟨rfl, rfl⟩
      · rw [hE]
        have htail' : execList W ρ' tail = some ([], .next, ρ') := by
          rcases htail with ⟨rfl, rfl⟩ | ⟨ge, eb, g5, fl2, g6, hne, rfl, -⟩
          · rfl
          · have : elseNodes.isEmpty = false := by simpa using hne
            simp only [this, Bool.not_false, if_true] at hd
            rw [execList_single]
            simp [Stmt.exec, hd]
        simp only [Option.map_some, seqE, Option.bind_some, htail', List.append_nil]
        refine .inr ⟨o, ρ', cells', rfl, .of_upd hu, R'.svars, R'.rvars, hi.trans i3.symm, hd.trans d3.symm, hit.trans t3.symm, R'.item, ?_⟩
        · rw [if_pos rfl]; exact ⟨some [], by simp, hu, R', hk, rfl⟩

theorem loop_leave (sp' : WH → List Node → Option WH → Store U → Res U) {t : Target} {vs : List (Val U)}
    {elseNodes : List Node} {b2 : WH} {a2 : Option WH} {body : Store U → Res U} :
    (Option.map (fun r => (r.1, r.2.1, st.leave r.2.2)) (if vs.isEmpty then
        if elseNodes.isEmpty then silent st
        else (sp' b2 elseNodes a2 st).map fun r => (r.1, r.2.1, st.leave r.2.2)
      else (runItems W t body vs 0 st).map fun r => (r.1, Sig.next, r.2)))
    = (if vs.isEmpty then
        if elseNodes.isEmpty then silent st
        else (sp' b2 elseNodes a2 st).map fun r => (r.1, r.2.1, st.leave r.2.2)
      else (runItems W t body vs 0 st).map fun r => (r.1, Sig.next, r.2)) := by
  split
  · split
    · simp only [silent, Option.map_some, leave_self]
    · cases sp' b2 elseNodes a2 st with
      | none => rfl
      | some r => simp only [Option.map_some, leave_leave]
  · cases hr : runItems W t body vs 0 st with
    | none => rfl
    | some r => simp only [Option.map_some, runItems_leave vs 0 st hr]

/-- The items of a loop that are rendered. -/
def keptItems (W : World U) (I : GenInput) (st : Store U) (t : Target) (cond : Option Expr) (vs : List (Val U)) :
    Option (List (Val U)) :=
  match cond with
  | none => some vs
  | some c => keepItems W I st t c vs

theorem runLoop_eq (sp' : WH → List Node → Option WH → Store U → Res U) {ws1 ws2 ws3 : Ws} {t : Target} {iter : Expr}
    {cond : Option Expr} {body elseNodes : List Node} :
    runLoop W I sp' st ws1 t iter cond body ws2 elseNodes ws3
    = (evalE W I st none iter).bind fun v => (W.iter v).bind fun vs => (keptItems W I st t cond vs).bind fun vs =>
        if vs.isEmpty then
            if elseNodes.isEmpty then silent st
            else (sp' (sideOf I ws2.r) elseNodes (some (sideOf I ws3.l)) st).map fun r => (r.1, r.2.1, st.leave r.2.2)
          else (runItems W t (sp' (sideOf I ws1.r) body (some (sideOf I ws2.l))) vs 0 st).map fun r => (r.1, .next, r.2) := by
  unfold runLoop keptItems
  cases cond <;> rfl

theorem writeBuf_empty {g g' : Gen} {code : List Stmt} (hp : g.pend = []) (h : writeBuf I g = .ok (code, g')) :
    code = [] := by
  unfold writeBuf prepareFormat at h
  simp only [hp, List.isEmpty_nil, if_true] at h
  cases h; rfl

theorem loop_sound (hs : Stable W) (ok : HandlerOk W I rec sp gd) (fr : RecFrame rec) (hH : HChain H chain)
    {ws1 ws2 ws3 : Ws} {t : Target} {iter : Expr} {cond : Option Expr} {body elseNodes : List Node}
    {ts : List (Option Str)} {g' : Gen} {code : List Stmt}
    (h : writeLoop rec I H ctx g ws1 t iter cond body ws2 elseNodes ws3 = .ok (code, g'))
    (hg : goodLoop (gd chain ctx sup) S t iter cond body elseNodes = true) (hc : Clean g) (hsup : g.superBlock = sup)
    (R : Rel W S cells st g.locals ρ) (hp : PRel W I S st g.locals ρ g.pend ts) (nl : Option WH) :
    Ran S.K cells ρ (execList W ρ code)
      (runLoop W I (sp chain ctx sup) st ws1 t iter cond body ws2 elseNodes ws3)
      (pendText ts (some (sideOf I ws1.l)) g) (RanPost W I S.flushed nl g') := by
  have hfr := writeLoop_frame fr hc h
  simp only [goodLoop, Bool.and_eq_true] at hg
  obtain ⟨⟨⟨⟨hgi, hb⟩, hgc⟩, hgb⟩, hge⟩ := hg
  obtain ⟨r, w, pre, g1, filt, b, g2, fl, g3, g4, h1, h2, h3, h4, h5, h6, h7⟩ := writeLoop_inv h
  have f1 := handleWs_frame (I := I) hc ws1
  have hl0 : (Gen.handleWs I g ws1).locals = g.locals := handleWs_locals hc ws1
  have f1p := push_clean f1.clean
  have f2 := writeBuf_frame f1p h2
  have f3 := f2.trans (openLine_frame f2.clean)
  obtain ⟨b1, b2, b3, b4, b5⟩ := writeBuf_locals h2
  obtain ⟨o1, o2, o3, o4, o5⟩ := openLine_same g1
  have hws := handleWs_eq I (g := g) ws1 hc.pd
  have hL1 : g1.openLine.locals = g.locals.push := by rw [o1, b1]; simp only [hl0]
  have hpre : execList W ρ pre = (pendText ts (some (sideOf I ws1.l)) g).map fun s => (s, .next, ρ) := by
    obtain ⟨ts', q1, q2⟩ := hp.handleWs hc ws1
    rw [← q2]
    exact writeBuf_exec hs h2 f1p.d (by simp only [hl0]; exact R.push)
      (q1.congrL (L' := MapChain.push (Gen.handleWs I g ws1).locals) (by simp))
  have hcore : ∀ (tail : List Stmt),
      ((elseNodes = [] ∧ tail = []) ∨ ∃ ge eb g5 fl2 g6, elseNodes ≠ [] ∧ tail = [.ifNotDid (eb ++ fl2)]
      ∧ rec H ctx elseNodes .nested ge = .ok (eb, g5) ∧ ge.locals = g1.openLine.locals.push ∧ Clean ge ∧ ge.superBlock = sup
      ∧ ge.pend = [] ∧ ge.nextWs = none ∧ ge.skipWs = sideOf I ws2.r
      ∧ (gd chain ctx sup S.flushed elseNodes).isSome = true
      ∧ writeBuf I (Gen.handleWs I g5 ws3) = .ok (fl2, g6)) → 
      Ran S.K cells ρ (execList W ρ [.block ((if !elseNodes.isEmpty then [.letDid] else []) ++ ([.letIter r] ++ (filt ++
        (.forIter t ((if !elseNodes.isEmpty then [.setDid] else []) ++ (b ++ fl)) :: tail))))])
      (runLoop W I (sp chain ctx sup) st ws1 t iter cond body ws2 elseNodes ws3) (some [])
      (ScopeLeft W S cells st g1.openLine.locals) := by
    intro tail htail
    let ρ1 : REnv U := { ρ with did := if !elseNodes.isEmpty then false else ρ.did }
    have R1 : Rel W S cells st g1.openLine.locals ρ1 := by rw [hL1]; exact R.push.congrEnv rfl rfl
    have hev : r.eval W ρ1 = evalE W I st none iter := by
      refine (visit_sound R1.agree' iter hgi (I := I) (r := r) (w := w) ?_).1
      rw [hL1, ← hl0]; exact h1
    have hstep : execList W ρ ((if !elseNodes.isEmpty then [Stmt.letDid] else []) ++ ([.letIter r] ++ (filt ++
          (.forIter t ((if !elseNodes.isEmpty then [Stmt.setDid] else []) ++ (b ++ fl)) :: tail))))
        = (evalE W I st none iter).bind fun v => (W.iter v).bind fun vs => 
          (keptItems W I st t cond vs).bind fun vs =>
            execList W { ρ1 with iter := vs }
              (.forIter t ((if !elseNodes.isEmpty then [Stmt.setDid] else []) ++ (b ++ fl)) :: tail) := by
      have e1 : ∀ X, execList W ρ ((if !elseNodes.isEmpty then [Stmt.letDid] else []) ++ X) = execList W ρ1 X := by
        intro X
        cases he : elseNodes.isEmpty with
        | true => 
          have : ρ1 = ρ := by simp only [ρ1, he]; rfl
          rw [this]; rfl
        | false =>
          have : ρ1 = { ρ with did := false } := by simp only [ρ1, he]; rfl
          rw [this, execList_append]
          simp only [Bool.not_false, if_true]
          rw [execList_single]
          simp only [Stmt.exec]
          rw [seqE_nil_left]
      rw [e1, List.singleton_append, execList_cons]
      simp only [Stmt.exec, hev]
      cases evalE W I st none iter with
      | none => rfl
      | some v =>
        simp only [Option.bind_some]
        cases W.iter v with
        | none => rfl
        | some vs =>
          simp only [Option.map_some, Option.bind_some]
          rw [seqE_nil_left]
          cases cond with
          | none =>
            simp only [loopFilter, Except.ok.injEq] at h3
            rw [← h3]; rfl
          | some c =>
            simp only [loopFilter] at h3
            obtain ⟨⟨rc, w2⟩, h31, h32⟩ := except_bind h3
            simp only [Except.ok.injEq] at h32
            have hd : g1.openLine.discard = false := f3.clean.d
            rw [← h32]
            simp only [emit, hd, Bool.false_eq_true, if_false]
            rw [List.singleton_append, execList_cons]
            simp only [Stmt.exec]
            have R2 : Rel W S cells st (MapChain.push g1.openLine.locals) { ρ1 with iter := vs } :=
              (R1.push.congrEnv rfl rfl)
            rw [keep_sound R2 hb hgc h31 vs]
            simp only [keptItems]
            cases keepItems W I st t c vs with
            | none => rfl
            | some vs' => simp only [Option.map_some, Option.bind_some]; rw [seqE_nil_left]
    rw [runLoop_eq]
    cases he : evalE W I st none iter with
    | none =>
      rw [execList_single]
      simp only [Stmt.exec, hstep, he]; exact rfl
    | some v =>
      cases hit : W.iter v with
      | none =>
        rw [execList_single]
        simp only [Stmt.exec, hstep, he, hit, Option.bind_some]; exact rfl
      | some vs =>
        cases hk : keptItems W I st t cond vs with
        | none =>
          rw [execList_single]
          simp only [Stmt.exec, hstep, he, hit, Option.bind_some, hk]; exact rfl
        | some vs' =>
          rw [he] at hstep
          simp only [Option.bind_some, hit, hk] at hstep
          simp only [Option.bind_some, hit, hk]
          have Rc : Rel W S cells st g1.openLine.locals { ρ1 with iter := vs' } := R1.congrEnv rfl rfl
          have f4 := declare_frame (push_clean f3.clean) t true
          have f5 := f4.trans (openLine_frame f4.clean)
          obtain ⟨p1, p2, p3, p4, p5⟩ := openLine_same (declare { g1.openLine with locals := g1.openLine.locals.push } t true)
          have hpend : g1.pend = [] := b2
          have := loop_core (S := S) (cells := cells) (st := st) hs ok fr hH Rc hb
            (g := (declare { g1.openLine with locals := g1.openLine.locals.push } t true).openLine) 
            p1 h4 hgb f5.clean (f5.sup.trans (f3.sup.trans (f1.sup.trans hsup))) (p2.trans (o2.trans b2))
            (p3.trans (o3.trans (b3.trans (by rw [hws])))) (before := sideOf I ws1.r) (before2 := sideOf I ws2.r)
            (p4.trans (o4.trans (b4.trans (by rw [hws])))) h5 (elseNodes := elseNodes) (vs := vs') rfl
            (fun hne => by simp [ρ1, hne]) htail rfl
          rw [← hstep] at this
          exact Ran.block (by rw [hL1]; exact R.push) this (loop_leave (sp chain ctx sup))
  have hcode : ∃ tail, code = pre ++ [.block ((if !elseNodes.isEmpty then [.letDid] else []) ++ ([.letIter r] ++ (filt ++
        (.forIter t ((if !elseNodes.isEmpty then [.setDid] else []) ++ (b ++ fl)) :: tail))))]
      ∧ ((elseNodes = [] ∧ tail = []) ∨ ∃ ge eb g5 fl2 g6, elseNodes ≠ [] ∧ tail = [.ifNotDid (eb ++ fl2)]
      ∧ rec H ctx elseNodes .nested ge = .ok (eb, g5) ∧ ge.locals = g1.openLine.locals.push ∧ Clean ge ∧ ge.superBlock = sup
      ∧ ge.pend = [] ∧ ge.nextWs = none ∧ ge.skipWs = sideOf I ws2.r
      ∧ (gd chain ctx sup S.flushed elseNodes).isSome = true
      ∧ writeBuf I (Gen.handleWs I g5 ws3) = .ok (fl2, g6)) := by
    have f4 := declare_frame (push_clean f3.clean) t true
    have f5 := f4.trans (openLine_frame f4.clean)
    have f6 := f5.trans (fr _ _ _ _ _ _ _ h4 f5.clean)
    have f7 := f6.trans (handleWs_frame (I := I) f6.clean ws2)
    have f8 := f7.trans (writeBuf_frame f7.clean h5)
    have hpop := f8.pop rfl
    rw [hpop] at h6
    obtain ⟨k, rfl⟩ := closeLine_eq h6
    have c4 : Clean { g3 with locals := g1.openLine.locals, indent := k } := ⟨f8.clean.pd, f8.clean.d, f3.clean.wf⟩
    have d1 : g1.openLine.discard = false := f3.clean.d
    have d2 : (declare { g1.openLine with locals := g1.openLine.locals.push } t true).openLine.discard = false := f5.clean.d
    have d3 : g3.discard = false := f8.clean.d
    obtain ⟨c1, c2, c3, c5, c6⟩ := writeBuf_locals h5
    rw [handleWs_eq I _ f6.clean.pd] at c3 c5
    have hs3 : g3.superBlock = sup := f8.sup.trans (f3.sup.trans (f1.sup.trans hsup))
    rcases h7 with ⟨hne, eb, g5, fl2, g6, g7, g8, e1, e2, e3, e4, rfl, rfl⟩ | ⟨rfl, fl2, g6, g8, e1, e2, rfl, rfl⟩
    · have f9 := openLine_frame c4
      have f10 := fr _ _ _ _ _ _ _ e1 (push_clean f9.clean)
      have f11 := f10.trans (handleWs_frame (I := I) f10.clean ws3)
      have f12 := f11.trans (writeBuf_frame f11.clean e2)
      obtain ⟨k2, rfl⟩ := closeLine_eq e3
      obtain ⟨k3, rfl⟩ := closeLine_eq e4
      have d6 : g6.discard = false := f12.clean.d
      obtain ⟨q1, q2, q3, q4, q5⟩ := openLine_same { g3 with locals := g1.openLine.locals, indent := k }
      have he : elseNodes.isEmpty = false := by simpa using hne
      refine ⟨[.ifNotDid (eb ++ fl2)], ?_, .inr ⟨_, eb, g5, fl2, g6, hne, rfl, e1, ?_, push_clean f9.clean, ?_, ?_, ?_, ?_,
        hge, e2⟩⟩
      · simp only [wrap, emit, d2, Bool.false_eq_true, if_false]
        simp only [d1, d3, d6, he, Bool.not_false, if_true, Bool.false_eq_true, if_false]
        simp
      · simp only [q1]
      · exact f9.sup.trans hs3
      · exact q2.trans c2
      · exact q3.trans c3
      · exact q4.trans c5
    · have f9 := handleWs_frame (I := I) c4 ws3
      have f10 := f9.trans (writeBuf_frame f9.clean e1)
      obtain ⟨k2, rfl⟩ := closeLine_eq e2
      have d6 : g6.discard = false := f10.clean.d
      refine ⟨[], ?_, .inl ⟨rfl, rfl⟩⟩
      have hfl : fl2 = [] := by
        have hw := handleWs_eq I (g := { g3 with locals := g1.openLine.locals, indent := k }) ws3 c4.pd
        have hp0 : (Gen.handleWs I { g3 with locals := g1.openLine.locals, indent := k } ws3).pend = [] := by
          rw [hw]; simp [c2, c3, wsLit]
        exact writeBuf_empty hp0 e1
      simp only [wrap, emit, d1, d3, d6, hfl, Bool.false_eq_true, if_false]
      simp
  obtain ⟨tail, rfl, htail⟩ := hcode
  refine Ran.after_flush hpre R ?_
  refine (hcore tail htail).conseq ?_
  rintro cells' st' ρ' q ⟨hu, R', hk, rfl⟩
  refine RanPost.written ?_ hfr.2.2.2.2 hfr.2.2.1
  rw [hfr.2.1]
  exact R'.congrL hc.wf (by rw [hL1]; simp)

end

end Askama
