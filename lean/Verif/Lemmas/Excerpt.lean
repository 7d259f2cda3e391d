import Verif.Lemmas.Fragment
import Verif.Lemmas.Meaning

/-! Fragments: the meaning of a template does not depend on the block that is asked for. -/

namespace Askama

open Askama.Spec

section

variable {U : Type} (W : World U) (I : GenInput) (b : Option Str)

theorem eval_block (st : Store U) (hole : Option (Val U)) :
    (∀ e, evalE W { I with block := b } st hole e = evalE W I st hole e)
    ∧ (∀ o, evalO W { I with block := b } st hole o = evalO W I st hole o)
    ∧ (∀ es, evalEs W { I with block := b } st hole es = evalEs W I st hole es) := by
  apply evalE.mutual_induct (I := I)
    (motive_1 := fun e => evalE W { I with block := b } st hole e = evalE W I st hole e)
    (motive_2 := fun e => evalO W { I with block := b } st hole e = evalO W I st hole e)
    (motive_3 := fun e => evalEs W { I with block := b } st hole e = evalEs W I st hole e)
  all_goals intros
  all_goals first
    | rfl
    | (simp only [evalE, evalEs, evalO, *]; done)
    | (unfold evalE; simp only [*]; done)
    | (unfold evalE; simp [*]; done)
    | skip
  rename_i h1 h2 h3 a n hx
  unfold evalE
  rw [if_neg h1, if_neg h2, if_pos h3, if_neg h1, if_neg h2, if_pos h3]
  simp only [hx]

theorem evalE_block (st : Store U) (hole : Option (Val U)) (e : Expr) :
    evalE W { I with block := b } st hole e = evalE W I st hole e := (eval_block W I b st hole).1 e

theorem sideOf_block (w : Option Wsp) : sideOf { I with block := b } w = sideOf I w := rfl

theorem showE_block (st : Store U) (hole : Option (Val U)) (e : Expr) :
    showE W { I with block := b } st hole e = showE W I st hole e := by
  unfold showE; rw [evalE_block]

theorem nextSide_block (ns : List Node) (after : Option WH) :
    nextSide { I with block := b } ns after = nextSide I ns after := rfl

theorem runCond_block (st : Store U) (c : Option CondTest) : runCond W { I with block := b } st c = runCond W I st c := by
  unfold runCond
  simp only [evalE_block]

theorem runIf_block (rec : WH → List Node → Option WH → Store U → Res U) (ws : Ws) (st : Store U) : (bs : List Cond) →
    runIf W { I with block := b } rec ws st bs = runIf W I rec ws st bs
  | [] => rfl
  | .mk w c ns :: rest => by
    simp only [runIf, runCond_block, runIf_block rec ws st rest]
    rfl

theorem runMatch_block (rec : WH → List Node → Option WH → Store U → Res U) (ws : Ws) (st : Store U) (v : Val U) :
    (as : List When) → runMatch W { I with block := b } rec ws st v as = runMatch W I rec ws st v as
  | [] => rfl
  | .mk w c ns :: rest => by
    simp only [runMatch, runMatch_block rec ws st v rest]
    rfl

theorem keepItems_block (st : Store U) (t : Target) (c : Expr) : (vs : List (Val U)) →
    keepItems W { I with block := b } st t c vs = keepItems W I st t c vs
  | [] => rfl
  | v :: vs => by simp only [keepItems, evalE_block, keepItems_block st t c vs]

theorem argValues_block (st : Store U) (args : List Expr) : (ps : List Str) → (i : Nat) →
    argValues W { I with block := b } st args ps i = argValues W I st args ps i
  | [], _ => rfl
  | p :: ps, i => by simp only [argValues, evalE_block, argValues_block st args ps (i + 1)]

theorem runNode_block (rec : Render U) (chain : List Ctx) (ctx : Ctx) (sup : Option (Str × Nat)) (before : WH)
    (after : Option WH) (st : Store U) (n : Node) :
    runNode W { I with block := b } rec chain ctx sup before after st n = runNode W I rec chain ctx sup before after st n := by
  cases n with
  | expr ws e => simp only [runNode, showE_block]
  | call ws scope name args =>
    simp only [runNode, runCall, argValues_block]
    rfl
  | let_ ws t v => simp only [runNode, runLet, evalE_block]
  | if_ ws bs => simp only [runNode, runIf_block]
  | match_ ws1 e arms ws2 => simp only [runNode, evalE_block, runMatch_block]
  | loop ws1 t it c body ws2 els ws3 =>
    simp only [runNode, runLoop, evalE_block, keepItems_block]
    rfl
  | filterBlock ws1 f ns ws2 =>
    simp only [runNode, runFilter, showE_block]
    rfl
  | _ => rfl

theorem runNodes_block (rec : Render U) (chain : List Ctx) (ctx : Ctx) (sup : Option (Str × Nat)) :
    (ns : List Node) → (before : WH) → (after : Option WH) → (st : Store U) →
    runNodes W { I with block := b } rec chain ctx sup before ns after st = runNodes W I rec chain ctx sup before ns after st
  | [], _, _, _ => rfl
  | n :: ns, before, after, st => by
    simp only [runNodes, runNode_block, runNodes_block rec chain ctx sup ns]
    rfl

theorem run_block (fuel : Nat) : run W { I with block := b } fuel = run W I fuel := by
  induction fuel with
  | zero => rfl
  | succ fuel ih =>
    funext chain ctx sup before ns after st
    simp only [run, ih, runNodes_block]

end

section

variable {U : Type} {W : World U} {I : GenInput}

theorem makes_anyBlock (b : Option Str) {p : Place U} {ns : List Node} {s : Str} {sig : Sig} {st : Store U} :
    Makes W { I with block := b } p ns s sig st ↔ Makes W I p ns s sig st := by
  unfold Makes
  simp only [run_block]

/-! ## The loop -/

/-- Rendering stays in the same loop. -/
def KeepsItem (rec : Render U) : Prop := ∀ chain ctx sup before ns after st s sig st',
  rec chain ctx sup before ns after st = some (s, sig, st') → st'.item = st.item

theorem runIf_item {rec : WH → List Node → Option WH → Store U → Res U} {ws : Ws} {st : Store U} : (bs : List Cond) →
    {s : Option Str} → {sig : Sig} → {st' : Store U} → runIf W I rec ws st bs = some (s, sig, st') → st'.item = st.item
  | [], _, _, _, h => by cases h; rfl
  | .mk w c ns :: rest, s, sig, st', h => by
    unfold runIf at h
    obtain ⟨o, h1, h⟩ := Option.bind_eq_some_iff.mp h
    cases o with
    | none => exact runIf_item rest h
    | some st1 =>
      obtain ⟨⟨s2, sig2, st2⟩, h2, h⟩ := Option.map_eq_some_iff.mp h
      cases h
      rfl

theorem runMatch_item {rec : WH → List Node → Option WH → Store U → Res U} {ws : Ws} {st : Store U} {v : Val U} :
    (as : List When) → {s : Option Str} → {sig : Sig} → {st' : Store U} →
    runMatch W I rec ws st v as = some (s, sig, st') → st'.item = st.item
  | [], _, _, _, h => by cases h
  | .mk w t ns :: rest, s, sig, st', h => by
    unfold runMatch at h
    split at h
    · obtain ⟨⟨s2, sig2, st2⟩, h2, h⟩ := Option.map_eq_some_iff.mp h
      cases h
      rfl
    · exact runMatch_item rest h

theorem runItems_item {t : Target} {body : Store U → Res U} : (vs : List (Val U)) → {i : Nat} → {st : Store U} →
    {s : Option Str} → {st' : Store U} → runItems W t body vs i st = some (s, st') → st'.item = st.item
  | [], _, _, _, _, h => by cases h; rfl
  | v :: vs, i, st, s, st', h => by
    unfold runItems at h
    obtain ⟨ws, h1, h⟩ := Option.bind_eq_some_iff.mp h
    obtain ⟨⟨s1, sig1, st1⟩, h2, h⟩ := Option.bind_eq_some_iff.mp h
    dsimp only at h
    split at h
    · cases h; rfl
    · obtain ⟨⟨s2, st2⟩, h3, h⟩ := Option.map_eq_some_iff.mp h
      cases h
      exact (runItems_item vs h3).trans rfl

theorem runNode_item {rec : Render U} (hr : KeepsItem rec) {chain : List Ctx} {ctx : Ctx} {sup : Option (Str × Nat)}
    {before : WH} {after : Option WH} {st : Store U} {n : Node} {s : Option Str} {sig : Sig} {st' : Store U}
    (h : runNode W I rec chain ctx sup before after st n = some (s, sig, st')) : st'.item = st.item := by
  have block : ∀ name k, runBlock I rec chain ctx st name k = some (s, sig, st') → st'.item = st.item := by
    intro name k h
    unfold runBlock at h
    split at h
    · cases h
    · obtain ⟨⟨s2, sig2, st2⟩, h2, h⟩ := Option.map_eq_some_iff.mp h
      cases h; rfl
  cases n with
  | call ws scope name args =>
    simp only [runNode] at h
    split at h
    · split at h
      · cases h
      · exact block _ _ h
    · unfold runCall at h
      obtain ⟨⟨d, own⟩, h1, h⟩ := Option.bind_eq_some_iff.mp h
      obtain ⟨ps, h2, h⟩ := Option.bind_eq_some_iff.mp h
      obtain ⟨⟨s2, sig2, st2⟩, h2, h⟩ := Option.map_eq_some_iff.mp h
      cases h; rfl
  | let_ ws t v =>
    simp only [runNode, runLet] at h
    split at h
    · cases h; rfl
    · obtain ⟨v, h1, h⟩ := Option.bind_eq_some_iff.mp h
      split at h
      · split at h
        · obtain ⟨vars, h2, h⟩ := Option.bind_eq_some_iff.mp h
          cases h; rfl
        · obtain ⟨vars, h2, h⟩ := Option.bind_eq_some_iff.mp h
          cases h; rfl
      · obtain ⟨vars, h2, h⟩ := Option.bind_eq_some_iff.mp h
        cases h; rfl
  | if_ ws bs => exact runIf_item bs h
  | match_ ws1 e arms ws2 =>
    simp only [runNode] at h
    obtain ⟨v, h1, h⟩ := Option.bind_eq_some_iff.mp h
    exact runMatch_item arms h
  | loop ws1 t it c body ws2 els ws3 =>
    simp only [runNode, runLoop] at h
    obtain ⟨v, h1, h⟩ := Option.bind_eq_some_iff.mp h
    obtain ⟨vs, h2, h⟩ := Option.bind_eq_some_iff.mp h
    obtain ⟨ks, h3, h⟩ := Option.bind_eq_some_iff.mp h
    split at h
    · split at h
      · cases h; rfl
      · obtain ⟨⟨s2, sig2, st2⟩, h2, h⟩ := Option.map_eq_some_iff.mp h
        cases h; rfl
    · obtain ⟨⟨s2, st2⟩, h2, h⟩ := Option.map_eq_some_iff.mp h
      cases h
      exact runItems_item _ h2
  | blockDef ws1 name ns ws2 => exact block _ _ h
  | «include» ws path =>
    simp only [runNode, runInclude] at h
    obtain ⟨p, h1, h⟩ := Option.bind_eq_some_iff.mp h
    obtain ⟨c, h2, h⟩ := Option.bind_eq_some_iff.mp h
    obtain ⟨ch, h3, h⟩ := Option.bind_eq_some_iff.mp h
    obtain ⟨⟨s2, sig2, st2⟩, h2, h⟩ := Option.map_eq_some_iff.mp h
    cases h; rfl
  | filterBlock ws1 f ns ws2 =>
    simp only [runNode, runFilter] at h
    obtain ⟨⟨s2, sig2, st2⟩, h2, h⟩ := Option.map_eq_some_iff.mp h
    cases h
    exact hr _ _ _ _ _ _ _ _ _ _ h2
  | _ => cases h; rfl

theorem runNodes_item {rec : Render U} (hr : KeepsItem rec) {chain : List Ctx} {ctx : Ctx} {sup : Option (Str × Nat)} :
    (ns : List Node) → {before : WH} → {after : Option WH} → {st : Store U} → {s : Option Str} → {sig : Sig} →
    {st' : Store U} → runNodes W I rec chain ctx sup before ns after st = some (s, sig, st') → st'.item = st.item
  | [], _, _, _, _, _, _, h => by cases h; rfl
  | n :: ns, before, after, st, s, sig, st', h => by
    unfold runNodes at h
    obtain ⟨⟨s1, sig1, st1⟩, h1, h⟩ := Option.bind_eq_some_iff.mp h
    have i1 := runNode_item hr h1
    dsimp only at h
    split at h
    · obtain ⟨⟨s2, sig2, st2⟩, h2, h⟩ := Option.map_eq_some_iff.mp h
      cases h
      exact (runNodes_item hr ns h2).trans i1
    · cases h; exact i1

theorem run_item : (fuel : Nat) → KeepsItem (run W I fuel)
  | 0 => by intro _ _ _ _ _ _ _ _ _ _ h; cases h
  | fuel + 1 => fun _ _ _ _ ns _ _ _ _ _ h => runNodes_item (run_item fuel) ns h

/-- The text of a block depends on the place only by the chain, the macros and the loop. -/
theorem blockMakes_place {p p' : Place U} (h1 : p'.chain = p.chain) (h2 : p'.ctx = p.ctx)
    (h3 : p'.store.item = p.store.item) {name : Str} {k : Nat} {s : Str} {sig : Sig} {st : Store U}
    (h : BlockMakes W I p name k s sig st) : BlockMakes W I p' name k s sig p'.store := by
  obtain ⟨c, d, st1, h4, h5, -⟩ := h
  refine ⟨c, d, st1, by rw [h1]; exact h4, ?_, rfl⟩
  unfold Place.inBlock at h5 ⊢
  rw [h1, h2, h3]
  exact h5

theorem blockMakes_det {p : Place U} {name : Str} {k : Nat} {s s' : Str} {sig sig' : Sig} {st st' : Store U}
    (h : BlockMakes W I p name k s sig st) (h' : BlockMakes W I p name k s' sig' st') : s = s' := by
  obtain ⟨f, h⟩ := runBlock_iff.mpr h
  obtain ⟨f', h'⟩ := runBlock_iff.mpr h'
  have key : ∀ (n m : Nat) x, n ≤ m → runBlock I (run W I n) p.chain p.ctx p.store name k = some x →
      runBlock I (run W I m) p.chain p.ctx p.store name k = some x := by
    intro n m x hm hx
    unfold runBlock at hx ⊢
    split at hx
    · cases hx
    · rename_i c d hd
      obtain ⟨y, h2, h3⟩ := Option.map_eq_some_iff.mp hx
      rw [failsOr_some (run_mono W I hm _ _ _ _ _ _ _) h2]
      simp only [Option.map_some, h3]
  have := (key _ _ _ (Nat.le_max_left f f') h).symm.trans (key _ _ _ (Nat.le_max_right f f') h')
  cases this
  rfl

/-! ## The check -/

theorem goodNode_keepV {gd : GoodRec} {chain : List Ctx} {ctx : Ctx} {sup : Option (Str × Nat)}
    {S S' : Sets} {n : Node} (hn : keeps n = true) (h : goodNode I gd chain ctx sup S n = some S') : S'.V = S.V := by
  have hif : ∀ {c : Bool} (X : Sets), X.V = S.V → (if c = true then some X else none) = some S' → S'.V = S.V := by
    intro c X hX h
    split at h
    · cases h; exact hX
    · cases h
  have block : ∀ name k, goodBlock gd chain ctx S name k = some S' → S'.V = S.V := by
    intro name k h
    unfold goodBlock at h
    split at h
    · cases h
    · split at h
      · cases h
      · rename_i S1 _
        exact hif { S with P := S1.P } rfl h
  cases n with
  | lit l => exact hif S rfl h
  | comment ws c => cases h; rfl
  | expr w e => exact hif { S with P := Expr.vars e ++ S.P } rfl h
  | call w scope name args =>
    simp only [goodNode] at h
    split at h
    · split at h
      · cases h
      · exact block _ _ h
    · exact hif S.flushed rfl h
  | let_ ws t v => cases hn
  | if_ ws bs => exact hif S.flushed rfl h
  | match_ ws1 e arms ws2 => exact hif S.flushed rfl h
  | loop ws1 t it c body ws2 els ws3 => exact hif S.flushed rfl h
  | extends_ p => cases h
  | blockDef ws1 name ns ws2 => exact block _ _ h
  | «include» ws path => exact hif S.flushed rfl h
  | import_ ws p s => cases h; rfl
  | «macro» ws1 name args ns ws2 => cases h; rfl
  | raw ws1 l ws2 => exact hif S rfl h
  | break_ ws => cases h; rfl
  | continue_ ws => cases h; rfl
  | filterBlock ws1 f ns ws2 => exact hif { S with P := Expr.varsList f.args ++ S.P } rfl h

theorem goodNodes_block {gd : GoodRec} {chain : List Ctx} {ctx : Ctx} {sup : Option (Str × Nat)} {ws1 ws2 : Ws} {b : Str}
    {ns post : List Node} : (pre : List Node) → {S S' : Sets} → keepsAll pre = true → S.V = [] → S.K = [] →
    goodNodes I gd chain ctx sup S (pre ++ .blockDef ws1 b ns ws2 :: post) = some S' →
    (goodBlock gd chain ctx ⟨[], [], [], [], []⟩ b 0).isSome = true
  | [], S, S', _, hV, hK, h => by
    simp only [List.nil_append, goodNodes] at h
    split at h
    · cases h
    · split at h
      · cases h
      · rename_i S1 h1
        simp only [goodNode] at h1
        unfold goodBlock at h1 ⊢
        rw [hV, hK] at h1
        split at h1
        · cases h1
        · rename_i c d hd
          split at h1
          · cases h1
          · rename_i S2 h2
            simp only [List.append_nil] at h2 ⊢
            rw [h2]
            simp [disj]
  | n :: pre, S, S', hk, hV, hK, h => by
    simp only [List.cons_append, goodNodes] at h
    simp only [keepsAll, Bool.and_eq_true] at hk
    split at h
    · cases h
    · split at h
      · cases h
      · rename_i S1 h1
        exact goodNodes_block pre hk.2 ((goodNode_keepV hk.1 h1).trans hV) ((goodNode_keep h1).trans hK) h

theorem goodBlock_inside {chain : List Ctx} {b : Str} {trail : List Str} {ctx own : Ctx} {ns : List Node}
    (hi : Inside chain b trail ctx ns own) : ∀ {fuel : Nat} {sup : Option (Str × Nat)} {S' : Sets},
    good I fuel chain ctx sup ⟨[], [], [], [], []⟩ ns = some S' →
    ∃ fuel, (goodBlock (good I fuel) chain own ⟨[], [], [], [], []⟩ b 0).isSome = true := by
  induction hi with
  | here _ hk _ =>
    intro fuel sup S' h
    cases fuel with
    | zero => cases h
    | succ fuel => exact ⟨fuel, goodNodes_block _ hk rfl rfl h⟩
  | under _ hk _ _ hd _ _ ih =>
    intro fuel sup S' h
    cases fuel with
    | zero => cases h
    | succ fuel =>
      have h1 := goodNodes_block _ hk rfl rfl h
      unfold goodBlock at h1
      rw [(blockDefs_iff _).mpr hd] at h1
      dsimp only at h1
      split at h1
      · cases h1
      · rename_i S2 h2
        exact ih h2

theorem faithful_block {w : Whole} {b o : Str} {own : Ctx} {trail : List Str} {pre ns post : List Node} {ws1 ws2 : Ws}
    (hr : w.root.nodes = pre ++ .blockDef ws1 o ns ws2 :: post) (hk : keepsAll pre = true)
    (hl : w.Leads b trail o own) (h : w.Faithful) : w.FaithfulIn own b := by
  rcases h with h | ⟨fuel, h⟩
  · exact .inl h
  · refine .inr ?_
    obtain ⟨S', hS⟩ := Option.isSome_iff_exists.mp h
    cases fuel with
    | zero => cases hS
    | succ fuel =>
      simp only [good] at hS
      change goodNodes w.input (good w.input fuel) w.chain w.root none ⟨[], [], [], [], []⟩ w.root.nodes = some S' at hS
      rw [hr] at hS
      have h1 := goodNodes_block pre hk rfl rfl hS
      cases hl with
      | itself => exact ⟨fuel, h1⟩
      | inside hne hd _ hi =>
        unfold goodBlock at h1
        rw [(blockDefs_iff _).mpr hd] at h1
        dsimp only at h1
        split at h1
        · cases h1
        · rename_i S2 h2
          exact goodBlock_inside hi h2

theorem goodBlock_mono {chain : List Ctx} {ctx : Ctx} {S : Sets} {name : Str} {k : Nat} {n m : Nat} (h : n ≤ m)
    (hg : (goodBlock (good I n) chain ctx S name k).isSome = true) :
    (goodBlock (good I m) chain ctx S name k).isSome = true := by
  induction h with
  | refl => exact hg
  | step _ ih =>
    rename_i m _
    unfold goodBlock at ih ⊢
    split
    · rename_i e; rw [e] at ih; cases ih
    · rename_i c d e
      rw [e] at ih
      dsimp only at ih
      rcases good_step I m chain (withMacrosOf c ctx) (some (name, k)) ⟨S.V ++ S.K, [], [], [], []⟩ d.nodes with e2 | e2
      · rw [e2] at ih; cases ih
      · rw [← e2]; exact ih

/-! ## The blocks and macros of a template -/

variable {P : Node → Prop} {b : Str}

/-- The collected blocks and macros are those of nodes of the template. -/
structure CtxStHas (P : Node → Prop) (st : CtxSt) : Prop where
  blocks : ∀ e ∈ st.blocks, ∃ ws1 ws2, P (.blockDef ws1 e.1 e.2.nodes ws2)
  macros : ∀ e ∈ st.macros, ∃ ws1 ws2, P (.macro ws1 e.1 e.2.args e.2.nodes ws2)
  nested : ∀ ns ∈ st.nested, Every P ns

theorem ctxNode_has {find : Str → Option Str} {top : Bool} {st st' : CtxSt} {n : Node}
    (h : ctxNode find top st n = .ok st') (hn : ∀ m ∈ parts n, P m) (hs : CtxStHas P st) : CtxStHas P st' := by
  have key : CtxStHas P { st with nested := ctxNested n ++ st.nested } :=
    ⟨hs.blocks, hs.macros, by
      intro ns hns
      rcases List.mem_append.mp hns with hns | hns
      · exact ctxNested_parts hn ns hns
      · exact hs.nested ns hns⟩
  cases n with
  | extends_ p =>
    simp only [ctxNode] at h
    repeat' split at h
    all_goals cases h
    exact ⟨hs.blocks, hs.macros, hs.nested⟩
  | import_ w p s =>
    simp only [ctxNode] at h
    repeat' split at h
    all_goals cases h
    exact ⟨hs.blocks, hs.macros, hs.nested⟩
  | «macro» w1 name args nodes w2 =>
    simp only [ctxNode] at h
    split at h
    · cases h
      refine ⟨hs.blocks, ?_, hs.nested⟩
      intro e he
      rcases mapInsert_mem he with rfl | he
      · exact ⟨w1, w2, hn _ (by simp only [parts]; exact List.mem_cons_self ..)⟩
      · exact hs.macros e he
    · cases h
  | blockDef w1 name nodes w2 =>
    cases h
    refine ⟨?_, hs.macros, key.nested⟩
    intro e he
    rcases mapInsert_mem he with rfl | he
    · exact ⟨w1, w2, hn _ (by simp only [parts]; exact List.mem_cons_self ..)⟩
    · exact hs.blocks e he
  | _ => cases h; exact key

theorem ctxNodes_has {find : Str → Option Str} {top : Bool} : (ns : List Node) → {st st' : CtxSt} →
    ctxNodes find top ns st = .ok st' → Every P ns → CtxStHas P st → CtxStHas P st'
  | [], _, _, h, _, hs => by cases h; exact hs
  | n :: ns, _, _, h, hn, hs => by
    unfold ctxNodes at h
    obtain ⟨st1, h1, h⟩ := except_bind h
    exact ctxNodes_has ns h hn.tail (ctxNode_has h1 hn.head hs)

theorem ctxLoop_has {find : Str → Option Str} : (fuel : Nat) → {top : Bool} → {st st' : CtxSt} →
    ctxLoop find fuel top st = .ok st' → CtxStHas P st → CtxStHas P st'
  | fuel, top, st, st', h, hs => by
    unfold ctxLoop at h
    split at h
    · cases h; exact hs
    · rename_i ns rest hn
      cases fuel with
      | zero => cases h
      | succ fuel =>
        dsimp only at h
        obtain ⟨st1, h1, h⟩ := except_bind h
        have hns : Every P ns := hs.nested ns (by rw [hn]; simp)
        refine ctxLoop_has fuel h (ctxNodes_has ns h1 hns ⟨hs.blocks, hs.macros, ?_⟩)
        intro l hl
        exact hs.nested l (by rw [hn]; exact List.mem_cons_of_mem _ hl)

theorem contextNew_has {find : Str → Option Str} {nodes : List Node} {c : Ctx} (h : contextNew find nodes = .ok c)
    (hn : Every P nodes) : (∀ e ∈ c.blocks, ∃ ws1 ws2, P (.blockDef ws1 e.1 e.2.nodes ws2))
      ∧ ∀ e ∈ c.macros, ∃ ws1 ws2, P (.macro ws1 e.1 e.2.args e.2.nodes ws2) := by
  unfold contextNew at h
  obtain ⟨st, h1, h⟩ := except_bind h
  cases h
  have := ctxLoop_has (P := P) _ h1 ⟨by simp, by simp, by simpa using hn⟩
  exact ⟨this.blocks, this.macros⟩

/-! ## What is left out -/

/-- A node of one of the templates, but not one of the blocks. -/
def Other (I : GenInput) (trail : List Str) (n : Node) : Prop :=
  (∀ b ∈ trail, declares b n = false) ∧ ∃ p c, assoc I.contexts p = some c ∧ n ∈ partsL c.nodes

theorem ancestry_merge {contexts : List (Str × Ctx)} {c ctx : Ctx} {a : List Ctx}
    (h : Ancestry contexts (withMacrosOf c ctx) a) : ∃ a', Ancestry contexts c a'
      ∧ (a.getLastD (withMacrosOf c ctx)).nodes = (a'.getLastD c).nodes := by
  cases h with
  | root h => exact ⟨[c], .root h, rfl⟩
  | child h1 h2 h3 =>
    rename_i parent path rest
    refine ⟨c :: rest, .child h1 h2 h3, ?_⟩
    cases rest with
    | nil => cases h3
    | cons x rest => rfl

theorem ancestry_mem {contexts : List (Str × Ctx)} {c : Ctx} {a : List Ctx} (h : Ancestry contexts c a) :
    a.getLastD c = c ∨ ∃ p, assoc contexts p = some (a.getLastD c) := by
  induction h with
  | root _ => exact .inl rfl
  | child h1 h2 h3 ih =>
    rename_i ctx parent path rest
    right
    cases rest with
    | nil => cases h3
    | cons x rest =>
      have e : ∀ d d' : Ctx, (ctx :: x :: rest).getLastD d = (x :: rest).getLastD d' := fun d d' => by
        cases rest <;> rfl
      rw [e ctx parent]
      rcases ih with ih | ih
      · rw [ih]; exact ⟨path, h2⟩
      · exact ih

mutual
theorem parts_sub : (x : Node) → ∀ n ∈ parts x, ∀ m ∈ parts n, m ∈ parts x
  | .if_ ws bs, n, hn, m, hm => by
    simp only [parts, List.mem_cons] at hn
    rcases hn with rfl | hn
    · exact hm
    · simp only [parts, List.mem_cons]; exact .inr (partsC_sub bs n hn m hm)
  | .match_ ws1 e as ws2, n, hn, m, hm => by
    simp only [parts, List.mem_cons] at hn
    rcases hn with rfl | hn
    · exact hm
    · simp only [parts, List.mem_cons]; exact .inr (partsW_sub as n hn m hm)
  | .loop ws1 v i c body ws2 els ws3, n, hn, m, hm => by
    simp only [parts, List.mem_cons, List.mem_append] at hn
    rcases hn with rfl | hn | hn
    · exact hm
    · simp only [parts, List.mem_cons, List.mem_append]; exact .inr (.inl (partsL_sub body n hn m hm))
    · simp only [parts, List.mem_cons, List.mem_append]; exact .inr (.inr (partsL_sub els n hn m hm))
  | .blockDef ws1 name nodes ws2, n, hn, m, hm => by
    simp only [parts, List.mem_cons] at hn
    rcases hn with rfl | hn
    · exact hm
    · simp only [parts, List.mem_cons]; exact .inr (partsL_sub nodes n hn m hm)
  | .macro ws1 name args nodes ws2, n, hn, m, hm => by
    simp only [parts, List.mem_cons] at hn
    rcases hn with rfl | hn
    · exact hm
    · simp only [parts, List.mem_cons]; exact .inr (partsL_sub nodes n hn m hm)
  | .filterBlock ws1 f nodes ws2, n, hn, m, hm => by
    simp only [parts, List.mem_cons] at hn
    rcases hn with rfl | hn
    · exact hm
    · simp only [parts, List.mem_cons]; exact .inr (partsL_sub nodes n hn m hm)
  | .lit _, n, hn, m, hm | .comment _ _, n, hn, m, hm | .expr _ _, n, hn, m, hm | .call _ _ _ _, n, hn, m, hm
  | .let_ _ _ _, n, hn, m, hm | .extends_ _, n, hn, m, hm | .include _ _, n, hn, m, hm | .import_ _ _ _, n, hn, m, hm
  | .raw _ _ _, n, hn, m, hm | .break_ _, n, hn, m, hm | .continue_ _, n, hn, m, hm => by
    simp only [parts, List.mem_singleton] at hn
    subst hn
    exact hm
  termination_by x => sizeOf x
theorem partsL_sub : (ns : List Node) → ∀ n ∈ partsL ns, ∀ m ∈ parts n, m ∈ partsL ns
  | [], n, hn, _, _ => by simp [partsL] at hn
  | x :: ns, n, hn, m, hm => by
    simp only [partsL, List.mem_append] at hn ⊢
    rcases hn with hn | hn
    · exact .inl (parts_sub x n hn m hm)
    · exact .inr (partsL_sub ns n hn m hm)
  termination_by ns => sizeOf ns
theorem partsC_sub : (ns : List Cond) → ∀ n ∈ partsC ns, ∀ m ∈ parts n, m ∈ partsC ns
  | [], n, hn, _, _ => by simp [partsC] at hn
  | .mk _ _ x :: ns, n, hn, m, hm => by
    simp only [partsC, List.mem_append] at hn ⊢
    rcases hn with hn | hn
    · exact .inl (partsL_sub x n hn m hm)
    · exact .inr (partsC_sub ns n hn m hm)
  termination_by ns => sizeOf ns
theorem partsW_sub : (ns : List When) → ∀ n ∈ partsW ns, ∀ m ∈ parts n, m ∈ partsW ns
  | [], n, hn, _, _ => by simp [partsW] at hn
  | .mk _ _ x :: ns, n, hn, m, hm => by
    simp only [partsW, List.mem_append] at hn ⊢
    rcases hn with hn | hn
    · exact .inl (partsL_sub x n hn m hm)
    · exact .inr (partsW_sub ns n hn m hm)
  termination_by ns => sizeOf ns
end

theorem alone_away {w : Whole} {trail : List Str} (hb : w.input.block = some b) (hm : b ∈ trail)
    (hx : ∀ p x, assoc w.input.contexts p = some x → ∃ find, contextNew find x.nodes = .ok x) (ha : w.Alone trail) :
    Away w.input (Other w.input trail) b trail := by
  have hbl : AllBlocksOk w.input := fun p x hp => by
    obtain ⟨find, hf⟩ := hx p x hp
    exact contextNew_blocks hf
  refine ⟨hb, hm, ?_, fun ws t v ⟨_, p, c, hc, hn⟩ => ha.lets p c hc ws t v hn, ?_, ?_⟩
  · intro ws1 n ns ws2 h hn
    have := h.1 n hn
    simp [declares] at this
  · rintro ws path ⟨-, p0, c0, hc0, hn0⟩ p c Hc ctx hf hc hH n hn
    obtain ⟨chain, h1, h2, -⟩ := includeHeritage_chain (c := Gen.mergeCtx c ctx) hbl (show BlocksOk c from hbl _ _ hc) hH
    rw [h2] at hn
    obtain ⟨a, h3, h4, -⟩ := chainOf_ancestry (contexts := w.input.contexts) (ctx := Gen.mergeCtx c ctx) h1
    rw [h4] at hn
    obtain ⟨a', h5, h6⟩ := ancestry_merge (c := c) (ctx := ctx) h3
    have hn : n ∈ partsL (a'.getLastD c).nodes := by rw [← h6]; exact hn
    refine ⟨fun b hb => ha.includes p0 c0 hc0 ws path hn0 p c a' hf hc h5 b hb n hn, ?_⟩
    rcases ancestry_mem h5 with e | ⟨q, e⟩
    · rw [e] at hn; exact ⟨p, c, hc, hn⟩
    · exact ⟨q, _, e, hn⟩
  · intro p c hc
    obtain ⟨find, hf⟩ := hx p c hc
    obtain ⟨h1, h2⟩ := contextNew_has (P := fun n => n ∈ partsL c.nodes) hf (fun n hn => hn)
    refine ⟨?_, ?_⟩
    · intro e he hne n hn
      obtain ⟨ws1, ws2, h3⟩ := h1 e he
      exact ⟨fun b hb => ha.blocks p c hc _ _ _ _ h3 hne b hb n hn, p, c, hc, partsL_sub _ _ h3 n (by simp [parts, hn])⟩
    · intro e he n hn
      obtain ⟨ws1, ws2, h3⟩ := h2 e he
      exact ⟨fun b hb => ha.macros p c hc _ _ _ _ _ h3 b hb n hn, p, c, hc, partsL_sub _ _ h3 n (by simp [parts, hn])⟩

theorem partsL_append : (l r : List Node) → (x : Node) → (x ∈ partsL (l ++ r) ↔ x ∈ partsL l ∨ x ∈ partsL r)
  | [], r, x => by simp [partsL]
  | n :: l, r, x => by simp only [List.cons_append, partsL, List.mem_append, partsL_append l r x, or_assoc]

theorem ancestry_all {contexts : List (Str × Ctx)} {c : Ctx} {a : List Ctx} (h : Ancestry contexts c a) :
    (∃ q, assoc contexts q = some c) → ∀ x ∈ a, ∃ q, assoc contexts q = some x := by
  induction h with
  | root _ => intro hc x hx; rw [List.mem_singleton] at hx; subst hx; exact hc
  | child _ h2 _ ih =>
    intro hc x hx
    rcases List.mem_cons.mp hx with rfl | hx
    · exact hc
    · exact ih ⟨_, h2⟩ x hx

/-- The nodes are part of one of the templates. -/
def OfFiles (I : GenInput) (ns : List Node) : Prop := ∀ n ∈ partsL ns, ∃ p c, assoc I.contexts p = some c ∧ n ∈ partsL c.nodes

theorem defines_known {chain : List Ctx} (hchain : ∀ name k c d, Defines chain name k c d → ∃ q, assoc I.contexts q = some c)
    (hx : ∀ p x, assoc I.contexts p = some x → ∃ find, contextNew find x.nodes = .ok x) {o : Str} {k : Nat} {c : Ctx}
    {d : BlockDefn} (h : Defines chain o k c d) : OfFiles I d.nodes := by
  obtain ⟨q, hq⟩ := hchain _ _ _ _ h
  obtain ⟨l, r, rfl, -, h⟩ := h
  obtain ⟨find, hf⟩ := hx q c hq
  obtain ⟨h1, -⟩ := contextNew_has (P := fun n => n ∈ partsL c.nodes) hf (fun n hn => hn)
  obtain ⟨ws1, ws2, h3⟩ := h1 _ (assoc_pair h)
  intro n hn
  exact ⟨q, c, hq, partsL_sub _ _ h3 n (by simp [parts, hn])⟩

theorem lacks_every {trail : List Str} {ns : List Node} (h : LacksAll trail ns) (hk : OfFiles I ns) : Every (Other I trail) ns :=
  fun n hn => ⟨fun b hb => h b hb n hn, hk n hn⟩

theorem defines_safe {chain : List Ctx} (hchain : ∀ name k c d, Defines chain name k c d → ∃ q, assoc I.contexts q = some c)
    (hx : ∀ p x, assoc I.contexts p = some x → ∃ find, contextNew find x.nodes = .ok x) {H : Option Heritage}
    (hH : HChain H chain) {trail : List Str} {o : Str} {c : Ctx} {d : BlockDefn} (hd : Defines chain o 0 c d)
    (ha : ∀ k c' d', Defines chain o (k + 1) c' d' → LacksAll trail d'.nodes) :
    (∀ h defs, H = some h → assoc h.blocks o = some defs → defs[0]? = some (c, d)) ∧ SafeAbove (Other I trail) H o 0 := by
  constructor
  · intro h defs e hdefs
    rw [hH h e _ _ hdefs]
    exact (blockDefs_iff _).mpr hd
  · intro h e defs hdefs i x hi hx'
    rw [hH h e _ _ hdefs] at hx'
    have := (blockDefs_iff (c := x.1) (d := x.2) _).mp hx'
    obtain ⟨i, rfl⟩ : ∃ j, i = j + 1 := ⟨i - 1, by omega⟩
    exact lacks_every (ha _ _ _ this) (defines_known hchain hx this)

theorem inside_deep {chain : List Ctx} (hchain : ∀ name k c d, Defines chain name k c d → ∃ q, assoc I.contexts q = some c)
    (hx : ∀ p x, assoc I.contexts p = some x → ∃ find, contextNew find x.nodes = .ok x) {trail : List Str} {ctx own : Ctx} {ns : List Node} (hi : Inside chain b trail ctx ns own) :
    OfFiles I ns → ∃ k, ∀ H, HChain H chain → Deep (Other I trail) H b k ctx ns own := by
  induction hi with
  | here h1 h2 h3 =>
    intro hk
    exact ⟨0, fun H hH => .here (lacks_every h1 fun n hn => hk n ((partsL_append _ _ _).mpr (.inl hn))) h2 h3⟩
  | under h1 h2 h3 h4 h5 h6 h7 ih =>
    intro hk
    obtain ⟨k, h8⟩ := ih (defines_known hchain hx h5)
    refine ⟨k + 1, fun H hH => ?_⟩
    obtain ⟨h9, h10⟩ := defines_safe hchain hx hH h5 h6
    exact .under (lacks_every h1 fun n hn => hk n ((partsL_append _ _ _).mpr (.inl hn))) h2 h3 h4 h9 h10 (h8 H hH)

theorem leads_reached {w : Whole} (hchain : ∀ name k c d, Defines w.chain name k c d → ∃ q, assoc w.input.contexts q = some c)
    (hx : ∀ p x, assoc w.input.contexts p = some x → ∃ find, contextNew find x.nodes = .ok x) {trail : List Str} {o : Str} {own : Ctx} (hl : w.Leads b trail o own) :
    ∃ k, ∀ H, HChain H w.chain → Reached (Other w.input trail) H b w.root k o own := by
  cases hl with
  | itself => exact ⟨0, fun _ _ => .itself⟩
  | inside h1 h2 h3 h4 =>
    obtain ⟨k, h5⟩ := inside_deep hchain hx h4 (defines_known hchain hx h2)
    refine ⟨k + 1, fun H hH => ?_⟩
    obtain ⟨h6, h7⟩ := defines_safe hchain hx hH h2 h3
    exact .inside h1 h6 h7 (h5 H hH)

/-! ## The part of the whole -/

theorem blockMakes_store {p : Place U} {name : Str} {k : Nat} {s : Str} {sig : Sig} {st : Store U}
    (h : BlockMakes W I p name k s sig st) : st = p.store := by
  obtain ⟨_, _, _, _, _, h⟩ := h
  exact h

theorem inside_part {chain : List Ctx} {trail : List Str} {ctx own : Ctx} {ns : List Node}
    (hi : Inside chain b trail ctx ns own) {part : Str → Prop} : ∀ {p : Place U}, p.chain = chain → p.ctx = ctx →
    (∀ (q : Place U) m st, q.chain = chain → q.ctx = own → q.store.item = p.store.item →
      BlockMakes W I q b 0 m .next st → part m) →
    ∀ {s : Str} {st : Store U}, Makes W I p ns s .next st → HasPart W I b part p ns s := by
  induction hi with
  | here _ _ _ =>
    intro p hc hx hp s st h
    obtain ⟨x, m, z, st1, st2, h1, h2, h3, rfl⟩ := makes_split.mp h
    have hb := makes_block.mp h2
    obtain rfl : st2 = st1 := blockMakes_store hb
    obtain ⟨f, h0⟩ := h1
    have hit := run_item f _ _ _ _ _ _ _ _ _ _ h0
    exact .here ⟨f, h0⟩ (hp ((p.rear I _ st2).front I _) _ _ hc hx hit hb) h3
  | under _ _ _ _ hd _ _ ih =>
    intro p hc hx hp s st h
    obtain ⟨x, m, z, st1, st2, h1, h2, h3, rfl⟩ := makes_split.mp h
    have hb := makes_block.mp h2
    obtain rfl : st2 = st1 := blockMakes_store hb
    obtain ⟨f, h0⟩ := h1
    have hit := run_item f _ _ _ _ _ _ _ _ _ _ h0
    obtain ⟨c', d', st3, e1, e2, -⟩ := hb
    have e1' := (blockDefs_iff _).mpr e1
    have hd' : Defines p.chain _ 0 _ _ := hc ▸ hd
    rw [show ((p.rear I _ st2).front I _).chain = p.chain from rfl, (blockDefs_iff _).mpr hd'] at e1'
    cases e1'
    refine .under ⟨f, h0⟩ hd' (ih (p := ((p.rear I _ st2).front I _).inBlock I _ _ _ 0) hc ?_ ?_ e2) h3
    · show withMacrosOf _ p.ctx = _
      rw [hx]
    · intro q m st q1 q2 q3 q4
      exact hp q m st q1 q2 (q3.trans hit) q4

theorem leads_part {w : Whole} {trail : List Str} {o : Str} {own : Ctx} (hl : w.Leads b trail o own) {pre ns post : List Node}
    {ws1 ws2 : Ws} (hr : w.root.nodes = pre ++ .blockDef ws1 o ns ws2 :: post) {part : Str → Prop}
    (hp : ∀ m st, BlockMakes W w.input (w.startIn own) b 0 m .next st → part m) {s : Str} (h : w.Means W s) :
    HasPart W w.input b part w.start w.root.nodes s := by
  have hp' : ∀ (q : Place U) m st, q.chain = w.chain → q.ctx = own → q.store.item = none →
      BlockMakes W w.input q b 0 m .next st → part m := fun q m st q1 q2 q3 q4 =>
    hp m _ (blockMakes_place (p := q) (p' := w.startIn own) q1.symm q2.symm q3.symm q4)
  obtain ⟨st, h⟩ := h
  rw [hr] at h ⊢
  obtain ⟨x, m, z, st1, st2, h1, h2, h3, rfl⟩ := makes_split.mp h
  have hb := makes_block.mp h2
  obtain rfl : st2 = st1 := blockMakes_store hb
  obtain ⟨f, h0⟩ := h1
  have hit := run_item f _ _ _ _ _ _ _ _ _ _ h0
  cases hl with
  | itself => exact .here ⟨f, h0⟩ (hp' _ _ _ rfl rfl hit hb) h3
  | inside hne hd _ hi =>
    obtain ⟨c', d', st3, e1, e2, -⟩ := hb
    have e1' := (blockDefs_iff _).mpr e1
    rw [show ((w.start.rear w.input pre st2).front w.input post).chain = w.chain from rfl, (blockDefs_iff _).mpr hd] at e1'
    cases e1'
    refine .under ⟨f, h0⟩ hd ?_ h3
    refine inside_part hi (p := ((w.start.rear w.input pre st2).front w.input post).inBlock w.input _ _ o 0) rfl rfl ?_ e2
    intro q m st q1 q2 q3 q4
    exact hp' q m st q1 q2 (q3.trans hit) q4

end

end Askama
