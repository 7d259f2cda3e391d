import Verif.Lemmas.Cells
import Verif.Spec.Good

/-! The relation between the state of the generator, the variables of the template and those of the generated code. -/

namespace Askama

open Askama.Spec

variable {U : Type}

/-! ## Locals -/

namespace MapChain

variable {α : Type}

@[simp] theorem get_push (m : MapChain α) (k : Str) : m.push.get k = m.get k := by
  simp [get_eq, push, lookupStack]

theorem get_insert {m : MapChain α} (h : m.scopes ≠ []) (k : Str) (v : α) (n : Str) :
    (m.insert k v).get n = if n = k then some v else m.get n := by
  rw [get_eq, get_eq]
  unfold insert
  cases hs : m.scopes with
  | nil => exact absurd hs h
  | cons s rest =>
    simp only [List.cons_append, lookupStack]
    by_cases hk : n = k
    · subst hk; simp
    · rw [List.find?_cons_of_neg (by simpa using fun e => hk e.symm), if_neg hk]

theorem insert_scopes {m : MapChain α} (h : m.scopes ≠ []) (k : Str) (v : α) : (m.insert k v).scopes ≠ [] := by
  unfold insert
  cases hs : m.scopes with
  | nil => exact absurd hs h
  | cons s rest => simp

theorem get_inserts {m : MapChain α} (h : m.scopes ≠ []) (ks : List Str) (v : α) (n : Str) :
    (ks.foldl (fun L k => L.insert k v) m).get n = if n ∈ ks then some v else m.get n := by
  induction ks generalizing m with
  | nil => simp
  | cons k ks ih =>
    rw [List.foldl_cons, ih (insert_scopes h k v), get_insert h]
    by_cases h1 : n ∈ ks
    · simp [h1]
    · by_cases h2 : n = k <;> simp [h1, h2]

theorem inserts_scopes {m : MapChain α} (h : m.scopes ≠ []) (ks : List Str) (v : α) :
    (ks.foldl (fun L k => L.insert k v) m).scopes ≠ [] := by
  induction ks generalizing m with
  | nil => exact h
  | cons k ks ih => exact ih (insert_scopes h k v)

theorem get_withParent (m : MapChain α) (k : Str) : m.withParent.get k = m.get k := by
  simp [get_eq, withParent, lookupStack]

theorem get_empty (k : Str) : (empty : MapChain α).get k = none := by simp [get_eq, empty, lookupStack]

end MapChain

/-- What a store knows of a name after declarations. -/
theorem status_fold (known : List (Str × Bool)) (ns : List Str) (b : Bool) (n : Str) :
    ((ns.foldl (fun k m => (m, b) :: k) known).find? (fun e => e.1 == n)).map (·.2)
      = if n ∈ ns then some b else (known.find? (fun e => e.1 == n)).map (·.2) := by
  induction ns generalizing known with
  | nil => simp
  | cons m ns ih =>
    rw [List.foldl_cons, ih]
    by_cases h1 : n ∈ ns
    · simp [h1]
    · by_cases h2 : n = m
      · subst h2; simp [h1]
      · rw [if_neg h1, if_neg (by simp [h1, h2]), List.find?_cons_of_neg (by simpa using fun e => h2 e.symm)]

theorem status_declare (st : Store U) (ns : List Str) (vs : List (Val U)) (b : Bool) (n : Str) :
    (st.declare ns vs b).status n = if n ∈ ns then some b else st.status n := status_fold _ _ _ _

/-! ## The relation -/

/-- The generator's locals `L`, the template's store `st` and the variables `ρ` of the generated code mean the same. -/
structure Rel (W : World U) (S : Sets) (cells : List (Cell U)) (st : Store U) (L : Locals) (ρ : REnv U) : Prop where
  svars : st.vars = specVars cells
  rvars : ρ.vars = rustVars cells
  item : st.item = ρ.item
  wf : L.scopes ≠ []
  keys : ∀ n m, L.get n = some m → n ∉ rustKeywords ∧ n ≠ c!"_"
  inV : ∀ n m, L.get n = some m → internal n = false → n ∈ S.V
  lower : ∀ n m, L.get n = some m → internal n = false → pathLike n = false
  unknown : ∀ n, strange n = false → L.get n = none → st.status n = none
  plain : ∀ n m, internal n = false → L.get n = some m → m.refs = none →
    (∃ b, st.status n = some b ∧ (n ∉ S.K → b = m.initialized))
      ∧ (∃ v, firstCell n cells = some (.both n v))
      ∧ (m.initialized = false → n ∉ S.K → (c!"r#").isPrefixOf n = false)
  refd : ∀ n m r, L.get n = some m → m.refs = some r → n ∈ S.K ∧ n ∈ S.R ∧ (∃ b, st.status n = some b)
    ∧ (∃ v, firstCell n cells = some (.spec n v) ∧ r.eval W ρ = v)
    ∧ (∀ x ∈ r.locals, x ∈ S.K) ∧ r.usesItem = false
  dset : ∀ n ∈ S.D, ∃ m, L.get n = some m ∧ m.initialized = true
  kint : ∀ n ∈ S.K, internal n = false
  vint : ∀ n ∈ S.V, internal n = false
  rv : ∀ n ∈ S.R, n ∈ S.V
  paths : ∀ n, pathLike n = true → internal n = false → n ∉ S.K →
    (st.status n = none ∧ ∀ c ∈ cells, c.name ≠ n)
      ∨ ∃ b v, st.status n = some b ∧ firstCell n cells = some (.both n v)
  cellsIn : ∀ c ∈ cells, pathLike c.name = true → internal c.name = false → c.name ∈ S.V ∨ c.name ∈ S.K
  under : st.status c!"_" = none

namespace Rel

variable {W : World U} {S : Sets} {cells : List (Cell U)} {st : Store U} {L : Locals} {ρ : REnv U}

theorem refsIn (h : Rel W S cells st L ρ) : RefsIn L S.K := by
  intro n m q hg hr
  obtain ⟨_, _, _, _, h1, h2⟩ := h.refd n m q hg hr
  exact ⟨h1, h2⟩

theorem agree (h : Rel W S cells st L ρ) (hole : Option (Val U)) (v : Option Str)
    (hv : ∀ s, v = some s → lookupVar ρ.vars s = hole) : NamesAgree W L ρ st S.refused hole v := by
  refine ⟨?_, ?_, ?_, h.item, hv⟩
  · intro x hx
    have hxi : internal (rawIdent x) = false := by
      simp only [strange, Bool.or_eq_false_iff] at hx; exact hx.1
    unfold Locals.resolveOrSelf Locals.resolve Store.name
    simp only [normalizeIdentifier_idem, normalizeIdentifier_eq]
    have hidem : rawIdent (rawIdent x) = rawIdent x := if_neg (rawIdent_not_keyword x)
    rw [hidem]
    cases hg : MapChain.get L (rawIdent x) with
    | none =>
      rw [h.unknown _ hx hg]
      simp [RExpr.eval]
    | some m =>
      cases hr : m.refs with
      | none =>
        obtain ⟨⟨b, hb, _⟩, ⟨v, hv⟩, _⟩ := h.plain _ m hxi hg hr
        have := firstCell_both hv
        simp only [Option.map_some, Option.getD_some, hr, RExpr.eval]
        rw [hb, h.rvars, this.1, h.svars]
        exact this.2.symm
      | some r =>
        obtain ⟨_, _, ⟨b, hb⟩, ⟨v, hv, he⟩, _⟩ := h.refd _ m r hg hr
        have := firstCell_spec hv
        simp only [Option.map_some, Option.getD_some, hr]
        rw [hb, he, h.svars]
        exact this.symm
  · intro x hx hR m hm
    cases hr : m.refs with
    | none => rfl
    | some r => exact absurd (h.refd _ m r hm hr).2.1 hR
  · intro n hn hr hK
    have hi : internal n = false := by
      simp only [claimed, Bool.or_eq_false_iff] at hr; exact hr.1.1.1.1.1
    rcases h.paths n hn hi hK with ⟨h1, h2⟩ | ⟨b, v, h1, h2⟩
    · simp only [pathVal, Store.path, h1, h.rvars, find_none h2]
    · have h3 := (firstCell_both h2).2
      unfold lookupVar at h3
      simp only [pathVal, Store.path, h1, h.rvars, firstCell_find h2, h.svars, h3]

theorem agree' (h : Rel W S cells st L ρ) : NamesAgree W L ρ st S.refused none none := h.agree none none (by simp)

/-- The locals are only looked up. -/
theorem congrL (h : Rel W S cells st L ρ) {L' : Locals} (hwf : L'.scopes ≠ []) (hg : ∀ n, L'.get n = L.get n) :
    Rel W S cells st L' ρ := by
  refine ⟨h.svars, h.rvars, h.item, hwf, ?_, ?_, ?_, ?_, ?_, ?_, ?_, h.kint, h.vint, h.rv, h.paths, h.cellsIn, h.under⟩
  · intro n m hm; rw [hg] at hm; exact h.keys n m hm
  · intro n m hm; rw [hg] at hm; exact h.inV n m hm
  · intro n m hm; rw [hg] at hm; exact h.lower n m hm
  · intro n hi hm; rw [hg] at hm; exact h.unknown n hi hm
  · intro n m hi hm; rw [hg] at hm; exact h.plain n m hi hm
  · intro n m r hm; rw [hg] at hm; exact h.refd n m r hm
  · intro n hn; rw [hg]; exact h.dset n hn

theorem push (h : Rel W S cells st L ρ) : Rel W S cells st L.push ρ :=
  h.congrL (by simp [MapChain.push]) (by simp)

/-- The pending names play no role. -/
theorem setP (h : Rel W S cells st L ρ) (P : List Str) : Rel W { S with P := P } cells st L ρ :=
  ⟨h.svars, h.rvars, h.item, h.wf, h.keys, h.inV, h.lower, h.unknown, h.plain, h.refd, h.dset, h.kint, h.vint, h.rv, h.paths,
    h.cellsIn, h.under⟩

theorem flushed (h : Rel W S cells st L ρ) : Rel W S.flushed cells st L ρ := h.setP []

/-- `_did_loop` and `_iter` play no role. -/
theorem congrEnv (h : Rel W S cells st L ρ) {ρ' : REnv U} (hv : ρ'.vars = ρ.vars) (hi : ρ'.item = ρ.item) :
    Rel W S cells st L ρ' := by
  refine ⟨h.svars, hv.trans h.rvars, h.item.trans hi.symm, h.wf, h.keys, h.inV, h.lower, h.unknown, h.plain, ?_, h.dset,
    h.kint, h.vint, h.rv, h.paths, h.cellsIn, h.under⟩
  intro n m r hg hr
  obtain ⟨h1, h2, h3, ⟨v, hf, he⟩, h4, h5⟩ := h.refd n m r hg hr
  refine ⟨h1, h2, h3, ⟨v, hf, ?_⟩, h4, h5⟩
  rw [← he]
  exact RExpr.eval_congr W _ _ r (fun x _ => by rw [hv]) (fun _ => hi)

/-- In another loop. -/
theorem setItem (h : Rel W S cells st L ρ) (i : Option LoopItem) :
    Rel W S cells { st with item := i } L { ρ with item := i } := by
  refine ⟨h.svars, h.rvars, rfl, h.wf, h.keys, h.inV, h.lower, h.unknown, h.plain, ?_, h.dset,
    h.kint, h.vint, h.rv, h.paths, h.cellsIn, h.under⟩
  intro n m r hg hr
  obtain ⟨h1, h2, h3, ⟨v, hf, he⟩, h4, h5⟩ := h.refd n m r hg hr
  refine ⟨h1, h2, h3, ⟨v, hf, ?_⟩, h4, h5⟩
  rw [← he]
  exact RExpr.eval_congr W _ _ r (fun x _ => rfl) (fun hu => by rw [h5] at hu; cases hu)

/-- After assignments to variables outside `K`. -/
theorem upd (h : Rel W S cells st L ρ) {cells' : List (Cell U)} (hu : Upd S.K cells cells') {st' : Store U}
    {ρ' : REnv U} (hs : st'.vars = specVars cells') (hk : st'.known = st.known) (hr : ρ'.vars = rustVars cells')
    (hi : st'.item = st.item) (hi' : ρ'.item = ρ.item) : Rel W S cells' st' L ρ' := by
  have hst : ∀ n, st'.status n = st.status n := fun n => by unfold Store.status; rw [hk]
  refine ⟨hs, hr, by rw [hi, hi', h.item], h.wf, h.keys, h.inV, h.lower, ?_, ?_, ?_, h.dset, h.kint, h.vint, h.rv,
    ?_, ?_, by rw [hst]; exact h.under⟩
  · intro n hn hg; rw [hst]; exact h.unknown n hn hg
  · intro n m hn hg hr
    obtain ⟨h1, ⟨v, hv⟩, h3⟩ := h.plain n m hn hg hr
    exact ⟨by rw [hst]; exact h1, hu.first_both hv, h3⟩
  · intro n m r hg hrf
    obtain ⟨h1, h2, h3, ⟨v, hf, he⟩, h4, h5⟩ := h.refd n m r hg hrf
    refine ⟨h1, h2, by rw [hst]; exact h3, ⟨v, hu.first_spec hf, ?_⟩, h4, h5⟩
    rw [← he]
    refine RExpr.eval_congr W _ _ r (fun x hx => ?_) (fun _ => hi')
    rw [hr, h.rvars]
    exact hu.rust_lookup (h4 x hx)
  · intro n hn hi hK
    rw [hst]
    rcases h.paths n hn hi hK with ⟨h1, h2⟩ | ⟨b, v, h1, h2⟩
    · refine .inl ⟨h1, fun c hc => ?_⟩
      obtain ⟨d, hd, hdn⟩ := hu.names c hc
      rw [← hdn]; exact h2 d hd
    · obtain ⟨w, hw⟩ := hu.first_both h2
      exact .inr ⟨b, w, h1, hw⟩
  · intro c hc
    obtain ⟨d, hd, hdn⟩ := hu.names c hc
    rw [← hdn]; exact h.cellsIn d hd

/-- Leaving a scope. -/
theorem leave (h : Rel W S cells st L ρ) {cells' : List (Cell U)} (he : Ext S.K cells cells') {st' : Store U}
    {ρ' : REnv U} (hs : st'.vars = specVars cells') (hr : ρ'.vars = rustVars cells') (hi : ρ'.item = ρ.item) :
    ∃ old, Upd S.K cells old ∧ (st.leave st').vars = specVars old ∧ leaveVars ρ.vars ρ'.vars = rustVars old
      ∧ Rel W S old (st.leave st') L { ρ' with vars := leaveVars ρ.vars ρ'.vars } := by
  obtain ⟨old, hu, h1, h2⟩ := he.leave
  have h1' : (st.leave st').vars = specVars old := by simp only [Store.leave, h.svars, hs, h1]
  have h2' : leaveVars ρ.vars ρ'.vars = rustVars old := by rw [h.rvars, hr, h2]
  exact ⟨old, hu, h1', h2', h.upd hu h1' rfl h2' rfl hi⟩

/-- Variables are declared: `ms` are those the generator knows of, the others have names of paths. -/
theorem bindBoth (h : Rel W S cells st L ρ) {ns ms more : List Str} (hb : ∀ n ∈ ns, n ∉ S.K ∧ claimed n = false)
    (hms : ∀ n ∈ ms, n ∈ ns ∧ pathLike n = false) (hns : ∀ n ∈ ns, n ∈ ms ∨ pathLike n = true ∧ n ∈ more)
    (hmore : ∀ n ∈ more, internal n = false)
    (hkey : ∀ n ∈ ms, n ∉ rustKeywords) (hus : ∀ n ∈ ns, n ≠ c!"_") (vs : List (Val U)) (b : Bool)
    (hb2 : b = false → ms.all simpleName = true) {D : List Str}
    (hD : ∀ n ∈ D, (n ∈ ms ∧ b = true) ∨ (n ∉ ms ∧ n ∈ S.D) ∨ (b = true ∧ n ∈ S.D)) (P : List Str) :
    Rel W { S with V := ms ++ more ++ S.V, D := D, P := P } (bindCells ns vs cells) (st.declare ns vs b)
      (ms.foldl (fun L n => L.insert n { refs := none, initialized := b }) L)
      { ρ with vars := bindVars ns vs ρ.vars } := by
  have hint : ∀ n ∈ ns, internal n = false := fun n hn => by
    have := (hb n hn).2
    simp only [claimed, Bool.or_eq_false_iff] at this; exact this.1.1.1.1.1
  have hget := MapChain.get_inserts (α := LocalMeta) h.wf ms { refs := none, initialized := b }
  -- what is not known to the generator is not bound, if it is a name of a local variable
  have hout : ∀ n, pathLike n = false → n ∉ ms → n ∉ ns := fun n hp hn hn' => by
    rcases hns n hn' with h1 | ⟨h1, _⟩
    · exact hn h1
    · rw [hp] at h1; cases h1
  refine ⟨?_, ?_, h.item, MapChain.inserts_scopes h.wf _ _, ?_, ?_, ?_, ?_, ?_, ?_, ?_, h.kint, ?_, ?_, ?_, ?_,
    ?_⟩
  · simp only [Store.declare, h.svars, specVars_bindCells]
  · simp only [h.rvars, rustVars_bindCells]
  · intro n m hm
    rw [hget] at hm
    split at hm
    · rename_i hn; exact ⟨hkey n hn, hus n (hms n hn).1⟩
    · exact h.keys n m hm
  · intro n m hm hi
    rw [hget] at hm
    split at hm
    · rename_i hn; exact List.mem_append_left _ (List.mem_append_left _ hn)
    · exact List.mem_append_right _ (h.inV n m hm hi)
  · intro n m hm hi
    rw [hget] at hm
    split at hm
    · rename_i hn; exact (hms n hn).2
    · exact h.lower n m hm hi
  · intro n hi hm
    have hp : pathLike n = false := by
      simp only [strange, Bool.or_eq_false_iff] at hi; exact hi.2
    rw [hget] at hm
    split at hm
    · cases hm
    · rename_i hn
      rw [status_declare, if_neg (hout n hp hn)]; exact h.unknown n hi hm
  · intro n m hi hm hr
    rw [hget] at hm
    split at hm
    · rename_i hn
      cases hm
      refine ⟨⟨b, by rw [status_declare, if_pos (hms n hn).1], fun _ => rfl⟩, ?_, ?_⟩
      · obtain ⟨_, _, _, hf⟩ := bindCells_eq ns vs cells
        exact hf n (hms n hn).1
      · intro hb' _
        have := List.all_eq_true.mp (hb2 hb') n hn
        simp only [simpleName, Bool.and_eq_true, Bool.not_eq_true'] at this
        exact this.1.2
    · rename_i hn
      have hn := hout n (h.lower n m hm hi) hn
      obtain ⟨h1, h2, h3⟩ := h.plain n m hi hm hr
      exact ⟨by rw [status_declare, if_neg hn]; exact h1, by rw [bindCells_first_ne hn]; exact h2, h3⟩
  · intro n m r hm hr
    rw [hget] at hm
    split at hm
    · cases hm; cases hr
    · obtain ⟨h1, h2, h3, ⟨v, hf, he⟩, h4, h5⟩ := h.refd n m r hm hr
      have hn : n ∉ ns := fun hn => (hb n hn).1 h1
      refine ⟨h1, h2, by rw [status_declare, if_neg hn]; exact h3, ⟨v, by rw [bindCells_first_ne hn]; exact hf, ?_⟩, h4,
        h5⟩
      rw [← he]
      refine RExpr.eval_congr W _ _ r (fun x hx => ?_) (fun _ => rfl)
      exact bindVars_lookup_ne (fun hxn => (hb x hxn).1 (h4 x hx))
  · intro n hn
    rw [hget]
    rcases hD n hn with ⟨h1, h2⟩ | ⟨h1, h2⟩ | ⟨h1, h2⟩
    · rw [if_pos h1]; exact ⟨_, rfl, h2⟩
    · rw [if_neg h1]; exact h.dset n h2
    · split
      · exact ⟨_, rfl, h1⟩
      · exact h.dset n h2
  · intro n hn
    rcases List.mem_append.mp hn with hn | hn
    · rcases List.mem_append.mp hn with hn | hn
      · exact hint n (hms n hn).1
      · exact hmore n hn
    · exact h.vint n hn
  · intro n hn; exact List.mem_append_right _ (h.rv n hn)
  · intro n hp hi hK
    by_cases hn : n ∈ ns
    · obtain ⟨_, _, _, hf⟩ := bindCells_eq ns vs cells
      obtain ⟨v, hv⟩ := hf n hn
      exact .inr ⟨b, v, by rw [status_declare, if_pos hn], hv⟩
    · rw [status_declare, if_neg hn, bindCells_first_ne hn]
      rcases h.paths n hp hi hK with ⟨h1, h2⟩ | h1
      · refine .inl ⟨h1, fun c hc => ?_⟩
        obtain ⟨new, he, hnew, _⟩ := bindCells_eq ns vs cells
        rw [he] at hc
        rcases List.mem_append.mp hc with hc | hc
        · exact fun e => hn (e ▸ hnew c hc)
        · exact h2 c hc
      · exact .inr h1
  · intro c hc hp hi
    obtain ⟨new, he, hnew, _⟩ := bindCells_eq ns vs cells
    rw [he] at hc
    rcases List.mem_append.mp hc with hc | hc
    · rcases hns _ (hnew c hc) with h1 | ⟨_, h1⟩
      · exact .inl (List.mem_append_left _ (List.mem_append_left _ h1))
      · exact .inl (List.mem_append_left _ (List.mem_append_right _ h1))
    · rcases h.cellsIn c hc hp hi with h1 | h1
      · exact .inl (List.mem_append_right _ h1)
      · exact .inr h1
  · rw [status_declare, if_neg (fun hn => hus _ hn rfl)]; exact h.under

end Rel

/-! The variables of a pattern are Rust identifiers, and not keywords. -/
mutual
theorem Target.names_ok : (t : Target) → ∀ n ∈ t.names, n ∉ rustKeywords ∧ n ≠ c!"_"
  | .name x, n, h => by
    simp only [Target.names] at h
    split at h
    · simp at h
    · rename_i hx
      rw [List.mem_singleton] at h
      subst h
      rw [normalizeIdentifier_eq]
      refine ⟨rawIdent_not_keyword x, ?_⟩
      unfold rawIdent
      split
      · intro h; exact absurd (congrArg List.length h) (by simp)
      · exact hx
  | .tuple _ ts, n, h => by simp only [Target.names] at h; exact Target.namesList_ok ts n h
  | .struct _ ts, n, h => by simp only [Target.names] at h; exact Target.namesFields_ok ts n h
  | .orChain ts, n, h => by simp only [Target.names] at h; exact Target.namesList_ok ts n h
  | .numLit _, n, h | .strLit _, n, h | .charLit _, n, h | .boolLit _, n, h | .path _, n, h => by
    simp [Target.names] at h
theorem Target.namesList_ok : (ts : List Target) → ∀ n ∈ Target.namesList ts, n ∉ rustKeywords ∧ n ≠ c!"_"
  | [], n, h => by simp [Target.namesList] at h
  | t :: ts, n, h => by
    simp only [Target.namesList, List.mem_append] at h
    rcases h with h | h
    · exact Target.names_ok t n h
    · exact Target.namesList_ok ts n h
theorem Target.namesFields_ok : (ts : List (Str × Target)) → ∀ n ∈ Target.namesFields ts, n ∉ rustKeywords ∧ n ≠ c!"_"
  | [], n, h => by simp [Target.namesFields] at h
  | (_, t) :: ts, n, h => by
    simp only [Target.namesFields, List.mem_append] at h
    rcases h with h | h
    · exact Target.names_ok t n h
    · exact Target.namesFields_ok ts n h
end

mutual
theorem Target.singles_ne : (t : Target) → ∀ n ∈ Target.singles t, n ≠ c!"_"
  | .path [m], n, h => by
    simp only [Target.singles] at h
    split at h
    · simp at h
    · rename_i hm
      rw [List.mem_singleton] at h
      exact h ▸ hm
  | .path [], n, h | .path (_ :: _ :: _), n, h | .name _, n, h => by simp [Target.singles] at h
  | .tuple _ ts, n, h => by simp only [Target.singles] at h; exact Target.singlesList_ne ts n h
  | .struct _ ts, n, h => by simp only [Target.singles] at h; exact Target.singlesFields_ne ts n h
  | .orChain ts, n, h => by simp only [Target.singles] at h; exact Target.singlesList_ne ts n h
  | .numLit _, n, h | .strLit _, n, h | .charLit _, n, h | .boolLit _, n, h => by simp [Target.singles] at h
theorem Target.singlesList_ne : (ts : List Target) → ∀ n ∈ Target.singlesList ts, n ≠ c!"_"
  | [], n, h => by simp [Target.singlesList] at h
  | t :: ts, n, h => by
    simp only [Target.singlesList, List.mem_append] at h
    rcases h with h | h
    · exact Target.singles_ne t n h
    · exact Target.singlesList_ne ts n h
theorem Target.singlesFields_ne : (ts : List (Str × Target)) → ∀ n ∈ Target.singlesFields ts, n ≠ c!"_"
  | [], n, h => by simp [Target.singlesFields] at h
  | (_, t) :: ts, n, h => by
    simp only [Target.singlesFields, List.mem_append] at h
    rcases h with h | h
    · exact Target.singles_ne t n h
    · exact Target.singlesFields_ne ts n h
end

mutual
/-- What Rust binds are the names that the generator knows of, and paths. -/
theorem Target.bound_mem (W : World U) : (t : Target) → ∀ n ∈ t.bound W, n ∈ t.names ∨ n ∈ Target.singles t
  | .name x, n, h => by
    simp only [Target.bound] at h
    exact .inl (by simpa only [Target.names] using h)
  | .path [m], n, h => by
    simp only [Target.bound] at h
    split at h
    · simp at h
    · rename_i hm
      rw [not_or] at hm
      exact .inr (by simpa only [Target.singles, if_neg hm.1] using h)
  | .tuple _ ts, n, h => by
    simp only [Target.bound] at h
    simpa only [Target.names, Target.singles] using Target.boundList_mem W ts n h
  | .struct _ ts, n, h => by
    simp only [Target.bound] at h
    simpa only [Target.names, Target.singles] using Target.boundFields_mem W ts n h
  | .orChain ts, n, h => by
    simp only [Target.bound] at h
    simpa only [Target.names, Target.singles] using Target.boundList_mem W ts n h
  | .numLit _, n, h | .strLit _, n, h | .charLit _, n, h | .boolLit _, n, h | .path [], n, h
  | .path (_ :: _ :: _), n, h => by simp [Target.bound] at h
theorem Target.boundList_mem (W : World U) : (ts : List Target) →
    ∀ n ∈ Target.boundList W ts, n ∈ Target.namesList ts ∨ n ∈ Target.singlesList ts
  | [], n, h => by simp [Target.boundList] at h
  | t :: ts, n, h => by
    simp only [Target.boundList, List.mem_append] at h
    simp only [Target.namesList, Target.singlesList, List.mem_append]
    rcases h with h | h
    · exact (Target.bound_mem W t n h).imp .inl .inl
    · exact (Target.boundList_mem W ts n h).imp .inr .inr
theorem Target.boundFields_mem (W : World U) : (ts : List (Str × Target)) →
    ∀ n ∈ Target.boundFields W ts, n ∈ Target.namesFields ts ∨ n ∈ Target.singlesFields ts
  | [], n, h => by simp [Target.boundFields] at h
  | (_, t) :: ts, n, h => by
    simp only [Target.boundFields, List.mem_append] at h
    simp only [Target.namesFields, Target.singlesFields, List.mem_append]
    rcases h with h | h
    · exact (Target.bound_mem W t n h).imp .inl .inl
    · exact (Target.boundFields_mem W ts n h).imp .inr .inr
end

mutual
/-- Rust binds the names that the generator knows of. -/
theorem Target.names_bound (W : World U) : (t : Target) → ∀ n ∈ t.names, n ∈ t.bound W
  | .name x, n, h => by simpa only [Target.bound, Target.names] using h
  | .tuple _ ts, n, h => by
    simp only [Target.names] at h
    simpa only [Target.bound] using Target.namesList_bound W ts n h
  | .struct _ ts, n, h => by
    simp only [Target.names] at h
    simpa only [Target.bound] using Target.namesFields_bound W ts n h
  | .orChain ts, n, h => by
    simp only [Target.names] at h
    simpa only [Target.bound] using Target.namesList_bound W ts n h
  | .numLit _, n, h | .strLit _, n, h | .charLit _, n, h | .boolLit _, n, h | .path _, n, h => by
    simp [Target.names] at h
theorem Target.namesList_bound (W : World U) : (ts : List Target) → ∀ n ∈ Target.namesList ts, n ∈ Target.boundList W ts
  | [], n, h => by simp [Target.namesList] at h
  | t :: ts, n, h => by
    simp only [Target.namesList, List.mem_append] at h
    simp only [Target.boundList, List.mem_append]
    exact h.imp (Target.names_bound W t n) (Target.namesList_bound W ts n)
theorem Target.namesFields_bound (W : World U) : (ts : List (Str × Target)) →
    ∀ n ∈ Target.namesFields ts, n ∈ Target.boundFields W ts
  | [], n, h => by simp [Target.namesFields] at h
  | (_, t) :: ts, n, h => by
    simp only [Target.namesFields, List.mem_append] at h
    simp only [Target.boundFields, List.mem_append]
    exact h.imp (Target.names_bound W t n) (Target.namesFields_bound W ts n)
end

mutual
/-- Without paths of one name, Rust binds just the names that the generator knows of. -/
theorem Target.bound_eq (W : World U) : (t : Target) → Target.singles t = [] → t.bound W = t.names
  | .name x, _ => by simp only [Target.bound, Target.names]
  | .path [m], h => by
    simp only [Target.singles] at h
    split at h
    · rename_i hm; simp only [Target.bound, Target.names, if_pos (Or.inl hm)]
    · cases h
  | .tuple _ ts, h => by
    simp only [Target.singles] at h
    simp only [Target.bound, Target.names, Target.boundList_eq W ts h]
  | .struct _ ts, h => by
    simp only [Target.singles] at h
    simp only [Target.bound, Target.names, Target.boundFields_eq W ts h]
  | .orChain ts, h => by
    simp only [Target.singles] at h
    simp only [Target.bound, Target.names, Target.boundList_eq W ts h]
  | .numLit _, _ | .strLit _, _ | .charLit _, _ | .boolLit _, _ | .path [], _ | .path (_ :: _ :: _), _ => by
    simp only [Target.bound, Target.names]
theorem Target.boundList_eq (W : World U) : (ts : List Target) → Target.singlesList ts = [] →
    Target.boundList W ts = Target.namesList ts
  | [], _ => by simp only [Target.boundList, Target.namesList]
  | t :: ts, h => by
    simp only [Target.singlesList, List.append_eq_nil_iff] at h
    simp only [Target.boundList, Target.namesList, Target.bound_eq W t h.1, Target.boundList_eq W ts h.2]
theorem Target.boundFields_eq (W : World U) : (ts : List (Str × Target)) → Target.singlesFields ts = [] →
    Target.boundFields W ts = Target.namesFields ts
  | [], _ => by simp only [Target.boundFields, Target.namesFields]
  | (_, t) :: ts, h => by
    simp only [Target.singlesFields, List.append_eq_nil_iff] at h
    simp only [Target.boundFields, Target.namesFields, Target.bound_eq W t h.1, Target.boundFields_eq W ts h.2]
end

/-- `_` binds nothing. -/
theorem Target.bound_ne (W : World U) (t : Target) : ∀ n ∈ t.bound W, n ≠ c!"_" := by
  intro n hn
  rcases Target.bound_mem W t n hn with h | h
  · exact (Target.names_ok t n h).2
  · exact Target.singles_ne t n h

theorem internal_of_claimed {n : Str} (h : claimed n = false) : internal n = false := by
  simp only [claimed, Bool.or_eq_false_iff] at h; exact h.1.1.1.1.1

/-- What `bindOk` says. -/
theorem bindOk_spec {S : Sets} {t : Target} (hb : bindOk S t = true) :
    (∀ n ∈ t.names, n ∉ S.K ∧ claimed n = false ∧ pathLike n = false)
      ∧ ∀ n ∈ Target.singles t, n ∉ S.K ∧ claimed n = false ∧ pathLike n = true := by
  simp only [bindOk, Bool.and_eq_true, List.all_eq_true, Bool.not_eq_true', List.contains_eq_mem,
    decide_eq_false_iff_not] at hb
  exact ⟨fun n hn => ⟨(hb.1 n hn).1.1, (hb.1 n hn).1.2, (hb.1 n hn).2⟩,
    fun n hn => ⟨(hb.2 n hn).1.1, (hb.2 n hn).1.2, (hb.2 n hn).2⟩⟩

/-- What Rust binds may be bound. -/
theorem bindOk_bound {S : Sets} {t : Target} (hb : bindOk S t = true) (W : World U) :
    ∀ n ∈ t.bound W, n ∉ S.K ∧ claimed n = false := by
  obtain ⟨h1, h2⟩ := bindOk_spec hb
  intro n hn
  rcases Target.bound_mem W t n hn with h | h
  · exact ⟨(h1 n h).1, (h1 n h).2.1⟩
  · exact ⟨(h2 n h).1, (h2 n h).2.1⟩

/-- The variables of a pattern are declared. -/
theorem Rel.bind {W : World U} {S : Sets} {cells : List (Cell U)} {st : Store U} {L : Locals} {ρ : REnv U}
    (h : Rel W S cells st L ρ) {t : Target} (hb : bindOk S t = true) (vs : List (Val U)) (b : Bool)
    (hb2 : b = false → t.names.all simpleName = true) {D : List Str}
    (hD : ∀ n ∈ D, (n ∈ t.names ∧ b = true) ∨ (n ∉ t.names ∧ n ∈ S.D) ∨ (b = true ∧ n ∈ S.D)) (P : List Str) :
    Rel W { S with V := t.names ++ Target.singles t ++ S.V, D := D, P := P } (bindCells (t.bound W) vs cells)
      (st.declare (t.bound W) vs b) (t.names.foldl (fun L n => L.insert n { refs := none, initialized := b }) L)
      { ρ with vars := bindVars (t.bound W) vs ρ.vars } := by
  obtain ⟨h1, h2⟩ := bindOk_spec hb
  refine h.bindBoth (bindOk_bound hb W) (fun n hn => ⟨Target.names_bound W t n hn, (h1 n hn).2.2⟩) ?_
    (fun n hn => internal_of_claimed (h2 n hn).2.1) (fun n hn => (Target.names_ok t n hn).1)
    (Target.bound_ne W t) vs b hb2 hD P
  intro n hn
  rcases Target.bound_mem W t n hn with h | h
  · exact .inl h
  · exact .inr ⟨(h2 n h).2.2, h⟩

end Askama
