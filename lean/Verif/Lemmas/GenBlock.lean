import Verif.Lemmas.GenCall

/-! Blocks and included templates: the generated code does what the template means. -/

namespace Askama

open Askama.Spec Askama.Gen

variable {U : Type}

/-! ## Variables that are left over -/

section

variable {W : World U} {I : GenInput} {S S' : Sets} {cells : List (Cell U)} {st : Store U} {ρ : REnv U} {g g' : Gen}
  {ts : List (Option Str)} {L : Locals}

/-- Rust variables of a block or included template stay visible. -/
theorem Rel.addHidden (h : Rel W S cells st L ρ) {new : List (Cell U)}
    (hn : ∀ c ∈ new, c.name ∉ S.V ++ S.K ∧ leftName c.name) {ρ' : REnv U}
    (hv : ρ'.vars = rustVars new ++ ρ.vars) (hi : ρ'.item = ρ.item) : Rel W S (hide new ++ cells) st L ρ' := by
  have hf : ∀ n, n ∈ S.V ++ S.K → firstCell n (hide new ++ cells) = firstCell n cells := by
    intro n hn'
    refine firstCell_append ?_
    intro c hc e
    obtain ⟨d, hd, hdn⟩ := name_mem_hide hc
    exact (hn d hd).1 (by rw [hdn, e]; exact hn')
  refine ⟨by simp [specVars_append, h.svars], by rw [hv, rustVars_append, rustVars_hide, h.rvars], h.item.trans hi.symm, h.wf,
    h.keys, h.inV, h.lower, h.unknown, ?_, ?_, h.dset, h.kint, h.vint, h.rv, ?_, ?_, h.under⟩
  · intro n m hn' hg hr
    obtain ⟨h1, h2, h3⟩ := h.plain n m hn' hg hr
    exact ⟨h1, by rw [hf n (List.mem_append_left _ (h.inV n m hg hn'))]; exact h2, h3⟩
  · intro n m r hg hr
    obtain ⟨h1, h2, h3, ⟨v, hfc, he⟩, h4, h5⟩ := h.refd n m r hg hr
    refine ⟨h1, h2, h3, ⟨v, by rw [hf n (List.mem_append_right _ h1)]; exact hfc, ?_⟩, h4, h5⟩
    rw [← he]
    refine RExpr.eval_congr W _ _ r (fun y hy => ?_) (fun _ => hi)
    rw [hv]
    refine lookup_append_ne ?_
    intro e he' hey
    obtain ⟨d, hd, hdn⟩ := rustVars_names he'
    exact (hn d hd).1 (by rw [hdn, hey]; exact List.mem_append_right _ (h4 y hy))
  · intro n hp hi hK
    have hne : ∀ c ∈ hide new, c.name ≠ n := by
      intro c hc e
      obtain ⟨d, hd, hdn⟩ := name_mem_hide hc
      have := (hn d hd).2
      rw [hdn, e] at this
      rw [this hp] at hi; cases hi
    rw [firstCell_append hne]
    refine (h.paths n hp hi hK).imp (fun ⟨h1, h2⟩ => ⟨h1, fun c hc => ?_⟩) id
    rcases List.mem_append.mp hc with hc | hc
    · exact hne c hc
    · exact h2 c hc
  · intro c hc hp hi
    rcases List.mem_append.mp hc with hc | hc
    · obtain ⟨d, hd, hdn⟩ := name_mem_hide hc
      have := (hn d hd).2
      rw [hdn] at this
      rw [this hp] at hi; cases hi
    · exact h.cellsIn c hc hp hi

/-- Inside a block none of the template's variables are visible. -/
theorem Rel.block (h : Rel W S cells st L ρ) :
    Rel W ⟨S.V ++ S.K, [], [], [], []⟩ (hide cells) { st with vars := [], known := [] } .empty ρ := by
  refine ⟨by simp, by rw [rustVars_hide]; exact h.rvars, h.item, by simp [MapChain.empty], ?_, ?_, ?_, ?_, ?_, ?_, by simp,
    ?_, by simp, by simp, ?_, ?_, rfl⟩
  · intro n m hm; rw [MapChain.get_empty] at hm; cases hm
  · intro n m hm; rw [MapChain.get_empty] at hm; cases hm
  · intro n m hm; rw [MapChain.get_empty] at hm; cases hm
  · intro n _ _; rfl
  · intro n m _ hm; rw [MapChain.get_empty] at hm; cases hm
  · intro n m r hm; rw [MapChain.get_empty] at hm; cases hm
  · intro n hn
    rcases List.mem_append.mp hn with hn | hn
    · exact h.vint n hn
    · exact h.kint n hn
  · intro n hp hi hK
    refine .inl ⟨rfl, fun c hc e => hK ?_⟩
    obtain ⟨d, hd, hdn⟩ := name_mem_hide hc
    rw [← e, ← hdn, List.mem_append]
    exact h.cellsIn d hd (by rw [hdn, e]; exact hp) (by rw [hdn, e]; exact hi)
  · intro c hc hp hi
    obtain ⟨d, hd, hdn⟩ := name_mem_hide hc
    refine .inr ?_
    rw [← hdn] at hp hi ⊢
    exact List.mem_append.mpr (h.cellsIn d hd hp hi)

/-- The end of a block: its variables are forgotten, but not by Rust. -/
theorem Ran.unhide {L : Locals} (R : Rel W S cells st L ρ) {E : Option (Str × Sig × REnv U)} {Sx : Res U} {p : Option Str}
    {Q Q' : List (Cell U) → Store U → REnv U → Option Str → Prop} (h : Ran (S.V ++ S.K) (hide cells) ρ E Sx p Q)
    (hQ : ∀ new stb ρ' q, (∀ c ∈ new, Cell.name c ∉ S.V ++ S.K ∧ leftName c.name) → ρ'.vars = rustVars new ++ ρ.vars → ρ'.item = ρ.item →
      Q (new ++ hide cells) stb ρ' q → Q' (hide new ++ cells) st ρ' q) :
    Ran S.K cells ρ E (Sx.map fun r => (r.1, r.2.1, st)) p Q' := by
  unfold Ran at h
  match Sx, h with
  | none, h => exact h
  | some (s, sig, stb), h =>
    rcases h with h | ⟨o, ρ', cells', rfl, he, h3, h4, h5, h6, h7, h8, h9⟩
    · exact .inl h
    · obtain ⟨new, old, rfl, hu, hn⟩ := he
      cases hu.of_hide
      have hv : ρ'.vars = rustVars new ++ ρ.vars := by rw [h4, rustVars_append, rustVars_hide, R.rvars]
      have R' := R.addHidden hn hv h5
      refine .inr ⟨o, ρ', hide new ++ cells, rfl, ⟨hide new, cells, rfl, .refl _ _, ?_⟩, R'.svars, R'.rvars, h5, h6, h7,
        R'.item, ?_⟩
      · intro c hc
        obtain ⟨d, hd, hdn⟩ := name_mem_hide hc
        rw [← hdn]
        exact ⟨fun hk => (hn d hd).1 (List.mem_append_right _ hk), (hn d hd).2⟩
      · dsimp only
        split at h9
        · rename_i hsig
          rw [if_pos hsig]
          obtain ⟨q, h10, h11⟩ := h9
          exact ⟨q, h10, hQ new stb ρ' q hn hv h5 h11⟩
        · rename_i hsig
          rw [if_neg hsig]
          exact h9

/-- The end of an included template. -/
theorem Ran.uninclude {L : Locals} (R : Rel W S cells st L ρ) {E : Option (Str × Sig × REnv U)} {Sx : Res U} {p : Option Str}
    {Q Q' : List (Cell U) → Store U → REnv U → Option Str → Prop} (h : Ran (S.V ++ S.K) cells ρ E Sx p Q)
    (hQ : ∀ cells1 cells' st1 st' ρ' q, Rel W S cells' st' L ρ' → Q cells1 st1 ρ' q → Q' cells' st' ρ' q) :
    Ran S.K cells ρ E (Sx.map fun r => (r.1, r.2.1, st.leave r.2.2)) p Q' := by
  unfold Ran at h
  match Sx, h with
  | none, h => exact h
  | some (s, sig, st1), h =>
    rcases h with h | ⟨o, ρ', cells', rfl, he, h3, h4, h5, h6, h7, h8, h9⟩
    · exact .inl h
    · obtain ⟨new, old, rfl, hu, hn⟩ := he
      have hVK : ∀ x ∈ S.K, x ∈ S.V ++ S.K := fun x hx => List.mem_append_right _ hx
      have hsv : (st.leave st1).vars = specVars old := by
        show leaveVars st.vars st1.vars = _
        rw [R.svars, h3]
        simp [leaveVars, specVars_append, hu.spec_length]
      have R1 : Rel W S old (st.leave st1) L { ρ with vars := rustVars old } :=
        R.upd (hu.mono hVK) hsv rfl rfl rfl rfl
      have R2 := R1.addHidden hn (ρ' := ρ') (by rw [h4, rustVars_append]) h5
      refine .inr ⟨o, ρ', hide new ++ old, rfl, ⟨hide new, old, rfl, hu.mono hVK, ?_⟩, R2.svars, R2.rvars, h5, h6, h7,
        R2.item, ?_⟩
      · intro c hc
        obtain ⟨d, hd, hdn⟩ := name_mem_hide hc
        rw [← hdn]
        exact ⟨fun hk => (hn d hd).1 (List.mem_append_right _ hk), (hn d hd).2⟩
      · dsimp only
        split at h9
        · rename_i hsig
          rw [if_pos hsig]
          obtain ⟨q, h10, h11⟩ := h9
          exact ⟨q, h10, hQ _ _ _ _ ρ' q R2 h11⟩
        · rename_i hsig
          rw [if_neg hsig]
          exact h9

/-- No hidden cell is a variable of the template. -/
theorem hide_not_both {n : Str} {v : Option (Val U)} : (a : List (Cell U)) → firstCell n (hide a) ≠ some (.both n v)
  | [] => by simp [hide, firstCell]
  | .both m w :: a => by
    simp only [hide, firstCell]
    split
    · simp
    · exact hide_not_both a
  | .rust m w :: a => by
    simp only [hide, firstCell]
    split
    · simp
    · exact hide_not_both a
  | .spec m w :: a => by
    simp only [hide]
    exact hide_not_both a

theorem firstCell_mem {n : Str} {c : Cell U} : {cs : List (Cell U)} → firstCell n cs = some c → c ∈ cs
  | [], h => by simp [firstCell] at h
  | d :: cs, h => by
    simp only [firstCell] at h
    split at h
    · cases h; exact List.mem_cons_self
    · exact List.mem_cons_of_mem _ (firstCell_mem h)

/-- Output of a block that is written after its end. -/
theorem PRel.leaveBlock (R : Rel W S cells st g.locals ρ) {Sb : Sets} {new : List (Cell U)} {stb : Store U} {Lb : Locals}
    {ρ' : REnv U} {pend : List Writable} (hempty : ∀ n, Lb.get n = none)
    (hd : disj Sb.P S.V = true) (hK : Sb.K = S.V ++ S.K) (hn : ∀ c ∈ new, Cell.name c ∉ S.V ++ S.K ∧ leftName c.name)
    (hi : ρ'.item = ρ.item) (Rb : Rel W Sb (new ++ hide cells) stb Lb ρ')
    (hp : PRel W I Sb stb Lb ρ' pend ts) : PRel W I { S with P := Sb.P } st g.locals ρ' pend ts := by
  have hd' : ∀ y ∈ Sb.P, y ∉ S.V := by
    unfold disj at hd
    rw [List.all_eq_true] at hd
    intro y hy; simpa using hd y hy
  refine hp.imp ?_
  intro w t he
  cases he with
  | lit s => exact .lit s
  | expr e ok hv =>
    have hint := exprOk_vars e ok
    -- a name in the expression is a variable neither inside nor outside
    have hnone : ∀ n ∈ Expr.vars e, stb.status n = none ∧ st.status n = none := by
      intro n hne
      have hin := (hint n hne).1
      cases hpl : pathLike n with
      | false =>
        have hs : strange n = false := by simp only [strange, hin, hpl, Bool.or_false]
        refine ⟨Rb.unknown _ hs (hempty _), R.unknown _ hs ?_⟩
        cases hg : g.locals.get n with
        | none => rfl
        | some m => exact absurd (R.inV _ m hg hin) (hd' _ (hv _ hne))
      | true =>
        have hnK : n ∉ Sb.K := (hint n hne).2 hpl
        have hnVK : n ∉ S.V ++ S.K := by rw [← hK]; exact hnK
        refine ⟨?_, ?_⟩
        · rcases Rb.paths n hpl hin hnK with ⟨h1, _⟩ | ⟨b, v, _, h2⟩
          · exact h1
          · rw [firstCell_append (fun c hc e => ?_)] at h2
            · exact absurd h2 (hide_not_both _)
            · have := (hn c hc).2
              rw [e] at this
              rw [this hpl] at hin; cases hin
        · rcases R.paths n hpl hin (fun h => hnVK (List.mem_append_right _ h)) with ⟨h1, _⟩ | ⟨b, v, _, h2⟩
          · exact h1
          · exact absurd (List.mem_append.mpr (R.cellsIn _ (firstCell_mem h2) hpl hin)) hnVK
    have hname : ∀ n, n ∈ Expr.vars e → SameName W stb st n := by
      intro n hx
      obtain ⟨h1, h2⟩ := hnone n hx
      refine ⟨fun x hxn => ?_, ?_⟩
      · subst hxn
        unfold Store.name
        rw [h1, h2]
      · simp only [Store.path, h1, h2]
    rw [showE_congr (by rw [Rb.item, hi, R.item]) e hname]
    refine .expr e ?_ hv
    refine exprOk_mono e ok ?_
    intro y hy
    refine ⟨fun _ hyR => hd' y (hv y hy) (R.rv y hyR), fun hyK hyS => hyK ?_⟩
    show y ∈ Sb.K
    rw [hK]; exact List.mem_append_right _ hyS
  | gen r w hl hx =>
    obtain ⟨y, _, hy⟩ := hx
    exact absurd (hempty y) hy

variable {rec : Handler} {sp : Render U} {gd : GoodRec} {H : Option Heritage} {chain : List Ctx} {ctx : Ctx}
  {sup : Option (Str × Nat)}

theorem empty_get {L : Locals} (hp : L.parent = []) (ht : L.scopes.tail = []) (he : L.isCurrentEmpty = true) (n : Str) :
    L.get n = none := by
  rw [MapChain.get_eq, hp]
  cases hs : L.scopes with
  | nil => simp [lookupStack]
  | cons s rest =>
    rw [hs] at ht
    cases ht
    simp only [MapChain.isCurrentEmpty, hs, List.isEmpty_iff] at he
    subst he
    simp [lookupStack]

/-- The check of nodes does not change what is kept. -/
def GdKeeps (gd : GoodRec) : Prop := ∀ chain ctx sup S nodes S', gd chain ctx sup S nodes = some S' → S'.K = S.K

theorem block_sound (hs : Stable W) (ok : HandlerOk W I rec sp gd) (kg : GdKeeps gd) (fr : RecFrame rec)
    (hH : HChain H chain) {name : Option Str} {outer : Ws} {cur : Str × Nat} {code : List Stmt}
    (h : writeBlock rec I H ctx g name outer = .ok (code, g')) (hcur : currentBlock name g.superBlock = .ok cur)
    (hg : goodBlock gd chain ctx S cur.1 cur.2 = some S') (hc : Clean g)
    (R : Rel W S cells st g.locals ρ) (hp : PRel W I S st g.locals ρ g.pend ts) (nl : Option WH) :
    Ran S.K cells ρ (execList W ρ code) (runBlock I sp chain ctx st cur.1 cur.2)
      (pendText ts (some (sideOf I outer.l)) g) (RanPost W I S' nl g') := by
  have hfr := writeBlock_frame fr hc h
  obtain ⟨cur', pre, g1, hh, defs, cctx, d, b, g2, fl, g3, h1, h2, rfl, h3, h4, h5, h6, rfl, hg'⟩ :=
    writeBlock_inv h hc.pd hc.d
  rw [hcur] at h1
  cases h1
  have hdefs := hH _ rfl _ _ h3
  subst hdefs
  unfold goodBlock at hg
  rw [h4] at hg
  unfold runBlock
  rw [h4]
  dsimp only at hg ⊢
  cases hgb : gd chain (withMacrosOf cctx ctx) (some (cur.1, cur.2)) ⟨S.V ++ S.K, [], [], [], []⟩ d.nodes with
  | none => rw [hgb] at hg; cases hg
  | some Sb =>
    rw [hgb] at hg
    dsimp only at hg
    split at hg
    · rename_i hdisj
      cases hg
      rw [List.append_assoc]
      refine Ran.after_flush (flush_flush hs hc R hp h2) R ?_
      have hc0 : Clean { new I .empty g1.indent false with
          pend := [], pdiscard := false, skipWs := sideOf I d.ws1.r, superBlock := some cur } :=
        ⟨rfl, rfl, by simp [new, MapChain.empty]⟩
      have hb := ok (before := sideOf I d.ws1.r) (after := some (sideOf I d.ws2.l)) (ts := []) (S := ⟨S.V ++ S.K, [], [], [], []⟩)
        (chain := chain) (ctx := withMacrosOf cctx ctx) (sup := some (cur.1, cur.2)) (level := .block) h5 hgb hc0 rfl hH (by simp)
        (fun _ => ⟨rfl, rfl⟩) (by exact R.block) (by exact .nil)
      rw [pendText_empty rfl] at hb
      have f2 := fr _ _ _ _ _ _ _ h5 hc0
      have hnw := hfr.2.2.1
      have hl' := hfr.2.1
      unfold flushIf at h6
      split at h6
      · -- variables were declared: output is written
        rw [execList_append]
        have hseq : Ran (S.V ++ S.K) (hide cells) ρ (seqE (execList W ρ b) fun ρ' => execList W ρ' fl)
            (seqS (sp chain (withMacrosOf cctx ctx) (some (cur.1, cur.2)) (sideOf I d.ws1.r) d.nodes
              (some (sideOf I d.ws2.l)) { st with vars := [], known := [] }) silent) (some [])
            (fun _ _ _ q => q = some (wsTail (some (sideOf I d.ws2.l)) g2)) := by
          refine Ran.seq hb ?_
          rintro cells' st' ρ' q _ _ _ _ ⟨Rb, ts', hpb, rfl⟩
          rw [writeBuf_exec hs h6 f2.clean.d Rb hpb]
          unfold Ran silent
          cases ojoin ts' with
          | none => exact .inl ⟨rfl, by simp⟩
          | some s =>
            refine .inr ⟨s, ρ', cells', rfl, .refl _ cells', Rb.svars, Rb.rvars, rfl, rfl, rfl, Rb.item, ?_⟩
            rw [if_pos rfl]
            exact ⟨_, by simp, rfl⟩
        rw [seqS_silent_right] at hseq
        refine Ran.unhide R hseq ?_
        rintro new stb ρ' q hn hv hi rfl
        refine ⟨by rw [hl']; exact (R.addHidden hn hv hi).setP Sb.P, ?_⟩
        obtain ⟨k, hk⟩ := writeBuf_state h6
        have hpend : g'.pend = (wsLit (applyWs (sideOf I d.ws2.l) (g2.nextWs.getD []))).map .lit := by
          rw [hg', flushWs_eq I d.ws2 (by rw [hk]; exact f2.clean.pd), hk]
          simp
        rw [hpend]
        refine ⟨_, .lits _, ?_⟩
        rw [wsTail_none hnw]
        simp [ojoin_somes, wsTail]
      · -- no variables
        rename_i hemp
        cases h6
        rw [List.append_nil]
        refine Ran.unhide R hb ?_
        rintro new stb ρ' q hn hv hi ⟨Rb, ts', hpb, rfl⟩
        refine ⟨by rw [hl']; exact (R.addHidden hn hv hi).setP Sb.P, ?_⟩
        have hemp' : ∀ n, g2.locals.get n = none :=
          empty_get f2.parent f2.tail (by simpa using hemp)
        have hpb' := PRel.leaveBlock R hemp' hdisj (kg _ _ _ _ _ _ hgb) hn hi Rb hpb
        have hpend : g'.pend = g2.pend ++ (wsLit (applyWs (sideOf I d.ws2.l) (g2.nextWs.getD []))).map .lit := by
          rw [hg', flushWs_eq I d.ws2 f2.clean.pd]
        rw [hpend, hl']
        refine ⟨_, hpb'.append (.lits _), ?_⟩
        rw [wsTail_none hnw]
        simp [ojoin_append, ojoin_somes, wsTail]
    · cases hg

/-! ## Inheritance -/

/-- No block name is defined twice in the map of a template's blocks. -/
def BlocksOk (c : Ctx) : Prop := (c.blocks.map (·.1)).Nodup

/-- The same for all templates. -/
def AllBlocksOk (I : GenInput) : Prop := ∀ p c, assoc I.contexts p = some c → BlocksOk c

theorem assoc_cons {α : Type} (k : Str) (v : α) (m : List (Str × α)) (n : Str) :
    assoc ((k, v) :: m) n = if k = n then some v else assoc m n := by
  unfold assoc
  by_cases h : k = n
  · rw [List.find?_cons_of_pos (by simpa using h), if_pos h]; rfl
  · rw [List.find?_cons_of_neg (by simpa using h), if_neg h]

theorem assoc_append {α : Type} (a b : List (Str × α)) (n : Str) : assoc (a ++ b) n = (assoc a n).or (assoc b n) := by
  unfold assoc
  rw [List.find?_append]
  cases a.find? (fun e => e.1 == n) <;> simp

theorem assoc_none {α : Type} {m : List (Str × α)} {n : Str} (h : n ∉ m.map (·.1)) : assoc m n = none := by
  unfold assoc
  rw [List.find?_eq_none.mpr]
  · rfl
  · intro e he hen
    exact h (List.mem_map.mpr ⟨e, he, by simpa using hen⟩)

theorem assoc_update {α : Type} (f : α → α) (k : Str) (m : List (Str × α)) (n : Str) :
    assoc (m.map fun e => if e.1 = k then (e.1, f e.2) else e) n
      = if n = k then (assoc m n).map f else assoc m n := by
  induction m with
  | nil => simp [assoc]
  | cons e m ih =>
    obtain ⟨a, v⟩ := e
    rw [List.map_cons, assoc_cons]
    by_cases hak : a = k
    · subst hak
      simp only [if_true]
      rw [assoc_cons, ih]
      by_cases han : a = n
      · subst han; simp
      · have : ¬ n = a := fun e => han e.symm
        simp [han, this]
    · simp only [if_neg hak]
      rw [assoc_cons, ih]
      by_cases han : a = n
      · subst han; simp [hak]
      · simp [han]

/-- The definitions of a block after those of some more templates. -/
def moreDefs {α : Type} (o : Option (List α)) (l : List α) : Option (List α) :=
  match o, l with
  | none, [] => none
  | none, l => some l
  | some a, l => some (a ++ l)

theorem moreDefs_nil {α : Type} (o : Option (List α)) : moreDefs o [] = o := by
  cases o <;> simp [moreDefs]

theorem moreDefs_append {α : Type} (o : Option (List α)) (a b : List α) :
    moreDefs (moreDefs o a) b = moreDefs o (a ++ b) := by
  cases o with
  | none => cases a <;> cases b <;> simp [moreDefs]
  | some x => simp [moreDefs]

theorem addBlocks_assoc {c : Ctx} (hb : BlocksOk c) (m : List (Str × List (Ctx × BlockDefn))) (n : Str) :
    assoc (addBlocks c m) n = moreDefs (assoc m n) (blockDefs [c] n) := by
  have hstep : ∀ (m : List (Str × List (Ctx × BlockDefn))) (k : Str) (d : BlockDefn),
      assoc (match assoc m k with
        | none => m ++ [(k, [(c, d)])]
        | some _ => m.map fun e => if e.1 = k then (e.1, e.2 ++ [(c, d)]) else e) n
        = if k = n then moreDefs (assoc m n) [(c, d)] else assoc m n := by
    intro m k d
    cases hk : assoc m k with
    | none =>
      dsimp only
      rw [assoc_append, assoc_cons]
      by_cases hkn : k = n
      · subst hkn; simp [hk, moreDefs]
      · simp [hkn, assoc]
    | some x =>
      dsimp only
      rw [assoc_update (fun l => l ++ [(c, d)])]
      by_cases hkn : k = n
      · subst hkn; simp [hk, moreDefs]
      · have : ¬ n = k := fun e => hkn e.symm
        simp [hkn, this]
  have hd : blockDefs [c] n = match assoc c.blocks n with
      | none => []
      | some d => [(c, d)] := by
    unfold blockDefs
    cases h : assoc c.blocks n <;> simp [h]
  rw [hd]
  unfold addBlocks BlocksOk at *
  generalize c.blocks = bl at hb
  clear hd
  induction bl generalizing m with
  | nil => simp [assoc, moreDefs_nil]
  | cons e bl ih =>
    obtain ⟨k, d⟩ := e
    rw [List.map_cons, List.nodup_cons] at hb
    rw [List.foldl_cons, ih _ hb.2]
    refine (congrArg (fun x => moreDefs x _) (hstep m k d)).trans ?_
    rw [assoc_cons]
    by_cases hkn : k = n
    · subst hkn
      rw [if_pos rfl, if_pos rfl, assoc_none hb.1]
      simp [moreDefs_nil]
    · rw [if_neg hkn, if_neg hkn]

theorem blockDefs_cons (c : Ctx) (chain : List Ctx) (n : Str) :
    blockDefs (c :: chain) n = blockDefs [c] n ++ blockDefs chain n := by
  unfold blockDefs
  rw [← List.filterMap_append]; rfl

theorem fold_blocks : (chain : List Ctx) → (∀ c ∈ chain, BlocksOk c) → (m : List (Str × List (Ctx × BlockDefn))) →
    (n : Str) → assoc (chain.foldl (fun m c => addBlocks c m) m) n = moreDefs (assoc m n) (blockDefs chain n)
  | [], _, m, n => by simp [blockDefs, moreDefs_nil]
  | c :: chain, h, m, n => by
    rw [List.foldl_cons, fold_blocks chain (fun d hd => h d (List.mem_cons_of_mem _ hd)),
      addBlocks_assoc (h c List.mem_cons_self), moreDefs_append, ← blockDefs_cons]

theorem heritageChain_lineage {contexts : List (Str × Ctx)} : (fuel : Nat) → {c : Ctx} → {chain : List Ctx} →
    heritageChain contexts fuel c = .ok chain → lineage contexts fuel c = some chain
  | 0, _, _, h => by cases h
  | fuel + 1, c, chain, h => by
    unfold heritageChain at h
    unfold lineage
    cases he : c.extends_ with
    | none => rw [he] at h; cases h; rfl
    | some p =>
      rw [he] at h
      dsimp only at h ⊢
      cases ha : assoc contexts p with
      | none => rw [ha] at h; cases h
      | some d =>
        rw [ha] at h
        dsimp only at h
        obtain ⟨rest, h1, h⟩ := except_bind h
        cases h
        rw [Option.bind_some, heritageChain_lineage fuel h1]
        rfl

theorem lineage_blocks {I : GenInput} (hI : AllBlocksOk I) : (fuel : Nat) → {c : Ctx} → {chain : List Ctx} →
    BlocksOk c → lineage I.contexts fuel c = some chain → ∀ d ∈ chain, BlocksOk d
  | 0, _, _, _, h => by cases h
  | fuel + 1, c, chain, hc, h => by
    unfold lineage at h
    cases he : c.extends_ with
    | none =>
      rw [he] at h
      cases h
      intro d hd
      cases List.mem_singleton.mp hd; exact hc
    | some p =>
      rw [he] at h
      dsimp only at h
      obtain ⟨d, h1, h⟩ := Option.bind_eq_some_iff.mp h
      obtain ⟨rest, h2, rfl⟩ := Option.map_eq_some_iff.mp h
      intro x hx
      rcases List.mem_cons.mp hx with rfl | hx
      · exact hc
      · exact lineage_blocks hI fuel (hI p d h1) h2 x hx

/-- The heritage made by the code is that of the chain of templates. -/
theorem heritageNew_chain {I : GenInput} (hI : AllBlocksOk I) {c : Ctx} (hc : BlocksOk c) {h : Heritage}
    (hn : heritageNew I.contexts c = .ok h) : ∃ chain, lineage I.contexts (I.contexts.length + 2) c = some chain
      ∧ h.root = chain.getLastD c ∧ HChain (some h) chain := by
  unfold heritageNew at hn
  obtain ⟨chain, h1, hn⟩ := except_bind hn
  cases hn
  have hl := heritageChain_lineage _ h1
  refine ⟨chain, hl, rfl, ?_⟩
  intro h hh n defs hd
  cases hh
  dsimp only at hd
  rw [fold_blocks chain (lineage_blocks hI _ hc hl)] at hd
  cases hb : blockDefs chain n with
  | nil => rw [hb] at hd; simp [assoc, moreDefs] at hd
  | cons x xs => rw [hb] at hd; simp [assoc, moreDefs] at hd; exact hd.symm

/-- The template whose nodes are rendered. -/
def rootOf (Hc : Option Heritage) (c : Ctx) : Ctx :=
  match Hc with
  | some h => h.root
  | none => c

theorem includeHeritage_chain {I : GenInput} (hI : AllBlocksOk I) {c : Ctx} (hc : BlocksOk c) {Hc : Option Heritage}
    (hn : includeHeritage I c = .ok Hc) : ∃ chain,
      (if c.blocks.isEmpty && c.extends_.isNone then some [] else lineage I.contexts (I.contexts.length + 2) c) = some chain
      ∧ rootOf Hc c = chain.getLastD c ∧ HChain Hc chain := by
  unfold includeHeritage at hn
  split at hn
  · rename_i hcond
    rw [if_neg (by
      cases hb : c.blocks.isEmpty <;> cases he : c.extends_ <;> simp_all)]
    cases hh : heritageNew I.contexts c with
    | error e => rw [hh] at hn; cases hn
    | ok h =>
      rw [hh] at hn
      cases hn
      exact heritageNew_chain hI hc hh
  · rename_i hcond
    cases hn
    rw [if_pos (by
      cases hb : c.blocks.isEmpty <;> cases he : c.extends_ <;> simp_all)]
    exact ⟨[], rfl, rfl, by intro h hh; cases hh⟩

/-! ## Included templates -/

theorem Rel.include (h : Rel W S cells st L ρ) :
    Rel W { S with K := S.V ++ S.K, P := [] } cells st L.withParent ρ := by
  have hK : ∀ n ∈ S.K, n ∈ S.V ++ S.K := fun n hn => List.mem_append_right _ hn
  have h1 : Rel W { S with K := S.V ++ S.K, P := [] } cells st L ρ := by
    refine ⟨h.svars, h.rvars, h.item, h.wf, h.keys, h.inV, h.lower, h.unknown, ?_, ?_, h.dset, ?_, h.vint, h.rv,
      fun n hp hi hn => h.paths n hp hi (fun hk => hn (hK n hk)), fun c hc hp hi => (h.cellsIn c hc hp hi).imp id (hK _), h.under⟩
    · intro n m hi hm hr
      obtain ⟨⟨b, hb, h1⟩, h2, h3⟩ := h.plain n m hi hm hr
      exact ⟨⟨b, hb, fun hn => h1 (fun hk => hn (hK n hk))⟩, h2, fun hi hn => h3 hi (fun hk => hn (hK n hk))⟩
    · intro n m r hm hr
      obtain ⟨h1, h2, h3, h4, h5, h6⟩ := h.refd n m r hm hr
      exact ⟨hK n h1, h2, h3, h4, fun x hx => hK x (h5 x hx), h6⟩
    · intro n hn
      rcases List.mem_append.mp hn with hn | hn
      · exact h.vint n hn
      · exact h.kint n hn
  exact h1.congrL (by simp [MapChain.withParent]) (fun n => MapChain.get_withParent _ n)

/-- What holds at the end of a whole template: nothing is pending any more. -/
def TopDone (rec : Handler) : Prop := ∀ H ctx nodes g code g', rec H ctx nodes .top g = .ok (code, g') →
  g'.nextWs = none

theorem include_sound (hs : Stable W) (hb : AllBlocksOk I) (ok : HandlerOk W I rec sp gd) (fr : RecFrame rec)
    (td : TopDone rec) {ws : Ws} {path : Str} {code : List Stmt} (h : handleInclude rec I ctx g ws path = .ok (code, g'))
    (hg : goodInclude I gd ctx S path = true) (hc : Clean g)
    (R : Rel W S cells st g.locals ρ) (hp : PRel W I S st g.locals ρ g.pend ts) (nl : Option WH) :
    Ran S.K cells ρ (execList W ρ code) (runInclude I sp ctx st path)
      (pendText ts (some (sideOf I ws.l)) g) (RanPost W I S.flushed nl g') := by
  have hfr := handleInclude_frame fr hc h
  obtain ⟨pre, g1, p, c, Hc, b, g2, fl, g3, h1, h2, h3, h4, h5, h6, hcode, hg'⟩ := handleInclude_inv h
  have f0 := flushWs_frame (I := I) hc ws
  have f1 := f0.trans (writeBuf_frame f0.clean h1)
  obtain ⟨b1, b2, b3, b4, b5⟩ := writeBuf_locals h1
  have hl1 : g1.locals = g.locals := by rw [b1]; exact flushWs_locals hc ws
  have hc0 : Clean { new I g1.locals.withParent g1.indent g1.discard with pdiscard := g1.pdiscard } :=
    ⟨f1.clean.pd, f1.clean.d, by simp [new, MapChain.withParent]⟩
  have f2 := fr _ _ _ _ _ _ _ h5 hc0
  have f3 := f2.trans (writeBuf_frame f2.clean h6)
  have hinc : execList W ρ code = execList W ρ (pre ++ (b ++ fl)) := by
    rw [hcode]
    simp only [List.append_assoc]
    rw [execList_append, execList_append]
    congr 1
    funext ρ'
    have : ({ g1 with indent := g3.indent, discard := g3.discard } : Gen).emit [.includeBytes p] = [.includeBytes p] := by
      unfold emit
      rw [if_neg (by simp [f3.clean.d])]
    rw [this, execList_append, execList_single]
    simp only [Stmt.exec]
    rw [seqE_nil_left]
  rw [hinc]
  refine Ran.after_flush (flush_flush hs hc R hp h1) R ?_
  have hbc : BlocksOk (mergeCtx c ctx) := hb p c h3
  obtain ⟨chain, hch, hroot, hHc⟩ := includeHeritage_chain hb hbc h4
  replace h5 : rec Hc (rootOf Hc (mergeCtx c ctx)) (rootOf Hc (mergeCtx c ctx)).nodes .top
      { new I g1.locals.withParent g1.indent g1.discard with pdiscard := g1.pdiscard } = .ok (b, g2) := h5
  rw [hroot] at h5
  unfold goodInclude at hg
  unfold runInclude
  rw [h2] at hg ⊢
  dsimp only [Option.bind_some] at hg ⊢
  rw [h3] at hg ⊢
  dsimp only [Option.bind_some] at hg ⊢
  rw [show withMacrosOf c ctx = mergeCtx c ctx from rfl, hch] at hg ⊢
  dsimp only [Option.bind_some] at hg ⊢
  obtain ⟨S1, hS1⟩ := Option.isSome_iff_exists.mp hg
  have hout := ok (before := .preserve) (after := none) (ts := []) (cells := cells) (st := st) (ρ := ρ) h5 hS1 hc0 rfl hHc
    (by simp) (fun _ => ⟨rfl, rfl⟩) (by show Rel W _ cells st g1.locals.withParent ρ; rw [hl1]; exact R.include)
    (by exact .nil)
  rw [pendText_empty rfl] at hout
  have hseq : Ran (S.V ++ S.K) cells ρ (seqE (execList W ρ b) fun ρ' => execList W ρ' fl)
      (seqS (sp chain (chain.getLastD (mergeCtx c ctx)) none .preserve (chain.getLastD (mergeCtx c ctx)).nodes none st)
        silent) (some []) (fun _ _ _ q => q = some []) := by
    refine Ran.seq hout ?_
    rintro cells' st' ρ' q _ _ _ _ ⟨Rb, ts', hpb, rfl⟩
    rw [writeBuf_exec hs h6 f2.clean.d Rb hpb, wsTail_none (td _ _ _ _ _ _ h5)]
    unfold Ran silent
    cases ojoin ts' with
    | none => exact .inl ⟨rfl, by simp⟩
    | some s =>
      refine .inr ⟨s, ρ', cells', rfl, .refl _ cells', Rb.svars, Rb.rvars, rfl, rfl, rfl, Rb.item, ?_⟩
      rw [if_pos rfl]
      exact ⟨some [], by simp, rfl⟩
  rw [seqS_silent_right] at hseq
  rw [execList_append]
  refine Ran.uninclude R hseq ?_
  rintro cells1 cells' st1 st' ρ' q R' rfl
  refine RanPost.written ?_ hfr.2.2.2.2 hfr.2.2.1
  rw [hfr.2.1]
  exact R'

end

end Askama
