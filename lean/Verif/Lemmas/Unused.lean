import Verif.Spec.Unused
import Verif.Lemmas.Outside
import Verif.Lemmas.Tree

/-! The generator looks up names only: definitions under other names do not matter. -/

namespace Askama

open Askama.Spec Gen

/-- The second map has more names. -/
structure MapPlus {α : Type} (E : Str → Bool) (m m' : List (Str × α)) : Prop where
  same : ∀ n, E n = false → assoc m' n = assoc m n
  fresh : ∀ n, E n = true → assoc m n = none

theorem MapPlus.append {α : Type} {E : Str → Bool} {m m' k k' : List (Str × α)} (h : MapPlus E m m') (hk : MapPlus E k k') :
    MapPlus E (m ++ k) (m' ++ k') := by
  refine ⟨fun n hn => ?_, fun n hn => ?_⟩
  · rw [assoc_append, assoc_append, h.same n hn, hk.same n hn]
  · rw [assoc_append, h.fresh n hn, hk.fresh n hn]; rfl

theorem MapPlus.get {α : Type} {E : Str → Bool} {m m' : List (Str × α)} (h : MapPlus E m m') {n : Str} {v : α}
    (ha : assoc m n = some v) : assoc m' n = some v := by
  cases he : E n with
  | true => rw [h.fresh n he] at ha; cases ha
  | false => rw [h.same n he]; exact ha

/-- The second template has more definitions. -/
structure CtxPlus (E : NewNames) (x y : Ctx) : Prop where
  extends_ : x.extends_ = y.extends_
  blocks : MapPlus E.block x.blocks y.blocks
  macros : MapPlus E.macro_ x.macros y.macros
  imports : MapPlus E.scope x.imports y.imports

/-- Two lists of the same length with related elements. -/
inductive All2 {α β : Type} (R : α → β → Prop) : List α → List β → Prop where
  | nil : All2 R [] []
  | cons {a : α} {b : β} {l : List α} {l' : List β} (h : R a b) (hl : All2 R l l') : All2 R (a :: l) (b :: l')

theorem All2.get {α β : Type} {R : α → β → Prop} {l : List α} {l' : List β} (h : All2 R l l') : (k : Nat) → {a : α} →
    l[k]? = some a → ∃ b, l'[k]? = some b ∧ R a b := by
  induction h with
  | nil => intro k a ha; cases ha
  | cons h hl ih =>
    intro k a ha
    cases k with
    | zero => cases ha; exact ⟨_, rfl, h⟩
    | succ k => exact ih k ha

theorem All2.append {α β : Type} {R : α → β → Prop} {l k : List α} {l' k' : List β} (h : All2 R l l') (hk : All2 R k k') :
    All2 R (l ++ k) (l' ++ k') := by
  induction h with
  | nil => exact hk
  | cons h hl ih => exact .cons h ih

theorem All2.last {α β : Type} {R : α → β → Prop} {l : List α} {l' : List β} (h : All2 R l l') {a : α} {b : β} (hab : R a b) :
    R (l.getLastD a) (l'.getLastD b) := by
  induction h generalizing a b with
  | nil => exact hab
  | cons h hl ih => rw [List.getLastD_cons, List.getLastD_cons]; exact ih h

/-- The same definition of a block, in templates of which the second has more definitions. -/
def DefPlus (E : NewNames) (e e' : Ctx × BlockDefn) : Prop := CtxPlus E e.1 e'.1 ∧ e.2 = e'.2

/-- All blocks are there in the second. -/
structure HerPlus (E : NewNames) (h h' : Heritage) : Prop where
  root : CtxPlus E h.root h'.root
  blocks : ∀ n defs, assoc h.blocks n = some defs → ∃ defs', assoc h'.blocks n = some defs' ∧ All2 (DefPlus E) defs defs'

/-- The same for heritages that need not be there. -/
inductive OptPlus (E : NewNames) : Option Heritage → Option Heritage → Prop where
  | none : OptPlus E none none
  | some {h h' : Heritage} (hh : HerPlus E h h') : OptPlus E (some h) (some h')

/-- The other templates have all of these, with their definitions, and are the same if nothing is extended. -/
structure PlusCs (E : NewNames) (contexts cs : List (Str × Ctx)) : Prop where
  length : contexts.length ≤ cs.length
  assoc : ∀ p c, assoc contexts p = some c →
    ∃ c', assoc cs p = some c' ∧ CtxPlus E c c' ∧ (c.extends_ = none → c.nodes = c'.nodes ∧ c.blocks = c'.blocks)
  ok : ∀ p c, Askama.assoc contexts p = some c → BlocksOk c
  ok' : ∀ p c, Askama.assoc cs p = some c → BlocksOk c

theorem mergeCtx_plus {E : NewNames} {c c' d d' : Ctx} (h : CtxPlus E c c') (hd : CtxPlus E d d') :
    CtxPlus E (mergeCtx c d) (mergeCtx c' d') :=
  ⟨h.extends_, h.blocks, h.macros.append hd.macros, h.imports.append hd.imports⟩

theorem blockDefs_plus {E : NewNames} {n : Str} (hn : E.block n = false) {chain chain' : List Ctx}
    (h : All2 (CtxPlus E) chain chain') : All2 (DefPlus E) (blockDefs chain n) (blockDefs chain' n) := by
  induction h with
  | nil => exact .nil
  | @cons a b l l' h hl ih =>
    rw [blockDefs_cons a, blockDefs_cons b]
    refine All2.append ?_ ih
    unfold blockDefs
    have e := h.blocks.same n hn
    cases ha : assoc a.blocks n with
    | none => rw [ha] at e; simp only [List.filterMap, ha, e, Option.map]; exact .nil
    | some d => rw [ha] at e; simp only [List.filterMap, ha, e, Option.map]; exact .cons ⟨h, rfl⟩ .nil

theorem blockDefs_fresh {E : NewNames} {n : Str} (hn : E.block n = true) {chain chain' : List Ctx}
    (h : All2 (CtxPlus E) chain chain') : blockDefs chain n = [] := by
  induction h with
  | nil => rfl
  | @cons a b l l' h hl ih =>
    rw [blockDefs_cons a, ih]
    unfold blockDefs
    simp only [List.filterMap, h.blocks.fresh n hn, Option.map, List.append_nil]

theorem heritageChain_plus {E : NewNames} {contexts cs : List (Str × Ctx)} (hcs : PlusCs E contexts cs) : (fuel fuel' : Nat) → fuel ≤ fuel' →
    {c c' : Ctx} → CtxPlus E c c' → (c.extends_ = none → c.nodes = c'.nodes) → BlocksOk c → BlocksOk c' → {chain : List Ctx} →
    heritageChain contexts fuel c = .ok chain →
    ∃ chain', heritageChain cs fuel' c' = .ok chain' ∧ All2 (CtxPlus E) chain chain'
      ∧ (chain'.getLastD c').nodes = (chain.getLastD c).nodes ∧ chain ≠ [] ∧ chain' ≠ []
      ∧ (∀ d ∈ chain, BlocksOk d) ∧ (∀ d ∈ chain', BlocksOk d)
  | 0, _, _, _, _, _, _, _, _, _, h => by cases h
  | fuel + 1, 0, hf, _, _, _, _, _, _, _, _ => absurd hf (by omega)
  | fuel + 1, fuel' + 1, hf, c, c', hs, hn, hb, hb', chain, h => by
    unfold heritageChain at h ⊢
    rw [← hs.extends_]
    cases he : c.extends_ with
    | none =>
      rw [he] at h
      cases h
      exact ⟨[c'], rfl, .cons hs .nil, (hn he).symm, by simp, by simp, by simpa using hb, by simpa using hb'⟩
    | some path =>
      rw [he] at h
      dsimp only at h ⊢
      cases ha : assoc contexts path with
      | none => rw [ha] at h; cases h
      | some p =>
        rw [ha] at h
        obtain ⟨p', hp', hps, hpn⟩ := hcs.assoc path p ha
        obtain ⟨rest, h1, h⟩ := except_bind h
        cases h
        obtain ⟨rest', e1, e2, e3, e5, e6, e7, e8⟩ := heritageChain_plus hcs fuel fuel' (by omega) hps (fun h => (hpn h).1)
          (hcs.ok _ _ ha) (hcs.ok' _ _ hp') h1
        rw [hp']
        dsimp only
        rw [e1]
        refine ⟨c' :: rest', rfl, .cons hs e2, ?_, by simp, by simp, ?_, ?_⟩
        · cases rest with
          | nil => exact absurd rfl e5
          | cons r rest =>
            cases rest' with
            | nil => exact absurd rfl e6
            | cons r' rest' => simpa only [List.getLastD_cons] using e3
        · intro d hd
          rcases List.mem_cons.mp hd with rfl | hd
          · exact hb
          · exact e7 d hd
        · intro d hd
          rcases List.mem_cons.mp hd with rfl | hd
          · exact hb'
          · exact e8 d hd

theorem heritageNew_plus {E : NewNames} {contexts cs : List (Str × Ctx)} (hcs : PlusCs E contexts cs) {c c' : Ctx} (hs : CtxPlus E c c')
    (hn : c.extends_ = none → c.nodes = c'.nodes) (hb : BlocksOk c) (hb' : BlocksOk c') {h : Heritage}
    (hh : heritageNew contexts c = .ok h) :
    ∃ h', heritageNew cs c' = .ok h' ∧ HerPlus E h h' ∧ h'.root.nodes = h.root.nodes := by
  unfold heritageNew at hh ⊢
  obtain ⟨chain, h1, hh⟩ := except_bind hh
  cases hh
  obtain ⟨chain', e1, e2, e3, -, -, e4, e5⟩ := heritageChain_plus hcs _ (cs.length + 2) (by have := hcs.length; omega) hs hn hb hb' h1
  rw [e1]
  refine ⟨_, rfl, ⟨e2.last hs, fun n defs hd => ?_⟩, e3⟩
  dsimp only at hd ⊢
  rw [fold_blocks chain e4] at hd
  rw [fold_blocks chain' e5]
  cases he : E.block n with
  | true => rw [blockDefs_fresh he e2] at hd; cases hd
  | false =>
    have hp := blockDefs_plus he e2
    revert hd hp
    generalize blockDefs chain n = a
    generalize blockDefs chain' n = b
    intro hd hp
    cases hp with
    | nil => cases hd
    | cons h hl => cases hd; exact ⟨_, rfl, .cons h hl⟩

theorem includeHeritage_plus {E : NewNames} {I : GenInput} {cs : List (Str × Ctx)} (hcs : PlusCs E I.contexts cs) {c c' : Ctx}
    (hs : CtxPlus E c c') (hn : c.extends_ = none → c.nodes = c'.nodes ∧ c.blocks = c'.blocks) (hb : BlocksOk c) (hb' : BlocksOk c')
    {H : Option Heritage} (h : includeHeritage I c = .ok H) :
    ∃ H', includeHeritage (withCs I cs) c' = .ok H' ∧ OptPlus E H H'
      ∧ (rootOf H' c').nodes = (rootOf H c).nodes ∧ CtxPlus E (rootOf H c) (rootOf H' c') := by
  unfold includeHeritage at h ⊢
  have hcond : (!c'.blocks.isEmpty || c'.extends_.isSome) = (!c.blocks.isEmpty || c.extends_.isSome) := by
    rw [← hs.extends_]
    cases hx : c.extends_ with
    | none => rw [(hn hx).2]
    | some p => simp
  rw [hcond]
  split at h
  · rename_i hc
    rw [if_pos hc]
    cases h1 : heritageNew I.contexts c with
    | error e => rw [h1] at h; cases h
    | ok hh =>
      rw [h1] at h
      cases h
      obtain ⟨h', e1, e2, e3⟩ := heritageNew_plus hcs hs (fun h => (hn h).1) hb hb' h1
      rw [show (withCs I cs).contexts = cs from rfl, e1]
      exact ⟨_, rfl, .some e2, e3, e2.root⟩
  · rename_i hc
    rw [if_neg hc]
    cases h
    have : c.extends_ = none := by cases hx : c.extends_ <;> simp_all
    exact ⟨none, rfl, .none, (hn this).1.symm, hs⟩

theorem heritageOf_plus {E : NewNames} {contexts cs : List (Str × Ctx)} (hcs : PlusCs E contexts cs) {block : Option Str} {c c' : Ctx}
    (hs : CtxPlus E c c') (hn : c.extends_ = none → c.nodes = c'.nodes ∧ c.blocks = c'.blocks) (hb : BlocksOk c) (hb' : BlocksOk c')
    {H : Option Heritage} (h : heritageOf contexts block c = .ok H) :
    ∃ H', heritageOf cs block c' = .ok H' ∧ OptPlus E H H'
      ∧ (rootOf H' c').nodes = (rootOf H c).nodes ∧ CtxPlus E (rootOf H c) (rootOf H' c') := by
  unfold heritageOf at h ⊢
  have hcond : (!c'.blocks.isEmpty || c'.extends_.isSome) = (!c.blocks.isEmpty || c.extends_.isSome) := by
    rw [← hs.extends_]
    cases hx : c.extends_ with
    | none => rw [(hn hx).2]
    | some p => simp
  rw [hcond]
  split at h
  · rename_i hc
    rw [if_pos hc]
    obtain ⟨hh, h1, h⟩ := except_bind h
    obtain ⟨h', e1, e2, e3⟩ := heritageNew_plus hcs hs (fun h => (hn h).1) hb hb' h1
    rw [e1]
    cases block with
    | none =>
      cases h
      exact ⟨_, rfl, .some e2, e3, e2.root⟩
    | some b =>
      dsimp only [bind, Except.bind] at h ⊢
      cases hx : assoc hh.blocks b with
      | none => rw [hx] at h; cases h
      | some defs =>
        obtain ⟨defs', hd, -⟩ := e2.blocks b defs hx
        rw [hx] at h
        rw [hd]
        cases h
        exact ⟨_, rfl, .some e2, e3, e2.root⟩
  · rename_i hc
    rw [if_neg hc]
    cases h
    have : c.extends_ = none := by cases hx : c.extends_ <;> simp_all
    exact ⟨none, rfl, .none, (hn this).1.symm, hs⟩

/-! ## Nodes -/

/-- The second handler does the same with templates that have more definitions, unless the first fails. -/
def PlusDone (E : NewNames) (rec rec' : Handler) : Prop :=
  ∀ H H' ctx ctx' ns level g, OptPlus E H H' → CtxPlus E ctx ctx' → OrFails (rec H ctx ns level g) (rec' H' ctx' ns level g)

section
variable {E : NewNames} {rec rec' : Handler} (h : PlusDone E rec rec') (I : GenInput) {cs : List (Str × Ctx)} {H H' : Option Heritage}
  (hH : OptPlus E H H') {ctx ctx' : Ctx} (hc : CtxPlus E ctx ctx')
include h hH hc

theorem ifBranches_plus (ws : Ws) : (first : Bool) → (bs : List Cond) → (g : Gen) →
    OrFails (ifBranches rec I H ctx ws first bs g) (ifBranches rec' (withCs I cs) H' ctx' ws first bs g)
  | _, [], _ => .refl _
  | first, .mk w cond nodes :: rest, g => by
    unfold ifBranches
    simp only [branchCond_withCs, writeBuf_withCs, handleWs_withCs]
    refine (OrFails.refl _).bind fun g => (OrFails.refl _).bind fun r => ?_
    obtain ⟨c, g⟩ := r
    refine (h _ _ _ _ _ _ _ hH hc).bind fun r => ?_
    obtain ⟨body, g⟩ := r
    cases rest with
    | nil => exact .refl _
    | cons c rest =>
      obtain ⟨w', c', n'⟩ := c
      refine (OrFails.refl _).bind fun r => ?_
      obtain ⟨fl, g⟩ := r
      refine (ifBranches_plus ws _ _ _).bind fun _ => .refl _

theorem matchArms_plus (ws : Ws) : (arms : List When) → (g : Gen) →
    OrFails (matchArms rec I H ctx ws arms g) (matchArms rec' (withCs I cs) H' ctx' ws arms g)
  | [], _ => .refl _
  | .mk w t nodes :: rest, g => by
    unfold matchArms
    simp only [writeBuf_withCs, handleWs_withCs]
    refine (h _ _ _ _ _ _ _ hH hc).bind fun r => ?_
    obtain ⟨body, g⟩ := r
    refine (OrFails.refl _).bind fun r => ?_
    obtain ⟨fl, g⟩ := r
    refine (OrFails.refl _).bind fun g => ?_
    exact (matchArms_plus ws rest _).bind fun _ => .refl _

theorem writeBlock_plus (g : Gen) (name : Option Str) (outer : Ws) :
    OrFails (writeBlock rec I H ctx g name outer) (writeBlock rec' (withCs I cs) H' ctx' g name outer) := by
  unfold writeBlock
  simp only [writeBuf_withCs, flushWs_withCs, prepareWs_withCs, flushIf_withCs]
  refine (OrFails.refl _).bind fun cur => (OrFails.refl _).bind fun r => ?_
  obtain ⟨pre, g⟩ := r
  have hH0 := hH
  cases hH with
  | none => exact .inl ⟨_, rfl⟩
  | @some hh hh' hp =>
    dsimp only
    cases h1 : assoc hh.blocks cur.1 with
    | none => exact .inl ⟨_, rfl⟩
    | some defs =>
      obtain ⟨defs', h2, hd⟩ := hp.blocks _ _ h1
      rw [h2]
      dsimp only
      cases h3 : defs[cur.2]? with
      | none => exact .inl ⟨_, rfl⟩
      | some d =>
        obtain ⟨d', h4, h5, h6⟩ := hd.get _ h3
        rw [h4]
        obtain ⟨c1, d⟩ := d
        obtain ⟨c2, d'⟩ := d'
        dsimp only at h5 h6 ⊢
        subst h6
        exact (h _ _ _ _ _ _ _ hH0 (mergeCtx_plus h5 hc)).bind fun _ => .refl _

theorem writeCall_plus (hcs : PlusCs E I.contexts cs) (g : Gen) (ws : Ws) (scope : Option Str) (name : Str) (args : List Expr) :
    OrFails (writeCall rec I H ctx g ws scope name args) (writeCall rec' (withCs I cs) H' ctx' g ws scope name args) := by
  have hf : (∃ e, findMacro I ctx scope name = .error e) ∨ ∃ d own own', findMacro I ctx scope name = .ok (d, own)
      ∧ findMacro (withCs I cs) ctx' scope name = .ok (d, own') ∧ CtxPlus E own own' := by
    unfold findMacro
    cases scope with
    | none =>
      dsimp only
      cases hm : assoc ctx.macros name with
      | none => exact .inl ⟨_, rfl⟩
      | some d =>
        rw [hc.macros.get hm]
        exact .inr ⟨d, ctx, ctx', rfl, rfl, hc⟩
    | some s =>
      dsimp only
      cases hi : assoc ctx.imports s with
      | none => exact .inl ⟨_, rfl⟩
      | some path =>
        rw [hc.imports.get hi]
        dsimp only
        cases ha : assoc I.contexts path with
        | none => exact .inl ⟨_, rfl⟩
        | some m =>
          obtain ⟨m', e1, e2, -⟩ := hcs.assoc path m ha
          rw [show (withCs I cs).contexts = cs from rfl, e1]
          dsimp only
          cases hm : assoc m.macros name with
          | none => exact .inl ⟨_, rfl⟩
          | some d =>
            rw [e2.macros.get hm]
            exact .inr ⟨d, m, m', rfl, rfl, e2⟩
  unfold writeCall
  rcases hf with ⟨e, hf⟩ | ⟨d, own, own', h1, h2, hs⟩
  · rw [hf]; exact .inl ⟨e, rfl⟩
  · rw [h1, h2]
    simp only [writeBuf_withCs, flushWs_withCs, prepareWs_withCs, bindParams_withCs, bind, Except.bind]
    refine OrFails.bind (.refl _) fun r => OrFails.ite (.refl _) ?_
    exact OrFails.bind (.refl _) fun _ => OrFails.bind (.refl _) fun _ => (h _ _ _ _ _ _ _ hH hs).bind fun _ => .refl _

omit hH in
theorem handleInclude_plus (hcs : PlusCs E I.contexts cs) (g : Gen) (ws : Ws) (path : Str) :
    OrFails (handleInclude rec I ctx g ws path) (handleInclude rec' (withCs I cs) ctx' g ws path) := by
  unfold handleInclude
  simp only [writeBuf_withCs, flushWs_withCs, prepareWs_withCs]
  refine (OrFails.refl _).bind fun r => ?_
  obtain ⟨pre, g⟩ := r
  dsimp only
  rw [show (withCs I cs).find = I.find from rfl]
  cases I.find path with
  | none => exact .inl ⟨_, rfl⟩
  | some p =>
    dsimp only
    cases ha : assoc I.contexts p with
    | none => exact .inl ⟨_, rfl⟩
    | some c =>
      obtain ⟨c', e1, e2, e3⟩ := hcs.assoc p c ha
      rw [show (withCs I cs).contexts = cs from rfl, e1]
      dsimp only
      cases hi : includeHeritage I (mergeCtx c ctx) with
      | error e => exact .inl ⟨e, rfl⟩
      | ok K =>
        obtain ⟨K', k1, k2, k3, k4⟩ := includeHeritage_plus hcs (mergeCtx_plus e2 hc) e3 (show BlocksOk (mergeCtx c ctx) from hcs.ok _ c ha)
          (show BlocksOk (mergeCtx c' ctx') from hcs.ok' _ c' e1) hi
        rw [k1]
        have k2' := k2
        cases k2 with
        | none =>
          simp only [rootOf] at k3 k4
          simp only [bind, Except.bind]
          rw [k3]
          exact (h _ _ _ _ _ _ _ k2' k4).bind fun _ => .refl _
        | some x =>
          simp only [rootOf] at k3 k4
          simp only [bind, Except.bind]
          rw [k3]
          exact (h _ _ _ _ _ _ _ k2' k4).bind fun _ => .refl _

theorem handleNode_plus (hcs : PlusCs E I.contexts cs) (level : Level) (g : Gen) (n : Node) :
    OrFails (handleNode rec I H ctx level g n) (handleNode rec' (withCs I cs) H' ctx' level g n) := by
  cases n with
  | if_ ws bs =>
    simp only [handleNode]
    cases bs with
    | nil => exact .refl _
    | cons b bs =>
      obtain ⟨w, c, ns⟩ := b
      simp only [writeIf, writeBuf_withCs, handleWs_withCs]
      refine (OrFails.refl _).bind fun r => ?_
      exact (ifBranches_plus h I hH hc _ _ _ _).bind fun _ => .refl _
  | match_ ws1 e arms ws2 =>
    simp only [handleNode]
    cases arms with
    | nil => exact .refl _
    | cons b bs =>
      obtain ⟨w, c, ns⟩ := b
      simp only [writeMatch, writeBuf_withCs, handleWs_withCs, flushWs_withCs, visitExpr_withCs]
      refine (OrFails.refl _).bind fun r => (OrFails.refl _).bind fun r' => ?_
      exact (matchArms_plus h I hH hc _ _ _).bind fun _ => .refl _
  | loop ws1 t iter cond body ws2 els ws3 =>
    simp only [handleNode]
    unfold writeLoop
    simp only [writeBuf_withCs, handleWs_withCs, visitExpr_withCs, loopFilter_withCs]
    refine (OrFails.refl _).bind fun _ => (OrFails.refl _).bind fun _ => (OrFails.refl _).bind fun _ =>
      (h _ _ _ _ _ _ _ hH hc).bind fun _ => (OrFails.refl _).bind fun _ => (OrFails.refl _).bind fun _ => ?_
    refine OrFails.ite ((h _ _ _ _ _ _ _ hH hc).bind fun _ => .refl _) (.refl _)
  | blockDef => exact writeBlock_plus h I hH hc ..
  | «include» ws path => exact handleInclude_plus h I hc hcs ..
  | call ws scope name args =>
    simp only [handleNode]
    exact OrFails.ite (writeBlock_plus h I hH hc ..) (writeCall_plus h I hH hc hcs ..)
  | filterBlock ws1 f ns ws2 =>
    simp only [handleNode]
    unfold writeFilterBlock
    simp only [prepareFormat_withCs, flushWs_withCs, prepareWs_withCs, visitExpr_withCs]
    exact (h _ _ _ _ _ _ _ hH hc).bind fun _ => .refl _
  | let_ => simp only [handleNode, writeLet_withCs]; exact .refl _
  | break_ => simp only [handleNode, writeBuf_withCs, handleWs_withCs]; exact .refl _
  | continue_ => simp only [handleNode, writeBuf_withCs, handleWs_withCs]; exact .refl _
  | _ => exact .refl _

theorem handleNodes_plus (hcs : PlusCs E I.contexts cs) (level : Level) : (ns : List Node) → (g : Gen) →
    OrFails (handleNodes rec I H ctx level ns g) (handleNodes rec' (withCs I cs) H' ctx' level ns g)
  | [], _ => .refl _
  | n :: ns, g => by
    unfold handleNodes
    refine (handleNode_plus h I hH hc hcs level g n).bind fun r => ?_
    exact (handleNodes_plus hcs level ns _).bind fun _ => .refl _

end

theorem handle_plus {E : NewNames} {I : GenInput} {cs : List (Str × Ctx)} (hcs : PlusCs E I.contexts cs) : (fuel : Nat) →
    PlusDone E (handle I fuel) (handle (withCs I cs) fuel)
  | 0 => fun _ _ _ _ _ _ _ _ _ => .inl ⟨_, rfl⟩
  | fuel + 1 => fun H H' ctx ctx' ns level g hH hc => by
    have he : ∀ g, handleEnd (withCs I cs) level g = handleEnd I level g := by
      intro g; unfold handleEnd; simp only [flushWs_withCs, writeBuf_withCs]
    unfold handle
    simp only [he]
    exact (handleNodes_plus (handle_plus hcs fuel) I hH hc hcs level ns g).bind fun _ => .refl _

theorem generate_plus {E : NewNames} {I : GenInput} {cs : List (Str × Ctx)} (hcs : PlusCs E I.contexts cs) (fuel : Nat)
    {H H' : Option Heritage} (hH : OptPlus E H H') {ctx ctx' : Ctx} (hn : (rootOf H' ctx').nodes = (rootOf H ctx).nodes)
    (hs : CtxPlus E (rootOf H ctx) (rootOf H' ctx')) : OrFails (generate I fuel H ctx) (generate (withCs I cs) fuel H' ctx') := by
  unfold generate
  have hH0 := hH
  cases hH with
  | none =>
    simp only [rootOf] at hn hs
    dsimp only
    rw [hn]
    exact (handle_plus hcs fuel _ _ _ _ _ _ _ hH0 hs).bind fun _ => .refl _
  | some x =>
    simp only [rootOf] at hn hs
    dsimp only
    rw [hn]
    exact (handle_plus hcs fuel _ _ _ _ _ _ _ hH0 hs).bind fun _ => .refl _

/-! ## Contexts -/

theorem partsL_spare {E : NewNames} : {l : List Node} → (partsL l).all (fun m => !defines m || E.has m) = true →
    l.filter (fun n => !E.spare n) = []
  | [], _ => rfl
  | n :: l, h => by
    simp only [partsL, List.all_append, Bool.and_eq_true] at h
    rw [List.filter_cons_of_neg (by simp [NewNames.spare, h.1]), partsL_spare h.2]

/-- The same map but for some names. -/
def MapSame {α : Type} (E : Str → Bool) (m m' : List (Str × α)) : Prop := ∀ n, E n = false → assoc m n = assoc m' n

theorem MapSame.insert {α : Type} {E : Str → Bool} {m m' : List (Str × α)} (h : MapSame E m m') (k : Str) (v : α) :
    MapSame E (mapInsert m k v) (mapInsert m' k v) := fun n hn => by
  rw [assoc_mapInsert, assoc_mapInsert, h n hn]

theorem MapSame.insertLeft {α : Type} {E : Str → Bool} {m m' : List (Str × α)} (h : MapSame E m m') {k : Str} (v : α)
    (hk : E k = true) : MapSame E (mapInsert m k v) m' := fun n hn => by
  rw [assoc_mapInsert, if_neg, h n hn]
  rintro rfl
  rw [hk] at hn; cases hn

/-- Two stacks of lists of nodes, the same but for nodes that define nothing. -/
inductive Stack2 (E : NewNames) : List (List Node) → List (List Node) → Prop where
  | nil : Stack2 E [] []
  | both {l l' : List Node} {s s' : List (List Node)} (h : l.filter (fun n => !E.spare n) = l'.filter (fun n => !E.spare n))
      (hs : Stack2 E s s') : Stack2 E (l :: s) (l' :: s')
  | left {l : List Node} {s s' : List (List Node)} (h : l.filter (fun n => !E.spare n) = []) (hs : Stack2 E s s') :
      Stack2 E (l :: s) s'
  | right {l' : List Node} {s s' : List (List Node)} (h : l'.filter (fun n => !E.spare n) = []) (hs : Stack2 E s s') :
      Stack2 E s (l' :: s')

theorem Stack2.push {E : NewNames} {s s' : List (List Node)} (h : Stack2 E s s') : (K : List (List Node)) → Stack2 E (K ++ s) (K ++ s')
  | [] => h
  | _ :: K => .both rfl (h.push K)

theorem Stack2.pushLeft {E : NewNames} {s s' : List (List Node)} (h : Stack2 E s s') : (K : List (List Node)) →
    (∀ l ∈ K, l.filter (fun n => !E.spare n) = []) → Stack2 E (K ++ s) s'
  | [], _ => h
  | l :: K, hK => .left (hK l (by simp)) (h.pushLeft K fun l hl => hK l (by simp [hl]))

theorem Stack2.pushRight {E : NewNames} {s s' : List (List Node)} (h : Stack2 E s s') : (K : List (List Node)) →
    (∀ l ∈ K, l.filter (fun n => !E.spare n) = []) → Stack2 E s (K ++ s')
  | [], _ => h
  | l :: K, hK => .right (hK l (by simp)) (h.pushRight K fun l hl => hK l (by simp [hl]))

/-- The same definitions so far, but for some names. -/
structure SameSt2 (E : NewNames) (a b : CtxSt) : Prop where
  extends_ : a.extends_ = b.extends_
  blocks : MapSame E.block a.blocks b.blocks
  macros : MapSame E.macro_ a.macros b.macros
  imports : MapSame E.scope a.imports b.imports
  nested : Stack2 E a.nested b.nested

theorem Stack2.symm {E : NewNames} {s s' : List (List Node)} (h : Stack2 E s s') : Stack2 E s' s := by
  induction h with
  | nil => exact .nil
  | both h _ ih => exact .both h.symm ih
  | left h _ ih => exact .right h ih
  | right h _ ih => exact .left h ih

theorem SameSt2.symm {E : NewNames} {a b : CtxSt} (h : SameSt2 E a b) : SameSt2 E b a :=
  ⟨h.extends_.symm, fun n hn => (h.blocks n hn).symm, fun n hn => (h.macros n hn).symm, fun n hn => (h.imports n hn).symm, h.nested.symm⟩

/-- A spare node changes nothing but the new names. -/
theorem ctxNode_spare {E : NewNames} {find : Str → Option Str} {top : Bool} {st st1 st' : CtxSt} {n : Node} (h : E.spare n = true)
    (hr : ctxNode find top st n = .ok st') (hs : SameSt2 E st st1) : SameSt2 E st' st1 := by
  unfold NewNames.spare at h
  have plain : (∀ l ∈ ctxNested n, l.filter (fun n => !E.spare n) = []) →
      SameSt2 E { st with nested := ctxNested n ++ st.nested } st1 := fun hl =>
    ⟨hs.extends_, hs.blocks, hs.macros, hs.imports, hs.nested.pushLeft _ hl⟩
  cases n with
  | if_ ws bs =>
    simp only [parts, List.all_cons, Bool.and_eq_true] at h
    cases hr
    exact plain fun l hl => partsL_spare (partsC_all h.2 l (List.mem_reverse.mp hl))
  | match_ ws1 e arms ws2 =>
    simp only [parts, List.all_cons, Bool.and_eq_true] at h
    cases hr
    exact plain fun l hl => partsL_spare (partsW_all h.2 l (List.mem_reverse.mp hl))
  | loop ws1 v i c body ws2 els ws3 =>
    simp only [parts, List.all_cons, List.all_append, Bool.and_eq_true] at h
    cases hr
    refine plain fun l hl => ?_
    rcases List.mem_cons.mp hl with rfl | hl
    · exact partsL_spare h.2.2
    · rcases List.mem_cons.mp hl with rfl | hl
      · exact partsL_spare h.2.1
      · cases hl
  | blockDef ws1 name nodes ws2 =>
    simp only [parts, List.all_cons, defines, NewNames.has, Bool.not_true, Bool.false_or, Bool.and_eq_true] at h
    cases hr
    exact ⟨hs.extends_, hs.blocks.insertLeft _ h.1, hs.macros, hs.imports, .left (partsL_spare h.2) hs.nested⟩
  | «macro» ws1 name args nodes ws2 =>
    simp only [parts, List.all_cons, defines, NewNames.has, Bool.not_true, Bool.false_or, Bool.and_eq_true] at h
    simp only [ctxNode] at hr
    split at hr
    · cases hr
      exact ⟨hs.extends_, hs.blocks, hs.macros.insertLeft _ h.1, hs.imports, hs.nested⟩
    · cases hr
  | import_ w p s =>
    simp only [parts, List.all_cons, List.all_nil, defines, NewNames.has, Bool.not_true, Bool.false_or, Bool.and_true] at h
    simp only [ctxNode] at hr
    split at hr
    · split at hr
      · cases hr
        exact ⟨hs.extends_, hs.blocks, hs.macros, hs.imports.insertLeft _ h, hs.nested⟩
      · cases hr
    · cases hr
  | extends_ => simp [parts, defines, NewNames.has] at h
  | _ => cases hr; exact plain fun l hl => by cases hl

theorem ctxNode_same2 {E : NewNames} {find : Str → Option Str} {top : Bool} {st st1 r r1 : CtxSt} {n : Node}
    (h : ctxNode find top st n = .ok r) (h1 : ctxNode find top st1 n = .ok r1) (hs : SameSt2 E st st1) : SameSt2 E r r1 := by
  obtain ⟨e1, e2, e3, e4, e5⟩ := hs
  obtain ⟨ex, bl, ma, im, ne⟩ := st
  obtain ⟨ex', bl', ma', im', ne'⟩ := st1
  dsimp only at e1 e2 e3 e4 e5
  subst e1
  cases n with
  | extends_ p =>
    simp only [ctxNode] at h h1
    cases top with
    | false => cases h
    | true =>
      cases ex with
      | some _ => cases h
      | none =>
        cases hf : find p with
        | none => rw [hf] at h; cases h
        | some q =>
          rw [hf] at h h1
          cases h; cases h1
          exact ⟨rfl, e2, e3, e4, e5⟩
  | «macro» ws1 name args nodes ws2 =>
    simp only [ctxNode] at h h1
    cases top with
    | false => cases h
    | true => cases h; cases h1; exact ⟨rfl, e2, e3.insert _ _, e4, e5⟩
  | import_ w p s =>
    simp only [ctxNode] at h h1
    cases top with
    | false => cases h
    | true =>
      cases hf : find p with
      | none => rw [hf] at h; cases h
      | some q =>
        rw [hf] at h h1
        cases h; cases h1
        exact ⟨rfl, e2, e3, e4.insert _ _, e5⟩
  | blockDef => cases h; cases h1; exact ⟨rfl, e2.insert _ _, e3, e4, e5.push _⟩
  | _ => cases h; cases h1; exact ⟨rfl, e2, e3, e4, e5.push _⟩

theorem ctxNodes_same2 {E : NewNames} {find : Str → Option Str} {top : Bool} : (ns ns1 : List Node) → {st st1 r r1 : CtxSt} →
    ns.filter (fun n => !E.spare n) = ns1.filter (fun n => !E.spare n) → ctxNodes find top ns st = .ok r →
    ctxNodes find top ns1 st1 = .ok r1 → SameSt2 E st st1 → SameSt2 E r r1
  | [], [], _, _, _, _, _, h, h1, hs => by cases h; cases h1; exact hs
  | n :: ns, ns1, st, st1, r, r1, hf, h, h1, hs => by
    cases hi : E.spare n with
    | true =>
      rw [List.filter_cons_of_neg (by simp [hi])] at hf
      unfold ctxNodes at h
      obtain ⟨st2, h2, h⟩ := except_bind h
      exact ctxNodes_same2 ns ns1 hf h h1 (ctxNode_spare hi h2 hs)
    | false =>
      cases ns1 with
      | nil => rw [List.filter_cons_of_pos (by simp [hi])] at hf; cases hf
      | cons n1 ns1 =>
        cases hi1 : E.spare n1 with
        | true =>
          rw [List.filter_cons_of_neg (a := n1) (by simp [hi1])] at hf
          unfold ctxNodes at h1
          obtain ⟨st2, h2, h1⟩ := except_bind h1
          exact ctxNodes_same2 (n :: ns) ns1 hf h h1 (ctxNode_spare hi1 h2 hs.symm).symm
        | false =>
          rw [List.filter_cons_of_pos (by simp [hi]), List.filter_cons_of_pos (by simp [hi1])] at hf
          obtain ⟨hnn, hff⟩ := List.cons.inj hf
          subst hnn
          unfold ctxNodes at h h1
          obtain ⟨st2, h2, h⟩ := except_bind h
          obtain ⟨st3, h3, h1⟩ := except_bind h1
          exact ctxNodes_same2 ns ns1 hff h h1 (ctxNode_same2 h2 h3 hs)
  | [], n1 :: ns1, st, st1, r, r1, hf, h, h1, hs => by
    cases hi1 : E.spare n1 with
    | true =>
      rw [List.filter_cons_of_neg (a := n1) (by simp [hi1])] at hf
      unfold ctxNodes at h1
      obtain ⟨st2, h2, h1⟩ := except_bind h1
      exact ctxNodes_same2 [] ns1 hf h h1 (ctxNode_spare hi1 h2 hs.symm).symm
    | false => rw [List.filter_cons_of_pos (a := n1) (by simp [hi1])] at hf; cases hf
  termination_by ns ns1 => ns.length + ns1.length

theorem ctxLoop_same2 {E : NewNames} {find : Str → Option Str} (fuel fuel' : Nat) {st st1 r r1 : CtxSt} (hs : SameSt2 E st st1)
    (h : ctxLoop find fuel false st = .ok r) (h1 : ctxLoop find fuel' false st1 = .ok r1) : SameSt2 E r r1 := by
  have hn := hs.nested
  generalize ha : st.nested = a at hn
  generalize hb : st1.nested = b at hn
  cases hn with
  | nil =>
    unfold ctxLoop at h h1
    rw [ha] at h
    rw [hb] at h1
    cases h; cases h1
    exact hs
  | both hf hn =>
    obtain ⟨f, st2, rfl, k1, h⟩ := ctxLoop_step ha h
    obtain ⟨f', st3, rfl, k2, h1⟩ := ctxLoop_step hb h1
    exact ctxLoop_same2 f f' (ctxNodes_same2 _ _ hf k1 k2 ⟨hs.extends_, hs.blocks, hs.macros, hs.imports, hn⟩) h h1
  | left hf hn =>
    obtain ⟨f, st2, rfl, k1, h⟩ := ctxLoop_step ha h
    exact ctxLoop_same2 f fuel' (ctxNodes_same2 _ [] hf k1 rfl ⟨hs.extends_, hs.blocks, hs.macros, hs.imports, by rw [hb]; exact hn⟩) h h1
  | right hf hn =>
    obtain ⟨f', st3, rfl, k2, h1⟩ := ctxLoop_step hb h1
    exact ctxLoop_same2 fuel f' (ctxNodes_same2 [] _ hf.symm rfl k2 ⟨hs.extends_, hs.blocks, hs.macros, hs.imports, by rw [ha]; exact hn⟩) h h1
  termination_by fuel + fuel'

/-- Two versions of a template define the same things, but for the new names. -/
theorem contextNew_sameUsed {E : NewNames} {find : Str → Option Str} {x y : Ctx} (hx : contextNew find x.nodes = .ok x)
    (hy : contextNew find y.nodes = .ok y) (hE : E.Fresh x) (h : SameUsed E x.nodes y.nodes) :
    CtxPlus E x y ∧ (x.extends_ = none → x.nodes = y.nodes ∧ x.blocks = y.blocks) := by
  rcases h with h | ⟨⟨p, hp⟩, h⟩
  · rw [h, hy] at hx
    cases hx
    exact ⟨⟨rfl, ⟨fun _ _ => rfl, hE.blocks⟩, ⟨fun _ _ => rfl, hE.macros⟩, ⟨fun _ _ => rfl, hE.imports⟩⟩, fun _ => ⟨rfl, rfl⟩⟩
  · unfold contextNew at hx hy
    obtain ⟨st, h1, hx⟩ := except_bind hx
    obtain ⟨st', h2, hy⟩ := except_bind hy
    have ex := Except.ok.inj hx
    have ey := Except.ok.inj hy
    refine ⟨?_, fun he => ?_⟩
    · obtain ⟨f, s1, -, k1, k2⟩ := ctxLoop_step rfl h1
      obtain ⟨f', s2, -, k3, k4⟩ := ctxLoop_step rfl h2
      have hs := ctxLoop_same2 _ _ (ctxNodes_same2 _ _ h k1 k3 ⟨rfl, fun _ _ => rfl, fun _ _ => rfl, fun _ _ => rfl, .nil⟩) k2 k4
      have a1 : x.extends_ = st.extends_ := congrArg Ctx.extends_ ex.symm
      have a2 : x.blocks = st.blocks := congrArg Ctx.blocks ex.symm
      have a3 : x.macros = st.macros := congrArg Ctx.macros ex.symm
      have a4 : x.imports = st.imports := congrArg Ctx.imports ex.symm
      have b1 : y.extends_ = st'.extends_ := congrArg Ctx.extends_ ey.symm
      have b2 : y.blocks = st'.blocks := congrArg Ctx.blocks ey.symm
      have b3 : y.macros = st'.macros := congrArg Ctx.macros ey.symm
      have b4 : y.imports = st'.imports := congrArg Ctx.imports ey.symm
      refine ⟨by rw [a1, b1, hs.extends_], ⟨fun n hn => ?_, hE.blocks⟩, ⟨fun n hn => ?_, hE.macros⟩, ⟨fun n hn => ?_, hE.imports⟩⟩
      · rw [a2, b2, hs.blocks n hn]
      · rw [a3, b3, hs.macros n hn]
      · rw [a4, b4, hs.imports n hn]
    · have hst : st.extends_ = none := by rw [← he]; exact congrArg Ctx.extends_ (Except.ok.inj hx)
      exact absurd hp ((ctxLoop_extends _ h1 hst).2 _ _ rfl p)

end Askama
