import Verif.Spec.Outside
import Verif.Lemmas.Comments
import Verif.Lemmas.Lineage
import Verif.Lemmas.GenInv
import Verif.Lemmas.Core

/-! The generator does not read the nodes of templates that extend others. -/

namespace Askama

open Askama.Spec Gen

/-- A context without its nodes. -/
def Ctx.strip (c : Ctx) : Ctx := { c with nodes := [] }

/-- The block map without the nodes of templates. -/
def stripDefs (m : List (Str × List (Ctx × BlockDefn))) : List (Str × List (Ctx × BlockDefn)) :=
  onSnd (List.map fun e => (e.1.strip, e.2)) m

/-- A heritage without the nodes of templates. -/
def Heritage.strip (h : Heritage) : Heritage := ⟨h.root.strip, stripDefs h.blocks⟩

/-- The other templates have all of these, with the same definitions, and the same nodes if nothing is extended. -/
structure MoreCs (contexts cs : List (Str × Ctx)) : Prop where
  length : contexts.length ≤ cs.length
  assoc : ∀ p c, assoc contexts p = some c → ∃ c', assoc cs p = some c' ∧ c.strip = c'.strip ∧ (c.extends_ = none → c.nodes = c'.nodes)

/-- The first computation fails, or does the same as the second. -/
def OrFails {α : Type} (a b : Except GErr α) : Prop := (∃ e, a = .error e) ∨ a = b

theorem OrFails.refl {α : Type} (a : Except GErr α) : OrFails a a := .inr rfl

theorem OrFails.bind {α β : Type} {a b : Except GErr α} {f g : α → Except GErr β} (h : OrFails a b)
    (hf : ∀ x, OrFails (f x) (g x)) : OrFails (a >>= f) (b >>= g) := by
  rcases h with ⟨e, h⟩ | h
  · left; rw [h]; exact ⟨e, rfl⟩
  · subst h
    cases a with
    | error e => right; rfl
    | ok x => exact hf x

theorem OrFails.ite {α : Type} {c : Prop} [Decidable c] {a b a' b' : Except GErr α} (h : OrFails a b) (h' : OrFails a' b') :
    OrFails (if c then a else a') (if c then b else b') := by
  split
  · exact h
  · exact h'

/-- These templates instead. -/
def withCs (I : GenInput) (cs : List (Str × Ctx)) : GenInput := { I with contexts := cs }

section
variable (I : GenInput) (cs : List (Str × Ctx))

theorem visitExpr_withCs (L : Locals) (e : Expr) : visitExpr (withCs I cs) L e = visitExpr I L e := by
  delta visitExpr; rfl

theorem formatLoop_withCs (L : Locals) : (ws : List Writable) → (st : FmtSt) →
    formatLoop (withCs I cs) L ws st = formatLoop I L ws st
  | [], _ => rfl
  | .lit s :: ws, st => by simp only [formatLoop, formatLoop_withCs L ws]
  | .expr e :: ws, st => by
    simp only [formatLoop, visitExpr_withCs, formatLoop_withCs L ws]; rfl
  | .generated r w :: ws, st => by
    simp only [formatLoop, formatLoop_withCs L ws]; rfl

theorem prepareFormat_withCs (g : Gen) : prepareFormat (withCs I cs) g = prepareFormat I g := by
  unfold prepareFormat; rw [formatLoop_withCs]

theorem writeBuf_withCs (g : Gen) : writeBuf (withCs I cs) g = writeBuf I g := by
  unfold writeBuf; rw [prepareFormat_withCs]

theorem flushIf_withCs (c : Bool) (g : Gen) : flushIf (withCs I cs) c g = flushIf I c g := by
  unfold flushIf; rw [writeBuf_withCs]

theorem flushWs_withCs (g : Gen) (ws : Ws) : flushWs (withCs I cs) g ws = flushWs I g ws := rfl

theorem prepareWs_withCs (g : Gen) (ws : Ws) : prepareWs (withCs I cs) g ws = prepareWs I g ws := rfl

theorem handleWs_withCs (g : Gen) (ws : Ws) : handleWs (withCs I cs) g ws = handleWs I g ws := rfl

theorem writeLet_withCs (g : Gen) (ws : Ws) (var : Target) (val : Option Expr) :
    writeLet (withCs I cs) g ws var val = writeLet I g ws var val := by
  unfold writeLet
  simp only [handleWs_withCs, writeBuf_withCs, visitExpr_withCs, flushIf_withCs]

theorem branchCond_withCs (g : Gen) (c : Option CondTest) : branchCond (withCs I cs) g c = branchCond I g c := by
  unfold branchCond
  simp only [visitExpr_withCs]

theorem loopFilter_withCs (g : Gen) (var : Target) (c : Option Expr) : loopFilter (withCs I cs) g var c = loopFilter I g var c := by
  unfold loopFilter
  simp only [visitExpr_withCs]

theorem passArg_withCs (L : Locals) (e : Expr) : passArg (withCs I cs) L e = passArg I L e := by
  unfold passArg
  simp only [visitExpr_withCs]

theorem bindParams_withCs (named : List (Str × Expr)) (args : List Expr) : (ps : List Str) → (k : Nat) → (b : Bool) →
    (L : Locals) → bindParams (withCs I cs) named args ps k b L = bindParams I named args ps k b L
  | [], _, _, _ => rfl
  | p :: ps, k, b, L => by
    simp only [bindParams, passArg_withCs, bindParams_withCs named args ps]

end

/-! ## Inheritance -/

theorem strip_extends {c c' : Ctx} (h : c.strip = c'.strip) : c.extends_ = c'.extends_ := (Ctx.mk.inj h).2.1

theorem strip_blocks {c c' : Ctx} (h : c.strip = c'.strip) : c.blocks = c'.blocks := (Ctx.mk.inj h).2.2.1

theorem strip_macros {c c' : Ctx} (h : c.strip = c'.strip) : c.macros = c'.macros := (Ctx.mk.inj h).2.2.2.1

theorem strip_imports {c c' : Ctx} (h : c.strip = c'.strip) : c.imports = c'.imports := (Ctx.mk.inj h).2.2.2.2

theorem mergeCtx_strip {c c' d d' : Ctx} (h : c.strip = c'.strip) (hd : d.strip = d'.strip) :
    (mergeCtx c d).strip = (mergeCtx c' d').strip := by
  unfold mergeCtx Ctx.strip
  rw [strip_extends h, strip_blocks h, strip_macros h, strip_imports h, strip_macros hd, strip_imports hd]

theorem addBlock_strip (ctx : Ctx) (m : List (Str × List (Ctx × BlockDefn))) (nd : Str × BlockDefn) :
    (match assoc (stripDefs m) nd.1 with
      | none => stripDefs m ++ [(nd.1, [(ctx.strip, nd.2)])]
      | some _ => (stripDefs m).map fun e => if e.1 = nd.1 then (e.1, e.2 ++ [(ctx.strip, nd.2)]) else e) =
    stripDefs (match assoc m nd.1 with
      | none => m ++ [(nd.1, [(ctx, nd.2)])]
      | some _ => m.map fun e => if e.1 = nd.1 then (e.1, e.2 ++ [(ctx, nd.2)]) else e) := by
  unfold stripDefs
  rw [assoc_onSnd]
  cases assoc m nd.1 with
  | none => simp only [Option.map]; rw [onSnd_append]; rfl
  | some d =>
    simp only [Option.map, onSnd, List.map_map]
    refine List.map_congr_left fun e _ => ?_
    simp only [Function.comp]
    split <;> simp

theorem addBlocks_strip (ctx : Ctx) (m : List (Str × List (Ctx × BlockDefn))) :
    addBlocks ctx.strip (stripDefs m) = stripDefs (addBlocks ctx m) := by
  unfold addBlocks
  rw [show ctx.strip.blocks = ctx.blocks from rfl]
  generalize ctx.blocks = bs
  induction bs generalizing m with
  | nil => rfl
  | cons b bs ih =>
    simp only [List.foldl_cons]
    exact (congrArg (fun x => List.foldl _ x bs) (addBlock_strip ctx m b)).trans (ih _)

theorem foldBlocks_strip : (chain : List Ctx) → (m : List (Str × List (Ctx × BlockDefn))) →
    (chain.map Ctx.strip).foldl (fun m c => addBlocks c m) (stripDefs m) =
      stripDefs (chain.foldl (fun m c => addBlocks c m) m)
  | [], _ => rfl
  | c :: chain, m => by
    simp only [List.map_cons, List.foldl_cons]
    rw [addBlocks_strip, foldBlocks_strip chain]

theorem heritageChain_outer {contexts cs : List (Str × Ctx)} (hcs : MoreCs contexts cs) : (fuel fuel' : Nat) → fuel ≤ fuel' →
    {c c' : Ctx} → c.strip = c'.strip → (c.extends_ = none → c.nodes = c'.nodes) → {chain : List Ctx} →
    heritageChain contexts fuel c = .ok chain →
    ∃ chain', heritageChain cs fuel' c' = .ok chain' ∧ chain'.map Ctx.strip = chain.map Ctx.strip
      ∧ (chain'.getLastD c').nodes = (chain.getLastD c).nodes ∧ (chain.getLastD c).extends_ = none ∧ chain ≠ [] ∧ chain' ≠ []
  | 0, _, _, _, _, _, _, _, h => by cases h
  | fuel + 1, 0, hf, _, _, _, _, _, _ => absurd hf (by omega)
  | fuel + 1, fuel' + 1, hf, c, c', hs, hn, chain, h => by
    unfold heritageChain at h ⊢
    rw [← strip_extends hs]
    cases he : c.extends_ with
    | none =>
      rw [he] at h
      cases h
      exact ⟨[c'], rfl, by simp [hs], (hn he).symm, he, by simp, by simp⟩
    | some path =>
      rw [he] at h
      dsimp only at h ⊢
      cases ha : assoc contexts path with
      | none => rw [ha] at h; cases h
      | some p =>
        rw [ha] at h
        obtain ⟨p', hp', hps, hpn⟩ := hcs.assoc path p ha
        obtain ⟨rest, h1, h⟩ := except_bind h
        cases h
        obtain ⟨rest', e1, e2, e3, e4, e5, e6⟩ := heritageChain_outer hcs fuel fuel' (by omega) hps hpn h1
        rw [hp']
        dsimp only
        rw [e1]
        refine ⟨c' :: rest', rfl, by simp [hs, e2], ?_, ?_, by simp, by simp⟩
        · cases rest with
          | nil => exact absurd rfl e5
          | cons r rest =>
            cases rest' with
            | nil => exact absurd rfl e6
            | cons r' rest' => simpa only [List.getLastD_cons] using e3
        · cases rest with
          | nil => exact absurd rfl e5
          | cons r rest => simpa only [List.getLastD_cons] using e4

theorem heritageNew_outer {contexts cs : List (Str × Ctx)} (hcs : MoreCs contexts cs) {c c' : Ctx} (hs : c.strip = c'.strip)
    (hn : c.extends_ = none → c.nodes = c'.nodes) {h : Heritage} (hh : heritageNew contexts c = .ok h) :
    ∃ h', heritageNew cs c' = .ok h' ∧ h'.strip = h.strip ∧ h'.root.nodes = h.root.nodes := by
  unfold heritageNew at hh ⊢
  obtain ⟨chain, h1, hh⟩ := except_bind hh
  cases hh
  obtain ⟨chain', e1, e2, e3, -, e5, e6⟩ := heritageChain_outer hcs _ (cs.length + 2) (by have := hcs.length; omega) hs hn h1
  rw [e1]
  refine ⟨_, rfl, ?_, e3⟩
  unfold Heritage.strip
  dsimp only
  congr 1
  · have : (chain'.map Ctx.strip).getLast? = (chain.map Ctx.strip).getLast? := by rw [e2]
    rw [List.getLast?_map, List.getLast?_map] at this
    rw [List.getLastD_eq_getLast?, List.getLastD_eq_getLast?]
    cases h1 : chain'.getLast? with
    | none => exact absurd (List.getLast?_eq_none_iff.mp h1) e6
    | some x =>
      cases h2 : chain.getLast? with
      | none => exact absurd (List.getLast?_eq_none_iff.mp h2) e5
      | some y =>
        rw [h1, h2] at this
        exact Option.some.inj this
  · rw [← foldBlocks_strip, ← foldBlocks_strip, e2]

theorem includeHeritage_outer {I : GenInput} {cs : List (Str × Ctx)} (hcs : MoreCs I.contexts cs) {c c' : Ctx} (hs : c.strip = c'.strip)
    (hn : c.extends_ = none → c.nodes = c'.nodes) {H : Option Heritage} (h : includeHeritage I c = .ok H) :
    ∃ H', includeHeritage (withCs I cs) c' = .ok H' ∧ H'.map Heritage.strip = H.map Heritage.strip
      ∧ (match H' with | some h => h.root | none => c').nodes = (match H with | some h => h.root | none => c).nodes
      ∧ (match H' with | some h => h.root | none => c').strip = (match H with | some h => h.root | none => c).strip := by
  unfold includeHeritage at h ⊢
  rw [← strip_blocks hs, ← strip_extends hs]
  split at h
  · rename_i hc
    rw [if_pos hc]
    cases h1 : heritageNew I.contexts c with
    | error e => rw [h1] at h; cases h
    | ok hh =>
      rw [h1] at h
      cases h
      obtain ⟨h', e1, e2, e3⟩ := heritageNew_outer hcs hs hn h1
      rw [show (withCs I cs).contexts = cs from rfl, e1]
      refine ⟨_, rfl, congrArg some e2, e3, ?_⟩
      exact (Heritage.mk.inj e2).1
  · rename_i hc
    rw [if_neg hc]
    cases h
    have : c.extends_ = none := by cases hx : c.extends_ <;> simp_all
    exact ⟨none, rfl, rfl, (hn this).symm, hs.symm⟩

/-! ## Nodes -/

/-- The second handler does the same with templates that have the same definitions, unless the first fails. -/
def SameDone (rec rec' : Handler) : Prop :=
  ∀ H H' ctx ctx' ns level g, H'.map Heritage.strip = H.map Heritage.strip → ctx.strip = ctx'.strip →
    OrFails (rec H ctx ns level g) (rec' H' ctx' ns level g)

section
variable {rec rec' : Handler} (h : SameDone rec rec') (I : GenInput) {cs : List (Str × Ctx)} {H H' : Option Heritage}
  (hH : H'.map Heritage.strip = H.map Heritage.strip) {ctx ctx' : Ctx} (hc : ctx.strip = ctx'.strip)
include h hH hc

theorem ifBranches_outer (ws : Ws) : (first : Bool) → (bs : List Cond) → (g : Gen) →
    OrFails (ifBranches rec I H ctx ws first bs g) (ifBranches rec' (withCs I cs) H' ctx' ws first bs g)
  | _, [], _ => .refl _
  | first, .mk w cond nodes :: rest, g => by
    unfold ifBranches
    simp only [branchCond_withCs, writeBuf_withCs, handleWs_withCs]
    refine (OrFails.refl _).bind fun g => (OrFails.refl _).bind fun r => ?_
    obtain ⟨c, g⟩ := r
    refine (h _ _ _ _ _ _ _ hH hc).bind fun r => ?_
    obtain ⟨body, g⟩ := r
    cases rest with
    | nil => exact .refl _
    | cons c rest =>
      obtain ⟨w', c', n'⟩ := c
      refine (OrFails.refl _).bind fun r => ?_
      obtain ⟨fl, g⟩ := r
      refine (ifBranches_outer ws _ _ _).bind fun _ => .refl _

theorem matchArms_outer (ws : Ws) : (arms : List When) → (g : Gen) →
    OrFails (matchArms rec I H ctx ws arms g) (matchArms rec' (withCs I cs) H' ctx' ws arms g)
  | [], _ => .refl _
  | .mk w t nodes :: rest, g => by
    unfold matchArms
    simp only [writeBuf_withCs, handleWs_withCs]
    refine (h _ _ _ _ _ _ _ hH hc).bind fun r => ?_
    obtain ⟨body, g⟩ := r
    refine (OrFails.refl _).bind fun r => ?_
    obtain ⟨fl, g⟩ := r
    refine (OrFails.refl _).bind fun g => ?_
    exact (matchArms_outer ws rest _).bind fun _ => .refl _

theorem writeBlock_outer (g : Gen) (name : Option Str) (outer : Ws) :
    OrFails (writeBlock rec I H ctx g name outer) (writeBlock rec' (withCs I cs) H' ctx' g name outer) := by
  unfold writeBlock
  simp only [writeBuf_withCs, flushWs_withCs, prepareWs_withCs, flushIf_withCs]
  refine (OrFails.refl _).bind fun cur => (OrFails.refl _).bind fun r => ?_
  obtain ⟨pre, g⟩ := r
  cases H with
  | none => exact .inl ⟨_, rfl⟩
  | some hh =>
    cases H' with
    | none => cases hH
    | some hh' =>
      have hb : stripDefs hh'.blocks = stripDefs hh.blocks := (Heritage.mk.inj (Option.some.inj hH)).2
      dsimp only
      have ha := congrArg (assoc · cur.1) hb
      simp only [stripDefs, assoc_onSnd] at ha
      cases h1 : assoc hh.blocks cur.1 with
      | none => exact .inl ⟨_, rfl⟩
      | some defs =>
        rw [h1] at ha
        cases h2 : assoc hh'.blocks cur.1 with
        | none => rw [h2] at ha; cases ha
        | some defs' =>
          rw [h2] at ha
          have hd : defs'.map (fun e => (e.1.strip, e.2)) = defs.map (fun e => (e.1.strip, e.2)) := Option.some.inj ha
          have hx := congrArg (·[cur.2]?) hd
          simp only [List.getElem?_map] at hx
          dsimp only
          cases h3 : defs[cur.2]? with
          | none => exact .inl ⟨_, rfl⟩
          | some d =>
            rw [h3] at hx
            cases h4 : defs'[cur.2]? with
            | none => rw [h4] at hx; cases hx
            | some d' =>
              rw [h4] at hx
              obtain ⟨c1, d⟩ := d
              obtain ⟨c2, d'⟩ := d'
              have hp := Prod.mk.inj (Option.some.inj hx)
              have hd : d' = d := hp.2
              subst hd
              exact (h _ _ _ _ _ _ _ hH (mergeCtx_strip hp.1.symm hc)).bind fun _ => .refl _

theorem writeCall_outer (hcs : MoreCs I.contexts cs) (g : Gen) (ws : Ws) (scope : Option Str) (name : Str) (args : List Expr) :
    OrFails (writeCall rec I H ctx g ws scope name args) (writeCall rec' (withCs I cs) H' ctx' g ws scope name args) := by
  have hf : (∃ e, findMacro I ctx scope name = .error e) ∨ ∃ d own own', findMacro I ctx scope name = .ok (d, own)
      ∧ findMacro (withCs I cs) ctx' scope name = .ok (d, own') ∧ own.strip = own'.strip := by
    unfold findMacro
    cases scope with
    | none =>
      dsimp only
      rw [← strip_macros hc]
      cases assoc ctx.macros name with
      | none => exact .inl ⟨_, rfl⟩
      | some d => exact .inr ⟨d, ctx, ctx', rfl, rfl, hc⟩
    | some s =>
      dsimp only
      rw [← strip_imports hc]
      cases assoc ctx.imports s with
      | none => exact .inl ⟨_, rfl⟩
      | some path =>
        dsimp only
        cases ha : assoc I.contexts path with
        | none => exact .inl ⟨_, rfl⟩
        | some m =>
          obtain ⟨m', e1, e2, -⟩ := hcs.assoc path m ha
          rw [show (withCs I cs).contexts = cs from rfl, e1]
          dsimp only
          rw [← strip_macros e2]
          cases assoc m.macros name with
          | none => exact .inl ⟨_, rfl⟩
          | some d => exact .inr ⟨d, m, m', rfl, rfl, e2⟩
  unfold writeCall
  rcases hf with ⟨e, hf⟩ | ⟨d, own, own', h1, h2, hs⟩
  · rw [hf]; exact .inl ⟨e, rfl⟩
  · rw [h1, h2]
    simp only [writeBuf_withCs, flushWs_withCs, prepareWs_withCs, bindParams_withCs, bind, Except.bind]
    refine OrFails.bind (.refl _) fun r => OrFails.ite (.refl _) ?_
    exact OrFails.bind (.refl _) fun _ => OrFails.bind (.refl _) fun _ => (h _ _ _ _ _ _ _ hH hs).bind fun _ => .refl _

omit hH in
theorem handleInclude_outer (hcs : MoreCs I.contexts cs) (g : Gen) (ws : Ws) (path : Str) :
    OrFails (handleInclude rec I ctx g ws path) (handleInclude rec' (withCs I cs) ctx' g ws path) := by
  unfold handleInclude
  simp only [writeBuf_withCs, flushWs_withCs, prepareWs_withCs]
  refine (OrFails.refl _).bind fun r => ?_
  obtain ⟨pre, g⟩ := r
  dsimp only
  rw [show (withCs I cs).find = I.find from rfl]
  cases I.find path with
  | none => exact .inl ⟨_, rfl⟩
  | some p =>
    dsimp only
    cases ha : assoc I.contexts p with
    | none => exact .inl ⟨_, rfl⟩
    | some c =>
      obtain ⟨c', e1, e2, e3⟩ := hcs.assoc p c ha
      rw [show (withCs I cs).contexts = cs from rfl, e1]
      dsimp only
      cases hi : includeHeritage I (mergeCtx c ctx) with
      | error e => exact .inl ⟨e, rfl⟩
      | ok K =>
        obtain ⟨K', k1, k2, k3, k4⟩ := includeHeritage_outer hcs (mergeCtx_strip e2 hc) e3 hi
        rw [k1]
        cases K with
        | none =>
          cases K' with
          | some x => cases k2
          | none =>
            dsimp only at k3 k4
            simp only [bind, Except.bind]
            rw [k3]
            exact (h _ _ _ _ _ _ _ k2 k4.symm).bind fun _ => .refl _
        | some y =>
          cases K' with
          | none => cases k2
          | some x =>
            dsimp only at k3 k4
            simp only [bind, Except.bind]
            rw [k3]
            exact (h _ _ _ _ _ _ _ k2 k4.symm).bind fun _ => .refl _

theorem handleNode_outer (hcs : MoreCs I.contexts cs) (level : Level) (g : Gen) (n : Node) :
    OrFails (handleNode rec I H ctx level g n) (handleNode rec' (withCs I cs) H' ctx' level g n) := by
  cases n with
  | if_ ws bs =>
    simp only [handleNode]
    cases bs with
    | nil => exact .refl _
    | cons b bs =>
      obtain ⟨w, c, ns⟩ := b
      simp only [writeIf, writeBuf_withCs, handleWs_withCs]
      refine (OrFails.refl _).bind fun r => ?_
      exact (ifBranches_outer h I hH hc _ _ _ _).bind fun _ => .refl _
  | match_ ws1 e arms ws2 =>
    simp only [handleNode]
    cases arms with
    | nil => exact .refl _
    | cons b bs =>
      obtain ⟨w, c, ns⟩ := b
      simp only [writeMatch, writeBuf_withCs, handleWs_withCs, flushWs_withCs, visitExpr_withCs]
      refine (OrFails.refl _).bind fun r => (OrFails.refl _).bind fun r' => ?_
      exact (matchArms_outer h I hH hc _ _ _).bind fun _ => .refl _
  | loop ws1 t iter cond body ws2 els ws3 =>
    simp only [handleNode]
    unfold writeLoop
    simp only [writeBuf_withCs, handleWs_withCs, visitExpr_withCs, loopFilter_withCs]
    refine (OrFails.refl _).bind fun _ => (OrFails.refl _).bind fun _ => (OrFails.refl _).bind fun _ =>
      (h _ _ _ _ _ _ _ hH hc).bind fun _ => (OrFails.refl _).bind fun _ => (OrFails.refl _).bind fun _ => ?_
    refine OrFails.ite ((h _ _ _ _ _ _ _ hH hc).bind fun _ => .refl _) (.refl _)
  | blockDef => exact writeBlock_outer h I hH hc ..
  | «include» ws path => exact handleInclude_outer h I hc hcs ..
  | call ws scope name args =>
    simp only [handleNode]
    exact OrFails.ite (writeBlock_outer h I hH hc ..) (writeCall_outer h I hH hc hcs ..)
  | filterBlock ws1 f ns ws2 =>
    simp only [handleNode]
    unfold writeFilterBlock
    simp only [prepareFormat_withCs, flushWs_withCs, prepareWs_withCs, visitExpr_withCs]
    exact (h _ _ _ _ _ _ _ hH hc).bind fun _ => .refl _
  | let_ => simp only [handleNode, writeLet_withCs]; exact .refl _
  | break_ => simp only [handleNode, writeBuf_withCs, handleWs_withCs]; exact .refl _
  | continue_ => simp only [handleNode, writeBuf_withCs, handleWs_withCs]; exact .refl _
  | _ => exact .refl _

theorem handleNodes_outer (hcs : MoreCs I.contexts cs) (level : Level) : (ns : List Node) → (g : Gen) →
    OrFails (handleNodes rec I H ctx level ns g) (handleNodes rec' (withCs I cs) H' ctx' level ns g)
  | [], _ => .refl _
  | n :: ns, g => by
    unfold handleNodes
    refine (handleNode_outer h I hH hc hcs level g n).bind fun r => ?_
    exact (handleNodes_outer hcs level ns _).bind fun _ => .refl _

end

theorem handle_outer {I : GenInput} {cs : List (Str × Ctx)} (hcs : MoreCs I.contexts cs) : (fuel : Nat) →
    SameDone (handle I fuel) (handle (withCs I cs) fuel)
  | 0 => fun _ _ _ _ _ _ _ _ _ => .inl ⟨_, rfl⟩
  | fuel + 1 => fun H H' ctx ctx' ns level g hH hc => by
    have he : ∀ g, handleEnd (withCs I cs) level g = handleEnd I level g := by
      intro g; unfold handleEnd; simp only [flushWs_withCs, writeBuf_withCs]
    unfold handle
    simp only [he]
    exact (handleNodes_outer (handle_outer hcs fuel) I hH hc hcs level ns g).bind fun _ => .refl _

theorem generate_outer {I : GenInput} {cs : List (Str × Ctx)} (hcs : MoreCs I.contexts cs) (fuel : Nat) {H H' : Option Heritage}
    (hH : H'.map Heritage.strip = H.map Heritage.strip) {ctx ctx' : Ctx}
    (hn : (match H' with | some h => h.root | none => ctx').nodes = (match H with | some h => h.root | none => ctx).nodes)
    (hs : (match H' with | some h => h.root | none => ctx').strip = (match H with | some h => h.root | none => ctx).strip) :
    OrFails (generate I fuel H ctx) (generate (withCs I cs) fuel H' ctx') := by
  unfold generate
  cases H with
  | none =>
    cases H' with
    | some x => cases hH
    | none =>
      dsimp only at hn hs ⊢
      rw [hn]
      exact (handle_outer hcs fuel _ _ _ _ _ _ _ hH hs.symm).bind fun _ => .refl _
  | some y =>
    cases H' with
    | none => cases hH
    | some x =>
      dsimp only at hn hs ⊢
      rw [hn]
      exact (handle_outer hcs fuel _ _ _ _ _ _ _ hH hs.symm).bind fun _ => .refl _

/-! ## Contexts -/

theorem partsC_all {q : Node → Bool} : {cs : List Cond} → (partsC cs).all q = true → ∀ l ∈ cs.map Cond.nodes, (partsL l).all q = true
  | [], _, _, hl => by cases hl
  | .mk _ _ ns :: cs, h, l, hl => by
    simp only [partsC, List.all_append, Bool.and_eq_true] at h
    rw [List.map_cons, List.mem_cons] at hl
    rcases hl with rfl | hl
    · exact h.1
    · exact partsC_all h.2 l hl

theorem partsW_all {q : Node → Bool} : {cs : List When} → (partsW cs).all q = true → ∀ l ∈ cs.map When.nodes, (partsL l).all q = true
  | [], _, _, hl => by cases hl
  | .mk _ _ ns :: cs, h, l, hl => by
    simp only [partsW, List.all_append, Bool.and_eq_true] at h
    rw [List.map_cons, List.mem_cons] at hl
    rcases hl with rfl | hl
    · exact h.1
    · exact partsW_all h.2 l hl

theorem partsL_idle : {l : List Node} → (partsL l).all (fun m => !defines m) = true → l.filter (fun n => !idle n) = []
  | [], _ => rfl
  | n :: l, h => by
    simp only [partsL, List.all_append, Bool.and_eq_true] at h
    rw [List.filter_cons_of_neg (by simp [idle, h.1]), partsL_idle h.2]

/-- A node that defines nothing is passed over, but for the nodes inside, which define nothing either. -/
theorem ctxNode_idle {find : Str → Option Str} {top : Bool} {st st' : CtxSt} {n : Node} (h : idle n = true)
    (hr : ctxNode find top st n = .ok st') :
    ∃ K, st' = { st with nested := K ++ st.nested } ∧ ∀ l ∈ K, l.filter (fun n => !idle n) = [] := by
  have key : defines n = false ∧ ∀ l ∈ ctxNested n, l.filter (fun n => !idle n) = [] := by
    unfold idle at h
    cases n with
    | if_ ws bs =>
      simp only [parts, List.all_cons, Bool.and_eq_true] at h
      exact ⟨rfl, fun l hl => partsL_idle (partsC_all h.2 l (List.mem_reverse.mp hl))⟩
    | match_ ws1 e arms ws2 =>
      simp only [parts, List.all_cons, Bool.and_eq_true] at h
      exact ⟨rfl, fun l hl => partsL_idle (partsW_all h.2 l (List.mem_reverse.mp hl))⟩
    | loop ws1 v i c body ws2 els ws3 =>
      simp only [parts, List.all_cons, List.all_append, Bool.and_eq_true] at h
      refine ⟨rfl, fun l hl => ?_⟩
      rcases List.mem_cons.mp hl with rfl | hl
      · exact partsL_idle h.2.2
      · rcases List.mem_cons.mp hl with rfl | hl
        · exact partsL_idle h.2.1
        · cases hl
    | blockDef => simp [parts, defines] at h
    | «macro» => simp [parts, defines] at h
    | import_ => simp [parts, defines] at h
    | extends_ => simp [parts, defines] at h
    | _ => exact ⟨rfl, fun l hl => by cases hl⟩
  refine ⟨ctxNested n, ?_, key.2⟩
  have hd := key.1
  cases n <;> first | (simp only [defines, reduceCtorEq] at hd; done) | (cases hr; rfl)

/-- Two stacks of lists of nodes, the same but for nodes that define nothing. -/
inductive SameStack : List (List Node) → List (List Node) → Prop where
  | nil : SameStack [] []
  | both {l l' : List Node} {s s' : List (List Node)} (h : l.filter (fun n => !idle n) = l'.filter (fun n => !idle n))
      (hs : SameStack s s') : SameStack (l :: s) (l' :: s')
  | left {l : List Node} {s s' : List (List Node)} (h : l.filter (fun n => !idle n) = []) (hs : SameStack s s') :
      SameStack (l :: s) s'
  | right {l' : List Node} {s s' : List (List Node)} (h : l'.filter (fun n => !idle n) = []) (hs : SameStack s s') :
      SameStack s (l' :: s')

theorem SameStack.push {s s' : List (List Node)} (h : SameStack s s') : (K : List (List Node)) → SameStack (K ++ s) (K ++ s')
  | [] => h
  | _ :: K => .both rfl (h.push K)

theorem SameStack.pushLeft {s s' : List (List Node)} (h : SameStack s s') : (K : List (List Node)) →
    (∀ l ∈ K, l.filter (fun n => !idle n) = []) → SameStack (K ++ s) s'
  | [], _ => h
  | l :: K, hK => .left (hK l (by simp)) (h.pushLeft K fun l hl => hK l (by simp [hl]))

theorem SameStack.pushRight {s s' : List (List Node)} (h : SameStack s s') : (K : List (List Node)) →
    (∀ l ∈ K, l.filter (fun n => !idle n) = []) → SameStack s (K ++ s')
  | [], _ => h
  | l :: K, hK => .right (hK l (by simp)) (h.pushRight K fun l hl => hK l (by simp [hl]))

/-- The same definitions so far. -/
structure SameSt (a b : CtxSt) : Prop where
  extends_ : a.extends_ = b.extends_
  blocks : a.blocks = b.blocks
  macros : a.macros = b.macros
  imports : a.imports = b.imports
  nested : SameStack a.nested b.nested

theorem ctxNode_same {find : Str → Option Str} {top : Bool} {st st1 r r1 : CtxSt} {n : Node} (h : ctxNode find top st n = .ok r)
    (h1 : ctxNode find top st1 n = .ok r1) (hs : SameSt st st1) : SameSt r r1 := by
  obtain ⟨e1, e2, e3, e4, e5⟩ := hs
  obtain ⟨ex, bl, ma, im, ne⟩ := st
  obtain ⟨ex', bl', ma', im', ne'⟩ := st1
  dsimp only at e1 e2 e3 e4 e5
  subst e1 e2 e3 e4
  cases n with
  | extends_ p =>
    simp only [ctxNode] at h h1
    cases top with
    | false => cases h
    | true =>
      cases ex with
      | some _ => cases h
      | none =>
        cases hf : find p with
        | none => rw [hf] at h; cases h
        | some q =>
          rw [hf] at h h1
          cases h; cases h1
          exact ⟨rfl, rfl, rfl, rfl, e5⟩
  | «macro» ws1 name args nodes ws2 =>
    simp only [ctxNode] at h h1
    cases top with
    | false => cases h
    | true => cases h; cases h1; exact ⟨rfl, rfl, rfl, rfl, e5⟩
  | import_ w p s =>
    simp only [ctxNode] at h h1
    cases top with
    | false => cases h
    | true =>
      cases hf : find p with
      | none => rw [hf] at h; cases h
      | some q =>
        rw [hf] at h h1
        cases h; cases h1
        exact ⟨rfl, rfl, rfl, rfl, e5⟩
  | blockDef => cases h; cases h1; exact ⟨rfl, rfl, rfl, rfl, e5.push _⟩
  | _ => cases h; cases h1; exact ⟨rfl, rfl, rfl, rfl, e5.push _⟩

theorem ctxNodes_same {find : Str → Option Str} {top : Bool} : (ns ns1 : List Node) → {st st1 r r1 : CtxSt} →
    ns.filter (fun n => !idle n) = ns1.filter (fun n => !idle n) → ctxNodes find top ns st = .ok r →
    ctxNodes find top ns1 st1 = .ok r1 → SameSt st st1 → SameSt r r1
  | [], [], _, _, _, _, _, h, h1, hs => by cases h; cases h1; exact hs
  | n :: ns, ns1, st, st1, r, r1, hf, h, h1, hs => by
    cases hi : idle n with
    | true =>
      rw [List.filter_cons_of_neg (by simp [hi])] at hf
      unfold ctxNodes at h
      obtain ⟨st2, h2, h⟩ := except_bind h
      obtain ⟨K, rfl, hK⟩ := ctxNode_idle hi h2
      exact ctxNodes_same ns ns1 hf h h1 ⟨hs.extends_, hs.blocks, hs.macros, hs.imports, hs.nested.pushLeft K hK⟩
    | false =>
      cases ns1 with
      | nil => rw [List.filter_cons_of_pos (by simp [hi])] at hf; cases hf
      | cons n1 ns1 =>
        cases hi1 : idle n1 with
        | true =>
          rw [List.filter_cons_of_neg (a := n1) (by simp [hi1])] at hf
          unfold ctxNodes at h1
          obtain ⟨st2, h2, h1⟩ := except_bind h1
          obtain ⟨K, rfl, hK⟩ := ctxNode_idle hi1 h2
          exact ctxNodes_same (n :: ns) ns1 hf h h1 ⟨hs.extends_, hs.blocks, hs.macros, hs.imports, hs.nested.pushRight K hK⟩
        | false =>
          rw [List.filter_cons_of_pos (by simp [hi]), List.filter_cons_of_pos (by simp [hi1])] at hf
          obtain ⟨hnn, hff⟩ := List.cons.inj hf
          subst hnn
          unfold ctxNodes at h h1
          obtain ⟨st2, h2, h⟩ := except_bind h
          obtain ⟨st3, h3, h1⟩ := except_bind h1
          exact ctxNodes_same ns ns1 hff h h1 (ctxNode_same h2 h3 hs)
  | [], n1 :: ns1, st, st1, r, r1, hf, h, h1, hs => by
    cases hi1 : idle n1 with
    | true =>
      rw [List.filter_cons_of_neg (a := n1) (by simp [hi1])] at hf
      unfold ctxNodes at h1
      obtain ⟨st2, h2, h1⟩ := except_bind h1
      obtain ⟨K, rfl, hK⟩ := ctxNode_idle hi1 h2
      exact ctxNodes_same [] ns1 hf h h1 ⟨hs.extends_, hs.blocks, hs.macros, hs.imports, hs.nested.pushRight K hK⟩
    | false => rw [List.filter_cons_of_pos (a := n1) (by simp [hi1])] at hf; cases hf
  termination_by ns ns1 => ns.length + ns1.length

theorem ctxLoop_step {find : Str → Option Str} {fuel : Nat} {top : Bool} {st r : CtxSt} {l : List Node} {s : List (List Node)}
    (hn : st.nested = l :: s) (h : ctxLoop find fuel top st = .ok r) :
    ∃ f st1, fuel = f + 1 ∧ ctxNodes find top l { st with nested := s } = .ok st1 ∧ ctxLoop find f false st1 = .ok r := by
  unfold ctxLoop at h
  rw [hn] at h
  cases fuel with
  | zero => cases h
  | succ f =>
    dsimp only at h
    obtain ⟨st1, h1, h⟩ := except_bind h
    exact ⟨f, st1, rfl, h1, h⟩

theorem ctxLoop_same {find : Str → Option Str} (fuel fuel' : Nat) {st st1 r r1 : CtxSt} (hs : SameSt st st1)
    (h : ctxLoop find fuel false st = .ok r) (h1 : ctxLoop find fuel' false st1 = .ok r1) : SameSt r r1 := by
  have hn := hs.nested
  generalize ha : st.nested = a at hn
  generalize hb : st1.nested = b at hn
  cases hn with
  | nil =>
    unfold ctxLoop at h h1
    rw [ha] at h
    rw [hb] at h1
    cases h; cases h1
    exact hs
  | both hf hn =>
    obtain ⟨f, st2, rfl, k1, h⟩ := ctxLoop_step ha h
    obtain ⟨f', st3, rfl, k2, h1⟩ := ctxLoop_step hb h1
    exact ctxLoop_same f f' (ctxNodes_same _ _ hf k1 k2 ⟨hs.extends_, hs.blocks, hs.macros, hs.imports, hn⟩) h h1
  | left hf hn =>
    obtain ⟨f, st2, rfl, k1, h⟩ := ctxLoop_step ha h
    exact ctxLoop_same f fuel' (ctxNodes_same _ [] hf k1 rfl ⟨hs.extends_, hs.blocks, hs.macros, hs.imports, by rw [hb]; exact hn⟩) h h1
  | right hf hn =>
    obtain ⟨f', st3, rfl, k2, h1⟩ := ctxLoop_step hb h1
    exact ctxLoop_same fuel f' (ctxNodes_same [] _ hf.symm rfl k2 ⟨hs.extends_, hs.blocks, hs.macros, hs.imports, by rw [ha]; exact hn⟩) h h1
  termination_by fuel + fuel'

/-- Two versions of a template define the same things. -/
theorem contextNew_sameInside {find : Str → Option Str} {x y : Ctx} (hx : contextNew find x.nodes = .ok x)
    (hy : contextNew find y.nodes = .ok y) (h : SameInside x.nodes y.nodes) :
    x.strip = y.strip ∧ (x.extends_ = none → x.nodes = y.nodes) := by
  rcases h with h | ⟨⟨p, hp⟩, h⟩
  · rw [h, hy] at hx
    cases hx
    exact ⟨rfl, fun _ => rfl⟩
  · unfold contextNew at hx hy
    obtain ⟨st, h1, hx⟩ := except_bind hx
    obtain ⟨st', h2, hy⟩ := except_bind hy
    have ex := (Except.ok.inj hx).symm
    have ey := (Except.ok.inj hy).symm
    refine ⟨?_, fun he => ?_⟩
    · obtain ⟨f, s1, -, k1, k2⟩ := ctxLoop_step rfl h1
      obtain ⟨f', s2, -, k3, k4⟩ := ctxLoop_step rfl h2
      have hs := ctxLoop_same _ _ (ctxNodes_same _ _ h k1 k3 ⟨rfl, rfl, rfl, rfl, .nil⟩) k2 k4
      rw [ex, ey]
      unfold Ctx.strip
      dsimp only
      rw [hs.extends_, hs.blocks, hs.macros, hs.imports]
    · have hst : st.extends_ = none := by rw [← he]; exact congrArg Ctx.extends_ (Except.ok.inj hx)
      exact absurd hp ((ctxLoop_extends _ h1 hst).2 _ _ rfl p)

theorem dedupKeys_nodup {α : Type} : (m : List (Str × α)) → (seen : List Str) →
    ((dedupKeys m seen).map (·.1)).Nodup ∧ ∀ k ∈ (dedupKeys m seen).map (·.1), k ∉ seen
  | [], _ => ⟨List.nodup_nil, by simp [dedupKeys]⟩
  | (k, v) :: m, seen => by
    unfold dedupKeys
    split
    · exact dedupKeys_nodup m seen
    · rename_i hk
      obtain ⟨h1, h2⟩ := dedupKeys_nodup m (k :: seen)
      refine ⟨?_, ?_⟩
      · rw [List.map_cons, List.nodup_cons]
        exact ⟨fun h => h2 k h (by simp), h1⟩
      · intro q hq
        rw [List.map_cons, List.mem_cons] at hq
        rcases hq with rfl | hq
        · simpa using hk
        · exact fun h => h2 q hq (by simp [h])

theorem heritageOf_outer {contexts cs : List (Str × Ctx)} (hcs : MoreCs contexts cs) {block : Option Str} {c c' : Ctx}
    (hs : c.strip = c'.strip) (hn : c.extends_ = none → c.nodes = c'.nodes) {H : Option Heritage}
    (h : heritageOf contexts block c = .ok H) :
    ∃ H', heritageOf cs block c' = .ok H' ∧ H'.map Heritage.strip = H.map Heritage.strip
      ∧ (match H' with | some h => h.root | none => c').nodes = (match H with | some h => h.root | none => c).nodes
      ∧ (match H' with | some h => h.root | none => c').strip = (match H with | some h => h.root | none => c).strip := by
  unfold heritageOf at h ⊢
  rw [← strip_blocks hs, ← strip_extends hs]
  split at h
  · rename_i hc
    rw [if_pos hc]
    obtain ⟨hh, h1, h⟩ := except_bind h
    obtain ⟨h', e1, e2, e3⟩ := heritageNew_outer hcs hs hn h1
    have e4 : h'.root.strip = hh.root.strip := (Heritage.mk.inj e2).1
    rw [e1]
    cases block with
    | none =>
      cases h
      exact ⟨_, rfl, congrArg some e2, e3, e4⟩
    | some b =>
      have hb := congrArg (assoc · b) (Heritage.mk.inj e2).2
      simp only [stripDefs, assoc_onSnd] at hb
      have hb' := congrArg Option.isNone hb
      rw [Option.isNone_map, Option.isNone_map] at hb'
      dsimp only [bind, Except.bind] at h ⊢
      rw [hb']
      split at h
      · cases h
      · rename_i hnone
        rw [if_neg hnone]
        cases h
        exact ⟨_, rfl, congrArg some e2, e3, e4⟩
  · rename_i hc
    rw [if_neg hc]
    cases h
    have : c.extends_ = none := by cases hx : c.extends_ <;> simp_all
    exact ⟨none, rfl, rfl, (hn this).symm, hs.symm⟩

/-- What there is when a template is loaded. -/
theorem load_parts {env : DeriveEnv} {c : Config} {ident : Str} {args : TemplateArgs} {fuel : Nat} {w : Whole}
    (h : load env c ident args fuel = some w) :
    ∃ t, TemplateInput.new env.files env.guess c ident args = .ok t ∧ w.input = genInput env c t w.input.contexts ∧ assoc w.input.contexts t.path = some w.ctx
      ∧ (w.input.contexts.map (·.1)).Nodup
      ∧ (∀ p x, assoc w.input.contexts p = some x → contextNew ((env.loader c t.syn).find p) x.nodes = .ok x)
      ∧ buildTemplate env c ident args fuel = (heritageOf w.input.contexts t.block w.ctx).bind fun H => generate w.input fuel H w.ctx := by
  unfold load at h
  unfold buildTemplate
  cases h1 : TemplateInput.new env.files env.guess c ident args with
  | error e => rw [h1] at h; cases h
  | ok t =>
    rw [h1] at h
    dsimp only at h
    cases h2 : mainSource env t with
    | error e => rw [h2] at h; cases h
    | ok src =>
      rw [h2] at h
      dsimp only at h
      cases h3 : findUsedTemplates (env.loader c t.syn) fuel t.path src with
      | error e => rw [h3] at h; cases h
      | ok m =>
        rw [h3] at h
        dsimp only at h
        cases h4 : makeContexts (env.loader c t.syn).find (dedupKeys m []) with
        | error e => rw [h4] at h; cases h
        | ok contexts =>
          rw [h4] at h
          dsimp only at h
          cases h5 : assoc contexts t.path with
          | none => rw [h5] at h; cases h
          | some ctx =>
            rw [h5] at h
            cases h6 : chainOf contexts ctx with
            | none => simp only [Option.bind_some, h6] at h; cases h
            | some chain =>
              simp only [Option.bind_some, h6, Option.map_some] at h
              cases h
              refine ⟨t, rfl, rfl, h5, ?_, ?_, ?_⟩
              · show (contexts.map (·.1)).Nodup
                rw [makeContexts_keys h4]
                exact (dedupKeys_nodup m []).1
              · intro p x hp
                obtain ⟨nodes, -, h7⟩ := makeContexts_assoc h4 hp
                rw [(contextNew_refs h7).2]
                exact h7
              · simp only [h2, h3, h4, h5, bind, Except.bind, genInput]

end Askama
