import Verif.Spec.Layout
import Verif.Lemmas.GenMain
import Verif.Lemmas.Woven
import Verif.Lemmas.Core

/-! The generated code writes a text that is laid out as the template says, whatever the values are. -/

namespace Askama

open Askama.Spec Askama.Gen

variable {U : Type}

section

variable (W : World U) (I : GenInput)

/-- A text that one piece of pending output can become. -/
def WritT (w : Writable) (s : Str) : Prop := ∃ L ρ, wText W I L ρ w = some s

/-- A text that pending output can become. -/
def PendT : List Writable → Str → Prop
  | [], s => s = []
  | w :: ws, s => ∃ a b, s = a ++ b ∧ WritT W I w a ∧ PendT ws b

/-- A text that is written if output is written now and `nl` is asked for on the left. -/
def pendP (nl : Option WH) (g : Gen) (a : Str) : Prop := ∃ b, PendT W I g.pend b ∧ a = b ++ wsTail nl g

variable {W I}

theorem PendT_append {x y : List Writable} : {s : Str} → PendT W I (x ++ y) s ↔ ∃ a b, s = a ++ b ∧ PendT W I x a ∧ PendT W I y b := by
  induction x with
  | nil =>
    intro s
    constructor
    · intro h; exact ⟨[], s, rfl, rfl, h⟩
    · rintro ⟨a, b, rfl, rfl, h⟩; exact h
  | cons w x ih =>
    intro s
    constructor
    · rintro ⟨a, b, rfl, hw, h⟩
      obtain ⟨c, d, rfl, hx, hy⟩ := ih.mp h
      exact ⟨a ++ c, d, by simp, ⟨a, c, rfl, hw, hx⟩, hy⟩
    · rintro ⟨a, b, rfl, ⟨c, d, rfl, hw, hx⟩, hy⟩
      exact ⟨c, d ++ b, by simp, hw, ih.mpr ⟨d, b, rfl, hx, hy⟩⟩

theorem PendT_lits {out : List Str} : {s : Str} → PendT W I (out.map .lit) s ↔ s = out.flatten := by
  induction out with
  | nil => intro s; exact Iff.rfl
  | cons x out ih =>
    intro s
    constructor
    · rintro ⟨a, b, rfl, ⟨L, ρ, hw⟩, h⟩
      rw [ih.mp h]
      simp only [wText, Option.some.injEq] at hw
      rw [hw]; rfl
    · rintro rfl
      exact ⟨x, out.flatten, rfl, ⟨.empty, ⟨[], none, false, []⟩, rfl⟩, ih.mpr rfl⟩

theorem PendT_single {w : Writable} {s : Str} (h : PendT W I [w] s) : WritT W I w s := by
  obtain ⟨a, b, rfl, hw, rfl⟩ := h
  rw [List.append_nil]; exact hw

theorem PendT_ojoin {L : Locals} {ρ : REnv U} {pend : List Writable} :
    {s : Str} → ojoin (pend.map (wText W I L ρ)) = some s → PendT W I pend s := by
  induction pend with
  | nil => intro s h; simpa [ojoin, PendT, eq_comm] using h
  | cons w pend ih =>
    intro s h
    simp only [List.map_cons, ojoin] at h
    cases hw : wText W I L ρ w with
    | none => rw [hw] at h; simp [oapp] at h
    | some a =>
      cases hr : ojoin (pend.map (wText W I L ρ)) with
      | none => rw [hw, hr] at h; simp [oapp] at h
      | some b =>
        rw [hw, hr] at h
        simp only [oapp, Option.bind_some, Option.map_some, Option.some.injEq] at h
        exact ⟨a, b, h.symm, ⟨L, ρ, hw⟩, ih hr⟩

/-- Writing pending output. -/
theorem writeBuf_ran (hs : Stable W) {g g' : Gen} {code : List Stmt} (hd : g.discard = false)
    (h : writeBuf I g = .ok (code, g')) {ρ ρ' : REnv U} {t : Str} {sig : Sig}
    (he : execList W ρ code = some (t, sig, ρ')) : sig = .next ∧ ρ' = ρ ∧ PendT W I g.pend t := by
  have key : execList W ρ code = (ojoin (g.pend.map (wText W I g.locals ρ))).map fun s => (s, .next, ρ) := by
    unfold Gen.writeBuf at h
    obtain ⟨⟨p, gg⟩, hpf, h⟩ := except_bind h
    have ht := prepareFormat_text W I hs ρ hpf
    obtain ⟨k, hk⟩ := prepareFormat_state I hpf
    have hdd : gg.discard = false := by rw [hk]; exact hd
    rw [← ht]
    cases p with
    | none =>
      simp only [pure, Except.pure, Except.ok.injEq, Prod.mk.injEq] at h
      rw [← h.1]; rfl
    | plain s =>
      simp only [pure, Except.pure, Except.ok.injEq, Prod.mk.injEq] at h
      rw [← h.1]; simp [Gen.emit, hdd, execList, Stmt.exec, partsText]
    | formatted fmt args =>
      simp only [pure, Except.pure, Except.ok.injEq, Prod.mk.injEq] at h
      rw [← h.1]
      simp only [Gen.emit, hdd, execList, Stmt.exec, partsText, Bool.false_eq_true, if_false]
      cases formatText W ρ fmt args <;> simp [execList]
  rw [key] at he
  cases ho : ojoin (g.pend.map (wText W I g.locals ρ)) with
  | none => rw [ho] at he; cases he
  | some s =>
    rw [ho] at he
    simp only [Option.map_some, Option.some.injEq, Prod.mk.injEq] at he
    obtain ⟨rfl, rfl, rfl⟩ := he
    exact ⟨rfl, rfl, PendT_ojoin ho⟩

/-- Pending whitespace is handled. -/
theorem PendT_ws {g : Gen} {x : Option Wsp} {t : Str}
    (h : PendT W I (g.pend ++ (wsLit (applyWs (sideOf I x) (g.nextWs.getD []))).map .lit) t) :
    pendP W I (some (sideOf I x)) g t := by
  obtain ⟨a, b, rfl, h1, h2⟩ := PendT_append.mp h
  rw [PendT_lits.mp h2, wsLit_flatten]
  exact ⟨a, h1, rfl⟩

theorem PendT_handleWs {g : Gen} (hc : Clean g) {ws : Ws} {t : Str} (h : PendT W I (handleWs I g ws).pend t) :
    pendP W I (some (sideOf I ws.l)) g t := by
  rw [handleWs_eq I ws hc.pd] at h; exact PendT_ws h

theorem PendT_flushWs {g : Gen} (hc : Clean g) {ws : Ws} {t : Str} (h : PendT W I (flushWs I g ws).pend t) :
    pendP W I (some (sideOf I ws.l)) g t := by
  rw [flushWs_eq I ws hc.pd] at h; exact PendT_ws h

/-- Nothing is pending. -/
theorem pendP_nil {nl : Option WH} {g : Gen} (h1 : g.pend = []) (h2 : g.nextWs = none) {a : Str} :
    pendP W I nl g a ↔ a = [] := by
  unfold pendP
  rw [h1, wsTail_none h2]
  constructor
  · rintro ⟨b, h, rfl⟩; rw [show b = [] from h]; rfl
  · rintro rfl; exact ⟨[], rfl, rfl⟩

end

/-! ## Code -/

section

variable (W : World U)

/-- What the code writes is laid out like this. -/
def Runs (Lay : Str → Sig → Prop) (code : List Stmt) : Prop :=
  ∀ ρ t sig ρ', execList W ρ code = some (t, sig, ρ') → ρ'.did = ρ.did ∧ Lay t sig

/-- What the code writes, together with what is pending afterwards (`q`), is what was pending before (`p`) and a text
that is laid out like this. -/
def EmitsIn (p q : Str → Prop) (Lay : Str → Sig → Prop) (code : List Stmt) : Prop :=
  ∀ ρ t sig ρ', execList W ρ code = some (t, sig, ρ') → ρ'.did = ρ.did
    ∧ (sig = .next → ∀ u, q u → ∃ a s, p a ∧ Lay s .next ∧ t ++ u = a ++ s)
    ∧ (sig ≠ .next → ∃ a s, p a ∧ Lay s sig ∧ t = a ++ s)

variable {W}

/-- Code in sequence. -/
theorem exec_append {ρ ρ' : REnv U} {c1 c2 : List Stmt} {t : Str} {sig : Sig}
    (h : execList W ρ (c1 ++ c2) = some (t, sig, ρ')) :
    (sig ≠ .next ∧ execList W ρ c1 = some (t, sig, ρ'))
      ∨ ∃ t1 ρ1 t2, execList W ρ c1 = some (t1, .next, ρ1) ∧ execList W ρ1 c2 = some (t2, sig, ρ') ∧ t = t1 ++ t2 := by
  rw [execList_append] at h
  unfold seqE at h
  cases h1 : execList W ρ c1 with
  | none => rw [h1] at h; cases h
  | some x =>
    obtain ⟨t1, sig1, ρ1⟩ := x
    rw [h1] at h
    simp only [Option.bind_some] at h
    cases sig1 with
    | next =>
      simp only at h
      cases h2 : execList W ρ1 c2 with
      | none => rw [h2] at h; cases h
      | some y =>
        obtain ⟨t2, sig2, ρ2⟩ := y
        rw [h2] at h
        simp only [Option.map_some, Option.some.injEq, Prod.mk.injEq] at h
        obtain ⟨rfl, rfl, rfl⟩ := h
        exact .inr ⟨t1, ρ1, t2, rfl, h2, rfl⟩
    | brk =>
      simp only [Option.some.injEq, Prod.mk.injEq] at h
      obtain ⟨rfl, rfl, rfl⟩ := h
      exact .inl ⟨by simp, rfl⟩
    | cont =>
      simp only [Option.some.injEq, Prod.mk.injEq] at h
      obtain ⟨rfl, rfl, rfl⟩ := h
      exact .inl ⟨by simp, rfl⟩

theorem EmitsIn.seq {p m q : Str → Prop} {L1 L2 Lay : Str → Sig → Prop} {c1 c2 : List Stmt} (h1 : EmitsIn W p m L1 c1)
    (h2 : EmitsIn W m q L2 c2) (hn : ∀ s t sig, L1 s .next → L2 t sig → Lay (s ++ t) sig)
    (hst : ∀ s sig, L1 s sig → sig ≠ .next → Lay s sig) : EmitsIn W p q Lay (c1 ++ c2) := by
  intro ρ t sig ρ' h
  rcases exec_append h with ⟨hsig, h⟩ | ⟨t1, ρ1, t2, e1, e2, rfl⟩
  · obtain ⟨d1, -, d3⟩ := h1 _ _ _ _ h
    obtain ⟨a, s, hp, hl, rfl⟩ := d3 hsig
    exact ⟨d1, fun hs => absurd hs hsig, fun _ => ⟨a, s, hp, hst _ _ hl hsig, rfl⟩⟩
  · obtain ⟨d1, d2, -⟩ := h1 _ _ _ _ e1
    obtain ⟨d4, d5, d6⟩ := h2 _ _ _ _ e2
    refine ⟨d4.trans d1, ?_, ?_⟩
    · rintro rfl u hu
      obtain ⟨a2, s2, hm, hl2, he2⟩ := d5 rfl u hu
      obtain ⟨a, s, hp, hl, he⟩ := d2 rfl a2 hm
      refine ⟨a, s ++ s2, hp, hn _ _ _ hl hl2, ?_⟩
      rw [List.append_assoc, he2, ← List.append_assoc, he, List.append_assoc]
    · intro hsig
      obtain ⟨a2, s2, hm, hl2, rfl⟩ := d6 hsig
      obtain ⟨a, s, hp, hl, he⟩ := d2 rfl a2 hm
      refine ⟨a, s ++ s2, hp, hn _ _ _ hl hl2, ?_⟩
      rw [← List.append_assoc, he, List.append_assoc]

/-- No code: everything is pending. -/
theorem EmitsIn.pending {p q : Str → Prop} {Lay : Str → Sig → Prop}
    (h : ∀ u, q u → ∃ a s, p a ∧ Lay s .next ∧ u = a ++ s) : EmitsIn W p q Lay [] := by
  intro ρ t sig ρ' he
  simp only [execList, Option.some.injEq, Prod.mk.injEq] at he
  obtain ⟨rfl, rfl, rfl⟩ := he
  exact ⟨rfl, fun _ u hu => h u hu, fun hn => absurd rfl hn⟩

/-- All pending output is written first. -/
theorem EmitsIn.written {p q : Str → Prop} {Lay : Str → Sig → Prop} {pre code : List Stmt}
    (hpre : ∀ ρ t sig ρ', execList W ρ pre = some (t, sig, ρ') → sig = .next ∧ ρ' = ρ ∧ p t) (h : Runs W Lay code)
    (hq : ∀ u, q u → u = []) : EmitsIn W p q Lay (pre ++ code) := by
  intro ρ t sig ρ' he
  rcases exec_append he with ⟨hsig, e⟩ | ⟨t1, ρ1, t2, e1, e2, rfl⟩
  · exact absurd (hpre _ _ _ _ e).1 hsig
  · obtain ⟨-, rfl, hp⟩ := hpre _ _ _ _ e1
    obtain ⟨d, hl⟩ := h _ _ _ _ e2
    refine ⟨d, ?_, fun _ => ⟨t1, t2, hp, hl, rfl⟩⟩
    rintro rfl u hu
    rw [hq u hu]
    exact ⟨t1, t2, hp, hl, by simp⟩

/-- A body with nothing pending before, and what is pending after it written. -/
theorem EmitsIn.body {p q : Str → Prop} {Lay : Str → Sig → Prop} {body fl : List Stmt} (h : EmitsIn W p q Lay body)
    (hp : ∀ a, p a → a = []) (hfl : ∀ ρ t sig ρ', execList W ρ fl = some (t, sig, ρ') → sig = .next ∧ ρ' = ρ ∧ q t) :
    Runs W Lay (body ++ fl) := by
  intro ρ t sig ρ' he
  rcases exec_append he with ⟨hsig, e⟩ | ⟨t1, ρ1, t2, e1, e2, rfl⟩
  · obtain ⟨d1, -, d3⟩ := h _ _ _ _ e
    obtain ⟨a, s, hpa, hl, rfl⟩ := d3 hsig
    rw [hp a hpa]
    exact ⟨d1, hl⟩
  · obtain ⟨d1, d2, -⟩ := h _ _ _ _ e1
    obtain ⟨rfl, rfl, hq⟩ := hfl _ _ _ _ e2
    obtain ⟨a, s, hpa, hl, he⟩ := d2 rfl t2 hq
    rw [hp a hpa, List.nil_append] at he
    rw [he]
    exact ⟨d1, hl⟩

theorem Runs.mono {Lay Lay' : Str → Sig → Prop} {code : List Stmt} (h : Runs W Lay code)
    (hl : ∀ s sig, Lay s sig → Lay' s sig) : Runs W Lay' code :=
  fun ρ t sig ρ' he => ⟨(h ρ t sig ρ' he).1, hl _ _ (h ρ t sig ρ' he).2⟩

theorem EmitsIn.mono {p q p' q' : Str → Prop} {Lay Lay' : Str → Sig → Prop} {code : List Stmt} (h : EmitsIn W p q Lay code)
    (hp : ∀ a, p a → p' a) (hq : ∀ a, q' a → q a) (hl : ∀ s sig, Lay s sig → Lay' s sig) : EmitsIn W p' q' Lay' code := by
  intro ρ t sig ρ' he
  obtain ⟨d, h1, h2⟩ := h ρ t sig ρ' he
  refine ⟨d, fun hs u hu => ?_, fun hs => ?_⟩
  · obtain ⟨a, s, x, y, z⟩ := h1 hs u (hq u hu)
    exact ⟨a, s, hp a x, hl _ _ y, z⟩
  · obtain ⟨a, s, x, y, z⟩ := h2 hs
    exact ⟨a, s, hp a x, hl _ _ y, z⟩

theorem Runs.block {Lay : Str → Sig → Prop} {code : List Stmt} (h : Runs W Lay code) : Runs W Lay [.block code] := by
  intro ρ t sig ρ' he
  rw [execList_single] at he
  simp only [Stmt.exec, Option.map_eq_some_iff] at he
  obtain ⟨⟨s, sig1, ρ1⟩, he, hx⟩ := he
  cases hx
  exact ⟨rfl, (h _ _ _ _ he).2⟩

/-- A statement that writes nothing, in front. -/
theorem Runs.quietly {Lay : Str → Sig → Prop} {st : Stmt} {code : List Stmt} (h : Runs W Lay code)
    (hq : ∀ ρ x, st.exec W ρ = some x → x.1 = [] ∧ x.2.1 = .next ∧ x.2.2.did = ρ.did) : Runs W Lay (st :: code) := by
  intro ρ t sig ρ' he
  have he : execList W ρ ([st] ++ code) = some (t, sig, ρ') := he
  rcases exec_append he with ⟨hsig, e⟩ | ⟨t1, ρ1, t2, e1, e2, rfl⟩
  · rw [execList_single] at e
    exact absurd (hq _ _ e).2.1 hsig
  · rw [execList_single] at e1
    obtain ⟨x1, -, x3⟩ := hq _ _ e1
    obtain ⟨d, hl⟩ := h _ _ _ _ e2
    simp only at x1 x3
    rw [x1, List.nil_append]
    exact ⟨d.trans x3, hl⟩

end

/-! ## Templates -/

/-- A list of nodes as the parser makes it, with filter blocks of the kind that works. -/
def NeatList (ns : List Node) : Prop := ParsedList ns ∧ Every (fun n => tidy n = true) ns

/-- A template with such nodes. -/
structure NeatCtx (c : Ctx) : Prop where
  nodes : NeatList c.nodes
  blocks : ∀ e ∈ c.blocks, NeatList e.2.nodes
  macros : ∀ e ∈ c.macros, NeatList e.2.nodes
  root : c.extends_ = none → ∀ p, .extends_ p ∉ c.nodes

theorem NeatList.tail {n : Node} {ns : List Node} (h : NeatList (n :: ns)) : NeatList ns := ⟨h.1.tail, h.2.tail⟩

theorem NeatCtx.merge {a b : Ctx} (ha : NeatCtx a) (hb : NeatCtx b) : NeatCtx (withMacrosOf a b) := by
  refine ⟨ha.nodes, ha.blocks, ?_, ha.root⟩
  intro e he
  rcases List.mem_append.mp he with he | he
  · exact ha.macros e he
  · exact hb.macros e he

theorem findMacro_neat {I : GenInput} (hI : ∀ p c, assoc I.contexts p = some c → NeatCtx c) {ctx : Ctx} (hc : NeatCtx ctx)
    {scope : Option Str} {name : Str} {d : MacroDef} {own : Ctx} (h : findMacro I ctx scope name = .ok (d, own)) :
    NeatCtx own ∧ NeatList d.nodes := by
  unfold findMacro at h
  cases scope with
  | none =>
    dsimp only at h
    cases hm : assoc ctx.macros name with
    | none => rw [hm] at h; cases h
    | some d' =>
      rw [hm] at h; cases h
      obtain ⟨k, hk⟩ := assoc_mem hm
      exact ⟨hc, hc.macros _ hk⟩
  | some s =>
    dsimp only at h
    cases hi : assoc ctx.imports s with
    | none => rw [hi] at h; cases h
    | some path =>
      rw [hi] at h; dsimp only at h
      cases hp : assoc I.contexts path with
      | none => rw [hp] at h; cases h
      | some mctx =>
        rw [hp] at h; dsimp only at h
        cases hm : assoc mctx.macros name with
        | none => rw [hm] at h; cases h
        | some d' =>
          rw [hm] at h; cases h
          obtain ⟨k, hk⟩ := assoc_mem hm
          exact ⟨hI _ _ hp, (hI _ _ hp).macros _ hk⟩

theorem blockDefs_neat {chain : List Ctx} (hc : ∀ c ∈ chain, NeatCtx c) {n : Str} {k : Nat} {c : Ctx} {d : BlockDefn}
    (h : (blockDefs chain n)[k]? = some (c, d)) : NeatCtx c ∧ NeatList d.nodes := by
  have hm := List.mem_of_getElem? h
  unfold blockDefs at hm
  obtain ⟨x, hx, hm⟩ := List.mem_filterMap.mp hm
  obtain ⟨d', h1, h2⟩ := Option.map_eq_some_iff.mp hm
  cases h2
  exact ⟨hc _ hx, (hc _ hx).blocks _ (mem_blocks h1)⟩

theorem lineage_neat {I : GenInput} (hI : ∀ p c, assoc I.contexts p = some c → NeatCtx c) : (fuel : Nat) → {c : Ctx} →
    {chain : List Ctx} → NeatCtx c → lineage I.contexts fuel c = some chain →
    (∀ x ∈ chain, NeatCtx x) ∧ ∃ r, chain.getLast? = some r ∧ r.extends_ = none
  | 0, _, _, _, h => by cases h
  | fuel + 1, c, chain, hc, h => by
    unfold lineage at h
    cases he : c.extends_ with
    | none =>
      rw [he] at h; cases h
      refine ⟨?_, c, rfl, he⟩
      intro x hx; rw [List.mem_singleton] at hx; subst hx; exact hc
    | some p =>
      rw [he] at h
      simp only [Option.bind_eq_some_iff, Option.map_eq_some_iff] at h
      obtain ⟨pc, h1, rest, h2, rfl⟩ := h
      obtain ⟨h3, r, h4, h5⟩ := lineage_neat hI fuel (hI _ _ h1) h2
      refine ⟨?_, r, ?_, h5⟩
      · intro x hx
        rcases List.mem_cons.mp hx with rfl | hx
        · exact hc
        · exact h3 x hx
      · rw [List.getLast?_cons, h4]; rfl

/-- The root of an inheritance chain has no `extends`. -/
theorem chain_neat {I : GenInput} (hI : ∀ p c, assoc I.contexts p = some c → NeatCtx c) {c : Ctx} (hc : NeatCtx c)
    {chain : List Ctx} (h : (if c.blocks.isEmpty && c.extends_.isNone then some []
      else lineage I.contexts (I.contexts.length + 2) c) = some chain) :
    (∀ x ∈ chain, NeatCtx x) ∧ NeatCtx (chain.getLastD c) ∧ ∀ p, .extends_ p ∉ (chain.getLastD c).nodes := by
  split at h
  · rename_i hx
    cases h
    simp only [Bool.and_eq_true, Option.isNone_iff_eq_none] at hx
    exact ⟨by simp, hc, hc.root hx.2⟩
  · obtain ⟨h1, r, h2, h3⟩ := lineage_neat hI _ hc h
    have hr : NeatCtx r := h1 r (List.mem_of_getLast? h2)
    have : chain.getLastD c = r := by rw [List.getLastD_eq_getLast?, h2]; rfl
    rw [this]
    exact ⟨h1, hr, hr.root h3⟩

/-! ## Nodes -/

/-- The handler for nested nodes lays out their text. -/
def LaysOut (W : World U) (I : GenInput) (rec : Handler) : Prop :=
  ∀ {H : Option Heritage} {chain : List Ctx} {ctx : Ctx} {sup : Option (Str × Nat)} {before : WH} {nodes : List Node}
    {after : Option WH} {level : Level} {g g' : Gen} {code : List Stmt},
    rec H ctx nodes level g = .ok (code, g') → Clean g → g.superBlock = sup → HChain H chain →
    (level = .top ↔ after = none) → ((nodes.head?.map isLitNode).getD false = true → g.nextWs = none ∧ g.skipWs = before) →
    NeatList nodes → (level = .top → ∀ p, .extends_ p ∉ nodes) → NeatCtx ctx → (∀ c ∈ chain, NeatCtx c) →
    EmitsIn W (pendP W I (nextSide I nodes after) g) (pendP W I after g') (Laid W I chain ctx sup before nodes after) code

section

variable {W : World U} {I : GenInput} {rec : Handler} {H : Option Heritage} {chain : List Ctx} {ctx : Ctx}
  {sup : Option (Str × Nat)} {g g' : Gen} {code : List Stmt}

/-- A body and the output pending at its end. -/
theorem body_laid (hs : Stable W) (ok : LaysOut W I rec) (fr : RecFrame rec) (hH : HChain H chain)
    (hctx : NeatCtx ctx) (hch : ∀ c ∈ chain, NeatCtx c) {before : WH} {nodes : List Node} {g1 g2 : Gen} {ws : Ws}
    {body fl : List Stmt} (h : rec H ctx nodes .nested g = .ok (body, g1)) (hc : Clean g) (hsup : g.superBlock = sup)
    (hp : g.pend = []) (hn : g.nextWs = none) (hb : g.skipWs = before) (hnodes : NeatList nodes)
    (hfl : writeBuf I (Gen.handleWs I g1 ws) = .ok (fl, g2) ∨ writeBuf I (Gen.flushWs I g1 ws) = .ok (fl, g2)) :
    Runs W (Laid W I chain ctx sup before nodes (some (sideOf I ws.l))) (body ++ fl) := by
  have f := fr _ _ _ _ _ _ _ h hc
  refine EmitsIn.body (ok h hc hsup hH (after := some (sideOf I ws.l)) (by simp) (fun _ => ⟨hn, hb⟩) hnodes (by simp) hctx hch)
    (fun a ha => (pendP_nil hp hn).mp ha) ?_
  intro ρ t sig ρ' he
  rcases hfl with hfl | hfl
  · obtain ⟨h1, h2, h3⟩ := writeBuf_ran hs (handleWs_frame f.clean ws).clean.d hfl he
    exact ⟨h1, h2, PendT_handleWs f.clean h3⟩
  · obtain ⟨h1, h2, h3⟩ := writeBuf_ran hs (flushWs_frame f.clean ws).clean.d hfl he
    exact ⟨h1, h2, PendT_flushWs f.clean h3⟩

/-- A condition changes nothing but variables. -/
theorem holds_did {c : RCond} {ρ ρ1 : REnv U} (h : c.holds W ρ = some (some ρ1)) : ρ1.did = ρ.did := by
  cases c with
  | always => cases h; rfl
  | test e =>
    simp only [RCond.holds, Option.map_eq_some_iff] at h
    obtain ⟨b, -, h⟩ := h
    split at h
    · cases h; rfl
    · cases h
  | let_ t e =>
    simp only [RCond.holds, Option.map_eq_some_iff] at h
    obtain ⟨v, -, vs, -, rfl⟩ := h
    rfl
  | letChain op t l r =>
    simp only [RCond.holds] at h
    split at h
    · simp only [Option.bind_eq_some_iff] at h
      obtain ⟨v, -, h⟩ := h
      split at h
      · cases h
      · simp only [Option.map_eq_some_iff] at h
        obtain ⟨b, -, h⟩ := h
        split at h
        · cases h; rfl
        · cases h
    · cases h

/-- Branches without condition are taken. -/
theorem branchCond_always {cond : Option CondTest} {c : RCond} {g g' : Gen} (h : branchCond I g cond = .ok (c, g'))
    (hc : cond = none) {ρ : REnv U} : c.holds W ρ = some (some ρ) := by
  subst hc
  cases h
  rfl

theorem branches_laid (hs : Stable W) (ok : LaysOut W I rec) (fr : RecFrame rec) (hH : HChain H chain)
    (hctx : NeatCtx ctx) (hch : ∀ c ∈ chain, NeatCtx c) {wsEnd : Ws} : (bs : List Cond) → (first : Bool) → {g g' : Gen} →
    {out : List Branch} → Clean g → g.superBlock = sup → g.pend = [] → g.nextWs = none →
    (∀ w c ns rest, bs = .mk w c ns :: rest → g.skipWs = sideOf I w.r) → (∀ w c ns, .mk w c ns ∈ bs → NeatList ns) →
    ifBranches rec I H ctx wsEnd first bs g = .ok (out, g') → ∀ ρ t sig ρ', execIf W ρ out = some (t, sig, ρ') →
    ρ'.did = ρ.did ∧ ((∃ pre w c ns rest, bs = pre ++ .mk w c ns :: rest
        ∧ Laid W I chain ctx sup (sideOf I w.r) ns (some (condAfter I rest wsEnd)) t sig)
      ∨ ((∀ w ns, .mk w none ns ∉ bs) ∧ t = [] ∧ sig = .next))
  | [], _, g, g', out, _, _, _, _, _, _, h, ρ, t, sig, ρ', he => by
    simp only [ifBranches, Except.ok.injEq, Prod.mk.injEq] at h
    rw [← h.1] at he
    simp only [execIf, Option.some.injEq, Prod.mk.injEq] at he
    obtain ⟨rfl, rfl, rfl⟩ := he
    exact ⟨rfl, .inr ⟨by simp, rfl, rfl⟩⟩
  | .mk w cond nodes :: rest, first, g, g', out, hc, hsup, hpend, hnw, hsk, hneat, h, ρ, t, sig, ρ', he => by
    obtain ⟨g1, c, g2, body, g3, fl, g4, h1, h2, h3, h4, h5⟩ := ifBranches_inv h
    have f1 := dedentUnless_frame (push_clean hc) h1
    have f2 := f1.trans (branchCond_frame f1.clean h2)
    have f3 := f2.trans (openLine_frame f2.clean)
    have f4 := f3.trans (fr _ _ _ _ _ _ _ h3 f3.clean)
    have f5 := f4.trans (handleWs_frame (I := I) f4.clean (condEnd rest wsEnd))
    have f6 := f5.trans (writeBuf_frame f5.clean h4)
    obtain ⟨k, hk⟩ := dedentUnless_eq h1
    obtain ⟨o1, o2, o3, o4, o5⟩ := openLine_same g2
    have hg2 : g2.pend = [] ∧ g2.nextWs = none ∧ g2.skipWs = sideOf I w.r := by
      have hs := hsk _ _ _ _ rfl
      rcases branchCond_locals h2 with rfl | ⟨t, rfl⟩ <;> (rw [hk]; exact ⟨hpend, hnw, hs⟩)
    have hafter : some (condAfter I rest wsEnd) = some (sideOf I (condEnd rest wsEnd).l) := by
      cases rest with
      | nil => rfl
      | cons c2 rest => obtain ⟨a, b, c⟩ := c2; rfl
    have hbody := body_laid hs ok fr hH hctx hch h3 f3.clean (f3.sup.trans hsup) (o2.trans hg2.1) (o3.trans hg2.2.1)
      (o4.trans hg2.2.2) (hneat w cond nodes (by simp)) (.inl h4)
    rw [← hafter] at hbody
    have hout : ∃ bs', out = .mk c (body ++ fl) :: bs' ∧ ∀ ρ t sig ρ', execIf W ρ bs' = some (t, sig, ρ') →
        ρ'.did = ρ.did ∧ ((∃ pre w c ns rest', rest = pre ++ .mk w c ns :: rest'
          ∧ Laid W I chain ctx sup (sideOf I w.r) ns (some (condAfter I rest' wsEnd)) t sig)
          ∨ ((∀ w ns, .mk w none ns ∉ rest) ∧ t = [] ∧ sig = .next)) := by
      rcases h5 with ⟨rfl, rfl, rfl⟩ | ⟨bs', hne, h5, rfl⟩
      · refine ⟨[], rfl, ?_⟩
        intro ρ t sig ρ' he
        simp only [execIf, Option.some.injEq, Prod.mk.injEq] at he
        obtain ⟨rfl, rfl, rfl⟩ := he
        exact ⟨rfl, .inr ⟨by simp, rfl, rfl⟩⟩
      · have hpop := f6.pop rfl
        rw [hpop] at h5
        obtain ⟨b1, b2, b3, b4, b5⟩ := writeBuf_locals h4
        rw [handleWs_eq I _ f4.clean.pd] at b3 b4
        exact ⟨bs', rfl, branches_laid hs ok fr hH hctx hch rest false (g := { g4 with locals := g.locals })
          ⟨f6.clean.pd, f6.clean.d, hc.wf⟩ (by exact f6.sup.trans hsup) b2 b3
          (by rintro w2 c2 ns2 rest2 rfl; exact b4) (fun w c ns hm => hneat w c ns (List.mem_cons_of_mem _ hm)) h5⟩
    obtain ⟨bs', rfl, hrest⟩ := hout
    simp only [execIf] at he
    cases hr : c.holds W ρ with
    | none => rw [hr] at he; cases he
    | some x =>
      rw [hr] at he
      simp only [Option.bind_some] at he
      cases x with
      | none =>
        obtain ⟨d, hl⟩ := hrest _ _ _ _ he
        refine ⟨d, ?_⟩
        rcases hl with ⟨pre, w', c', ns', rest', rfl, hl⟩ | ⟨h6, h7, h8⟩
        · exact .inl ⟨_ :: pre, w', c', ns', rest', rfl, hl⟩
        · refine .inr ⟨?_, h7, h8⟩
          intro w' ns' hm
          rcases List.mem_cons.mp hm with hm | hm
          · cases hm
            rw [branchCond_always h2 rfl] at hr
            cases hr
          · exact h6 _ _ hm
      | some ρ1 =>
        simp only [Option.map_eq_some_iff] at he
        obtain ⟨⟨t', sig', ρ2⟩, he, hx⟩ := he
        cases hx
        obtain ⟨d, hl⟩ := hbody _ _ _ _ he
        exact ⟨d.trans (holds_did hr), .inl ⟨[], w, cond, nodes, rest, rfl, hl⟩⟩

theorem if_laid (hs : Stable W) (ok : LaysOut W I rec) (fr : RecFrame rec) (hH : HChain H chain) (hctx : NeatCtx ctx)
    (hch : ∀ c ∈ chain, NeatCtx c) {ws : Ws} {branches : List Cond} {before : WH} {nl : Option WH}
    (h : writeIf rec I H ctx g ws branches = .ok (code, g')) (hc : Clean g) (hsup : g.superBlock = sup)
    (hneat : ∀ w c ns, .mk w c ns ∈ branches → NeatList ns) :
    EmitsIn W (pendP W I (some (sideOf I (leftMark (.if_ ws branches)))) g) (pendP W I nl g')
      (LaidNode W I chain ctx sup before (.if_ ws branches) nl) code := by
  have hfr := writeIf_frame fr hc h
  obtain ⟨ws1, c, ns, rest, pre, g1, bs, g2, g3, rfl, h1, h2, h3, rfl, rfl⟩ := writeIf_inv h
  have f1 := handleWs_frame (I := I) hc ws1
  have f2 := f1.trans (writeBuf_frame f1.clean h1)
  obtain ⟨b1, b2, b3, b4, b5⟩ := writeBuf_locals h1
  rw [handleWs_eq I _ hc.pd] at b1 b3 b4 b5
  have hd : g3.discard = false := hfr.1.clean.d
  rw [if_neg (by simp [hd])]
  refine EmitsIn.written ?_ ?_ (fun u hu => (pendP_nil hfr.2.2.2.2 hfr.2.2.1).mp hu)
  · intro ρ t sig ρ' he
    obtain ⟨e1, e2, e3⟩ := writeBuf_ran hs f1.clean.d h1 he
    exact ⟨e1, e2, PendT_handleWs hc e3⟩
  · intro ρ t sig ρ' he
    rw [execList_single] at he
    simp only [Stmt.exec] at he
    obtain ⟨d, hl⟩ := branches_laid hs ok fr hH hctx hch _ true f2.clean (f2.sup.trans hsup) b2 b3
      (by rintro w2 c2 ns2 rest2 heq; cases heq; exact b4) hneat h2 ρ t sig ρ' he
    refine ⟨d, ?_⟩
    rcases hl with ⟨pre, w, c, ns, rest, heq, hl⟩ | ⟨h6, rfl, rfl⟩
    · rw [heq]; exact .branch pre rest hl
    · exact .noBranch ws h6

theorem arms_laid (hs : Stable W) (ok : LaysOut W I rec) (fr : RecFrame rec) (hH : HChain H chain)
    (hctx : NeatCtx ctx) (hch : ∀ c ∈ chain, NeatCtx c) {ws2 : Ws} : (as : List When) → {g g' : Gen} →
    {out : List Arm} → Clean g → g.superBlock = sup → g.pend = [] → g.nextWs = none →
    (∀ w c ns rest, as = .mk w c ns :: rest → g.skipWs = sideOf I w.r) → (∀ w c ns, .mk w c ns ∈ as → NeatList ns) →
    matchArms rec I H ctx ws2 as g = .ok (out, g') → ∀ ρ v t sig ρ', execMatch W ρ v out = some (t, sig, ρ') →
    ρ'.did = ρ.did ∧ ∃ pre w c ns rest, as = pre ++ .mk w c ns :: rest
        ∧ Laid W I chain ctx sup (sideOf I w.r) ns (some (whenAfter I rest ws2)) t sig
  | [], g, g', out, _, _, _, _, _, _, h, ρ, v, t, sig, ρ', he => by
    simp only [matchArms, Except.ok.injEq, Prod.mk.injEq] at h
    rw [← h.1] at he
    simp only [execMatch] at he
    cases he
  | .mk w t nodes :: rest, g, g', out, hc, hsup, hpend, hnw, hsk, hneat, h, ρ, v, s, sig, ρ', he => by
    obtain ⟨body, g1, fl, g2, g3, as', h1, h2, h3, h4, rfl⟩ := matchArms_inv h
    have f1 := declare_frame (push_clean hc) t true
    have f2 := f1.trans (openLine_frame f1.clean)
    have f3 := f2.trans (fr _ _ _ _ _ _ _ h1 f2.clean)
    have f4 := f3.trans (handleWs_frame (I := I) f3.clean (whenEnd rest ws2))
    have f5 := f4.trans (writeBuf_frame f4.clean h2)
    have f6 := f5.trans (closeLine_frame f5.clean h3)
    have hpop := f6.pop rfl
    rw [hpop] at h4
    obtain ⟨o1, o2, o3, o4, o5⟩ := openLine_same (declare { g with locals := g.locals.push } t true)
    have hafter : some (whenAfter I rest ws2) = some (sideOf I (whenEnd rest ws2).l) := by
      cases rest with
      | nil => rfl
      | cons c2 rest => obtain ⟨a, b, c⟩ := c2; rfl
    have hbody := body_laid hs ok fr hH hctx hch h1 f2.clean (f2.sup.trans hsup) (o2.trans hpend) (o3.trans hnw)
      (o4.trans (hsk _ _ _ _ rfl)) (hneat w t nodes (by simp)) (.inl h2)
    rw [← hafter] at hbody
    simp only [execMatch] at he
    cases hm : patMatch W t v with
    | some vs =>
      rw [hm] at he
      simp only [Option.map_eq_some_iff] at he
      obtain ⟨⟨t', sig', ρ2⟩, he, hx⟩ := he
      cases hx
      obtain ⟨d, hl⟩ := hbody _ _ _ _ he
      exact ⟨d, [], w, t, nodes, rest, rfl, hl⟩
    | none =>
      rw [hm] at he
      simp only at he
      obtain ⟨b1, b2, b3, b4, b5⟩ := writeBuf_locals h2
      rw [handleWs_eq I _ f3.clean.pd] at b3 b4
      obtain ⟨k, rfl⟩ := closeLine_eq h3
      obtain ⟨d, pre, w', c', ns', rest', rfl, hl⟩ := arms_laid hs ok fr hH hctx hch rest
        (g := { g2 with locals := g.locals, indent := k }) ⟨f6.clean.pd, f6.clean.d, hc.wf⟩ (by exact f6.sup.trans hsup)
        b2 b3 (by rintro w2 c2 ns2 rest2 rfl; exact b4) (fun w c ns hm => hneat w c ns (List.mem_cons_of_mem _ hm)) h4
        _ _ _ _ _ he
      exact ⟨d, _ :: pre, w', c', ns', rest', rfl, hl⟩

theorem match_laid (hs : Stable W) (ok : LaysOut W I rec) (fr : RecFrame rec) (hH : HChain H chain) (hctx : NeatCtx ctx)
    (hch : ∀ c ∈ chain, NeatCtx c) {ws1 ws2 : Ws} {e : Expr} {arms : List When} {before : WH} {nl : Option WH}
    (h : writeMatch rec I H ctx g ws1 e arms ws2 = .ok (code, g')) (hc : Clean g) (hsup : g.superBlock = sup)
    (hneat : ∀ w c ns, .mk w c ns ∈ arms → NeatList ns) :
    EmitsIn W (pendP W I (some (sideOf I ws1.l)) g) (pendP W I nl g')
      (LaidNode W I chain ctx sup before (.match_ ws1 e arms ws2) nl) code := by
  have hfr := writeMatch_frame fr hc h
  obtain ⟨ws, t, ns, rest, pre, g1, r, w, as, g2, g3, harms, h1, h2, h3, h4, rfl, rfl⟩ := writeMatch_inv h
  have f1 := flushWs_frame (I := I) hc ws1
  have f2 := f1.trans (writeBuf_frame f1.clean h1)
  obtain ⟨b1, b2, b3, b4, b5⟩ := writeBuf_locals h1
  rw [flushWs_eq I _ hc.pd] at b1 b3 b4 b5
  obtain ⟨o1, o2, o3, o4, o5⟩ := openLine_same g1
  have f3 := f2.trans (openLine_frame f2.clean)
  have f4 := f3.trans (handleWs_frame (I := I) f3.clean ws)
  have hw := handleWs_eq I (g := g1.openLine) ws f3.clean.pd
  have hd : g'.discard = false := hfr.1.clean.d
  rw [if_neg (by simp [hd])]
  refine EmitsIn.written ?_ ?_ (fun u hu => (pendP_nil hfr.2.2.2.2 hfr.2.2.1).mp hu)
  · intro ρ t sig ρ' he
    obtain ⟨e1, e2, e3⟩ := writeBuf_ran hs f1.clean.d h1 he
    exact ⟨e1, e2, PendT_flushWs hc e3⟩
  · intro ρ t' sig ρ' he
    rw [execList_single] at he
    simp only [Stmt.exec, Option.bind_eq_some_iff] at he
    obtain ⟨v, -, he⟩ := he
    have hp0 : (Gen.handleWs I g1.openLine ws).pend = [] := by
      rw [hw]
      simp only [o2, b2, o3, b3]
      simp [wsLit]
    obtain ⟨d, pre, w, c, ns, rest, heq, hl⟩ := arms_laid hs ok fr hH hctx hch _ f4.clean (f4.sup.trans hsup) hp0
      (by rw [hw]) (by rintro w2 c2 ns2 rest2 heq; rw [harms] at heq; cases heq; rw [hw]) hneat h3 ρ v t' sig ρ' he
    refine ⟨d, ?_⟩
    rw [heq]; exact .arm pre rest hl

/-- The rounds of a loop. -/
theorem forItems_laid {before : WH} {nodes : List Node} {after : Option WH} {t : Target} {e : Bool} {body : List Stmt}
    (hb : Runs W (Laid W I chain ctx sup before nodes after) body) : (vs : List (Val U)) → (i : Nat) → (ρ ρ' : REnv U) →
    (s : Str) → forItems W t (fun ρ' => execList W ρ' ((if e then [.setDid] else []) ++ body)) vs i ρ = some (s, ρ') →
    (s = [] ∧ ρ'.did = ρ.did) ∨ (LaidRounds W I chain ctx sup before nodes after s ∧ (e = true → ρ'.did = true))
  | [], _, ρ, ρ', s, h => by
    simp only [forItems, Option.some.injEq, Prod.mk.injEq] at h
    exact .inl ⟨h.1.symm, by rw [h.2]⟩
  | v :: vs, i, ρ, ρ', s, h => by
    simp only [forItems, Option.bind_eq_some_iff] at h
    obtain ⟨ws, -, ⟨s1, sig, ρ1⟩, he, h⟩ := h
    have hbody : (e = true → ρ1.did = true) ∧ Laid W I chain ctx sup before nodes after s1 sig := by
      cases e with
      | false => exact ⟨by simp, (hb _ _ _ _ he).2⟩
      | true =>
        rcases exec_append he with ⟨h1, h2⟩ | ⟨t1, ρ2, t2, h1, h2, rfl⟩
        · simp only [if_true, execList_single, Stmt.exec, Option.some.injEq, Prod.mk.injEq] at h2
          exact absurd h2.2.1.symm h1
        · simp only [if_true, execList_single, Stmt.exec, Option.some.injEq, Prod.mk.injEq, true_and] at h1
          obtain ⟨rfl, rfl⟩ := h1
          obtain ⟨d, hl⟩ := hb _ _ _ _ h2
          exact ⟨fun _ => d, hl⟩
    right
    have hmore : sig ≠ .brk → (forItems W t (fun ρ' => execList W ρ' ((if e then [.setDid] else []) ++ body)) vs (i + 1)
        { ρ1 with vars := leaveVars ρ.vars ρ1.vars, item := ρ.item }).map (fun (s', ρ''') => (s1 ++ s', ρ'''))
          = some (s, ρ') → LaidRounds W I chain ctx sup before nodes after s ∧ (e = true → ρ'.did = true) := by
      intro hsig h
      simp only [Option.map_eq_some_iff] at h
      obtain ⟨⟨s2, ρ2⟩, h2, hx⟩ := h
      simp only [Prod.mk.injEq] at hx
      obtain ⟨rfl, rfl⟩ := hx
      rcases forItems_laid hb vs _ _ _ _ h2 with ⟨rfl, hd⟩ | ⟨hr, hd⟩
      · refine ⟨?_, fun h => hd.trans (hbody.1 h)⟩
        rw [List.append_nil]
        exact .last hbody.2
      · exact ⟨.more hbody.2 hsig hr, hd⟩
    cases sig with
    | brk =>
      simp only [Option.some.injEq, Prod.mk.injEq] at h
      obtain ⟨rfl, rfl⟩ := h
      exact ⟨.last hbody.2, hbody.1⟩
    | next => exact hmore (by simp) h
    | cont => exact hmore (by simp) h

/-- Code that writes nothing and ends normally. -/
def Silent (W : World U) (code : List Stmt) : Prop :=
  ∀ ρ t sig ρ', execList W ρ code = some (t, sig, ρ') → t = [] ∧ sig = .next ∧ ρ'.did = ρ.did

theorem Silent.before {code rest : List Stmt} (h : Silent W code) {ρ ρ' : REnv U} {t : Str} {sig : Sig}
    (he : execList W ρ (code ++ rest) = some (t, sig, ρ')) :
    ∃ ρ1, ρ1.did = ρ.did ∧ execList W ρ1 rest = some (t, sig, ρ') := by
  rcases exec_append he with ⟨h1, h2⟩ | ⟨t1, ρ2, t2, h1, h2, rfl⟩
  · exact absurd (h _ _ _ _ h2).2.1 h1
  · obtain ⟨rfl, -, hd⟩ := h _ _ _ _ h1
    exact ⟨ρ2, hd, h2⟩

theorem loopFilter_silent {t : Target} {cond : Option Expr} {filt : List Stmt} (h : loopFilter I g t cond = .ok filt) :
    Silent W filt := by
  intro ρ s sig ρ' he
  cases cond with
  | none =>
    simp only [loopFilter, Except.ok.injEq] at h
    rw [← h] at he
    cases he
    exact ⟨rfl, rfl, rfl⟩
  | some c =>
    simp only [loopFilter] at h
    obtain ⟨⟨rc, w2⟩, h31, h32⟩ := except_bind h
    simp only [Except.ok.injEq] at h32
    rw [← h32] at he
    cases hd : g.discard with
    | true =>
      simp only [emit, hd, if_true] at he
      cases he
      exact ⟨rfl, rfl, rfl⟩
    | false =>
      simp only [emit, hd, Bool.false_eq_true, if_false] at he
      rw [execList_single] at he
      simp only [Stmt.exec, Option.map_eq_some_iff] at he
      obtain ⟨vs, -, he⟩ := he
      cases he
      exact ⟨rfl, rfl, rfl⟩

theorem loop_laid (hs : Stable W) (ok : LaysOut W I rec) (fr : RecFrame rec) (hH : HChain H chain) (hctx : NeatCtx ctx)
    (hch : ∀ c ∈ chain, NeatCtx c) {ws1 ws2 ws3 : Ws} {t : Target} {iter : Expr} {cond : Option Expr}
    {body elseNodes : List Node} {before : WH} {nl : Option WH}
    (h : writeLoop rec I H ctx g ws1 t iter cond body ws2 elseNodes ws3 = .ok (code, g')) (hc : Clean g)
    (hsup : g.superBlock = sup) (hbn : NeatList body) (hen : NeatList elseNodes) :
    EmitsIn W (pendP W I (some (sideOf I ws1.l)) g) (pendP W I nl g')
      (LaidNode W I chain ctx sup before (.loop ws1 t iter cond body ws2 elseNodes ws3) nl) code := by
  have hfr := writeLoop_frame fr hc h
  obtain ⟨r, w, pre, g1, filt, b, g2, fl, g3, g4, h1, h2, h3, h4, h5, h6, h7⟩ := writeLoop_inv h
  have f1 := handleWs_frame (I := I) hc ws1
  have f1p := push_clean f1.clean
  have f2 := writeBuf_frame f1p h2
  have f3 := f2.trans (openLine_frame f2.clean)
  obtain ⟨b1, b2, b3, b4, b5⟩ := writeBuf_locals h2
  obtain ⟨o1, o2, o3, o4, o5⟩ := openLine_same g1
  have hws := handleWs_eq I (g := g) ws1 hc.pd
  have f4 := declare_frame (push_clean f3.clean) t true
  have f5 := f4.trans (openLine_frame f4.clean)
  obtain ⟨p1, p2, p3, p4, p5⟩ := openLine_same (declare { g1.openLine with locals := g1.openLine.locals.push } t true)
  have hbody := body_laid hs ok fr hH hctx hch h4 f5.clean (f5.sup.trans (f3.sup.trans (f1.sup.trans hsup)))
    (p2.trans (o2.trans b2)) (p3.trans (o3.trans (b3.trans (by rw [hws])))) (before := sideOf I ws1.r)
    (p4.trans (o4.trans (b4.trans (by rw [hws])))) hbn (.inl h5)
  have hcode : ∃ tail, code = pre ++ [.block ((if !elseNodes.isEmpty then [.letDid] else []) ++ ([.letIter r] ++ (filt ++
        (.forIter t ((if !elseNodes.isEmpty then [.setDid] else []) ++ (b ++ fl)) :: tail))))]
      ∧ ((elseNodes = [] ∧ tail = []) ∨ ∃ eb, elseNodes ≠ [] ∧ tail = [.ifNotDid eb]
        ∧ Runs W (Laid W I chain ctx sup (sideOf I ws2.r) elseNodes (some (sideOf I ws3.l))) eb) := by
    have f6 := f5.trans (fr _ _ _ _ _ _ _ h4 f5.clean)
    have f7 := f6.trans (handleWs_frame (I := I) f6.clean ws2)
    have f8 := f7.trans (writeBuf_frame f7.clean h5)
    have hpop := f8.pop rfl
    rw [hpop] at h6
    obtain ⟨k, rfl⟩ := closeLine_eq h6
    have c4 : Clean { g3 with locals := g1.openLine.locals, indent := k } := ⟨f8.clean.pd, f8.clean.d, f3.clean.wf⟩
    have d1 : g1.openLine.discard = false := f3.clean.d
    have d2 : (declare { g1.openLine with locals := g1.openLine.locals.push } t true).openLine.discard = false := f5.clean.d
    have d3 : g3.discard = false := f8.clean.d
    obtain ⟨c1, c2, c3, c5, c6⟩ := writeBuf_locals h5
    rw [handleWs_eq I _ f6.clean.pd] at c3 c5
    have hs3 : g3.superBlock = sup := f8.sup.trans (f3.sup.trans (f1.sup.trans hsup))
    rcases h7 with ⟨hne, eb, g5, fl2, g6, g7, g8, e1, e2, e3, e4, rfl, rfl⟩ | ⟨rfl, fl2, g6, g8, e1, e2, rfl, rfl⟩
    · have f9 := openLine_frame c4
      have f10 := fr _ _ _ _ _ _ _ e1 (push_clean f9.clean)
      have f11 := f10.trans (handleWs_frame (I := I) f10.clean ws3)
      have f12 := f11.trans (writeBuf_frame f11.clean e2)
      obtain ⟨k2, rfl⟩ := closeLine_eq e3
      obtain ⟨k3, rfl⟩ := closeLine_eq e4
      have d6 : g6.discard = false := f12.clean.d
      obtain ⟨q1, q2, q3, q4, q5⟩ := openLine_same { g3 with locals := g1.openLine.locals, indent := k }
      have he : elseNodes.isEmpty = false := by simpa using hne
      refine ⟨[.ifNotDid (eb ++ fl2)], ?_, .inr ⟨eb ++ fl2, hne, rfl, ?_⟩⟩
      · simp only [wrap, emit, d2, Bool.false_eq_true, if_false]
        simp only [d1, d3, d6, he, Bool.not_false, if_true, Bool.false_eq_true, if_false]
        simp
      · exact body_laid hs ok fr hH hctx hch e1 (push_clean f9.clean) (f9.sup.trans hs3) (q2.trans c2) (q3.trans c3)
          (q4.trans c5) hen (.inl e2)
    · have f9 := handleWs_frame (I := I) c4 ws3
      have f10 := f9.trans (writeBuf_frame f9.clean e1)
      obtain ⟨k2, rfl⟩ := closeLine_eq e2
      have d6 : g6.discard = false := f10.clean.d
      refine ⟨[], ?_, .inl ⟨rfl, rfl⟩⟩
      have hfl : fl2 = [] := by
        have hw := handleWs_eq I (g := { g3 with locals := g1.openLine.locals, indent := k }) ws3 c4.pd
        have hp0 : (Gen.handleWs I { g3 with locals := g1.openLine.locals, indent := k } ws3).pend = [] := by
          rw [hw]; simp [c2, c3, wsLit]
        exact writeBuf_empty hp0 e1
      simp only [wrap, emit, d1, d3, d6, hfl, Bool.false_eq_true, if_false]
      simp
  obtain ⟨tail, rfl, htail⟩ := hcode
  refine EmitsIn.written ?_ ?_ (fun u hu => (pendP_nil hfr.2.2.2.2 hfr.2.2.1).mp hu)
  · intro ρ t sig ρ' he
    obtain ⟨e1, e2, e3⟩ := writeBuf_ran hs f1p.d h2 he
    exact ⟨e1, e2, PendT_handleWs hc e3⟩
  · intro ρ s sig ρ' he
    rw [execList_single] at he
    simp only [Stmt.exec, Option.map_eq_some_iff] at he
    obtain ⟨⟨s0, sig0, ρ0⟩, he, hx⟩ := he
    simp only [Prod.mk.injEq] at hx
    obtain ⟨rfl, rfl, rfl⟩ := hx
    refine ⟨rfl, ?_⟩
    have hdid : ∃ ρ1, (elseNodes ≠ [] → ρ1.did = false) ∧ execList W ρ1 ([.letIter r] ++ (filt ++
        (.forIter t ((if !elseNodes.isEmpty then [.setDid] else []) ++ (b ++ fl)) :: tail))) = some (s0, sig0, ρ0) := by
      cases hem : elseNodes.isEmpty with
      | true =>
        rw [hem] at he
        exact ⟨ρ, fun hne => absurd (by simpa using hem) hne, he⟩
      | false =>
        rw [hem] at he
        rcases exec_append he with ⟨h1, h2⟩ | ⟨t1, ρ2, t2, h1, h2, rfl⟩
        · simp only [Bool.not_false, if_true, execList_single, Stmt.exec, Option.some.injEq, Prod.mk.injEq] at h2
          exact absurd h2.2.1.symm h1
        · simp only [Bool.not_false, if_true, execList_single, Stmt.exec, Option.some.injEq, Prod.mk.injEq, true_and] at h1
          obtain ⟨rfl, rfl⟩ := h1
          exact ⟨_, fun _ => rfl, h2⟩
    obtain ⟨ρ1, hd1, he⟩ := hdid
    have hiter : Silent W [.letIter r] := by
      intro ρ s sig ρ' he
      rw [execList_single] at he
      simp only [Stmt.exec, Option.bind_eq_some_iff, Option.map_eq_some_iff] at he
      obtain ⟨v, -, vs, -, he⟩ := he
      cases he
      exact ⟨rfl, rfl, rfl⟩
    obtain ⟨ρ2, hd2, he⟩ := hiter.before he
    obtain ⟨ρ3, hd3, he⟩ := (loopFilter_silent h3).before he
    rw [← List.singleton_append] at he
    have hfor : ∀ {ρ4 s1 sig1}, execList W ρ3 [.forIter t ((if !elseNodes.isEmpty then [.setDid] else []) ++ (b ++ fl))]
        = some (s1, sig1, ρ4) → sig1 = .next ∧ ((s1 = [] ∧ ρ4.did = ρ3.did)
          ∨ (LaidRounds W I chain ctx sup (sideOf I ws1.r) body (some (sideOf I ws2.l)) s1
            ∧ ((!elseNodes.isEmpty) = true → ρ4.did = true))) := by
      intro ρ4 s1 sig1 hf
      rw [execList_single] at hf
      simp only [Stmt.exec, Option.map_eq_some_iff] at hf
      obtain ⟨⟨s2, ρ5⟩, hf, hx⟩ := hf
      simp only [Prod.mk.injEq] at hx
      obtain ⟨rfl, rfl, rfl⟩ := hx
      exact ⟨rfl, forItems_laid hbody _ _ _ _ _ hf⟩
    rcases exec_append he with ⟨h1, h2⟩ | ⟨t1, ρ4, t2, h1, h2, rfl⟩
    · exact absurd (hfor h2).1 h1
    · have hf := (hfor h1).2
      rcases htail with ⟨rfl, rfl⟩ | ⟨eb, hne, rfl, heb⟩
      · simp only [execList, Option.some.injEq, Prod.mk.injEq] at h2
        obtain ⟨rfl, rfl, -⟩ := h2
        rw [List.append_nil]
        rcases hf with ⟨rfl, -⟩ | ⟨hf, -⟩
        · exact .noRounds (.nil _ _ _ _ _)
        · exact .rounds hf
      · rw [execList_single] at h2
        simp only [Stmt.exec] at h2
        rcases hf with ⟨rfl, hd⟩ | ⟨hf, hd⟩
        · rw [hd, hd3, hd2, hd1 hne] at h2
          simp only [Bool.false_eq_true, if_false, Option.map_eq_some_iff] at h2
          obtain ⟨⟨s2, sig2, ρ5⟩, h2, hx⟩ := h2
          simp only [Prod.mk.injEq] at hx
          obtain ⟨rfl, rfl, -⟩ := hx
          exact .noRounds (heb _ _ _ _ h2).2
        · rw [hd (by simpa using hne)] at h2
          simp only [if_true, Option.some.injEq, Prod.mk.injEq] at h2
          obtain ⟨rfl, rfl, -⟩ := h2
          rw [List.append_nil]
          exact .rounds hf

theorem Silent.emits {p q : Str → Prop} {Lay : Str → Sig → Prop} {code : List Stmt} (hs : Silent W code)
    (h : ∀ u, q u → ∃ a s, p a ∧ Lay s .next ∧ u = a ++ s) : EmitsIn W p q Lay code := by
  intro ρ t sig ρ' he
  obtain ⟨rfl, rfl, hd⟩ := hs _ _ _ _ he
  exact ⟨hd, fun _ u hu => h u hu, fun hn => absurd rfl hn⟩

theorem Silent.append {a b : List Stmt} (ha : Silent W a) (hb : Silent W b) : Silent W (a ++ b) := by
  intro ρ t sig ρ' he
  obtain ⟨ρ1, hd, he⟩ := ha.before he
  obtain ⟨h1, h2, h3⟩ := hb _ _ _ _ he
  exact ⟨h1, h2, h3.trans hd⟩

theorem Silent.nil : Silent W [] := by
  intro ρ t sig ρ' he
  cases he
  exact ⟨rfl, rfl, rfl⟩

theorem Silent.emit {g : Gen} {code : List Stmt} (h : Silent W code) : Silent W (g.emit code) := by
  unfold Gen.emit
  split
  · exact .nil
  · exact h

/-- Nothing but whitespace is added to the pending output. -/
theorem Silent.quiet {code : List Stmt} (hs : Silent W code) {Lay : Str → Sig → Prop} {x : Option Wsp}
    {nl : Option WH} (hp : g'.pend = g.pend ++ (wsLit (applyWs (sideOf I x) (g.nextWs.getD []))).map .lit)
    (hn : g'.nextWs = none) (hl : Lay [] .next) : EmitsIn W (pendP W I (some (sideOf I x)) g) (pendP W I nl g') Lay code := by
  refine hs.emits ?_
  rintro u ⟨b, hb, rfl⟩
  rw [hp] at hb
  rw [wsTail_none hn, List.append_nil]
  exact ⟨b, [], PendT_ws hb, hl, by simp⟩

theorem call_laid (hs : Stable W) (ok : LaysOut W I rec) (fr : RecFrame rec) (hH : HChain H chain)
    (hI : ∀ p c, assoc I.contexts p = some c → NeatCtx c) (hctx : NeatCtx ctx)
    (hch : ∀ c ∈ chain, NeatCtx c) {ws : Ws} {scope : Option Str} {name : Str} {args : List Expr} {before : WH}
    {nl : Option WH} (h : writeCall rec I H ctx g ws scope name args = .ok (code, g')) (hc : Clean g)
    (hsup : g.superBlock = sup) (hname : name ≠ c!"super") :
    EmitsIn W (pendP W I (some (sideOf I ws.l)) g) (pendP W I nl g')
      (LaidNode W I chain ctx sup before (.call ws scope name args) nl) code := by
  have hfr := writeCall_frame fr hc h
  obtain ⟨d, own, pre, g1, named, ns, rs, L, b, g2, fl, g3, g4, h1, h2, h3, h4, h5, h6, h7, h8, hg', hcode⟩ :=
    writeCall_inv h
  obtain ⟨hown, hdn⟩ := findMacro_neat hI hctx h1
  have hm := findMacro_eq h1
  have f0 := flushWs_frame (I := I) hc ws
  have f1 := writeBuf_frame (push_clean f0.clean) h2
  have f2 := f1.trans (openLine_frame f1.clean)
  obtain ⟨b1, b2, b3, b4, b5⟩ := writeBuf_locals h2
  obtain ⟨o1, o2, o3, o4, o5⟩ := openLine_same g1
  have hwrap : ∀ bd, g'.wrap .block bd = [.block bd] := by
    intro bd; unfold wrap; rw [if_neg (by simp [hfr.1.clean.d])]
  rw [hcode, hwrap]
  refine EmitsIn.written ?_ ?_ (fun u hu => (pendP_nil hfr.2.2.2.2 hfr.2.2.1).mp hu)
  · intro ρ t sig ρ' he
    obtain ⟨e1, e2, e3⟩ := writeBuf_ran hs (push_clean f0.clean).d h2 he
    exact ⟨e1, e2, PendT_flushWs hc e3⟩
  · refine Runs.block ?_
    have hcl : Clean { prepareWs I g1.openLine d.ws1 with locals := L } :=
      ⟨f2.clean.pd, f2.clean.d, (bindParams_frame _ f2.clean.wf h5).1⟩
    have hbody := body_laid hs ok fr hH hown hch h6 hcl (sup := sup) (by
        show g1.openLine.superBlock = sup
        rw [o5, b5]; exact f0.sup.trans hsup) (o2.trans b2) (o3.trans (b3.trans (by
          show (flushWs I g ws).nextWs = none
          rw [flushWs_eq I ws hc.pd]))) (shouldTrimWs_side I d.ws1.r) hdn (.inr h7)
    intro ρ t sig ρ' he
    have hlet : Silent W ((prepareWs I g1.openLine d.ws1).emit (if ns.isEmpty then [] else [.letMany ns rs])) := by
      refine Silent.emit ?_
      split
      · exact .nil
      · intro ρ t sig ρ' he
        rw [execList_single] at he
        simp only [Stmt.exec, Option.map_eq_some_iff] at he
        obtain ⟨vs, -, he⟩ := he
        cases he
        exact ⟨rfl, rfl, rfl⟩
    rw [List.append_assoc] at he
    obtain ⟨ρ1, hd, he⟩ := hlet.before he
    obtain ⟨d1, hl⟩ := hbody _ _ _ _ he
    exact ⟨d1.trans hd, .call hname hm hl⟩

theorem flush_written (hs : Stable W) {ws : Ws} {pre : List Stmt} {g1 : Gen} (hc : Clean g)
    (h : writeBuf I (flushWs I g ws) = .ok (pre, g1)) :
    EmitsIn W (pendP W I (some (sideOf I ws.l)) g) (· = []) (fun s sig => s = [] ∧ sig = .next) pre := by
  intro ρ t sig ρ' he
  obtain ⟨rfl, rfl, e3⟩ := writeBuf_ran hs (flushWs_frame hc ws).clean.d h he
  refine ⟨rfl, ?_, fun hn => absurd rfl hn⟩
  rintro - u rfl
  exact ⟨t, [], PendT_flushWs hc e3, ⟨rfl, rfl⟩, rfl⟩

theorem block_laid (hs : Stable W) (ok : LaysOut W I rec) (fr : RecFrame rec)
    (hH : HChain H chain) (hctx : NeatCtx ctx) (hch : ∀ c ∈ chain, NeatCtx c) {name : Option Str} {outer : Ws}
    {cur : Str × Nat} {Lay : Str → Sig → Prop}
    (h : writeBlock rec I H ctx g name outer = .ok (code, g')) (hcur : currentBlock name g.superBlock = .ok cur)
    (hc : Clean g) (nl : Option WH)
    (hl : ∀ cctx d s sig, (blockDefs chain cur.1)[cur.2]? = some (cctx, d) →
      Laid W I chain (withMacrosOf cctx ctx) (some (cur.1, cur.2)) (sideOf I d.ws1.r) d.nodes (some (sideOf I d.ws2.l)) s sig →
      Lay s sig) :
    EmitsIn W (pendP W I (some (sideOf I outer.l)) g) (pendP W I nl g') Lay code := by
  have hfr := writeBlock_frame fr hc h
  obtain ⟨cur', pre, g1, hh, defs, cctx, d, b, g2, fl, g3, h1, h2, rfl, h3, h4, h5, h6, rfl, hg'⟩ :=
    writeBlock_inv h hc.pd hc.d
  rw [hcur] at h1
  cases h1
  have hdefs := hH _ rfl _ _ h3
  subst hdefs
  obtain ⟨hcn, hdn⟩ := blockDefs_neat hch h4
  have hc0 : Clean { new I .empty g1.indent false with
      pend := [], pdiscard := false, skipWs := sideOf I d.ws1.r, superBlock := some cur } :=
    ⟨rfl, rfl, by simp [new, MapChain.empty]⟩
  have hb := ok (before := sideOf I d.ws1.r) (after := some (sideOf I d.ws2.l))
    (chain := chain) (ctx := withMacrosOf cctx ctx) (sup := some (cur.1, cur.2)) (level := .block) h5 hc0 rfl hH (by simp)
    (fun _ => ⟨rfl, rfl⟩) hdn (by simp) (hcn.merge hctx) hch
  have f2 := fr _ _ _ _ _ _ _ h5 hc0
  have hnw := hfr.2.2.1
  rw [List.append_assoc]
  refine EmitsIn.seq (flush_written hs hc h2) (L2 := Lay) ?_ (by rintro s t sig ⟨rfl, -⟩ hl; exact hl)
    (by rintro s sig ⟨rfl, rfl⟩ hn; exact absurd rfl hn)
  have hb' : EmitsIn W (· = []) (pendP W I (some (sideOf I d.ws2.l)) g2) Lay b :=
    hb.mono (fun a ha => (pendP_nil rfl rfl).mp ha) (fun a ha => ha) (fun s sig h => hl _ _ _ _ h4 h)
  unfold flushIf at h6
  split at h6
  · refine EmitsIn.seq hb' (L2 := fun s sig => s = [] ∧ sig = .next) ?_ (by
      rintro s t sig h ⟨rfl, rfl⟩; rw [List.append_nil]; exact h) (fun s sig h _ => h)
    intro ρ t sig ρ' he
    obtain ⟨rfl, rfl, e3⟩ := writeBuf_ran hs f2.clean.d h6 he
    refine ⟨rfl, ?_, fun hn => absurd rfl hn⟩
    obtain ⟨k, hk⟩ := writeBuf_state h6
    have hpend : g'.pend = (wsLit (applyWs (sideOf I d.ws2.l) (g2.nextWs.getD []))).map .lit := by
      rw [hg', flushWs_eq I d.ws2 (by rw [hk]; exact f2.clean.pd), hk]
      simp
    rintro - u ⟨w, hw, rfl⟩
    rw [hpend] at hw
    rw [PendT_lits.mp hw, wsLit_flatten, wsTail_none hnw]
    exact ⟨t ++ wsTail (some (sideOf I d.ws2.l)) g2, [], ⟨t, e3, rfl⟩, ⟨rfl, rfl⟩, by simp [wsTail]⟩
  · cases h6
    rw [List.append_nil]
    refine hb'.mono (fun _ h => h) ?_ (fun _ _ h => h)
    rintro u ⟨w, hw, rfl⟩
    have hpend : g'.pend = g2.pend ++ (wsLit (applyWs (sideOf I d.ws2.l) (g2.nextWs.getD []))).map .lit := by
      rw [hg', flushWs_eq I d.ws2 f2.clean.pd]
    rw [hpend] at hw
    rw [wsTail_none hnw, List.append_nil]
    exact PendT_ws hw

theorem include_laid (hs : Stable W) (hb : AllBlocksOk I) (ok : LaysOut W I rec) (fr : RecFrame rec) (td : TopDone rec)
    (hI : ∀ p c, assoc I.contexts p = some c → NeatCtx c) (hctx : NeatCtx ctx) {ws : Ws} {path : Str} {before : WH}
    {nl : Option WH} (h : handleInclude rec I ctx g ws path = .ok (code, g')) (hc : Clean g) :
    EmitsIn W (pendP W I (some (sideOf I ws.l)) g) (pendP W I nl g')
      (LaidNode W I chain ctx sup before (.include ws path) nl) code := by
  have hfr := handleInclude_frame fr hc h
  obtain ⟨pre, g1, p, c, Hc, b, g2, fl, g3, h1, h2, h3, h4, h5, h6, hcode, hg'⟩ := handleInclude_inv h
  have f0 := flushWs_frame (I := I) hc ws
  have f1 := f0.trans (writeBuf_frame f0.clean h1)
  have hc0 : Clean { new I g1.locals.withParent g1.indent g1.discard with pdiscard := g1.pdiscard } :=
    ⟨f1.clean.pd, f1.clean.d, by simp [new, MapChain.withParent]⟩
  have f2 := fr _ _ _ _ _ _ _ h5 hc0
  have hbc : BlocksOk (mergeCtx c ctx) := hb p c h3
  obtain ⟨chain', hch, hroot, hHc⟩ := includeHeritage_chain hb hbc h4
  have hcn : NeatCtx (mergeCtx c ctx) := (hI _ _ h3).merge hctx
  obtain ⟨n1, n2, n3⟩ := chain_neat hI hcn hch
  replace h5 : rec Hc (rootOf Hc (mergeCtx c ctx)) (rootOf Hc (mergeCtx c ctx)).nodes .top
      { new I g1.locals.withParent g1.indent g1.discard with pdiscard := g1.pdiscard } = .ok (b, g2) := h5
  rw [hroot] at h5
  have hout := ok (before := .preserve) (after := none) h5 hc0 rfl hHc
    (by simp) (fun _ => ⟨rfl, rfl⟩) n2.nodes (fun _ => n3) n2 n1
  rw [hcode, List.append_assoc, List.append_assoc]
  refine EmitsIn.written ?_ ?_ (fun u hu => (pendP_nil hfr.2.2.2.2 hfr.2.2.1).mp hu)
  · intro ρ t sig ρ' he
    obtain ⟨e1, e2, e3⟩ := writeBuf_ran hs f0.clean.d h1 he
    exact ⟨e1, e2, PendT_flushWs hc e3⟩
  · intro ρ t sig ρ' he
    have hinc : Silent W (({ g1 with indent := g3.indent, discard := g3.discard } : Gen).emit [.includeBytes p]) := by
      refine Silent.emit ?_
      intro ρ t sig ρ' he
      rw [execList_single] at he
      cases he
      exact ⟨rfl, rfl, rfl⟩
    obtain ⟨ρ1, hd, he⟩ := hinc.before he
    have hrun : Runs W (Laid W I chain' (chain'.getLastD (withMacrosOf c ctx)) none .preserve
        (chain'.getLastD (withMacrosOf c ctx)).nodes none) (b ++ fl) := by
      refine EmitsIn.body hout (fun a ha => (pendP_nil rfl rfl).mp ha) ?_
      intro ρ t sig ρ' he
      obtain ⟨e1, e2, e3⟩ := writeBuf_ran hs f2.clean.d h6 he
      refine ⟨e1, e2, t, e3, ?_⟩
      rw [wsTail_none (td _ _ _ _ _ _ h5), List.append_nil]
    obtain ⟨d1, hl⟩ := hrun _ _ _ _ he
    exact ⟨d1.trans hd, .include_ h2 h3 hch hl⟩

/-- ... and for these filters it always does. -/
theorem visitExpr_unwrapped {L : Locals} {e : Expr} {r : RExpr} (h : visitExpr I L e = .ok (r, false)) : ¬ OptsOut e := by
  rintro ⟨name, args, rfl, hn⟩
  unfold visitExpr at h
  repeat' split at h
  all_goals first
    | (cases h; done)
    | (obtain ⟨x, h1, h⟩ := except_bind h; cases h; done)
    | (obtain ⟨x, h1, h⟩ := except_bind h; obtain ⟨y, h2, h⟩ := except_bind h; cases h; done)
    | skip
  all_goals rcases hn with rfl | rfl | rfl <;> simp_all

theorem showArg_displayed {n : Node} {e : Expr} {L : Locals} {ρ : REnv U} {r : RExpr} {w : Bool} {v : Val U} {s : Str}
    (hn : Shows n e) (h : visitExpr I L e = .ok (r, w)) (hv : r.eval W ρ = some v) (hs : showArg W (escOf I w) v 0 = some s) :
    Displayed W I n s := by
  unfold showArg at hs
  cases w with
  | true =>
    simp only [escOf, if_true] at hs
    exact ⟨e, v, s, hn, ⟨L, ρ, r, _, h, hv⟩, hs, .inl ⟨visitExpr_wrapped h, rfl⟩⟩
  | false =>
    simp only [escOf, Bool.false_eq_true, if_false, Option.map_eq_some_iff] at hs
    obtain ⟨t, ht, rfl⟩ := hs
    exact ⟨e, v, t, hn, ⟨L, ρ, r, _, h, hv⟩, ht, .inr ⟨visitExpr_unwrapped h, rfl⟩⟩

theorem filter_laid (fr : RecFrame rec) (qr : RecQuiet rec) {ws1 ws2 : Ws} {f : FilterApp} {nodes : List Node}
    {before : WH} {nl : Option WH} (h : writeFilterBlock rec I H ctx g ws1 f nodes ws2 = .ok (code, g')) (hc : Clean g)
    (hq : quietList nodes = true) (hv : nodes.any visible = true) :
    EmitsIn W (pendP W I (some (sideOf I ws1.l)) g) (pendP W I nl g')
      (LaidNode W I chain ctx sup before (.filterBlock ws1 f nodes ws2) nl) code := by
  have hws := writeFilterBlock_ws fr hc qr hq hv h
  obtain ⟨b, g1, p, g2, h1, h2, h3⟩ := writeFilterBlock_inv h
  have f1 := flushWs_frame (I := I) hc ws1
  have hc1 : Clean (prepareWs I { flushWs I g ws1 with pend := [] } ws1) := ⟨f1.clean.pd, f1.clean.d, f1.clean.wf⟩
  have q1 := qr _ _ _ _ _ _ hq hc1 h1
  have f2 := fr _ _ _ _ _ _ _ h1 hc1
  have hp1 : g1.pend ≠ [] := q1.pend (.inr hv)
  have hp2 : (flushWs I g1 ws2).pend ≠ [] := by rw [flushWs_eq I ws2 f2.clean.pd]; simp [hp1]
  rcases h3 with ⟨rfl, _, _⟩ | ⟨stm, r, w, hne, hst, hvis, rfl, hg'⟩
  · exact absurd (prepareFormat_none h2) hp2
  have f3 := flushWs_frame (I := I) f2.clean ws2
  have f4 := f3.trans (prepareFormat_frame f3.clean h2)
  have hpend' : g'.pend = (flushWs I g ws1).pend ++ [.generated r w] := by
    rw [hg']
    show (push _ _).pend = _
    unfold push
    rw [if_neg (by simp [f4.clean.pd])]
  have hb : Silent W b := by
    intro ρ t sig ρ' he
    obtain ⟨new, e1, e2, e3, e4⟩ := exec_fresh b q1.code he
    dsimp only at e1 e2 e3
    exact ⟨e1, e2, by rw [e3]⟩
  have hstm : Silent W [stm] := by
    intro ρ t sig ρ' he
    rw [execList_single, hst] at he
    cases p with
    | none => exact absurd rfl hne
    | plain s => cases he; exact ⟨rfl, rfl, rfl⟩
    | formatted fmt args =>
      simp only [Stmt.exec, Option.map_eq_some_iff] at he
      obtain ⟨s, -, he⟩ := he
      cases he
      exact ⟨rfl, rfl, rfl⟩
  refine (hb.append hstm.emit).emits ?_
  rintro u ⟨x, hx, rfl⟩
  rw [hpend'] at hx
  rw [wsTail_none hws.1, List.append_nil]
  obtain ⟨a, s, rfl, ha, hs⟩ := PendT_append.mp hx
  obtain ⟨L, ρ, hw⟩ := PendT_single hs
  simp only [wText, Option.bind_eq_some_iff] at hw
  obtain ⟨v, hev, hsh⟩ := hw
  exact ⟨a, s, PendT_flushWs hc ha, .shown (showArg_displayed (.filter ws1 f nodes ws2 _) hvis hev hsh), rfl⟩

theorem let_laid (hs : Stable W) {ws : Ws} {t : Target} {val : Option Expr} {before : WH} {nl : Option WH}
    (h : writeLet I g ws t val = .ok (code, g')) (hc : Clean g) :
    EmitsIn W (pendP W I (some (sideOf I ws.l)) g) (pendP W I nl g')
      (LaidNode W I chain ctx sup before (.let_ ws t val) nl) code := by
  have hfr := writeLet_frame hc h
  have f1 := handleWs_frame (I := I) hc ws
  have hrun : ∀ {c : List Stmt}, Silent W c → Runs W (LaidNode W I chain ctx sup before (.let_ ws t val) nl) c := by
    intro c hsc ρ t sig ρ' he
    obtain ⟨rfl, rfl, hd⟩ := hsc _ _ _ _ he
    exact ⟨hd, .let_ _ _ _⟩
  have hpre : ∀ {s : List Stmt} {g1 : Gen}, writeBuf I (Gen.handleWs I g ws) = .ok (s, g1) → ∀ ρ t sig ρ',
      execList W ρ s = some (t, sig, ρ') → sig = .next ∧ ρ' = ρ ∧ pendP W I (some (sideOf I ws.l)) g t := by
    intro s g1 hw ρ t sig ρ' he
    obtain ⟨e1, e2, e3⟩ := writeBuf_ran hs f1.clean.d hw he
    exact ⟨e1, e2, PendT_handleWs hc e3⟩
  rcases writeLet_inv h with ⟨s, g1, -, h1, rfl, rfl⟩ | ⟨e, r, w, sh, s, g1, -, h1, h2, h3, rfl, rfl⟩
  · refine EmitsIn.written (hpre h1) (hrun (Silent.emit ?_)) ?_
    · intro ρ t sig ρ' he
      rw [execList_single] at he
      cases he
      exact ⟨rfl, rfl, rfl⟩
    · intro u hu
      exact (pendP_nil (by show g1.pend = []; exact (writeBuf_locals h1).2.1) hfr.2.1).mp hu
  · have hst : Silent W (g1.emit [match targetName t with
          | some n => if sh || (g1.locals.get n).isNone then .letInit t r else .assign (normalizeIdentifier n) r
          | none => .letInit t r]) := by
      have hlet : Silent W [.letInit t r] := by
        intro ρ t sig ρ' he
        rw [execList_single] at he
        simp only [Stmt.exec, Option.map_eq_some_iff, Option.bind_eq_some_iff] at he
        obtain ⟨v, -, vs, -, he⟩ := he
        cases he
        exact ⟨rfl, rfl, rfl⟩
      refine Silent.emit ?_
      cases targetName t with
      | none => exact hlet
      | some n =>
        dsimp only
        split
        · exact hlet
        · intro ρ t sig ρ' he
          rw [execList_single] at he
          simp only [Stmt.exec, Option.map_eq_some_iff, Option.bind_eq_some_iff] at he
          obtain ⟨v, -, vs, -, he⟩ := he
          cases he
          exact ⟨rfl, rfl, rfl⟩
    unfold flushIf at h3
    split at h3
    · refine EmitsIn.written (hpre h3) (hrun hst) ?_
      intro u hu
      exact (pendP_nil (by show g1.pend = []; exact (writeBuf_locals h3).2.1) hfr.2.1).mp hu
    · cases h3
      refine Silent.quiet (Silent.nil.append hst) ?_ hfr.2.1 (.let_ _ _ _)
      show (Gen.handleWs I g ws).pend = _
      rw [handleWs_eq I ws hc.pd]

theorem jump_laid (hs : Stable W) {ws : Ws} {st : Stmt} {s : List Stmt} {sig : Sig} {Lay : Str → Sig → Prop}
    {q : Str → Prop} (h : writeBuf I (Gen.handleWs I g ws) = .ok (s, g')) (hc : Clean g) (hsig : sig ≠ .next)
    (hst : ∀ ρ : REnv U, st.exec W ρ = some ([], sig, ρ)) (hl : Lay [] sig) :
    EmitsIn W (pendP W I (some (sideOf I ws.l)) g) q Lay (s ++ [st]) := by
  have f1 := handleWs_frame (I := I) hc ws
  intro ρ t sig' ρ' he
  rcases exec_append he with ⟨h1, h2⟩ | ⟨t1, ρ1, t2, h1, h2, rfl⟩
  · exact absurd (writeBuf_ran hs f1.clean.d h h2).1 h1
  · obtain ⟨-, rfl, e3⟩ := writeBuf_ran hs f1.clean.d h h1
    rw [execList_single, hst] at h2
    cases h2
    exact ⟨rfl, fun hn => absurd hn hsig, fun _ => ⟨t1, [], PendT_handleWs hc e3, hl, rfl⟩⟩

theorem ParsedNode.macro {w1 w2 : Ws} {name : Str} {args : List Str} {ns : List Node}
    (h : ParsedNode (.macro w1 name args ns w2)) : ParsedList ns := by
  obtain ⟨b, h1, h2⟩ := h
  exact ⟨h1.2.2.2.2.2, _, h2⟩

theorem NeatList.branch {w w2 : Ws} {bs : List Cond} {rest : List Node} (h : NeatList (.if_ w bs :: rest))
    {c : Option CondTest} {ns : List Node} (hm : .mk w2 c ns ∈ bs) : NeatList ns :=
  ⟨h.1.head.branch hm, fun n hn => h.2.head n (by
    simp only [parts, List.mem_cons]
    exact .inr (partsC_mem bs ns (List.mem_map.mpr ⟨_, hm, rfl⟩) n hn))⟩

theorem NeatList.arm {w w2 w3 : Ws} {e : Expr} {bs : List When} {rest : List Node}
    (h : NeatList (.match_ w e bs w2 :: rest)) {c : Target} {ns : List Node} (hm : .mk w3 c ns ∈ bs) : NeatList ns :=
  ⟨h.1.head.arm hm, fun n hn => h.2.head n (by
    simp only [parts, List.mem_cons]
    exact .inr (partsW_mem bs ns (List.mem_map.mpr ⟨_, hm, rfl⟩) n hn))⟩

theorem NeatList.loop {w1 w2 w3 : Ws} {t : Target} {it : Expr} {c : Option Expr} {body els rest : List Node}
    (h : NeatList (.loop w1 t it c body w2 els w3 :: rest)) : NeatList body ∧ NeatList els :=
  ⟨⟨h.1.head.loop.1, fun n hn => h.2.head n (by simp [parts, hn])⟩,
    ⟨h.1.head.loop.2, fun n hn => h.2.head n (by simp [parts, hn])⟩⟩

theorem node_laid (hs : Stable W) (hb : AllBlocksOk I) (ok : LaysOut W I rec)
    (fr : RecFrame rec) (qr : RecQuiet rec) (td : TopDone rec) (hH : HChain H chain)
    (hI : ∀ p c, assoc I.contexts p = some c → NeatCtx c) (hctx : NeatCtx ctx) (hch : ∀ c ∈ chain, NeatCtx c)
    {level : Level} {n : Node} {rest : List Node} {before : WH} (h : handleNode rec I H ctx level g n = .ok (code, g'))
    (hc : Clean g) (hsup : g.superBlock = sup) (hlit : isLitNode n = true → g.nextWs = none ∧ g.skipWs = before)
    (hn : NeatList (n :: rest)) (hext : level = .top → ∀ p, n ≠ .extends_ p) (nl : Option WH) :
    EmitsIn W (pendP W I (some (sideOf I (leftMark n))) g) (pendP W I nl g') (LaidNode W I chain ctx sup before n nl) code
      ∧ (isLitNode n = false → g'.nextWs = none ∧ g'.skipWs = sideOf I (rightMark n)) := by
  cases n with
  | lit l =>
    obtain ⟨g2, h1, h⟩ := except_bind h
    cases h
    obtain ⟨hnw, hsk⟩ := hlit rfl
    obtain ⟨b, hok⟩ := hn.1.head.ok
    obtain ⟨out, nw, sk, rfl, -, ht⟩ := visitLit_eq hc.pd (litOk_parsed hok.2.2.2.2.1.1) h1
    refine ⟨?_, by simp [isLitNode]⟩
    refine EmitsIn.pending ?_
    rintro u ⟨x, hx, rfl⟩
    obtain ⟨a, s, rfl, ha, hx⟩ := PendT_append.mp hx
    rw [PendT_lits.mp hx, List.append_assoc, ht nl, hsk]
    exact ⟨a, _, ⟨a, ha, by rw [wsTail_none hnw, List.append_nil]⟩, .lit l, rfl⟩
  | comment w c =>
    cases h
    refine ⟨?_, fun _ => by rw [handleWs_eq I w hc.pd]; exact ⟨rfl, rfl⟩⟩
    exact Silent.quiet .nil (by rw [handleWs_eq I w hc.pd]; rfl) (by rw [handleWs_eq I w hc.pd]) (.comment _ _)
  | expr w e =>
    cases h
    have f1 := handleWs_frame (I := I) hc w
    have hpush : writeExpr I g w e = { Gen.handleWs I g w with pend := (Gen.handleWs I g w).pend ++ [.expr e] } := by
      unfold writeExpr push
      rw [if_neg (by simp [f1.clean.pd])]
    have hws : (writeExpr I g w e).nextWs = none ∧ (writeExpr I g w e).skipWs = sideOf I w.r := by
      rw [hpush, handleWs_eq I w hc.pd]; exact ⟨rfl, rfl⟩
    refine ⟨?_, fun _ => hws⟩
    refine EmitsIn.pending ?_
    rintro u ⟨x, hx, rfl⟩
    rw [hpush] at hx
    rw [wsTail_none hws.1, List.append_nil]
    obtain ⟨a, s, rfl, ha, hx⟩ := PendT_append.mp hx
    obtain ⟨L, ρ, hw⟩ := PendT_single hx
    refine ⟨a, s, PendT_handleWs hc ha, .shown ?_, rfl⟩
    cases hv : visitExpr I L e with
    | error x => simp only [wText, hv] at hw; cases hw
    | ok x =>
      obtain ⟨r, w2⟩ := x
      simp only [wText, hv, Option.bind_eq_some_iff] at hw
      obtain ⟨v, hev, hsh⟩ := hw
      exact showArg_displayed (.expr w e) hv hev hsh
  | call w scope name args =>
    simp only [handleNode] at h
    split at h
    · rename_i hname
      have hfr := writeBlock_frame fr hc h
      subst hname
      refine ⟨?_, fun _ => hfr.2.2⟩
      obtain ⟨cur, -, -, -, -, -, -, -, -, -, -, h1, -⟩ := writeBlock_inv h hc.pd hc.d
      rw [hsup] at h1
      cases sup with
      | none => cases h1
      | some bk =>
        cases h1
        exact block_laid hs ok fr hH hctx hch h (cur := (bk.1, bk.2 + 1)) (by rw [hsup]; rfl) hc nl
          (fun cctx d s sig h1 h2 => .super h1 h2)
    · rename_i hname
      have hf := writeCall_frame fr hc h
      exact ⟨call_laid hs ok fr hH hI hctx hch h hc hsup hname, fun _ => ⟨hf.2.2.1, hf.2.2.2.1⟩⟩
  | let_ w t val => exact ⟨let_laid hs h hc, fun _ => (writeLet_frame hc h).2⟩
  | if_ w bs =>
    have hf := writeIf_frame fr hc h
    exact ⟨if_laid hs ok fr hH hctx hch h hc hsup (fun w c ns hm => hn.branch hm), fun _ => ⟨hf.2.2.1, hf.2.2.2.1⟩⟩
  | match_ w e arms w2 =>
    have hf := writeMatch_frame fr hc h
    exact ⟨match_laid hs ok fr hH hctx hch h hc hsup (fun w c ns hm => hn.arm hm), fun _ => ⟨hf.2.2.1, hf.2.2.2.1⟩⟩
  | loop w t iter cond body w2 els w3 =>
    have hf := writeLoop_frame fr hc h
    exact ⟨loop_laid hs ok fr hH hctx hch h hc hsup hn.loop.1 hn.loop.2, fun _ => ⟨hf.2.2.1, hf.2.2.2.1⟩⟩
  | extends_ p =>
    simp only [handleNode] at h
    split at h
    · rename_i hl; exact absurd rfl (hext hl p)
    · cases h
  | blockDef w name ns w2 =>
    simp only [handleNode] at h
    obtain ⟨cur, -, -, -, -, -, -, -, -, -, -, h1, -⟩ := writeBlock_inv h hc.pd hc.d
    have hcur : cur = (name, 0) := by
      cases hsb : g.superBlock with
      | none => rw [hsb] at h1; cases h1; rfl
      | some pg =>
        rw [hsb] at h1
        simp only [currentBlock] at h1
        split at h1
        · cases h1
        · cases h1; rfl
    subst hcur
    exact ⟨block_laid hs ok fr hH hctx hch h h1 hc nl (fun cctx d s sig h1 h2 => .block h1 h2),
      fun _ => (writeBlock_frame fr hc h).2.2⟩
  | «include» w p =>
    have hf := handleInclude_frame fr hc h
    exact ⟨include_laid hs hb ok fr td hI hctx h hc, fun _ => ⟨hf.2.2.1, hf.2.2.2.1⟩⟩
  | raw w l w2 =>
    obtain ⟨g2, h1, h⟩ := except_bind h
    cases h
    obtain ⟨b, hok⟩ := hn.1.head.ok
    have f1 := handleWs_frame (I := I) hc w
    have f2 := f1.trans (visitLit_frame f1.clean h1)
    obtain ⟨out, nw, sk, hg2, -, ht⟩ := visitLit_eq f1.clean.pd (litOk_parsed hok.2.2.2.2.1) h1
    have hws := handleWs_eq I (g := g) w hc.pd
    refine ⟨?_, fun _ => by rw [handleWs_eq I w2 f2.clean.pd]; exact ⟨rfl, rfl⟩⟩
    refine EmitsIn.pending ?_
    rintro u ⟨x, hx, rfl⟩
    rw [wsTail_none (by rw [handleWs_eq I w2 f2.clean.pd]), List.append_nil]
    obtain ⟨y, hy, rfl⟩ := PendT_handleWs f2.clean hx
    rw [hg2] at hy
    obtain ⟨a, s, rfl, ha, hy⟩ := PendT_append.mp hy
    rw [PendT_lits.mp hy, List.append_assoc, ht]
    refine ⟨a, _, PendT_handleWs hc ha, ?_, rfl⟩
    rw [hws]
    exact .raw w w2 l
  | import_ w a b =>
    simp only [handleNode] at h
    split at h
    · cases h
      refine ⟨?_, fun _ => by rw [handleWs_eq I w hc.pd]; exact ⟨rfl, rfl⟩⟩
      exact Silent.quiet .nil (by rw [handleWs_eq I w hc.pd]; rfl) (by rw [handleWs_eq I w hc.pd]) (.import_ _ _ _)
    · cases h
  | «macro» w a b c w2 =>
    simp only [handleNode] at h
    split at h
    · cases h
      have hnw : (prepareWs I (Gen.flushWs I g w) w2).nextWs = none := by
        show (Gen.flushWs I g w).nextWs = none
        rw [flushWs_eq I w hc.pd]
      refine ⟨?_, fun _ => ⟨hnw, shouldTrimWs_side I _⟩⟩
      refine Silent.quiet .nil ?_ hnw (.macro_ _ _ _ _ _)
      show (Gen.flushWs I g w).pend = _
      rw [flushWs_eq I w hc.pd]
      rfl
    · cases h
  | break_ w =>
    obtain ⟨⟨s, g1⟩, h1, h⟩ := except_bind h
    cases h
    have f1 := handleWs_frame (I := I) hc w
    have f2 := f1.trans (writeBuf_frame f1.clean h1)
    have hemit : (emit g' [.brk] : List Stmt) = [.brk] := by unfold emit; rw [if_neg (by simp [f2.clean.d])]
    obtain ⟨b1, b2, b3, b4, b5⟩ := writeBuf_locals h1
    rw [handleWs_eq I w hc.pd] at b3 b4
    rw [hemit]
    exact ⟨jump_laid hs h1 hc (by simp) (fun _ => rfl) (.break_ _), fun _ => ⟨b3, b4⟩⟩
  | continue_ w =>
    obtain ⟨⟨s, g1⟩, h1, h⟩ := except_bind h
    cases h
    have f1 := handleWs_frame (I := I) hc w
    have f2 := f1.trans (writeBuf_frame f1.clean h1)
    have hemit : (emit g' [.cont] : List Stmt) = [.cont] := by unfold emit; rw [if_neg (by simp [f2.clean.d])]
    obtain ⟨b1, b2, b3, b4, b5⟩ := writeBuf_locals h1
    rw [handleWs_eq I w hc.pd] at b3 b4
    rw [hemit]
    exact ⟨jump_laid hs h1 hc (by simp) (fun _ => rfl) (.continue_ _), fun _ => ⟨b3, b4⟩⟩
  | filterBlock w f nodes w2 =>
    have ht := hn.2.head (.filterBlock w f nodes w2) (by simp [parts])
    simp only [tidy, Bool.and_eq_true] at ht
    exact ⟨filter_laid fr qr h hc ht.1 ht.2, fun _ => writeFilterBlock_ws fr hc qr ht.1 ht.2 h⟩

theorem nodes_laid (hs : Stable W) (hb : AllBlocksOk I) (ok : LaysOut W I rec)
    (fr : RecFrame rec) (qr : RecQuiet rec) (td : TopDone rec) (hH : HChain H chain)
    (hI : ∀ p c, assoc I.contexts p = some c → NeatCtx c) (hctx : NeatCtx ctx) (hch : ∀ c ∈ chain, NeatCtx c)
    {level : Level} {after : Option WH} : (ns : List Node) → {before : WH} → {g g' : Gen} → {code : List Stmt} →
    handleNodes rec I H ctx level ns g = .ok (code, g') → Clean g → g.superBlock = sup →
    ((ns.head?.map isLitNode).getD false = true → g.nextWs = none ∧ g.skipWs = before) →
    NeatList ns → (level = .top → ∀ p, .extends_ p ∉ ns) →
    EmitsIn W (pendP W I (nextSide I ns after) g) (pendP W I after g') (Laid W I chain ctx sup before ns after) code
  | [], before, g, g', code, h, hc, hsup, hlit, hn, hext => by
    simp only [handleNodes, Except.ok.injEq, Prod.mk.injEq] at h
    obtain ⟨rfl, rfl⟩ := h
    exact EmitsIn.pending fun u hu => ⟨u, [], hu, .nil _ _ _ _ _, by simp⟩
  | n :: ns, before, g, g', code, h, hc, hsup, hlit, hn, hext => by
    simp only [handleNodes] at h
    obtain ⟨⟨s1, g1⟩, h1, h⟩ := except_bind h
    obtain ⟨⟨s2, g2⟩, h2, h⟩ := except_bind h
    cases h
    obtain ⟨o1, o2⟩ := node_laid hs hb ok fr qr td hH hI hctx hch h1 hc hsup (by simpa using hlit) hn
      (fun hl p he => hext hl p (by simp [he])) (nextSide I ns after)
    have f1 := handleNode_frame fr hc h1
    refine EmitsIn.seq (m := pendP W I (nextSide I ns after) g1) ?_ (nodes_laid (after := after) hs hb ok fr qr td hH hI
      hctx hch ns (before := sideOf I (rightMark n)) h2 f1.clean (f1.sup.trans hsup) ?_ hn.tail
      (fun hl p hm => hext hl p (List.mem_cons_of_mem _ hm))) (fun s t sig h1 h2 => .cons h1 h2)
      (fun s sig h1 h2 => .stop h1 h2)
    · exact o1
    · intro hh
      refine o2 ?_
      cases hl : isLitNode n with
      | false => rfl
      | true => exact absurd ⟨hl, hh⟩ hn.1.1.1

end

/-- The generator lays out texts at any depth. -/
theorem handle_lays {W : World U} {I : GenInput} (hs : Stable W) (hb : AllBlocksOk I)
    (hI : ∀ p c, assoc I.contexts p = some c → NeatCtx c) : (fuel : Nat) → LaysOut W I (handle I fuel)
  | 0 => by intro h; cases h
  | fuel + 1 => by
    have ih : LaysOut W I (handle I fuel) := handle_lays hs hb hI fuel
    rename_i H chain ctx sup before nodes after level g g' code
    intro h hc hsup hH hlv hlit hn hext hctx hch
    unfold handle at h
    obtain ⟨⟨s, g1⟩, h1, h⟩ := except_bind h
    obtain ⟨⟨s', g2⟩, h2, h⟩ := except_bind h
    cases h
    have f1 := handleNodes_frame (handle_frame fuel) nodes hc h1
    have o1 := nodes_laid (after := after) hs hb ih (handle_frame fuel) (handle_quiet fuel) handle_top hH hI
      hctx hch nodes h1 hc hsup hlit hn hext
    by_cases hl : level = .top
    · subst hl
      have ha := hlv.mp rfl
      subst ha
      refine EmitsIn.seq o1 (L2 := fun s sig => s = [] ∧ sig = .next) ?_ (by
        rintro s t sig h ⟨rfl, rfl⟩; rw [List.append_nil]; exact h) (fun s sig h _ => h)
      unfold handleEnd at h2
      rw [if_pos rfl] at h2
      dsimp only at h2
      split at h2
      · have f2 := flushWs_frame (I := I) f1.clean ⟨some (WH.toWsp g1.skipWs), none⟩
        obtain ⟨b1, b2, b3, b4, b5⟩ := writeBuf_locals h2
        rw [flushWs_eq I _ f1.clean.pd] at b3
        intro ρ t sig ρ' he
        obtain ⟨rfl, rfl, e3⟩ := writeBuf_ran hs f2.clean.d h2 he
        refine ⟨rfl, ?_, fun hn => absurd rfl hn⟩
        intro _ u hu
        rw [(pendP_nil b2 b3).mp hu, List.append_nil]
        obtain ⟨x, hx, rfl⟩ := PendT_flushWs f1.clean e3
        refine ⟨_, [], ⟨x, hx, rfl⟩, ⟨rfl, rfl⟩, ?_⟩
        have : sideOf I (some (WH.toWsp g1.skipWs)) = g1.skipWs := by cases g1.skipWs <;> rfl
        simp [wsTail, this]
      · rename_i hn
        have hn : g1.nextWs = none := by simpa using hn
        obtain ⟨b1, b2, b3, b4, b5⟩ := writeBuf_locals h2
        intro ρ t sig ρ' he
        obtain ⟨rfl, rfl, e3⟩ := writeBuf_ran hs f1.clean.d h2 he
        refine ⟨rfl, ?_, fun hn => absurd rfl hn⟩
        intro _ u hu
        rw [(pendP_nil b2 (b3.trans hn)).mp hu, List.append_nil]
        exact ⟨t, [], ⟨t, e3, by rw [wsTail_none hn, List.append_nil]⟩, ⟨rfl, rfl⟩, by simp⟩
    · unfold handleEnd at h2
      rw [if_neg hl] at h2
      cases h2
      rw [List.append_nil]
      exact o1

/-! ## The templates are neat -/

/-- The state of `Context::new`: everything collected is as the parser makes it. -/
structure ParsedSt (st : CtxSt) : Prop where
  blocks : ∀ e ∈ st.blocks, ParsedList e.2.nodes
  macros : ∀ e ∈ st.macros, ParsedList e.2.nodes
  nested : ∀ ns ∈ st.nested, ParsedList ns

theorem ctxNested_parsed {n : Node} (hp : ParsedNode n) : ∀ ns ∈ ctxNested n, ParsedList ns := by
  intro ns hns
  cases n with
  | if_ w bs =>
    simp only [ctxNested, List.mem_reverse, List.mem_map] at hns
    obtain ⟨⟨w2, c, ns2⟩, hm, rfl⟩ := hns
    exact hp.branch hm
  | match_ w e arms w2 =>
    simp only [ctxNested, List.mem_reverse, List.mem_map] at hns
    obtain ⟨⟨w2, c, ns2⟩, hm, rfl⟩ := hns
    exact hp.arm hm
  | loop w1 t it c body w2 els w3 =>
    simp only [ctxNested, List.mem_cons, List.not_mem_nil, or_false] at hns
    rcases hns with rfl | rfl
    · exact hp.loop.2
    · exact hp.loop.1
  | blockDef w1 name ns2 w2 =>
    simp only [ctxNested, List.mem_cons, List.not_mem_nil, or_false] at hns
    subst hns
    exact hp.block
  | _ => simp [ctxNested] at hns

theorem ctxNode_parsed {find : Str → Option Str} {top : Bool} {st st' : CtxSt} {n : Node}
    (h : ctxNode find top st n = .ok st') (hp : ParsedNode n) (hs : ParsedSt st) : ParsedSt st' := by
  have key : ParsedSt { st with nested := ctxNested n ++ st.nested } :=
    ⟨hs.blocks, hs.macros, by
      intro ns hns
      rcases List.mem_append.mp hns with hns | hns
      · exact ctxNested_parsed hp ns hns
      · exact hs.nested ns hns⟩
  cases n with
  | extends_ p =>
    simp only [ctxNode] at h
    repeat' split at h
    all_goals cases h
    exact ⟨hs.blocks, hs.macros, hs.nested⟩
  | import_ w p s =>
    simp only [ctxNode] at h
    repeat' split at h
    all_goals cases h
    exact ⟨hs.blocks, hs.macros, hs.nested⟩
  | «macro» w1 name args nodes w2 =>
    simp only [ctxNode] at h
    split at h
    · cases h
      refine ⟨hs.blocks, ?_, hs.nested⟩
      intro e he
      rcases mapInsert_or he with rfl | he
      · exact hp.macro
      · exact hs.macros e he
    · cases h
  | blockDef w1 name nodes w2 =>
    cases h
    refine ⟨?_, hs.macros, key.nested⟩
    intro e he
    rcases mapInsert_or he with rfl | he
    · exact hp.block
    · exact hs.blocks e he
  | _ => cases h; exact key

theorem ctxNodes_parsed {find : Str → Option Str} {top : Bool} : (ns : List Node) → {st st' : CtxSt} →
    ctxNodes find top ns st = .ok st' → ParsedList ns → ParsedSt st → ParsedSt st'
  | [], _, _, h, _, hs => by cases h; exact hs
  | n :: ns, _, _, h, hn, hs => by
    unfold ctxNodes at h
    obtain ⟨st1, h1, h⟩ := except_bind h
    exact ctxNodes_parsed ns h hn.tail (ctxNode_parsed h1 hn.head hs)

theorem ctxLoop_parsed {find : Str → Option Str} : (fuel : Nat) → {top : Bool} → {st st' : CtxSt} →
    ctxLoop find fuel top st = .ok st' → ParsedSt st → ParsedSt st'
  | fuel, top, st, st', h, hs => by
    unfold ctxLoop at h
    split at h
    · cases h; exact hs
    · rename_i ns rest hn
      cases fuel with
      | zero => cases h
      | succ fuel =>
        dsimp only at h
        obtain ⟨st1, h1, h⟩ := except_bind h
        have hns := hs.nested ns (by rw [hn]; simp)
        refine ctxLoop_parsed fuel h (ctxNodes_parsed ns h1 hns ⟨hs.blocks, hs.macros, ?_⟩)
        intro l hl
        exact hs.nested l (by rw [hn]; exact List.mem_cons_of_mem _ hl)

theorem contextNew_neat {find : Str → Option Str} {c : Ctx} {nodes : List Node} (h : contextNew find nodes = .ok c)
    (hn : NeatList nodes) : NeatCtx c := by
  have h0 := contextNew_parts h hn.2
  unfold contextNew at h
  obtain ⟨st, h1, h⟩ := except_bind h
  cases h
  have h2 := ctxLoop_parsed _ h1 ⟨by simp, by simp, fun ns hns => by rw [List.mem_singleton.mp hns]; exact hn.1⟩
  exact ⟨hn, fun e he => ⟨h2.blocks e he, h0.blocks e he⟩, fun e he => ⟨h2.macros e he, h0.macros e he⟩,
    fun he => (ctxLoop_extends _ h1 he).2 nodes [] rfl⟩

/-- Running the body of `render_into` writes a text that is laid out as the template says. -/
theorem generate_lays {W : World U} {I : GenInput} (hblk : I.block = none) (hs : Stable W) (hb : AllBlocksOk I)
    (hI : ∀ p c, assoc I.contexts p = some c → NeatCtx c) {H : Option Heritage} {chain : List Ctx} {ctx : Ctx}
    (hH : HChain H chain) (hr : rootOf H ctx = chain.getLastD ctx) (hch : ∀ c ∈ chain, NeatCtx c)
    (hctx : NeatCtx (chain.getLastD ctx)) (hext : ∀ p, .extends_ p ∉ (chain.getLastD ctx).nodes)
    {fuel : Nat} {code : List Stmt} (h : generate I fuel H ctx = .ok code) {ρ ρ' : REnv U} {s : Str}
    (he : execList W ρ code = some (s, .next, ρ')) :
    Laid W I chain (chain.getLastD ctx) none .preserve (chain.getLastD ctx).nodes none s .next := by
  unfold generate at h
  obtain ⟨⟨s, g⟩, h1, h⟩ := except_bind h
  replace h := (fits_ok h).2
  obtain ⟨g2, h2, h⟩ := except_bind h
  obtain ⟨g3, h3, h⟩ := except_bind h
  cases h
  change handle I fuel H (rootOf H ctx) (rootOf H ctx).nodes .top (Gen.new I .empty 2 false) = .ok (code, g) at h1
  rw [hr] at h1
  have hc : Clean (Gen.new I .empty 2 false) := ⟨by simp [Gen.new, hblk], rfl, by simp [Gen.new, MapChain.empty]⟩
  have := handle_lays hs hb hI fuel (before := .preserve) (after := none) h1 hc rfl hH (by simp)
    (fun _ => ⟨rfl, rfl⟩) hctx.nodes (fun _ => hext) hctx hch
  obtain ⟨-, h4, -⟩ := this _ _ _ _ he
  obtain ⟨a, x, ha, hl, hx⟩ := h4 rfl [] ((pendP_nil (handle_written h1) (handle_top _ _ _ _ _ _ h1)).mpr rfl)
  rw [(pendP_nil rfl rfl).mp ha, List.append_nil] at hx
  rw [hx]
  exact hl

end Askama
