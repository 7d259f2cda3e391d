import Verif.Lemmas.Woven
import Verif.Spec.Fragment
import Verif.Lemmas.Code
import Verif.Lemmas.Core
import Verif.Lemmas.VarNames

/-! Fragments: what the generator does while it discards output. -/

namespace Askama

open Askama.Spec Askama.Gen

section

variable {U : Type} {W : World U} {I : GenInput}

/-! ## Code that writes nothing -/

/-- Running the code writes nothing and leaves the loop item alone. -/
def Dumb (W : World U) (code : List Stmt) : Prop :=
  ∀ ρ x, execList W ρ code = some x → x.1 = [] ∧ x.2.2.item = ρ.item

/-- The code declares no variables that look like paths. -/
def Lower (W : World U) (code : List Stmt) : Prop := ∀ s ∈ code, ∀ n ∈ s.lets W, pathLike n = false

/-- Code that writes nothing, leaves the loop item alone and declares no variables that look like paths. If `d` holds,
there is none. -/
def Mute (W : World U) (d : Bool) (code : List Stmt) : Prop := (d = true → code = []) ∧ Dumb W code ∧ Lower W code

theorem Mute.nil {d : Bool} : Mute W d [] := by
  refine ⟨fun _ => rfl, fun ρ x h => ?_, fun s h => by cases h⟩
  simp only [execList, Option.some.injEq] at h
  subst h; exact ⟨rfl, rfl⟩

theorem Dumb.append {a b : List Stmt} (ha : Dumb W a) (hb : Dumb W b) : Dumb W (a ++ b) := by
  intro ρ x h
  rw [execList_append] at h
  unfold seqE at h
  rw [Option.bind_eq_some_iff] at h
  obtain ⟨⟨t, sig, ρ'⟩, h1, h⟩ := h
  obtain ⟨e1, e2⟩ := ha ρ _ h1
  dsimp only at e1 e2
  cases sig with
  | next =>
    dsimp only at h
    rw [Option.map_eq_some_iff] at h
    obtain ⟨y, h2, rfl⟩ := h
    obtain ⟨e3, e4⟩ := hb ρ' _ h2
    exact ⟨by rw [e1, e3]; rfl, e4.trans e2⟩
  | brk => cases h; exact ⟨e1, e2⟩
  | cont => cases h; exact ⟨e1, e2⟩

theorem Mute.append {d : Bool} {a b : List Stmt} (ha : Mute W d a) (hb : Mute W d b) : Mute W d (a ++ b) := by
  refine ⟨fun h => by rw [ha.1 h, hb.1 h]; rfl, ha.2.1.append hb.2.1, fun s hs => ?_⟩
  rcases List.mem_append.mp hs with hs | hs
  · exact ha.2.2 s hs
  · exact hb.2.2 s hs

/-- A statement of the buffer. -/
theorem Mute.emit {g : Gen} {d : Bool} (hd : g.discard = d) {c : List Stmt} (h : Mute W false c) : Mute W d (g.emit c) := by
  unfold Gen.emit
  rw [hd]
  cases d with
  | true => exact .nil
  | false => exact h

theorem Mute.weaken {d : Bool} {c : List Stmt} (h : Mute W d c) : Mute W false c := ⟨fun h => by (cases h), h.2⟩

/-- A statement around others. -/
theorem Mute.wrap {g : Gen} {d : Bool} (hd : g.discard = d) {f : List Stmt → Stmt} {b : List Stmt} (hb : Mute W d b)
    (h : Mute W false [f b]) : Mute W d (g.wrap f b) := by
  unfold Gen.wrap
  rw [hd]
  cases d with
  | true => exact hb
  | false => exact h

theorem Dumb.single {s : Stmt} (h : ∀ ρ x, s.exec W ρ = some x → x.1 = [] ∧ x.2.2.item = ρ.item) : Dumb W [s] :=
  fun ρ x hx => by rw [execList_single] at hx; exact h ρ x hx

theorem Mute.single {s : Stmt} (h : ∀ ρ x, s.exec W ρ = some x → x.1 = [] ∧ x.2.2.item = ρ.item)
    (hl : ∀ n ∈ s.lets W, pathLike n = false := by intro n hn; cases hn) : Mute W false [s] :=
  ⟨fun h => by (cases h), .single h, fun s' hs => by cases List.mem_singleton.mp hs; exact hl⟩

theorem Dumb.block {b : List Stmt} (h : Dumb W b) : Mute W false [.block b] := .single fun ρ x hx => by
  simp only [Stmt.exec, Option.map_eq_some_iff] at hx
  obtain ⟨y, h1, rfl⟩ := hx
  exact ⟨(h ρ y h1).1, rfl⟩

theorem Mute.block {d : Bool} {b : List Stmt} (h : Mute W d b) : Mute W false [.block b] := h.2.1.block

theorem Mute.ifNotDid {d : Bool} {b : List Stmt} (h : Mute W d b) : Mute W false [.ifNotDid b] := .single fun ρ x hx => by
  simp only [Stmt.exec] at hx
  split at hx
  · cases hx; exact ⟨rfl, rfl⟩
  · rw [Option.map_eq_some_iff] at hx
    obtain ⟨y, h1, rfl⟩ := hx
    exact h.2.1 ρ y h1

theorem forItems_mute {d : Bool} {t : Target} {b : List Stmt} (h : Mute W d b) (vs : List (Val U)) :
    ∀ i ρ x, forItems W t (fun ρ' => execList W ρ' b) vs i ρ = some x → x.1 = [] ∧ x.2.item = ρ.item := by
  induction vs with
  | nil => intro i ρ x hx; cases hx; exact ⟨rfl, rfl⟩
  | cons v vs ih =>
    intro i ρ x hx
    simp only [forItems, Option.bind_eq_some_iff] at hx
    obtain ⟨ws, -, ⟨s, sig, ρ'⟩, h1, hx⟩ := hx
    have h1' := (h.2.1 _ _ h1).1
    dsimp only at h1'
    cases sig with
    | brk => cases hx; exact ⟨h1', rfl⟩
    | next =>
      rw [Option.map_eq_some_iff] at hx
      obtain ⟨y, h2, rfl⟩ := hx
      obtain ⟨e1, e2⟩ := ih _ _ _ h2
      exact ⟨by rw [h1', e1]; rfl, e2⟩
    | cont =>
      rw [Option.map_eq_some_iff] at hx
      obtain ⟨y, h2, rfl⟩ := hx
      obtain ⟨e1, e2⟩ := ih _ _ _ h2
      exact ⟨by rw [h1', e1]; rfl, e2⟩

theorem Mute.forIter {d : Bool} {t : Target} {b : List Stmt} (h : Mute W d b) : Mute W false [.forIter t b] :=
  .single fun ρ x hx => by
    simp only [Stmt.exec, Option.map_eq_some_iff] at hx
    obtain ⟨y, h1, rfl⟩ := hx
    exact forItems_mute h _ _ _ _ h1

/-- The bodies of branches. -/
def MuteIf (W : World U) (d : Bool) (bs : List Branch) : Prop := ∀ b ∈ bs, match b with | .mk _ code => Mute W d code

theorem holds_item {c : RCond} {ρ ρ' : REnv U} (h : c.holds W ρ = some (some ρ')) : ρ'.item = ρ.item := by
  cases c with
  | always => cases h; rfl
  | test e =>
    simp only [RCond.holds, Option.map_eq_some_iff] at h
    obtain ⟨t, -, h⟩ := h
    split at h
    · cases h; rfl
    · cases h
  | let_ t e =>
    simp only [RCond.holds, Option.map_eq_some_iff] at h
    obtain ⟨v, -, vs, -, rfl⟩ := h
    rfl
  | letChain op t l r =>
    simp only [RCond.holds] at h
    split at h
    · rw [Option.bind_eq_some_iff] at h
      obtain ⟨v, -, h⟩ := h
      split at h
      · cases h
      · rw [Option.map_eq_some_iff] at h
        obtain ⟨t, -, h⟩ := h
        split at h
        · cases h; rfl
        · cases h
    · cases h

theorem MuteIf.exec {d : Bool} : {bs : List Branch} → MuteIf W d bs → ∀ ρ x, execIf W ρ bs = some x →
    x.1 = [] ∧ x.2.2.item = ρ.item
  | [], _, ρ, x, h => by
    simp only [execIf, Option.some.injEq] at h
    subst h; exact ⟨rfl, rfl⟩
  | .mk c b :: bs, hb, ρ, x, h => by
    simp only [execIf, Option.bind_eq_some_iff] at h
    obtain ⟨o, h1, h⟩ := h
    cases o with
    | none => exact MuteIf.exec (fun b' hb' => hb b' (List.mem_cons_of_mem _ hb')) ρ x h
    | some ρ' =>
      rw [Option.map_eq_some_iff] at h
      obtain ⟨y, h2, rfl⟩ := h
      have h0 : Mute W d b := hb (.mk c b) (List.mem_cons_self ..)
      obtain ⟨e1, e2⟩ := h0.2.1 ρ' y h2
      exact ⟨e1, e2.trans (holds_item h1)⟩

theorem MuteIf.bodies {d : Bool} : {bs : List Branch} → MuteIf W d bs → Mute W d (branchBodies bs)
  | [], _ => .nil
  | .mk c b :: bs, hb => by
    have h0 : Mute W d b := hb (.mk c b) (List.mem_cons_self ..)
    exact Mute.append h0 (MuteIf.bodies fun b' hb' => hb b' (List.mem_cons_of_mem _ hb'))

/-- The bodies of arms. -/
def MuteMatch (W : World U) (d : Bool) (as : List Arm) : Prop := ∀ a ∈ as, match a with | .mk _ code => Mute W d code

theorem MuteMatch.exec {d : Bool} : {as : List Arm} → MuteMatch W d as → ∀ ρ v x, execMatch W ρ v as = some x →
    x.1 = [] ∧ x.2.2.item = ρ.item
  | [], _, ρ, v, x, h => by simp only [execMatch] at h; cases h
  | .mk t b :: as, hb, ρ, v, x, h => by
    simp only [execMatch] at h
    split at h
    · rw [Option.map_eq_some_iff] at h
      obtain ⟨y, h2, rfl⟩ := h
      have h0 : Mute W d b := hb (.mk t b) (List.mem_cons_self ..)
      obtain ⟨e1, e2⟩ := h0.2.1 _ y h2
      exact ⟨e1, e2⟩
    · exact MuteMatch.exec (fun b' hb' => hb b' (List.mem_cons_of_mem _ hb')) ρ v x h

theorem MuteMatch.bodies {d : Bool} : {as : List Arm} → MuteMatch W d as → Mute W d (armBodies as)
  | [], _ => .nil
  | .mk c b :: as, hb => by
    have h0 : Mute W d b := hb (.mk c b) (List.mem_cons_self ..)
    exact Mute.append h0 (MuteMatch.bodies fun b' hb' => hb b' (List.mem_cons_of_mem _ hb'))

/-! ## The state while output is discarded -/

/-- The nodes of the definitions of the block after number `k` are as `P` says. -/
def SafeAbove (P : Node → Prop) (H : Option Heritage) (n : Str) (k : Nat) : Prop :=
  ∀ h, H = some h → ∀ defs, assoc h.blocks n = some defs → ∀ i x, k < i → defs[i]? = some x → Every P x.2.nodes

/-- Literals and expressions are discarded, and `super()` leads to nodes that are as `P` says. `d` tells whether the
statements are discarded as well. -/
structure Half (P : Node → Prop) (H : Option Heritage) (d : Bool) (g : Gen) : Prop where
  pd : g.pdiscard = true
  dis : g.discard = d
  sup : ∀ n k, g.superBlock = some (n, k) → SafeAbove P H n k
  sc : g.locals.scopes ≠ []

/-- Only the innermost scope has changed. -/
structure Hold (g g' : Gen) : Prop where
  sup : g'.superBlock = g.superBlock
  parent : g'.locals.parent = g.locals.parent
  tail : g'.locals.scopes.tail = g.locals.scopes.tail

theorem Hold.refl {g : Gen} : Hold g g := ⟨rfl, rfl, rfl⟩

theorem Hold.trans {a b c : Gen} (h : Hold a b) (h2 : Hold b c) : Hold a c :=
  ⟨h2.sup.trans h.sup, h2.parent.trans h.parent, h2.tail.trans h.tail⟩

theorem Hold.of_eq {g g' : Gen} (h1 : g'.superBlock = g.superBlock) (h2 : g'.locals = g.locals) : Hold g g' :=
  ⟨h1, by rw [h2], by rw [h2]⟩

theorem Hold.pop {g g' : Gen} {L : Locals} (h : Hold g g') (hL : g.locals = L.push) : g'.locals.pop = L := by
  have h1 := h.parent
  have h2 := h.tail
  rw [hL] at h1 h2
  obtain ⟨s, p⟩ := L
  simp only [MapChain.push, List.tail_cons] at h1 h2
  simp only [MapChain.pop, h1]
  congr 1

namespace Half

variable {P : Node → Prop} {H : Option Heritage} {d : Bool} {g : Gen}

theorem push (h : Half P H d g) (w : Writable) : g.push w = g := by
  unfold Gen.push; rw [h.pd]; rfl

theorem flush (h : Half P H d g) (ws : Ws) : ∃ o, flushWs I g ws = { g with nextWs := o } := by
  unfold flushWs
  split
  · exact ⟨g.nextWs, rfl⟩
  · refine ⟨none, ?_⟩
    repeat' split
    all_goals simp only [h.push]

theorem handle (h : Half P H d g) (ws : Ws) : ∃ o s, handleWs I g ws = { g with nextWs := o, skipWs := s } := by
  obtain ⟨o, ho⟩ := h.flush (I := I) ws
  unfold handleWs
  rw [ho]
  exact ⟨o, _, rfl⟩

theorem lit (h : Half P H d g) {l : Lit} {g' : Gen} (hl : visitLit g l = .ok g') :
    ∃ o s, g' = { g with nextWs := o, skipWs := s } := by
  unfold visitLit at hl
  split at hl
  · cases hl
  · obtain ⟨g1, h1, hl⟩ := except_bind hl
    have h2 : ∃ o, g1 = { g with nextWs := o } := by
      unfold visitLws at h1
      repeat' split at h1
      all_goals first
        | (cases h1; done)
        | (cases h1; exact ⟨_, rfl⟩)
        | (cases h1; rw [h.push]; exact ⟨g.nextWs, rfl⟩)
    obtain ⟨o, rfl⟩ := h2
    simp only [pure, Except.pure, Except.ok.injEq] at hl
    have h3 : Half P H d { g with nextWs := o, skipWs := .preserve } := ⟨h.pd, h.dis, h.sup, h.sc⟩
    rw [← hl]
    repeat' split
    · exact ⟨o, g.skipWs, rfl⟩
    · rw [h3.push]; exact ⟨o, _, rfl⟩
    · exact ⟨_, g.skipWs, rfl⟩
    · rw [h3.push]; exact ⟨_, _, rfl⟩

theorem buf (h : Half P H d g) {code : List Stmt} {g' : Gen} (hw : writeBuf I g = .ok (code, g')) :
    Half P H d g' ∧ g'.pend = [] ∧ g'.locals = g.locals ∧ g'.superBlock = g.superBlock := by
  obtain ⟨n, rfl⟩ := writeBuf_state hw
  exact ⟨⟨h.pd, h.dis, h.sup, h.sc⟩, rfl, rfl, rfl⟩

theorem pushed (h : Half P H d g) : Half P H d { g with locals := g.locals.push } :=
  ⟨h.pd, h.dis, h.sup, by simp [MapChain.push]⟩

theorem declared (h : Half P H d g) (t : Target) (i : Bool) : Half P H d (declare g t i) ∧ Hold g (declare g t i) := by
  have := inserts_frame t.names { refs := none, initialized := i } g.locals h.sc
  exact ⟨⟨h.pd, h.dis, h.sup, MapChain.inserts_scopes h.sc _ _⟩, rfl, this.1, this.2⟩

theorem opened (h : Half P H d g) : Half P H d g.openLine ∧ Hold g g.openLine ∧ g.openLine.pend = g.pend
    ∧ g.openLine.locals = g.locals := by
  obtain ⟨k, hk⟩ := openLine_eq g
  rw [hk]; exact ⟨⟨h.pd, h.dis, h.sup, h.sc⟩, .of_eq rfl rfl, rfl, rfl⟩

theorem closed (h : Half P H d g) {g' : Gen} (hc : g.closeLine = .ok g') : Half P H d g' ∧ Hold g g' ∧ g'.pend = g.pend
    ∧ g'.locals = g.locals := by
  obtain ⟨k, rfl⟩ := closeLine_eq hc
  exact ⟨⟨h.pd, h.dis, h.sup, h.sc⟩, .of_eq rfl rfl, rfl, rfl⟩

end Half

theorem writeBuf_nil {g g' : Gen} {code : List Stmt} (h : writeBuf I g = .ok (code, g')) (hp : g.pend = []) :
    code = [] ∧ g' = g := by
  unfold writeBuf at h
  obtain ⟨⟨p, g1⟩, h1, h⟩ := except_bind h
  unfold prepareFormat at h1
  rw [hp] at h1
  cases h1
  cases h
  exact ⟨rfl, rfl⟩

/-! ## The constructs -/

/-- What a construct does that begins by writing the pending output: the rest of its code writes nothing. -/
def Flushed (W : World U) (I : GenInput) (P : Node → Prop) (H : Option Heritage) (d : Bool) (g : Gen) (code : List Stmt) (g' : Gen) : Prop :=
  (∃ pre g0 g1 rest, writeBuf I g0 = .ok (pre, g1) ∧ g0.pend = g.pend ∧ g0.discard = g.discard
    ∧ (g0.locals = g.locals ∨ g0.locals = g.locals.push) ∧ code = pre ++ rest ∧ Mute W d rest)
  ∧ Half P H d g' ∧ g'.pend = [] ∧ g'.locals = g.locals ∧ g'.superBlock = g.superBlock

/-- What a construct does that only writes the pending output. -/
def Still (I : GenInput) (P : Node → Prop) (H : Option Heritage) (d : Bool) (g : Gen) (code : List Stmt) (g' : Gen) : Prop :=
  (∃ g0 g1, writeBuf I g0 = .ok (code, g1) ∧ g0.pend = g.pend ∧ g0.discard = g.discard ∧ g0.locals = g.locals)
  ∧ Half P H d g' ∧ g'.pend = [] ∧ g'.locals = g.locals ∧ g'.superBlock = g.superBlock

theorem Still.flushed {P : Node → Prop} {H : Option Heritage} {d : Bool} {g g' : Gen} {code : List Stmt} (h : Still I P H d g code g') :
    Flushed W I P H d g code g' := by
  obtain ⟨⟨g0, g1, h1, h2, h3, h4⟩, h5⟩ := h
  exact ⟨⟨code, g0, g1, [], h1, h2, h3, .inl h4, by simp, .nil⟩, h5⟩

theorem Still.none {P : Node → Prop} {H : Option Heritage} {d : Bool} {g g' : Gen} {code : List Stmt} (h : Still I P H d g code g') (hp : g.pend = []) :
    code = [] := by
  obtain ⟨⟨g0, g1, h1, h2, -⟩, -⟩ := h
  exact (writeBuf_nil h1 (h2.trans hp)).1

theorem Flushed.mute {P : Node → Prop} {H : Option Heritage} {d : Bool} {g g' : Gen} {code : List Stmt} (h : Flushed W I P H d g code g')
    (hp : g.pend = []) : Mute W d code := by
  obtain ⟨⟨pre, g0, g1, rest, h1, h2, -, -, rfl, h3⟩, -⟩ := h
  rw [(writeBuf_nil h1 (h2.trans hp)).1]
  exact h3

theorem Flushed.hold {P : Node → Prop} {H : Option Heritage} {d : Bool} {g g' : Gen} {code : List Stmt} (h : Flushed W I P H d g code g') : Hold g g' :=
  .of_eq h.2.2.2.2 h.2.2.2.1

variable {P : Node → Prop} {b : Str} {tr : List Str}

/-- The nodes that are reached through a context while output is discarded. -/
structure CtxSafe (P : Node → Prop) (tr : List Str) (c : Ctx) : Prop where
  blocks : ∀ e ∈ c.blocks, e.1 ∉ tr → Every P e.2.nodes
  macros : ∀ e ∈ c.macros, Every P e.2.nodes

/-- The same for a chain of templates. -/
def HSafe (P : Node → Prop) (tr : List Str) (h : Heritage) : Prop :=
  CtxSafe P tr h.root ∧ ∀ e ∈ h.blocks, ∀ x ∈ e.2, CtxSafe P tr x.1 ∧ (e.1 ∉ tr → Every P x.2.nodes)

/-- The recursive calls, while output is discarded. -/
def RecHush (W : World U) (P : Node → Prop) (tr : List Str) (rec : Handler) : Prop :=
  ∀ H ctx nodes level d g code g', rec H ctx nodes level g = .ok (code, g') → (∀ h, H = some h → HSafe P tr h) →
    CtxSafe P tr ctx → Every P nodes → Half P H d g → g.pend = [] →
    Mute W d code ∧ Half P H d g' ∧ g'.pend = [] ∧ Hold g g' ∧ (keepsAll nodes = true → g'.locals = g.locals)

theorem mergeCtx_safe {a c : Ctx} (ha : CtxSafe P tr a) (hc : CtxSafe P tr c) : CtxSafe P tr (mergeCtx a c) := by
  refine ⟨ha.blocks, ?_⟩
  intro e he
  rcases List.mem_append.mp he with he | he
  · exact ha.macros e he
  · exact hc.macros e he

variable {H : Option Heritage}

theorem branchCond_hush {d : Bool} {g g' : Gen} {cond : Option CondTest} {c : RCond} (h : Half P H d g)
    (hc : branchCond I g cond = .ok (c, g')) : Half P H d g' ∧ Hold g g' ∧ g'.pend = g.pend := by
  rcases branchCond_locals hc with rfl | ⟨t, rfl⟩
  · exact ⟨h, .refl, rfl⟩
  · exact ⟨(h.declared t true).1, (h.declared t true).2, rfl⟩

variable {rec : Handler} {ctx : Ctx}

theorem ifBranches_hush (hr : RecHush W P tr rec) (hH : ∀ h, H = some h → HSafe P tr h) (hc : CtxSafe P tr ctx) {d : Bool}
    {wsEnd : Ws} : (cs : List Cond) → {first : Bool} → {g g' : Gen} → {bs : List Branch} → cs ≠ [] →
    ifBranches rec I H ctx wsEnd first cs g = .ok (bs, g') → (∀ n ∈ partsC cs, P n) → Half P H d g → g.pend = [] →
    MuteIf W d bs ∧ Half P H d g' ∧ g'.pend = [] ∧ Hold { g with locals := g.locals.push } g'
  | [], _, _, _, _, h, _, _, _, _ => absurd rfl h
  | .mk w cond nodes :: rest, first, g, g', bs, _, h, hp, hg, hpd => by
    obtain ⟨g1, c, g2, body, g3, fl, g4, h1, h2, h3, h4, h5⟩ := ifBranches_inv h
    obtain ⟨k, rfl⟩ := dedentUnless_eq h1
    have hg1 : Half P H d { g with locals := g.locals.push, indent := k } := ⟨hg.pd, hg.dis, hg.sup, hg.pushed.sc⟩
    obtain ⟨a1, a2, a3⟩ := branchCond_hush hg1 h2
    obtain ⟨b1, b2, b3, -⟩ := a1.opened
    obtain ⟨c1, c2, c3, c4, -⟩ := hr _ _ _ _ _ _ _ _ h3 hH hc (fun n hn => hp n (by simp [partsC, hn])) b1
      (b3.trans (a3.trans hpd))
    obtain ⟨o, s, e1⟩ := c2.handle (I := I) (condEnd rest wsEnd)
    rw [e1] at h4
    obtain ⟨rfl, rfl⟩ := writeBuf_nil h4 c3
    have d2 : Hold { g with locals := g.locals.push } g3 := by
      have := (a2.trans b2).trans c4
      exact ⟨this.sup, this.parent, this.tail⟩
    rcases h5 with ⟨rfl, rfl, rfl⟩ | ⟨bs', hne, h5, rfl⟩
    · refine ⟨?_, ⟨c2.pd, c2.dis, c2.sup, c2.sc⟩, c3, ⟨d2.sup, d2.parent, d2.tail⟩⟩
      intro x hx
      rw [List.mem_singleton] at hx; subst hx
      exact c1.append .nil
    · have hpop := d2.pop rfl
      dsimp only at h5
      rw [hpop] at h5
      obtain ⟨f1, f2, f3, f4⟩ := ifBranches_hush hr hH hc (d := d) rest hne h5
        (fun n hn => hp n (by simp [partsC, hn])) ⟨c2.pd, c2.dis, c2.sup, hg.sc⟩ c3
      refine ⟨?_, f2, f3, ⟨f4.sup.trans d2.sup, f4.parent, f4.tail⟩⟩
      intro x hx
      rcases List.mem_cons.mp hx with rfl | hx
      · exact c1.append .nil
      · exact f1 x hx

theorem writeIf_hush (hr : RecHush W P tr rec) (hH : ∀ h, H = some h → HSafe P tr h) (hc : CtxSafe P tr ctx) {d : Bool}
    {g g' : Gen} {ws : Ws} {cs : List Cond} {code : List Stmt} (hp : ∀ n ∈ partsC cs, P n) (hg : Half P H d g)
    (h : writeIf rec I H ctx g ws cs = .ok (code, g')) : Flushed W I P H d g code g' := by
  obtain ⟨ws1, c, ns, rest, pre, g1, bs, g2, g3, rfl, h1, h2, h3, rfl, rfl⟩ := writeIf_inv h
  obtain ⟨o, s, e1⟩ := hg.handle (I := I) ws1
  rw [e1] at h1
  have hg0 : Half P H d { g with nextWs := o, skipWs := s } := ⟨hg.pd, hg.dis, hg.sup, hg.sc⟩
  obtain ⟨a1, a2, a3, a4⟩ := hg0.buf h1
  obtain ⟨b1, b2, b3, b4⟩ := ifBranches_hush hr hH hc _ (by simp) h2 hp a1 a2
  obtain ⟨c1, c2, c3, c4⟩ := b2.closed h3
  have hpop : g3.locals.pop = g.locals := by
    rw [c4]; exact (b4.pop rfl).trans a3
  refine ⟨⟨pre, _, g1, _, h1, rfl, rfl, .inl rfl, rfl, ?_⟩, ⟨c1.pd, c1.dis, c1.sup, ?_⟩, c3.trans b3, hpop,
    c2.sup.trans (b4.sup.trans a4)⟩
  · rw [c1.dis]
    cases d with
    | true => exact b1.bodies
    | false => exact .single fun ρ x hx => by simp only [Stmt.exec] at hx; exact b1.exec ρ x hx
  · show g3.locals.pop.scopes ≠ []
    rw [hpop]; exact hg.sc

theorem matchArms_hush (hr : RecHush W P tr rec) (hH : ∀ h, H = some h → HSafe P tr h) (hc : CtxSafe P tr ctx) {d : Bool}
    {wsEnd : Ws} : (cs : List When) → {g g' : Gen} → {as : List Arm} →
    matchArms rec I H ctx wsEnd cs g = .ok (as, g') → (∀ n ∈ partsW cs, P n) → Half P H d g → g.pend = [] →
    MuteMatch W d as ∧ Half P H d g' ∧ g'.pend = [] ∧ g'.locals = g.locals ∧ g'.superBlock = g.superBlock
  | [], _, _, _, h, _, hg, hpd => by cases h; exact ⟨by (intro b hb; cases hb), hg, hpd, rfl, rfl⟩
  | .mk w t nodes :: rest, g, g', as, h, hp, hg, hpd => by
    obtain ⟨body, g1, fl, g2, g3, as', h1, h2, h3, h4, rfl⟩ := matchArms_inv h
    obtain ⟨a1, a2⟩ := hg.pushed.declared t true
    obtain ⟨b1, b2, b3, -⟩ := a1.opened
    obtain ⟨c1, c2, c3, c4, -⟩ := hr _ _ _ _ _ _ _ _ h1 hH hc (fun n hn => hp n (by simp [partsW, hn])) b1 (b3.trans hpd)
    obtain ⟨o, s, e1⟩ := c2.handle (I := I) (whenEnd rest wsEnd)
    rw [e1] at h2
    obtain ⟨rfl, rfl⟩ := writeBuf_nil h2 c3
    have c5 : Half P H d { g1 with nextWs := o, skipWs := s } := ⟨c2.pd, c2.dis, c2.sup, c2.sc⟩
    obtain ⟨d1, d2, d3, d4⟩ := c5.closed h3
    have d5 : Hold { g with locals := g.locals.push } g1 := (a2.trans b2).trans c4
    have hpop : g3.locals.pop = g.locals := by rw [d4]; exact d5.pop rfl
    rw [hpop] at h4
    obtain ⟨f1, f2, f3, f4, f5⟩ := matchArms_hush hr hH hc rest h4 (fun n hn => hp n (by simp [partsW, hn]))
      ⟨d1.pd, d1.dis, d1.sup, hg.sc⟩ (d3.trans c3)
    refine ⟨?_, f2, f3, f4, f5.trans (d2.sup.trans d5.sup)⟩
    intro x hx
    rcases List.mem_cons.mp hx with rfl | hx
    · exact c1.append .nil
    · exact f1 x hx

theorem writeMatch_hush (hr : RecHush W P tr rec) (hH : ∀ h, H = some h → HSafe P tr h) (hc : CtxSafe P tr ctx) {d : Bool}
    {g g' : Gen} {ws1 ws2 : Ws} {e : Expr} {arms : List When} {code : List Stmt} (hp : ∀ n ∈ partsW arms, P n)
    (hg : Half P H d g) (h : writeMatch rec I H ctx g ws1 e arms ws2 = .ok (code, g')) : Flushed W I P H d g code g' := by
  obtain ⟨ws, t, ns, rest, pre, g1, r, w, as, g2, g3, -, h1, h2, h3, h4, rfl, rfl⟩ := writeMatch_inv h
  obtain ⟨o, e1⟩ := hg.flush (I := I) ws1
  rw [e1] at h1
  have hg0 : Half P H d { g with nextWs := o } := ⟨hg.pd, hg.dis, hg.sup, hg.sc⟩
  obtain ⟨a1, a2, a3, a4⟩ := hg0.buf h1
  obtain ⟨b1, b2, b3, b4⟩ := a1.opened
  obtain ⟨o2, s2, e2⟩ := b1.handle (I := I) ws
  rw [e2] at h3
  have b5 : Half P H d { g1.openLine with nextWs := o2, skipWs := s2 } := ⟨b1.pd, b1.dis, b1.sup, b1.sc⟩
  obtain ⟨c1, c2, c3, c4, c5⟩ := matchArms_hush hr hH hc arms h3 hp b5 (b3.trans a2)
  obtain ⟨d1, d2, d3, d4⟩ := c2.closed h4
  refine ⟨⟨pre, _, g1, _, h1, rfl, rfl, .inl rfl, rfl, ?_⟩, d1, d3.trans c3, d4.trans (c4.trans (b4.trans a3)),
    d2.sup.trans (c5.trans (b2.sup.trans a4))⟩
  rw [d1.dis]
  cases d with
  | true => exact c1.bodies
  | false =>
    refine .single fun ρ x hx => ?_
    simp only [Stmt.exec, Option.bind_eq_some_iff] at hx
    obtain ⟨v, -, hx⟩ := hx
    exact c1.exec ρ v x hx

theorem loopFilter_hush {d : Bool} {g : Gen} {var : Target} {cond : Option Expr} {filt : List Stmt} (hg : g.discard = d)
    (h : loopFilter I g var cond = .ok filt) : Mute W d filt := by
  cases cond with
  | none => cases h; exact .nil
  | some c =>
    unfold loopFilter at h
    obtain ⟨r, h1, h⟩ := except_bind h
    cases h
    refine Mute.emit hg (.single fun ρ x hx => ?_)
    simp only [Stmt.exec, Option.map_eq_some_iff] at hx
    obtain ⟨y, -, rfl⟩ := hx
    exact ⟨rfl, rfl⟩

theorem Mute.letIter (r : RExpr) : Mute W false [.letIter r] := .single fun ρ x hx => by
  simp only [Stmt.exec, Option.bind_eq_some_iff, Option.map_eq_some_iff] at hx
  obtain ⟨y, -, z, -, rfl⟩ := hx
  exact ⟨rfl, rfl⟩

theorem Mute.letDid : Mute W false [.letDid] := .single fun ρ x hx => by
  simp only [Stmt.exec, Option.some.injEq] at hx; subst hx; exact ⟨rfl, rfl⟩

theorem Mute.setDid : Mute W false [.setDid] := .single fun ρ x hx => by
  simp only [Stmt.exec, Option.some.injEq] at hx; subst hx; exact ⟨rfl, rfl⟩

theorem Mute.blockW {d : Bool} {g : Gen} {c : List Stmt} (hd : g.discard = d) (h : Mute W d c) :
    Mute W d (g.wrap .block c) := .wrap hd h h.block

theorem writeLoop_hush (hr : RecHush W P tr rec) (hH : ∀ h, H = some h → HSafe P tr h) (hc : CtxSafe P tr ctx) {d : Bool}
    {g g' : Gen} {ws1 ws2 ws3 : Ws} {var : Target} {iter : Expr} {cond : Option Expr} {body els : List Node}
    {code : List Stmt} (hb : Every P body) (he : Every P els) (hg : Half P H d g)
    (h : writeLoop rec I H ctx g ws1 var iter cond body ws2 els ws3 = .ok (code, g')) : Flushed W I P H d g code g' := by
  obtain ⟨r, w, pre, g1, filt, bc, g2, fl, g3, g4, h1, h2, h3, h4, h5, h6, h7⟩ := writeLoop_inv h
  obtain ⟨o, s, e1⟩ := hg.handle (I := I) ws1
  rw [e1] at h2
  have hg0 : Half P H d { g with nextWs := o, skipWs := s, locals := g.locals.push } :=
    ⟨hg.pd, hg.dis, hg.sup, hg.pushed.sc⟩
  obtain ⟨a1, a2, a3, a4⟩ := hg0.buf h2
  obtain ⟨b1, b2, b3, b4⟩ := a1.opened
  have f1 := loopFilter_hush (W := W) b1.dis h3
  obtain ⟨c1, c2⟩ := b1.pushed.declared var true
  obtain ⟨d1, d2, d3, -⟩ := c1.opened
  obtain ⟨i1, i2, i3, i4, -⟩ := hr _ _ _ _ _ _ _ _ h4 hH hc hb d1 (d3.trans (b3.trans a2))
  obtain ⟨o2, s2, e2⟩ := i2.handle (I := I) ws2
  rw [e2] at h5
  obtain ⟨rfl, rfl⟩ := writeBuf_nil h5 i3
  have i5 : Hold { g1.openLine with locals := g1.openLine.locals.push } g2 := (c2.trans d2).trans i4
  have hpop1 : g2.locals.pop = g.locals.push := by rw [i5.pop rfl, b4]; exact a3
  dsimp only at h6
  rw [hpop1] at h6
  have j0 : Half P H d { g2 with nextWs := o2, skipWs := s2, locals := g.locals.push } :=
    ⟨i2.pd, i2.dis, i2.sup, hg.pushed.sc⟩
  obtain ⟨j1, j2, j3, j4⟩ := j0.closed h6
  have jsup : g4.superBlock = g.superBlock := j2.sup.trans (i5.sup.trans (b2.sup.trans a4))
  rcases h7 with ⟨-, eb, g5, fl2, g6, g7, g8, h7, h8, h9, h10, rfl, rfl⟩ | ⟨-, fl2, g6, g8, h7, h8, rfl, rfl⟩
  · obtain ⟨k1, k2, k3, k4⟩ := j1.opened
    obtain ⟨l1, l2, l3, l4, -⟩ := hr _ _ _ _ _ _ _ _ h7 hH hc he k1.pushed (k3.trans (j3.trans i3))
    obtain ⟨o3, s3, e3⟩ := l2.handle (I := I) ws3
    rw [e3] at h8
    obtain ⟨rfl, rfl⟩ := writeBuf_nil h8 l3
    have hpop2 : g5.locals.pop = g.locals.push := by rw [l4.pop rfl, k4]; exact j4
    dsimp only at h9
    rw [hpop2] at h9
    have m0 : Half P H d { g5 with nextWs := o3, skipWs := s3, locals := g.locals.push } :=
      ⟨l2.pd, l2.dis, l2.sup, hg.pushed.sc⟩
    obtain ⟨m1, m2, m3, m4⟩ := m0.closed h9
    obtain ⟨n1, n2, n3, n4⟩ := m1.closed h10
    have hpop3 : g8.locals.pop = g.locals := by rw [n4, m4]; rfl
    refine ⟨⟨pre, _, g1, _, h2, rfl, rfl, .inr rfl, rfl, ?_⟩, ⟨n1.pd, n1.dis, n1.sup, ?_⟩,
      n3.trans (m3.trans l3), hpop3, n2.sup.trans (m2.sup.trans (l4.sup.trans (k2.sup.trans jsup)))⟩
    · have q1 := (Mute.emit d1.dis (W := W) Mute.setDid).append (i1.append .nil)
      rw [← List.append_assoc] at q1
      have q2 := l1.append (b := []) .nil
      exact Mute.blockW n1.dis (Mute.append (Mute.append (Mute.append (Mute.emit b1.dis (Mute.append Mute.letDid
        (Mute.letIter r))) f1) (Mute.wrap j1.dis q1 q1.forIter)) (Mute.wrap m1.dis q2 q2.ifNotDid))
    · show g8.locals.pop.scopes ≠ []
      rw [hpop3]; exact hg.sc
  · obtain ⟨o3, s3, e3⟩ := j1.handle (I := I) ws3
    rw [e3] at h7
    obtain ⟨rfl, rfl⟩ := writeBuf_nil h7 (j3.trans i3)
    have m0 : Half P H d { g4 with nextWs := o3, skipWs := s3 } := ⟨j1.pd, j1.dis, j1.sup, j1.sc⟩
    obtain ⟨n1, n2, n3, n4⟩ := m0.closed h8
    have hpop3 : g8.locals.pop = g.locals := by rw [n4]; show g4.locals.pop = _; rw [j4]; rfl
    refine ⟨⟨pre, _, g1, _, h2, rfl, rfl, .inr rfl, rfl, ?_⟩, ⟨n1.pd, n1.dis, n1.sup, ?_⟩,
      n3.trans (j3.trans i3), hpop3, n2.sup.trans jsup⟩
    · have q1 := (Mute.emit d1.dis (W := W) Mute.nil).append (i1.append .nil)
      rw [← List.append_assoc] at q1
      exact Mute.blockW n1.dis (Mute.append (Mute.append (Mute.append (Mute.emit b1.dis
        (Mute.letIter r)) f1) (Mute.wrap j1.dis q1 q1.forIter)) .nil)
    · show g8.locals.pop.scopes ≠ []
      rw [hpop3]; exact hg.sc

theorem findMacro_safe (hI : ∀ p c, assoc I.contexts p = some c → CtxSafe P tr c) (hc : CtxSafe P tr ctx)
    {scope : Option Str} {name : Str} {d : MacroDef} {own : Ctx} (h : findMacro I ctx scope name = .ok (d, own)) :
    CtxSafe P tr own ∧ Every P d.nodes := by
  unfold findMacro at h
  cases scope with
  | none =>
    dsimp only at h
    cases hm : assoc ctx.macros name with
    | none => rw [hm] at h; cases h
    | some d' =>
      rw [hm] at h; cases h
      obtain ⟨k, hk⟩ := assoc_mem hm
      exact ⟨hc, hc.macros _ hk⟩
  | some s =>
    dsimp only at h
    cases hi : assoc ctx.imports s with
    | none => rw [hi] at h; cases h
    | some path =>
      rw [hi] at h; dsimp only at h
      cases hp : assoc I.contexts path with
      | none => rw [hp] at h; cases h
      | some mctx =>
        rw [hp] at h; dsimp only at h
        cases hm : assoc mctx.macros name with
        | none => rw [hm] at h; cases h
        | some d' =>
          rw [hm] at h; cases h
          obtain ⟨k, hk⟩ := assoc_mem hm
          exact ⟨hI _ _ hp, (hI _ _ hp).macros _ hk⟩

theorem writeCall_hush (hr : RecHush W P tr rec) (hI : ∀ p c, assoc I.contexts p = some c → CtxSafe P tr c)
    (hH : ∀ h, H = some h → HSafe P tr h) (hc : CtxSafe P tr ctx) {dd : Bool} {g g' : Gen} {ws : Ws} {scope : Option Str}
    {name : Str} {args : List Expr} {code : List Stmt} (hg : Half P H dd g)
    (h : writeCall rec I H ctx g ws scope name args = .ok (code, g')) : Flushed W I P H dd g code g' := by
  obtain ⟨d, own, pre, g1, named, ns, rs, L, bc, g2, fl, g3, g4, h1, h2, -, -, h5, h6, h7, h8, rfl, rfl⟩ := writeCall_inv h
  obtain ⟨hown, hd⟩ := findMacro_safe hI hc h1
  obtain ⟨o, e1⟩ := hg.flush (I := I) ws
  rw [e1] at h2
  have hg0 : Half P H dd { g with nextWs := o, locals := g.locals.push } := ⟨hg.pd, hg.dis, hg.sup, hg.pushed.sc⟩
  obtain ⟨a1, a2, a3, a4⟩ := hg0.buf h2
  obtain ⟨b1, b2, b3, b4⟩ := a1.opened
  have hL := bindParams_frame _ (L := (prepareWs I g1.openLine d.ws1).locals) b1.sc h5
  have c0 : Half P H dd { prepareWs I g1.openLine d.ws1 with locals := L } := ⟨b1.pd, b1.dis, b1.sup, hL.1⟩
  obtain ⟨c1, c2, c3, c4, -⟩ := hr _ _ _ _ _ _ _ _ h6 hH hown hd c0 (b3.trans a2)
  obtain ⟨o2, e2⟩ := c2.flush (I := I) d.ws2
  rw [e2] at h7
  obtain ⟨rfl, rfl⟩ := writeBuf_nil h7 c3
  have c5 : Half P H dd { g2 with nextWs := o2 } := ⟨c2.pd, c2.dis, c2.sup, c2.sc⟩
  obtain ⟨d1, d2, d3, d4⟩ := c5.closed h8
  have hh : Hold { g with nextWs := o, locals := g.locals.push } g2 :=
    ⟨c4.sup.trans (b2.sup.trans a4), c4.parent.trans (hL.2.1.trans (b2.parent.trans (by rw [a3]))),
      c4.tail.trans (hL.2.2.trans (b2.tail.trans (by rw [a3])))⟩
  have hpop : g4.locals.pop = g.locals := by rw [d4]; exact hh.pop rfl
  have hl : Dumb W (if ns.isEmpty then [] else [.letMany ns rs]) := by
    split
    · exact (Mute.nil (d := false)).2.1
    · refine .single fun ρ x hx => ?_
      simp only [Stmt.exec, Option.map_eq_some_iff] at hx
      obtain ⟨y, -, rfl⟩ := hx
      exact ⟨rfl, rfl⟩
  refine ⟨⟨pre, _, g1, _, h2, rfl, rfl, .inr rfl, rfl, ?_⟩, ⟨d1.pd, d1.dis, d1.sup, ?_⟩, d3.trans c3, hpop,
    d2.sup.trans hh.sup⟩
  · unfold Gen.wrap Gen.emit
    rw [d1.dis, show (prepareWs I g1.openLine d.ws1).discard = dd from b1.dis]
    cases dd with
    | true => exact Mute.append (Mute.append .nil c1) .nil
    | false => exact ((hl.append c1.2.1).append (Mute.nil (d := false)).2.1).block
  · show g4.locals.pop.scopes ≠ []
    rw [hpop]; exact hg.sc

theorem writeFilterBlock_hush (hr : RecHush W P tr rec) (hH : ∀ h, H = some h → HSafe P tr h) (hc : CtxSafe P tr ctx)
    {d : Bool} {g g' : Gen} {ws1 ws2 : Ws} {f : FilterApp} {nodes : List Node} {code : List Stmt} (hp : Every P nodes)
    (hg : Half P H d g) (h : writeFilterBlock rec I H ctx g ws1 f nodes ws2 = .ok (code, g')) :
    Mute W d code ∧ Half P H d g' ∧ g'.pend = [] ∧ Hold g g' ∧ (keepsAll nodes = true → g'.locals = g.locals) := by
  obtain ⟨bc, g1, p, g2, h1, h2, h3⟩ := writeFilterBlock_inv h
  obtain ⟨o, e1⟩ := hg.flush (I := I) ws1
  rw [e1] at h1
  have a0 : Half P H d (prepareWs I { ({ g with nextWs := o } : Gen) with pend := [] } ws1) :=
    ⟨hg.pd, hg.dis, hg.sup, hg.sc⟩
  obtain ⟨a1, a2, a3, a4, a5⟩ := hr _ _ _ _ _ _ _ _ h1 hH hc hp a0 rfl
  obtain ⟨o2, e2⟩ := a2.flush (I := I) ws2
  rw [e2] at h2
  unfold prepareFormat at h2
  rw [a3] at h2
  cases h2
  rcases h3 with ⟨-, rfl, rfl⟩ | ⟨st, r, w, h3, -⟩
  · exact ⟨a1, ⟨a2.pd, a2.dis, a2.sup, a2.sc⟩, rfl, ⟨a4.sup, a4.parent, a4.tail⟩, a5⟩
  · exact absurd rfl h3

theorem writeBlock_still (hr : RecHush W P tr rec) (hb : I.block = some b) (hbt : b ∈ tr) (hH : ∀ h, H = some h → HSafe P tr h)
    (hc : CtxSafe P tr ctx) {d : Bool} {g g' : Gen} {name : Option Str} {outer : Ws} {code : List Stmt}
    (hn : ∀ n, name = some n → n ∉ tr) (hg : Half P H d g) (h : writeBlock rec I H ctx g name outer = .ok (code, g')) :
    Still I P H d g code g' := by
  unfold writeBlock at h
  obtain ⟨o, e1⟩ := hg.flush (I := I) outer
  rw [e1] at h
  have hg0 : Half P H d { g with nextWs := o } := ⟨hg.pd, hg.dis, hg.sup, hg.sc⟩
  obtain ⟨cur, h1, h⟩ := except_bind h
  obtain ⟨⟨pre, g1⟩, h2, h⟩ := except_bind h
  obtain ⟨a1, a2, a3, a4⟩ := hg0.buf h2
  have hfr : ((I.block == name) && g1.pdiscard) = false := by
    rw [hb]
    have : (some b == name) = false := by
      rw [beq_eq_false_iff_ne]; exact fun e => hn b e.symm hbt
    rw [this]; rfl
  dsimp only at h
  rw [hfr] at h
  simp only [Bool.false_eq_true, if_false, a1.pd] at h
  cases H with
  | none => cases h
  | some hh =>
    dsimp only at h
    cases hdefs : assoc hh.blocks cur.1 with
    | none => rw [hdefs] at h; cases h
    | some defs =>
      rw [hdefs] at h; dsimp only at h
      cases hcd : defs[cur.2]? with
      | none => rw [hcd] at h; cases h
      | some cd =>
        obtain ⟨cctx, dd⟩ := cd
        rw [hcd] at h; dsimp only at h
        obtain ⟨⟨bc, g2⟩, h3, h⟩ := except_bind h
        obtain ⟨⟨fl, g3⟩, h4, h⟩ := except_bind h
        cases h
        have hall : ∀ n, n ∉ tr → ∀ defs, assoc hh.blocks n = some defs → ∀ (i : Nat) x, defs[i]? = some x →
            Every P x.2.nodes :=
          fun n hn defs hd i x hx => ((hH hh rfl).2 _ (assoc_pair hd) _ (List.mem_of_getElem? hx)).2 hn
        have hcur : Every P dd.nodes ∧ SafeAbove P (some hh) cur.1 cur.2 := by
          dsimp only at h1
          cases name with
          | some n =>
            have e : cur = (n, 0) := by
              cases hs : g.superBlock with
              | none => rw [hs] at h1; cases h1; rfl
              | some q =>
                rw [hs] at h1
                simp only [currentBlock] at h1
                split at h1
                · cases h1
                · cases h1; rfl
            subst e
            refine ⟨hall n (hn n rfl) _ hdefs _ _ hcd, ?_⟩
            intro h e defs hd i x _ hx
            cases e
            exact hall n (hn n rfl) _ hd _ _ hx
          | none =>
            cases hs : g.superBlock with
            | none => rw [hs] at h1; cases h1
            | some q =>
              rw [hs] at h1
              cases h1
              have := hg.sup _ _ hs
              refine ⟨this hh rfl _ hdefs _ _ (Nat.lt_succ_self _) hcd, ?_⟩
              intro h e defs hd i x hi hx
              exact this h e defs hd i x (Nat.lt_of_succ_lt hi) hx
        obtain ⟨hcc, -⟩ := (hH hh rfl).2 _ (assoc_pair hdefs) _ (List.mem_of_getElem? hcd)
        have c0 : Half P (some hh) true { prepareWs I { new I .empty g1.indent true with pend := g1.pend, pdiscard := true } dd.ws1
            with superBlock := some cur } :=
          ⟨rfl, rfl, fun n k e => by cases e; exact hcur.2, by simp [prepareWs, new, MapChain.empty]⟩
        obtain ⟨c1, c2, c3, c4, -⟩ := hr _ _ _ _ _ _ _ _ h3 hH (mergeCtx_safe hcc hc) hcur.1 c0 a2
        have c5 : fl = [] ∧ Half P (some hh) true g3 ∧ g3.pend = [] := by
          unfold flushIf at h4
          split at h4
          · obtain ⟨rfl, rfl⟩ := writeBuf_nil h4 c3; exact ⟨rfl, c2, c3⟩
          · cases h4; exact ⟨rfl, c2, c3⟩
        obtain ⟨rfl, c6, c7⟩ := c5
        obtain ⟨o3, e3⟩ := c6.flush (I := I) dd.ws2
        rw [e3]
        refine ⟨⟨{ g with nextWs := o }, g1, ?_, rfl, rfl, rfl⟩, ⟨c6.pd, a1.dis, a1.sup, a1.sc⟩, c7, a3, a4⟩
        rw [c1.1 rfl, List.append_nil, List.append_nil]
        exact h2

theorem writeBlock_hush (hr : RecHush W P tr rec) (hb : I.block = some b) (hbt : b ∈ tr) (hH : ∀ h, H = some h → HSafe P tr h)
    (hc : CtxSafe P tr ctx) {d : Bool} {g g' : Gen} {name : Option Str} {outer : Ws} {code : List Stmt}
    (hn : ∀ n, name = some n → n ∉ tr) (hg : Half P H d g) (h : writeBlock rec I H ctx g name outer = .ok (code, g')) :
    Flushed W I P H d g code g' := (writeBlock_still hr hb hbt hH hc hn hg h).flushed

theorem addBlocks_safe {c : Ctx} (hc : CtxSafe P tr c) {m : List (Str × List (Ctx × BlockDefn))}
    (hm : ∀ e ∈ m, ∀ x ∈ e.2, CtxSafe P tr x.1 ∧ (e.1 ∉ tr → Every P x.2.nodes)) :
    ∀ e ∈ addBlocks c m, ∀ x ∈ e.2, CtxSafe P tr x.1 ∧ (e.1 ∉ tr → Every P x.2.nodes) := by
  unfold addBlocks
  have key : ∀ (l : List (Str × BlockDefn)), (∀ e ∈ l, e.1 ∉ tr → Every P e.2.nodes) →
      ∀ m : List (Str × List (Ctx × BlockDefn)),
      (∀ e ∈ m, ∀ x ∈ e.2, CtxSafe P tr x.1 ∧ (e.1 ∉ tr → Every P x.2.nodes)) →
      ∀ e ∈ l.foldl (fun m (nd : Str × BlockDefn) =>
        match assoc m nd.1 with
        | none => m ++ [(nd.1, [(c, nd.2)])]
        | some _ => m.map fun e => if e.1 = nd.1 then (e.1, e.2 ++ [(c, nd.2)]) else e) m,
      ∀ x ∈ e.2, CtxSafe P tr x.1 ∧ (e.1 ∉ tr → Every P x.2.nodes) := by
    intro l
    induction l with
    | nil => intro _ m hm; exact hm
    | cons nd l ih =>
      intro hl m hm
      rw [List.foldl_cons]
      apply ih (fun e he => hl e (List.mem_cons_of_mem _ he))
      have hnd := hl nd (List.mem_cons_self ..)
      split
      · intro e he
        rcases List.mem_append.mp he with he | he
        · exact hm e he
        · rw [List.mem_singleton] at he; subst he
          intro d hd
          rw [List.mem_singleton] at hd; subst hd
          exact ⟨hc, hnd⟩
      · intro e he
        obtain ⟨e', he', rfl⟩ := List.mem_map.mp he
        split
        · rename_i heq
          intro d hd
          rcases List.mem_append.mp hd with hd | hd
          · exact hm e' he' d hd
          · rw [List.mem_singleton] at hd; subst hd
            exact ⟨hc, fun hne => hnd (by rw [← heq]; exact hne)⟩
        · exact hm e' he'
  exact key _ hc.blocks m hm

theorem heritageChain_safe {contexts : List (Str × Ctx)} (hI : ∀ p c, assoc contexts p = some c → CtxSafe P tr c) :
    (fuel : Nat) → {c : Ctx} → {l : List Ctx} → CtxSafe P tr c → heritageChain contexts fuel c = .ok l →
      ∀ x ∈ l, CtxSafe P tr x
  | 0, _, _, _, h => by cases h
  | fuel + 1, c, l, hc, h => by
    unfold heritageChain at h
    cases hx : c.extends_ with
    | none => rw [hx] at h; cases h; intro x hx; rw [List.mem_singleton] at hx; subst hx; exact hc
    | some path =>
      rw [hx] at h; dsimp only at h
      cases ha : assoc contexts path with
      | none => rw [ha] at h; cases h
      | some p =>
        rw [ha] at h; dsimp only at h
        obtain ⟨rest, h1, h⟩ := except_bind h
        cases h
        intro x hx
        rcases List.mem_cons.mp hx with rfl | hx
        · exact hc
        · exact heritageChain_safe hI fuel (hI _ _ ha) h1 x hx

theorem heritageNew_safe {contexts : List (Str × Ctx)} (hI : ∀ p c, assoc contexts p = some c → CtxSafe P tr c) {c : Ctx}
    (hc : CtxSafe P tr c) {h : Heritage} (hh : heritageNew contexts c = .ok h) : HSafe P tr h := by
  unfold heritageNew at hh
  obtain ⟨chain, h1, hh⟩ := except_bind hh
  cases hh
  have hch := heritageChain_safe hI _ hc h1
  refine ⟨?_, ?_⟩
  · show CtxSafe P tr (chain.getLastD c)
    rw [List.getLastD_eq_getLast?]
    cases hl : chain.getLast? with
    | none => exact hc
    | some x => exact hch x (List.mem_of_getLast? hl)
  · have key : ∀ (l : List Ctx), (∀ x ∈ l, CtxSafe P tr x) → ∀ m : List (Str × List (Ctx × BlockDefn)),
        (∀ e ∈ m, ∀ x ∈ e.2, CtxSafe P tr x.1 ∧ (e.1 ∉ tr → Every P x.2.nodes)) →
        ∀ e ∈ l.foldl (fun m c => addBlocks c m) m, ∀ x ∈ e.2, CtxSafe P tr x.1 ∧ (e.1 ∉ tr → Every P x.2.nodes) := by
      intro l
      induction l with
      | nil => intro _ m hm; exact hm
      | cons a l ih =>
        intro hl m hm
        rw [List.foldl_cons]
        exact ih (fun x hx => hl x (List.mem_cons_of_mem _ hx)) _ (addBlocks_safe (hl a (List.mem_cons_self ..)) hm)
    exact key chain hch [] (by simp)

theorem handleInclude_hush (hr : RecHush W P tr rec) (hI : ∀ p c, assoc I.contexts p = some c → CtxSafe P tr c)
    (hc : CtxSafe P tr ctx) {d : Bool} {g g' : Gen} {ws : Ws} {path : Str} {code : List Stmt}
    (hP : ∀ p c Hc, I.find path = some p → assoc I.contexts p = some c → includeHeritage I (mergeCtx c ctx) = .ok Hc →
      Every P (rootOf Hc (mergeCtx c ctx)).nodes) (hg : Half P H d g)
    (h : handleInclude rec I ctx g ws path = .ok (code, g')) : Flushed W I P H d g code g' := by
  obtain ⟨pre, g1, p, c, Hc, bc, g2, fl, g3, h1, h2, h3, h4, h5, h6, rfl, rfl⟩ := handleInclude_inv h
  obtain ⟨o, e1⟩ := hg.flush (I := I) ws
  rw [e1] at h1
  have hg0 : Half P H d { g with nextWs := o } := ⟨hg.pd, hg.dis, hg.sup, hg.sc⟩
  obtain ⟨a1, a2, a3, a4⟩ := hg0.buf h1
  have b1 := mergeCtx_safe (hI _ _ h3) hc
  have b2 : ∀ h, Hc = some h → HSafe P tr h := by
    rintro h rfl
    unfold includeHeritage at h4
    split at h4
    · cases h7 : heritageNew I.contexts (mergeCtx c ctx) with
      | error e => rw [h7] at h4; cases h4
      | ok x => rw [h7] at h4; cases h4; exact heritageNew_safe hI b1 h7
    · cases h4
  have b3 : CtxSafe P tr (rootOf Hc (mergeCtx c ctx)) := by
    cases Hc with
    | none => exact b1
    | some h => exact (b2 h rfl).1
  have c0 : Half P Hc d { new I g1.locals.withParent g1.indent g1.discard with pdiscard := g1.pdiscard } :=
    ⟨a1.pd, a1.dis, fun n k e => by (cases e), by simp [new, MapChain.withParent]⟩
  obtain ⟨c1, c2, c3, -, -⟩ := hr _ _ _ _ _ _ _ _ h5 b2 b3 (hP p c Hc h2 h3 h4) c0 rfl
  obtain ⟨rfl, rfl⟩ := writeBuf_nil h6 c3
  refine ⟨⟨pre, _, g1, ({ g1 with indent := g3.indent, discard := g3.discard } : Gen).emit [.includeBytes p] ++ bc, h1,
    rfl, rfl, .inl rfl, ?_, ?_⟩, ⟨a1.pd, c2.dis, a1.sup, a1.sc⟩, a2, a3, a4⟩
  · simp only [List.append_assoc, List.append_nil]
  · refine Mute.append (Mute.emit c2.dis (.single fun ρ x hx => ?_)) c1
    simp only [Stmt.exec, Option.some.injEq] at hx; subst hx; exact ⟨rfl, rfl⟩

theorem lowerNames_bound {t : Target} (h : lowerNames t = true) : ∀ n ∈ t.bound W, pathLike n = false := by
  intro n hn
  simp only [lowerNames, Bool.and_eq_true, List.isEmpty_iff, List.all_eq_true, Bool.not_eq_true'] at h
  rcases Target.bound_mem W t n hn with h1 | h1
  · exact h.2 n h1
  · rw [h.1] at h1; cases h1

theorem writeLet_hush {d : Bool} {g g' : Gen} {ws : Ws} {var : Target} {val : Option Expr} {code : List Stmt}
    (hg : Half P H d g) (hpd : g.pend = []) (hv : lowerNames var = true) (h : writeLet I g ws var val = .ok (code, g')) :
    Mute W d code ∧ Half P H d g' ∧ g'.pend = [] ∧ Hold g g' := by
  obtain ⟨o, sk, e1⟩ := hg.handle (I := I) ws
  have hg0 : Half P H d { g with nextWs := o, skipWs := sk } := ⟨hg.pd, hg.dis, hg.sup, hg.sc⟩
  have hlow := lowerNames_bound (W := W) hv
  rcases writeLet_inv h with ⟨s, g1, -, h1, rfl, rfl⟩ | ⟨e, r, w, sh, s, g1, -, h1, h2, h3, rfl, rfl⟩
  · rw [e1] at h1
    obtain ⟨rfl, rfl⟩ := writeBuf_nil h1 hpd
    obtain ⟨a1, a2⟩ := hg0.declared var false
    refine ⟨Mute.append .nil (Mute.emit hg0.dis (.single (fun ρ x hx => ?_) hlow)), a1, hpd,
      ⟨a2.sup, a2.parent, a2.tail⟩⟩
    simp only [Stmt.exec, Option.some.injEq] at hx; subst hx; exact ⟨rfl, rfl⟩
  · rw [e1] at h3
    have h4 : s = [] ∧ g1 = { g with nextWs := o, skipWs := sk } := by
      unfold flushIf at h3
      split at h3
      · exact writeBuf_nil h3 hpd
      · cases h3; exact ⟨rfl, rfl⟩
    obtain ⟨rfl, rfl⟩ := h4
    obtain ⟨a1, a2⟩ := hg0.declared var true
    refine ⟨Mute.append .nil (Mute.emit hg0.dis (.single (fun ρ x hx => ?_) fun n hn => ?_)), a1, hpd,
      ⟨a2.sup, a2.parent, a2.tail⟩⟩
    case refine_2 =>
      split at hn
      · split at hn
        · exact hlow n hn
        · cases hn
      · exact hlow n hn
    have k1 : (Stmt.letInit var r).exec W ρ = some x → x.1 = [] ∧ x.2.2.item = ρ.item := by
      intro hx
      simp only [Stmt.exec, Option.bind_eq_some_iff, Option.map_eq_some_iff] at hx
      obtain ⟨v, -, vs, -, rfl⟩ := hx
      exact ⟨rfl, rfl⟩
    have k2 : ∀ n, (Stmt.assign n r).exec W ρ = some x → x.1 = [] ∧ x.2.2.item = ρ.item := by
      intro n hx
      simp only [Stmt.exec, Option.bind_eq_some_iff, Option.map_eq_some_iff] at hx
      obtain ⟨v, -, vs, -, rfl⟩ := hx
      exact ⟨rfl, rfl⟩
    split at hx
    · split at hx
      · exact k1 hx
      · exact k2 _ hx
    · exact k1 hx

theorem inert_hush {level : Level} {d : Bool} {g g' : Gen} {n : Node} {code : List Stmt} (hi : inert n = true)
    (hg : Half P H d g) (h : handleNode rec I H ctx level g n = .ok (code, g')) :
    code = [] ∧ ∃ o s, g' = { g with nextWs := o, skipWs := s } := by
  cases n with
  | lit l =>
    unfold handleNode at h
    obtain ⟨g1, h1, h⟩ := except_bind h
    cases h
    exact ⟨rfl, hg.lit h1⟩
  | comment ws c => cases h; exact ⟨rfl, hg.handle ws⟩
  | expr ws e =>
    cases h
    refine ⟨rfl, ?_⟩
    obtain ⟨o, s, e1⟩ := hg.handle (I := I) ws
    have hg0 : Half P H d { g with nextWs := o, skipWs := s } := ⟨hg.pd, hg.dis, hg.sup, hg.sc⟩
    unfold writeExpr
    rw [e1, hg0.push]
    exact ⟨o, s, rfl⟩
  | raw ws1 l ws2 =>
    unfold handleNode at h
    obtain ⟨g1, h1, h⟩ := except_bind h
    cases h
    obtain ⟨o, s, e1⟩ := hg.handle (I := I) ws1
    have hg0 : Half P H d { g with nextWs := o, skipWs := s } := ⟨hg.pd, hg.dis, hg.sup, hg.sc⟩
    rw [e1] at h1
    obtain ⟨o2, s2, rfl⟩ := hg0.lit h1
    have hg1 : Half P H d { g with nextWs := o2, skipWs := s2 } := ⟨hg.pd, hg.dis, hg.sup, hg.sc⟩
    exact ⟨rfl, hg1.handle ws2⟩
  | «macro» ws1 name args nodes ws2 =>
    simp only [handleNode] at h
    split at h
    · cases h
      obtain ⟨o, e1⟩ := hg.flush (I := I) ws1
      rw [e1]
      exact ⟨rfl, o, _, rfl⟩
    · cases h
  | import_ ws p s =>
    simp only [handleNode] at h
    split at h
    · cases h; exact ⟨rfl, hg.handle ws⟩
    · cases h
  | extends_ p =>
    simp only [handleNode] at h
    split at h
    · cases h; exact ⟨rfl, g.nextWs, g.skipWs, rfl⟩
    · cases h
  | _ => cases hi

/-- What is asked of the nodes that are handled while output is discarded. -/
structure Away (I : GenInput) (P : Node → Prop) (b : Str) (tr : List Str) : Prop where
  block : I.block = some b
  mem : b ∈ tr
  not : ∀ ws1 n ns ws2, P (.blockDef ws1 n ns ws2) → n ∉ tr
  low : ∀ ws t v, P (.let_ ws t v) → lowerNames t = true
  inc : ∀ ws path, P (.include ws path) → ∀ p c Hc ctx, I.find path = some p → assoc I.contexts p = some c →
    includeHeritage I (mergeCtx c ctx) = .ok Hc → Every P (rootOf Hc (mergeCtx c ctx)).nodes
  ctx : ∀ p c, assoc I.contexts p = some c → CtxSafe P tr c

theorem flushes_hush (hr : RecHush W P tr rec) (hA : Away I P b tr) (hH : ∀ h, H = some h → HSafe P tr h)
    (hc : CtxSafe P tr ctx) {level : Level} {d : Bool} {g g' : Gen} {n : Node} {code : List Stmt} (hf : flushes n = true)
    (hp : ∀ m ∈ parts n, P m) (hg : Half P H d g) (h : handleNode rec I H ctx level g n = .ok (code, g')) :
    Flushed W I P H d g code g' := by
  have stop : ∀ (ws : Ws) (st : Stmt) (code : List Stmt) (g' : Gen), (∀ ρ : REnv U, ∃ sig, st.exec W ρ = some ([], sig, ρ)) →
      st.lets W = [] →
      (do let (s, g) ← writeBuf I (handleWs I g ws)
          return (s ++ g.emit [st], g) : GRes) = .ok (code, g') → Flushed W I P H d g code g' := by
    intro ws st code g' hst hle h
    obtain ⟨⟨s, g1⟩, h1, h⟩ := except_bind h
    cases h
    obtain ⟨o, sk, e1⟩ := hg.handle (I := I) ws
    have hg0 : Half P H d { g with nextWs := o, skipWs := sk } := ⟨hg.pd, hg.dis, hg.sup, hg.sc⟩
    rw [e1] at h1
    obtain ⟨a1, a2, a3, a4⟩ := hg0.buf h1
    refine ⟨⟨s, _, _, _, h1, rfl, rfl, .inl rfl, rfl, Mute.emit a1.dis (.single (fun ρ x hx => ?_)
      (by rw [hle]; intro n hn; cases hn))⟩, a1, a2, a3, a4⟩
    obtain ⟨sig, e⟩ := hst ρ
    rw [e] at hx; cases hx; exact ⟨rfl, rfl⟩
  cases n with
  | if_ ws cs => exact writeIf_hush hr hH hc (fun n hn => hp n (by simp [parts, hn])) hg h
  | match_ ws1 e arms ws2 => exact writeMatch_hush hr hH hc (fun n hn => hp n (by simp [parts, hn])) hg h
  | loop ws1 v i c body ws2 els ws3 =>
    exact writeLoop_hush hr hH hc (fun n hn => hp n (by simp [parts, hn])) (fun n hn => hp n (by simp [parts, hn])) hg h
  | blockDef ws1 name ns ws2 =>
    refine writeBlock_hush hr hA.block hA.mem hH hc ?_ hg h
    intro n e; cases e
    exact hA.not _ _ _ _ (hp _ (by simp only [parts]; exact List.mem_cons_self ..))
  | «include» ws path =>
    exact handleInclude_hush hr hA.ctx hc (fun p c Hc => hA.inc ws path (hp _ (by simp [parts])) p c Hc ctx) hg h
  | call ws scope name args =>
    simp only [handleNode] at h
    split at h
    · exact writeBlock_hush hr hA.block hA.mem hH hc (by simp) hg h
    · exact writeCall_hush hr hA.ctx hH hc hg h
  | break_ ws => exact stop ws .brk _ _ (fun ρ => ⟨_, rfl⟩) rfl h
  | continue_ ws => exact stop ws .cont _ _ (fun ρ => ⟨_, rfl⟩) rfl h
  | _ => cases hf

theorem handleNode_hush (hr : RecHush W P tr rec) (hA : Away I P b tr) (hH : ∀ h, H = some h → HSafe P tr h)
    (hc : CtxSafe P tr ctx) {level : Level} {d : Bool} {g g' : Gen} {n : Node} {code : List Stmt}
    (hp : ∀ m ∈ parts n, P m) (hg : Half P H d g) (hpd : g.pend = [])
    (h : handleNode rec I H ctx level g n = .ok (code, g')) :
    Mute W d code ∧ Half P H d g' ∧ g'.pend = [] ∧ Hold g g' ∧ (keeps n = true → g'.locals = g.locals) := by
  cases hi : inert n with
  | true =>
    obtain ⟨rfl, o, s, rfl⟩ := inert_hush hi hg h
    exact ⟨.nil, ⟨hg.pd, hg.dis, hg.sup, hg.sc⟩, hpd, .of_eq rfl rfl, fun _ => rfl⟩
  | false =>
    cases hf : flushes n with
    | true =>
      have := flushes_hush hr hA hH hc hf hp hg h
      exact ⟨this.mute hpd, this.2.1, this.2.2.1, this.hold, fun _ => this.2.2.2.1⟩
    | false =>
      cases n with
      | let_ ws v e =>
        obtain ⟨a1, a2, a3, a4⟩ := writeLet_hush (W := W) hg hpd (hA.low ws v e (hp _ (by simp [parts]))) h
        exact ⟨a1, a2, a3, a4, fun hk => by cases hk⟩
      | filterBlock ws1 f ns ws2 =>
        exact writeFilterBlock_hush hr hH hc (fun n hn => hp n (by simp [parts, hn])) hg h
      | _ => first | (cases hi; done) | (cases hf; done)

theorem handleNodes_hush (hr : RecHush W P tr rec) (hA : Away I P b tr) (hH : ∀ h, H = some h → HSafe P tr h)
    (hc : CtxSafe P tr ctx) {level : Level} {d : Bool} : (ns : List Node) → {g g' : Gen} → {code : List Stmt} →
    Every P ns → Half P H d g → g.pend = [] → handleNodes rec I H ctx level ns g = .ok (code, g') →
    Mute W d code ∧ Half P H d g' ∧ g'.pend = [] ∧ Hold g g' ∧ (keepsAll ns = true → g'.locals = g.locals)
  | [], _, _, _, _, hg, hpd, h => by cases h; exact ⟨.nil, hg, hpd, .refl, fun _ => rfl⟩
  | n :: ns, g, g', code, hp, hg, hpd, h => by
    unfold handleNodes at h
    obtain ⟨⟨s, g1⟩, h1, h⟩ := except_bind h
    obtain ⟨⟨s', g2⟩, h2, h⟩ := except_bind h
    cases h
    obtain ⟨a1, a2, a3, a4, a5⟩ := handleNode_hush hr hA hH hc hp.head hg hpd h1
    obtain ⟨b1, b2, b3, b4, b5⟩ := handleNodes_hush hr hA hH hc ns hp.tail a2 a3 h2
    refine ⟨a1.append b1, b2, b3, a4.trans b4, fun hk => ?_⟩
    simp only [keepsAll, Bool.and_eq_true] at hk
    exact (b5 hk.2).trans (a5 hk.1)

theorem handleEnd_state {level : Level} {d : Bool} {g g' : Gen} {code : List Stmt} (hg : Half P H d g)
    (h : handleEnd I level g = .ok (code, g')) : (level = .top ∧ ∃ o, writeBuf I { g with nextWs := o } = .ok (code, g'))
      ∨ (level ≠ .top ∧ code = [] ∧ g' = g) := by
  unfold handleEnd at h
  split at h
  · rename_i hl
    refine .inl ⟨hl, ?_⟩
    dsimp only at h
    split at h
    · obtain ⟨o, e⟩ := hg.flush (I := I) ⟨some (WH.toWsp g.skipWs), none⟩
      rw [e] at h; exact ⟨o, h⟩
    · exact ⟨g.nextWs, h⟩
  · rename_i hl
    cases h; exact .inr ⟨hl, rfl, rfl⟩

theorem handle_hush (hA : Away I P b tr) : (fuel : Nat) → RecHush W P tr (handle I fuel)
  | 0 => by intro H ctx nodes level d g code g' h; cases h
  | fuel + 1 => by
    intro H ctx nodes level d g code g' h hH hc hn hg hpd
    unfold handle at h
    obtain ⟨⟨s, g1⟩, h1, h⟩ := except_bind h
    obtain ⟨⟨s', g2⟩, h2, h⟩ := except_bind h
    cases h
    obtain ⟨a1, a2, a3, a4, a5⟩ := handleNodes_hush (handle_hush hA fuel) hA hH hc nodes hn hg hpd h1
    rcases handleEnd_state a2 h2 with ⟨-, o, h3⟩ | ⟨-, rfl, rfl⟩
    · obtain ⟨rfl, rfl⟩ := writeBuf_nil h3 a3
      exact ⟨a1.append .nil, ⟨a2.pd, a2.dis, a2.sup, a2.sc⟩, a3, ⟨a4.sup, a4.parent, a4.tail⟩, a5⟩
    · exact ⟨a1.append .nil, a2, a3, a4, a5⟩

/-! ## The fragment -/

theorem writeBuf_of_nil {g : Gen} (hp : g.pend = []) : writeBuf I g = .ok ([], g) := by
  unfold writeBuf prepareFormat
  rw [hp]
  rfl

theorem Half.flushed {d : Bool} {g : Gen} (h : Half P H d g) (ws : Ws) : flushWs I g ws = { g with nextWs := none } := by
  unfold flushWs
  split
  · rename_i hn; rw [← hn]
  · repeat' split
    all_goals simp only [h.push]

/-- In the block that is asked for, nothing is discarded. -/
theorem writeBlock_unmute (hb : I.block = some b) {g g' : Gen} {outer : Ws} {code : List Stmt} {d : Bool} (hg : Half P H d g)
    (hp : g.pend = []) (h : writeBlock rec I H ctx g (some b) outer = .ok (code, g')) :
    ∃ g2, writeBlock rec I H ctx { g with pdiscard := false, discard := false, nextWs := none } (some b) outer = .ok (code, g2)
      ∧ g' = { g2 with pdiscard := true, discard := d } ∧ g2.nextWs = none ∧ g2.locals = g.locals ∧ g2.discard = false
      ∧ g2.superBlock = g.superBlock := by
  unfold writeBlock at h ⊢
  rw [hg.flushed] at h
  rw [show flushWs I { g with pdiscard := false, discard := false, nextWs := none } outer = { g with pdiscard := false, discard := false, nextWs := none } from rfl]
  obtain ⟨cur, h1, h⟩ := except_bind h
  obtain ⟨⟨pre, g1⟩, h2, h⟩ := except_bind h
  rw [writeBuf_of_nil (g := { g with nextWs := none }) hp] at h2
  cases h2
  have h1' : currentBlock (some b) g.superBlock = .ok cur := h1
  simp only [hb, hg.pd, beq_self_eq_true, Bool.and_true, if_true, bind, Except.bind] at h
  simp only [hb, h1', beq_self_eq_true, Bool.and_false, if_false, bind, Except.bind, Bool.false_eq_true,
    writeBuf_of_nil (I := I) (g := { g with pdiscard := false, discard := false, nextWs := none }) hp]
  cases H with
  | none => cases h
  | some hh =>
    dsimp only at h ⊢
    cases hdefs : assoc hh.blocks cur.1 with
    | none => rw [hdefs] at h; cases h
    | some defs =>
      rw [hdefs] at h; dsimp only at h ⊢
      cases hcd : defs[cur.2]? with
      | none => rw [hcd] at h; cases h
      | some cd =>
        obtain ⟨cctx, dd⟩ := cd
        rw [hcd] at h; dsimp only at h ⊢
        split at h
        · cases h
        · rename_i x1 x2 hx
          split at h
          · cases h
          · rename_i y1 y2 hy
            cases h
            exact ⟨_, rfl, by simp only [hg.dis]; rfl, rfl, rfl, rfl, rfl⟩

theorem vanishes_hush (hr : RecHush W P tr rec) (hA : Away I P b tr) (hH : ∀ h, H = some h → HSafe P tr h)
    (hc : CtxSafe P tr ctx) {level : Level} {d : Bool} : (ns : List Node) → {g g' : Gen} → {code : List Stmt} →
    Every P ns → ns.all vanishes = true → Half P H d g → g.pend = [] → handleNodes rec I H ctx level ns g = .ok (code, g') →
    code = [] ∧ Half P H d g' ∧ g'.pend = [] ∧ g'.locals = g.locals
  | [], _, _, _, _, _, hg, hpd, h => by cases h; exact ⟨rfl, hg, hpd, rfl⟩
  | n :: ns, g, g', code, hp, hq, hg, hpd, h => by
    unfold handleNodes at h
    obtain ⟨⟨s, g1⟩, h1, h⟩ := except_bind h
    obtain ⟨⟨s', g2⟩, h2, h⟩ := except_bind h
    cases h
    simp only [List.all_cons, Bool.and_eq_true] at hq
    have key : s = [] ∧ Half P H d g1 ∧ g1.pend = [] ∧ g1.locals = g.locals := by
      have inertCase : inert n = true → s = [] ∧ Half P H d g1 ∧ g1.pend = [] ∧ g1.locals = g.locals := fun hi => by
        obtain ⟨rfl, o, sk, rfl⟩ := inert_hush hi hg h1
        exact ⟨rfl, ⟨hg.pd, hg.dis, hg.sup, hg.sc⟩, hpd, rfl⟩
      cases n with
      | blockDef ws1 name nodes ws2 =>
        have := writeBlock_still hr hA.block hA.mem hH hc (fun n e => by
          cases e; exact hA.not _ _ _ _ (hp.head _ (by simp only [parts]; exact List.mem_cons_self ..))) hg h1
        exact ⟨this.none hpd, this.2.1, this.2.2.1, this.2.2.2.1⟩
      | _ => exact inertCase hq.1
    obtain ⟨rfl, k1, k2, k3⟩ := key
    obtain ⟨rfl, l1, l2, l3⟩ := vanishes_hush hr hA hH hc ns hp.tail hq.2 k1 k2 h2
    exact ⟨rfl, l1, l2, l3.trans k3⟩

/-- After the block, its text is written and then nothing else. -/
theorem after_hush (hr : RecHush W P tr rec) (hA : Away I P b tr) (hH : ∀ h, H = some h → HSafe P tr h)
    (hc : CtxSafe P tr ctx) : (ns : List Node) → {g g1 g2 : Gen} → {code code' : List Stmt} →
    Every P ns → settles ns = true → Half P H false g → handleNodes rec I H ctx .top ns g = .ok (code, g1) →
    handleEnd I .top g1 = .ok (code', g2) →
    ∃ pre g0 g' rest, writeBuf I g0 = .ok (pre, g') ∧ g0.pend = g.pend ∧ g0.discard = false
      ∧ (g0.locals = g.locals ∨ g0.locals = g.locals.push) ∧ code ++ code' = pre ++ rest ∧ Mute W false rest
      ∧ (ns.all vanishes = true → rest = [])
  | [], g, g1, g2, code, code', _, _, hg, h, he => by
    cases h
    rcases handleEnd_state hg he with ⟨-, o, h3⟩ | ⟨hl, -⟩
    · exact ⟨code', _, g2, [], h3, rfl, hg.dis, .inl rfl, by simp, .nil, fun _ => rfl⟩
    · exact absurd rfl hl
  | n :: ns, g, g1, g2, code, code', hp, hset, hg, h, he => by
    unfold handleNodes at h
    obtain ⟨⟨s, ga⟩, h1, h⟩ := except_bind h
    obtain ⟨⟨s', gb⟩, h2, h⟩ := except_bind h
    cases h
    unfold settles at hset
    have tail : ∀ {gx : Gen} {c c' : List Stmt} {gy gz : Gen}, Half P H false gx → gx.pend = [] →
        handleNodes rec I H ctx .top ns gx = .ok (c, gy) → handleEnd I .top gy = .ok (c', gz) →
        Mute W false (c ++ c') ∧ (ns.all vanishes = true → c ++ c' = []) := by
      intro gx c c' gy gz hx hxp hn he
      obtain ⟨a1, a2, a3, -, -⟩ := handleNodes_hush (W := W) hr hA hH hc ns hp.tail hx hxp hn
      have e : c' = [] := by
        rcases handleEnd_state a2 he with ⟨-, o, h3⟩ | ⟨-, h3, -⟩
        · exact (writeBuf_nil h3 a3).1
        · exact h3
      subst e
      rw [List.append_nil]
      exact ⟨a1, fun hq => (vanishes_hush hr hA hH hc ns hp.tail hq hx hxp hn).1⟩
    cases hi : inert n with
    | true =>
      rw [hi, if_pos rfl] at hset
      obtain ⟨rfl, o, sk, rfl⟩ := inert_hush hi hg h1
      obtain ⟨pre, g0, g', rest, b1, b2, b3, b4, b5, b6, b7⟩ :=
        after_hush hr hA hH hc ns (g := { g with nextWs := o, skipWs := sk }) hp.tail hset
          ⟨hg.pd, hg.dis, hg.sup, hg.sc⟩ h2 he
      refine ⟨pre, g0, g', rest, b1, b2, b3, b4, by simpa using b5, b6, fun hq => b7 ?_⟩
      simp only [List.all_cons, Bool.and_eq_true] at hq
      exact hq.2
    | false =>
      rw [hi, if_neg (by simp)] at hset
      by_cases hbd : ∃ ws1 name nodes ws2, n = .blockDef ws1 name nodes ws2
      · obtain ⟨ws1, name, nodes, ws2, rfl⟩ := hbd
        obtain ⟨⟨g0, g', b1, b2, b3, b4⟩, b5, b6, b7, -⟩ := writeBlock_still hr hA.block hA.mem hH hc (fun n e => by
          cases e; exact hA.not _ _ _ _ (hp.head _ (by simp only [parts]; exact List.mem_cons_self ..))) hg h1
        obtain ⟨t1, t2⟩ := tail b5 b6 h2 he
        refine ⟨s, g0, g', s' ++ code', b1, b2, b3.trans hg.dis, .inl b4, by simp, t1, fun hq => t2 ?_⟩
        simp only [List.all_cons, Bool.and_eq_true] at hq
        exact hq.2
      · obtain ⟨⟨pre, g0, g', rest, b1, b2, b3, b4, rfl, b5⟩, b6, b7, b8, -⟩ := flushes_hush (W := W) hr hA hH hc hset hp.head hg h1
        obtain ⟨t1, -⟩ := tail b6 b7 h2 he
        refine ⟨pre, g0, g', rest ++ (s' ++ code'), b1, b2, b3.trans hg.dis, b4, by simp, b5.append t1, fun hq => ?_⟩
        simp only [List.all_cons, Bool.and_eq_true] at hq
        exfalso
        cases n with
        | blockDef ws1 name nodes ws2 => exact hbd ⟨_, _, _, _, rfl⟩
        | _ => first | (cases hi; done) | (simp [vanishes, inert] at hq; done)

theorem handleNodes_append {rec : Handler} {level : Level} : (l m : List Node) → {g g' : Gen} → {code : List Stmt} →
    handleNodes rec I H ctx level (l ++ m) g = .ok (code, g') →
    ∃ c1 g1 c2, handleNodes rec I H ctx level l g = .ok (c1, g1) ∧ handleNodes rec I H ctx level m g1 = .ok (c2, g')
      ∧ code = c1 ++ c2
  | [], m, g, g', code, h => ⟨[], g, code, rfl, h, rfl⟩
  | n :: l, m, g, g', code, h => by
    simp only [List.cons_append, handleNodes] at h
    obtain ⟨⟨s, ga⟩, h1, h⟩ := except_bind h
    obtain ⟨⟨s', gb⟩, h2, h⟩ := except_bind h
    cases h
    obtain ⟨c1, g1, c2, i1, i2, rfl⟩ := handleNodes_append l m h2
    refine ⟨s ++ c1, g1, c2, ?_, i2, by simp⟩
    simp only [handleNodes, h1, i1, bind, Except.bind, pure, Except.pure]

/-- The code is that of the block `b`, made with a state in which nothing is discarded. Its last part is pending. -/
def Cut (I : GenInput) (H : Option Heritage) (b : Str) (fuel : Nat) (own : Ctx) (code : List Stmt) (g' : Gen) : Prop :=
  ∃ ga outer gb, Clean ga ∧ ga.pend = [] ∧ ga.nextWs = none ∧ ga.locals = .empty
    ∧ currentBlock (some b) ga.superBlock = .ok (b, 0)
    ∧ writeBlock (handle I fuel) I H own ga (some b) outer = .ok (code, gb) ∧ gb.nextWs = none ∧ gb.locals = .empty
    ∧ g'.pend = gb.pend

/-- The block `b` stands among the nodes, `k` blocks deep; `own` is the context of the nodes it stands among. -/
inductive Deep (P : Node → Prop) (H : Option Heritage) (b : Str) : Nat → Ctx → List Node → Ctx → Prop where
  | here {ctx : Ctx} {pre ns post : List Node} {ws1 ws2 : Ws} : Every P pre → keepsAll pre = true →
      post.all inert = true → Deep P H b 0 ctx (pre ++ .blockDef ws1 b ns ws2 :: post) ctx
  | under {ctx own c : Ctx} {pre ns post : List Node} {ws1 ws2 : Ws} {o : Str} {d : BlockDefn}
      {k : Nat} : Every P pre → keepsAll pre = true → post.all inert = true → o ≠ b →
      (∀ h defs, H = some h → assoc h.blocks o = some defs → defs[0]? = some (c, d)) → SafeAbove P H o 0 →
      Deep P H b k (mergeCtx c ctx) d.nodes own → Deep P H b (k + 1) ctx (pre ++ .blockDef ws1 o ns ws2 :: post) own

theorem inerts_hush {rec : Handler} {level : Level} {d : Bool} : (ns : List Node) → {g g' : Gen} → {code : List Stmt} →
    ns.all inert = true → Half P H d g → handleNodes rec I H ctx level ns g = .ok (code, g') →
    code = [] ∧ ∃ o s, g' = { g with nextWs := o, skipWs := s }
  | [], g, _, _, _, hg, h => by cases h; exact ⟨rfl, g.nextWs, g.skipWs, rfl⟩
  | n :: ns, g, g', code, hi, hg, h => by
    unfold handleNodes at h
    obtain ⟨⟨s, g1⟩, h1, h⟩ := except_bind h
    obtain ⟨⟨s', g2⟩, h2, h⟩ := except_bind h
    cases h
    simp only [List.all_cons, Bool.and_eq_true] at hi
    obtain ⟨rfl, o, sk, rfl⟩ := inert_hush hi.1 hg h1
    obtain ⟨rfl, o', sk', rfl⟩ := inerts_hush ns (g := { g with nextWs := o, skipWs := sk }) hi.2
      ⟨hg.pd, hg.dis, hg.sup, hg.sc⟩ h2
    exact ⟨rfl, o', sk', rfl⟩

/-- The block itself. -/
theorem block_cut (hb : I.block = some b) {fuel : Nat} {g g' : Gen} {outer : Ws} {code : List Stmt} {d : Bool}
    (hg : Half P H d g) (hp : g.pend = []) (hL : g.locals = .empty) (hs : ∀ q, g.superBlock = some q → q.1 ≠ b)
    (h : writeBlock (handle I fuel) I H ctx g (some b) outer = .ok (code, g')) :
    Cut I H b fuel ctx code g' ∧ Half P H d g' ∧ g'.locals = .empty ∧ g'.superBlock = g.superBlock := by
  obtain ⟨gc, b1, rfl, b2, b3, b4, b5⟩ := writeBlock_unmute hb hg hp h
  refine ⟨⟨{ g with pdiscard := false, discard := false, nextWs := none }, _, gc, ⟨rfl, rfl, hg.sc⟩, hp, rfl, hL, ?_, b1, b2, b3.trans hL, rfl⟩, ⟨rfl, rfl, fun n k e => hg.sup n k (b5 ▸ e), ?_⟩,
    b3.trans hL, b5⟩
  · show currentBlock (some b) g.superBlock = _
    cases hq : g.superBlock with
    | none => rfl
    | some q =>
      have := hs q hq
      simp only [currentBlock, if_neg (Ne.symm this)]
  · show gc.locals.scopes ≠ []
    rw [b3]; exact hg.sc

/-- A block around the one that is asked for. -/
theorem block_around (hb : I.block = some b) {rec : Handler} {fuel : Nat} {g g' : Gen} {outer : Ws} {code : List Stmt}
    {d : Bool} {o : Str} {c own : Ctx} {dd : BlockDefn} (hne : o ≠ b)
    (hdefs : ∀ h defs, H = some h → assoc h.blocks o = some defs → defs[0]? = some (c, dd)) (hsafe : SafeAbove P H o 0)
    (hH : ∀ h, H = some h → HSafe P tr h)
    (inner : ∀ {g g' : Gen} {code : List Stmt}, CtxSafe P tr c → Half P H true g → g.pend = [] → g.locals = .empty →
      (∀ q, g.superBlock = some q → q.1 ≠ b) → rec H (mergeCtx c ctx) dd.nodes .block g = .ok (code, g') →
      Cut I H b fuel own code g' ∧ Half P H true g' ∧ g'.locals = .empty)
    (hg : Half P H d g) (hp : g.pend = []) (hL : g.locals = .empty)
    (h : writeBlock rec I H ctx g (some o) outer = .ok (code, g')) :
    Cut I H b fuel own code g' ∧ Half P H d g' ∧ g'.locals = .empty ∧ g'.superBlock = g.superBlock := by
  unfold writeBlock at h
  rw [hg.flushed] at h
  obtain ⟨cur, h1, h⟩ := except_bind h
  obtain ⟨⟨pre, g1⟩, h2, h⟩ := except_bind h
  obtain ⟨rfl, rfl⟩ := writeBuf_nil h2 hp
  have hcur : cur = (o, 0) := by
    dsimp only at h1
    cases hs : g.superBlock with
    | none => rw [hs] at h1; cases h1; rfl
    | some q =>
      rw [hs] at h1
      simp only [currentBlock] at h1
      split at h1
      · cases h1
      · cases h1; rfl
  subst hcur
  have hfr : (I.block == some o) = false := by
    rw [hb, beq_eq_false_iff_ne]; exact fun e => hne (by cases e; rfl)
  simp only [hfr, Bool.false_and, Bool.false_eq_true, if_false, hg.pd] at h
  cases H with
  | none => cases h
  | some hh =>
  dsimp only at h
  cases hds : assoc hh.blocks o with
  | none => rw [hds] at h; cases h
  | some defs =>
  have hd0 := hdefs hh defs rfl hds
  rw [hds] at h
  dsimp only at h
  rw [hd0] at h
  dsimp only at h
  have hcc := ((hH hh rfl).2 _ (assoc_pair hds) _ (List.mem_of_getElem? hd0)).1
  obtain ⟨⟨bc, g2⟩, h3, h⟩ := except_bind h
  obtain ⟨⟨fl, g3⟩, h4, h⟩ := except_bind h
  cases h
  have c0 : Half P (some hh) true { prepareWs I { new I .empty g.indent true with pend := g.pend, pdiscard := true } dd.ws1
      with superBlock := some (o, 0) } :=
    ⟨rfl, rfl, fun n k e => by cases e; exact hsafe, by simp [prepareWs, new, MapChain.empty]⟩
  obtain ⟨c1, c2, c3⟩ := inner hcc c0 hp rfl (fun q e => by cases e; exact hne) h3
  have c5 : fl = [] ∧ g3 = g2 := by
    unfold flushIf at h4
    rw [c3] at h4
    cases h4; exact ⟨rfl, rfl⟩
  obtain ⟨rfl, rfl⟩ := c5
  obtain ⟨o3, e3⟩ := c2.flush (I := I) dd.ws2
  rw [e3]
  obtain ⟨ga, ou, gb, f1, f2, f3, f4, f5, f6, f7, f8, f9⟩ := c1
  refine ⟨⟨ga, ou, gb, f1, f2, f3, f4, f5, ?_, f7, f8, f9⟩, ⟨c2.pd, hg.dis, hg.sup, hg.sc⟩, hL, rfl⟩
  simpa using f6

/-- The nodes around the block that is asked for, inside of other blocks. -/
theorem deep_code (hr : ∀ n, RecHush W P tr (handle I n)) (hA : Away I P b tr) (hH : ∀ h, H = some h → HSafe P tr h) {fuel k : Nat} {ns : List Node} {own : Ctx}
    (hd : Deep P H b k ctx ns own) : ∀ {g g' : Gen} {code : List Stmt}, CtxSafe P tr ctx → Half P H true g → g.pend = [] →
    g.locals = .empty → (∀ q, g.superBlock = some q → q.1 ≠ b) →
    handle I (fuel + k + 1) H ctx ns .block g = .ok (code, g') →
    Cut I H b fuel own code g' ∧ Half P H true g' ∧ g'.locals = .empty := by
  have ends : ∀ {rec : Handler} {c : Ctx} {post : List Node} {g g1 g' : Gen} {code code' : List Stmt}, post.all inert = true →
      Half P H true g → handleNodes rec I H c .block post g = .ok (code, g1) → handleEnd I .block g1 = .ok (code', g') →
      code = [] ∧ code' = [] ∧ g'.pend = g.pend ∧ Half P H true g' ∧ g'.locals = g.locals := by
    intro rec c post g g1 g' code code' hi hg h1 h2
    obtain ⟨rfl, o, sk, rfl⟩ := inerts_hush post hi hg h1
    cases h2
    exact ⟨rfl, rfl, rfl, ⟨hg.pd, hg.dis, hg.sup, hg.sc⟩, rfl⟩
  induction hd with
  | here hpre hk hi =>
    intro g g' code hc hg hp hL hs h
    unfold handle at h
    obtain ⟨⟨s, gn⟩, h1, h⟩ := except_bind h
    obtain ⟨⟨s', g2⟩, h2, h⟩ := except_bind h
    cases h
    obtain ⟨c1, ga, cr, h3, h4, rfl⟩ := handleNodes_append _ _ h1
    obtain ⟨a1, a2, a3, a4, a5⟩ := handleNodes_hush (hr _) hA hH hc _ hpre hg hp h3
    unfold handleNodes at h4
    obtain ⟨⟨cb, gb⟩, h5, h4⟩ := except_bind h4
    obtain ⟨⟨cp, gp⟩, h6, h4⟩ := except_bind h4
    cases h4
    obtain ⟨b1, b2, b3, b4⟩ := block_cut hA.block a2 a3 ((a5 hk).trans hL) (by rw [a4.sup]; exact hs) h5
    obtain ⟨rfl, rfl, e3, e4, e5⟩ := ends hi b2 h6 h2
    rw [a1.1 rfl]
    obtain ⟨ga', ou, gb', f1, f2, f3, f4, f5, f6, f7, f8, f9⟩ := b1
    refine ⟨⟨ga', ou, gb', f1, f2, f3, f4, f5, ?_, f7, f8, e3.trans f9⟩, e4, e5.trans b3⟩
    simpa using f6
  | under hpre hk hi hne hdefs hsafe hd ih =>
    rename_i k _
    intro g g' code hc hg hp hL hs h
    unfold handle at h
    obtain ⟨⟨s, gn⟩, h1, h⟩ := except_bind h
    obtain ⟨⟨s', g2⟩, h2, h⟩ := except_bind h
    cases h
    obtain ⟨c1, ga, cr, h3, h4, rfl⟩ := handleNodes_append _ _ h1
    obtain ⟨a1, a2, a3, a4, a5⟩ := handleNodes_hush (hr _) hA hH hc _ hpre hg hp h3
    unfold handleNodes at h4
    obtain ⟨⟨cb, gb⟩, h5, h4⟩ := except_bind h4
    obtain ⟨⟨cp, gp⟩, h6, h4⟩ := except_bind h4
    cases h4
    obtain ⟨b1, b2, b3, b4⟩ := block_around hA.block hne hdefs hsafe hH
      (fun hcc h1 h2 h3 h4 h5 => ih (mergeCtx_safe hcc hc) h1 h2 h3 h4 h5) a2 a3 ((a5 hk).trans hL) h5
    obtain ⟨rfl, rfl, e3, e4, e5⟩ := ends hi b2 h6 h2
    rw [a1.1 rfl]
    obtain ⟨ga', ou, gb', f1, f2, f3, f4, f5, f6, f7, f8, f9⟩ := b1
    refine ⟨⟨ga', ou, gb', f1, f2, f3, f4, f5, ?_, f7, f8, e3.trans f9⟩, e4, e5.trans b3⟩
    simpa using f6

/-- How the block is reached from the layout: it stands there, or inside of the block that does. -/
inductive Reached (P : Node → Prop) (H : Option Heritage) (b : Str) (ctx : Ctx) : Nat → Str → Ctx → Prop where
  | itself : Reached P H b ctx 0 b ctx
  | inside {o : Str} {c own : Ctx} {d : BlockDefn} {k : Nat} : o ≠ b →
      (∀ h defs, H = some h → assoc h.blocks o = some defs → defs[0]? = some (c, d)) → SafeAbove P H o 0 →
      Deep P H b k (mergeCtx c ctx) d.nodes own → Reached P H b ctx (k + 1) o own

/-- The generated code of a template of which only the block `b` is asked for. -/
theorem handle_fragment (hr : ∀ n, RecHush W P tr (handle I n)) (hA : Away I P b tr) (hH : ∀ h, H = some h → HSafe P tr h)
    (hc : CtxSafe P tr ctx) {pre post ns : List Node} {ws1 ws2 : Ws} {g g' : Gen} {code : List Stmt} {fuel k : Nat} {o : Str}
    {own : Ctx} (hd : Reached P H b ctx k o own)
    (hpre : Every P pre) (hpost : Every P post) (hk : keepsAll pre = true) (hset : settles post = true)
    (hg : Half P H false g) (hpd : g.pend = []) (hL : g.locals = .empty) (hs : g.superBlock = none)
    (h : handle I (fuel + k + 1) H ctx (pre ++ .blockDef ws1 o ns ws2 :: post) .top g = .ok (code, g')) :
    ∃ c1 ga outer c2 gb w g0 gw rest, Mute W false c1 ∧ (pre.all vanishes = true → c1 = []) ∧ Clean ga ∧ ga.pend = []
      ∧ ga.nextWs = none ∧ ga.locals = .empty
      ∧ writeBlock (handle I fuel) I H own ga (some b) outer = .ok (c2, gb) ∧ gb.nextWs = none
      ∧ writeBuf I g0 = .ok (w, gw) ∧ g0.pend = gb.pend ∧ g0.discard = false
      ∧ (g0.locals = gb.locals ∨ g0.locals = gb.locals.push) ∧ Mute W false rest ∧ (post.all vanishes = true → rest = [])
      ∧ code = c1 ++ (c2 ++ w) ++ rest ∧ currentBlock (some b) ga.superBlock = .ok (b, 0) := by
  unfold handle at h
  obtain ⟨⟨s, gn⟩, h1, h⟩ := except_bind h
  obtain ⟨⟨s', g2⟩, h2, h⟩ := except_bind h
  cases h
  obtain ⟨c1, ga, cr, h3, h4, rfl⟩ := handleNodes_append _ _ h1
  obtain ⟨a1, a2, a3, a4, a5⟩ := handleNodes_hush (hr _) hA hH hc pre hpre hg hpd h3
  unfold handleNodes at h4
  obtain ⟨⟨cb, gb⟩, h5, h4⟩ := except_bind h4
  obtain ⟨⟨cp, gp⟩, h6, h4⟩ := except_bind h4
  cases h4
  have hs' : ∀ q, ga.superBlock = some q → q.1 ≠ b := by
    intro q hq; rw [a4.sup, hs] at hq; cases hq
  have key : Cut I H b fuel own cb gb ∧ Half P H false gb ∧ gb.locals = .empty ∧ gb.superBlock = ga.superBlock := by
    cases hd with
    | itself => exact block_cut hA.block a2 a3 ((a5 hk).trans hL) hs' h5
    | inside hne hdefs hsafe hd =>
      exact block_around hA.block hne hdefs hsafe hH
        (fun hcc h1 h2 h3 h4 h5 => deep_code hr hA hH hd (mergeCtx_safe hcc hc) h1 h2 h3 h4 h5) a2 a3 ((a5 hk).trans hL) h5
  obtain ⟨⟨ga', ou, gb', f1, f2, f3, f4, f5, f6, f7, f8, f9⟩, b2, b3, b4⟩ := key
  obtain ⟨w, g0, gw, rest, d1, d2, d3, d4, d5, d6, d7⟩ := after_hush (W := W) (hr _) hA hH hc post hpost hset b2 h6 h2
  refine ⟨c1, ga', ou, cb, gb', w, g0, gw, rest, a1, fun hq => ?_, f1, f2, f3, f4, f6, f7, d1, d2.trans f9, d3,
    by rw [f8, ← b3]; exact d4, d6, d7, ?_, f5⟩
  · exact (vanishes_hush (hr _) hA hH hc pre hpre hq hg hpd h3).1
  · simp only [List.append_assoc] at d5 ⊢
    rw [d5]

theorem Rel.hidden {L : Locals} (hL : ∀ n, L.get n = none) (hsc : L.scopes ≠ []) (ρ : REnv U) (hi : ρ.item = none)
    (hρ : ∀ n ∈ ρ.names, pathLike n = false) : ∃ cells, Rel W ⟨[], [], [], [], []⟩ cells ⟨[], [], none⟩ L ρ := by
  refine ⟨ρ.vars.map fun e => .rust e.1 e.2, ?_⟩
  have hn : ∀ c ∈ ρ.vars.map (fun e => Cell.rust e.1 e.2), pathLike c.name = false := by
    intro c hc
    obtain ⟨e, he, rfl⟩ := List.mem_map.mp hc
    exact hρ _ (List.mem_map.mpr ⟨e, he, rfl⟩)
  refine ⟨?_, ?_, hi.symm, hsc, ?_, ?_, ?_, ?_, ?_, ?_, ?_, ?_, ?_, ?_, ?_, ?_, rfl⟩
  · induction ρ.vars with
    | nil => rfl
    | cons e l ih => exact ih
  · induction ρ.vars with
    | nil => rfl
    | cons e l ih => simp only [List.map_cons, rustVars]; rw [← ih]
  · intro n m h; rw [hL] at h; cases h
  · intro n m h; rw [hL] at h; cases h
  · intro n m h; rw [hL] at h; cases h
  · intro n _ _; rfl
  · intro n m _ h; rw [hL] at h; cases h
  · intro n m r h; rw [hL] at h; cases h
  · intro n h; cases h
  · intro n h; cases h
  · intro n h; cases h
  · intro n h; cases h
  · intro n hp _ _
    refine .inl ⟨rfl, fun c hc e => ?_⟩
    rw [← e, hn c hc] at hp; cases hp
  · intro c hc hp; rw [hn c hc] at hp; cases hp

/-- The code of the block, with what is pending after it, makes the text of the block. -/
theorem fragment_text (hs : Stable W) {sp : Render U} {gd : GoodRec} (ok : HandlerOk W I rec sp gd) (kg : GdKeeps gd)
    (fr : RecFrame rec) {chain : List Ctx} (hH : HChain H chain) {g g' g0 gw : Gen} {outer : Ws} {c w : List Stmt}
    (h : writeBlock rec I H ctx g (some b) outer = .ok (c, g')) {S' : Sets}
    (hg : goodBlock gd chain ctx ⟨[], [], [], [], []⟩ b 0 = some S') (hc : Clean g) (hp : g.pend = [])
    (hn : g.nextWs = none) (hL : ∀ n, g.locals.get n = none) (hsup : currentBlock (some b) g.superBlock = .ok (b, 0)) (hn' : g'.nextWs = none)
    (hw : writeBuf I g0 = .ok (w, gw)) (hwp : g0.pend = g'.pend) (hwd : g0.discard = false)
    (hwl : g0.locals = g'.locals ∨ g0.locals = g'.locals.push) (ρ : REnv U) (hi : ρ.item = none)
    (hρ : ∀ n ∈ ρ.names, pathLike n = false) (s : Str) :
    (∃ ρ', execList W ρ (c ++ w) = some (s, .next, ρ'))
      ↔ ∃ st, runBlock I sp chain ctx ⟨[], [], none⟩ b 0 = some (some s, .next, st) := by
  obtain ⟨cells, R⟩ := Rel.hidden (W := W) hL hc.wf ρ hi hρ
  have key := block_sound hs ok kg fr hH h (cur := (b, 0)) hsup hg hc R (ts := []) (by rw [hp]; exact .nil) none
  rw [pendText_empty hn] at key
  rw [execList_append]
  generalize execList W ρ c = E at key ⊢
  generalize runBlock I sp chain ctx ⟨[], [], none⟩ b 0 = T at key ⊢
  unfold Ran at key
  match T, key with
  | none, key => subst key; simp [seqE]
  | some (s', sig, st'), key =>
    rcases key with ⟨rfl, e⟩ | ⟨o, ρ', cells', rfl, -, -, -, -, -, -, -, e⟩
    · cases s' with
      | none => simp [seqE]
      | some x => cases e
    · split at e
      · rename_i hsig
        subst hsig
        obtain ⟨q, e1, R', ts, hts, e2⟩ := e
        rw [wsTail_none hn'] at e2
        have hex : execList W ρ' w = (ojoin ts).map fun s => (s, .next, ρ') := by
          rcases hwl with hwl | hwl
          · exact writeBuf_exec hs hw hwd (by rw [hwl]; exact R') (by rw [hwl, hwp]; exact hts)
          · exact writeBuf_exec hs hw hwd (by rw [hwl]; exact R'.push) (by rw [hwl, hwp]; exact hts.congrL (by simp))
        subst e2
        cases ho : ojoin ts with
        | none =>
          rw [ho] at e1 hex
          cases s' with
          | none => simp [seqE, hex]
          | some x => cases e1
        | some t =>
          rw [ho] at e1 hex
          cases s' with
          | none => cases e1
          | some x =>
            simp [oapp] at e1
            simp [seqE, hex, e1]
      · rename_i hsig
        cases s' with
        | none => cases e
        | some x =>
          cases sig with
          | next => exact absurd rfl hsig
          | brk => simp [seqE]
          | cont => simp [seqE]

end

end Askama
