import Verif.Lemmas.StmtsRead
import Verif.Spec.NodeUses
import Verif.Lemmas.GenInv
import Verif.Lemmas.Woven
import Verif.Lemmas.Core

/-!
The statements that the generator emits have texts: every expression in them comes from the template, and the names it uses
stand for the same in the text and in the model.
-/

namespace Askama

open Askama.Spec

/-! ## Contexts -/

section
variable {X : Use → Prop}

theorem nodesUses_mem : {ns : List Node} → nodesUses X ns → ∀ n ∈ ns, nodeUses X n
  | [], _, _, hm => by cases hm
  | _ :: _, h, _, hm => by
    simp only [nodesUses] at h
    rcases List.mem_cons.mp hm with rfl | hm
    · exact h.1
    · exact nodesUses_mem h.2 _ hm

theorem condUses_mem : {bs : List Cond} → condUses X bs → ∀ b ∈ bs, nodesUses X b.nodes
  | [], _, _, hm => by cases hm
  | .mk _ _ _ :: _, h, _, hm => by
    simp only [condUses] at h
    rcases List.mem_cons.mp hm with rfl | hm
    · exact h.2.1
    · exact condUses_mem h.2.2 _ hm

theorem whenUses_mem : {bs : List When} → whenUses X bs → ∀ b ∈ bs, nodesUses X b.nodes
  | [], _, _, hm => by cases hm
  | .mk _ _ _ :: _, h, _, hm => by
    simp only [whenUses] at h
    rcases List.mem_cons.mp hm with rfl | hm
    · exact h.2.1
    · exact whenUses_mem h.2.2 _ hm

theorem ctxNested_uses {n : Node} (h : nodeUses X n) : ∀ ns ∈ ctxNested n, nodesUses X ns := by
  intro ns hns
  cases n with
  | if_ w bs =>
    simp only [nodeUses] at h
    simp only [ctxNested, List.mem_reverse, List.mem_map] at hns
    obtain ⟨b, hm, rfl⟩ := hns
    exact condUses_mem h.2 b hm
  | match_ w e arms w2 =>
    simp only [nodeUses] at h
    simp only [ctxNested, List.mem_reverse, List.mem_map] at hns
    obtain ⟨b, hm, rfl⟩ := hns
    exact whenUses_mem h.2 b hm
  | loop w1 t it c body w2 els w3 =>
    simp only [nodeUses] at h
    simp only [ctxNested, List.mem_cons, List.not_mem_nil, or_false] at hns
    rcases hns with rfl | rfl
    · exact h.2.2.2.2
    · exact h.2.2.2.1
  | blockDef w1 name ns2 w2 =>
    simp only [nodeUses] at h
    simp only [ctxNested, List.mem_cons, List.not_mem_nil, or_false] at hns
    subst hns
    exact h
  | _ => simp [ctxNested] at hns

/-- The state of `Context::new`. -/
structure StUses (X : Use → Prop) (st : CtxSt) : Prop where
  macros : ∀ e ∈ st.macros, macroUses X e.2
  blocks : ∀ e ∈ st.blocks, nodesUses X e.2.nodes
  nested : ∀ ns ∈ st.nested, nodesUses X ns

theorem ctxNode_uses {find : Str → Option Str} {top : Bool} {st st' : CtxSt} {n : Node}
    (h : ctxNode find top st n = .ok st') (hn : nodeUses X n) (hs : StUses X st) : StUses X st' := by
  have key : StUses X { st with nested := ctxNested n ++ st.nested } :=
    ⟨hs.macros, hs.blocks, by
      intro ns hns
      rcases List.mem_append.mp hns with hns | hns
      · exact ctxNested_uses hn ns hns
      · exact hs.nested ns hns⟩
  cases n with
  | extends_ p =>
    simp only [ctxNode] at h
    repeat' split at h
    all_goals cases h
    exact ⟨hs.macros, hs.blocks, hs.nested⟩
  | import_ w p s =>
    simp only [ctxNode] at h
    repeat' split at h
    all_goals cases h
    exact ⟨hs.macros, hs.blocks, hs.nested⟩
  | «macro» w1 name args nodes w2 =>
    simp only [ctxNode] at h
    split at h
    · cases h
      refine ⟨?_, hs.blocks, hs.nested⟩
      intro e he
      rcases mapInsert_or he with rfl | he
      · simp only [nodeUses] at hn
        exact hn
      · exact hs.macros e he
    · cases h
  | blockDef w1 name nodes w2 =>
    cases h
    refine ⟨hs.macros, ?_, key.nested⟩
    intro e he
    rcases mapInsert_or he with rfl | he
    · simp only [nodeUses] at hn
      exact hn
    · exact hs.blocks e he
  | _ => cases h; exact key

theorem ctxNodes_uses {find : Str → Option Str} {top : Bool} : (ns : List Node) → {st st' : CtxSt} →
    ctxNodes find top ns st = .ok st' → nodesUses X ns → StUses X st → StUses X st'
  | [], _, _, h, _, hs => by cases h; exact hs
  | n :: ns, _, _, h, hn, hs => by
    unfold ctxNodes at h
    obtain ⟨st1, h1, h⟩ := except_bind h
    simp only [nodesUses] at hn
    exact ctxNodes_uses ns h hn.2 (ctxNode_uses h1 hn.1 hs)

theorem ctxLoop_uses {find : Str → Option Str} : (fuel : Nat) → {top : Bool} → {st st' : CtxSt} →
    ctxLoop find fuel top st = .ok st' → StUses X st → StUses X st'
  | fuel, top, st, st', h, hs => by
    unfold ctxLoop at h
    split at h
    · cases h; exact hs
    · rename_i ns rest hn
      cases fuel with
      | zero => cases h
      | succ fuel =>
        dsimp only at h
        obtain ⟨st1, h1, h⟩ := except_bind h
        refine ctxLoop_uses fuel h (ctxNodes_uses ns h1 (hs.nested ns (by rw [hn]; simp)) ⟨hs.macros, hs.blocks, ?_⟩)
        intro l hl
        exact hs.nested l (by rw [hn]; exact List.mem_cons_of_mem _ hl)

/-- What holds of the parts of a template's nodes holds of the template with its macros and blocks. -/
theorem contextNew_uses {find : Str → Option Str} {nodes : List Node} {c : Ctx} (h : contextNew find nodes = .ok c)
    (hn : nodesUses X nodes) : CtxUses X c := by
  unfold contextNew at h
  obtain ⟨st, h1, h⟩ := except_bind h
  cases h
  have := ctxLoop_uses (X := X) _ h1 ⟨by simp, by simp, by simpa using hn⟩
  exact ⟨hn, this.macros, this.blocks⟩

theorem _root_.Askama.Spec.CtxUses.merge {a b : Ctx} (ha : CtxUses X a) (hb : CtxUses X b) : CtxUses X (Gen.mergeCtx a b) :=
  ⟨ha.nodes, by
    intro e he
    rcases List.mem_append.mp he with he | he
    · exact ha.macros e he
    · exact hb.macros e he, ha.blocks⟩

theorem addBlocks_uses {c : Ctx} (hc : CtxUses X c) {m : List (Str × List (Ctx × BlockDefn))}
    (hm : ∀ e ∈ m, ∀ x ∈ e.2, CtxUses X x.1 ∧ nodesUses X x.2.nodes) :
    ∀ e ∈ Gen.addBlocks c m, ∀ x ∈ e.2, CtxUses X x.1 ∧ nodesUses X x.2.nodes := by
  unfold Gen.addBlocks
  have key : ∀ (l : List (Str × BlockDefn)), (∀ e ∈ l, nodesUses X e.2.nodes) →
      ∀ m : List (Str × List (Ctx × BlockDefn)),
      (∀ e ∈ m, ∀ x ∈ e.2, CtxUses X x.1 ∧ nodesUses X x.2.nodes) →
      ∀ e ∈ l.foldl (fun m (nd : Str × BlockDefn) =>
        match assoc m nd.1 with
        | none => m ++ [(nd.1, [(c, nd.2)])]
        | some _ => m.map fun e => if e.1 = nd.1 then (e.1, e.2 ++ [(c, nd.2)]) else e) m,
      ∀ x ∈ e.2, CtxUses X x.1 ∧ nodesUses X x.2.nodes := by
    intro l
    induction l with
    | nil => intro _ m hm; exact hm
    | cons nd l ih =>
      intro hl m hm
      rw [List.foldl_cons]
      apply ih (fun e he => hl e (List.mem_cons_of_mem _ he))
      have hnd := hl nd (List.mem_cons_self ..)
      split
      · intro e he
        rcases List.mem_append.mp he with he | he
        · exact hm e he
        · rw [List.mem_singleton] at he; subst he
          intro d hd
          rw [List.mem_singleton] at hd; subst hd
          exact ⟨hc, hnd⟩
      · intro e he
        obtain ⟨e', he', rfl⟩ := List.mem_map.mp he
        split
        · intro d hd
          rcases List.mem_append.mp hd with hd | hd
          · exact hm e' he' d hd
          · rw [List.mem_singleton] at hd; subst hd
            exact ⟨hc, hnd⟩
        · exact hm e' he'
  exact key _ hc.blocks m hm

theorem heritageChain_uses {contexts : List (Str × Ctx)} (hI : ∀ p c, assoc contexts p = some c → CtxUses X c) :
    (fuel : Nat) → {c : Ctx} → {l : List Ctx} → CtxUses X c → Gen.heritageChain contexts fuel c = .ok l →
      ∀ x ∈ l, CtxUses X x
  | 0, _, _, _, h => by cases h
  | fuel + 1, c, l, hc, h => by
    unfold Gen.heritageChain at h
    cases hx : c.extends_ with
    | none => rw [hx] at h; cases h; intro x hx; rw [List.mem_singleton] at hx; subst hx; exact hc
    | some path =>
      rw [hx] at h; dsimp only at h
      cases ha : assoc contexts path with
      | none => rw [ha] at h; cases h
      | some p =>
        rw [ha] at h; dsimp only at h
        obtain ⟨rest, h1, h⟩ := except_bind h
        cases h
        intro x hx
        rcases List.mem_cons.mp hx with rfl | hx
        · exact hc
        · exact heritageChain_uses hI fuel (hI _ _ ha) h1 x hx

theorem heritageNew_uses {contexts : List (Str × Ctx)} (hI : ∀ p c, assoc contexts p = some c → CtxUses X c) {c : Ctx}
    (hc : CtxUses X c) {h : Heritage} (hh : Gen.heritageNew contexts c = .ok h) : HeritageUses X (some h) := by
  unfold Gen.heritageNew at hh
  obtain ⟨chain, h1, hh⟩ := except_bind hh
  cases hh
  have hch := heritageChain_uses hI _ hc h1
  rintro _ ⟨⟩
  refine ⟨?_, ?_⟩
  · show CtxUses X (chain.getLastD c)
    rw [List.getLastD_eq_getLast?]
    cases hl : chain.getLast? with
    | none => exact hc
    | some x => exact hch x (List.mem_of_getLast? hl)
  · have key : ∀ (l : List Ctx), (∀ x ∈ l, CtxUses X x) → ∀ m : List (Str × List (Ctx × BlockDefn)),
        (∀ e ∈ m, ∀ x ∈ e.2, CtxUses X x.1 ∧ nodesUses X x.2.nodes) →
        ∀ e ∈ l.foldl (fun m c => Gen.addBlocks c m) m, ∀ x ∈ e.2, CtxUses X x.1 ∧ nodesUses X x.2.nodes := by
      intro l
      induction l with
      | nil => intro _ m hm; exact hm
      | cons a l ih =>
        intro hl m hm
        rw [List.foldl_cons]
        exact ih (fun x hx => hl x (List.mem_cons_of_mem _ hx)) _ (addBlocks_uses (hl a (List.mem_cons_self ..)) hm)
    exact key chain hch [] (by simp)

theorem heritageOf_uses {contexts : List (Str × Ctx)} {b : Option Str} {c : Ctx} {H : Option Heritage}
    (hI : ∀ p c, assoc contexts p = some c → CtxUses X c) (hc : CtxUses X c) (h : heritageOf contexts b c = .ok H) :
    HeritageUses X H := by
  unfold heritageOf at h
  split at h
  · obtain ⟨hh, h1, h⟩ := except_bind h
    have := heritageNew_uses hI hc h1
    repeat' split at h
    all_goals cases h
    all_goals exact this
  · cases h
    intro h hh
    cases hh

end

/-! ## Locals -/

/-- What the locals say of a name is what a text says. -/
def MetaOk (I : GenInput) (m : LocalMeta) : Prop := ∃ o, AgreeAt I o (some m)

/-- ... of every name, in every scope. -/
def LocalsOk (I : GenInput) (L : Locals) : Prop := ∀ s ∈ L.scopes ++ L.parent, ∀ p ∈ s, MetaOk I p.2

section
variable {I : GenInput} {L : Locals}

theorem LocalsOk.get (h : LocalsOk I L) (n : Str) : ∃ o, AgreeAt I o (MapChain.get L n) := by
  have key : ∀ (l : List (Scope LocalMeta)) (m : LocalMeta), l.findSome? (fun s => s.get n) = some m →
      ∃ s ∈ l, ∃ p ∈ s, p.2 = m := by
    intro l m hm
    obtain ⟨s, hs, hg⟩ := List.exists_of_findSome?_eq_some hm
    unfold Scope.get at hg
    rw [Option.map_eq_some_iff] at hg
    obtain ⟨p, h1, h2⟩ := hg
    exact ⟨s, hs, p, List.mem_of_find?_eq_some h1, h2⟩
  unfold MapChain.get
  cases h1 : L.scopes.findSome? (fun s => s.get n) with
  | some m =>
    obtain ⟨s, hs, p, hp, rfl⟩ := key _ _ h1
    exact h s (List.mem_append_left _ hs) p hp
  | none =>
    dsimp only
    cases h2 : L.parent.findSome? (fun s => s.get n) with
    | some m =>
      obtain ⟨s, hs, p, hp, rfl⟩ := key _ _ h2
      exact h s (List.mem_append_right _ hs) p hp
    | none => exact ⟨none, .unknown⟩

theorem LocalsOk.agree (h : LocalsOk I L) : ∃ T, Agree I T L :=
  ⟨fun n => (h.get n).choose, .mk fun n => (h.get n).choose_spec⟩

theorem LocalsOk.empty (I : GenInput) : LocalsOk I .empty := by
  intro s hs p hp
  simp only [MapChain.empty, List.append_nil, List.mem_singleton] at hs
  subst hs
  cases hp

theorem LocalsOk.push (h : LocalsOk I L) : LocalsOk I L.push := by
  intro s hs p hp
  simp only [MapChain.push, List.cons_append, List.mem_cons] at hs
  rcases hs with rfl | hs
  · cases hp
  · exact h s hs p hp

theorem LocalsOk.pop (h : LocalsOk I L) : LocalsOk I L.pop := by
  intro s hs p hp
  simp only [MapChain.pop, List.mem_append] at hs
  refine h s ?_ p hp
  rcases hs with hs | hs
  · exact List.mem_append_left _ (List.mem_of_mem_tail hs)
  · exact List.mem_append_right _ hs

theorem LocalsOk.withParent (h : LocalsOk I L) : LocalsOk I L.withParent := by
  intro s hs p hp
  simp only [MapChain.withParent, List.cons_append, List.nil_append, List.mem_cons] at hs
  rcases hs with rfl | hs
  · cases hp
  · exact h s hs p hp

theorem LocalsOk.insert (h : LocalsOk I L) (n : Str) {m : LocalMeta} (hm : MetaOk I m) : LocalsOk I (L.insert n m) := by
  obtain ⟨scopes, parent⟩ := L
  cases scopes with
  | nil => exact h
  | cons s rest =>
    intro t ht p hp
    simp only [MapChain.insert, List.cons_append, List.mem_cons] at ht
    rcases ht with rfl | ht
    · rcases List.mem_cons.mp hp with rfl | hp
      · exact hm
      · exact h s (by simp) p hp
    · exact h t (List.mem_cons_of_mem _ ht) p hp

theorem LocalsOk.variable (h : LocalsOk I L) (n : Str) (i : Bool) : LocalsOk I (L.insert n { refs := none, initialized := i }) :=
  h.insert n ⟨_, .variable i⟩

theorem LocalsOk.declare {g : Gen} (h : LocalsOk I g.locals) (t : Target) (i : Bool) : LocalsOk I (Gen.declare g t i).locals := by
  unfold Gen.declare
  dsimp only
  generalize t.names = ns
  generalize g.locals = L at *
  induction ns generalizing L with
  | nil => exact h
  | cons n ns ih => exact ih _ (h.variable n i)

theorem LocalsOk.written (h : LocalsOk I L) {e : Expr} {r : RExpr} {w : Bool} (hv : visitExpr I L e = .ok (r, w)) :
    ∃ s, Written I e r w s := by
  obtain ⟨T, hT⟩ := h.agree
  exact ⟨_, T, L, hT, hv, rfl⟩

end

/-! ## States -/

/-- Output that is still to be written has a text. -/
def PendOk (I : GenInput) (X : Use → Prop) : Writable → Prop
  | .lit _ => True
  | .expr e => X (.shown e)
  | .generated r w => ∃ e s, X (.shown e) ∧ Written I e r w s

/-- The state of the generator. -/
structure GenOk (I : GenInput) (X : Use → Prop) (g : Gen) : Prop where
  locals : LocalsOk I g.locals
  pend : ∀ w ∈ g.pend, PendOk I X w

/-- The statements have a text. -/
def Texted (I : GenInput) (plain : Char → Bool) (X : Use → Prop) (sts : List Stmt) : Prop := ∃ s, StmtsText I plain X sts s

section
variable {I : GenInput} {plain : Char → Bool} {X : Use → Prop}

theorem Texted.nil : Texted I plain X [] := ⟨[], .nil⟩

theorem Texted.one {st : Stmt} {s : Str} (h : StmtText I plain X st s) : Texted I plain X [st] := ⟨_, .cons h .nil⟩

theorem Texted.append : {a b : List Stmt} → Texted I plain X a → Texted I plain X b → Texted I plain X (a ++ b)
  | _, _, ⟨_, .nil⟩, hb => hb
  | _, _, ⟨_, .cons h hs⟩, hb => by
    obtain ⟨u, hu⟩ := Texted.append ⟨_, hs⟩ hb
    exact ⟨_, .cons h hu⟩

theorem Texted.emit {g : Gen} {a : List Stmt} (h : Texted I plain X a) : Texted I plain X (g.emit a) := by
  unfold Gen.emit
  split
  · exact .nil
  · exact h

theorem Texted.wrap {g : Gen} {f : List Stmt → Stmt} {b : List Stmt} (h : Texted I plain X b)
    (hf : ∀ s, StmtsText I plain X b s → ∃ t, StmtText I plain X (f b) t) : Texted I plain X (g.wrap f b) := by
  unfold Gen.wrap
  split
  · exact h
  · obtain ⟨s, hs⟩ := h
    obtain ⟨t, ht⟩ := hf s hs
    exact .one ht

theorem GenOk.withPend {g : Gen} (h : GenOk I X g) {p : List Writable} (hp : ∀ w ∈ p, PendOk I X w) :
    GenOk I X { g with pend := p } := ⟨h.locals, hp⟩

theorem GenOk.push {g : Gen} (h : GenOk I X g) {w : Writable} (hw : PendOk I X w) : GenOk I X (g.push w) := by
  unfold Gen.push
  split
  · exact h
  · refine ⟨h.locals, ?_⟩
    intro v hv
    rcases List.mem_append.mp hv with hv | hv
    · exact h.pend v hv
    · rw [List.mem_singleton.mp hv]; exact hw

theorem GenOk.flushWs {g : Gen} (h : GenOk I X g) (ws : Ws) : GenOk I X (Gen.flushWs I g ws) := by
  unfold Gen.flushWs
  split
  · exact h
  · dsimp only
    repeat' split
    all_goals first
      | exact ⟨h.locals, h.pend⟩
      | exact ⟨(h.push (w := .lit _) trivial).locals, (h.push (w := .lit _) trivial).pend⟩

theorem GenOk.prepareWs {g : Gen} (h : GenOk I X g) (ws : Ws) : GenOk I X (Gen.prepareWs I g ws) := ⟨h.locals, h.pend⟩

theorem GenOk.handleWs {g : Gen} (h : GenOk I X g) (ws : Ws) : GenOk I X (Gen.handleWs I g ws) := (h.flushWs ws).prepareWs ws

theorem GenOk.withLocals {g : Gen} (h : GenOk I X g) {L : Locals} (hL : LocalsOk I L) : GenOk I X { g with locals := L } :=
  ⟨hL, h.pend⟩

theorem GenOk.enter {g : Gen} (h : GenOk I X g) : GenOk I X { g with locals := g.locals.push } := h.withLocals h.locals.push

theorem GenOk.leave {g : Gen} (h : GenOk I X g) : GenOk I X { g with locals := g.locals.pop } := h.withLocals h.locals.pop

theorem GenOk.declare {g : Gen} (h : GenOk I X g) (t : Target) (i : Bool) : GenOk I X (Gen.declare g t i) :=
  h.withLocals (h.locals.declare t i)

theorem GenOk.openLine {g : Gen} (h : GenOk I X g) : GenOk I X g.openLine := by
  obtain ⟨k, hk⟩ := Gen.openLine_eq g
  rw [hk]; exact ⟨h.locals, h.pend⟩

theorem GenOk.closeLine {g g' : Gen} (h : GenOk I X g) (hg : g.closeLine = .ok g') : GenOk I X g' := by
  obtain ⟨k, rfl⟩ := Gen.closeLine_eq hg
  exact ⟨h.locals, h.pend⟩

theorem GenOk.dedentUnless {g g' : Gen} {b : Bool} (h : GenOk I X g) (hg : Gen.dedentUnless b g = .ok g') : GenOk I X g' := by
  obtain ⟨k, rfl⟩ := Gen.dedentUnless_eq hg
  exact ⟨h.locals, h.pend⟩

theorem GenOk.visitLit {g g' : Gen} {l : Lit} (h : GenOk I X g) (hg : Gen.visitLit g l = .ok g') : GenOk I X g' := by
  unfold Gen.visitLit at hg
  split at hg
  · cases hg
  · obtain ⟨g1, h1, hg⟩ := except_bind hg
    have a1 : GenOk I X g1 := by
      unfold Gen.visitLws at h1
      repeat' split at h1
      all_goals first
        | (cases h1; done)
        | (cases h1; exact h)
        | (cases h1; exact ⟨h.locals, h.pend⟩)
        | (cases h1; exact h.push (w := .lit _) trivial)
    cases hg
    have a2 : GenOk I X (if l.val.isEmpty then g1 else ({ g1 with skipWs := .preserve } : Gen).push (.lit l.val)) := by
      split
      · exact a1
      · exact GenOk.push (g := { g1 with skipWs := .preserve }) ⟨a1.locals, a1.pend⟩ (w := .lit _) trivial
    split
    · exact a2
    · exact ⟨a2.locals, a2.pend⟩

/-! ## Output -/

/-- What is collected for one `write!`. -/
structure FmtTexts (I : GenInput) (X : Use → Prop) (st : Gen.FmtSt) : Prop where
  args : ∀ a ∈ st.args, ∃ s, ArgText I X a s
  some_ : st.cache ≠ [] → st.args ≠ []

theorem namedExpression_ok {st : Gen.FmtSt} (h : FmtTexts I X st) {e : Expr} {r : RExpr} {w : Bool} {s : Str}
    (hx : X (.shown e)) (hw : Written I e r w s) (c : Bool) :
    FmtTexts I X (Gen.namedExpression I st r w c) ∧ (Gen.namedExpression I st r w c).args ≠ [] := by
  have harg : ∀ id, ∃ u, ArgText I X ⟨id, if w then none else some I.escaper, r⟩ u := by
    intro id
    cases w with
    | false => exact ⟨_, .unwrapped id hx hw⟩
    | true => exact ⟨_, .wrapped id hx hw⟩
  unfold Gen.namedExpression
  dsimp only
  split
  · rename_i id hf
    refine ⟨⟨h.args, h.some_⟩, h.some_ ?_⟩
    intro hc
    unfold Gen.FmtSt.find at hf
    rw [hc] at hf
    cases hf
  · refine ⟨⟨?_, fun _ => by simp⟩, by simp⟩
    intro a ha
    rcases List.mem_append.mp ha with ha | ha
    · exact h.args a ha
    · rw [List.mem_singleton.mp ha]
      exact harg _

theorem formatLoop_ok {L : Locals} (hL : LocalsOk I L) : (ws : List Writable) → {st st' : Gen.FmtSt} →
    Gen.formatLoop I L ws st = .ok st' → (∀ w ∈ ws, PendOk I X w) → FmtTexts I X st →
    FmtTexts I X st' ∧ (ws.all Writable.isLit = false ∨ st.args ≠ [] → st'.args ≠ [])
  | [], _, _, h, _, hs => by
    unfold Gen.formatLoop at h
    cases h
    exact ⟨hs, fun h => h.resolve_left (by simp)⟩
  | .lit s :: ws, st, st', h, hp, hs => by
    unfold Gen.formatLoop at h
    have := formatLoop_ok hL ws h (fun w hw => hp w (List.mem_cons_of_mem _ hw)) ⟨hs.args, hs.some_⟩
    refine ⟨this.1, fun hh => this.2 ?_⟩
    simpa [Writable.isLit] using hh
  | .expr e :: ws, st, st', h, hp, hs => by
    unfold Gen.formatLoop at h
    obtain ⟨⟨r, w⟩, h1, h⟩ := except_bind h
    obtain ⟨s, hw⟩ := hL.written h1
    have a := namedExpression_ok hs (hp (.expr e) (List.mem_cons_self ..)) hw (isCacheable e)
    have := formatLoop_ok hL ws h (fun w hw => hp w (List.mem_cons_of_mem _ hw)) a.1
    exact ⟨this.1, fun _ => this.2 (.inr a.2)⟩
  | .generated r w :: ws, st, st', h, hp, hs => by
    unfold Gen.formatLoop at h
    obtain ⟨e, s, hx, hw⟩ := hp (.generated r w) (List.mem_cons_self ..)
    have a := namedExpression_ok hs hx hw false
    have := formatLoop_ok hL ws h (fun w hw => hp w (List.mem_cons_of_mem _ hw)) a.1
    exact ⟨this.1, fun _ => this.2 (.inr a.2)⟩

theorem argsText_ok : (as : List FmtArg) → as ≠ [] → (∀ a ∈ as, ∃ s, ArgText I X a s) → ∃ s, ArgsText I X as s
  | [], h, _ => absurd rfl h
  | [a], _, h => by
    obtain ⟨s, hs⟩ := h a (by simp)
    exact ⟨_, .one hs⟩
  | a :: b :: as, _, h => by
    obtain ⟨s, hs⟩ := h a (by simp)
    obtain ⟨t, ht⟩ := argsText_ok (b :: as) (by simp) fun x hx => h x (List.mem_cons_of_mem _ hx)
    exact ⟨_, .more hs ht⟩

/-- The parts have texts. -/
def PartsOk (I : GenInput) (X : Use → Prop) : Gen.Parts → Prop
  | .formatted _ args => ∃ s, ArgsText I X args s
  | _ => True

theorem prepareFormat_ok {g g' : Gen} {p : Gen.Parts} (hg : GenOk I X g) (h : Gen.prepareFormat I g = .ok (p, g')) :
    PartsOk I X p ∧ GenOk I X g' := by
  unfold Gen.prepareFormat at h
  split at h
  · cases h; exact ⟨trivial, hg⟩
  · split at h
    · cases h; exact ⟨trivial, hg.locals, by simp⟩
    · rename_i ha
      obtain ⟨st, h1, h⟩ := except_bind h
      cases h
      obtain ⟨a1, a2⟩ := formatLoop_ok (X := X) hg.locals _ h1 hg.pend ⟨by simp, by simp⟩
      exact ⟨argsText_ok _ (a2 (.inl (by simpa using ha))) a1.args, hg.locals, by simp⟩

variable (plain) in
theorem writeBuf_text {g g' : Gen} {s : List Stmt} (hg : GenOk I X g) (h : Gen.writeBuf I g = .ok (s, g')) :
    Texted I plain X s ∧ GenOk I X g' := by
  unfold Gen.writeBuf at h
  obtain ⟨⟨p, g1⟩, h1, h⟩ := except_bind h
  obtain ⟨a1, a2⟩ := prepareFormat_ok hg h1
  cases p with
  | none => cases h; exact ⟨.nil, a2⟩
  | plain t => cases h; exact ⟨.emit (.one (.writeLit t)), a2⟩
  | formatted f a =>
    cases h
    obtain ⟨u, hu⟩ := a1
    exact ⟨.emit (.one (.writeFmt f hu)), a2⟩

variable (plain) in
theorem flushIf_text {c : Bool} {g g' : Gen} {s : List Stmt} (hg : GenOk I X g) (h : Gen.flushIf I c g = .ok (s, g')) :
    Texted I plain X s ∧ GenOk I X g' := by
  unfold Gen.flushIf at h
  split at h
  · exact writeBuf_text plain hg h
  · cases h; exact ⟨.nil, hg⟩

/-! ## Statements -/

theorem writeLet_text {g g' : Gen} {ws : Ws} {t : Target} {e : Option Expr} {s : List Stmt} (hg : GenOk I X g)
    (ht : X (.letVar t)) (he : ∀ x, e = some x → X (.letVal x)) (h : Gen.writeLet I g ws t e = .ok (s, g')) :
    Texted I plain X s ∧ GenOk I X g' := by
  unfold Gen.writeLet at h
  have h0 := hg.handleWs ws
  cases e with
  | none =>
    obtain ⟨⟨s1, g1⟩, h1, h⟩ := except_bind h
    cases h
    obtain ⟨a1, a2⟩ := writeBuf_text plain h0 h1
    exact ⟨a1.append (.emit (.one (.letDecl ht))), a2.declare t false⟩
  | some e =>
    obtain ⟨⟨r, w⟩, hv, h⟩ := except_bind h
    obtain ⟨sh, -, h⟩ := except_bind h
    obtain ⟨⟨s1, g1⟩, h1, h⟩ := except_bind h
    cases h
    obtain ⟨u, hu⟩ := h0.locals.written hv
    obtain ⟨a1, a2⟩ := flushIf_text plain h0 h1
    refine ⟨a1.append (.emit ?_), a2.declare t true⟩
    have hy := he e rfl
    split
    · rename_i n hn
      have : t = .name n := by
        cases t with
        | name m => simp only [Gen.targetName, Option.some.injEq] at hn; rw [hn]
        | _ => simp [Gen.targetName] at hn
      subst this
      split
      · exact .one (.letInit ht hy hu)
      · exact .one (.assign ht hy hu)
    · exact .one (.letInit ht hy hu)

theorem branchCond_text {g g' : Gen} {c : Option CondTest} {rc : RCond} {first : Bool} (hg : GenOk I X g)
    (hc : ∀ t, c = some t → X (condUse t)) (hf : first = true → c ≠ none) (h : Gen.branchCond I g c = .ok (rc, g')) :
    (∃ s, CondText I X first rc s) ∧ GenOk I X g' ∧ (∀ b, isElse (.mk rc b) = c.isNone) := by
  cases c with
  | none =>
    unfold Gen.branchCond at h
    cases h
    refine ⟨⟨_, .always ?_⟩, hg, fun _ => rfl⟩
    cases first with
    | false => rfl
    | true => exact absurd rfl (hf rfl)
  | some t =>
    obtain ⟨target, e⟩ := t
    have hx := hc _ rfl
    cases target with
    | none =>
      unfold Gen.branchCond at h
      obtain ⟨⟨r, w⟩, hv, h⟩ := except_bind h
      cases h
      obtain ⟨u, hu⟩ := hg.locals.written hv
      exact ⟨⟨_, .test hx hu⟩, hg, fun _ => rfl⟩
    | some t =>
      have key : ∀ {e : Expr}, X (.letTest t e) → (visitExpr I g.locals e >>= fun r => pure (RCond.let_ t r.1, Gen.declare g t true)) = .ok (rc, g') →
          (∃ s, CondText I X first rc s) ∧ GenOk I X g' ∧ (∀ b, isElse (.mk rc b) = false) := by
        intro e hx h
        obtain ⟨⟨r, w⟩, hv, h⟩ := except_bind h
        cases h
        obtain ⟨u, hu⟩ := hg.locals.written hv
        exact ⟨⟨_, .let_ hx hu⟩, hg.declare t true, fun _ => rfl⟩
      cases e with
      | binop op a b =>
        unfold Gen.branchCond at h
        unfold condUse at hx
        dsimp only at h hx
        split at h
        · rename_i hop
          rw [if_pos hop] at hx
          obtain ⟨⟨l, w⟩, hv, h⟩ := except_bind h
          obtain ⟨⟨r, w'⟩, hv', h⟩ := except_bind h
          cases h
          obtain ⟨u, hu⟩ := hg.locals.written hv
          obtain ⟨u', hu'⟩ := (hg.declare t true).locals.written hv'
          exact ⟨⟨_, .letChain hx hu hu'⟩, hg.declare t true, fun _ => rfl⟩
        · rename_i hop
          rw [if_neg hop] at hx
          exact key hx h
      | _ => exact key hx h

/-- The handler for nested nodes writes statements with texts. -/
def RecText (I : GenInput) (plain : Char → Bool) (X : Use → Prop) (rec : Gen.Handler) : Prop :=
  ∀ H ctx nodes level g s g', HeritageUses X H → CtxUses X ctx → nodesUses X nodes → GenOk I X g →
    rec H ctx nodes level g = .ok (s, g') → Texted I plain X s ∧ GenOk I X g'

variable {rec : Gen.Handler} {H : Option Heritage} {ctx : Ctx}

theorem branchBodies_text : {bs : List Branch} → {first : Bool} → {s : Str} → BranchesText I plain X first bs s →
    Texted I plain X (Gen.branchBodies bs)
  | _, _, _, .nil => .nil
  | _, _, _, .cons _ hb hs => by
    unfold Gen.branchBodies
    exact .append ⟨_, hb⟩ (branchBodies_text hs)

theorem armBodies_text : {as : List Arm} → {s : Str} → ArmsText I plain X as s → Texted I plain X (Gen.armBodies as)
  | _, _, .nil => .nil
  | _, _, .cons _ hb hs => by
    unfold Gen.armBodies
    exact .append ⟨_, hb⟩ (armBodies_text hs)

theorem ifBranches_text (ok : RecText I plain X rec) (hH : HeritageUses X H) (hc : CtxUses X ctx) {wsEnd : Ws} :
    (bs : List Cond) → {first : Bool} → {g g' : Gen} → {out : List Branch} → condUses X bs → GenOk I X g →
    (first = true → (bs.map noTest).head? = some false) →
    Gen.ifBranches rec I H ctx wsEnd first bs g = .ok (out, g') →
    (∃ s, BranchesText I plain X first out s) ∧ GenOk I X g' ∧ out.map isElse = bs.map noTest
  | [], first, _, _, _, _, hg, hf, h => by
    unfold Gen.ifBranches at h
    cases h
    cases first with
    | false => exact ⟨⟨_, .nil⟩, hg, rfl⟩
    | true => simp at hf
  | .mk w c ns :: rest, first, g, g', out, hu, hg, hf, h => by
    simp only [condUses] at hu
    obtain ⟨g1, rc, g2, body, g3, fl, g4, h1, h2, h3, h4, hlast⟩ := Gen.ifBranches_inv h
    have b1 := hg.enter.dedentUnless h1
    have hf' : first = true → c ≠ none := by
      intro h1 h2
      subst h2
      simpa [noTest] using hf h1
    obtain ⟨⟨sc, hsc⟩, b2, be⟩ := branchCond_text (first := first) b1 hu.1 hf' h2
    obtain ⟨b3, b4⟩ := ok _ _ _ _ _ _ _ hH hc hu.2.1 b2.openLine h3
    obtain ⟨b5, b6⟩ := writeBuf_text plain (b4.handleWs _) h4
    obtain ⟨sb, hsb⟩ := b3.append b5
    rcases hlast with ⟨rfl, rfl, rfl⟩ | ⟨bs', -, h5, rfl⟩
    · refine ⟨⟨_, .cons hsc hsb .nil⟩, b6, ?_⟩
      simp [be, noTest]
    · obtain ⟨⟨sr, hsr⟩, b7, b8⟩ := ifBranches_text ok hH hc rest hu.2.2 b6.leave (by simp) h5
      refine ⟨⟨_, .cons hsc hsb hsr⟩, b7, ?_⟩
      simp [be, noTest, b8]

theorem writeIf_text (ok : RecText I plain X rec) (hX : ∀ u, X u → u.fine) (hH : HeritageUses X H) (hc : CtxUses X ctx)
    {g g' : Gen} {ws : Ws} {bs : List Cond} {s : List Stmt} (hg : GenOk I X g) (he : X (.elses (bs.map noTest)))
    (hu : condUses X bs) (h : Gen.writeIf rec I H ctx g ws bs = .ok (s, g')) : Texted I plain X s ∧ GenOk I X g' := by
  obtain ⟨ws1, c, ns, rest, pre, g1, out, g2, g3, rfl, h1, h2, h3, rfl, rfl⟩ := Gen.writeIf_inv h
  obtain ⟨a1, a2⟩ := writeBuf_text plain (hg.handleWs _) h1
  have hfirst : ((Cond.mk ws1 c ns :: rest).map noTest).head? = some false := by
    have := (hX _ he).1
    simpa using this
  obtain ⟨⟨sb, b1⟩, b2, b3⟩ := ifBranches_text ok hH hc _ hu a2 (fun _ => hfirst) h2
  have b4 := b2.closeLine h3
  refine ⟨a1.append ?_, b4.leave⟩
  split
  · exact branchBodies_text b1
  · exact .one (.if_ (by rw [b3]; exact he) b1)

theorem matchArms_text (ok : RecText I plain X rec) (hH : HeritageUses X H) (hc : CtxUses X ctx) {ws2 : Ws} :
    (as : List When) → {g g' : Gen} → {out : List Arm} → whenUses X as → GenOk I X g →
    Gen.matchArms rec I H ctx ws2 as g = .ok (out, g') → (∃ s, ArmsText I plain X out s) ∧ GenOk I X g'
  | [], _, _, _, _, hg, h => by
    unfold Gen.matchArms at h
    cases h
    exact ⟨⟨_, .nil⟩, hg⟩
  | .mk w t ns :: rest, g, g', out, hu, hg, h => by
    simp only [whenUses] at hu
    obtain ⟨body, g1, fl, g2, g3, as', h1, h2, h3, h4, rfl⟩ := Gen.matchArms_inv h
    obtain ⟨b3, b4⟩ := ok _ _ _ _ _ _ _ hH hc hu.2.1 (hg.enter.declare t true).openLine h1
    obtain ⟨b5, b6⟩ := writeBuf_text plain (b4.handleWs _) h2
    obtain ⟨sb, hsb⟩ := b3.append b5
    obtain ⟨⟨sr, hsr⟩, b7⟩ := matchArms_text ok hH hc rest hu.2.2 (b6.closeLine h3).leave h4
    exact ⟨⟨_, .cons hu.1 hsb hsr⟩, b7⟩

theorem writeMatch_text (ok : RecText I plain X rec) (hH : HeritageUses X H) (hc : CtxUses X ctx) {g g' : Gen} {ws1 ws2 : Ws}
    {e : Expr} {as : List When} {s : List Stmt} (hg : GenOk I X g) (he : X (.matched e)) (hu : whenUses X as)
    (h : Gen.writeMatch rec I H ctx g ws1 e as ws2 = .ok (s, g')) : Texted I plain X s ∧ GenOk I X g' := by
  obtain ⟨ws, t, ns, rest, pre, g1, r, w, out, g2, g3, rfl, h1, hv, h2, h3, rfl, rfl⟩ := Gen.writeMatch_inv h
  obtain ⟨a1, a2⟩ := writeBuf_text plain (hg.flushWs _) h1
  obtain ⟨u, hu'⟩ := a2.locals.written hv
  obtain ⟨⟨sb, b1⟩, b2⟩ := matchArms_text ok hH hc _ hu (a2.openLine.handleWs _) h2
  refine ⟨a1.append ?_, b2.closeLine h3⟩
  split
  · exact armBodies_text b1
  · exact .one (.match_ he hu' b1)

theorem loopFilter_text {g : Gen} {t : Target} {c : Option Expr} {s : List Stmt} (hg : GenOk I X g)
    (hc : ∀ e, c = some e → X (.filter t e)) (h : Gen.loopFilter I g t c = .ok s) : Texted I plain X s := by
  unfold Gen.loopFilter at h
  cases c with
  | none => cases h; exact .nil
  | some c =>
    obtain ⟨⟨r, w⟩, hv, h⟩ := except_bind h
    cases h
    obtain ⟨u, hu⟩ := (hg.enter.declare t true).locals.written hv
    exact .emit (.one (.filterIter (hc c rfl) hu))

theorem writeLoop_text (ok : RecText I plain X rec) (hH : HeritageUses X H) (hc : CtxUses X ctx) {g g' : Gen}
    {ws1 ws2 ws3 : Ws} {t : Target} {it : Expr} {c : Option Expr} {body els : List Node} {s : List Stmt}
    (hg : GenOk I X g) (ht : X (.loopVar t)) (hi : X (.iter it)) (hf : ∀ e, c = some e → X (.filter t e))
    (hb : nodesUses X body) (he : nodesUses X els)
    (h : Gen.writeLoop rec I H ctx g ws1 t it c body ws2 els ws3 = .ok (s, g')) : Texted I plain X s ∧ GenOk I X g' := by
  unfold Gen.writeLoop at h
  obtain ⟨⟨r, w⟩, hv, h⟩ := except_bind h
  obtain ⟨⟨pre, g1⟩, h1, h⟩ := except_bind h
  obtain ⟨filt, h2, h⟩ := except_bind h
  obtain ⟨⟨b, g2⟩, h3, h⟩ := except_bind h
  obtain ⟨⟨fl, g3⟩, h4, h⟩ := except_bind h
  obtain ⟨g4, h5, h⟩ := except_bind h
  have a0 := (hg.handleWs ws1).enter
  obtain ⟨u, hu⟩ := a0.locals.written hv
  obtain ⟨a1, a2⟩ := writeBuf_text plain a0 h1
  have a3 : Texted I plain X filt := loopFilter_text a2.openLine hf h2
  obtain ⟨a4, a5⟩ := ok _ _ _ _ _ _ _ hH hc hb (a2.openLine.enter.declare t true).openLine h3
  obtain ⟨a6, a7⟩ := writeBuf_text plain (a5.handleWs ws2) h4
  have a8 := GenOk.closeLine a7.leave h5
  have hset : ∀ g : Gen, ∀ b : Bool, Texted I plain X (g.emit (if b then [.setDid] else [])) := by
    intro g b
    refine .emit ?_
    cases b with
    | false => exact .nil
    | true => exact .one .setDid
  have hhead : ∀ g : Gen, ∀ b : Bool, Texted I plain X (g.emit ((if b then [.letDid] else []) ++ [.letIter r])) := by
    intro g b
    refine .emit (.append ?_ (.one (.letIter hi hu)))
    cases b with
    | false => exact .nil
    | true => exact .one .letDid
  have hfor : ∀ x, Texted I plain X x → Texted I plain X (g4.wrap (.forIter t) (x ++ b ++ fl)) := fun x hx =>
    ((hx.append a4).append a6).wrap fun s hs => ⟨_, .forIter ht hs⟩
  split at h
  · obtain ⟨⟨eb, g5⟩, h5, h⟩ := except_bind h
    obtain ⟨⟨fl2, g6⟩, h6, h⟩ := except_bind h
    obtain ⟨g7, h7, h⟩ := except_bind h
    obtain ⟨g8, h8, h⟩ := except_bind h
    cases h
    obtain ⟨c1, c2⟩ := ok _ _ _ _ _ _ _ hH hc he a8.openLine.enter h5
    obtain ⟨c3, c4⟩ := writeBuf_text plain (c2.handleWs ws3) h6
    have c5 := GenOk.closeLine c4.leave h7
    have c6 := c5.closeLine h8
    refine ⟨a1.append ?_, c6.leave⟩
    refine Texted.wrap (.append (.append ((hhead _ true).append a3) (hfor _ (hset _ true))) ?_) fun s hs => ⟨_, .block hs⟩
    exact (c1.append c3).wrap fun s hs => ⟨_, .ifNotDid hs⟩
  · obtain ⟨⟨fl2, g6⟩, h6, h⟩ := except_bind h
    obtain ⟨g8, h8, h⟩ := except_bind h
    cases h
    obtain ⟨c3, c4⟩ := writeBuf_text plain (a8.handleWs ws3) h6
    refine ⟨a1.append ?_, (c4.closeLine h8).leave⟩
    exact Texted.wrap (.append (.append ((hhead _ false).append a3) (hfor _ (hset _ false))) c3) fun s hs => ⟨_, .block hs⟩

/-! ## Macro calls -/

theorem namedArgs_mem {params : List Str} : (args : List Expr) → {m : List (Str × Expr)} →
    Gen.namedArgs params args = .ok m → ∀ x ∈ m, x.2 ∈ args
  | [], _, h => by
    unfold Gen.namedArgs at h
    cases h
    simp
  | e :: rest, m, h => by
    unfold Gen.namedArgs at h
    split at h
    · rename_i n e' r heq
      cases heq
      split at h
      · obtain ⟨m', h1, h⟩ := except_bind h
        cases h
        intro x hx
        rcases List.mem_append.mp hx with hx | hx
        · exact List.mem_cons_of_mem _ (namedArgs_mem rest h1 x hx)
        · rw [List.mem_singleton.mp hx]; simp
      · cases h
    · cases h
      simp

theorem paramArg_mem {named : List (Str × Expr)} {args : List Expr} {p : Str} {i : Nat} {b b' : Bool} {e : Expr}
    (hn : ∀ x ∈ named, x.2 ∈ args) (h : Gen.paramArg named args p i b = .ok (e, b')) : e ∈ args := by
  unfold Gen.paramArg at h
  split at h
  · rename_i e' hl
    cases h
    obtain ⟨k, hk⟩ := assoc_mem hl
    exact hn _ (List.mem_reverse.mp hk)
  · split at h
    · split at h
      · rename_i e' hl
        cases h
        exact List.mem_of_getElem? hl
      · cases h
    · cases h

/-- An argument is passed by a text that stands for it, or as the value of a variable. -/
theorem passArg_text {L : Locals} {e : Expr} {x : RExpr ⊕ RExpr} (hL : LocalsOk I L) (he : Fine e)
    (h : Gen.passArg I L e = .ok x) :
    (∃ r, x = .inl r ∧ MetaOk I { refs := some r, initialized := true }) ∨ (∃ r w s, x = .inr r ∧ Written I e r w s) := by
  obtain ⟨T, hT⟩ := hL.agree
  have key : Gen.passArg I L e = (visitExpr I L e).map (fun r => .inr r.1) →
      ∃ r w s, x = .inr r ∧ Written I e r w s := by
    intro heq
    rw [heq] at h
    cases hv : visitExpr I L e with
    | error er => rw [hv] at h; cases h
    | ok p =>
      obtain ⟨r, w⟩ := p
      rw [hv] at h
      cases h
      exact ⟨r, w, _, rfl, T, L, hT, hv, rfl⟩
  cases e with
  | var y =>
    unfold Gen.passArg at h
    dsimp only at h
    split at h
    · rename_i hy
      cases h
      refine .inr ⟨_, false, _, rfl, T, L, hT, ?_, rfl⟩
      rw [visitExpr, if_pos hy]
    · rename_i hy
      cases h
      refine .inl ⟨_, rfl, _, .stands (w := false) true hT (e := .var y) ?_ he.1 he.2 ?_⟩
      · simpa [passable] using hy
      · rw [visitExpr, if_neg hy]
  | attr o a =>
    unfold Gen.passArg at h
    dsimp only at h
    cases hv : visitExpr I L (.attr o a) with
    | error er => rw [hv] at h; cases h
    | ok p =>
      obtain ⟨r, w⟩ := p
      rw [hv] at h
      cases h
      exact .inl ⟨_, rfl, _, .stands true hT (e := .attr o a) rfl he.1 he.2 hv⟩
  | _ => exact .inr (key rfl)

theorem values_cons {e : Expr} {r : RExpr} {w : Bool} {s : Str} {rs : List RExpr} (hx : X (.arg e)) (hw : Written I e r w s)
    (h : rs ≠ [] → ∃ t, ValuesText I X rs t) : ∃ t, ValuesText I X (r :: rs) t := by
  cases rs with
  | nil => exact ⟨_, .one hx hw⟩
  | cons r' rs =>
    obtain ⟨t, ht⟩ := h (by simp)
    exact ⟨_, .more hx hw ht⟩

theorem bindParams_text {named : List (Str × Expr)} {args : List Expr} (hX : ∀ u, X u → u.fine) (hn : ∀ x ∈ named, x.2 ∈ args)
    (ha : ∀ e ∈ args, X (.arg e)) : (ps : List Str) → {i : Nat} → {b : Bool} → {L L' : Locals} → {ns : List Str} →
    {rs : List RExpr} → (∀ p ∈ ps, X (.param p)) → LocalsOk I L → Gen.bindParams I named args ps i b L = .ok (ns, rs, L') →
    LocalsOk I L' ∧ ns.length = rs.length ∧ (∀ n ∈ ns, X (.param n)) ∧ (rs ≠ [] → ∃ t, ValuesText I X rs t)
  | [], _, _, _, _, _, _, _, hL, h => by
    unfold Gen.bindParams at h
    cases h
    exact ⟨hL, rfl, by simp, by simp⟩
  | p :: ps, i, b, L, L', ns, rs, hp, hL, h => by
    unfold Gen.bindParams at h
    obtain ⟨⟨e, b2⟩, h1, h⟩ := except_bind h
    have he := ha e (paramArg_mem hn h1)
    obtain ⟨x, h2, h⟩ := except_bind h
    rcases passArg_text hL (hX _ he) h2 with ⟨r, rfl, hm⟩ | ⟨r, w, s, rfl, hw⟩
    · exact bindParams_text hX hn ha ps (fun q hq => hp q (List.mem_cons_of_mem _ hq)) (hL.insert p hm) h
    · dsimp only at h
      obtain ⟨⟨ns', rs', L2⟩, h3, h⟩ := except_bind h
      cases h
      obtain ⟨a1, a2, a3, a4⟩ := bindParams_text hX hn ha ps (fun q hq => hp q (List.mem_cons_of_mem _ hq))
        (hL.variable p false) h3
      refine ⟨a1, by simp [a2], ?_, fun _ => values_cons he hw a4⟩
      intro n hn'
      rcases List.mem_cons.mp hn' with rfl | hn'
      · exact hp _ (List.mem_cons_self ..)
      · exact a3 n hn'

theorem findMacro_uses (hI : ∀ p c, assoc I.contexts p = some c → CtxUses X c) (hc : CtxUses X ctx) {scope : Option Str}
    {name : Str} {d : MacroDef} {own : Ctx} (h : Gen.findMacro I ctx scope name = .ok (d, own)) :
    macroUses X d ∧ CtxUses X own := by
  unfold Gen.findMacro at h
  split at h
  · split at h
    · cases h
    · split at h
      · cases h
      · rename_i mctx hm
        split at h
        · cases h
        · rename_i d' hd
          cases h
          obtain ⟨k, hk⟩ := assoc_mem hd
          exact ⟨(hI _ _ hm).macros _ hk, hI _ _ hm⟩
  · split at h
    · cases h
    · rename_i d' hd
      cases h
      obtain ⟨k, hk⟩ := assoc_mem hd
      exact ⟨hc.macros _ hk, hc⟩

theorem writeCall_text (ok : RecText I plain X rec) (hX : ∀ u, X u → u.fine)
    (hI : ∀ p c, assoc I.contexts p = some c → CtxUses X c) (hH : HeritageUses X H) (hc : CtxUses X ctx) {g g' : Gen} {ws : Ws}
    {scope : Option Str} {name : Str} {args : List Expr} {s : List Stmt} (hg : GenOk I X g) (ha : ∀ e ∈ args, X (.arg e))
    (h : Gen.writeCall rec I H ctx g ws scope name args = .ok (s, g')) : Texted I plain X s ∧ GenOk I X g' := by
  unfold Gen.writeCall at h
  obtain ⟨⟨d, own⟩, h0, h⟩ := except_bind h
  obtain ⟨m1, m2⟩ := findMacro_uses hI hc h0
  obtain ⟨⟨pre, g1⟩, h1, h⟩ := except_bind h
  obtain ⟨a1, a2⟩ := writeBuf_text plain (hg.flushWs ws).enter h1
  dsimp only at h
  split at h
  · cases h
  · obtain ⟨named, h2, h⟩ := except_bind h
    obtain ⟨⟨ns, rs, L⟩, h3, h⟩ := except_bind h
    obtain ⟨⟨b, g2⟩, h4, h⟩ := except_bind h
    obtain ⟨⟨fl, g3⟩, h5, h⟩ := except_bind h
    obtain ⟨g4, h6, h⟩ := except_bind h
    cases h
    have hn : ∀ x ∈ named, x.2 ∈ args := fun x hx => List.mem_reverse.mp (namedArgs_mem _ h2 x hx)
    have a3 := a2.openLine.prepareWs d.ws1
    obtain ⟨b1, b2, b3, b4⟩ := bindParams_text hX hn ha _ m1.1 a3.locals h3
    obtain ⟨c1, c2⟩ := ok _ _ _ _ _ _ _ hH m2 m1.2 (a3.withLocals b1) h4
    obtain ⟨c3, c4⟩ := writeBuf_text plain (c2.flushWs d.ws2) h5
    refine ⟨a1.append ?_, (c4.closeLine h6).leave.prepareWs ws⟩
    refine Texted.wrap (.append (.append (.emit ?_) c1) c3) fun s hs => ⟨_, .block hs⟩
    split
    · exact .nil
    · rename_i hne
      have : rs ≠ [] := by
        rintro rfl
        simp only [List.length_nil, List.length_eq_zero_iff] at b2
        subst b2
        exact hne rfl
      obtain ⟨t, ht⟩ := b4 this
      exact .one (.letMany b2 b3 ht)

/-! ## Filter blocks, blocks and included templates -/

theorem freeFilterVar_id (L : Locals) : (k id : Nat) → ∃ i, Gen.freeFilterVar L k id = Gen.filterVar i
  | 0, id => ⟨id, rfl⟩
  | k + 1, id => by
    unfold Gen.freeFilterVar
    split
    · exact ⟨id, rfl⟩
    · exact freeFilterVar_id L k (id + 1)

theorem writeFilterBlock_text (ok : RecText I plain X rec) (hH : HeritageUses X H) (hc : CtxUses X ctx) {g g' : Gen}
    {ws1 ws2 : Ws} {f : FilterApp} {nodes : List Node} {s : List Stmt} (hg : GenOk I X g)
    (hf : ∀ id, X (.shown (.filter f.name (Gen.insertFirst (Gen.filterVar id) f.args)))) (hn : nodesUses X nodes)
    (h : Gen.writeFilterBlock rec I H ctx g ws1 f nodes ws2 = .ok (s, g')) : Texted I plain X s ∧ GenOk I X g' := by
  unfold Gen.writeFilterBlock at h
  obtain ⟨⟨b, g1⟩, h1, h⟩ := except_bind h
  obtain ⟨⟨p, g2⟩, h2, h⟩ := except_bind h
  have a0 := hg.flushWs ws1
  obtain ⟨i, hi⟩ := freeFilterVar_id (Gen.flushWs I g ws1).locals (Gen.localsSize (Gen.flushWs I g ws1).locals) 0
  obtain ⟨a1, a2⟩ := ok _ _ _ _ _ _ _ hH hc hn ((a0.withPend (p := []) (by simp)).prepareWs ws1) h1
  obtain ⟨a3, a4⟩ := prepareFormat_ok (a2.flushWs ws2) h2
  have a5 := a4.withPend a0.pend
  have fin : ∀ {st : Stmt} {r : RExpr} {w : Bool} {u : Str}, StmtText I plain X st u →
      visitExpr I g2.locals (.filter f.name (Gen.insertFirst (Gen.freeFilterVar (Gen.flushWs I g ws1).locals
        (Gen.localsSize (Gen.flushWs I g ws1).locals) 0) f.args)) = .ok (r, w) → ∀ (e : Gen),
      Texted I plain X (b ++ e.emit [st])
      ∧ GenOk I X (Gen.prepareWs I (({ g2 with pend := (Gen.flushWs I g ws1).pend } : Gen).push (.generated r w)) ws2) := by
    intro st r w u hst hv e
    rw [hi] at hv
    obtain ⟨v, hw⟩ := a4.locals.written hv
    exact ⟨a1.append (.emit (.one hst)), (a5.push (w := .generated r w) ⟨_, _, hf i, hw⟩).prepareWs ws2⟩
  cases p with
  | none => cases h; exact ⟨a1, a4⟩
  | plain t =>
    obtain ⟨⟨r, w⟩, hv, h⟩ := except_bind h
    cases h
    have := fin (st := .letStr (Gen.filterVar i) t) (.letStr i t) hv
    refine ⟨?_, (this g).2.withLocals ((this g).2.locals.variable _ true)⟩
    rw [hi]
    exact (this _).1
  | formatted t a =>
    obtain ⟨⟨r, w⟩, hv, h⟩ := except_bind h
    cases h
    obtain ⟨u, hu⟩ := a3
    have := fin (st := .letFmt (Gen.filterVar i) t a) (.letFmt i t hu) hv
    refine ⟨?_, (this g).2.withLocals ((this g).2.locals.variable _ true)⟩
    rw [hi]
    exact (this _).1

theorem writeBlock_text (ok : RecText I plain X rec) (hH : HeritageUses X H) (hc : CtxUses X ctx) {g g' : Gen}
    {name : Option Str} {outer : Ws} {s : List Stmt} (hg : GenOk I X g)
    (h : Gen.writeBlock rec I H ctx g name outer = .ok (s, g')) : Texted I plain X s ∧ GenOk I X g' := by
  unfold Gen.writeBlock at h
  obtain ⟨cur, -, h⟩ := except_bind h
  obtain ⟨⟨pre, g1⟩, h1, h⟩ := except_bind h
  obtain ⟨a1, a2⟩ := writeBuf_text plain (hg.flushWs outer) h1
  cases H with
  | none => cases h
  | some hh =>
    dsimp only at h
    split at h
    · cases h
    · rename_i defs hd
      split at h
      · cases h
      · rename_i cctx d hx
        obtain ⟨⟨b, g2⟩, h2, h⟩ := except_bind h
        obtain ⟨⟨fl, g3⟩, h3, h⟩ := except_bind h
        cases h
        obtain ⟨k, hk⟩ := assoc_mem hd
        obtain ⟨m1, m2⟩ := (hH hh rfl).2 _ hk _ (List.mem_of_getElem? hx)
        obtain ⟨b1, b2⟩ := ok _ _ _ _ _ _ _ hH (by exact m1.merge hc) (by exact m2) (by exact ⟨LocalsOk.empty I, a2.pend⟩) h2
        obtain ⟨b3, b4⟩ := flushIf_text plain b2 h3
        exact ⟨(a1.append b1).append b3, a2.locals, (b4.flushWs d.ws2).pend⟩

theorem handleInclude_text (ok : RecText I plain X rec) (hI : ∀ p c, assoc I.contexts p = some c → CtxUses X c)
    (hc : CtxUses X ctx) {g g' : Gen} {ws : Ws} {path : Str} {s : List Stmt} (hg : GenOk I X g)
    (h : Gen.handleInclude rec I ctx g ws path = .ok (s, g')) : Texted I plain X s ∧ GenOk I X g' := by
  obtain ⟨pre, g1, p, c, Hc, bc, g2, fl, g3, h1, h2, h3, h4, h5, h6, rfl, rfl⟩ := Gen.handleInclude_inv h
  obtain ⟨a1, a2⟩ := writeBuf_text plain (hg.flushWs ws) h1
  have b1 := (hI _ _ h3).merge hc
  have b2 : HeritageUses X Hc := by
    unfold Gen.includeHeritage at h4
    split at h4
    · cases h7 : Gen.heritageNew I.contexts (Gen.mergeCtx c ctx) with
      | error e => rw [h7] at h4; cases h4
      | ok x => rw [h7] at h4; cases h4; exact heritageNew_uses hI b1 h7
    · cases h4
      rintro _ ⟨⟩
  have b3 : CtxUses X (rootOf Hc (Gen.mergeCtx c ctx)) := by
    cases Hc with
    | none => exact b1
    | some h => exact (b2 h rfl).1
  obtain ⟨c1, c2⟩ := ok _ _ _ _ _ _ _ b2 b3 b3.nodes ⟨a2.locals.withParent, by simp [Gen.new]⟩ h5
  obtain ⟨c3, c4⟩ := writeBuf_text plain c2 h6
  refine ⟨?_, a2.locals, a2.pend⟩
  exact ((a1.append (.emit (.one (.includeBytes p)))).append c1).append c3

/-! ## Nodes -/

theorem handleNode_text (ok : RecText I plain X rec) (hX : ∀ u, X u → u.fine)
    (hI : ∀ p c, assoc I.contexts p = some c → CtxUses X c) (hH : HeritageUses X H) (hc : CtxUses X ctx) {level : Level}
    {g g' : Gen} {x : Node} {s : List Stmt} (hx : nodeUses X x) (hg : GenOk I X g)
    (h : Gen.handleNode rec I H ctx level g x = .ok (s, g')) : Texted I plain X s ∧ GenOk I X g' := by
  cases x with
  | lit l =>
    unfold Gen.handleNode at h
    obtain ⟨g1, h1, h⟩ := except_bind h
    cases h; exact ⟨.nil, hg.visitLit h1⟩
  | comment ws t => unfold Gen.handleNode at h; cases h; exact ⟨.nil, hg.handleWs ws⟩
  | expr ws e =>
    unfold Gen.handleNode at h; cases h
    simp only [nodeUses] at hx
    exact ⟨.nil, (hg.handleWs ws).push (w := .expr e) hx⟩
  | let_ ws t e =>
    unfold Gen.handleNode at h
    simp only [nodeUses] at hx
    exact writeLet_text hg hx.1 hx.2 h
  | if_ ws bs =>
    unfold Gen.handleNode at h
    simp only [nodeUses] at hx
    exact writeIf_text ok hX hH hc hg hx.1 hx.2 h
  | match_ ws1 e as ws2 =>
    unfold Gen.handleNode at h
    simp only [nodeUses] at hx
    exact writeMatch_text ok hH hc hg hx.1 hx.2 h
  | loop ws1 t it c body ws2 els ws3 =>
    unfold Gen.handleNode at h
    simp only [nodeUses] at hx
    exact writeLoop_text ok hH hc hg hx.1 hx.2.1 hx.2.2.1 hx.2.2.2.1 hx.2.2.2.2 h
  | blockDef ws1 name ns ws2 => unfold Gen.handleNode at h; exact writeBlock_text ok hH hc hg h
  | «include» ws p => unfold Gen.handleNode at h; exact handleInclude_text ok hI hc hg h
  | call ws sc name args =>
    unfold Gen.handleNode at h
    simp only [nodeUses] at hx
    dsimp only at h
    split at h
    · exact writeBlock_text ok hH hc hg h
    · rename_i hne
      exact writeCall_text ok hX hI hH hc hg (hx.resolve_left hne) h
  | filterBlock ws1 f ns ws2 =>
    unfold Gen.handleNode at h
    simp only [nodeUses] at hx
    exact writeFilterBlock_text ok hH hc hg hx.1 hx.2 h
  | «macro» ws1 name as ns ws2 =>
    unfold Gen.handleNode at h
    dsimp only at h
    split at h
    · cases h; exact ⟨.nil, (hg.flushWs ws1).prepareWs ws2⟩
    · cases h
  | raw ws1 l ws2 =>
    unfold Gen.handleNode at h
    obtain ⟨g1, h1, h⟩ := except_bind h
    cases h; exact ⟨.nil, ((hg.handleWs ws1).visitLit h1).handleWs ws2⟩
  | import_ ws p sc =>
    unfold Gen.handleNode at h
    dsimp only at h
    split at h
    · cases h; exact ⟨.nil, hg.handleWs ws⟩
    · cases h
  | extends_ p =>
    unfold Gen.handleNode at h
    dsimp only at h
    split at h
    · cases h; exact ⟨.nil, hg⟩
    · cases h
  | break_ ws =>
    unfold Gen.handleNode at h
    obtain ⟨⟨s1, g1⟩, h1, h⟩ := except_bind h
    cases h
    obtain ⟨a1, a2⟩ := writeBuf_text plain (hg.handleWs ws) h1
    exact ⟨a1.append (.emit (.one .brk)), a2⟩
  | continue_ ws =>
    unfold Gen.handleNode at h
    obtain ⟨⟨s1, g1⟩, h1, h⟩ := except_bind h
    cases h
    obtain ⟨a1, a2⟩ := writeBuf_text plain (hg.handleWs ws) h1
    exact ⟨a1.append (.emit (.one .cont)), a2⟩

theorem handleNodes_text (ok : RecText I plain X rec) (hX : ∀ u, X u → u.fine)
    (hI : ∀ p c, assoc I.contexts p = some c → CtxUses X c) (hH : HeritageUses X H) (hc : CtxUses X ctx) {level : Level} :
    (ns : List Node) → {g g' : Gen} → {s : List Stmt} → nodesUses X ns → GenOk I X g →
    Gen.handleNodes rec I H ctx level ns g = .ok (s, g') → Texted I plain X s ∧ GenOk I X g'
  | [], _, _, _, _, hg, h => by unfold Gen.handleNodes at h; cases h; exact ⟨.nil, hg⟩
  | x :: ns, g, g', s, hn, hg, h => by
    unfold Gen.handleNodes at h
    obtain ⟨⟨s1, g1⟩, h1, h⟩ := except_bind h
    obtain ⟨⟨s2, g2⟩, h2, h⟩ := except_bind h
    cases h
    simp only [nodesUses] at hn
    obtain ⟨a1, a2⟩ := handleNode_text ok hX hI hH hc hn.1 hg h1
    obtain ⟨b1, b2⟩ := handleNodes_text ok hX hI hH hc ns hn.2 a2 h2
    exact ⟨a1.append b1, b2⟩

theorem handle_text (hX : ∀ u, X u → u.fine) (hI : ∀ p c, assoc I.contexts p = some c → CtxUses X c) :
    (fuel : Nat) → RecText I plain X (Gen.handle I fuel)
  | 0 => fun _ _ _ _ _ _ _ _ _ _ _ h => by unfold Gen.handle at h; cases h
  | fuel + 1 => fun H ctx nodes level g s g' hH hc hn hg h => by
    unfold Gen.handle at h
    obtain ⟨⟨s1, g1⟩, h1, h⟩ := except_bind h
    obtain ⟨⟨s2, g2⟩, h2, h⟩ := except_bind h
    cases h
    obtain ⟨a1, a2⟩ := handleNodes_text (handle_text hX hI fuel) hX hI hH hc _ hn hg h1
    unfold Gen.handleEnd at h2
    split at h2
    · have : GenOk I X (if g1.nextWs.isSome then Gen.flushWs I g1 ⟨some (Gen.WH.toWsp g1.skipWs), none⟩ else g1) := by
        split
        · exact a2.flushWs _
        · exact a2
      obtain ⟨b1, b2⟩ := writeBuf_text plain this h2
      exact ⟨a1.append b1, b2⟩
    · cases h2; exact ⟨a1.append .nil, a2⟩

/-- The generated statements have a text. -/
theorem generate_text (hX : ∀ u, X u → u.fine) (hI : ∀ p c, assoc I.contexts p = some c → CtxUses X c)
    (hH : HeritageUses X H) (hc : CtxUses X ctx) {fuel : Nat} {sts : List Stmt} (h : generate I fuel H ctx = .ok sts) :
    Texted I plain X sts := by
  unfold generate at h
  obtain ⟨⟨s, g⟩, h1, h⟩ := except_bind h
  have hroot : CtxUses X (rootOf H ctx) := by
    cases H with
    | none => exact hc
    | some hh => exact (hH hh rfl).1
  have := (handle_text (plain := plain) hX hI fuel _ (rootOf H ctx) _ _ _ _ _ hH hroot hroot.nodes ⟨LocalsOk.empty I, by simp [Gen.new]⟩ h1).1
  dsimp only at h
  split at h
  · cases h
  · obtain ⟨g1, -, h⟩ := except_bind h
    obtain ⟨g2, -, h⟩ := except_bind h
    cases h
    exact this

end

end Askama
