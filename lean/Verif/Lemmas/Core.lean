import Verif.Spec.Core
import Verif.Lemmas.Lineage
import Verif.Props.Parse

/-! Templates without variables of their own pass the check of `Verif.Spec.Good`, if the generator accepts them. -/

namespace Askama

open Askama.Spec Askama.Gen

/-! ## What the parser guarantees -/

/-- There are no two literals in a row. -/
def NoAdj : List Node → Prop
  | [] => True
  | n :: ns => ¬ (isLitNode n = true ∧ (ns.head?.map isLitNode).getD false = true) ∧ NoAdj ns

theorem Tiled.noAdj {delims : List Str} {i e : Str} {ns : List Node} (h : Tiled delims i e ns) : NoAdj ns := by
  induction h with
  | nil => exact trivial
  | @lit l r e ns ht h2 ih =>
    refine ⟨?_, ih⟩
    rintro ⟨-, hlit⟩
    cases h2 with
    | nil => simp at hlit
    | lit ht2 _ =>
      obtain ⟨-, h3, -⟩ := ht
      obtain ⟨h4, -, h5⟩ := ht2
      rcases h3 with h3 | h3
      · exact h4 (List.append_eq_nil_iff.mp h3).1
      · exact h5 [] _ rfl h4 h3
    | tag hd hn _ _ =>
      rename_i n _ _ _ _
      cases n with
      | lit l => exact hn l rfl
      | _ => cases hlit
  | tag hd hn hs h2 ih =>
    refine ⟨?_, ih⟩
    rename_i n _ _ _ _
    rintro ⟨hl, -⟩
    cases n with
    | lit l => exact hn l rfl
    | _ => cases hl

/-- A list of nodes as the parser makes it. -/
def ParsedList (ns : List Node) : Prop := NoAdj ns ∧ ∃ b, AllNs (nodeOk NoAdj) b ns

theorem nodeOk.imp {T T' : List Node → Prop} (hT : ∀ ns, T ns → T' ns) {b : Bool} {n : Node} (h : nodeOk T b n) :
    nodeOk T' b n := by
  obtain ⟨h1, h2, h3, h4, h5, h6⟩ := h
  refine ⟨h1, h2, h3, h4, h5, ?_⟩
  cases n with
  | if_ w bs => exact fun w c ns hm => hT _ (h6 w c ns hm)
  | match_ w e arms w2 => exact fun w c ns hm => hT _ (h6 w c ns hm)
  | loop => exact ⟨hT _ h6.1, hT _ h6.2⟩
  | blockDef => exact hT _ h6
  | «macro» => exact hT _ h6
  | filterBlock => exact hT _ h6
  | _ => exact trivial

theorem parse_parsed {env : PEnv} (hc : env.syn.CommentOk) {src : Str} {ns : List Node}
    (h : parseTemplate env src = .ok ns) : ParsedList ns := by
  have h1 := Props.parseTemplate_ok env hc src
  rw [h] at h1
  exact ⟨Tiled.noAdj h1.1, false, AllNs.mono (fun _ _ h => nodeOk.imp (fun ns ⟨_, _, _, _, ht⟩ => Tiled.noAdj ht) h) _ _
    (Props.accepted env hc src ns h).1⟩

/-- A node as the parser makes it. -/
def ParsedNode (n : Node) : Prop := ∃ b, AllN (nodeOk NoAdj) b n

theorem ParsedNode.ok {n : Node} (h : ParsedNode n) : ∃ b, nodeOk NoAdj b n := by
  obtain ⟨b, h⟩ := h
  cases n <;> first | exact ⟨b, h⟩ | exact ⟨b, h.1⟩

theorem ParsedNode.branch {w w2 : Ws} {bs : List Cond} (h : ParsedNode (.if_ w bs)) {c : Option CondTest} {ns : List Node}
    (hm : .mk w2 c ns ∈ bs) : ParsedList ns := by
  obtain ⟨b, h1, h2⟩ := h
  refine ⟨h1.2.2.2.2.2 _ _ _ hm, b, ?_⟩
  clear h1
  induction bs with
  | nil => cases hm
  | cons c bs ih =>
    obtain ⟨w3, c3, ns3⟩ := c
    rcases List.mem_cons.mp hm with hm | hm
    · cases hm; exact h2.1
    · exact ih hm h2.2

theorem ParsedNode.arm {w w2 w3 : Ws} {e : Expr} {arms : List When} (h : ParsedNode (.match_ w e arms w2)) {t : Target}
    {ns : List Node} (hm : .mk w3 t ns ∈ arms) : ParsedList ns := by
  obtain ⟨b, h1, h2⟩ := h
  refine ⟨h1.2.2.2.2.2 _ _ _ hm, b, ?_⟩
  clear h1
  induction arms with
  | nil => cases hm
  | cons c bs ih =>
    obtain ⟨w3, c3, ns3⟩ := c
    rcases List.mem_cons.mp hm with hm | hm
    · cases hm; exact h2.1
    · exact ih hm h2.2

theorem ParsedNode.loop {w1 w2 w3 : Ws} {t : Target} {it : Expr} {c : Option Expr} {body els : List Node}
    (h : ParsedNode (.loop w1 t it c body w2 els w3)) : ParsedList body ∧ ParsedList els := by
  obtain ⟨b, h1, h2, h3⟩ := h
  exact ⟨⟨h1.2.2.2.2.2.1, _, h2⟩, ⟨h1.2.2.2.2.2.2, _, h3⟩⟩

theorem ParsedNode.block {w1 w2 : Ws} {name : Str} {ns : List Node} (h : ParsedNode (.blockDef w1 name ns w2)) :
    ParsedList ns := by
  obtain ⟨b, h1, h2⟩ := h
  exact ⟨h1.2.2.2.2.2, _, h2⟩

theorem ParsedNode.filter {w1 w2 : Ws} {f : FilterApp} {ns : List Node} (h : ParsedNode (.filterBlock w1 f ns w2)) :
    ParsedList ns := by
  obtain ⟨b, h1, h2⟩ := h
  exact ⟨h1.2.2.2.2.2, _, h2⟩

theorem ParsedList.head {n : Node} {ns : List Node} (h : ParsedList (n :: ns)) : ParsedNode n := by
  obtain ⟨-, b, h, -⟩ := h; exact ⟨b, h⟩

theorem ParsedList.tail {n : Node} {ns : List Node} (h : ParsedList (n :: ns)) : ParsedList ns := by
  obtain ⟨h0, b, -, h⟩ := h; exact ⟨h0.2, b, h⟩

/-! ## Literals and names -/

theorem litOk_parsed {l : Lit} (h : LitOk l) : litOk l = true := by
  unfold litOk
  cases hv : l.val with
  | nil => simp [h.2.2.2.2 hv]
  | cons _ _ => simp

theorem bindOk_own {S : Sets} (hK : S.K = []) {t : Target} (h : ownNames t = true) : bindOk S t = true := by
  simp only [ownNames, bindOk, hK, List.contains_nil, Bool.not_false, Bool.true_and] at h ⊢
  exact h

/-! ## Contexts -/

/-- A list of nodes of the class, as the parser makes it. -/
def FitList (top : Bool) (ns : List Node) : Prop := coreList top ns = true ∧ ParsedList ns

/-- The blocks of a template are of the class. -/
def FitBlocks (c : Ctx) : Prop := ∀ e ∈ c.blocks, FitList true e.2.nodes

/-- A template of the class. -/
structure FitCtx (c : Ctx) : Prop where
  blocks : FitBlocks c
  nodes : FitList true c.nodes
  root : c.extends_ = none → ∀ p, .extends_ p ∉ c.nodes

theorem coreList_mem {top : Bool} {ns : List Node} (h : coreList top ns = true) {n : Node} (hn : n ∈ ns) :
    core top n = true := by
  induction ns with
  | nil => cases hn
  | cons m ns ih =>
    simp only [coreList, Bool.and_eq_true] at h
    rcases List.mem_cons.mp hn with rfl | hn
    · exact h.1
    · exact ih h.2 hn

theorem coreConds_mem {top : Bool} {bs : List Cond} (h : coreConds top bs = true) {w : Ws} {c : Option CondTest}
    {ns : List Node} (hm : .mk w c ns ∈ bs) : ∃ b, coreList b ns = true := by
  induction bs with
  | nil => cases hm
  | cons b bs ih =>
    obtain ⟨w2, c2, ns2⟩ := b
    have h' : (∃ b, coreList b ns2 = true) ∧ coreConds top bs = true := by
      cases c2 with
      | none =>
        simp only [coreConds, Bool.and_eq_true] at h
        exact ⟨⟨_, h.1⟩, h.2⟩
      | some c2 =>
        obtain ⟨t, e⟩ := c2
        cases t with
        | none => simp only [coreConds, Bool.and_eq_true] at h; exact ⟨⟨_, h.1.2⟩, h.2⟩
        | some t => simp only [coreConds, Bool.and_eq_true] at h; exact ⟨⟨_, h.1.2⟩, h.2⟩
    rcases List.mem_cons.mp hm with hm | hm
    · cases hm; exact h'.1
    · exact ih h'.2 hm

theorem coreArms_mem {bs : List When} (h : coreArms bs = true) {w : Ws} {t : Target}
    {ns : List Node} (hm : .mk w t ns ∈ bs) : coreList false ns = true := by
  induction bs with
  | nil => cases hm
  | cons b bs ih =>
    obtain ⟨w2, c2, ns2⟩ := b
    simp only [coreArms, Bool.and_eq_true] at h
    rcases List.mem_cons.mp hm with hm | hm
    · cases hm; exact h.1.2
    · exact ih h.2 hm

/-- The lists of nodes inside a node that contexts are made from are of the class, too. -/
theorem ctxNested_fit {top : Bool} {n : Node} (h : core top n = true) (hp : ParsedNode n) :
    ∀ ns ∈ ctxNested n, ∃ b, FitList b ns := by
  intro ns hns
  cases n with
  | if_ w bs =>
    simp only [ctxNested, List.mem_reverse, List.mem_map] at hns
    obtain ⟨⟨w2, c, ns2⟩, hm, rfl⟩ := hns
    obtain ⟨b, hb⟩ := coreConds_mem (by simpa [core] using h) hm
    exact ⟨b, hb, hp.branch hm⟩
  | match_ w e arms w2 =>
    simp only [ctxNested, List.mem_reverse, List.mem_map] at hns
    obtain ⟨⟨w2, c, ns2⟩, hm, rfl⟩ := hns
    simp only [core, Bool.and_eq_true] at h
    exact ⟨_, coreArms_mem h.2 hm, hp.arm hm⟩
  | loop w1 t it c body w2 els w3 =>
    simp only [core, Bool.and_eq_true] at h
    simp only [ctxNested, List.mem_cons, List.not_mem_nil, or_false] at hns
    rcases hns with rfl | rfl
    · exact ⟨_, h.2, hp.loop.2⟩
    · exact ⟨_, h.1.2, hp.loop.1⟩
  | blockDef w1 name ns2 w2 =>
    simp only [core, Bool.and_eq_true] at h
    simp only [ctxNested, List.mem_cons, List.not_mem_nil, or_false] at hns
    subst hns
    exact ⟨_, h.2, hp.block⟩
  | _ => simp [ctxNested] at hns

/-- The state of `Context::new`. -/
structure FitSt (st : CtxSt) : Prop where
  blocks : ∀ e ∈ st.blocks, FitList true e.2.nodes
  nested : ∀ ns ∈ st.nested, ∃ b, FitList b ns

theorem mapInsert_or {α : Type} {m : List (Str × α)} {k : Str} {v : α} {e : Str × α} (h : e ∈ mapInsert m k v) :
    e = (k, v) ∨ e ∈ m := by
  unfold mapInsert at h
  rcases List.mem_cons.mp h with h | h
  · exact .inl h
  · exact .inr (List.mem_filter.mp h).1

theorem ctxNode_fit {find : Str → Option Str} {top b : Bool} {st st' : CtxSt} {n : Node}
    (h : ctxNode find top st n = .ok st') (hn : core b n = true) (hp : ParsedNode n) (hs : FitSt st) : FitSt st' := by
  have key : FitSt { st with nested := ctxNested n ++ st.nested } :=
    ⟨hs.blocks, by
      intro ns hns
      rcases List.mem_append.mp hns with hns | hns
      · exact ctxNested_fit hn hp ns hns
      · exact hs.nested ns hns⟩
  cases n with
  | extends_ p =>
    simp only [ctxNode] at h
    repeat' split at h
    all_goals cases h
    exact ⟨hs.blocks, hs.nested⟩
  | import_ w p s =>
    simp only [ctxNode] at h
    repeat' split at h
    all_goals cases h
    exact ⟨hs.blocks, hs.nested⟩
  | «macro» w1 name args nodes w2 =>
    simp only [ctxNode] at h
    split at h
    · cases h
      exact ⟨hs.blocks, hs.nested⟩
    · cases h
  | blockDef w1 name nodes w2 =>
    cases h
    refine ⟨?_, key.nested⟩
    intro e he
    rcases mapInsert_or he with rfl | he
    · simp only [core, Bool.and_eq_true] at hn
      exact ⟨hn.2, hp.block⟩
    · exact hs.blocks e he
  | _ => cases h; exact key

theorem ctxNodes_fit {find : Str → Option Str} {top b : Bool} : (ns : List Node) → {st st' : CtxSt} →
    ctxNodes find top ns st = .ok st' → FitList b ns → FitSt st → FitSt st'
  | [], _, _, h, _, hs => by cases h; exact hs
  | n :: ns, _, _, h, hn, hs => by
    unfold ctxNodes at h
    obtain ⟨st1, h1, h⟩ := except_bind h
    have hc := hn.1
    simp only [coreList, Bool.and_eq_true] at hc
    exact ctxNodes_fit ns h ⟨hc.2, hn.2.tail⟩ (ctxNode_fit h1 hc.1 hn.2.head hs)

theorem ctxLoop_fit {find : Str → Option Str} : (fuel : Nat) → {top : Bool} → {st st' : CtxSt} →
    ctxLoop find fuel top st = .ok st' → FitSt st → FitSt st'
  | fuel, top, st, st', h, hs => by
    unfold ctxLoop at h
    split at h
    · cases h; exact hs
    · rename_i ns rest hn
      cases fuel with
      | zero => cases h
      | succ fuel =>
        dsimp only at h
        obtain ⟨st1, h1, h⟩ := except_bind h
        obtain ⟨b, hns⟩ := hs.nested ns (by rw [hn]; simp)
        refine ctxLoop_fit fuel h (ctxNodes_fit ns h1 hns ⟨hs.blocks, ?_⟩)
        intro l hl
        exact hs.nested l (by rw [hn]; exact List.mem_cons_of_mem _ hl)

theorem ctxNode_extends {find : Str → Option Str} {top : Bool} {st st' : CtxSt} {n : Node}
    (h : ctxNode find top st n = .ok st') : (st'.extends_ = none → st.extends_ = none)
      ∧ (st'.extends_ = none → ∀ p, n ≠ .extends_ p) := by
  cases n with
  | extends_ p =>
    simp only [ctxNode] at h
    repeat' split at h
    all_goals cases h
    exact ⟨fun h => (by cases h), fun h => (by cases h)⟩
  | import_ w p s =>
    simp only [ctxNode] at h
    repeat' split at h
    all_goals cases h
    exact ⟨id, fun _ p h => by cases h⟩
  | «macro» w1 name args nodes w2 =>
    simp only [ctxNode] at h
    split at h
    · cases h
      exact ⟨id, fun _ p h => by cases h⟩
    · cases h
  | _ => cases h; exact ⟨id, fun _ p h => by cases h⟩

theorem ctxNodes_extends {find : Str → Option Str} {top : Bool} : (ns : List Node) → {st st' : CtxSt} →
    ctxNodes find top ns st = .ok st' → st'.extends_ = none → st.extends_ = none ∧ ∀ p, .extends_ p ∉ ns
  | [], _, _, h, he => by cases h; exact ⟨he, by simp⟩
  | n :: ns, _, _, h, he => by
    unfold ctxNodes at h
    obtain ⟨st1, h1, h⟩ := except_bind h
    obtain ⟨h2, h3⟩ := ctxNodes_extends ns h he
    obtain ⟨h4, h5⟩ := ctxNode_extends h1
    refine ⟨h4 h2, fun p hp => ?_⟩
    rcases List.mem_cons.mp hp with hp | hp
    · exact h5 h2 p hp.symm
    · exact h3 p hp

theorem ctxLoop_extends {find : Str → Option Str} : (fuel : Nat) → {top : Bool} → {st st' : CtxSt} →
    ctxLoop find fuel top st = .ok st' → st'.extends_ = none →
      st.extends_ = none ∧ ∀ ns rest, st.nested = ns :: rest → ∀ p, .extends_ p ∉ ns
  | fuel, top, st, st', h, he => by
    unfold ctxLoop at h
    split at h
    · rename_i hn
      cases h; exact ⟨he, by rw [hn]; simp⟩
    · rename_i ns rest hn
      cases fuel with
      | zero => cases h
      | succ fuel =>
        dsimp only at h
        obtain ⟨st1, h1, h⟩ := except_bind h
        obtain ⟨h2, h3⟩ := ctxLoop_extends fuel h he
        obtain ⟨h4, h5⟩ := ctxNodes_extends ns h1 h2
        refine ⟨h4, ?_⟩
        intro ns' rest' hn'
        rw [hn] at hn'
        cases hn'
        exact h5

theorem contextNew_fit {find : Str → Option Str} {c : Ctx} {nodes : List Node} (h : contextNew find nodes = .ok c)
    (hf : FitList true nodes) : FitCtx c := by
  unfold contextNew at h
  obtain ⟨st, h1, h⟩ := except_bind h
  cases h
  have h2 := ctxLoop_fit _ h1 ⟨by simp, fun ns hns => ⟨true, by rw [List.mem_singleton.mp hns]; exact hf⟩⟩
  exact ⟨h2.blocks, hf, fun he => (ctxLoop_extends _ h1 he).2 nodes [] rfl⟩

/-! ## Chains -/

theorem mem_blocks {c : Ctx} {n : Str} {d : BlockDefn} (h : assoc c.blocks n = some d) : (n, d) ∈ c.blocks := by
  unfold assoc at h
  cases hf : c.blocks.find? (fun e => e.1 == n) with
  | none => rw [hf] at h; cases h
  | some e =>
    rw [hf] at h
    cases h
    have h1 := List.find?_some hf
    have h2 := List.mem_of_find?_eq_some hf
    obtain ⟨k, v⟩ := e
    simp at h1
    subst h1
    exact h2

theorem blockDefs_fit {chain : List Ctx} (hc : ∀ c ∈ chain, FitBlocks c) {n : Str} {k : Nat} {c : Ctx} {d : BlockDefn}
    (h : (blockDefs chain n)[k]? = some (c, d)) : FitList true d.nodes := by
  have hm := List.mem_of_getElem? h
  unfold blockDefs at hm
  rw [List.mem_filterMap] at hm
  obtain ⟨c', hc', h2⟩ := hm
  cases ha : assoc c'.blocks n with
  | none => rw [ha] at h2; cases h2
  | some d' =>
    rw [ha] at h2
    cases h2
    exact hc _ hc' _ (mem_blocks ha)

/-- All templates are of the class. -/
def AllFit (I : GenInput) : Prop := ∀ p c, assoc I.contexts p = some c → FitCtx c

theorem lineage_fit {I : GenInput} (hI : AllFit I) : (fuel : Nat) → {c : Ctx} → {chain : List Ctx} → FitCtx c →
    lineage I.contexts fuel c = some chain → (∀ d ∈ chain, FitCtx d) ∧ ∃ r, chain.getLast? = some r ∧ r.extends_ = none
  | 0, _, _, _, h => by cases h
  | fuel + 1, c, chain, hc, h => by
    unfold lineage at h
    cases he : c.extends_ with
    | none =>
      rw [he] at h
      cases h
      exact ⟨fun d hd => by cases List.mem_singleton.mp hd; exact hc, c, rfl, he⟩
    | some p =>
      rw [he] at h
      dsimp only at h
      cases ha : assoc I.contexts p with
      | none => rw [ha] at h; cases h
      | some q =>
        rw [ha] at h
        dsimp only [Option.bind_some] at h
        cases hl : lineage I.contexts fuel q with
        | none => rw [hl] at h; cases h
        | some l =>
          rw [hl] at h
          cases h
          obtain ⟨h1, r, h2, h3⟩ := lineage_fit hI fuel (hI _ _ ha) hl
          refine ⟨?_, r, ?_, h3⟩
          · intro d hd
            rcases List.mem_cons.mp hd with rfl | hd
            · exact hc
            · exact h1 d hd
          · rw [List.getLast?_cons, h2]; rfl

/-- The root of the chain of a template of the class. -/
theorem chain_fit {I : GenInput} (hI : AllFit I) {c : Ctx} (hc : FitCtx c) {chain : List Ctx}
    (h : (if c.blocks.isEmpty && c.extends_.isNone then some [] else lineage I.contexts (I.contexts.length + 2) c)
      = some chain) :
    (∀ d ∈ chain, FitBlocks d) ∧ FitList true (chain.getLastD c).nodes ∧ ∀ p, .extends_ p ∉ (chain.getLastD c).nodes := by
  split at h
  · rename_i hcond
    cases h
    refine ⟨by simp, hc.nodes, ?_⟩
    refine hc.root ?_
    cases he : c.extends_ with
    | none => rfl
    | some x => rw [he] at hcond; simp at hcond
  · obtain ⟨h1, r, h2, h3⟩ := lineage_fit hI _ hc h
    refine ⟨fun d hd => (h1 d hd).blocks, ?_⟩
    have hr : chain.getLastD c = r := by rw [List.getLastD_eq_getLast?, h2]; rfl
    rw [hr]
    have := h1 r (List.mem_of_getLast? h2)
    exact ⟨this.nodes, this.root h3⟩

/-! ## The check succeeds -/

/-- The sets at the places the class allows. -/
structure Bare (top : Bool) (S : Sets) : Prop where
  K : S.K = []
  R : S.R = []
  V : top = true → S.V = []

theorem Bare.flushed {top : Bool} {S : Sets} (h : Bare top S) : Bare top S.flushed := ⟨h.K, h.R, h.V⟩

theorem Bare.refused {top : Bool} {S : Sets} (h : Bare top S) : S.refused = ([], []) := by
  simp only [Sets.refused, h.K, h.R]

theorem Bare.bind {top : Bool} {S : Sets} (h : Bare top S) (t : Target) : Bare false (S.bind t).flushed :=
  ⟨h.K, h.R, fun h => by cases h⟩

/-- What the check of nested nodes gives. -/
def RecFit (rec : Handler) (gd : GoodRec) : Prop :=
  ∀ {H : Option Heritage} {chain : List Ctx} {ctx : Ctx} {nodes : List Node} {level : Level} {g g' : Gen}
    {code : List Stmt} {top : Bool} {S : Sets}, rec H ctx nodes level g = .ok (code, g') → Clean g → HChain H chain →
    (∀ c ∈ chain, FitBlocks c) → FitList top nodes → (level = .top → ∀ p, .extends_ p ∉ nodes) → Bare top S →
    ∃ S', gd chain ctx g.superBlock S nodes = some S' ∧ Bare top S'

/-- The check of no nodes, if the check has any depth. -/
def RecNil (rec : Handler) (gd : GoodRec) : Prop := ∀ {H : Option Heritage} {ctx : Ctx} {nodes : List Node}
  {level : Level} {g : Gen} {x : List Stmt × Gen}, rec H ctx nodes level g = .ok x →
    ∀ chain ctx sup S, gd chain ctx sup S [] = some S

section

variable {I : GenInput} {rec : Handler} {gd : GoodRec} {H : Option Heritage} {chain : List Ctx} {ctx : Ctx} {top : Bool}
  {S : Sets}

theorem goodCond_fit (hS : Bare top S) : {c : Option CondTest} → {rest : List Cond} → {w : Ws} → {nodes : List Node} →
    coreConds top (.mk w c nodes :: rest) = true → (∀ t, c = some t → Plain t.expr) →
    ∃ b S', goodCond S c = some S' ∧ Bare b S'.flushed ∧ coreList b nodes = true ∧ coreConds top rest = true
  | none, rest, w, nodes, h, _ => by
    simp only [coreConds, Bool.and_eq_true] at h
    exact ⟨top, S, rfl, hS.flushed, h.1, h.2⟩
  | some ⟨none, e⟩, rest, w, nodes, h, hp => by
    simp only [coreConds, Bool.and_eq_true] at h
    have : exprOk ([], []) none e = true := h.1.1
    exact ⟨top, S, by simp only [goodCond, hS.refused, this, if_true], hS.flushed, h.1.2, h.2⟩
  | some ⟨some t, e⟩, rest, w, nodes, h, hp => by
    simp only [coreConds, Bool.and_eq_true] at h
    have : exprOk ([], []) none e = true := h.1.1.1
    have h2 := bindOk_own hS.K h.1.1.2
    exact ⟨false, S.bind t, by simp only [goodCond, hS.refused, this, h2, Bool.and_true, if_true], hS.bind _, h.1.2, h.2⟩

theorem goodIf_fit (ok : RecFit rec gd) (fr : RecFrame rec) (hH : HChain H chain) (hch : ∀ c ∈ chain, FitBlocks c)
    (hS : Bare top S) {wsEnd : Ws} {sup : Option (Str × Nat)} : (bs : List Cond) → (first : Bool) → {g g' : Gen} →
    {out : List Branch} → Clean g → g.superBlock = sup → ifBranches rec I H ctx wsEnd first bs g = .ok (out, g') →
    coreConds top bs = true → (∀ w c ns, .mk w c ns ∈ bs → ParsedList ns ∧ ∀ t, c = some t → Plain t.expr) →
    goodIf (gd chain ctx sup) S bs = true
  | [], _, _, _, _, _, _, _, _, _ => rfl
  | .mk w cond nodes :: rest, first, g, g', out, hc, hsup, h, hcore, hp => by
    obtain ⟨g1, c, g2, body, g3, fl, g4, h1, h2, h3, h4, h5⟩ := ifBranches_inv h
    have f1 := dedentUnless_frame (push_clean hc) h1
    have f2 := f1.trans (branchCond_frame f1.clean h2)
    have f3 := f2.trans (openLine_frame f2.clean)
    have f4 := f3.trans (fr _ _ _ _ _ _ _ h3 f3.clean)
    have f5 := f4.trans (handleWs_frame (I := I) f4.clean (condEnd rest wsEnd))
    have f6 := f5.trans (writeBuf_frame f5.clean h4)
    obtain ⟨hp1, hp2⟩ := hp w cond nodes (by simp)
    obtain ⟨b, S', e1, e2, e3, e4⟩ := goodCond_fit hS hcore hp2
    obtain ⟨S2, e5, -⟩ := ok h3 f3.clean hH hch ⟨e3, hp1⟩ (by intro h; cases h) e2
    rw [f3.sup, show ({ g with locals := g.locals.push } : Gen).superBlock = sup from hsup] at e5
    simp only [goodIf, e1, e5, Option.isSome_some, Bool.true_and]
    rcases h5 with ⟨rfl, -, -⟩ | ⟨bs', hne, h5, -⟩
    · rfl
    · rw [f6.pop rfl] at h5
      have hc' : Clean { g4 with locals := g.locals } := ⟨f6.clean.pd, f6.clean.d, hc.wf⟩
      exact goodIf_fit ok fr hH hch hS rest false hc' (f6.sup.trans hsup) h5 e4
        (fun w c ns hm => hp w c ns (List.mem_cons_of_mem _ hm))

theorem goodMatch_fit (ok : RecFit rec gd) (fr : RecFrame rec) (hH : HChain H chain) (hch : ∀ c ∈ chain, FitBlocks c)
    (hS : Bare top S) {ws2 : Ws} {sup : Option (Str × Nat)} : (as : List When) → {g g' : Gen} →
    {out : List Arm} → Clean g → g.superBlock = sup → matchArms rec I H ctx ws2 as g = .ok (out, g') →
    coreArms as = true → (∀ w c ns, .mk w c ns ∈ as → ParsedList ns) →
    goodMatch (gd chain ctx sup) S as = true
  | [], _, _, _, _, _, _, _, _ => rfl
  | .mk w t nodes :: rest, g, g', out, hc, hsup, h, hcore, hp => by
    obtain ⟨body, g1, fl, g2, g3, as', h1, h2, h3, h4, -⟩ := matchArms_inv h
    have f1 := declare_frame (push_clean hc) t true
    have f2 := f1.trans (openLine_frame f1.clean)
    have f3 := f2.trans (fr _ _ _ _ _ _ _ h1 f2.clean)
    have f4 := f3.trans (handleWs_frame (I := I) f3.clean (whenEnd rest ws2))
    have f5 := f4.trans (writeBuf_frame f4.clean h2)
    have f6 := f5.trans (closeLine_frame f5.clean h3)
    simp only [coreArms, Bool.and_eq_true] at hcore
    obtain ⟨S2, e5, -⟩ := ok h1 f2.clean hH hch ⟨hcore.1.2, hp w t nodes (by simp)⟩ (by intro h; cases h) (hS.bind t)
    rw [f2.sup, show ({ g with locals := g.locals.push } : Gen).superBlock = sup from hsup] at e5
    simp only [goodMatch, bindOk_own hS.K hcore.1.1, e5, Option.isSome_some, Bool.true_and]
    rw [f6.pop rfl] at h4
    have hc' : Clean { g3 with locals := g.locals } := ⟨f6.clean.pd, f6.clean.d, hc.wf⟩
    exact goodMatch_fit ok fr hH hch hS rest hc' (f6.sup.trans hsup) h4 hcore.2
      (fun w c ns hm => hp w c ns (List.mem_cons_of_mem _ hm))

theorem goodLoop_fit (ok : RecFit rec gd) (nil : RecNil rec gd) (fr : RecFrame rec) (hH : HChain H chain)
    (hch : ∀ c ∈ chain, FitBlocks c) (hS : Bare top S) {g g' : Gen} {ws1 ws2 ws3 : Ws} {var : Target} {iter : Expr}
    {cond : Option Expr} {body elseNodes : List Node} {code : List Stmt} (hc : Clean g)
    (h : writeLoop rec I H ctx g ws1 var iter cond body ws2 elseNodes ws3 = .ok (code, g'))
    (hcore : core top (.loop ws1 var iter cond body ws2 elseNodes ws3) = true)
    (hp : ParsedNode (.loop ws1 var iter cond body ws2 elseNodes ws3)) :
    goodLoop (gd chain ctx g.superBlock) S var iter cond body elseNodes = true := by
  obtain ⟨r, w, pre, g1, filt, b, g2, fl, g3, g4, h1, h2, h3, h4, h5, h6, h7⟩ := writeLoop_inv h
  have f0 := handleWs_frame (I := I) hc ws1
  have f1 := writeBuf_frame (push_clean f0.clean) h2
  have f2 := f1.trans (openLine_frame f1.clean)
  have f3 := declare_frame (push_clean f2.clean) var true
  have f4 := f3.trans (openLine_frame f3.clean)
  have f5 := f4.trans (fr _ _ _ _ _ _ _ h4 f4.clean)
  have f6 := f5.trans (handleWs_frame (I := I) f5.clean ws2)
  have f7 := f6.trans (writeBuf_frame f6.clean h5)
  have hpop := f7.pop rfl
  rw [hpop] at h6
  obtain ⟨k, rfl⟩ := closeLine_eq h6
  have c4 : Clean { g3 with locals := g1.openLine.locals, indent := k } := ⟨f7.clean.pd, f7.clean.d, f2.clean.wf⟩
  have hsup2 : g1.openLine.superBlock = g.superBlock := f2.sup.trans f0.sup
  have hsup : g3.superBlock = g.superBlock := f7.sup.trans hsup2
  obtain ⟨_, -, -, -, hex, -, -⟩ := hp.ok
  obtain ⟨hpb, hpe⟩ := hp.loop
  simp only [core, Bool.and_eq_true] at hcore
  obtain ⟨⟨⟨⟨hc1, hc2⟩, hc3⟩, hc4⟩, hc5⟩ := hcore
  obtain ⟨S2, e5, -⟩ := ok h4 f4.clean hH hch ⟨hc4, hpb⟩ (by intro h; cases h) (hS.bind var)
  rw [f4.sup, show ({ g1.openLine with locals := g1.openLine.locals.push } : Gen).superBlock = g.superBlock from hsup2] at e5
  have e6 : (gd chain ctx g.superBlock S.flushed elseNodes).isSome = true := by
    rcases h7 with ⟨hne, eb, g5, fl2, g6, g7, g8, e1, e2, e3, e4, -, -⟩ | ⟨rfl, -⟩
    · have f8 := openLine_frame c4
      obtain ⟨S3, e6, -⟩ := ok e1 (push_clean f8.clean) hH hch ⟨hc5, hpe⟩ (by intro h; cases h) hS.flushed
      rw [show ({ openLine { g3 with locals := g1.openLine.locals, indent := k } with
          locals := (openLine { g3 with locals := g1.openLine.locals, indent := k }).locals.push } : Gen).superBlock
        = g.superBlock from f8.sup.trans hsup] at e6
      rw [e6]; rfl
    · rw [nil h4]; rfl
  simp only [goodLoop, hS.refused, show exprOk ([], []) none iter = true from hc1, bindOk_own hS.K hc2,
    hc3, e5, e6, Option.isSome_some, Bool.and_true]

theorem goodBlock_fit (ok : RecFit rec gd) (hH : HChain H chain)
    (hch : ∀ c ∈ chain, FitBlocks c) (hS : Bare true S) {g g' : Gen} {name : Option Str} {outer : Ws} {code : List Stmt}
    (hc : Clean g) (h : writeBlock rec I H ctx g name outer = .ok (code, g')) :
    ∃ cur S', currentBlock name g.superBlock = .ok cur ∧ goodBlock gd chain ctx S cur.1 cur.2 = some S' ∧ Bare true S' := by
  obtain ⟨cur, pre, g1, hh, defs, cctx, d, b, g2, fl, g3, h1, h2, rfl, h3, h4, h5, h6, -, -⟩ :=
    writeBlock_inv h hc.pd hc.d
  have hdefs := hH _ rfl _ _ h3
  subst hdefs
  have hc0 : Clean { new I .empty g1.indent false with
      pend := [], pdiscard := false, skipWs := sideOf I d.ws1.r, superBlock := some cur } :=
    ⟨rfl, rfl, by simp [new, MapChain.empty]⟩
  have hSb : Bare true ⟨S.V ++ S.K, [], [], [], []⟩ := ⟨by simp [hS.K, hS.V rfl], rfl, fun _ => rfl⟩
  obtain ⟨S', e1, e2⟩ := ok h5 hc0 hH hch (blockDefs_fit hch h4) (by intro h; cases h) hSb
  refine ⟨cur, { S with P := S'.P }, h1, ?_, ⟨hS.K, hS.R, hS.V⟩⟩
  unfold goodBlock
  rw [h4]
  dsimp only
  rw [show withMacrosOf cctx ctx = mergeCtx cctx ctx from rfl, show (some (cur.1, cur.2)) = some cur from rfl]
  dsimp only at e1
  rw [e1]
  dsimp only
  rw [if_pos (by simp [disj, hS.V rfl])]

theorem goodInclude_fit (ok : RecFit rec gd) (hb : AllBlocksOk I) (hfit : AllFit I) (hS : Bare true S) {g g' : Gen}
    {ws : Ws} {path : Str} {code : List Stmt} (hc : Clean g) (h : handleInclude rec I ctx g ws path = .ok (code, g')) :
    goodInclude I gd ctx S path = true := by
  obtain ⟨pre, g1, p, c, Hc, b, g2, fl, g3, h1, h2, h3, h4, h5, -⟩ := handleInclude_inv h
  have f0 := flushWs_frame (I := I) hc ws
  have f1 := f0.trans (writeBuf_frame f0.clean h1)
  have hc0 : Clean { new I g1.locals.withParent g1.indent g1.discard with pdiscard := g1.pdiscard } :=
    ⟨f1.clean.pd, f1.clean.d, by simp [new, MapChain.withParent]⟩
  have hbc : BlocksOk (mergeCtx c ctx) := hb p c h3
  have hfc : FitCtx (mergeCtx c ctx) := ⟨(hfit p c h3).blocks, (hfit p c h3).nodes, (hfit p c h3).root⟩
  obtain ⟨chain, hch, hroot, hHc⟩ := includeHeritage_chain hb hbc h4
  replace h5 : rec Hc (rootOf Hc (mergeCtx c ctx)) (rootOf Hc (mergeCtx c ctx)).nodes .top
      { new I g1.locals.withParent g1.indent g1.discard with pdiscard := g1.pdiscard } = .ok (b, g2) := h5
  rw [hroot] at h5
  obtain ⟨q1, q2, q3⟩ := chain_fit hfit hfc hch
  have hS1 : Bare true { S with K := S.V ++ S.K, P := [] } := ⟨by simp [hS.K, hS.V rfl], hS.R, hS.V⟩
  obtain ⟨S1, e1, -⟩ := ok h5 hc0 hHc q1 q2 (fun _ => q3) hS1
  unfold goodInclude
  rw [h2]
  dsimp only
  rw [h3]
  dsimp only
  rw [show withMacrosOf c ctx = mergeCtx c ctx from rfl, hch]
  dsimp only
  rw [show (none : Option (Str × Nat)) = (new I g1.locals.withParent g1.indent g1.discard).superBlock from rfl]
  exact Option.isSome_iff_exists.mpr ⟨S1, e1⟩

theorem goodFilter_fit (ok : RecFit rec gd) (hH : HChain H chain) (hch : ∀ c ∈ chain, FitBlocks c) (hS : Bare top S)
    {g g' : Gen} {ws1 ws2 : Ws} {f : FilterApp} {nodes : List Node} {code : List Stmt} (hc : Clean g)
    (h : writeFilterBlock rec I H ctx g ws1 f nodes ws2 = .ok (code, g'))
    (hcore : core top (.filterBlock ws1 f nodes ws2) = true) (hp : ParsedNode (.filterBlock ws1 f nodes ws2)) :
    ∃ S', goodFilter (gd chain ctx g.superBlock) S f nodes = some S' ∧ Bare top S' := by
  obtain ⟨b, g1, p, g2, h1, h2, -⟩ := writeFilterBlock_inv h
  have f0 := flushWs_frame (I := I) hc ws1
  have f1 : Frame g (prepareWs I { flushWs I g ws1 with pend := [] } ws1) :=
    f0.trans (.of_eq f0.clean rfl rfl rfl rfl)
  obtain ⟨_, -, -, -, hex, -, -⟩ := hp.ok
  simp only [core, Bool.and_eq_true] at hcore
  obtain ⟨⟨⟨q1, q2⟩, q3⟩, q4⟩ := hcore
  obtain ⟨S1, e1, -⟩ := ok h1 f1.clean hH hch ⟨q4, hp.filter⟩ (by intro h; cases h) hS.flushed
  rw [f1.sup] at e1
  refine ⟨{ S with P := Expr.varsList f.args ++ S.P }, ?_, ⟨hS.K, hS.R, hS.V⟩⟩
  unfold goodFilter
  rw [q1, q2, hS.refused, q3, e1]
  rfl

theorem goodNode_fit (ok : RecFit rec gd) (nil : RecNil rec gd) (fr : RecFrame rec)
    (hb : AllBlocksOk I) (hfit : AllFit I) (hH : HChain H chain) (hch : ∀ c ∈ chain, FitBlocks c) (hS : Bare top S)
    {g g' : Gen} {level : Level} {n : Node} {code : List Stmt} (hc : Clean g)
    (h : handleNode rec I H ctx level g n = .ok (code, g')) (hcore : core top n = true) (hp : ParsedNode n)
    (hl : level = .top → ∀ p, n ≠ .extends_ p) :
    ∃ S', goodNode I gd chain ctx g.superBlock S n = some S' ∧ Bare top S' := by
  obtain ⟨_, hok⟩ := hp.ok
  cases n with
  | lit l => exact ⟨S, by simp only [goodNode, litOk_parsed hok.2.2.2.2.1.1, if_true], hS⟩
  | comment w c => exact ⟨S, rfl, hS⟩
  | expr w e =>
    have : exprOk ([], []) none e = true := by simpa [core, ownExpr] using hcore
    exact ⟨{ S with P := Expr.vars e ++ S.P }, by simp only [goodNode, hS.refused, this, if_true], ⟨hS.K, hS.R, hS.V⟩⟩
  | call w scope name args =>
    simp only [core, Bool.and_eq_true, beq_iff_eq] at hcore
    obtain ⟨rfl, rfl⟩ := hcore
    simp only [handleNode, if_true] at h
    obtain ⟨cur, S', h1, h2, h3⟩ := goodBlock_fit (rec := rec) (gd := gd) (ctx := ctx) ok hH hch hS hc h
    refine ⟨S', ?_, h3⟩
    simp only [goodNode, if_true]
    cases hs : g.superBlock with
    | none => rw [hs] at h1; cases h1
    | some bk =>
      obtain ⟨b, k⟩ := bk
      rw [hs] at h1
      cases h1
      exact h2
  | let_ w t v => simp [core] at hcore
  | if_ w bs =>
    obtain ⟨ws1, c, ns, rest, pre, g1, bs', g2, g3, rfl, h1, h2, -, -, -⟩ := writeIf_inv h
    have f1 := handleWs_frame (I := I) hc ws1
    have f2 := f1.trans (writeBuf_frame f1.clean h1)
    refine ⟨S.flushed, ?_, hS.flushed⟩
    have := goodIf_fit (gd := gd) ok fr hH hch hS _ _ f2.clean f2.sup h2 (by simpa [core] using hcore)
      (fun w c ns hm => ⟨hp.branch hm, fun t ht => hok.2.2.2.1 _ _ _ hm t ht⟩)
    simp only [goodNode, this, if_true]
  | match_ w e arms w2 =>
    obtain ⟨ws, t, ns, rest, pre, g1, r, w3, as, g2, g3, rfl, h1, h2, h3, -, -, -⟩ := writeMatch_inv h
    have f1 := flushWs_frame (I := I) hc w
    have f2 := f1.trans (writeBuf_frame f1.clean h1)
    have f3 := f2.trans (openLine_frame f2.clean)
    have f4 := f3.trans (handleWs_frame (I := I) f3.clean ws)
    simp only [core, Bool.and_eq_true] at hcore
    have := goodMatch_fit (gd := gd) ok fr hH hch hS _ f4.clean f4.sup h3 hcore.2 (fun w c ns hm => hp.arm hm)
    have h5 : exprOk ([], []) none e = true := hcore.1
    exact ⟨S.flushed, by simp only [goodNode, hS.refused, h5, this, Bool.and_true, if_true], hS.flushed⟩
  | loop w1 t it c body w2 els w3 =>
    have := goodLoop_fit (gd := gd) ok nil fr hH hch hS hc h hcore hp
    exact ⟨S.flushed, by simp only [goodNode, this, if_true], hS.flushed⟩
  | extends_ p =>
    simp only [handleNode] at h
    split at h
    · rename_i ht
      exact absurd rfl (hl ht p)
    · cases h
  | blockDef w name ns w2 =>
    simp only [core, Bool.and_eq_true] at hcore
    obtain ⟨rfl, -⟩ := hcore
    obtain ⟨cur, S', h1, h2, h3⟩ := goodBlock_fit (rec := rec) (gd := gd) (ctx := ctx) ok hH hch hS hc h
    refine ⟨S', ?_, h3⟩
    have hcur : cur = (name, 0) := by
      cases hs : g.superBlock with
      | none => rw [hs] at h1; cases h1; rfl
      | some bk =>
        obtain ⟨b, k⟩ := bk
        rw [hs] at h1
        simp only [currentBlock] at h1
        split at h1
        · cases h1
        · cases h1; rfl
    subst hcur
    exact h2
  | «include» w p =>
    have ht : top = true := by simpa [core] using hcore
    subst ht
    have := goodInclude_fit (gd := gd) ok hb hfit hS hc h
    exact ⟨S.flushed, by simp only [goodNode, this, if_true], hS.flushed⟩
  | raw w l w2 => exact ⟨S, by simp only [goodNode, litOk_parsed hok.2.2.2.2.1, if_true], hS⟩
  | filterBlock w f nodes w2 => exact goodFilter_fit (rec := rec) (gd := gd) (ctx := ctx) ok hH hch hS hc h hcore hp
  | import_ w a b => exact ⟨S, rfl, hS⟩
  | «macro» w a b c d => exact ⟨S, rfl, hS⟩
  | break_ w => exact ⟨S.flushed, rfl, hS.flushed⟩
  | continue_ w => exact ⟨S.flushed, rfl, hS.flushed⟩

theorem goodNodes_fit (ok : RecFit rec gd) (nil : RecNil rec gd) (fr : RecFrame rec)
    (hb : AllBlocksOk I) (hfit : AllFit I) (hH : HChain H chain) (hch : ∀ c ∈ chain, FitBlocks c) {level : Level} :
    (ns : List Node) → {S : Sets} → {g g' : Gen} → {code : List Stmt} → Bare top S → Clean g →
    handleNodes rec I H ctx level ns g = .ok (code, g') → FitList top ns → (level = .top → ∀ p, .extends_ p ∉ ns) →
    ∃ S', goodNodes I gd chain ctx g.superBlock S ns = some S' ∧ Bare top S'
  | [], S, g, g', code, hS, _, _, _, _ => ⟨S, rfl, hS⟩
  | n :: ns, S, g, g', code, hS, hc, h, hf, hl => by
    simp only [handleNodes] at h
    obtain ⟨⟨s, g1⟩, h1, h⟩ := except_bind h
    obtain ⟨⟨s', g2⟩, h2, h⟩ := except_bind h
    have hcore := hf.1
    simp only [coreList, Bool.and_eq_true] at hcore
    have f1 := handleNode_frame fr hc h1
    obtain ⟨S1, e1, e2⟩ := goodNode_fit (gd := gd) ok nil fr hb hfit hH hch hS hc h1 hcore.1 hf.2.head
      (fun ht p hp => hl ht p (by simp [hp]))
    obtain ⟨S2, e3, e4⟩ := goodNodes_fit ok nil fr hb hfit hH hch ns e2 f1.clean h2 ⟨hcore.2, hf.2.tail⟩
      (fun ht p hp => hl ht p (List.mem_cons_of_mem _ hp))
    refine ⟨S2, ?_, e4⟩
    unfold goodNodes
    rw [if_neg (by have := hf.2.1.1; simpa using this), e1]
    rw [f1.sup] at e3
    exact e3

end

theorem handle_nil {I : GenInput} : (fuel : Nat) → RecNil (handle I fuel) (good I fuel)
  | 0 => by intro h; cases h
  | fuel + 1 => by intro h chain ctx sup S; rfl

/-- If the generator accepts a template of the class, it passes the check. -/
theorem handle_fit {I : GenInput} (hb : AllBlocksOk I) (hfit : AllFit I) :
    (fuel : Nat) → RecFit (handle I fuel) (good I fuel)
  | 0 => by intro h; cases h
  | fuel + 1 => by
    rename_i H chain ctx nodes level g g' code top S
    intro h hc hH hch hf hl hS
    unfold handle at h
    obtain ⟨⟨s, g1⟩, h1, -⟩ := except_bind h
    exact goodNodes_fit (rec := handle I fuel) (gd := good I fuel) (ctx := ctx) (handle_fit hb hfit fuel) (handle_nil fuel) (handle_frame fuel) hb hfit hH hch nodes hS hc
      h1 hf hl

/-! ## The templates are parsed -/

/-- All entries of a map of templates are as the parser makes them. -/
def MapParsed (m : List (Str × List Node)) : Prop := ∀ e ∈ m, ParsedList e.2

theorem parsedList_nil : ParsedList [] := ⟨trivial, false, trivial⟩

theorem addToCheck_parsed {ld : Loader} {st st' : UseSt} {p : Str} (h : addToCheck ld st p = .ok st')
    (hs : MapParsed st.map) : MapParsed st'.map := by
  unfold addToCheck at h
  split at h
  · cases h; exact hs
  · split at h
    · cases h
    · cases h
      intro e he
      rcases List.mem_cons.mp he with rfl | he
      · exact parsedList_nil
      · exact hs e he

theorem useNode_parsed {ld : Loader} {path : Str} {top : Bool} {st st' : UseSt} {n : Node}
    (h : useNode ld path top st n = .ok st') (hs : MapParsed st.map) : MapParsed st'.map := by
  unfold useNode at h
  repeat' split at h
  all_goals first
    | (cases h; done)
    | (cases h; exact hs)
    | exact addToCheck_parsed h hs

theorem useNodes_parsed {ld : Loader} {path : Str} {top : Bool} : (ns : List Node) → {st : UseSt} →
    {nested : List (List Node)} → {x : UseSt × List (List Node)} → useNodes ld path top ns st nested = .ok x →
    MapParsed st.map → MapParsed x.1.map
  | [], _, _, _, h, hs => by cases h; exact hs
  | n :: ns, _, _, _, h, hs => by
    unfold useNodes at h
    obtain ⟨st1, h1, h⟩ := except_bind h
    exact useNodes_parsed ns h (useNode_parsed h1 hs)

theorem useLoop_parsed {ld : Loader} {path : Str} : (fuel : Nat) → {top : Bool} → {nested : List (List Node)} →
    {st st' : UseSt} → useLoop ld path fuel top nested st = .ok st' → MapParsed st.map → MapParsed st'.map
  | fuel, top, nested, st, st', h, hs => by
    unfold useLoop at h
    split at h
    · cases h; exact hs
    · cases fuel with
      | zero => cases h
      | succ fuel =>
        dsimp only at h
        obtain ⟨⟨st1, nested1⟩, h1, h⟩ := except_bind h
        exact useLoop_parsed fuel h (useNodes_parsed _ h1 hs)

theorem checkLoop_parsed {ld : Loader} (hp : ∀ src ns, ld.parse src = some ns → ParsedList ns) : (fuel : Nat) →
    {st : UseSt} → {m : List (Str × List Node)} → checkLoop ld fuel st = .ok m → MapParsed st.map → MapParsed m
  | fuel, st, m, h, hs => by
    unfold checkLoop at h
    split at h
    · cases h; exact hs
    · cases fuel with
      | zero => cases h
      | succ fuel =>
        dsimp only at h
        obtain ⟨st1, h1, h⟩ := except_bind h
        refine checkLoop_parsed hp fuel h ?_
        unfold useTemplate at h1
        split at h1
        · cases h1
        · rename_i nodes hn
          obtain ⟨st2, h2, h1⟩ := except_bind h1
          cases h1
          intro e he
          rcases List.mem_cons.mp he with rfl | he
          · exact hp _ _ hn
          · exact useLoop_parsed _ h2 (by exact hs) e he

theorem assoc_pair {α : Type} {m : List (Str × α)} {p : Str} {v : α} (h : assoc m p = some v) : (p, v) ∈ m := by
  induction m with
  | nil => cases h
  | cons e m ih =>
    obtain ⟨k, x⟩ := e
    rw [assoc_cons] at h
    split at h
    · rename_i hk; subst hk; cases h; simp
    · exact List.mem_cons_of_mem _ (ih h)

/-- The nodes of all templates that were collected are as the parser makes them. -/
theorem contexts_parsed {env : DeriveEnv} {c : Config} {syn : Syntax} (hc : syn.CommentOk) {fuel : Nat} {path src : Str}
    {m : List (Str × List Node)} (h1 : findUsedTemplates (env.loader c syn) fuel path src = .ok m)
    {contexts : List (Str × Ctx)} (h2 : makeContexts (env.loader c syn).find (dedupKeys m []) = .ok contexts) {p : Str}
    {x : Ctx} (hp : assoc contexts p = some x) : ParsedList x.nodes := by
  have hm : MapParsed m := by
    refine checkLoop_parsed ?_ _ h1 (by intro e he; cases he)
    intro src ns hns
    unfold DeriveEnv.loader at hns
    dsimp only at hns
    unfold parseNodes at hns
    split at hns
    · rename_i nodes hok
      cases hns
      exact parse_parsed (env := ⟨syn, env.isLower⟩) hc hok
    · cases hns
  obtain ⟨nodes, h3, h4⟩ := makeContexts_assoc h2 hp
  rw [assoc_dedup] at h3
  simp only [List.not_mem_nil, if_false] at h3
  rw [(contextNew_refs h4).2]
  exact hm _ (assoc_pair h3)

end Askama
