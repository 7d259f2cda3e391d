import Verif.Lemmas.Tree
import Verif.Lemmas.Needed
import Verif.Lemmas.Excerpt

/-!
# The rules for trees of templates are needed
-/

namespace Askama

open Spec Gen

/-- Any node. -/
def anyNode (_ : Node) : Prop := True

/-- A template that was read by the parser and has simple nodes only. -/
structure CtxPlain (c : Ctx) : Prop extends CtxRead c where
  simpleNodes : SimpleList anyNode c.nodes
  simpleBlocks : ∀ name d, assoc c.blocks name = some d → SimpleList anyNode d.nodes
  simpleMacros : ∀ name d, assoc c.macros name = some d → SimpleList anyNode d.nodes ∧ d.args.Nodup
  ext : c.extends_ = none → ∀ p, .extends_ p ∉ c.nodes

theorem CtxPlain.merge {a b : Ctx} (ha : CtxPlain a) (hb : CtxPlain b) : CtxPlain (withMacrosOf a b) := by
  refine ⟨ha.toCtxRead.merge hb.toCtxRead, ha.simpleNodes, ha.simpleBlocks, fun name d h => ?_, ha.ext⟩
  unfold withMacrosOf at h
  dsimp only at h
  rw [assoc_append] at h
  cases hm : assoc a.macros name with
  | some d' => rw [hm] at h; cases h; exact ha.simpleMacros _ _ hm
  | none => rw [hm] at h; exact hb.simpleMacros _ _ h

theorem lineage_plain {contexts : List (Str × Ctx)} (hI : ∀ p c, assoc contexts p = some c → CtxPlain c) : (fuel : Nat) →
    {c : Ctx} → {chain : List Ctx} → CtxPlain c → lineage contexts fuel c = some chain →
    (∀ d ∈ chain, CtxPlain d) ∧ ∃ r, chain.getLast? = some r ∧ r.extends_ = none
  | 0, _, _, _, h => by cases h
  | fuel + 1, c, chain, hc, h => by
    unfold lineage at h
    cases he : c.extends_ with
    | none =>
      rw [he] at h
      cases h
      refine ⟨?_, c, rfl, he⟩
      intro d hd
      cases List.mem_singleton.mp hd; exact hc
    | some p =>
      rw [he] at h
      dsimp only at h
      obtain ⟨d, h1, h⟩ := Option.bind_eq_some_iff.mp h
      obtain ⟨rest, h2, rfl⟩ := Option.map_eq_some_iff.mp h
      obtain ⟨k1, r, k2, k3⟩ := lineage_plain hI fuel (hI p d h1) h2
      refine ⟨?_, r, ?_, k3⟩
      · intro x hx
        rcases List.mem_cons.mp hx with rfl | hx
        · exact hc
        · exact k1 x hx
      · cases rest with
        | nil => cases k2
        | cons y ys => rw [List.getLast?_cons_cons]; exact k2

/-- The templates along the chain, and the root, which extends nothing. -/
theorem chainOf_plain {contexts : List (Str × Ctx)} (hI : ∀ p c, assoc contexts p = some c → CtxPlain c) {c : Ctx}
    {chain : List Ctx} (hc : CtxPlain c) (h : chainOf contexts c = some chain) :
    (∀ d ∈ chain, CtxPlain d) ∧ CtxPlain (chain.getLastD c) ∧ ∀ p, .extends_ p ∉ (chain.getLastD c).nodes := by
  unfold chainOf at h
  split at h
  · rename_i hcond
    cases h
    simp only [Bool.and_eq_true, Option.isNone_iff_eq_none] at hcond
    exact ⟨by simp, hc, hc.ext hcond.2⟩
  · obtain ⟨h1, r, h2, h3⟩ := lineage_plain hI _ hc h
    rw [List.getLastD_eq_getLast?, h2]
    have hr := h1 r (List.mem_of_getLast? h2)
    exact ⟨h1, hr, hr.ext h3⟩

/-- What is accepted keeps the rules. -/
def TreeNeeds (I : GenInput) (n : Nat) (rec : Handler) : Prop :=
  ∀ level H chain ctx nodes g s g', HExact H chain → (∀ c ∈ chain, CtxPlain c) → CtxPlain ctx → ParsedList nodes →
    SimpleList anyNode nodes → (level = .top → ∀ p, .extends_ p ∉ nodes) → rec H ctx nodes level g = .ok (s, g') →
    Due I g g' (treeFits I n (level = .top) chain ctx g.superBlock nodes = true) ∧ (level = .top → Owes I g')

section
variable {I : GenInput} {H : Option Heritage} {chain : List Ctx} {ctx : Ctx} {cur : Option (Str × Nat)} {rec : Handler}
  {g g' : Gen} {n : Nat} {s : List Stmt}

theorem TreeNeeds.inner (ok : TreeNeeds I n rec) (hH : HExact H chain) (hch : ∀ c ∈ chain, CtxPlain c) (hc : CtxPlain ctx) :
    RecNeeds I H ctx cur anyNode (treeFits I n false chain ctx cur) rec := by
  intro nodes g s g' hp hs hsup h
  have := (ok .nested H chain ctx nodes g s g' hH hch hc hp hs (fun e => by cases e) h).1
  rw [hsup] at this
  simpa using this

theorem macroOf_of {scope : Option Str} {name : Str} {d : MacroDef} {own : Ctx} (h : findMacro I ctx scope name = .ok (d, own)) :
    macroOf I ctx scope name = some (d, own) := by
  unfold Gen.findMacro at h
  unfold macroOf
  cases scope with
  | none =>
    dsimp only at h ⊢
    cases hm : assoc ctx.macros name with
    | none => rw [hm] at h; cases h
    | some d' => rw [hm] at h; cases h; rfl
  | some s =>
    dsimp only at h ⊢
    cases h1 : assoc ctx.imports s with
    | none => rw [h1] at h; cases h
    | some path =>
      rw [h1] at h
      dsimp only at h
      rw [Option.bind_some]
      cases h2 : assoc I.contexts path with
      | none => rw [h2] at h; cases h
      | some mctx =>
        rw [h2] at h
        dsimp only at h
        rw [Option.bind_some]
        cases h3 : assoc mctx.macros name with
        | none => rw [h3] at h; cases h
        | some d' => rw [h3] at h; cases h; rfl

theorem macroOf_plain (hI : ∀ p c, assoc I.contexts p = some c → CtxPlain c) (hc : CtxPlain ctx) {scope : Option Str} {name : Str}
    {d : MacroDef} {own : Ctx} (h : macroOf I ctx scope name = some (d, own)) :
    CtxPlain own ∧ ParsedList d.nodes ∧ SimpleList anyNode d.nodes ∧ d.args.Nodup := by
  unfold macroOf at h
  cases scope with
  | none =>
    dsimp only at h
    obtain ⟨d', h1, h2⟩ := Option.map_eq_some_iff.mp h
    cases h2
    exact ⟨hc, hc.macros _ _ h1, hc.simpleMacros _ _ h1⟩
  | some s =>
    dsimp only at h
    obtain ⟨path, -, h⟩ := Option.bind_eq_some_iff.mp h
    obtain ⟨mctx, h1, h⟩ := Option.bind_eq_some_iff.mp h
    obtain ⟨d', h2, h3⟩ := Option.map_eq_some_iff.mp h
    cases h3
    have hm := hI _ _ h1
    exact ⟨hm, hm.macros _ _ h2, hm.simpleMacros _ _ h2⟩

theorem blockDefs_plain (hch : ∀ c ∈ chain, CtxPlain c) {name : Str} {i : Nat} {c : Ctx} {d : BlockDefn}
    (h : (blockDefs chain name)[i]? = some (c, d)) : CtxPlain c ∧ ParsedList d.nodes ∧ SimpleList anyNode d.nodes := by
  have hm := List.mem_of_getElem? h
  unfold blockDefs at hm
  obtain ⟨c', h1, h2⟩ := List.mem_filterMap.mp hm
  obtain ⟨d', h3, h4⟩ := Option.map_eq_some_iff.mp h2
  cases h4
  exact ⟨hch _ h1, (hch _ h1).blocks _ _ h3, (hch _ h1).simpleBlocks _ _ h3⟩

/-- The definition of a block that is used, with its number. -/
def blockFits (I : GenInput) (n : Nat) (chain : List Ctx) (ctx : Ctx) (name : Str) (k : Nat) : Bool :=
  match (blockDefs chain name)[k]? with
  | some (c, d) => treeFits I n false chain (withMacrosOf c ctx) (some (name, k)) d.nodes
  | none => false

theorem block_needs (ok : TreeNeeds I n rec) (hH : HExact H chain) (hch : ∀ c ∈ chain, CtxPlain c) (hc : CtxPlain ctx)
    {name : Option Str} {ws : Ws} (h : writeBlock rec I H ctx g name ws = .ok (s, g')) :
    ∃ b i, currentBlock name g.superBlock = .ok (b, i) ∧ Due I g g' (blockFits I n chain ctx b i = true) := by
  unfold Gen.writeBlock at h
  obtain ⟨⟨b, i⟩, h1, h⟩ := except_bind h
  obtain ⟨⟨pre, g1⟩, h2, h⟩ := except_bind h
  have d0 := (due_flushWs ws).next (due_writeBuf h2)
  rw [(due_flushWs (I := I) (g := g) ws).1] at h1
  refine ⟨b, i, h1, ?_⟩
  dsimp only at h
  cases H with
  | none => cases h
  | some hh =>
    dsimp only at h
    split at h
    · cases h
    · rename_i defs hdefs
      split at h
      · cases h
      · rename_i c d hd
        obtain ⟨⟨bd, g2⟩, h3, h⟩ := except_bind h
        obtain ⟨⟨fl, g3⟩, h4, h⟩ := except_bind h
        dsimp only at h
        cases h
        have hbd : blockDefs chain b = defs := by
          have := hH b
          rw [hdefs] at this
          split at this
          · cases this
          · exact (Option.some.inj this).symm
        have hd' : (blockDefs chain b)[i]? = some (c, d) := by rw [hbd]; exact hd
        obtain ⟨r1, r2, r3⟩ := blockDefs_plain hch hd'
        refine ⟨d0.1, fun hpd => ?_⟩
        obtain ⟨hpd1, hown1⟩ := d0.2 hpd
        simp only [hpd1, Bool.and_false, Bool.false_eq_true, if_false] at h3 ⊢
        have dk := (ok .block (some hh) chain (withMacrosOf c ctx) d.nodes _ _ _ hH hch (r1.merge hc) r2 r3
          (fun e => by cases e) h3).1
        have dk := dk.then ((due_flushIf h4).next (due_flushWs d.ws2))
        obtain ⟨e1, e2⟩ := dk.2 rfl
        refine ⟨e1, fun ho => ?_⟩
        have ho2 := e2 (fun e he => ho e he)
        refine ⟨(hown1 (fun e he => ho2.1 e he)).1, ?_⟩
        unfold blockFits
        rw [hd']
        simpa using ho2.2

theorem include_needs (hbl : AllBlocksOk I) (hI : ∀ p c, assoc I.contexts p = some c → CtxPlain c) (ok : TreeNeeds I n rec)
    (hc : CtxPlain ctx) {ws : Ws} {path : Str} (h : handleInclude rec I ctx g ws path = .ok (s, g')) :
    ∃ p c chain, I.find path = some p ∧ assoc I.contexts p = some c ∧ chainOf I.contexts (withMacrosOf c ctx) = some chain ∧
      Due I g g' (treeFits I n true chain (chain.getLastD (withMacrosOf c ctx)) none (chain.getLastD (withMacrosOf c ctx)).nodes = true) := by
  obtain ⟨pre, g1, p, c, Hc, b, g2, fl, g3, h1, h2, h3, h4, h5, h6, -, rfl⟩ := handleInclude_inv h
  have hm := (hI _ _ h3).merge hc
  have hbc : BlocksOk (withMacrosOf c ctx) := show BlocksOk c from hbl _ _ h3
  obtain ⟨chain, k1, k2, -⟩ := includeHeritage_chain (c := mergeCtx c ctx) hbl hbc h4
  refine ⟨p, c, chain, h2, h3, k1, ?_⟩
  obtain ⟨H', e1, -, e3⟩ := include_exact hbl hbc k1
  have : H' = Hc := Except.ok.inj (e1.symm.trans h4)
  subst this
  obtain ⟨p1, p2, p3⟩ := chainOf_plain hI hm k1
  change rec H' (rootOf H' (mergeCtx c ctx)) (rootOf H' (mergeCtx c ctx)).nodes .top _ = _ at h5
  rw [k2] at h5
  have d0 := (due_flushWs ws).next (due_writeBuf h1)
  refine ⟨d0.1, fun hpd => ?_⟩
  obtain ⟨hpd1, hown1⟩ := d0.2 hpd
  obtain ⟨dk, ho⟩ := ok .top H' chain _ _ _ _ _ e3 p1 p2 p2.nodes p2.simpleNodes (fun _ => p3) h5
  refine ⟨hpd1, fun hg => ⟨(hown1 hg).1, ?_⟩⟩
  have := ((dk.2 hpd1).2 (ho rfl)).2
  simpa [Gen.new] using this

theorem treeFits_nil {top : Bool} {ns : List Node} (h : treeFits I n top chain ctx cur ns = true) :
    treeFits I n top chain ctx cur [] = true := by
  cases n with
  | zero => simp [treeFits] at h
  | succ n => simp [treeFits]

theorem node_tree_needs (hbl : AllBlocksOk I) (hI : ∀ p c, assoc I.contexts p = some c → CtxPlain c)
    (ok : TreeNeeds I n rec) (hH : HExact H chain) (hch : ∀ c ∈ chain, CtxPlain c) (hc : CtxPlain ctx) {level : Level} {m : Node}
    (hp : ParsedNode m) (hs : ∀ x ∈ parts m, anyNode x ∧ simpleNode x = true) (hext : level = .top → ∀ p, .extends_ p ≠ m)
    (h : handleNode rec I H ctx level g m = .ok (s, g')) :
    Due I g g' (treeFits I (n + 1) (level = .top) chain ctx g.superBlock [m] = true) := by
  obtain ⟨b, -, -, hargs, -, -, -⟩ := hp.ok
  simp only [treeFits, List.all_cons, List.all_nil, Bool.and_true]
  cases m with
  | call ws scope name args =>
    unfold Gen.handleNode at h
    dsimp only at h ⊢
    split at h
    · rename_i hname
      rw [if_pos hname]
      obtain ⟨b, i, h1, d⟩ := block_needs ok hH hch hc h
      refine d.mono fun k => ?_
      cases hsb : g.superBlock with
      | none => rw [hsb] at h1; cases h1
      | some q =>
        rw [hsb] at h1
        cases h1
        exact k
    · rename_i hname
      rw [if_neg hname]
      obtain ⟨d, own, pre, g1, named, ns, rs, L, b, g2, fl, g3, g4, h1, h2, h3, h4, h5, h6, h7, h8, rfl, -⟩ := writeCall_inv h
      have hd := macroOf_of h1
      obtain ⟨m1, m2, m3, m4⟩ := macroOf_plain hI hc hd
      obtain ⟨a1, a2⟩ := args_need hargs m4 h3 h4 h5
      have d1 : Due I g g1 True := (due_flushWs ws).next (Due.next (g1 := { flushWs I g ws with locals := (flushWs I g ws).locals.push })
        (due_same rfl rfl) (due_writeBuf h2))
      have d2 : Due I g1 { prepareWs I g1.openLine d.ws1 with locals := L } True := due_openLine.next (due_same rfl rfl)
      have d3 := ok.inner hH hch m1 d.nodes _ _ _ m2 m3 ((d1.next d2).1) h6
      have d4 := ((due_flushWs d.ws2).next (due_writeBuf h7)).next ((due_closeLine h8).next
        ((due_same (g' := { g4 with locals := g4.locals.pop }) rfl rfl).next (due_prepareWs ws)))
      refine ((d1.next d2).next (d3.then d4)).mono ?_
      intro k
      rw [hd]
      simp only [Bool.and_eq_true]
      exact ⟨⟨a1, a2⟩, k⟩
  | blockDef ws1 name ns ws2 =>
    obtain ⟨b, i, h1, d⟩ := block_needs ok hH hch hc h
    refine d.mono fun k => ?_
    simp only [Bool.and_eq_true, bne_iff_ne]
    cases hsb : g.superBlock with
    | none =>
      rw [hsb] at h1
      cases h1
      exact ⟨by simp, k⟩
    | some q =>
      obtain ⟨q1, q2⟩ := q
      rw [hsb] at h1
      unfold Gen.currentBlock at h1
      dsimp only at h1
      split at h1
      · cases h1
      · rename_i hne
        cases h1
        exact ⟨fun e => hne (by simpa using e.symm), k⟩
  | «include» ws path =>
    obtain ⟨p, c, ch, h1, h2, h3, d⟩ := include_needs hbl hI ok hc h
    refine d.mono fun k => ?_
    dsimp only
    rw [h1]
    dsimp only
    rw [h2]
    dsimp only
    rw [h3]
    exact k
  | extends_ p =>
    unfold Gen.handleNode at h
    dsimp only at h
    split at h
    · rename_i hl
      exact absurd rfl (hext hl p)
    · cases h
  | _ => exact tag_needs (ok.inner hH hch hc) (fun _ => treeFits_nil) rfl hp hs rfl h

theorem nodes_tree_need (hbl : AllBlocksOk I) (hI : ∀ p c, assoc I.contexts p = some c → CtxPlain c)
    (ok : TreeNeeds I n rec) (hH : HExact H chain) (hch : ∀ c ∈ chain, CtxPlain c) (hc : CtxPlain ctx) {level : Level} :
    (ns : List Node) → {g g' : Gen} → {s : List Stmt} → ParsedList ns → SimpleList anyNode ns →
    (level = .top → ∀ p, .extends_ p ∉ ns) → handleNodes rec I H ctx level ns g = .ok (s, g') →
    Due I g g' (treeFits I (n + 1) (level = .top) chain ctx g.superBlock ns = true)
  | [], _, _, _, _, _, _, h => by cases h; exact (due_same rfl rfl).mono fun _ => by simp [treeFits]
  | m :: ns, g, g', s, hp, hs, hext, h => by
    unfold Gen.handleNodes at h
    obtain ⟨⟨s1, g1⟩, h1, h⟩ := except_bind h
    obtain ⟨⟨s2, g2⟩, h2, h⟩ := except_bind h
    cases h
    have d1 := node_tree_needs hbl hI ok hH hch hc hp.head
      (fun x hx => hs x (by simp only [partsL, List.mem_append]; exact .inl hx))
      (fun hl p e => hext hl p (by rw [e]; exact List.mem_cons_self ..)) h1
    have d2 := nodes_tree_need hbl hI ok hH hch hc ns hp.tail
      (fun x hx => hs x (by simp only [partsL, List.mem_append]; exact .inr hx))
      (fun hl p e => hext hl p (List.mem_cons_of_mem _ e)) h2
    rw [d1.1] at d2
    rw [treeFits_cons, Bool.and_eq_true]
    exact d1.trans d2

end

theorem handle_tree_needs {I : GenInput} (hbl : AllBlocksOk I) (hI : ∀ p c, assoc I.contexts p = some c → CtxPlain c) :
    (n : Nat) → TreeNeeds I n (handle I n)
  | 0 => by
    intro level H chain ctx nodes g s g' _ _ _ _ _ _ h
    unfold handle at h
    cases h
  | n + 1 => by
    intro level H chain ctx nodes g s g' hH hch hc hp hs hext h
    unfold handle at h
    obtain ⟨⟨s1, g1⟩, h1, h⟩ := except_bind h
    obtain ⟨⟨s2, g2⟩, h2, h⟩ := except_bind h
    cases h
    unfold Gen.handleEnd at h2
    have d1 := nodes_tree_need hbl hI (handle_tree_needs hbl hI n) hH hch hc nodes hp hs hext h1
    split at h2
    · dsimp only at h2
      refine ⟨d1.then ?_, fun _ => ?_⟩
      · split at h2
        · exact (due_flushWs _).next (due_writeBuf h2)
        · exact due_writeBuf h2
      · have := writeBuf_pend h2
        intro e he
        rw [this] at he
        cases he
    · rename_i hl
      cases h2
      exact ⟨d1, fun k => absurd k hl⟩

/-- What the generator accepts keeps the rules. -/
theorem generate_tree_needs {I : GenInput} (hblk : I.block = none) (hbl : AllBlocksOk I)
    (hI : ∀ p c, assoc I.contexts p = some c → CtxPlain c) {H : Option Heritage} {chain : List Ctx} {ctx : Ctx}
    (hH : HExact H chain) (hr : rootOf H ctx = chain.getLastD ctx) (hl : chainOf I.contexts ctx = some chain)
    (hc : CtxPlain ctx) {n : Nat} {code : List Stmt} (h : generate I n H ctx = .ok code) :
    treeFits I n true chain (chain.getLastD ctx) none (chain.getLastD ctx).nodes = true := by
  unfold generate at h
  obtain ⟨⟨s, g⟩, h1, -⟩ := except_bind h
  change Gen.handle I n H (rootOf H ctx) (rootOf H ctx).nodes .top (Gen.new I .empty 2 false) = .ok (s, g) at h1
  rw [hr] at h1
  obtain ⟨p1, p2, p3⟩ := chainOf_plain hI hc hl
  obtain ⟨d, ho⟩ := handle_tree_needs hbl hI n .top H chain _ _ _ _ _ hH p1 p2 p2.nodes p2.simpleNodes (fun _ => p3) h1
  have hd : (Gen.new I .empty 2 false).pdiscard = false := by simp [Gen.new, hblk]
  have := ((d.2 hd).2 (ho rfl)).2
  simpa [Gen.new] using this

theorem contextNew_ctxPlain {find : Str → Option Str} {c : Ctx} (h : contextNew find c.nodes = .ok c) (hp : ParsedList c.nodes)
    (hs : (partsL c.nodes).all simpleNode = true) : CtxPlain c := by
  rw [List.all_eq_true] at hs
  obtain ⟨h1, h2⟩ := contextNew_has (P := fun n => n ∈ partsL c.nodes) h (fun n hn => hn)
  refine ⟨contextNew_read h hp, fun x hx => ⟨trivial, hs x hx⟩, fun name d hd x hx => ⟨trivial, hs x ?_⟩, fun name d hd => ?_, ?_⟩
  · obtain ⟨ws1, ws2, h3⟩ := h1 _ (assoc_pair hd)
    exact partsL_sub _ _ h3 x (by simp [parts, hx])
  · obtain ⟨ws1, ws2, h3⟩ := h2 _ (assoc_pair hd)
    refine ⟨fun x hx => ⟨trivial, hs x (partsL_sub _ _ h3 x (by simp [parts, hx]))⟩, ?_⟩
    simpa [simpleNode] using hs _ h3
  · intro he
    unfold contextNew at h
    obtain ⟨st, h1, h⟩ := except_bind h
    have e := Except.ok.inj h
    exact (ctxLoop_extends _ h1 (by rw [← e] at he; exact he)).2 c.nodes [] rfl

/-- What compiles was loaded and keeps the rules. -/
theorem tree_needs {env : DeriveEnv} {c : Config} (hc : ∀ e ∈ c.syntaxes, e.2.CommentOk) {ident : Str} {args : TemplateArgs}
    (hb : args.block = none) {n : Nat} {code : List Stmt} (h : buildTemplate env c ident args n = .ok code) :
    ∃ w, load env c ident args n = some w ∧
      ((∀ p x, assoc w.input.contexts p = some x → (partsL x.nodes).all simpleNode = true) → w.fits n = true) := by
  obtain ⟨w, H, t, h1, h2, h3, h4, h5, h6, h7, h8, h9⟩ := Props.build_loads h
  refine ⟨w, h1, fun hs => ?_⟩
  have hblk : w.input.block = none := by rw [h3]; exact (Props.newInput_block h2).trans hb
  have hbl : AllBlocksOk w.input := fun p x hp => contextNew_blocks (h5 p x hp)
  have hch : chainOf w.input.contexts w.ctx = some w.chain := Props.load_chain h1
  have hpl : ∀ p x, assoc w.input.contexts p = some x → CtxPlain x := fun p x hp =>
    contextNew_ctxPlain (h5 p x hp) (Props.load_parsed hc h1 p x hp) (hs p x hp)
  obtain ⟨H', e1, e2, e3⟩ := include_exact hbl (hbl _ _ h4) hch
  have : H' = H := by
    rw [(Props.newInput_block h2).trans hb] at h6
    unfold includeHeritage at e1
    unfold heritageOf at h6
    split at e1
    · rename_i hcond
      rw [if_pos hcond] at h6
      obtain ⟨hh, e4, e5⟩ := except_bind h6
      cases e5
      rw [show heritageNew w.input.contexts w.ctx = .ok hh from e4] at e1
      cases e1; rfl
    · rename_i hcond
      rw [if_neg hcond] at h6
      cases h6; cases e1; rfl
  subst this
  exact generate_tree_needs hblk hbl hpl e3 e2 hch (hpl _ _ h4) h9

end Askama
