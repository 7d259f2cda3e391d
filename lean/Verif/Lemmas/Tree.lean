import Verif.Spec.Tree
import Verif.Lemmas.Alone
import Verif.Lemmas.GenBlock
import Verif.Lemmas.Fuel
import Verif.Props.Render

/-!
# The generator accepts trees of templates that keep the rules
-/

namespace Askama

open Spec Gen

/-- A template that was read by the parser. -/
structure CtxRead (c : Ctx) : Prop where
  nodes : ParsedList c.nodes
  blocks : ∀ name d, assoc c.blocks name = some d → ParsedList d.nodes
  macros : ∀ name d, assoc c.macros name = some d → ParsedList d.nodes

theorem CtxRead.merge {a b : Ctx} (ha : CtxRead a) (hb : CtxRead b) : CtxRead (withMacrosOf a b) := by
  refine ⟨ha.nodes, ha.blocks, fun name d h => ?_⟩
  unfold withMacrosOf at h
  dsimp only at h
  rw [assoc_append] at h
  cases hm : assoc a.macros name with
  | some d' => rw [hm] at h; cases h; exact ha.macros _ _ hm
  | none => rw [hm] at h; exact hb.macros _ _ h

/-- The heritage has the blocks of the chain of templates. -/
def HExact (H : Option Heritage) (chain : List Ctx) : Prop :=
  match H with
  | none => chain = []
  | some h => ∀ n, assoc h.blocks n = if blockDefs chain n = [] then none else some (blockDefs chain n)

theorem lineage_heritage {contexts : List (Str × Ctx)} : (fuel : Nat) → {c : Ctx} → {chain : List Ctx} →
    lineage contexts fuel c = some chain → heritageChain contexts fuel c = .ok chain
  | 0, _, _, h => by cases h
  | fuel + 1, c, chain, h => by
    unfold lineage at h
    unfold heritageChain
    cases he : c.extends_ with
    | none => rw [he] at h; cases h; rfl
    | some p =>
      rw [he] at h
      dsimp only at h ⊢
      cases ha : assoc contexts p with
      | none => rw [ha] at h; cases h
      | some d =>
        rw [ha] at h
        rw [Option.bind_some, Option.map_eq_some_iff] at h
        obtain ⟨rest, h1, rfl⟩ := h
        dsimp only
        rw [lineage_heritage fuel h1]
        rfl

theorem lineage_read {contexts : List (Str × Ctx)} (hI : ∀ p c, assoc contexts p = some c → CtxRead c) : (fuel : Nat) →
    {c : Ctx} → {chain : List Ctx} → CtxRead c → lineage contexts fuel c = some chain → ∀ d ∈ chain, CtxRead d
  | 0, _, _, _, h => by cases h
  | fuel + 1, c, chain, hc, h => by
    unfold lineage at h
    cases he : c.extends_ with
    | none =>
      rw [he] at h
      cases h
      intro d hd
      cases List.mem_singleton.mp hd; exact hc
    | some p =>
      rw [he] at h
      dsimp only at h
      obtain ⟨d, h1, h⟩ := Option.bind_eq_some_iff.mp h
      obtain ⟨rest, h2, rfl⟩ := Option.map_eq_some_iff.mp h
      intro x hx
      rcases List.mem_cons.mp hx with rfl | hx
      · exact hc
      · exact lineage_read hI fuel (hI p d h1) h2 x hx

theorem chainOf_read {contexts : List (Str × Ctx)} (hI : ∀ p c, assoc contexts p = some c → CtxRead c) {c : Ctx} {chain : List Ctx}
    (hc : CtxRead c) (h : chainOf contexts c = some chain) : ∀ d ∈ chain, CtxRead d := by
  unfold chainOf at h
  split at h
  · cases h; simp
  · exact lineage_read hI _ hc h

theorem getLastD_read {chain : List Ctx} {c : Ctx} (hc : CtxRead c) (h : ∀ d ∈ chain, CtxRead d) : CtxRead (chain.getLastD c) := by
  cases hl : chain.getLast? with
  | none => rw [List.getLastD_eq_getLast?, hl]; exact hc
  | some d => rw [List.getLastD_eq_getLast?, hl]; exact h d (List.mem_of_getLast? hl)

theorem heritage_exact {I : GenInput} (hI : AllBlocksOk I) {c : Ctx} (hc : BlocksOk c) {chain : List Ctx}
    (h : lineage I.contexts (I.contexts.length + 2) c = some chain) :
    ∃ hh, heritageNew I.contexts c = .ok hh ∧ hh.root = chain.getLastD c ∧ HExact (some hh) chain := by
  unfold heritageNew
  rw [lineage_heritage _ h]
  refine ⟨_, rfl, rfl, ?_⟩
  intro n
  dsimp only
  rw [fold_blocks chain (lineage_blocks hI _ hc h)]
  cases hb : blockDefs chain n with
  | nil => simp [assoc, moreDefs]
  | cons x xs => simp [assoc, moreDefs]

theorem include_exact {I : GenInput} (hI : AllBlocksOk I) {c : Ctx} (hc : BlocksOk c) {chain : List Ctx}
    (h : chainOf I.contexts c = some chain) :
    ∃ H, includeHeritage I c = .ok H ∧ rootOf H c = chain.getLastD c ∧ HExact H chain := by
  unfold chainOf at h
  unfold includeHeritage
  split at h
  · rename_i hcond
    cases h
    rw [if_neg (by cases hb : c.blocks.isEmpty <;> cases he : c.extends_ <;> simp_all)]
    exact ⟨none, rfl, rfl, rfl⟩
  · rename_i hcond
    rw [if_pos (by cases hb : c.blocks.isEmpty <;> cases he : c.extends_ <;> simp_all)]
    obtain ⟨hh, h1, h2, h3⟩ := heritage_exact hI hc h
    exact ⟨some hh, by rw [h1]; rfl, h2, h3⟩

/-- The handler succeeds on nodes that keep the rules. -/
def RecTree (I : GenInput) (n : Nat) (rec : Handler) : Prop :=
  ∀ level H chain ctx cur nodes k g, HExact H chain → (∀ c ∈ chain, CtxRead c) → CtxRead ctx → ParsedList nodes →
    treeFits I n (level = .top) chain ctx cur nodes = true → Poised I cur k g →
    Got (fun x => Ready I cur k x.2) (rec H ctx nodes level g)

section
variable {I : GenInput} {H : Option Heritage} {chain : List Ctx} {ctx : Ctx} {cur : Option (Str × Nat)} {rec : Handler}
  {g : Gen} {n k : Nat}

theorem RecTree.gets (ok : RecTree I n rec) (hH : HExact H chain) (hch : ∀ c ∈ chain, CtxRead c) (hc : CtxRead ctx) :
    RecGets I H ctx cur (treeFits I n false chain ctx cur · = true) rec := fun nodes k g hp hf hg =>
  ok .nested H chain ctx cur nodes k g hH hch hc hp (by simpa using hf) hg

theorem findMacro_of {scope : Option Str} {name : Str} {d : MacroDef} {own : Ctx} (h : macroOf I ctx scope name = some (d, own)) :
    findMacro I ctx scope name = .ok (d, own) := by
  unfold macroOf at h
  unfold Gen.findMacro
  cases scope with
  | none =>
    dsimp only at h ⊢
    cases hm : assoc ctx.macros name with
    | none => rw [hm] at h; cases h
    | some d' => rw [hm] at h; cases h; rfl
  | some s =>
    dsimp only at h ⊢
    cases h1 : assoc ctx.imports s with
    | none => rw [h1] at h; cases h
    | some path =>
      rw [h1, Option.bind_some] at h
      dsimp only
      cases h2 : assoc I.contexts path with
      | none => rw [h2] at h; cases h
      | some mctx =>
        rw [h2, Option.bind_some] at h
        dsimp only
        cases h3 : assoc mctx.macros name with
        | none => rw [h3] at h; cases h
        | some d' => rw [h3] at h; cases h; rfl

theorem macroOf_read (hI : ∀ p c, assoc I.contexts p = some c → CtxRead c) (hc : CtxRead ctx) {scope : Option Str} {name : Str}
    {d : MacroDef} {own : Ctx} (h : macroOf I ctx scope name = some (d, own)) : CtxRead own ∧ ParsedList d.nodes := by
  unfold macroOf at h
  cases scope with
  | none =>
    dsimp only at h
    obtain ⟨d', h1, h2⟩ := Option.map_eq_some_iff.mp h
    cases h2
    exact ⟨hc, hc.macros _ _ h1⟩
  | some s =>
    dsimp only at h
    obtain ⟨path, -, h⟩ := Option.bind_eq_some_iff.mp h
    obtain ⟨mctx, h1, h⟩ := Option.bind_eq_some_iff.mp h
    obtain ⟨d', h2, h3⟩ := Option.map_eq_some_iff.mp h
    cases h3
    exact ⟨hI _ _ h1, (hI _ _ h1).macros _ _ h2⟩

theorem blockDefs_read (hch : ∀ c ∈ chain, CtxRead c) {name : Str} {i : Nat} {c : Ctx} {d : BlockDefn}
    (h : (blockDefs chain name)[i]? = some (c, d)) : CtxRead c ∧ ParsedList d.nodes := by
  have hm := List.mem_of_getElem? h
  unfold blockDefs at hm
  obtain ⟨c', h1, h2⟩ := List.mem_filterMap.mp hm
  obtain ⟨d', h3, h4⟩ := Option.map_eq_some_iff.mp h2
  cases h4
  exact ⟨hch _ h1, (hch _ h1).blocks _ _ h3⟩

theorem writeBlock_got (hblk : I.block = none) (ok : RecTree I n rec) (hH : HExact H chain) (hch : ∀ c ∈ chain, CtxRead c)
    (hc : CtxRead ctx) {name : Option Str} {ws : Ws} {b : Str} {i : Nat} (hcur : currentBlock name cur = .ok (b, i))
    {c : Ctx} {d : BlockDefn} (hd : (blockDefs chain b)[i]? = some (c, d))
    (hf : treeFits I n false chain (withMacrosOf c ctx) (some (b, i)) d.nodes = true) (hg : Ready I cur k g) :
    Got (fun x => Poised I cur k x.2) (writeBlock rec I H ctx g name ws) := by
  unfold Gen.writeBlock
  have h0 := hg.flushWs ws
  dsimp only
  rw [h0.sup, hcur]
  refine Got.bind (got_ok (Q := fun x => x = (b, i)) rfl) ?_
  rintro _ rfl
  refine h0.writeBuf.bind ?_
  rintro ⟨pre, g1⟩ h1
  dsimp only at h1 ⊢
  have hpd := h1.pd hblk
  simp only [hpd, Bool.and_false, Bool.false_eq_true, if_false]
  cases H with
  | none =>
    have : chain = [] := hH
    subst this
    simp [blockDefs] at hd
  | some h =>
    have hb := hH b
    rw [if_neg (by intro e; rw [e] at hd; cases hd)] at hb
    dsimp only
    rw [hb]
    dsimp only
    rw [hd]
    dsimp only
    obtain ⟨r1, r2⟩ := blockDefs_read hch hd
    have hp : Poised I (some (b, i)) k { Gen.prepareWs I { Gen.new I .empty g1.indent false with pend := g1.pend, pdiscard := false } d.ws1
        with superBlock := some (b, i) } :=
      ⟨⟨h1.pend, h1.ind, rfl, rfl, fun _ => rfl⟩, rfl⟩
    refine (ok .block (some h) chain (withMacrosOf c ctx) (some (b, i)) d.nodes k _ hH hch (r1.merge hc) r2 (by simpa using hf) hp).bind ?_
    rintro ⟨bd, child⟩ hchild
    dsimp only at hchild ⊢
    have hfl : Got (fun x => Ready I (some (b, i)) k x.2) (Gen.flushIf I (!child.locals.isCurrentEmpty) child) := by
      unfold Gen.flushIf
      split
      · exact hchild.writeBuf.mono fun _ hx => hx.1
      · exact got_ok hchild
    refine hfl.bind ?_
    rintro ⟨fl, child2⟩ h2
    dsimp only at h2 ⊢
    have h3 := h2.flushWs d.ws2
    exact got_ok ⟨⟨h3.pend, h3.ind, h1.dis, h1.sup, fun _ => h3.pd hblk⟩, h1.ws⟩

theorem handleInclude_got (hblk : I.block = none) (hbl : AllBlocksOk I) (hI : ∀ p c, assoc I.contexts p = some c → CtxRead c)
    (ok : RecTree I n rec) (hc : CtxRead ctx) {ws : Ws} {path p : Str} (hf : I.find path = some p) {c : Ctx}
    (ha : assoc I.contexts p = some c) (hl : chainOf I.contexts (withMacrosOf c ctx) = some chain)
    (hfit : treeFits I n true chain (chain.getLastD (withMacrosOf c ctx)) none (chain.getLastD (withMacrosOf c ctx)).nodes = true)
    (hg : Ready I cur k g) : Got (fun x => Poised I cur k x.2) (handleInclude rec I ctx g ws path) := by
  unfold Gen.handleInclude
  refine (hg.flushWs ws).writeBuf.bind ?_
  rintro ⟨pre, g1⟩ h1
  dsimp only at h1 ⊢
  rw [hf]
  dsimp only
  rw [ha]
  dsimp only
  have hm := (hI _ _ ha).merge hc
  have hbc : BlocksOk (withMacrosOf c ctx) := show BlocksOk c from hbl _ _ ha
  obtain ⟨Hc, e1, e2, e3⟩ := include_exact hbl hbc hl
  have hch := chainOf_read hI hm hl
  change Got _ (includeHeritage I (withMacrosOf c ctx) >>= _)
  rw [e1]
  refine Got.bind (got_ok (Q := fun x => x = Hc) rfl) ?_
  rintro _ rfl
  change Got _ (rec _ (rootOf _ (withMacrosOf c ctx)) (rootOf _ (withMacrosOf c ctx)).nodes .top _ >>= _)
  rw [e2]
  have hp : Poised I none k { Gen.new I g1.locals.withParent g1.indent g1.discard with pdiscard := g1.pdiscard } :=
    ⟨⟨by simp [Gen.new], h1.ind, h1.dis, rfl, h1.pd⟩, rfl⟩
  have hr := getLastD_read hm hch
  refine (ok .top _ chain _ none _ k _ e3 hch hr hr.nodes (by simpa using hfit) hp).bind ?_
  rintro ⟨b, child⟩ h2
  dsimp only at h2 ⊢
  refine h2.writeBuf.bind ?_
  rintro ⟨fl, child2⟩ h3
  dsimp only at h3 ⊢
  exact got_ok ⟨⟨h1.pend, h3.1.ind, h3.1.dis, h1.sup, h1.pd⟩, h1.ws⟩

theorem node_tree (hblk : I.block = none) (hbl : AllBlocksOk I) (hI : ∀ p c, assoc I.contexts p = some c → CtxRead c)
    (ok : RecTree I n rec) (hH : HExact H chain) (hch : ∀ c ∈ chain, CtxRead c) (hc : CtxRead ctx) {level : Level} {m : Node}
    (hp : ParsedNode m) (hfit : treeFits I (n + 1) (level = .top) chain ctx cur [m] = true) (hg : Ready I cur k g)
    (hws : isLitNode m = true → g.nextWs = none) : Got (fun x => After I cur k m x.2) (handleNode rec I H ctx level g m) := by
  simp only [treeFits, List.all_cons, List.all_nil, Bool.and_true] at hfit
  cases m with
  | call ws scope name args =>
    obtain ⟨b, -, -, hargs, -, -, -⟩ := hp.ok
    dsimp only at hfit
    unfold Gen.handleNode
    dsimp only
    split at hfit
    · rename_i hname
      rw [if_pos hname]
      split at hfit
      · rename_i b i
        split at hfit
        · rename_i c d hd
          exact after_poised (writeBlock_got hblk ok hH hch hc (b := b) (i := i + 1) rfl hd hfit hg)
        · cases hfit
      · cases hfit
    · rename_i hname
      rw [if_neg hname]
      split at hfit
      · rename_i d own hd
        simp only [Bool.and_eq_true] at hfit
        obtain ⟨r1, r2⟩ := macroOf_read hI hc hd
        exact after_poised (writeCall_got (ok.gets hH hch r1) (findMacro_of hd) hargs hfit.1.2 hfit.1.1 r2 hfit.2 hg)
      · cases hfit
  | blockDef ws1 name ns ws2 =>
    dsimp only at hfit
    simp only [Bool.and_eq_true, bne_iff_ne] at hfit
    obtain ⟨h1, h2⟩ := hfit
    split at h2
    · rename_i c d hd
      refine after_poised (writeBlock_got hblk ok hH hch hc (name := some name) (b := name) (i := 0) ?_ hd h2 hg)
      cases cur with
      | none => rfl
      | some q =>
        obtain ⟨q1, q2⟩ := q
        unfold Gen.currentBlock
        dsimp only
        rw [if_neg (fun e => h1 (by rw [e]; rfl))]
    · cases h2
  | «include» ws path =>
    dsimp only at hfit
    split at hfit
    · cases hfit
    · rename_i p hf
      split at hfit
      · cases hfit
      · rename_i c ha
        split at hfit
        · cases hfit
        · rename_i ch hl
          exact after_poised (handleInclude_got hblk hbl hI ok hc hf ha hl hfit hg)
  | _ => exact tag_got (ok.gets hH hch hc) hp hfit hg hws

theorem treeFits_cons {top : Bool} {m : Node} {ns : List Node} : treeFits I (n + 1) top chain ctx cur (m :: ns)
    = (treeFits I (n + 1) top chain ctx cur [m] && treeFits I (n + 1) top chain ctx cur ns) := by
  simp only [treeFits, List.all_cons, List.all_nil, Bool.and_true]

theorem nodes_tree (hblk : I.block = none) (hbl : AllBlocksOk I) (hI : ∀ p c, assoc I.contexts p = some c → CtxRead c)
    (ok : RecTree I n rec) (hH : HExact H chain) (hch : ∀ c ∈ chain, CtxRead c) (hc : CtxRead ctx) {level : Level} :
    (ns : List Node) → {g : Gen} → ParsedList ns → treeFits I (n + 1) (level = .top) chain ctx cur ns = true → Ready I cur k g →
    ((ns.head?.map isLitNode).getD false = true → g.nextWs = none) →
    Got (fun x => Ready I cur k x.2) (handleNodes rec I H ctx level ns g)
  | [], _, _, _, hg, _ => got_ok hg
  | m :: ns, g, hp, hfit, hg, hws => by
    unfold Gen.handleNodes
    rw [treeFits_cons, Bool.and_eq_true] at hfit
    refine (node_tree hblk hbl hI ok hH hch hc hp.head hfit.1 hg (fun h => hws (by simpa using h))).bind ?_
    rintro ⟨s, g1⟩ ⟨h1, h2⟩
    dsimp only at h1 h2 ⊢
    refine (nodes_tree hblk hbl hI ok hH hch hc ns hp.tail hfit.2 h1 ?_).bind ?_
    · intro hh
      apply h2
      have := hp.1.1
      cases hx : isLitNode m with
      | false => rfl
      | true => exact absurd ⟨hx, hh⟩ this
    · rintro ⟨s2, g2⟩ h3
      exact got_ok h3

end

theorem handle_tree {I : GenInput} (hblk : I.block = none) (hbl : AllBlocksOk I)
    (hI : ∀ p c, assoc I.contexts p = some c → CtxRead c) : (n : Nat) → RecTree I n (handle I n)
  | 0 => by
    intro level H chain ctx cur nodes k g _ _ _ _ h _
    simp [treeFits] at h
  | n + 1 => by
    intro level H chain ctx cur nodes k g hH hch hc hp hfit hg
    unfold handle
    refine (nodes_tree hblk hbl hI (handle_tree hblk hbl hI n) hH hch hc nodes hp hfit hg.toReady fun _ => hg.ws).bind ?_
    rintro ⟨s, g1⟩ h1
    have : Got (fun x => Ready I cur k x.2) (handleEnd I level g1) := by
      unfold handleEnd
      split
      · dsimp only
        split
        · exact ((h1.flushWs _).toReady.writeBuf).mono fun _ hx => hx.1
        · exact h1.writeBuf.mono fun _ hx => hx.1
      · exact got_ok h1
    refine this.bind ?_
    rintro ⟨s2, g2⟩ h2
    exact got_ok h2

/-- The generator accepts a template that keeps the rules with all that belongs to it. -/
theorem generate_tree {I : GenInput} (hblk : I.block = none) (hbl : AllBlocksOk I)
    (hI : ∀ p c, assoc I.contexts p = some c → CtxRead c) {H : Option Heritage} {chain : List Ctx} {ctx : Ctx} (hH : HExact H chain)
    (hr : rootOf H ctx = chain.getLastD ctx) (hch : ∀ c ∈ chain, CtxRead c) (hc : CtxRead ctx) {n : Nat} (hn : n ≤ 29)
    (hfit : treeFits I n true chain (chain.getLastD ctx) none (chain.getLastD ctx).nodes = true) :
    ∃ code, generate I n H ctx = .ok code := by
  have h0 : Poised I none 2 (Gen.new I .empty 2 false) :=
    ⟨⟨by simp [Gen.new], rfl, rfl, rfl, fun h => by simp [Gen.new, h]⟩, rfl⟩
  have hroot := getLastD_read hc hch
  obtain ⟨⟨s, g⟩, h1, h2⟩ := handle_tree hblk hbl hI n .top H chain _ none _ 2 _ hH hch hroot hroot.nodes (by simpa using hfit) h0
  rw [← hr] at h1
  unfold generate
  change ∃ code, (handle I n H (rootOf H ctx) (rootOf H ctx).nodes .top (Gen.new I .empty 2 false) >>= _) = .ok code
  rw [h1]
  have hfits := Gen.handle_shallow hn h1
  refine ⟨s, ?_⟩
  show (if (!fitsList 2 s) = true then Except.error GErr.panic else _) = _
  rw [hfits]
  dsimp only at h2
  have hd := h2.dis
  have hi := h2.ind
  simp only [Gen.closeLine, Gen.dedent, hd, hi]
  rfl

theorem generate_more {I : GenInput} {H : Option Heritage} {ctx : Ctx} {n m : Nat} (h : n ≤ m) {code : List Stmt}
    (hg : generate I n H ctx = .ok code) : generate I m H ctx = .ok code := by
  induction h with
  | refl => exact hg
  | step _ ih =>
    rcases generate_step I _ H ctx with e | e
    · rw [ih] at e; cases e
    · rw [← e]; exact ih

theorem contextNew_read {find : Str → Option Str} {c : Ctx} (h : contextNew find c.nodes = .ok c) (hp : ParsedList c.nodes) :
    CtxRead c := by
  have h0 := h
  unfold contextNew at h
  obtain ⟨st, h1, h⟩ := except_bind h
  have h2 := ctxLoop_parsed _ h1 ⟨by simp, by simp, fun ns hns => by rw [List.mem_singleton.mp hns]; exact hp⟩
  have e := Except.ok.inj h
  exact ⟨hp, fun x d hx => h2.blocks _ (assoc_pair (by rw [← e] at hx; exact hx)),
    fun x d hx => h2.macros _ (assoc_pair (by rw [← e] at hx; exact hx))⟩

/-- What was loaded and keeps the rules compiles. -/
theorem tree_builds {env : DeriveEnv} {c : Config} (hc : ∀ e ∈ c.syntaxes, e.2.CommentOk) {ident : Str} {args : TemplateArgs}
    (hb : args.block = none) {m : Nat} {w : Whole} (hl : load env c ident args m = some w) {n : Nat} (hn : n ≤ 29)
    (hw : w.fits n = true) (hnm : n ≤ m) : ∃ code, buildTemplate env c ident args m = .ok code := by
  unfold load at hl
  split at hl
  · cases hl
  rename_i t ht
  split at hl
  · cases hl
  rename_i src hs
  split at hl
  · cases hl
  rename_i templates h3
  split at hl
  · cases hl
  rename_i contexts h4
  obtain ⟨ctx, h5, hl⟩ := Option.bind_eq_some_iff.mp hl
  obtain ⟨chain, h6, hl⟩ := Option.map_eq_some_iff.mp hl
  subst hl
  obtain ⟨k, hk⟩ := Props.newInput_syntax ht
  have hcn : ∀ p x, assoc contexts p = some x → contextNew ((env.loader c t.syn).find p) x.nodes = .ok x := by
    intro p x hp
    obtain ⟨nodes, -, h7⟩ := makeContexts_assoc h4 hp
    rw [(contextNew_refs h7).2]
    exact h7
  have hbl : AllBlocksOk (genInput env c t contexts) := fun p x hp => contextNew_blocks (hcn p x hp)
  have hrd : ∀ p x, assoc contexts p = some x → CtxRead x := fun p x hp =>
    contextNew_read (hcn p x hp) (contexts_parsed (hc _ (assoc_pair hk)) h3 h4 hp)
  have htb : t.block = none := (Props.newInput_block ht).trans hb
  obtain ⟨H, e1, e2, e3⟩ := include_exact hbl (hbl _ _ h5) h6
  obtain ⟨code, hg⟩ := generate_tree (I := genInput env c t contexts) htb hbl hrd e3 e2 (chainOf_read hrd (hrd _ _ h5) h6)
    (hrd _ _ h5) hn hw
  refine ⟨code, ?_⟩
  have e1 : heritageOf contexts t.block ctx = .ok H := by
    rw [htb]
    unfold includeHeritage at e1
    unfold heritageOf
    split at e1
    · rename_i hcond
      rw [if_pos hcond]
      obtain ⟨hh, e4, e5⟩ := except_bind e1
      cases e5
      rw [show heritageNew contexts ctx = .ok hh from e4]
      rfl
    · rename_i hcond
      rw [if_neg hcond]
      exact e1
  unfold buildTemplate
  rw [ht]
  dsimp only [bind, Except.bind]
  rw [hs]
  dsimp only
  rw [h3]
  dsimp only
  rw [h4]
  dsimp only
  rw [h5]
  dsimp only
  rw [e1]
  exact generate_more hnm hg

end Askama
