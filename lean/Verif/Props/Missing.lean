import Verif.Props.Accept
import Verif.Lemmas.Excerpt

/-!
# Asking for a block that does not exist (C68)
-/

namespace Askama.Props

open Spec

/-- The names of the collected blocks, and of those still to be collected. -/
structure NamedSt (Q : Str → Prop) (st : CtxSt) : Prop where
  blocks : ∀ e ∈ st.blocks, Q e.1
  nested : ∀ ns ∈ st.nested, ∀ w1 name body w2, Node.blockDef w1 name body w2 ∈ partsL ns → Q name

theorem ctxNode_named {Q : Str → Prop} {find : Str → Option Str} {top : Bool} {st st' : CtxSt} {n : Node}
    (h : ctxNode find top st n = .ok st') (hn : ∀ w1 name body w2, Node.blockDef w1 name body w2 ∈ parts n → Q name)
    (hs : NamedSt Q st) : NamedSt Q st' := by
  have key : ∀ ns ∈ ctxNested n ++ st.nested, ∀ w1 name body w2, Node.blockDef w1 name body w2 ∈ partsL ns → Q name := by
    intro ns hns w1 name body w2 hm
    rcases List.mem_append.mp hns with hns | hns
    · exact hn w1 name body w2 (List.mem_of_mem_tail (ctxNested_tail ns hns _ hm))
    · exact hs.nested ns hns w1 name body w2 hm
  cases n with
  | extends_ p =>
    simp only [ctxNode] at h
    repeat' split at h
    all_goals cases h
    exact ⟨hs.blocks, hs.nested⟩
  | import_ w p s =>
    simp only [ctxNode] at h
    repeat' split at h
    all_goals cases h
    exact ⟨hs.blocks, hs.nested⟩
  | «macro» w1 name args nodes w2 =>
    simp only [ctxNode] at h
    split at h
    · cases h
      exact ⟨hs.blocks, hs.nested⟩
    · cases h
  | blockDef w1 name nodes w2 =>
    cases h
    refine ⟨?_, key⟩
    intro e he
    rcases mapInsert_mem he with rfl | he
    · exact hn w1 name nodes w2 (by simp [parts])
    · exact hs.blocks e he
  | _ => cases h; exact ⟨hs.blocks, key⟩

theorem ctxNodes_named {Q : Str → Prop} {find : Str → Option Str} {top : Bool} : (ns : List Node) → {st st' : CtxSt} →
    ctxNodes find top ns st = .ok st' → (∀ w1 name body w2, Node.blockDef w1 name body w2 ∈ partsL ns → Q name) →
    NamedSt Q st → NamedSt Q st'
  | [], _, _, h, _, hs => by cases h; exact hs
  | n :: ns, _, _, h, hn, hs => by
    unfold ctxNodes at h
    obtain ⟨st1, h1, h⟩ := except_bind h
    exact ctxNodes_named ns h (fun w1 name body w2 hm => hn w1 name body w2 (by simp [partsL, hm]))
      (ctxNode_named h1 (fun w1 name body w2 hm => hn w1 name body w2 (by simp [partsL, hm])) hs)

theorem ctxLoop_named {Q : Str → Prop} {find : Str → Option Str} : (fuel : Nat) → {top : Bool} → {st st' : CtxSt} →
    ctxLoop find fuel top st = .ok st' → NamedSt Q st → NamedSt Q st'
  | fuel, top, st, st', h, hs => by
    unfold ctxLoop at h
    split at h
    · cases h; exact hs
    · rename_i ns rest hn
      cases fuel with
      | zero => cases h
      | succ fuel =>
        dsimp only at h
        obtain ⟨st1, h1, h⟩ := except_bind h
        refine ctxLoop_named fuel h (ctxNodes_named ns h1 (hs.nested ns (by rw [hn]; simp)) ⟨hs.blocks, ?_⟩)
        intro l hl
        exact hs.nested l (by rw [hn]; exact List.mem_cons_of_mem _ hl)

/-- The blocks of a template are written in it. -/
theorem contextNew_named {find : Str → Option Str} {nodes : List Node} {c : Ctx} (h : contextNew find nodes = .ok c) :
    ∀ e ∈ c.blocks, ∃ w1 body w2, Node.blockDef w1 e.1 body w2 ∈ partsL nodes := by
  unfold contextNew at h
  obtain ⟨st, h1, h⟩ := except_bind h
  cases h
  exact (ctxLoop_named (Q := fun name => ∃ w1 body w2, Node.blockDef w1 name body w2 ∈ partsL nodes) _ h1
    ⟨by simp, by simpa using fun w1 name body w2 hm => ⟨w1, body, w2, hm⟩⟩).blocks

/-- The templates along a chain are templates. -/
theorem ancestry_loaded {contexts : List (Str × Ctx)} {c : Ctx} {l : List Ctx} (h : Ancestry contexts c l) {p : Str}
    (hp : assoc contexts p = some c) : ∀ x ∈ l, ∃ q, assoc contexts q = some x := by
  induction h generalizing p with
  | root _ => intro x hx; cases List.mem_singleton.mp hx; exact ⟨p, hp⟩
  | child _ ha _ ih =>
    intro x hx
    rcases List.mem_cons.mp hx with rfl | hx
    · exact ⟨p, hp⟩
    · exact ih ha x hx

/-- C68 for the templates that have a block or extend another one: if the template compiles with only the block `b` asked
for, then `b` is written in the template or in one that it extends. Missing are the templates that have no block and extend
nothing: there, any name is accepted (`C68_false_without_blocks`). -/
theorem C68_missing_block_partial {env : DeriveEnv} {c : Config} {ident : Str} {args : TemplateArgs} {b : Str}
    (hb : args.block = some b) {fuel : Nat} {code : List Stmt} (h : buildTemplate env c ident args fuel = .ok code) :
    ∃ w chain, load env c ident args fuel = some w ∧ Ancestry w.input.contexts w.ctx chain
      ∧ ((w.ctx.blocks = [] ∧ w.ctx.extends_ = none)
        ∨ ∃ x ∈ chain, ∃ w1 body w2, Node.blockDef w1 b body w2 ∈ partsL x.nodes) := by
  obtain ⟨w, H, t, h1, h2, h3, h4, h5, h6, h7, -, -⟩ := build_loads h
  obtain ⟨chain, g1, -, g3⟩ := chainOf_ancestry (load_chain h1)
  refine ⟨w, chain, h1, g1, ?_⟩
  rw [newInput_block h2, hb] at h6
  unfold heritageOf at h6
  split at h6
  · obtain ⟨hh, k1, h6⟩ := except_bind h6
    dsimp only at h6
    split at h6
    · cases h6
    · rename_i k2
      cases h6
      right
      cases k3 : assoc hh.blocks b with
      | none => simp [k3] at k2
      | some defs =>
        have k4 := h7 hh rfl b defs k3
        have hbl : AllBlocksOk w.input := fun p x hp => contextNew_blocks (h5 p x hp)
        obtain ⟨l, e1, -, -⟩ := heritageNew_chain hbl (hbl _ _ h4) k1
        have hne : blockDefs w.chain b ≠ [] := by
          intro hnil
          unfold Gen.heritageNew at k1
          obtain ⟨l', e2, k1⟩ := except_bind k1
          cases k1
          have e3 := heritageChain_lineage _ e2
          dsimp only at k3
          rw [fold_blocks l' (lineage_blocks hbl _ (hbl _ _ h4) e3)] at k3
          have : defs = [] := k4.trans hnil
          subst this
          cases hbd : blockDefs l' b with
          | nil => rw [hbd] at k3; simp [assoc, moreDefs] at k3
          | cons x xs => rw [hbd] at k3; simp [assoc, moreDefs] at k3
        cases hd : blockDefs w.chain b with
        | nil => exact absurd hd hne
        | cons x xs =>
          obtain ⟨x, d⟩ := x
          have hm : (x, d) ∈ blockDefs w.chain b := by rw [hd]; simp
          unfold blockDefs at hm
          obtain ⟨y, m1, m2⟩ := List.mem_filterMap.mp hm
          obtain ⟨d', m2, m3⟩ := Option.map_eq_some_iff.mp m2
          cases m3
          obtain ⟨near, far, m4⟩ := List.append_of_mem m1
          obtain ⟨near', far', m5, -, m6⟩ := (g3 b _ x d).mp ⟨near, far, m4, rfl, m2⟩
          have hx : x ∈ chain := by rw [m5]; simp
          obtain ⟨q, hq⟩ := ancestry_loaded g1 h4 x hx
          exact ⟨x, hx, contextNew_named (h5 q x hq) (b, d) (assoc_pair m6)⟩
  · rename_i hcond
    left
    simpa [List.isEmpty_iff] using hcond

/-- C68 is false as it stands: in a template without blocks that extends nothing, any name is accepted. -/
theorem C68_false_without_blocks {isWs : Char → Bool} {krate root : Str} {raw : RawConfig} {ws : Option Str} {env : DeriveEnv}
    {c : Config} (hc : Config.new isWs krate root raw ws = .ok c) {ident : Str} {args : TemplateArgs} (b : Str)
    {t : TemplateInput} (ht : TemplateInput.new env.files env.guess c ident { args with block := some b } = .ok t) {src : Str}
    (hs : mainSource env t = .ok src) {nodes : List Node} (hp : parseNodes env.isLower t.syn src = some nodes) {n : Nat}
    (hn : n ≤ 29) (hw : wellFormed ⟨env.json, c.escapers⟩ n nodes = true) :
    ∃ code, ∀ fuel ≥ n, buildTemplate env c ident { args with block := some b } fuel = .ok code :=
  C67_compiles hc ht hs hp hn hw

/-- C68 is false: `block = "b"` for a template that has no block gives a template that renders nothing. -/
theorem C68_false : compiled [(c!"t/a.html", c!"Hello {{ x }}!")] c!"a.html" (some c!"b") = .ok (some [])
    ∧ compiled [(c!"t/a.html", c!"Hello {{ x }}!")] c!"a.html" = .ok (some c!"Hello x!") := by decide +kernel

/-! ## The hypotheses can be met -/

/-- A template with a layout. -/
def askedFiles : List (Str × Str) :=
  [(c!"t/a.html", c!"{% extends \"b.html\" %}{% block p %}1{% endblock %}"),
   (c!"t/b.html", c!"<{% block p %}2{% endblock %}{% block q %}3{% endblock %}>")]

/-- Blocks of the template itself, of the layout, and of no template. -/
example : compiled askedFiles c!"a.html" (some c!"p") = .ok (some c!"1") ∧ compiled askedFiles c!"a.html" (some c!"q")
      = .ok (some c!"3")
    ∧ compiled askedFiles c!"a.html" (some c!"r") = .error .err := by decide +kernel

end Askama.Props
