import Verif.Spec.Flat
import Verif.Lemmas.Core
import Verif.Lemmas.GenOut
import Verif.Props.Render

/-! Templates of text, comments and raw blocks compile, and render their text. -/

namespace Askama

open Askama.Spec Askama.Gen

theorem visitLws_total {g : Gen} {l : Lit} (hl : litOk l = true) : ∃ g', visitLws g l = .ok g' := by
  have hrw : l.val.isEmpty = true → l.rws.isEmpty = true := by
    intro h; simpa [litOk, h] using hl
  unfold visitLws
  split
  · exact ⟨_, rfl⟩
  · split
    · exact ⟨_, rfl⟩
    · split
      · rw [if_pos (hrw ‹_›)]; exact ⟨_, rfl⟩
      · exact ⟨_, rfl⟩
    · split
      · rw [if_pos (hrw ‹_›)]; exact ⟨_, rfl⟩
      · exact ⟨_, rfl⟩

/-- A literal made by the parser is visited without an error, unless whitespace of a literal before it is pending. -/
theorem visitLit_total {g : Gen} {l : Lit} (hl : litOk l = true) (hn : g.nextWs = none) :
    ∃ g', visitLit g l = .ok g' := by
  obtain ⟨g', h⟩ := visitLws_total (g := g) hl
  unfold visitLit
  rw [hn, h]
  exact ⟨_, rfl⟩

theorem asks_eq (I : GenInput) (m : Option Wsp) : asks I.ws m = sideOf I m := by
  cases m with
  | none => rfl
  | some m => cases m <;> rfl

theorem asks_next (I : GenInput) (ns : List Node) :
    (ns.head?.map fun n => asks I.ws (leftMark n)) = nextSide I ns none := by
  cases ns with
  | nil => rfl
  | cons n ns => simp [nextSide, asks_eq]

theorem _root_.Askama.Spec.AllNs.mem {chk : Bool → Node → Prop} {b : Bool} : {ns : List Node} → AllNs chk b ns → {n : Node} →
    n ∈ ns → AllN chk b n
  | _ :: _, h, _, .head _ => h.1
  | _ :: _, h, _, .tail _ hm => AllNs.mem h.2 hm

/-- Literals and raw blocks as the parser makes them. -/
def plainOk : Node → Prop
  | .lit l | .raw _ l _ => litOk l = true
  | _ => True

theorem handleNodes_plain {I : GenInput} {rec : Handler} {H : Option Heritage} {ctx : Ctx} {lvl : Level} :
    (ns : List Node) → {g : Gen} → {before : WH} → g.pdiscard = false → NoAdj ns → (∀ n ∈ ns, plain n = true ∧ plainOk n) →
    ((ns.head?.map isLitNode).getD false = true → g.nextWs = none ∧ g.skipWs = before) →
    ∃ (out : List Str) (nw : Option Str) (sk : WH), handleNodes rec I H ctx lvl ns g = .ok ([], { g with pend := g.pend ++ out.map .lit, nextWs := nw, skipWs := sk })
      ∧ out.flatten ++ applyWs sk (nw.getD []) = wsTail (nextSide I ns none) g ++ plainText I.ws before ns
  | [], g, before, _, _, _, _ => ⟨[], g.nextWs, g.skipWs, by simp [handleNodes], by simp [wsTail, nextSide, plainText]⟩
  | n :: ns, g, before, hd, ha, hp, hh => by
    have hp' : ∀ n ∈ ns, plain n = true ∧ plainOk n := fun n h => hp n (List.mem_cons_of_mem _ h)
    obtain ⟨hpl, hok⟩ := hp n (List.mem_cons_self ..)
    cases n with
    | lit l =>
      obtain ⟨hn, hs⟩ := hh rfl
      obtain ⟨g1, h1⟩ := visitLit_total (g := g) (l := l) hok hn
      obtain ⟨out, nw, sk, hg1, -, ht⟩ := visitLit_eq hd hok h1
      have hnl : (ns.head?.map isLitNode).getD false = true → g1.nextWs = none ∧ g1.skipWs = before :=
        fun h => absurd ⟨rfl, h⟩ ha.1
      obtain ⟨out2, nw2, sk2, h2, ht2⟩ := handleNodes_plain (I := I) (rec := rec) (H := H) (ctx := ctx) (lvl := lvl) ns
        (g := g1) (by rw [hg1]; exact hd) ha.2 hp' hnl
      refine ⟨out ++ out2, nw2, sk2, ?_, ?_⟩
      · simp only [handleNodes, handleNode, h1, bind, Except.bind, pure, Except.pure, h2, List.append_nil]
        rw [hg1]
        simp
      · rw [List.flatten_append, List.append_assoc, ht2, wsTail_none hn, ← List.append_assoc, ht, plainText, hs, asks_next]
        simp
    | comment ws c =>
      have hw := handleWs_eq I (g := g) ws hd
      obtain ⟨out2, nw2, sk2, h2, ht2⟩ := handleNodes_plain (I := I) (rec := rec) (H := H) (ctx := ctx) (lvl := lvl) ns
        (g := handleWs I g ws) (before := sideOf I ws.r) (by rw [hw]; exact hd) ha.2 hp' (fun _ => by rw [hw]; exact ⟨rfl, rfl⟩)
      refine ⟨wsLit (applyWs (sideOf I ws.l) (g.nextWs.getD [])) ++ out2, nw2, sk2, ?_, ?_⟩
      · simp only [handleNodes, handleNode, bind, Except.bind, pure, Except.pure, h2, List.append_nil]
        rw [hw]
        simp
      · rw [List.flatten_append, List.append_assoc, ht2, wsTail_none (by rw [hw]), wsLit_flatten]
        simp [plainText, wsTail, nextSide, leftMark, asks_eq]
    | raw ws1 l ws2 =>
      have hw := handleWs_eq I (g := g) ws1 hd
      obtain ⟨g1, h1⟩ := visitLit_total (g := handleWs I g ws1) (l := l) hok (by rw [hw])
      obtain ⟨out, nw, sk, hg1, -, ht⟩ := visitLit_eq (by rw [hw]; exact hd) hok h1
      have hw2 := handleWs_eq I (g := g1) ws2 (by rw [hg1, hw]; exact hd)
      obtain ⟨out2, nw2, sk2, h2, ht2⟩ := handleNodes_plain (I := I) (rec := rec) (H := H) (ctx := ctx) (lvl := lvl) ns
        (g := handleWs I g1 ws2) (before := sideOf I ws2.r) (by rw [hw2, hg1, hw]; exact hd) ha.2 hp'
        (fun _ => by rw [hw2]; exact ⟨rfl, rfl⟩)
      refine ⟨wsLit (applyWs (sideOf I ws1.l) (g.nextWs.getD [])) ++ (out
        ++ (wsLit (applyWs (sideOf I ws2.l) (g1.nextWs.getD [])) ++ out2)), nw2, sk2, ?_, ?_⟩
      · simp only [handleNodes, handleNode, h1, bind, Except.bind, pure, Except.pure, h2, List.append_nil]
        rw [hw2, hg1, hw]
        simp
      · have := ht (some (sideOf I ws2.l))
        simp only [List.flatten_append, List.append_assoc, wsLit_flatten]
        rw [ht2, wsTail_none (by rw [hw2])]
        simp only [List.nil_append, plainText, asks_eq]
        have hsk : (handleWs I g ws1).skipWs = sideOf I ws1.r := by rw [hw]
        rw [hsk] at this
        rw [← this]
        simp [wsTail, nextSide, leftMark]
    | _ => cases hpl

/-- The pending output is written, if it consists of literals. -/
theorem writeBuf_lits {I : GenInput} {g : Gen} {out : List Str} (hp : g.pend = out.map .lit) (hd : g.discard = false) :
    ∃ code, writeBuf I g = .ok (code, { g with pend := [] })
      ∧ fitsList 2 code = true
      ∧ ∀ {U : Type} (W : World U) (ρ : REnv U), execList W ρ code = some (out.flatten, .next, ρ) := by
  cases out with
  | nil =>
    have hp : g.pend = [] := hp
    refine ⟨[], ?_, rfl, fun W ρ => by simp [execList]⟩
    simp only [writeBuf, prepareFormat, hp, List.isEmpty_nil, if_true, bind, Except.bind, pure, Except.pure]
    rw [← hp]
  | cons s out =>
    have hl : g.pend.all Writable.isLit = true := by rw [hp]; simp [Writable.isLit]
    have ht : g.pend.flatMap Writable.litText = (s :: out).flatten := by
      rw [hp]
      generalize s :: out = l
      induction l with
      | nil => rfl
      | cons a l ih => simpa [Writable.litText] using ih
    refine ⟨[.writeLit (s :: out).flatten], ?_, rfl, fun W ρ => by simp [execList, Stmt.exec]⟩
    simp only [writeBuf, prepareFormat, hl, if_true, bind, Except.bind, pure, Except.pure, ht]
    rw [if_neg (by rw [hp]; simp)]
    simp [emit, hd]

/-- The generator on a template of text, comments and raw blocks. -/
theorem generate_plain {I : GenInput} (hI : I.block = none) {ctx : Ctx} (ha : NoAdj ctx.nodes)
    (hp : ∀ n ∈ ctx.nodes, plain n = true ∧ plainOk n) (fuel : Nat) :
    ∃ code, generate I (fuel + 1) none ctx = .ok code
      ∧ ∀ {U : Type} (W : World U), Finishes W code (plainText I.ws .preserve ctx.nodes) := by
  obtain ⟨out, nw, sk, h1, ht⟩ := handleNodes_plain (I := I) (rec := handle I fuel) (H := none) (ctx := ctx) (lvl := .top)
    ctx.nodes (g := Gen.new I .empty 2 false) (before := .preserve) (by simp [Gen.new, hI]) ha hp (fun _ => ⟨rfl, rfl⟩)
  rw [wsTail_none rfl, List.nil_append] at ht
  have hend : ∃ code, handleEnd I .top { Gen.new I .empty 2 false with
      pend := (Gen.new I .empty 2 false).pend ++ out.map .lit, nextWs := nw, skipWs := sk } =
        .ok (code, { Gen.new I .empty 2 false with pend := [], nextWs := none, skipWs := sk })
      ∧ fitsList 2 code = true
      ∧ ∀ {U : Type} (W : World U) (ρ : REnv U), execList W ρ code = some (out.flatten ++ applyWs sk (nw.getD []), .next, ρ) := by
    cases nw with
    | none =>
      obtain ⟨code, h2, hfit, h3⟩ := writeBuf_lits (I := I) (g := { Gen.new I .empty 2 false with
        pend := (Gen.new I .empty 2 false).pend ++ out.map .lit, nextWs := none, skipWs := sk }) (out := out)
        (by simp [Gen.new]) rfl
      refine ⟨code, ?_, hfit, fun W ρ => by rw [h3]; simp⟩
      simp only [handleEnd, if_true, Option.isSome_none, Bool.false_eq_true, if_false, h2]
    | some val =>
      have hside : sideOf I (some (WH.toWsp sk)) = sk := by cases sk <;> rfl
      have hf := flushWs_eq I (g := { Gen.new I .empty 2 false with
        pend := (Gen.new I .empty 2 false).pend ++ out.map .lit, nextWs := some val, skipWs := sk })
        ⟨some (WH.toWsp sk), none⟩ (by simp [Gen.new, hI])
      obtain ⟨code, h2, hfit, h3⟩ := writeBuf_lits (I := I) (g := flushWs I { Gen.new I .empty 2 false with
        pend := (Gen.new I .empty 2 false).pend ++ out.map .lit, nextWs := some val, skipWs := sk }
        ⟨some (WH.toWsp sk), none⟩) (out := out ++ wsLit (applyWs sk val))
        (by rw [hf]; simp [Gen.new, hside]) (by rw [hf]; rfl)
      refine ⟨code, ?_, hfit, fun W ρ => by rw [h3]; simp [wsLit_flatten]⟩
      simp only [handleEnd, if_true, Option.isSome_some, h2]
      rw [hf]
  obtain ⟨code, h2, hfit, h3⟩ := hend
  refine ⟨code, ?_, fun W => ⟨_, by rw [h3, ht]⟩⟩
  simp only [generate, handle, h1, bind, Except.bind, pure, Except.pure, h2, List.nil_append, hfit]
  simp [closeLine, dedent, Gen.new]

/-! ## Collecting the templates -/

theorem useNodes_plain {ld : Loader} {path : Str} {top : Bool} : (ns : List Node) → {st : UseSt} →
    {nested : List (List Node)} → (∀ n ∈ ns, plain n = true) → useNodes ld path top ns st nested = .ok (st, nested)
  | [], _, _, _ => rfl
  | n :: ns, st, nested, hp => by
    have h1 := hp n (List.mem_cons_self ..)
    have h2 := useNodes_plain (ld := ld) (path := path) (top := top) ns (st := st) (nested := nested)
      (fun n h => hp n (List.mem_cons_of_mem _ h))
    cases n with
    | lit l => exact h2
    | comment w c => exact h2
    | raw w l w2 => exact h2
    | _ => cases h1

theorem ctxNodes_plain {find : Str → Option Str} {top : Bool} : (ns : List Node) → {st : CtxSt} →
    (∀ n ∈ ns, plain n = true) → ctxNodes find top ns st = .ok st
  | [], _, _ => rfl
  | n :: ns, st, hp => by
    have h1 := hp n (List.mem_cons_self ..)
    have h2 := ctxNodes_plain (find := find) (top := top) ns (st := st) (fun n h => hp n (List.mem_cons_of_mem _ h))
    cases n with
    | lit l => exact h2
    | comment w c => exact h2
    | raw w l w2 => exact h2
    | _ => cases h1

theorem contextNew_plain {find : Str → Option Str} {ns : List Node} (hp : ∀ n ∈ ns, plain n = true) :
    contextNew find ns = .ok { nodes := ns, extends_ := none, blocks := [], macros := [], imports := [] } := by
  unfold contextNew
  simp only [ctxLoop, ctxNodes_plain ns hp, bind, Except.bind, pure, Except.pure]

theorem findUsed_plain {ld : Loader} {path src : Str} {ns : List Node} (h : ld.parse src = some ns)
    (hp : ∀ n ∈ ns, plain n = true) (fuel : Nat) : findUsedTemplates ld (fuel + 1) path src = .ok [(path, ns)] := by
  simp only [findUsedTemplates, checkLoop, useTemplate, h, useLoop, useNodes_plain ns hp, bind, Except.bind, pure,
    Except.pure]

/-- A template of text, comments and raw blocks compiles, and the code renders its text. -/
theorem build_plain {env : DeriveEnv} {c : Config} (hc : ∀ e ∈ c.syntaxes, e.2.CommentOk) {ident : Str}
    {args : TemplateArgs} (hb : args.block = none) {t : TemplateInput}
    (ht : TemplateInput.new env.files env.guess c ident args = .ok t) {src : Str} (hsrc : mainSource env t = .ok src)
    {ns : List Node} (hns : parseTemplate ⟨t.syn, env.isLower⟩ src = .ok ns) (hp : ∀ n ∈ ns, plain n = true) (fuel : Nat) :
    ∃ code, buildTemplate env c ident args (fuel + 1) = .ok code
      ∧ ∀ {U : Type} (W : World U), Finishes W code (plainText c.whitespace .preserve ns) := by
  obtain ⟨n, hn⟩ := Props.newInput_syntax ht
  obtain ⟨ha, b, hok⟩ := parse_parsed (hc _ (assoc_pair hn)) hns
  have hpl : ∀ n ∈ ns, plain n = true ∧ plainOk n := by
    intro n hm
    refine ⟨hp n hm, ?_⟩
    have := AllNs.mem hok hm
    cases n with
    | lit l => exact litOk_parsed this.2.2.2.2.1.1
    | raw w l w2 => exact litOk_parsed this.2.2.2.2.1
    | _ => exact trivial
  have hblock : t.block = none := (Props.newInput_block ht).trans hb
  have hparse : (env.loader c t.syn).parse src = some ns := by
    simp only [DeriveEnv.loader, parseNodes, hns]
  obtain ⟨code, h1, h2⟩ := generate_plain (I := genInput env c t
    [(t.path, { nodes := ns, extends_ := none, blocks := [], macros := [], imports := [] })]) hblock
    (ctx := { nodes := ns, extends_ := none, blocks := [], macros := [], imports := [] }) ha hpl fuel
  refine ⟨code, ?_, fun W => h2 W⟩
  simp only [buildTemplate, ht, hsrc, findUsed_plain hparse hp, dedupKeys, makeContexts, contextNew_plain hp, bind,
    Except.bind, pure, Except.pure, List.contains_nil, Bool.false_eq_true, if_false]
  have hassoc : ∀ x : Ctx, assoc [(t.path, x)] t.path = some x := by simp [assoc]
  simp only [hassoc, heritageOf, List.isEmpty_nil, Option.isSome_none, Bool.or_self, Bool.not_true,
    Bool.false_eq_true, if_false, h1]

end Askama
