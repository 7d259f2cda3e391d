import Verif.Lemmas.Excerpt
import Verif.Props.Language

/-!
# Fragments

C47: a template of which only one block is asked for renders to the text of this block.
-/

namespace Askama.Props

open Askama Askama.Spec

section

variable {U : Type} {W : World U}

theorem mute_around {c1 mid rest : List Stmt} (h1 : Mute W false c1) (h2 : Mute W false rest) {ρ ρ' : REnv U} {s : Str}
    (h : execList W ρ (c1 ++ mid ++ rest) = some (s, .next, ρ')) :
    ∃ ρ1 ρ2, ρ1.item = ρ.item ∧ ((∀ n ∈ ρ.names, pathLike n = false) → ∀ n ∈ ρ1.names, pathLike n = false)
      ∧ execList W ρ1 mid = some (s, .next, ρ2) := by
  rw [List.append_assoc, execList_append] at h
  cases e1 : execList W ρ c1 with
  | none => rw [e1] at h; simp [seqE] at h
  | some x =>
    obtain ⟨o, sig, ρ1⟩ := x
    obtain ⟨q1, q2⟩ := h1.2.1 _ _ e1
    dsimp only at q1 q2
    subst q1
    have q3 : (∀ n ∈ ρ.names, pathLike n = false) → ∀ n ∈ ρ1.names, pathLike n = false := by
      intro hρ n hn
      obtain ⟨new, g1, g2⟩ := execList_grows _ _ _ _ _ e1
      rw [g1] at hn
      rcases List.mem_append.mp hn with hn | hn
      · obtain ⟨s', m1, m2⟩ := g2 n hn
        exact h1.2.2 s' m1 n m2
      · exact hρ n hn
    rw [e1] at h
    cases sig with
    | brk => simp [seqE] at h
    | cont => simp [seqE] at h
    | next =>
      rw [seqE_nil_left, execList_append] at h
      refine ⟨ρ1, ?_⟩
      cases e2 : execList W ρ1 mid with
      | none => rw [e2] at h; simp [seqE] at h
      | some y =>
        obtain ⟨o2, sig2, ρ2⟩ := y
        rw [e2] at h
        cases sig2 with
        | brk => simp [seqE] at h
        | cont => simp [seqE] at h
        | next =>
          refine ⟨ρ2, q2, q3, ?_⟩
          cases e3 : execList W ρ2 rest with
          | none => simp [seqE, e3] at h
          | some z =>
            obtain ⟨o3, sig3, ρ3⟩ := z
            have := (h2.2.1 _ _ e3).1
            dsimp only at this
            subst this
            simp [seqE, e3] at h
            obtain ⟨rfl, -, -⟩ := h
            rfl

/-- The parts of the code of a fragment. -/
theorem excerpt_code (hs : Stable W) {code : List Stmt} {w : Whole} {b o : Str} {trail : List Str} {own : Ctx} (h : Excerpt code w b)
    (hm : b ∈ trail) (hl' : w.Leads b trail o own) (hf : w.FaithfulIn own b) (ha : w.Alone trail) {pre ns post : List Node}
    {ws1 ws2 : Ws} (hr : w.root.nodes = pre ++ .blockDef ws1 o ns ws2 :: post) (hpre : LacksAll trail pre)
    (hpost : LacksAll trail post)
    (hk : keepsAll pre = true) (hset : settles post = true) :
    ∃ bound, ∀ m, bound ≤ m → ∃ c1 mid rest, code = c1 ++ mid ++ rest ∧ Mute W false c1 ∧ Mute W false rest
      ∧ (pre.all vanishes = true → c1 = []) ∧ (post.all vanishes = true → rest = [])
      ∧ ∀ (ρ : REnv U) s, ρ.item = none → (∀ n ∈ ρ.names, pathLike n = false) → ((∃ ρ', execList W ρ mid = some (s, .next, ρ'))
        ↔ ∃ st, runBlock w.input (run W w.input m) w.chain own ⟨[], [], none⟩ b 0 = some (some s, .next, st)) := by
  obtain ⟨isWs, krate, root, raw, ws, c, env, ident, args, hc, hb, ⟨n, hcomp⟩, hl⟩ := h
  have hgood : ∃ k, ∀ m, k ≤ m → w.core = true
      ∨ (goodBlock (good w.input m) w.chain own ⟨[], [], [], [], []⟩ b 0).isSome = true := by
    rcases hf with hf | ⟨k, hf⟩
    · exact ⟨0, fun _ _ => .inl hf⟩
    · exact ⟨k, fun m hm => .inr (goodBlock_mono hm hf)⟩
  obtain ⟨k, hgood⟩ := hgood
  have hbm : ∀ i, n ≤ i → buildTemplate env c ident args i = .ok code := by
    intro i hi
    rcases buildTemplate_mono (env := env) (c := c) (ident := ident) (args := args) hi with e | e
    · rw [hcomp] at e; cases e
    · rw [← e]; exact hcomp
  have hw : ∀ {i : Nat} {w' : Whole}, load env c ident args i = some w' → w' = w := by
    intro i w' h1
    obtain ⟨k, hl⟩ := hl
    have e1 := failsOr_some (load_mono (env := env) (c := c) (ident := ident) (args := args) (Nat.le_max_left i k)) h1
    have e2 := failsOr_some (load_mono (env := env) (c := c) (ident := ident) (args := args) (Nat.le_max_right i k)) hl
    exact Option.some.inj (e1.symm.trans e2)
  have hreach : ∃ k', ∀ H, HChain H w.chain → Reached (Other w.input trail) H b w.root k' o own := by
    obtain ⟨w', H, t, h1, h2, h3, h4, h5, -⟩ := build_loads hcomp
    obtain rfl := hw h1
    obtain ⟨a, e1, -, e2⟩ := chainOf_ancestry (load_chain h1)
    refine leads_reached (fun name k c d hd => ?_) (fun p x hp => ⟨_, h5 p x hp⟩) hl'
    obtain ⟨l, r, e3, -⟩ := (e2 name k c d).mp hd
    exact ancestry_all e1 ⟨_, h4⟩ c (by rw [e3]; simp)
  obtain ⟨k', hreach⟩ := hreach
  refine ⟨max n k, fun m hnm => ?_⟩
  obtain ⟨w', H, t, h1, h2, h3, h4, h5, h6, h7, h8, h9⟩ := build_loads (hbm (m + k' + 1)
    (Nat.le_trans (Nat.le_trans (Nat.le_max_left n k) hnm) (by omega)))
  obtain rfl := hw h1
  have hI : w'.input.block = some b := by rw [h3]; exact (newInput_block h2).trans hb
  have hx : ∀ p x, assoc w'.input.contexts p = some x → ∃ find, contextNew find x.nodes = .ok x :=
    fun p x hp => ⟨_, h5 p x hp⟩
  have hbl : AllBlocksOk w'.input := fun p x hp => contextNew_blocks (h5 p x hp)
  have hch : chainOf w'.input.contexts w'.ctx = some w'.chain := load_chain h1
  have hA := alone_away hI hm hx ha
  have hHs : ∀ h, H = some h → HSafe (Other w'.input trail) trail h := by
    intro hh e
    subst e
    unfold heritageOf at h6
    split at h6
    · obtain ⟨h', e1, h6⟩ := except_bind h6
      split at h6
      · split at h6
        · cases h6
        · cases h6; exact heritageNew_safe hA.ctx (hA.ctx _ _ h4) e1
      · cases h6; exact heritageNew_safe hA.ctx (hA.ctx _ _ h4) e1
    · cases h6
  have hrs : CtxSafe (Other w'.input trail) trail (rootOf H w'.ctx) := by
    cases H with
    | none => exact hA.ctx _ _ h4
    | some h => exact (hHs h rfl).1
  have hroot : ∃ q, assoc w'.input.contexts q = some w'.root := by
    obtain ⟨a, e1, e2, -⟩ := chainOf_ancestry hch
    unfold Whole.root
    rw [e2]
    rcases ancestry_mem e1 with e | e
    · rw [e]; exact ⟨_, h4⟩
    · exact e
  obtain ⟨q, hq⟩ := hroot
  have hin : ∀ l : List Node, LacksAll trail l → (∀ x ∈ partsL l, x ∈ partsL w'.root.nodes) →
      Every (Other w'.input trail) l := fun l hl hsub => lacks_every hl fun x hx => ⟨q, _, hq, hsub x hx⟩
  have e1 := hin pre hpre (fun x hx => by rw [hr]; exact (partsL_append _ _ _).mpr (.inl hx))
  have e2 := hin post hpost (fun x hx => by
    rw [hr]; refine (partsL_append _ _ _).mpr (.inr ?_); simp only [partsL, List.mem_append]; exact .inr hx)
  unfold generate at h9
  obtain ⟨⟨s0, g⟩, h10, h9⟩ := except_bind h9
  replace h9 := (fits_ok h9).2
  obtain ⟨g2, -, h9⟩ := except_bind h9
  obtain ⟨g3, -, h9⟩ := except_bind h9
  cases h9
  change Gen.handle w'.input (m + k' + 1) H (rootOf H w'.ctx) (rootOf H w'.ctx).nodes .top (Gen.new w'.input .empty 2 false)
    = .ok (code, g) at h10
  rw [h8] at h10 hrs
  change Gen.handle w'.input (m + k' + 1) H w'.root w'.root.nodes .top (Gen.new w'.input .empty 2 false) = .ok (code, g) at h10
  rw [hr] at h10
  have hhalf : Half (Other w'.input trail) H false (Gen.new w'.input .empty 2 false) :=
    ⟨by simp [Gen.new, hI], rfl, fun n k e => by (cases e), by simp [Gen.new, MapChain.empty]⟩
  obtain ⟨c1, ga, outer, c2, gb, wr, g0, gw, rest, d1, d2, d3, d4, d5, d6, d7, d8, d9, d10, d11, d12, d13, d14, d15, d16⟩ :=
    handle_fragment (W := W) (handle_hush hA) hA hHs hrs (hreach H h7) e1 e2 hk hset hhalf rfl rfl rfl h10
  have hgb : ∃ S', goodBlock (good w'.input m) w'.chain own ⟨[], [], [], [], []⟩ b 0 = some S' := by
    rcases hgood m (Nat.le_trans (Nat.le_max_right n k) hnm) with hcore | hg
    · have hfit : AllFit w'.input := by
        intro p x hpx
        obtain ⟨find, hf⟩ := hx p x hpx
        refine contextNew_fit hf ⟨?_, load_parsed (config_comments hc) h1 p x hpx⟩
        exact List.all_eq_true.mp hcore _ (assoc_pair hpx)
      obtain ⟨q1, q2, q3⟩ := chain_fit hfit (hfit _ _ h4) hch
      obtain ⟨cur, S', e3, e4, -⟩ := goodBlock_fit (rec := Gen.handle w'.input m) (gd := good w'.input m)
        (ctx := own) (handle_fit hbl hfit m) h7 q1 (S := ⟨[], [], [], [], []⟩)
        ⟨rfl, rfl, fun _ => rfl⟩ d3 d7
      rw [d16] at e3
      cases e3
      exact ⟨S', e4⟩
    · exact Option.isSome_iff_exists.mp hg
  obtain ⟨S', hS⟩ := hgb
  refine ⟨c1, c2 ++ wr, rest, d15, d1, d13, d2, d14, fun ρ s hi hρ => ?_⟩
  exact fragment_text hs (handle_ok hs hbl m) (good_keeps _ m) (Gen.handle_frame m) h7 d7 hS d3 d4 d5
    (by rw [d6]; exact MapChain.get_empty) d16 d8 d9 d10 d11 d12 ρ hi hρ s

/-- C47: if a block stands in the layout or inside of other blocks, and in no other place, what its fragment writes is the
text of the block. The nodes before it must not declare variables at its level, and a `let` or filter block must not be
the next after it that makes code (`C47_false_filter`), inside of another block nothing that makes code (`C47_false`,
`C47_false_error`); the generator must be faithful on the block. Missing is also that the fragment reaches its end if
what is left out would fail (the conditions of `if` and loops are evaluated). -/
theorem C47_fragment_partial (hs : Stable W) {code : List Stmt} {w : Whole} {b o : Str} {trail : List Str} {own : Ctx}
    (h : Excerpt code w b) (hm : b ∈ trail) (hl : w.Leads b trail o own) (hf : w.FaithfulIn own b) (ha : w.Alone trail)
    {pre ns post : List Node} {ws1 ws2 : Ws} (hr : w.root.nodes = pre ++ .blockDef ws1 o ns ws2 :: post)
    (hpre : LacksAll trail pre) (hpost : LacksAll trail post) (hk : keepsAll pre = true) (hset : settles post = true)
    {s : Str} (hfin : Finishes W code s) : ∃ st, BlockMakes W w.full.input (w.full.startIn own) b 0 s .next st := by
  obtain ⟨n, key⟩ := excerpt_code hs h hm hl hf ha hr hpre hpost hk hset
  obtain ⟨c1, mid, rest, rfl, m1, m2, -, -, m3⟩ := key n (Nat.le_refl _)
  obtain ⟨ρ, e⟩ := hfin
  obtain ⟨ρ1, ρ2, i, i2, e⟩ := mute_around m1 m2 e
  obtain ⟨st, e⟩ := (m3 ρ1 s i (i2 (by intro n hn; cases hn))).mp ⟨ρ2, e⟩
  refine ⟨st, runBlock_iff.mp ⟨n, ?_⟩⟩
  show runBlock w.input (run W { w.input with block := none } n) w.chain own ⟨[], [], none⟩ b 0 = _
  rw [run_block]
  exact e

theorem vanishes_keeps : (ns : List Node) → ns.all vanishes = true → keepsAll ns = true
  | [], _ => rfl
  | n :: ns, h => by
    simp only [List.all_cons, Bool.and_eq_true] at h
    simp only [keepsAll, Bool.and_eq_true]
    refine ⟨?_, vanishes_keeps ns h.2⟩
    cases n <;> first | rfl | (simp [vanishes, inert] at h; done)

theorem vanishes_settles : (ns : List Node) → ns.all vanishes = true → settles ns = true
  | [], _ => rfl
  | n :: ns, h => by
    simp only [List.all_cons, Bool.and_eq_true] at h
    unfold settles
    split
    · exact vanishes_settles ns h.2
    · rename_i hi
      cases n <;> first | rfl | (simp [vanishes, inert] at h; done) | (simp [inert] at hi; done)

/-- C47, if the layout has only text, expressions, comments, definitions and blocks: the fragment writes `s` and reaches
its end exactly if `s` is the text of the block. -/
theorem C47_fragment_exact (hs : Stable W) {code : List Stmt} {w : Whole} {b o : Str} {trail : List Str} {own : Ctx}
    (h : Excerpt code w b) (hm : b ∈ trail) (hl : w.Leads b trail o own) (hf : w.FaithfulIn own b) (ha : w.Alone trail)
    {pre ns post : List Node} {ws1 ws2 : Ws} (hr : w.root.nodes = pre ++ .blockDef ws1 o ns ws2 :: post)
    (hpre : LacksAll trail pre) (hpost : LacksAll trail post)
    (hv : pre.all vanishes = true) (hv' : post.all vanishes = true) (s : Str) :
    Finishes W code s ↔ ∃ st, BlockMakes W w.full.input (w.full.startIn own) b 0 s .next st := by
  refine ⟨fun hfin => C47_fragment_partial hs h hm hl hf ha hr hpre hpost (vanishes_keeps _ hv) (vanishes_settles _ hv') hfin, ?_⟩
  rintro ⟨st, hmk⟩
  obtain ⟨n, key⟩ := excerpt_code hs h hm hl hf ha hr hpre hpost (vanishes_keeps _ hv) (vanishes_settles _ hv')
  obtain ⟨f, e⟩ := runBlock_iff.mpr hmk
  change runBlock w.input (run W { w.input with block := none } f) w.chain own ⟨[], [], none⟩ b 0 = _ at e
  rw [run_block] at e
  obtain ⟨c1, mid, rest, rfl, -, -, m1, m2, m3⟩ := key (max n f) (Nat.le_max_left _ _)
  rw [m1 hv, m2 hv']
  have e' : runBlock w.input (run W w.input (max n f)) w.chain own ⟨[], [], none⟩ b 0 = some (some s, .next, st) := by
    unfold runBlock at e ⊢
    split at e
    · cases e
    · obtain ⟨y, h2, h3⟩ := Option.map_eq_some_iff.mp e
      rw [failsOr_some (run_mono W w.input (Nat.le_max_right n f) _ _ _ _ _ _ _) h2]
      simp only [Option.map_some, h3]
  obtain ⟨ρ', e2⟩ := (m3 ⟨[], none, false, []⟩ s rfl (by intro n hn; cases hn)).mpr ⟨st, e'⟩
  exact ⟨ρ', by simpa using e2⟩

theorem goodNodes_anyBlock (I : GenInput) (o : Option Str) (rec : GoodRec) (chain : List Ctx) (ctx : Ctx)
    (sup : Option (Str × Nat)) : (ns : List Node) → (S : Sets) →
    goodNodes { I with block := o } rec chain ctx sup S ns = goodNodes I rec chain ctx sup S ns
  | [], _ => rfl
  | n :: ns, S => by
    have h : goodNode { I with block := o } rec chain ctx sup S n = goodNode I rec chain ctx sup S n := by cases n <;> rfl
    simp only [goodNodes, h, goodNodes_anyBlock I o rec chain ctx sup ns]

theorem good_anyBlock (I : GenInput) (o : Option Str) : (fuel : Nat) → good { I with block := o } fuel = good I fuel
  | 0 => rfl
  | fuel + 1 => by
    funext chain ctx sup S ns
    simp only [good, good_anyBlock I o fuel, goodNodes_anyBlock]

theorem full_faithful {w : Whole} {own : Ctx} {b : Str} (h : w.full.FaithfulIn own b) : w.FaithfulIn own b := by
  rcases h with h | ⟨fuel, h⟩
  · exact .inl h
  · exact .inr ⟨fuel, (congrArg (fun g => (goodBlock g w.chain own ⟨[], [], [], [], []⟩ b 0).isSome)
      (good_anyBlock w.input none fuel)).symm.trans h⟩

theorem full_leads {w : Whole} {b o : Str} {trail : List Str} {own : Ctx} (h : w.Leads b trail o own) :
    w.full.Leads b trail o own := by
  cases h with
  | itself => exact .itself
  | inside h1 h2 h3 h4 => exact .inside h1 h2 h3 h4

/-- C47: the text of the fragment is what the block contributes to the text of the whole template: it is between the texts
of the nodes before and after the block. -/
theorem C47_part_of_whole_partial (hs : Stable W) {code full : List Stmt} {w : Whole} {b o : Str} {trail : List Str}
    {own : Ctx} (h : Excerpt code w b) (h0 : Translates full w.full) (hm : b ∈ trail) (hl : w.Leads b trail o own)
    (ha : w.Alone trail) {pre ns post : List Node} {ws1 ws2 : Ws}
    (hr : w.root.nodes = pre ++ .blockDef ws1 o ns ws2 :: post) (hpre : LacksAll trail pre) (hpost : LacksAll trail post)
    (hk : keepsAll pre = true) (hset : settles post = true) {s t : Str} (hfin : Finishes W code s)
    (hfull : Finishes W full t) :
    HasPart W w.full.input b (· = s) w.full.start w.full.root.nodes t := by
  have hf : w.FaithfulIn own b := full_faithful (faithful_block (w := w.full) hr hk (full_leads hl) h0.faithful)
  obtain ⟨st, hb⟩ := C47_fragment_partial hs h hm hl hf ha hr hpre hpost hk hset hfin
  exact leads_part (full_leads hl) hr (fun m st' hm' => blockMakes_det hm' hb) ((translates_means hs h0 t).mp hfull)

/-- C47, if the layout has only text, expressions, comments, definitions and blocks: if the whole template renders, so
does the fragment, and its text is what the block contributes to the text of the whole. -/
theorem C47_part_exact (hs : Stable W) {code full : List Stmt} {w : Whole} {b o : Str} {trail : List Str}
    {own : Ctx} (h : Excerpt code w b) (h0 : Translates full w.full) (hm : b ∈ trail) (hl : w.Leads b trail o own)
    (ha : w.Alone trail) {pre ns post : List Node} {ws1 ws2 : Ws}
    (hr : w.root.nodes = pre ++ .blockDef ws1 o ns ws2 :: post) (hpre : LacksAll trail pre) (hpost : LacksAll trail post)
    (hv : pre.all vanishes = true) (hv' : post.all vanishes = true) {t : Str} (hfull : Finishes W full t) :
    HasPart W w.full.input b (Finishes W code) w.full.start w.full.root.nodes t := by
  have hf : w.FaithfulIn own b :=
    full_faithful (faithful_block (w := w.full) hr (vanishes_keeps _ hv) (full_leads hl) h0.faithful)
  exact leads_part (full_leads hl) hr
    (fun m st hm' => (C47_fragment_exact hs h hm hl hf ha hr hpre hpost hv hv' m).mpr ⟨st, hm'⟩)
    ((translates_means hs h0 t).mp hfull)

/-! ## An example -/

theorem new_full {fs : Files} {guess : Str → Option Str} {c : Config} {ident : Str} {args : TemplateArgs} :
    TemplateInput.new fs guess c ident { args with block := none }
      = (TemplateInput.new fs guess c ident args).map fun t => { t with block := none } := by
  unfold TemplateInput.new
  dsimp only
  cases args.source with
  | none => rfl
  | some src =>
    dsimp only
    cases templatePath fs c ident args.ext src with
    | error e => rfl
    | ok p =>
      cases templateSyntax c args.syn with
      | error e => rfl
      | ok x =>
        dsimp only [Bind.bind, Except.bind]
        cases selectEscaper c.escapers (args.escaping.getD ((Path.extension p).getD [])) <;> rfl

/-- The same templates are loaded for a fragment and for the whole. -/
theorem load_full {env : DeriveEnv} {c : Config} {ident : Str} {args : TemplateArgs} {fuel : Nat} {w : Whole}
    (h : load env c ident args fuel = some w) : load env c ident { args with block := none } fuel = some w.full := by
  unfold load at h ⊢
  rw [new_full]
  split at h
  · cases h
  · rename_i t ht
    rw [ht]
    dsimp only [Except.map]
    split at h
    · cases h
    · rename_i src hsrc
      have e : mainSource env { t with block := none } = mainSource env t := rfl
      rw [e, hsrc]
      dsimp only
      split at h
      · cases h
      · rename_i ts hts
        split at h
        · cases h
        · rename_i cs hcs
          obtain ⟨x, h1, h⟩ := Option.bind_eq_some_iff.mp h
          obtain ⟨l, h2, rfl⟩ := Option.map_eq_some_iff.mp h
          rw [h1]
          dsimp only [Option.bind]
          rw [h2]
          rfl

/-- `Lacks` as a test. -/
def lacksTest (b : Str) (ns : List Node) : Bool := (partsL ns).all fun n => !declares b n

theorem lacksTest_sound {b : Str} {ns : List Node} (h : lacksTest b ns = true) : Lacks b ns := fun n hn => by
  simpa using List.all_eq_true.mp h n hn

/-- `LacksAll` as a test. -/
def lacksAllTest (trail : List Str) (ns : List Node) : Bool := trail.all fun b => lacksTest b ns

theorem lacksAllTest_sound {trail : List Str} {ns : List Node} (h : lacksAllTest trail ns = true) : LacksAll trail ns :=
  fun b hb => lacksTest_sound (List.all_eq_true.mp h b hb)

/-- `Whole.Alone` as a test. -/
def aloneTest (w : Whole) (trail : List Str) : Bool :=
  w.input.contexts.all fun e => (partsL e.2.nodes).all fun
    | .blockDef _ name ns _ => trail.contains name || lacksAllTest trail ns
    | .macro _ _ _ ns _ => lacksAllTest trail ns
    | .include _ path =>
      ((w.input.find path).bind (assoc w.input.contexts)).all fun x =>
        match chainOf w.input.contexts x with
        | none => false
        | some l => lacksAllTest trail (l.getLastD x).nodes
    | .let_ _ t _ => lowerNames t
    | _ => true

theorem ancestry_det {contexts : List (Str × Ctx)} {c : Ctx} {a : List Ctx} (h : Ancestry contexts c a) :
    ∀ {a'}, Ancestry contexts c a' → a = a' := by
  induction h with
  | root h =>
    intro a' h'
    cases h' with
    | root _ => rfl
    | child h1 _ _ => rw [h] at h1; cases h1
  | child h1 h2 _ ih =>
    intro a' h'
    cases h' with
    | root h => rw [h] at h1; cases h1
    | child h3 h4 h5 =>
      rw [h3] at h1
      cases h1
      rw [h4] at h2
      cases h2
      rw [ih h5]

theorem aloneTest_sound {w : Whole} {trail : List Str} (h : aloneTest w trail = true) : w.Alone trail := by
  have key : ∀ p c, assoc w.input.contexts p = some c → ∀ n ∈ partsL c.nodes, _ :=
    fun p c hc n hn => List.all_eq_true.mp (List.all_eq_true.mp h _ (assoc_pair hc)) n hn
  refine ⟨fun p c hc ws1 name ns ws2 hn hb => ?_, fun p c hc ws1 name args ns ws2 hn => ?_,
    fun p c hc ws path hn q x a hq hx ha => ?_, fun p c hc ws t v hn => key p c hc _ hn⟩
  · have := key p c hc _ hn
    simp only [Bool.or_eq_true, List.contains_iff_mem] at this
    exact lacksAllTest_sound (this.resolve_left hb)
  · exact lacksAllTest_sound (key p c hc _ hn)
  · have := key p c hc _ hn
    simp only [hq, Option.bind_some, hx, Option.all_some] at this
    split at this
    · cases this
    · rename_i l hl
      obtain ⟨a', h1, h2, -⟩ := chainOf_ancestry hl
      rw [ancestry_det ha h1, ← h2]
      exact lacksAllTest_sound this

/-- The nodes before the first block of the trail, its name, and the nodes after it. -/
def cutAt (trail : List Str) : List Node → Option (List Node × Str × List Node)
  | [] => none
  | n :: ns =>
    match n with
    | .blockDef _ o _ _ => if trail.contains o then some ([], o, ns) else (cutAt trail ns).map fun x => (n :: x.1, x.2)
    | _ => (cutAt trail ns).map fun x => (n :: x.1, x.2)

theorem cutAt_sound {trail : List Str} : {ns pre post : List Node} → {o : Str} → cutAt trail ns = some (pre, o, post) →
    ∃ ws1 body ws2, ns = pre ++ .blockDef ws1 o body ws2 :: post
  | [], _, _, _, h => by cases h
  | n :: ns, pre, post, o, h => by
    have key : (cutAt trail ns).map (fun x => (n :: x.1, x.2)) = some (pre, o, post) →
        ∃ ws1 body ws2, n :: ns = pre ++ .blockDef ws1 o body ws2 :: post := by
      intro h
      obtain ⟨⟨pre', o', post'⟩, h1, h2⟩ := Option.map_eq_some_iff.mp h
      cases h2
      obtain ⟨ws1, body, ws2, rfl⟩ := cutAt_sound h1
      exact ⟨ws1, body, ws2, rfl⟩
    unfold cutAt at h
    split at h
    · split at h
      · cases h; exact ⟨_, _, _, rfl⟩
      · exact key h
    · exact key h

/-- `Inside` as a test; it gives the template of the nodes among which the block stands. -/
def insideTest (chain : List Ctx) (b : Str) (trail : List Str) : Nat → Ctx → List Node → Option Ctx
  | 0, _, _ => none
  | fuel + 1, ctx, ns =>
    match cutAt trail ns with
    | none => none
    | some (pre, o, post) =>
      if lacksAllTest trail pre && keepsAll pre && post.all inert then
        if o = b then some ctx
        else match blockDefs chain o with
          | [] => none
          | (c, d) :: rest =>
            if rest.all (fun x => lacksAllTest trail x.2.nodes) then
              insideTest chain b trail fuel (withMacrosOf c ctx) d.nodes
            else none
      else none

theorem defs_rest {chain : List Ctx} {trail : List Str} {o : Str} {x : Ctx × BlockDefn} {rest : List (Ctx × BlockDefn)}
    (h : blockDefs chain o = x :: rest) (hr : rest.all (fun x => lacksAllTest trail x.2.nodes) = true) :
    Defines chain o 0 x.1 x.2 ∧ ∀ k c' d', Defines chain o (k + 1) c' d' → LacksAll trail d'.nodes := by
  refine ⟨(blockDefs_iff _).mp (by rw [h]; rfl), fun k c' d' hd => ?_⟩
  have := (blockDefs_iff _).mpr hd
  rw [h, List.getElem?_cons_succ] at this
  exact lacksAllTest_sound (List.all_eq_true.mp hr _ (List.mem_of_getElem? this))

theorem insideTest_sound {chain : List Ctx} {b : Str} {trail : List Str} : {fuel : Nat} → {ctx own : Ctx} →
    {ns : List Node} → insideTest chain b trail fuel ctx ns = some own → Inside chain b trail ctx ns own
  | 0, _, _, _, h => by cases h
  | fuel + 1, ctx, own, ns, h => by
    unfold insideTest at h
    split at h
    · cases h
    · rename_i pre o post hcut
      obtain ⟨ws1, body, ws2, rfl⟩ := cutAt_sound hcut
      split at h
      · rename_i hc
        simp only [Bool.and_eq_true] at hc
        split at h
        · rename_i he
          subst he
          cases h
          exact .here (lacksAllTest_sound hc.1.1) hc.1.2 hc.2
        · rename_i he
          split at h
          · cases h
          · rename_i c d rest hdefs
            split at h
            · rename_i hrest
              obtain ⟨q1, q2⟩ := defs_rest hdefs hrest
              exact .under (lacksAllTest_sound hc.1.1) hc.1.2 hc.2 he q1 q2 (insideTest_sound h)
            · cases h
      · cases h

/-- `Whole.Leads` as a test. -/
def leadsTest (w : Whole) (b : Str) (trail : List Str) (o : Str) : Option Ctx :=
  if o = b then some w.root
  else match blockDefs w.chain o with
    | [] => none
    | (c, d) :: rest =>
      if rest.all (fun x => lacksAllTest trail x.2.nodes) then
        insideTest w.chain b trail 50 (withMacrosOf c w.root) d.nodes
      else none

theorem leadsTest_sound {w : Whole} {b : Str} {trail : List Str} {o : Str} {own : Ctx}
    (h : leadsTest w b trail o = some own) : w.Leads b trail o own := by
  unfold leadsTest at h
  split at h
  · rename_i he
    subst he
    cases h
    exact .itself
  · rename_i he
    split at h
    · cases h
    · rename_i c d rest hdefs
      split at h
      · rename_i hrest
        obtain ⟨q1, q2⟩ := defs_rest hdefs hrest
        exact .inside he q1 q2 (insideTest_sound h)
      · cases h

/-- A template with a layout of all kinds of nodes, one with a layout of text, expressions and blocks, and one whose block
has another block in it. -/
def partSample : List (Str × Str) :=
  [(c!"t/a.html", c!"{% extends \"base.html\" %}{% block main %}new {% call super() %}{% endblock %}"),
   (c!"t/base.html", c!"<p>{% if x == y %}same{% else %}{{ x }}{% endif %}{% filter upper %}f{% endfilter %} {%- block main %}[{{ type }}]{% endblock ~%}\n {% include \"foot.html\" %}{% for i in [1] %}{{ i }}{% endfor %}{% let z = x %}{% block last %}l{% endblock %}"),
   (c!"t/foot.html", c!"{% macro m(a) %}{{ a }}{% endmacro %}foot{% call m(1) %}"),
   (c!"t/b.html", c!"{% extends \"plain.html\" %}{% block main %}new {% call super() %}{% endblock %}"),
   (c!"t/plain.html", c!"<p>{% block first %}{% if x == y %}same{% endif %}{% endblock %}{{ x }} {%- block main %}[{{ type }}]{% endblock ~%}\n {# no #}{{ y }}"),
   (c!"t/c.html", c!"{% extends \"wide.html\" %}{% block outer %}c {% for i in [1] %}{{ x }}{% endfor %}{% block mid %}<{% block main %}{{ self.x }}{% for i in [1, 2] %}{{ i }}{% endfor %}.{% endblock %}>{% endblock %}{{ y }}{% endblock %}"),
   (c!"t/wide.html", c!"{{ x }}{% block outer %}{% endblock %} end")]

/-- The tests of all conditions of the theorems. -/
def partTest (w : Whole) (trail : List Str) : Option Bool :=
  match cutAt trail w.root.nodes with
  | none => none
  | some (pre, o, post) =>
    if aloneTest w trail && lacksAllTest trail pre && lacksAllTest trail post && keepsAll pre && settles post && w.full.good 50
      && (leadsTest w c!"main" trail o).isSome then some (pre.all vanishes && post.all vanishes)
    else none

/-- A fragment and its whole as in the theorems above. -/
theorem part_sample {path frag text : Str} {trail : List Str} {van : Bool} (hm : trail.contains c!"main" = true)
    (h1 : (buildTemplate (toyEnv partSample) (toyConfig .preserve) c!"T" (toyArgs path (some c!"main")) 50).toOption.map
      (fun code => (output calm code, straysList code)) = some (some frag, false))
    (h2 : (buildTemplate (toyEnv partSample) (toyConfig .preserve) c!"T" (toyArgs path none) 50).toOption.map
      (fun code => (output calm code, straysList code)) = some (some text, false))
    (h3 : (load (toyEnv partSample) (toyConfig .preserve) c!"T" (toyArgs path (some c!"main")) 50).bind
      (fun w => partTest w trail) = some van) :
    ∃ code full w o own pre ws1 ns ws2 post, Excerpt code w c!"main" ∧ Translates full w.full ∧ c!"main" ∈ trail
      ∧ w.Leads c!"main" trail o own ∧ w.Alone trail
      ∧ w.root.nodes = pre ++ .blockDef ws1 o ns ws2 :: post ∧ LacksAll trail pre ∧ LacksAll trail post
      ∧ keepsAll pre = true ∧ settles post = true ∧ Finishes calm code frag ∧ Finishes calm full text
      ∧ (pre.all vanishes && post.all vanishes) = van := by
  have ok : ∀ {x : Except GErr (List Stmt)} {y}, x.toOption = some y → x = .ok y := by
    intro x y h
    cases x with
    | error e => cases h
    | ok z => cases h; rfl
  obtain ⟨code, e1, e2⟩ := Option.map_eq_some_iff.mp h1
  obtain ⟨full, e3, e4⟩ := Option.map_eq_some_iff.mp h2
  obtain ⟨w, e5, e6⟩ := Option.bind_eq_some_iff.mp h3
  simp only [Prod.mk.injEq] at e2 e4
  unfold partTest at e6
  split at e6
  · cases e6
  · rename_i pre o post hcut
    split at e6
    · rename_i hc
      simp only [Bool.and_eq_true] at hc
      obtain ⟨⟨⟨⟨⟨⟨t1, t2⟩, t3⟩, t4⟩, t5⟩, t6⟩, t7⟩ := hc
      obtain ⟨own, t7⟩ := Option.isSome_iff_exists.mp t7
      obtain ⟨ws1, ns, ws2, hr⟩ := cutAt_sound hcut
      exact ⟨code, full, w, o, own, pre, ws1, ns, ws2, post,
        ⟨_, _, _, _, _, _, _, _, _, toyConfig_new, rfl, ⟨50, ok e1⟩, ⟨50, e5⟩⟩,
        ⟨⟨_, _, _, _, _, _, _, _, _, toyConfig_new, rfl, ⟨50, ok e3⟩, ⟨50, load_full e5⟩⟩, .inr ⟨50, t6⟩⟩,
        by simpa using hm, leadsTest_sound t7, aloneTest_sound t1, hr, lacksAllTest_sound t2, lacksAllTest_sound t3, t4, t5,
        (finishes_iff e2.2).mpr e2.1, (finishes_iff e4.2).mpr e4.1, Option.some.inj e6⟩
    · cases e6

example : ∃ code full w o own pre ws1 ns ws2 post, Excerpt code w c!"main" ∧ Translates full w.full ∧ c!"main" ∈ [c!"main"]
    ∧ w.Leads c!"main" [c!"main"] o own ∧ w.Alone [c!"main"]
    ∧ w.root.nodes = pre ++ .blockDef ws1 o ns ws2 :: post ∧ LacksAll [c!"main"] pre ∧ LacksAll [c!"main"] post
    ∧ keepsAll pre = true ∧ settles post = true ∧ Finishes calm code c!"new [r#type]"
    ∧ Finishes calm full c!"<p>xupper(f)new [r#type]\n foot11l" ∧ (pre.all vanishes && post.all vanishes) = false :=
  part_sample (path := c!"a.html") rfl (by decide +kernel) (by decide +kernel) (by decide +kernel)

example : ∃ code full w o own pre ws1 ns ws2 post, Excerpt code w c!"main" ∧ Translates full w.full ∧ c!"main" ∈ [c!"main"]
    ∧ w.Leads c!"main" [c!"main"] o own ∧ w.Alone [c!"main"]
    ∧ w.root.nodes = pre ++ .blockDef ws1 o ns ws2 :: post ∧ LacksAll [c!"main"] pre ∧ LacksAll [c!"main"] post
    ∧ keepsAll pre = true ∧ settles post = true ∧ Finishes calm code c!"new [r#type]"
    ∧ Finishes calm full c!"<p>xnew [r#type]\n y" ∧ (pre.all vanishes && post.all vanishes) = true :=
  part_sample (path := c!"b.html") rfl (by decide +kernel) (by decide +kernel) (by decide +kernel)

example : ∃ code full w o own pre ws1 ns ws2 post, Excerpt code w c!"main" ∧ Translates full w.full ∧ c!"main" ∈ [c!"main", c!"mid", c!"outer"]
    ∧ w.Leads c!"main" [c!"main", c!"mid", c!"outer"] o own ∧ w.Alone [c!"main", c!"mid", c!"outer"]
    ∧ w.root.nodes = pre ++ .blockDef ws1 o ns ws2 :: post ∧ LacksAll [c!"main", c!"mid", c!"outer"] pre ∧ LacksAll [c!"main", c!"mid", c!"outer"] post
    ∧ keepsAll pre = true ∧ settles post = true ∧ Finishes calm code c!"x12."
    ∧ Finishes calm full c!"xc x<x12.>y end" ∧ (pre.all vanishes && post.all vanishes) = true :=
  part_sample (path := c!"c.html") rfl (by decide +kernel) (by decide +kernel) (by decide +kernel)

end

end Askama.Props
