import Verif.Lemmas.Accept
import Verif.Lemmas.Fuel
import Verif.Lemmas.Layout

/-!
# Loading templates that stand alone

Nothing but the template itself is collected, and its context consists of its nodes and macros.
-/

namespace Askama

open Spec

/-- All nodes of a list are the template's own. -/
def OwnList (ns : List Node) : Prop := ∀ m ∈ partsL ns, ownNode m = true

theorem OwnList.head {n : Node} {ns : List Node} (h : OwnList (n :: ns)) : ∀ m ∈ parts n, ownNode m = true :=
  fun m hm => h m (by simp only [partsL, List.mem_append]; exact .inl hm)

theorem OwnList.tail {n : Node} {ns : List Node} (h : OwnList (n :: ns)) : OwnList ns :=
  fun m hm => h m (by simp only [partsL, List.mem_append]; exact .inr hm)

theorem parts_self (n : Node) : n ∈ parts n := by cases n <;> simp [parts]

theorem ctxNested_tail {n : Node} : ∀ ns ∈ ctxNested n, ∀ m ∈ partsL ns, m ∈ (parts n).tail := by
  intro ns hns m hm
  cases n with
  | if_ w bs =>
    simp only [ctxNested, List.mem_reverse] at hns
    exact partsC_mem bs ns hns m hm
  | match_ w e bs w2 =>
    simp only [ctxNested, List.mem_reverse] at hns
    exact partsW_mem bs ns hns m hm
  | loop w1 v i c body w2 els w3 =>
    simp only [ctxNested, List.mem_cons, List.not_mem_nil, or_false] at hns
    simp only [parts, List.tail_cons, List.mem_append]
    rcases hns with rfl | rfl
    · exact .inr hm
    · exact .inl hm
  | blockDef w1 nm body w2 =>
    simp only [ctxNested, List.mem_cons, List.not_mem_nil, or_false] at hns
    subst hns
    exact hm
  | _ => simp [ctxNested] at hns

theorem useNested_tail {top : Bool} {n : Node} : ∀ ns ∈ useNested top n, ∀ m ∈ partsL ns, m ∈ (parts n).tail := by
  intro ns hns m hm
  cases n with
  | «macro» w1 nm as body w2 =>
    cases top
    · simp [useNested] at hns
    · simp only [useNested, if_true, List.mem_cons, List.not_mem_nil, or_false] at hns
      subst hns
      exact hm
  | filterBlock w1 f body w2 =>
    simp only [useNested, List.mem_cons, List.not_mem_nil, or_false] at hns
    subst hns
    exact hm
  | _ => exact ctxNested_tail ns (by simpa only [useNested] using hns) m hm

theorem useNode_own {ld : Loader} {path : Str} {top : Bool} {st : UseSt} {n : Node} (h : ownNode n = true) :
    useNode ld path top st n = .ok st := by
  cases n <;> first | rfl | cases h

theorem useNodes_own {ld : Loader} {path : Str} {top : Bool} {st : UseSt} : (ns : List Node) → (nested : List (List Node)) →
    OwnList ns → (∀ l ∈ nested, OwnList l) →
    ∃ nested', useNodes ld path top ns st nested = .ok (st, nested') ∧ ∀ l ∈ nested', OwnList l
  | [], nested, _, hn => ⟨nested, rfl, hn⟩
  | n :: ns, nested, h, hn => by
    simp only [useNodes]
    rw [useNode_own (h.head n (parts_self n))]
    refine useNodes_own ns _ h.tail ?_
    intro l hl
    rcases List.mem_append.mp hl with hl | hl
    · exact fun m hm => h.head m (List.mem_of_mem_tail (useNested_tail l hl m hm))
    · exact hn l hl

theorem useLoop_own {ld : Loader} {path : Str} {st : UseSt} : (fuel : Nat) → (top : Bool) → (nested : List (List Node)) →
    stackLists nested ≤ fuel → (∀ l ∈ nested, OwnList l) → useLoop ld path fuel top nested st = .ok st
  | 0, top, nested, hf, hn => by
    unfold useLoop
    cases nested with
    | nil => rfl
    | cons ns rest => simp [stackLists] at hf
  | fuel + 1, top, nested, hf, hn => by
    unfold useLoop
    cases nested with
    | nil => rfl
    | cons ns rest =>
      dsimp only
      have h1 := useNodes_bound (ld := ld) (path := path) (top := top) ns st rest
      obtain ⟨nested', h2, h3⟩ := useNodes_own (ld := ld) (path := path) (top := top) (st := st) ns rest
        (hn _ (List.mem_cons_self ..)) (fun l hl => hn l (List.mem_cons_of_mem _ hl))
      rw [h2] at h1 ⊢
      refine useLoop_own fuel false nested' ?_ h3
      simp only [stackLists, List.map_cons, List.sum_cons] at hf h1 ⊢
      omega

/-- Only the template itself is collected. -/
theorem find_own {ld : Loader} {path src : Str} {nodes : List Node} (hp : ld.parse src = some nodes) (h : OwnList nodes)
    (fuel : Nat) : findUsedTemplates ld (fuel + 1) path src = .ok [(path, nodes)] := by
  unfold findUsedTemplates checkLoop
  dsimp only
  unfold useTemplate
  rw [hp]
  dsimp only
  rw [useLoop_own _ _ _ (by simp [stackLists]) (by intro l hl; simp only [List.mem_singleton] at hl; subst hl; exact h)]
  show checkLoop ld fuel _ = _
  unfold checkLoop
  rfl

/-- A list of nodes inside of a node. -/
def InnerList (ns : List Node) : Prop := ∀ m ∈ partsL ns, ownNode m = true ∧ notMacro m = true

theorem ctxNodes_inner {find : Str → Option Str} {top : Bool} : (ns : List Node) → (st : CtxSt) → InnerList ns →
    (∀ l ∈ st.nested, InnerList l) →
    ∃ nested', ctxNodes find top ns st = .ok { st with nested := nested' } ∧ ∀ l ∈ nested', InnerList l
  | [], st, _, hn => ⟨st.nested, rfl, hn⟩
  | n :: ns, st, h, hn => by
    have hh : ∀ m ∈ parts n, ownNode m = true ∧ notMacro m = true :=
      fun m hm => h m (by simp only [partsL, List.mem_append]; exact .inl hm)
    have ht : InnerList ns := fun m hm => h m (by simp only [partsL, List.mem_append]; exact .inr hm)
    have e : ctxNode find top st n = .ok { st with nested := ctxNested n ++ st.nested } := by
      have := hh n (parts_self n)
      cases n <;> first | rfl | simp [ownNode, notMacro] at this
    simp only [ctxNodes]
    rw [e]
    refine ctxNodes_inner ns { st with nested := ctxNested n ++ st.nested } ht ?_
    intro l hl
    rcases List.mem_append.mp hl with hl | hl
    · exact fun m hm => hh m (List.mem_of_mem_tail (ctxNested_tail l hl m hm))
    · exact hn l hl

theorem ctxLoop_inner {find : Str → Option Str} : (fuel : Nat) → (top : Bool) → (st : CtxSt) →
    stackLists st.nested ≤ fuel → (∀ l ∈ st.nested, InnerList l) →
    ctxLoop find fuel top st = .ok { st with nested := [] }
  | 0, top, ⟨e, b, m, i, nested⟩, hf, hn => by
    unfold ctxLoop
    cases nested with
    | nil => rfl
    | cons ns rest => simp [stackLists] at hf
  | fuel + 1, top, ⟨e, b, m, i, nested⟩, hf, hn => by
    unfold ctxLoop
    cases nested with
    | nil => rfl
    | cons ns rest =>
      dsimp only at hf hn ⊢
      have h1 := ctxNodes_nested (find := find) (top := top) ns ⟨e, b, m, i, rest⟩
      obtain ⟨nested', h2, h3⟩ := ctxNodes_inner (find := find) (top := top) ns ⟨e, b, m, i, rest⟩
        (hn _ (List.mem_cons_self ..)) (fun l hl => hn l (List.mem_cons_of_mem _ hl))
      rw [h2] at h1 ⊢
      refine ctxLoop_inner fuel false ⟨e, b, m, i, nested'⟩ ?_ h3
      simp only [stackLists, List.map_cons, List.sum_cons] at hf h1 ⊢
      omega

theorem ctxNodes_top {find : Str → Option Str} : (ns : List Node) → (st : CtxSt) → OwnList ns →
    (∀ n ∈ ns, ∀ m ∈ (parts n).tail, notMacro m = true) → (∀ l ∈ st.nested, InnerList l) →
    ∃ macros' nested', ctxNodes find true ns st = .ok { st with macros := macros', nested := nested' }
      ∧ (∀ l ∈ nested', InnerList l) ∧ ∀ x, assoc macros' x = (assoc (ownMacros ns) x).or (assoc st.macros x)
  | [], st, _, _, hn => ⟨st.macros, st.nested, rfl, hn, fun x => rfl⟩
  | n :: ns, st, h, hm, hn => by
    have hin : ∀ l ∈ ctxNested n ++ st.nested, InnerList l := by
      intro l hl
      rcases List.mem_append.mp hl with hl | hl
      · exact fun m hm2 => ⟨h.head m (List.mem_of_mem_tail (ctxNested_tail l hl m hm2)),
          hm n (List.mem_cons_self ..) m (ctxNested_tail l hl m hm2)⟩
      · exact hn l hl
    have hm' : ∀ n ∈ ns, ∀ m ∈ (parts n).tail, notMacro m = true := fun n hn => hm n (List.mem_cons_of_mem _ hn)
    simp only [ctxNodes]
    by_cases hmac : notMacro n = true
    · have e : ctxNode find true st n = .ok { st with nested := ctxNested n ++ st.nested } := by
        have := h.head n (parts_self n)
        cases n <;> first | rfl | (simp [ownNode] at this; done) | (simp [notMacro] at hmac; done)
      have e2 : ownMacros (n :: ns) = ownMacros ns := by
        cases n <;> first | rfl | simp [notMacro] at hmac
      rw [e, e2]
      exact ctxNodes_top ns { st with nested := ctxNested n ++ st.nested } h.tail hm' hin
    · cases n with
      | «macro» w1 nm as body w2 =>
        obtain ⟨m', n', h1, h2, h3⟩ := ctxNodes_top (find := find) ns
          { st with macros := mapInsert st.macros nm ⟨w1, as, body, w2⟩ } h.tail hm' hn
        refine ⟨m', n', h1, h2, fun x => ?_⟩
        rw [h3 x]
        have e2 : ownMacros (Node.macro w1 nm as body w2 :: ns) = ownMacros ns ++ [(nm, ⟨w1, as, body, w2⟩)] := by
          simp [ownMacros]
        rw [e2, assoc_append, assoc_cons, assoc_mapInsert, Option.or_assoc]
        congr 1
        split <;> simp [assoc]
      | _ => exact absurd rfl hmac

/-- The context of a template that stands alone. -/
theorem contextNew_alone {find : Str → Option Str} {nodes : List Node} (h : standsAlone nodes = true) :
    ∃ macros, contextNew find nodes = .ok { nodes, extends_ := none, blocks := [], macros, imports := [] }
      ∧ ∀ x, assoc macros x = assoc (ownMacros nodes) x := by
  unfold standsAlone at h
  rw [Bool.and_eq_true, List.all_eq_true, List.all_eq_true] at h
  obtain ⟨macros, nested, h1, h2, h3⟩ := ctxNodes_top (find := find) nodes ⟨none, [], [], [], []⟩ h.1
    (fun n hn => List.all_eq_true.mp (h.2 n hn)) (by intro l hl; cases hl)
  refine ⟨macros, ?_, fun x => by rw [h3 x]; cases assoc (ownMacros nodes) x <;> rfl⟩
  unfold contextNew
  rw [ctxLoop.eq_def]
  dsimp only
  rw [h1]
  have hb := ctxNodes_nested (find := find) (top := true) nodes ⟨none, [], [], [], []⟩
  rw [h1] at hb
  have e := ctxLoop_inner (find := find) (Node.listsL nodes) false ⟨none, [], macros, [], nested⟩
    (by simpa [stackLists] using hb) h2
  show (do let st ← ctxLoop find (Node.listsL nodes) false ⟨none, [], macros, [], nested⟩; _) = _
  rw [e]
  rfl

/-- The rules depend on the macros only as far as they are looked up. -/
theorem nodesFit_congr {o : Options} {m m' : List (Str × MacroDef)} (h : ∀ x, assoc m x = assoc m' x) :
    (n : Nat) → (top : Bool) → (nodes : List Node) → nodesFit o m n top nodes = nodesFit o m' n top nodes
  | 0, top, nodes => rfl
  | n + 1, top, nodes => by
    have ih := nodesFit_congr h n (o := o)
    have ih2 : nodesFit o m n false = nodesFit o m' n false := funext fun ns => ih false ns
    simp only [nodesFit, ih2, h]

theorem macros_parsed {nodes : List Node} (hp : ParsedList nodes) {x : Str} {d : MacroDef}
    (h : assoc (ownMacros nodes) x = some d) : ParsedList d.nodes := by
  have h1 := assoc_pair h
  clear h
  simp only [ownMacros, List.mem_reverse, List.mem_filterMap] at h1
  obtain ⟨n, hn, h2⟩ := h1
  have : ParsedNode n := by
    clear h2
    induction nodes with
    | nil => cases hn
    | cons a l ih =>
      rcases List.mem_cons.mp hn with rfl | hn
      · exact hp.head
      · exact ih hp.tail hn
  cases n with
  | «macro» w1 nm as body w2 => cases h2; exact this.macro
  | _ => cases h2

theorem alone_builds {env : DeriveEnv} {c : Config} {ident : Str} {args : TemplateArgs}
    {t : TemplateInput} (ht : TemplateInput.new env.files env.guess c ident args = .ok t) (hc : t.syn.CommentOk) {src : Str}
    (hs : mainSource env t = .ok src) {nodes : List Node} (hp : parseNodes env.isLower t.syn src = some nodes) {n : Nat}
    (hn : n ≤ 29) (hw : wellFormed ⟨env.json, c.escapers⟩ n nodes = true) :
    ∃ code, buildTemplate env c ident args n = .ok code := by
  unfold wellFormed at hw
  rw [Bool.and_eq_true] at hw
  have hpar : ParsedList nodes := by
    unfold parseNodes at hp
    split at hp
    · rename_i ns hok
      cases hp
      exact parse_parsed (env := ⟨t.syn, env.isLower⟩) hc hok
    · cases hp
  obtain ⟨macros, h1, h2⟩ := contextNew_alone (find := (env.loader c t.syn).find t.path) hw.1
  have hown : OwnList nodes := by
    have := hw.1
    unfold standsAlone at this
    rw [Bool.and_eq_true, List.all_eq_true] at this
    exact this.1
  cases n with
  | zero => simp [nodesFit] at hw
  | succ n =>
    unfold buildTemplate
    rw [ht]
    dsimp only [bind, Except.bind]
    rw [hs]
    dsimp only
    rw [find_own (ld := env.loader c t.syn) (by exact hp) hown n]
    have e : makeContexts (env.loader c t.syn).find (dedupKeys [(t.path, nodes)] [])
        = .ok [(t.path, { nodes, extends_ := none, blocks := [], macros, imports := [] })] := by
      simp only [dedupKeys, List.contains_nil, Bool.false_eq_true, if_false, makeContexts, h1]
      rfl
    dsimp only
    rw [e]
    dsimp only
    have e2 : assoc [(t.path, ({ nodes, extends_ := none, blocks := [], macros, imports := [] } : Ctx))] t.path
        = some { nodes, extends_ := none, blocks := [], macros, imports := [] } := by simp [assoc]
    rw [e2]
    exact generate_got (fun x d hx => macros_parsed hpar ((h2 x).symm.trans hx)) hn hpar
      (by rw [nodesFit_congr h2]; exact hw.2)

/-- All that is loaded is the template itself. -/
theorem alone_load {env : DeriveEnv} {c : Config} {ident : Str} {args : TemplateArgs}
    {t : TemplateInput} (ht : TemplateInput.new env.files env.guess c ident args = .ok t) {src : Str}
    (hs : mainSource env t = .ok src) {nodes : List Node} (hp : parseNodes env.isLower t.syn src = some nodes)
    (hw : standsAlone nodes = true) {fuel : Nat} {w : Whole} (h : load env c ident args (fuel + 1) = some w) :
    w.input.contexts = [(t.path, w.ctx)] ∧ w.ctx.nodes = nodes := by
  obtain ⟨macros, h1, h2⟩ := contextNew_alone (find := (env.loader c t.syn).find t.path) hw
  have hown : OwnList nodes := by
    unfold standsAlone at hw
    rw [Bool.and_eq_true, List.all_eq_true] at hw
    exact hw.1
  have e : makeContexts (env.loader c t.syn).find (dedupKeys [(t.path, nodes)] [])
      = .ok [(t.path, { nodes, extends_ := none, blocks := [], macros, imports := [] })] := by
    simp only [dedupKeys, List.contains_nil, Bool.false_eq_true, if_false, makeContexts, h1]
    rfl
  have e2 : assoc [(t.path, ({ nodes, extends_ := none, blocks := [], macros, imports := [] } : Ctx))] t.path
      = some { nodes, extends_ := none, blocks := [], macros, imports := [] } := by simp [assoc]
  unfold load at h
  rw [ht] at h
  dsimp only at h
  rw [hs] at h
  dsimp only at h
  rw [find_own (ld := env.loader c t.syn) (by exact hp) hown fuel] at h
  dsimp only at h
  rw [e] at h
  dsimp only at h
  rw [e2] at h
  simp only [Option.bind_some, Option.map_eq_some_iff] at h
  obtain ⟨chain, -, rfl⟩ := h
  exact ⟨rfl, rfl⟩

end Askama
