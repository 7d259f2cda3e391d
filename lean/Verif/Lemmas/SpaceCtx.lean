import Verif.Lemmas.SpaceNodes
import Verif.Lemmas.Core

/-! The contexts of templates without white space. -/

namespace Askama

open Askama.Spec Gen

/-- The mark of an `else` in a loop. -/
abbrev elseMark : Node := .lit ⟨[], [], []⟩

theorem listsL_append : (a b : List Node) → Node.listsL (a ++ b) = Node.listsL a + Node.listsL b
  | [], b => by simp [Node.listsL]
  | n :: a, b => by simp only [List.cons_append, Node.listsL, listsL_append a b]; omega

theorem listsL_bareLit (l : Lit) : Node.listsL (bareLit l) = 0 := by
  unfold bareLit
  split <;> rfl

mutual
theorem lists_bare : (n : Node) → Node.listsL (bare n) = n.lists
  | .if_ _ bs => by simp only [bare, Node.lists, Node.listsL, listsL_bareC bs]; omega
  | .match_ _ _ arms _ => by simp only [bare, Node.lists, Node.listsL, listsL_bareW arms]; omega
  | .loop _ _ _ _ body _ els _ => by
    simp only [bare, Node.lists, Node.listsL, listsL_bareL body]
    cases els with
    | nil => simp [Node.listsL]
    | cons e els =>
      rw [if_neg (by simp)]
      simp only [Node.listsL, Node.lists]
      have := listsL_bareL (e :: els)
      rw [Node.listsL] at this
      omega
  | .blockDef _ _ nodes _ => by simp only [bare, Node.lists, Node.listsL, listsL_bareL nodes]
  | .macro _ _ _ nodes _ => by simp only [bare, Node.lists, Node.listsL, listsL_bareL nodes]
  | .filterBlock _ _ nodes _ => by simp only [bare, Node.lists, Node.listsL, listsL_bareL nodes]
  | .lit l => by simp only [bare, Node.lists, listsL_bareLit]
  | .raw _ l _ => by simp only [bare, Node.lists, listsL_bareLit]
  | .comment _ _ | .expr _ _ | .call _ _ _ _ | .let_ _ _ _ | .extends_ _ | .include _ _ | .import_ _ _ _
  | .break_ _ | .continue_ _ => by simp only [bare, Node.lists, Node.listsL]
theorem listsL_bareL : (ns : List Node) → Node.listsL (bareL ns) = Node.listsL ns
  | [] => rfl
  | n :: ns => by simp only [bareL, listsL_append, Node.listsL, lists_bare n, listsL_bareL ns]
theorem listsL_bareC : (ns : List Cond) → Cond.listsL (bareC ns) = Cond.listsL ns
  | [] => rfl
  | .mk _ _ nodes :: ns => by simp only [bareC, Cond.listsL, listsL_bareL nodes, listsL_bareC ns]
theorem listsL_bareW : (ns : List When) → When.listsL (bareW ns) = When.listsL ns
  | [] => rfl
  | .mk _ _ nodes :: ns => by simp only [bareW, When.listsL, listsL_bareL nodes, listsL_bareW ns]
end

theorem bareC_nodes : (bs : List Cond) → (bareC bs).map Cond.nodes = (bs.map Cond.nodes).map bareL
  | [] => rfl
  | .mk _ _ nodes :: bs => by simp [bareC, Cond.nodes, bareC_nodes bs]

theorem bareW_nodes : (bs : List When) → (bareW bs).map When.nodes = (bs.map When.nodes).map bareL
  | [] => rfl
  | .mk _ _ nodes :: bs => by simp [bareW, When.nodes, bareW_nodes bs]

/-- Lists without white space, some of them with the mark of an `else`. -/
inductive BareLists : List (List Node) → List (List Node) → Prop where
  | nil : BareLists [] []
  | cons {m ns : List Node} {ms nss : List (List Node)} : (m = bareL ns ∨ m = elseMark :: bareL ns) → BareLists ms nss →
      BareLists (m :: ms) (ns :: nss)

theorem BareLists.map : (nss : List (List Node)) → {ms' nss' : List (List Node)} → BareLists ms' nss' →
    BareLists (nss.map bareL ++ ms') (nss ++ nss')
  | [], _, _, h => h
  | _ :: nss, _, _, h => .cons (.inl rfl) (BareLists.map nss h)

/-- The variables of `Context::new` without white space. -/
structure BareSt (st' st : CtxSt) : Prop where
  extends_ : st'.extends_ = st.extends_
  blocks : st'.blocks = onSnd BlockDefn.bare st.blocks
  macros : st'.macros = onSnd MacroDef.bare st.macros
  imports : st'.imports = st.imports
  nested : BareLists st'.nested st.nested

theorem ctxNodes_append {find : Str → Option Str} {top : Bool} : (a b : List Node) → (st : CtxSt) →
    ctxNodes find top (a ++ b) st = (ctxNodes find top a st).bind (ctxNodes find top b)
  | [], _, _ => rfl
  | n :: a, b, st => by
    simp only [List.cons_append, ctxNodes]
    cases ctxNode find top st n with
    | error e => rfl
    | ok st => exact ctxNodes_append a b st

theorem ctxNodes_single {find : Str → Option Str} {top : Bool} (n : Node) (st : CtxSt) :
    ctxNodes find top [n] st = ctxNode find top st n := by
  simp only [ctxNodes]
  cases ctxNode find top st n <;> rfl

theorem ctxNodes_bareLit {find : Str → Option Str} {top : Bool} (l : Lit) (st : CtxSt) :
    ctxNodes find top (bareLit l) st = .ok st := by
  unfold bareLit
  split
  · rfl
  · rw [ctxNodes_single]; rfl

theorem ctxNode_bare {find : Str → Option Str} {top : Bool} {st' st s : CtxSt} {n : Node} (hst : BareSt st' st)
    (h : ctxNode find top st n = .ok s) : ∃ s', ctxNodes find top (bare n) st' = .ok s' ∧ BareSt s' s := by
  cases n with
  | lit l => simp only [bare]; rw [ctxNodes_bareLit]; cases h; exact ⟨_, rfl, hst⟩
  | raw _ l _ => simp only [bare]; rw [ctxNodes_bareLit]; cases h; exact ⟨_, rfl, hst⟩
  | comment _ _ => cases h; exact ⟨_, rfl, hst⟩
  | extends_ p =>
    simp only [bare]
    rw [ctxNodes_single]
    simp only [ctxNode] at h ⊢
    cases top with
    | false => cases h
    | true =>
      rw [hst.extends_]
      cases he : st.extends_ with
      | some _ => rw [he] at h; cases h
      | none =>
        rw [he] at h
        dsimp only [if_true] at h ⊢
        cases hf : find p with
        | none => rw [hf] at h; cases h
        | some q => rw [hf] at h; cases h; exact ⟨_, rfl, rfl, hst.blocks, hst.macros, hst.imports, hst.nested⟩
  | «macro» ws1 name args nodes ws2 =>
    simp only [bare]
    rw [ctxNodes_single]
    simp only [ctxNode] at h ⊢
    cases top with
    | false => cases h
    | true =>
      cases h
      refine ⟨_, rfl, hst.extends_, hst.blocks, ?_, hst.imports, hst.nested⟩
      rw [← mapInsert_onSnd, ← hst.macros]
      rfl
  | import_ ws p scope =>
    simp only [bare]
    rw [ctxNodes_single]
    simp only [ctxNode] at h ⊢
    cases top with
    | false => cases h
    | true =>
      rw [if_pos rfl] at h ⊢
      cases hf : find p with
      | none => rw [hf] at h; cases h
      | some q =>
        rw [hf] at h; cases h
        exact ⟨_, rfl, hst.extends_, hst.blocks, hst.macros, by dsimp only; rw [hst.imports], hst.nested⟩
  | blockDef ws1 name nodes ws2 =>
    simp only [bare]
    rw [ctxNodes_single]
    simp only [ctxNode] at h ⊢
    cases h
    refine ⟨_, rfl, hst.extends_, ?_, hst.macros, hst.imports, .cons (.inl rfl) hst.nested⟩
    rw [← mapInsert_onSnd, ← hst.blocks]
    rfl
  | if_ ws bs =>
    simp only [bare]
    rw [ctxNodes_single]
    cases h
    refine ⟨_, rfl, hst.extends_, hst.blocks, hst.macros, hst.imports, ?_⟩
    show BareLists (((bareC bs).map Cond.nodes).reverse ++ st'.nested) ((bs.map Cond.nodes).reverse ++ st.nested)
    rw [bareC_nodes, ← List.map_reverse]
    exact .map _ hst.nested
  | match_ ws1 e arms ws2 =>
    simp only [bare]
    rw [ctxNodes_single]
    cases h
    refine ⟨_, rfl, hst.extends_, hst.blocks, hst.macros, hst.imports, ?_⟩
    show BareLists (((bareW arms).map When.nodes).reverse ++ st'.nested) ((arms.map When.nodes).reverse ++ st.nested)
    rw [bareW_nodes, ← List.map_reverse]
    exact .map _ hst.nested
  | loop ws1 v i c body ws2 els ws3 =>
    simp only [bare]
    rw [ctxNodes_single]
    cases h
    refine ⟨_, rfl, hst.extends_, hst.blocks, hst.macros, hst.imports, ?_⟩
    refine .cons ?_ (.cons (.inl rfl) hst.nested)
    cases els with
    | nil => exact .inl rfl
    | cons _ _ => exact .inr rfl
  | _ =>
    simp only [bare]
    rw [ctxNodes_single]
    cases h
    exact ⟨_, rfl, hst.extends_, hst.blocks, hst.macros, hst.imports, hst.nested⟩

theorem ctxNodes_bare {find : Str → Option Str} {top : Bool} : (ns : List Node) → {st' st s : CtxSt} → BareSt st' st →
    ctxNodes find top ns st = .ok s → ∃ s', ctxNodes find top (bareL ns) st' = .ok s' ∧ BareSt s' s
  | [], st', _, _, hst, h => by cases h; exact ⟨st', rfl, hst⟩
  | n :: ns, st', st, s, hst, h => by
    unfold ctxNodes at h
    obtain ⟨s1, h1, h⟩ := except_bind h
    obtain ⟨s1', e1, hs1⟩ := ctxNode_bare hst h1
    obtain ⟨s', e2, hs⟩ := ctxNodes_bare ns hs1 h
    refine ⟨s', ?_, hs⟩
    rw [bareL, ctxNodes_append, e1]
    exact e2

theorem ctxLoop_bare {find : Str → Option Str} : (fuel : Nat) → {top : Bool} → {st' st s : CtxSt} → BareSt st' st →
    ctxLoop find fuel top st = .ok s → ∃ s', ctxLoop find fuel top st' = .ok s' ∧ BareSt s' s := by
  intro fuel
  induction fuel with
  | zero =>
    intro top st' st s hst h
    unfold ctxLoop at h ⊢
    have hn := hst.nested
    cases h1 : st.nested with
    | nil =>
      rw [h1] at hn h
      cases h2 : st'.nested with
      | nil => cases h; exact ⟨_, rfl, hst⟩
      | cons _ _ => rw [h2] at hn; cases hn
    | cons _ _ => rw [h1] at h; cases h
  | succ fuel ih =>
    intro top st' st s hst h
    unfold ctxLoop at h ⊢
    have hn := hst.nested
    cases h1 : st.nested with
    | nil =>
      rw [h1] at hn h
      cases h2 : st'.nested with
      | nil => cases h; exact ⟨_, rfl, hst⟩
      | cons _ _ => rw [h2] at hn; cases hn
    | cons ns rest =>
      rw [h1] at hn h
      cases h2 : st'.nested with
      | nil => rw [h2] at hn; cases hn
      | cons m rest' =>
        rw [h2] at hn
        cases hn with
        | cons hm hr =>
          dsimp only at h ⊢
          obtain ⟨s1, e1, h⟩ := except_bind h
          obtain ⟨s1', e2, hs1⟩ := ctxNodes_bare (st' := { st' with nested := rest' }) (st := { st with nested := rest }) ns
            ⟨hst.extends_, hst.blocks, hst.macros, hst.imports, hr⟩ e1
          obtain ⟨s', e3, hs⟩ := ih hs1 h
          refine ⟨s', ?_, hs⟩
          have : ctxNodes find top m { st' with nested := rest' } = .ok s1' := by
            rcases hm with rfl | rfl
            · exact e2
            · exact e2
          rw [this]
          exact e3

/-- Without white space a template has the same blocks, macros and imports, without white space. -/
theorem contextNew_bare {find : Str → Option Str} {nodes : List Node} {c : Ctx} (h : contextNew find nodes = .ok c) :
    contextNew find (bareL nodes) = .ok c.bare := by
  unfold contextNew at h ⊢
  obtain ⟨st, h1, h⟩ := except_bind h
  cases h
  obtain ⟨st', e, hst⟩ := ctxLoop_bare _ (st' := ⟨none, [], [], [], [bareL nodes]⟩) (st := ⟨none, [], [], [], [nodes]⟩)
    ⟨rfl, rfl, rfl, rfl, .cons (.inl rfl) .nil⟩ h1
  rw [listsL_bareL, e]
  show Except.ok _ = Except.ok _
  congr 1
  simp only [Ctx.bare]
  rw [hst.extends_, hst.blocks, hst.macros, hst.imports]

/-! ## Nodes that have been parsed -/

mutual
theorem allN_parts {chk : Bool → Node → Prop} : (n : Node) → {b : Bool} → AllN chk b n → ∀ m ∈ parts n, ∃ b, chk b m
  | .if_ _ bs, b, h, m, hm => by
    simp only [AllN, parts, List.mem_cons] at h hm
    rcases hm with rfl | hm
    · exact ⟨b, h.1⟩
    · exact allC_parts bs h.2 m hm
  | .match_ _ _ arms _, b, h, m, hm => by
    simp only [AllN, parts, List.mem_cons] at h hm
    rcases hm with rfl | hm
    · exact ⟨b, h.1⟩
    · exact allW_parts arms h.2 m hm
  | .loop _ _ _ _ body _ els _, b, h, m, hm => by
    simp only [AllN, parts, List.mem_cons, List.mem_append] at h hm
    rcases hm with rfl | hm | hm
    · exact ⟨b, h.1⟩
    · exact allNs_parts body h.2.1 m hm
    · exact allNs_parts els h.2.2 m hm
  | .blockDef _ _ nodes _, b, h, m, hm | .macro _ _ _ nodes _, b, h, m, hm | .filterBlock _ _ nodes _, b, h, m, hm => by
    simp only [AllN, parts, List.mem_cons] at h hm
    rcases hm with rfl | hm
    · exact ⟨b, h.1⟩
    · exact allNs_parts nodes h.2 m hm
  | .lit _, b, h, m, hm | .comment _ _, b, h, m, hm | .expr _ _, b, h, m, hm | .call _ _ _ _, b, h, m, hm
  | .let_ _ _ _, b, h, m, hm | .extends_ _, b, h, m, hm | .include _ _, b, h, m, hm | .import_ _ _ _, b, h, m, hm
  | .raw _ _ _, b, h, m, hm | .break_ _, b, h, m, hm | .continue_ _, b, h, m, hm => by
    simp only [AllN, parts, List.mem_singleton] at h hm
    subst hm
    exact ⟨b, h⟩
theorem allNs_parts {chk : Bool → Node → Prop} : (ns : List Node) → {b : Bool} → AllNs chk b ns → ∀ m ∈ partsL ns, ∃ b, chk b m
  | [], _, _, m, hm => by simp [partsL] at hm
  | n :: ns, b, h, m, hm => by
    simp only [AllNs, partsL, List.mem_append] at h hm
    rcases hm with hm | hm
    · exact allN_parts n h.1 m hm
    · exact allNs_parts ns h.2 m hm
theorem allC_parts {chk : Bool → Node → Prop} : (ns : List Cond) → {b : Bool} → AllC chk b ns → ∀ m ∈ partsC ns, ∃ b, chk b m
  | [], _, _, m, hm => by simp [partsC] at hm
  | .mk _ _ nodes :: ns, b, h, m, hm => by
    simp only [AllC, partsC, List.mem_append] at h hm
    rcases hm with hm | hm
    · exact allNs_parts nodes h.1 m hm
    · exact allC_parts ns h.2 m hm
theorem allW_parts {chk : Bool → Node → Prop} : (ns : List When) → {b : Bool} → AllW chk b ns → ∀ m ∈ partsW ns, ∃ b, chk b m
  | [], _, _, m, hm => by simp [partsW] at hm
  | .mk _ _ nodes :: ns, b, h, m, hm => by
    simp only [AllW, partsW, List.mem_append] at h hm
    rcases hm with hm | hm
    · exact allNs_parts nodes h.1 m hm
    · exact allW_parts ns h.2 m hm
end

theorem parsed_space {ns : List Node} (h : ParsedList ns) (hf : ∀ m ∈ partsL ns, noFilterBlock m = true) : Every SpaceOk ns := by
  obtain ⟨-, b, h⟩ := h
  intro m hm
  obtain ⟨b, hb⟩ := allNs_parts ns h m hm
  refine ⟨fun l hl => ?_, hf m hm⟩
  have hs := hb.2.2.2.2.1
  cases hl with
  | lit l => exact ⟨squeeze_blank hs.1.1, squeeze_blank hs.1.2.1⟩
  | raw _ l _ => exact ⟨squeeze_blank hs.1, squeeze_blank hs.2.1⟩

end Askama
