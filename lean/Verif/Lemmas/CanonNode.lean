import Verif.Lemmas.CanonPat
import Verif.Lemmas.GrammarNode
import Verif.Lemmas.DocText

/-!
# Accepted templates have a text in the usual layout
-/

namespace Askama

open Spec

/-! ### Text and comments -/

theorem litOf_text {l : Lit} (h : Spec.LitOk l) : litOf l.text = l := by
  obtain ⟨lws, val, rws⟩ := l
  obtain ⟨h1, h2, h3, h4, h5⟩ := h
  have hb : ∀ c, litOf.isBlankB c = true ↔ isBlank c := fun c => by rw [isBlankB_eq]; exact isWsp_iff
  have hn : ∀ c, ¬ isBlank c → litOf.isBlankB c = false := fun c h => by
    rw [← hb] at h
    simpa using h
  dsimp only at h1 h2 h3 h4 h5
  have hd : (val ++ rws).dropWhile litOf.isBlankB = val ++ rws ∧ (val ++ rws).takeWhile litOf.isBlankB = [] := by
    cases val with
    | nil => rw [h5 rfl]; exact ⟨rfl, rfl⟩
    | cons c v =>
      have := hn c (h3 c rfl)
      exact ⟨by simp [List.dropWhile, this], by simp [List.takeWhile, this]⟩
  have hr : ∀ c ∈ rws.reverse, litOf.isBlankB c = true := fun c hc => (hb c).2 (h2 c (by simpa using hc))
  have hv : val.reverse.dropWhile litOf.isBlankB = val.reverse ∧ val.reverse.takeWhile litOf.isBlankB = [] := by
    cases hx : val.reverse with
    | nil => exact ⟨rfl, rfl⟩
    | cons c v =>
      have h6 : val.getLast? = some c := by rw [← List.head?_reverse, hx]; rfl
      have := hn c (h4 c h6)
      exact ⟨by simp [List.dropWhile, this], by simp [List.takeWhile, this]⟩
  have hl : ∀ c ∈ lws, litOf.isBlankB c = true := fun c hc => (hb c).2 (h1 c hc)
  have e1 : (lws ++ (val ++ rws)).dropWhile litOf.isBlankB = val ++ rws := by
    rw [List.dropWhile_append_of_pos hl, hd.1]
  have e2 : (lws ++ (val ++ rws)).takeWhile litOf.isBlankB = lws := by
    rw [List.takeWhile_append_of_pos hl, hd.2, List.append_nil]
  unfold litOf Lit.text
  dsimp only
  rw [List.append_assoc, e1, e2, List.reverse_append, List.dropWhile_append_of_pos hr, List.takeWhile_append_of_pos hr, hv.1, hv.2]
  simp

theorem free_more {ds : List Str} {t r : Str} (h : Free ds t r) (hd : ∀ d ∈ ds, d.length ≤ r.length) (x : Str) :
    Free ds t (r ++ x) := by
  rintro a b rfl hb ⟨d, hm, hp⟩
  refine h a b rfl hb ⟨d, hm, ?_⟩
  rw [← List.append_assoc] at hp
  have hl := hd d hm
  exact List.prefix_of_prefix_length_le hp (List.prefix_append _ _) (by simp; omega)

theorem commentTo_more {o c i r : Str} (hl : o.length ≤ c.length) (h : CommentTo o c i r) (x : Str) :
    CommentTo o c (i ++ x) (r ++ x) := by
  induction h with
  | @close t r hf hn =>
    have := CommentTo.close (o := o) (c := c) (t := t) (r := r ++ x) (by
      rw [← List.append_assoc]
      exact free_more hf (by simp; omega) x) (by
      rw [← List.append_assoc]
      intro hp
      exact hn (List.prefix_of_prefix_length_le hp (List.prefix_append _ _) (by simp; omega)))
    simpa using this
  | @nest t i k r hf h1 _ ih1 ih2 =>
    have := CommentTo.nest (o := o) (c := c) (t := t) (by
      rw [← List.append_assoc]
      refine free_more hf ?_ x
      obtain ⟨b, rfl, _⟩ := commentTo_text h1
      simp
      omega) ih1 ih2
    simpa using this

section
variable {isLower : Char → Bool} {syn : Syntax} (ht : isLower 't' = true) (hf : isLower 'f' = true) (hs : Usable syn)
  (hl : syn.commentStart.length ≤ syn.commentEnd.length)

include hs in
theorem textOk_of {l : Lit} (h1 : l.text ≠ []) (h2 : Free [syn.blockStart, syn.commentStart, syn.exprStart] l.text [])
    (h3 : ∀ d ∈ [syn.blockStart, syn.commentStart, syn.exprStart], ∀ a, a ≠ [] → a <+: d → ¬ a <:+ l.text) :
    TextOk syn l.text := by
  refine ⟨h1, fun d hd => ⟨?_, h3 d hd⟩⟩
  rintro ⟨x, y, h⟩
  have hne : d ≠ [] := (hs.start d (by simp at hd ⊢; rcases hd with rfl | rfl | rfl <;> simp)).1
  exact h2 x (d ++ y) (by rw [← h]; simp) (by simp [hne]) ⟨d, hd, by simp⟩

include hl in
theorem comment_of {t c : Str} {w : Ws} (h : SpeltComment syn t w c)
    (hu : w.l = none → ∀ x, c.head? = some x → x ∉ c!"+-~") :
    ∃ (v : Lay) (s : Str), v.ws = w ∧ s ++ mark v.r ++ syn.commentEnd = c ∧ CommentOk syn v s := by
  cases h with
  | @mk b p n h1 h2 =>
    have hc : ∀ r, CommentTo syn.commentStart syn.commentEnd (b ++ syn.commentEnd ++ r) r := fun r => by
      simpa using commentTo_more hl h1 r
    cases n with
    | none =>
      refine ⟨.std p none, b, rfl, by simp [Lay.std, mark], ?_, ?_, ?_⟩
      · simpa [Lay.std, mark] using hc
      · intro hp x hx
        exact hu hp x (by simpa [Lay.std, mark] using hx)
      · intro _ x hx
        exact h2 x hx
    | some m =>
      obtain ⟨a, rfl⟩ := h2
      refine ⟨.std p (some m), a, rfl, by simp [Lay.std], ?_, ?_, ?_⟩
      · simpa [Lay.std] using hc
      · intro hp x hx
        exact hu hp x (by simpa [Lay.std] using hx)
      · intro h
        cases h

/-- The arm an `else` stands for. -/
def elseArms (syn : Syntax) : Else → List When
  | .none => []
  | .some w b => [.mk w.ws (.name c!"_") (Doc.nodes syn b)]

theorem match_node (w fin : Lay) (e : Tm) (arms : List DocArm) (els : Else) :
    (Doc.match_ w e [] arms els fin).node syn = .match_ w.ws e.tree (DocArm.nodes syn arms ++ elseArms syn els) fin.ws := by
  cases els <;> simp [Doc.node, elseArms]

include ht hf hs hl

mutual
theorem doc_of {loop : Bool} {t : Str} {n : Node} : SpeltNode isLower syn t n → writableNode isLower syn loop n →
    ∃ d : Doc, d.node syn = n ∧ d.Ok syn isLower loop ∧ d.isText = isLitN n
  | .lit (l := l) h1 h2 h3, hu => by
    simp only [writableNode] at hu
    exact ⟨.text l.text, by simp [Doc.node, litOf_text h3], textOk_of hs h1 h2 hu, rfl⟩
  | .comment h, hu => by
    simp only [writableNode] at hu
    obtain ⟨v, s, rfl, rfl, hok⟩ := comment_of hl h hu
    exact ⟨.comment v s, by simp [Doc.node], hok, rfl⟩
  | .expr (p := p) (n := n) h, hu => by
    simp only [writableNode] at hu
    obtain ⟨m, rfl, hok⟩ := expr_of ht hf h hu
    exact ⟨.expr (.std p n) m, by simp [Doc.node, Lay.std], hok, rfl⟩
  | .tag h, hu => by
    obtain ⟨d, h1, h2, h3, h4⟩ := tag_of h hu
    exact ⟨d, h1, h2, by rw [h3, h4]⟩
theorem docs_of {loop : Bool} {t : Str} {ns : List Node} : SpeltNodes isLower syn t ns → writableNodes isLower syn loop ns →
    ∃ ds : List Doc, Doc.nodes syn ds = ns ∧ Doc.Oks syn isLower loop ds ∧
      ∀ d, ds.head? = some d → ∃ n, ns.head? = some n ∧ d.isText = isLitN n
  | .nil, _ => ⟨[], rfl, trivial, by simp⟩
  | .cons h hm, hu => by
    simp only [writableNodes] at hu
    obtain ⟨d, rfl, hok, ht⟩ := doc_of h hu.1
    obtain ⟨ds, rfl, hoks, hhd⟩ := docs_of hm hu.2.2
    refine ⟨d :: ds, rfl, ⟨hok, ?_, hoks⟩, ?_⟩
    · intro hd e he
      obtain ⟨n, hn, hen⟩ := hhd e he
      rw [hen]
      exact hu.2.1 (ht ▸ hd) n hn
    · intro x hx
      simp at hx
      subst hx
      exact ⟨_, rfl, ht⟩
theorem tag_of {loop : Bool} {t : Str} {n : Node} : SpeltTag isLower syn t n → writableNode isLower syn loop n →
    ∃ d : Doc, d.node syn = n ∧ d.Ok syn isLower loop ∧ d.isText = false ∧ isLitN n = false
  | .let_ (p := p) (n := n) _ hp, hu => by
    simp only [writableNode] at hu
    obtain ⟨m, rfl, hok⟩ := pat_of hp hu.1
    exact ⟨.let_ (.std p n) false m none, by simp [Doc.node, Lay.std], ⟨hok, by simp⟩, rfl, rfl⟩
  | .letValue (p := p) (n := n) _ hp _ h, hu => by
    simp only [writableNode, usualOpt] at hu
    obtain ⟨m, rfl, hok⟩ := pat_of hp hu.1
    obtain ⟨e, rfl, heok⟩ := expr_of ht hf h hu.2
    exact ⟨.let_ (.std p n) false m (some e), by simp [Doc.node, Lay.std], ⟨hok, by simpa using heok⟩, rfl, rfl⟩
  | .include (p := p) (n := n) (s := s) _ _ h, _ => ⟨.include_ (.std p n) s, by simp [Doc.node, Lay.std], h, rfl, rfl⟩
  | .extends_ (s := s) _ _ h, _ => ⟨.extends_ (.std none none) s, by simp [Doc.node], ⟨rfl, h⟩, rfl, rfl⟩
  | .import_ (p := p) (n := n) (s := s) (m := m) _ _ h _ _ hm, _ =>
    ⟨.import_ (.std p n) s m, by simp [Doc.node, Lay.std], ⟨h, hm⟩, rfl, rfl⟩
  | .call (p := p) (n := n) (m := m) _ _ hm _ ha _, hu => by
    simp only [writableNode] at hu
    cases ha with
    | none => exact ⟨.call (.std p n) none m [] [], by simp [Doc.node, Lay.std, Tm.trees], ⟨by simp, hm, trivial, by simp, by simp⟩, rfl, rfl⟩
    | some ha =>
      obtain ⟨args, named, rfl, hok⟩ := args_of ht hf _ (argsList_of ha) hu
      exact ⟨.call (.std p n) none m args named, by simp [Doc.node, Lay.std], ⟨by simp, hm, hok⟩, rfl, rfl⟩
  | .callScope (p := p) (n := n) (m := m) (s := s) _ _ hs' _ _ hm _ ha _, hu => by
    simp only [writableNode] at hu
    cases ha with
    | none => exact ⟨.call (.std p n) (some s) m [] [], by simp [Doc.node, Lay.std, Tm.trees], ⟨by simpa using hs', hm, trivial, by simp, by simp⟩, rfl, rfl⟩
    | some ha =>
      obtain ⟨args, named, rfl, hok⟩ := args_of ht hf _ (argsList_of ha) hu
      exact ⟨.call (.std p n) (some s) m args named, by simp [Doc.node, Lay.std], ⟨by simpa using hs', hm, hok⟩, rfl, rfl⟩
  | .break_ (p := p) (n := n) _, hu => ⟨.break_ (.std p n), by simp [Doc.node, Lay.std], hu, rfl, rfl⟩
  | .continue_ (p := p) (n := n) _, hu => ⟨.continue_ (.std p n), by simp [Doc.node, Lay.std], hu, rfl, rfl⟩
  | .raw (p1 := p1) (n1 := n1) (p2 := p2) (n2 := n2) (l := l) _ h _, hu => by
    simp only [writableNode] at hu
    exact ⟨.raw (.std p1 n1) l.text (.std p2 n2), by simp [Doc.node, Lay.std, litOf_text h], hu, rfl, rfl⟩
  | .if_ (p1 := p1) (n1 := n1) (p2 := p2) (n2 := n2) _ hc hb hcs _, hu => by
    simp only [writableNode, writableConds, usualTestOpt] at hu
    obtain ⟨c, rfl, hcok⟩ := test_of ht hf hc hu.1
    obtain ⟨body, rfl, hbok, _⟩ := docs_of hb hu.2.1
    obtain ⟨more, rfl, hmok⟩ := branches_of hcs hu.2.2
    exact ⟨.if_ (.std p1 n1) c body more (.std p2 n2), by simp [Doc.node, Lay.std], ⟨hcok, hbok, hmok⟩, rfl, rfl⟩
  | .loop (p1 := p1) (n1 := n1) (p2 := p2) (n2 := n2) _ hp _ he hc hb _, hu => by
    simp only [writableNode] at hu
    obtain ⟨p, rfl, hpok⟩ := pat_of hp hu.1
    obtain ⟨e, rfl, heok⟩ := expr_of ht hf he hu.2.1
    obtain ⟨body, rfl, hbok, _⟩ := docs_of hb hu.2.2.2.2.1
    obtain ⟨c, rfl, hcok⟩ := filterCond_of ht hf hc hu.2.2.1
    refine ⟨.for_ (.std p1 n1) p e c body .none (.std p2 n2), by simp [Doc.node, Lay.std], ⟨hpok, heok, ?_, hbok, trivial⟩, rfl, rfl⟩
    rintro x rfl
    refine ⟨hcok x rfl, ?_⟩
    rw [← openRange_tree]
    exact hu.2.2.2.1 rfl
  | .loopElse (p1 := p1) (n1 := n1) (p2 := p2) (n2 := n2) (p3 := p3) (n3 := n3) _ hp _ he hc hb _ hd _, hu => by
    simp only [writableNode] at hu
    obtain ⟨p, rfl, hpok⟩ := pat_of hp hu.1
    obtain ⟨e, rfl, heok⟩ := expr_of ht hf he hu.2.1
    obtain ⟨body, rfl, hbok, _⟩ := docs_of hb hu.2.2.2.2.1
    obtain ⟨els, rfl, hels, _⟩ := docs_of hd hu.2.2.2.2.2
    obtain ⟨c, rfl, hcok⟩ := filterCond_of ht hf hc hu.2.2.1
    refine ⟨.for_ (.std p1 n1) p e c body (.some (.std p2 n2) els) (.std p3 n3), by simp [Doc.node, Lay.std],
      ⟨hpok, heok, ?_, hbok, hels⟩, rfl, rfl⟩
    rintro x rfl
    refine ⟨hcok x rfl, ?_⟩
    rw [← openRange_tree]
    exact hu.2.2.2.1 rfl
  | .match_ (p1 := p1) (n1 := n1) (p2 := p2) (n2 := n2) _ he _ ha hne hel _ _ _, hu => by
    simp only [writableNode] at hu
    obtain ⟨e, rfl, heok⟩ := expr_of ht hf he hu.1
    obtain ⟨as, el, h1, h2, h3, h4⟩ := arms_of ha (fun h => else_of hel h) hu.2
    refine ⟨.match_ (.std p1 n1) e [] as el (.std p2 n2), ?_, ⟨heok, blank_nil, h4 rfl hne, h2, h3⟩, rfl, rfl⟩
    rw [match_node, h1]
    rfl
  | .block (p1 := p1) (n1 := n1) (p2 := p2) (n2 := n2) (m := m) _ _ hm hb _ _, hu => by
    simp only [writableNode] at hu
    obtain ⟨body, rfl, hbok, _⟩ := docs_of hb hu
    exact ⟨.block (.std p1 n1) m body false (.std p2 n2), by simp [Doc.node, Lay.std], ⟨hm, hbok⟩, rfl, rfl⟩
  | .macro (p1 := p1) (n1 := n1) (p2 := p2) (n2 := n2) (m := m) (ps := ps) _ _ hm hsup hp hb _ _, hu => by
    simp only [writableNode] at hu
    obtain ⟨body, rfl, hbok, _⟩ := docs_of hb hu
    exact ⟨.macro (.std p1 n1) m ps body false (.std p2 n2), by simp [Doc.node, Lay.std], ⟨hm, hsup, params_of hp, hbok⟩, rfl, rfl⟩
  | .filterBlock (p1 := p1) (n1 := n1) (p2 := p2) (n2 := n2) _ hfs _ hb _, hu => by
    simp only [writableNode] at hu
    obtain ⟨g, gs, rfl, h1, h2⟩ := filters_of ht hf hfs hu.1
    obtain ⟨body, rfl, hbok, _⟩ := docs_of hb hu.2
    exact ⟨.filter (.std p1 n1) g gs body (.std p2 n2), by simp [Doc.node, Lay.std], ⟨h1, h2, hbok⟩, rfl, rfl⟩
theorem branches_of {loop : Bool} {t : Str} {bs : List Cond} : SpeltConds isLower syn t bs → writableConds isLower syn loop bs →
    ∃ ds, DocBranch.nodes syn ds = bs ∧ DocBranch.Oks syn isLower loop ds
  | .nil, _ => ⟨[], rfl, trivial⟩
  | .cons (p := p) (n := n) (c := c) hc hb hcs, hu => by
    simp only [writableConds] at hu
    obtain ⟨body, rfl, hbok, _⟩ := docs_of hb hu.2.1
    obtain ⟨more, rfl, hmok⟩ := branches_of hcs hu.2.2
    cases c with
    | none => exact ⟨.else_ (.std p n) body :: more, by simp [DocBranch.nodes, DocBranch.node, Lay.std], hbok, hmok⟩
    | some c =>
      have hc' : ∃ x, SpeltCond isLower x c := by
        cases hc with
        | elseIf _ _ h => exact ⟨_, h⟩
        | elif _ h => exact ⟨_, h⟩
      obtain ⟨x, hx⟩ := hc'
      obtain ⟨m, rfl, hok⟩ := test_of ht hf hx hu.1
      exact ⟨.elseIf false (.std p n) m body :: more, by simp [DocBranch.nodes, DocBranch.node, Lay.std], ⟨hok, hbok⟩, hmok⟩
theorem arms_of {loop first : Bool} {t : Str} {ws els : List When} : SpeltArms isLower syn t ws →
    (writableArms isLower syn loop false els → ∃ el, elseArms syn el = els ∧ el.Ok syn isLower loop) →
    writableArms isLower syn loop first (ws ++ els) →
    ∃ as el, DocArm.nodes syn as ++ elseArms syn el = ws ++ els ∧ DocArm.Oks syn isLower loop as ∧ el.Ok syn isLower loop ∧
      (first = true → ws ≠ [] → as ≠ [])
  | .nil, he, hu => by
    cases first with
    | true =>
      have hu' : writableArms isLower syn loop false els := by
        cases els with
        | nil => trivial
        | cons a as =>
          cases a
          simp only [List.nil_append, writableArms] at hu ⊢
          exact ⟨.inl (hu.1.resolve_right fun h => by cases h.1), hu.2⟩
      obtain ⟨el, h1, h2⟩ := he hu'
      exact ⟨[], el, by simpa [DocArm.nodes] using h1, trivial, h2, fun _ h => absurd rfl h⟩
    | false =>
      obtain ⟨el, h1, h2⟩ := he hu
      exact ⟨[], el, by simpa [DocArm.nodes] using h1, trivial, h2, fun _ h => absurd rfl h⟩
  | .cons (p := p) (n := n) (v := v) (ws := ws) _ hp hb has, he, hu => by
    simp only [List.cons_append, writableArms] at hu
    obtain ⟨body, rfl, hbok, _⟩ := docs_of hb hu.2.1
    rcases hu.1 with hv | ⟨rfl, hnil, rfl⟩
    · obtain ⟨m, rfl, hok⟩ := pat_of hp hv
      obtain ⟨as, el, h1, h2, h3, _⟩ := arms_of has he hu.2.2
      exact ⟨.mk (.std p n) m body :: as, el, by simp [DocArm.nodes, DocArm.node, Lay.std, h1], ⟨⟨hok, hbok⟩, h2⟩, h3, by simp⟩
    · simp at hnil
      obtain ⟨rfl, rfl⟩ := hnil
      exact ⟨[], .some (.std p n) body, by simp [DocArm.nodes, elseArms, Lay.std], trivial, hbok, by simp⟩
theorem else_of {loop : Bool} {t : Str} {els : List When} : SpeltElseArm isLower syn t els → writableArms isLower syn loop false els →
    ∃ el, elseArms syn el = els ∧ el.Ok syn isLower loop
  | .none, _ => ⟨.none, rfl, trivial⟩
  | .some (p := p) (n := n) _ hb, hu => by
    simp only [writableArms] at hu
    obtain ⟨body, rfl, hbok, _⟩ := docs_of hb hu.2.1
    exact ⟨.some (.std p n) body, rfl, hbok⟩
end

end

end Askama
