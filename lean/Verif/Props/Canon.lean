import Verif.Lemmas.Canon
import Verif.Props.Prec
import Verif.Props.Grammar
import Verif.Props.Doc
import Verif.Props.Parse
import Verif.Lemmas.CanonNode
import Verif.Lemmas.CanonOk

/-!
# C73: accepted expressions and templates can be written down again
-/

namespace Askama.Props

open Spec

/-- C73 (partial: the oddities of `usual` are left out, see `C73_false_odd`). An accepted expression that has none of the oddities of `usual` can be written down again from its tree, in any layout: there
is a term `m` of that tree, so that whatever white space and commas stand in its text, and whatever the closing bracket or
delimiter after it, the parser reads the text as the very same expression (if the nesting limit allows for the term). (`t` and
`f` are lower-case letters.) -/
theorem C73_expressions_partial (env : PEnv) (n : Nat) (i r : Str) (e : Expr) (ht : env.isLower 't' = true) (hf : env.isLower 'f' = true)
    (h : (exprP env n .parse () i).1 = .ok r e) (hu : usual e) :
    ∃ m : Tm, m.Ok env.isLower ∧ m.tree = e ∧ ∀ (g : Gaps) (b rest : Str) (c : Char) (N : Nat), g.Ok → Blank b → c ∈ c!")],}" →
      m.need + 12 ≤ N → ∃ x, (x = b ++ c :: rest ∨ x = c :: rest) ∧
        exprP env N .parse () (m.write g ++ (b ++ c :: rest)) = (.ok x e, ()) := by
  obtain ⟨t, _, hs⟩ := C71_expressions env n i r e h
  obtain ⟨m, rfl, hok, _⟩ := tm_of ht hf hs hu
  refine ⟨m, hok, rfl, ?_⟩
  intro g b rest c N hg hb hc hN
  have hc' : c = ')' ∨ c = ']' ∨ c = ',' ∨ c = '}' := by simpa using hc
  obtain ⟨x, hx, hr⟩ := (sem_tm m hok g hg).1.parse _ _ (ending_close (r := rest) hb hc') hN
  refine ⟨x, ?_, hr⟩
  rcases hx with hx | ⟨_, hx⟩
  · exact .inl hx
  · right
    rw [hx, gap_drop hb (noWs_cons ?_)]
    rcases hc' with rfl | rfl | rfl | rfl <;> rfl

/-- C73 (partial as above). The text of an expression in an accepted template may be replaced by the text of its tree in the usual layout: one blank
around binary operators and after commas and none in other places, only the parentheses the tree has. -/
theorem C73_in_templates_partial (isLower : Char → Bool) (ht : isLower 't' = true) (hf : isLower 'f' = true) (src : Str) (ns : List Node)
    (w : Ws) (e : Expr) (h : parseTemplate ⟨Syntax.default, isLower⟩ src = .ok ns) (hw : .expr w e ∈ ns) (hu : usual e) :
    ∃ m : Tm, m.Ok isLower ∧ m.tree = e ∧ (m.need + 12 ≤ 128 →
      parseTemplate ⟨Syntax.default, isLower⟩ (c!"{{ " ++ m.text ++ c!" }}") = .ok [.expr ⟨none, none⟩ e]) := by
  have hs := C72_templates ⟨Syntax.default, isLower⟩ src ns (by simp [Syntax.default]) (by simp [Syntax.default]) h
  have key : ∀ {t : Str} {ns : List Node}, SpeltNodes isLower Syntax.default t ns → .expr w e ∈ ns → ∃ u, Spelt isLower 0 u e := by
    intro t ns hs
    induction ns generalizing t with
    | nil => intro h; cases h
    | cons n ns ih =>
      intro hm
      cases hs with
      | cons h1 h2 =>
        rcases List.mem_cons.1 hm with rfl | hm
        · cases h1 with
          | expr h =>
            obtain ⟨u, _, h⟩ := h
            exact ⟨u, h⟩
          | tag h => cases h
        · exact ih h2 hm
  obtain ⟨u, hu'⟩ := key hs hw
  obtain ⟨m, rfl, hok, _⟩ := tm_of ht hf hu' hu
  exact ⟨m, hok, rfl, C28_precedence_partial isLower m hok⟩

/-- C73 (partial: the oddities of `usualNodes` are left out, see `C73_false_odd`). An accepted
template that has none of these oddities can be written down again from its nodes: there is a well-formed template `ds` with
these nodes, and in every layout of its tags, the text is read as the very same nodes (if the nesting limit allows for it). This
holds for all usable delimiters (a comment's closing one is not shorter than the opening one). -/
theorem C73_templates_partial (syn : Syntax) (hs : Usable syn) (hl : syn.commentStart.length ≤ syn.commentEnd.length)
    (isLower : Char → Bool) (ht : isLower 't' = true) (hf : isLower 'f' = true) (src : Str) (ns : List Node)
    (h : parseTemplate ⟨syn, isLower⟩ src = .ok ns) (hu : usualNodes isLower syn ns) :
    ∃ ds : List Doc, Doc.Oks syn isLower false ds ∧ Doc.nodes syn ds = ns ∧
      ∀ ds' : List Doc, Doc.Oks syn isLower false ds' → Doc.plains ds' = Doc.plains ds → Doc.needs ds' ≤ 128 →
        parseTemplate ⟨syn, isLower⟩ (Doc.texts syn ds') = .ok ns := by
  have hcs : syn.commentStart ≠ [] := (hs.start _ (by simp)).1
  have hce : syn.commentEnd ≠ [] := by
    intro h0
    rw [h0] at hl
    exact hcs (List.eq_nil_of_length_eq_zero (by simpa using hl))
  have hc : Syntax.CommentOk syn := ⟨hcs, hce⟩
  have hw : writableNodes isLower syn false ns :=
    writableNodes_of (fun ns ⟨_, _, _, _, h⟩ => noTwoLits_of_tiled h) false ns hu (accepted ⟨syn, isLower⟩ hc src ns h).1
      (noTwoLits_of_tiled (C23_literals_tile ⟨syn, isLower⟩ hc src ns h).1)
  obtain ⟨ds, rfl, hok, _⟩ := docs_of ht hf hs hl (C72_templates ⟨syn, isLower⟩ src ns (List.length_pos_iff.2 hcs) (List.length_pos_iff.2 hce) h) hw
  refine ⟨ds, hok, rfl, fun ds' hok' hp hn => ?_⟩
  rw [C66_tags_read syn hs isLower ds' hok' hn, ← plain_docs syn ds', hp, plain_docs syn ds]

/-- A concrete case: an accepted expression without oddities, and its text in the usual layout. -/
example : parseTemplate ⟨Syntax.default, fun c => 'a' ≤ c ∧ c ≤ 'z'⟩ c!"{{a+ ( b*c )|f( 1,x , )-d . e [0]}}" =
      .ok [.expr ⟨none, none⟩ (.binop c!"-" (.binop c!"+" (.var c!"a") (.filter c!"f"
        [.group (.binop c!"*" (.var c!"b") (.var c!"c")), .numLit c!"1", .var c!"x"]))
          (.index (.attr (.var c!"d") c!"e") (.numLit c!"0")))] := by rfl

example : usual (.binop c!"-" (.binop c!"+" (.var c!"a") (.filter c!"f"
    [.group (.binop c!"*" (.var c!"b") (.var c!"c")), .numLit c!"1", .var c!"x"]))
      (.index (.attr (.var c!"d") c!"e") (.numLit c!"0"))) := by
  simp only [usual, usualAll, true_and, and_true]
  refine ⟨⟨by simp, by simp⟩, .inl ⟨⟨'e', [], rfl, by simp [identChar], by decide⟩, by simp [identChar]⟩, by simp⟩

example : (Tm.bin .sub (.bin .add (.var c!"a") (.filter (.parens (.bin .mul (.var c!"b") (.var c!"c"))) c!"f"
    [.num c!"1", .var c!"x"])) (.index (.attr (.var c!"d") c!"e") (.num c!"0"))).text = c!"a + (b * c)|f(1, x) - d.e[0]" := by rfl

/-- The oddities are read, but their text in the usual layout is something else. -/
theorem C73_false_odd :
    parseTemplate ⟨Syntax.default, Char.isLower⟩ c!"{{ 1 .0 }}" = .ok [.expr ⟨none, none⟩ (.attr (.numLit c!"1") c!"0")] ∧
    parseTemplate ⟨Syntax.default, Char.isLower⟩ c!"{{ 1.0 }}" = .ok [.expr ⟨none, none⟩ (.numLit c!"1.0")] := ⟨rfl, rfl⟩

/-- A concrete case: an accepted template without oddities. -/
example : parseTemplate ⟨Syntax.default, Char.isLower⟩ c!"{%for x in  xs%}{%-if x%}a {% break %}{% endif %}{% endfor %}" =
    .ok [.loop ⟨none, none⟩ (.name c!"x") (.var c!"xs") none [.if_ ⟨none, none⟩ [.mk ⟨some .suppress, none⟩ (some ⟨none, .var c!"x"⟩)
      [.lit (litOf c!"a "), .break_ ⟨none, none⟩]]] ⟨none, none⟩ [] ⟨none, none⟩] := by rfl

example : usualNodes Char.isLower Syntax.default [.loop ⟨none, none⟩ (.name c!"x") (.var c!"xs") none
    [.if_ ⟨none, none⟩ [.mk ⟨some .suppress, none⟩ (some ⟨none, .var c!"x"⟩) [.lit (litOf c!"a "), .break_ ⟨none, none⟩]]]
      ⟨none, none⟩ [] ⟨none, none⟩] := by
  simp only [usualNodes, usualNode, usualPat, usual, usualOpt, usualConds, usualTestOpt, usualTest, and_true, true_and, noBool,
    firstWord]
  refine ⟨⟨by decide, by decide⟩, by simp, by decide, ?_⟩
  intro d hd a ha hp hs
  obtain ⟨p, hp⟩ := hp
  obtain ⟨t, hs⟩ := hs
  have h1 : a.getLast? = some ' ' := by
    have := congrArg List.getLast? hs
    rw [List.getLast?_append] at this
    cases h : a.getLast? with
    | none => exact absurd (List.getLast?_eq_none_iff.1 h) ha
    | some x => rw [h] at this; exact this
  have h2 : ' ' ∈ d := hp ▸ List.mem_append_left _ (List.mem_of_getLast? h1)
  clear hp
  revert d
  decide

end Askama.Props
