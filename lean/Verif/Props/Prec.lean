import Verif.Lemmas.PrecTree
import Verif.Props.ParseTags

/-!
# Property C28: operator precedence

`Spec.Tm` is an expression, `Tm.text` its text with the parentheses it says and those Rust's precedence table makes
necessary, `Tm.tree` its syntax tree.
-/

namespace Askama.Props

open Spec PT

/-- The parser at an expression. -/
theorem nodeAlt_expr {env : PEnv} {tgt : SP Target} {many : SP (List Node)} {s : PState} {i : Str}
    (he : env.syn.exprStart <+: i) (hb : ¬ env.syn.blockStart <+: i) (hc : ¬ env.syn.commentStart <+: i) (hne : i ≠ []) :
    nodeAlt env tgt many s i = PT.alt (exprNode env) (nodeP env tgt many) s i := by
  have hl : PT.map Node.lit (PT.lift (litP env)) s i = (.err false i none, s) := by
    cases i with
    | nil => exact absurd rfl hne
    | cons c i =>
      refine map_err (lift_err (u := ()) ?_)
      unfold litP
      have hne : (PT.not PT.eof : P Unit) () (c :: i) = (.ok (c :: i) (), ()) := rfl
      rw [bind_ok hne]
      obtain ⟨i', hi'⟩ := he
      have h1 : anyStart env.syn () (c :: i) = (.ok i' env.syn.exprStart, ()) := by
        unfold anyStart
        rw [alt_err (tag_err hb), alt_err (tag_err hc), ← hi']
        exact tag_ok
      have h2 : skipTill (anyStart env.syn) () ([] ++ (c :: i)) = (.ok (c :: i) (i', env.syn.exprStart), ()) := by
        simp only [List.nil_append]
        unfold skipTill skipTillGo
        rw [h1]
      have h3 := opt_ok (recognize_ok h2)
      rw [List.nil_append] at h3
      rw [bind_ok h3]
      rfl
  unfold nodeAlt
  rw [alt_err hl]
  have hcm : PT.map (fun c : Ws × Str => Node.comment c.1 c.2) (commentP env) s i = (.err false i none, s) := by
    refine map_err ?_
    unfold commentP
    exact bind_err (tag_err hc)
  rw [alt_err hcm]

/-- The text begins with a character that is no white space and, `-` apart, no mark. -/
def StartsPlain (t : Str) : Prop := ∃ c t', t = c :: t' ∧ c ≠ '+' ∧ c ≠ '~' ∧ isWsp c = false

theorem StartsPlain.noWs {t : Str} (h : StartsPlain t) (r : Str) : NoWs (t ++ r) := by
  obtain ⟨c, t', rfl, _, _, hc⟩ := h
  exact noWs_cons hc

theorem StartsPlain.of {t : Str} (h : StartExpr t) : StartsPlain t := by
  have hw := (h.facts []).1
  obtain ⟨c, t', rfl, hc⟩ := h
  refine ⟨c, t', rfl, ?_, ?_, ?_⟩
  · rintro rfl
    rcases hc with (hc | hc | hc | hc | hc | hc | hc) | hc | hc <;> revert hc <;> decide
  · rintro rfl
    rcases hc with (hc | hc | hc | hc | hc | hc | hc) | hc | hc <;> revert hc <;> decide
  · exact hw c rfl

theorem starts_plain {env : PEnv} {e : Tm} {g : Gaps} (h : e.Ok env.isLower) (hg : g.Ok) : StartsPlain (e.write g) := by
  by_cases hr : Tm.isRange e = true
  · cases e <;> simp [Tm.isRange] at hr
    rename_i incl a b
    cases a with
    | none => cases incl <;> exact ⟨'.', _, rfl, by decide, by decide, by decide⟩
    | some a =>
      obtain ⟨pr, _, h2⟩ := item_paren ((hg.sub 0).sub 1) (sem_tm a h.1 ((g.sub 0).sub 0) ((hg.sub 0).sub 0)) 0 (by omega)
      obtain ⟨c, t, ht, h3⟩ := StartsPlain.of h2.start
      simp only [Tm.write, Tm.leftText]
      rw [ht]
      exact ⟨c, _, rfl, h3⟩
  · exact .of ((sem_tm e h g hg).2.1 (by simpa using hr)).start

/-- `{{`, blanks, text, blanks, `}}`, where the expression parser reads `text`. -/
theorem expr_template {isLower : Char → Bool} {a b t : Str} {T : Expr} {f : Bool} (ha : Blank a) (hb : Blank b)
    (hm : a ≠ [] ∨ t.head? ≠ some '-') (hs : StartsPlain t)
    (h : ∃ x, Left f (b ++ c!"}}") x ∧ exprP ⟨Syntax.default, isLower⟩ maxDepth .parse () (t ++ (b ++ c!"}}")) = (.ok x T, ())) :
    parseTemplate ⟨Syntax.default, isLower⟩ (c!"{{" ++ a ++ t ++ b ++ c!"}}") = .ok [.expr ⟨none, none⟩ T] := by
  obtain ⟨x, hx, hr⟩ := h
  refine parseTemplate_one (s' := ⟨0, 0⟩) (by simp) ⟨by simp [Syntax.default], by simp [Syntax.default], by simp [Syntax.default]⟩ ?_
  rw [nodeAlt_expr ⟨a ++ (t ++ (b ++ c!"}}")), by simp [Syntax.default]⟩ (by simp [Syntax.default, prefix_cons_iff])
    (by simp [Syntax.default, prefix_cons_iff]) (by simp)]
  refine alt_ok ?_
  rw [show c!"{{" ++ a ++ t ++ b ++ c!"}}" = c!"{{" ++ (a ++ (t ++ (b ++ c!"}}"))) by simp]
  unfold exprNode
  refine (bind_ok (tag_ok (t := c!"{{"))).trans ?_
  have hw := ws_ok (p := exprHere ⟨Syntax.default, isLower⟩) (s := ⟨0, 0⟩) (i := a ++ (t ++ (b ++ c!"}}"))) (r := x) (a := T)
    (s' := ⟨0, 0⟩) (by
      rw [gap_drop ha (hs.noWs _)]
      unfold exprHere
      rw [show maxDepth - (⟨0, 0⟩ : PState).level = maxDepth from rfl, hr])
  rw [hx.drop, gap_drop hb (noWs_cons (by decide))] at hw
  refine (bind_ok (a := (none, T)) (r := c!"}}") (s' := ⟨0, 0⟩) ?_).trans ?_
  · refine cut_ok ?_
    refine (bind_ok (optMark_none ?_)).trans ((bind_ok hw).trans rfl)
    cases a with
    | nil =>
      have hm' := hm.resolve_left (by simp)
      obtain ⟨c, t', rfl, h1, h2, h3⟩ := hs
      exact ⟨by simpa using h1, by simpa using hm', by simpa using h2⟩
    | cons y a =>
      have hy := isWsp_iff.2 (ha y (by simp))
      refine ⟨?_, ?_, ?_⟩ <;> simp only [List.cons_append, List.head?_cons, ne_eq, Option.some.injEq] <;>
        rintro rfl <;> exact absurd hy (by decide)
  · rfl

/-- C28 (partial: `|` directly after a filter without arguments and a numbered field directly after a number are excluded, see
`C28_false_filter_bar` and `C28_false_tuple_field`). An expression — names, paths, literals, arrays, tuples, groups, fields,
indices, calls, macro calls, `?`, prefix operators, filters with and without arguments, binary operators, ranges — is parsed
to its own tree, however it is laid out: with any white space `g` says wherever white space may stand, with or without a
comma after the last element of a list, and any white space `a` and `b` next to the delimiters (`{{-` alone is a mark). -/
theorem C28_layout_partial (isLower : Char → Bool) (e : Tm) (g : Gaps) (a b : Str) (hok : e.Ok isLower) (hg : g.Ok)
    (ha : Blank a) (hb : Blank b) (hm : a ≠ [] ∨ (e.write g).head? ≠ some '-') (hd : e.need + 12 ≤ 128) :
    parseTemplate ⟨Syntax.default, isLower⟩ (c!"{{" ++ a ++ e.write g ++ b ++ c!"}}") = .ok [.expr ⟨none, none⟩ e.tree] := by
  have hi := (sem_tm (env := ⟨Syntax.default, isLower⟩) e hok g hg).1
  exact expr_template ha hb hm (starts_plain (env := ⟨Syntax.default, isLower⟩) hok hg) (hi.parse _ _ (ending_close hb (by simp)) hd)

/-- C28 (partial as above), laid out in the usual way. -/
theorem C28_precedence_partial (isLower : Char → Bool) (e : Tm) (hok : e.Ok isLower) (hd : e.need + 12 ≤ 128) :
    parseTemplate ⟨Syntax.default, isLower⟩ (c!"{{ " ++ e.text ++ c!" }}") = .ok [.expr ⟨none, none⟩ e.tree] := by
  have := C28_layout_partial isLower e .std [' '] [' '] hok std_ok blank_sp blank_sp (by simp) hd
  simpa using this

/-- C28: `..` and `..=` bind loosest of all: their operands need no parentheses, whatever operators they contain. -/
theorem C28_range (isLower : Char → Bool) (incl : Bool) (a b : Tm) (ha : a.Ok isLower) (hb : b.Ok isLower)
    (ha' : ∀ i x y, a ≠ .range i x y) (hb' : ∀ i x y, b ≠ .range i x y) (hda : a.need + 12 ≤ 128) (hdb : b.need + 12 ≤ 128) :
    parseTemplate ⟨Syntax.default, isLower⟩
      (c!"{{ " ++ (a.text ++ ' ' :: ((if incl then c!"..=" else c!"..") ++ ' ' :: b.text)) ++ c!" }}") =
    .ok [.expr ⟨none, none⟩ (.range (if incl then c!"..=" else c!"..") (some a.tree) (some b.tree))] := by
  have hl : ∀ e : Tm, (∀ i x y, e ≠ .range i x y) → e.loose 0 = false := by
    intro e he
    cases e <;> simp [Tm.loose]
    exact he _ _ _ rfl
  have := C28_precedence_partial isLower (.range incl (some a) (some b)) ⟨ha, hb⟩ (by
    simp only [Tm.need, Tm.endNeed, hl a ha', hl b hb']
    simp
    omega)
  simpa [Tm.text, Tm.write, Gaps.gap, Gaps.std, Gaps.sub, Tm.leftText, Tm.rightText, Tm.tree, Tm.endTree, hl a ha', hl b hb', paren, Spec.group, dots] using this

/-- C28: white space makes no difference between tokens, and parentheses are remembered: two expressions with the same text,
each in a layout of its own, have the same tree. -/
theorem C28_unambiguous (isLower : Char → Bool) (e e' : Tm) (g g' : Gaps) (h : e.Ok isLower) (h' : e'.Ok isLower) (hg : g.Ok)
    (hg' : g'.Ok) (hd : e.need + 12 ≤ 128) (hd' : e'.need + 12 ≤ 128) (ht : e.write g = e'.write g') : e.tree = e'.tree := by
  have h1 := C28_layout_partial isLower e g [' '] [] h hg blank_sp blank_nil (by simp) hd
  have h2 := C28_layout_partial isLower e' g' [' '] [] h' hg' blank_sp blank_nil (by simp) hd'
  rw [ht, h2] at h1
  simpa using h1.symm

/-- C28: after a filter, ` | ` is not the bit-or operator: the filter parser skips the blanks after a filter's name, and
the next name is taken as another filter. -/
theorem C28_false_filter_bar :
    parseTemplate ⟨Syntax.default, Char.isLower⟩ c!"{{ a|f | b }}" =
      .ok [.expr ⟨none, none⟩ (.filter c!"b" [.filter c!"f" [.var c!"a"]])] ∧
    parseTemplate ⟨Syntax.default, Char.isLower⟩ c!"{{ a | b }}" =
      .ok [.expr ⟨none, none⟩ (.binop c!"|" (.var c!"a") (.var c!"b"))] ∧
    parseTemplate ⟨Syntax.default, Char.isLower⟩ c!"{{ a|f(c) | b }}" =
      .ok [.expr ⟨none, none⟩ (.binop c!"|" (.filter c!"f" [.var c!"a", .var c!"c"]) (.var c!"b"))] ∧
    (Tm.bin .bitor (.filter (.var c!"a") c!"f" []) (.var c!"b")).text = c!"a|f | b" := by
  refine ⟨?_, ?_, ?_, by decide +kernel⟩ <;> rfl

/-- C28: the field `1` of the field `0` of `a` cannot be written `a.0.1`: the parser takes `0.1` as one number, and the tree
says "the field `0.1`". -/
theorem C28_false_tuple_field :
    parseTemplate ⟨Syntax.default, Char.isLower⟩ c!"{{ a.0.1 }}" =
      .ok [.expr ⟨none, none⟩ (.attr (.var c!"a") c!"0.1")] ∧
    (Tm.attr (.attr (.var c!"a") c!"0") c!"1").text = c!"a.0.1" ∧
    (Tm.attr (.attr (.var c!"a") c!"0") c!"1").tree = .attr (.attr (.var c!"a") c!"0") c!"1" := by
  refine ⟨rfl, by decide +kernel, by rfl⟩

/-! ## The hypotheses can be met -/

private theorem var_ok (c : Char) (h : 'a' ≤ c ∧ c ≤ 'z') (hl : Char.isLower c = true) :
    Variable Char.isLower [c] := by
  refine ⟨⟨⟨c, [], rfl, .inl h, ?_⟩, by simp [identChar, h]⟩, by simpa using hl, by simp, by simp⟩
  rintro ⟨_, h2⟩
  have h1 := h.1
  simp [Char.le_def, UInt32.le_iff_toNat_le] at h1 h2
  omega

/-- `!(a + b)[c] * d - (e - f) || g|h` -/
private def sample : Tm :=
  .bin .or
    (.bin .sub (.bin .mul (.unary .not (.index (.bin .add (.var c!"a") (.var c!"b")) (.var c!"c"))) (.var c!"d"))
      (.bin .sub (.var c!"e") (.var c!"f")))
    (.filter (.var c!"g") c!"h" [])

example : sample.text = c!"!(a + b)[c] * d - (e - f) || g|h" := by decide +kernel

example : sample.Ok Char.isLower ∧ sample.need + 12 ≤ 128 := by
  refine ⟨?_, by decide +kernel⟩
  have hv : ∀ c : Char, ('a' ≤ c ∧ c ≤ 'z') → Char.isLower c = true → Variable Char.isLower [c] := var_ok
  refine ⟨⟨⟨⟨⟨hv _ ?_ ?_, hv _ ?_ ?_, ?_⟩, hv _ ?_ ?_⟩, hv _ ?_ ?_, ?_⟩, ⟨hv _ ?_ ?_, hv _ ?_ ?_, ?_⟩, ?_⟩,
    ⟨hv _ ?_ ?_, (hv 'h' (by decide) (by decide)).1, trivial⟩, ?_⟩ <;> first | decide | (intro h; cases h)

/-- `f(a.0, [1.5, "x\"y"], (b,))?|g('c', M::n + true) ..= ::p::q` -/
private def sample' : Tm :=
  .range true
    (some (.filter
      (.try_ (.call (.var c!"f") [.attr (.var c!"a") c!"0", .array [.num c!"1.5", .str c!"x\\\"y"], .tuple [.var c!"b"]]))
      c!"g" [.chr c!"c", .bin .add (.path false [c!"M", c!"n"]) (.bool true)]))
    (some (.path true [c!"p", c!"q"]))

example : sample'.text = c!"f(a.0, [1.5, \"x\\\"y\"], (b,))?|g('c', M::n + true) ..= ::p::q" := by decide +kernel

example : sample'.Ok Char.isLower ∧ sample'.need + 12 ≤ 128 := by
  refine ⟨?_, by decide +kernel⟩
  have hv : ∀ c : Char, ('a' ≤ c ∧ c ≤ 'z') → Char.isLower c = true → Variable Char.isLower [c] := var_ok
  have hN : Name c!"M" := by
    refine ⟨⟨'M', [], rfl, .inr (.inl (by decide)), by decide⟩, ?_⟩
    intro c hc
    simp at hc
    subst hc
    exact .inr (.inl (by decide))
  have hn : Number c!"1.5" :=
    .frac (a := c!"1") (b := c!"5") (ty := []) ⟨⟨_, _, rfl, by decide⟩, by decide⟩ ⟨⟨_, _, rfl, by decide⟩, by decide⟩ (by decide)
  have hx : StrBody c!"x\\\"y" := .char _ (by decide) (by decide) (.escape _ (.char _ (by decide) (by decide) .nil))
  refine ⟨⟨⟨hv _ ?_ ?_, ⟨hv _ ?_ ?_, .inr ⟨?_, ?_⟩⟩, ⟨hn, hx, trivial⟩,
    ⟨hv _ ?_ ?_, trivial⟩, trivial⟩, (hv 'g' (by decide) (by decide)).1,
    .char _ ?_ ?_, ⟨⟨?_, .inl ?_⟩, ⟨?_, ?_⟩, ?_⟩, trivial⟩, ?_, .inl ?_⟩ <;>
    first
    | decide
    | (intro h; cases h; done)
    | skip
  · intro s hs
    simp at hs
    rcases hs with rfl | rfl
    · exact hN
    · exact (hv 'n' (by decide) (by decide)).1
  · intro s hs
    simp at hs
    rcases hs with rfl | rfl
    · exact (hv 'p' (by decide) (by decide)).1
    · exact (hv 'q' (by decide) (by decide)).1

/-- A tab at the odd places, a line break at the even ones, a comma at the end of every list. -/
private def wide : Gaps := ⟨fun _ k => if k % 2 = 0 then ['\n'] else ['\t'], fun _ => true⟩

/-- No white space at all. -/
private def tight : Gaps := ⟨fun _ _ => [], fun _ => false⟩

example : wide.Ok ∧ tight.Ok := by
  refine ⟨fun p k c hc => ?_, fun p k c hc => by simp [tight] at hc⟩
  simp only [wide] at hc
  split at hc <;> simp at hc <;> simp [hc, isBlank]

example : sample.write tight = c!"!(a+b)[c]*d-(e-f)||g|h" ∧ sample'.write tight = c!"f(a.0,[1.5,\"x\\\"y\"],(b,))?|g('c',M::n+true)..=::p::q" ∧
    (Tm.bin .bitor (.call (.var c!"f") [.var c!"a"]) (.unary .neg (.var c!"b"))).write wide = c!"f\n(\na\n,\n)\t|\t-\nb" := by
  decide +kernel

/-- `m!("(", (1)) + (0xffu8 * ('\u{41}')[1e5])` -/
private def sample'' : Tm :=
  .bin .add (.mac false [c!"m"] c!"\"(\", (1)")
    (.parens (.bin .mul (.num c!"0xffu8") (.index (.parens (.chr c!"\\u{41}")) (.num c!"1e5"))))

example : sample''.text = c!"m!(\"(\", (1)) + (0xffu8 * ('\\u{41}')[1e5])" := by decide +kernel

example : sample''.Ok Char.isLower ∧ sample''.need + 12 ≤ 128 := by
  refine ⟨?_, by decide +kernel⟩
  have hm : MacroText c!"\"(\", (1)" :=
    .str (b := c!"(") (.char _ (by decide) (by decide) .nil)
      (.char _ (by decide) (.char _ (by decide) (.paren (a := c!"1") (.char _ (by decide) .nil) .nil)))
  have h1 : Number c!"0xffu8" :=
    .based (us := []) (d := c!"ff") (ty := c!"u8") (by decide) (by decide) ⟨⟨_, _, rfl, by decide⟩, by decide⟩ (by decide)
  have h2 : Number c!"1e5" :=
    .exp (a := c!"1") (fr := []) (us := []) (d := c!"5") (ty := []) (e := 'e') (sg := []) ⟨⟨_, _, rfl, by decide⟩, by decide⟩ (.inl rfl)
      (by decide) (by decide) (by decide) ⟨⟨_, _, rfl, by decide⟩, by decide⟩ (by decide)
  have h3 : ChrBody c!"\\u{41}" := .unicode c!"41" (by decide) (by decide) (by decide) (by decide)
  exact ⟨⟨.inr ⟨rfl, _, rfl, var_ok _ (by decide) (by decide)⟩, hm⟩, ⟨h1, ⟨h3, h2⟩, by decide⟩, by decide⟩

end Askama.Props
