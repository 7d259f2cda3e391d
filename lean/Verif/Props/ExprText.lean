import Verif.Lemmas.TextRead
import Verif.Lemmas.NodeShape
import Verif.Props.Counter

/-!
# Property C61: the Rust text of an expression

`visit_expr` does not build a syntax tree but writes text, which rustc reads. `exprText` is that text, `visitExpr` the
expression it is meant to be, `ReadsAs` the reading of a text by the rules of Rust.
-/

namespace Askama.Props

open Askama.Spec

/-- A text has at most one reading. -/
theorem readsAs_unique {s : Str} {t u : Tree} (h : ReadsAs s t) (h' : ReadsAs s u) : t = u := by
  obtain ⟨ts, h1, N, h2⟩ := h
  obtain ⟨ts', g1, M, g2⟩ := h'
  cases h1.symm.trans g1
  have := (h2 (max N M) (Nat.le_max_left _ _)).symm.trans (g2 (max N M) (Nat.le_max_right _ _))
  simpa using this

/-- C61, for expressions of the shape the grammar gives. -/
theorem C61_shaped {I : GenInput} {T : TextLocals} {L : Locals} (hesc : EscaperPath I.escaper)
    (hescs : ∀ e ∈ I.escapers, EscaperPath e.2) (hscope : Agree I T L) {e : Expr} {r : RExpr} {w : Bool}
    (hshape : shaped e = true) (hord : ordinary e) (h : visitExpr I L e = .ok (r, w)) :
    ∃ t, ReadsAs (exprText I T e) t ∧ Spells I.escaper t r ∧ ∀ u, ReadsAs (exprText I T e) u → u = t := by
  obtain ⟨t, h1, h2⟩ := text_reads ⟨hesc, hescs⟩ hscope hshape hord h
  exact ⟨t, h1, h2, fun u hu => readsAs_unique hu h1⟩

/-- C61. For every template that is accepted and every expression that stands in it (the filters of filter blocks are
applied to some variable `x`): the text written for the expression is read by Rust as the expression it is meant to be,
with the same operators, operands, calls and arguments, and in no other way. Partial: the expression is `ordinary`, which
the grammar does not guarantee (and without which the statement is false, see below); parameters of macros stand for
expressions of this kind (`Agree`). -/
theorem C61_expr_text_partial {env : PEnv} {src : Str} {nodes : List Node} (hparse : parseTemplate env src = .ok nodes)
    {x : Str} (hx : isName x = true) {e : Expr} (he : e ∈ nodesExprs x nodes) (hord : ordinary e)
    {I : GenInput} {T : TextLocals} {L : Locals} (hesc : EscaperPath I.escaper)
    (hescs : ∀ e ∈ I.escapers, EscaperPath e.2) (hscope : Agree I T L) {r : RExpr} {w : Bool}
    (h : visitExpr I L e = .ok (r, w)) :
    ∃ t, ReadsAs (exprText I T e) t ∧ Spells I.escaper t r ∧ ∀ u, ReadsAs (exprText I T e) u → u = t :=
  C61_shaped hesc hescs hscope (template_shaped hparse hx e he) hord h

/-! ## A case -/

/-- An input with the HTML escaper. -/
def textInput : GenInput where
  ws := .preserve
  escaper := c!"::askama::Html"
  escapers := [([c!"html"], c!"::askama::Html"), ([c!"txt"], c!"::askama::Text")]
  json := true
  block := none
  find := fun _ => none
  contexts := []

theorem textInput_escapers : EscaperPath textInput.escaper ∧ ∀ e ∈ textInput.escapers, EscaperPath e.2 := by
  have h1 : EscaperPath c!"::askama::Html" := ⟨[[], c!"askama", c!"Html"], rfl, by decide, by decide⟩
  have h2 : EscaperPath c!"::askama::Text" := ⟨[[], c!"askama", c!"Text"], rfl, by decide, by decide⟩
  refine ⟨h1, ?_⟩
  simp only [textInput, List.mem_cons, List.not_mem_nil, or_false]
  rintro e (rfl | rfl)
  · exact h1
  · exact h2

/-- Nothing is known of any name. -/
theorem agree_empty (I : GenInput) : Agree I (fun _ => none) MapChain.empty := .mk fun _ => .unknown

/-- `v` is a variable, and `p` stands for `item.name`. -/
def textScope : Locals :=
  ⟨[[(c!"v", { refs := none, initialized := true }),
     (c!"p", { refs := some (.attr (.field c!"item") c!"name"), initialized := true })]], []⟩

/-- The texts of the names. -/
def textNames : TextLocals := fun n =>
  if n = c!"v" then some none else if n = c!"p" then some (some c!"self.item.name") else none

theorem agree_sample : Agree textInput textNames textScope := by
  refine .mk fun n => ?_
  by_cases h1 : n = c!"v"
  · subst h1
    exact .variable true
  by_cases h2 : n = c!"p"
  · subst h2
    exact .stands (e := .attr (.var c!"item") c!"name") true (agree_empty _) rfl (by decide)
      (by simp only [ordinary]; exact .inr ⟨.inr (by decide), by decide⟩) (w := false) rfl
  · have e1 : textNames n = none := by simp [textNames, h1, h2]
    have e2 : MapChain.get textScope n = none := by
      simp [textScope, MapChain.get, Scope.get, Ne.symm h1, Ne.symm h2, beq_eq_false_iff_ne.mpr]
    rw [e1, e2]
    exact .unknown

/-- `-(v + type) * p.d[i](x * 2, "s")|e` -/
def textExpr : Expr :=
  .binop c!"*" (.unary c!"-" (.group (.binop c!"+" (.var c!"v") (.var c!"type"))))
    (.filter c!"e" [.call (.index (.attr (.var c!"p") c!"d") (.var c!"i"))
      [.binop c!"*" (.var c!"x") (.numLit c!"2"), .strLit c!"s"]])

theorem textExpr_ordinary : ordinary textExpr := by
  simp only [textExpr, ordinary, ordinaryAll, and_true, true_and]
  refine ⟨by decide, ⟨by decide, .inr (by decide), .inr (by decide)⟩, by decide, ⟨⟨.inr ⟨.inr (by decide), by decide⟩,
    .inr (by decide)⟩, by decide, .inr (by decide)⟩, by simp⟩

/-- The text: variables, arguments of macros, fields, keywords; references and braces around arguments. -/
example : exprText textInput textNames textExpr
    = c!"-(v + self.r#type) * ::askama::filters::escape(::askama::Html, {\n&self.item.name.d[self.i](&(self.x * 2), \"s\")}\n)?" := by
  decide +kernel

/-- The template it comes from. -/
theorem textExpr_parsed : parseTemplate ⟨Syntax.default, Char.isLower⟩ c!"{{ -(v + type) * p.d[i](x * 2, \"s\")|e }}"
    = .ok [.expr ⟨none, none⟩ textExpr] := by
  rfl

example : ∃ r w t, visitExpr textInput textScope textExpr = .ok (r, w) ∧ ReadsAs (exprText textInput textNames textExpr) t ∧
    Spells textInput.escaper t r := by
  obtain ⟨t, h1, h2, _⟩ := C61_expr_text_partial textExpr_parsed (x := c!"x") rfl (e := textExpr) (by simp [nodesExprs, nodeExprs])
    textExpr_ordinary textInput_escapers.1 textInput_escapers.2 agree_sample rfl
  exact ⟨_, _, t, rfl, h1, h2⟩

/-! ## What goes wrong -/

/-- The text of `x|join(a + b)`. -/
def joinExpr : Expr := .filter c!"join" [.var c!"x", .binop c!"+" (.var c!"a") (.var c!"b")]

/-- How Rust reads it: `(&self.a) + self.b` -/
def joinTree : Tree :=
  .try_ (.call (inAskama [c!"filters", c!"join"])
    [.call (.field (.paren (.borrow (.field (.path [c!"self"]) c!"x"))) c!"into_iter") [],
     .binary .add (.borrow (.field (.path [c!"self"]) c!"a")) (.field (.path [c!"self"]) c!"b")])

/-- It is the expression of this template. -/
theorem joinExpr_parsed : parseTemplate ⟨Syntax.default, Char.isLower⟩ c!"{{ x|join(a + b) }}"
    = .ok [.expr ⟨none, none⟩ joinExpr] := by
  rfl

/-- C61 is false for `join`: its argument `a + b` is written behind `&` without parentheses, so that `&` is applied to `a`
alone (askama_derive/src/generator.rs:1412-1416). -/
theorem C61_false_join : ∃ r w,
    parseTemplate ⟨Syntax.default, Char.isLower⟩ c!"{{ x|join(a + b) }}" = .ok [.expr ⟨none, none⟩ joinExpr] ∧
    visitExpr textInput MapChain.empty joinExpr = .ok (r, w) ∧
    ∀ t, ReadsAs (exprText textInput (fun _ => none) joinExpr) t → ¬ Spells textInput.escaper t r := by
  refine ⟨.join [.field c!"x", .binop c!"+" (.field c!"a") (.field c!"b")], false, joinExpr_parsed, by rfl, ?_⟩
  have hr : ReadsAs (exprText textInput (fun _ => none) joinExpr) joinTree := by
    refine ⟨joinTree.toks, by decide +kernel, ?_⟩
    have := Tree.read (rest := []) (t := joinTree) ?_ endE_nil
    · simp only [List.append_nil] at this
      exact this
    · simp only [joinTree, inAskama, Tree.Wf, WfL, PathOk, FieldOk]
      decide
  intro t ht hs
  cases readsAs_unique ht hr
  generalize hj : joinTree = t at hs
  generalize hq : RExpr.join [.field c!"x", .binop c!"+" (.field c!"a") (.field c!"b")] = r at hs
  cases hs <;> first
    | (cases hq; done)
    | (cases hj; done)
    | skip
  rename_i t ts r rs h1 h2
  simp only [joinTree, Tree.try_.injEq, Tree.call.injEq, List.cons.injEq, true_and] at hj
  cases ts with
  | nil => exact absurd hj.2 (by simp)
  | cons u ts => simp at hj

/-- ... and here the expression of this one. -/
theorem number_parsed : parseTemplate ⟨Syntax.default, Char.isLower⟩ c!"{{ 1 .5 }}"
    = .ok [.expr ⟨none, none⟩ (.attr (.numLit c!"1") c!"5")] := by
  rfl

/-- C61 is false for fields of numbers: `1 .5`, the field `5` of `1`, is written `1.5`
(askama_derive/src/generator.rs:1496-1506). -/
theorem C61_false_number : ∃ r w,
    parseTemplate ⟨Syntax.default, Char.isLower⟩ c!"{{ 1 .5 }}" = .ok [.expr ⟨none, none⟩ (.attr (.numLit c!"1") c!"5")] ∧
    visitExpr textInput MapChain.empty (.attr (.numLit c!"1") c!"5") = .ok (r, w) ∧
    ReadsAs (exprText textInput (fun _ => none) (.attr (.numLit c!"1") c!"5")) (.lit (.num c!"1.5")) ∧
    ¬ Spells textInput.escaper (.lit (.num c!"1.5")) r := by
  refine ⟨.attr (.lit .num c!"1") c!"5", false, number_parsed, by rfl, ⟨[.num c!"1.5"], by decide +kernel, ?_⟩, fun h => by cases h⟩
  have := Tree.read (rest := []) (t := .lit (.num c!"1.5")) (by simp only [Tree.Wf]; rfl) endE_nil
  simp only [Tree.toks, List.append_nil] at this
  exact this

end Askama.Props
