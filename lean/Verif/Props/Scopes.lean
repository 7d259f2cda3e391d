import Verif.Lemmas.Params
import Verif.Props.Text
import Verif.Props.Counter

/-! C39, C43, C44, C46 and C48: the parts that hold. What does not hold is in `Verif.Props.Counter`. -/

namespace Askama.Props

open Askama Askama.Spec

variable {U : Type} {W : World U} {I : GenInput}

/-! ## C39 -/

/-- C39, for the templates on which the generator is known to be faithful: a `let` has no text and does not change the
text before it; after it, its variables have the value. Missing are the templates that do not pass the check: a `let` may
change output before it, see `C39_false`. -/
theorem C39_let_partial (hs : Stable W) {code : List Stmt} {w : Whole} (h : Translates code w) {pre post : List Node}
    {ws : Ws} {t : Target} {v : Option Expr} (hr : w.root.nodes = pre ++ .let_ ws t v :: post) (s : Str) :
    Finishes W code s ↔ w.Around W pre (.let_ ws t v) post
      (fun p m st => m = [] ∧ LetBinds W w.input p.store t v st) s :=
  translates_around hs h hr _ (fun _ _ _ => by rw [makes_let, runLet_iff]; simp) s

/-- The same for a `let` at any place. -/
theorem C39_everywhere {p : Place U} {ws : Ws} {t : Target} {v : Option Expr} {s : Str} {sig : Sig} {st : Store U} :
    Makes W I p [.let_ ws t v] s sig st ↔ s = [] ∧ sig = .next ∧ LetBinds W I p.store t v st := by
  rw [makes_let, runLet_iff]

theorem assigned_find {n : Str} {v : Val U} (m : Str) : (vars : List (Str × Option (Val U))) →
    {vars' : List (Str × Option (Val U))} → assignVar n v vars = some vars' →
    (vars'.find? (fun e => e.1 == m)).bind (·.2)
      = if n = m then some v else (vars.find? (fun e => e.1 == m)).bind (·.2)
  | [], _, h => by cases h
  | (k, w) :: vars, vars', h => by
    simp only [assignVar] at h
    split at h
    · rename_i hk
      cases h
      subst hk
      by_cases hm : k = m
      · simp [hm]
      · simp [hm]
    · rename_i hk
      obtain ⟨vars1, h1, rfl⟩ := Option.map_eq_some_iff.mp h
      have ih := assigned_find m vars h1
      by_cases hm : k = m
      · subst hm
        simp [Ne.symm hk]
      · simp only [List.find?_cons, beq_eq_false_iff_ne.mpr hm, ih]

/-- After `let x = e`, `x` is the value of `e`, and other names mean what they meant before. (`#` is not part of names in
templates.) -/
theorem C39_value {st st' : Store U} {x y : Str} {e : Expr} (hx : '#' ∉ x) (hy : '#' ∉ y) (hx2 : x ≠ c!"_")
    (h : LetBinds W I st (.name x) (some e) st') :
    ∃ v, evalE W I st none e = some v ∧ st'.name W y = if y = x then some v else st.name W y := by
  obtain ⟨v, hv, h⟩ := h
  refine ⟨v, hv, ?_⟩
  rcases h with ⟨n, vars, hn, hst, ha, rfl⟩ | ⟨-, vs, hp, rfl⟩
  · cases hn
    have hf := assigned_find (rawIdent y) _ ha
    have hid : rawIdent x = rawIdent y ↔ y = x := (C42_keywords x y hx hy).trans eq_comm
    by_cases hxy : y = x
    · subst hxy
      simp only [Store.name, Store.status, List.find?_cons, beq_self_eq_true, Option.map_some, hf, if_true]
    · have hne : (rawIdent x == rawIdent y) = false := by simpa [hid] using hxy
      rw [if_neg (by simpa [hid] using hxy)] at hf
      simp only [Store.name, Store.status, List.find?_cons, hne, hf, if_neg hxy]
  · simp only [patMatch, if_neg hx2, Option.some.injEq] at hp
    subst hp
    exact C42_declared st y x hy hx hx2 v

/-- A template with several `let` tags that passes the check. -/
example : ∃ code w, Translates code w ∧ Finishes calm code c!"x1 2x"
    ∧ w.root.nodes.map (fun | .let_ .. => 1 | _ => 0) = [0, 1, 0, 0, 1, 1, 0, 0, 1, 0] :=
  translates_of (files := [(c!"t/a.html",
      c!"{{ x }}{% let y = 1 %}{{ y }} {%- let z %}{% let z = 2 %} {{ z }}{% let y = x %}{{ y }}")])
    (main := c!"a.html") (by decide +kernel) (by decide +kernel)

/-! ## C43 -/

/-- C43, for the templates on which the generator is known to be faithful: a macro call renders the body of the macro, with
each parameter bound to the value that the argument for it has at the call. Missing are the templates that do not pass the
check, see `C43_false` and `C43_false_capture`. -/
theorem C43_call_partial (hs : Stable W) {code : List Stmt} {w : Whole} (h : Translates code w) {pre post : List Node}
    {ws : Ws} {scope : Option Str} {name : Str} {args : List Expr} (hn : name ≠ c!"super")
    (hr : w.root.nodes = pre ++ .call ws scope name args :: post) (s : Str) :
    Finishes W code s ↔ w.Around W pre (.call ws scope name args) post
      (fun p m st => CallMakes W w.input p scope name args m .next st) s :=
  translates_around hs h hr _ (fun _ _ _ => makes_call hn) s

/-- The same for a call at any place. -/
theorem C43_everywhere {p : Place U} {ws : Ws} {scope : Option Str} {name : Str} (hn : name ≠ c!"super")
    {args : List Expr} {s : Str} {sig : Sig} {st : Store U} :
    Makes W I p [.call ws scope name args] s sig st ↔ CallMakes W I p scope name args s sig st := makes_call hn

/-- C43: in a template that compiles, a called macro exists; its call has as many arguments as it has parameters; and if
these have different names, the positional arguments are for the first of them, in order, and the named arguments are
exactly for the others, so that no parameter has two arguments and no argument is without a parameter. The code of the
template does not matter here, nor does the world. -/
theorem C43_arguments {H : Option Heritage} {ctx : Ctx} {sup : Option (Str × Nat)} {L : Locals} {ws : Ws}
    {scope : Option Str} {name : Str} {args : List Expr} {code : List Stmt} (hn : name ≠ c!"super") (ha : ArgList args)
    (h : NodeCode I H ctx sup L (.call ws scope name args) code) :
    ∃ d own, macroOf I ctx scope name = some (d, own) ∧ args.length = d.args.length
      ∧ (d.args.Nodup → ∃ (pos : List Expr) (named : List (Str × Expr)) (front back : List Str),
          args = pos ++ named.map (fun x => .namedArg x.1 x.2) ∧ (∀ e ∈ pos, ∀ n v, e ≠ .namedArg n v)
          ∧ d.args = front ++ back ∧ front.length = pos.length
          ∧ (named.map (·.1)).Nodup ∧ (∀ n, n ∈ named.map (·.1) ↔ n ∈ back)) := by
  obtain ⟨fuel, level, g, g', hg, rfl, rfl, h⟩ := h
  have h : Gen.writeCall (Gen.handle I fuel) I H ctx g ws scope name args = .ok (code, g') := by
    simpa only [Gen.handleNode, if_neg hn] using h
  obtain ⟨d, own, pre, g1, named, ns, rs, L, b, g2, fl, g3, g4, h1, h2, h3, h4, h5, -⟩ := Gen.writeCall_inv h
  exact ⟨d, own, findMacro_eq h1, h3, fun hnd => params_bound ha hnd h3 h4 h5⟩

/-- C43 is false for macros with two parameters of the same name: a clash is not reported, and the first argument is
dropped. -/
theorem C43_false_duplicate :
    compiled (one c!"{% macro m(a, a) %}{{ a }}{% endmacro %}{% call m(x, a=y) %}") c!"a.html" = .ok (some c!"y") := by
  decide +kernel

/-- A template with macro calls that passes the check. -/
example : ∃ code w, Translates code w ∧ Finishes calm code c!"<b>x:5</b><b>1:2</b>"
    ∧ w.root.nodes.map (fun | .call .. => 1 | _ => 0) = [0, 0, 1, 1] :=
  translates_of (files := [(c!"t/a.html",
      c!"{% import \"m.html\" as m %}{% macro bold(t, n) %}<b>{{ t }}:{{ n|e }}</b>{% endmacro %}{% call bold(x, 5) %}{% call m::bold(1, n = 2) %}"),
     (c!"t/m.html", c!"{% macro bold(t, n) %}<b>{{ t }}:{{ n }}</b>{% endmacro %}")])
    (main := c!"a.html") (by decide +kernel) (by decide +kernel)

/-! ## C44 -/

/-- C44, for the templates on which the generator is known to be faithful: an `include` renders the included template with
the variables at its place, and does not change them except that a variable declared without a value may get one. Missing
are the templates that do not pass the check, see `C44_false`. -/
theorem C44_include_partial (hs : Stable W) {code : List Stmt} {w : Whole} (h : Translates code w) {pre post : List Node}
    {ws : Ws} {path : Str} (hr : w.root.nodes = pre ++ .include ws path :: post) (s : Str) :
    Finishes W code s ↔ w.Around W pre (.include ws path) post (fun p m st => IncludeMakes W w.input p path m .next st) s :=
  translates_around hs h hr _ (fun _ _ _ => makes_include) s

/-- The same for an `include` at any place. -/
theorem C44_everywhere {p : Place U} {ws : Ws} {path : Str} {s : Str} {sig : Sig} {st : Store U} :
    Makes W I p [.include ws path] s sig st ↔ IncludeMakes W I p path s sig st := makes_include

/-- An included template that extends no other and has no blocks is rendered as if its nodes stood in its place. -/
theorem C44_inlined {p : Place U} {ws : Ws} {path q : Str} {c : Ctx} (hq : I.find path = some q)
    (hc : assoc I.contexts q = some c) (he : c.extends_ = none) (hb : c.blocks = []) {s : Str} {sig : Sig} {st : Store U} :
    Makes W I p [.include ws path] s sig st ↔
      ∃ st1, Makes W I ⟨[], withMacrosOf c p.ctx, none, .preserve, none, p.store⟩ c.nodes s sig st1
        ∧ st = p.store.leave st1 := by
  rw [makes_include]
  have hch : includeChain I (withMacrosOf c p.ctx) = some [] := by
    simp [includeChain, chainOf, withMacrosOf, he, hb]
  constructor
  · rintro ⟨q', c', chain, st1, h1, h2, h3, h4, h5⟩
    rw [hq] at h1; cases h1
    rw [hc] at h2; cases h2
    rw [hch] at h3; cases h3
    exact ⟨st1, h4, h5⟩
  · rintro ⟨st1, h4, h5⟩
    exact ⟨q, c, [], st1, hq, hc, hch, h4, h5⟩

example : ∃ code w, Translates code w ∧ Finishes calm code c!"a1b x"
    ∧ w.root.nodes.map (fun | .include .. => 1 | _ => 0) = [0, 0, 1, 0, 0] :=
  translates_of (files := [(c!"t/a.html", c!"{% let y = 1 %}a{% include \"b.html\" %} {{ x }}"),
     (c!"t/b.html", c!"{{ y }}b")])
    (main := c!"a.html") (by decide +kernel) (by decide +kernel)

/-! ## C46 -/

/-- C46, for the templates on which the generator is known to be faithful: a block leaves the variables around it as they
are, and its text does not depend on them (only on the state of the loop around it). Missing are the templates that do not
pass the check, see `C46_false` and `C46_false_visible`. -/
theorem C46_isolated_partial (hs : Stable W) {code : List Stmt} {w : Whole} (h : Translates code w) {pre post : List Node}
    {ws1 ws2 : Ws} {name : Str} {nodes : List Node} (hr : w.root.nodes = pre ++ .blockDef ws1 name nodes ws2 :: post)
    (s : Str) :
    Finishes W code s ↔ w.Around W pre (.blockDef ws1 name nodes ws2) post
      (fun p m st => st = p.store
        ∧ ∀ vars known, BlockMakes W w.input { p with store := ⟨vars, known, p.store.item⟩ } name 0 m .next
            ⟨vars, known, p.store.item⟩) s := by
  refine translates_around hs h hr _ (fun p m st => ?_) s
  rw [makes_block]
  constructor
  · rintro ⟨c, d, st1, h1, h2, h3⟩
    exact ⟨h3, fun vars known => ⟨c, d, st1, h1, h2, rfl⟩⟩
  · rintro ⟨rfl, h⟩
    exact h p.store.vars p.store.known

/-- The same for a block at any place. -/
theorem C46_everywhere {p : Place U} {ws1 ws2 : Ws} {name : Str} {nodes : List Node} {s : Str} {sig : Sig}
    {st : Store U} :
    Makes W I p [.blockDef ws1 name nodes ws2] s sig st ↔ st = p.store
      ∧ ∀ vars known, Makes W I { p with store := ⟨vars, known, p.store.item⟩ } [.blockDef ws1 name nodes ws2] s sig
          ⟨vars, known, p.store.item⟩ := by
  simp only [makes_block]
  constructor
  · rintro ⟨c, d, st1, h1, h2, h3⟩
    exact ⟨h3, fun vars known => ⟨c, d, st1, h1, h2, rfl⟩⟩
  · rintro ⟨rfl, h⟩
    exact h p.store.vars p.store.known

example : ∃ code w, Translates code w ∧ Finishes calm code c!"z12"
    ∧ w.root.nodes.map (fun | .blockDef .. => 1 | _ => 0) = [0, 1, 0] :=
  translates_of (files := [(c!"t/a.html", c!"{{ z }}{% block b %}{% let x = 1 %}{{ x }}{% endblock %}{{ 2 }}")])
    (main := c!"a.html") (by decide +kernel) (by decide +kernel)

/-! ## C48 -/

/-- C48, for the templates on which the generator is known to be faithful: a filter block renders what the filter makes of
the text of its content, displayed like the value of an expression, and everything around it is as without it. Missing are
the templates that do not pass the check, see `C48_false` and `C48_false_control`. -/
theorem C48_filter_partial (hs : Stable W) {code : List Stmt} {w : Whole} (h : Translates code w) {pre post : List Node}
    {ws1 ws2 : Ws} {f : FilterApp} {nodes : List Node} (hr : w.root.nodes = pre ++ .filterBlock ws1 f nodes ws2 :: post)
    (s : Str) :
    Finishes W code s ↔ w.Around W pre (.filterBlock ws1 f nodes ws2) post
      (fun p m st => FilterMakes W w.input p ws1 f nodes ws2 m .next st) s :=
  translates_around hs h hr _ (fun _ _ _ => makes_filter) s

/-- The same for a filter block at any place. -/
theorem C48_everywhere {p : Place U} {ws1 ws2 : Ws} {f : FilterApp} {nodes : List Node} {s : Str} {sig : Sig}
    {st : Store U} :
    Makes W I p [.filterBlock ws1 f nodes ws2] s sig st ↔ FilterMakes W I p ws1 f nodes ws2 s sig st := makes_filter

example : ∃ code w, Translates code w ∧ Finishes calm code c!"aupper(b x)c"
    ∧ w.root.nodes.map (fun | .filterBlock .. => 1 | _ => 0) = [0, 1, 0] :=
  translates_of (files := [(c!"t/a.html", c!"a{% filter upper %}b {{ x }}{% endfilter %}c")])
    (main := c!"a.html") (by decide +kernel) (by decide +kernel)

end Askama.Props
