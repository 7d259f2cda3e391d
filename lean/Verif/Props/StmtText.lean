import Verif.Lemmas.UsesFine
import Verif.Lemmas.StmtEq
import Verif.Props.ExprText
import Verif.Spec.Toy

/-!
# Property C65: the Rust text of the body of `render_into`

The generator does not build a syntax tree but writes text, which rustc reads. `StmtsText` is that text, the statements are
what it is meant to be, `StmtsReadAs` is the reading of a text by the rules of Rust, and `SpellsStmts` says that what was read
are those statements.
-/

namespace Askama.Props

open Askama.Spec

theorem selectEscaper_some {l : List (List Str × Str)} {e p : Str} (h : selectEscaper l e = some p) : ∃ x ∈ l, x.2 = p := by
  induction l with
  | nil => cases h
  | cons x l ih =>
    obtain ⟨exts, q⟩ := x
    unfold selectEscaper at h
    split at h
    · cases h; exact ⟨_, List.mem_cons_self .., rfl⟩
    · obtain ⟨x, hx, hp⟩ := ih h
      exact ⟨x, List.mem_cons_of_mem _ hx, hp⟩

/-- The escaper of a template is one of the configuration. -/
theorem input_escaper {files : Files} {guess : Str → Option Str} {c : Config} {ident : Str} {args : TemplateArgs}
    {t : TemplateInput} (h : TemplateInput.new files guess c ident args = .ok t) : ∃ x ∈ c.escapers, x.2 = t.escaper := by
  unfold TemplateInput.new at h
  split at h
  · cases h
  · obtain ⟨path, _, h⟩ := except_bind h
    obtain ⟨syn, _, h⟩ := except_bind h
    dsimp only at h
    split at h
    · cases h
    · rename_i escaper he
      cases h
      exact selectEscaper_some he

/-- C65. Whenever a template is accepted, the text that is written for the body of `render_into` (there is one) is read by
Rust as the statements it is meant to be, with the same patterns, conditions, literals and expressions in the same order, and
in no other way. The text is made from the parts of the templates that were collected (`PartOf`). Partial: these parts are
`plain`, which askama does not check (and without which the statement is false, see below). -/
theorem C65_statements_text_partial {env : DeriveEnv} {c : Config} {ident : Str} {args : TemplateArgs} {fuel : Nat}
    {sts : List Stmt} (h : buildTemplate env c ident args fuel = .ok sts) {t : TemplateInput} {src : Str}
    {templates : List (Str × List Node)} {contexts : List (Str × Ctx)}
    (ht : TemplateInput.new env.files env.guess c ident args = .ok t) (hs : mainSource env t = .ok src)
    (hu : findUsedTemplates (env.loader c t.syn) fuel t.path src = .ok templates)
    (hc : makeContexts (env.loader c t.syn).find (dedupKeys templates []) = .ok contexts)
    (hesc : ∀ e ∈ c.escapers, EscaperPath e.2) (hplain : ∀ e ∈ templates, nodesUses Use.plain e.2) (plain : Char → Bool) :
    (∃ s, StmtsText (genInput env c t contexts) plain (PartOf templates) sts s) ∧
    ∀ s, StmtsText (genInput env c t contexts) plain (PartOf templates) sts s →
      ∃ ts, StmtsReadAs s ts ∧ SpellsStmts t.escaper ts sts ∧ ∀ us, StmtsReadAs s us → us = ts := by
  have hf : ∀ e ∈ templates, nodesUses Use.fine e.2 := fun e he =>
    used_has (P := fun ns => nodesUses Use.plain ns → nodesUses Use.fine ns) (by simp only [nodesUses]; exact id) hu
      (fun _ _ hp => parsed_fine hp) e he (hplain e he)
  have hX : ∀ u, PartOf templates u → u.fine := fun u hu => hu _ hf
  have hE : EscOk (genInput env c t contexts) := by
    obtain ⟨x, hx, he⟩ := input_escaper ht
    exact ⟨by have := hesc x hx; rw [he] at this; exact this, hesc⟩
  have hI : ∀ p x, assoc contexts p = some x → CtxUses (PartOf templates) x := by
    intro p x hp
    obtain ⟨nodes, h3, h4⟩ := makeContexts_assoc hc hp
    rw [assoc_dedup] at h3
    simp only [List.not_mem_nil, if_false] at h3
    exact contextNew_uses h4 (uses_occur (assoc_pair h3))
  refine ⟨?_, fun s hs => ?_⟩
  · unfold buildTemplate at h
    obtain ⟨t', h1, h⟩ := except_bind h
    cases ht.symm.trans h1
    obtain ⟨src', h2, h⟩ := except_bind h
    cases hs.symm.trans h2
    obtain ⟨ts', h3, h⟩ := except_bind h
    cases hu.symm.trans h3
    obtain ⟨cs', h4, h⟩ := except_bind h
    cases hc.symm.trans h4
    split at h
    · cases h
    · rename_i ctx hctx
      obtain ⟨H, h5, h⟩ := except_bind h
      exact generate_text hX hI (heritageOf_uses hI (hI _ _ hctx) h5) (hI _ _ hctx) h
  · obtain ⟨ts, h1, h2⟩ := stmts_read hE hX hs
    exact ⟨ts, h1, h2, fun us hus => StmtsReadAs.unique hus h1⟩

/-! ## A case -/

/-- A template. -/
def loopSource : Str :=
  c!"{% for x in items if x.ok %}{{ x.name }}: \"{{ loop.index }}\"{% else %}none{% endfor %}"

/-- Its nodes. -/
def loopNodes : List Node :=
  [.loop ⟨none, none⟩ (.name c!"x") (.var c!"items") (some (.attr (.var c!"x") c!"ok"))
    [.expr ⟨none, none⟩ (.attr (.var c!"x") c!"name"), .lit ⟨[], c!": \"", []⟩,
     .expr ⟨none, none⟩ (.attr (.var c!"loop") c!"index"), .lit ⟨[], c!"\"", []⟩]
    ⟨none, none⟩ [.lit ⟨[], c!"none", []⟩] ⟨none, none⟩]

/-- Its statements. -/
def loopStmts : List Stmt :=
  [.block [.letDid, .letIter (.field c!"items"), .filterIter (.name c!"x") (.attr (.local_ c!"x") c!"ok"),
    .forIter (.name c!"x") [.setDid, .writeFmt c!"{expr0}: \"{expr1}\""
      [⟨0, some c!"::askama::Html", .attr (.local_ c!"x") c!"name"⟩, ⟨1, some c!"::askama::Html", .loopIndex⟩]],
    .ifNotDid [.writeLit c!"none"]]]

/-- The text of the statements. -/
def loopText : Str :=
  c!"{\nlet mut _did_loop = false;\nlet _iter = (&self.items).into_iter();\n"
  ++ c!"let _iter = _iter.filter(|x| -> bool {x.ok});\n"
  ++ c!"for (x, _loop_item) in ::askama::helpers::TemplateLoop::new(_iter) {\n_did_loop = true;\n"
  ++ c!"::std::write!(\nwriter,\n\"{expr0}: \\\"{expr1}\\\"\",\n"
  ++ c!"expr0 = &::askama::MarkupDisplay::new_unsafe(&(x.name), ::askama::Html),\n"
  ++ c!"expr1 = &::askama::MarkupDisplay::new_unsafe(&((_loop_item.index + 1)), ::askama::Html),\n)?;\n}\n"
  ++ c!"if !_did_loop {\nwriter.write_str(\"none\")?;\n}\n}\n"

/-- The files. -/
def loopEnv : DeriveEnv := toyEnv [(c!"t/a.html", loopSource)]

/-- The configuration. -/
def loopConfig : Config := { toyConfig .preserve with escapers := defaultEscapers c!"::askama" }

theorem loop_plain : nodesUses Use.plain loopNodes := by
  simp only [loopNodes, nodesUses, nodeUses, Use.plain, ordinary, and_true]
  refine ⟨rfl, ⟨.inr rfl, .inr (by decide)⟩, ?_, .inr ⟨.inr rfl, rfl⟩, trivial, .inl trivial⟩
  rintro c h
  cases h
  refine ⟨rfl, rfl, rfl, ?_, by decide⟩
  simp only [ordinary]
  exact .inr ⟨.inr rfl, rfl⟩

theorem loop_escapers : ∀ e ∈ loopConfig.escapers, EscaperPath e.2 := by
  have h1 : EscaperPath c!"::askama::Html" := ⟨[[], c!"askama", c!"Html"], rfl, by decide, by decide⟩
  have h2 : EscaperPath c!"::askama::Text" := ⟨[[], c!"askama", c!"Text"], rfl, by decide, by decide⟩
  simp only [loopConfig, defaultEscapers, List.mem_cons, List.not_mem_nil, or_false]
  rintro e (rfl | rfl | rfl)
  · exact h1
  · exact h2
  · exact h1

/-- Only `x` is a variable. -/
theorem agree_x (I : GenInput) : Agree I (fun n => if n = c!"x" then some none else none)
    (⟨[[(c!"x", { refs := none, initialized := true })]], []⟩ : Locals) := by
  refine .mk fun n => ?_
  by_cases h : n = c!"x"
  · subst h
    exact .variable true
  · have e2 : MapChain.get (⟨[[(c!"x", { refs := none, initialized := true })]], []⟩ : Locals) n = none := by
      simp [MapChain.get, Scope.get, Ne.symm h, beq_eq_false_iff_ne.mpr]
    rw [if_neg h, e2]
    exact .unknown

/-- What is known of the template. -/
def loopInput : TemplateInput where
  syn := Syntax.default
  source := .path c!"a.html"
  block := none
  escaper := c!"::askama::Html"
  ext := none
  mime := c!"application/octet-stream"
  path := c!"t/a.html"

/-- The only template there is. -/
def loopContexts : List (Str × Ctx) :=
  [(c!"t/a.html", { nodes := loopNodes, extends_ := none, blocks := [], macros := [], imports := [] })]

theorem loop_text :
    StmtsText (genInput loopEnv loopConfig loopInput loopContexts) (fun _ => true) (PartOf [(c!"t/a.html", loopNodes)]) loopStmts
      loopText := by
  have h : ∀ u, (∀ X, nodesUses X loopNodes → X u) → PartOf [(c!"t/a.html", loopNodes)] u :=
    fun _ h X hX => h X (hX (c!"t/a.html", loopNodes) (List.mem_singleton.mpr rfl))
  simp only [loopNodes, nodesUses, nodeUses, and_true, true_and] at h
  have hw : ∀ {e r w}, visitExpr (genInput loopEnv loopConfig loopInput loopContexts)
      ⟨[[(c!"x", { refs := none, initialized := true })]], []⟩ e = .ok (r, w) →
      Written (genInput loopEnv loopConfig loopInput loopContexts) e r w
        (exprText (genInput loopEnv loopConfig loopInput loopContexts) (fun n => if n = c!"x" then some none else none) e) :=
    fun h => ⟨_, _, agree_x _, h, rfl⟩
  have ht : ∃ s, StmtsText (genInput loopEnv loopConfig loopInput loopContexts) (fun _ => true)
      (PartOf [(c!"t/a.html", loopNodes)]) loopStmts s ∧ s = loopText := by
    refine ⟨_, .cons (.block (.cons .letDid (.cons (.letIter (e := .var c!"items") (w := false) ?_ (hw rfl))
      (.cons (.filterIter (t := .name c!"x") (e := .attr (.var c!"x") c!"ok") (w := false) ?_ (hw rfl))
      (.cons (.forIter (t := .name c!"x") ?_ (.cons .setDid (.cons (.writeFmt c!"{expr0}: \"{expr1}\""
        (.more (.unwrapped 0 (e := .attr (.var c!"x") c!"name") ?_ (hw rfl))
          (.one (.unwrapped 1 (e := .attr (.var c!"loop") c!"index") ?_ (hw rfl)))))
        .nil))) (.cons (.ifNotDid (.cons (.writeLit c!"none") .nil)) .nil)))))) .nil, ?_⟩
    · exact h _ fun X h => h.2.1
    · exact h _ fun X h => h.2.2.1 _ rfl
    · exact h _ fun X h => h.1
    · exact h _ fun X h => h.2.2.2.1
    · exact h _ fun X h => h.2.2.2.2
    · decide +kernel
  obtain ⟨s, h1, rfl⟩ := ht
  exact h1

/-- The hypotheses of the theorem are met by this template. -/
example : ∃ ts,
    buildTemplate loopEnv loopConfig c!"T" (toyArgs c!"a.html" none) 50 = .ok loopStmts ∧
    StmtsText (genInput loopEnv loopConfig loopInput loopContexts) (fun _ => true) (PartOf [(c!"t/a.html", loopNodes)]) loopStmts
      loopText ∧
    StmtsReadAs loopText ts ∧ SpellsStmts c!"::askama::Html" ts loopStmts := by
  have h : buildTemplate loopEnv loopConfig c!"T" (toyArgs c!"a.html" none) 50 = .ok loopStmts :=
    gives_sound (by decide +kernel)
  obtain ⟨ts, h1, h2, _⟩ := (C65_statements_text_partial h (t := loopInput) (templates := [(c!"t/a.html", loopNodes)])
    (contexts := loopContexts)
    rfl rfl rfl rfl loop_escapers (fun e he => by cases List.mem_singleton.mp he; exact loop_plain) (fun _ => true)).2 _
      loop_text
  exact ⟨ts, h, loop_text, h1, h2⟩

/-! ## What goes wrong -/

/-- The text that is written for the statements of a template that uses no others. -/
def TextOf (src : Str) (sts : List Stmt) (s : Str) : Prop :=
  ∃ nodes ctx, parseTemplate ⟨Syntax.default, Char.isLower⟩ src = .ok nodes ∧
    contextNew (fun _ => none) nodes = .ok ctx ∧ generate textInput 50 none ctx = .ok sts ∧
    StmtsText textInput (fun _ => true) (PartOf [(c!"a.html", nodes)]) sts s

theorem read_as {s : Str} {us : List Tok} {ts : List STree} (h1 : lex s = some us)
    (h2 : ∀ k, rStmts (k + 60) us = some (ts, [])) : StmtsReadAs s ts :=
  ⟨us, h1, 60, fun n hn => by have := h2 (n - 60); rwa [Nat.sub_add_cancel hn] at this⟩

theorem not_read {s : Str} {us : List Tok} (h1 : lex s = some us) (h2 : ∀ k, rStmts (k + 60) us = none) :
    ¬ ∃ ts, StmtsReadAs s ts := by
  rintro ⟨ts, us', h3, N, h4⟩
  cases h1.symm.trans h3
  have := (h4 (N + 60) (Nat.le_add_right _ _)).symm.trans (h2 N)
  cases this

/-- An expression outside of any scope. -/
theorem written {e : Expr} {r : RExpr} {w : Bool} (h : visitExpr textInput MapChain.empty e = .ok (r, w)) :
    Written textInput e r w (exprText textInput (fun _ => none) e) :=
  ⟨_, _, agree_empty _, h, rfl⟩

/-- What a template has occurs in it. -/
theorem occurs_of {p : Str} {nodes : List Node} {u : Use} (h : ∀ X, nodesUses X nodes → X u) : PartOf [(p, nodes)] u :=
  fun X hX => h X (hX (p, nodes) (List.mem_singleton.mpr rfl))

/-- `{% match a + b %}{% when _ %}x{% endmatch %}` -/
def matchNodes : List Node :=
  [.match_ ⟨none, none⟩ (.binop c!"+" (.var c!"a") (.var c!"b"))
    [.mk ⟨none, none⟩ (.path [c!"_"]) [.lit ⟨[], c!"x", []⟩]] ⟨none, none⟩]

/-- C65 is false for `match` on `a + b`: it is written behind `&` without parentheses, so that `&` is applied to `a` alone
(askama_derive/src/generator.rs:435-436). -/
theorem C65_false_match : ∃ sts s, TextOf c!"{% match a + b %}{% when _ %}x{% endmatch %}" sts s ∧
    ∀ ts, StmtsReadAs s ts → ¬ SpellsStmts textInput.escaper ts sts := by
  refine ⟨[.match_ (.binop c!"+" (.field c!"a") (.field c!"b")) [.mk (.path [c!"_"]) [.writeLit c!"x"]]], _,
    ⟨matchNodes, { nodes := matchNodes, extends_ := none, blocks := [], macros := [], imports := [] }, rfl, rfl, gives_sound (by decide +kernel),
      .cons (.match_ (e := .binop c!"+" (.var c!"a") (.var c!"b")) (w := false) ?_ (written rfl)
        (.cons ?_ (.cons (.writeLit _) .nil) .nil)) .nil⟩, ?_⟩
  · exact occurs_of fun X h => by simp only [matchNodes, nodesUses, nodeUses] at h; exact h.1.1
  · exact occurs_of fun X h => by simp only [matchNodes, nodesUses, nodeUses, whenUses] at h; exact h.1.2.1
  · intro ts h hs
    have := h.unique (read_as rfl (fun k => rfl)
      (ts := [.match_ (.binary .add (.borrow (.field (.path [c!"self"]) c!"a")) (.field (.path [c!"self"]) c!"b"))
        [.mk .wild [.expr (.try_ (.call (.field (.path [c!"writer"]) c!"write_str") [.lit (.str c!"x")]))]]]))
    subst this
    cases hs with
    | cons h1 _ => cases h1

/-- `{% if let Some(x) = a || b %}x{% endif %}` -/
def ifLetNodes : List Node :=
  [.if_ ⟨none, none⟩ [.mk ⟨none, none⟩ (some ⟨some (.tuple [c!"Some"] [.name c!"x"]),
    .binop c!"||" (.var c!"a") (.var c!"b")⟩) [.lit ⟨[], c!"x", []⟩]]]

/-- C65 is false for `if let` with `||`: Rust does not allow `let` beside it (askama_derive/src/generator.rs:368-385). -/
theorem C65_false_if_let : ∃ sts s, TextOf c!"{% if let Some(x) = a || b %}x{% endif %}" sts s ∧ ¬ ∃ ts, StmtsReadAs s ts := by
  refine ⟨[.if_ [.mk (.letChain c!"||" (.tuple [c!"Some"] [.name c!"x"]) (.field c!"a") (.field c!"b")) [.writeLit c!"x"]]], _,
    ⟨ifLetNodes, { nodes := ifLetNodes, extends_ := none, blocks := [], macros := [], imports := [] }, rfl, rfl, gives_sound (by decide +kernel),
      .cons (.if_ ?_ (.cons (.letChain (a := .var c!"a") (b := .var c!"b") (w := false) (w' := false) ?_ (written rfl) (written rfl))
        (.cons (.writeLit _) .nil) .nil)) .nil⟩, not_read rfl fun k => rfl⟩
  · exact occurs_of fun X h => by simp only [ifLetNodes, nodesUses, nodeUses] at h; exact h.1.1
  · exact occurs_of fun X h => by simp only [ifLetNodes, nodesUses, nodeUses, condUses] at h; exact h.1.2.1 _ rfl

/-- `{% if a %}x{% else %}y{% else if b %}z{% endif %}` -/
def elseNodes : List Node :=
  [.if_ ⟨none, none⟩ [.mk ⟨none, none⟩ (some ⟨none, .var c!"a"⟩) [.lit ⟨[], c!"x", []⟩],
    .mk ⟨none, none⟩ none [.lit ⟨[], c!"y", []⟩], .mk ⟨none, none⟩ (some ⟨none, .var c!"b"⟩) [.lit ⟨[], c!"z", []⟩]]]

/-- The tokens of its text. -/
def elseToks : List Tok :=
  [.word c!"if", .op c!"*", .opn '(', .amp false, .opn '(', .word c!"self", .op c!".", .word c!"a", .cls ')', .word c!"as",
    .amp false, .word c!"bool", .cls ')', .opn '{', .word c!"writer", .op c!".", .word c!"write_str", .opn '(', .str c!"x",
    .cls ')', .op c!"?", .op c!";", .cls '}', .word c!"else", .opn '{', .word c!"writer", .op c!".", .word c!"write_str",
    .opn '(', .str c!"y", .cls ')', .op c!"?", .op c!";", .cls '}', .word c!"else", .word c!"if", .op c!"*", .opn '(',
    .amp false, .opn '(', .word c!"self", .op c!".", .word c!"b", .cls ')', .word c!"as", .amp false, .word c!"bool",
    .cls ')', .opn '{', .word c!"writer", .op c!".", .word c!"write_str", .opn '(', .str c!"z", .cls ')', .op c!"?",
    .op c!";", .cls '}']

/-- C65 is false for an `else` that is not the last branch; askama accepts it (askama_derive/src/generator.rs:397-401). -/
theorem C65_false_else : ∃ sts s, TextOf c!"{% if a %}x{% else %}y{% else if b %}z{% endif %}" sts s ∧
    ¬ ∃ ts, StmtsReadAs s ts := by
  refine ⟨[.if_ [.mk (.test (.field c!"a")) [.writeLit c!"x"], .mk .always [.writeLit c!"y"],
    .mk (.test (.field c!"b")) [.writeLit c!"z"]]], _,
    ⟨elseNodes, { nodes := elseNodes, extends_ := none, blocks := [], macros := [], imports := [] }, rfl, rfl, gives_sound (by decide +kernel),
      .cons (.if_ ?_ (.cons (.test (e := .var c!"a") (w := false) ?_ (written rfl)) (.cons (.writeLit _) .nil)
        (.cons (.always rfl) (.cons (.writeLit _) .nil)
          (.cons (.test (e := .var c!"b") (w := false) ?_ (written rfl)) (.cons (.writeLit _) .nil) .nil)))) .nil⟩,
    not_read (us := elseToks) (by decide +kernel) fun k => rfl⟩
  · exact occurs_of fun X h => by simp only [elseNodes, nodesUses, nodeUses] at h; exact h.1.1
  · exact occurs_of fun X h => by simp only [elseNodes, nodesUses, nodeUses, condUses] at h; exact h.1.2.1 _ rfl
  · exact occurs_of fun X h => by simp only [elseNodes, nodesUses, nodeUses, condUses] at h; exact h.1.2.2.2.2.2.1 _ rfl

/-- `{% macro m(writer) %}x{% endmacro %}{% call m(1) %}` -/
def writerNodes : List Node :=
  [.macro ⟨none, none⟩ c!"m" [c!"writer"] [.lit ⟨[], c!"x", []⟩] ⟨none, none⟩, .call ⟨none, none⟩ none c!"m" [.numLit c!"1"]]

/-- C30 is about patterns only: a parameter of a macro can be called `writer`, and then the text of the body is written to the
argument instead of the output (askama_parser/src/node.rs:297, askama_derive/src/generator.rs:680-692, 1010-1019). -/
theorem C30_writer_parameter : ∃ sts s, TextOf c!"{% macro m(writer) %}x{% endmacro %}{% call m(1) %}" sts s ∧
    StmtsReadAs s [.block [.let_ (namesPat [c!"writer"]) (some (valuesTree [.lit (.num c!"1")])),
      .expr (.try_ (.call (.field (.path [c!"writer"]) c!"write_str") [.lit (.str c!"x")]))]] := by
  refine ⟨[.block [.letMany [c!"writer"] [.lit .num c!"1"], .writeLit c!"x"]], _,
    ⟨writerNodes, { nodes := writerNodes, extends_ := none, blocks := [], macros := [(c!"m", ⟨⟨none, none⟩, [c!"writer"],
        [.lit ⟨[], c!"x", []⟩], ⟨none, none⟩⟩)], imports := [] }, rfl, rfl, gives_sound (by decide +kernel),
      .cons (.block (.cons (.letMany rfl ?_ (.one (e := .numLit c!"1") (w := false) ?_ (written rfl)))
        (.cons (.writeLit _) .nil))) .nil⟩, read_as rfl fun k => rfl⟩
  · simp only [List.mem_singleton]
    rintro n rfl
    exact occurs_of fun X h => by
      simp only [writerNodes, nodesUses, nodeUses] at h
      exact h.1.1 _ (List.mem_singleton.mpr rfl)
  · exact occurs_of fun X h => by
      simp only [writerNodes, nodesUses, nodeUses] at h
      exact h.2.1.resolve_left (by decide) _ (List.mem_singleton.mpr rfl)

/-- `{% macro m(type) %}x{% endmacro %}{% call m(1) %}` -/
def paramNodes : List Node :=
  [.macro ⟨none, none⟩ c!"m" [c!"type"] [.lit ⟨[], c!"x", []⟩] ⟨none, none⟩, .call ⟨none, none⟩ none c!"m" [.numLit c!"1"]]

/-- C65 is false for a macro parameter that is a keyword of Rust: unlike other names it is not written as `r#type`
(askama_derive/src/generator.rs:676-692). -/
theorem C65_false_parameter : ∃ sts s, TextOf c!"{% macro m(type) %}x{% endmacro %}{% call m(1) %}" sts s ∧
    ¬ ∃ ts, StmtsReadAs s ts := by
  refine ⟨[.block [.letMany [c!"type"] [.lit .num c!"1"], .writeLit c!"x"]], _,
    ⟨paramNodes, { nodes := paramNodes, extends_ := none, blocks := [], macros := [(c!"m", ⟨⟨none, none⟩, [c!"type"],
        [.lit ⟨[], c!"x", []⟩], ⟨none, none⟩⟩)], imports := [] }, rfl, rfl, gives_sound (by decide +kernel),
      .cons (.block (.cons (.letMany rfl ?_ (.one (e := .numLit c!"1") (w := false) ?_ (written rfl)))
        (.cons (.writeLit _) .nil))) .nil⟩, not_read rfl fun k => rfl⟩
  · simp only [List.mem_singleton]
    rintro n rfl
    exact occurs_of fun X h => by
      simp only [paramNodes, nodesUses, nodeUses] at h
      exact h.1.1 _ (List.mem_singleton.mpr rfl)
  · exact occurs_of fun X h => by
      simp only [paramNodes, nodesUses, nodeUses] at h
      exact h.2.1.resolve_left (by decide) _ (List.mem_singleton.mpr rfl)

/-- `{% for a or b in x if c %}y{% endfor %}` -/
def filterNodes : List Node :=
  [.loop ⟨none, none⟩ (.orChain [.name c!"a", .name c!"b"]) (.var c!"x") (some (.var c!"c")) [.lit ⟨[], c!"y", []⟩]
    ⟨none, none⟩ [] ⟨none, none⟩]

/-- The tokens of its text. -/
def filterToks : List Tok :=
  [.opn '{', .word c!"let", .word c!"_iter", .op c!"=", .opn '(', .amp false, .word c!"self", .op c!".", .word c!"x",
    .cls ')', .op c!".", .word c!"into_iter", .opn '(', .cls ')', .op c!";", .word c!"let", .word c!"_iter", .op c!"=",
    .word c!"_iter", .op c!".", .word c!"filter", .opn '(', .op c!"|", .word c!"a", .op c!"|", .word c!"b", .op c!"|",
    .op c!"->", .word c!"bool", .opn '{', .word c!"self", .op c!".", .word c!"c", .cls '}', .cls ')', .op c!";",
    .word c!"for", .opn '(', .word c!"a", .op c!"|", .word c!"b", .op c!",", .word c!"_loop_item", .cls ')', .word c!"in",
    .op c!"::", .word c!"askama", .op c!"::", .word c!"helpers", .op c!"::", .word c!"TemplateLoop", .op c!"::",
    .word c!"new", .opn '(', .word c!"_iter", .cls ')', .opn '{', .word c!"writer", .op c!".", .word c!"write_str",
    .opn '(', .str c!"y", .cls ')', .op c!"?", .op c!";", .cls '}', .cls '}']

/-- C65 is false for a loop with alternatives and a condition: the pattern of a closure must not have alternatives without
parentheses (askama_derive/src/generator.rs:510-514). -/
theorem C65_false_filter : ∃ sts s, TextOf c!"{% for a or b in x if c %}y{% endfor %}" sts s ∧ ¬ ∃ ts, StmtsReadAs s ts := by
  refine ⟨[.block [.letIter (.field c!"x"), .filterIter (.orChain [.name c!"a", .name c!"b"]) (.field c!"c"),
      .forIter (.orChain [.name c!"a", .name c!"b"]) [.writeLit c!"y"]]], _,
    ⟨filterNodes, { nodes := filterNodes, extends_ := none, blocks := [], macros := [], imports := [] }, rfl, rfl, gives_sound (by decide +kernel),
      .cons (.block (.cons (.letIter (e := .var c!"x") (w := false) ?_ (written rfl))
        (.cons (.filterIter (e := .var c!"c") (w := false) ?_ (written rfl))
          (.cons (.forIter ?_ (.cons (.writeLit _) .nil)) .nil)))) .nil⟩, not_read (us := filterToks) (by decide +kernel) fun k => rfl⟩
  · exact occurs_of fun X h => by simp only [filterNodes, nodesUses, nodeUses] at h; exact h.1.2.1
  · exact occurs_of fun X h => by simp only [filterNodes, nodesUses, nodeUses] at h; exact h.1.2.2.1 _ rfl
  · exact occurs_of fun X h => by simp only [filterNodes, nodesUses, nodeUses] at h; exact h.1.1

end Askama.Props
