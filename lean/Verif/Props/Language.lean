import Verif.Lemmas.Code
import Verif.Props.Names
import Verif.Props.Render

/-!
# C38, C40, C41, C42, C45: the language, construct by construct

`C38_unbounded` says that the code of a template makes what the template means, without any bound on recursion. The laws
after it say what the constructs mean.
-/

namespace Askama.Props

open Spec

variable {U : Type} {W : World U} {I : GenInput}

mutual
theorem exec_next {ρ ρ' : REnv U} {s : Str} {sig : Sig} : (st : Stmt) → strays st = false →
    Stmt.exec W ρ st = some (s, sig, ρ') → sig = .next
  | .writeLit _, _, h => by simp only [Stmt.exec] at h; cases h; rfl
  | .writeFmt _ _, _, h => by
    simp only [Stmt.exec, Option.map_eq_some_iff] at h; obtain ⟨_, -, h⟩ := h; cases h; rfl
  | .letDecl _, _, h => by simp only [Stmt.exec] at h; cases h; rfl
  | .letInit _ _, _, h => by
    simp only [Stmt.exec, Option.bind_eq_some_iff, Option.map_eq_some_iff] at h
    obtain ⟨_, -, _, -, h⟩ := h; cases h; rfl
  | .assign _ _, _, h => by
    simp only [Stmt.exec, Option.bind_eq_some_iff, Option.map_eq_some_iff] at h
    obtain ⟨_, -, _, -, h⟩ := h; cases h; rfl
  | .letMany _ _, _, h => by
    simp only [Stmt.exec, Option.map_eq_some_iff] at h; obtain ⟨_, -, h⟩ := h; cases h; rfl
  | .letStr _ _, _, h => by simp only [Stmt.exec] at h; cases h; rfl
  | .letFmt _ _ _, _, h => by
    simp only [Stmt.exec, Option.map_eq_some_iff] at h; obtain ⟨_, -, h⟩ := h; cases h; rfl
  | .if_ bs, hs, h => by
    simp only [Stmt.exec] at h
    exact execIf_next bs (by simpa only [strays] using hs) h
  | .match_ _ arms, hs, h => by
    simp only [Stmt.exec, Option.bind_eq_some_iff] at h
    obtain ⟨v, -, h⟩ := h
    exact execMatch_next arms (by simpa only [strays] using hs) h
  | .block b, hs, h => by
    simp only [Stmt.exec, Option.map_eq_some_iff] at h
    obtain ⟨⟨s1, sig1, ρ1⟩, h1, h⟩ := h
    cases h
    exact execList_next b (by simpa only [strays] using hs) h1
  | .letDid, _, h => by simp only [Stmt.exec] at h; cases h; rfl
  | .setDid, _, h => by simp only [Stmt.exec] at h; cases h; rfl
  | .letIter _, _, h => by
    simp only [Stmt.exec, Option.bind_eq_some_iff, Option.map_eq_some_iff] at h
    obtain ⟨_, -, _, -, h⟩ := h; cases h; rfl
  | .filterIter _ _, _, h => by
    simp only [Stmt.exec, Option.map_eq_some_iff] at h; obtain ⟨_, -, h⟩ := h; cases h; rfl
  | .forIter _ _, _, h => by
    simp only [Stmt.exec, Option.map_eq_some_iff] at h; obtain ⟨_, -, h⟩ := h; cases h; rfl
  | .ifNotDid b, hs, h => by
    simp only [Stmt.exec] at h
    split at h
    · cases h; rfl
    · obtain ⟨⟨s1, sig1, ρ1⟩, h1, h⟩ := Option.map_eq_some_iff.mp h
      cases h
      exact execList_next b (by simpa only [strays] using hs) h1
  | .brk, hs, _ => by simp [strays] at hs
  | .cont, hs, _ => by simp [strays] at hs
  | .includeBytes _, _, h => by simp only [Stmt.exec] at h; cases h; rfl
termination_by st => sizeOf st
/-- Code in which no `break` or `continue` is outside of a loop reaches its end. -/
theorem execList_next {ρ ρ' : REnv U} {s : Str} {sig : Sig} : (b : List Stmt) → straysList b = false →
    execList W ρ b = some (s, sig, ρ') → sig = .next
  | [], _, h => by simp only [execList] at h; cases h; rfl
  | st :: sts, hs, h => by
    simp only [straysList, Bool.or_eq_false_iff] at hs
    simp only [execList, Option.bind_eq_some_iff] at h
    obtain ⟨⟨s1, sig1, ρ1⟩, h1, h⟩ := h
    have := exec_next st hs.1 h1
    subst this
    obtain ⟨⟨s2, sig2, ρ2⟩, h2, h⟩ := Option.map_eq_some_iff.mp h
    cases h
    exact execList_next sts hs.2 h2
termination_by b => sizeOf b
theorem execIf_next {ρ ρ' : REnv U} {s : Str} {sig : Sig} : (bs : List Branch) → straysIf bs = false →
    execIf W ρ bs = some (s, sig, ρ') → sig = .next
  | [], _, h => by simp only [execIf] at h; cases h; rfl
  | .mk c b :: bs, hs, h => by
    simp only [straysIf, Bool.or_eq_false_iff] at hs
    simp only [execIf, Option.bind_eq_some_iff] at h
    obtain ⟨r, -, h⟩ := h
    cases r with
    | none => exact execIf_next bs hs.2 h
    | some ρ1 =>
      obtain ⟨⟨s2, sig2, ρ2⟩, h2, h⟩ := Option.map_eq_some_iff.mp h
      cases h
      exact execList_next b hs.1 h2
termination_by bs => sizeOf bs
theorem execMatch_next {ρ ρ' : REnv U} {v : Val U} {s : Str} {sig : Sig} : (arms : List Arm) → straysArms arms = false →
    execMatch W ρ v arms = some (s, sig, ρ') → sig = .next
  | [], _, h => by simp only [execMatch] at h; cases h
  | .mk t b :: arms, hs, h => by
    simp only [straysArms, Bool.or_eq_false_iff] at hs
    simp only [execMatch] at h
    cases hp : patMatch W t v with
    | none => rw [hp] at h; exact execMatch_next arms hs.2 h
    | some vs =>
      rw [hp] at h
      obtain ⟨⟨s2, sig2, ρ2⟩, h2, h⟩ := Option.map_eq_some_iff.mp h
      cases h
      exact execList_next b hs.1 h2
termination_by arms => sizeOf arms
end

/-- Code that the Rust compiler accepts reaches its end whenever it makes a text. -/
theorem finishes_iff {code : List Stmt} (hs : straysList code = false) {s : Str} :
    Finishes W code s ↔ output W code = some s := by
  unfold Finishes output
  constructor
  · rintro ⟨ρ, h⟩; rw [h]; rfl
  · intro h
    obtain ⟨⟨s', sig, ρ⟩, h1, h⟩ := Option.map_eq_some_iff.mp h
    cases h
    have := execList_next code hs h1
    subst this
    exact ⟨ρ, h1⟩

theorem text_means {w : Whole} {s : Str} {fuel : Nat} {code : List Stmt}
    (h : (execList W ⟨[], none, false, []⟩ code).map (fun r => (r.1, r.2.1))
      = (run W w.input fuel w.chain (w.chain.getLastD w.ctx) none .preserve (w.chain.getLastD w.ctx).nodes none
          ⟨[], [], none⟩).bind fun r => r.1.map (·, r.2.1)) :
    Finishes W code s ↔ ∃ st, run W w.input fuel w.chain (w.chain.getLastD w.ctx) none .preserve
        (w.chain.getLastD w.ctx).nodes none ⟨[], [], none⟩ = some (some s, .next, st) := by
  constructor
  · rintro ⟨ρ, e⟩
    rw [e] at h
    obtain ⟨⟨s', sig, st⟩, h1, h2⟩ := Option.bind_eq_some_iff.mp h.symm
    obtain ⟨x, h3, h4⟩ := Option.map_eq_some_iff.mp h2
    cases h4
    dsimp only at h3
    subst h3
    exact ⟨st, h1⟩
  · rintro ⟨st, e⟩
    rw [e] at h
    obtain ⟨⟨s', sig, ρ⟩, h1, h2⟩ := Option.map_eq_some_iff.mp h
    cases h2
    exact ⟨ρ, h1⟩

/-- C38 without bounds: for every configuration, every set of files and every template that is free of `let` and macro
calls or passes the check, if it compiles, running the code writes `s` and reaches its end exactly if the template means
`s`. -/
theorem C38_unbounded (W : World U) (hs : Stable W) {isWs : Char → Bool} {krate root : Str} {raw : RawConfig}
    {ws : Option Str} {env : DeriveEnv} {c : Config} (hc : Config.new isWs krate root raw ws = .ok c) {ident : Str}
    {args : TemplateArgs} (hb : args.block = none) {code : List Stmt} (h : Compiles env c ident args code)
    {w : Whole} (hl : Loads env c ident args w) (hf : w.Faithful) (s : Str) : Finishes W code s ↔ w.Means W s := by
  obtain ⟨n, h⟩ := h
  have key : ∀ m, n ≤ m → (w.core = true ∨ w.good m = true) →
      (execList W ⟨[], none, false, []⟩ code).map (fun r => (r.1, r.2.1))
      = (run W w.input m w.chain (w.chain.getLastD w.ctx) none .preserve (w.chain.getLastD w.ctx).nodes none
          ⟨[], [], none⟩).bind fun r => r.1.map (·, r.2.1) := by
    intro m hm hg
    have hbm : buildTemplate env c ident args m = .ok code := by
      rcases buildTemplate_mono (env := env) (c := c) (ident := ident) (args := args) hm with e | e
      · rw [h] at e; cases e
      · rw [← e]; exact h
    obtain ⟨w', H, t, h1, h2, h3, h4, h5, h6, h7, h8, h9⟩ := build_loads hbm
    have hw : w' = w := by
      obtain ⟨k, hl⟩ := hl
      have e1 := failsOr_some (load_mono (env := env) (c := c) (ident := ident) (args := args) (Nat.le_max_left m k)) h1
      have e2 := failsOr_some (load_mono (env := env) (c := c) (ident := ident) (args := args) (Nat.le_max_right m k)) hl
      exact Option.some.inj (e1.symm.trans e2)
    subst hw
    have hI : w'.input.block = none := by rw [h3]; exact (newInput_block h2).trans hb
    have hbl : AllBlocksOk w'.input := fun p x hp => contextNew_blocks (h5 p x hp)
    have hch : chainOf w'.input.contexts w'.ctx = some w'.chain := load_chain h1
    have hg : w'.good m = true := by
      rcases hg with hcore | hg
      · exact core_good hI hcore (load_parsed (config_comments hc) h1) (fun p x hp => ⟨_, h5 p x hp⟩) h4 h7 hch h8 h9
      · exact hg
    exact generate_ran hI hs hbl h7 h8 hg h9 _ _
  have key2 : ∃ k, ∀ m, k ≤ m → (w.core = true ∨ w.good m = true) := by
    rcases hf with hf | ⟨k, hf⟩
    · exact ⟨0, fun _ _ => .inl hf⟩
    · exact ⟨k, fun m hm => .inr (good_mono hm hf)⟩
  obtain ⟨k, key2⟩ := key2
  constructor
  · intro hfin
    obtain ⟨st, e⟩ := (text_means (key (max n k) (Nat.le_max_left _ _) (key2 _ (Nat.le_max_right _ _)))).mp hfin
    exact ⟨st, max n k, e⟩
  · rintro ⟨st, q, e⟩
    have e' := failsOr_some (run_mono W w.input (Nat.le_max_right (max n k) q) _ _ _ _ _ _ _) e
    exact (text_means (key _ (Nat.le_trans (Nat.le_max_left _ _) (Nat.le_max_left _ _))
      (key2 _ (Nat.le_trans (Nat.le_max_right _ _) (Nat.le_max_left _ _))))).mpr ⟨st, e'⟩

theorem translates_means (hs : Stable W) {code : List Stmt} {w : Whole} (h : Translates code w) (s : Str) :
    Finishes W code s ↔ w.Means W s := by
  obtain ⟨⟨isWs, krate, root, raw, ws, c, env, ident, args, h1, h2, h3, h4⟩, h5⟩ := h
  exact C38_unbounded W hs h1 h2 h3 h4 h5 s

theorem translates_around (hs : Stable W) {code : List Stmt} {w : Whole} (h : Translates code w) {pre post : List Node}
    {n : Node} (hr : w.root.nodes = pre ++ n :: post) (part : Place U → Str → Store U → Prop)
    (hp : ∀ p m st, Makes W w.input p [n] m .next st ↔ part p m st) (s : Str) :
    Finishes W code s ↔ w.Around W pre n post part s := by
  rw [translates_means hs h s]
  unfold Whole.Means Whole.Around
  rw [hr]
  constructor
  · rintro ⟨st, hm⟩
    obtain ⟨a, m, b, st1, st2, h1, h2, h3, h4⟩ := makes_split.mp hm
    exact ⟨a, m, b, st1, st2, st, h1, (hp _ _ _).mp h2, h3, h4⟩
  · rintro ⟨a, m, b, st1, st2, st, h1, h2, h3, h4⟩
    exact ⟨st, makes_split.mpr ⟨a, m, b, st1, st2, h1, (hp _ _ _).mpr h2, h3, h4⟩⟩

/-- A template and its layout, with everything that the theorems below are about. -/
def layoutSample : List (Str × Str) :=
  [(c!"t/a.html", c!"{% extends \"base.html\" %}{% block main %}new {% call super() %}{% endblock %}"),
   (c!"t/base.html", c!"<ul>{% for i in [1,2,3] if i != 2 %}<li>{{ i }}{% if loop.last %}{% break %}{% endif %}{% else %}none{% endfor %}</ul>{% for i in [] %}{% else %}empty {% endfor %}{% if x == y %}same{% else if x == \"x\" %}x{% else %}other{% endif %}{% match y %}{% when \"z\" %}Z{% when _ %}{% raw %}{{ raw }}{% endraw %}{% endmatch %}{# no #}{%- block main %}[{{ type }}]{% endblock ~%}\n {% include \"foot.html\" %}"),
   (c!"t/foot.html", c!"{% filter upper|trim %}{{ loop_ }}--{{ x|safe }}{% endfilter %}")]

/-- The kind of a node. -/
def kind : Node → Nat
  | .loop .. => 1
  | .if_ .. => 2
  | .match_ .. => 3
  | .blockDef .. => 4
  | .include .. => 5
  | _ => 0

/-- There are templates as in the theorems below, with loops, conditionals, `match`, blocks and includes in the layout. -/
theorem layoutSample_translates : ∃ code w, Translates code w
    ∧ Finishes calm code c!"<ul><li>2</ul>empty x{{ raw }}new [r#type]\n trim(upper(loop_--x))"
    ∧ w.root.nodes.map kind = [0, 1, 0, 1, 2, 3, 0, 4, 0, 5] := by
  have h1 : (buildTemplate (toyEnv layoutSample) (toyConfig .preserve) c!"T" (toyArgs c!"a.html" none) 50).toOption.map
      (fun code => (output calm code, straysList code))
        = some (some c!"<ul><li>2</ul>empty x{{ raw }}new [r#type]\n trim(upper(loop_--x))", false) := by
    decide +kernel
  have h2 : (load (toyEnv layoutSample) (toyConfig .preserve) c!"T" (toyArgs c!"a.html" none) 50).map
      (fun w => (w.core, w.root.nodes.map kind)) = some (true, [0, 1, 0, 1, 2, 3, 0, 4, 0, 5]) := by
    decide +kernel
  obtain ⟨code, h3, h4⟩ := Option.map_eq_some_iff.mp h1
  obtain ⟨w, h5, h6⟩ := Option.map_eq_some_iff.mp h2
  have h3 : buildTemplate (toyEnv layoutSample) (toyConfig .preserve) c!"T" (toyArgs c!"a.html" none) 50 = .ok code := by
    cases hb : buildTemplate (toyEnv layoutSample) (toyConfig .preserve) c!"T" (toyArgs c!"a.html" none) 50 with
    | error e => rw [hb] at h3; cases h3
    | ok x => rw [hb] at h3; cases h3; rfl
  simp only [Prod.mk.injEq] at h4 h6
  exact ⟨code, w, ⟨⟨_, _, _, _, _, _, _, _, _, toyConfig_new, rfl, ⟨50, h3⟩, ⟨50, h5⟩⟩, .inl h6.1⟩,
    (finishes_iff h4.2).mpr h4.1, h6.2⟩

theorem split_at {α β : Type} {f : α → β} {b : β} : (l : List α) → b ∈ l.map f → ∃ pre n post, l = pre ++ n :: post ∧ f n = b
  | [], h => by simp at h
  | x :: l, h => by
    by_cases hx : f x = b
    · exact ⟨[], x, l, rfl, hx⟩
    · have : b ∈ l.map f := by
        rcases List.mem_cons.mp h with h | h
        · exact absurd h.symm hx
        · exact h
      obtain ⟨pre, n, post, rfl, hn⟩ := split_at l this
      exact ⟨x :: pre, n, post, rfl, hn⟩

/-- Their hypotheses are met. -/
example : ∃ code w pre n post, Translates code w ∧ w.root.nodes = pre ++ n :: post ∧ kind n = 1 := by
  obtain ⟨code, w, h1, -, h2⟩ := layoutSample_translates
  obtain ⟨pre, n, post, h3, h4⟩ := split_at (b := 1) w.root.nodes (by rw [h2]; decide)
  exact ⟨code, w, pre, n, post, h1, h3, h4⟩

/-! ## The code of a template

What the generator does with the nodes of a template, without any condition on the template. The theorems up to
`met_filter` say that it makes code for everything in it; those of C40, C41 and C45 say which. -/

/-- The generator is called for the layout, … -/
theorem met_layout {H : Option Heritage} {ctx : Ctx} (hI : I.block = none) {fuel : Nat} {code : List Stmt}
    (h : generate I fuel H ctx = .ok code) : Handled I H (rootOf H ctx) none (rootOf H ctx).nodes code :=
  Gen.generate_handled hI h

/-- … it meets every node it is called for, … -/
theorem met_node {H : Option Heritage} {ctx : Ctx} (hI : I.block = none) {sup : Option (Str × Nat)} {n : Node}
    {pre post : List Node} {code : List Stmt} (h : Handled I H ctx sup (pre ++ n :: post) code) :
    ∃ c1 cn c2 L, NodeCode I H ctx sup L n cn ∧ code = c1 ++ cn ++ c2 := Gen.handled_split hI h

/-- … it is called for the parts of tags, … -/
theorem met_part {H : Option Heritage} {ctx : Ctx} {sup : Option (Str × Nat)} {L : Locals} {nodes : List Node} {ws : Ws}
    {code : List Stmt} (h : CodeFor I H ctx sup L nodes ws code) :
    ∃ b rest, Handled I H ctx sup nodes b ∧ code = b ++ rest := Gen.codeFor_handled h

/-- … for included templates, … -/
theorem met_include {H : Option Heritage} {ctx : Ctx} (hI : I.block = none) (hb : AllBlocksOk I)
    {sup : Option (Str × Nat)} {L : Locals} {ws : Ws} {path : Str} {code : List Stmt}
    (h : NodeCode I H ctx sup L (.include ws path) code) :
    ∃ q c chain Hc c1 b c2, I.find path = some q ∧ assoc I.contexts q = some c
      ∧ includeChain I (withMacrosOf c ctx) = some chain ∧ HChain Hc chain
      ∧ Handled I Hc (chain.getLastD (withMacrosOf c ctx)) none (chain.getLastD (withMacrosOf c ctx)).nodes b
      ∧ code = c1 ++ b ++ c2 := Gen.nodeCode_include hI hb h

/-- … for macros at their calls, … -/
theorem met_call {H : Option Heritage} {ctx : Ctx} (hI : I.block = none) {sup : Option (Str × Nat)} {L : Locals} {ws : Ws}
    {scope : Option Str} {name : Str} (hn : name ≠ c!"super") {args : List Expr} {code : List Stmt}
    (h : NodeCode I H ctx sup L (.call ws scope name args) code) :
    ∃ d own c1 head b c2, Gen.findMacro I ctx scope name = .ok (d, own) ∧ args.length = d.args.length
      ∧ Handled I H own sup d.nodes b ∧ code = c1 ++ [.block (head ++ b ++ c2)] := Gen.nodeCode_call hI hn h

/-- … and for the content of filter blocks. -/
theorem met_filter {H : Option Heritage} {ctx : Ctx} {sup : Option (Str × Nat)} {L : Locals} {ws1 ws2 : Ws}
    {f : FilterApp} {nodes : List Node} {code : List Stmt}
    (h : NodeCode I H ctx sup L (.filterBlock ws1 f nodes ws2) code) :
    ∃ b c2, Handled I H ctx sup nodes b ∧ code = b ++ c2 := Gen.nodeCode_filter h

/-! ## C40: loops -/

/-- C40: if nothing is left to iterate over, a `for` renders its `else` part, otherwise its body once for each item in order
up to a `break`. This is so for every loop at the top level of a template's layout; for loops inside of other tags it is
`C40_everywhere`. -/
theorem C40_for_else (hs : Stable W) {code : List Stmt} {w : Whole} (h : Translates code w) {pre post : List Node}
    {ws1 ws2 ws3 : Ws} {t : Target} {iter : Expr} {cond : Option Expr} {body els : List Node}
    (hr : w.root.nodes = pre ++ .loop ws1 t iter cond body ws2 els ws3 :: post) (s : Str) :
    Finishes W code s ↔ w.Around W pre (.loop ws1 t iter cond body ws2 els ws3) post
      (fun p m st => LoopMakes W w.input p ws1 t iter cond body ws2 els ws3 m .next st) s :=
  translates_around hs h hr _ (fun _ _ _ => makes_loop) s

/-- C40: the same for a loop at any place. -/
theorem C40_everywhere {p : Place U} {ws1 ws2 ws3 : Ws} {t : Target} {iter : Expr} {cond : Option Expr}
    {body els : List Node} {s : Str} {sig : Sig} {st : Store U} :
    Makes W I p [.loop ws1 t iter cond body ws2 els ws3] s sig st
      ↔ LoopMakes W I p ws1 t iter cond body ws2 els ws3 s sig st := makes_loop

/-- C40 for the code of every template, faithful or not: the code of a `for` runs the code of its `else` part if nothing is
left to iterate over, and otherwise the code of its body once for each item in order up to a `break`. -/
theorem C40_generated {H : Option Heritage} {ctx : Ctx} (hI : I.block = none)
    {sup : Option (Str × Nat)} {L : Locals} {ws1 ws2 ws3 : Ws} {t : Target}
    {iter : Expr} {cond : Option Expr} {body els : List Node} {code : List Stmt}
    (h : NodeCode I H ctx sup L (.loop ws1 t iter cond body ws2 els ws3) code) :
    ∃ pre stmt, code = pre ++ [stmt] ∧ LoopCode I H ctx sup L t iter cond body ws2 els ws3 stmt :=
  Gen.nodeCode_loop hI h

/-! ## C41: branches -/

/-- C41 for `if`: the first branch whose condition holds is rendered, and nothing if there is none. -/
theorem C41_if (hs : Stable W) {code : List Stmt} {w : Whole} (h : Translates code w) {pre post : List Node} {ws : Ws}
    {bs : List Cond} (hr : w.root.nodes = pre ++ .if_ ws bs :: post) (s : Str) :
    Finishes W code s ↔ w.Around W pre (.if_ ws bs) post (fun p m st => IfMakes W w.input p ws bs m .next st) s :=
  translates_around hs h hr _ (fun _ _ _ => makes_if) s

/-- C41 for `if` at any place. -/
theorem C41_if_everywhere {p : Place U} {ws : Ws} {bs : List Cond} {s : Str} {sig : Sig} {st : Store U} :
    Makes W I p [.if_ ws bs] s sig st ↔ IfMakes W I p ws bs s sig st := makes_if

/-- C41 for `match`: the first arm whose pattern matches is rendered. -/
theorem C41_match (hs : Stable W) {code : List Stmt} {w : Whole} (h : Translates code w) {pre post : List Node}
    {ws1 ws2 : Ws} {e : Expr} {arms : List When} (hr : w.root.nodes = pre ++ .match_ ws1 e arms ws2 :: post) (s : Str) :
    Finishes W code s ↔ w.Around W pre (.match_ ws1 e arms ws2) post
      (fun p m st => MatchMakes W w.input p e arms ws2 m .next st) s :=
  translates_around hs h hr _ (fun _ _ _ => makes_match) s

/-- C41 for `match` at any place. -/
theorem C41_match_everywhere {p : Place U} {ws1 ws2 : Ws} {e : Expr} {arms : List When} {s : Str} {sig : Sig}
    {st : Store U} : Makes W I p [.match_ ws1 e arms ws2] s sig st ↔ MatchMakes W I p e arms ws2 s sig st := makes_match

/-- C41 for the code of every template: the code of an `if` has the code of its branches, one for one, and runs that of the
first whose condition holds. -/
theorem C41_generated_if {H : Option Heritage} {ctx : Ctx} (hI : I.block = none)
    {sup : Option (Str × Nat)} {L : Locals} {ws : Ws} {bs : List Cond}
    {code : List Stmt} (h : NodeCode I H ctx sup L (.if_ ws bs) code) :
    ∃ pre stmt, code = pre ++ [stmt] ∧ IfCode I H ctx sup L ws bs stmt := Gen.nodeCode_if hI h

/-- C41 for the code of every template: the code of a `match` has the code of its arms, one for one, and runs that of the
first whose pattern matches. -/
theorem C41_generated_match {H : Option Heritage} {ctx : Ctx} (hI : I.block = none)
    {sup : Option (Str × Nat)} {L : Locals} {ws1 ws2 : Ws} {e : Expr}
    {arms : List When} {code : List Stmt} (h : NodeCode I H ctx sup L (.match_ ws1 e arms ws2) code) :
    ∃ pre stmt, code = pre ++ [stmt] ∧ MatchCode I H ctx sup L e arms ws2 stmt := Gen.nodeCode_match hI h

example : ∃ code w pre n post, Translates code w ∧ w.root.nodes = pre ++ n :: post ∧ kind n = 2 := by
  obtain ⟨code, w, h1, -, h2⟩ := layoutSample_translates
  obtain ⟨pre, n, post, h3, h4⟩ := split_at (b := 2) w.root.nodes (by rw [h2]; decide)
  exact ⟨code, w, pre, n, post, h1, h3, h4⟩

example : ∃ code w pre n post, Translates code w ∧ w.root.nodes = pre ++ n :: post ∧ kind n = 3 := by
  obtain ⟨code, w, h1, -, h2⟩ := layoutSample_translates
  obtain ⟨pre, n, post, h3, h4⟩ := split_at (b := 3) w.root.nodes (by rw [h2]; decide)
  exact ⟨code, w, pre, n, post, h1, h3, h4⟩

/-! ## C42: names -/

/-- C42: for every stack of scopes and every name, the code reads the innermost local variable of that name (or what the
name of a macro parameter stands for), and the field of the context if there is none. -/
theorem C42_resolution (parent : Locals) (ops : List (ScopeOp LocalMeta)) (x : Str) (hx : x ≠ c!"self") :
    ∃ r, visitExpr I (ops.foldl (fun m op => applyOp op m) parent.withParent) (.var x) = .ok (r, false)
      ∧ ∀ (U : Type) (W : World U) (ρ : REnv U), r.eval W ρ =
          match ((stackAfter ops).find (rawIdent x)).orElse fun _ => parent.get (rawIdent x) with
          | some ⟨none, _⟩ => (ρ.vars.find? fun e => e.1 == rawIdent x).bind (·.2)
          | some ⟨some e, _⟩ => e.eval W ρ
          | none => W.attr W.self_ (rawIdent x) := by
  refine ⟨_, by rw [visitExpr, if_neg hx], ?_⟩
  intro U W ρ
  have hn : normalizeIdentifier x = rawIdent x := C56_exact x
  have hn2 : normalizeIdentifier (rawIdent x) = rawIdent x := by rw [← hn]; exact C56_idempotent x
  unfold Locals.resolveOrSelf Locals.resolve
  simp only [hn, hn2]
  rw [C58_stack_of_maps]
  cases ((stackAfter ops).find (rawIdent x)).orElse fun _ => parent.get (rawIdent x) with
  | none => simp [RExpr.eval]
  | some m =>
    obtain ⟨refs, init⟩ := m
    cases refs with
    | none => simp [RExpr.eval, lookupVar]
    | some e => rfl

/-- C42: a keyword and any other name do not collide. -/
theorem C42_keywords (x y : Str) (hx : '#' ∉ x) (hy : '#' ∉ y) : rawIdent x = rawIdent y ↔ x = y := by
  constructor
  · intro h
    refine C56_injective x y hx hy ?_
    rw [C56_exact, C56_exact]
    exact h
  · rintro rfl; rfl

/-- C42 for what templates mean: after a variable is declared, its name and no other has the value. -/
theorem C42_declared (st : Store U) (x y : Str) (hx : '#' ∉ x) (hy : '#' ∉ y) (hy2 : y ≠ c!"_") (v : Val U) :
    (st.declare (Target.name y).names [v] true).name W x = if x = y then some v else st.name W x := by
  have hn : (Target.name y).names = [rawIdent y] := by
    simp only [Target.names, if_neg hy2]
    rw [C56_exact]; rfl
  rw [hn]
  unfold Store.name Store.declare Store.status
  simp only [bindVars, List.foldl_cons, List.foldl_nil, List.find?_cons]
  by_cases h : x = y
  · subst h; simp
  · have : (rawIdent y == rawIdent x) = false := by
      simp only [beq_eq_false_iff_ne, ne_eq, C42_keywords y x hy hx]
      exact fun e => h e.symm
    simp [this, h]

/-- C42: where nothing is declared, a name is a field of the context. -/
theorem C42_field (item : Option LoopItem) (x : Str) :
    (Store.mk [] [] item).name W x = W.attr W.self_ (rawIdent x) := rfl

example : (visitExpr ⟨.preserve, [], [], false, none, fun _ => none, []⟩
      ([ScopeOp.insert c!"r#type" ⟨none, true⟩, .push].foldl (fun m op => applyOp op m) (MapChain.withParent .empty))
      (.var c!"type")).toOption.map (fun r => match r.1 with | .local_ n => some n | _ => none)
    = some (some c!"r#type") := by decide +kernel

example : ((Store.mk [] [] none).declare (Target.name c!"type").names [toy.nat 5] true).name toy c!"type"
    = some (toy.nat 5) := by rw [C42_declared _ _ _ (by decide) (by decide) (by decide), if_pos rfl]

/-! ## C45: inheritance -/

/-- C45: what is rendered is the top level of the last template of the chain that `extends` makes. -/
theorem C45_root (hs : Stable W) {code : List Stmt} {w : Whole} (h : Translates code w) :
    ∃ chain, Ancestry w.input.contexts w.ctx chain ∧ w.root = chain.getLastD w.ctx
      ∧ (∀ name k c d, Defines w.chain name k c d ↔ Defines chain name k c d)
      ∧ ∀ s, Finishes W code s ↔ ∃ st, Makes W w.input w.start (chain.getLastD w.ctx).nodes s .next st := by
  have hm := fun s => translates_means (W := W) hs h s
  obtain ⟨⟨isWs, krate, root, raw, ws, c, env, ident, args, h1, h2, ⟨n, h3⟩, ⟨k, h4⟩⟩, h5⟩ := h
  have hch : chainOf w.input.contexts w.ctx = some w.chain := load_chain h4
  obtain ⟨a, h6, h7, h8⟩ := chainOf_ancestry hch
  refine ⟨a, h6, h7, h8, fun s => ?_⟩
  rw [hm s, ← h7]
  exact Iff.rfl

/-- C45: a block of the layout shows the definition of the most derived template that has one, … -/
theorem C45_block (hs : Stable W) {code : List Stmt} {w : Whole} (h : Translates code w) {pre post : List Node}
    {ws1 ws2 : Ws} {name : Str} {nodes : List Node} (hr : w.root.nodes = pre ++ .blockDef ws1 name nodes ws2 :: post)
    (s : Str) : Finishes W code s ↔ w.Around W pre (.blockDef ws1 name nodes ws2) post
      (fun p m st => BlockMakes W w.input p name 0 m .next st) s :=
  translates_around hs h hr _ (fun _ _ _ => makes_block) s

/-- … wherever the block is, … -/
theorem C45_block_everywhere {p : Place U} {ws1 ws2 : Ws} {name : Str} {nodes : List Node} {s : Str} {sig : Sig}
    {st : Store U} : Makes W I p [.blockDef ws1 name nodes ws2] s sig st ↔ BlockMakes W I p name 0 s sig st := makes_block

/-- … and `super()` shows the next definition up the chain. -/
theorem C45_super {p : Place U} {ws : Ws} {scope : Option Str} {args : List Expr} {s : Str} {sig : Sig} {st : Store U} :
    Makes W I p [.call ws scope c!"super" args] s sig st
      ↔ ∃ name k, p.sup = some (name, k) ∧ BlockMakes W I p name (k + 1) s sig st := makes_super

example : ∃ code w pre n post, Translates code w ∧ w.root.nodes = pre ++ n :: post ∧ kind n = 4 := by
  obtain ⟨code, w, h1, -, h2⟩ := layoutSample_translates
  obtain ⟨pre, n, post, h3, h4⟩ := split_at (b := 4) w.root.nodes (by rw [h2]; decide)
  exact ⟨code, w, pre, n, post, h1, h3, h4⟩

/-- C45 for the code of every template: for a block the generator makes the code of the definition of the most derived
template that has one, … -/
theorem C45_generated_block {H : Option Heritage} {chain : List Ctx} (hH : HChain H chain) {ctx : Ctx}
    (hI : I.block = none) {sup : Option (Str × Nat)} {L : Locals} {ws1 ws2 : Ws} {name : Str} {nodes : List Node}
    {code : List Stmt} (h : NodeCode I H ctx sup L (.blockDef ws1 name nodes ws2) code) :
    ∃ c d c1 b c2, Defines chain name 0 c d ∧ Handled I H (Gen.mergeCtx c ctx) (some (name, 0)) d.nodes b
      ∧ code = c1 ++ b ++ c2 := Gen.nodeCode_block hI hH h

/-- … and for `super()` that of the next one up the chain. -/
theorem C45_generated_super {H : Option Heritage} {chain : List Ctx} (hH : HChain H chain) {ctx : Ctx}
    (hI : I.block = none) {sup : Option (Str × Nat)} {L : Locals} {ws : Ws} {scope : Option Str} {args : List Expr}
    {code : List Stmt} (h : NodeCode I H ctx sup L (.call ws scope c!"super" args) code) :
    ∃ name k c d c1 b c2, sup = some (name, k) ∧ Defines chain name (k + 1) c d
      ∧ Handled I H (Gen.mergeCtx c ctx) (some (name, k + 1)) d.nodes b ∧ code = c1 ++ b ++ c2 :=
  Gen.nodeCode_super hI hH h

/-- C45: the code of a template that compiles is that of the layout, and blocks are looked up in the chain that `extends`
makes. -/
theorem C45_generated_root {env : DeriveEnv} {c : Config} {ident : Str} {args : TemplateArgs} {code : List Stmt}
    (hb : args.block = none) (h : Compiles env c ident args code) :
    ∃ w H chain, Loads env c ident args w ∧ Ancestry w.input.contexts w.ctx chain ∧ w.root = chain.getLastD w.ctx
      ∧ (∀ name k c d, Defines w.chain name k c d ↔ Defines chain name k c d) ∧ HChain H w.chain
      ∧ w.input.block = none ∧ Handled w.input H w.root none w.root.nodes code := by
  obtain ⟨n, h⟩ := h
  obtain ⟨w, H, t, h1, h2, h3, h4, h5, h6, h7, h8, h9⟩ := build_loads h
  have hI : w.input.block = none := by rw [h3]; exact (newInput_block h2).trans hb
  have hch : chainOf w.input.contexts w.ctx = some w.chain := load_chain h1
  obtain ⟨a, h10, h11, h12⟩ := chainOf_ancestry hch
  refine ⟨w, H, a, ⟨n, h1⟩, h10, h11, h12, h7, hI, ?_⟩
  have := met_layout hI h9
  rw [h8] at this
  exact this

end Askama.Props
