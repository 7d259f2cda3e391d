import Verif.Lemmas.Lineage
import Verif.Props.Counter

/-!
Collecting templates: C52, C53 and C54. `Reachable` and `refsOfL` of `Verif.Spec.Collect` say which templates belong to
a template.
-/

namespace Askama.Props

open Askama Askama.Spec

theorem findInDirs_exists {fs : Files} {path q : Str} : {dirs : List Str} → findInDirs fs path dirs = some q →
    fs.exist q = true
  | [], h => by cases h
  | d :: ds, h => by
    unfold findInDirs at h
    split at h
    · cases h; assumption
    · exact findInDirs_exists h

/-- Only files that exist are found. -/
theorem findTemplate_exists {fs : Files} {c : Config} {path q : Str} {s : Option Str}
    (h : c.findTemplate fs path s = some q) : fs.exist q = true := by
  unfold Config.findTemplate at h
  split at h
  · split at h
    · cases h; assumption
    · exact findInDirs_exists h
  · exact findInDirs_exists h

/-! ## C54 -/

/-- C54: if finitely many paths exist, templates are collected in at most one round more than there are paths, and
each round parses one template; what goes wrong on the way is reported as an error. -/
theorem C54_terminates (env : DeriveEnv) (c : Config) (syn : Syntax) (paths : List Str)
    (hp : ∀ p, env.files.exist p = true → p ∈ paths) (main src : Str) (fuel : Nat) (hf : paths.length + 1 ≤ fuel) :
    findUsedTemplates (env.loader c syn) fuel main src = .error .err
    ∨ ∃ m, findUsedTemplates (env.loader c syn) fuel main src = .ok m := by
  cases h : findUsedTemplates (env.loader c syn) fuel main src with
  | ok m => exact .inr ⟨m, rfl⟩
  | error e =>
    rw [findUsedTemplates_error (dom := paths) (fun p r q h => hp _ (findTemplate_exists (c := c) (path := r) (s := some p) h)) hf h]
    exact .inl rfl

example : ∀ p, (toyEnv nestedDirs).files.exist p = true → p ∈ nestedDirs.map (·.1) := by
  intro p h
  exact assoc_isSome.mp h

/-- C54: the templates collected are exactly those that can be reached, each with its own nodes. The text of the first
template may come from the attribute; if its path can be reached as a file, that file has the same text. -/
theorem C54_reachable (env : DeriveEnv) (c : Config) (syn : Syntax) (fuel : Nat) (main src : Str)
    (hm : ∀ p r, (env.loader c syn).find p r = some main → (env.loader c syn).source main = some src)
    (m : List (Str × List Node)) (h : findUsedTemplates (env.loader c syn) fuel main src = .ok m) :
    (∀ p, (assoc m p).isSome = true ↔ Reachable (env.loader c syn) main src p)
    ∧ ∀ p, Reachable (env.loader c syn) main src p → assoc m p = parsed (env.loader c syn) main src p := by
  have := findUsedTemplates_all hm h
  exact ⟨this.keys, this.nodes⟩

/-- The loader for some files. -/
def toyLoader (files : List (Str × Str)) : Loader := (toyEnv files).loader (toyConfig .preserve) Syntax.default

/-- The paths of collected templates. -/
def collectedPaths (files : List (Str × Str)) (fuel : Nat) (main : Str) : Except GErr (List Str) :=
  match getTemplateSource (toyEnv files).files main with
  | none => .error .err
  | some src => (findUsedTemplates (toyLoader files) fuel main src).map fun m => (dedupKeys m []).map (·.1)

example : collectedPaths (nestedDirs ++ [(c!"t/z.html", c!"unused")]) 10 c!"t/a.html"
    = .ok [c!"t/d/c.html", c!"t/d/b.html", c!"t/a.html"] := by decide +kernel

/-- Files of the next theorem. -/
def importsItself : List (Str × Str) := [(c!"t/a.html", c!"{% import \"a.html\" as s %}")]

/-- C54 is false as to parsing once: there is one template, but it takes two rounds, because the first template is not
entered before it has been visited. -/
theorem C54_false_twice : collectedPaths importsItself 1 c!"t/a.html" = .error .diverge
    ∧ collectedPaths importsItself 2 c!"t/a.html" = .ok [c!"t/a.html"] := by decide +kernel

/-! ### Spellings of a path -/

/-- A path with `x/../` in it `n` times. -/
def spelling : Nat → Str
  | 0 => c!"t/"
  | n + 1 => spelling n ++ c!"x/../"

/-- A file system where `t/x` is a directory and `t/a.html` a file that imports itself as `x/../a.html`. -/
def spellingFiles : Files where
  exist := fun _ => true
  read := fun _ => some c!"{% import \"x/../a.html\" as s %}"

/-- Compiling with these files. -/
def spellingEnv : DeriveEnv := { toyEnv [] with files := spellingFiles }

theorem spelling_last (n : Nat) : ∃ d, spelling n = d ++ ['/'] ∧ d ≠ [] ∧ d.getLast? ≠ some '/' := by
  cases n with
  | zero => exact ⟨['t'], rfl, by simp, by simp⟩
  | succ n => exact ⟨spelling n ++ c!"x/..", by simp [spelling], by simp, by simp⟩

theorem spelling_length (n : Nat) : (spelling n).length = 2 + 5 * n := by
  induction n with
  | zero => rfl
  | succ n ih => simp [spelling, ih]; omega

theorem spelling_find (n : Nat) : (spellingEnv.loader (toyConfig .preserve) Syntax.default).find (spelling n ++ c!"a.html")
    c!"x/../a.html" = some (spelling (n + 1) ++ c!"a.html") := by
  show (toyConfig .preserve).findTemplate spellingFiles c!"x/../a.html" (some (spelling n ++ c!"a.html")) = _
  unfold Config.findTemplate
  have hw : Path.withFileName (spelling n ++ c!"a.html") c!"x/../a.html" = spelling (n + 1) ++ c!"a.html" := by
    obtain ⟨d, hd, hne, hl⟩ := spelling_last n
    have hpar : Path.parent (spelling n ++ c!"a.html") = d := by
      unfold Path.parent
      rw [hd]
      have : (d ++ ['/'] ++ c!"a.html").reverse = c!"lmth.a/" ++ d.reverse := by simp
      rw [this]
      have : (c!"lmth.a/" ++ d.reverse).dropWhile (· != '/') = '/' :: d.reverse := rfl
      rw [this]
      cases hr : d.reverse with
      | nil => simp at hr; exact absurd hr hne
      | cons x xs =>
        show (x :: xs).reverse = d
        rw [← hr, List.reverse_reverse]
    unfold Path.withFileName Path.join
    rw [hpar, if_neg (by decide), if_neg hne, if_neg hl]
    simp [spelling, hd]
  simp [hw, spellingFiles]

/-- C54 is false as to termination if every spelling of a path counts as existing: each round finds the template again
under a longer path. (An operating system refuses paths beyond some length, so that there is an error then.) -/
theorem C54_false_spellings (fuel : Nat) : findUsedTemplates (spellingEnv.loader (toyConfig .preserve) Syntax.default) fuel
    c!"t/a.html" c!"{% import \"x/../a.html\" as s %}" = .error .diverge := by
  let ld := spellingEnv.loader (toyConfig .preserve) Syntax.default
  have hparse : ∃ w, ld.parse c!"{% import \"x/../a.html\" as s %}" = some [.import_ w c!"x/../a.html" c!"s"] := by
    refine ⟨⟨none, none⟩, ?_⟩
    rfl
  obtain ⟨w, hparse⟩ := hparse
  have key : ∀ fuel n (m : List (Str × List Node)) deps, (∀ k, n < k → assoc m (spelling k ++ c!"a.html") = none) →
      checkLoop ld fuel ⟨m, [(spelling n ++ c!"a.html", c!"{% import \"x/../a.html\" as s %}")], deps⟩ = .error .diverge := by
    intro fuel
    induction fuel with
    | zero => intro n m deps _; rfl
    | succ fuel ih =>
      intro n m deps hm
      unfold checkLoop
      have hu : useTemplate ld (spelling n ++ c!"a.html") c!"{% import \"x/../a.html\" as s %}" ⟨m, [], deps⟩
          = .ok ⟨(spelling n ++ c!"a.html", [.import_ w c!"x/../a.html" c!"s"]) :: (spelling (n + 1) ++ c!"a.html", []) :: m,
              [(spelling (n + 1) ++ c!"a.html", c!"{% import \"x/../a.html\" as s %}")], deps⟩ := by
        unfold useTemplate
        rw [hparse]
        have hsrc : ld.source (spelling (n + 1) ++ c!"a.html") = some c!"{% import \"x/../a.html\" as s %}" := rfl
        simp [Node.listsL, Node.lists, useLoop, useNodes, useNode, useNested, ctxNested, spelling_find n, addToCheck,
          hm (n + 1) (by omega), hsrc, ld]
        rfl
      dsimp only
      rw [hu]
      refine ih (n + 1) _ deps ?_
      intro k hk
      have hne : ∀ a b, a < b → spelling a ++ c!"a.html" ≠ spelling b ++ c!"a.html" := by
        intro a b hab h
        have := congrArg List.length h
        simp [spelling_length] at this
        omega
      rw [assoc_cons, if_neg (hne _ _ (by omega)), assoc_cons, if_neg (hne _ _ hk), hm k (by omega)]
  exact key fuel 0 [] [] (fun _ _ => rfl)

/-! ## C52 -/

/-- C52, except for includes of included templates in other directories (`C52_false`): every template has been loaded
that a loaded template extends or imports, and also every template it includes, if that is looked up from the path of
the template itself. -/
theorem C52_loaded_partial (env : DeriveEnv) (c : Config) (syn : Syntax) (fuel : Nat) (main src : Str)
    (hm : ∀ p r, (env.loader c syn).find p r = some main → (env.loader c syn).source main = some src)
    (m : List (Str × List Node)) (h : findUsedTemplates (env.loader c syn) fuel main src = .ok m)
    (contexts : List (Str × Ctx)) (hc : makeContexts (env.loader c syn).find (dedupKeys m []) = .ok contexts)
    (p : Str) (ctx : Ctx) (hp : assoc contexts p = some ctx) :
    (∀ q, ctx.extends_ = some q → (assoc contexts q).isSome = true)
    ∧ (∀ scope q, assoc ctx.imports scope = some q → (assoc contexts q).isSome = true)
    ∧ (∀ r ∈ refsOfL true ctx.nodes, ∃ q, c.findTemplate env.files r (some p) = some q ∧ (assoc contexts q).isSome = true) := by
  have all := findUsedTemplates_all hm h
  obtain ⟨hr, hn, hcn⟩ := contexts_refs all hc hp
  have hrefs : ∀ r ∈ refsOfL true ctx.nodes, ∀ q, (env.loader c syn).find p r = some q →
      (assoc contexts q).isSome = true := by
    intro r hr' q hq
    rw [contexts_some all hc]
    exact .step hr hn hr' hq
  obtain ⟨⟨h1, h2⟩, -⟩ := contextNew_refs hcn
  refine ⟨?_, ?_, ?_⟩
  · intro q hq
    obtain ⟨r, hr', hf⟩ := h1 q hq
    exact hrefs r hr' q hf
  · intro scope q hq
    unfold assoc at hq
    obtain ⟨e, he, rfl⟩ := Option.map_eq_some_iff.mp hq
    obtain ⟨r, hr', hf⟩ := h2 e (List.mem_of_find?_eq_some he)
    exact hrefs r hr' _ hf
  · intro r hr'
    have hma : assoc m p = some ctx.nodes := by rw [all.nodes p hr]; exact hn
    obtain ⟨q, hq, hk⟩ := all.refs p ctx.nodes hma r hr'
    refine ⟨q, hq, ?_⟩
    rw [contexts_some all hc, ← all.keys]
    exact hk

/-- C52: making the heritage of a loaded template does not panic. -/
theorem C52_heritage_no_panic (env : DeriveEnv) (c : Config) (syn : Syntax) (fuel : Nat) (main src : Str)
    (hm : ∀ p r, (env.loader c syn).find p r = some main → (env.loader c syn).source main = some src)
    (m : List (Str × List Node)) (h : findUsedTemplates (env.loader c syn) fuel main src = .ok m)
    (contexts : List (Str × Ctx)) (hc : makeContexts (env.loader c syn).find (dedupKeys m []) = .ok contexts)
    (p : Str) (ctx : Ctx) (hp : assoc contexts p = some ctx) : Gen.heritageNew contexts ctx ≠ .error .panic := by
  intro he
  unfold Gen.heritageNew at he
  have hl := fun p ctx hp => (C52_loaded_partial env c syn fuel main src hm m h contexts hc p ctx hp).1
  cases hh : Gen.heritageChain contexts (contexts.length + 2) ctx with
  | ok l => rw [hh] at he; cases he
  | error e =>
    rw [hh] at he
    have := heritageChain_no_panic (fun p c q hp hq => hl p c hp q hq) _ (hl p ctx hp) hh
    subst this
    cases he

/-! ## C53 -/

/-- C53, where it is true: a template that extends itself is rejected. Missing: longer cycles (`C53_false`). -/
theorem C53_self_extends_partial (env : DeriveEnv) (c : Config) (syn : Syntax) (fuel : Nat) (main src : Str)
    (hm : ∀ p r, (env.loader c syn).find p r = some main → (env.loader c syn).source main = some src)
    (p : Str) (hp : Reachable (env.loader c syn) main src p) (nodes : List Node)
    (hn : parsed (env.loader c syn) main src p = some nodes) (r : Str) (hr : .extends_ r ∈ nodes)
    (hf : c.findTemplate env.files r (some p) = some p) (m : List (Str × List Node)) :
    findUsedTemplates (env.loader c syn) fuel main src ≠ .ok m := by
  intro h
  have all := findUsedTemplates_all hm h
  exact all.noSelf p nodes (by rw [all.nodes p hp, hn]) r hr hf

example : compiled [(c!"t/a.html", c!"{% extends \"a.html\" %}")] c!"a.html" = .error .err := by decide +kernel

/-- C53: the bound in the model is exact. It reports a chain of `extends` as endless if and only if it is. -/
theorem C53_endless (contexts : List (Str × Ctx)) (ctx : Ctx) :
    Gen.heritageNew contexts ctx = .error .diverge ↔ ∀ n, (ancestor contexts n ctx).isSome = true :=
  heritageNew_diverge

/-- C53: a template that is accepted has a finite chain of `extends`. -/
theorem C53_accepted_ends (env : DeriveEnv) (c : Config) (ident : Str) (args : TemplateArgs) (fuel : Nat) (code : List Stmt)
    (h : buildTemplate env c ident args fuel = .ok code) :
    ∃ t contexts ctx, TemplateInput.new env.files env.guess c ident args = .ok t ∧ assoc contexts t.path = some ctx
      ∧ (∃ src m, findUsedTemplates (env.loader c t.syn) fuel t.path src = .ok m
          ∧ makeContexts (env.loader c t.syn).find (dedupKeys m []) = .ok contexts)
      ∧ ∃ n, ancestor contexts n ctx = none := by
  unfold buildTemplate at h
  obtain ⟨t, h1, h⟩ := except_bind h
  obtain ⟨src, h2, h⟩ := except_bind h
  obtain ⟨m, h3, h⟩ := except_bind h
  obtain ⟨contexts, h4, h⟩ := except_bind h
  cases hctx : assoc contexts t.path with
  | none => rw [hctx] at h; cases h
  | some ctx =>
    rw [hctx] at h
    obtain ⟨H, h5, h⟩ := except_bind h
    refine ⟨t, contexts, ctx, h1, hctx, ⟨src, m, h3, h4⟩, ?_⟩
    apply Classical.byContradiction
    intro hno
    have hall : ∀ n, (ancestor contexts n ctx).isSome = true := by
      intro n
      cases ha : ancestor contexts n ctx with
      | none => exact absurd ⟨n, ha⟩ hno
      | some d => rfl
    have hd := (C53_endless contexts ctx).mpr hall
    unfold heritageOf at h5
    split at h5
    · rw [hd] at h5; cases h5
    · rename_i hc
      have := hall 1
      simp only [ancestor] at this
      cases he : ctx.extends_ with
      | none => rw [he] at this; cases this
      | some q => simp [he] at hc

/-- C53 is false: whatever the number of steps, `Heritage::new` has not returned on two templates that extend each
other, which are accepted when templates are collected. -/
theorem C53_false_forever : collectedPaths extendsCycle 10 c!"t/a.html" = .ok [c!"t/b.html", c!"t/a.html"]
    ∧ ∃ ctx, assoc (toyContexts extendsCycle) c!"t/a.html" = some ctx
      ∧ ∀ n, Gen.heritageChain (toyContexts extendsCycle) n ctx = .error .diverge := by
  refine ⟨by decide +kernel, ?_⟩
  have h : ((assoc (toyContexts extendsCycle) c!"t/a.html").bind fun ctx =>
      (ancestor (toyContexts extendsCycle) 3 ctx)).isSome = true
      ∧ (toyContexts extendsCycle).length = 2 := by decide +kernel
  obtain ⟨h, hlen⟩ := h
  cases hc : assoc (toyContexts extendsCycle) c!"t/a.html" with
  | none => rw [hc] at h; cases h
  | some ctx =>
    rw [hc] at h
    refine ⟨ctx, rfl, fun n => ?_⟩
    rw [heritageChain_diverge]
    exact ancestor_forever (by rw [hlen]; exact h) n

end Askama.Props
