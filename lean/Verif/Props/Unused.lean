import Verif.Lemmas.Unused
import Verif.Props.Outside

/-! Blocks, macros and imports that nobody uses: C78. -/

namespace Askama.Props

open Askama Askama.Spec

theorem unused_same {env env' : DeriveEnv} {c c' : Config}
    (hfind : ∀ p q, c.findTemplate env.files q (some p) = c'.findTemplate env'.files q (some p)) {ident ident' : Str}
    {args args' : TemplateArgs} {fuel : Nat} {code : List Stmt} {w w' : Whole} (h : buildTemplate env c ident args fuel = .ok code)
    (h1 : load env c ident args fuel = some w) (h1' : load env' c' ident' args' fuel = some w') {E : NewNames} (hs : SameButUnused E w w') :
    buildTemplate env' c' ident' args' fuel = .ok code := by
  obtain ⟨t, -, h2, h3, h4, h5, h6⟩ := load_parts h1
  obtain ⟨t', -, h2', h3', -, h5', h6'⟩ := load_parts h1'
  have hcs : PlusCs E w.input.contexts w'.input.contexts := by
    refine ⟨?_, fun p x hp => ?_, fun p x hp => contextNew_blocks (h5 p x hp), fun p x hp => contextNew_blocks (h5' p x hp)⟩
    · have := nodup_length h4 (m := w'.input.contexts.map (·.1)) fun p hp => by
        rw [← assoc_isSome] at hp ⊢
        obtain ⟨x, hx⟩ := Option.isSome_iff_exists.mp hp
        obtain ⟨y, hy, -⟩ := hs.templates p x hx
        rw [hy]; rfl
      simpa using this
    · obtain ⟨y, hy, hxy⟩ := hs.templates p x hp
      have e : (env.loader c t.syn).find p = (env'.loader c' t'.syn).find p := funext (hfind p)
      have k := h5' p y hy
      rw [← e] at k
      obtain ⟨k1, k2⟩ := contextNew_sameUsed (h5 p x hp) k (hs.fresh p x hp) hxy
      exact ⟨y, hy, k1, k2⟩
  have hI : w'.input = withCs w.input w'.input.contexts := by
    have e : ∀ I J : GenInput, I.ws = J.ws → I.escaper = J.escaper → I.escapers = J.escapers → I.json = J.json → I.block = J.block →
        I.find = J.find → J = withCs I J.contexts := by
      rintro ⟨⟩ ⟨⟩ h1 h2 h3 h4 h5 h6
      cases h1; cases h2; cases h3; cases h4; cases h5; cases h6
      rfl
    exact e _ _ hs.ws hs.escaper hs.escapers hs.json hs.block hs.find
  have hblock : t'.block = t.block := by
    have := hs.block
    rw [h2, h2'] at this
    exact this.symm
  have hctx : CtxPlus E w.ctx w'.ctx ∧ (w.ctx.extends_ = none → w.ctx.nodes = w'.ctx.nodes ∧ w.ctx.blocks = w'.ctx.blocks) := by
    have e : (env.loader c t.syn).find t.path = (env'.loader c' t'.syn).find t'.path := by
      have := hs.find
      rw [h2, h2'] at this
      exact this
    have k := h5' _ _ h3'
    rw [← e] at k
    exact contextNew_sameUsed (h5 _ _ h3) k (hs.fresh _ _ h3) hs.main
  rw [h6] at h
  obtain ⟨H, h7, h⟩ := except_bind h
  obtain ⟨H', k1, k2, k3, k4⟩ := heritageOf_plus hcs hctx.1 hctx.2 (contextNew_blocks (h5 _ _ h3)) (contextNew_blocks (h5' _ _ h3')) h7
  rw [h6', hblock, k1]
  show generate w'.input fuel H' w'.ctx = .ok code
  rw [hI]
  rcases generate_plus hcs fuel k2 k3 k4 with ⟨e, he⟩ | he
  · rw [h] at he; cases he
  · rw [← he]; exact h

/-- C78: definitions that nobody uses are never compiled. Let a template compile, and take another version of it and of all templates
that belong to it (`SameButUnused`): one where those that extend another have more blocks, macros and imports, at any place outside of
the nodes that are there, under names that none of the templates has for a block, a macro or an import so far. If all templates of that
version are found and understood, then it compiles as well, and to the very same code: the new blocks are not rendered, and
what is in the new definitions need not make sense. -/
theorem C78_unused {env env' : DeriveEnv} {c c' : Config}
    (hfind : ∀ p q, c.findTemplate env.files q (some p) = c'.findTemplate env'.files q (some p)) {ident ident' : Str}
    {args args' : TemplateArgs} {fuel fuel' : Nat} (hle : fuel ≤ fuel') {code : List Stmt} {w' : Whole}
    (h : buildTemplate env c ident args fuel = .ok code) (h' : load env' c' ident' args' fuel' = some w') (E : NewNames) :
    ∃ w, load env c ident args fuel = some w ∧ (SameButUnused E w w' → buildTemplate env' c' ident' args' fuel' = .ok code) := by
  obtain ⟨w, -, -, h1, -⟩ := build_loads h
  refine ⟨w, h1, fun hs => ?_⟩
  have b1 : buildTemplate env c ident args fuel' = .ok code := by
    rcases buildTemplate_mono env c ident args hle with e | e
    · rw [h] at e; cases e
    · rw [← e]; exact h
  have l1 : load env c ident args fuel' = some w := by
    rcases load_mono env c ident args hle with e | e
    · rw [h1] at e; cases e
    · rw [← e]; exact h1
  exact unused_same hfind b1 l1 h' hs

/-- A template that extends another, without and with a block, a macro and an import that are not used. -/
def unusedSample : Bool → List (Str × Str)
  | true =>
    [(c!"t/a.html", c!"{% extends \"base.html\" %}{% macro m(a) %}{{ a }}{% endmacro %}{% block main %}{% call m(x) %}{% endblock %}"),
     (c!"t/base.html", c!"<p>{% block main %}{% endblock %}</p>"), (c!"t/lib.html", c!"{% macro q() %}{% endmacro %}")]
  | false =>
    [(c!"t/a.html", c!"{% extends \"base.html\" %}{% import \"lib.html\" as lib %}{% macro m(a) %}{{ a }}{% endmacro %}{% macro n() %}{% call nobody() %}{% endmacro %}{% block main %}{% call m(x) %}{% endblock %}{% block aside %}{% call lib::r() %}{% if y %}{% block inner %}{% endblock %}{% endif %}{% endblock %}"),
     (c!"t/base.html", c!"<p>{% block main %}{% endblock %}</p>"), (c!"t/lib.html", c!"{% macro q() %}{% endmacro %}")]

/-- The new names. -/
def unusedNames : NewNames := ⟨fun n => n == c!"aside" || n == c!"inner", fun n => n == c!"n", fun n => n == c!"lib"⟩

theorem unusedSample_files : (toyEnv (unusedSample true)).files.exist = (toyEnv (unusedSample false)).files.exist := by
  funext p
  have e (b : Bool) : (unusedSample b).map (·.1) = [c!"t/a.html", c!"t/base.html", c!"t/lib.html"] := by cases b <;> rfl
  have key (b : Bool) : (assoc (unusedSample b) p).isSome = [c!"t/a.html", c!"t/base.html", c!"t/lib.html"].any fun k => k == p := by
    rw [← e b]
    simp only [assoc, Option.isSome_map, List.any_map]
    rw [List.isSome_find?]
    rfl
  exact (key true).trans (key false).symm

theorem unusedSample_find (p q : Str) : (toyConfig .preserve).findTemplate (toyEnv (unusedSample true)).files q (some p)
    = (toyConfig .preserve).findTemplate (toyEnv (unusedSample false)).files q (some p) := by
  have e : ∀ ds, findInDirs (toyEnv (unusedSample true)).files q ds = findInDirs (toyEnv (unusedSample false)).files q ds := by
    intro ds
    induction ds with
    | nil => rfl
    | cons d ds ih => unfold findInDirs; rw [unusedSample_files, ih]
  unfold Config.findTemplate
  dsimp only
  rw [unusedSample_files, e]

/-- A template without what does not matter. -/
def tidyUsed (E : NewNames) (ns : List Node) : List Node := if ns.any isExtends then ns.filter (fun n => !E.spare n) else ns

theorem isExtends_spare {E : NewNames} {n : Node} (h : isExtends n = true) : E.spare n = false := by
  cases n with
  | extends_ p => rfl
  | _ => cases h

theorem any_tidyUsed (E : NewNames) (ns : List Node) : (tidyUsed E ns).any isExtends = ns.any isExtends := by
  unfold tidyUsed
  split
  · rename_i h
    obtain ⟨n, hn, he⟩ := List.any_eq_true.mp h
    rw [h]
    exact List.any_eq_true.mpr ⟨n, List.mem_filter.mpr ⟨hn, by simp [isExtends_spare he]⟩, he⟩
  · rfl

theorem sameUsed_of_tidy {E : NewNames} {x y : List Node} (h : tidyUsed E x = tidyUsed E y) : SameUsed E x y := by
  have ha : x.any isExtends = y.any isExtends := by rw [← any_tidyUsed E x, h, any_tidyUsed]
  unfold tidyUsed at h
  rw [← ha] at h
  split at h
  · rename_i hx
    refine .inr ⟨?_, h⟩
    obtain ⟨n, hn, he⟩ := List.any_eq_true.mp hx
    cases n with
    | extends_ p => exact ⟨p, hn⟩
    | _ => cases he
  · exact .inl h

/-- The template does not have the new names. -/
def freshB (x : Ctx) : Bool :=
  (assoc x.blocks c!"aside").isNone && (assoc x.blocks c!"inner").isNone && (assoc x.macros c!"n").isNone
    && (assoc x.imports c!"lib").isNone

theorem freshB_fresh {x : Ctx} (h : freshB x = true) : unusedNames.Fresh x := by
  simp only [freshB, Bool.and_eq_true, Option.isNone_iff_eq_none] at h
  obtain ⟨⟨⟨h1, h2⟩, h3⟩, h4⟩ := h
  refine ⟨fun n hn => ?_, fun n hn => ?_, fun n hn => ?_⟩
  · simp only [unusedNames, Bool.or_eq_true, beq_iff_eq] at hn
    rcases hn with rfl | rfl
    · exact h1
    · exact h2
  · simp only [unusedNames, beq_iff_eq] at hn
    subst hn; exact h3
  · simp only [unusedNames, beq_iff_eq] at hn
    subst hn; exact h4

/-- Two versions of a template, of which the second imports a template more. -/
theorem unusedLoaded {env env' : DeriveEnv} {c c' : Config} {args : TemplateArgs} {path more : Str}
    (hb : (buildTemplate env c c!"T" args 50).toOption.isSome = true) (hb' : (load env' c' c!"T" args 50).isSome = true)
    (hp : (TemplateInput.new env.files env.guess c c!"T" args).toOption.map (·.path) = some path)
    (hp' : (TemplateInput.new env'.files env'.guess c' c!"T" args).toOption.map (·.path) = some path)
    (hf : ∀ q, c.findTemplate env.files q (some path) = c'.findTemplate env'.files q (some path))
    (hfresh : (load env c c!"T" args 50).all (fun w => w.input.contexts.all fun x => freshB x.2) = true)
    (hrest : (load env c c!"T" args 50).map (fun w => (w.input.ws, w.input.escaper, w.input.escapers, w.input.json, w.input.block,
        onSnd (fun x : Ctx => tidyUsed unusedNames x.nodes) w.input.contexts, tidyUsed unusedNames w.ctx.nodes))
      = (load env' c' c!"T" args 50).map (fun w => (w.input.ws, w.input.escaper, w.input.escapers, w.input.json, w.input.block,
        (onSnd (fun x : Ctx => tidyUsed unusedNames x.nodes) w.input.contexts).filter fun e => e.1 != more, tidyUsed unusedNames w.ctx.nodes))) :
    ∃ code w w', buildTemplate env c c!"T" args 50 = .ok code ∧ load env c c!"T" args 50 = some w
      ∧ load env' c' c!"T" args 50 = some w' ∧ SameButUnused unusedNames w w' := by
  cases h : buildTemplate env c c!"T" args 50 with
  | error e => rw [h] at hb; cases hb
  | ok code =>
    cases h1' : load env' c' c!"T" args 50 with
    | none => rw [h1'] at hb'; cases hb'
    | some w' =>
      obtain ⟨w, H, t, h1, h2, h3, -⟩ := build_loads h
      obtain ⟨t', h2', h3', -⟩ := load_parts h1'
      refine ⟨code, w, w', rfl, h1, rfl, ?_⟩
      rw [h1, h1'] at hrest
      rw [h2] at hp
      rw [h2'] at hp'
      simp only [Option.map_some, Option.some.injEq, Prod.mk.injEq] at hrest
      obtain ⟨r0, r1, r2, r3, r4, r5, r6⟩ := hrest
      refine ⟨r0, r1, r2, r3, r4, ?_, ?_, ?_, sameUsed_of_tidy r6⟩
      · rw [h3, h3']
        have e : t.path = path := Option.some.inj hp
        have e' : t'.path = path := Option.some.inj hp'
        funext q
        show c.findTemplate env.files q (some t.path) = c'.findTemplate env'.files q (some t'.path)
        rw [e, e', hf]
      · intro p x hx
        rw [h1] at hfresh
        have hall := List.all_eq_true.mp hfresh
        have hm : (p, x) ∈ w.input.contexts := by
          unfold assoc at hx
          obtain ⟨e, he, rfl⟩ := Option.map_eq_some_iff.mp hx
          have hk := List.find?_some he
          rw [beq_iff_eq] at hk
          rw [← hk]
          exact List.mem_of_find?_eq_some he
        exact freshB_fresh (hall _ hm)
      · intro p x hx
        have e : assoc (onSnd (fun x : Ctx => tidyUsed unusedNames x.nodes) w.input.contexts) p = some (tidyUsed unusedNames x.nodes) := by
          rw [assoc_onSnd, hx]; rfl
        rw [r5] at e
        have e := assoc_dropped e
        rw [assoc_onSnd] at e
        cases hy : assoc w'.input.contexts p with
        | none => rw [hy] at e; cases e
        | some y =>
          rw [hy] at e
          exact ⟨y, rfl, sameUsed_of_tidy (Option.some.inj e).symm⟩

set_option maxRecDepth 100000 in
example : (∃ code w w',
      buildTemplate (toyEnv (unusedSample true)) (toyConfig .preserve) c!"T" (toyArgs c!"a.html" none) 50 = .ok code
      ∧ load (toyEnv (unusedSample true)) (toyConfig .preserve) c!"T" (toyArgs c!"a.html" none) 50 = some w
      ∧ load (toyEnv (unusedSample false)) (toyConfig .preserve) c!"T" (toyArgs c!"a.html" none) 50 = some w' ∧ SameButUnused unusedNames w w')
    ∧ (load (toyEnv (unusedSample true)) (toyConfig .preserve) c!"T" (toyArgs c!"a.html" none) 50).map (·.input.contexts.length) = some 2
    ∧ (load (toyEnv (unusedSample false)) (toyConfig .preserve) c!"T" (toyArgs c!"a.html" none) 50).map (·.input.contexts.length) = some 3
    ∧ (load (toyEnv (unusedSample true)) (toyConfig .preserve) c!"T" (toyArgs c!"a.html" none) 50).map (·.ctx.nodes.length) = some 3
    ∧ (load (toyEnv (unusedSample false)) (toyConfig .preserve) c!"T" (toyArgs c!"a.html" none) 50).map (·.ctx.nodes.length) = some 6 := by
  refine ⟨?_, by decide +kernel, by decide +kernel, by decide +kernel, by decide +kernel⟩
  exact unusedLoaded (path := c!"t/a.html") (more := c!"t/lib.html") (by decide +kernel) (by decide +kernel) (by decide +kernel)
    (by decide +kernel) (unusedSample_find _) (by decide +kernel) (by rfl)

end Askama.Props
