import Verif.Lemmas.Outside
import Verif.Lemmas.Fuel
import Verif.Props.Escaping

/-! What stands outside of the blocks of a template that extends another: C77. -/

namespace Askama.Props

open Askama Askama.Spec

theorem outside_same {env env' : DeriveEnv} {c c' : Config}
    (hfind : ∀ p q, c.findTemplate env.files q (some p) = c'.findTemplate env'.files q (some p)) {ident ident' : Str}
    {args args' : TemplateArgs} {fuel : Nat} {code : List Stmt} {w w' : Whole} (h : buildTemplate env c ident args fuel = .ok code)
    (h1 : load env c ident args fuel = some w) (h1' : load env' c' ident' args' fuel = some w') (hs : SameBlocks w w') :
    buildTemplate env' c' ident' args' fuel = .ok code := by
  obtain ⟨t, -, h2, h3, h4, h5, h6⟩ := load_parts h1
  obtain ⟨t', -, h2', h3', -, h5', h6'⟩ := load_parts h1'
  have hcs : MoreCs w.input.contexts w'.input.contexts := by
    refine ⟨?_, fun p x hp => ?_⟩
    · have := nodup_length h4 (m := w'.input.contexts.map (·.1)) fun p hp => by
        rw [← assoc_isSome] at hp ⊢
        obtain ⟨x, hx⟩ := Option.isSome_iff_exists.mp hp
        obtain ⟨y, hy, -⟩ := hs.templates p x hx
        rw [hy]; rfl
      simpa using this
    · obtain ⟨y, hy, hxy⟩ := hs.templates p x hp
      have e : (env.loader c t.syn).find p = (env'.loader c' t'.syn).find p := funext (hfind p)
      have k := h5' p y hy
      rw [← e] at k
      obtain ⟨k1, k2⟩ := contextNew_sameInside (h5 p x hp) k hxy
      exact ⟨y, hy, k1, k2⟩
  have hI : w'.input = withCs w.input w'.input.contexts := by
    have e : ∀ I J : GenInput, I.ws = J.ws → I.escaper = J.escaper → I.escapers = J.escapers → I.json = J.json → I.block = J.block →
        I.find = J.find → J = withCs I J.contexts := by
      rintro ⟨⟩ ⟨⟩ h1 h2 h3 h4 h5 h6
      cases h1; cases h2; cases h3; cases h4; cases h5; cases h6
      rfl
    exact e _ _ hs.ws hs.escaper hs.escapers hs.json hs.block hs.find
  have hblock : t'.block = t.block := by
    have := hs.block
    rw [h2, h2'] at this
    exact this.symm
  have hctx : w.ctx.strip = w'.ctx.strip ∧ (w.ctx.extends_ = none → w.ctx.nodes = w'.ctx.nodes) := by
    have e : (env.loader c t.syn).find t.path = (env'.loader c' t'.syn).find t'.path := by
      have := hs.find
      rw [h2, h2'] at this
      exact this
    have k := h5' _ _ h3'
    rw [← e] at k
    exact contextNew_sameInside (h5 _ _ h3) k hs.main
  rw [h6] at h
  obtain ⟨H, h7, h⟩ := except_bind h
  obtain ⟨H', k1, k2, k3, k4⟩ := heritageOf_outer hcs hctx.1 hctx.2 h7
  rw [h6', hblock, k1]
  show generate w'.input fuel H' w'.ctx = .ok code
  rw [hI]
  rcases generate_outer hcs fuel k2 k3 k4 with ⟨e, he⟩ | he
  · rw [h] at he; cases he
  · rw [← he]; exact h

/-- C77: what a template that extends another one has outside of its blocks, macros and imports, is never rendered. Let a template
compile, and take another version of it and of all templates that belong to it (`SameBlocks`): one where those that extend another
have more or less text, comments, expressions, calls, `let`s, includes, conditions, matches, loops and filter blocks outside of
their blocks, without blocks in them (`idle`); this may bring in more templates. If all templates of that version are found and understood, then it compiles as well, and to the very same
code. -/
theorem C77_outside {env env' : DeriveEnv} {c c' : Config}
    (hfind : ∀ p q, c.findTemplate env.files q (some p) = c'.findTemplate env'.files q (some p)) {ident ident' : Str}
    {args args' : TemplateArgs} {fuel fuel' : Nat} (hle : fuel ≤ fuel') {code : List Stmt} {w' : Whole}
    (h : buildTemplate env c ident args fuel = .ok code) (h' : load env' c' ident' args' fuel' = some w') :
    ∃ w, load env c ident args fuel = some w ∧ (SameBlocks w w' → buildTemplate env' c' ident' args' fuel' = .ok code) := by
  obtain ⟨w, -, -, h1, -⟩ := build_loads h
  refine ⟨w, h1, fun hs => ?_⟩
  have b1 : buildTemplate env c ident args fuel' = .ok code := by
    rcases buildTemplate_mono env c ident args hle with e | e
    · rw [h] at e; cases e
    · rw [← e]; exact h
  have l1 : load env c ident args fuel' = some w := by
    rcases load_mono env c ident args hle with e | e
    · rw [h1] at e; cases e
    · rw [← e]; exact h1
  exact outside_same hfind b1 l1 h' hs

/-- A template that extends another, without and with more outside of its block, and a template to include. -/
def outsideSample : Bool → List (Str × Str)
  | true =>
    [(c!"t/a.html", c!"{% extends \"base.html\" %}{% block main %}{{ x }}{% endblock %}"),
     (c!"t/base.html", c!"<p>{% block main %}{% endblock %}</p>"), (c!"t/inc.html", c!"inc")]
  | false =>
    [(c!"t/a.html", c!"text {% let y = 1 %}{% extends \"base.html\" %}{{ y }}{% include \"inc.html\" %}{% for z in v %}{% if z %}{{ z }}{% endif %}{% break %}{% endfor %}{% block main %}{{ x }}{% endblock %}{# c #}"),
     (c!"t/base.html", c!"<p>{% block main %}{% endblock %}</p>"), (c!"t/inc.html", c!"inc")]

theorem outsideSample_files : (toyEnv (outsideSample true)).files.exist = (toyEnv (outsideSample false)).files.exist := by
  funext p
  have e (b : Bool) : (outsideSample b).map (·.1) = [c!"t/a.html", c!"t/base.html", c!"t/inc.html"] := by cases b <;> rfl
  have key (b : Bool) : (assoc (outsideSample b) p).isSome = [c!"t/a.html", c!"t/base.html", c!"t/inc.html"].any fun k => k == p := by
    rw [← e b]
    simp only [assoc, Option.isSome_map, List.any_map]
    rw [List.isSome_find?]
    rfl
  exact (key true).trans (key false).symm

theorem outsideSample_find (p q : Str) : (toyConfig .preserve).findTemplate (toyEnv (outsideSample true)).files q (some p)
    = (toyConfig .preserve).findTemplate (toyEnv (outsideSample false)).files q (some p) := by
  have e : ∀ ds, findInDirs (toyEnv (outsideSample true)).files q ds = findInDirs (toyEnv (outsideSample false)).files q ds := by
    intro ds
    induction ds with
    | nil => rfl
    | cons d ds ih => unfold findInDirs; rw [outsideSample_files, ih]
  unfold Config.findTemplate
  dsimp only
  rw [outsideSample_files, e]

/-- Is there an `extends`? -/
def isExtends : Node → Bool
  | .extends_ _ => true
  | _ => false

/-- A template without what does not matter. -/
def tidy (ns : List Node) : List Node := if ns.any isExtends then ns.filter (fun n => !idle n) else ns

theorem isExtends_idle {n : Node} (h : isExtends n = true) : idle n = false := by
  cases n <;> first | rfl | cases h

theorem any_tidy (ns : List Node) : (tidy ns).any isExtends = ns.any isExtends := by
  unfold tidy
  split
  · rename_i h
    obtain ⟨n, hn, he⟩ := List.any_eq_true.mp h
    rw [h]
    exact List.any_eq_true.mpr ⟨n, List.mem_filter.mpr ⟨hn, by simp [isExtends_idle he]⟩, he⟩
  · rfl

theorem sameInside_of_tidy {x y : List Node} (h : tidy x = tidy y) : SameInside x y := by
  have ha : x.any isExtends = y.any isExtends := by rw [← any_tidy x, h, any_tidy]
  unfold tidy at h
  rw [← ha] at h
  split at h
  · rename_i hx
    refine .inr ⟨?_, h⟩
    obtain ⟨n, hn, he⟩ := List.any_eq_true.mp hx
    cases n with
    | extends_ p => exact ⟨p, hn⟩
    | _ => cases he
  · exact .inl h

theorem assoc_dropped {α : Type} {k p : Str} {v : α} : {l : List (Str × α)} → assoc (l.filter fun e => e.1 != k) p = some v →
    assoc l p = some v
  | [], h => h
  | (q, u) :: l, h => by
    by_cases hq : q = k
    · rw [List.filter_cons_of_neg (by simp [hq])] at h
      rw [assoc_cons, if_neg, assoc_dropped h]
      rintro rfl
      have : q ∈ (l.filter fun e => e.1 != k).map (·.1) := assoc_isSome.mp (by rw [h]; rfl)
      simp [hq] at this
    · rw [List.filter_cons_of_pos (by simp [hq]), assoc_cons] at h
      rw [assoc_cons]
      split
      · rename_i hp; rw [if_pos hp] at h; exact h
      · rename_i hp; rw [if_neg hp] at h; exact assoc_dropped h

/-- Two versions of a template, of which the second includes a template more. -/
theorem outsideLoaded {env env' : DeriveEnv} {c c' : Config} {args : TemplateArgs} {path more : Str}
    (hb : (buildTemplate env c c!"T" args 50).toOption.isSome = true) (hb' : (load env' c' c!"T" args 50).isSome = true)
    (hp : (TemplateInput.new env.files env.guess c c!"T" args).toOption.map (·.path) = some path)
    (hp' : (TemplateInput.new env'.files env'.guess c' c!"T" args).toOption.map (·.path) = some path)
    (hf : ∀ q, c.findTemplate env.files q (some path) = c'.findTemplate env'.files q (some path))
    (hrest : (load env c c!"T" args 50).map (fun w => (w.input.ws, w.input.escaper, w.input.escapers, w.input.json, w.input.block,
        onSnd (fun x : Ctx => tidy x.nodes) w.input.contexts, tidy w.ctx.nodes))
      = (load env' c' c!"T" args 50).map (fun w => (w.input.ws, w.input.escaper, w.input.escapers, w.input.json, w.input.block,
        (onSnd (fun x : Ctx => tidy x.nodes) w.input.contexts).filter fun e => e.1 != more, tidy w.ctx.nodes))) :
    ∃ code w w', buildTemplate env c c!"T" args 50 = .ok code ∧ load env c c!"T" args 50 = some w
      ∧ load env' c' c!"T" args 50 = some w' ∧ SameBlocks w w' := by
  cases h : buildTemplate env c c!"T" args 50 with
  | error e => rw [h] at hb; cases hb
  | ok code =>
    cases h1' : load env' c' c!"T" args 50 with
    | none => rw [h1'] at hb'; cases hb'
    | some w' =>
      obtain ⟨w, H, t, h1, h2, h3, -⟩ := build_loads h
      obtain ⟨t', h2', h3', -⟩ := load_parts h1'
      refine ⟨code, w, w', rfl, h1, rfl, ?_⟩
      rw [h1, h1'] at hrest
      rw [h2] at hp
      rw [h2'] at hp'
      simp only [Option.map_some, Option.some.injEq, Prod.mk.injEq] at hrest
      obtain ⟨r0, r1, r2, r3, r4, r5, r6⟩ := hrest
      refine ⟨r0, r1, r2, r3, r4, ?_, ?_, sameInside_of_tidy r6⟩
      · rw [h3, h3']
        have e : t.path = path := Option.some.inj hp
        have e' : t'.path = path := Option.some.inj hp'
        funext q
        show c.findTemplate env.files q (some t.path) = c'.findTemplate env'.files q (some t'.path)
        rw [e, e', hf]
      · intro p x hx
        have e : assoc (onSnd (fun x : Ctx => tidy x.nodes) w.input.contexts) p = some (tidy x.nodes) := by
          rw [assoc_onSnd, hx]; rfl
        rw [r5] at e
        have e := assoc_dropped e
        rw [assoc_onSnd] at e
        cases hy : assoc w'.input.contexts p with
        | none => rw [hy] at e; cases e
        | some y =>
          rw [hy] at e
          exact ⟨y, rfl, sameInside_of_tidy (Option.some.inj e).symm⟩

set_option maxRecDepth 100000 in
example : (∃ code w w',
      buildTemplate (toyEnv (outsideSample true)) (toyConfig .preserve) c!"T" (toyArgs c!"a.html" none) 50 = .ok code
      ∧ load (toyEnv (outsideSample true)) (toyConfig .preserve) c!"T" (toyArgs c!"a.html" none) 50 = some w
      ∧ load (toyEnv (outsideSample false)) (toyConfig .preserve) c!"T" (toyArgs c!"a.html" none) 50 = some w' ∧ SameBlocks w w')
    ∧ (load (toyEnv (outsideSample true)) (toyConfig .preserve) c!"T" (toyArgs c!"a.html" none) 50).map (·.input.contexts.length) = some 2
    ∧ (load (toyEnv (outsideSample false)) (toyConfig .preserve) c!"T" (toyArgs c!"a.html" none) 50).map (·.input.contexts.length) = some 3
    ∧ (load (toyEnv (outsideSample true)) (toyConfig .preserve) c!"T" (toyArgs c!"a.html" none) 50).map (·.ctx.nodes.length) = some 2
    ∧ (load (toyEnv (outsideSample false)) (toyConfig .preserve) c!"T" (toyArgs c!"a.html" none) 50).map (·.ctx.nodes.length) = some 8 := by
  refine ⟨?_, by decide +kernel, by decide +kernel, by decide +kernel, by decide +kernel⟩
  exact outsideLoaded (path := c!"t/a.html") (more := c!"t/inc.html") (by decide +kernel) (by decide +kernel) (by decide +kernel)
    (by decide +kernel) (outsideSample_find _) (by rfl)

end Askama.Props
