import Verif.Lemmas.FieldsGen
import Verif.Props.Escaping

/-! What a template uses of the context and of the program around it: C74, C75. -/

namespace Askama.Props

open Askama Askama.Spec

variable {U : Type}

/-- C75: a template that compiles renders the same text, or fails alike, in any two programs that are alike in what the
expressions of the templates that belong to it name: fields and methods of the context, filters, functions and constants, macros
of Rust. All else of the world is the same. -/
theorem C75_uses_what_it_names (W : World U) (p : Program U) (env : DeriveEnv) (c : Config) (ident : Str) (args : TemplateArgs)
    (fuel : Nat) (code : List Stmt) (h : buildTemplate env c ident args fuel = .ok code) :
    ∃ w, load env c ident args fuel = some w
      ∧ ((∀ n, NodesOf w.input n → ∀ x ∈ readsN n, AlikeIn W p x) → output (W.withProgram p) code = output W code) := by
  obtain ⟨w, H, t, h1, -, -, h4, h5, h6, -, -, h9⟩ := build_loads h
  refine ⟨w, h1, fun ha => ?_⟩
  have hI : ∀ q x, assoc w.input.contexts q = some x → CtxOk (NodeIn (AlikeIn W p)) x := fun q x hp =>
    contextNew_parts (h5 q x hp) fun n hn => ha n ⟨q, x, hp, hn⟩
  have hS : Whole (AlikeIn W p) := by
    intro hv n
    simp only [AlikeIn] at hv ⊢
    rw [hv]
    exact ⟨rfl, fun _ => rfl⟩
  have key : InS (AlikeIn W p) code := by
    refine generate_in hS hI ?_ (hI _ _ h4) h9
    rintro hh rfl
    unfold heritageOf at h6
    split at h6
    · obtain ⟨hh', h10, h6⟩ := except_bind h6
      have : hh' = hh := by
        cases hb : t.block with
        | none => rw [hb] at h6; cases h6; rfl
        | some b =>
          rw [hb] at h6
          dsimp only at h6
          split at h6
          · cases h6
          · cases h6; rfl
      subst this
      exact heritageNew_ok hI (hI _ _ h4) h10
    · cases h6
  unfold output
  rw [execList_alike code key]

/-- C75: a filter of the program that has the name of one that comes with askama is never used, in whatever template. -/
theorem C75_askamas_filters (W : World U) (own : Str → List (Val U) → Option (Val U)) (env : DeriveEnv) (c : Config) (ident : Str)
    (args : TemplateArgs) (fuel : Nat) (code : List Stmt) (h : buildTemplate env c ident args fuel = .ok code)
    (hown : ∀ n, ¬ (n ∈ filtersOfTheLanguage ∨ n ∈ filtersOfAskama ∨ n = c!"json" ∨ n = c!"tojson") → own n = W.filter false n) :
    output (W.withProgram ⟨W.self_, fun b n => if b then W.filter true n else own n, W.path, W.rustMacro⟩) code = output W code := by
  obtain ⟨w, -, h2⟩ := C75_uses_what_it_names W _ env c ident args fuel code h
  refine h2 fun n _ x hx => ?_
  cases x with
  | filter b f =>
    intro vs
    cases b with
    | true => rfl
    | false => exact (congrFun (hown f (readsN_own n f hx)) vs).symm
  | field _ => exact ⟨rfl, fun _ => rfl⟩
  | _ => rfl

/-- C74: a template that compiles renders the same text, or fails alike, for any two values of the context that are alike in
the names that occur in the expressions of the templates that belong to it. All else of the world is the same. -/
theorem C74_reads_what_it_names (W : World U) (v : Val U) (env : DeriveEnv) (c : Config) (ident : Str) (args : TemplateArgs)
    (fuel : Nat) (code : List Stmt) (h : buildTemplate env c ident args fuel = .ok code) :
    ∃ w, load env c ident args fuel = some w
      ∧ ((∀ n, NodesOf w.input n → ∀ x ∈ readsN n, AlikeOn W v x) → output (W.withSelf v) code = output W code) :=
  C75_uses_what_it_names W _ env c ident args fuel code h

/-- C74: what a template that names nothing of the context renders does not depend on the context. -/
theorem C74_closed (W : World U) (v : Val U) (env : DeriveEnv) (c : Config) (ident : Str) (args : TemplateArgs)
    (fuel : Nat) (code : List Stmt) (h : buildTemplate env c ident args fuel = .ok code) :
    ∃ w, load env c ident args fuel = some w
      ∧ ((∀ n, NodesOf w.input n → ∀ x ∈ readsN n, x.ofContext = false) → output (W.withSelf v) code = output W code) := by
  obtain ⟨w, h1, h2⟩ := C74_reads_what_it_names W v env c ident args fuel code h
  refine ⟨w, h1, fun hn => h2 fun n h x hx => ?_⟩
  have := hn n h x hx
  cases x with
  | self_ | field _ => cases this
  | filter _ _ => intro vs; rfl
  | _ => rfl

/-- A world of contexts that have a field `secret`, which is not the same in all of them. -/
def keeper : World Toy :=
  { toy with attr := fun v n => if n = c!"secret" then some v else some (.user (.text n)) }

/-- A template with a base, a loop and a macro. -/
def fieldSample (last : Str) : List (Str × Str) :=
  [(c!"t/a.html", c!"{% extends \"base.html\" %}{% block main %}{% for x in [self.type, name] %}{% call bold(x) %}{% endfor %}"
      ++ last ++ c!"{% endblock %}{% macro bold(t) %}<b>{{ t }}</b>{% endmacro %}"),
   (c!"t/base.html", c!"<p>{{ title }}{% block main %}{% endblock %}</p>")]

/-- What all expressions of the templates read. -/
def allReads (files : List (Str × Str)) : Option (List Named) :=
  (load (toyEnv files) (toyConfig .preserve) c!"T" (toyArgs c!"a.html" none) 50).map fun w =>
    w.input.contexts.flatMap fun x => (partsL x.2.nodes).flatMap readsN

/-- What is rendered for this context. -/
def renderedFor (v : Str) (files : List (Str × Str)) : Option Str :=
  (buildTemplate (toyEnv files) (toyConfig .preserve) c!"T" (toyArgs c!"a.html" none) 50).toOption.bind
    (output (keeper.withSelf (.user (.text v))))

example : allReads (fieldSample []) = some ([c!"title", c!"r#type", c!"name", c!"x", c!"t"].map .field)
    ∧ renderedFor c!"1" (fieldSample []) = some c!"<p>title<b>r#type</b><b>name</b></p>"
    ∧ renderedFor c!"2" (fieldSample []) = some c!"<p>title<b>r#type</b><b>name</b></p>"
    ∧ renderedFor c!"1" (fieldSample c!"{{ secret }}") = some c!"<p>title<b>r#type</b><b>name</b>1</p>"
    ∧ renderedFor c!"2" (fieldSample c!"{{ secret }}") = some c!"<p>title<b>r#type</b><b>name</b>2</p>" := by
  decide +kernel

/-- A program with a filter `shout`, which is not the same everywhere, and filters with names of askama's. -/
def shouter (s : Str) : World Toy :=
  toy.withProgram ⟨toy.self_, fun b n vs => if b then toy.filter true n vs else some (.user (.text (s ++ n))), toy.path, toy.rustMacro⟩

/-- What is rendered in this program. -/
def renderedBy (s : Str) (last : Str) : Option Str :=
  (buildTemplate (toyEnv (fieldSample last)) (toyConfig .preserve) c!"T" (toyArgs c!"a.html" none) 50).toOption.bind (output (shouter s))

example : allReads (fieldSample c!"{{ x|upper|loud }}{% filter shout %}{% endfilter %}{{ a::B }}{{ x|safe }}") =
      some ([c!"title", c!"r#type", c!"name", c!"x"].map .field ++ [.filter false c!"loud", .filter true c!"upper", .field c!"x",
        .filter false c!"shout", .path [c!"a", c!"B"], .field c!"x", .field c!"t"])
    ∧ renderedBy c!"1" c!"{{ 1|upper }}" = renderedBy c!"2" c!"{{ 1|upper }}"
    ∧ (renderedBy c!"1" c!"{{ 1|upper }}").isSome = true
    ∧ renderedBy c!"1" c!"{{ 1|shout }}" ≠ renderedBy c!"2" c!"{{ 1|shout }}" := by
  decide +kernel

end Askama.Props
