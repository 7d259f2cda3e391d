import Verif.Lemmas.Tracked
import Verif.Props.Config
import Verif.Props.NoPanic
import Verif.Props.Derive

/-! The whole macro: what it reads (C64), and what it gives for templates that do not compile (C63). -/

namespace Askama.Props

open Spec

/-- The entry of the macro leads to the compilation that the other theorems are about. -/
theorem buildFromAttrs_ok {P : Project} {ident : Str} {attrs : List Attr} {fuel : Nat} {i : Impl}
    (h : buildFromAttrs P ident attrs fuel = .ok i) : ∃ args raw c t,
      DeriveArgs.new attrs = .ok args ∧ Config.new P.isWs P.krate P.root raw args.whitespace = .ok c
      ∧ TemplateInput.new P.env.files P.env.guess c ident args.toArgs = .ok t
      ∧ buildTemplate P.env c ident args.toArgs fuel = .ok i.body ∧ i.extension = t.extension ∧ i.mime = t.mime := by
  unfold buildFromAttrs at h
  obtain ⟨args, h1, h⟩ := except_bind h
  obtain ⟨toml, h2, h⟩ := except_bind h
  obtain ⟨c, h3, h⟩ := except_bind h
  obtain ⟨t, h4, h⟩ := except_bind h
  obtain ⟨src, h5, h⟩ := except_bind h
  obtain ⟨m, h6, h⟩ := except_bind h
  obtain ⟨cs, h7, h⟩ := except_bind h
  unfold configFromText at h3
  obtain ⟨raw, -, h3⟩ := except_bind h3
  split at h
  · cases h
  · rename_i ctx h8
    obtain ⟨hr, h9, h⟩ := except_bind h
    unfold buildImpl at h
    obtain ⟨incl, -, h⟩ := except_bind h
    obtain ⟨body, h10, h⟩ := except_bind h
    cases h
    refine ⟨args, raw, c, t, h1, h3, h4, ?_, rfl, rfl⟩
    unfold buildTemplate
    simp only [h4, h5, h6, h7, h8, h9, h10, bind, Except.bind]

theorem includeLines_mem {canon : Str → Option Str} {t : TemplateInput} : {ps : List Str} → {qs : List Str} →
    includeLines canon t ps = .ok qs → ∀ p ∈ ps, t.isFile p = true → ∃ q, canon p = some q ∧ q ∈ qs
  | [], qs, h, p, hp, _ => by cases hp
  | p' :: ps, qs, h, p, hp, hv => by
    unfold includeLines at h
    obtain ⟨rest, h1, h⟩ := except_bind h
    rcases List.mem_cons.1 hp with rfl | hp
    · rw [if_pos hv] at h
      split at h
      · rename_i q hq; cases h; exact ⟨q, hq, List.mem_cons_self⟩
      · cases h
    · obtain ⟨q, hq, hm⟩ := includeLines_mem h1 p hp hv
      refine ⟨q, hq, ?_⟩
      split at h
      · split at h
        · cases h; exact List.mem_cons_of_mem _ hm
        · cases h
      · cases h; exact hm

theorem assoc_key {α : Type} : {l : List (Str × α)} → {k : Str} → (assoc l k).isSome = true → k ∈ l.map (·.1)
  | [], k, h => by cases h
  | (k', v) :: rest, k, h => by
    rw [assoc_cons] at h
    split at h
    · rename_i e; subst e; exact List.mem_cons_self
    · exact List.mem_cons_of_mem _ (assoc_key h)

theorem findInDirs_there {fs : Files} {path : Str} : {ds : List Str} → {q : Str} → findInDirs fs path ds = some q →
    fs.exist q = true
  | [], q, h => by cases h
  | d :: ds, q, h => by
    unfold findInDirs at h
    split at h
    · rename_i he; cases h; exact he
    · exact findInDirs_there h

theorem findTemplate_there {fs : Files} {c : Config} {path : Str} {start : Option Str} {q : Str}
    (h : c.findTemplate fs path start = some q) : fs.exist q = true := by
  unfold Config.findTemplate at h
  split at h
  · split at h
    · rename_i he; cases h; exact he
    · exact findInDirs_there h
  · exact findInDirs_there h

theorem findInDirs_contents (fs : Files) (read : Str → Option Str) (path : Str) : (ds : List Str) →
    findInDirs { fs with read } path ds = findInDirs fs path ds
  | [] => rfl
  | d :: ds => by simp only [findInDirs, findInDirs_contents fs read path ds]

theorem findTemplate_contents (fs : Files) (read : Str → Option Str) (c : Config) (path : Str) (start : Option Str) :
    c.findTemplate { fs with read } path start = c.findTemplate fs path start := by
  unfold Config.findTemplate
  cases start <;> simp only [findInDirs_contents]

/-- C64: the compiler runs the macro again when it has to: as long as the files that the implementation names in
`include_bytes!` have the same contents, the macro would give the same implementation. What is missing is that it need
not be so if the configuration file changes (`C64_false_config`), if other files come into being
(`C64_false_new_file`), or if an inline template has the name of a file (`C64_false_inline`). -/
theorem C64_tracked_partial (P : Project) (ident : Str) (attrs : List Attr) (fuel : Nat) (i : Impl)
    (h : buildFromAttrs P ident attrs fuel = .ok i) (read : Str → Option Str) (same : Unchanged P i read)
    (config : ∀ a, DeriveArgs.new attrs = .ok a → read (configPath P a) = P.env.files.read (configPath P a))
    (inline : ∀ a s, DeriveArgs.new attrs = .ok a → a.source = some (.source s) → ∀ ext, a.ext = some ext →
      P.env.files.exist (ident ++ ['.'] ++ ext) = false) :
    buildFromAttrs (withContents P read) ident attrs fuel = .ok i := by
  unfold buildFromAttrs at h ⊢
  obtain ⟨args, h1, h⟩ := except_bind h
  obtain ⟨toml, h2, h⟩ := except_bind h
  obtain ⟨c, h3, h⟩ := except_bind h
  obtain ⟨t, h4, h⟩ := except_bind h
  obtain ⟨src, h5, h⟩ := except_bind h
  obtain ⟨m, h6, h⟩ := except_bind h
  obtain ⟨cs, h7, h⟩ := except_bind h
  split at h
  · cases h
  rename_i ctx h8
  obtain ⟨hr, h9, h⟩ := except_bind h
  unfold buildImpl at h
  obtain ⟨incl, h10, h⟩ := except_bind h
  obtain ⟨body, h11, h⟩ := except_bind h
  cases h
  -- every template that is a file is named
  have tracked : ∀ q, Known m q → t.isFile q = true → read q = P.env.files.read q := by
    intro q hq hv
    have hk : (assoc cs q).isSome = true := (makeContexts_known h7 q).trans hq
    obtain ⟨q', hc, hq'⟩ := includeLines_mem h10 q (assoc_key hk) hv
    exact same q q' hc hq'
  have hmain := (findUsedTemplates_refs h6).2
  have g1 : readConfigFile (withContents P read) args.config = .ok toml := by
    rw [← h2]
    have := config args h1
    unfold readConfigFile
    simp only [withContents]
    unfold configPath at this
    simp only [show configFileName = c!"askama.toml" from rfl, this]
  have g3 : configFromText (withContents P read) toml args.whitespace = .ok c := h3
  have g4 : TemplateInput.new (withContents P read).env.files P.env.guess c ident args.toArgs = .ok t := by
    rw [← h4]
    unfold TemplateInput.new templatePath
    simp only [withContents, findTemplate_contents]
  have g5 : mainSource (withContents P read).env t = .ok src := by
    rw [← h5]
    unfold mainSource
    cases ht : t.source with
    | source s => rfl
    | path p =>
      have := tracked t.path hmain (by unfold TemplateInput.isFile; rw [ht])
      dsimp only
      unfold getTemplateSource
      simp only [withContents, this]
  have hfind : ((withContents P read).env.loader c t.syn).find = (P.env.loader c t.syn).find := by
    unfold DeriveEnv.loader
    simp only [withContents, findTemplate_contents]
  have g6 : findUsedTemplates ((withContents P read).env.loader c t.syn) fuel t.path src = .ok m := by
    refine checkLoop_tracked fuel h6 ⟨hfind, rfl, fun p r q hf hq => ?_⟩
    have hex : P.env.files.exist q = true := findTemplate_there (c := c) (path := r) (start := some p) hf
    have := tracked q hq (by
      unfold TemplateInput.isFile
      cases ht : t.source with
      | path p => rfl
      | source s =>
        rw [bne_iff_ne]
        intro he
        -- the path of an inline template is not that of a file
        unfold TemplateInput.new at h4
        split at h4
        · cases h4
        · rename_i so hso
          obtain ⟨path, k1, h4⟩ := except_bind h4
          obtain ⟨syn, k2, h4⟩ := except_bind h4
          dsimp only at h4
          split at h4
          · cases h4
          · cases h4
            dsimp only at ht he
            subst ht
            unfold templatePath at k1
            dsimp only at k1
            split at k1
            · rename_i ext hext
              cases k1
              have := inline args s h1 hso ext hext
              rw [← he, hex] at this; cases this
            · cases k1)
    show getTemplateSource _ q = getTemplateSource _ q
    unfold getTemplateSource
    simp only [withContents, this]
  have g11 : generate (genInput (withContents P read).env c t cs) fuel hr ctx = .ok body := by
    rw [← h11]
    unfold genInput
    simp only [withContents, findTemplate_contents]
  simp only [h1, g1, g3, bind, Except.bind]
  rw [show (withContents P read).env.guess = P.env.guess from rfl, g4]
  dsimp only
  rw [g5]
  dsimp only
  rw [g6]
  dsimp only
  rw [hfind, h7]
  dsimp only
  rw [h8]
  dsimp only
  rw [h9]
  dsimp only
  unfold buildImpl
  rw [show (withContents P read).canon = P.canon from rfl, h10, g11]
  rfl

/-- A project in which the text of the configuration file is the name of the only directory of templates. -/
def smallProject (files : List (Str × Str)) : Project where
  env := { files := { exist := fun p => (assoc files p).isSome, read := assoc files }, isLower := fun _ => false,
           guess := fun _ => none, json := false }
  root := []
  toml := fun s => some ⟨some ⟨some [s], none, .preserve⟩, none, none⟩
  isWs := fun _ => false
  krate := []
  canon := some

def smallFiles (config : Str) : List (Str × Str) :=
  [(c!"askama.toml", config), (c!"t/a.txt", c!"x"), (c!"u/a.txt", c!"y")]

def smallAttrs : List Attr := [⟨[c!"template"], some [.nameValue [c!"path"] (.lit (.str c!"a.txt"))]⟩]

/-- The implementation writes just this text and names these files. -/
def writesJust (includes : List Str) (text : Str) : Except GErr Impl → Bool
  | .ok ⟨incl, [.writeLit s], _, _⟩ => incl == includes && s == text
  | _ => false

theorem writesJust_spec {includes : List Str} {text : Str} {r : Except GErr Impl} (h : writesJust includes text r = true) :
    ∃ i, r = .ok i ∧ i.includes = includes ∧ i.body = [.writeLit text] := by
  unfold writesJust at h
  split at h
  · simp only [Bool.and_eq_true, beq_iff_eq] at h
    exact ⟨_, rfl, h.1, by rw [h.2]⟩
  · cases h

theorem small_config : ∃ i, buildFromAttrs (smallProject (smallFiles c!"t")) c!"T" smallAttrs 3 = .ok i
    ∧ i.includes = [c!"t/a.txt"] ∧ i.body = [.writeLit c!"x"] := writesJust_spec (by decide +kernel)

/-- C64 is false for changes of the configuration file, which no implementation names. -/
theorem C64_false_config : ∃ (P : Project) (read : Str → Option Str) (ident : Str) (attrs : List Attr) (fuel : Nat)
    (i i' : Impl), buildFromAttrs P ident attrs fuel = .ok i ∧ Unchanged P i read
      ∧ buildFromAttrs (withContents P read) ident attrs fuel = .ok i' ∧ (∃ text text', i.body = [.writeLit text] ∧ i'.body = [.writeLit text']
      ∧ text ≠ text') := by
  obtain ⟨i, h1, h2, h3⟩ := small_config
  obtain ⟨i', h1', h2', h3'⟩ : ∃ i, buildFromAttrs (withContents (smallProject (smallFiles c!"t"))
      (assoc (smallFiles c!"u"))) c!"T" smallAttrs 3 = .ok i ∧ i.includes = [c!"u/a.txt"] ∧ i.body = [.writeLit c!"y"] :=
    writesJust_spec (by decide +kernel)
  refine ⟨_, _, _, _, _, i, i', h1, ?_, h1', ?_⟩
  · intro p q hc hq
    cases hc
    rw [h2] at hq
    simp only [List.mem_cons, List.not_mem_nil, or_false] at hq
    subst hq
    rfl
  · exact ⟨_, _, h3, h3', by decide⟩

/-- Templates that refer to another one. -/
def siblingFiles : List (Str × Str) :=
  [(c!"askama.toml", c!"t"), (c!"t/s/a.txt", c!"{% include \"b.txt\" %}"), (c!"t/b.txt", c!"x")]

def siblingAttrs : List Attr := [⟨[c!"template"], some [.nameValue [c!"path"] (.lit (.str c!"s/a.txt"))]⟩]

/-- As `writesJust`, with an `include_bytes!` line of the body before the text. -/
def writesAfter (includes : List Str) (file text : Str) : Except GErr Impl → Bool
  | .ok ⟨incl, [.includeBytes f, .writeLit s], _, _⟩ => incl == includes && f == file && s == text
  | _ => false

theorem writesAfter_spec {includes : List Str} {file text : Str} {r : Except GErr Impl}
    (h : writesAfter includes file text r = true) :
    ∃ i, r = .ok i ∧ i.includes = includes ∧ i.body = [.includeBytes file, .writeLit text] := by
  unfold writesAfter at h
  split at h
  · simp only [Bool.and_eq_true, beq_iff_eq] at h
    exact ⟨_, rfl, h.1.1, by rw [h.1.2, h.2]⟩
  · cases h

/-- C64 is false if a new file is found before one that was used. -/
theorem C64_false_new_file : ∃ (files : List (Str × Str)) (new : Str × Str) (ident : Str) (attrs : List Attr) (fuel : Nat)
    (i i' : Impl), buildFromAttrs (smallProject files) ident attrs fuel = .ok i
      ∧ new.1 ∉ files.map (·.1) ∧ buildFromAttrs (smallProject (files ++ [new])) ident attrs fuel = .ok i'
      ∧ i'.body ≠ i.body := by
  obtain ⟨i, h1, h2, h3⟩ : ∃ i, buildFromAttrs (smallProject siblingFiles) c!"T" siblingAttrs 3 = .ok i
      ∧ i.includes = [c!"t/b.txt", c!"t/s/a.txt"] ∧ i.body = [.includeBytes c!"t/b.txt", .writeLit c!"x"] :=
    writesAfter_spec (by decide +kernel)
  obtain ⟨i', h1', h2', h3'⟩ : ∃ i, buildFromAttrs (smallProject (siblingFiles ++ [(c!"t/s/b.txt", c!"y")])) c!"T"
      siblingAttrs 3 = .ok i ∧ i.includes = [c!"t/s/b.txt", c!"t/s/a.txt"]
      ∧ i.body = [.includeBytes c!"t/s/b.txt", .writeLit c!"y"] := writesAfter_spec (by decide +kernel)
  refine ⟨_, _, _, _, _, i, i', h1, by decide, h1', ?_⟩
  rw [h3, h3']; intro h; cases h

def inlineAttrs : List Attr :=
  [⟨[c!"template"], some [.nameValue [c!"source"] (.lit (.str c!"{% include \"T.txt\" %}")),
    .nameValue [c!"ext"] (.lit (.str c!"txt"))]⟩]

/-- C64 is false for an inline template with the name of a file: it is replaced by that file, which is not named. -/
theorem C64_false_inline : ∃ (P : Project) (read : Str → Option Str) (ident : Str) (attrs : List Attr) (fuel : Nat)
    (i i' : Impl), buildFromAttrs P ident attrs fuel = .ok i ∧ Unchanged P i read
      ∧ buildFromAttrs (withContents P read) ident attrs fuel = .ok i' ∧ (∃ text text', i.body = [.writeLit text] ∧ i'.body = [.writeLit text']
      ∧ text ≠ text') := by
  obtain ⟨i, h1, h2, h3⟩ : ∃ i, buildFromAttrs (smallProject [(c!"T.txt", c!"x")]) c!"T" inlineAttrs 3 = .ok i
      ∧ i.includes = [] ∧ i.body = [.writeLit c!"x"] := writesJust_spec (by decide +kernel)
  obtain ⟨i', h1', h2', h3'⟩ : ∃ i, buildFromAttrs (withContents (smallProject [(c!"T.txt", c!"x")])
      (assoc [(c!"T.txt", c!"y")])) c!"T" inlineAttrs 3 = .ok i ∧ i.includes = [] ∧ i.body = [.writeLit c!"y"] :=
    writesJust_spec (by decide +kernel)
  refine ⟨_, _, _, _, _, i, i', h1, ?_, h1', ?_⟩
  · intro p q _ hq; rw [h2] at hq; cases hq
  · exact ⟨_, _, h3, h3', by decide⟩

/-- The hypotheses of `C64_tracked_partial` are met, with a file that changes. -/
example : ∃ (P : Project) (i : Impl) (read : Str → Option Str), buildFromAttrs P c!"T" smallAttrs 3 = .ok i
    ∧ Unchanged P i read ∧ read ≠ P.env.files.read
    ∧ (∀ a, DeriveArgs.new smallAttrs = .ok a → read (configPath P a) = P.env.files.read (configPath P a))
    ∧ (∀ a s, DeriveArgs.new smallAttrs = .ok a → a.source ≠ some (.source s)) := by
  obtain ⟨i, h1, h2, h3⟩ := small_config
  refine ⟨smallProject (smallFiles c!"t"), _, assoc ((smallFiles c!"t").take 2), h1, ?_, ?_, ?_, ?_⟩
  · intro p q hc hq
    cases hc
    rw [h2] at hq
    simp only [List.mem_cons, List.not_mem_nil, or_false] at hq
    subst hq
    rfl
  · intro h
    have := congrFun h c!"u/a.txt"
    exact absurd this (by decide)
  · intro a ha; cases ha; rfl
  · intro a s ha; cases ha; intro h; cases h

/-! ## Templates that do not compile -/

theorem typeIdent_txt {ident : Str} (h : TypeIdent ident) :
    Path.extension (ident ++ ['.'] ++ c!"txt") = some c!"txt" ∧ templateExtension (ident ++ ['.'] ++ c!"txt") = some c!"txt" := by
  have hs : '/' ∉ ident ++ ['.'] ++ c!"txt" := by simp [h.2.1]
  have he : HasExt (ident ++ ['.'] ++ c!"txt") ident c!"txt" :=
    ⟨rfl, by decide, h.1, by
      intro e
      have := congrArg List.length e
      simp at this⟩
  have h1 : Path.extension (ident ++ ['.'] ++ c!"txt") = some c!"txt" := by
    simp only [Path.extension, fileName_self hs, splitExt_hasExt he]
  refine ⟨h1, ?_⟩
  unfold templateExtension
  rw [h1]
  rfl

theorem skeleton (P : Project) {ident : Str} (h : TypeIdent ident) (fuel : Nat) : buildSkeleton P ident fuel =
    if fuel = 0 then .error .diverge else .ok ⟨[], [], some c!"txt", extensionToMime P.env.guess c!"txt"⟩ := by
  have h1 : configFromText P [] none = .ok ⟨[Path.join P.root c!"templates"], [(defaultSyntaxName, Syntax.default)],
      defaultSyntaxName, defaultEscapers P.krate, .preserve⟩ := rfl
  have h2 : TemplateInput.new P.env.files P.env.guess ⟨[Path.join P.root c!"templates"],
      [(defaultSyntaxName, Syntax.default)], defaultSyntaxName, defaultEscapers P.krate, .preserve⟩ ident
      DeriveArgs.fallback.toArgs = .ok ⟨Syntax.default, .source [], none, P.krate ++ c!"::Text", some c!"txt",
        extensionToMime P.env.guess c!"txt", ident ++ ['.'] ++ c!"txt"⟩ := by
    have hp : templatePath P.env.files ⟨[Path.join P.root c!"templates"],
      [(defaultSyntaxName, Syntax.default)], defaultSyntaxName, defaultEscapers P.krate, .preserve⟩ ident
      (some c!"txt") (.source []) = .ok (ident ++ ['.'] ++ c!"txt") := rfl
    unfold TemplateInput.new
    simp only [DeriveArgs.fallback, DeriveArgs.toArgs, DeriveArgs.default]
    rw [hp]
    simp only [bind, Except.bind, (typeIdent_txt h).1]
    rfl
  unfold buildSkeleton
  rw [h1]
  simp only [bind, Except.bind]
  rw [h2]
  dsimp only
  unfold buildImpl
  have h3 : includeLines P.canon ⟨Syntax.default, .source [], none, P.krate ++ c!"::Text", some c!"txt",
        extensionToMime P.env.guess c!"txt", ident ++ ['.'] ++ c!"txt"⟩ [ident ++ ['.'] ++ c!"txt"] = .ok [] := by
    simp [includeLines, TemplateInput.isFile, bind, Except.bind, pure, Except.pure]
  rw [show List.map (fun x : Str × Ctx => x.1) [(ident ++ ['.'] ++ c!"txt", Ctx.default)] = [ident ++ ['.'] ++ c!"txt"] from rfl,
    h3]
  cases fuel <;> rfl

/-- C63: whenever compiling a template fails, the macro gives a compile error and an implementation that renders
nothing, so that the type can be used as a template and no further errors follow. -/
theorem C63_stand_in (P : Project) (ident : Str) (hi : TypeIdent ident) (attrs : List Attr) (fuel : Nat)
    (h : buildFromAttrs P ident attrs (fuel + 1) = .error .err) :
    ∃ i, derive P ident attrs (fuel + 1) = .ok (.compileError (some i)) ∧ StandIn i := by
  refine ⟨⟨[], [], some c!"txt", extensionToMime P.env.guess c!"txt"⟩, ?_, rfl, rfl, rfl⟩
  unfold derive
  rw [h]
  dsimp only
  rw [skeleton P hi]
  rfl

/-- C63: a compile error never comes without the stand-in, and never for a template that compiles. -/
theorem C63_only_errors (P : Project) (ident : Str) (hi : TypeIdent ident) (attrs : List Attr) (fuel : Nat)
    (s : Option Impl) (h : derive P ident attrs fuel = .ok (.compileError s)) :
    buildFromAttrs P ident attrs fuel = .error .err ∧ ∃ i, s = some i ∧ StandIn i := by
  unfold derive at h
  split at h
  · cases h
  · rename_i hb
    refine ⟨hb, ?_⟩
    rw [skeleton P hi] at h
    split at h
    · rename_i i he
      cases h
      split at he
      · cases he
      · cases he; exact ⟨_, rfl, rfl, rfl, rfl⟩
    · rename_i he; split at he <;> cases he
    · cases h
  · cases h

/-- A template that does not compile: it does not exist. -/
example : TypeIdent c!"T" ∧ buildFromAttrs (smallProject []) c!"T" smallAttrs (2 + 1) = .error .err :=
  ⟨by unfold TypeIdent; decide, by rfl⟩

/-! ## Panics of the whole macro -/

theorem includeLines_calm {canon : Str → Option Str} {t : TemplateInput} : (ps : List Str) →
    (∀ p ∈ ps, t.isFile p = true → (canon p).isSome = true) → Calm (includeLines canon t ps)
  | [], _ => trivial
  | p :: ps, h => by
    unfold includeLines
    refine Calm.bind (includeLines_calm ps fun q hq => h q (List.mem_cons_of_mem _ hq)) fun rest => ?_
    split
    · rename_i hf
      have := h p List.mem_cons_self hf
      split
      · trivial
      · rename_i hn; rw [hn] at this; cases this
    · trivial

/-- C60: the whole macro does not panic, from the attributes to the generated implementation, under the conditions of
`C60_no_panic_partial`, if the keys are plain names (`C62_false_panic`) and if paths of existing files can be made
absolute. -/
theorem C60_derive_no_panic_partial (P : Project) (ident : Str) (hi : TypeIdent ident) (attrs : List Attr) (fuel : Nat)
    (plain : ∀ a ∈ templateAttrs attrs, ∀ items, a.args = some items → ∀ i ∈ items, ∀ path v, i = .nameValue path v →
      path.length = 1)
    (canon : ∀ p, P.env.files.exist p = true → (P.canon p).isSome = true)
    (inner : ∀ a raw c, DeriveArgs.new attrs = .ok a → Config.new P.isWs P.krate P.root raw a.whitespace = .ok c →
      a.source ≠ none ∧ buildTemplate P.env c ident a.toArgs 29 ≠ .error .diverge
      ∧ ∀ w, load P.env c ident a.toArgs fuel = some w → w.input.placed = true ∧ w.input.includesLoaded = true) :
    derive P ident attrs fuel ≠ .error .panic := by
  have key : buildFromAttrs P ident attrs fuel ≠ .error .panic := by
    intro h
    cases h1 : DeriveArgs.new attrs with
    | error e =>
      have : DeriveArgs.new attrs = .error .err := by
        refine C62_refused_partial attrs plain fun ⟨pairs, hg, hp⟩ => ?_
        rw [(C62_arguments attrs _).2 ⟨pairs, hg, hp, says_putAll hp⟩] at h1
        cases h1
      unfold buildFromAttrs at h
      rw [this] at h
      cases h
    | ok args =>
      unfold buildFromAttrs at h
      rw [h1] at h
      simp only [bind, Except.bind] at h
      cases h2 : readConfigFile P args.config with
      | error e =>
        have : e = .err := by
          unfold readConfigFile at h2
          dsimp only at h2
          repeat' split at h2
          all_goals cases h2
          all_goals rfl
        rw [h2, this] at h; cases h
      | ok toml =>
        rw [h2] at h
        dsimp only at h
        cases h3 : configFromText P toml args.whitespace with
        | error e =>
          have : e ≠ .panic := by
            unfold configFromText at h3
            intro he
            subst he
            cases hr : rawConfig P toml with
            | error e =>
              have : e = .err := by
                unfold rawConfig at hr
                repeat' split at hr
                all_goals cases hr
                rfl
              rw [hr, this] at h3; cases h3
            | ok raw =>
              rw [hr] at h3
              exact C60_config_no_panic _ _ _ _ _ h3
          rw [h3] at h; cases h; exact this rfl
        | ok c =>
          rw [h3] at h
          dsimp only at h
          unfold configFromText at h3
          obtain ⟨raw, -, h3⟩ := except_bind h3
          obtain ⟨i1, i2, i3⟩ := inner args raw c h1 h3
          have hb := C60_no_panic_partial P.env c h3 ident args.toArgs i1 fuel i2 i3
          unfold buildTemplate at hb
          simp only [bind, Except.bind] at hb
          cases h4 : TemplateInput.new P.env.files P.env.guess c ident args.toArgs with
          | error e => rw [h4] at h hb; cases h; exact hb rfl
          | ok t =>
            rw [h4] at h hb
            dsimp only at h hb
            cases h5 : mainSource P.env t with
            | error e => rw [h5] at h hb; cases h; exact hb rfl
            | ok src =>
              rw [h5] at h hb
              dsimp only at h hb
              cases h6 : findUsedTemplates (P.env.loader c t.syn) fuel t.path src with
              | error e => rw [h6] at h hb; cases h; exact hb rfl
              | ok m =>
                rw [h6] at h hb
                dsimp only at h hb
                cases h7 : makeContexts (P.env.loader c t.syn).find (dedupKeys m []) with
                | error e => rw [h7] at h hb; cases h; exact hb rfl
                | ok cs =>
                  rw [h7] at h hb
                  dsimp only at h hb
                  cases h8 : assoc cs t.path with
                  | none => rw [h8] at hb; exact hb rfl
                  | some ctx =>
                    rw [h8] at h hb
                    dsimp only at h hb
                    cases h9 : heritageOf cs t.block ctx with
                    | error e => rw [h9] at h hb; cases h; exact hb rfl
                    | ok hr =>
                      rw [h9] at h hb
                      dsimp only at h hb
                      unfold buildImpl at h
                      have hcalm : Calm (includeLines P.canon t (cs.map (·.1))) := by
                        refine includeLines_calm _ fun p hp hf => canon p ?_
                        obtain ⟨e, he, rfl⟩ := List.mem_map.1 hp
                        obtain ⟨nodes, hk, -⟩ := makeContexts_mem h7 he
                        have hfound := checkLoop_found (main := t.path) fuel h6 (fun q hq => by cases hq)
                          (fun e he => by
                            simp only [List.mem_cons, List.not_mem_nil, or_false] at he; exact .inl (by rw [he]))
                          e.1 (by unfold Known; rw [hk]; rfl)
                        rcases hfound with heq | ⟨p, r, hfind⟩
                        · rw [heq]
                          unfold TemplateInput.isFile at hf
                          cases ht : t.source with
                          | source s => rw [ht, heq] at hf; simp at hf
                          | path p =>
                            unfold TemplateInput.new at h4
                            split at h4
                            · cases h4
                            · rename_i so hso
                              obtain ⟨path, k1, h4⟩ := except_bind h4
                              obtain ⟨syn, k2, h4⟩ := except_bind h4
                              dsimp only at h4
                              split at h4
                              · cases h4
                              · cases h4
                                dsimp only at ht ⊢
                                subst ht
                                unfold templatePath at k1
                                dsimp only at k1
                                split at k1
                                · rename_i q hq; cases k1; exact findTemplate_there hq
                                · cases k1
                        · exact findTemplate_there (c := c) (path := r) (start := some p) hfind
                      cases h10 : includeLines P.canon t (cs.map (·.1)) with
                      | error e =>
                        rw [h10] at h
                        cases h
                        exact hcalm.not_panic h10
                      | ok incl =>
                        rw [h10] at h
                        simp only [bind, Except.bind] at h
                        cases h11 : generate (genInput P.env c t cs) fuel hr ctx with
                        | error e => rw [h11] at h hb; cases h; exact hb rfl
                        | ok body => rw [h11] at h; cases h
  unfold derive
  split
  · intro h; cases h
  · rw [skeleton P hi]
    split
    · intro h; cases h
    · intro h; cases h
    · rename_i e _ he
      split at he <;> cases he
      intro h; cases h
  · rename_i e _ hb
    intro h; cases h; exact key hb

end Askama.Props
