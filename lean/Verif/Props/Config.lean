import Verif.Model.Input
import Verif.Model.Hint
import Verif.Model.Runtime
import Verif.Spec.Config

/-! C35, C50, C51, C55, C57, C59: configuration, files and size hints. -/

namespace Askama.Props

open Askama Askama.Spec

/-! ## C35 -/

/-- C35: reading a template file drops one final newline, if there is one, and nothing else. -/
theorem C35_trailing_newline (fs : Files) (path text : Str) :
    (fs.read path = some (text ++ ['\n']) → getTemplateSource fs path = some text)
    ∧ (fs.read path = some text → (¬∃ t, text = t ++ ['\n']) → getTemplateSource fs path = some text)
    ∧ (fs.read path = none → getTemplateSource fs path = none) := by
  unfold getTemplateSource
  refine ⟨fun h => ?_, fun h hn => ?_, fun h => ?_⟩
  · simp [h]
  · rw [h]
    simp only
    split
    · rename_i hl
      obtain ⟨t, ht⟩ := List.getLast?_eq_some_iff.mp hl
      exact absurd ⟨t, ht⟩ hn
    · rfl
  · simp [h]

example : getTemplateSource ⟨fun _ => true, fun _ => some c!"a\n\n"⟩ c!"x" = some c!"a\n" := by decide

/-! ## C50 -/

theorem selectEscaper_first (l : List (List Str × Str)) (mode path : Str) :
    selectEscaper l mode = some path ↔ ∃ exts, IsFirst (fun e : List Str × Str => mode ∈ e.1) l (exts, path) := by
  induction l with
  | nil => simp [selectEscaper, IsFirst]
  | cons e l ih =>
    obtain ⟨exts, p⟩ := e
    unfold selectEscaper
    split
    · rename_i h
      simp only [List.contains_iff_mem] at h
      simp only [Option.some.injEq]
      constructor
      · rintro rfl
        exact ⟨exts, [], l, rfl, h, by simp⟩
      · rintro ⟨exts', before, after, heq, hm, hb⟩
        cases before with
        | nil => simp at heq; exact heq.1.2
        | cons b before =>
          simp only [List.cons_append, List.cons.injEq] at heq
          exact absurd h (by have := hb b (by simp); rwa [← heq.1] at this)
    · rename_i h
      simp only [List.contains_iff_mem] at h
      rw [ih]
      constructor
      · rintro ⟨exts', before, after, heq, hm, hb⟩
        exact ⟨exts', (exts, p) :: before, after, by simp [heq], hm, by
          intro y hy
          rcases List.mem_cons.mp hy with rfl | hy
          · exact h
          · exact hb y hy⟩
      · rintro ⟨exts', before, after, heq, hm, hb⟩
        cases before with
        | nil =>
          simp only [List.nil_append, List.cons.injEq, Prod.mk.injEq] at heq
          exact absurd hm (by rw [← heq.1.1]; exact h)
        | cons b before =>
          simp only [List.cons_append, List.cons.injEq] at heq
          exact ⟨exts', before, after, heq.2, hm, fun y hy => hb y (by simp [hy])⟩

/-- C50: an accepted template has the escaper of the first entry, configured ones before default ones, that lists the
template's escape mode, which is the `escape` argument or else the extension of its path. -/
theorem C50_first_escaper {isWs : Char → Bool} {krate root : Str} {raw : RawConfig} {ws : Option Str} {c : Config}
    {fs : Files} {guess : Str → Option Str} {ident : Str} {args : TemplateArgs} {t : TemplateInput}
    (hc : Config.new isWs krate root raw ws = .ok c) (ht : TemplateInput.new fs guess c ident args = .ok t) :
    ∃ exts, IsFirst (fun e : List Str × Str => args.escaping.getD ((Path.extension t.path).getD []) ∈ e.1)
      ((raw.escapers.getD []).map (fun e => (e.extensions, e.path)) ++ builtinEscapers krate) (exts, t.escaper) := by
  rw [show builtinEscapers krate = defaultEscapers krate from rfl]
  have hesc : c.escapers = (raw.escapers.getD []).map (fun e => (e.extensions, e.path)) ++ defaultEscapers krate := by
    unfold Config.new at hc
    simp only [bind, Except.bind, pure, Except.pure] at hc
    repeat' split at hc
    all_goals first
      | (cases hc; done)
      | (simp only [Except.ok.injEq] at hc; rw [← hc])
  rw [← hesc, ← selectEscaper_first]
  unfold TemplateInput.new at ht
  split at ht
  · cases ht
  · simp only [bind, Except.bind, pure, Except.pure] at ht
    repeat' split at ht
    all_goals first
      | (cases ht; done)
      | (simp only [Except.ok.injEq] at ht; subst ht; simp_all)

/-- C50: if no entry lists the escape mode the template is rejected with an error. -/
theorem C50_no_escaper {fs : Files} {guess : Str → Option Str} {c : Config} {ident p q : Str} {args : TemplateArgs}
    {syn : Syntax} (hs : args.source = some (.path p)) (hp : c.findTemplate fs p none = some q)
    (hsyn : args.syn = none) (hd : assoc c.syntaxes c.defaultSyntax = some syn)
    (hno : ∀ e ∈ c.escapers, args.escaping.getD ((Path.extension q).getD []) ∉ e.1) :
    TemplateInput.new fs guess c ident args = .error .err := by
  have : selectEscaper c.escapers (args.escaping.getD ((Path.extension q).getD [])) = none := by
    cases h : selectEscaper c.escapers (args.escaping.getD ((Path.extension q).getD [])) with
    | none => rfl
    | some path =>
      obtain ⟨exts, before, after, heq, hm, _⟩ := (selectEscaper_first _ _ _).mp h
      exact absurd hm (hno _ (by rw [heq]; simp))
  unfold TemplateInput.new
  simp only [hs, hsyn, hd, hp, bind, Except.bind, this, templatePath, templateSyntax]

example : selectEscaper ([([c!"js"], c!"Js"), ([c!"html"], c!"Mine")] ++ defaultEscapers c!"::askama") c!"html"
    = some c!"Mine" := by decide
example : selectEscaper (defaultEscapers c!"::askama") c!"svg" = some c!"::askama::Html"
    ∧ selectEscaper (defaultEscapers c!"::askama") [] = some c!"::askama::Text"
    ∧ selectEscaper (defaultEscapers c!"::askama") c!"js" = none := by decide

/-! ## C51 -/

/-- C51: with a referring template, the sibling is taken if it exists; otherwise, or without a referring template, the
first of the configured directories that has the file; otherwise the lookup fails. -/
theorem C51_lookup (fs : Files) (c : Config) (path : Str) (from_ : Option Str) :
    (∀ root, from_ = some root → fs.exist (Path.withFileName root path) = true →
      c.findTemplate fs path from_ = some (Path.withFileName root path))
    ∧ ((∀ root, from_ = some root → fs.exist (Path.withFileName root path) = false) →
      (∀ d, IsFirst (fun d => fs.exist (Path.join d path) = true) c.dirs d →
        c.findTemplate fs path from_ = some (Path.join d path))
      ∧ ((∀ d ∈ c.dirs, fs.exist (Path.join d path) = false) → c.findTemplate fs path from_ = none)) := by
  have hfirst : ∀ (dirs : List Str) d, IsFirst (fun d => fs.exist (Path.join d path) = true) dirs d →
      findInDirs fs path dirs = some (Path.join d path) := by
    rintro dirs d ⟨before, after, rfl, hd, hb⟩
    induction before with
    | nil => simp [findInDirs, hd]
    | cons b before ih =>
      have hbb := hb b (by simp)
      simp only [List.cons_append, findInDirs, hbb]
      exact ih (fun y hy => hb y (by simp [hy]))
  have hnone : ∀ (dirs : List Str), (∀ d ∈ dirs, fs.exist (Path.join d path) = false) →
      findInDirs fs path dirs = none := by
    intro dirs h
    induction dirs with
    | nil => rfl
    | cons b dirs ih => simp [findInDirs, h b (by simp), ih (fun d hd => h d (by simp [hd]))]
  refine ⟨?_, fun hf => ⟨fun d hd => ?_, fun hn => ?_⟩⟩
  · rintro root rfl h
    simp [Config.findTemplate, h]
  · unfold Config.findTemplate
    cases from_ with
    | none => exact hfirst _ d hd
    | some root => simp [hf root rfl, hfirst _ d hd]
  · unfold Config.findTemplate
    cases from_ with
    | none => exact hnone _ hn
    | some root => simp [hf root rfl, hnone _ hn]

/-- C51: the sibling of a template is the file of that name in the same directory, and joining puts a relative path
below the directory. -/
theorem C51_sibling (root dir name path : Str) (h : InDir root dir name) (hp : path.head? ≠ some '/')
    (hl : dir.getLast? ≠ some '/') : Path.withFileName root path = dir ++ ['/'] ++ path := by
  obtain ⟨rfl, hn⟩ := h
  have h1 : ∀ x ∈ name.reverse, (x != '/') = true := by
    intro x hx
    rw [List.mem_reverse] at hx
    simp only [bne_iff_ne, ne_eq]
    rintro rfl
    exact hn hx
  have hdw : (dir ++ ['/'] ++ name).reverse.dropWhile (· != '/') = '/' :: dir.reverse := by
    simp only [List.append_assoc, List.cons_append, List.nil_append, List.reverse_append, List.reverse_cons]
    rw [List.dropWhile_append_of_pos h1]
    simp
  by_cases hd : dir = []
  · subst hd
    unfold Path.withFileName Path.parent
    rw [hdw]
    simp [Path.join, hp]
  have hparent : Path.parent (dir ++ ['/'] ++ name) = dir := by
    unfold Path.parent
    rw [hdw]
    cases hr : dir.reverse with
    | nil => exact absurd (List.reverse_eq_nil_iff.mp hr) hd
    | cons a b =>
      simp only
      rw [← hr, List.reverse_reverse]
  unfold Path.withFileName
  rw [hparent]
  unfold Path.join
  simp [hp, hd, hl]

/-- C51: next to a template at no directory, a relative path is taken as it is. -/
theorem C51_sibling_here (root path : Str) (h : '/' ∉ root) : Path.withFileName root path = path := by
  have : root.reverse.dropWhile (· != '/') = [] := by
    have h1 : ∀ x ∈ root.reverse, (x != '/') = true := by
      intro x hx
      rw [List.mem_reverse] at hx
      simp only [bne_iff_ne, ne_eq]
      rintro rfl
      exact h hx
    have := List.dropWhile_append_of_pos (l₂ := []) h1
    simpa using this
  unfold Path.withFileName Path.parent
  rw [this]
  simp [Path.join]

example : Path.withFileName c!"/a.html" c!"b.html" = c!"/b.html" ∧ Path.withFileName c!"/t/a.html" c!"b.html" = c!"/t/b.html"
    ∧ Path.withFileName c!"a.html" c!"b.html" = c!"b.html" := by decide

example : (Config.mk [c!"/t", c!"/u"] [] [] [] .preserve).findTemplate
    ⟨fun p => p == c!"/t/b.html" || p == c!"/u/a.html" || p == c!"/t/d/b.html", fun _ => none⟩ c!"b.html"
      (some c!"/t/d/a.html") = some c!"/t/d/b.html"
    ∧ (Config.mk [c!"/t", c!"/u"] [] [] [] .preserve).findTemplate
    ⟨fun p => p == c!"/t/b.html" || p == c!"/u/a.html" || p == c!"/t/d/b.html", fun _ => none⟩ c!"a.html"
      (some c!"/t/d/a.html") = some c!"/u/a.html" := by decide

/-! ## C55 -/

/-- C55, proved but for the number of characters: in an accepted syntax no delimiter contains whitespace or has fewer
than two bytes, no opening delimiter is a prefix of another, and so at most one kind of tag starts at any position. What
is missing: two *characters* are promised, but a single character of several bytes is accepted, see `C55_false`. -/
theorem C55_unambiguous_partial {isWs : Char → Bool} {r : RawSyntax} {s : Syntax} (h : r.toSyntax isWs = .ok s) :
    (∀ d ∈ [s.blockStart, s.blockEnd, s.exprStart, s.exprEnd, s.commentStart, s.commentEnd],
      2 ≤ Str.blen d ∧ (∀ x ∈ d, isWs x = false) ∧ ((∀ x ∈ d, x.toNat < 128) → 2 ≤ d.length))
    ∧ (∀ input : Str, ¬(s.blockStart <+: input ∧ s.exprStart <+: input)
        ∧ ¬(s.blockStart <+: input ∧ s.commentStart <+: input)
        ∧ ¬(s.exprStart <+: input ∧ s.commentStart <+: input)) := by
  unfold RawSyntax.toSyntax at h
  simp only at h
  split at h
  · rename_i hok
    simp only [Except.ok.injEq] at h
    subst h
    simp only [Bool.and_eq_true] at hok
    obtain ⟨⟨⟨hall, h1⟩, h2⟩, h3⟩ := hok
    rw [List.all_eq_true] at hall
    refine ⟨fun d hd => ?_, fun input => ?_⟩
    · have := hall d hd
      simp only [delimiterOk, Bool.and_eq_true, Bool.not_eq_true', decide_eq_false_iff_not, Nat.not_lt,
        List.any_eq_false] at this
      refine ⟨this.1.1, fun x hx => by simpa using this.1.2 x hx, fun hascii => ?_⟩
      have hl : ∀ d : Str, (∀ x ∈ d, x.toNat < 128) → Str.blen d = d.length := by
        intro d hd
        induction d with
        | nil => rfl
        | cons c d ih =>
          have hc : c.utf8Size = 1 := by
            have := hd c (by simp)
            unfold Char.utf8Size
            simp only [Char.toNat] at this
            have : c.val ≤ 127 := by
              rw [UInt32.le_iff_toNat_le]
              simp only [UInt32.reduceToNat]
              omega
            simp [this]
          simp only [Str.blen, hc, List.length_cons, ih (fun x hx => hd x (by simp [hx]))]
          omega
      rw [← hl d hascii]
      exact this.1.1
    · have key : ∀ a b : Str, noPrefix a b = true → ¬(a <+: input ∧ b <+: input) := by
        rintro a b hn ⟨ha, hb⟩
        simp only [noPrefix, Bool.not_eq_true', Bool.or_eq_false_iff] at hn
        rcases List.prefix_or_prefix_of_prefix ha hb with hp | hp
        · rw [← List.isPrefixOf_iff_prefix] at hp
          rw [hp] at hn; simp at hn
        · rw [← List.isPrefixOf_iff_prefix] at hp
          rw [hp] at hn; simp at hn
      exact ⟨key _ _ h1, key _ _ h2, key _ _ h3⟩
  · cases h

/-- C55 is false as stated: the length of a delimiter is counted in bytes, so a single character can be a delimiter. -/
theorem C55_false : (RawSyntax.mk c!"s" (some ['é']) none none none none none).toSyntax (fun _ => false)
      = .ok { Syntax.default with blockStart := ['é'] }
    ∧ (['é'] : Str).length = 1 := ⟨rfl, rfl⟩

/-- C55: a syntax configuration is accepted exactly if each delimiter, the usual one where none is given, is fit to be one and no
opening delimiter is the beginning of another; then it is what was asked for, otherwise there is an error. -/
theorem C55_accepted (isWs : Char → Bool) (r : RawSyntax) :
    let s : Syntax := ⟨r.blockStart.getD c!"{%", r.blockEnd.getD c!"%}", r.exprStart.getD c!"{{", r.exprEnd.getD c!"}}",
      r.commentStart.getD c!"{#", r.commentEnd.getD c!"#}"⟩
    let fit := (∀ d ∈ [s.blockStart, s.blockEnd, s.exprStart, s.exprEnd, s.commentStart, s.commentEnd], DelimOk isWs d) ∧
      ∀ p ∈ [(s.blockStart, s.exprStart), (s.blockStart, s.commentStart), (s.exprStart, s.commentStart)], ¬ p.1 <+: p.2 ∧ ¬ p.2 <+: p.1
    (fit → r.toSyntax isWs = .ok s) ∧ (¬ fit → r.toSyntax isWs = .error .err) := by
  have hd : ∀ d, delimiterOk isWs d = true ↔ DelimOk isWs d := by
    intro d
    simp only [delimiterOk, DelimOk, twoPlusCharOps, Bool.and_eq_true, Bool.not_eq_true', decide_eq_false_iff_not, Nat.not_lt,
      List.any_eq_false, and_assoc]
    simp
  have hp : ∀ a b, noPrefix a b = true ↔ ¬ a <+: b ∧ ¬ b <+: a := by
    intro a b
    simp only [noPrefix, Bool.not_eq_true', Bool.or_eq_false_iff]
    rw [← Bool.not_eq_true, ← Bool.not_eq_true, List.isPrefixOf_iff_prefix, List.isPrefixOf_iff_prefix]
    exact and_comm
  intro s fit
  have key : r.toSyntax isWs = if ([s.blockStart, s.blockEnd, s.exprStart, s.exprEnd, s.commentStart, s.commentEnd].all (delimiterOk isWs)
      && noPrefix s.blockStart s.exprStart && noPrefix s.blockStart s.commentStart
      && noPrefix s.exprStart s.commentStart) = true then .ok s else .error .err := rfl
  have hfit : ([s.blockStart, s.blockEnd, s.exprStart, s.exprEnd, s.commentStart, s.commentEnd].all (delimiterOk isWs)
      && noPrefix s.blockStart s.exprStart && noPrefix s.blockStart s.commentStart
      && noPrefix s.exprStart s.commentStart) = true ↔ fit := by
    simp only [Bool.and_eq_true, List.all_eq_true, hd, hp, fit, and_assoc]
    simp only [List.forall_mem_cons, List.not_mem_nil, false_implies, implies_true, and_true, and_assoc]
  rw [key]
  exact ⟨fun h => if_pos (hfit.2 h), fun h => if_neg (fun h' => h (hfit.1 h'))⟩

example : (RawSyntax.mk c!"s" (some c!"..=") none none none none none).toSyntax (· == ' ') = .error .err := rfl
example : (RawSyntax.mk c!"s" (some c!"<%") (some c!"%>") (some c!"<<%") none none none).toSyntax (· == ' ')
    = .ok { Syntax.default with blockStart := c!"<%", blockEnd := c!"%>", exprStart := c!"<<%" } := rfl
example : (RawSyntax.mk c!"s" (some c!"{{%") none none none none none).toSyntax (· == ' ') = .error .err := rfl

/-! ## C57 -/

theorem mem_insertSize (n x : Nat) (l : List Nat) : x ∈ insertSize n l ↔ x = n ∨ x ∈ l := by
  induction l with
  | nil => simp [insertSize]
  | cons m l ih =>
    unfold insertSize
    split
    · simp
    · simp only [List.mem_cons, ih]
      constructor
      · rintro (h | h | h) <;> simp [h]
      · rintro (h | h | h) <;> simp [h]

theorem length_insertSize (n : Nat) (l : List Nat) : (insertSize n l).length = l.length + 1 := by
  induction l with
  | nil => rfl
  | cons m l ih => unfold insertSize; split <;> simp [ih]

theorem mem_sortSizes (x : Nat) (l : List Nat) : x ∈ sortSizes l ↔ x ∈ l := by
  induction l with
  | nil => simp [sortSizes]
  | cons m l ih => simp [sortSizes, mem_insertSize, ih]

theorem length_sortSizes (l : List Nat) : (sortSizes l).length = l.length := by
  induction l with
  | nil => rfl
  | cons m l ih => simp [sortSizes, length_insertSize, ih]

/-- The list is sorted, so that the middle element is the median. -/
theorem sorted_sortSizes (l : List Nat) : (sortSizes l).Pairwise (· ≤ ·) := by
  induction l with
  | nil => exact List.Pairwise.nil
  | cons n l ih =>
    simp only [sortSizes]
    generalize sortSizes l = s at ih
    clear l
    induction s with
    | nil => simp [insertSize]
    | cons m s ih2 =>
      rw [List.pairwise_cons] at ih
      unfold insertSize
      split
      · rename_i h
        refine List.pairwise_cons.mpr ⟨?_, List.pairwise_cons.mpr ih⟩
        intro x hx
        rcases List.mem_cons.mp hx with rfl | hx
        · exact h
        · exact Nat.le_trans h (ih.1 x hx)
      · rename_i h
        refine List.pairwise_cons.mpr ⟨?_, ih2 ih.2⟩
        intro x hx
        rcases (mem_insertSize n x s).mp hx with rfl | hx
        · omega
        · exact ih.1 x hx

/-- C57: the median lies between the least and the greatest. -/
theorem median_bounds {l : List Nat} (h : l ≠ []) :
    ∃ m, median l = some m ∧ (∃ a ∈ l, a ≤ m) ∧ (∃ b ∈ l, m ≤ b) := by
  unfold median
  have hlen : (sortSizes l).length = l.length := length_sortSizes l
  have hmem : ∀ x, x ∈ sortSizes l ↔ x ∈ l := fun x => mem_sortSizes x l
  have hpos : 0 < l.length := List.length_pos_iff.mpr h
  simp only [hlen]
  split
  · have hlt : l.length / 2 < (sortSizes l).length := by rw [hlen]; omega
    refine ⟨_, List.getElem?_eq_getElem hlt, ?_, ?_⟩
    · exact ⟨_, (hmem _).mp (List.getElem_mem hlt), Nat.le_refl _⟩
    · exact ⟨_, (hmem _).mp (List.getElem_mem hlt), Nat.le_refl _⟩
  · rw [if_neg (by omega)]
    have hlt1 : l.length / 2 - 1 < (sortSizes l).length := by rw [hlen]; omega
    have hlt2 : l.length / 2 < (sortSizes l).length := by rw [hlen]; omega
    simp only [List.getElem?_eq_getElem hlt1, List.getElem?_eq_getElem hlt2]
    generalize ha : (sortSizes l)[l.length / 2 - 1] = a
    generalize hb : (sortSizes l)[l.length / 2] = b
    have hma : a ∈ l := (hmem a).mp (ha ▸ List.getElem_mem hlt1)
    have hmb : b ∈ l := (hmem b).mp (hb ▸ List.getElem_mem hlt2)
    refine ⟨_, rfl, ?_, ?_⟩
    · by_cases hab : a ≤ b
      · exact ⟨a, hma, by omega⟩
      · exact ⟨b, hmb, by omega⟩
    · by_cases hab : a ≤ b
      · exact ⟨b, hmb, by omega⟩
      · exact ⟨a, hma, by omega⟩

/-- C57 for `match`: apart from what is written before it, its hint lies between the least and the greatest of its
arms. -/
theorem C57_match_bounded (flushed : Nat) (arms : List (Nat × Nat)) (h : arms ≠ []) :
    ∃ m, matchHint flushed arms = some (flushed + m)
      ∧ (∃ a ∈ arms, a.1 + a.2 ≤ m) ∧ (∃ b ∈ arms, m ≤ b.1 + b.2) := by
  obtain ⟨m, hm, ⟨a, ha, hle⟩, ⟨b, hb, hge⟩⟩ := median_bounds (l := arms.map fun a => a.1 + a.2) (by simpa using h)
  simp only [List.mem_map] at ha hb
  obtain ⟨a', ha', rfl⟩ := ha
  obtain ⟨b', hb', rfl⟩ := hb
  exact ⟨m, by simp [matchHint, hm], ⟨a', ha', hle⟩, ⟨b', hb', hge⟩⟩

/-- C57 for `if`, proved only for branches that end without pending output: the hint lies between the least and the
greatest of the branches (a missing `else` counts as an empty branch). What is missing: output pending at the end of a
branch is added for every branch, see `C57_false`. -/
theorem C57_if_bounded_partial (before : Nat) (arms : List Nat) (hasElse : Bool) (h : arms ≠ []) :
    ∃ m, ifHint (before :: arms.map fun _ => 0) arms hasElse = some (before + m)
      ∧ (∃ a ∈ (if hasElse then arms else arms ++ [0]), a ≤ m) ∧ (∃ b ∈ (if hasElse then arms else arms ++ [0]), m ≤ b) := by
  obtain ⟨m, hm, ha, hb⟩ := median_bounds (l := if hasElse then arms else arms ++ [0]) (by cases hasElse <;> simp [h])
  have hz : (arms.map fun _ => 0).sum = 0 := by
    clear h hm ha hb
    induction arms with
    | nil => rfl
    | cons a arms ih => simpa using ih
  exact ⟨m, by simp [ifHint, hm, hz], ha, hb⟩

/-- C57 is false for `if`: `{% if a %}hello{% else %}world{% endif %}` is at most five bytes long, but its hint is ten,
since the texts pending at the ends of the branches are all added up. -/
theorem C57_false : ifHint [0, 5, 5] [0, 0] true = some 10 := by decide +kernel

/-- C57: the hint has no influence on what is rendered, on any route. -/
theorem C57_harmless (p : TProg) (n : Nat) (sink : Sink) :
    ({ p with sizeHint := n } : TProg).render = p.render
    ∧ ({ p with sizeHint := n } : TProg).renderInto sink = p.renderInto sink
    ∧ ({ p with sizeHint := n } : TProg).writeInto sink = p.writeInto sink := ⟨rfl, rfl, rfl⟩

example : median [7, 1, 4] = some 4 ∧ median [7, 1] = some 4 ∧ median [] = none := by decide +kernel

/-! ## C59 -/

theorem splitExt_hasExt {name stem ext : Str} (h : HasExt name stem ext) :
    Path.splitExt name = (stem, some ext) := by
  obtain ⟨rfl, hdot, hstem, hdd⟩ := h
  unfold Path.splitExt
  have h1 : ∀ x ∈ ext.reverse, (x != '.') = true := by
    intro x hx
    rw [List.mem_reverse] at hx
    simp only [bne_iff_ne, ne_eq]
    rintro rfl
    exact hdot hx
  have hrev : (stem ++ ['.'] ++ ext).reverse = ext.reverse ++ '.' :: stem.reverse := by simp
  have hdw : (stem ++ ['.'] ++ ext).reverse.dropWhile (· != '.') = '.' :: stem.reverse := by
    rw [hrev, List.dropWhile_append_of_pos h1]
    simp
  have htw : (stem ++ ['.'] ++ ext).reverse.takeWhile (· != '.') = ext.reverse := by
    rw [hrev, List.takeWhile_append_of_pos h1]
    simp
  rw [if_neg hdd]
  simp only [hdw, htw, List.reverse_reverse]
  simp [hstem]

theorem splitExt_noExt {name : Str} (h : NoExt name) : Path.splitExt name = (name, none) := by
  unfold Path.splitExt
  split
  · rfl
  · rename_i hdd
    simp only
    split
    · rfl
    · rename_i a stem heq
      split
      · rfl
      · rename_i hs
        exfalso
        apply h
        have hne : name.reverse.dropWhile (· != '.') ≠ [] := by rw [heq]; simp
        have ha : a = '.' := by
          have := List.head?_dropWhile_not (· != '.') name.reverse
          rw [heq] at this
          simpa using this
        subst ha
        refine ⟨stem.reverse, (name.reverse.takeWhile (· != '.')).reverse, ?_, ?_, by simpa using hs, hdd⟩
        · have : name.reverse = name.reverse.takeWhile (· != '.') ++ '.' :: stem := by
            rw [← heq, List.takeWhile_append_dropWhile]
          have := congrArg List.reverse this
          simpa using this
        · rw [List.mem_reverse]
          intro hm
          have := List.all_takeWhile (p := (· != '.')) (l := name.reverse)
          rw [List.all_eq_true] at this
          simpa using this _ hm

theorem fileName_inDir {path dir name : Str} (h : InDir path dir name) : Path.fileName path = name := by
  obtain ⟨rfl, hn⟩ := h
  have h1 : ∀ x ∈ name.reverse, (x != '/') = true := by
    intro x hx
    rw [List.mem_reverse] at hx
    simp only [bne_iff_ne, ne_eq]
    rintro rfl
    exact hn hx
  unfold Path.fileName
  have hrev : (dir ++ ['/'] ++ name).reverse = name.reverse ++ '/' :: dir.reverse := by simp
  rw [hrev, List.takeWhile_append_of_pos h1]
  simp

theorem fileName_self {name : Str} (hn : '/' ∉ name) : Path.fileName name = name := by
  unfold Path.fileName
  have h1 : ∀ x ∈ name.reverse, (x != '/') = true := by
    intro x hx
    rw [List.mem_reverse] at hx
    simp only [bne_iff_ne, ne_eq]
    rintro rfl
    exact hn hx
  have := List.takeWhile_append_of_pos (l₂ := []) h1
  simp at this
  rw [this, List.reverse_reverse]

/-- C59: the extension of a file name is what follows its last dot; for `j2`, `jinja` and `jinja2` it is the extension
before that one, if there is one; a name without extension has none. -/
theorem C59_extension (path dir name : Str) (hpath : InDir path dir name) :
    (∀ stem ext, HasExt name stem ext → ext ∉ [c!"j2", c!"jinja", c!"jinja2"] → templateExtension path = some ext)
    ∧ (∀ stem ext, HasExt name stem ext → ext ∈ [c!"j2", c!"jinja", c!"jinja2"] →
        (∀ stem2 ext2, HasExt stem stem2 ext2 → templateExtension path = some ext2)
        ∧ (NoExt stem → templateExtension path = some ext))
    ∧ (NoExt name → templateExtension path = none) := by
  have hf := fileName_inDir hpath
  refine ⟨fun stem ext h hj => ?_, fun stem ext h hj => ?_, fun h => ?_⟩
  · have he : Path.extension path = some ext := by simp [Path.extension, hf, splitExt_hasExt h]
    unfold templateExtension
    rw [he]
    simp only
    rw [if_neg (by simpa [List.contains_iff_mem] using hj)]
  · have he : Path.extension path = some ext := by simp [Path.extension, hf, splitExt_hasExt h]
    have hst : Path.stem path = stem := by simp [Path.stem, hf, splitExt_hasExt h]
    have hsl : '/' ∉ stem := by
      intro hm
      apply hpath.2
      rw [h.1]
      simp [hm]
    have hfs := fileName_self hsl
    have hc : [c!"j2", c!"jinja", c!"jinja2"].contains ext = true := by rwa [List.contains_iff_mem]
    constructor
    · intro stem2 ext2 h2
      unfold templateExtension
      have : Path.extension stem = some ext2 := by simp [Path.extension, hfs, splitExt_hasExt h2]
      simp only [he, hc, hst, this, if_true]
    · intro h2
      unfold templateExtension
      have : Path.extension stem = none := by simp [Path.extension, hfs, splitExt_noExt h2]
      simp only [he, hc, hst, this, if_true]
  · have he : Path.extension path = none := by simp [Path.extension, hf, splitExt_noExt h]
    simp [templateExtension, he]

/-- C59: the declared extension of a template is its `ext` argument, else that of its path; and its MIME type depends on
nothing but that extension. -/
theorem C59_mime {fs fs' : Files} {guess : Str → Option Str} {c c' : Config} {ident ident' : Str}
    {args args' : TemplateArgs} {t t' : TemplateInput} (h : TemplateInput.new fs guess c ident args = .ok t)
    (h' : TemplateInput.new fs' guess c' ident' args' = .ok t') :
    t.extension = (args.ext <|> templateExtension t.path) ∧ (t.extension = t'.extension → t.mime = t'.mime) := by
  have key : ∀ {fs : Files} {c : Config} {ident : Str} {args : TemplateArgs} {t : TemplateInput},
      TemplateInput.new fs guess c ident args = .ok t →
      t.ext = args.ext ∧ t.mime = extensionToMime guess (t.extension.getD c!"txt") := by
    intro fs c ident args t ht
    unfold TemplateInput.new at ht
    split at ht
    · cases ht
    · simp only [bind, Except.bind, pure, Except.pure] at ht
      repeat' split at ht
      all_goals first
        | (cases ht; done)
        | (simp only [Except.ok.injEq] at ht; subst ht; exact ⟨rfl, rfl⟩)
  refine ⟨?_, fun heq => ?_⟩
  · unfold TemplateInput.extension extDefaultToPath
    rw [(key h).1]
    cases args.ext <;> rfl
  · rw [(key h).2, (key h').2, heq]

/-- C59: textual types are declared as UTF-8, everything else as it was guessed. -/
theorem C59_mime_charset (guess : Str → Option Str) (ext basic : Str) (h : guess ext = some basic) :
    (basic ∈ [c!"text/plain", c!"text/html", c!"text/css", c!"text/csv", c!"text/tab-separated-values",
        c!"application/javascript"] → extensionToMime guess ext = basic ++ c!"; charset=utf-8")
    ∧ (basic ∉ [c!"text/plain", c!"text/html", c!"text/css", c!"text/csv", c!"text/tab-separated-values",
        c!"application/javascript"] → extensionToMime guess ext = basic) := by
  unfold extensionToMime
  rw [h]
  simp only [Option.getD_some]
  constructor
  · intro hm
    simp only [List.mem_cons, List.not_mem_nil, or_false] at hm
    rcases hm with rfl | rfl | rfl | rfl | rfl | rfl <;> decide
  · intro hm
    simp only [List.mem_cons, List.not_mem_nil, or_false, not_or] at hm
    obtain ⟨h1, h2, h3, h4, h5, h6⟩ := hm
    have hb : ∀ a b : Str, a ≠ b → (a == b) = false := fun a b h => by simpa using h
    simp only [textTypes, List.find?, hb _ _ h1, hb _ _ h2, hb _ _ h3, hb _ _ h4, hb _ _ h5, hb _ _ h6]
    by_cases h7 : basic = c!"image/svg+xml"
    · subst h7; rfl
    · simp [hb _ _ h7]

example : templateExtension c!"foo/bar.txt.j2" = some c!"txt" ∧ templateExtension c!"a.b/bar.jinja" = some c!"jinja"
    ∧ templateExtension c!"a/.hidden" = none := by decide

/-- C59 and C50 disagree about `foo.txt.j2`: its declared extension is `txt`, but its escaper is the one for `j2`,
which is HTML. -/
theorem C59_escaper_disagrees : templateExtension c!"foo.txt.j2" = some c!"txt"
    ∧ selectEscaper (defaultEscapers c!"::askama") c!"txt" = some c!"::askama::Text"
    ∧ selectEscaper (defaultEscapers c!"::askama") ((Path.extension c!"foo.txt.j2").getD []) = some c!"::askama::Html" := by
  decide

end Askama.Props
