import Verif.Lemmas.Filters2

/-!
# Properties C08–C16: text filters
-/

namespace Askama.Props

open Spec

/-! ## C08 urlencode -/

/-- C08. The output of `urlencode` is percent-encoded text over unreserved characters and `/`; for
`urlencode_strict` over unreserved characters only. -/
theorem C08_alphabet (d : Disp) (sink : Sink) (out : List Str) :
    (urlencodeFmt pathSet d sink [] = .ok out → PercentText (fun c => isUnreserved c || c == '/') out.flatten) ∧
    (urlencodeFmt strictSet d sink [] = .ok out → PercentText isUnreserved out.flatten) := by
  constructor
  · intro h
    rw [url_output h]
    apply enc_percentText
    have : ∀ n : Fin 128, pathSet (Char.ofNat n.val).toNat = false →
        (fun c => isUnreserved c || c == '/') (Char.ofNat n.val) = true := by decide +kernel
    exact fun c hc => ascii_cases (P := fun c => pathSet c.toNat = false → (isUnreserved c || c == '/') = true) this c hc
  · intro h
    rw [url_output h]
    apply enc_percentText
    have : ∀ n : Fin 128, strictSet (Char.ofNat n.val).toNat = false →
        isUnreserved (Char.ofNat n.val) = true := by decide +kernel
    exact fun c hc => ascii_cases (P := fun c => strictSet c.toNat = false → isUnreserved c = true) this c hc

/-- C08. Percent-decoding the output gives the UTF-8 bytes of the input, for any chunks and any destination. -/
theorem C08_decodes (d : Disp) (sink : Sink) (out : List Str) :
    (urlencodeFmt pathSet d sink [] = .ok out → percentDecode out.flatten = some (Str.bytes d.text)) ∧
    (urlencodeFmt strictSet d sink [] = .ok out → percentDecode out.flatten = some (Str.bytes d.text)) := by
  constructor <;> intro h <;> rw [url_output h] <;> exact percentDecode_enc _ (by decide) _

/-- A byte set that leaves the ASCII characters of `p` alone leaves every text over `p` alone. -/
private theorem url_unchanged (set : Nat → Bool) (p : Char → Bool)
    (key : ∀ n : Fin 128, p (Char.ofNat n.val) = true →
      encByte set (UInt8.ofNat (Char.ofNat n.val).toNat) = [Char.ofNat n.val])
    (hp : ∀ c, p c = true → c.toNat < 128)
    (d : Disp) (sink : Sink) (out : List Str) (hd : ∀ c ∈ d.text, p c = true)
    (h : urlencodeFmt set d sink [] = .ok out) : out.flatten = d.text := by
  rw [url_output h]
  generalize d.text = s at hd
  induction s with
  | nil => rfl
  | cons c s ih =>
    have hlt : c.toNat < 128 := hp c (hd c (by simp))
    have enc : encByte set (UInt8.ofNat c.toNat) = [c] :=
      ascii_cases (P := fun c => p c = true → encByte set (UInt8.ofNat c.toNat) = [c])
        key c hlt (hd c (by simp))
    rw [Str.bytes_cons, encode_ascii c hlt, List.singleton_append, List.flatMap_cons, enc,
      ih (fun d hd' => hd d (by simp [hd']))]
    rfl

private theorem unreserved_ascii (c : Char) (h : isUnreserved c = true) : c.toNat < 128 := by
  simp only [isUnreserved, Bool.or_eq_true, Bool.and_eq_true, decide_eq_true_eq, beq_iff_eq] at h
  have le : ∀ {a b : Char}, a ≤ b → a.toNat ≤ b.toNat := fun h => h
  have h1 : ('z' : Char).toNat = 122 := by decide
  have h2 : ('Z' : Char).toNat = 90 := by decide
  have h3 : ('9' : Char).toNat = 57 := by decide
  rcases h with (((((⟨_, h⟩ | ⟨_, h⟩) | ⟨_, h⟩) | h) | h) | h) | h
  · have := le h; omega
  · have := le h; omega
  · have := le h; omega
  all_goals subst h; decide

/-- C08. Unreserved characters are left alone: `urlencode_strict` does not change a text of unreserved characters. -/
theorem C08_unreserved_unchanged (d : Disp) (sink : Sink) (out : List Str) (hd : ∀ c ∈ d.text, isUnreserved c = true)
    (h : urlencodeFmt strictSet d sink [] = .ok out) : out.flatten = d.text :=
  url_unchanged strictSet isUnreserved (by decide +kernel) unreserved_ascii d sink out hd h

/-- C08. `urlencode` moreover leaves `/` alone. -/
theorem C08_path_unchanged (d : Disp) (sink : Sink) (out : List Str)
    (hd : ∀ c ∈ d.text, (isUnreserved c || c == '/') = true)
    (h : urlencodeFmt pathSet d sink [] = .ok out) : out.flatten = d.text := by
  refine url_unchanged pathSet (fun c => isUnreserved c || c == '/') (by decide +kernel) ?_ d sink out hd h
  intro c hc
  simp only [Bool.or_eq_true, beq_iff_eq] at hc
  rcases hc with hc | rfl
  · exact unreserved_ascii c hc
  · decide

/-- C08. The two filters differ only on `/`: replacing every `/` of the lenient output by `%2F` gives the strict one. -/
theorem C08_differ_on_slash (d d' : Disp) (hd : d.text = d'.text) (sink sink' : Sink) (out out' : List Str)
    (h : urlencodeFmt pathSet d sink [] = .ok out) (h' : urlencodeFmt strictSet d' sink' [] = .ok out') :
    out'.flatten = out.flatten.flatMap (fun c => if c = '/' then c!"%2F" else [c]) := by
  rw [url_output h, url_output h', hd]
  have key : ∀ n : Fin 256, encByte strictSet (UInt8.ofNat n.val) =
      (encByte pathSet (UInt8.ofNat n.val)).flatMap (fun c => if c = '/' then c!"%2F" else [c]) := by decide +kernel
  generalize Str.bytes d'.text = bs
  induction bs with
  | nil => rfl
  | cons b bs ih =>
    have := key ⟨b.toNat, b.toNat_lt⟩
    simp only [UInt8.ofNat_toNat] at this
    rw [List.flatMap_cons, List.flatMap_cons, List.flatMap_append, ih, this]

/-- C08. The result does not depend on the chunks. -/
theorem C08_chunk_independent (set : Nat → Bool) (d d' : Disp) (hd : d.text = d'.text) (sink sink' : Sink)
    (out out' : List Str) (h : urlencodeFmt set d sink [] = .ok out) (h' : urlencodeFmt set d' sink' [] = .ok out') :
    out.flatten = out'.flatten := by
  rw [url_output h, url_output h', hd]

example : ∃ out, urlencodeFmt pathSet ⟨[c!"a/é", c!" ✨"], false⟩ Sink.total [] = .ok out ∧
    out.flatten = c!"a/%C3%A9%20%E2%9C%A8" := ⟨_, by rfl, by decide⟩

/-! ## C09 truncate -/

/-- C09. For any chunks, any limit and any destination: success means the whole text or the least whole-character
prefix of at least `n` bytes followed by dots. -/
theorem C09_truncate (d : Disp) (n : Nat) (sink : Sink) (out : List Str)
    (h : truncateFmt d n sink [] = .ok out) : Truncated d.text n out.flatten := by
  obtain ⟨o, ho, hw⟩ := truncRun_spec sink d.chunks n []
  unfold truncateFmt at h
  cases hr : truncRun sink d.chunks ⟨true, n⟩ [] with
  | ok a =>
    rw [hr] at h hw
    simp only [WRes.andThen_ok] at h
    split at h
    · cases h
    · cases h
      have : out.flatten = o := by simpa using hw.2
      rw [this]; exact ho
  | err a => rw [hr] at h; cases h
  | panic => rw [hr] at h; cases h

/-- C09. It never panics: the cut is always at a character boundary. -/
theorem C09_never_panics (d : Disp) (n : Nat) (sink : Sink) : truncateFmt d n sink [] ≠ .panic := by
  obtain ⟨o, ho, hw⟩ := truncRun_spec sink d.chunks n []
  unfold truncateFmt
  cases hr : truncRun sink d.chunks ⟨true, n⟩ [] with
  | ok a => simp only [WRes.andThen_ok]; split <;> simp
  | err a => simp
  | panic => rw [hr] at hw; exact hw.elim

/-- C09. The result does not depend on the chunks. -/
theorem C09_chunk_independent (d d' : Disp) (hd : d.text = d'.text) (n : Nat) (sink sink' : Sink) (out out' : List Str)
    (h : truncateFmt d n sink [] = .ok out) (h' : truncateFmt d' n sink' [] = .ok out') :
    out.flatten = out'.flatten := by
  have h1 := C09_truncate d n sink out h
  have h2 := C09_truncate d' n sink' out' h'
  rw [hd] at h1
  exact h1.unique h2

/-- C09. A text of at most `n` bytes is never changed. -/
theorem C09_short_unchanged (d : Disp) (n : Nat) (sink : Sink) (out : List Str) (hn : Str.blen d.text ≤ n)
    (h : truncateFmt d n sink [] = .ok out) : out.flatten = d.text := by
  rcases C09_truncate d n sink out h with ⟨ho, _⟩ | ⟨p, q, hpq, hq, _, hp, _⟩
  · exact ho
  · have := blen_lt_of_append hpq hq
    omega

example : ∃ out, truncateFmt ⟨[c!"aé", c!"", c!"日b"], false⟩ 4 Sink.total [] = .ok out ∧
    out.flatten = c!"aé日..." := ⟨_, by rfl, by decide⟩
example : ∃ out, truncateFmt ⟨[c!"aé", c!"日"], false⟩ 4 Sink.total [] = .ok out ∧
    out.flatten = c!"aé日" := ⟨_, by rfl, by decide⟩

/-! ## C10 indent -/

/-- C10. Below the limits the output is the text with the spaces inserted after interior newlines, at or above them
it is the text. -/
theorem C10_indent (s : Str) (w : Nat) :
    (w < 10000 → Str.blen s < 10000 → Indented w s (indent s w)) ∧
    (w ≥ 10000 ∨ Str.blen s ≥ 10000 → indent s w = s) := by
  constructor
  · intro h1 h2
    unfold indent
    rw [if_neg (by simp only [MAX_LEN]; omega)]
    exact indentLoop_spec w _ 0 s (by simp)
  · intro h
    unfold indent
    rw [if_pos (by simp only [MAX_LEN]; omega)]

/-- C10. Deleting the inserted spaces gives back the text. -/
theorem C10_unindent (s : Str) (w : Nat) (h1 : w < 10000) (h2 : Str.blen s < 10000) :
    unindentGo w 0 (indent s w) = s := ((C10_indent s w).1 h1 h2).unindent

/-- `Indented` determines the output. -/
theorem C10_unique (s t t' : Str) (w : Nat) (h : Indented w s t) (h' : Indented w s t') : t = t' := h.unique h'

example : indent c!"a\nb\n" 2 = c!"a\n  b\n" := by decide

/-! ## C11 trim -/

/-- C11. Whatever the chunks, `trim` gives the complete text without its maximal surrounding whitespace; it fails
exactly when the value fails. -/
theorem C11_trim (d : Disp) :
    (d.fails = false → ∃ t, trimFilter d = some t ∧ IsTrim isWs d.text t) ∧
    (d.fails = true → trimFilter d = none) := by
  constructor
  · intro h
    refine ⟨_, by simp [trimFilter, h]; rfl, ?_⟩
    rw [trimCollect_fold]
    exact isTrim_of _
  · intro h; simp [trimFilter, h]

/-- C11. The result is determined by the text alone. -/
theorem C11_chunk_independent (d d' : Disp) (hd : d.text = d'.text) (t t' : Str)
    (h : trimFilter d = some t) (h' : trimFilter d' = some t') : t = t' := by
  have key : ∀ {d : Disp} {t}, trimFilter d = some t → IsTrim isWs d.text t := by
    intro d t h
    cases hf : d.fails with
    | true => rw [(C11_trim d).2 hf] at h; cases h
    | false =>
      obtain ⟨t', ht, hi⟩ := (C11_trim d).1 hf
      rw [ht] at h; cases h; exact hi
  have h1 := key h
  rw [hd] at h1
  exact h1.unique (key h')

example : trimFilter ⟨[c!" ", c!"\t", c!" a b ", c!" "], false⟩ = some c!"a b" := by decide

/-! ## C12 join -/

/-- C12 (first display only). The first time the joined value is displayed it writes the items in order with the
separator between them. Missing: displaying it again does not produce the same text, see
`C12_second_display_empty`. -/
theorem C12_join_partial (items : List Disp) (sep : Disp) (sink : Sink) (out : List Str)
    (h : ((join items sep).fmt sink []).2 = .ok out) :
    out.flatten = (List.intersperse sep.text (items.map Disp.text)).flatten := by
  have := joinLoop_ok (sep := sep) (sink := sink) (items := items) (idx := 0) (acc := []) h
  simpa using this

/-- C12. If no item fails the first display into a string succeeds. -/
theorem C12_join_succeeds (items : List Disp) (sep : Disp) (hs : sep.fails = false)
    (hi : ∀ d ∈ items, d.fails = false) : ∃ out, ((join items sep).fmt Sink.total []).2 = .ok out :=
  joinLoop_total hs items hi 0 []

/-- C12, the code's actual behaviour: after any display of a joined value, every later display writes nothing. -/
theorem C12_second_display_empty (j : JoinFilter) (sink sink' : Sink) (acc acc' : List Str) :
    ((j.fmt sink acc).1.fmt sink' acc').2 = .ok acc' := by
  cases j <;> rfl

/-- C12 is false as stated: displaying twice does not give the same text. -/
theorem C12_false : ¬ ∀ (items : List Disp) (sep : Disp) (o1 o2 : List Str),
    ((join items sep).fmt Sink.total []).2 = .ok o1 →
    (((join items sep).fmt Sink.total []).1.fmt Sink.total []).2 = .ok o2 → o1.flatten = o2.flatten := by
  intro h
  have := h [⟨[c!"a"], false⟩, ⟨[c!"b"], false⟩] ⟨[c!","], false⟩ [c!"a", c!",", c!"b"] [] (by rfl) (by rfl)
  revert this; decide

example : ((join [⟨[c!"a"], false⟩, ⟨[c!"b", c!"c"], false⟩] ⟨[c!", "], false⟩).fmt Sink.total []).2 =
    .ok [c!"a", c!", ", c!"b", c!"c"] := by rfl

/-! ## C13 line breaks -/

/-- C13. `linebreaksbr` replaces each newline and nothing else. -/
theorem C13_linebreaksbr (s : Str) :
    linebreaksbr s = s.flatMap (fun c => if c = '\n' then c!"<br/>" else [c]) := replaceGo_single '\n' _ s

/-- C13. `linebreaks`. -/
theorem C13_linebreaks (s : Str) : linebreaks s = c!"<p>" ++ lineBreaks s ++ c!"</p>" := by
  unfold linebreaks strReplace
  rw [linebreaks_eq]

/-- C13. No newline survives. -/
theorem C13_no_newline (s : Str) : '\n' ∉ linebreaks s ∧ '\n' ∉ linebreaksbr s := by
  rw [C13_linebreaks, C13_linebreaksbr]
  constructor
  · simp [lineBreaks_no_newline]
  · simp only [List.mem_flatMap, not_exists, not_and]
    intro c _
    split <;> simp
    rename_i h; exact fun hh => h hh.symm

example : linebreaks c!"a\n\n\nb\nc" = c!"<p>a</p><p><br/>b<br/>c</p>" := by decide

/-! ## C14 paragraph breaks -/

/-- C14 (texts without markup whose first and last paragraphs are not empty). Every non-empty paragraph is wrapped,
empty ones are dropped. Missing: see `C14_false_empty` and `C14_false_drops_text`. -/
theorem C14_paragraphbreaks_partial (s : Str) (hlt : '<' ∉ s) (hfirst : (paragraphs s).head? ≠ some [])
    (hlast : (paragraphs s).getLast? ≠ some []) :
    paragraphbreaks s = ((paragraphs s).filter (fun p => !p.isEmpty)).flatMap (fun p => c!"<p>" ++ p ++ c!"</p>") := by
  unfold paragraphbreaks strReplace
  rw [replace_nn_paragraphs]
  have hm := paragraphs_mem s
  cases hp : paragraphs s with
  | nil => exact absurd hp (paragraphs_ne_nil s)
  | cons p ps =>
    rw [hp] at hfirst hlast hm
    have hpl : '<' ∉ p := fun h => hlt (hm p (by simp) _ h)
    have hpn : p ≠ [] := by rintro rfl; simp at hfirst
    have h3 : (!p.isEmpty) = true := by cases p <;> simp_all
    simp only [joinP]
    rw [List.append_assoc, replaceGo_skip_noLt p _ hpl, List.filter_cons, if_pos h3, List.flatMap_cons]
    cases ps with
    | nil => simp [replaceGo]
    | cons q ps =>
      rw [flatMap_restP, replaceGo_close,
        ← replace_restP (q :: ps) (by simp) (fun r hr h => hlt (hm r (List.mem_cons_of_mem _ hr) _ h))
          (by simpa using hlast)]
      simp only [List.append_assoc]

example : '<' ∉ c!"a\nb\n\n\n\nc" ∧ (paragraphs c!"a\nb\n\n\n\nc").head? ≠ some [] ∧
    (paragraphs c!"a\nb\n\n\n\nc").getLast? ≠ some [] ∧
    paragraphbreaks c!"a\nb\n\n\n\nc" = c!"<p>a\nb</p><p>c</p>" := by decide

/-- C14 is false as documented: empty paragraphs are produced. -/
theorem C14_false_empty : ¬ ∀ s, ¬ Occurs c!"<p></p>" (paragraphbreaks s) := by
  intro h
  exact h c!"a\n\n" ⟨c!"<p>a</p>", [], by decide⟩

/-- C14 is false as documented: text is dropped. -/
theorem C14_false_drops_text : paragraphbreaks c!"a<p></p>b" = paragraphbreaks c!"ab" := by decide

/-! ## C15 center -/

/-- C15 (values whose `Display` honours the width, such as strings). Missing: values that ignore the width are not
padded at all, see `C15_false`. -/
theorem C15_center_partial (s : Str) (w : Nat) :
    (w < 10000 → ∃ l r, center true s w = List.replicate l ' ' ++ s ++ List.replicate r ' ' ∧
      l ≤ r ∧ r ≤ l + 1 ∧ (s.length ≤ w → (center true s w).length = w) ∧ (w ≤ s.length → l = 0 ∧ r = 0)) ∧
    (w ≥ 10000 → center true s w = s) := by
  constructor
  · intro hw
    unfold center padCenter
    simp only [MAX_LEN, hw, if_true, true_and]
    by_cases h : s.length < w
    · refine ⟨(w - s.length) / 2, (w - s.length + 1) / 2, ?_, by omega, by omega, ?_, by omega⟩
      · rw [if_pos h]
      · intro _
        rw [if_pos h]; simp; omega
    · refine ⟨0, 0, by rw [if_neg h]; simp, by omega, by omega, ?_, by omega⟩
      intro _; rw [if_neg h]; omega
  · intro h
    unfold center
    rw [if_neg (by simp only [MAX_LEN]; omega)]

/-- C15 is false for values that ignore the formatter's width (for instance the result of `truncate`). -/
theorem C15_false : ¬ ∀ (honours : Bool) (s : Str) (w : Nat), s.length ≤ w → w < 10000 →
    (center honours s w).length = w := by
  intro h
  have := h false c!"a" 3 (by decide) (by decide)
  revert this; decide

example : center true c!"abc" 8 = c!"  abc   " := by decide

/-! ## C16 capitalize, title, wordcount -/

/-- C16. `wordcount` is the number of maximal runs of non-whitespace: of positions holding a non-whitespace character
that is first or preceded by whitespace. -/
theorem C16_wordcount (s : Str) : wordcount s = ((withPrev s).filter (startsWord isWs)).length := by
  unfold wordcount withPrev
  cases h : splitOnWs s with
  | nil => exact absurd h (splitOnWs_ne_nil s)
  | cons p ps =>
    rw [wordcount_aux s none p ps h, List.filter_cons]
    cases p with
    | nil => simp
    | cons a b => simp [prevWs]; omega

/-- C16. `capitalize` never panics and is: first character in upper case, the rest in lower case. -/
theorem C16_capitalize (o : CaseOps) (s : Str) :
    capitalize o [] = some [] ∧ ∀ c, capitalize o (c :: s) = some (o.up c ++ o.lowStr s) := by
  refine ⟨rfl, fun c => ?_⟩
  have := Str.dropB_append [c] s
  simp only [Str.blen_cons, Str.blen_nil, Nat.add_zero, List.singleton_append] at this
  simp [capitalize, this]

/-- C16. `title`: character by character; whitespace stays, a character starting a word is put in upper case, any
other in lower case. -/
theorem C16_title (o : CaseOps) (s : Str) :
    title o s = (withPrev s).flatMap (fun pc =>
      if isWs pc.2 then [pc.2]
      else if startsWord isWs pc then (if o.isUp pc.2 then [pc.2] else o.up pc.2)
      else (if o.isLow pc.2 then [pc.2] else o.low pc.2)) :=
  titleLoop_eq o s none true rfl

/-- C16. `title` preserves the text up to case, `fold` being any case-insensitive reading that the case mappings
respect. -/
theorem C16_title_fold (o : CaseOps) (fold : Char → Str) (hu : ∀ c, (o.up c).flatMap fold = fold c)
    (hl : ∀ c, (o.low c).flatMap fold = fold c) (s : Str) : (title o s).flatMap fold = s.flatMap fold := by
  have key : ∀ need, (titleLoop o need s).flatMap fold = s.flatMap fold := by
    induction s with
    | nil => intro _; rfl
    | cons c s ih =>
      intro need
      simp only [titleLoop]
      split
      · simp [ih]
      · split
        · split <;> simp [ih, hu]
        · split <;> simp [ih, hl]
  exact key true

/-- C16. The same for `capitalize`. -/
theorem C16_capitalize_fold (o : CaseOps) (fold : Char → Str) (hu : ∀ c, (o.up c).flatMap fold = fold c)
    (hl : ∀ s, (o.lowStr s).flatMap fold = s.flatMap fold) (s t : Str) (h : capitalize o s = some t) :
    t.flatMap fold = s.flatMap fold := by
  cases s with
  | nil => rw [(C16_capitalize o []).1] at h; cases h; rfl
  | cons c s => rw [(C16_capitalize o s).2] at h; cases h; simp [hu, hl]

/-- ASCII case operations, to show that the hypotheses can be met. -/
def asciiOps : CaseOps where
  up c := [c.toUpper]
  low c := [c.toLower]
  lowStr s := s.map Char.toLower
  isUp c := c.isUpper
  isLow c := c.isLower

example : title asciiOps c!"hello  wORLD a" = c!"Hello  World A" := by decide
example : wordcount c!" a  bc d" = 3 := by decide
example : capitalize asciiOps c!"éA b" = some c!"éa b" := by decide

end Askama.Props
