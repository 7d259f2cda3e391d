import Verif.Lemmas.Escape

/-!
# Properties C01–C07: escaping
-/

namespace Askama.Props

open Spec

/-! ## Facts about the specification itself -/

theorem htmlChar_cases (c : Char) :
    (∃ e ∈ entities, htmlChar c = e) ∨
    (htmlChar c = [c] ∧ c ≠ '<' ∧ c ≠ '>' ∧ c ≠ '&' ∧ c ≠ '"' ∧ c ≠ '\'') := by
  by_cases h1 : c = '<'
  · subst h1; left; decide
  by_cases h2 : c = '>'
  · subst h2; left; decide
  by_cases h3 : c = '&'
  · subst h3; left; decide
  by_cases h4 : c = '"'
  · subst h4; left; decide
  by_cases h5 : c = '\''
  · subst h5; left; decide
  exact Or.inr ⟨htmlChar_other h1 h2 h3 h4 h5, h1, h2, h3, h4, h5⟩

theorem entity_shape : ∀ e ∈ entities, (∀ c ∈ e, c ≠ '<' ∧ c ≠ '>' ∧ c ≠ '"' ∧ c ≠ '\'') ∧
    e.head? = some '&' ∧ '&' ∉ e.tail := by
  decide

theorem htmlEscape_inert (s : Str) : HtmlInert (htmlEscape s) := by
  induction s with
  | nil => exact ⟨by simp [htmlEscape], by simp [htmlEscape]⟩
  | cons c s ih =>
    have hcons : htmlEscape (c :: s) = htmlChar c ++ htmlEscape s := by simp [htmlEscape]
    rw [hcons]
    obtain ⟨ih1, ih2⟩ := ih
    rcases htmlChar_cases c with ⟨e, he, hc⟩ | ⟨hc, h1, h2, h3, h4, h5⟩
    · rw [hc]
      obtain ⟨s1, s2, s3⟩ := entity_shape e he
      refine ⟨?_, ?_⟩
      · intro d hd
        rcases List.mem_append.1 hd with hd | hd
        · exact s1 d hd
        · exact ih1 d hd
      · intro pre post hpp
        cases pre with
        | nil => exact ⟨e, he, by rw [List.nil_append] at hpp; rw [← hpp]; exact List.prefix_append _ _⟩
        | cons p pre =>
          cases e with
          | nil => simp at s2
          | cons e0 e =>
            simp only [List.cons_append, List.cons.injEq, List.tail_cons] at hpp s3
            rcases List.append_eq_append_iff.1 hpp.2 with ⟨a, ha, hb⟩ | ⟨a, ha, hb⟩
            · exact ih2 _ _ hb
            · cases a with
              | nil => exact ih2 [] post (by simpa using hb.symm)
              | cons a0 a =>
                simp only [List.cons_append, List.cons.injEq] at hb
                exact absurd (ha ▸ (by simp [← hb.1]) : '&' ∈ e) s3
    · rw [hc]
      refine ⟨?_, ?_⟩
      · intro d hd
        rcases List.mem_append.1 hd with hd | hd
        · simp only [List.mem_singleton] at hd; subst hd; exact ⟨h1, h2, h4, h5⟩
        · exact ih1 d hd
      · intro pre post hpp
        cases pre with
        | nil => simp only [List.nil_append, List.singleton_append, List.cons.injEq] at hpp; exact absurd hpp.1 h3
        | cons p pre =>
          simp only [List.cons_append, List.cons.injEq, List.nil_append] at hpp
          exact ih2 _ _ hpp.2

theorem htmlDecode_other {c : Char} (h : c ≠ '&') (r : Str) : htmlDecode (c :: r) = c :: htmlDecode r := by
  rw [htmlDecode] <;> intros <;> simp_all

theorem htmlDecode_escape (s : Str) : htmlDecode (htmlEscape s) = s := by
  induction s with
  | nil => rfl
  | cons c s ih =>
    have hcons : htmlEscape (c :: s) = htmlChar c ++ htmlEscape s := by simp [htmlEscape]
    rw [hcons]
    by_cases h1 : c = '<'
    · subst h1; simp [htmlChar, htmlDecode, ih]
    by_cases h2 : c = '>'
    · subst h2; simp [htmlChar, htmlDecode, ih]
    by_cases h3 : c = '&'
    · subst h3; simp [htmlChar, htmlDecode, ih]
    by_cases h4 : c = '"'
    · subst h4; simp [htmlChar, htmlDecode, ih]
    by_cases h5 : c = '\''
    · subst h5; simp [htmlChar, htmlDecode, ih]
    rw [htmlChar_other h1 h2 h3 h4 h5, List.singleton_append, htmlDecode_other h3, ih]

/-! ## The escaper -/

/-- The HTML escaper, on any destination: it never panics (never slices inside a character), a success has written
exactly the character-wise escape, a failure only a prefix of it. (C03, C04, C05 for one `write_str`.) -/
theorem html_write_escaped (sink : Sink) (s : Str) (acc : List Str) :
    Emits acc (htmlEscape s) (Escaper.html.writeEscaped sink s acc) :=
  escLoop_writes' htmlTable_spec sink s acc

/-- C01. Escaping any text into any destination leaves inert output. -/
theorem C01_html_output_inert (sink : Sink) (s : Str) (out : List Str)
    (h : escaped .html s sink [] = .ok out) : HtmlInert out.flatten := by
  have hw := html_write_escaped sink s []
  unfold escaped at h
  rw [h] at hw
  have : out.flatten = htmlEscape s := by simpa using hw.2
  rw [this]
  exact htmlEscape_inert s

example : ∃ out, escaped .html c!"<a href=\"x\">'é&" Sink.total [] = .ok out ∧
    out.flatten = c!"&lt;a href=&quot;x&quot;&gt;&#x27;é&amp;" := ⟨_, by rfl, by decide⟩

/-- C01 for values: an unsafe value displayed with the HTML escaper, whatever chunks it writes. -/
theorem C01_markup_inert (sink : Sink) (d : Disp) (out : List Str)
    (h : (MarkupDisplay.newUnsafe d .html).fmt sink [] = .ok out) : HtmlInert out.flatten := by
  have hw := writes_writeAll (w := Escaper.html.writeEscaped sink) (html_write_escaped sink) d.chunks []
  simp only [MarkupDisplay.newUnsafe, MarkupDisplay.fmt, Disp.fmt] at h
  cases hr : writeAll (Escaper.html.writeEscaped sink) d.chunks [] with
  | ok a =>
    rw [hr] at h hw
    simp only [WRes.andThen_ok] at h
    split at h
    · cases h
    · cases h
      have : out.flatten = htmlEscape d.chunks.flatten := by
        have h2 := hw.2
        simp only [List.flatten_nil, List.nil_append] at h2
        rw [h2]; exact flatten_flatMap _ _
      rw [this]; exact htmlEscape_inert _
  | err a => rw [hr] at h; simp at h
  | panic => rw [hr] at h; simp at h

/-- C02. The escaped text decodes to the original. -/
theorem C02_html_roundtrip (sink : Sink) (s : Str) (out : List Str)
    (h : escaped .html s sink [] = .ok out) : htmlDecode out.flatten = s := by
  have hw := html_write_escaped sink s []
  unfold escaped at h
  rw [h] at hw
  have : out.flatten = htmlEscape s := by simpa using hw.2
  rw [this, htmlDecode_escape]

example : escaped .html c!"a<&amp;" Sink.total [] = .ok [c!"a", c!"&lt;", [], c!"&amp;", c!"amp;"] := by rfl

/-- C02. Different texts never escape to the same output. -/
theorem C02_html_injective (sink sink' : Sink) (s t : Str) (o o' : List Str)
    (hs : escaped .html s sink [] = .ok o) (ht : escaped .html t sink' [] = .ok o')
    (heq : o.flatten = o'.flatten) : s = t := by
  rw [← C02_html_roundtrip sink s o hs, ← C02_html_roundtrip sink' t o' ht, heq]

/-- C03. Displaying an unsafe value writes the character-wise escape of its complete text, for every chunking. -/
theorem C03_chunk_independent (d : Disp) (hd : d.fails = false) :
    ∃ out, (MarkupDisplay.newUnsafe d .html).fmt Sink.total [] = .ok out ∧ out.flatten = d.text.flatMap htmlChar := by
  have hw := writes_writeAll (w := Escaper.html.writeEscaped Sink.total) (html_write_escaped Sink.total) d.chunks []
  obtain ⟨a, ha⟩ := writeAll_total_ok (w := Escaper.html.writeEscaped Sink.total)
    (fun s acc => escLoop_total_ok htmlTable_spec s acc) d.chunks []
  rw [ha] at hw
  refine ⟨a, by simp [MarkupDisplay.newUnsafe, MarkupDisplay.fmt, Disp.fmt, ha, hd], ?_⟩
  have h2 := hw.2
  simp only [List.flatten_nil, List.nil_append] at h2
  rw [h2, Disp.text]; exact flatten_flatMap _ _

/-- C03, second form: two values with the same text, however chunked, are escaped to the same text. -/
theorem C03_same_text_same_output (d d' : Disp) (h : d.text = d'.text) (sink sink' : Sink) (o o' : List Str)
    (ho : (MarkupDisplay.newUnsafe d .html).fmt sink [] = .ok o)
    (ho' : (MarkupDisplay.newUnsafe d' .html).fmt sink' [] = .ok o') : o.flatten = o'.flatten := by
  have key : ∀ (sink : Sink) (d : Disp) (o : List Str),
      (MarkupDisplay.newUnsafe d .html).fmt sink [] = .ok o → o.flatten = htmlEscape d.text := by
    intro sink d o ho
    have hw := writes_writeAll (w := Escaper.html.writeEscaped sink) (html_write_escaped sink) d.chunks []
    simp only [MarkupDisplay.newUnsafe, MarkupDisplay.fmt, Disp.fmt] at ho
    cases hr : writeAll (Escaper.html.writeEscaped sink) d.chunks [] with
    | ok a =>
      rw [hr] at ho hw
      simp only [WRes.andThen_ok] at ho
      split at ho
      · cases ho
      · cases ho
        have h2 := hw.2
        simp only [List.flatten_nil, List.nil_append] at h2
        rw [h2]; exact flatten_flatMap _ _
    | err a => rw [hr] at ho; simp at ho
    | panic => rw [hr] at ho; simp at ho
  rw [key _ _ _ ho, key _ _ _ ho', h]

example : (⟨[c!"a<", c!"", c!"é>b"], false⟩ : Disp).text = (⟨[c!"a", c!"<é>b"], false⟩ : Disp).text := by decide

/-- C04. No input, at any position, makes the escaper slice outside the text or inside a character. -/
theorem C04_never_panics (sink : Sink) (s : Str) (acc : List Str) :
    Escaper.html.writeEscaped sink s acc ≠ .panic := by
  intro h
  have := html_write_escaped sink s acc
  rw [h] at this; exact this

/-- C04. Characters that are not special pass through unchanged, whatever their encoded length: a text without special
characters is written as it is. -/
theorem C04_plain_unchanged (sink : Sink) (s : Str) (hs : ∀ c ∈ s, c ∉ ['<', '>', '&', '"', '\'']) (out : List Str)
    (h : escaped .html s sink [] = .ok out) : out.flatten = s := by
  have hw := html_write_escaped sink s []
  unfold escaped at h
  rw [h] at hw
  have h2 : out.flatten = htmlEscape s := by simpa using hw.2
  rw [h2]
  clear h2 hw h
  induction s with
  | nil => rfl
  | cons c s ih =>
    have hc := hs c (by simp)
    simp only [List.mem_cons, List.not_mem_nil, or_false, not_or] at hc
    have : htmlEscape (c :: s) = htmlChar c ++ htmlEscape s := by simp [htmlEscape]
    rw [this, htmlChar_other hc.1 hc.2.1 hc.2.2.1 hc.2.2.2.1 hc.2.2.2.2, ih (fun d hd => hs d (by simp [hd]))]
    rfl

example : ∀ c ∈ c!"日本語 €😀 a", c ∉ ['<', '>', '&', '"', '\''] := by decide

/-- C05. When the destination fails, the failure is reported and what it accepted is a prefix of the escaped text. -/
theorem C05_failure_prefix (sink : Sink) (s : Str) (acc : List Str)
    (h : escaped .html s sink [] = .err acc) : acc.flatten <+: htmlEscape s := by
  have hw := html_write_escaped sink s []
  unfold escaped at h
  rw [h] at hw
  obtain ⟨_, p, hp, he⟩ := hw
  simp only [List.flatten_nil, List.nil_append] at he
  rw [he]; exact hp

/-- C05. A success means that the destination never refused anything and everything was written. -/
theorem C05_success_complete (sink : Sink) (s : Str) (acc : List Str)
    (h : escaped .html s sink [] = .ok acc) : acc.flatten = htmlEscape s := by
  have hw := html_write_escaped sink s []
  unfold escaped at h
  rw [h] at hw
  simpa using hw.2

/-- A destination that refuses its third chunk. -/
example : escaped .html c!"ab<cd" (fun acc _ => acc.length < 2) [] = .err [c!"ab", c!"&lt;"] := by rfl

/-- C06. A safe value is written verbatim. -/
theorem C06_safe_verbatim (d : Disp) (hd : d.fails = false) (e : Escaper) :
    (MarkupDisplay.newSafe d e).fmt Sink.total [] = .ok d.chunks := by
  have : ∀ cs acc, writeAll (put Sink.total) cs acc = .ok (acc ++ cs) := by
    intro cs
    induction cs with
    | nil => intro acc; simp [writeAll]
    | cons c cs ih => intro acc; simp [writeAll, put_total, ih]
  simp [MarkupDisplay.newSafe, MarkupDisplay.fmt, Disp.fmt, this, hd]

/-- C06. Marking safe: turns an unsafe value into the safe one with the same content, and is idempotent. -/
theorem C06_mark_safe (v : α) (e : Escaper) :
    (MarkupDisplay.newUnsafe v e).markSafe = MarkupDisplay.newSafe v e ∧
    (MarkupDisplay.newSafe v e).markSafe = MarkupDisplay.newSafe v e := ⟨rfl, rfl⟩

theorem C06_mark_safe_idempotent (m : MarkupDisplay α) : m.markSafe.markSafe = m.markSafe := by
  obtain ⟨v, e⟩ := m
  cases v <;> rfl

/-- C06. The text escaper changes nothing. -/
theorem C06_text_identity (d : Disp) (hd : d.fails = false) :
    (MarkupDisplay.newUnsafe d .text).fmt Sink.total [] = .ok d.chunks := by
  have := C06_safe_verbatim d hd .text
  exact this

/-- C06. Unsafe values are escaped exactly once, not zero or two times: the output decodes to the value's text. -/
theorem C06_escaped_once (d : Disp) (hd : d.fails = false) :
    ∃ out, (MarkupDisplay.newUnsafe d .html).fmt Sink.total [] = .ok out ∧ htmlDecode out.flatten = d.text := by
  obtain ⟨out, h1, h2⟩ := C03_chunk_independent d hd
  exact ⟨out, h1, by rw [h2]; exact htmlDecode_escape d.text⟩

example : (MarkupDisplay.newUnsafe (⟨[c!"<", c!"&lt;"], false⟩ : Disp) .html).fmt Sink.total [] =
    .ok [c!"", c!"&lt;", c!"", c!"", c!"&amp;", c!"lt;"] := by rfl

/-! ## The JSON filter -/

/-- The JSON filter on any destination: no panic (no invalid slice), exact output or a prefix of it. -/
theorem json_writes (d : Disp) (sink : Sink) (acc : List Str) :
    Emits acc (jsonEscape d.text) (writeAll (jsonWrite sink) d.chunks acc) := by
  have := writes_writeAll (w := jsonWrite sink) (fun s acc => escLoop_writes' jsonTable_spec sink s acc) d.chunks acc
  rw [flatten_flatMap] at this
  exact this

theorem json_output (d : Disp) (sink : Sink) (out : List Str) (h : jsonFmt d sink [] = .ok out) :
    out.flatten = jsonEscape d.text := by
  have hw := json_writes d sink []
  unfold jsonFmt Disp.fmt at h
  cases hr : writeAll (jsonWrite sink) d.chunks [] with
  | ok a =>
    rw [hr] at h hw
    simp only [WRes.andThen_ok] at h
    split at h
    · cases h
    · cases h
      simpa using hw.2
  | err a => rw [hr] at h; simp at h
  | panic => rw [hr] at h; simp at h

/-- C07. No markup-relevant character in the output. -/
theorem C07_json_no_markup (d : Disp) (sink : Sink) (out : List Str) (h : jsonFmt d sink [] = .ok out) :
    ∀ c ∈ out.flatten, c ≠ '&' ∧ c ≠ '\'' ∧ c ≠ '<' ∧ c ≠ '>' := by
  rw [json_output d sink out h]
  intro c hc
  simp only [jsonEscape, List.mem_flatMap] at hc
  obtain ⟨a, _, ha⟩ := hc
  by_cases h1 : a = '<'
  · subst h1; revert c; decide
  by_cases h2 : a = '>'
  · subst h2; revert c; decide
  by_cases h3 : a = '&'
  · subst h3; revert c; decide
  by_cases h4 : a = '\''
  · subst h4; revert c; decide
  rw [jsonChar_other h1 h2 h3 h4] at ha
  simp only [List.mem_singleton] at ha
  subst ha
  exact ⟨h3, h4, h1, h2⟩

/-- C07. Independence of the serializer's chunks. -/
theorem C07_json_chunk_independent (d d' : Disp) (ht : d.text = d'.text) (sink sink' : Sink) (o o' : List Str)
    (h : jsonFmt d sink [] = .ok o) (h' : jsonFmt d' sink' [] = .ok o') : o.flatten = o'.flatten := by
  rw [json_output d sink o h, json_output d' sink' o' h', ht]

example : jsonFmt ⟨[c!"\"", c!"<a>", c!"\""], false⟩ Sink.total [] =
    .ok [c!"\"", c!"", c!"\\u003c", c!"a", c!"\\u003e", c!"", c!"\""] := by rfl

theorem jsonRead_other {x : Char} (h : x ≠ '\\') (r : Str) : jsonRead (x :: r) = .plain x :: jsonRead r := by
  rw [jsonRead] <;> intros <;> simp_all

theorem jsonChar_hex {c : Char} {n : Nat} (h : hexVal c = some n) : jsonChar c = [c] := by
  apply jsonChar_other <;> rintro rfl <;> revert h <;> simp [hexVal]

/-- C07. A JSON reader gets the same string contents: for a well-formed string body, the escaped body has the same
meaning (the four replaced characters being read back from their unicode escapes). -/
theorem C07_json_same_meaning (s : Str) (hs : JsonBody s) : jsonMeaning (jsonEscape s) = jsonMeaning s := by
  unfold JsonBody at hs
  unfold jsonMeaning
  induction s using jsonRead.induct with
  | case1 a b c d r a' b' c' d' ha hb hc hd ih =>
    have hm : jsonRead ('\\' :: 'u' :: a :: b :: c :: d :: r) =
        .uni (a' * 4096 + b' * 256 + c' * 16 + d') :: jsonRead r := by
      simp [jsonRead, ha, hb, hc, hd]
    have he : jsonEscape ('\\' :: 'u' :: a :: b :: c :: d :: r) =
        '\\' :: 'u' :: a :: b :: c :: d :: jsonEscape r := by
      simp only [jsonEscape, List.flatMap_cons, jsonChar_hex ha, jsonChar_hex hb, jsonChar_hex hc, jsonChar_hex hd]
      rfl
    have hm2 : jsonRead ('\\' :: 'u' :: a :: b :: c :: d :: jsonEscape r) =
        .uni (a' * 4096 + b' * 256 + c' * 16 + d') :: jsonRead (jsonEscape r) := by
      simp [jsonRead, ha, hb, hc, hd]
    rw [he, hm2, hm]
    simp only [List.map_cons]
    rw [ih (fun c hc => hs c (by rw [hm]; simp [hc]))]
  | case2 a b c d r hno ih =>
    exfalso
    have hm : JSym.esc 'u' ∈ jsonRead ('\\' :: 'u' :: a :: b :: c :: d :: r) := by
      rw [jsonRead]
      split
      · rename_i h1 h2 h3 h4; exact (hno _ _ _ _ h1 h2 h3 h4).elim
      · simp
    have := hs 'u' hm
    revert this; decide
  | case3 x r hx ih =>
    have hm : jsonRead ('\\' :: x :: r) = .esc x :: jsonRead r := by
      rw [jsonRead]
      exact hx
    have hxs := hs x (by rw [hm]; simp)
    have he : jsonEscape ('\\' :: x :: r) = '\\' :: x :: jsonEscape r := by
      have : jsonChar x = [x] := by
        apply jsonChar_other <;> rintro rfl <;> revert hxs <;> decide
      simp only [jsonEscape, List.flatMap_cons, this]; rfl
    have hxu : x ≠ 'u' := by rintro rfl; revert hxs; decide
    have hm2 : jsonRead ('\\' :: x :: jsonEscape r) = .esc x :: jsonRead (jsonEscape r) := by
      rw [jsonRead]
      intro a b c d r' h; exact absurd h hxu
    rw [he, hm2, hm]
    simp only [List.map_cons]
    rw [ih (fun c hc => hs c (by rw [hm]; simp [hc]))]
  | case4 x r h1 h2 ih =>
    by_cases hx : x = '\\'
    · subst hx
      cases r with
      | nil => rfl
      | cons y r => exact absurd rfl (h2 y r rfl)
    · have hm := jsonRead_other hx r
      have ih := ih (fun c hc => hs c (by rw [hm]; simp [hc]))
      rw [hm]
      have he : jsonEscape (x :: r) = jsonChar x ++ jsonEscape r := by simp [jsonEscape]
      rw [he]
      by_cases h1 : x = '<'
      · subst h1; simp only [jsonChar, List.cons_append, List.nil_append, jsonRead, hexVal]
        simp [JSym.value, ih]
      by_cases h2 : x = '>'
      · subst h2; simp only [jsonChar, List.cons_append, List.nil_append, jsonRead, hexVal]
        simp [JSym.value, ih]
      by_cases h3 : x = '&'
      · subst h3; simp only [jsonChar, List.cons_append, List.nil_append, jsonRead, hexVal]
        simp [JSym.value, ih]
      by_cases h4 : x = '\''
      · subst h4; simp only [jsonChar, List.cons_append, List.nil_append, jsonRead, hexVal]
        simp [JSym.value, ih]
      rw [jsonChar_other h1 h2 h3 h4, List.singleton_append, jsonRead_other hx]
      simp [ih]
  | case5 => rfl

example : JsonBody c!"a\\n<\\u00e9&>\\\"" := by
  intro c hc
  have : jsonRead c!"a\\n<\\u00e9&>\\\"" =
      [.plain 'a', .esc 'n', .plain '<', .uni 0xe9, .plain '&', .plain '>', .esc '"'] := by rfl
  rw [this] at hc
  simp at hc
  rcases hc with rfl | rfl <;> decide

end Askama.Props
