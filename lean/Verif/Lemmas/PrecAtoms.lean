import Verif.Lemmas.PrecRead
import Verif.Lemmas.LexShape

/-!
# The expression parser on printed expressions: literals, names and paths (C28)
-/

namespace Askama

open Spec PT

section
variable {env : PEnv} {t : Str} {T : Expr} {f nm : Bool} {nd pr : Nat}

/-- An atom starts the suffix loop. -/
theorem suf_of_single (h : ∀ n rest, Follow 12 false rest → (nm = true → ¬ DotDigit rest) → nd ≤ n + 1 →
    atPos env n 12 () (t ++ rest) = (.ok rest T, ())) : ReadsSuf env t T nd nm := by
  intro n rest hf hnm hn
  refine ⟨rest.length + 1, by omega, ?_⟩
  rw [atPos_11]
  unfold suffixBody
  refine (bind_ok (h n rest hf hnm hn)).trans ?_
  rfl

theorem single_front {n : Nat} {c : Char} {i : Str} (h : isDigitR 10 c = false ∧ c ≠ '-' ∧ c ≠ '"' ∧ c ≠ '\'') :
    atPos env (n + 1) 12 () (c :: i) =
      PT.alt (pathVarBool env) (PT.alt (exprP env n .array) (exprP env n .group)) () (c :: i) := by
  rw [atPos_12]
  unfold singleBody
  obtain ⟨j, m, h1⟩ := numLit_err (i := c :: i) (by
    intro x hx; simp at hx; subst hx; exact ⟨h.2.1, h.1⟩)
  rw [alt_err (map_err h1), alt_err (map_err (strLit_err (by simpa using h.2.2.1))),
    alt_err (map_err (charLit_err (by simpa using h.2.2.2)))]

theorem ident_front {c : Char} (h : identStart c = true) : isDigitR 10 c = false ∧ c ≠ '-' ∧ c ≠ '"' ∧ c ≠ '\'' := by
  have := identStart_facts h
  exact ⟨this.1, this.2.1, this.2.2.1, this.2.2.2.1⟩

/-! ### Numbers -/

theorem many0_satisfy {g : Char → Bool} {rest : Str} (hr : rest.head?.any g = false) : ∀ (s : Str), s.all g = true →
    (PT.many0 (satisfy g) : P (List Char)) () (s ++ rest) = (.ok rest s, ())
  | [], _ => by
    refine many0_stop (j := rest) (m := none) ?_
    unfold satisfy
    cases rest with
    | nil => rfl
    | cons c rest => simp at hr; simp [hr]
  | c :: s, h => by
    simp at h
    refine many0_cons (r := s ++ rest) (a := c) (s' := ()) ?_ (by simp) (many0_satisfy hr s (by simpa using h.2))
    unfold satisfy
    simp [h.1]

/-- Decimal digits. -/
def Dec (s : Str) : Prop := s ≠ [] ∧ s.all (isDigitR 10) = true

theorem dec_of_isDigits {s : Str} (h : isDigits s = true) : Dec s := by
  unfold isDigits at h
  simp at h
  refine ⟨h.1, ?_⟩
  simp
  intro c hc
  rw [isDec_eq]
  unfold isDec
  simpa using h.2 c hc

theorem digits_ok {s rest : Str} (h : Dec s) (hr : NoIdent rest) :
    separatedDigits 10 true () (s ++ rest) = (.ok rest s, ()) := by
  obtain ⟨h1, h2⟩ := h
  unfold separatedDigits
  refine recognize_ok (a := s.tail) ?_
  cases s with
  | nil => exact absurd rfl h1
  | cons c s =>
    simp only [List.all_cons, Bool.and_eq_true] at h2
    refine (bind_ok (a := ([] : List Char)) (r := c :: s ++ rest) (s' := ()) rfl).trans ?_
    refine (bind_ok (a := c) (r := s ++ rest) (s' := ()) ?_).trans ?_
    · simp [satisfy, h2.1]
    · refine many0_satisfy ?_ s ?_
      · cases rest with
        | nil => rfl
        | cons d rest =>
          have := hr d rfl
          unfold identCont at this
          simp at this
          simp [this.1.1.2, this.1.2]
      · simp only [List.all_eq_true] at h2 ⊢
        intro x hx
        simp [h2.2 x hx]

theorem noIdent_tags {i : Str} (h : NoIdent i) {ts : List Str}
    (hts : ∀ t ∈ ts, ∃ c t', t = c :: t' ∧ identCont c = true) : altTags ts () i = (.err false i none, ()) := by
  refine tags_head fun t ht => ?_
  obtain ⟨c, t', rfl, hc⟩ := hts t ht
  refine ⟨by simp, fun d hd hi => ?_⟩
  simp at hd
  subst hd
  have := h c hi
  simp [hc] at this

theorem suffixes_ident : (∀ t ∈ ([c!"i8", c!"i16", c!"i32", c!"i64", c!"i128", c!"isize",
    c!"u8", c!"u16", c!"u32", c!"u64", c!"u128", c!"usize"] : List Str), ∃ c t', t = c :: t' ∧ identCont c = true) ∧
    ∀ t ∈ ([c!"f32", c!"f64"] : List Str), ∃ c t', t = c :: t' ∧ identCont c = true := by
  constructor
  · intro t ht
    simp only [List.mem_cons, List.not_mem_nil, or_false] at ht
    rcases ht with rfl | rfl | rfl | rfl | rfl | rfl | rfl | rfl | rfl | rfl | rfl | rfl <;> exact ⟨_, _, rfl, rfl⟩
  · intro t ht
    simp only [List.mem_cons, List.not_mem_nil, or_false] at ht
    rcases ht with rfl | rfl <;> exact ⟨_, _, rfl, rfl⟩

theorem noIdent_oneOf {i : Str} (h : NoIdent i) : (oneOf c!"eE" : P Char) () i = (.err false i none, ()) := by
  unfold oneOf satisfy
  cases i with
  | nil => rfl
  | cons c i =>
    have := h c rfl
    have hc : ¬ (c = 'e' ∨ c = 'E') := by rintro (rfl | rfl) <;> simp [identCont, isAsciiAlpha] at this
    simp [hc]

theorem digits_err {r : Str} (h : ∀ c, r.head? = some c → isDigitR 10 c = false) :
    ∃ j m, separatedDigits 10 true () r = (.err false j m, ()) := by
  refine ⟨r, none, ?_⟩
  unfold separatedDigits
  refine recognize_err ?_
  refine (bind_ok (a := []) (r := r) (s' := ()) rfl).trans (bind_err ?_)
  unfold satisfy
  cases r with
  | nil => rfl
  | cons c r => simp [h c rfl]

/-- Nothing of what follows belongs to the number. -/
theorem numTail_stop {rest : Str} (h : NoIdent rest) (hd : ¬ DotDigit rest) : ∃ j m, numTail () rest = (.err false j m, ()) := by
  have hdot : ∃ j m, (do let _ ← char '.'; separatedDigits 10 true : P Str) () rest = (.err false j m, ()) := by
    cases rest with
    | nil => exact ⟨_, _, bind_err (char_err (by simp))⟩
    | cons c r =>
      by_cases hc : c = '.'
      · subst hc
        obtain ⟨j, m, he⟩ := digits_err (r := r) (by
          intro d hh
          cases r with
          | nil => simp at hh
          | cons e r =>
            simp at hh
            subst hh
            cases hx : isDigitR 10 e with
            | false => rfl
            | true => exact absurd ⟨e, r, rfl, hx⟩ hd)
        exact ⟨j, m, (bind_ok char_ok).trans he⟩
      · exact ⟨_, _, bind_err (char_err (by simpa using hc))⟩
  obtain ⟨j, m, hdot⟩ := hdot
  unfold numTail integerSuffix floatSuffix
  rw [alt_err (noIdent_tags h suffixes_ident.1), alt_err (noIdent_tags h suffixes_ident.2)]
  have h3 : (PT.recognize (do
      let _ ← PT.opt (do let _ ← char '.'; separatedDigits 10 true)
      let _ ← oneOf c!"eE"
      let _ ← PT.opt (oneOf c!"+-")
      let _ ← separatedDigits 10 false
      PT.opt (altTags [c!"f32", c!"f64"])) : P Str) () rest = (.err false rest none, ()) := by
    refine recognize_err ((bind_ok (opt_err hdot)).trans (bind_err (noIdent_oneOf h)))
  rw [alt_err h3]
  cases rest with
  | nil => exact ⟨_, _, recognize_err (bind_err (char_err (by simp)))⟩
  | cons c r =>
    by_cases hc : c = '.'
    · subst hc
      rw [show (do let _ ← char '.'; separatedDigits 10 true : P Str) () ('.' :: r) = separatedDigits 10 true () r from
        bind_ok char_ok] at hdot
      exact ⟨j, m, recognize_err ((bind_ok char_ok).trans (bind_err hdot))⟩
    · exact ⟨_, _, recognize_err (bind_err (char_err (by simpa using hc)))⟩

/-- The number ends here. -/
def DigitsEnd (radix : Nat) (rest : Str) : Prop := rest.head?.any (fun c => c == '_' || isDigitR radix c) = false

theorem digitsEnd_ident {radix : Nat} {rest : Str} (hr : ∀ c, isDigitR radix c = true → identCont c = true) (h : NoIdent rest) :
    DigitsEnd radix rest := by
  cases rest with
  | nil => rfl
  | cons c r =>
    have h1 := h c rfl
    have h2 : isDigitR radix c = false := by
      cases hh : isDigitR radix c with
      | false => rfl
      | true => rw [hr c hh] at h1; cases h1
    have h3 : (c == '_') = false := by
      cases hh : c == '_' with
      | false => rfl
      | true => rw [beq_iff_eq.1 hh] at h1; cases h1
    simp [DigitsEnd, h2, h3]

theorem isDigitR_ident {radix : Nat} (c : Char) (h : isDigitR radix c = true) : identCont c = true := by
  have hle : ∀ a b : Char, a ≤ b ↔ a.toNat ≤ b.toNat := fun a b => Iff.rfl
  simp only [isDigitR, Bool.or_eq_true, Bool.and_eq_true, decide_eq_true_eq, hle] at h
  simp only [identCont, isAsciiAlpha, isDec_eq, isDec, Bool.or_eq_true, Bool.and_eq_true, decide_eq_true_eq, hle]
  rcases h with (⟨h, _⟩ | ⟨h, _⟩) | ⟨h, _⟩
  · exact .inl (.inl (.inr h))
  · exact .inl (.inl (.inl (.inl h)))
  · exact .inl (.inl (.inl (.inr h)))

theorem decDigit_eq (c : Char) : isDigitR 10 c = decDigit c := isDec_eq c

theorem digit_based {l : Char} (h : l ∈ c!"box") (c : Char) :
    isDigitR (if l = 'b' then 2 else if l = 'o' then 8 else 16) c = baseDigit l c := by
  have hle : ∀ a b : Char, a ≤ b ↔ a.toNat ≤ b.toNat := fun a b => Iff.rfl
  have heq : ∀ a b : Char, a = b ↔ a.toNat = b.toNat := fun a b => ⟨fun h => h ▸ rfl, fun h => Char.toNat_inj.1 h⟩
  simp only [List.mem_cons, List.not_mem_nil, or_false] at h
  rw [Bool.eq_iff_iff]
  rcases h with rfl | rfl | rfl
  · simp only [isDigitR, baseDigit, Bool.or_eq_true, Bool.and_eq_true, decide_eq_true_eq, hle, heq, if_true,
      show '0'.toNat = 48 from rfl, show '9'.toNat = 57 from rfl, show 'a'.toNat = 97 from rfl, show 'z'.toNat = 122 from rfl,
      show 'A'.toNat = 65 from rfl, show 'Z'.toNat = 90 from rfl, show '1'.toNat = 49 from rfl]
    omega
  · simp only [isDigitR, baseDigit, Bool.or_eq_true, Bool.and_eq_true, decide_eq_true_eq, hle, if_true,
      show ¬ ('o' = 'b') by decide, if_false,
      show '0'.toNat = 48 from rfl, show '9'.toNat = 57 from rfl, show 'a'.toNat = 97 from rfl, show 'z'.toNat = 122 from rfl,
      show 'A'.toNat = 65 from rfl, show 'Z'.toNat = 90 from rfl, show '7'.toNat = 55 from rfl]
    omega
  · simp only [isDigitR, baseDigit, hexaDigit, decDigit, Bool.or_eq_true, Bool.and_eq_true, decide_eq_true_eq, hle,
      show ¬ ('x' = 'b') by decide, show ¬ ('x' = 'o') by decide, if_false,
      show '0'.toNat = 48 from rfl, show '9'.toNat = 57 from rfl, show 'a'.toNat = 97 from rfl, show 'z'.toNat = 122 from rfl,
      show 'A'.toNat = 65 from rfl, show 'Z'.toNat = 90 from rfl, show 'f'.toNat = 102 from rfl, show 'F'.toNat = 70 from rfl]
    omega

theorem hexa_eq (c : Char) : isDigitR 16 c = hexaDigit c := digit_based (l := 'x') (by simp) c

theorem underscore_no (radix : Nat) : isDigitR radix '_' = false := by
  simp [isDigitR]

theorem digits_all {radix : Nat} {d : Char → Bool} (hd : ∀ c, isDigitR radix c = d c) {start : Bool} {us s rest : Str}
    (hu : ∀ c ∈ us, c = '_') (hst : start = true → us = []) (hs : Digits d s) (hr : DigitsEnd radix rest) :
    separatedDigits radix start () (us ++ (s ++ rest)) = (.ok rest (us ++ s), ()) := by
  obtain ⟨⟨c, t, rfl, hc⟩, hall⟩ := hs
  rw [← List.append_assoc]
  unfold separatedDigits
  refine recognize_ok (a := t) ?_
  have hkey : (do
      let _ ← satisfy (isDigitR radix)
      PT.many0 (satisfy fun c => c == '_' || isDigitR radix c) : P (List Char)) () (c :: t ++ rest) = (.ok rest t, ()) := by
    refine (bind_ok (a := c) (r := t ++ rest) (s' := ()) ?_).trans ?_
    · simp [satisfy, hd, hc]
    · refine many0_satisfy hr t ?_
      simp only [List.all_eq_true, Bool.or_eq_true, beq_iff_eq]
      intro x hx
      rw [hd]
      exact hall x (by simp [hx])
  cases start with
  | true =>
    rw [hst rfl, List.nil_append]
    exact hkey
  | false =>
    rw [List.append_assoc]
    refine (bind_ok (many0_satisfy (g := (· == '_')) ?_ us ?_)).trans hkey
    · simp only [List.cons_append, List.head?_cons, Option.any_some, beq_eq_false_iff_ne, ne_eq]
      rintro rfl
      rw [← hd, underscore_no] at hc
      cases hc
    · simpa using hu

/-- The type after a number. -/
theorem floatType_opt {ty rest : Str} (h : ty ∈ [] :: floatTypes) (hr : NoIdent rest) :
    ∃ o, PT.opt floatSuffix () (ty ++ rest) = (.ok rest o, ()) := by
  simp only [floatTypes, List.mem_cons, List.not_mem_nil, or_false] at h
  rcases h with rfl | rfl | rfl
  · exact ⟨none, opt_err (noIdent_tags hr suffixes_ident.2)⟩
  · exact ⟨some c!"f32", rfl⟩
  · exact ⟨some c!"f64", rfl⟩

theorem intType_opt {ty rest : Str} (h : ty ∈ [] :: intTypes) (hr : NoIdent rest) :
    ∃ o, PT.opt integerSuffix () (ty ++ rest) = (.ok rest o, ()) := by
  simp only [intTypes, List.mem_cons, List.not_mem_nil, or_false] at h
  rcases h with rfl | rfl | rfl | rfl | rfl | rfl | rfl | rfl | rfl | rfl | rfl | rfl | rfl
  · exact ⟨none, opt_err (noIdent_tags hr suffixes_ident.1)⟩
  all_goals exact ⟨some _, rfl⟩

/-- What may come after the digits: nothing that is a digit, and no letter of a base. -/
structure TailStart (i : Str) : Prop where
  num : DigitsEnd 10 i
  base : ∀ l ∈ c!"box", i.head? ≠ some l

theorem tailStart_cons {c : Char} {r : Str} (h : (c == '_' || isDigitR 10 c) = false) (h' : c ∉ c!"box") : TailStart (c :: r) where
  num := by simpa [DigitsEnd] using h
  base := by
    intro l hl hc
    simp at hc
    subst hc
    exact h' hl

theorem tailStart_end {i : Str} (h : NoIdent i) : TailStart i where
  num := digitsEnd_ident isDigitR_ident h
  base := by
    intro l hl hc
    have := h l hc
    simp only [List.mem_cons, List.not_mem_nil, or_false] at hl
    rcases hl with rfl | rfl | rfl <;> cases this

theorem numLit_dec {a b rest : Str} {o : Option Str} (ha : Digits decDigit a) (hb : TailStart (b ++ rest))
    (ht : PT.opt numTail () (b ++ rest) = (.ok rest o, ())) : numLit () (a ++ b ++ rest) = (.ok rest (a ++ b), ()) := by
  have hd := digits_all decDigit_eq (us := []) (start := true) (by simp) (fun _ => rfl) ha hb.num
  obtain ⟨⟨c, a', rfl, hc⟩, hall⟩ := ha
  rw [← decDigit_eq] at hc
  unfold numLit
  refine recognize_ok (a := c :: a' ++ b) ?_
  rw [bind_ok (opt_err (char_err (by simpa using (digit_facts hc).2.2.2)))]
  have hx : ∃ j m, (PT.recognize (do
        let _ ← PT.char '0'
        let _ ← PT.alt (recognize do let _ ← char 'b'; separatedDigits 2 false) <|
          PT.alt (recognize do let _ ← char 'o'; separatedDigits 8 false)
            (recognize do let _ ← char 'x'; separatedDigits 16 false)
        opt integerSuffix) : P Str) () (c :: a' ++ b ++ rest) = (.err false j m, ()) := by
    by_cases h0 : c = '0'
    · subst h0
      have hhd : ∀ d : Char, d ∈ c!"box" → (a' ++ b ++ rest).head? ≠ some d := by
        intro d hm hh
        cases a' with
        | nil => exact hb.base d hm (by simpa using hh)
        | cons e a' =>
          simp at hh
          subst hh
          have := hall e (by simp)
          simp only [List.mem_cons, List.not_mem_nil, or_false] at hm
          rcases hm with rfl | rfl | rfl <;> exact absurd this (by decide)
      refine ⟨a' ++ b ++ rest, none, recognize_err ((bind_ok (r := a' ++ b ++ rest) char_ok).trans (bind_err ?_))⟩
      rw [alt_err (recognize_err (bind_err (char_err (hhd _ (by simp))))),
        alt_err (recognize_err (bind_err (char_err (hhd _ (by simp)))))]
      exact recognize_err (bind_err (char_err (hhd _ (by simp))))
    · exact ⟨_, _, recognize_err (bind_err (char_err (by simpa using h0)))⟩
  obtain ⟨j, m, hx⟩ := hx
  rw [alt_err hx]
  refine recognize_ok (a := o) ?_
  rw [List.append_assoc]
  exact (bind_ok hd).trans ht

/-- Nothing but a fraction or an exponent. -/
theorem numTail_skip {c : Char} {i : Str} (h : c ∉ c!"iuf") : numTail () (c :: i) = PT.alt (PT.recognize do
      let _ ← PT.opt (do let _ ← char '.'; separatedDigits 10 true)
      let _ ← oneOf c!"eE"
      let _ ← PT.opt (oneOf c!"+-")
      let _ ← separatedDigits 10 false
      PT.opt floatSuffix) (PT.recognize do
      let _ ← char '.'
      let _ ← separatedDigits 10 true
      PT.opt floatSuffix) () (c :: i) := by
  have h1 : integerSuffix () (c :: i) = (.err false (c :: i) none, ()) := by
    refine tags_head fun t ht => ?_
    simp only [List.mem_cons, List.not_mem_nil, or_false] at ht h
    rcases ht with rfl | rfl | rfl | rfl | rfl | rfl | rfl | rfl | rfl | rfl | rfl | rfl <;>
      exact ⟨by simp, fun d hd hi => by simp at hd hi; subst hd; exact h (by simp [hi])⟩
  have h2 : floatSuffix () (c :: i) = (.err false (c :: i) none, ()) := by
    refine tags_head fun t ht => ?_
    simp only [List.mem_cons, List.not_mem_nil, or_false] at ht h
    rcases ht with rfl | rfl <;>
      exact ⟨by simp, fun d hd hi => by simp at hd hi; subst hd; exact h (by simp [hi])⟩
  unfold numTail
  rw [alt_err h1, alt_err h2]

theorem frac_read {fr i : Str} (h : fr = [] ∧ i.head? ≠ some '.' ∨ (∃ b, fr = '.' :: b ∧ Digits decDigit b) ∧ DigitsEnd 10 i) :
    ∃ o, PT.opt (do let _ ← char '.'; separatedDigits 10 true : P Str) () (fr ++ i) = (.ok i o, ()) := by
  rcases h with ⟨rfl, h⟩ | ⟨⟨b, rfl, hb⟩, h⟩
  · exact ⟨none, opt_err (bind_err (char_err h))⟩
  · exact ⟨some b, opt_ok ((bind_ok (char_ok (r := b ++ i))).trans
      (digits_all decDigit_eq (us := []) (start := true) (by simp) (fun _ => rfl) hb h))⟩

theorem numTail_exp {fr us d ty rest : Str} {e : Char} {sg : Str} (hfr : fr = [] ∨ ∃ b, fr = '.' :: b ∧ Digits decDigit b)
    (he : e ∈ c!"eE") (hsg : sg ∈ [[], c!"+", c!"-"]) (hus : ∀ c ∈ us, c = '_') (hd : Digits decDigit d)
    (hty : ty ∈ [] :: floatTypes) (hr : NoIdent rest) :
    numTail () (fr ++ e :: (sg ++ (us ++ (d ++ (ty ++ rest))))) = (.ok rest (fr ++ e :: (sg ++ (us ++ (d ++ ty)))), ()) := by
  have he' : e = 'e' ∨ e = 'E' := by simpa using he
  obtain ⟨o1, h1⟩ := frac_read (fr := fr) (i := e :: (sg ++ (us ++ (d ++ (ty ++ rest))))) (by
    rcases hfr with h | h
    · refine .inl ⟨h, ?_⟩
      rcases he' with rfl | rfl <;> simp
    · refine .inr ⟨h, ?_⟩
      rcases he' with rfl | rfl <;> simp [DigitsEnd, isDigitR])
  have h2 : (oneOf c!"eE" : P Char) () (e :: (sg ++ (us ++ (d ++ (ty ++ rest))))) = (.ok (sg ++ (us ++ (d ++ (ty ++ rest)))) e, ()) := by
    rcases he' with rfl | rfl <;> rfl
  have h3 : ∃ o, (PT.opt (oneOf c!"+-") : P (Option Char)) () (sg ++ (us ++ (d ++ (ty ++ rest)))) =
      (.ok (us ++ (d ++ (ty ++ rest))) o, ()) := by
    simp only [List.mem_cons, List.not_mem_nil, or_false] at hsg
    rcases hsg with rfl | rfl | rfl
    · refine ⟨none, opt_err (j := us ++ (d ++ (ty ++ rest))) (m := none) ?_⟩
      have : ∃ c t, us ++ (d ++ (ty ++ rest)) = c :: t ∧ c ∉ c!"+-" := by
        cases us with
        | nil =>
          obtain ⟨⟨c, t, rfl, hc⟩, _⟩ := hd
          refine ⟨c, t ++ (ty ++ rest), rfl, ?_⟩
          simp only [List.mem_cons, List.not_mem_nil, or_false]
          rintro (rfl | rfl) <;> exact absurd hc (by decide)
        | cons c t =>
          have := hus c (by simp)
          subst this
          exact ⟨'_', _, rfl, by decide⟩
      obtain ⟨c, t, hct, hc⟩ := this
      rw [hct]
      simp at hc
      simp [oneOf, satisfy, hc]
    · exact ⟨some '+', rfl⟩
    · exact ⟨some '-', rfl⟩
  obtain ⟨o3, h3⟩ := h3
  have hne : DigitsEnd 10 (ty ++ rest) := by
    simp only [floatTypes, List.mem_cons, List.not_mem_nil, or_false] at hty
    rcases hty with rfl | rfl | rfl
    · exact digitsEnd_ident isDigitR_ident hr
    · rfl
    · rfl
  have h4 := digits_all decDigit_eq (start := false) hus (by simp) hd hne
  obtain ⟨o5, h5⟩ := floatType_opt hty hr
  have hhd : ∃ c t, fr ++ e :: (sg ++ (us ++ (d ++ (ty ++ rest)))) = c :: t ∧ c ∉ c!"iuf" := by
    rcases hfr with rfl | ⟨b, rfl, _⟩
    · exact ⟨e, _, rfl, by rcases he' with rfl | rfl <;> decide⟩
    · exact ⟨'.', _, rfl, by decide⟩
  obtain ⟨c, t, hct, hc⟩ := hhd
  rw [hct, numTail_skip hc, ← hct]
  refine alt_ok ?_
  rw [show fr ++ e :: (sg ++ (us ++ (d ++ (ty ++ rest)))) = (fr ++ e :: (sg ++ (us ++ (d ++ ty)))) ++ rest by simp]
  refine recognize_ok (a := o5) ?_
  rw [show (fr ++ e :: (sg ++ (us ++ (d ++ ty)))) ++ rest = fr ++ e :: (sg ++ (us ++ (d ++ (ty ++ rest)))) by simp]
  rw [bind_ok h1, bind_ok h2, bind_ok h3, bind_ok h4, h5]

theorem numTail_point {b ty rest : Str} (hb : Digits decDigit b) (hty : ty ∈ [] :: floatTypes) (hr : NoIdent rest) :
    numTail () ('.' :: (b ++ (ty ++ rest))) = (.ok rest ('.' :: (b ++ ty)), ()) := by
  have hne : DigitsEnd 10 (ty ++ rest) := by
    simp only [floatTypes, List.mem_cons, List.not_mem_nil, or_false] at hty
    rcases hty with rfl | rfl | rfl
    · exact digitsEnd_ident isDigitR_ident hr
    · rfl
    · rfl
  have hnoE : (oneOf c!"eE" : P Char) () (ty ++ rest) = (.err false (ty ++ rest) none, ()) := by
    simp only [floatTypes, List.mem_cons, List.not_mem_nil, or_false] at hty
    rcases hty with rfl | rfl | rfl
    · exact noIdent_oneOf hr
    · rfl
    · rfl
  have hdig := digits_all decDigit_eq (us := []) (start := true) (by simp) (fun _ => rfl) hb hne
  obtain ⟨o5, h5⟩ := floatType_opt hty hr
  rw [numTail_skip (by decide)]
  have hdot : (do let _ ← char '.'; separatedDigits 10 true : P Str) () ('.' :: (b ++ (ty ++ rest))) = (.ok (ty ++ rest) b, ()) :=
    (bind_ok char_ok).trans hdig
  rw [alt_err (recognize_err ((bind_ok (opt_ok hdot)).trans (bind_err hnoE)))]
  rw [show '.' :: (b ++ (ty ++ rest)) = ('.' :: (b ++ ty)) ++ rest by simp]
  refine recognize_ok (a := o5) ?_
  rw [show ('.' :: (b ++ ty)) ++ rest = '.' :: (b ++ (ty ++ rest)) by simp]
  exact (bind_ok char_ok).trans ((bind_ok hdig).trans h5)

/-- Numbers are read up to their end. -/
theorem number_read {s rest : Str} (h : Number s) (hr : NoIdent rest) (hd : ¬ DotDigit rest) :
    numLit () (s ++ rest) = (.ok rest s, ()) := by
  cases h with
  | @whole a ty ha hty =>
    rw [List.cons_append, List.mem_cons] at hty
    rcases hty with rfl | hty
    · obtain ⟨j, m, hs⟩ := numTail_stop hr hd
      exact numLit_dec ha (tailStart_end hr) (opt_err hs)
    · simp only [intTypes, floatTypes, List.cons_append, List.nil_append, List.mem_cons, List.not_mem_nil, or_false] at hty
      rcases hty with rfl | rfl | rfl | rfl | rfl | rfl | rfl | rfl | rfl | rfl | rfl | rfl | rfl | rfl <;>
        exact numLit_dec ha (tailStart_cons (by decide) (by decide)) (o := some _) rfl
  | @frac a b ty ha hb hty =>
    refine numLit_dec ha (tailStart_cons (by decide) (by decide)) (opt_ok (a := '.' :: (b ++ ty)) ?_)
    rw [show ('.' :: (b ++ ty)) ++ rest = '.' :: (b ++ (ty ++ rest)) by simp]
    exact numTail_point hb hty hr
  | @exp a fr us d ty e sg ha hfr he hsg hus hd' hty =>
    have he' : e = 'e' ∨ e = 'E' := by simpa using he
    refine numLit_dec ha ?_ (opt_ok (a := fr ++ e :: (sg ++ (us ++ (d ++ ty)))) ?_)
    · rcases hfr with rfl | ⟨b, rfl, _⟩
      · rcases he' with rfl | rfl <;> exact tailStart_cons (by decide) (by decide)
      · exact tailStart_cons (by decide) (by decide)
    · rw [show (fr ++ e :: (sg ++ (us ++ (d ++ ty)))) ++ rest = fr ++ e :: (sg ++ (us ++ (d ++ (ty ++ rest)))) by simp]
      exact numTail_exp hfr he hsg hus hd' hty hr
  | @based us d ty l hl hus hd' hty =>
    have hne : ∀ radix, (∀ c, isDigitR radix c = baseDigit l c) → DigitsEnd radix (ty ++ rest) := by
      intro radix hrad
      have hbi : baseDigit l 'i' = false ∧ baseDigit l 'u' = false := by
        simp only [List.mem_cons, List.not_mem_nil, or_false] at hl
        rcases hl with rfl | rfl | rfl <;> decide
      simp only [intTypes, List.mem_cons, List.not_mem_nil, or_false] at hty
      rcases hty with rfl | hty
      · exact digitsEnd_ident isDigitR_ident hr
      · rcases hty with rfl | rfl | rfl | rfl | rfl | rfl | rfl | rfl | rfl | rfl | rfl | rfl <;>
          simp [DigitsEnd, hrad, hbi]
    have hdig := fun (radix : Nat) (hrad : ∀ c, isDigitR radix c = baseDigit l c) =>
      digits_all hrad (start := false) hus (by simp) hd' (hne radix hrad)
    obtain ⟨o, ho⟩ := intType_opt hty hr
    unfold numLit
    refine recognize_ok (a := '0' :: l :: (us ++ (d ++ ty))) ?_
    rw [bind_ok (opt_err (char_err (by simp)))]
    refine alt_ok (recognize_ok (a := o) ?_)
    rw [show '0' :: l :: (us ++ (d ++ ty)) ++ rest = '0' :: l :: (us ++ (d ++ (ty ++ rest))) by simp]
    refine (bind_ok char_ok).trans ?_
    have hb := digit_based hl
    have hrec : ∀ radix, (∀ c, isDigitR radix c = baseDigit l c) →
        (PT.recognize (do let _ ← char l; separatedDigits radix false) : P Str) () (l :: (us ++ (d ++ (ty ++ rest)))) =
          (.ok (ty ++ rest) (l :: (us ++ d)), ()) := by
      intro radix hrad
      rw [show l :: (us ++ (d ++ (ty ++ rest))) = (l :: (us ++ d)) ++ (ty ++ rest) by simp]
      refine recognize_ok (a := us ++ d) ?_
      rw [show (l :: (us ++ d)) ++ (ty ++ rest) = l :: (us ++ (d ++ (ty ++ rest))) by simp]
      exact (bind_ok char_ok).trans (hdig radix hrad)
    have halt : (PT.alt (recognize do let _ ← char 'b'; separatedDigits 2 false) <|
        PT.alt (recognize do let _ ← char 'o'; separatedDigits 8 false)
          (recognize do let _ ← char 'x'; separatedDigits 16 false) : P Str) () (l :: (us ++ (d ++ (ty ++ rest)))) =
        (.ok (ty ++ rest) (l :: (us ++ d)), ()) := by
      have hno : ∀ (k : Char) (radix : Nat), k ≠ l →
          ∃ j m, (PT.recognize (do let _ ← char k; separatedDigits radix false) : P Str) () (l :: (us ++ (d ++ (ty ++ rest)))) =
            (.err false j m, ()) :=
        fun k radix hk => ⟨_, _, recognize_err (bind_err (char_err (by simpa using fun h => hk h.symm)))⟩
      simp only [List.mem_cons, List.not_mem_nil, or_false] at hl
      rcases hl with rfl | rfl | rfl
      · exact alt_ok (hrec 2 hb)
      · obtain ⟨j, m, h1⟩ := hno 'b' 2 (by decide)
        rw [alt_err h1]
        exact alt_ok (hrec 8 hb)
      · obtain ⟨j, m, h1⟩ := hno 'b' 2 (by decide)
        obtain ⟨j', m', h2⟩ := hno 'o' 8 (by decide)
        rw [alt_err h1, alt_err h2]
        exact hrec 16 hb
    exact (bind_ok halt).trans ho

theorem number_start' {s : Str} (h : Number s) : ∃ c t, s = c :: t ∧ isDigitR 10 c = true := by
  have hd : ∀ {a b : Str}, Digits decDigit a → ∃ c t, a ++ b = c :: t ∧ isDigitR 10 c = true := by
    rintro a b ⟨⟨c, t, rfl, hc⟩, _⟩
    exact ⟨c, t ++ b, rfl, by rw [decDigit_eq, hc]⟩
  cases h with
  | whole ha _ => exact hd ha
  | frac ha _ _ => exact hd ha
  | exp ha _ _ _ _ _ _ => exact hd ha
  | based => exact ⟨'0', _, rfl, by decide⟩

theorem recognize_inv {p : P α} {i r t : Str} (h : PT.recognize p () i = (.ok r t, ())) : ∃ a, p () i = (.ok r a, ()) := by
  unfold PT.recognize PT.consumed PT.map PT.bind at h
  dsimp only at h
  cases hp : p () i with
  | mk x u =>
    rw [hp] at h
    cases x with
    | ok r' a =>
      simp only [PT.pure, Prod.mk.injEq, PRes.ok.injEq] at h
      exact ⟨a, by rw [h.1.1]⟩
    | err c j m => simp at h
    | stuck => simp at h

/-- The sign belongs to the number. -/
theorem numLit_minus {s rest : Str} (h : Number s) (hr : NoIdent rest) (hd : ¬ DotDigit rest) :
    numLit () ('-' :: s ++ rest) = (.ok rest ('-' :: s), ()) := by
  have h1 := number_read h hr hd
  obtain ⟨c, t, rfl, hc⟩ := number_start' h
  unfold numLit at h1 ⊢
  obtain ⟨b, hb⟩ := recognize_inv h1
  rw [bind_ok (opt_err (char_err (by simpa using (digit_facts hc).2.2.2)))] at hb
  exact recognize_ok (a := b) ((bind_ok (opt_ok char_ok)).trans hb)

theorem number_dec {s : Str} (h : Dec s) : Number s := by
  obtain ⟨h1, h2⟩ := h
  have hd : Digits decDigit s := by
    refine ⟨?_, fun c hc => .inr ?_⟩
    · cases s with
      | nil => simp at h1
      | cons c t => exact ⟨c, t, rfl, by rw [← decDigit_eq]; exact List.all_eq_true.1 h2 c (by simp)⟩
    · rw [← decDigit_eq]; exact List.all_eq_true.1 h2 c hc
  simpa using Number.whole (ty := []) hd (by simp)

theorem number_digits {s : Str} (h : isDigits s = true) : Number s := number_dec (dec_of_isDigits h)

theorem item_num {s : Str} (h : Number s) : Item env s (.numLit s) 12 false 3 true := by
  have hs : StartAtom s := by
    obtain ⟨c, t, rfl, hc⟩ := number_start' h
    exact ⟨c, t, rfl, by simp [atomChar, hc]⟩
  refine item_suf (by omega) hs (suf_of_single ?_) 12 (by omega)
  intro n rest hf hnm hn
  obtain ⟨n, rfl⟩ : ∃ m, n = m + 1 := ⟨n - 1, by omega⟩
  rw [atPos_12]
  unfold singleBody
  exact alt_ok (map_ok (number_read h (follow_noIdent hf) (hnm rfl)))

/-! ### Strings and characters -/

theorem scan_body {s rest : Str} (h : StrBody s) : escapedScan '"' (s ++ '"' :: rest) = some (s, '"' :: rest) := by
  induction h with
  | nil => rfl
  | char c h1 h2 _ ih =>
    rw [List.cons_append, escapedScan.eq_def]
    split <;> simp_all
  | escape c _ ih => simp [escapedScan, ih]

theorem strLit_ok {s rest : Str} (h : StrBody s) : strLit () ('"' :: (s ++ '"' :: rest)) = (.ok rest s, ()) := by
  unfold strLit
  rw [bind_ok char_ok]
  by_cases hs : s = []
  · subst hs
    have : escapedBody '"' () ([] ++ '"' :: rest) = (.err false ([] ++ '"' :: rest) none, ()) := by
      unfold escapedBody
      rw [scan_body h]
      rfl
    rw [bind_ok (opt_err this), List.nil_append, bind_ok char_ok]
    rfl
  · have : escapedBody '"' () (s ++ '"' :: rest) = (.ok ('"' :: rest) s, ()) := by
      unfold escapedBody
      rw [scan_body h]
      simp [hs]
    rw [bind_ok (opt_ok this), bind_ok char_ok]
    rfl

theorem item_str {s : Str} (h : StrBody s) : Item env ('"' :: (s ++ ['"'])) (.strLit s) 12 false 3 nm := by
  refine item_suf (by omega) ⟨_, _, rfl, by simp [atomChar]⟩ (suf_of_single ?_) 12 (by omega)
  intro n rest hf hnm hn
  obtain ⟨n, rfl⟩ : ∃ m, n = m + 1 := ⟨n - 1, by omega⟩
  rw [atPos_12]
  unfold singleBody
  rw [show '"' :: (s ++ ['"']) ++ rest = '"' :: (s ++ '"' :: rest) by simp]
  obtain ⟨j, m, h1⟩ := numLit_err (i := '"' :: (s ++ '"' :: rest)) (by
    intro x hx; simp at hx; subst hx; decide)
  rw [alt_err (map_err h1)]
  exact alt_ok (map_ok (strLit_ok h))

/-- Plain characters are passed over. -/
theorem scan_plain {rest : Str} : ∀ s : Str, (∀ c ∈ s, c ≠ '\'' ∧ c ≠ '\\') →
    escapedScan '\'' (s ++ '\'' :: rest) = some (s, '\'' :: rest)
  | [], _ => rfl
  | c :: s, h => by
    have ih := scan_plain (rest := rest) s fun d hd => h d (by simp [hd])
    have hc := h c (by simp)
    rw [List.cons_append, escapedScan.eq_def]
    split
    · simp_all
    · simp_all
    · simp_all
    · rename_i heq
      injection heq with e1 e2
      subst e1 e2
      rw [if_neg hc.1, ih]
      rfl

theorem hexVal_eq {c : Char} (h : hexaDigit c = true) : hexVal c = hexaVal c := by
  unfold hexVal hexaVal
  by_cases h1 : ('0' ≤ c && c ≤ '9') = true
  · rw [if_pos h1, if_pos (show decDigit c = true from h1)]; rfl
  · rw [if_neg h1, if_neg (show ¬ decDigit c = true from h1)]
    simp only [hexaDigit, decDigit] at h
    have hle : ∀ a b : Char, a ≤ b ↔ a.toNat ≤ b.toNat := fun a b => Iff.rfl
    simp only [Bool.or_eq_true, Bool.and_eq_true, decide_eq_true_eq, hle, show '0'.toNat = 48 from rfl, show '9'.toNat = 57 from rfl,
      show 'a'.toNat = 97 from rfl, show 'f'.toNat = 102 from rfl, show 'A'.toNat = 65 from rfl, show 'F'.toNat = 70 from rfl] at h h1 ⊢
    split <;> omega

theorem hexNat_eq {s : Str} (h : s.all hexaDigit = true) : hexNat s = hexaNat s := by
  have key : ∀ (s : Str) (n : Nat), s.all hexaDigit = true →
      s.foldl (fun n c => n * 16 + hexVal c) n = s.foldl (fun n c => 16 * n + hexaVal c) n := by
    intro s
    induction s with
    | nil => intros; rfl
    | cons c s ih =>
      intro n h
      simp only [List.all_cons, Bool.and_eq_true] at h
      rw [List.foldl_cons, List.foldl_cons, hexVal_eq h.1, Nat.mul_comm, ih _ h.2]
  exact key s 0 h

theorem charLit_ok {s rest : Str} (h : ChrBody s) : charLit () ('\'' :: (s ++ '\'' :: rest)) = (.ok rest s, ()) := by
  unfold charLit
  rw [pos_bind, bind_ok char_ok]
  cases h with
  | char c h1 h2 =>
    have : escapedBody '\'' () ([c] ++ '\'' :: rest) = (.ok ('\'' :: rest) [c], ()) := by
      unfold escapedBody
      have : escapedScan '\'' ([c] ++ '\'' :: rest) = some ([c], '\'' :: rest) := by
        have hq : escapedScan '\'' ('\'' :: rest) = some ([], '\'' :: rest) := rfl
        rw [List.cons_append, List.nil_append, escapedScan.eq_def]
        split
        · simp_all
        · simp_all
        · simp_all
        · rename_i heq
          injection heq with e1 e2
          subst e1 e2
          rw [if_neg h1, hq]
          rfl
      rw [this]
      rfl
    rw [bind_ok (opt_ok this), bind_ok char_ok]
    rfl
  | escape c hc =>
    have : escapedBody '\'' () (['\\', c] ++ '\'' :: rest) = (.ok ('\'' :: rest) ['\\', c], ()) := by
      unfold escapedBody
      simp [escapedScan]
    rw [bind_ok (opt_ok this), bind_ok char_ok]
    simp only [List.mem_cons, List.not_mem_nil, or_false] at hc
    rcases hc with rfl | rfl | rfl | rfl | rfl | rfl | rfl <;> rfl
  | ascii a b ha hb hv =>
    have hq : ∀ c, hexaDigit c = true → c ≠ '\'' ∧ c ≠ '\\' := by
      intro c hc
      constructor <;> (rintro rfl; exact absurd hc (by decide))
    have : escapedBody '\'' () (['\\', 'x', a, b] ++ '\'' :: rest) = (.ok ('\'' :: rest) ['\\', 'x', a, b], ()) := by
      unfold escapedBody
      rw [show ['\\', 'x', a, b] ++ '\'' :: rest = '\\' :: 'x' :: ([a, b] ++ '\'' :: rest) from rfl, escapedScan,
        scan_plain [a, b] (by simp [hq a ha, hq b hb])]
      rfl
    rw [bind_ok (opt_ok this), bind_ok char_ok]
    dsimp only
    have hk : (charKind () ['\\', 'x', a, b]).1 = .ok [] (.asciiEscape [a, b]) := by
      rw [← hexa_eq] at ha hb
      unfold charKind
      simp [takeWhileMN, PT.alt, PT.map, oneOf, satisfy, char, ha, hb, bind, PT.bind, pure, PT.pure]
    rw [hk]
    dsimp only
    rw [if_neg (by rw [hexNat_eq (by simp [ha, hb])]; omega)]
    rfl
  | unicode s h1 h2 h3 hv =>
    have hq : ∀ c, hexaDigit c = true → c ≠ '\'' ∧ c ≠ '\\' := by
      intro c hc
      constructor <;> (rintro rfl; exact absurd hc (by decide))
    have : escapedBody '\'' () ('\\' :: 'u' :: '{' :: (s ++ ['}']) ++ '\'' :: rest) =
        (.ok ('\'' :: rest) ('\\' :: 'u' :: '{' :: (s ++ ['}'])), ()) := by
      unfold escapedBody
      rw [show '\\' :: 'u' :: '{' :: (s ++ ['}']) ++ '\'' :: rest = '\\' :: 'u' :: ('{' :: (s ++ ['}']) ++ '\'' :: rest) from rfl,
        escapedScan, scan_plain ('{' :: (s ++ ['}'])) (by
          intro c hc
          simp only [List.mem_cons, List.mem_append, List.not_mem_nil, or_false] at hc
          rcases hc with rfl | hc | rfl
          · decide
          · exact hq c (List.all_eq_true.1 h3 c hc)
          · decide)]
      rfl
    rw [bind_ok (opt_ok this), bind_ok char_ok]
    dsimp only
    have hk : (charKind () ('\\' :: 'u' :: '{' :: (s ++ ['}']))).1 = .ok [] (.unicodeEscape s) := by
      have htw : (s ++ ['}']).takeWhile (isDigitR 16) = s := by
        rw [show isDigitR 16 = hexaDigit from funext hexa_eq, List.takeWhile_append_of_pos (List.all_eq_true.1 h3)]
        simp [show hexaDigit '}' = false from by decide]
      have hlen : ¬ s.length < 1 := by
        cases s with
        | nil => simp at h1
        | cons c s => simp
      unfold charKind
      simp [takeWhileMN, PT.alt, PT.map, oneOf, satisfy, char, tag, bind, PT.bind, pure, PT.pure, htw, List.take_of_length_le h2, h1,
        List.isPrefixOf]
    rw [hk]
    dsimp only
    rw [if_neg (by rw [hexNat_eq h3]; omega)]
    rfl

theorem item_chr {s : Str} (h : ChrBody s) : Item env ('\'' :: (s ++ ['\''])) (.charLit s) 12 false 3 nm := by
  refine item_suf (by omega) ⟨_, _, rfl, by simp [atomChar]⟩ (suf_of_single ?_) 12 (by omega)
  intro n rest hf hnm hn
  obtain ⟨n, rfl⟩ : ∃ m, n = m + 1 := ⟨n - 1, by omega⟩
  rw [atPos_12]
  unfold singleBody
  rw [show '\'' :: (s ++ ['\'']) ++ rest = '\'' :: (s ++ '\'' :: rest) by simp]
  obtain ⟨j, m, h1⟩ := numLit_err (i := '\'' :: (s ++ '\'' :: rest)) (by
    intro x hx; simp at hx; subst hx; decide)
  rw [alt_err (map_err h1), alt_err (map_err (strLit_err (by simp)))]
  exact alt_ok (map_ok (charLit_ok h))

/-! ### Names and paths -/

theorem pathOrIdent_ident {n rest : Str} (hn : IsIdent n) (hr : NoIdent rest)
    (hc : (rest.dropWhile isWsp).head? ≠ some ':') :
    pathOrIdent env () (n ++ rest) = (.ok rest (if n.head?.all env.isLower then .ident n else .path [n]), ()) := by
  have hid := hn
  obtain ⟨_, hh, _⟩ := hid
  have hnw : NoWs (n ++ rest) := noWs_ident hn
  have hne : ¬ c!"::" <+: n ++ rest := by
    cases n with
    | nil => exact absurd rfl hn.1
    | cons a n =>
      simp at hh
      have := identStart_facts hh
      rw [List.cons_append, prefix_cons_iff]
      exact fun h => this.2.2.2.2.2.2.1 h.1.symm
  unfold pathOrIdent
  have h1 : ws (PT.opt (tag c!"::")) () (n ++ rest) = (.ok (n ++ rest) none, ()) := by
    have := ws_ok (p := (PT.opt (tag c!"::") : P (Option Str))) (s := ()) (i := n ++ rest) (r := n ++ rest) (a := none) (s' := ()) (by
      rw [noWs_drop hnw]; exact opt_err (tag_err hne))
    rwa [noWs_drop hnw] at this
  rw [bind_ok h1, bind_ok (identifier_ok hn hr)]
  have h2 : PT.opt (many1 (ws (tag c!"::") >>= fun _ => identifier)) () rest = (.ok rest none, ()) := by
    refine opt_err (j := rest.dropWhile isWsp) (m := none) ?_
    refine bind_err (bind_err (ws_err (tag_err ?_)))
    intro hp
    obtain ⟨z, hz⟩ := hp
    rw [← hz] at hc
    simp at hc
  rw [bind_ok h2]
  cases hl : n.head?.all env.isLower <;> simp [pure, PT.pure]

theorem ident_start {n : Str} (h : IsIdent n) : ∃ c n', n = c :: n' ∧ identStart c = true := by
  obtain ⟨ha, hb, _⟩ := h
  cases n with
  | nil => exact absurd rfl ha
  | cons c n => exact ⟨c, n, rfl, by simpa using hb⟩

theorem ident_atom {n : Str} (h : IsIdent n) : StartAtom n := by
  obtain ⟨c, n', rfl, hc⟩ := ident_start h
  exact ⟨c, n', rfl, .inl hc⟩

/-- What the parser for names and paths reads. -/
theorem item_pathVarBool {t : Str} {T : Expr} (hs : StartAtom t)
    (hc : ∀ c, t.head? = some c → isDigitR 10 c = false ∧ c ≠ '-' ∧ c ≠ '"' ∧ c ≠ '\'')
    (h : ∀ rest, Follow 12 false rest → pathVarBool env () (t ++ rest) = (.ok rest T, ())) :
    Item env t T 12 false 3 nm := by
  refine item_suf (by omega) hs (suf_of_single ?_) 12 (by omega)
  intro k rest hf hnm hk
  obtain ⟨k, rfl⟩ : ∃ m, k = m + 1 := ⟨k - 1, by omega⟩
  have hp := h rest hf
  obtain ⟨c, n', rfl, _⟩ := hs
  rw [List.cons_append, single_front (hc c rfl)]
  exact alt_ok hp

theorem name_front {n r : Str} (h : IsIdent n) : ∀ c, (n ++ r).head? = some c →
    isDigitR 10 c = false ∧ c ≠ '-' ∧ c ≠ '"' ∧ c ≠ '\'' := by
  obtain ⟨c, n', rfl, hc⟩ := ident_start h
  intro d hd
  simp at hd
  subst hd
  exact ident_front hc

theorem item_var {n : Str} (h : VarOk env n) : Item env n (.var n) 12 false 3 nm := by
  obtain ⟨h1, h2, h3, h4⟩ := h
  refine item_pathVarBool (ident_atom h1) (by simpa using name_front (r := []) h1) fun rest hf => ?_
  unfold pathVarBool
  rw [bind_ok (pathOrIdent_ident h1 (follow_noIdent hf) (fun hc => (follow_head hf _ hc).1 rfl)), if_pos h2]
  show (if n = c!"true" ∨ n = c!"false" then (pure (.boolLit n) : P Expr) else pure (.var n)) () rest = _
  rw [if_neg (by simp [h3, h4])]
  rfl

theorem item_bool (b : Bool) (h1 : env.isLower 't' = true) (h2 : env.isLower 'f' = true) :
    Item env (boolText b) (.boolLit (boolText b)) 12 false 3 nm := by
  have hi : IsIdent (boolText b) := by
    unfold IsIdent
    cases b <;> simp [boolText] <;> decide
  have hl : (boolText b).head?.all env.isLower = true := by cases b <;> simp [boolText, h1, h2]
  refine item_pathVarBool (ident_atom hi) (by simpa using name_front (r := []) hi) fun rest hf => ?_
  unfold pathVarBool
  rw [bind_ok (pathOrIdent_ident hi (follow_noIdent hf) (fun hc => (follow_head hf _ hc).1 rfl)), if_pos hl]
  show (if boolText b = c!"true" ∨ boolText b = c!"false" then (pure (.boolLit (boolText b)) : P Expr) else pure (.var _)) () rest = _
  rw [if_pos (by cases b <;> simp [boolText])]
  rfl

theorem Spec.Gaps.Ok.sub {g : Gaps} (h : g.Ok) (i : Nat) : (g.sub i).Ok := fun p k => h (i :: p) k

theorem Spec.Gaps.Ok.gap {g : Gaps} (h : g.Ok) (k : Nat) : Blank (g.gap k) := h [] k

theorem blank_nil : Blank [] := fun _ h => by simp at h

theorem blank_sp : Blank c!" " := fun c h => by simp at h; subst h; exact isWsp_iff.1 rfl

theorem segText_cons (g : Gaps) (s : Str) (p : List Str) (r : Str) :
    segText g (s :: p) ++ r = g.gap 0 ++ ':' :: ':' :: (g.gap 2 ++ (s ++ (segText (g.sub 0) p ++ r))) := by
  simp [segText]

theorem seg_noIdent {g : Gaps} (hg : g.Ok) {rest : Str} (hr : NoIdent rest) (p : List Str) : NoIdent (segText g p ++ rest) := by
  cases p with
  | nil => exact hr
  | cons x p => rw [segText_cons]; exact gap_noIdent (hg.gap 0) (by intro c hc; simp at hc; subst hc; rfl)

theorem segment_ok {a b s r : Str} (ha : Blank a) (hb : Blank b) (hs : IsIdent s) (hr : NoIdent r) :
    (ws (tag c!"::") >>= fun _ => identifier : P Str) () (a ++ ':' :: ':' :: (b ++ (s ++ r))) = (.ok r s, ()) := by
  have hw := ws_ok (p := (tag c!"::" : P Str)) (s := ()) (i := a ++ ':' :: ':' :: (b ++ (s ++ r))) (r := b ++ (s ++ r)) (a := c!"::") (s' := ()) (by
    rw [gap_drop ha (noWs_cons (by decide))]; exact tag_ok (t := c!"::"))
  rw [gap_drop hb (noWs_ident hs)] at hw
  rw [bind_ok hw]
  exact identifier_ok hs hr

theorem segments_stop {rest : Str} (hc : (rest.dropWhile isWsp).head? ≠ some ':') :
    (ws (tag c!"::") >>= fun _ => identifier : P Str) () rest = (.err false (rest.dropWhile isWsp) none, ()) := by
  refine bind_err (ws_err (tag_err ?_))
  rintro ⟨z, hz⟩
  rw [← hz] at hc
  simp at hc

theorem segments_ok {rest : Str} (hr : NoIdent rest) (hc : (rest.dropWhile isWsp).head? ≠ some ':') :
    ∀ (p : List Str) (g : Gaps), g.Ok → (∀ s ∈ p, IsIdent s) →
    PT.many0 (ws (tag c!"::") >>= fun _ => identifier) () (segText g p ++ rest) = (.ok rest p, ())
  | [], _, _, _ => many0_stop (segments_stop hc)
  | s :: p, g, hg, h => by
    rw [segText_cons]
    refine many0_cons (segment_ok (hg.gap 0) (hg.gap 2) (h s (by simp)) (seg_noIdent (hg.sub 0) hr p)) ?_
      (segments_ok hr hc p _ (hg.sub 0) fun x hx => h x (by simp [hx]))
    simp
    omega

theorem segments_opt {g : Gaps} (hg : g.Ok) {rest : Str} (hr : NoIdent rest) (hc : (rest.dropWhile isWsp).head? ≠ some ':') {p : List Str}
    (h : ∀ s ∈ p, IsIdent s) : ∃ o : Option (List Str), o.getD [] = p ∧
    PT.opt (many1 (ws (tag c!"::") >>= fun _ => identifier)) () (segText g p ++ rest) = (.ok rest o, ()) := by
  cases p with
  | nil => exact ⟨none, rfl, opt_err (bind_err (segments_stop hc))⟩
  | cons s p =>
    refine ⟨some (s :: p), rfl, opt_ok ?_⟩
    rw [segText_cons]
    exact (bind_ok (segment_ok (hg.gap 0) (hg.gap 2) (h s (by simp)) (seg_noIdent (hg.sub 0) hr p))).trans
      (map_ok (segments_ok hr hc p _ (hg.sub 0) fun x hx => h x (by simp [hx])))

theorem pathOrIdent_path {g : Gaps} (hg : g.Ok) {root : Bool} {p : List Str} (h : ∀ s ∈ p, IsIdent s)
    (hp : 2 ≤ p.length ∨ p.length = 1 ∧ (root = true ∨ ∀ s c, p.head? = some s → s.head? = some c → env.isLower c = false))
    {rest : Str} (hni : NoIdent rest) (hcol : (rest.dropWhile isWsp).head? ≠ some ':') :
    pathOrIdent env () (pathWrite g root p ++ rest) = (.ok rest (.path (if root then [] :: p else p)), ()) := by
  obtain ⟨s, p, rfl⟩ : ∃ s p', p = s :: p' := by
    cases p with
    | nil => simp at hp
    | cons s p => exact ⟨s, p, rfl⟩
  have hs := h s (by simp)
  have hp' : ∀ x ∈ p, IsIdent x := fun x hx => h x (by simp [hx])
  have hg0 := hg.sub 0
  obtain ⟨o, ho, hsegs⟩ := segments_opt hg0 hni hcol hp'
  unfold pathOrIdent pathWrite
  have hid := identifier_ok hs (seg_noIdent hg0 hni p)
  cases root with
  | true =>
    have h1 : ws (PT.opt (tag c!"::")) () (c!"::" ++ (g.gap 0 ++ (s ++ (segText (g.sub 0) p ++ rest)))) =
        (.ok (s ++ (segText (g.sub 0) p ++ rest)) (some c!"::"), ()) := by
      have := ws_ok (p := (PT.opt (tag c!"::") : P (Option Str))) (s := ()) (i := ':' :: ':' :: (g.gap 0 ++ (s ++ (segText (g.sub 0) p ++ rest))))
        (r := g.gap 0 ++ (s ++ (segText (g.sub 0) p ++ rest))) (a := some c!"::") (s' := ()) (by
        rw [noWs_drop (noWs_cons (by decide))]; exact opt_ok (tag_ok (t := c!"::")))
      rwa [gap_drop (hg.gap 0) (noWs_ident hs)] at this
    rw [show (if true = true then c!"::" ++ g.gap 0 else []) ++ (s ++ segText (g.sub 0) p) ++ rest =
      c!"::" ++ (g.gap 0 ++ (s ++ (segText (g.sub 0) p ++ rest))) by simp]
    rw [bind_ok h1, bind_ok hid, bind_ok hsegs, ho]
    rfl
  | false =>
    have hne : ¬ c!"::" <+: s ++ (segText (g.sub 0) p ++ rest) := by
      obtain ⟨c, s', rfl, hc⟩ := ident_start hs
      have := identStart_facts hc
      rw [List.cons_append, prefix_cons_iff]
      exact fun h => this.2.2.2.2.2.2.1 h.1.symm
    have h1 : ws (PT.opt (tag c!"::")) () (s ++ (segText (g.sub 0) p ++ rest)) = (.ok (s ++ (segText (g.sub 0) p ++ rest)) none, ()) := by
      have := ws_ok (p := (PT.opt (tag c!"::") : P (Option Str))) (s := ()) (i := s ++ (segText (g.sub 0) p ++ rest))
        (r := s ++ (segText (g.sub 0) p ++ rest)) (a := none) (s' := ()) (by
        rw [noWs_drop (noWs_ident hs)]; exact opt_err (tag_err hne))
      rwa [noWs_drop (noWs_ident hs)] at this
    rw [show (if false = true then c!"::" ++ g.gap 0 else []) ++ (s ++ segText (g.sub 0) p) ++ rest = s ++ (segText (g.sub 0) p ++ rest) by simp]
    rw [bind_ok h1, bind_ok hid, bind_ok hsegs, ho]
    cases p with
    | nil =>
      simp at hp
      have hl : s.head?.all env.isLower = false := by
        obtain ⟨c, s', rfl, _⟩ := ident_start hs
        simpa using hp _ c rfl rfl
      simp [pure, PT.pure, hl]
    | cons x p => rfl

theorem item_path {g : Gaps} (hg : g.Ok) {root : Bool} {p : List Str} (h : ∀ s ∈ p, IsIdent s)
    (hp : 2 ≤ p.length ∨ p.length = 1 ∧ (root = true ∨ ∀ s c, p.head? = some s → s.head? = some c → env.isLower c = false)) :
    Item env (pathWrite g root p) (.path (if root then [] :: p else p)) 12 false 3 nm := by
  have hp0 := hp
  have h0 := h
  obtain ⟨s, p, rfl⟩ : ∃ s p', p = s :: p' := by
    cases p with
    | nil => simp at hp
    | cons s p => exact ⟨s, p, rfl⟩
  have hs := h s (by simp)
  refine item_pathVarBool ?_ ?_ fun rest hf => ?_
  · unfold pathWrite
    cases root
    · exact (ident_atom hs).app _
    · exact ⟨_, _, rfl, by simp [atomChar]⟩
  · unfold pathWrite
    cases root
    · exact name_front (n := s) (r := segText (g.sub 0) p) hs
    · intro c hc; simp at hc; subst hc; decide
  · unfold pathVarBool
    rw [bind_ok (pathOrIdent_path hg h0 hp0 (follow_noIdent hf) fun hc => (follow_head hf _ hc).1 rfl)]
    rfl

end

end Askama
