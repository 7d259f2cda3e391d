import Verif.Lemmas.RustLex
import Verif.Lemmas.Run

/-!
# Literals and names of templates are literals and names of Rust

`Yields p Q`: what `p` takes off the input and its value are related by `Q`.
-/

namespace Askama

open PT Spec

section
variable {σ α β : Type}

/-- The text a parser consumes and its value. -/
def Yields (p : PT σ α) (Q : Str → α → Prop) : Prop :=
  ∀ s i r a s', p s i = (.ok r a, s') → ∃ t, i = t ++ r ∧ Q t a

theorem Yields.mono {p : PT σ α} {Q R : Str → α → Prop} (h : Yields p Q) (hq : ∀ t a, Q t a → R t a) : Yields p R :=
  fun s i r a s' hp => by
    obtain ⟨t, h1, h2⟩ := h s i r a s' hp
    exact ⟨t, h1, hq _ _ h2⟩

theorem Yields.bind {p : PT σ α} {f : α → PT σ β} {Q : Str → α → Prop} {R : Str → β → Prop} (h : Yields p Q)
    (hf : ∀ t a, Q t a → Yields (f a) fun u b => R (t ++ u) b) : Yields (p >>= f) R := by
  intro s i r b s' hp
  simp only [Bind.bind, PT.bind] at hp
  split at hp
  · rename_i r1 a s1 h1
    obtain ⟨t, rfl, h2⟩ := h _ _ _ _ _ h1
    obtain ⟨u, rfl, h3⟩ := hf t a h2 _ _ _ _ _ hp
    exact ⟨t ++ u, by simp, h3⟩
  · simp at hp
  · simp at hp

theorem Yields.pure {Q : Str → α → Prop} {a : α} (h : Q [] a) : Yields (pure a : PT σ α) Q := by
  intro s i r b s' hp
  simp only [Pure.pure, PT.pure, Prod.mk.injEq, PRes.ok.injEq] at hp
  obtain ⟨⟨rfl, rfl⟩, _⟩ := hp
  exact ⟨[], rfl, h⟩

theorem Yields.map {p : PT σ α} {f : α → β} {Q : Str → α → Prop} {R : Str → β → Prop} (h : Yields p Q)
    (hf : ∀ t a, Q t a → R t (f a)) : Yields (p.map f) R :=
  Yields.bind h fun t a hq => Yields.pure (by simpa using hf t a hq)

theorem Yields.alt {p q : PT σ α} {Q : Str → α → Prop} (hp : Yields p Q) (hq : Yields q Q) : Yields (p.alt q) Q := by
  intro s i r a s' h
  simp only [PT.alt] at h
  split at h
  · exact hq _ _ _ _ _ h
  · exact hp _ _ _ _ _ h

theorem Yields.opt {p : PT σ α} {Q : Str → α → Prop} (hp : Yields p Q) :
    Yields p.opt fun t a => (a = none ∧ t = []) ∨ ∃ b, a = some b ∧ Q t b := by
  intro s i r a s' h
  simp only [PT.opt] at h
  split at h
  · rename_i h1
    simp only [Prod.mk.injEq, PRes.ok.injEq] at h
    obtain ⟨⟨rfl, rfl⟩, _⟩ := h
    obtain ⟨t, h2, h3⟩ := hp _ _ _ _ _ h1
    exact ⟨t, h2, .inr ⟨_, rfl, h3⟩⟩
  · simp only [Prod.mk.injEq, PRes.ok.injEq] at h
    obtain ⟨⟨rfl, rfl⟩, _⟩ := h
    exact ⟨[], rfl, .inl ⟨rfl, rfl⟩⟩
  · simp at h
  · simp at h

theorem Yields.recognize {p : PT σ α} {Q : Str → Prop} (hp : Yields p fun t _ => Q t) :
    Yields p.recognize fun t a => t = a ∧ Q t := by
  intro s i r a s' h
  simp only [PT.recognize, PT.map, PT.bind, PT.consumed] at h
  split at h
  · rename_i h1
    split at h1
    · rename_i h2
      simp only [Prod.mk.injEq, PRes.ok.injEq] at h1
      obtain ⟨⟨rfl, rfl⟩, rfl⟩ := h1
      simp only [PT.pure, Prod.mk.injEq, PRes.ok.injEq] at h
      obtain ⟨⟨rfl, rfl⟩, rfl⟩ := h
      obtain ⟨t, rfl, h3⟩ := hp _ _ _ _ _ h2
      exact ⟨t, rfl, by simp, h3⟩
    · simp at h1
    · simp at h1
  · simp at h
  · simp at h

theorem yields_satisfy {f : Char → Bool} : Yields (satisfy f : PT σ Char) fun t c => t = [c] ∧ f c = true := by
  intro s i r a s' h
  unfold satisfy at h
  split at h
  · split at h
    · rename_i hc
      simp only [Prod.mk.injEq, PRes.ok.injEq] at h
      obtain ⟨⟨rfl, rfl⟩, _⟩ := h
      exact ⟨[_], rfl, rfl, hc⟩
    · simp at h
  · simp at h

theorem yields_char {c : Char} : Yields (char c : PT σ Char) fun t _ => t = [c] :=
  yields_satisfy.mono fun t a h => by
    obtain ⟨rfl, h⟩ := h
    rw [beq_iff_eq.mp h]

theorem yields_tag {w : Str} : Yields (tag w : PT σ Str) fun t a => t = w ∧ a = w := by
  intro s i r a s' h
  simp only [PT.tag] at h
  split at h
  · rename_i hp
    simp only [Prod.mk.injEq, PRes.ok.injEq] at h
    obtain ⟨⟨rfl, rfl⟩, _⟩ := h
    obtain ⟨x, rfl⟩ := List.isPrefixOf_iff_prefix.mp hp
    exact ⟨w, by simp, rfl, rfl⟩
  · simp at h

theorem yields_error {Q : Str → α → Prop} : Yields (error : PT σ α) Q := by
  intro s i r a s' h
  simp [PT.error] at h

theorem yields_altTags : (l : List Str) → Yields (altTags l) fun t a => t = a ∧ a ∈ l
  | [] => yields_error
  | [w] => yields_tag.mono fun t a h => by simp [h.1, h.2]
  | w :: v :: l => by
    refine .alt (yields_tag.mono fun t a h => by simp [h.1, h.2]) ((yields_altTags (v :: l)).mono fun t a h => ?_)
    exact ⟨h.1, List.mem_cons_of_mem _ h.2⟩

theorem yields_many0F {p : PT σ Char} {f : Char → Bool} (hp : Yields p fun t c => t = [c] ∧ f c = true) :
    (n : Nat) → Yields (many0F p n) fun t _ => t.all f = true
  | 0 => by
    intro s i r a s' h
    simp [many0F, PT.stuck] at h
  | n + 1 => by
    intro s i r a s' h
    simp only [many0F] at h
    split at h
    · rename_i h1
      split at h
      · simp at h
      · obtain ⟨t, rfl, ht, hc⟩ := hp _ _ _ _ _ h1
        obtain ⟨u, rfl, hu⟩ := (yields_many0F hp n).map (f := fun l => _ :: l) (R := fun t _ => t.all f = true)
          (fun _ _ h => h) _ _ _ _ _ h
        exact ⟨t ++ u, by simp, by simp [ht, hc, hu]⟩
    · simp only [Prod.mk.injEq, PRes.ok.injEq] at h
      obtain ⟨⟨rfl, rfl⟩, _⟩ := h
      exact ⟨[], rfl, rfl⟩
    · simp at h
    · simp at h

theorem yields_many0 {p : PT σ Char} {f : Char → Bool} (hp : Yields p fun t c => t = [c] ∧ f c = true) :
    Yields (many0 p) fun t _ => t.all f = true :=
  fun s i r a s' h => yields_many0F hp _ s i r a s' h

theorem yields_takeWhile1 {f : Char → Bool} :
    Yields (takeWhile1 f : PT σ Str) fun t _ => t.all f = true ∧ headIs f t = true := by
  intro s i r a s' h
  simp only [PT.takeWhile1] at h
  split at h
  · simp at h
  · rename_i he
    simp only [Prod.mk.injEq, PRes.ok.injEq] at h
    obtain ⟨⟨rfl, rfl⟩, _⟩ := h
    refine ⟨i.takeWhile f, (List.takeWhile_append_dropWhile).symm, ?_, ?_⟩
    · simp [List.all_takeWhile]
    · cases i with
      | nil => simp at he
      | cons c i =>
        by_cases hc : f c = true
        · simp [hc, headIs]
        · simp [hc] at he

end

/-! ## Names -/

theorem isDec_eq (c : Char) : isDigitR 10 c = isDec c := by
  simp only [isDigitR, isDec]
  by_cases h : ('0' ≤ c && c ≤ '9') = true
  · have h2 : c.toNat ≤ 57 := by
      simp only [Bool.and_eq_true, decide_eq_true_eq] at h
      exact h.2
    have h3 : c.toNat - '0'.toNat < 10 := by
      show c.toNat - 48 < 10
      omega
    rw [h]
    simp only [h3, decide_true, Bool.and_self, Bool.true_or]
  · simp only [Bool.not_eq_true] at h
    rw [h]
    simp

theorem identStart_eq (c : Char) : identStart c = wordStart c := rfl

theorem identCont_eq (c : Char) : identCont c = wordCont c := by
  simp only [identCont, wordCont, wordStart, isAsciiAlpha, isDec_eq]
  grind

theorem yields_identifier : Yields identifier fun t a => t = a ∧ isName a = true := by
  refine (Yields.recognize (Q := fun t => isName t = true) ?_).mono fun t a h => ⟨h.1, by rw [← h.1]; exact h.2⟩
  refine yields_takeWhile1.bind fun t a h => yields_takeWhile1.opt.mono fun u b hu => ?_
  have h1 : headIs wordStart (t ++ u) = true := by
    cases t with
    | nil => simp [headIs] at h
    | cons c t => exact h.2
  have h2 : t.all wordCont = true := by
    simp only [List.all_eq_true] at h ⊢
    intro c hc
    rw [← identCont_eq]
    exact identStart_cont (h.1 c hc)
  have h3 : u.all wordCont = true := by
    rcases hu with ⟨_, rfl⟩ | ⟨b', _, hb⟩
    · rfl
    · simp only [List.all_eq_true] at hb ⊢
      intro c hc
      rw [← identCont_eq]
      exact hb.1 c hc
  simp [isName, h1, h2, h3]

/-! ## Numbers -/

/-- Digits and underscores. -/
def decU (c : Char) : Bool := isDec c || c == '_'

/-- Hexadecimal digits and underscores. -/
def hexU (c : Char) : Bool := isHex c || c == '_'

/-- The suffix of a number. -/
def sufOk (s : Str) : Bool := s.isEmpty || headIs (fun c => c == 'i' || c == 'u' || c == 'f') s && s.all wordCont

/-- The suffix of an integer. -/
def intSufOk (s : Str) : Bool := s.isEmpty || headIs (fun c => c == 'i' || c == 'u') s && s.all wordCont

/-- A digit, digits and underscores. -/
def digitsOk (s : Str) : Bool := headIs isDec s && s.all decU

/-- What may follow the digits of a decimal number. -/
inductive NumEnd : Str → Prop
  | suffix {sf : Str} : sufOk sf = true → NumEnd sf
  | frac {ds sf : Str} : digitsOk ds = true → sufOk sf = true → NumEnd ('.' :: (ds ++ sf))
  | exp {c : Char} {sg ds sf : Str} : c = 'e' ∨ c = 'E' → sg ∈ [[], ['+'], ['-']] → ds ≠ [] → ds.all decU = true →
      sufOk sf = true → NumEnd (c :: (sg ++ (ds ++ sf)))
  | fracExp {fs : Str} {c : Char} {sg ds sf : Str} : digitsOk fs = true → c = 'e' ∨ c = 'E' → sg ∈ [[], ['+'], ['-']] →
      ds ≠ [] → ds.all decU = true → sufOk sf = true → NumEnd ('.' :: (fs ++ c :: (sg ++ (ds ++ sf))))

/-- Numbers without a sign. -/
inductive NumBody : Str → Prop
  | hex {ds sf : Str} : ds.all hexU = true → intSufOk sf = true → ds ≠ [] → NumBody ('0' :: 'x' :: (ds ++ sf))
  | other {c : Char} {ds sf : Str} : c = 'b' ∨ c = 'o' → ds.all decU = true → intSufOk sf = true → ds ≠ [] →
      NumBody ('0' :: c :: (ds ++ sf))
  | dec {ds e : Str} : digitsOk ds = true → NumEnd e → NumBody (ds ++ e)

theorem digitR_le {r : Nat} {c : Char} (hr : r ≤ 10) (h : isDigitR r c = true) : isDec c = true := by
  rw [← isDec_eq]
  simp only [isDigitR, Bool.or_eq_true, Bool.and_eq_true, decide_eq_true_eq] at h ⊢
  rcases h with (⟨h1, h2⟩ | ⟨h1, h2⟩) | ⟨h1, h2⟩
  · exact .inl (.inl ⟨h1, by omega⟩)
  · omega
  · omega

theorem digitR_hex {c : Char} (h : isDigitR 16 c = true) : isHex c = true := by
  simp only [isDigitR, isHex, isDec, Bool.or_eq_true, Bool.and_eq_true, decide_eq_true_eq] at h ⊢
  rcases h with (⟨h1, h2⟩ | ⟨h1, h2⟩) | ⟨h1, h2⟩
  · exact .inl (.inl h1)
  · refine .inl (.inr ⟨h1.1, ?_⟩)
    show c.toNat ≤ 102
    have : c.toNat - 97 + 10 < 16 := h2
    omega
  · refine .inr ⟨h1.1, ?_⟩
    show c.toNat ≤ 70
    have : c.toNat - 65 + 10 < 16 := h2
    omega

theorem yields_digits {radix : Nat} {start : Bool} {f : Char → Bool} (hf : ∀ c, isDigitR radix c = true → f c = true)
    (hu : f '_' = true) : Yields (separatedDigits radix start) fun t a => t = a ∧ t.all f = true ∧ t ≠ [] ∧
      (start = true → headIs (isDigitR radix) t = true) := by
  have key : ∀ (p : P (List Char)), Yields p (fun t _ => t.all f = true ∧ (start = true → t = [])) →
      Yields (do
        let _ ← p
        let _ ← satisfy (isDigitR radix)
        many0 (satisfy fun c => c == '_' || isDigitR radix c)) fun t _ => t.all f = true ∧ t ≠ [] ∧
          (start = true → headIs (isDigitR radix) t = true) := by
    intro p hp
    refine hp.bind fun t a h => yields_satisfy.bind fun u b hb =>
      (yields_many0 (f := f) (yields_satisfy.mono fun t c h => ⟨h.1, ?_⟩)).mono fun v _ hv => ?_
    · simp only [Bool.or_eq_true, beq_iff_eq] at h
      rcases h.2 with rfl | h
      · exact hu
      · exact hf _ h
    · obtain ⟨rfl, hb⟩ := hb
      refine ⟨by simp [h.1, hf _ hb, hv], by simp, fun hs => ?_⟩
      rw [h.2 hs]
      exact hb
  refine Yields.recognize ?_
  cases start
  · refine key _ ((yields_many0 (f := f) (yields_satisfy.mono fun t c h => ⟨h.1, ?_⟩)).mono fun t _ h =>
      ⟨h, fun h => by cases h⟩)
    rw [beq_iff_eq.mp h.2]
    exact hu
  · exact key _ (.pure ⟨rfl, fun _ => rfl⟩)

theorem yields_dec0 : Yields (separatedDigits 10 true) fun t _ => digitsOk t = true :=
  (yields_digits (f := decU) (fun c h => by rw [isDec_eq] at h; simp [decU, h]) rfl).mono fun t _ h => by
    have h1 := h.2.2.2 rfl
    cases t with
    | nil => cases h1
    | cons c t =>
      simp only [headIs, isDec_eq] at h1
      have h2 := h.2.1
      simp only [digitsOk, headIs, h1, h2, Bool.and_self]

theorem yields_dec1 : Yields (separatedDigits 10 false) fun t _ => t ≠ [] ∧ t.all decU = true :=
  (yields_digits (f := decU) (fun c h => by rw [isDec_eq] at h; simp [decU, h]) rfl).mono fun t _ h => ⟨h.2.2.1, h.2.1⟩

theorem intSuf_sufOk {s : Str} (h : intSufOk s = true) : sufOk s = true := by
  cases s with
  | nil => rfl
  | cons c s =>
    simp only [intSufOk, sufOk, headIs, List.isEmpty_cons, Bool.false_or, Bool.and_eq_true, Bool.or_eq_true] at h ⊢
    exact ⟨.inl h.1, h.2⟩

theorem yields_intSuf : Yields integerSuffix fun t _ => intSufOk t = true :=
  (yields_altTags _).mono fun t a h => by
    rw [h.1]
    exact (by decide : ∀ s ∈ [c!"i8", c!"i16", c!"i32", c!"i64", c!"i128", c!"isize",
      c!"u8", c!"u16", c!"u32", c!"u64", c!"u128", c!"usize"], intSufOk s = true) a h.2

theorem yields_floatSuf : Yields floatSuffix fun t _ => sufOk t = true :=
  (yields_altTags _).mono fun t a h => by
    rw [h.1]
    exact (by decide : ∀ s ∈ [c!"f32", c!"f64"], sufOk s = true) a h.2

theorem Yields.optSuf {p : P Str} {f : Str → Bool} (h : Yields p fun t _ => f t = true) (h0 : f [] = true) :
    Yields p.opt fun t _ => f t = true :=
  h.opt.mono fun t a h => by
    rcases h with ⟨_, rfl⟩ | ⟨_, _, h⟩
    · exact h0
    · exact h

theorem yields_numTail : Yields numTail fun t _ => NumEnd t := by
  refine .alt (yields_intSuf.mono fun t _ h => .suffix (intSuf_sufOk h)) <|
    .alt (yields_floatSuf.mono fun t _ h => .suffix h) <| .alt ((Yields.recognize (Q := NumEnd) ?_).mono fun _ _ h => h.2)
      ((Yields.recognize (Q := NumEnd) ?_).mono fun _ _ h => h.2)
  · refine Yields.bind (Q := fun t _ => t = [] ∨ ∃ fs, t = '.' :: fs ∧ digitsOk fs = true) ?_ fun t _ ht =>
      yields_satisfy.bind fun u c hc => yields_satisfy.opt.bind fun v sg hv => yields_dec1.bind fun w _ hw =>
        (yields_floatSuf.optSuf rfl).mono fun x _ hx => ?_
    · refine (Yields.opt (Q := fun t _ => ∃ fs, t = '.' :: fs ∧ digitsOk fs = true) ?_).mono fun t _ h => ?_
      · exact yields_char.bind fun t _ h => yields_dec0.mono fun u _ hu => ⟨u, by rw [h]; rfl, hu⟩
      · rcases h with h | ⟨_, _, h⟩
        · exact .inl h.2
        · exact .inr h
    · have hv' : v ∈ [[], ['+'], ['-']] := by
        rcases hv with ⟨_, rfl⟩ | ⟨b, _, rfl, hb⟩
        · simp
        · simp at hb ⊢
          exact hb
      have hc' : c = 'e' ∨ c = 'E' := by simpa using hc.2
      rw [hc.1]
      rcases ht with rfl | ⟨fs, rfl, hfs⟩
      · have := NumEnd.exp hc' hv' hw.1 hw.2 hx
        simpa using this
      · have := NumEnd.fracExp hfs hc' hv' hw.1 hw.2 hx
        simpa using this
  · refine yields_char.bind fun t _ h => yields_dec0.bind fun u _ hu => (yields_floatSuf.optSuf rfl).mono fun x _ hx => ?_
    rw [h]
    show NumEnd ('.' :: (u ++ x))
    exact .frac hu hx

theorem yields_numLit : Yields numLit fun t a => t = a ∧ ∃ sg b, t = sg ++ b ∧ (sg = [] ∨ sg = ['-']) ∧ NumBody b := by
  refine Yields.recognize ?_
  refine Yields.bind (Q := fun t _ => t = [] ∨ t = ['-']) (yields_char.opt.mono fun t _ h => ?_) fun t _ ht =>
    Yields.mono (Q := fun t _ => NumBody t) ?_ fun u _ hu => ⟨t, u, rfl, ht, hu⟩
  · rcases h with h | ⟨_, _, h⟩
    · exact .inl h.2
    · exact .inr h
  · refine .alt ((Yields.recognize (Q := NumBody) ?_).mono fun _ _ h => h.2)
      ((Yields.recognize (Q := NumBody) ?_).mono fun _ _ h => h.2)
    · refine yields_char.bind fun t _ ht => Yields.bind (Q := fun u _ => ∃ c ds, u = c :: ds ∧ ds ≠ [] ∧
        ((c = 'b' ∨ c = 'o') ∧ ds.all decU = true ∨ c = 'x' ∧ ds.all hexU = true)) ?_ fun u _ hu =>
          (yields_intSuf.optSuf rfl).mono fun v _ hv => ?_
      · refine .alt (Yields.mono (Yields.recognize (Q := fun u => ∃ ds, u = 'b' :: ds ∧ ds ≠ [] ∧ ds.all decU = true) ?_)
          fun u _ h => ?_) <| .alt (Yields.mono (Yields.recognize (Q := fun u => ∃ ds, u = 'o' :: ds ∧ ds ≠ [] ∧
            ds.all decU = true) ?_) fun u _ h => ?_) (Yields.mono (Yields.recognize (Q := fun u => ∃ ds, u = 'x' :: ds ∧
              ds ≠ [] ∧ ds.all hexU = true) ?_) fun u _ h => ?_)
        · exact yields_char.bind fun t _ h => (yields_digits (f := decU) (fun c h => by
            simp [decU, digitR_le (by omega) h]) rfl).mono fun u _ hu => ⟨u, by rw [h]; rfl, hu.2.2.1, hu.2.1⟩
        · obtain ⟨_, ds, rfl, h1, h2⟩ := h
          exact ⟨'b', ds, rfl, h1, .inl ⟨.inl rfl, h2⟩⟩
        · exact yields_char.bind fun t _ h => (yields_digits (f := decU) (fun c h => by
            simp [decU, digitR_le (by omega) h]) rfl).mono fun u _ hu => ⟨u, by rw [h]; rfl, hu.2.2.1, hu.2.1⟩
        · obtain ⟨_, ds, rfl, h1, h2⟩ := h
          exact ⟨'o', ds, rfl, h1, .inl ⟨.inr rfl, h2⟩⟩
        · exact yields_char.bind fun t _ h => (yields_digits (f := hexU) (fun c h => by
            simp [hexU, digitR_hex h]) rfl).mono fun u _ hu => ⟨u, by rw [h]; rfl, hu.2.2.1, hu.2.1⟩
        · obtain ⟨_, ds, rfl, h1, h2⟩ := h
          exact ⟨'x', ds, rfl, h1, .inr ⟨rfl, h2⟩⟩
      · obtain ⟨c, ds, rfl, h1, ⟨h2, h3⟩ | ⟨rfl, h3⟩⟩ := hu
        · rw [ht]
          exact .other h2 h3 hv h1
        · rw [ht]
          exact .hex h3 hv h1
    · refine yields_dec0.bind fun t _ ht => yields_numTail.opt.mono fun u _ hu => .dec ht ?_
      rcases hu with ⟨_, rfl⟩ | ⟨_, _, h⟩
      · exact .suffix rfl
      · exact h

/-! ### The lexer of Rust takes all of a number -/

theorem headIs_append {p : Char → Bool} {s r : Str} (h : s ≠ []) : headIs p (s ++ r) = headIs p s := by
  cases s with
  | nil => exact absurd rfl h
  | cons c s => rfl

theorem all_mono {p q : Char → Bool} (h : ∀ c, p c = true → q c = true) {s : Str} (hs : s.all p = true) :
    s.all q = true := by
  simp only [List.all_eq_true] at hs ⊢
  exact fun c hc => h c (hs c hc)

theorem suf_cases {s : Str} (h : sufOk s = true) :
    s = [] ∨ (∃ c r, s = c :: r ∧ (c = 'i' ∨ c = 'u' ∨ c = 'f') ∧ s.all wordCont = true) := by
  cases s with
  | nil => exact .inl rfl
  | cons c r =>
    simp only [sufOk, List.isEmpty_cons, headIs, Bool.false_or, Bool.and_eq_true, Bool.or_eq_true, beq_iff_eq] at h
    exact .inr ⟨c, r, rfl, by simpa [or_assoc] using h.1, h.2⟩

theorem suf_dec {s : Str} (h : sufOk s = true) : headIs decU s = false := by
  rcases suf_cases h with rfl | ⟨c, r, rfl, rfl | rfl | rfl, _⟩ <;> rfl

theorem intSuf_hex {s : Str} (h : intSufOk s = true) : headIs hexU s = false := by
  cases s with
  | nil => rfl
  | cons c r =>
    simp only [intSufOk, List.isEmpty_cons, headIs, Bool.false_or, Bool.and_eq_true, Bool.or_eq_true, beq_iff_eq] at h
    rcases h.1 with rfl | rfl <;> rfl

theorem suf_expOpt {s : Str} (h : sufOk s = true) : lexExpOpt s = ([], s) := by
  rcases suf_cases h with rfl | ⟨c, r, rfl, rfl | rfl | rfl, _⟩ <;> rfl

theorem suf_frac {s : Str} (h : sufOk s = true) : lexFrac s = ([], s) := by
  rcases suf_cases h with rfl | ⟨c, r, rfl, rfl | rfl | rfl, _⟩ <;> rfl

/-- The last part of `lexNum`. -/
theorem suf_word {s : Str} (h : sufOk s = true) :
    (if headIs wordStart s then s.span wordCont else ([], s)) = (s, []) := by
  rcases suf_cases h with rfl | ⟨c, r, rfl, hc, ha⟩
  · rfl
  · have : headIs wordStart (c :: r) = true := by rcases hc with rfl | rfl | rfl <;> rfl
    rw [if_pos this]
    have := span_app (c :: r) [] ha rfl
    rwa [List.append_nil] at this

theorem lexNum_parts {s a b c : Str} (h1 : lexDigits s = (a, b ++ c)) (h2 : lexFrac (b ++ c) = (b, c))
    (h3 : sufOk c = true) (hs : s = a ++ (b ++ c)) : lexNum s = (s, []) := by
  simp only [lexNum, h1, h2, suf_word h3]
  rw [hs]
  simp

theorem decRun_app {s r : Str} (hs : s.all decU = true) (hr : headIs decU r = false) : decRun (s ++ r) = (s, r) :=
  span_app s r hs hr

theorem lexExp_app {sg ds sf : Str} (hg : sg ∈ [[], ['+'], ['-']]) (hne : ds ≠ []) (hd : ds.all decU = true)
    (hs : sufOk sf = true) : lexExp (sg ++ (ds ++ sf)) = (sg ++ ds, sf) := by
  have h0 := decRun_app hd (suf_dec hs)
  simp only [List.mem_cons, List.not_mem_nil, or_false] at hg
  rcases hg with rfl | rfl | rfl
  · cases ds with
    | nil => exact absurd rfl hne
    | cons c ds =>
      simp only [List.all_cons, Bool.and_eq_true] at hd
      have hc : (c == '+' || c == '-') = false := by
        cases hx : (c == '+' || c == '-') with
        | false => rfl
        | true =>
          simp only [Bool.or_eq_true, beq_iff_eq] at hx
          rcases hx with rfl | rfl <;> simp [decU, isDec] at hd
      simp only [List.nil_append, List.cons_append, lexExp, hc] at h0 ⊢
      exact h0
  · simp only [List.cons_append, List.nil_append, lexExp, h0]
    rfl
  · simp only [List.cons_append, List.nil_append, lexExp, h0]
    rfl

theorem lexExpOpt_app {c : Char} {sg ds sf : Str} (hc : c = 'e' ∨ c = 'E') (hg : sg ∈ [[], ['+'], ['-']]) (hne : ds ≠ [])
    (hd : ds.all decU = true) (hs : sufOk sf = true) :
    lexExpOpt (c :: (sg ++ (ds ++ sf))) = (c :: (sg ++ ds), sf) := by
  have : (c == 'e' || c == 'E') = true := by rcases hc with rfl | rfl <;> rfl
  simp only [lexExpOpt, this, if_true, lexExp_app hg hne hd hs]

theorem digits_ne {s : Str} (h : digitsOk s = true) : s ≠ [] := by
  rintro rfl
  cases h

theorem dec_not_word {c : Char} (h : isDec c = true) : (c == '.' || wordStart c) = false := by
  have h1 : c.toNat ≤ 57 ∧ 48 ≤ c.toNat := by
    simp only [isDec, Bool.and_eq_true, decide_eq_true_eq] at h
    exact ⟨h.2, h.1⟩
  have e : ∀ d : Char, d.toNat < 48 ∨ 57 < d.toNat → (c == d) = false := by
    intro d hd
    simp only [beq_eq_false_iff_ne]
    rintro rfl
    omega
  have e2 : ∀ d : Char, 57 < d.toNat → decide (d ≤ c) = false := by
    intro d hd
    simp only [decide_eq_false_iff_not]
    intro hx
    have : d.toNat ≤ c.toNat := hx
    omega
  have e3 : decide (128 ≤ c.toNat) = false := by simp; omega
  simp only [wordStart, e '.' (by decide), e '_' (by decide), e2 'a' (by decide), e2 'A' (by decide), e3, Bool.false_and,
    Bool.or_self]

theorem lexFrac_dot {fs r : Str} (h : digitsOk fs = true) (hr : headIs decU r = false) :
    lexFrac ('.' :: (fs ++ r)) = ('.' :: (fs ++ (lexExpOpt r).1), (lexExpOpt r).2) := by
  cases fs with
  | nil => cases h
  | cons c fs =>
    simp only [digitsOk, headIs, Bool.and_eq_true] at h
    have h1 : headIs (fun c => c == '.' || wordStart c) (c :: fs ++ r) = false := dec_not_word h.1
    have h2 : headIs isDec (c :: fs ++ r) = true := h.1
    simp only [lexFrac, h1, h2, decRun_app h.2 hr, if_true, Bool.false_eq_true, if_false]

theorem NumEnd.frac_lex {e : Str} (h : NumEnd e) :
    ∃ b c, e = b ++ c ∧ lexFrac e = (b, c) ∧ sufOk c = true ∧ headIs decU e = false := by
  cases h with
  | suffix h => exact ⟨[], e, rfl, suf_frac h, h, suf_dec h⟩
  | @frac ds sf h1 h2 =>
    refine ⟨'.' :: ds, sf, rfl, ?_, h2, rfl⟩
    rw [lexFrac_dot h1 (suf_dec h2), suf_expOpt h2, List.append_nil]
  | @exp c sg ds sf hc hg hne hd hs =>
    refine ⟨c :: (sg ++ ds), sf, by simp, ?_, hs, ?_⟩
    · rw [← lexExpOpt_app hc hg hne hd hs]
      rcases hc with rfl | rfl <;> rfl
    · rcases hc with rfl | rfl <;> rfl
  | @fracExp fs c sg ds sf hf hc hg hne hd hs =>
    refine ⟨'.' :: (fs ++ c :: (sg ++ ds)), sf, by simp, ?_, hs, rfl⟩
    rw [lexFrac_dot hf, lexExpOpt_app hc hg hne hd hs]
    rcases hc with rfl | rfl <;> rfl

theorem NumEnd.radix {e : Str} (h : NumEnd e) : headIs (fun c => c == 'x' || (c == 'b' || c == 'o')) e = false := by
  cases h with
  | suffix h => rcases suf_cases h with rfl | ⟨c, r, rfl, rfl | rfl | rfl, _⟩ <;> rfl
  | frac _ _ => rfl
  | exp hc => rcases hc with rfl | rfl <;> rfl
  | fracExp => rfl

theorem lexDigits_dec {ds e : Str} (h : digitsOk ds = true) (he : NumEnd e) : lexDigits (ds ++ e) = (ds, e) := by
  obtain ⟨_, _, _, _, _, h1⟩ := he.frac_lex
  simp only [digitsOk, Bool.and_eq_true] at h
  have h0 := decRun_app h.2 h1
  rw [← h0]
  unfold lexDigits
  split
  · rename_i c r hx
    have hc : (c == 'x' || (c == 'b' || c == 'o')) = false := by
      cases ds with
      | nil => cases h.1
      | cons d ds =>
        simp only [List.cons_append, List.cons.injEq] at hx
        cases ds with
        | cons d2 ds =>
          simp only [List.cons_append, List.cons.injEq] at hx
          simp only [List.all_cons, Bool.and_eq_true] at h
          have h2 := h.2.2.1
          rw [hx.2.1] at h2
          cases hy : (c == 'x' || (c == 'b' || c == 'o')) with
          | false => rfl
          | true =>
            simp only [Bool.or_eq_true, beq_iff_eq] at hy
            rcases hy with rfl | rfl | rfl <;> cases h2
        | nil =>
          simp only [List.nil_append] at hx
          have := he.radix
          rw [hx.2] at this
          exact this
    simp only [Bool.or_eq_false_iff] at hc
    simp only [hc.1, hc.2.1, hc.2.2, Bool.false_eq_true, if_false, Bool.or_self, hx]
  · rfl

/-- No dot in the last part. -/
theorem last_not_dot {a b : Str} (hb : b ≠ []) (h : b.all (fun c => c != '.') = true) :
    ((a ++ b).getLast? == some '.') = false := by
  have h0 : (a ++ b).getLast? = b.getLast? := by
    rw [List.getLast?_append]
    cases hx : b.getLast? with
    | none => exact absurd (List.getLast?_eq_none_iff.mp hx) hb
    | some c => rfl
  rw [h0]
  simp only [beq_eq_false_iff_ne, ne_eq]
  intro hl
  have := List.mem_of_getLast? hl
  simp only [List.all_eq_true] at h
  simpa using h _ this

theorem decU_dot {c : Char} (h : decU c = true) : (c != '.') = true := by
  cases hx : (c != '.') with
  | true => rfl
  | false =>
    simp only [bne_eq_false_iff_eq] at hx
    subst hx
    cases h

theorem hexU_dot {c : Char} (h : hexU c = true) : (c != '.') = true := by
  cases hx : (c != '.') with
  | true => rfl
  | false =>
    simp only [bne_eq_false_iff_eq] at hx
    subst hx
    cases h

theorem wordCont_dot {c : Char} (h : wordCont c = true) : (c != '.') = true := by
  cases hx : (c != '.') with
  | true => rfl
  | false =>
    simp only [bne_eq_false_iff_eq] at hx
    subst hx
    cases h

theorem suf_dot {s : Str} (h : sufOk s = true) : s.all (fun c => c != '.') = true := by
  rcases suf_cases h with rfl | ⟨c, r, rfl, _, ha⟩
  · rfl
  · exact all_mono (fun c => wordCont_dot) ha

theorem digits_dot {s : Str} (h : digitsOk s = true) : s.all (fun c => c != '.') = true := by
  simp only [digitsOk, Bool.and_eq_true] at h
  exact all_mono (fun c => decU_dot) h.2

theorem NumEnd.last {ds e : Str} (hd : digitsOk ds = true) (h : NumEnd e) : ((ds ++ e).getLast? == some '.') = false := by
  cases h with
  | suffix h =>
    have := last_not_dot (a := []) (b := ds ++ e) (by simp [digits_ne hd])
      (by rw [List.all_append, digits_dot hd, suf_dot h]; rfl)
    simpa using this
  | @frac fs sf h1 h2 =>
    have := last_not_dot (a := ds ++ ['.']) (b := fs ++ sf) (by simp [digits_ne h1])
      (by rw [List.all_append, digits_dot h1, suf_dot h2]; rfl)
    simpa using this
  | @exp c sg xs sf hc hg hne hx hs =>
    have := last_not_dot (a := ds ++ c :: sg) (b := xs ++ sf) (by simp [hne])
      (by rw [List.all_append, all_mono (fun c => decU_dot) hx, suf_dot hs]; rfl)
    simpa using this
  | @fracExp fs c sg xs sf hf hc hg hne hx hs =>
    have := last_not_dot (a := ds ++ '.' :: (fs ++ c :: sg)) (b := xs ++ sf) (by simp [hne])
      (by rw [List.all_append, all_mono (fun c => decU_dot) hx, suf_dot hs]; rfl)
    simpa using this

/-- The numbers of templates are numbers of Rust. -/
theorem NumBody.isNumber {s : Str} (h : NumBody s) : isNumber s = true := by
  cases h with
  | @hex ds sf hd hs hne =>
    have h1 : lexDigits ('0' :: 'x' :: (ds ++ sf)) = ('0' :: 'x' :: ds, [] ++ sf) := by
      have := span_app ds sf hd (intSuf_hex hs)
      have h2 : hexRun (ds ++ sf) = (ds, sf) := this
      simp only [lexDigits, h2]
      rfl
    have h2 := lexNum_parts h1 (suf_frac (intSuf_sufOk hs)) (intSuf_sufOk hs) (by simp)
    have h3 := last_not_dot (a := ['0', 'x']) (b := ds ++ sf) (by simp [hne])
      (by rw [List.all_append, all_mono (fun c => hexU_dot) hd, suf_dot (intSuf_sufOk hs)]; rfl)
    simp only [List.cons_append, List.nil_append] at h3
    simp only [Spec.isNumber, h2, h3]
    rfl
  | @other c ds sf hc hd hs hne =>
    have h1 : lexDigits ('0' :: c :: (ds ++ sf)) = ('0' :: c :: ds, [] ++ sf) := by
      have h2 := decRun_app hd (suf_dec (intSuf_sufOk hs))
      rcases hc with rfl | rfl
      · simp only [lexDigits, h2]
        rfl
      · simp only [lexDigits, h2]
        rfl
    have h2 := lexNum_parts h1 (suf_frac (intSuf_sufOk hs)) (intSuf_sufOk hs) (by simp)
    have h3 := last_not_dot (a := ['0', c]) (b := ds ++ sf) (by simp [hne])
      (by rw [List.all_append, all_mono (fun c => decU_dot) hd, suf_dot (intSuf_sufOk hs)]; rfl)
    simp only [List.cons_append, List.nil_append] at h3
    simp only [Spec.isNumber, h2, h3]
    rfl
  | @dec ds e hd he =>
    obtain ⟨b, c, rfl, h1, h2, _⟩ := he.frac_lex
    have h3 := lexNum_parts (lexDigits_dec hd he) h1 h2 rfl
    have h4 := he.last hd
    have h5 : headIs isDec (ds ++ (b ++ c)) = true := by
      rw [headIs_append (digits_ne hd)]
      simp only [digitsOk, Bool.and_eq_true] at hd
      exact hd.1
    simp only [Spec.isNumber, h3, h4, h5, decide_true]
    rfl

/-! ## String and character literals -/

theorem scan_escaped {q : Char} (hq : q ≠ '\\') (i : Str) : ∀ t r, escapedScan q i = some (t, r) →
    i = t ++ r ∧ scanQuoted q (t ++ [q]) = some (t, []) := by
  fun_induction escapedScan q i with
  | case1 =>
    intro t r h
    cases h
    refine ⟨rfl, ?_⟩
    unfold scanQuoted
    split <;> simp_all
  | case2 c r ih =>
    intro t r' h
    cases h1 : escapedScan q r with
    | none => rw [h1] at h; cases h
    | some p =>
      rw [h1] at h
      cases h
      obtain ⟨h2, h3⟩ := ih p.1 p.2 h1
      refine ⟨by rw [h2]; rfl, ?_⟩
      simp only [List.cons_append, scanQuoted, h3, Option.map_some]
  | case3 =>
    intro t r h
    cases h
  | case4 r h1 h2 =>
    intro t r' h
    cases h
    refine ⟨rfl, ?_⟩
    unfold scanQuoted
    split <;> simp_all
  | case5 c r h1 h2 hc ih =>
    intro t r' h
    cases h3 : escapedScan q r with
    | none => rw [h3] at h; cases h
    | some p =>
      rw [h3] at h
      cases h
      obtain ⟨h4, h5⟩ := ih p.1 p.2 h3
      refine ⟨by rw [h4]; rfl, ?_⟩
      have hb : c ≠ '\\' := by
        rintro rfl
        cases r with
        | nil => exact h2 rfl rfl
        | cons d r => exact h1 _ _ rfl rfl
      simp only [List.cons_append]
      unfold scanQuoted
      split
      · simp_all
      · simp_all
      · simp_all
      · rename_i heq
        simp only [List.cons.injEq] at heq
        obtain ⟨rfl, rfl⟩ := heq
        rw [if_neg hc, h5]
        rfl

theorem yields_escaped {q : Char} (hq : q ≠ '\\') :
    Yields (escapedBody q) fun t a => t = a ∧ scanQuoted q (a ++ [q]) = some (a, []) := by
  intro s i r a s' h
  simp only [escapedBody] at h
  split at h
  · simp at h
  · rename_i t r' h1
    obtain ⟨h2, h3⟩ := scan_escaped hq i _ _ h1
    split at h
    · simp at h
    · simp only [Prod.mk.injEq, PRes.ok.injEq] at h
      obtain ⟨⟨rfl, rfl⟩, _⟩ := h
      exact ⟨t, h2, rfl, h3⟩

theorem yields_strLit : Yields strLit fun _ a => isStrBody a = true := by
  refine yields_char.bind fun _ _ _ => (yields_escaped (by decide)).opt.bind fun _ a ha => yields_char.bind fun _ _ _ =>
    .pure ?_
  rcases ha with ⟨rfl, _⟩ | ⟨b, rfl, _, hb⟩
  · rfl
  · simpa [isStrBody] using hb

theorem yields_pos {σ : Type} : Yields (pos : PT σ Str) fun t _ => t = [] := by
  intro s i r a s' h
  simp only [pos, Prod.mk.injEq, PRes.ok.injEq] at h
  obtain ⟨⟨rfl, rfl⟩, _⟩ := h
  exact ⟨[], rfl, rfl⟩

theorem yields_failAt {σ α : Type} {j : Str} {m : Option Msg} {Q : Str → α → Prop} : Yields (failAt j m : PT σ α) Q := by
  intro s i r a s' h
  simp [failAt] at h

/-- A text of one character, or one with a backslash first. -/
theorem charKind_head {s r : Str} {k : CharKind} (h : (charKind () s).1 = .ok r k) :
    (∃ c, s = [c]) ∨ ∃ c t, s = '\\' :: c :: t := by
  simp only [charKind] at h
  split at h
  · rename_i hl
    exact .inl (List.length_eq_one_iff.mp hl)
  · rename_i hl
    right
    cases s with
    | nil => simp [Bind.bind, PT.bind, PT.char, satisfy] at h
    | cons c s =>
      by_cases hc : c = '\\'
      · subst hc
        cases s with
        | nil => simp at hl
        | cons d s => exact ⟨d, s, rfl⟩
      · simp [Bind.bind, PT.bind, PT.char, satisfy, hc] at h

theorem chr_body {s r : Str} {k : CharKind} (hs : scanQuoted '\'' (s ++ ['\'']) = some (s, []))
    (h : (charKind () s).1 = .ok r k) : isChrBody s = true := by
  rcases charKind_head h with ⟨c, rfl⟩ | ⟨c, t, rfl⟩
  · have h1 : c ≠ '\\' := by
      rintro rfl
      simp [scanQuoted] at hs
    have h2 : c ≠ '\'' := by
      rintro rfl
      simp [scanQuoted] at hs
    have : lexChr [c, '\''] = some ([.chr [c]], []) := by
      unfold lexChr
      split
      · rename_i heq
        simp only [List.cons.injEq] at heq
        exact absurd heq.1 h1
      · rename_i heq
        simp only [List.cons.injEq, true_and] at heq
        obtain ⟨rfl, rfl⟩ := heq
        rw [if_neg]
        simp [h2, headIs]
      · rename_i h4
        exact absurd rfl (h4 _ _)
    simp [isChrBody, this]
  · simp only [List.cons_append, scanQuoted] at hs
    cases h1 : scanQuoted '\'' (t ++ ['\'']) with
    | none => rw [h1] at hs; cases hs
    | some p =>
      rw [h1] at hs
      simp only [Option.map_some, Option.some.injEq, Prod.mk.injEq, List.cons.injEq, true_and] at hs
      have : lexChr ('\\' :: c :: (t ++ ['\''])) = some ([.chr ('\\' :: c :: t)], []) := by
        simp only [lexChr, h1, hs.1, hs.2]
        rfl
      simp [isChrBody, this]

theorem yields_charLit : Yields charLit fun _ a => isChrBody a = true := by
  refine yields_pos.bind fun _ _ _ => yields_char.bind fun _ _ _ => (yields_escaped (by decide)).opt.bind fun _ a ha =>
    yields_char.bind fun _ _ _ => ?_
  rcases ha with ⟨rfl, _⟩ | ⟨b, rfl, _, hb⟩
  · exact yields_failAt
  · dsimp only
    split
    · rename_i hk
      exact .pure (chr_body hb hk)
    · rename_i hk
      exact .pure (chr_body hb hk)
    · rename_i hk
      split
      · exact yields_failAt
      · exact .pure (chr_body hb hk)
    · rename_i hk
      split
      · exact yields_failAt
      · exact .pure (chr_body hb hk)
    · exact yields_failAt

end Askama
