import Verif.Lemmas.ParseShape
import Verif.Spec.Grammar

/-!
# Accepted expressions are expressions of the grammar
-/

namespace Askama

open PT Spec

section
variable {σ α β γ : Type}

/-- What `p` takes off an input of this kind and its value. -/
def Takes (P : Str → Prop) (p : PT σ α) (Q : Str → α → Prop) : Prop :=
  ∀ s i r a s', P i → p s i = (.ok r a, s') → ∃ t, i = t ++ r ∧ Q t a

theorem Takes.yields {p : PT σ α} {Q : Str → α → Prop} (h : Takes AnyIn p Q) : Yields p Q :=
  fun s i r a s' hp => h s i r a s' trivial hp

theorem Yields.takes {P : Str → Prop} {p : PT σ α} {Q : Str → α → Prop} (h : Yields p Q) : Takes P p Q :=
  fun s i r a s' _ hp => h s i r a s' hp

theorem isBlank_of_isWsp {c : Char} (h : isWsp c = true) : isBlank c := by
  simpa [isWsp, isBlank, or_assoc] using h

theorem blank_app {w v : Str} (hw : Blank w) (hv : Blank v) : Blank (w ++ v) := fun c hc => by
  rcases List.mem_append.mp hc with h | h
  · exact hw c h
  · exact hv c h

theorem yields_skipWs : Yields (skipWs : PT σ Unit) fun t _ => Blank t := by
  intro s i r a s' h
  simp only [skipWs, PT.map, PT.bind, PT.takeWhile, PT.pure, Prod.mk.injEq, PRes.ok.injEq] at h
  obtain ⟨⟨rfl, _⟩, _⟩ := h
  refine ⟨i.takeWhile isWsp, (List.takeWhile_append_dropWhile).symm, fun c hc => isBlank_of_isWsp ?_⟩
  exact List.all_eq_true.mp (List.all_takeWhile) c hc

theorem Yields.ws {p : PT σ α} {Q : Str → α → Prop} (h : Yields p Q) :
    Yields (ws p) fun t a => ∃ w u v, t = w ++ (u ++ v) ∧ Blank w ∧ Blank v ∧ Q u a :=
  yields_skipWs.bind fun w _ hw => h.bind fun u a hu => yields_skipWs.bind fun v _ hv =>
    .pure ⟨w, u, v, by simp, hw, hv, hu⟩

theorem Yields.cut {p : PT σ α} {Q : Str → α → Prop} (h : Yields p Q) : Yields p.cut Q := by
  intro s i r a s' hp
  simp only [PT.cut] at hp
  split at hp
  · simp at hp
  · exact h _ _ _ _ _ hp

theorem Yields.lift {p : PT Unit α} {Q : Str → α → Prop} (h : Yields p Q) : Yields (PT.lift p : PT σ α) Q := by
  intro s i r a s' hp
  simp only [PT.lift, Prod.mk.injEq] at hp
  exact h () i r a _ (Prod.ext hp.1 rfl)

theorem yields_not {p : PT σ α} : Yields p.not fun t _ => t = [] := by
  intro s i r a s' h
  simp only [PT.not] at h
  split at h <;> simp at h
  obtain ⟨rfl, _⟩ := h
  exact ⟨[], rfl, rfl⟩

theorem yields_peek {p : PT σ α} : Yields p.peek fun t _ => t = [] := by
  intro s i r a s' h
  simp only [PT.peek] at h
  split at h
  · simp only [Prod.mk.injEq, PRes.ok.injEq] at h
    exact ⟨[], by simp [h.1.1], rfl⟩
  · rename_i hno
    cases hp : p s i with
    | mk x y =>
      rw [hp] at h
      obtain ⟨rfl, rfl⟩ := Prod.mk.inj h
      exact absurd hp (hno _ _ _)

theorem yields_get : Yields (PT.get : PT σ σ) fun t _ => t = [] := by
  intro s i r a s' h
  simp only [PT.get, Prod.mk.injEq, PRes.ok.injEq] at h
  obtain ⟨⟨rfl, rfl⟩, _⟩ := h
  exact ⟨[], rfl, rfl⟩

theorem yields_modify {f : σ → σ} : Yields (PT.modify f : PT σ Unit) fun t _ => t = [] := by
  intro s i r a s' h
  simp only [PT.modify, Prod.mk.injEq, PRes.ok.injEq] at h
  obtain ⟨⟨rfl, _⟩, _⟩ := h
  exact ⟨[], rfl, rfl⟩

theorem yields_many0FL {p : PT σ α} {Q : Str → α → Prop} {L : Str → List α → Prop} (hp : Yields p Q) (h0 : L [] [])
    (h1 : ∀ t a u l, Q t a → L u l → L (t ++ u) (a :: l)) : (n : Nat) → Yields (many0F p n) L
  | 0 => by
    intro s i r a s' h
    simp [many0F, PT.stuck] at h
  | n + 1 => by
    intro s i r a s' h
    simp only [many0F] at h
    split at h
    · rename_i h2
      split at h
      · simp at h
      · obtain ⟨t, rfl, ht⟩ := hp _ _ _ _ _ h2
        obtain ⟨u, rfl, hu⟩ := (yields_many0FL hp h0 h1 n).map (R := fun u l => L (t ++ u) l)
          (fun u l h => h1 _ _ u l ht h) _ _ _ _ _ h
        exact ⟨t ++ u, by simp, hu⟩
    · simp only [Prod.mk.injEq, PRes.ok.injEq] at h
      obtain ⟨⟨rfl, rfl⟩, _⟩ := h
      exact ⟨[], rfl, h0⟩
    · simp at h
    · simp at h

theorem Yields.many0L {p : PT σ α} {Q : Str → α → Prop} {L : Str → List α → Prop} (hp : Yields p Q) (h0 : L [] [])
    (h1 : ∀ t a u l, Q t a → L u l → L (t ++ u) (a :: l)) : Yields (many0 p) L :=
  fun s i r a s' h => yields_many0FL hp h0 h1 _ s i r a s' h

theorem Yields.many1L {p : PT σ α} {Q : Str → α → Prop} {L : Str → List α → Prop} (hp : Yields p Q) (h0 : L [] [])
    (h1 : ∀ t a u l, Q t a → L u l → L (t ++ u) (a :: l)) : Yields (many1 p) fun t l => L t l ∧ l ≠ [] :=
  hp.bind fun _ _ ht => (hp.many0L h0 h1).map fun _ _ hu => ⟨h1 _ _ _ _ ht hu, by simp⟩

theorem yields_sepRestF {sep : PT σ γ} {p : PT σ α} {S : Str → γ → Prop} {Q : Str → α → Prop} {L : Str → List α → Prop}
    (hsep : Yields sep S) (hp : Yields p Q) (h0 : L [] [])
    (h1 : ∀ x c t a u l, S x c → Q t a → L u l → L (x ++ (t ++ u)) (a :: l)) : (n : Nat) → Yields (sepRestF sep p n) L
  | 0 => by
    intro s i r a s' h
    simp [sepRestF, PT.stuck] at h
  | n + 1 => by
    intro s i r a s' h
    simp only [sepRestF] at h
    split at h
    · simp only [Prod.mk.injEq, PRes.ok.injEq] at h
      obtain ⟨⟨rfl, rfl⟩, _⟩ := h
      exact ⟨[], rfl, h0⟩
    · simp at h
    · simp at h
    · rename_i hs1
      split at h
      · simp at h
      · split at h
        · simp only [Prod.mk.injEq, PRes.ok.injEq] at h
          obtain ⟨⟨rfl, rfl⟩, _⟩ := h
          exact ⟨[], rfl, h0⟩
        · simp at h
        · simp at h
        · rename_i hp1
          obtain ⟨x, rfl, hx⟩ := hsep _ _ _ _ _ hs1
          obtain ⟨t, rfl, ht⟩ := hp _ _ _ _ _ hp1
          obtain ⟨u, rfl, hu⟩ := (yields_sepRestF hsep hp h0 h1 n).map (R := fun u l => L (x ++ (t ++ u)) l)
            (fun u l h => h1 _ _ _ _ u l hx ht h) _ _ _ _ _ h
          exact ⟨x ++ (t ++ u), by simp, hu⟩

theorem Yields.sepList0 {sep : PT σ γ} {p : PT σ α} {S : Str → γ → Prop} {Q : Str → α → Prop}
    {L L' : Str → List α → Prop} (hsep : Yields sep S) (hp : Yields p Q) (h0 : L [] [])
    (h1 : ∀ x c t a u l, S x c → Q t a → L u l → L (x ++ (t ++ u)) (a :: l)) (h0' : L' [] [])
    (h1' : ∀ t a u l, Q t a → L u l → L' (t ++ u) (a :: l)) : Yields (sepList0 sep p) L' := by
  intro s i r a s' h
  simp only [PT.sepList0] at h
  split at h
  · simp only [Prod.mk.injEq, PRes.ok.injEq] at h
    obtain ⟨⟨rfl, rfl⟩, _⟩ := h
    exact ⟨[], rfl, h0'⟩
  · simp at h
  · simp at h
  · rename_i hp1
    obtain ⟨t, rfl, ht⟩ := hp _ _ _ _ _ hp1
    have hr : Yields (sepRest sep p) L := fun s i r a s' h => yields_sepRestF hsep hp h0 h1 _ s i r a s' h
    obtain ⟨u, rfl, hu⟩ := hr.map (R := fun u l => L' (t ++ u) l) (fun u l h => h1' _ _ u l ht h) _ _ _ _ _ h
    exact ⟨t ++ u, by simp, hu⟩

theorem Yields.sepList1 {sep : PT σ γ} {p : PT σ α} {S : Str → γ → Prop} {Q : Str → α → Prop}
    {L L' : Str → List α → Prop} (hsep : Yields sep S) (hp : Yields p Q) (h0 : L [] [])
    (h1 : ∀ x c t a u l, S x c → Q t a → L u l → L (x ++ (t ++ u)) (a :: l))
    (h1' : ∀ t a u l, Q t a → L u l → L' (t ++ u) (a :: l)) : Yields (sepList1 sep p) L' :=
  have hr : Yields (sepRest sep p) L := fun s i r a s' h => yields_sepRestF hsep hp h0 h1 _ s i r a s' h
  hp.bind fun _ _ ht => hr.map fun _ _ hu => h1' _ _ _ _ ht hu

theorem yields_goto {j : Str} {Q : Str → β → Prop} : Yields (do goto j; error : PT σ β) Q := by
  intro s i r a s' h
  simp [Bind.bind, PT.bind, goto, PT.error] at h

end

/-! ## Names and literals -/

theorem identChar_of {c : Char} (h : identCont c = true) : identChar c := by
  simp only [identCont, isAsciiAlpha, isDec_eq, isDec, Bool.or_eq_true, Bool.and_eq_true, decide_eq_true_eq, beq_iff_eq] at h
  simp only [identChar]
  rcases h with (((h | h) | h) | h) | h
  · exact .inl h
  · exact .inr (.inl h)
  · exact .inr (.inr (.inl h))
  · exact .inr (.inr (.inr (.inl h)))
  · exact .inr (.inr (.inr (.inr h)))

theorem identStart_noDigit {c : Char} (h : identStart c = true) : ¬ ('0' ≤ c ∧ c ≤ '9') := by
  intro hd
  have h1 : 48 ≤ c.toNat := hd.1
  have h2 : c.toNat ≤ 57 := hd.2
  simp only [identStart, isAsciiAlpha, Bool.or_eq_true, Bool.and_eq_true, decide_eq_true_eq, beq_iff_eq] at h
  rcases h with ((h | h) | h) | h
  · have : 97 ≤ c.toNat := h.1
    omega
  · have : 65 ≤ c.toNat := h.1
    omega
  · subst h
    have : '_'.toNat ≤ 57 := h2
    exact absurd this (by decide)
  · omega

theorem name_of_isName {n : Str} (h : isName n = true) : Name n := by
  cases n with
  | nil => cases h
  | cons c n =>
    simp only [isName, headIs, Bool.and_eq_true] at h
    have h1 : identStart c = true := by rw [identStart_eq]; exact h.1
    refine ⟨⟨c, n, rfl, identChar_of (identStart_cont h1), identStart_noDigit h1⟩, fun d hd => identChar_of ?_⟩
    rw [identCont_eq]
    exact List.all_eq_true.mp h.2 d hd

theorem yields_name : Yields identifier fun t a => t = a ∧ Name a :=
  yields_identifier.mono fun _ _ h => ⟨h.1, name_of_isName h.2⟩

theorem yields_keyword {k : Str} : Yields (keyword k) fun t a => t = k ∧ a = k := by
  refine yields_pos.bind fun _ _ h1 => yields_identifier.bind fun t v h => ?_
  split
  · rename_i hk
    refine .pure ?_
    simp [h1, h.1, hk]
  · exact yields_goto

theorem decDigit_eq {c : Char} : isDigitR 10 c = decDigit c := isDec_eq c

theorem hexaDigit_of {c : Char} (h : isDigitR 16 c = true) : hexaDigit c = true := by
  have := digitR_hex h
  simp only [isHex, isDec, hexaDigit, decDigit] at this ⊢
  exact this

theorem oct_of {c : Char} (h : isDigitR 8 c = true) : baseDigit 'o' c = true := by
  simp only [isDigitR, Bool.or_eq_true, Bool.and_eq_true, decide_eq_true_eq] at h
  show (decide ('0' ≤ c) && decide (c ≤ '7')) = true
  simp only [Bool.and_eq_true, decide_eq_true_eq]
  rcases h with (⟨h1, h2⟩ | ⟨_, h2⟩) | ⟨_, h2⟩
  · refine ⟨h1.1, ?_⟩
    show c.toNat ≤ 55
    have : 48 ≤ c.toNat := h1.1
    have : c.toNat - 48 < 8 := h2
    omega
  · omega
  · omega

theorem binary_of {c : Char} (h : isDigitR 2 c = true) : baseDigit 'b' c = true := by
  simp only [isDigitR, Bool.or_eq_true, Bool.and_eq_true, decide_eq_true_eq] at h
  show (decide (c = '0') || decide (c = '1')) = true
  simp only [Bool.or_eq_true, decide_eq_true_eq]
  rcases h with (⟨h1, h2⟩ | ⟨_, h2⟩) | ⟨_, h2⟩
  · have h3 : 48 ≤ c.toNat := h1.1
    have h4 : c.toNat - 48 < 2 := h2
    have h5 : c.toNat = 48 ∨ c.toNat = 49 := by omega
    rcases h5 with h5 | h5
    · left; rw [← Char.ofNat_toNat c, h5]
    · right; rw [← Char.ofNat_toNat c, h5]
  · omega
  · omega

/-- Digits as the grammar has them, possibly after underscores. -/
theorem yields_sepDigits {radix : Nat} {start : Bool} {d : Char → Bool} (hf : ∀ c, isDigitR radix c = true → d c = true) :
    Yields (separatedDigits radix start) fun t _ => ∃ us ds, t = us ++ ds ∧ (∀ c ∈ us, c = '_') ∧ Digits d ds ∧
      (start = true → us = []) := by
  refine (Yields.recognize (Q := fun t => ∃ us ds, t = us ++ ds ∧ (∀ c ∈ us, c = '_') ∧ Digits d ds ∧
      (start = true → us = [])) ?_).mono fun _ _ h => h.2
  have key : ∀ (p : P (List Char)), Yields p (fun t _ => (∀ c ∈ t, c = '_') ∧ (start = true → t = [])) →
      Yields (do
        let _ ← p
        let _ ← satisfy (isDigitR radix)
        many0 (satisfy fun c => c == '_' || isDigitR radix c)) fun t _ => ∃ us ds, t = us ++ ds ∧ (∀ c ∈ us, c = '_') ∧
          Digits d ds ∧ (start = true → us = []) := by
    intro p hp
    refine hp.bind fun t a h => yields_satisfy.bind fun u b hb =>
      (yields_many0 (f := fun c => c == '_' || d c) (yields_satisfy.mono fun t c h => ⟨h.1, ?_⟩)).mono fun v _ hv => ?_
    · simp only [Bool.or_eq_true, beq_iff_eq] at h ⊢
      exact h.2.imp id (hf _)
    · obtain ⟨rfl, hb⟩ := hb
      refine ⟨t, b :: v, by simp, h.1, ⟨⟨b, v, rfl, hf _ hb⟩, fun c hc => ?_⟩, h.2⟩
      rcases List.mem_cons.mp hc with rfl | hc
      · exact .inr (hf _ hb)
      · simpa using List.all_eq_true.mp hv c hc
  cases start
  · refine key _ ((yields_many0 (f := fun c => c == '_') (yields_satisfy.mono fun t c h => h)).mono fun t _ h =>
      ⟨fun c hc => ?_, fun h => by cases h⟩)
    simpa using List.all_eq_true.mp h c hc
  · exact key _ (.pure ⟨by simp, fun _ => rfl⟩)

theorem yields_decDigits : Yields (separatedDigits 10 true) fun t _ => Digits decDigit t :=
  (yields_sepDigits (fun _ h => decDigit_eq ▸ h)).mono fun t _ h => by
    obtain ⟨us, ds, rfl, _, h2, h3⟩ := h
    rw [h3 rfl]
    exact h2

theorem yields_intType : Yields integerSuffix fun t _ => t ∈ intTypes :=
  (yields_altTags _).mono fun t a h => by rw [h.1]; exact h.2

theorem yields_floatType : Yields floatSuffix fun t _ => t ∈ floatTypes :=
  (yields_altTags _).mono fun t a h => by rw [h.1]; exact h.2

theorem Yields.optType {p : P Str} {l : List Str} (h : Yields p fun t _ => t ∈ l) : Yields p.opt fun t _ => t ∈ [] :: l :=
  h.opt.mono fun t a h => by
    rcases h with ⟨_, rfl⟩ | ⟨_, _, h⟩
    · exact List.mem_cons_self
    · exact List.mem_cons_of_mem _ h

/-- What follows the first digits of a number. -/
theorem yields_numEnd {a : Str} (ha : Digits decDigit a) : Yields numTail.opt fun t _ => Number (a ++ t) := by
  refine (Yields.opt (Q := fun t _ => Number (a ++ t)) ?_).mono fun t _ h => ?_
  rotate_left
  · rcases h with ⟨_, rfl⟩ | ⟨_, _, h⟩
    · exact .whole ha (by simp)
    · exact h
  · refine .alt (yields_intType.mono fun t _ h => .whole ha (by simp [h])) <|
      .alt (yields_floatType.mono fun t _ h => .whole ha (by simp [h])) <|
      .alt ((Yields.recognize (Q := fun t => Number (a ++ t)) ?_).mono fun _ _ h => h.2)
      ((Yields.recognize (Q := fun t => Number (a ++ t)) ?_).mono fun _ _ h => h.2)
    · refine Yields.bind (Q := fun t _ => t = [] ∨ ∃ b, t = '.' :: b ∧ Digits decDigit b) ?_ fun fr _ hfr =>
        yields_satisfy.bind fun u c hc => yields_satisfy.opt.bind fun sg _ hsg =>
        (yields_sepDigits (fun _ h => decDigit_eq ▸ h)).bind fun w _ hw => yields_floatType.optType.mono fun ty _ hty => ?_
      · refine (Yields.opt (Q := fun t _ => ∃ fs, t = '.' :: fs ∧ Digits decDigit fs) ?_).mono fun t _ h => ?_
        · exact yields_char.bind fun t _ h => yields_decDigits.mono fun u _ hu => ⟨u, by rw [h]; rfl, hu⟩
        · rcases h with h | ⟨_, _, h⟩
          · exact .inl h.2
          · exact .inr h
      · have hsg' : sg ∈ [[], c!"+", c!"-"] := by
          rcases hsg with ⟨_, rfl⟩ | ⟨b, _, rfl, hb⟩
          · simp
          · simp at hb ⊢
            exact hb
        have hc' : c ∈ c!"eE" := by simpa using hc.2
        obtain ⟨us, ds, rfl, h1, h2, _⟩ := hw
        rw [hc.1]
        have := Number.exp ha hfr hc' hsg' h1 h2 hty
        simpa using this
    · refine yields_char.bind fun t _ h => yields_decDigits.bind fun u _ hu => yields_floatType.optType.mono fun x _ hx => ?_
      rw [h]
      exact (Number.frac ha hu hx : Number (a ++ '.' :: (u ++ x)))

theorem yields_signedNumber : Yields numLit fun t a => t = a ∧ ∃ sg b, t = sg ++ b ∧ (sg = [] ∨ sg = ['-']) ∧ Number b := by
  refine Yields.recognize ?_
  refine Yields.bind (Q := fun t _ => t = [] ∨ t = ['-']) (yields_char.opt.mono fun t _ h => ?_) fun t _ ht =>
    Yields.mono (Q := fun t _ => Number t) ?_ fun u _ hu => ⟨t, u, rfl, ht, hu⟩
  · rcases h with h | ⟨_, _, h⟩
    · exact .inl h.2
    · exact .inr h
  · refine .alt ((Yields.recognize (Q := Number) ?_).mono fun _ _ h => h.2)
      ((Yields.recognize (Q := Number) ?_).mono fun _ _ h => h.2)
    · have hb : ∀ {radix : Nat} {l : Char}, (∀ c, isDigitR radix c = true → baseDigit l c = true) →
          Yields (do let _ ← char l; separatedDigits radix false : P Str).recognize
            fun u _ => ∃ us ds, u = l :: (us ++ ds) ∧ (∀ c ∈ us, c = '_') ∧ Digits (baseDigit l) ds := by
        intro radix l hl
        refine (Yields.recognize (Q := fun u => ∃ us ds, u = l :: (us ++ ds) ∧ (∀ c ∈ us, c = '_') ∧
          Digits (baseDigit l) ds) ?_).mono fun _ _ h => h.2
        refine yields_char.bind fun t _ h => (yields_sepDigits hl).mono fun u _ hu => ?_
        obtain ⟨us, ds, rfl, h1, h2, _⟩ := hu
        exact ⟨us, ds, by rw [h]; rfl, h1, h2⟩
      refine yields_char.bind fun t _ ht => Yields.bind (Q := fun u _ => ∃ l us ds, l ∈ c!"box" ∧ u = l :: (us ++ ds) ∧
        (∀ c ∈ us, c = '_') ∧ Digits (baseDigit l) ds) ?_ fun u _ hu => yields_intType.optType.mono fun v _ hv => ?_
      · exact .alt ((hb fun _ => binary_of).mono fun _ _ ⟨us, ds, h⟩ => ⟨'b', us, ds, by decide, h⟩) <|
          .alt ((hb fun _ => oct_of).mono fun _ _ ⟨us, ds, h⟩ => ⟨'o', us, ds, by decide, h⟩)
          ((hb (l := 'x') fun _ h => hexaDigit_of h).mono fun _ _ ⟨us, ds, h⟩ => ⟨'x', us, ds, by decide, h⟩)
      · obtain ⟨l, us, ds, h1, rfl, h2, h3⟩ := hu
        rw [ht]
        have := Number.based h1 h2 h3 hv
        simpa using this
    · exact yields_decDigits.bind fun t _ ht => yields_numEnd ht

/-- The text in quotes. -/
inductive QBody (q : Char) : Str → Prop
  | nil : QBody q []
  | char {s : Str} (c : Char) : c ≠ q → c ≠ '\\' → QBody q s → QBody q (c :: s)
  | escape {s : Str} (c : Char) : QBody q s → QBody q ('\\' :: c :: s)

theorem QBody.str {s : Str} (h : QBody '"' s) : StrBody s := by
  induction h with
  | nil => exact .nil
  | char c h1 h2 _ ih => exact .char c h1 h2 ih
  | escape c _ ih => exact .escape c ih

theorem scan_qbody {q : Char} (i : Str) : ∀ t r, escapedScan q i = some (t, r) → i = t ++ r ∧ QBody q t := by
  fun_induction escapedScan q i with
  | case1 =>
    intro t r h
    cases h
    exact ⟨rfl, .nil⟩
  | case2 c r ih =>
    intro t r' h
    cases h1 : escapedScan q r with
    | none => rw [h1] at h; cases h
    | some p =>
      rw [h1] at h
      cases h
      obtain ⟨h2, h3⟩ := ih p.1 p.2 h1
      exact ⟨by rw [h2]; rfl, .escape c h3⟩
  | case3 =>
    intro t r h
    cases h
  | case4 r h1 h2 =>
    intro t r' h
    cases h
    exact ⟨rfl, .nil⟩
  | case5 c r h1 h2 hc ih =>
    intro t r' h
    cases h3 : escapedScan q r with
    | none => rw [h3] at h; cases h
    | some p =>
      rw [h3] at h
      cases h
      obtain ⟨h4, h5⟩ := ih p.1 p.2 h3
      have hb : c ≠ '\\' := by
        rintro rfl
        cases r with
        | nil => exact h2 rfl rfl
        | cons d r => exact h1 _ _ rfl rfl
      exact ⟨by rw [h4]; rfl, .char c hc hb h5⟩

theorem yields_qbody {q : Char} : Yields (escapedBody q) fun t a => t = a ∧ QBody q a := by
  intro s i r a s' h
  simp only [escapedBody] at h
  split at h
  · simp at h
  · rename_i t r' h1
    obtain ⟨h2, h3⟩ := scan_qbody i _ _ h1
    split at h
    · simp at h
    · simp only [Prod.mk.injEq, PRes.ok.injEq] at h
      obtain ⟨⟨rfl, rfl⟩, _⟩ := h
      exact ⟨t, h2, rfl, h3⟩

theorem yields_string : Yields strLit fun t a => t = '"' :: (a ++ ['"']) ∧ StrBody a := by
  refine yields_char.bind fun _ _ h1 => yields_qbody.opt.bind fun _ a ha => yields_char.bind fun _ _ h2 => .pure ?_
  rw [h1, h2]
  rcases ha with ⟨rfl, rfl⟩ | ⟨b, rfl, rfl, hb⟩
  · exact ⟨rfl, .nil⟩
  · exact ⟨by simp, hb.str⟩

end Askama
