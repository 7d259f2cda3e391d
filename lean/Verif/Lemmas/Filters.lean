import Verif.Model.Filters
import Verif.Spec.Filters
import Verif.Lemmas.Escape

namespace Askama

open Spec

/-! ## urlencode -/

/-- The plain characters a set leaves alone. -/
def plainOf (set : Nat → Bool) (c : Char) : Bool := decide (c.toNat < 128) && !set c.toNat

theorem encByte_shape (set : Nat → Bool) (b : UInt8) :
    (∃ c, encByte set b = [c] ∧ c.toNat = b.toNat ∧ c.toNat < 128 ∧ set c.toNat = false) ∨
    (∃ x y, encByte set b = ['%', x, y] ∧ isHexUpper x = true ∧ isHexUpper y = true ∧
      hexDigitVal x = some (b.toNat / 16) ∧ hexDigitVal y = some (b.toNat % 16)) := by
  have hex : ∀ n : Fin 16, isHexUpper (hexDigit n.val) = true ∧ hexDigitVal (hexDigit n.val) = some n.val := by
    decide +kernel
  unfold encByte
  split
  · right
    have hlt := b.toNat_lt
    have h1 := hex ⟨b.toNat / 16, by omega⟩
    have h2 := hex ⟨b.toNat % 16, by omega⟩
    exact ⟨_, _, rfl, h1.1, h2.1, h1.2, h2.2⟩
  · rename_i h
    left
    simp only [Bool.or_eq_true, decide_eq_true_eq, not_or, Bool.not_eq_true] at h
    have hc : (Char.ofNat b.toNat).toNat = b.toNat := by
      have : ∀ n : Fin 128, (Char.ofNat n.val).toNat = n.val := by decide +kernel
      exact this ⟨b.toNat, by omega⟩
    exact ⟨_, rfl, hc, by omega, by rw [hc]; exact h.2⟩

theorem percentDecode_plain {c : Char} (h : c ≠ '%') (h2 : c.toNat < 128) (r : Str) :
    percentDecode (c :: r) = (percentDecode r).map (UInt8.ofNat c.toNat :: ·) := by
  rw [percentDecode]
  · rw [if_neg]
    simp only [not_or]
    exact ⟨h, by omega⟩
  · intros; simp_all

theorem percentDecode_enc (set : Nat → Bool) (hp : set 0x25 = true) (bs : List UInt8) :
    percentDecode (bs.flatMap (encByte set)) = some bs := by
  induction bs with
  | nil => rfl
  | cons b bs ih =>
    rw [List.flatMap_cons]
    rcases encByte_shape set b with ⟨c, hc, hn, hlt, hs⟩ | ⟨x, y, hc, _, _, hx, hy⟩
    · have hne : c ≠ '%' := by
        rintro rfl
        have : ('%' : Char).toNat = 0x25 := by decide
        rw [this] at hs; rw [hs] at hp; cases hp
      rw [hc, List.singleton_append, percentDecode_plain hne hlt, ih, hn]
      simp
    · rw [hc]
      simp only [List.cons_append, List.nil_append]
      rw [percentDecode, hx, hy, ih]
      simp only [Option.some.injEq, List.cons.injEq, and_true]
      have : b.toNat / 16 * 16 + b.toNat % 16 = b.toNat := by omega
      rw [this]; simp

theorem urlWrite_writes (set : Nat → Bool) (sink : Sink) (s : Str) (acc : List Str) :
    Emits acc ((Str.bytes s).flatMap (encByte set)) (urlWrite set sink s acc) := by
  have := writes_writeAll (w := put sink) (g := id) (fun s acc => writes_put sink s acc)
    ((Str.bytes s).map (encByte set)) acc
  simp only [List.map_id] at this
  rw [← List.flatMap_def] at this
  exact this

theorem flatMap_bytes_flatten (f : UInt8 → Str) (cs : List Str) :
    (cs.map (fun s => (Str.bytes s).flatMap f)).flatten = (Str.bytes cs.flatten).flatMap f := by
  induction cs with
  | nil => rfl
  | cons c cs ih => simp [ih, Str.bytes_append]

theorem url_output {set : Nat → Bool} {d : Disp} {sink : Sink} {out : List Str}
    (h : urlencodeFmt set d sink [] = .ok out) : out.flatten = (Str.bytes d.text).flatMap (encByte set) := by
  have := (fmt_ok (urlWrite_writes set sink) h).2
  rw [flatMap_bytes_flatten] at this
  simpa [Disp.text] using this

theorem enc_percentText (set : Nat → Bool) (allowed : Char → Bool)
    (h : ∀ c : Char, c.toNat < 128 → set c.toNat = false → allowed c = true) (bs : List UInt8) :
    PercentText allowed (bs.flatMap (encByte set)) := by
  induction bs with
  | nil => exact .nil
  | cons b bs ih =>
    rw [List.flatMap_cons]
    rcases encByte_shape set b with ⟨c, hc, hn, hlt, hs⟩ | ⟨x, y, hc, hx, hy, _, _⟩
    · rw [hc]; exact .plain (h c hlt hs) ih
    · rw [hc]; exact .triple hx hy ih

theorem ascii_cases {P : Char → Prop} (h : ∀ n : Fin 128, P (Char.ofNat n.val)) (c : Char) (hc : c.toNat < 128) : P c := by
  have := h ⟨c.toNat, hc⟩
  simpa using this

/-! ## truncate -/

theorem isBoundary_end (s : Str) : Str.isBoundary s (Str.blen s) = true :=
  Str.isBoundary_iff.2 ⟨s, [], by simp, rfl⟩

theorem nextBoundary_spec (s : Str) (f rem : Nat) (hle : rem ≤ Str.blen s) (hf : Str.blen s - rem ≤ f) :
    rem ≤ nextBoundary s f rem ∧ nextBoundary s f rem ≤ Str.blen s ∧
    Str.isBoundary s (nextBoundary s f rem) = true ∧
    ∀ k, rem ≤ k → k < nextBoundary s f rem → Str.isBoundary s k = false := by
  induction f generalizing rem with
  | zero =>
    have : rem = Str.blen s := by omega
    subst this
    exact ⟨Nat.le_refl _, Nat.le_refl _, isBoundary_end s, fun k h1 h2 => by simp only [nextBoundary] at h2; omega⟩
  | succ f ih =>
    simp only [nextBoundary]
    split
    · rename_i hb
      exact ⟨Nat.le_refl _, hle, hb, fun k h1 h2 => by omega⟩
    · rename_i hb
      have hne : rem ≠ Str.blen s := by rintro rfl; exact hb (isBoundary_end s)
      obtain ⟨h1, h2, h3, h4⟩ := ih (rem + 1) (by omega) (by omega)
      refine ⟨by omega, h2, h3, fun k hk hk2 => ?_⟩
      by_cases hkr : k = rem
      · subst hkr; simpa using hb
      · exact h4 k (by omega) hk2

theorem truncated_append {c rest : Str} {r : Nat} {o : Str}
    (H : ∀ p a, c = p ++ a → a ≠ [] → Str.blen p < r) (ht : Truncated rest (r - Str.blen c) o) :
    Truncated (c ++ rest) r (c ++ o) := by
  rcases ht with ⟨ho, hp⟩ | ⟨p, q, hpq, hq, ho, hn, hmin⟩
  · left
    refine ⟨by rw [ho], ?_⟩
    intro p q hpq hq
    rcases List.append_eq_append_iff.1 hpq with ⟨a, ha, hb⟩ | ⟨a, ha, hb⟩
    · have := hp a q hb hq
      rw [ha]; simp; omega
    · by_cases hae : a = []
      · subst hae
        have := hp [] rest (by simp) (by rw [List.nil_append] at hb; rw [← hb]; exact hq)
        simp at ha
        subst ha
        simp at this; omega
      · exact H p a ha hae
  · right
    refine ⟨c ++ p, q, by rw [hpq]; simp, hq, by rw [ho]; simp, by simp; omega, ?_⟩
    intro p' q' hpq' hn'
    rcases List.append_eq_append_iff.1 hpq' with ⟨a, ha, hb⟩ | ⟨a, ha, hb⟩
    · have := hmin a q' hb (by rw [ha] at hn'; simp at hn'; omega)
      rw [ha]
      simpa using this
    · by_cases hae : a = []
      · subst hae
        simp at ha
        subst ha
        have := hmin [] rest (by simp) (by simp; omega)
        simp at this
        subst this
        simp
      · have := H p' a ha hae
        omega

theorem Spec.Truncated.unique {s : Str} {n : Nat} {o o' : Str} (h : Truncated s n o) (h' : Truncated s n o') : o = o' := by
  rcases h with ⟨ho, hp⟩ | ⟨p, q, hpq, hq, ho, hn, hmin⟩ <;>
    rcases h' with ⟨ho', hp'⟩ | ⟨p', q', hpq', hq', ho', hn', hmin'⟩
  · rw [ho, ho']
  · have := hp p' q' hpq' hq'; omega
  · have := hp' p q hpq hq; omega
  · have h1 := hmin p' q' hpq' hn'
    have h2 := hmin' p q hpq hn
    have : p = p' := h1.eq_of_length_le h2.length_le
    rw [ho, ho', this]

theorem blen_lt_of_append {c p a : Str} (h : c = p ++ a) (ha : a ≠ []) : Str.blen p < Str.blen c := by
  subst h
  rw [Str.blen_append]
  have : Str.blen a ≠ 0 := fun h => ha (Str.blen_eq_zero h)
  omega

theorem takeB_some {s : Str} {n : Nat} {p : Str} (h : Str.takeB s n = some p) :
    ∃ q, s = p ++ q ∧ Str.blen p = n := by
  induction s generalizing n p with
  | nil => cases n with
    | zero => simp [Str.takeB] at h; exact ⟨[], by simp [h]⟩
    | succ n => simp [Str.takeB] at h
  | cons c s ih => cases n with
    | zero => simp [Str.takeB] at h; subst h; exact ⟨c :: s, by simp⟩
    | succ n =>
      simp only [Str.takeB] at h
      split at h
      · obtain ⟨p', hp', rfl⟩ := Option.map_eq_some_iff.1 h
        obtain ⟨q, hq, hl⟩ := ih hp'
        exact ⟨q, by simp [hq], by simp [hl]; omega⟩
      · cases h

theorem takeB_boundary {s : Str} {n : Nat} (h : Str.isBoundary s n = true) : ∃ p, Str.takeB s n = some p := by
  obtain ⟨p, q, rfl, rfl⟩ := Str.isBoundary_iff.1 h
  exact ⟨p, Str.takeB_append p q⟩

theorem truncRun_dead (sink : Sink) (cs : List Str) (r : Nat) (acc : List Str) :
    truncRun sink cs ⟨false, r⟩ acc = .ok acc := by
  induction cs with
  | nil => rfl
  | cons c cs ih => simp [truncRun, truncWrite, ih]

theorem put_cases (sink : Sink) (s : Str) (acc : List Str) :
    put sink s acc = .ok (acc ++ [s]) ∨ put sink s acc = .err acc := by
  unfold put; split <;> simp

theorem truncRun_spec (sink : Sink) (cs : List Str) (r : Nat) (acc : List Str) :
    ∃ o, Truncated cs.flatten r o ∧ Emits acc o (truncRun sink cs ⟨true, r⟩ acc) := by
  induction cs generalizing r acc with
  | nil =>
    refine ⟨[], Or.inl ⟨rfl, ?_⟩, by simp [truncRun, Emits]⟩
    intro p q h hq
    simp at h
    exact absurd h.2 hq
  | cons c cs ih =>
    simp only [List.flatten_cons, truncRun]
    by_cases h1 : Str.blen c ≤ r
    · have H : ∀ p a, c = p ++ a → a ≠ [] → Str.blen p < r := fun p a h ha => by
        have := blen_lt_of_append h ha; omega
      simp only [truncWrite, Bool.not_true, Bool.false_eq_true, if_false, ge_iff_le, h1, if_true]
      rcases put_cases sink c acc with hp | hp
      · obtain ⟨o, ho, hw⟩ := ih (r - Str.blen c) (acc ++ [c])
        refine ⟨c ++ o, truncated_append H ho, ?_⟩
        rw [hp]
        simp only
        cases hr : truncRun sink cs ⟨true, r - Str.blen c⟩ (acc ++ [c]) with
        | ok a =>
          rw [hr] at hw
          refine ⟨(List.prefix_append _ _).trans hw.1, by rw [hw.2]; simp⟩
        | err a =>
          rw [hr] at hw
          obtain ⟨hw1, p, hp1, hp2⟩ := hw
          exact ⟨(List.prefix_append _ _).trans hw1, c ++ p, by simpa using hp1, by rw [hp2]; simp⟩
        | panic => rw [hr] at hw; exact hw
      · obtain ⟨o, ho, hw⟩ := ih (r - Str.blen c) acc
        refine ⟨c ++ o, truncated_append H ho, ?_⟩
        rw [hp]
        exact ⟨List.prefix_refl _, [], by simp, by simp⟩
    · have hclt : r < Str.blen c := by omega
      by_cases h0 : 0 < r
      · obtain ⟨hb1, hb2, hb3, hb4⟩ := nextBoundary_spec c (Str.blen c - r) r (by omega) (Nat.le_refl _)
        by_cases hend : nextBoundary c (Str.blen c - r) r = Str.blen c
        · have H : ∀ p a, c = p ++ a → a ≠ [] → Str.blen p < r := fun p a h ha => by
            have hlt := blen_lt_of_append h ha
            apply Nat.lt_of_not_le
            intro hle
            have := hb4 (Str.blen p) hle (by omega)
            rw [Str.isBoundary_iff.2 ⟨p, a, h, rfl⟩] at this
            cases this
          simp only [truncWrite, Bool.not_true, Bool.false_eq_true, if_false, ge_iff_le, h1, h0,
            if_true, hend]
          have hz : r - Str.blen c = 0 := by omega
          obtain ⟨o, ho, hw⟩ := ih 0 (acc ++ [c])
          refine ⟨c ++ o, truncated_append H (by rw [hz]; exact ho), ?_⟩
          rcases put_cases sink c acc with hp | hp
          · rw [hp]
            simp only
            cases hr : truncRun sink cs ⟨true, 0⟩ (acc ++ [c]) with
            | ok a =>
              rw [hr] at hw
              exact ⟨(List.prefix_append _ _).trans hw.1, by rw [hw.2]; simp⟩
            | err a =>
              rw [hr] at hw
              obtain ⟨hw1, p, hp1, hp2⟩ := hw
              exact ⟨(List.prefix_append _ _).trans hw1, c ++ p, by simpa using hp1, by rw [hp2]; simp⟩
            | panic => rw [hr] at hw; exact hw
          · rw [hp]
            exact ⟨List.prefix_refl _, [], by simp, by simp⟩
        · obtain ⟨p, hp⟩ := takeB_boundary hb3
          obtain ⟨q, hpq, hpl⟩ := takeB_some hp
          have hqne : q ≠ [] := by
            rintro rfl
            simp at hpq
            subst hpq
            exact hend hpl.symm
          refine ⟨p ++ c!"...", Or.inr ⟨p, q ++ cs.flatten, by rw [hpq]; simp, by simp [hqne], rfl, by omega, ?_⟩, ?_⟩
          · intro p' q' hpq' hn'
            rw [hpq, List.append_assoc] at hpq'
            rcases List.append_eq_append_iff.1 hpq' with ⟨a, ha, hb⟩ | ⟨a, ha, hb⟩
            · rw [ha]; exact List.prefix_append _ _
            · by_cases hae : a = []
              · subst hae; simp at ha; rw [ha]; exact List.prefix_refl _
              · exfalso
                have hlt := blen_lt_of_append ha hae
                have := hb4 (Str.blen p') hn' (by omega)
                rw [Str.isBoundary_iff.2 ⟨p', a ++ q, by rw [hpq, ha]; simp, rfl⟩] at this
                cases this
          · simp only [truncWrite, Bool.not_true, Bool.false_eq_true, if_false, ge_iff_le, h1, h0,
              if_true, hend, hp]
            rcases put_cases sink p acc with hp1 | hp1 <;> rw [hp1]
            · simp only
              rcases put_cases sink c!"..." (acc ++ [p]) with hp2 | hp2 <;> rw [hp2]
              · simp only [truncRun_dead]
                refine ⟨⟨[p, c!"..."], by simp⟩, by simp⟩
              · exact ⟨List.prefix_append _ _, p, List.prefix_append _ _, by simp⟩
            · exact ⟨List.prefix_refl _, [], by simp, by simp⟩
      · have hr0 : r = 0 := by omega
        subst hr0
        refine ⟨c!"...", Or.inr ⟨[], c ++ cs.flatten, by simp, ?_, rfl, by simp, fun p' q' _ _ => List.nil_prefix⟩, ?_⟩
        · intro h
          simp at h
          rw [h.1] at hclt
          simp at hclt
        · simp only [truncWrite, Bool.not_true, Bool.false_eq_true, if_false, ge_iff_le, h1,
              gt_iff_lt, Nat.lt_irrefl]
          rcases put_cases sink c!"..." acc with hp2 | hp2 <;> rw [hp2]
          · simp only [truncRun_dead]
            exact ⟨List.prefix_append _ _, by simp⟩
          · exact ⟨List.prefix_refl _, [], by simp, by simp⟩

/-! ## indent -/

theorem indentLoop_spec (w len i : Nat) (s : Str) (h : i + Str.blen s = len) :
    Indented w s (indentLoop len w i s) := by
  induction s generalizing i with
  | nil => exact .nil
  | cons c s ih =>
    simp only [indentLoop]
    have ih' := ih (i + c.utf8Size) (by simp at h; omega)
    by_cases hc : c = '\n'
    · subst hc
      have hsz : ('\n' : Char).utf8Size = 1 := by decide
      cases s with
      | nil =>
        simp only [Str.blen_cons, hsz, Str.blen_nil] at h
        rw [if_neg (by omega)]
        exact .lastNewline
      | cons d s =>
        simp only [Str.blen_cons, hsz] at h
        have := utf8Size_pos d
        rw [if_pos ⟨rfl, by omega⟩]
        exact .newline ih'
    · rw [if_neg (by simp [hc])]
      exact .other hc ih'

theorem unindent_replicate (w k : Nat) (t : Str) :
    unindentGo w k (List.replicate k ' ' ++ t) = unindentGo w 0 t := by
  induction k with
  | zero => simp
  | succ k ih => simp only [List.replicate_succ, List.cons_append, unindentGo, ih]

theorem Spec.Indented.unindent {w : Nat} {s t : Str} (h : Indented w s t) : unindentGo w 0 t = s := by
  induction h with
  | nil => rfl
  | lastNewline => simp [unindentGo]
  | newline _ ih => simp only [unindentGo, if_true, unindent_replicate, ih]
  | other hc _ ih => simp only [unindentGo, hc, if_false, ih]

theorem Spec.Indented.unique {w : Nat} {s t t' : Str} (h : Indented w s t) (h' : Indented w s t') : t = t' := by
  induction h generalizing t' with
  | nil => cases h'; rfl
  | lastNewline => cases h' with
    | lastNewline => rfl
    | other hc _ => exact absurd rfl hc
  | newline _ ih => cases h' with
    | newline h => rw [ih h]
    | other hc _ => exact absurd rfl hc
  | other hc _ ih => cases h' with
    | lastNewline => exact absurd rfl hc
    | newline _ => exact absurd rfl hc
    | other _ h => rw [ih h]

/-! ## trim -/

theorem trimCollect_fold (cs : List Str) (acc : Str) :
    cs.foldl trimCollect acc = if acc = [] then trimStart cs.flatten else acc ++ cs.flatten := by
  induction cs generalizing acc with
  | nil => by_cases h : acc = [] <;> simp [h, trimStart]
  | cons c cs ih =>
    simp only [List.foldl_cons, ih, List.flatten_cons]
    by_cases h : acc = []
    · subst h
      simp only [trimCollect, List.isEmpty_nil, if_true, List.nil_append]
      by_cases h2 : trimStart c = []
      · simp only [h2, if_true]
        unfold trimStart at h2 ⊢
        rw [List.dropWhile_append, h2]; simp
      · simp only [h2, if_false]
        unfold trimStart at h2 ⊢
        rw [List.dropWhile_append]
        cases hd : List.dropWhile isWs c with
        | nil => exact absurd hd h2
        | cons a b => simp
    · have : acc.isEmpty = false := by cases acc <;> simp_all
      simp only [trimCollect, this, Bool.false_eq_true, if_false, List.append_eq_nil_iff, h, false_and]
      simp

theorem mem_takeWhile {p : α → Bool} {l : List α} {a : α} (h : a ∈ l.takeWhile p) : p a = true := by
  induction l with
  | nil => simp at h
  | cons b l ih =>
    rw [List.takeWhile_cons] at h
    split at h
    · rename_i hb
      rcases List.mem_cons.1 h with rfl | h
      · exact hb
      · exact ih h
    · simp at h

theorem head_dropWhile {p : α → Bool} {l : List α} {a : α} (h : (l.dropWhile p).head? = some a) : p a = false := by
  induction l with
  | nil => simp at h
  | cons b l ih =>
    rw [List.dropWhile_cons] at h
    split at h
    · exact ih h
    · simp at h; subst h; simp_all

theorem trimEnd_decomp (s : Str) : ∃ b, s = trimEnd s ++ b ∧ (∀ c ∈ b, isWs c = true) := by
  refine ⟨(s.reverse.takeWhile isWs).reverse, ?_, ?_⟩
  · unfold trimEnd
    rw [← List.reverse_append, List.takeWhile_append_dropWhile, List.reverse_reverse]
  · intro c hc
    exact mem_takeWhile (List.mem_reverse.1 hc)

theorem isTrim_of (s : Str) : IsTrim isWs s (trimEnd (trimStart s)) := by
  obtain ⟨b, hb, hbw⟩ := trimEnd_decomp (trimStart s)
  refine ⟨⟨s.takeWhile isWs, b, ?_, fun c hc => mem_takeWhile hc, hbw⟩, ?_, ?_⟩
  · rw [List.append_assoc, ← hb]
    exact List.takeWhile_append_dropWhile.symm
  · intro c hc
    have : (trimStart s).head? = some c := by
      rw [hb]
      cases h : trimEnd (trimStart s) with
      | nil => rw [h] at hc; simp at hc
      | cons a t => rw [h] at hc; simpa using hc
    exact head_dropWhile this
  · intro c hc
    unfold trimEnd at hc
    rw [List.getLast?_reverse] at hc
    exact head_dropWhile hc

/-- The trimmed text is unique. -/
theorem Spec.IsTrim.unique {ws : Char → Bool} {s t t' : Str} (h : IsTrim ws s t) (h' : IsTrim ws s t') : t = t' := by
  have key : ∀ {s t : Str}, IsTrim ws s t → t = ((s.dropWhile ws).reverse.dropWhile ws).reverse := by
    intro s t ⟨⟨a, b, hs, ha, hb⟩, hh, hl⟩
    subst hs
    have e1 : (a ++ t ++ b).dropWhile ws = if t = [] then b.dropWhile ws else t ++ b := by
      rw [List.append_assoc]
      have : ∀ (l m : Str), (∀ c ∈ l, ws c = true) → (l ++ m).dropWhile ws = m.dropWhile ws := by
        intro l m hl
        induction l with
        | nil => rfl
        | cons x l ih =>
          rw [List.cons_append, List.dropWhile_cons, if_pos (hl x (by simp))]
          exact ih (fun c hc => hl c (by simp [hc]))
      rw [this a _ ha]
      cases t with
      | nil => simp
      | cons x t =>
        have := hh x rfl
        simp [this]
    have e2 : ∀ (l m : Str), (∀ c ∈ l, ws c = true) → (l ++ m).dropWhile ws = m.dropWhile ws := by
      intro l m hl
      induction l with
      | nil => rfl
      | cons x l ih =>
        rw [List.cons_append, List.dropWhile_cons, if_pos (hl x (by simp))]
        exact ih (fun c hc => hl c (by simp [hc]))
    rw [e1]
    split
    · rename_i ht
      subst ht
      have : List.dropWhile ws b = [] := by
        have := e2 b [] hb
        simpa using this
      rw [this]; rfl
    · rename_i ht
      rw [List.reverse_append, e2 _ _ (fun c hc => hb c (List.mem_reverse.1 hc))]
      have hr : t.reverse.dropWhile ws = t.reverse := by
        cases hrev : t.reverse with
        | nil => rfl
        | cons x r =>
          have : t.getLast? = some x := by
            rw [← List.head?_reverse, hrev]; rfl
          rw [List.dropWhile_cons, if_neg (by rw [hl x this]; simp)]
      rw [hr, List.reverse_reverse]
  rw [key h, key h']

end Askama
