import Verif.Model.Base

namespace Askama

open String (utf8EncodeChar)

theorem utf8Size_pos (c : Char) : 0 < c.utf8Size := Char.utf8Size_pos c

namespace Str

@[simp] theorem blen_nil : blen [] = 0 := rfl
@[simp] theorem blen_cons (c : Char) (s : Str) : blen (c :: s) = c.utf8Size + blen s := rfl

@[simp] theorem blen_append (s t : Str) : blen (s ++ t) = blen s + blen t := by
  induction s with
  | nil => simp
  | cons c s ih => simp [ih]; omega

theorem blen_eq_zero {s : Str} (h : blen s = 0) : s = [] := by
  cases s with
  | nil => rfl
  | cons c s => have := utf8Size_pos c; simp at h; omega

theorem dropB_append (s t : Str) : dropB (s ++ t) (blen s) = some t := by
  induction s with
  | nil => cases t <;> simp [dropB]
  | cons c s ih =>
    have h := utf8Size_pos c
    obtain ⟨n, hn⟩ : ∃ n, c.utf8Size + blen s = n + 1 := ⟨c.utf8Size + blen s - 1, by omega⟩
    simp only [List.cons_append, blen_cons, hn, dropB]
    rw [if_pos (by omega), ← hn, Nat.add_sub_cancel_left]
    exact ih

theorem takeB_append (s t : Str) : takeB (s ++ t) (blen s) = some s := by
  induction s with
  | nil => cases t <;> simp [takeB]
  | cons c s ih =>
    have h := utf8Size_pos c
    obtain ⟨n, hn⟩ : ∃ n, c.utf8Size + blen s = n + 1 := ⟨c.utf8Size + blen s - 1, by omega⟩
    simp only [List.cons_append, blen_cons, hn, takeB]
    rw [if_pos (by omega), ← hn, Nat.add_sub_cancel_left, ih]
    rfl

theorem sliceB_mid (p m r : Str) : sliceB (p ++ m ++ r) (blen p) (blen (p ++ m)) = some m := by
  unfold sliceB
  rw [if_pos (by simp), List.append_assoc, dropB_append]
  simp only [Option.bind_some, blen_append, Nat.add_sub_cancel_left]
  exact takeB_append m r

theorem dropB_some {s : Str} {n : Nat} {t : Str} (h : dropB s n = some t) :
    ∃ p, s = p ++ t ∧ blen p = n := by
  induction s generalizing n with
  | nil => cases n with
    | zero => simp [dropB] at h; exact ⟨[], by simp [h]⟩
    | succ n => simp [dropB] at h
  | cons c s ih => cases n with
    | zero => simp [dropB] at h; exact ⟨[], by simp [h]⟩
    | succ n =>
      simp only [dropB] at h
      split at h
      · obtain ⟨p, hp, hl⟩ := ih h
        exact ⟨c :: p, by simp [hp], by simp [hl]; omega⟩
      · simp at h

theorem isBoundary_iff {s : Str} {n : Nat} :
    isBoundary s n = true ↔ ∃ p q, s = p ++ q ∧ blen p = n := by
  unfold isBoundary
  constructor
  · intro h
    obtain ⟨t, ht⟩ := Option.isSome_iff_exists.1 h
    obtain ⟨p, hp, hl⟩ := dropB_some ht
    exact ⟨p, t, hp, hl⟩
  · rintro ⟨p, q, rfl, rfl⟩
    simp [dropB_append]

theorem bytes_cons (c : Char) (s : Str) : bytes (c :: s) = utf8EncodeChar c ++ bytes s := by
  simp [bytes]

@[simp] theorem bytes_nil : bytes [] = [] := rfl

theorem bytes_append (s t : Str) : bytes (s ++ t) = bytes s ++ bytes t := by
  simp [bytes]

theorem bytes_length (s : Str) : (bytes s).length = blen s := by
  induction s with
  | nil => rfl
  | cons c s ih => simp [bytes_cons, ih]

end Str

/-- An ASCII character is one byte. -/
theorem encode_ascii (c : Char) (h : c.toNat < 128) : utf8EncodeChar c = [UInt8.ofNat c.toNat] := by
  unfold utf8EncodeChar
  simp [show c.toNat ≤ 127 by omega]

/-- Every byte of the encoding of a non-ASCII character is at least 128. -/
theorem encode_nonascii (c : Char) (h : ¬ c.toNat < 128) : ∀ b ∈ utf8EncodeChar c, 128 ≤ b.toNat := by
  intro b hb
  unfold utf8EncodeChar at hb
  simp only [Char.toNat_val, show ¬ c.toNat ≤ 127 by omega, if_false] at hb
  split at hb
  · simp only [List.mem_cons, List.not_mem_nil, or_false] at hb
    rcases hb with rfl | rfl <;> simp <;> omega
  · split at hb <;> simp only [List.mem_cons, List.not_mem_nil, or_false] at hb
    · rcases hb with rfl | rfl | rfl <;> simp <;> omega
    · rcases hb with rfl | rfl | rfl | rfl <;> simp <;> omega

@[simp] theorem WRes.andThen_ok (acc : List Str) (f) : (WRes.ok acc).andThen f = f acc := rfl
@[simp] theorem WRes.andThen_err (acc : List Str) (f) : (WRes.err acc).andThen f = .err acc := rfl
@[simp] theorem WRes.andThen_panic (f) : WRes.panic.andThen f = .panic := rfl

theorem WRes.andThen_assoc (r : WRes) (f g) :
    (r.andThen f).andThen g = r.andThen (fun a => (f a).andThen g) := by
  cases r <;> rfl

end Askama
