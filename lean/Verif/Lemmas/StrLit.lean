import Verif.Lemmas.RustLex
import Verif.Spec.SpellsStmt

/-! String literals: what `{:#?}` writes is read back. -/

namespace Askama.Spec

open Askama

variable (plain : Char → Bool)

/-! ## Hexadecimal numbers -/

theorem hexDigit_char : ∀ d, d < 16 → hexDigit (hexChar d) = some d ∧ hexChar d ≠ '}' ∧ hexChar d ≠ '_' ∧ hexChar d ≠ '"'
    ∧ hexChar d ≠ '\\' := by
  decide

theorem strVal_digit {c : Char} {d n : Nat} (h : hexDigit c = some d) (h1 : c ≠ '}') (h2 : c ≠ '_') (r : Str) :
    strVal (some n) (c :: r) = strVal (some (n * 16 + d)) r := by
  conv => lhs; unfold strVal
  split
  · rename_i hx hc
    cases hc
  · rename_i hx hc
    cases hc
  · rename_i hx hc
    cases hc
    exact absurd rfl h1
  · rename_i hx hc
    cases hx
    cases hc
    rw [if_neg h2, h]
    rfl
  all_goals (rename_i hx hc; cases hx)

theorem strVal_hex : (k n m : Nat) → n < 16 ^ k → (r : Str) →
    ∃ m', strVal (some m) (hexText k n ++ r) = strVal (some m') r ∧ (m = 0 → m' = n)
  | 0, n, m, h, r => ⟨m, rfl, fun e => by simp at h; omega⟩
  | k + 1, n, m, h, r => by
    simp only [hexText]
    split
    · rename_i hn
      obtain ⟨h1, h2, h3, _⟩ := hexDigit_char n hn
      exact ⟨m * 16 + n, by simpa using strVal_digit h1 h2 h3 r, fun e => by omega⟩
    · have hd : n / 16 < 16 ^ k := by
        rw [Nat.pow_succ] at h
        omega
      obtain ⟨m', g1, g2⟩ := strVal_hex k (n / 16) m hd ([hexChar (n % 16)] ++ r)
      obtain ⟨h1, h2, h3, _⟩ := hexDigit_char (n % 16) (by omega)
      refine ⟨m' * 16 + n % 16, ?_, fun e => by have := g2 e; omega⟩
      rw [List.append_assoc, g1]
      simpa using strVal_digit h1 h2 h3 r

/-! ## Characters -/

theorem strVal_brace (n : Nat) (r : Str) :
    strVal (some n) ('}' :: r) = if n.isValidChar then (strVal none r).map (Char.ofNat n :: ·) else none := by
  rw [strVal]

theorem strVal_open (r : Str) : strVal none ('\\' :: 'u' :: '{' :: r) = strVal (some 0) r := by
  rw [strVal]

theorem strVal_plain {c : Char} (h : c ≠ '\\') (r : Str) : strVal none (c :: r) = (strVal none r).map (c :: ·) := by
  conv => lhs; unfold strVal
  split
  · rename_i hx hc; cases hc
  · rename_i hx hc; cases hx
  · rename_i hx hc; cases hx
  · rename_i hx hc; cases hx
  · rename_i hx hc; cases hc; exact absurd rfl h
  · rename_i hx hc; cases hc; exact absurd rfl h
  · rename_i hx hc; cases hc; exact absurd rfl h
  · rename_i hx hc; cases hc; exact absurd rfl h
  · rename_i hx hc; cases hc; rfl

theorem strVal_esc {c d : Char} (h : simpleEscape c = some d) (hu : c ≠ 'u') (hx : c ≠ 'x') (r : Str) :
    strVal none ('\\' :: c :: r) = (strVal none r).map (d :: ·) := by
  conv => lhs; unfold strVal
  split
  · rename_i hx hc; cases hc
  · rename_i hx hc; cases hx
  · rename_i hx hc; cases hx
  · rename_i hx hc; cases hx
  · rename_i hx hc; cases hc
  · rename_i hx hc; cases hc; exact absurd rfl hu
  · rename_i hc; cases hc; exact absurd rfl hx
  · rename_i hx hc; cases hc; rw [h]; rfl
  · rename_i hc
    cases hc
    rename_i hn
    exact absurd rfl (hn _ _ rfl)

theorem debugChar_value (c : Char) (r : Str) :
    strVal none (debugChar plain c ++ r) = (strVal none r).map (c :: ·) := by
  unfold debugChar
  by_cases h1 : c = Char.ofNat 0
  · subst h1
    exact strVal_esc (d := Char.ofNat 0) rfl (by decide) (by decide) r
  rw [if_neg h1]
  by_cases h2 : c = '\t'
  · subst h2
    exact strVal_esc (d := '\t') rfl (by decide) (by decide) r
  rw [if_neg h2]
  by_cases h3 : c = '\r'
  · subst h3
    exact strVal_esc (d := '\r') rfl (by decide) (by decide) r
  rw [if_neg h3]
  by_cases h4 : c = '\n'
  · subst h4
    exact strVal_esc (d := '\n') rfl (by decide) (by decide) r
  rw [if_neg h4]
  by_cases h5 : c = '"'
  · subst h5
    exact strVal_esc (d := '"') rfl (by decide) (by decide) r
  rw [if_neg h5]
  by_cases h6 : c = '\\'
  · subst h6
    exact strVal_esc (d := '\\') rfl (by decide) (by decide) r
  rw [if_neg h6]
  split
  · exact strVal_plain h6 r
  · have hv : c.toNat.isValidChar := c.valid
    have hn : c.toNat < 16 ^ 6 := by
      rcases hv with h | h <;> omega
    obtain ⟨m, g1, g2⟩ := strVal_hex 6 c.toNat 0 hn (c!"}" ++ r)
    have e : c!"\\u{" ++ hexText 6 c.toNat ++ c!"}" ++ r = '\\' :: 'u' :: '{' :: (hexText 6 c.toNat ++ (c!"}" ++ r)) := by
      simp only [List.append_assoc, List.cons_append, List.nil_append]
    rw [e, strVal_open, g1, g2 rfl]
    show strVal _ ('}' :: r) = _
    rw [strVal_brace, if_pos hv, Char.ofNat_toNat]

/-- What `{:#?}` writes stands for the text it was given. -/
theorem debug_value : (s : Str) → strValue (debugBody plain s) = some s
  | [] => by simp [debugBody, strValue, strVal]
  | c :: s => by
    have ih := debug_value s
    simp only [strValue, debugBody] at ih ⊢
    rw [List.flatMap_cons, debugChar_value, ih]
    rfl

/-! ## The literal ends where it should -/

theorem scan_hex : (k n : Nat) → n < 16 ^ k → (r : Str) →
    scanQuoted '"' (hexText k n ++ r) = (scanQuoted '"' r).map fun p => (hexText k n ++ p.1, p.2)
  | 0, _, _, r => by
    simp only [hexText, List.nil_append]
    cases scanQuoted '"' r <;> rfl
  | k + 1, n, h, r => by
    simp only [hexText]
    split
    · rename_i hn
      obtain ⟨_, _, _, h2, h3⟩ := hexDigit_char n hn
      simp only [List.cons_append, List.nil_append]
      rw [scanQuoted_cons h3, if_neg h2]
    · have hd : n / 16 < 16 ^ k := by
        rw [Nat.pow_succ] at h
        omega
      obtain ⟨_, _, _, h2, h3⟩ := hexDigit_char (n % 16) (by omega)
      rw [List.append_assoc, scan_hex k (n / 16) hd, List.cons_append, scanQuoted_cons h3, if_neg h2]
      simp only [List.nil_append]
      cases scanQuoted '"' r <;> simp

theorem debugChar_scan (c : Char) (r : Str) :
    scanQuoted '"' (debugChar plain c ++ r) = (scanQuoted '"' r).map fun p => (debugChar plain c ++ p.1, p.2) := by
  unfold debugChar
  repeat' split
  all_goals first
    | (exact scanQuoted_esc _ r)
    | skip
  · rename_i h5 h6 _
    simp only [List.cons_append, List.nil_append]
    rw [scanQuoted_cons h6, if_neg h5]
  · have hn : c.toNat < 16 ^ 6 := by
      have : c.toNat.isValidChar := c.valid
      rcases this with h | h <;> omega
    have e : c!"\\u{" ++ hexText 6 c.toNat ++ c!"}" ++ r = '\\' :: 'u' :: '{' :: (hexText 6 c.toNat ++ ('}' :: r)) := by
      simp only [List.append_assoc, List.cons_append, List.nil_append]
    rw [e, scanQuoted_esc, scanQuoted_cons (by decide), if_neg (by decide), scan_hex 6 _ hn, scanQuoted_cons (by decide),
      if_neg (by decide)]
    cases scanQuoted '"' r <;> simp

theorem debug_body : (s : Str) → isStrBody (debugBody plain s) = true
  | [] => by simp [debugBody, isStrBody, scanQuoted]
  | c :: s => by
    have ih := debug_body s
    simp only [isStrBody, beq_iff_eq, debugBody] at ih ⊢
    rw [List.flatMap_cons, List.append_assoc, debugChar_scan, ih]
    rfl

/-- The string literal is one token. -/
theorem lx_debug (s : Str) : LexTo folP (debugStr plain s) [.str (debugBody plain s)] := lx_str (debug_body plain s)

end Askama.Spec
