import Verif.Model.Escape
import Verif.Spec.Escape
import Verif.Lemmas.Base

namespace Askama

open String (utf8EncodeChar)
open Spec (htmlChar htmlEscape jsonChar jsonEscape)

/-- A byte table agrees with a character map: special characters are ASCII and map to their replacement, other
characters map to themselves and none of their bytes is in the table. -/
structure TableSpec (tbl : UInt8 → Option Str) (f : Char → Str) : Prop where
  split : ∀ c : Char, (c.toNat < 128 ∧ tbl (UInt8.ofNat c.toNat) = some (f c)) ∨
    (f c = [c] ∧ ∀ b ∈ utf8EncodeChar c, tbl b = none)

theorem char_ne_of_toNat {c d : Char} (h : c.toNat ≠ d.toNat) : c ≠ d := by
  rintro rfl; exact h rfl

theorem char_eq_of_toNat {c d : Char} (h : c.toNat = d.toNat) : c = d := by
  apply Char.ext; apply UInt32.toNat_inj.1; exact h

theorem htmlChar_other {c : Char} (h1 : c ≠ '<') (h2 : c ≠ '>') (h3 : c ≠ '&') (h4 : c ≠ '"')
    (h5 : c ≠ '\'') : htmlChar c = [c] := by
  unfold htmlChar; split <;> simp_all

theorem jsonChar_other {c : Char} (h1 : c ≠ '<') (h2 : c ≠ '>') (h3 : c ≠ '&')
    (h5 : c ≠ '\'') : jsonChar c = [c] := by
  unfold jsonChar; split <;> simp_all

theorem htmlByte_none {b : UInt8} (h : b.toNat ≠ 0x3c ∧ b.toNat ≠ 0x3e ∧ b.toNat ≠ 0x26 ∧ b.toNat ≠ 0x22 ∧
    b.toNat ≠ 0x27) : htmlByte b = none := by
  have key : ∀ n : Fin 256, n.val ≠ 0x3c ∧ n.val ≠ 0x3e ∧ n.val ≠ 0x26 ∧ n.val ≠ 0x22 ∧ n.val ≠ 0x27 →
      htmlByte (UInt8.ofNat n.val) = none := by decide +kernel
  have := key ⟨b.toNat, b.toNat_lt⟩ h
  simpa using this

theorem htmlTable_spec : TableSpec htmlByte htmlChar where
  split c := by
    by_cases h1 : c = '<'
    · subst h1; left; decide
    by_cases h2 : c = '>'
    · subst h2; left; decide
    by_cases h3 : c = '&'
    · subst h3; left; decide
    by_cases h4 : c = '"'
    · subst h4; left; decide
    by_cases h5 : c = '\''
    · subst h5; left; decide
    right
    refine ⟨htmlChar_other h1 h2 h3 h4 h5, ?_⟩
    intro b hb
    have n1 : c.toNat ≠ 0x3c := fun h => h1 (char_eq_of_toNat h)
    have n2 : c.toNat ≠ 0x3e := fun h => h2 (char_eq_of_toNat h)
    have n3 : c.toNat ≠ 0x26 := fun h => h3 (char_eq_of_toNat h)
    have n4 : c.toNat ≠ 0x22 := fun h => h4 (char_eq_of_toNat h)
    have n5 : c.toNat ≠ 0x27 := fun h => h5 (char_eq_of_toNat h)
    apply htmlByte_none
    by_cases ha : c.toNat < 128
    · rw [encode_ascii c ha] at hb
      simp only [List.mem_singleton] at hb
      subst hb
      have : (UInt8.ofNat c.toNat).toNat = c.toNat := by simp; omega
      omega
    · have := encode_nonascii c ha b hb
      omega

theorem jsonByte_none {b : UInt8} (h : b.toNat ≠ 0x3c ∧ b.toNat ≠ 0x3e ∧ b.toNat ≠ 0x26 ∧
    b.toNat ≠ 0x27) : jsonByte b = none := by
  have key : ∀ n : Fin 256, n.val ≠ 0x3c ∧ n.val ≠ 0x3e ∧ n.val ≠ 0x26 ∧ n.val ≠ 0x27 →
      jsonByte (UInt8.ofNat n.val) = none := by decide +kernel
  have := key ⟨b.toNat, b.toNat_lt⟩ h
  simpa using this

theorem jsonTable_spec : TableSpec jsonByte jsonChar where
  split c := by
    by_cases h1 : c = '<'
    · subst h1; left; decide
    by_cases h2 : c = '>'
    · subst h2; left; decide
    by_cases h3 : c = '&'
    · subst h3; left; decide
    by_cases h5 : c = '\''
    · subst h5; left; decide
    right
    refine ⟨jsonChar_other h1 h2 h3 h5, ?_⟩
    intro b hb
    have n1 : c.toNat ≠ 0x3c := fun h => h1 (char_eq_of_toNat h)
    have n2 : c.toNat ≠ 0x3e := fun h => h2 (char_eq_of_toNat h)
    have n3 : c.toNat ≠ 0x26 := fun h => h3 (char_eq_of_toNat h)
    have n5 : c.toNat ≠ 0x27 := fun h => h5 (char_eq_of_toNat h)
    apply jsonByte_none
    by_cases ha : c.toNat < 128
    · rw [encode_ascii c ha] at hb
      simp only [List.mem_singleton] at hb
      subst hb
      have : (UInt8.ofNat c.toNat).toNat = c.toNat := by simp; omega
      omega
    · have := encode_nonascii c ha b hb
      omega

/-- Bytes outside the table only advance the index. -/
theorem escLoop_skip (tbl) (sink : Sink) (s : Str) (bs rest : List UInt8) (index last : Nat) (acc : List Str)
    (h : ∀ b ∈ bs, tbl b = none) :
    escLoop tbl sink s (bs ++ rest) index last acc = escLoop tbl sink s rest (index + bs.length) last acc := by
  induction bs generalizing index with
  | nil => simp
  | cons b bs ih =>
    simp only [List.cons_append, escLoop, h b (by simp)]
    rw [ih _ (fun b' hb' => h b' (by simp [hb']))]
    congr 1
    simp; omega

/-- What a writer guarantees about a text: never a panic; on success the destination received exactly `text` after
what it had, on failure a prefix of it. -/
def Emits (acc : List Str) (text : Str) : WRes → Prop
  | .ok acc' => acc <+: acc' ∧ acc'.flatten = acc.flatten ++ text
  | .err acc' => acc <+: acc' ∧ ∃ p, p <+: text ∧ acc'.flatten = acc.flatten ++ p
  | .panic => False

theorem writes_put (sink : Sink) (t : Str) (acc : List Str) : Emits acc t (put sink t acc) := by
  unfold put
  split
  · simp [Emits]
  · exact ⟨List.prefix_refl _, [], by simp, by simp⟩

theorem writes_andThen {acc : List Str} {t u : Str} {r : WRes} {f : List Str → WRes}
    (hr : Emits acc t r) (hf : ∀ acc', Emits acc' u (f acc')) : Emits acc (t ++ u) (r.andThen f) := by
  cases r with
  | ok acc1 =>
    obtain ⟨hp, he⟩ := hr
    have := hf acc1
    simp only [WRes.andThen_ok]
    cases hfa : f acc1 with
    | ok acc2 =>
      rw [hfa] at this; obtain ⟨hp2, he2⟩ := this
      exact ⟨hp.trans hp2, by rw [he2, he]; simp⟩
    | err acc2 =>
      rw [hfa] at this; obtain ⟨hp2, p, hpp, he2⟩ := this
      exact ⟨hp.trans hp2, t ++ p, by simpa using hpp, by rw [he2, he]; simp⟩
    | panic => rw [hfa] at this; exact this
  | err acc1 =>
    obtain ⟨hp, p, hpp, he⟩ := hr
    exact ⟨hp, p, hpp.trans (List.prefix_append _ _), he⟩
  | panic => exact hr

theorem escLoop_writes {tbl} {f : Char → Str} (hspec : TableSpec tbl f) (sink : Sink) (pre mid rest : Str)
    (acc : List Str) :
    Emits acc (mid ++ rest.flatMap f)
      (escLoop tbl sink (pre ++ mid ++ rest) (Str.bytes rest) (Str.blen (pre ++ mid)) (Str.blen pre) acc) := by
  induction rest generalizing pre mid acc with
  | nil =>
    simp only [Str.bytes_nil, escLoop, List.append_nil, List.flatMap_nil]
    rw [Str.dropB_append]
    exact writes_put sink mid acc
  | cons c rest ih =>
    rw [Str.bytes_cons]
    rcases hspec.split c with ⟨hlt, hs⟩ | ⟨hid, hn⟩
    · rw [encode_ascii c hlt]
      simp only [List.singleton_append, escLoop, hs]
      rw [Str.sliceB_mid]
      simp only [List.flatMap_cons]
      apply writes_andThen (writes_put sink mid acc)
      intro acc1
      apply writes_andThen (writes_put sink (f c) acc1)
      intro acc2
      have hsz : c.utf8Size = 1 := by
        have := String.length_utf8EncodeChar c
        rw [encode_ascii c hlt] at this
        simpa using this.symm
      have := ih (pre ++ mid ++ [c]) [] acc2
      simp only [List.append_nil, List.nil_append, Str.blen_append, Str.blen_cons, Str.blen_nil, hsz,
        List.append_assoc, List.singleton_append, Nat.add_zero] at this
      simp only [Str.blen_append, List.append_assoc]
      rw [Nat.add_assoc]
      exact this
    · rw [escLoop_skip tbl sink _ _ _ _ _ _ hn]
      have := ih pre (mid ++ [c]) acc
      simp only [Str.blen_append, Str.blen_cons, Str.blen_nil, List.append_assoc, List.singleton_append,
        Nat.add_zero] at this
      simp only [List.flatMap_cons, hid, List.singleton_append, String.length_utf8EncodeChar, Str.blen_append,
        List.append_assoc]
      rw [Nat.add_assoc]
      exact this

theorem escLoop_writes' {tbl} {f : Char → Str} (hspec : TableSpec tbl f) (sink : Sink) (s : Str) (acc : List Str) :
    Emits acc (s.flatMap f) (escLoop tbl sink s (Str.bytes s) 0 0 acc) := by
  have := escLoop_writes hspec sink [] [] s acc
  simpa using this

/-- Writing a list of chunks through a writer that writes `g chunk` for each. -/
theorem writes_writeAll {w : Str → List Str → WRes} {g : Str → Str}
    (hw : ∀ s acc, Emits acc (g s) (w s acc)) (cs : List Str) (acc : List Str) :
    Emits acc (cs.map g).flatten (writeAll w cs acc) := by
  induction cs generalizing acc with
  | nil => simp [writeAll, Emits]
  | cons c cs ih =>
    simp only [writeAll, List.map_cons, List.flatten_cons]
    exact writes_andThen (hw c acc) ih

theorem flatten_flatMap (cs : List Str) (f : Char → Str) :
    (cs.map (fun s => s.flatMap f)).flatten = cs.flatten.flatMap f := by
  induction cs with
  | nil => rfl
  | cons c cs ih => simp [ih]

/-- Success is guaranteed if the destination accepts everything. -/
theorem put_total (t : Str) (acc : List Str) : put Sink.total t acc = .ok (acc ++ [t]) := rfl

theorem escLoop_total_ok {tbl} {f : Char → Str} (hspec : TableSpec tbl f) (s : Str) (acc : List Str) :
    ∃ acc', escLoop tbl Sink.total s (Str.bytes s) 0 0 acc = .ok acc' := by
  have hw := escLoop_writes' hspec Sink.total s acc
  have hne : ∀ bs index last acc a, escLoop tbl Sink.total s bs index last acc ≠ .err a := by
    intro bs
    induction bs with
    | nil =>
      intro index last acc a
      simp only [escLoop]
      split <;> simp [put_total]
    | cons b bs ih =>
      intro index last acc a
      simp only [escLoop]
      split
      · exact ih _ _ _ _
      · split
        · simp
        · simp only [put_total, WRes.andThen_ok]
          exact ih _ _ _ _
  cases h : escLoop tbl Sink.total s (Str.bytes s) 0 0 acc with
  | ok a => exact ⟨a, rfl⟩
  | err a => exact absurd h (hne _ _ _ _ _)
  | panic => rw [h] at hw; exact hw.elim

theorem writeAll_total_ok {w : Str → List Str → WRes} (hw : ∀ s acc, ∃ acc', w s acc = .ok acc')
    (cs : List Str) (acc : List Str) : ∃ acc', writeAll w cs acc = .ok acc' := by
  induction cs generalizing acc with
  | nil => exact ⟨acc, rfl⟩
  | cons c cs ih =>
    obtain ⟨a, ha⟩ := hw c acc
    simp only [writeAll, ha, WRes.andThen_ok]
    exact ih a

end Askama

namespace Askama

theorem writeAll_put_total (cs acc : List Str) : writeAll (put Sink.total) cs acc = .ok (acc ++ cs) := by
  induction cs generalizing acc with
  | nil => simp [writeAll]
  | cons c cs ih => simp [writeAll, put_total, ih]

/-- A successful display through a writer that writes `g chunk` for each chunk. -/
theorem fmt_ok {w : Str → List Str → WRes} {g : Str → Str} (hw : ∀ s acc, Emits acc (g s) (w s acc))
    {d : Disp} {acc out : List Str} (h : d.fmt w acc = .ok out) :
    d.fails = false ∧ out.flatten = acc.flatten ++ (d.chunks.map g).flatten := by
  have hc := writes_writeAll hw d.chunks acc
  unfold Disp.fmt at h
  cases hr : writeAll w d.chunks acc with
  | ok a =>
    rw [hr] at h hc
    simp only [WRes.andThen_ok] at h
    split at h
    · cases h
    · rename_i hf
      cases h
      exact ⟨by simpa using hf, hc.2⟩
  | err a => rw [hr] at h; simp at h
  | panic => rw [hr] at h; simp at h

theorem fmt_total {w : Str → List Str → WRes} (hw : ∀ s acc, ∃ acc', w s acc = .ok acc')
    (d : Disp) (hd : d.fails = false) (acc : List Str) : ∃ out, d.fmt w acc = .ok out := by
  obtain ⟨a, ha⟩ := writeAll_total_ok hw d.chunks acc
  exact ⟨a, by simp [Disp.fmt, ha, hd]⟩

theorem fmt_put_ok {d : Disp} {sink : Sink} {acc out : List Str} (h : d.fmt (put sink) acc = .ok out) :
    d.fails = false ∧ out.flatten = acc.flatten ++ d.text := by
  have := fmt_ok (w := put sink) (g := id) (fun s acc => writes_put sink s acc) h
  simpa [Disp.text] using this

end Askama
