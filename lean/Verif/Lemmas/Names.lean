import Verif.Model.Names
import Verif.Spec.Names
import Verif.Lemmas.Base

/-! Lemmas about identifiers and scope chains. -/

namespace Askama

open Askama.Spec

/-- UTF-8 encoding is injective, here against an ASCII text. -/
theorem bytes_eq_ascii (x k : Str) (hk : ∀ c ∈ k, c.toNat < 128) (h : Str.bytes x = Str.bytes k) : x = k := by
  induction x generalizing k with
  | nil =>
    cases k with
    | nil => rfl
    | cons c k =>
      rw [Str.bytes_cons, encode_ascii c (hk c (by simp))] at h
      simp at h
  | cons c x ih =>
    cases k with
    | nil =>
      rw [Str.bytes_cons] at h
      have := congrArg List.length h
      have hp := utf8Size_pos c
      have h2 : (String.utf8EncodeChar c).length = c.utf8Size := String.length_utf8EncodeChar c
      simp at this
      omega
    | cons d k =>
      have hd := hk d (by simp)
      rw [Str.bytes_cons, Str.bytes_cons, encode_ascii d hd] at h
      by_cases hc : c.toNat < 128
      · rw [encode_ascii c hc] at h
        simp only [List.singleton_append, List.cons.injEq] at h
        have hcd : c = d := by
          have := congrArg UInt8.toNat h.1
          simp only [UInt8.toNat_ofNat'] at this
          have h3 : c.toNat = d.toNat := by omega
          exact Char.toNat_inj.mp h3
        rw [hcd, ih k (fun e he => hk e (by simp [he])) h.2]
      · exfalso
        have hn := encode_nonascii c hc
        have hlen : (String.utf8EncodeChar c) ≠ [] := by
          intro e
          have := String.length_utf8EncodeChar c
          have hp := utf8Size_pos c
          rw [e] at this; simp at this; omega
        obtain ⟨b, bs, hb⟩ := List.exists_cons_of_ne_nil hlen
        rw [hb] at h hn
        simp only [List.cons_append, List.nil_append, List.cons.injEq] at h
        have := hn b (by simp)
        rw [h.1] at this
        simp only [UInt8.toNat_ofNat'] at this
        omega

/-! ## `normalize_identifier` -/

/-- The keywords of each length. -/
def kwsOfLen (k : Nat) : List Str := rustKeywords.filter (fun w => w.length == k)

theorem kwTables_eq : ∀ k, k < 9 →
    kwTables[k]? = some ((kwsOfLen k).map fun w => c!"r#" ++ w ++ List.replicate (8 - k) '_') := by decide

theorem rustKeywords_ascii : ∀ w ∈ rustKeywords, (∀ c ∈ w, c.toNat < 128) ∧ w.length ≤ 8 := by decide

theorem blen_eq_bytes_length (x : Str) : (Str.bytes x).length = Str.blen x := by
  induction x with
  | nil => rfl
  | cons c x ih =>
    rw [Str.bytes_cons, List.length_append, ih, String.length_utf8EncodeChar]
    simp [Str.blen]

theorem bytes_append (x y : Str) : Str.bytes (x ++ y) = Str.bytes x ++ Str.bytes y := by
  simp [Str.bytes, List.flatMap_append]

theorem bytes_ascii (x : Str) (h : ∀ c ∈ x, c.toNat < 128) : Str.bytes x = x.map fun c => UInt8.ofNat c.toNat := by
  induction x with
  | nil => rfl
  | cons c x ih =>
    rw [Str.bytes_cons, encode_ascii c (h c (by simp)), ih (fun d hd => h d (by simp [hd]))]
    rfl

theorem blen_ascii (x : Str) (h : ∀ c ∈ x, c.toNat < 128) : Str.blen x = x.length := by
  rw [← blen_eq_bytes_length, bytes_ascii x h, List.length_map]

theorem normalizeIdentifier_eq (x : Str) : normalizeIdentifier x = rawIdent x := by
  unfold normalizeIdentifier rawIdent
  by_cases h8 : 8 < Str.blen x
  · rw [if_pos h8, if_neg]
    intro hm
    obtain ⟨ha, hl⟩ := rustKeywords_ascii x hm
    rw [blen_ascii x ha] at h8
    omega
  rw [if_neg h8, kwTables_eq _ (by omega)]
  have hpred : ∀ w ∈ kwsOfLen (Str.blen x),
      ((padIdent x == Str.bytes ((c!"r#" ++ w ++ List.replicate (8 - Str.blen x) '_').drop 2)) = (w == x)) := by
    intro w hw
    simp only [kwsOfLen, List.mem_filter, beq_iff_eq] at hw
    obtain ⟨ha, hl⟩ := rustKeywords_ascii w hw.1
    have hd : (c!"r#" ++ w ++ List.replicate (8 - Str.blen x) '_').drop 2 = w ++ List.replicate (8 - Str.blen x) '_' := by
      simp
    rw [hd, bytes_append]
    have hu : Str.bytes (List.replicate (8 - Str.blen x) '_')
        = List.replicate (8 - Str.blen x) (UInt8.ofNat '_'.toNat) := by
      rw [bytes_ascii]
      · simp
      · intro c hc
        rw [List.eq_of_mem_replicate hc]
        decide
    rw [hu]
    unfold padIdent
    by_cases hwx : w = x
    · subst hwx; simp
    · have hne : Str.bytes x ++ List.replicate (8 - Str.blen x) (UInt8.ofNat '_'.toNat)
          ≠ Str.bytes w ++ List.replicate (8 - Str.blen x) (UInt8.ofNat '_'.toNat) := by
        intro e
        exact hwx (bytes_eq_ascii x w ha (List.append_cancel_right e)).symm
      rw [beq_eq_false_iff_ne.mpr hne, beq_eq_false_iff_ne.mpr hwx]
  have hfind : ((kwsOfLen (Str.blen x)).map fun w => c!"r#" ++ w ++ List.replicate (8 - Str.blen x) '_').find?
        (fun probe => padIdent x == Str.bytes (probe.drop 2))
      = ((kwsOfLen (Str.blen x)).find? (fun w => w == x)).map
          fun w => c!"r#" ++ w ++ List.replicate (8 - Str.blen x) '_' := by
    rw [List.find?_map]
    congr 1
    have : ∀ (l : List Str), (∀ w ∈ l, w ∈ kwsOfLen (Str.blen x)) →
        l.find? ((fun probe => padIdent x == Str.bytes (probe.drop 2)) ∘
          fun w => c!"r#" ++ w ++ List.replicate (8 - Str.blen x) '_') = l.find? (fun w => w == x) := by
      intro l hl
      induction l with
      | nil => rfl
      | cons w l ih =>
        rw [List.find?_cons, List.find?_cons, Function.comp_apply, hpred w (hl w (by simp)),
          ih (fun v hv => hl v (by simp [hv]))]
    exact this _ (fun _ h => h)
  simp only [hfind]
  by_cases hm : x ∈ rustKeywords
  · obtain ⟨ha, hl⟩ := rustKeywords_ascii x hm
    have hb := blen_ascii x ha
    have hmem : x ∈ kwsOfLen (Str.blen x) := by
      simp only [kwsOfLen, List.mem_filter, beq_iff_eq]
      exact ⟨hm, hb.symm⟩
    have : (kwsOfLen (Str.blen x)).find? (fun w => w == x) = some x := by
      cases hf : (kwsOfLen (Str.blen x)).find? (fun w => w == x) with
      | none =>
        have := List.find?_eq_none.mp hf x hmem
        simp at this
      | some w =>
        have := List.find?_some hf
        simp at this
        rw [this]
    rw [this, if_pos hm]
    simp only [Option.map_some]
    rw [List.take_append_of_le_length (by simp; omega)]
    rw [hb]
    exact List.take_of_length_le (by simp)
  · have : (kwsOfLen (Str.blen x)).find? (fun w => w == x) = none := by
      rw [List.find?_eq_none]
      intro w hw he
      simp only [kwsOfLen, List.mem_filter] at hw
      simp at he
      exact hm (he ▸ hw.1)
    rw [this, if_neg hm]
    rfl

/-- No Rust identifier in raw form is a keyword. -/
theorem rawIdent_not_keyword (x : Str) : rawIdent x ∉ rustKeywords := by
  unfold rawIdent
  split
  · intro h
    have : ∀ w ∈ rustKeywords, ∀ v, w ≠ c!"r#" ++ v := by
      intro w hw v
      have h2 : ∀ w ∈ rustKeywords, w.take 2 ≠ c!"r#" := by decide
      intro e
      apply h2 w hw
      rw [e]
      simp
    exact this _ h x rfl
  · assumption

theorem normalizeIdentifier_idem (x : Str) :
    normalizeIdentifier (normalizeIdentifier x) = normalizeIdentifier x := by
  rw [normalizeIdentifier_eq, normalizeIdentifier_eq]
  exact if_neg (rawIdent_not_keyword x)

/-! ## Scope chains -/

theorem MapChain.get_eq {α : Type} (m : MapChain α) (k : Str) :
    m.get k = lookupStack (m.scopes ++ m.parent) k := by
  have h : ∀ (l : List (Scope α)), l.findSome? (fun s => Scope.get s k) = lookupStack l k := by
    intro l
    induction l with
    | nil => rfl
    | cons s l ih =>
      rw [List.findSome?_cons, ih, lookupStack]
      unfold Scope.get
      cases s.find? (fun e => e.1 == k) <;> rfl
  have happ : ∀ (a b : List (Scope α)), lookupStack (a ++ b) k
      = match lookupStack a k with
        | some v => some v
        | none => lookupStack b k := by
    intro a b
    induction a with
    | nil => rfl
    | cons s a ih =>
      rw [List.cons_append, lookupStack, lookupStack, ih]
      cases s.find? (fun e => e.1 == k) <;> rfl
  rw [happ]
  unfold MapChain.get
  rw [h, h]
  cases lookupStack m.scopes k <;> rfl

end Askama
