import Verif.Lemmas.Grammar
import Verif.Lemmas.PrecAtoms

/-!
# Accepted expressions are expressions of the grammar: the parser of expressions
-/

namespace Askama

open PT Spec

theorem yields_takeWhileMN {σ : Type} {m n : Nat} {f : Char → Bool} :
    Yields (takeWhileMN m n f : PT σ Str) fun t a => t = a ∧ m ≤ t.length ∧ t.length ≤ n ∧ t.all f = true := by
  intro s i r a s' h
  simp only [takeWhileMN] at h
  split at h
  · simp at h
  · rename_i hl
    simp only [Prod.mk.injEq, PRes.ok.injEq] at h
    obtain ⟨⟨rfl, rfl⟩, _⟩ := h
    have hpre : (i.takeWhile f).take n <+: i := (List.take_prefix _ _).trans (List.takeWhile_prefix _)
    refine ⟨_, (List.prefix_iff_eq_append.mp hpre).symm, rfl, by omega, List.length_take_le _ _, ?_⟩
    rw [List.all_eq_true]
    exact fun c hc => List.all_eq_true.mp (List.all_takeWhile) c (List.mem_of_mem_take hc)

/-- What the four kinds of characters look like. -/
def KindText (t : Str) : CharKind → Prop
  | .literal => ∃ c, t = [c]
  | .escaped => ∃ c ∈ c!"nrt\\0'\"", t = ['\\', c]
  | .asciiEscape nb => ∃ a b, nb = [a, b] ∧ hexaDigit a = true ∧ hexaDigit b = true ∧ t = ['\\', 'x', a, b]
  | .unicodeEscape nb => nb ≠ [] ∧ nb.length ≤ 6 ∧ nb.all hexaDigit = true ∧ t = '\\' :: 'u' :: '{' :: (nb ++ ['}'])

theorem all_hexa {s : Str} (h : s.all (isDigitR 16) = true) : s.all hexaDigit = true := by
  rw [List.all_eq_true] at h ⊢
  exact fun c hc => hexaDigit_of (h c hc)

theorem yields_charKind : Yields charKind KindText := by
  intro s i r a s' h
  simp only [charKind] at h
  split at h
  · rename_i hl
    simp only [Prod.mk.injEq, PRes.ok.injEq] at h
    obtain ⟨⟨rfl, rfl⟩, _⟩ := h
    obtain ⟨c, rfl⟩ := List.length_eq_one_iff.mp hl
    exact ⟨[c], rfl, c, rfl⟩
  · refine (yields_char.bind fun t _ ht => ?_ : Yields _ KindText) s i r a s' h
    rw [ht]
    refine .alt (yields_satisfy.map fun t c hc => ⟨c, by simpa using hc.2, by rw [hc.1]; rfl⟩) <|
      .alt (yields_char.bind fun t _ ht => yields_takeWhileMN.bind fun u hx hu => .pure ?_)
      (yields_tag.bind fun t _ ht => yields_takeWhileMN.bind fun u hx hu => yields_char.bind fun v _ hv => .pure ?_)
    · obtain ⟨rfl, h1, h2, h3⟩ := hu
      have : u.length = 2 := by omega
      match u, this with
      | [a, b], _ =>
        have h4 := all_hexa h3
        simp only [List.all_cons, List.all_nil, Bool.and_true, Bool.and_eq_true] at h4
        exact ⟨a, b, rfl, h4.1, h4.2, by rw [ht]; rfl⟩
    · obtain ⟨rfl, h1, h2, h3⟩ := hu
      refine ⟨?_, h2, all_hexa h3, by rw [ht.1, hv]; simp⟩
      rintro rfl
      simp at h1

theorem chrBody_of {s : Str} {k : CharKind} (hq : QBody '\'' s) (hk : (charKind () s).1 = .ok [] k)
    (ha : ∀ nb, k = .asciiEscape nb → ¬ hexNat nb > 0x7F) (hu : ∀ nb, k = .unicodeEscape nb → ¬ hexNat nb > 0x10FFFF) :
    ChrBody s := by
  obtain ⟨t, ht, h⟩ := yields_charKind () s [] k _ (Prod.ext hk rfl)
  simp only [List.append_nil] at ht
  subst ht
  cases k with
  | literal =>
    obtain ⟨c, rfl⟩ := h
    cases hq with
    | char _ h1 h2 _ => exact .char c h1 h2
  | escaped =>
    obtain ⟨c, hc, rfl⟩ := h
    exact .escape c hc
  | asciiEscape nb =>
    obtain ⟨a, b, rfl, h1, h2, rfl⟩ := h
    have h3 := ha _ rfl
    rw [hexNat_eq (by simp [h1, h2])] at h3
    exact .ascii a b h1 h2 (by omega)
  | unicodeEscape nb =>
    obtain ⟨h1, h2, h3, rfl⟩ := h
    have h4 := hu _ rfl
    rw [hexNat_eq h3] at h4
    exact .unicode nb h1 h2 h3 (by omega)

theorem yields_character : Yields charLit fun t a => t = '\'' :: (a ++ ['\'']) ∧ ChrBody a := by
  refine yields_pos.bind fun _ _ h0 => yields_char.bind fun _ _ h1 => yields_qbody.opt.bind fun _ a ha =>
    yields_char.bind fun _ _ h2 => ?_
  rw [h0, h1, h2]
  rcases ha with ⟨rfl, _⟩ | ⟨b, rfl, rfl, hb⟩
  · exact yields_failAt
  · dsimp only
    split
    · rename_i hk
      exact .pure ⟨by simp, chrBody_of hb hk (by intros; contradiction) (by intros; contradiction)⟩
    · rename_i hk
      exact .pure ⟨by simp, chrBody_of hb hk (by intros; contradiction) (by intros; contradiction)⟩
    · rename_i hk
      split
      · exact yields_failAt
      · rename_i hn
        exact .pure ⟨by simp, chrBody_of hb hk (by rintro _ ⟨⟩; exact hn) (by intros; contradiction)⟩
    · rename_i hk
      split
      · exact yields_failAt
      · rename_i hn
        exact .pure ⟨by simp, chrBody_of hb hk (by intros; contradiction) (by rintro _ ⟨⟩; exact hn)⟩
    · exact yields_failAt

/-- The text of a path or a name. -/
def WordOrPath (isLower : Char → Bool) (t : Str) : PathOrIdent → Prop
  | .path p => PathSpelt isLower t p
  | .ident n => WordSpelt isLower t n

theorem yields_pathOrIdent (env : PEnv) : Yields (pathOrIdent env) (WordOrPath env.isLower) := by
  have hseg : Yields (do let _ ← ws (tag c!"::"); identifier : P Str) fun t n => ∃ w v, t = w ++ (c!"::" ++ (v ++ n)) ∧
      Blank w ∧ Blank v ∧ Name n := by
    refine yields_tag.ws.bind fun _ _ h => yields_name.mono fun t n hn => ?_
    obtain ⟨w, u, v, rfl, hw, hv, rfl, _⟩ := h
    obtain ⟨rfl, hn⟩ := hn
    exact ⟨w, v, by simp, hw, hv, hn⟩
  refine yields_tag.opt.ws.bind fun rt root hroot => yields_name.bind fun nt start hstart =>
    Yields.bind (Q := fun t r => SegSpelt t (r.getD [])) ?_ fun st rest hrest => ?_
  · refine (hseg.many1L (L := SegSpelt) .nil fun t n u p ht hu => ?_).opt.mono fun t r h => ?_
    · obtain ⟨w, v, rfl, hw, hv, hn⟩ := ht
      have := SegSpelt.cons hw hv hn hu
      simpa using this
    · rcases h with ⟨rfl, rfl⟩ | ⟨b, rfl, h, _⟩
      · exact .nil
      · exact h
  · dsimp only
    generalize rest.getD [] = p at hrest
    obtain ⟨w, u, v, rfl, hw, hv, hu⟩ := hroot
    obtain ⟨rfl, hn⟩ := hstart
    rcases hu with ⟨rfl, rfl⟩ | ⟨b, rfl, rfl, _⟩
    · have hb := blank_app hw hv
      cases p with
      | nil =>
        cases hrest
        dsimp only
        split
        · rename_i hl
          refine .pure ⟨w ++ v, by simp, hb, hn, fun c hc => ?_⟩
          rw [hc] at hl
          exact hl
        · rename_i hl
          refine .pure ?_
          have := PathSpelt.one (isLower := env.isLower) hb hn fun c hc => by
            rw [hc] at hl
            simpa using hl
          simpa [WordOrPath] using this
      | cons m p =>
        refine .pure ?_
        have := PathSpelt.long (isLower := env.isLower) hb hn hrest (by simp)
        simpa [WordOrPath] using this
    · refine .pure ?_
      have := PathSpelt.root (isLower := env.isLower) hw hv hn hrest
      simpa [WordOrPath] using this

theorem yields_pathVarBool (env : PEnv) (q : Nat) : Yields (pathVarBool env) (Spelt env.isLower q) := by
  refine (yields_pathOrIdent env).bind fun t p hp => ?_
  cases p with
  | path v => exact .pure (by simpa using Spelt.path hp)
  | ident v =>
    dsimp only
    split
    · rename_i h
      exact .pure (by simpa using Spelt.bool hp h)
    · rename_i h
      simp only [not_or] at h
      exact .pure (by simpa using Spelt.var hp h.1 h.2)

/-! ## The arguments of Rust macros -/

/-- Text that closes this many parentheses more than it opens. -/
inductive Balances : Nat → Str → Prop
  | zero {s : Str} : RustArgs s → Balances 0 s
  | succ {n : Nat} {a s : Str} : RustArgs a → Balances n s → Balances (n + 1) (a ++ ')' :: s)

theorem Balances.char {n : Nat} {s : Str} {c : Char} (hc : c ∉ c!"()\"") (h : Balances n s) : Balances n (c :: s) := by
  cases h with
  | zero h => exact .zero (.char c hc h)
  | succ h1 h2 => exact .succ (.char c hc h1) h2

theorem Balances.paren {n : Nat} {s : Str} (h : Balances (n + 1) s) : Balances n ('(' :: s) := by
  cases h with
  | succ h1 h2 =>
    cases h2 with
    | zero h2 => exact .zero (.paren h1 h2)
    | succ h2 h3 =>
      have := Balances.succ (.paren h1 h2) h3
      simpa using this

theorem Balances.str {n : Nat} {b s : Str} (hb : StrBody b) (h : Balances n s) : Balances n ('"' :: (b ++ '"' :: s)) := by
  cases h with
  | zero h => exact .zero (.str hb h)
  | succ h1 h2 =>
    have := Balances.succ (.str hb h1) h2
    simpa using this

/-- What the loop has taken when it stops at a closing parenthesis. -/
def LoopText (nested : Nat) (inStr esc : Bool) (t : Str) : Prop :=
  match inStr, esc with
  | false, _ => Balances nested t
  | true, false => ∃ b s, t = b ++ '"' :: s ∧ StrBody b ∧ Balances nested s
  | true, true => ∃ c b s, t = c :: (b ++ '"' :: s) ∧ StrBody b ∧ Balances nested s

theorem nestedParen_loop (i : Str) : ∀ (nested : Nat) (inStr esc : Bool) (r : Str) (m : Nat),
    nestedParenGo i nested inStr esc = (some r, m) → ∃ t, i = t ++ r ∧ LoopText nested inStr esc t := by
  induction i with
  | nil => intro nested inStr esc r m h; simp [nestedParenGo] at h
  | cons c i ih =>
    intro nested inStr esc r m h
    unfold nestedParenGo at h
    simp only at h
    cases inStr with
    | false =>
      simp only [Bool.not_false, Bool.or_true, if_true] at h
      show ∃ t, c :: i = t ++ r ∧ Balances nested t
      split at h
      · rename_i hc
        rw [beq_iff_eq] at hc
        subst hc
        obtain ⟨t, rfl, ht⟩ := ih _ _ _ _ _ h
        exact ⟨'(' :: t, rfl, Balances.paren ht⟩
      · rename_i hc1
        split at h
        · rename_i hc
          rw [beq_iff_eq] at hc
          subst hc
          split at h
          · rename_i hn
            subst hn
            simp only [Prod.mk.injEq, Option.some.injEq] at h
            exact ⟨[], by simp [h.1], .zero .nil⟩
          · rename_i hn
            obtain ⟨t, rfl, ht⟩ := ih _ _ _ _ _ h
            refine ⟨')' :: t, rfl, ?_⟩
            obtain ⟨k, rfl⟩ : ∃ k, nested = k + 1 := ⟨nested - 1, by omega⟩
            exact Balances.succ .nil ht
        · rename_i hc2
          split at h
          · rename_i hc
            rw [beq_iff_eq] at hc
            subst hc
            obtain ⟨t, rfl, ht⟩ := ih _ _ _ _ _ h
            simp only [show (('"' : Char) == '\\') = false from rfl, Bool.and_false] at ht
            obtain ⟨b, s, rfl, hb, hs⟩ := ht
            exact ⟨'"' :: (b ++ '"' :: s), rfl, Balances.str hb hs⟩
          · rename_i hc3
            have hc : c ∉ c!"()\"" := by
              simp only [beq_iff_eq] at hc1 hc2 hc3
              simp [hc1, hc2, hc3]
            split at h
            all_goals
              obtain ⟨t, rfl, ht⟩ := ih _ _ _ _ _ h
              exact ⟨c :: t, rfl, Balances.char hc ht⟩
    | true =>
      simp only [Bool.not_true, Bool.or_false] at h
      by_cases hp : (c == '(' || c == ')') = true
      · rw [hp] at h
        simp only [Bool.not_true, Bool.false_eq_true, if_false] at h
        obtain ⟨t, rfl, ht⟩ := ih _ _ _ _ _ h
        have hcb : c ≠ '\\' := by rintro rfl; simp at hp
        have hcq : c ≠ '"' := by rintro rfl; simp at hp
        have : (esc && c == '\\') = false := by simp [hcb]
        rw [this] at ht
        obtain ⟨b, s, rfl, hb, hs⟩ := ht
        cases esc with
        | false => exact ⟨_, rfl, c :: b, s, rfl, .char c hcq hcb hb, hs⟩
        | true => exact ⟨_, rfl, c, b, s, rfl, hb, hs⟩
      · simp only [Bool.not_eq_true] at hp
        rw [hp] at h
        simp only [Bool.not_false, if_true] at h
        simp only [Bool.or_eq_false_iff] at hp
        rw [if_neg (by simp [hp.1]), if_neg (by simp [hp.2])] at h
        split at h
        · rename_i hc
          rw [beq_iff_eq] at hc
          subst hc
          obtain ⟨t, rfl, ht⟩ := ih _ _ _ _ _ h
          simp only [show (('"' : Char) == '\\') = false from rfl, Bool.and_false] at ht
          cases esc with
          | false => exact ⟨'"' :: t, rfl, [], t, rfl, .nil, ht⟩
          | true =>
            obtain ⟨b, s, rfl, hb, hs⟩ := ht
            exact ⟨_, rfl, '"', b, s, rfl, hb, hs⟩
        · rename_i hc3
          have hq : c ≠ '"' := by simpa using hc3
          split at h
          · rename_i hc
            rw [beq_iff_eq] at hc
            subst hc
            obtain ⟨t, rfl, ht⟩ := ih _ _ _ _ _ h
            cases esc with
            | false =>
              obtain ⟨d, b, s, rfl, hb, hs⟩ := ht
              exact ⟨_, rfl, '\\' :: d :: b, s, rfl, .escape d hb, hs⟩
            | true =>
              obtain ⟨b, s, rfl, hb, hs⟩ := ht
              exact ⟨_, rfl, '\\', b, s, rfl, hb, hs⟩
          · rename_i hc4
            have hcb : c ≠ '\\' := by simpa using hc4
            obtain ⟨t, rfl, ht⟩ := ih _ _ _ _ _ h
            have : (esc && c == '\\') = false := by simp [hcb]
            rw [this] at ht
            obtain ⟨b, s, rfl, hb, hs⟩ := ht
            cases esc with
            | false => exact ⟨_, rfl, c :: b, s, rfl, .char c hq hcb hb, hs⟩
            | true => exact ⟨_, rfl, c, b, s, rfl, hb, hs⟩

theorem yields_suffixMacro : Yields suffixMacro fun t x => ∃ w v a, x = .macroCall a ∧
    t = w ++ '!' :: (v ++ '(' :: (a ++ [')'])) ∧ Blank w ∧ Blank v ∧ RustArgs a := by
  refine yields_char.ws.bind fun _ _ h => yields_char.bind fun _ _ h1 => Yields.cut ?_
  obtain ⟨w, u, v, rfl, hw, hv, rfl⟩ := h
  rw [h1]
  have key : Yields (do let a ← recognize nestedParen; let _ ← char ')'; pure (Suffix.macroCall a) : P Suffix)
      fun t x => ∃ a, x = .macroCall a ∧ t = a ++ [')'] ∧ RustArgs a := by
    intro s i r x s' hp
    have hr := (Yields.recognize (p := nestedParen) (Q := fun t => RustArgs t ∨ t = []) ?_)
    · obtain ⟨t, rfl, a, rfl, rfl, ha⟩ := (hr.bind fun t a ha => yields_char.bind fun _ _ h2 => .pure
        ⟨a, rfl, by rw [h2, ha.1]; simp, ha.1 ▸ ha.2⟩ : Yields _ fun t x => ∃ a, x = .macroCall a ∧ t = a ++ [')'] ∧
          (RustArgs a ∨ a = [])) s i r x s' hp
      refine ⟨_, rfl, a, rfl, rfl, ?_⟩
      rcases ha with ha | rfl
      · exact ha
      · exact .nil
    · intro s i r x s' hp
      simp only [nestedParen] at hp
      split at hp
      · rename_i hgo
        simp only [Prod.mk.injEq, PRes.ok.injEq] at hp
        obtain ⟨⟨rfl, _⟩, _⟩ := hp
        obtain ⟨t, rfl, ht⟩ := nestedParen_loop _ _ _ _ _ _ hgo
        cases (ht : Balances 0 t) with
        | zero h => exact ⟨t, rfl, .inl h⟩
      · simp only [Prod.mk.injEq, PRes.ok.injEq] at hp
        obtain ⟨⟨rfl, _⟩, _⟩ := hp
        exact ⟨[], rfl, .inr rfl⟩
      · simp at hp
  refine key.mono fun t x hx => ?_
  obtain ⟨a, rfl, rfl, ha⟩ := hx
  exact ⟨w, v, a, rfl, by simp, hw, hv, ha⟩

/-! ## Expressions -/

theorem _root_.Askama.Spec.Spelt.weak {isLower : Char → Bool} {k l : Nat} {t : Str} {e : Expr} (h : Spelt isLower k t e) (hl : l ≤ k) :
    Spelt isLower l t e := by
  cases h with
  | num h => exact .num h
  | str h => exact .str h
  | chr h => exact .chr h
  | bool h1 h2 => exact .bool h1 h2
  | var h1 h2 h3 => exact .var h1 h2 h3
  | path h => exact .path h
  | array h1 h2 h3 h4 => exact .array h1 h2 h3 h4
  | unit h1 h2 => exact .unit h1 h2
  | group h1 h2 h3 h4 => exact .group h1 h2 h3 h4
  | tuple h1 h2 h3 h4 h5 h6 => exact .tuple h1 h2 h3 h4 h5 h6
  | attr h1 h2 h3 h4 => exact .attr h1 h2 h3 h4
  | index h1 h2 h3 h4 h5 => exact .index h1 h2 h3 h4 h5
  | call h1 h2 => exact .call h1 h2
  | try_ h1 h2 => exact .try_ h1 h2
  | mac h1 h2 h3 h4 => exact .mac h1 h2 h3 h4
  | unary h1 h2 h3 h4 => exact .unary (by omega) h2 h3 h4
  | filter h1 h2 h3 h4 h5 => exact .filter (by omega) h2 h3 h4 h5
  | filterArgs h1 h2 h3 h4 h5 h6 => exact .filterArgs (by omega) h2 h3 h4 h5 h6
  | bin h1 h2 h3 h4 h5 => exact .bin (by omega) h2 h3 h4 h5
  | rangeFull h1 h2 h3 h4 => obtain rfl : l = 0 := by omega
                             exact .rangeFull h1 h2 h3 h4
  | rangeFrom h1 h2 h3 => obtain rfl : l = 0 := by omega
                          exact .rangeFrom h1 h2 h3
  | rangeTo h1 h2 h3 => obtain rfl : l = 0 := by omega
                        exact .rangeTo h1 h2 h3
  | rangeAll h1 h2 => obtain rfl : l = 0 := by omega
                      exact .rangeAll h1 h2

/-- What each function takes. -/
def NT.spelt (isLower : Char → Bool) : (nt : NT) → Str → nt.ty → Prop
  | .parse, t, e => Spelt isLower 0 t e
  | .bin k, t, e => Spelt isLower (min k 8 + 1) t e
  | .filtered, t, e => Spelt isLower 10 t e
  | .prefix, t, e => Spelt isLower 11 t e
  | .suffix, t, e => Spelt isLower 12 t e
  | .single, t, e => Spelt isLower 12 t e
  | .group, t, e => Spelt isLower 12 t e
  | .array, t, e => Spelt isLower 12 t e
  | .args m, t, es => SpeltArgs isLower m t es
  | .named, t, p => ∃ w v u, t = p.1 ++ (w ++ '=' :: (v ++ u)) ∧ Name p.1 ∧ Blank w ∧ Blank v ∧ Spelt isLower 0 u p.2
  | .index, t, e => ∃ w v u k, t = w ++ '[' :: (v ++ (k ++ (u ++ [']']))) ∧ Blank w ∧ Blank v ∧ Blank u ∧ Spelt isLower 0 k e
  | .call, t, es => SpeltArgs isLower false t es

/-- The functions one level deeper do so. -/
def SelfSpelt (isLower : Char → Bool) (self : Self) : Prop := ∀ nt, Takes nt.pre (self nt) (nt.spelt isLower)

theorem layer_sym {k : Nat} {op : Str} (h : op ∈ layerOps k) : ∃ o : BinOp, o.sym = op ∧ o.prec = min k 8 := by
  have h8 : ∀ k < 9, ∀ op ∈ layerOps k, ∃ o ∈ [BinOp.or, .and, .eq, .ne, .ge, .gt, .le, .lt, .bitor, .xor, .bitand,
      .shr, .shl, .add, .sub, .mul, .div, .rem], o.sym = op ∧ o.prec = k := by
    decide
  by_cases hk : k < 9
  · obtain ⟨o, _, h1, h2⟩ := h8 k hk op h
    exact ⟨o, h1, by omega⟩
  · have : layerOps k = layerOps 8 := by
      obtain ⟨m, rfl⟩ : ∃ m, k = m + 9 := ⟨k - 9, by omega⟩
      rfl
    rw [this] at h
    obtain ⟨o, _, h1, h2⟩ := h8 8 (by omega) op h
    exact ⟨o, h1, by omega⟩

/-- A comma or none. -/
theorem yields_optComma : Yields (opt (ws (char ',')) : P (Option Char)) fun t _ => OptComma t :=
  yields_char.ws.opt.mono fun t a h => by
    rcases h with ⟨_, rfl⟩ | ⟨_, _, w, u, v, rfl, hw, hv, rfl⟩
    · exact .inl rfl
    · exact .inr ⟨w, v, hw, hv, rfl⟩

section
variable {isLower : Char → Bool} {self : Self} (hs : SelfSpelt isLower self)
include hs

theorem spelt_parse : Yields (self .parse) (Spelt isLower 0) := (hs .parse).yields

theorem spelt_operand (k : Nat) : Yields (operand self k) (Spelt isLower (min k 8 + 2)) := by
  unfold operand
  split
  · rename_i h
    refine (hs (.bin (k + 1))).yields.mono fun t e he => ?_
    have : min (k + 1) 8 + 1 = min k 8 + 2 := by simp only [nLayers] at h; omega
    rw [← this]
    exact he
  · rename_i h
    have : min k 8 + 2 = 10 := by simp only [nLayers] at h; omega
    rw [this]
    exact (hs .filtered).yields

theorem spelt_bin (k : Nat) : Yields (binBody self k) (Spelt isLower (min k 8 + 1)) := by
  refine (spelt_operand hs k).bind fun a l hl => Yields.bind (Q := fun u rs => ∀ a l, Spelt isLower (min k 8 + 1) a l →
    Spelt isLower (min k 8 + 1) (a ++ u) (rs.foldl (fun l p => .binop p.1 l p.2) l)) ?_ fun u rs hrs => .pure ?_
  · refine Yields.many0L (Q := fun t p => ∀ a l, Spelt isLower (min k 8 + 1) a l → Spelt isLower (min k 8 + 1) (a ++ t) (.binop p.1 l p.2))
      ((yields_altTags _).ws.bind fun t op hop => (spelt_operand hs k).bind fun b r hr => .pure ?_)
      (fun a l h => by simpa using h) fun t p u rs hp hrs a l hl => ?_
    · intro a l hl
      obtain ⟨w, x, v, rfl, hw, hv, rfl, hop⟩ := hop
      obtain ⟨o, rfl, ho⟩ := layer_sym hop
      rw [← ho] at hl hr ⊢
      have := Spelt.bin (q := o.prec + 1) (Nat.le_refl _) hl hw hv hr
      simpa using this
    · have := hrs _ _ (hp a l hl)
      simpa using this
  · simpa using hrs _ _ (hl.weak (by omega))

theorem spelt_rangeRight : Yields (rangeRight self) fun t p => ∃ w v i, p.1 = dots i ∧ Blank w ∧ Blank v ∧
    (p.2 = none ∧ t = w ++ (dots i ++ v) ∨ ∃ b r, p.2 = some r ∧ t = w ++ (dots i ++ (v ++ b)) ∧ Spelt isLower 1 b r) := by
  refine (yields_altTags _).ws.bind fun t op hop => (hs (.bin 0)).yields.opt.bind fun b r hr => .pure ?_
  obtain ⟨w, x, v, rfl, hw, hv, rfl, hop⟩ := hop
  have hop : ∃ i, x = dots i := by
    simp only [List.mem_cons, List.not_mem_nil, or_false] at hop
    rcases hop with rfl | rfl
    · exact ⟨true, rfl⟩
    · exact ⟨false, rfl⟩
  obtain ⟨i, rfl⟩ := hop
  refine ⟨w, v, i, rfl, hw, hv, ?_⟩
  rcases hr with ⟨rfl, rfl⟩ | ⟨e, rfl, he⟩
  · exact .inl ⟨rfl, by simp⟩
  · exact .inr ⟨b, e, rfl, by simp, he⟩

theorem spelt_range : Yields (parseBody self) (Spelt isLower 0) := by
  refine .alt ((spelt_rangeRight hs).bind fun t p h => .pure ?_) ?_
  · obtain ⟨op, r⟩ := p
    obtain ⟨w, v, i, rfl, hw, hv, ⟨rfl, rfl⟩ | ⟨b, r, rfl, rfl, hb⟩⟩ := h
    · simpa using Spelt.rangeAll hw hv
    · simpa using Spelt.rangeTo hw hv hb
  · refine (hs (.bin 0)).yields.bind fun a l hl => ?_
    have hl : Spelt isLower 1 a l := hl
    refine (spelt_rangeRight hs).opt.bind fun t p h => ?_
    rcases h with ⟨rfl, rfl⟩ | ⟨p, rfl, h⟩
    · exact .pure (by simpa using hl.weak (Nat.zero_le _))
    · obtain ⟨op, r⟩ := p
      refine .pure ?_
      obtain ⟨w, v, i, rfl, hw, hv, ⟨rfl, rfl⟩ | ⟨b, r, rfl, rfl, hb⟩⟩ := h
      · simpa using Spelt.rangeFrom hl hw hv
      · simpa using Spelt.rangeFull hl hw hv hb

theorem spelt_filtered : Yields (filteredBody self) (Spelt isLower 10) := by
  refine (hs .prefix).yields.bind fun a l hl => Yields.bind (Q := fun u fs => ∀ a l, Spelt isLower 10 a l →
    Spelt isLower 10 (a ++ u) (fs.foldl (fun res f => .filter f.1 (res :: f.2.getD [])) l)) ?_ fun u fs hfs => .pure ?_
  · refine Yields.many0L (Q := fun t f => ∀ a l, Spelt isLower 10 a l → Spelt isLower 10 (a ++ t) (.filter f.1 (l :: f.2.getD [])))
      (yields_char.bind fun t _ ht => yields_name.ws.bind fun n nm hn => (hs (.args false)).yields.opt.bind fun b as ha => .pure ?_)
      (fun a l h => by simpa using h) fun t f u fs hf hfs a l hl => ?_
    · intro a l hl
      obtain ⟨w, x, v, rfl, hw, hv, rfl, hn⟩ := hn
      rw [ht]
      rcases ha with ⟨rfl, rfl⟩ | ⟨es, rfl, he⟩
      · have := Spelt.filter (q := 10) (Nat.le_refl _) hl hw hn hv
        simpa using this
      · have := Spelt.filterArgs (q := 10) (Nat.le_refl _) hl hw hn hv he
        simpa using this
    · have := hfs _ _ (hf a l hl)
      simpa using this
  · simpa using hfs _ _ (Spelt.weak hl (by omega))

theorem spelt_prefix (rem : Nat) : Yields (prefixBody self rem) (Spelt isLower 11) := by
  intro s i r e s' h
  simp only [prefixBody, Bind.bind, PT.bind] at h
  split at h
  · rename_i r1 ops s1 h1
    have hm := prefix_stop _ _ _ _ _ _ h1
    have hops : Yields (many0 (ws (altTags [c!"!", c!"-"]))) fun u ops => ∀ t e, Spelt isLower 11 t e →
        Spelt isLower 11 (u ++ t) (ops.foldr (fun op e => .unary op e) e) := by
      refine (yields_altTags _).ws.many0L (fun t e h => h) fun t op u ops hop hu x e he => ?_
      obtain ⟨w, y, v, rfl, hw, hv, rfl, hop⟩ := hop
      have hop : ∃ o : UnOp, y = o.sym := by
        simp only [List.mem_cons, List.not_mem_nil, or_false] at hop
        rcases hop with rfl | rfl
        · exact ⟨.not, rfl⟩
        · exact ⟨.neg, rfl⟩
      obtain ⟨o, rfl⟩ := hop
      have := Spelt.unary (q := 11) (o := o) (Nat.le_refl _) hw hv (hu x e he)
      simpa using this
    obtain ⟨u, rfl, hu⟩ := hops _ _ _ _ _ h1
    split at h
    · rename_i r2 e2 s2 h2
      obtain ⟨t, rfl, ht⟩ := hs .suffix _ _ _ _ _ hm h2
      split at h
      · simp only [Pure.pure, PT.pure, Prod.mk.injEq, PRes.ok.injEq] at h
        obtain ⟨⟨rfl, rfl⟩, _⟩ := h
        exact ⟨u ++ t, by simp, hu t e2 (Spelt.weak ht (by omega))⟩
      · simp [tooDeep] at h
    · simp at h
    · simp at h
  · simp at h
  · simp at h

theorem spelt_single {env : PEnv} (he : env.isLower = isLower) : Takes noMinus (singleBody self env) (Spelt isLower 12) := by
  subst he
  intro s i r e s' hi h
  simp only [singleBody, PT.alt, PT.map, PT.bind] at h
  have key : Yields (PT.alt (strLit.map .strLit) <| PT.alt (charLit.map .charLit) <|
      PT.alt (pathVarBool env) <| PT.alt (self .array) (self .group)) (Spelt env.isLower 12) :=
    .alt (yields_string.map fun t a h => by rw [h.1]; exact .str h.2) <|
      .alt (yields_character.map fun t a h => by rw [h.1]; exact .chr h.2) <|
      .alt (yields_pathVarBool env 12) <| .alt (hs .array).yields (hs .group).yields
  cases hn : numLit s i with
  | mk x s1 =>
    rw [hn] at h
    cases x with
    | ok r1 a =>
      simp only [PT.pure, Prod.mk.injEq, PRes.ok.injEq] at h
      obtain ⟨⟨rfl, rfl⟩, _⟩ := h
      obtain ⟨t, rfl, rfl, sg, b, rfl, hsg, hb⟩ := yields_signedNumber _ _ _ _ _ hn
      rcases hsg with rfl | rfl
      · exact ⟨_, rfl, .num hb⟩
      · exact absurd rfl hi
    | err c j m =>
      cases c with
      | true => simp at h
      | false => exact key _ _ _ _ _ h
    | stuck => simp at h

omit hs in
/-- After `peek` of a comma, the comma is next. -/
theorem peekComma {s : Unit} {i r : Str} {c : Char} {s' : Unit}
    (h : ws (opt (peek (char ','))) s i = (.ok r (some c), s')) : ∃ w r', i = w ++ r ∧ r = ',' :: r' ∧ Blank w := by
  simp only [Askama.ws, Bind.bind, PT.bind, skipWs, PT.map, PT.takeWhile, PT.pure, PT.opt, PT.peek, PT.char, satisfy] at h
  cases hd : i.dropWhile isWsp with
  | nil => simp [hd, Pure.pure, PT.pure] at h
  | cons d j =>
    by_cases hc : d = ','
    · subst hc
      simp only [hd, beq_self_eq_true, if_true, Pure.pure, PT.pure, Prod.mk.injEq, PRes.ok.injEq] at h
      have hr : r = ',' :: j := h.1.1.symm
      refine ⟨i.takeWhile isWsp, j, ?_, hr, fun c hc => isBlank_of_isWsp (List.all_eq_true.mp (List.all_takeWhile) c hc)⟩
      rw [hr, ← hd]
      exact (List.takeWhile_append_dropWhile).symm
    · simp [hd, hc, Pure.pure, PT.pure] at h

/-- One more element of a tuple. -/
theorem spelt_more : Yields (many0 (do let _ ← char ','; ws (self .parse))) (SpeltMore isLower false) := by
  refine Yields.many0L (Q := fun t e => ∃ w x v, t = ',' :: (w ++ (x ++ v)) ∧ Blank w ∧ Blank v ∧ Spelt isLower 0 x e)
    (yields_char.bind fun _ _ h => (spelt_parse hs).ws.mono fun t e ht => ?_) .nil fun t e u es ht hu => ?_
  · obtain ⟨w, x, v, rfl, hw, hv, hx⟩ := ht
    exact ⟨w, x, v, by rw [h]; rfl, hw, hv, hx⟩
  · obtain ⟨w, x, v, rfl, hw, hv, hx⟩ := ht
    have := SpeltMore.cons (m := false) hw (.plain hx) hv hu
    simpa using this

theorem spelt_tupleEnd (e : Expr) : Yields (do
      let es ← many0 (do let _ ← char ','; ws (self .parse))
      let _ ← ws (opt (char ','))
      let _ ← char ')'
      pure (.tuple (e :: es)) : P Expr) fun t x => ∃ es ts c, x = .tuple (e :: es) ∧ t = ts ++ (c ++ [')']) ∧
        SpeltMore isLower false ts es ∧ (Blank c ∨ ∃ x y, Blank x ∧ Blank y ∧ c = x ++ ',' :: y) := by
  refine (spelt_more hs).bind fun ts es hts => yields_char.opt.ws.bind fun c _ hc => yields_char.bind fun t _ ht => .pure ?_
  refine ⟨es, ts, c, rfl, by rw [ht]; simp, hts, ?_⟩
  obtain ⟨w, u, v, rfl, hw, hv, ⟨_, rfl⟩ | ⟨_, _, rfl⟩⟩ := hc
  · exact .inl (blank_app hw hv)
  · exact .inr ⟨w, v, hw, hv, rfl⟩

theorem spelt_group (q : Nat) : Yields (groupBody self) (Spelt isLower q) := by
  refine yields_char.ws.bind fun _ _ h => (spelt_parse hs).opt.bind fun t e he => ?_
  obtain ⟨w, x, v, rfl, hw, hv, rfl⟩ := h
  rcases he with ⟨rfl, rfl⟩ | ⟨e, rfl, he⟩
  · refine yields_char.bind fun _ _ h => .pure ?_
    rw [h]
    simpa using Spelt.unit hw hv
  · dsimp only
    intro s i r a s' hp
    simp only [Bind.bind, PT.bind] at hp
    cases hc : ws (opt (peek (char ','))) s i with
    | mk x s1 =>
      rw [hc] at hp
      cases x with
      | err => simp at hp
      | stuck => simp at hp
      | ok r1 c =>
        cases c with
        | none =>
          obtain ⟨u, rfl, hu⟩ := (yields_peek.opt.ws : Yields (ws (opt (peek (char ','))) : P (Option Char)) _) _ _ _ _ _ hc
          obtain ⟨u1, u2, u3, rfl, hu1, hu3, ⟨_, rfl⟩ | ⟨_, _, rfl⟩⟩ := hu
          all_goals
            obtain ⟨y, rfl, hy⟩ := ((yields_char (σ := Unit) (c := ')')).bind fun t _ h => .pure ⟨by simp [h], rfl⟩ :
              Yields _ fun t (b : Expr) => t ++ [] = [')'] ∧ b = .group e) _ _ _ _ _ hp
            obtain ⟨hy, rfl⟩ := hy
            simp only [List.append_nil] at hy
            subst hy
            refine ⟨_, (List.append_assoc _ _ _).symm, ?_⟩
            have := Spelt.group (q := q) hw hv he (blank_app hu1 hu3)
            simpa using this
        | some c =>
          obtain ⟨u, r', rfl, rfl, hu⟩ := peekComma hc
          obtain ⟨y, hy, es, ts, c, rfl, rfl, hts, hc⟩ := spelt_tupleEnd hs e _ _ _ _ _ hp
          rw [hy]
          refine ⟨u ++ (ts ++ (c ++ [')'])), by simp, ?_⟩
          have hcomma : Blank c ∧ es ≠ [] ∨ ∃ x y, Blank x ∧ Blank y ∧ c = x ++ ',' :: y := by
            rcases hc with hc | hc
            · refine .inl ⟨hc, ?_⟩
              rintro rfl
              cases hts
              cases c with
              | nil => simp at hy
              | cons d c =>
                simp only [List.nil_append, List.cons_append, List.cons.injEq] at hy
                have := hc d List.mem_cons_self
                rw [← hy.1] at this
                simp [isBlank] at this
            · exact .inr hc
          have := Spelt.tuple (q := q) hw hv he hu hts hcomma
          simpa using this

omit hs in
theorem spelt_list {σ : Type} {p : PT σ Expr} {m : Bool} (hp : Yields p (SpeltArg isLower m)) :
    Yields (sepList0 (char ',') (ws p)) (SpeltList isLower m) :=
  Yields.sepList0 (L := SpeltMore isLower m) yields_char hp.ws .nil (fun x c t a u l hx ha hl => by
      obtain ⟨w, y, v, rfl, hw, hv, hy⟩ := ha
      rw [hx]
      simpa using SpeltMore.cons hw hy hv hl) .nil fun t a u l ha hl => by
      obtain ⟨w, y, v, rfl, hw, hv, hy⟩ := ha
      simpa using SpeltList.cons hw hy hv hl

theorem spelt_array (q : Nat) : Yields (arrayBody self) (Spelt isLower q) := by
  refine yields_char.ws.bind fun _ _ h => Yields.cut (Yields.bind (spelt_list (m := false)
    ((spelt_parse hs).mono fun t e h => .plain h)) fun t es hes => yields_optComma.bind fun c _ hc =>
      yields_char.bind fun _ _ h2 => .pure ?_)
  obtain ⟨w, x, v, rfl, hw, hv, rfl⟩ := h
  rw [h2]
  simpa using Spelt.array (q := q) hw hv hes hc

theorem spelt_argument (start : Str) (m : Bool) : Yields (argument self start m) (SpeltArg isLower m) := by
  refine yields_get.bind fun _ st h0 => Yields.bind (Q := SpeltArg isLower m) (.alt ?_
    ((spelt_parse hs).mono fun t e h => .plain h).lift) fun t e he => ?_
  · cases m with
    | true =>
      simp only [if_true]
      refine (hs .named).yields.lift.bind fun t p hp => yields_get.bind fun _ st h1 => ?_
      obtain ⟨n, v⟩ := p
      dsimp only
      split
      · exact yields_failAt
      · refine yields_modify.bind fun _ _ h2 => .pure ?_
        obtain ⟨w, x, u, rfl, hn, hw, hv, hu⟩ := hp
        rw [h1, h2]
        simpa using SpeltArg.named hn hw hv hu
    | false => exact yields_error
  · rw [h0]
    dsimp only
    split
    · exact .pure (by simpa using he)
    · exact yields_failAt
    · exact .pure (by simpa using he)

theorem spelt_args (m : Bool) : Yields (argsBody self m) (SpeltArgs isLower m) := by
  refine yields_pos.bind fun _ st h0 => yields_char.ws.bind fun _ _ h => Yields.cut (Yields.bind (Q := SpeltList isLower m) ?_
    fun t es hes => yields_optComma.bind fun c _ hc => yields_char.bind fun _ _ h2 => .pure ?_)
  · intro s i r a s' h
    simp only [Prod.mk.injEq] at h
    exact spelt_list (spelt_argument hs st m) _ _ _ _ _ (Prod.ext h.1 rfl)
  · obtain ⟨w, x, v, rfl, hw, hv, rfl⟩ := h
    rw [h0, h2]
    simpa using SpeltArgs.mk (m := m) hw hv hes hc

theorem spelt_named : Yields (namedBody self) (NT.named.spelt isLower) :=
  yields_name.bind fun t n hn => yields_char.ws.bind fun _ _ h => (spelt_parse hs).bind fun u e he => .pure <| by
    obtain ⟨w, x, v, rfl, hw, hv, rfl⟩ := h
    obtain ⟨rfl, hn⟩ := hn
    exact ⟨w, v, u, by simp, hn, hw, hv, he⟩

theorem spelt_index : Yields (indexBody self) (NT.index.spelt isLower) :=
  yields_char.ws.bind fun _ _ h => Yields.cut ((spelt_parse hs).ws.bind fun t e he => yields_char.bind fun _ _ h2 => .pure <| by
    obtain ⟨w, x, v, rfl, hw, hv, rfl⟩ := h
    obtain ⟨w', k, u, rfl, hw', hu, hk⟩ := he
    rw [h2]
    exact ⟨w, v ++ w', u, k, by simp, hw, blank_app hv hw', hu, hk⟩)

omit hs in
theorem spelt_attr : Yields suffixAttr fun t x => ∃ w v n, x = .attr n ∧ t = w ++ '.' :: (v ++ n) ∧ Blank w ∧ Blank v ∧
    (Name n ∨ SignedNumber n) := by
  refine Yields.bind (Yields.ws (Q := fun t _ => t = ['.']) (yields_char.bind fun _ _ h => yields_not.mono fun _ _ h2 => by
    rw [h, h2]; rfl)) fun _ _ h => Yields.bind (Yields.cut (Yields.alt (Q := fun t n => t = n ∧ (Name n ∨ SignedNumber n))
      (yields_signedNumber.mono fun t a h => ⟨h.1, .inr ?_⟩) (yields_name.mono fun t a h => ⟨h.1, .inl h.2⟩)))
        fun t n hn => .pure ?_
  · obtain ⟨rfl, sg, b, rfl, rfl | rfl, hb⟩ := h
    · exact .inl hb
    · exact .inr ⟨b, rfl, hb⟩
  · obtain ⟨w, x, v, rfl, hw, hv, rfl⟩ := h
    obtain ⟨rfl, hn⟩ := hn
    exact ⟨w, v, t, rfl, by simp, hw, hv, hn⟩

/-- What is appended to an expression. -/
def SuffixText (isLower : Char → Bool) (u : Str) : Suffix → Prop
  | .attr n => ∃ w v, u = w ++ '.' :: (v ++ n) ∧ Blank w ∧ Blank v ∧ (Name n ∨ SignedNumber n)
  | .index k => NT.index.spelt isLower u k
  | .call args => SpeltArgs isLower false u args
  | .try_ => ∃ w, u = w ++ ['?'] ∧ Blank w
  | .macroCall a => ∃ w v, u = w ++ '!' :: (v ++ '(' :: (a ++ [')'])) ∧ Blank w ∧ Blank v ∧ RustArgs a

theorem spelt_suffixLoop : (n : Nat) → (t : Str) → (e : Expr) → Spelt isLower 12 t e →
    Yields (suffixLoop self n e) fun u a => Spelt isLower 12 (t ++ u) a
  | 0, t, e, _ => by
    intro s i r a s' h
    simp [suffixLoop, PT.stuck] at h
  | n + 1, t, e, he => by
    simp only [suffixLoop]
    refine yields_pos.bind fun _ i h0 => ?_
    rw [h0]
    refine Yields.bind (p := suffixOne self) (Q := fun u x => x = none ∧ u = [] ∨ ∃ y, x = some y ∧ SuffixText isLower u y)
      (Yields.opt ?_) fun u x hx => ?_
    · refine .alt (spelt_attr.mono ?_) <| .alt ((hs .index).yields.map fun _ _ h => h) <|
        .alt ((hs .call).yields.map fun _ _ h => h) <| .alt (yields_skipWs.bind fun w _ hw => yields_char.bind fun _ _ h =>
          .pure ⟨w, by rw [h]; simp, hw⟩) (yields_suffixMacro.mono ?_)
      · rintro _ _ ⟨w, v, n, rfl, h⟩
        exact ⟨w, v, h⟩
      · rintro _ _ ⟨w, v, a, rfl, h⟩
        exact ⟨w, v, h⟩
    · rcases hx with ⟨rfl, rfl⟩ | ⟨y, rfl, h⟩
      · exact .pure (by simpa using he)
      · cases y with
        | attr a =>
          obtain ⟨w, v, rfl, hw, hv, hn⟩ := h
          refine (spelt_suffixLoop n _ _ (Spelt.attr he hw hv hn)).mono fun x b hb => ?_
          simpa using hb
        | index k =>
          obtain ⟨w, v, u, k, rfl, hw, hv, hu, hk⟩ := h
          refine (spelt_suffixLoop n _ _ (Spelt.index he hw hv hk hu)).mono fun x b hb => ?_
          simpa using hb
        | call args =>
          refine (spelt_suffixLoop n _ _ (Spelt.call he h)).mono fun x b hb => ?_
          simpa using hb
        | try_ =>
          obtain ⟨w, rfl, hw⟩ := h
          refine (spelt_suffixLoop n _ _ (Spelt.try_ he hw)).mono fun x b hb => ?_
          simpa using hb
        | macroCall a =>
          obtain ⟨w, v, rfl, hw, hv, ha⟩ := h
          dsimp only
          split
          · cases he with
            | path hp =>
              refine (spelt_suffixLoop n _ _ (Spelt.mac (.inl hp) hw hv ha)).mono fun x b hb => ?_
              simpa using hb
          · cases he with
            | var hp _ _ =>
              refine (spelt_suffixLoop n _ _ (Spelt.mac (.inr ⟨_, rfl, hp⟩) hw hv ha)).mono fun x b hb => ?_
              simpa using hb
          · exact yields_failAt

theorem spelt_suffix : Takes noMinus (suffixBody self) (Spelt isLower 12) := by
  intro s i r e s' hi h
  simp only [suffixBody, Bind.bind, PT.bind] at h
  split at h
  · rename_i r1 e1 s1 h1
    obtain ⟨t, rfl, ht⟩ := hs .single _ _ _ _ _ hi h1
    simp only [pos] at h
    obtain ⟨u, rfl, hu⟩ := spelt_suffixLoop hs _ t e1 ht _ _ _ _ _ h
    exact ⟨t ++ u, by simp, hu⟩
  · simp at h
  · simp at h

end

theorem exprP_spelt (env : PEnv) : (n : Nat) → SelfSpelt env.isLower (exprP env n)
  | 0 => fun nt => by
    intro s i r a s' _ h
    simp [exprP, tooDeep] at h
  | n + 1 => fun nt => by
    have hs := exprP_spelt env n
    simp only [exprP]
    cases nt with
    | parse => exact (spelt_range hs).takes
    | bin k => exact (spelt_bin hs k).takes
    | filtered => exact (spelt_filtered hs).takes
    | «prefix» => exact (spelt_prefix hs _).takes
    | suffix => exact spelt_suffix hs
    | single => exact spelt_single hs rfl
    | group => exact (spelt_group hs 12).takes
    | array => exact (spelt_array hs 12).takes
    | args m => exact (spelt_args hs m).takes
    | named => exact (spelt_named hs).takes
    | index => exact (spelt_index hs).takes
    | call => exact (hs (.args false)).yields.takes

end Askama
