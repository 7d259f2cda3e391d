import Verif.Lemmas.GrammarExpr
import Verif.Lemmas.Tags
import Verif.Spec.GrammarNode

/-!
# Accepted patterns are patterns of the grammar
-/

namespace Askama

open PT Spec

section
variable {σ α β γ : Type}

theorem padded_self (x : Str) : Padded x x := ⟨[], [], nofun, nofun, by simp⟩

theorem Yields.padded {p : PT σ α} {Q : Str → α → Prop} (h : Yields p Q) :
    Yields (Askama.ws p) fun t a => ∃ x, Padded x t ∧ Q x a :=
  h.ws.mono fun _ _ ⟨w, u, v, h1, h2, h3, h4⟩ => ⟨u, ⟨w, v, h2, h3, h1⟩, h4⟩

theorem yields_pkw {k : Str} : Yields (Askama.ws (kw k)) fun t _ => Padded k t :=
  (yields_keyword.lift.padded).mono fun _ _ ⟨_, h, h1, _⟩ => h1 ▸ h

theorem yields_pchar {c : Char} : Yields (Askama.ws (char c) : PT σ Char) fun t _ => Padded [c] t :=
  yields_char.padded.mono fun _ _ ⟨_, h, h1⟩ => h1 ▸ h

theorem yields_ptag {k : Str} : Yields (Askama.ws (tag k) : PT σ Str) fun t _ => Padded k t :=
  yields_tag.padded.mono fun _ _ ⟨_, h, h1, _⟩ => h1 ▸ h

theorem yields_pcut {c : Char} : Yields (Askama.ws (cut (char c)) : PT σ Char) fun t _ => Padded [c] t :=
  yields_char.cut.padded.mono fun _ _ ⟨_, h, h1⟩ => h1 ▸ h

theorem yields_pname : Yields (Askama.ws ident) fun t n => Padded n t ∧ Name n :=
  yields_name.lift.padded.mono fun _ _ ⟨_, h, h1, h2⟩ => ⟨h1 ▸ h, h2⟩

theorem yields_pcomma : Yields (opt (Askama.ws (char ',')) : PT σ (Option Char)) fun t _ => OptComma t :=
  yields_char.ws.opt.mono fun t a h => by
    rcases h with ⟨_, rfl⟩ | ⟨_, _, w, u, v, rfl, hw, hv, rfl⟩
    · exact .inl rfl
    · exact .inr ⟨w, v, hw, hv, rfl⟩

theorem yields_optChar {c : Char} : Yields (optChar c) fun t b => if b then Padded [c] t else t = [] :=
  yields_pchar.opt.map fun t a h => by
    rcases h with ⟨rfl, rfl⟩ | ⟨b, rfl, h⟩
    · simp
    · simpa using h

theorem yields_nest : Yields nest fun t _ => t = [] := by
  intro s i r a s' h
  unfold nest at h
  split at h
  · simp at h
  · simp only [Prod.mk.injEq, PRes.ok.injEq] at h
    exact ⟨[], by simp [h.1.1], rfl⟩

end

/-! ## Patterns -/

section
variable {isLower : Char → Bool}

theorem yields_targetLit : Yields targetLit (SpeltOne isLower) := by
  refine Yields.lift (.alt (yields_string.map fun t a h => ?_) <| .alt (yields_character.map fun t a h => ?_) <|
    .alt (yields_signedNumber.map fun t a h => ?_) (Yields.map (Q := fun t a => t = a ∧ (a = c!"true" ∨ a = c!"false")) ?_
      fun t a h => ?_))
  · rw [h.1]
    exact .str h.2
  · rw [h.1]
    exact .chr h.2
  · obtain ⟨rfl, sg, b, rfl, hsg, hb⟩ := h
    refine .num ?_
    rcases hsg with rfl | rfl
    · exact .inl hb
    · exact .inr ⟨b, rfl, hb⟩
  · exact .alt (yields_keyword.mono fun t a h => ⟨h.1.trans h.2.symm, .inr h.2⟩)
      (yields_keyword.mono fun t a h => ⟨h.1.trans h.2.symm, .inl h.2⟩)
  · rw [h.1]
    exact .bool h.2

theorem yields_targetPath (env : PEnv) : Yields (targetPath env) (PathSpelt env.isLower) := by
  refine yields_pos.bind fun _ _ h1 => (yields_pathOrIdent env).lift.bind fun t v h => ?_
  subst h1
  cases v with
  | path v =>
    have h' : PathSpelt env.isLower t v := h
    exact .pure (by simpa using h')
  | ident n => exact yields_goto

theorem yields_verifyName {i n : Str} : Yields (verifyName i n) fun t p => t = [] ∧ p = .name n ∧ n ≠ c!"self" ∧ n ≠ c!"writer" := by
  unfold verifyName
  split
  · exact yields_failAt
  · rename_i h
    simp only [not_or] at h
    exact .pure ⟨rfl, rfl, h.1, h.2⟩

variable {self : SP Target} (hs : Yields self (SpeltPat isLower))
include hs

theorem yields_targetNamed : Yields (targetNamed self) (SpeltField isLower) := by
  refine yields_pos.bind fun _ i h1 => yields_name.lift.bind fun t n hn => Yields.bind
    (Yields.opt (Q := fun t p => ∃ c u, t = c ++ u ∧ Padded c!":" c ∧ SpeltPat isLower u p)
      (yields_pchar.bind fun c _ hc => hs.mono fun u p hu => ⟨c, u, rfl, hc, hu⟩)) fun u o ho => ?_
  subst h1
  obtain ⟨rfl, hn⟩ := hn
  rcases ho with ⟨rfl, rfl⟩ | ⟨p, rfl, c, u, rfl, hc, hu⟩
  · refine yields_verifyName.bind fun v p hv => .pure ?_
    obtain ⟨rfl, rfl, h1, h2⟩ := hv
    simpa using SpeltField.short hn h1 h2
  · refine .pure ?_
    simpa using SpeltField.long hn hc hu

omit hs in
/-- Things with commas in between, and the closing bracket. -/
theorem yields_patsEnd {γ : Type} {p : SP γ} {Q : Str → γ → Prop} {L M : Str → List γ → Prop} {z : Char}
    (hp : Yields p Q) (h0 : L [] []) (h1 : ∀ c t a u l, Padded c!"," c → Q t a → L u l → L (c ++ (t ++ u)) (a :: l))
    (h2 : M [z] [])
    (h3 : ∀ t a ts l c z', Q t a → L ts l → OptComma c → Padded [z] z' → M (t ++ (ts ++ (c ++ z'))) (a :: l)) :
    Yields (alt (do let _ ← char z; pure [])
      (do
        let ts ← cut (sepList1 (Askama.ws (char ',')) p)
        let _ ← opt (Askama.ws (char ','))
        let _ ← Askama.ws (cut (char z))
        pure ts) : SP (List γ)) M := by
  refine .alt (yields_char.bind fun t _ h => .pure (by rw [h]; simpa using h2)) ?_
  refine (Yields.sepList1 (L := L) (L' := fun t l => ∃ x a u l', t = x ++ u ∧ l = a :: l' ∧ Q x a ∧ L u l') yields_pchar hp h0
    (fun x c t a u l hx ht hu => h1 _ _ _ _ _ hx ht hu) (fun t a u l ht hu => ⟨t, a, u, l, rfl, rfl, ht, hu⟩)).cut.bind
    fun t l ht => yields_pcomma.bind fun c _ hc => yields_pcut.bind fun z' _ hz => .pure ?_
  obtain ⟨x, a, u, l', rfl, rfl, hx, hu⟩ := ht
  simpa using h3 _ _ _ _ _ _ hx hu hc hz

theorem yields_pats {a : Str} (ha : Padded c!"(" a) : Yields (alt (do let _ ← char ')'; pure [])
      (do
        let ts ← cut (sepList1 (Askama.ws (char ',')) self)
        let _ ← opt (Askama.ws (char ','))
        let _ ← Askama.ws (cut (char ')'))
        pure ts) : SP (List Target)) fun t l => SpeltPats isLower (a ++ t) l :=
  yields_patsEnd hs .nil (fun _ _ _ _ _ => .cons) (.none ha) fun _ _ _ _ _ _ h1 h2 h3 h4 => .some ha h1 h2 h3 h4

theorem yields_fields {a : Str} (ha : Padded c!"{" a) : Yields (alt (do let _ ← char '}'; pure [])
      (do
        let ts ← cut (sepList1 (Askama.ws (char ',')) (targetNamed self))
        let _ ← opt (Askama.ws (char ','))
        let _ ← Askama.ws (cut (char '}'))
        pure ts) : SP (List (Str × Target))) fun t l => SpeltFields isLower (a ++ t) l :=
  yields_patsEnd (yields_targetNamed hs) .nil (fun _ _ _ _ _ => .cons) (.none ha)
    fun _ _ _ _ _ _ h1 h2 h3 h4 => .some ha h1 h2 h3 h4

theorem yields_targetOne (env : PEnv) (he : env.isLower = isLower) : Yields (targetOne env self) (SpeltOne isLower) := by
  refine (yields_targetLit (isLower := isLower)).opt.bind fun t o ho => ?_
  rcases ho with ⟨rfl, rfl⟩ | ⟨p, rfl, h⟩
  rotate_left
  · exact .pure (by simpa using h)
  refine yields_optChar.bind fun a b ha => ?_
  cases b with
  | true =>
    rw [if_pos rfl] at ha
    refine yields_optChar.bind fun z b hz => ?_
    cases b with
    | true =>
      rw [if_pos rfl] at hz
      exact .pure (by simpa using SpeltOne.unit ha hz)
    | false =>
      have hz : z = [] := by simpa using hz
      subst hz
      refine hs.bind fun t p ht => yields_optChar.bind fun z b hz => ?_
      cases b with
      | true =>
        rw [if_pos rfl] at hz
        exact .pure (by simpa using SpeltOne.paren ha ht hz)
      | false =>
        have hz : z = [] := by simpa using hz
        subst hz
        refine Yields.cut (Yields.bind (Yields.many0L (L := SpeltMorePats isLower)
          (Q := fun t p => ∃ c u, t = c ++ u ∧ Padded c!"," c ∧ SpeltPat isLower u p)
          (yields_pchar.bind fun c _ hc => hs.mono fun u p hu => ⟨c, u, rfl, hc, hu⟩) .nil fun t p u l h hl => ?_)
          fun ts l hl => yields_pcomma.bind fun c _ hc => yields_pcut.bind fun z _ hz => .pure ?_)
        · obtain ⟨c, x, rfl, hc, hx⟩ := h
          simpa using SpeltMorePats.cons hc hx hl
        · simpa using SpeltOne.tuple ha ht hl hc hz
  | false =>
    have ha : a = [] := by simpa using ha
    subst ha
    refine (yields_targetPath env).opt.bind fun t o ho => ?_
    rcases ho with ⟨rfl, rfl⟩ | ⟨p, rfl, hp⟩
    · refine yields_pos.bind fun _ _ h1 => yields_name.lift.bind fun t n hn => yields_verifyName.mono fun u p hu => ?_
      obtain ⟨rfl, rfl, h2, h3⟩ := hu
      obtain ⟨rfl, hn⟩ := hn
      subst h1
      simpa using SpeltOne.name hn h2 h3
    · rw [he] at hp
      intro s i r q s' h
      obtain ⟨before, s1, j1, hb, h⟩ := bind_inv h
      simp only [PT.pos, Prod.mk.injEq, PRes.ok.injEq] at hb
      obtain ⟨⟨rfl, rfl⟩, rfl⟩ := hb
      obtain ⟨o, s2, j2, hw, h⟩ := bind_inv h
      obtain ⟨w, rfl, hw2⟩ := yields_pkw.opt _ _ _ _ _ hw
      have hw' : w = [] ∨ Padded c!"with" w := by
        rcases hw2 with ⟨_, h⟩ | ⟨_, _, h⟩
        · exact .inl h
        · exact .inr h
      obtain ⟨b, s3, j3, hc, h⟩ := bind_inv h
      obtain ⟨a, rfl, ha⟩ := yields_optChar _ _ _ _ _ hc
      cases b with
      | true =>
        rw [if_pos rfl] at ha
        rw [if_pos rfl] at h
        obtain ⟨u, rfl, hu⟩ := ((yields_pats hs ha).bind (R := fun u q => SpeltOne isLower (t ++ (w ++ (a ++ u))) q)
          fun u l hu => Yields.pure (by simpa using SpeltOne.tuplePath hp hw' hu)) _ _ _ _ _ h
        exact ⟨w ++ (a ++ u), by simp, by simpa using hu⟩
      | false =>
        have ha : a = [] := by simpa using ha
        subst ha
        rw [if_neg (by simp)] at h
        obtain ⟨b, s4, j4, hc, h⟩ := bind_inv h
        obtain ⟨a, rfl, ha⟩ := yields_optChar _ _ _ _ _ hc
        cases b with
        | true =>
          rw [if_pos rfl] at ha
          rw [if_pos rfl] at h
          obtain ⟨u, rfl, hu⟩ := ((yields_fields hs ha).bind (R := fun u q => SpeltOne isLower (t ++ (w ++ (a ++ u))) q)
            fun u l hu => Yields.pure (by simpa using SpeltOne.structPath hp hw' hu)) _ _ _ _ _ h
          exact ⟨w ++ (a ++ u), by simp, by simpa using hu⟩
        | false =>
          rw [if_neg (by simp)] at h
          simp only [Bind.bind, PT.bind, goto, Pure.pure, PT.pure, Prod.mk.injEq, PRes.ok.injEq] at h
          obtain ⟨⟨rfl, rfl⟩, _⟩ := h
          exact ⟨[], by simp, by simpa using SpeltOne.path hp⟩

end

/-- Accepted patterns are spellings. -/
theorem target_spelt (env : PEnv) : (n : Nat) → Yields (target env n) (SpeltPat env.isLower)
  | 0 => by
    intro s i r a s' h
    simp [target, PT.stuck] at h
  | n + 1 => by
    have h1 : Yields (targetElem env (target env n)) (SpeltOne env.isLower) :=
      yields_nest.bind fun t _ ht => (yields_targetOne (target_spelt env n) env rfl).bind fun u p hu =>
        yields_modify.bind fun v _ hv => .pure (by subst ht hv; simpa using hu)
    refine (Yields.sepList1 (L := SpeltAlts env.isLower) (L' := fun t l => ∃ x a u l', t = x ++ u ∧ l = a :: l' ∧
      SpeltOne env.isLower x a ∧ SpeltAlts env.isLower u l') yields_ptag h1 .nil
      (fun x c t a u l hx ht hu => .cons hx ht hu) (fun t a u l ht hu => ⟨t, a, u, l, rfl, rfl, ht, hu⟩)).bind
      fun t l ht => ?_
    obtain ⟨x, a, u, l', rfl, rfl, hx, hu⟩ := ht
    cases l' with
    | nil =>
      cases hu
      exact .pure (by simpa using SpeltPat.one hx)
    | cons b l' => exact .pure (by simpa using SpeltPat.chain hx hu (by simp))

end Askama
