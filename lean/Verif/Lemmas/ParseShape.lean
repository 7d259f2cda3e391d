import Verif.Lemmas.LexShape
import Verif.Spec.Spells
import Verif.Model.ParseExpr

/-!
# Parsed expressions are shaped

`Gives P p Q`: on an input that satisfies `P`, the value of `p` satisfies `Q`.
-/

namespace Askama

open PT Spec

section
variable {σ α β γ : Type}

/-- The value of a parser that succeeds. -/
def Gives (P : Str → Prop) (p : PT σ α) (Q : α → Prop) : Prop :=
  ∀ s i r a s', P i → p s i = (.ok r a, s') → Q a

/-- Any input. -/
abbrev AnyIn : Str → Prop := fun _ => True

variable {P : Str → Prop} {p : PT σ α} {Q : α → Prop}

theorem Yields.gives {R : Str → α → Prop} (h : Yields p R) (hq : ∀ t a, R t a → Q a) : Gives P p Q :=
  fun s i r a s' _ hp => by
    obtain ⟨t, _, h2⟩ := h s i r a s' hp
    exact hq t a h2

theorem Gives.mono {R : α → Prop} (h : Gives P p Q) (hq : ∀ a, Q a → R a) : Gives P p R :=
  fun s i r a s' hi hp => hq a (h s i r a s' hi hp)

theorem Gives.weaken (h : Gives AnyIn p Q) : Gives P p Q := fun s i r a s' _ hp => h s i r a s' trivial hp

theorem Gives.bind {f : α → PT σ β} {R : β → Prop} (h : Gives P p Q) (hf : ∀ a, Q a → Gives AnyIn (f a) R) :
    Gives P (p >>= f) R := by
  intro s i r b s' hi hp
  simp only [Bind.bind, PT.bind] at hp
  split at hp
  · rename_i h1
    exact hf _ (h _ _ _ _ _ hi h1) _ _ _ _ _ trivial hp
  · simp at hp
  · simp at hp

theorem gives_any : Gives P p fun _ => True := fun _ _ _ _ _ _ _ => trivial

/-- The value of the first parser does not matter. -/
theorem Gives.then {f : α → PT σ β} {R : β → Prop} (hf : ∀ a, Gives AnyIn (f a) R) : Gives P (p >>= f) R :=
  gives_any.bind fun a _ => hf a

theorem Gives.pure {a : α} (h : Q a) : Gives P (pure a : PT σ α) Q := by
  intro s i r b s' _ hp
  simp only [Pure.pure, PT.pure, Prod.mk.injEq, PRes.ok.injEq] at hp
  obtain ⟨⟨rfl, rfl⟩, _⟩ := hp
  exact h

theorem Gives.map {f : α → β} {R : β → Prop} (h : Gives P p Q) (hf : ∀ a, Q a → R (f a)) : Gives P (p.map f) R :=
  Gives.bind h fun a hq => Gives.pure (hf a hq)

theorem Gives.alt {q : PT σ α} (hp : Gives P p Q) (hq : Gives P q Q) : Gives P (p.alt q) Q := by
  intro s i r a s' hi h
  simp only [PT.alt] at h
  split at h
  · exact hq _ _ _ _ _ hi h
  · exact hp _ _ _ _ _ hi h

theorem Gives.opt (hp : Gives P p Q) : Gives P p.opt fun a => ∀ b, a = some b → Q b := by
  intro s i r a s' hi h
  simp only [PT.opt] at h
  split at h
  · rename_i h1
    simp only [Prod.mk.injEq, PRes.ok.injEq] at h
    obtain ⟨⟨rfl, rfl⟩, _⟩ := h
    rintro b ⟨⟩
    exact hp _ _ _ _ _ hi h1
  · simp only [Prod.mk.injEq, PRes.ok.injEq] at h
    obtain ⟨⟨rfl, rfl⟩, _⟩ := h
    rintro b ⟨⟩
  · simp at h
  · simp at h

theorem Gives.cut (hp : Gives P p Q) : Gives P p.cut Q := by
  intro s i r a s' hi h
  simp only [PT.cut] at h
  split at h
  · simp at h
  · exact hp _ _ _ _ _ hi h

theorem Gives.ws (hp : Gives AnyIn p Q) : Gives P (ws p) Q :=
  Gives.then fun _ => hp.bind fun _ ha => Gives.then fun _ => .pure ha

theorem gives_error : Gives P (error : PT σ α) Q := by
  intro s i r a s' _ h
  simp [PT.error] at h

theorem gives_failAt {j : Str} {m : Option Msg} : Gives P (failAt j m : PT σ α) Q := by
  intro s i r a s' _ h
  simp [failAt] at h

theorem gives_tooDeep : Gives P (tooDeep : PT σ α) Q := by
  intro s i r a s' _ h
  simp [tooDeep] at h

theorem gives_many0F (hp : Gives AnyIn p Q) : (n : Nat) → Gives AnyIn (many0F p n) fun l => ∀ a ∈ l, Q a
  | 0 => by
    intro s i r a s' _ h
    simp [many0F, PT.stuck] at h
  | n + 1 => by
    intro s i r l s' _ h
    simp only [many0F] at h
    split at h
    · rename_i a s1 h1
      split at h
      · simp at h
      · have ha := hp _ _ _ _ _ trivial h1
        exact (gives_many0F hp n).map (R := fun l => ∀ a ∈ l, Q a) (f := (_ :: ·)) (fun l hl b hb => by
          rcases List.mem_cons.mp hb with rfl | hb
          · exact ha
          · exact hl b hb) _ _ _ _ _ trivial h
    · simp only [Prod.mk.injEq, PRes.ok.injEq] at h
      obtain ⟨⟨rfl, rfl⟩, _⟩ := h
      simp
    · simp at h
    · simp at h

theorem Gives.many0 (hp : Gives AnyIn p Q) : Gives P (many0 p) fun l => ∀ a ∈ l, Q a :=
  fun s i r a s' _ h => gives_many0F hp _ s i r a s' trivial h

theorem gives_sepRestF {sep : PT σ γ} (hp : Gives AnyIn p Q) : (n : Nat) → Gives AnyIn (sepRestF sep p n) fun l => ∀ a ∈ l, Q a
  | 0 => by
    intro s i r a s' _ h
    simp [sepRestF, PT.stuck] at h
  | n + 1 => by
    intro s i r l s' _ h
    simp only [sepRestF] at h
    split at h
    · simp only [Prod.mk.injEq, PRes.ok.injEq] at h
      obtain ⟨⟨rfl, rfl⟩, _⟩ := h
      simp
    · simp at h
    · simp at h
    · split at h
      · simp at h
      · split at h
        · simp only [Prod.mk.injEq, PRes.ok.injEq] at h
          obtain ⟨⟨rfl, rfl⟩, _⟩ := h
          simp
        · simp at h
        · simp at h
        · rename_i h1
          have ha := hp _ _ _ _ _ trivial h1
          exact (gives_sepRestF hp n).map (R := fun l => ∀ a ∈ l, Q a) (f := (_ :: ·)) (fun l hl b hb => by
            rcases List.mem_cons.mp hb with rfl | hb
            · exact ha
            · exact hl b hb) _ _ _ _ _ trivial h

theorem Gives.sepList0 {sep : PT σ γ} (hp : Gives AnyIn p Q) : Gives P (sepList0 sep p) fun l => ∀ a ∈ l, Q a := by
  intro s i r l s' _ h
  simp only [PT.sepList0] at h
  split at h
  · simp only [Prod.mk.injEq, PRes.ok.injEq] at h
    obtain ⟨⟨rfl, rfl⟩, _⟩ := h
    simp
  · simp at h
  · simp at h
  · rename_i h1
    have ha := hp _ _ _ _ _ trivial h1
    have hr : Gives AnyIn (sepRest sep p) fun l => ∀ a ∈ l, Q a :=
      fun s i r a s' hi h => gives_sepRestF hp _ s i r a s' hi h
    exact hr.map (R := fun l => ∀ a ∈ l, Q a) (f := (_ :: ·)) (fun l hl b hb => by
      rcases List.mem_cons.mp hb with rfl | hb
      · exact ha
      · exact hl b hb) _ _ _ _ _ trivial h

theorem Gives.lift {p : PT Unit α} {Q : α → Prop} (hp : Gives AnyIn p Q) : Gives P (PT.lift p : PT σ α) Q := by
  intro s i r a s' _ h
  simp only [PT.lift, Prod.mk.injEq] at h
  exact hp () i r a (p () i).2 trivial (by rw [← h.1])

end

/-! ## Expressions -/

/-- Shaped, and binding at least this tightly. -/
def ShapedAt (k : Nat) (e : Expr) : Prop := shaped e = true ∧ k ≤ strength e

theorem ShapedAt.weak {k l : Nat} {e : Expr} (h : ShapedAt k e) (hl : l ≤ k) : ShapedAt l e := ⟨h.1, Nat.le_trans hl h.2⟩

/-- The input does not begin with a minus sign. -/
def noMinus (i : Str) : Prop := i.head? ≠ some '-'

/-- Where each function is called. -/
def NT.pre : NT → Str → Prop
  | .suffix | .single => noMinus
  | _ => AnyIn

/-- What each function returns. -/
def NT.shape : (nt : NT) → nt.ty → Prop
  | .parse, e => ShapedAt 0 e
  | .bin k, e => k < nLayers → ShapedAt (k + 1) e
  | .filtered, e => ShapedAt 10 e
  | .prefix, e => ShapedAt 11 e
  | .suffix, e => ShapedAt 12 e
  | .single, e => ShapedAt 12 e
  | .group, e => ShapedAt 12 e
  | .array, e => ShapedAt 12 e
  | .args _, es => ∀ e ∈ es, ShapedAt 0 e
  | .named, p => ShapedAt 0 p.2
  | .index, e => ShapedAt 0 e
  | .call, es => ∀ e ∈ es, ShapedAt 0 e

/-- The functions one level deeper do so. -/
def SelfShaped (self : Self) : Prop := ∀ nt, Gives nt.pre (self nt) nt.shape

theorem shapedAll_iff (es : List Expr) : shapedAll es = true ↔ ∀ e ∈ es, ShapedAt 0 e := by
  induction es with
  | nil => simp [shapedAll]
  | cons e es ih => simp [shapedAll, ih, ShapedAt]

theorem layer_op {k : Nat} (hk : k < nLayers) {op : Str} (h : op ∈ layerOps k) :
    ∃ o, binOpOf op = some o ∧ o.prec = k := by
  have : ∀ k < nLayers, ∀ op ∈ layerOps k, ∃ o ∈ binOpOf op, o.prec = k := by
    unfold nLayers
    decide
  obtain ⟨o, h1, h2⟩ := this k hk op h
  exact ⟨o, h1, h2⟩

section
variable {self : Self} (hs : SelfShaped self)
include hs

theorem parse_gives {P : Str → Prop} : Gives P (self .parse) (ShapedAt 0) := (hs .parse).weaken

theorem operand_gives {k : Nat} (hk : k < nLayers) : Gives AnyIn (operand self k) (ShapedAt (k + 2)) := by
  unfold operand
  split
  · rename_i h
    exact (hs (.bin (k + 1))).mono fun _ he => he h
  · rename_i h
    have : k = 8 := by simp only [nLayers] at hk h; omega
    subst this
    exact hs .filtered

theorem binBody_shape {k : Nat} (hk : k < nLayers) : Gives AnyIn (binBody self k) (ShapedAt (k + 1)) := by
  refine (operand_gives hs hk).bind fun l hl => Gives.bind (Q := fun rs => ∀ r ∈ rs, r.1 ∈ layerOps k ∧ ShapedAt (k + 2) r.2)
    (Gives.many0 (Gives.bind (Q := fun op => op ∈ layerOps k) (Gives.ws ((yields_altTags _).gives fun _ _ h => h.2))
      fun op hop => (operand_gives hs hk).bind fun r hr => .pure ⟨hop, hr⟩)) fun rs hrs => .pure ?_
  have hl' : ShapedAt (k + 1) l := hl.weak (by omega)
  clear hl
  induction rs generalizing l with
  | nil => exact hl'
  | cons r rs ih =>
    simp only [List.foldl_cons]
    refine ih _ (fun r' hr' => hrs r' (List.mem_cons_of_mem _ hr')) ?_
    obtain ⟨h1, h2⟩ := hrs r List.mem_cons_self
    obtain ⟨o, ho, hp⟩ := layer_op hk h1
    refine ⟨?_, ?_⟩
    · simp only [shaped, ho, hp, hl'.1, h2.1, decide_eq_true hl'.2, decide_eq_true h2.2, Bool.and_self]
    · simp only [strength, ho, hp]
      omega

theorem rangeRight_gives : Gives AnyIn (rangeRight self) fun r => (r.1 = c!"..=" ∨ r.1 = c!"..") ∧
    shapedOpt r.2 = true := by
  refine Gives.bind (Q := fun op => op = c!"..=" ∨ op = c!"..") (Gives.ws ((yields_altTags _).gives fun _ _ h => by
    simpa using h.2)) fun op hop => (hs (.bin 0)).opt.bind fun r hr => .pure ⟨hop, ?_⟩
  cases r with
  | none => rfl
  | some e =>
    have h := hr e rfl (by decide)
    simp only [shapedOpt, h.1, decide_eq_true (show 1 ≤ strength e from h.2), Bool.and_self]

omit hs in
theorem range_shaped {op : Str} {a b : Option Expr} (ho : op = c!"..=" ∨ op = c!"..") (ha : shapedOpt a = true)
    (hb : shapedOpt b = true) : ShapedAt 0 (.range op a b) := by
  refine ⟨?_, Nat.zero_le _⟩
  have : (op == c!".." || op == c!"..=") = true := by rcases ho with rfl | rfl <;> rfl
  simp only [shaped, this, ha, hb, Bool.and_self]

theorem parseBody_shape : Gives AnyIn (parseBody self) (ShapedAt 0) := by
  refine .alt ((rangeRight_gives hs).bind fun r hr => .pure (range_shaped hr.1 rfl hr.2)) ?_
  refine (hs (.bin 0)).bind fun l hl => ?_
  have hl := hl (by decide)
  refine (rangeRight_gives hs).opt.bind fun r hr => ?_
  cases r with
  | none => exact .pure (hl.weak (Nat.zero_le _))
  | some r =>
    obtain ⟨op, r⟩ := r
    have h := hr _ rfl
    refine .pure (range_shaped h.1 ?_ h.2)
    simp only [shapedOpt, hl.1, decide_eq_true (show 1 ≤ strength l from hl.2), Bool.and_self]

theorem filteredBody_shape : Gives AnyIn (filteredBody self) (ShapedAt 10) := by
  refine (hs .prefix).bind fun l hl => Gives.bind (Q := fun fs => ∀ f ∈ fs, isName f.1 = true ∧
    ∀ e ∈ f.2.getD [], ShapedAt 0 e) (Gives.many0 (Gives.then fun _ => Gives.bind (Q := fun n => isName n = true)
      (Gives.ws (yields_identifier.gives fun _ _ h => h.2)) fun n hn => (hs (.args false)).opt.bind fun a ha =>
        .pure ⟨hn, ?_⟩)) fun fs hfs => .pure ?_
  rotate_left
  · cases a with
    | none => simp
    | some a => exact ha a rfl
  · have hl' : ShapedAt 10 l := ShapedAt.weak hl (by omega)
    clear hl
    induction fs generalizing l with
    | nil => exact hl'
    | cons f fs ih =>
      simp only [List.foldl_cons]
      refine ih _ (fun f' hf' => hfs f' (List.mem_cons_of_mem _ hf')) ?_
      obtain ⟨h1, h2⟩ := hfs f List.mem_cons_self
      refine ⟨?_, Nat.le_refl _⟩
      have h3 := (shapedAll_iff _).mpr h2
      simp only [shaped, shapedAll, h1, hl'.1, h3, decide_eq_true hl'.2, Bool.and_self]

omit hs in
theorem prefix_stop : (n : Nat) → (s : Unit) → (i r : Str) → (a : List Str) → (s' : Unit) →
    many0F (ws (altTags [c!"!", c!"-"])) n s i = (.ok r a, s') → noMinus r
  | 0, s, i, r, a, s', h => by simp [many0F, PT.stuck] at h
  | n + 1, s, i, r, a, s', h => by
    simp only [many0F] at h
    split at h
    · split at h
      · simp at h
      · simp only [PT.map, PT.bind] at h
        split at h
        · rename_i h2
          simp only [PT.pure, Prod.mk.injEq, PRes.ok.injEq] at h
          obtain ⟨⟨rfl, _⟩, _⟩ := h
          exact prefix_stop n _ _ _ _ _ h2
        · simp at h
        · simp at h
    · rename_i h1
      simp only [Prod.mk.injEq, PRes.ok.injEq] at h
      obtain ⟨⟨rfl, rfl⟩, _⟩ := h
      intro hm
      cases i with
      | nil => cases hm
      | cons c i =>
        simp only [List.head?_cons, Option.some.injEq] at hm
        subst hm
        have : (ws (altTags [c!"!", c!"-"])) s ('-' :: i) = (.ok (i.dropWhile isWsp) c!"-", ()) := by
          refine ws_ok ?_
          rfl
        rw [this] at h1
        cases h1
    · simp at h
    · simp at h

theorem prefixBody_shape (rem : Nat) : Gives AnyIn (prefixBody self rem) (ShapedAt 11) := by
  intro s i r e s' _ h
  simp only [prefixBody, Bind.bind, PT.bind] at h
  split at h
  · rename_i r1 ops s1 h1
    have hm := prefix_stop _ _ _ _ _ _ h1
    have hops : ∀ op ∈ ops, op = c!"!" ∨ op = c!"-" :=
      (Gives.many0 (P := AnyIn) (Gives.ws ((yields_altTags _).gives fun _ _ h => by simpa using h.2))) _ _ _ _ _ trivial h1
    split at h
    · rename_i r2 e2 s2 h2
      have he : ShapedAt 12 e2 := hs .suffix _ _ _ _ _ hm h2
      split at h
      · rename_i hlen
        simp only [Pure.pure, PT.pure, Prod.mk.injEq, PRes.ok.injEq] at h
        obtain ⟨⟨rfl, rfl⟩, _⟩ := h
        clear h1 hlen
        have he : ShapedAt 11 e2 := he.weak (by omega)
        induction ops with
        | nil => exact he
        | cons op ops ih =>
          have h3 := ih (fun op' h' => hops op' (List.mem_cons_of_mem _ h'))
          have h4 : (op == c!"!" || op == c!"-") = true := by
            rcases hops op List.mem_cons_self with rfl | rfl <;> rfl
          refine ⟨?_, Nat.le_refl _⟩
          simp only [List.foldr_cons, shaped, h4, h3.1, decide_eq_true h3.2, Bool.and_self]
      · simp [tooDeep] at h
    · simp at h
    · simp at h
  · simp at h
  · simp at h

omit hs in
theorem path_shape (env : PEnv) : Gives AnyIn (pathVarBool env) (ShapedAt 12) := by
  refine Gives.bind (Q := fun p => match p with
    | .path v => pathNames v = true
    | .ident v => isName v = true) ?_ fun p hp => ?_
  · refine Gives.then fun root => Gives.bind (Q := fun n => isName n = true) (yields_identifier.gives fun _ _ h => h.2)
      fun n hn => Gives.bind (Q := fun r => ∀ x ∈ r.getD [], isName x = true) ?_ fun rest hr => ?_
    · refine (Gives.opt (Q := fun l => ∀ x ∈ l, isName x = true) ?_).mono fun r h => ?_
      · have hp : Gives AnyIn (do let _ ← ws (tag c!"::"); identifier : P Str) fun n => isName n = true :=
          Gives.then fun _ => yields_identifier.gives fun _ _ h => h.2
        refine Gives.bind hp fun a ha => (Gives.many0 hp).map fun l hl x hx => ?_
        rcases List.mem_cons.mp hx with rfl | hx
        · exact ha
        · exact hl x hx
      · cases r with
        | none => simp
        | some l => exact h l rfl
    · have hr' : (rest.getD []).all isName = true := by simpa [List.all_eq_true] using hr
      have hne : n ≠ [] := by rintro rfl; cases hn
      dsimp only
      generalize rest.getD [] = l at hr'
      have hp1 : pathNames (n :: l) = true := by
        cases n with
        | nil => exact absurd rfl hne
        | cons c n => simp only [pathNames, hn, hr', Bool.and_self]
      split
      · exact .pure (by simp [pathNames, hn, hr'])
      · split
        · exact .pure hn
        · exact .pure hp1
      · exact .pure hp1
  · cases p with
    | path v => exact .pure ⟨hp, Nat.le_refl _⟩
    | ident v =>
      dsimp only
      split
      · rename_i h
        exact .pure ⟨by rcases h with rfl | rfl <;> rfl, Nat.le_refl _⟩
      · exact .pure ⟨hp, Nat.le_refl _⟩

theorem singleBody_shape (env : PEnv) : Gives noMinus (singleBody self env) (ShapedAt 12) := by
  refine .alt ?_ <| .alt ((yields_strLit.gives fun _ _ h => h).map fun a h => ⟨h, Nat.le_refl _⟩) <|
    .alt ((yields_charLit.gives fun _ _ h => h).map fun a h => ⟨h, Nat.le_refl _⟩) <|
    .alt (path_shape env).weaken <| .alt (hs .array).weaken (hs .group).weaken
  intro s i r e s' hi h
  simp only [PT.map, PT.bind] at h
  split at h
  · rename_i h1
    obtain ⟨t, rfl, rfl, sg, b, rfl, hsg, hb⟩ := yields_numLit _ _ _ _ _ h1
    simp only [PT.pure, Prod.mk.injEq, PRes.ok.injEq] at h
    obtain ⟨⟨rfl, rfl⟩, _⟩ := h
    rcases hsg with rfl | rfl
    · exact ⟨hb.isNumber, Nat.le_refl _⟩
    · exact absurd rfl hi
  · simp at h
  · simp at h

theorem groupBody_shape : Gives AnyIn (groupBody self) (ShapedAt 12) := by
  refine Gives.then fun _ => (parse_gives hs).opt.bind fun e he => ?_
  cases e with
  | none => exact Gives.then fun _ => .pure ⟨rfl, Nat.le_refl _⟩
  | some e =>
    have h := he e rfl
    refine Gives.then fun c => ?_
    cases c with
    | none => exact Gives.then fun _ => .pure ⟨h.1, Nat.le_refl _⟩
    | some c =>
      refine Gives.bind (Q := fun es => ∀ e ∈ es, ShapedAt 0 e) (Gives.many0 (Gives.then fun _ => (parse_gives hs).ws))
        fun es hes => Gives.then fun _ => Gives.then fun _ => .pure ⟨?_, Nat.le_refl _⟩
      simp only [shaped, shapedAll, h.1, (shapedAll_iff _).mpr hes, Bool.and_self]

theorem arrayBody_shape : Gives AnyIn (arrayBody self) (ShapedAt 12) := by
  refine Gives.then fun _ => Gives.cut (Gives.bind (parse_gives hs).ws.sepList0 fun es hes => Gives.then fun _ =>
    Gives.then fun _ => .pure ⟨?_, Nat.le_refl _⟩)
  simp only [shaped, (shapedAll_iff _).mpr hes]

theorem argument_shape (start : Str) (m : Bool) : Gives AnyIn (argument self start m) (ShapedAt 0) := by
  refine Gives.then fun st => Gives.bind (Q := ShapedAt 0) (.alt ?_ (parse_gives hs).lift) fun e he => ?_
  · split
    · refine Gives.bind (Gives.lift (hs .named)) fun p hp => Gives.then fun t => ?_
      obtain ⟨n, v⟩ := p
      dsimp only
      split
      · exact gives_failAt
      · exact Gives.then fun _ => .pure ⟨hp.1, Nat.zero_le _⟩
    · exact gives_error
  · dsimp only
    split
    · exact .pure he
    · exact gives_failAt
    · exact .pure he

theorem argsBody_shape (m : Bool) : Gives AnyIn (argsBody self m) (fun es => ∀ e ∈ es, ShapedAt 0 e) := by
  refine Gives.then fun st => Gives.then fun _ => Gives.cut (Gives.bind (Q := fun es => ∀ e ∈ es, ShapedAt 0 e) ?_
    fun es hes => Gives.then fun _ => Gives.then fun _ => .pure hes)
  intro s i r a s' _ h
  simp only [Prod.mk.injEq] at h
  exact Gives.sepList0 (P := AnyIn) (argument_shape hs st m).ws _ _ _ _ _ trivial (Prod.ext h.1 rfl)

theorem namedBody_shape : Gives AnyIn (namedBody self) (fun p => ShapedAt 0 p.2) :=
  Gives.then fun _ => Gives.then fun _ => (parse_gives hs).bind fun _ he => .pure he

theorem indexBody_shape : Gives AnyIn (indexBody self) (ShapedAt 0) :=
  Gives.then fun _ => Gives.cut ((parse_gives hs).ws.bind fun _ he => Gives.then fun _ => .pure he)

omit hs in
theorem suffixAttr_shape : Gives AnyIn suffixAttr fun x => ∃ a, x = .attr a ∧
    (isName a || headIs (fun c => isDec c || c == '-') a) = true := by
  refine Gives.then fun _ => Gives.bind (Q := fun a => (isName a || headIs (fun c => isDec c || c == '-') a) = true)
    (Gives.cut (.alt (yields_numLit.gives fun t a h => ?_) (yields_identifier.gives fun t a h => by simp [h.2])))
      fun a ha => .pure ⟨a, rfl, ha⟩
  obtain ⟨rfl, sg, b, rfl, rfl | rfl, hb⟩ := h
  · have := hb.isNumber
    simp only [isNumber, Bool.and_eq_true] at this
    have h1 := this.1.1
    cases b with
    | nil => cases h1
    | cons c b =>
      simp only [headIs] at h1
      simp [headIs, h1]
  · simp [headIs]

theorem suffixLoop_shape : (n : Nat) → (e : Expr) → ShapedAt 12 e → Gives AnyIn (suffixLoop self n e) (ShapedAt 12)
  | 0, e, _ => by
    intro s i r a s' _ h
    simp [suffixLoop, PT.stuck] at h
  | n + 1, e, he => by
    simp only [suffixLoop]
    refine Gives.then fun i => Gives.bind (Q := fun x => ∀ y, x = some y → match y with
      | .attr a => (isName a || headIs (fun c => isDec c || c == '-') a) = true
      | .index k => ShapedAt 0 k
      | .call args => ∀ e ∈ args, ShapedAt 0 e
      | _ => True) (Gives.opt ?_) fun x hx => ?_
    · refine .alt (suffixAttr_shape.mono ?_) <| .alt ((hs .index).map fun _ h => h) <|
        .alt ((hs .call).map fun _ h => h) <| .alt (Gives.then fun _ => Gives.then fun _ => .pure trivial)
          (Gives.then fun _ => Gives.then fun _ => Gives.cut (Gives.then fun _ => Gives.then fun _ => .pure trivial))
      rintro _ ⟨a, rfl, h⟩
      exact h
    · have hd := decide_eq_true he.2
      cases x with
      | none => exact .pure he
      | some y =>
        have h := hx y rfl
        cases y with
        | attr a =>
          exact suffixLoop_shape n _ ⟨by simp only [shaped, hd, he.1, Bool.true_and]; exact h, Nat.le_refl _⟩
        | index k =>
          exact suffixLoop_shape n _ ⟨by simp only [shaped, hd, he.1, Bool.true_and]; exact h.1, Nat.le_refl _⟩
        | call args =>
          exact suffixLoop_shape n _ ⟨by
            simp only [shaped, hd, he.1, Bool.true_and]; exact (shapedAll_iff _).mpr h, Nat.le_refl _⟩
        | try_ => exact suffixLoop_shape n _ ⟨by simp only [shaped, hd, he.1, Bool.true_and], Nat.le_refl _⟩
        | macroCall a =>
          dsimp only
          split
          · exact suffixLoop_shape n _ ⟨he.1, Nat.le_refl _⟩
          · rename_i m
            have hn : isName m = true := he.1
            have : pathNames [m] = true := by
              cases m with
              | nil => cases hn
              | cons c m => simp only [pathNames, hn]; rfl
            exact suffixLoop_shape n _ ⟨this, Nat.le_refl _⟩
          · exact gives_failAt

theorem suffixBody_shape : Gives noMinus (suffixBody self) (ShapedAt 12) :=
  (hs .single).bind fun e he => Gives.then fun _ => suffixLoop_shape hs _ e he

end

theorem exprP_shape (env : PEnv) : (n : Nat) → SelfShaped (exprP env n)
  | 0 => fun nt => by
    simp only [exprP]
    exact gives_tooDeep
  | n + 1 => fun nt => by
    have hs := exprP_shape env n
    simp only [exprP]
    cases nt with
    | parse => exact parseBody_shape hs
    | bin k => exact fun s i r a s' hi h hk => binBody_shape hs hk s i r a s' hi h
    | filtered => exact filteredBody_shape hs
    | «prefix» => exact prefixBody_shape hs _
    | suffix => exact suffixBody_shape hs
    | single => exact singleBody_shape hs env
    | group => exact groupBody_shape hs
    | array => exact arrayBody_shape hs
    | args m => exact argsBody_shape hs m
    | named => exact namedBody_shape hs
    | index => exact indexBody_shape hs
    | call => exact hs (.args false)

/-- Parsed expressions are shaped. -/
theorem parsed_shaped {env : PEnv} {n : Nat} {i r : Str} {e : Expr} (h : exprP env n .parse () i = (.ok r e, ())) :
    shaped e = true := (exprP_shape env n .parse _ _ _ _ _ trivial h).1

end Askama
