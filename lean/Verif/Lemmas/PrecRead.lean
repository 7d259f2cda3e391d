import Verif.Lemmas.Prec

/-!
# The expression parser on printed operator trees, continued (C28)

Each level of the parser reads its own operands in a loop, so beside "level `k` reads this text" there is, for each
loop, a statement about reading the text as the first part of a longer chain.
-/

namespace Askama

open Spec PT

section
variable {env : PEnv}

/-! ### Facts about first characters -/

theorem identStart_facts {c : Char} (h : identStart c = true) :
    isDigitR 10 c = false ∧ c ≠ '-' ∧ c ≠ '"' ∧ c ≠ '\'' ∧ c ≠ '!' ∧ c ≠ '.' ∧ c ≠ ':' ∧ isWsp c = false := by
  have ne : ∀ d : Char, identStart d = false → c ≠ d := by rintro d hd rfl; simp [h] at hd
  refine ⟨?_, ne _ rfl, ne _ rfl, ne _ rfl, ne _ rfl, ne _ rfl, ne _ rfl, ?_⟩
  · cases hd : isDigitR 10 c with
    | false => rfl
    | true =>
      exfalso
      unfold isDigitR at hd
      unfold identStart isAsciiAlpha at h
      simp [Char.le_def, UInt32.le_iff_toNat_le, ← Char.toNat_val] at hd h
      have h1 : c ≠ '_' := by rintro rfl; simp at hd
      have h2 : c.val.toNat = c.toNat := rfl
      simp [h1] at h
      omega
  · cases hw : isWsp c with
    | false => rfl
    | true =>
      exfalso
      unfold isWsp at hw
      simp at hw
      rcases hw with ((rfl | rfl) | rfl) | rfl <;> simp [identStart, isAsciiAlpha] at h

theorem follow_head {p : Nat} {f : Bool} {r : Str} (hf : Follow p f r) :
    ∀ c, (r.dropWhile isWsp).head? = some c → c ≠ ':' ∧ (p ≤ 11 → c ≠ '(') := by
  intro c hc
  cases hf with
  | ending h =>
    rcases ending_head h c hc with hb | rfl
    · have := badStart_facts hb
      exact ⟨this.2.2.2.2.2.1, fun _ => this.2.2.2.2.2.2.2.2.1⟩
    · simp
  | word g d r hg hne hd =>
    rw [gap_drop hg (noWs_cons (start_noWs hd))] at hc
    simp at hc
    subst hc
    refine ⟨?_, fun _ => ?_⟩ <;> (rintro rfl; simp [identStart, isAsciiAlpha] at hd)
  | op g o r hg h1 h2 h3 => rw [op_drop hg] at hc; cases o <;> (simp [BinOp.sym] at hc; subst hc; simp)
  | range g r hg =>
    rw [gap_drop hg (noWs_cons (by decide))] at hc
    simp at hc; subst hc; simp
  | filter r h =>
    rw [noWs_drop (noWs_cons (by decide))] at hc
    simp at hc; subst hc; simp
  | suffix g d r hg h hd =>
    rw [gap_drop hg (noWs_cons (by rcases hd with rfl | rfl | rfl | rfl <;> rfl))] at hc
    simp at hc
    subst hc
    refine ⟨?_, fun h => by omega⟩
    rcases hd with rfl | rfl | rfl | rfl <;> simp
  | mac g g' r hg hg' h =>
    rw [gap_drop hg (noWs_cons (by decide))] at hc
    simp at hc; subst hc; simp

theorem ws_noIdent {c : Char} (h : isWsp c = true) : identCont c = false := by
  unfold isWsp at h
  simp at h
  rcases h with ((rfl | rfl) | rfl) | rfl <;> rfl

theorem drop_noIdent {r : Str} (h : NoIdent (r.dropWhile isWsp)) : NoIdent r := by
  cases r with
  | nil => exact h
  | cons c r =>
    intro x hx
    simp at hx
    subst hx
    cases hw : isWsp c with
    | true => exact ws_noIdent hw
    | false =>
      rw [List.dropWhile_cons_of_neg (by simp [hw])] at h
      exact h c rfl

theorem gap_noIdent {g r : Str} (hg : Blank g) (hr : NoIdent r) : NoIdent (g ++ r) := by
  cases g with
  | nil => exact hr
  | cons c g =>
    intro x hx
    simp at hx
    subst hx
    exact ws_noIdent (isWsp_iff.2 (hg c (by simp)))

theorem follow_noIdent {p : Nat} {f : Bool} {r : Str} (hf : Follow p f r) : NoIdent r := by
  cases hf with
  | ending h =>
    refine drop_noIdent fun c hc => ?_
    rcases ending_head h c hc with hb | rfl
    · revert hb
      unfold BadStart
      clear hc
      revert c
      decide
    · rfl
  | word g d r hg hne hd =>
    obtain ⟨c, z, hc, hw⟩ := blank_head (r := d :: r) hg hne
    rw [hc]
    intro x hx
    simp at hx
    subst hx
    exact ws_noIdent hw
  | op g o r hg h1 h2 h3 =>
    refine gap_noIdent hg ?_
    obtain ⟨c, t, hs, _, hn⟩ := sym_first o
    rw [hs]
    intro x hx
    simp at hx
    subst hx
    exact hn
  | range g r hg => exact gap_noIdent hg (by intro c hc; simp at hc; subst hc; rfl)
  | filter r h => intro c hc; simp at hc; subst hc; rfl
  | suffix g d r hg h hd =>
    refine gap_noIdent hg ?_
    intro c hc
    simp at hc
    subst hc
    rcases hd with rfl | rfl | rfl | rfl <;> rfl
  | mac g g' r hg hg' h => exact gap_noIdent hg (by intro c hc; simp at hc; subst hc; rfl)

/-! ### Reading -/

/-- Level `k` reads the text `t` as `T`. -/
def Reads (env : PEnv) (k : Nat) (t : Str) (T : Expr) (f : Bool) (nd : Nat) : Prop :=
  ∀ n rest, Follow k f rest → nd + 11 ≤ n + k →
    ∃ x, Left f rest x ∧ atPos env n k () (t ++ rest) = (.ok x T, ())

/-- Level `k < 9` reads `t` and goes on reading operands. -/
def ReadsBin (env : PEnv) (k : Nat) (t : Str) (T : Expr) (f : Bool) (nd : Nat) : Prop :=
  ∀ n rest, Follow (k + 1) f rest → nd + 10 ≤ n + k →
    ∃ x, Left f rest x ∧ ∀ r' ps, PT.many0 (binRest (exprP env n) k) () x = (.ok r' ps, ()) →
      atPos env (n + 1) k () (t ++ rest) = (.ok r' (ps.foldl (fun l p => .binop p.1 l p.2) T), ())

/-- `filtered` reads `t` and goes on reading filters. -/
def ReadsFil (env : PEnv) (t : Str) (T : Expr) (f : Bool) (nd : Nat) : Prop :=
  ∀ n rest, Follow 10 f rest → nd + 1 ≤ n →
    ∃ x, Left f rest x ∧ ∀ r' ps, PT.many0 (filterP (exprP env n)) () x = (.ok r' ps, ()) →
      atPos env (n + 1) 9 () (t ++ rest) = (.ok r' (ps.foldl (fun res f => .filter f.1 (res :: f.2.getD [])) T), ())

/-- `prefix` reads `t`, which starts with some operators. -/
def ReadsPre (env : PEnv) (t : Str) (T : Expr) (nd : Nat) : Prop :=
  ∀ n rest, Follow 10 false rest → nd ≤ n → ∃ i ops T0,
    PT.many0 (ws (altTags [c!"!", c!"-"])) () (t ++ rest) = (.ok i ops, ()) ∧
    exprP env n .suffix () i = (.ok rest T0, ()) ∧ T = ops.foldr (fun op e => .unary op e) T0 ∧ ops.length ≤ nd

/-- The suffix loop reads `t` and goes on; `nm`: the text ends with a number. -/
def ReadsSuf (env : PEnv) (t : Str) (T : Expr) (nd : Nat) (nm : Bool) : Prop :=
  ∀ n rest, Follow 12 false rest → (nm = true → ¬ DotDigit rest) → nd ≤ n + 1 → ∃ fuel, rest.length < fuel ∧
    atPos env (n + 1) 11 () (t ++ rest) = suffixLoop (exprP env n) fuel T () rest

/-- First character of an operand of a suffix. -/
def atomChar (c : Char) : Prop :=
  identStart c = true ∨ c = '(' ∨ c = '[' ∨ c = '"' ∨ c = '\'' ∨ c = ':' ∨ isDigitR 10 c = true

/-- ... -/
def StartAtom (t : Str) : Prop := ∃ c t', t = c :: t' ∧ atomChar c

/-- First character of an expression. -/
def StartExpr (t : Str) : Prop := ∃ c t', t = c :: t' ∧ (atomChar c ∨ c = '!' ∨ c = '-')

theorem StartAtom.expr {t : Str} (h : StartAtom t) : StartExpr t := by
  obtain ⟨c, t', h1, h2⟩ := h
  exact ⟨c, t', h1, .inl h2⟩

theorem StartAtom.app {t : Str} (h : StartAtom t) (r : Str) : StartAtom (t ++ r) := by
  obtain ⟨c, t', rfl, h2⟩ := h
  exact ⟨c, t' ++ r, rfl, h2⟩

theorem StartExpr.app {t : Str} (h : StartExpr t) (r : Str) : StartExpr (t ++ r) := by
  obtain ⟨c, t', rfl, h2⟩ := h
  exact ⟨c, t' ++ r, rfl, h2⟩

theorem digit_facts {c : Char} (h : isDigitR 10 c = true) : isWsp c = false ∧ c ≠ '.' ∧ c ≠ '!' ∧ c ≠ '-' := by
  have ne : ∀ d : Char, isDigitR 10 d = false → c ≠ d := by rintro d hd rfl; simp [h] at hd
  refine ⟨?_, ne _ (by decide), ne _ (by decide), ne _ (by decide)⟩
  cases hw : isWsp c with
  | false => rfl
  | true =>
    exfalso
    unfold isWsp at hw
    simp at hw
    rcases hw with ((rfl | rfl) | rfl) | rfl <;> simp [isDigitR] at h

theorem atom_facts {c : Char} (h : atomChar c) : isWsp c = false ∧ c ≠ '.' ∧ c ≠ '!' ∧ c ≠ '-' := by
  rcases h with h | rfl | rfl | rfl | rfl | rfl | h
  · have := identStart_facts h
    exact ⟨this.2.2.2.2.2.2.2, this.2.2.2.2.2.1, this.2.2.2.2.1, this.2.1⟩
  · decide
  · decide
  · decide
  · decide
  · decide
  · exact digit_facts h

theorem StartExpr.facts {t : Str} (h : StartExpr t) (r : Str) : NoWs (t ++ r) ∧ (t ++ r).head? ≠ some '.' := by
  obtain ⟨c, t', rfl, h⟩ := h
  have : isWsp c = false ∧ c ≠ '.' := by
    rcases h with h | rfl | rfl
    · exact ⟨(atom_facts h).1, (atom_facts h).2.1⟩
    all_goals decide
  exact ⟨noWs_cons this.1, by simpa using this.2⟩

/-- Everything known about a piece of text. -/
structure Item (env : PEnv) (t : Str) (T : Expr) (pr : Nat) (f : Bool) (nd : Nat) (nm : Bool) : Prop where
  need3 : 3 ≤ nd
  start : StartExpr t
  atom : 11 ≤ pr → StartAtom t
  nofil : 10 ≤ pr → f = false
  reads : ∀ k, k ≤ 11 → k ≤ pr → Reads env k t T f nd
  bin : ∀ k, k < 9 → k ≤ pr → ReadsBin env k t T f nd
  fil : 9 ≤ pr → ReadsFil env t T f nd
  pre : 10 ≤ pr → ReadsPre env t T nd
  suf : 11 ≤ pr → ReadsSuf env t T nd nm

section
variable {t : Str} {T : Expr} {f nm : Bool} {nd pr : Nat}

theorem follow_dot {p : Nat} {r : Str} (hf : Follow p f r) (hp : p ≤ 11) : ¬ DotDigit r := by
  rintro ⟨c, r', hr, hc⟩
  have hd : r.dropWhile isWsp = '.' :: c :: r' := by rw [hr]; exact noWs_drop (noWs_cons (by decide))
  cases hf with
  | ending h => exact absurd (ending_head h '.' (by rw [hd]; rfl)) (by decide)
  | word g d r hg hne hs =>
    rw [gap_drop hg (noWs_cons (start_noWs hs))] at hd
    simp at hd
    rw [hd.1] at hs
    exact absurd hs (by decide)
  | op g o r hg h1 h2 h3 =>
    rw [op_drop hg] at hd
    cases o <;> simp [BinOp.sym] at hd
  | range g r hg =>
    rw [gap_drop hg (noWs_cons (by decide))] at hd
    simp at hd
    rw [← hd.1] at hc
    exact absurd hc (by decide)
  | filter r h => simp at hr
  | suffix g d r hg h hs => omega
  | mac g g' r hg hg' h => omega

theorem ReadsSuf.reads (h : ReadsSuf env t T nd nm) (h3 : 3 ≤ nd) : Reads env 11 t T false nd := by
  intro n rest hf hn
  obtain ⟨n, rfl⟩ : ∃ m, n = m + 1 := ⟨n - 1, by omega⟩
  obtain ⟨fuel, hlt, hrun⟩ := h n rest (hf.mono (by omega)) (fun _ => follow_dot hf (by omega)) (by omega)
  refine ⟨rest, .inl rfl, ?_⟩
  rw [hrun]
  obtain ⟨fuel, rfl⟩ : ∃ m, fuel = m + 1 := ⟨fuel - 1, by omega⟩
  unfold suffixLoop
  rw [pos_bind, bind_ok (suffixOne_stop hf (by omega) (by omega))]
  rfl

theorem Reads.pre (h : Reads env 11 t T false nd) (ha : StartAtom t) : ReadsPre env t T nd := by
  intro n rest hf hn
  obtain ⟨x, hx, hr⟩ := h n rest (hf.mono (by omega)) (by omega)
  refine ⟨t ++ rest, [], T, prefixOps_stop ?_, ?_, rfl, by simp⟩
  · obtain ⟨c, t', rfl, hc⟩ := ha
    intro d hd
    simp at hd
    subst hd
    have := atom_facts hc
    exact ⟨this.2.2.1, this.2.2.2, this.1⟩
  · rcases hx with rfl | ⟨h, _⟩
    · exact hr
    · simp at h

theorem ReadsPre.reads (h : ReadsPre env t T nd) : Reads env 10 t T false nd := by
  intro n rest hf hn
  obtain ⟨n, rfl⟩ : ∃ m, n = m + 1 := ⟨n - 1, by omega⟩
  obtain ⟨i, ops, T0, h1, h2, rfl, h4⟩ := h n rest hf (by omega)
  refine ⟨rest, .inl rfl, ?_⟩
  rw [atPos_10]
  unfold prefixBody
  rw [bind_ok h1, bind_ok h2, if_pos (by omega)]
  rfl

theorem Reads.fil (h : Reads env 10 t T f nd) : ReadsFil env t T f nd := by
  intro n rest hf hn
  obtain ⟨x, hx, hr⟩ := h n rest hf (by omega)
  refine ⟨x, hx, fun r' ps hps => ?_⟩
  rw [atPos_9]
  unfold filteredBody
  refine (bind_ok hr).trans ?_
  rw [bind_ok hps]
  rfl

theorem ReadsFil.reads (h : ReadsFil env t T f nd) : Reads env 9 t T f nd := by
  intro n rest hf hn
  obtain ⟨n, rfl⟩ : ∃ m, n = m + 1 := ⟨n - 1, by omega⟩
  obtain ⟨x, hx, hr⟩ := h n rest (hf.mono (by omega)) (by omega)
  obtain ⟨j, m, hj⟩ := filterP_stop (env := env) (n' := n) hf hx (by omega)
  exact ⟨x, hx, hr x [] (many0_stop hj)⟩

theorem Reads.bin {k : Nat} (hk : k < 9) (h : Reads env (k + 1) t T f nd) : ReadsBin env k t T f nd := by
  intro n rest hf hn
  obtain ⟨x, hx, hr⟩ := h n rest hf (by omega)
  refine ⟨x, hx, fun r' ps hps => ?_⟩
  rw [atPos_bin hk]
  unfold binBody
  rw [operand_eq hk, bind_ok hr, bind_ok hps]
  rfl

theorem ReadsBin.reads {k : Nat} (hk : k < 9) (h3 : 3 ≤ nd) (h : ReadsBin env k t T f nd) : Reads env k t T f nd := by
  intro n rest hf hn
  obtain ⟨n, rfl⟩ : ∃ m, n = m + 1 := ⟨n - 1, by omega⟩
  obtain ⟨x, hx, hr⟩ := h n rest (hf.mono (by omega)) (by omega)
  obtain ⟨j, m, hj⟩ := binRest_stop (env := env) (n := n) hf hx (Nat.le_refl k) hk (by omega)
  exact ⟨x, hx, hr x [] (many0_stop hj)⟩

/-- What layer `k` reads, the looser layers read too. -/
theorem bins_of {q : Nat} (hq : q ≤ 9) (h3 : 3 ≤ nd) (h : Reads env q t T f nd) :
    ∀ d k, k + d = q → Reads env k t T f nd ∧ (k < q → ReadsBin env k t T f nd) := by
  intro d
  induction d with
  | zero => rintro k hk; have : k = q := by omega
            subst this; exact ⟨h, fun h => absurd h (by omega)⟩
  | succ d ih =>
    intro k hk
    have hb := (ih (k + 1) (by omega)).1.bin (by omega : k < 9)
    exact ⟨hb.reads (by omega) h3, fun _ => hb⟩

theorem item_bin {k : Nat} (hk : k < 9) (h3 : 3 ≤ nd) (hs : StartExpr t) (h : ReadsBin env k t T f nd) :
    Item env t T k f nd nm where
  need3 := h3
  start := hs
  atom := fun h => absurd h (by omega)
  nofil := fun h => absurd h (by omega)
  reads := fun j _ hj => (bins_of (by omega) h3 (h.reads hk h3) (k - j) j (by omega)).1
  bin := fun j hj1 hj2 => by
    rcases Nat.lt_or_ge j k with hlt | hge
    · exact (bins_of (by omega) h3 (h.reads hk h3) (k - j) j (by omega)).2 hlt
    · have : j = k := by omega
      subst this; exact h
  fil := fun h => absurd h (by omega)
  pre := fun h => absurd h (by omega)
  suf := fun h => absurd h (by omega)

theorem item_fil (h3 : 3 ≤ nd) (hs : StartExpr t) (h : ReadsFil env t T f nd) : Item env t T 9 f nd nm where
  need3 := h3
  start := hs
  atom := fun h => absurd h (by omega)
  nofil := fun h => absurd h (by omega)
  reads := fun j _ hj => (bins_of (by omega) h3 h.reads (9 - j) j (by omega)).1
  bin := fun j hj1 hj2 => (bins_of (by omega) h3 h.reads (9 - j) j (by omega)).2 hj1
  fil := fun _ => h
  pre := fun h => absurd h (by omega)
  suf := fun h => absurd h (by omega)

theorem item_pre (h3 : 3 ≤ nd) (hs : StartExpr t) (h : ReadsPre env t T nd) : Item env t T 10 false nd nm where
  need3 := h3
  start := hs
  atom := fun h => absurd h (by omega)
  nofil := fun _ => rfl
  reads := fun j _ hj => by
    rcases Nat.lt_or_ge j 10 with hlt | hge
    · exact (bins_of (by omega) h3 h.reads.fil.reads (9 - j) j (by omega)).1
    · have : j = 10 := by omega
      subst this; exact h.reads
  bin := fun j hj1 hj2 => (bins_of (by omega) h3 h.reads.fil.reads (9 - j) j (by omega)).2 hj1
  fil := fun _ => h.reads.fil
  pre := fun _ => h
  suf := fun h => absurd h (by omega)

theorem item_suf (h3 : 3 ≤ nd) (hs : StartAtom t) (h : ReadsSuf env t T nd nm) (pr : Nat) (hpr : 11 ≤ pr) :
    Item env t T pr false nd nm where
  need3 := h3
  start := hs.expr
  atom := fun _ => hs
  nofil := fun _ => rfl
  reads := fun j hj1 hj => by
    rcases Nat.lt_or_ge j 11 with hlt | hge
    · exact (item_pre (nm := nm) h3 hs.expr ((h.reads h3).pre hs)).reads j hj1 (by omega)
    · have : j = 11 := by omega
      subst this; exact h.reads h3
  bin := fun j hj1 hj2 => (item_pre (nm := nm) h3 hs.expr ((h.reads h3).pre hs)).bin j hj1 (by omega)
  fil := fun _ => (item_pre (nm := nm) h3 hs.expr ((h.reads h3).pre hs)).fil (by omega)
  pre := fun _ => (item_pre (nm := nm) h3 hs.expr ((h.reads h3).pre hs)).pre (by omega)
  suf := fun _ => h

/-! ### Whole expressions -/

/-- After an expression nothing goes on with it. -/
def Ends (f : Bool) (rest : Str) : Prop := Follow 0 f rest ∧ (rest.dropWhile isWsp).head? ≠ some '.'

theorem Ending.ends {rest : Str} (h : Ending rest) : Ends f rest :=
  ⟨.ending h, fun hc => absurd (ending_head h '.' hc) (by decide)⟩

/-- A word, after blanks. -/
def Word (rest : Str) : Prop := ∃ g c r, rest = g ++ c :: r ∧ Blank g ∧ g ≠ [] ∧ identStart c = true

theorem Word.ends {rest : Str} (h : Word rest) : Ends f rest := by
  obtain ⟨g, c, r, rfl, hg, hne, hc⟩ := h
  refine ⟨.word g c r hg hne hc, ?_⟩
  rw [gap_drop hg (noWs_cons (start_noWs hc))]
  intro h
  simp at h
  subst h
  simp [identStart, isAsciiAlpha] at hc

/-- `Expr::parse` reads the text, if it ends there. -/
theorem Item.parse (h : Item env t T pr f nd nm) {n : Nat} {rest : Str} (he : Ends f rest) (hn : nd + 12 ≤ n) :
    ∃ x, Left f rest x ∧ exprP env n .parse () (t ++ rest) = (.ok x T, ()) := by
  obtain ⟨n, rfl⟩ : ∃ m, n = m + 1 := ⟨n - 1, by omega⟩
  obtain ⟨x, hx, hr⟩ := h.reads 0 (by omega) (by omega) n rest he.1 (by omega)
  refine ⟨x, hx, ?_⟩
  show parseBody (exprP env n) () (t ++ rest) = _
  obtain ⟨h1, h2⟩ := h.start.facts rest
  have hrr : ∀ i, (i.dropWhile isWsp).head? ≠ some '.' → ∃ j m, rangeRight (exprP env n) () i = (.err false j m, ()) := by
    intro i hi
    unfold rangeRight
    refine ex_bind (ex_ws ⟨_, none, tags_head (ts := [c!"..=", c!".."]) fun t ht => ?_⟩)
    simp at ht
    rcases ht with rfl | rfl
    · exact ⟨by simp, fun c hc => by simp at hc; subst hc; exact hi⟩
    · exact ⟨by simp, fun c hc => by simp at hc; subst hc; exact hi⟩
  obtain ⟨j, m, hj⟩ := hrr (t ++ rest) (by rw [noWs_drop h1]; exact h2)
  obtain ⟨j', m', hj'⟩ := hrr x (by
    rw [hx.drop]
    exact he.2)
  unfold parseBody
  rw [alt_err (bind_err hj)]
  refine (bind_ok hr).trans ?_
  rw [bind_ok (opt_err hj')]
  rfl

theorem ending_close {g : Str} {c : Char} {r : Str} (hg : Blank g) (hc : c = ')' ∨ c = ']' ∨ c = ',' ∨ c = '}') : Ending (g ++ c :: r) := by
  refine .inr (.inl ⟨c, r, gap_drop hg (noWs_cons ?_), hc⟩)
  rcases hc with rfl | rfl | rfl | rfl <;> rfl

theorem left_close {c : Char} {r x : Str} {f : Bool} (hc : isWsp c = false) (h : Left f (c :: r) x) : x = c :: r := by
  rcases h with h | ⟨_, h⟩
  · exact h
  · rwa [noWs_drop (noWs_cons hc)] at h

end

end

end Askama
