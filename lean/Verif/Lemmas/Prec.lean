import Verif.Lemmas.Tags
import Verif.Spec.Prec
import Verif.Spec.Delims

/-!
# The expression parser on printed operator trees (C28)
-/

namespace Askama

open Spec PT

/-- The parser of expr.rs for one level of the precedence table. -/
def atPos (env : PEnv) (n : Nat) (k : Nat) : P Expr :=
  if k < 9 then exprP env n (.bin k) else if k = 9 then exprP env n .filtered
  else if k = 10 then exprP env n .prefix else if k = 11 then exprP env n .suffix else exprP env n .single

section
variable {env : PEnv}

theorem atPos_bin {n k : Nat} (h : k < 9) : atPos env (n + 1) k = binBody (exprP env n) k := by
  unfold atPos; rw [if_pos h]; rfl

theorem atPos_zero {n : Nat} : atPos env n 0 = exprP env n (.bin 0) := rfl
theorem atPos_9 {n : Nat} : atPos env (n + 1) 9 = filteredBody (exprP env n) := rfl
theorem atPos_10 {n : Nat} : atPos env (n + 1) 10 = prefixBody (exprP env n) (n + 1) := rfl
theorem atPos_11 {n : Nat} : atPos env (n + 1) 11 = suffixBody (exprP env n) := rfl
theorem atPos_12 {n : Nat} : atPos env (n + 1) 12 = singleBody (exprP env n) env := rfl

theorem operand_eq {n k : Nat} (h : k < 9) : operand (exprP env n) k = atPos env n (k + 1) := by
  unfold operand atPos nLayers
  by_cases h' : k + 1 < 9
  · rw [if_pos h', if_pos h']
  · rw [if_neg h', if_neg h', if_pos (by omega)]

/-! ### What may follow -/

/-- A name. -/
def NameOk (n : Str) : Prop := IsIdent n

/-- A variable name. -/
def VarOk (env : PEnv) (n : Str) : Prop :=
  IsIdent n ∧ n.head?.all env.isLower = true ∧ n ≠ c!"true" ∧ n ≠ c!"false"

/-- The end of a tag: a delimiter, possibly after a whitespace marker. -/
def TagEnd (r : Str) : Prop :=
  (∃ d t, r = d ++ t ∧ Closing d) ∨ (∃ t, r = '~' :: t) ∨
    ∃ c d t, r = c :: d :: t ∧ (c = '-' ∨ c = '+') ∧ outside d = true

/-- The text ends here: nothing, a closing character or the end of a tag follows. -/
def Ending (r : Str) : Prop :=
  r.dropWhile isWsp = [] ∨ (∃ c t, r.dropWhile isWsp = c :: t ∧ (c = ')' ∨ c = ']' ∨ c = ',' ∨ c = '}')) ∨
    TagEnd (r.dropWhile isWsp)

/-- What follows an operator does not make it a longer one. -/
def CalmHead (r : Str) : Prop := ∀ c, r.head? = some c → c ∉ ['=', '<', '>', '|', '&']

/-- What may follow an expression read at level `p` of the table; `f`: the expression ends with a filter. -/
inductive Follow : Nat → Bool → Str → Prop
  | ending {p f r} : Ending r → Follow p f r
  | op {p f} (g : Str) (o : BinOp) (r : Str) : Blank g → o.prec < p → (o = .bitor → f = false ∧ g ≠ []) → CalmHead r →
      Follow p f (g ++ (o.sym ++ r))
  | range {p f} (g r : Str) : Blank g → Follow p f (g ++ '.' :: '.' :: r)
  | word {p f} (g : Str) (c : Char) (r : Str) : Blank g → g ≠ [] → identStart c = true → Follow p f (g ++ c :: r)
  | filter {p f} (r : Str) : 10 ≤ p → Follow p f ('|' :: r)
  | suffix {p} (g : Str) (c : Char) (r : Str) : Blank g → 12 ≤ p → (c = '.' ∨ c = '[' ∨ c = '(' ∨ c = '?') → Follow p false (g ++ c :: r)
  | mac {p} (g g' r : Str) : Blank g → Blank g' → 12 ≤ p → Follow p false (g ++ '!' :: (g' ++ '(' :: r))

/-- A numbered field follows. -/
def DotDigit (r : Str) : Prop := ∃ c r', r = '.' :: c :: r' ∧ isDigitR 10 c = true

theorem Follow.mono {p q : Nat} {f : Bool} {r : Str} (h : Follow p f r) (hpq : p ≤ q) : Follow q f r := by
  cases h with
  | ending h => exact .ending h
  | op g o r hg h1 h2 h3 => exact .op g o r hg (by omega) h2 h3
  | range g r hg => exact .range g r hg
  | word g c r hg hne h => exact .word g c r hg hne h
  | filter r h => exact .filter r (by omega)
  | suffix g c r hg h hc => exact .suffix g c r hg (by omega) hc
  | mac g g' r hg hg' h => exact .mac g g' r hg hg' (by omega)

/-- How much may be left: all that follows, or all but the blanks if the expression ends with a filter. -/
def Left (f : Bool) (r r' : Str) : Prop := r' = r ∨ (f = true ∧ r' = r.dropWhile isWsp)

theorem dropWhile_idem (r : Str) : (r.dropWhile isWsp).dropWhile isWsp = r.dropWhile isWsp := by
  obtain ⟨w, t, h1, _, h2, h3⟩ := takeWhile_blank r
  rw [h2]
  cases t with
  | nil => rfl
  | cons c t => rw [List.dropWhile_cons_of_neg (by simp [h3 c rfl])]

theorem Left.drop {f : Bool} {r r' : Str} (h : Left f r r') : r'.dropWhile isWsp = r.dropWhile isWsp := by
  rcases h with rfl | ⟨_, rfl⟩
  · rfl
  · exact dropWhile_idem r

theorem noWs_drop {r : Str} (h : NoWs r) : r.dropWhile isWsp = r := by
  cases r with
  | nil => rfl
  | cons c r => rw [List.dropWhile_cons_of_neg (by simp [h c rfl])]

theorem blank_drop {g r : Str} (h : Blank g) : (g ++ r).dropWhile isWsp = r.dropWhile isWsp := by
  induction g with
  | nil => rfl
  | cons c g ih =>
    rw [List.cons_append, List.dropWhile_cons_of_pos (isWsp_iff.2 (h c (by simp)))]
    exact ih fun x hx => h x (by simp [hx])

/-- Blanks before a text that starts without. -/
theorem gap_drop {g r : Str} (h : Blank g) (hr : NoWs r) : (g ++ r).dropWhile isWsp = r := by
  rw [blank_drop h, noWs_drop hr]

/-- The first character, if there are blanks. -/
theorem blank_head {g r : Str} (h : Blank g) (hne : g ≠ []) : ∃ c r', g ++ r = c :: r' ∧ isWsp c = true := by
  cases g with
  | nil => exact absurd rfl hne
  | cons c g => exact ⟨c, g ++ r, rfl, isWsp_iff.2 (h c (by simp))⟩

/-- The first character is a blank or the one given. -/
theorem gap_head {g : Str} {c d : Char} {r : Str} (h : Blank g) (hd : isWsp d = false) (hne : c ≠ d) : (g ++ c :: r).head? ≠ some d := by
  cases g with
  | nil => simpa using hne
  | cons x g =>
    intro hh
    simp at hh
    subst hh
    rw [isWsp_iff.2 (h x (by simp))] at hd
    cases hd

theorem sp_drop {r : Str} : (' ' :: r).dropWhile isWsp = r.dropWhile isWsp := rfl

theorem start_noWs {c : Char} (h : identStart c = true) : isWsp c = false := by
  cases hw : isWsp c with
  | false => rfl
  | true =>
    exfalso
    unfold isWsp at hw
    simp at hw
    rcases hw with ((rfl | rfl) | rfl) | rfl <;> simp [identStart, isAsciiAlpha] at h

/-- First character of what follows, blanks skipped. -/
theorem sym_first (o : BinOp) : ∃ c t, o.sym = c :: t ∧ isWsp c = false ∧ identCont c = false := by
  cases o <;> exact ⟨_, _, rfl, rfl, rfl⟩

theorem sym_noWs (o : BinOp) (r : Str) : NoWs (o.sym ++ r) := by
  obtain ⟨c, t, h, h1, _⟩ := sym_first o
  rw [h]
  intro x hx
  simp at hx
  rwa [← hx]

theorem op_drop {g : Str} (hg : Blank g) (o : BinOp) (r : Str) : (g ++ (o.sym ++ r)).dropWhile isWsp = o.sym ++ r := by
  rw [blank_drop hg, noWs_drop (sym_noWs o _)]

/-! ### Tags -/

theorem altTags_none : ∀ (ts : List Str) (i : Str), (∀ t ∈ ts, ¬ t <+: i) → altTags ts () i = (.err false i none, ())
  | [], _, _ => rfl
  | [t], i, h => tag_err (h t (by simp))
  | t :: t' :: ts, i, h => by
    show PT.alt (tag t) (altTags (t' :: ts)) () i = _
    rw [alt_err (tag_err (h t (by simp)))]
    exact altTags_none (t' :: ts) i fun x hx => h x (by simp [hx])

theorem altTags_some : ∀ (ts : List Str) (t r : Str), t ∈ ts → (∀ u ∈ ts.takeWhile (· != t), ¬ u <+: t ++ r) →
    altTags ts () (t ++ r) = (.ok r t, ())
  | [u], t, r, h, _ => by
    simp at h
    subst h
    exact tag_ok
  | u :: u' :: ts, t, r, h, hn => by
    show PT.alt (tag u) (altTags (u' :: ts)) () _ = _
    by_cases hu : u = t
    · subst hu
      exact alt_ok tag_ok
    · have h1 := hn u (by rw [List.takeWhile_cons_of_pos (by simpa using hu)]; simp)
      rw [alt_err (tag_err h1)]
      refine altTags_some (u' :: ts) t r (by simpa [Ne.symm hu] using h) fun x hx => hn x ?_
      rw [List.takeWhile_cons_of_pos (by simpa using hu)]
      exact List.mem_cons_of_mem _ hx

theorem prefix_cons_iff {a b : Char} {s t : Str} : a :: s <+: b :: t ↔ a = b ∧ s <+: t := by
  constructor
  · rintro ⟨r, hr⟩
    simp at hr
    exact ⟨hr.1, r, hr.2⟩
  · rintro ⟨rfl, r, rfl⟩
    exact ⟨r, rfl⟩

theorem calm_not {r : Str} (h : CalmHead r) {c : Char} {t : Str} (hc : c ∈ ['=', '<', '>', '|', '&']) : ¬ c :: t <+: r := by
  rintro ⟨z, rfl⟩
  exact h c rfl hc

/-- The operators of the layers are the table's. -/
theorem layer_ok (o : BinOp) {r : Str} (hr : CalmHead r) : altTags (layerOps o.prec) () (o.sym ++ r) = (.ok r o.sym, ()) := by
  refine altTags_some _ _ _ (by cases o <;> decide) ?_
  have e1 := calm_not hr (c := '=') (t := []) (by simp)
  intro u hu
  cases o <;> simp [layerOps, BinOp.prec, BinOp.sym] at hu ⊢
  all_goals first
    | (rcases hu with rfl | rfl | rfl | rfl | rfl | rfl <;> simp [prefix_cons_iff, e1])
    | (rcases hu with rfl | rfl | rfl | rfl | rfl <;> simp [prefix_cons_iff, e1])
    | (rcases hu with rfl | rfl | rfl | rfl <;> simp [prefix_cons_iff, e1])
    | (rcases hu with rfl | rfl | rfl <;> simp [prefix_cons_iff, e1])
    | (rcases hu with rfl | rfl <;> simp [prefix_cons_iff, e1])
    | (subst hu; simp [prefix_cons_iff, e1])
    | skip

theorem tags_head {ts : List Str} {i : Str} (h : ∀ t ∈ ts, t ≠ [] ∧ ∀ c, t.head? = some c → i.head? ≠ some c) :
    altTags ts () i = (.err false i none, ()) := by
  refine altTags_none ts i fun t ht hp => ?_
  obtain ⟨h1, h2⟩ := h t ht
  cases t with
  | nil => exact h1 rfl
  | cons c t =>
    obtain ⟨r, rfl⟩ := hp
    exact h2 c rfl rfl

/-- No layer has an operator that starts with one of these. -/
theorem layer_head (k : Nat) (i : Str)
    (h : ∀ c, i.head? = some c → c ∉ ['|', '&', '=', '!', '>', '<', '^', '+', '-', '*', '/', '%']) :
    altTags (layerOps k) () i = (.err false i none, ()) := by
  refine tags_head fun t ht => ?_
  have key : ∀ t ∈ layerOps k, t ≠ [] ∧ ∀ c, t.head? = some c → c ∈ ['|', '&', '=', '!', '>', '<', '^', '+', '-', '*', '/', '%'] := by
    intro t ht
    have : ∀ k t, t ∈ layerOps k → t ∈ layerOps 0 ++ layerOps 1 ++ layerOps 2 ++ layerOps 3 ++ layerOps 4 ++ layerOps 5 ++
        layerOps 6 ++ layerOps 7 ++ layerOps 8 := by
      intro k t ht
      match k with
      | 0 => simp [ht] | 1 => simp [ht] | 2 => simp [ht] | 3 => simp [ht] | 4 => simp [ht] | 5 => simp [ht]
      | 6 => simp [ht] | 7 => simp [ht] | 8 => simp [ht]
      | k + 9 =>
        have : t ∈ layerOps 8 := ht
        simp [this]
    have h1 := this k t ht
    clear ht h this
    revert t
    decide
  obtain ⟨h1, h2⟩ := key t ht
  exact ⟨h1, fun c hc hi => h c hi (h2 c hc)⟩

/-! ### Where the parsers stop -/

theorem ex_bind {α β : Type} {p : P α} {f : α → P β} {i : Str} (h : ∃ j m, p () i = (.err false j m, ())) :
    ∃ j m, (p >>= f) () i = (.err false j m, ()) := by
  obtain ⟨j, m, h⟩ := h
  exact ⟨j, m, bind_err h⟩

theorem ex_ws {α : Type} {p : P α} {i : Str} (h : ∃ j m, p () (i.dropWhile isWsp) = (.err false j m, ())) :
    ∃ j m, ws p () i = (.err false j m, ()) := by
  obtain ⟨j, m, h⟩ := h
  exact ⟨j, m, ws_err h⟩

theorem numLit_err {i : Str} (h : ∀ c, i.head? = some c → c ≠ '-' ∧ isDigitR 10 c = false) :
    ∃ j m, numLit () i = (.err false j m, ()) := by
  cases i with
  | nil => exact ⟨_, _, rfl⟩
  | cons c i =>
    obtain ⟨h1, h2⟩ := h c rfl
    have h0 : c ≠ '0' := by rintro rfl; exact absurd h2 (by decide)
    refine ⟨c :: i, none, ?_⟩
    unfold numLit
    refine recognize_err ?_
    rw [bind_ok (opt_err (char_err (by simpa using h1)))]
    have ha : (PT.recognize (do
        let _ ← PT.char '0'
        let _ ← PT.alt (recognize do let _ ← char 'b'; separatedDigits 2 false) <|
          PT.alt (recognize do let _ ← char 'o'; separatedDigits 8 false)
            (recognize do let _ ← char 'x'; separatedDigits 16 false)
        opt integerSuffix) : P Str) () (c :: i) = (.err false (c :: i) none, ()) :=
      recognize_err (bind_err (char_err (by simpa using h0)))
    rw [alt_err ha]
    refine recognize_err (bind_err (j := c :: i) (m := none) ?_)
    unfold separatedDigits
    refine recognize_err ?_
    refine (bind_ok (a := []) (r := c :: i) (s' := ()) rfl).trans (bind_err ?_)
    simp [satisfy, h2]

theorem strLit_err {i : Str} (h : i.head? ≠ some '"') : strLit () i = (.err false i none, ()) := by
  unfold strLit; exact bind_err (char_err h)

theorem charLit_err {i : Str} (h : i.head? ≠ some '\'') : charLit () i = (.err false i none, ()) := by
  unfold charLit; rw [pos_bind]; exact bind_err (char_err h)

/-- A character no expression starts with. -/
def BadStart (c : Char) : Prop :=
  c ∈ ['|', ')', ',', '+', '~', '=', '%', '}', ']', '>', '#', '@', '$', '^', '/', '\\', ';', '<', '&', '*', '`']

instance (c : Char) : Decidable (BadStart c) := by unfold BadStart; infer_instance

theorem inert_bad {c : Char} (h : outside c = true) : BadStart c := by
  simp only [outside, List.contains_iff_mem] at h
  exact List.mem_append_right ['|', ')', ',', '+', '~', '='] h

theorem badStart_facts {c : Char} (h : BadStart c) : c ≠ '-' ∧ isDigitR 10 c = false ∧ c ≠ '"' ∧ c ≠ '\'' ∧ isWsp c = false ∧
    c ≠ ':' ∧ identStart c = false ∧ c ≠ '[' ∧ c ≠ '(' ∧ c ≠ '!' ∧ c ≠ '.' := by
  revert h
  unfold BadStart
  revert c
  decide

/-- No expression starts here. -/
def Bad (i : Str) : Prop := ∀ c, i.head? = some c → BadStart c

theorem bad_cons {c : Char} {r : Str} (h : BadStart c) : Bad (c :: r) := by
  intro x hx; simp at hx; subst hx; exact h

theorem pathVarBool_err {i : Str} (hw : NoWs i) (hc : i.head? ≠ some ':') (hs : i.head?.any identStart = false) :
    pathVarBool env () i = (.err false i none, ()) := by
  unfold pathVarBool
  refine bind_err ?_
  unfold pathOrIdent
  have hr : ws (PT.opt (tag c!"::")) () i = (.ok i none, ()) := by
    have := ws_ok (p := (PT.opt (tag c!"::") : P (Option Str))) (s := ()) (i := i) (r := i) (a := none) (s' := ()) (by
      rw [noWs_drop hw]
      refine opt_err (tag_err ?_)
      cases i with
      | nil => simp
      | cons a i => rw [prefix_cons_iff]; intro h; exact hc (by rw [← h.1]; rfl))
    rwa [noWs_drop hw] at this
  rw [bind_ok hr]
  exact bind_err (identifier_err hs)

theorem array_err {n : Nat} {i : Str} (hw : NoWs i) (hc : i.head? ≠ some '[') :
    exprP env (n + 1) .array () i = (.err false i none, ()) := by
  show arrayBody (exprP env n) () i = _
  unfold arrayBody
  refine bind_err (ws_err ?_)
  rw [noWs_drop hw]
  exact char_err hc

theorem single_bad {n : Nat} {i : Str} (hb : Bad i) (hn : 2 ≤ n) :
    ∃ j m, atPos env n 12 () i = (.err false j m, ()) := by
  obtain ⟨n, rfl⟩ : ∃ k, n = k + 2 := ⟨n - 2, by omega⟩
  have hne : ∀ c : Char, ¬ BadStart c → i.head? ≠ some c := fun c hc hi => hc (hb c hi)
  have hw : NoWs i := fun c hc => (badStart_facts (hb c hc)).2.2.2.2.1
  rw [atPos_12]
  unfold singleBody
  obtain ⟨j, m, h1⟩ := numLit_err (i := i) (fun c hc => ⟨(badStart_facts (hb c hc)).1, (badStart_facts (hb c hc)).2.1⟩)
  rw [alt_err (map_err h1), alt_err (map_err (strLit_err (hne _ (by unfold BadStart; decide)))),
    alt_err (map_err (charLit_err (hne _ (by unfold BadStart; decide)))),
    alt_err (pathVarBool_err hw (hne _ (by unfold BadStart; decide)) ?_), alt_err (array_err hw (hne _ (by unfold BadStart; decide)))]
  · refine ⟨i, none, ?_⟩
    show groupBody (exprP env n) () i = _
    unfold groupBody
    refine bind_err (ws_err ?_)
    rw [noWs_drop hw]
    exact char_err (hne _ (by unfold BadStart; decide))
  · cases i with
    | nil => rfl
    | cons c i => exact (badStart_facts (hb c rfl)).2.2.2.2.2.2.1

theorem prefixOps_stop {i : Str} (h : ∀ c, i.head? = some c → c ≠ '!' ∧ c ≠ '-' ∧ isWsp c = false) :
    PT.many0 (ws (altTags [c!"!", c!"-"])) () i = (.ok i [], ()) := by
  refine many0_stop (j := i) (m := none) (ws_err ?_)
  rw [noWs_drop (fun c hc => (h c hc).2.2)]
  refine altTags_none _ _ ?_
  intro t ht
  cases i with
  | nil => simp at ht; rcases ht with rfl | rfl <;> simp
  | cons c i =>
    have := h c rfl
    simp at ht
    rcases ht with rfl | rfl <;> simp [prefix_cons_iff, Ne.symm this.1, Ne.symm this.2.1]

theorem pos_bad {i : Str} (hc : Bad i) : ∀ d k n, k + d = 12 → 14 ≤ n + k →
    ∃ j m, atPos env n k () i = (.err false j m, ()) := by
  intro d
  induction d with
  | zero =>
    intro k n hk hn
    have : k = 12 := by omega
    subst this
    exact single_bad hc (by omega)
  | succ d ih =>
    intro k n hk hn
    obtain ⟨n, rfl⟩ : ∃ m, n = m + 1 := ⟨n - 1, by omega⟩
    obtain ⟨j, m, h⟩ := ih (k + 1) n (by omega) (by omega)
    refine ⟨j, m, ?_⟩
    rcases Nat.lt_or_ge k 9 with h9 | h9
    · rw [atPos_bin h9]
      unfold binBody
      rw [operand_eq h9]
      exact bind_err h
    · rcases (by omega : k = 9 ∨ k = 10 ∨ k = 11) with rfl | rfl | rfl
      · rw [atPos_9]
        unfold filteredBody
        exact bind_err h
      · rw [atPos_10]
        unfold prefixBody
        rw [bind_ok (prefixOps_stop (fun x hx => by
          have := badStart_facts (hc x hx); exact ⟨this.2.2.2.2.2.2.2.2.2.1, this.1, this.2.2.2.2.1⟩))]
        exact bind_err h
      · rw [atPos_11]
        unfold suffixBody
        exact bind_err h

/-- A prefix operator without operand. -/
theorem pos_badMinus {i : Str} (hc : Bad i) : ∀ d k n, k + d = 10 → 14 ≤ n + k →
    ∃ j m, atPos env n k () ('-' :: i) = (.err false j m, ()) := by
  intro d
  induction d with
  | zero =>
    intro k n hk hn
    have : k = 10 := by omega
    subst this
    obtain ⟨n, rfl⟩ : ∃ m, n = m + 1 := ⟨n - 1, by omega⟩
    obtain ⟨j, m, h⟩ := pos_bad (env := env) hc 1 11 n (by omega) (by omega)
    refine ⟨j, m, ?_⟩
    rw [atPos_10]
    unfold prefixBody
    have h1 : ws (altTags [c!"!", c!"-"]) () ('-' :: i) = (.ok i c!"-", ()) := by
      have := ws_ok (p := altTags [c!"!", c!"-"]) (s := ()) (i := '-' :: i) (r := i) (a := c!"-") (s' := ()) (by
        rw [noWs_drop (noWs_cons (by decide))]
        exact altTags_some _ c!"-" i (by simp) (by intro u hu; simp at hu; subst hu; simp [prefix_cons_iff]))
      rwa [noWs_drop (fun c h => (badStart_facts (hc c h)).2.2.2.2.1)] at this
    have h2 := prefixOps_stop (i := i) (fun x hx => by
      have := badStart_facts (hc x hx); exact ⟨this.2.2.2.2.2.2.2.2.2.1, this.1, this.2.2.2.2.1⟩)
    rw [bind_ok (many0_cons h1 (by simp) h2)]
    exact bind_err h
  | succ d ih =>
    intro k n hk hn
    obtain ⟨n, rfl⟩ : ∃ m, n = m + 1 := ⟨n - 1, by omega⟩
    obtain ⟨j, m, h⟩ := ih (k + 1) n (by omega) (by omega)
    refine ⟨j, m, ?_⟩
    rcases Nat.lt_or_ge k 9 with h9 | h9
    · rw [atPos_bin h9]
      unfold binBody
      rw [operand_eq h9]
      exact bind_err h
    · obtain rfl : k = 9 := by omega
      rw [atPos_9]
      unfold filteredBody
      exact bind_err h

theorem ending_head {r : Str} (h : Ending r) : ∀ c, (r.dropWhile isWsp).head? = some c → BadStart c ∨ c = '-' := by
  intro c hc
  rcases h with h | ⟨x, t, h, hx⟩ | ⟨d, t, h, h2, h3, _⟩ | ⟨t, h⟩ | ⟨x, d, t, h, hx, _⟩
  · rw [h] at hc; simp at hc
  · rw [h] at hc; simp at hc; subst hc; rcases hx with rfl | rfl | rfl | rfl <;> simp [BadStart]
  · rw [h] at hc
    cases d with
    | nil => simp at h2
    | cons x d =>
      simp at hc h3
      subst hc
      exact .inl (inert_bad h3.1)
  · rw [h] at hc; simp at hc; subst hc; simp [BadStart]
  · rw [h] at hc; simp at hc; subst hc; rcases hx with rfl | rfl <;> simp [BadStart]

/-- The operators a tag may end with need an operand. -/
theorem ending_op {r : Str} (h : Ending r) {k : Nat} {op t : Str} (ho : op ∈ layerOps k) (hr : r.dropWhile isWsp = op ++ t) : Bad t := by
  have hall : op ∈ [c!"||", c!"&&", c!"==", c!"!=", c!">=", c!">", c!"<=", c!"<", c!"|", c!"^", c!"&", c!">>", c!"<<", c!"+", c!"-",
      c!"*", c!"/", c!"%"] := by
    unfold layerOps at ho
    split at ho <;> simp at ho ⊢ <;> grind
  rcases h with h | ⟨x, u, h, hx⟩ | ⟨d, u, h, h2, h3, h4⟩ | ⟨u, h⟩ | ⟨x, d, u, h, hx, hd⟩
  · rw [h] at hr
    simp at hall
    rcases hall with rfl | rfl | rfl | rfl | rfl | rfl | rfl | rfl | rfl | rfl | rfl | rfl | rfl | rfl | rfl | rfl | rfl | rfl <;>
      simp at hr
  · rw [h] at hr
    simp at hall
    rcases hall with rfl | rfl | rfl | rfl | rfl | rfl | rfl | rfl | rfl | rfl | rfl | rfl | rfl | rfl | rfl | rfl | rfl | rfl <;>
      simp at hr <;> rcases hx with rfl | rfl | rfl | rfl <;> simp at hr
  · rw [h] at hr
    obtain ⟨x, y, d, rfl⟩ : ∃ x y d', d = x :: y :: d' := by
      match d, h2 with
      | x :: y :: d', _ => exact ⟨x, y, d', rfl⟩
    simp at h3
    simp at hall
    rcases hall with rfl | rfl | rfl | rfl | rfl | rfl | rfl | rfl | rfl | rfl | rfl | rfl | rfl | rfl | rfl | rfl | rfl | rfl <;>
      simp at hr <;> first
      | (obtain ⟨rfl, rfl⟩ := hr; exact bad_cons (inert_bad h3.2.1))
      | (obtain ⟨rfl, rfl, rfl⟩ := hr
         first
         | (exfalso; revert h3; decide)
         | (cases d with
            | nil => simp at h4
            | cons z d => exact bad_cons (inert_bad (h3.2.2 z (by simp)))))
      | (exfalso; obtain ⟨rfl, _⟩ := hr; have := h3.1; revert this; decide)
      | (exfalso; obtain ⟨rfl, rfl, _⟩ := hr; have := h3.2.1; revert this; decide)
  · rw [h] at hr
    simp at hall
    rcases hall with rfl | rfl | rfl | rfl | rfl | rfl | rfl | rfl | rfl | rfl | rfl | rfl | rfl | rfl | rfl | rfl | rfl | rfl <;>
      simp at hr
  · rw [h] at hr
    simp at hall
    rcases hall with rfl | rfl | rfl | rfl | rfl | rfl | rfl | rfl | rfl | rfl | rfl | rfl | rfl | rfl | rfl | rfl | rfl | rfl <;>
      rcases hx with rfl | rfl <;> simp at hr <;> (subst hr; exact bad_cons (inert_bad hd))

/-- A marker at the end of a tag is no sign. -/
theorem ending_minus {r t : Str} (h : Ending r) (hr : r.dropWhile isWsp = '-' :: t) : Bad t :=
  ending_op (k := 7) h (op := c!"-") (by simp [layerOps]) hr

/-- An operator of the layer is read, or none. -/
theorem altTags_cases : ∀ (ts : List Str) (i : Str), altTags ts () i = (.err false i none, ()) ∨
    ∃ t r, t ∈ ts ∧ i = t ++ r ∧ altTags ts () i = (.ok r t, ())
  | [], _ => .inl rfl
  | [t], i => by
    by_cases h : t <+: i
    · obtain ⟨r, rfl⟩ := h
      exact .inr ⟨t, r, by simp, rfl, tag_ok⟩
    · exact .inl (tag_err h)
  | t :: t' :: ts, i => by
    show PT.alt (tag t) (altTags (t' :: ts)) () i = _ ∨ ∃ u r, _ ∧ _ ∧ PT.alt (tag t) (altTags (t' :: ts)) () i = _
    by_cases h : t <+: i
    · obtain ⟨r, rfl⟩ := h
      exact .inr ⟨t, r, by simp, rfl, alt_ok tag_ok⟩
    · rw [alt_err (tag_err h)]
      rcases altTags_cases (t' :: ts) i with h | ⟨u, r, h1, h2, h3⟩
      · exact .inl h
      · exact .inr ⟨u, r, by simp at h1 ⊢; exact .inr h1, h2, h3⟩

/-- A layer stops. -/
theorem binRest_stop {n p k : Nat} {f : Bool} {r x : Str} (hf : Follow p f r) (hx : Left f r x) (hk : p ≤ k) (h9 : k < 9)
    (hn : 13 ≤ n + k) : ∃ j m, binRest (exprP env n) k () x = (.err false j m, ()) := by
  unfold binRest
  have hd := hx.drop
  cases hf with
  | ending h =>
    rcases altTags_cases (layerOps k) (r.dropWhile isWsp) with he | ⟨op, t, ho, hr, he⟩
    · exact ex_bind (ex_ws ⟨_, none, by rw [hd]; exact he⟩)
    · have hb := ending_op h ho hr
      have := ws_ok (p := altTags (layerOps k)) (s := ()) (i := x) (r := t) (a := op) (s' := ()) (by rw [hd]; exact he)
      rw [noWs_drop (fun c h => (badStart_facts (hb c h)).2.2.2.2.1)] at this
      rw [bind_ok this, operand_eq h9]
      obtain ⟨j, m, hj⟩ := pos_bad (env := env) hb (12 - (k + 1)) (k + 1) n (by omega) (by omega)
      exact ⟨j, m, bind_err hj⟩
  | word g c r hg hne hc =>
    refine ex_bind (ex_ws ⟨x.dropWhile isWsp, none, ?_⟩)
    rw [hd]
    refine layer_head k _ fun d hd => ?_
    rw [gap_drop hg (noWs_cons (start_noWs hc))] at hd
    simp at hd
    subst hd
    intro hm
    simp at hm
    rcases hm with rfl | rfl | rfl | rfl | rfl | rfl | rfl | rfl | rfl | rfl | rfl | rfl <;> simp [identStart, isAsciiAlpha] at hc
  | range g r hg =>
    refine ex_bind (ex_ws ⟨x.dropWhile isWsp, none, ?_⟩)
    rw [hd]
    refine layer_head k _ fun c hc => ?_
    rw [gap_drop hg (noWs_cons (by decide))] at hc
    simp at hc
    subst hc
    decide
  | filter r h => omega
  | suffix g c r hg h hc => omega
  | mac g g' r hg hg' h => omega
  | op g o r hg h1 h2 h3 =>
    rw [op_drop hg] at hd
    have hlt : o.prec < k := by omega
    by_cases hex : (o = .or ∧ k = 3) ∨ (o = .and ∧ k = 5)
    · have hrun : ∃ c op, BadStart c ∧ (altTags (layerOps k)) () (o.sym ++ r) = (.ok (c :: r) op, ()) := by
        rcases hex with ⟨rfl, rfl⟩ | ⟨rfl, rfl⟩
        · exact ⟨'|', _, by decide, tag_ok (t := c!"|")⟩
        · exact ⟨'&', _, by decide, tag_ok (t := c!"&")⟩
      obtain ⟨c, op, hc, hrun⟩ := hrun
      have hws : isWsp c = false := (badStart_facts hc).2.2.2.2.1
      have := ws_ok (p := altTags (layerOps k)) (s := ()) (i := x) (r := c :: r) (a := op) (s' := ()) (by rw [hd]; exact hrun)
      rw [noWs_drop (noWs_cons hws)] at this
      rw [bind_ok this, operand_eq h9]
      obtain ⟨j, m, hj⟩ := pos_bad (env := env) (bad_cons (r := r) hc) (12 - (k + 1)) (k + 1) n (by omega) (by omega)
      exact ⟨j, m, bind_err hj⟩
    · refine ⟨_, _, bind_err (ws_err (j := o.sym ++ r) (m := none) ?_)⟩
      rw [hd]
      refine altTags_none _ _ fun t ht => ?_
      have e1 := calm_not h3 (c := '<') (t := []) (by simp)
      have e2 := calm_not h3 (c := '>') (t := []) (by simp)
      have e3 := calm_not h3 (c := '=') (t := []) (by simp)
      have hkk : k = 1 ∨ k = 2 ∨ k = 3 ∨ k = 4 ∨ k = 5 ∨ k = 6 ∨ k = 7 ∨ k = 8 := by omega
      rcases hkk with rfl | rfl | rfl | rfl | rfl | rfl | rfl | rfl <;>
        (cases o <;> simp [BinOp.prec] at hlt hex <;> simp [layerOps] at ht) <;>
        first
        | (subst ht; simp [BinOp.sym, prefix_cons_iff, e1, e2, e3])
        | (rcases ht with rfl | rfl <;> simp [BinOp.sym, prefix_cons_iff, e1, e2, e3])
        | (rcases ht with rfl | rfl | rfl <;> simp [BinOp.sym, prefix_cons_iff, e1, e2, e3])
        | (rcases ht with rfl | rfl | rfl | rfl | rfl | rfl <;> simp [BinOp.sym, prefix_cons_iff, e1, e2, e3])

/-- `filtered` stops. -/
theorem filterP_stop {n' p : Nat} {f : Bool} {r x : Str} (hf : Follow p f r) (hx : Left f r x) (hp : p ≤ 9) :
    ∃ j m, filterP (exprP env n') () x = (.err false j m, ()) := by
  unfold filterP
  cases hf with
  | ending h =>
    refine ⟨_, _, bind_err (char_err ?_)⟩
    intro hh
    have hd := hx.drop
    cases x with
    | nil => simp at hh
    | cons c x =>
      simp at hh
      subst hh
      obtain ⟨t, ht⟩ : ∃ t, r.dropWhile isWsp = '|' :: t := ⟨x, by rw [← hd]; rfl⟩
      rcases h with h | ⟨x, u, h, hx⟩ | ⟨d, u, h, h2, h3, h4⟩ | ⟨u, h⟩ | ⟨x, d, u, h, hx, hd⟩
      all_goals rw [h] at ht
      · simp at ht
      · simp at ht; rcases hx with rfl | rfl | rfl | rfl <;> simp at ht
      · cases d with
        | nil => simp at h2
        | cons y d =>
          simp at ht h3
          rw [ht.1] at h3
          exact absurd h3.1 (by decide)
      · simp at ht
      · simp at ht; rcases hx with rfl | rfl <;> simp at ht
  | word g c r hg hne hc =>
    refine ⟨_, _, bind_err (char_err ?_)⟩
    rcases hx with rfl | ⟨_, rfl⟩
    · obtain ⟨d, z, hd, hw⟩ := blank_head (r := c :: r) hg hne
      rw [hd]
      intro hh
      simp at hh
      subst hh
      exact absurd hw (by decide)
    · rw [gap_drop hg (noWs_cons (start_noWs hc))]
      intro h
      simp at h
      subst h
      simp [identStart, isAsciiAlpha] at hc
  | range g r hg =>
    refine ⟨_, _, bind_err (char_err ?_)⟩
    rcases hx with rfl | ⟨_, rfl⟩
    · exact gap_head hg (by decide) (by simp)
    · rw [gap_drop hg (noWs_cons (by decide))]; simp
  | filter r h => omega
  | suffix g c r hg h hc => omega
  | mac g g' r hg hg' h => omega
  | op g o r hg h1 h2 h3 =>
    have key : o ≠ .bitor → ∃ j m, (do
        let _ ← char '|'
        let n ← ws identifier
        let a ← PT.opt (exprP env n' (.args false))
        pure (n, a) : P (Str × Option (List Expr))) () (o.sym ++ r) = (.err false j m, ()) := by
      intro hb
      by_cases ho : o = .or
      · subst ho
        rw [show BinOp.or.sym ++ r = '|' :: '|' :: r from rfl, bind_ok char_ok]
        exact ex_bind (ex_ws ⟨_, _, identifier_err rfl⟩)
      · refine ⟨_, _, bind_err (char_err ?_)⟩
        cases o <;> simp [BinOp.sym] at hb ho ⊢
    rcases hx with rfl | ⟨hft, rfl⟩
    · by_cases hb : o = .bitor
      · obtain ⟨d, z, hd, hw⟩ := blank_head (r := o.sym ++ r) hg (h2 hb).2
        rw [hd]
        refine ⟨_, _, bind_err (char_err ?_)⟩
        intro hh
        simp at hh
        subst hh
        exact absurd hw (by decide)
      · cases g with
        | nil => exact key hb
        | cons d g =>
          refine ⟨_, _, bind_err (char_err ?_)⟩
          intro hh
          simp at hh
          subst hh
          exact absurd (isWsp_iff.2 (hg '|' (by simp))) (by decide)
    · rw [op_drop hg]
      exact key fun hb => by simp [(h2 hb).1] at hft

/-- No suffix follows. -/
theorem suffixOne_stop {n p : Nat} {f : Bool} {r : Str} (hf : Follow p f r) (hp : p ≤ 11) (hn : 2 ≤ n) :
    suffixOne (exprP env n) () r = (.ok r none, ()) := by
  obtain ⟨n, rfl⟩ : ∃ k, n = k + 2 := ⟨n - 2, by omega⟩
  -- the first character
  have hh : (∀ c, (r.dropWhile isWsp).head? = some c → c ≠ '[' ∧ c ≠ '(' ∧ c ≠ '?') ∧
      (∀ t, r.dropWhile isWsp = '.' :: t → t.head? = some '.') ∧
      (∀ t, r.dropWhile isWsp = '!' :: t → (t.dropWhile isWsp).head? ≠ some '(') := by
    cases hf with
    | ending h =>
      have := ending_head h
      refine ⟨fun c hc => ?_, fun t ht => ?_, fun t ht => ?_⟩
      · rcases this c hc with hb | rfl
        · have := badStart_facts hb
          refine ⟨this.2.2.2.2.2.2.2.1, this.2.2.2.2.2.2.2.2.1, ?_⟩
          rintro rfl
          exact absurd hb (by decide)
        · decide
      · exact absurd (this '.' (by rw [ht]; rfl)) (by decide)
      · exact absurd (this '!' (by rw [ht]; rfl)) (by decide)
    | word g c r hg hne hc =>
      rw [gap_drop hg (noWs_cons (start_noWs hc))]
      refine ⟨fun d hd => ?_, fun t ht => ?_, fun t ht => ?_⟩
      · simp at hd
        subst hd
        refine ⟨?_, ?_, ?_⟩ <;> (rintro rfl; simp [identStart, isAsciiAlpha] at hc)
      · simp at ht; obtain ⟨rfl, _⟩ := ht; simp [identStart, isAsciiAlpha] at hc
      · simp at ht; obtain ⟨rfl, _⟩ := ht; simp [identStart, isAsciiAlpha] at hc
    | range g r hg =>
      rw [gap_drop hg (noWs_cons (by decide))]
      refine ⟨fun c hc => ?_, fun t ht => ?_, fun t ht => ?_⟩
      · simp at hc; subst hc; decide
      · simp at ht; subst ht; rfl
      · simp at ht
    | filter r h =>
      rw [noWs_drop (noWs_cons (by decide))]
      refine ⟨fun c hc => ?_, fun t ht => ?_, fun t ht => ?_⟩
      · simp at hc; subst hc; decide
      · simp at ht
      · simp at ht
    | suffix g c r hg h hc => omega
    | mac g g' r hg hg' h => omega
    | op g o r hg h1 h2 h3 =>
      rw [op_drop hg]
      refine ⟨fun c hc => ?_, fun t ht => ?_, fun t ht => ?_⟩
      · cases o <;> (simp [BinOp.sym] at hc; subst hc; decide)
      · cases o <;> simp [BinOp.sym] at ht
      · cases o <;> simp [BinOp.sym] at ht
        subst ht
        rw [noWs_drop (noWs_cons (by decide))]
        simp
  obtain ⟨hh1, hh2, hh3⟩ := hh
  have nh : ∀ c : Char, c = '[' ∨ c = '(' ∨ c = '?' → (r.dropWhile isWsp).head? ≠ some c := by
    intro c hc hcon
    have := hh1 c hcon
    rcases hc with rfl | rfl | rfl <;> simp at this
  have e1 : ∃ j m, suffixAttr () r = (.err false j m, ()) := by
    unfold suffixAttr
    cases hr : r.dropWhile isWsp with
    | nil =>
      refine ⟨_, _, bind_err (ws_err (j := []) (m := none) ?_)⟩
      rw [hr]
      exact bind_err (char_err (by simp))
    | cons c t =>
      by_cases hc : c = '.'
      · subst hc
        have ht := hh2 t hr
        obtain ⟨t', rfl⟩ : ∃ t', t = '.' :: t' := by
          cases t with
          | nil => simp at ht
          | cons a t => simp at ht; exact ⟨t, by rw [ht]⟩
        refine ⟨_, _, bind_err (ws_err (j := '.' :: t') (m := none) ?_)⟩
        rw [hr, bind_ok char_ok]
        rfl
      · refine ⟨_, _, bind_err (ws_err (j := c :: t) (m := none) ?_)⟩
        rw [hr]
        exact bind_err (char_err (by simpa using hc))
  have e2 : ∃ j m, PT.map Suffix.index (exprP env (n + 2) .index) () r = (.err false j m, ()) := by
    refine ⟨_, _, map_err (j := r.dropWhile isWsp) (m := none) ?_⟩
    show indexBody (exprP env (n + 1)) () r = _
    unfold indexBody
    exact bind_err (ws_err (char_err (nh _ (.inl rfl))))
  have e3 : ∃ j m, PT.map Suffix.call (exprP env (n + 2) .call) () r = (.err false j m, ()) := by
    refine ⟨_, _, map_err (j := r.dropWhile isWsp) (m := none) ?_⟩
    show argsBody (exprP env n) false () r = _
    unfold argsBody
    rw [pos_bind]
    exact bind_err (ws_err (char_err (nh _ (.inr (.inl rfl)))))
  have e4 : suffixTry () r = (.err false (r.dropWhile isWsp) none, ()) := by
    unfold suffixTry
    rw [bind_ok skipWs_run]
    exact bind_err (char_err (nh _ (.inr (.inr rfl))))
  have e5 : ∃ j m, suffixMacro () r = (.err false j m, ()) := by
    unfold suffixMacro
    cases hr : r.dropWhile isWsp with
    | nil =>
      refine ⟨_, _, bind_err (ws_err (j := []) (m := none) ?_)⟩
      rw [hr]
      exact char_err (by simp)
    | cons c t =>
      by_cases hc : c = '!'
      · subst hc
        have ht := hh3 t hr
        have := ws_ok (p := (char '!' : P Char)) (s := ()) (i := r) (r := t) (a := '!') (s' := ()) (by rw [hr]; exact char_ok)
        rw [bind_ok this]
        exact ⟨_, _, bind_err (char_err ht)⟩
      · refine ⟨_, _, bind_err (ws_err (j := c :: t) (m := none) ?_)⟩
        rw [hr]
        exact char_err (by simpa using hc)
  obtain ⟨j1, m1, e1⟩ := e1
  obtain ⟨j2, m2, e2⟩ := e2
  obtain ⟨j3, m3, e3⟩ := e3
  obtain ⟨j5, m5, e5⟩ := e5
  unfold suffixOne
  refine opt_err (j := j5) (m := m5) ?_
  rw [alt_err e1, alt_err e2, alt_err e3, alt_err e4, e5]

end

end Askama
