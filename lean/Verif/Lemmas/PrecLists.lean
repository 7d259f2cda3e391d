import Verif.Lemmas.PrecAtoms

/-!
# The expression parser on printed expressions: lists, suffixes, operators and ranges (C28)
-/

namespace Askama

open Spec PT

section
variable {env : PEnv} {t : Str} {T : Expr} {f nm : Bool} {nd pr : Nat}

/-! ### ReadsWhole expressions -/

/-- `Expr::parse` reads the text, if something that satisfies `E` follows. -/
structure ReadsBefore (E : Str → Prop) (env : PEnv) (t : Str) (T : Expr) (f : Bool) (nd : Nat) : Prop where
  need3 : 3 ≤ nd
  start : ∀ r, NoWs (t ++ r)
  parse : ∀ n rest, E rest → nd + 12 ≤ n → ∃ x, Left f rest x ∧ exprP env n .parse () (t ++ rest) = (.ok x T, ())

/-- `Expr::parse` reads the text, if a closing character follows. -/
abbrev ReadsWhole := ReadsBefore Ending

theorem Item.before {E : Str → Prop} (hE : ∀ r, E r → Ends f r) (h : Item env t T pr f nd nm) : ReadsBefore E env t T f nd :=
  ⟨h.need3, fun r => (h.start.facts r).1, fun _ _ he hn => h.parse (hE _ he) hn⟩

theorem Item.whole (h : Item env t T pr f nd nm) : ReadsWhole env t T f nd := h.before fun _ he => he.ends

/-- No expression here. -/
theorem parse_bad {n : Nat} {i : Str} (hb : Bad i) (hn : 15 ≤ n) : ∃ j m, exprP env n .parse () i = (.err false j m, ()) := by
  obtain ⟨n, rfl⟩ : ∃ m, n = m + 1 := ⟨n - 1, by omega⟩
  have hw : NoWs i := fun c hc => (badStart_facts (hb c hc)).2.2.2.2.1
  show ∃ j m, parseBody (exprP env n) () i = _
  have hrr : rangeRight (exprP env n) () i = (.err false i none, ()) := by
    unfold rangeRight
    refine bind_err (ws_err ?_)
    rw [noWs_drop hw]
    refine tags_head (ts := [c!"..=", c!".."]) fun t ht => ?_
    have hd : i.head? ≠ some '.' := fun hc => (badStart_facts (hb _ hc)).2.2.2.2.2.2.2.2.2.2 rfl
    simp at ht
    rcases ht with rfl | rfl
    · exact ⟨by simp, fun c hc => by simp at hc; subst hc; exact hd⟩
    · exact ⟨by simp, fun c hc => by simp at hc; subst hc; exact hd⟩
  obtain ⟨j, m, hj⟩ := pos_bad (env := env) hb 12 0 n (by omega) (by omega)
  refine ⟨j, m, ?_⟩
  unfold parseBody
  rw [alt_err (bind_err hrr)]
  exact bind_err hj

/-! ### Lists -/

/-- What the elements of a list need. -/
def AllWhole (env : PEnv) (es : List Tm) (nd : Nat) : Prop :=
  ∀ e ∈ es, ∀ g : Gaps, g.Ok → ∃ f d, d ≤ nd ∧ ReadsWhole env (e.write g) e.tree f d

/-- A closing character. -/
def Close (r : Str) : Prop := ∃ c r', r = c :: r' ∧ (c = ')' ∨ c = ']')

theorem Close.noWs {r : Str} (h : Close r) : NoWs r := by
  obtain ⟨c, r', rfl, hc⟩ := h
  exact noWs_cons (by rcases hc with rfl | rfl <;> rfl)

theorem Close.bad {r : Str} (h : Close r) : Bad r := by
  obtain ⟨c, r', rfl, hc⟩ := h
  exact bad_cons (by rcases hc with rfl | rfl <;> simp [BadStart])

/-- The end of a list: a closing character, perhaps after a comma. -/
def ListEnd (r : Str) : Prop := Close r ∨ ∃ g r', r = ',' :: (g ++ r') ∧ Blank g ∧ Close r'

theorem ListEnd.ending {r : Str} (h : ListEnd r) {g : Str} (hg : Blank g) : Ending (g ++ r) := by
  rcases h with ⟨c, r', rfl, hc⟩ | ⟨_, r', rfl, _, _⟩
  · exact ending_close hg (by rcases hc with rfl | rfl <;> simp)
  · exact ending_close hg (by simp)

theorem ListEnd.noWs {r : Str} (h : ListEnd r) : NoWs r := by
  rcases h with h | ⟨_, r', rfl, _, _⟩
  · exact h.noWs
  · exact noWs_cons (by decide)

theorem listEnd_close {c : Char} {r : Str} (g : Gaps) (hg : g.Ok) (b : Bool) (hc : c = ')' ∨ c = ']') :
    ListEnd (lastComma g b ++ c :: r) := by
  cases b with
  | false => exact .inl ⟨c, r, rfl, hc⟩
  | true => exact .inr ⟨g.gap 0, c :: r, by simp [lastComma], hg.gap 0, c, r, rfl, hc⟩

theorem more_ending {r : Str} (h : ListEnd r) (es : List Tm) (g : Gaps) (hg : g.Ok) : Ending (Tm.more g es ++ r) := by
  cases es with
  | nil => simp only [Tm.more]; exact h.ending (hg.gap 0)
  | cons e es => simp only [Tm.more, List.append_assoc, List.cons_append]; exact ending_close (hg.gap 0) (by simp)

/-- One element, blanks around it. -/
theorem element_ok {σ : Type} {p : PT σ Expr} {s : σ} {n : Nat} {r : Str} (h : ReadsWhole env t T f nd) (hn : nd + 12 ≤ n)
    (he : Ending r)
    (hp : ∀ i x a, exprP env n .parse () i = (.ok x a, ()) → p s i = (.ok x a, s)) {i : Str}
    (hi : i.dropWhile isWsp = t ++ r) : ws p s i = (.ok (r.dropWhile isWsp) T, s) := by
  obtain ⟨x, hx, hrun⟩ := h.parse n r he hn
  have := ws_ok (p := p) (s := s) (i := i) (r := x) (a := T) (s' := s) (by rw [hi]; exact hp _ _ _ hrun)
  rwa [hx.drop] at this

theorem more_drop_nil {g : Gaps} (hg : g.Ok) {r : Str} (hr : NoWs r) : (Tm.more g [] ++ r).dropWhile isWsp = r := by
  simp only [Tm.more]; exact gap_drop (hg.gap 0) hr

theorem more_drop_cons {g : Gaps} (hg : g.Ok) {e : Tm} {es : List Tm} {r : Str} : (Tm.more g (e :: es) ++ r).dropWhile isWsp =
    ',' :: (g.gap 1 ++ (e.write (g.sub 0) ++ (Tm.more (g.sub 1) es ++ r))) := by
  simp only [Tm.more, List.append_assoc, List.cons_append]; exact gap_drop (hg.gap 0) (noWs_cons (by decide))

/-- A comma without an element behind it. -/
theorem close_noElement {σ : Type} {p : PT σ Expr} {s : σ} {n : Nat} {g r : Str} (hr : Close r) (hg : Blank g) (hn : 15 ≤ n)
    (he : ∀ i j m, exprP env n .parse () i = (.err false j m, ()) → ∃ j m, p s i = (.err false j m, s)) :
    ∃ j m, ws p s (g ++ r) = (.err false j m, s) := by
  obtain ⟨j, m, hj⟩ := parse_bad (env := env) (n := n) hr.bad hn
  obtain ⟨j, m, hj⟩ := he _ _ _ hj
  exact ⟨j, m, ws_err (by rw [gap_drop hg hr.noWs]; exact hj)⟩

theorem sepRestF_more {σ : Type} {p : PT σ Expr} {s : σ} {n : Nat} {r : Str} (hr : ListEnd r)
    (hp : ∀ i x a, exprP env n .parse () i = (.ok x a, ()) → p s i = (.ok x a, s))
    (he : ∀ i j m, exprP env n .parse () i = (.err false j m, ()) → ∃ j m, p s i = (.err false j m, s)) (hn15 : 15 ≤ n) :
    ∀ (es : List Tm) (g : Gaps) (fuel : Nat), g.Ok → AllWhole env es nd → nd + 12 ≤ n → es.length < fuel →
    sepRestF (char ',') (ws p) fuel s ((Tm.more g es ++ r).dropWhile isWsp) = (.ok r (Tm.trees es), s)
  | [], g, fuel + 1, hg, _, _, _ => by
    rw [more_drop_nil hg hr.noWs]
    simp only [Tm.trees]
    unfold sepRestF
    rcases hr with ⟨c, r', rfl, hc⟩ | ⟨b, r', rfl, hb, hcl⟩
    · have : (char ',' : PT σ Char) s (c :: r') = (.err false (c :: r') none, s) := char_err (by rcases hc with rfl | rfl <;> simp)
      rw [this]
    · have h1 : (char ',' : PT σ Char) s (',' :: (b ++ r')) = (.ok (b ++ r') ',', s) := char_ok
      obtain ⟨j, m, h2⟩ := close_noElement (p := p) (s := s) hcl hb hn15 he
      rw [h1]
      dsimp only
      rw [if_neg (by simp), h2]
  | e :: es, g, fuel + 1, hg, h, hn, hlt => by
    obtain ⟨fe, d, hd, hw⟩ := h e (by simp) _ (hg.sub 0)
    have ih := sepRestF_more hr hp he hn15 es (g.sub 1) fuel (hg.sub 1) (fun x hx => h x (by simp [hx])) hn (by simpa using hlt)
    rw [more_drop_cons hg]
    have hc : (char ',' : PT σ Char) s (',' :: (g.gap 1 ++ (e.write (g.sub 0) ++ (Tm.more (g.sub 1) es ++ r)))) =
        (.ok (g.gap 1 ++ (e.write (g.sub 0) ++ (Tm.more (g.sub 1) es ++ r))) ',', s) := char_ok
    have hel := element_ok (r := Tm.more (g.sub 1) es ++ r) (i := g.gap 1 ++ (e.write (g.sub 0) ++ (Tm.more (g.sub 1) es ++ r))) hw (by omega)
      (more_ending hr es _ (hg.sub 1)) hp (gap_drop (hg.gap 1) (hw.start _))
    unfold sepRestF
    rw [hc]
    dsimp only
    rw [if_neg (by simp), hel]
    exact map_ok ih

theorem more_length : ∀ (es : List Tm) (g : Gaps), es.length ≤ (Tm.more g es).length
  | [], g => by simp
  | e :: es, g => by
    have := more_length es (g.sub 1)
    simp only [Tm.more]
    simp
    omega

theorem more_length_app (es : List Tm) (g : Gaps) (r : Str) (hr : NoWs r) : es.length ≤ ((Tm.more g es ++ r).dropWhile isWsp).length := by
  cases es with
  | nil => simp
  | cons e es =>
    have := more_length es (g.sub 1)
    have h1 : ∀ (a b : Str), (NoWs b) → b.length ≤ ((a ++ b).dropWhile isWsp).length := by
      intro a b hb
      induction a with
      | nil => rw [List.nil_append, noWs_drop hb]; exact Nat.le_refl _
      | cons c a ih =>
        rw [List.cons_append]
        cases hw : isWsp c with
        | true => rw [List.dropWhile_cons_of_pos hw]; exact ih
        | false => rw [List.dropWhile_cons_of_neg (by simp [hw])]; simp; omega
    simp only [Tm.more, List.append_assoc]
    refine Nat.le_trans ?_ (h1 _ _ (noWs_cons (by decide)))
    simp
    omega

/-- A list up to its end. -/
theorem sepList0_texts {σ : Type} {p : PT σ Expr} {s : σ} {n : Nat} {r : Str}
    (hp : ∀ i x a, exprP env n .parse () i = (.ok x a, ()) → p s i = (.ok x a, s))
    (he : ∀ i j m, exprP env n .parse () i = (.err false j m, ()) → ∃ j m, p s i = (.err false j m, s))
    {es : List Tm} (hr : ListEnd r) (hr0 : es = [] → Close r) (h : AllWhole env es nd) (hn : nd + 12 ≤ n) (h3 : 3 ≤ nd)
    {g : Gaps} (hg : g.Ok) :
    sepList0 (char ',') (ws p) s ((Tm.writes g es ++ r).dropWhile isWsp) = (.ok r (Tm.trees es), s) := by
  cases es with
  | nil =>
    have hcl := hr0 rfl
    obtain ⟨j, m, hj⟩ := close_noElement (p := p) (s := s) (g := []) hcl blank_nil (by omega) he
    simp only [Tm.writes, Tm.trees]
    rw [gap_drop (hg.gap 0) hcl.noWs]
    unfold sepList0
    rw [List.nil_append] at hj
    rw [hj]
  | cons e es =>
    obtain ⟨fe, d, hd, hw⟩ := h e (by simp) _ (hg.sub 0)
    have hel := element_ok (r := Tm.more (g.sub 1) es ++ r) (i := e.write (g.sub 0) ++ (Tm.more (g.sub 1) es ++ r)) hw (by omega)
      (more_ending hr es _ (hg.sub 1)) hp (noWs_drop (hw.start _))
    simp only [Tm.writes, Tm.trees, List.append_assoc]
    rw [gap_drop (hg.gap 0) (hw.start _)]
    unfold sepList0
    rw [hel]
    refine map_ok ?_
    unfold sepRest
    refine sepRestF_more hr hp he (by omega) es _ _ (hg.sub 1) (fun x hx => h x (by simp [hx])) hn ?_
    have := more_length_app es (g.sub 1) r hr.noWs
    omega

/-- The comma after the last element, and the end. -/
theorem lastComma_ok {g : Gaps} (hg : g.Ok) (b : Bool) {c : Char} {rest : Str} (hc : c = ')' ∨ c = ']') :
    ∃ o, PT.opt (ws (char ',')) () (lastComma g b ++ c :: rest) = (.ok (c :: rest) o, ()) := by
  cases b with
  | false =>
    refine ⟨none, opt_err (ws_err (j := c :: rest) (m := none) ?_)⟩
    rw [show lastComma g false ++ c :: rest = c :: rest from rfl, noWs_drop (noWs_cons (by rcases hc with rfl | rfl <;> rfl))]
    exact char_err (by rcases hc with rfl | rfl <;> simp)
  | true =>
    refine ⟨some ',', opt_ok ?_⟩
    have := ws_ok (p := (char ',' : P Char)) (s := ()) (i := ',' :: (g.gap 0 ++ c :: rest)) (r := g.gap 0 ++ c :: rest) (a := ',') (s' := ()) (by
      rw [noWs_drop (noWs_cons (by decide))]; exact char_ok)
    rw [gap_drop (hg.gap 0) (noWs_cons (by rcases hc with rfl | rfl <;> rfl))] at this
    simpa [lastComma] using this

/-- `Expr::arguments` on a list in parentheses. -/
theorem args_ok {es : List Tm} {n : Nat} {rest a : Str} (ha : Blank a) (h : AllWhole env es nd) (hn : nd + 12 ≤ n) (h3 : 3 ≤ nd) {g g' : Gaps} (hg : g.Ok)
    (hg' : g'.Ok) (b : Bool) :
    exprP env (n + 1) (.args false) () (a ++ '(' :: (Tm.writes g es ++ (lastComma g' (b && !es.isEmpty) ++ ')' :: rest))) = (.ok rest (Tm.trees es), ()) := by
  have hcl : ListEnd (lastComma g' (b && !es.isEmpty) ++ ')' :: rest) := listEnd_close g' hg' _ (.inl rfl)
  have hcl0 : es = [] → Close (lastComma g' (b && !es.isEmpty) ++ ')' :: rest) := by
    rintro rfl
    rw [List.isEmpty_nil, Bool.not_true, Bool.and_false]
    exact ⟨_, _, rfl, .inl rfl⟩
  show argsBody (exprP env n) false () _ = _
  unfold argsBody
  have hw := ws_ok (p := (char '(' : P Char)) (s := ()) (i := a ++ '(' :: (Tm.writes g es ++ (lastComma g' (b && !es.isEmpty) ++ ')' :: rest)))
    (r := Tm.writes g es ++ (lastComma g' (b && !es.isEmpty) ++ ')' :: rest))
    (a := '(') (s' := ()) (by rw [gap_drop ha (noWs_cons (by decide))]; exact char_ok)
  rw [pos_bind, bind_ok hw]
  have hl := sepList0_texts (σ := List Str) (s := [])
    (p := argument (exprP env n) (a ++ '(' :: (Tm.writes g es ++ (lastComma g' (b && !es.isEmpty) ++ ')' :: rest))) false)
    (n := n) (by
      intro i x a hrun
      unfold argument
      refine (bind_ok (a := ([] : List Str)) rfl).trans ?_
      refine (bind_ok (r := x) (a := a) (s' := []) ?_).trans rfl
      refine (alt_err (j := i) (m := none) (s' := []) rfl).trans ?_
      exact lift_ok hrun) (by
      intro i j m hrun
      refine ⟨j, m, ?_⟩
      unfold argument
      refine (bind_ok (a := ([] : List Str)) rfl).trans (bind_err ?_)
      refine (alt_err (j := i) (m := none) (s' := []) rfl).trans ?_
      exact lift_err hrun) hcl hcl0 h hn h3 hg
  refine cut_ok ?_
  refine (bind_ok (a := Tm.trees es) (r := lastComma g' (b && !es.isEmpty) ++ ')' :: rest) (s' := ()) (by rw [hl])).trans ?_
  obtain ⟨o, ho⟩ := lastComma_ok hg' (b && !es.isEmpty) (c := ')') (rest := rest) (.inl rfl)
  refine (bind_ok ho).trans ?_
  refine (bind_ok char_ok).trans ?_
  rfl

theorem item_array {es : List Tm} {g g' : Gaps} (hg : g.Ok) (hg' : g'.Ok) (b : Bool) (h : AllWhole env es nd) (h3 : 3 ≤ nd) :
    Item env ('[' :: (Tm.writes g es ++ (lastComma g' (b && !es.isEmpty) ++ [']']))) (.array (Tm.trees es)) 12 false (nd + 15) nm := by
  refine item_suf (by omega) ⟨_, _, rfl, by simp [atomChar]⟩ (suf_of_single ?_) 12 (by omega)
  intro n rest hf _ hn
  obtain ⟨n, rfl⟩ : ∃ m, n = m + 2 := ⟨n - 2, by omega⟩
  have hcl : ListEnd (lastComma g' (b && !es.isEmpty) ++ ']' :: rest) := listEnd_close g' hg' _ (.inr rfl)
  have hcl0 : es = [] → Close (lastComma g' (b && !es.isEmpty) ++ ']' :: rest) := by
    rintro rfl
    rw [List.isEmpty_nil, Bool.not_true, Bool.and_false]
    exact ⟨_, _, rfl, .inr rfl⟩
  have htx : '[' :: (Tm.writes g es ++ (lastComma g' (b && !es.isEmpty) ++ [']'])) ++ rest =
      '[' :: (Tm.writes g es ++ (lastComma g' (b && !es.isEmpty) ++ ']' :: rest)) := by simp
  rw [htx, single_front (by decide)]
  have e1 := pathVarBool_err (env := env) (i := '[' :: (Tm.writes g es ++ (lastComma g' (b && !es.isEmpty) ++ ']' :: rest))) (noWs_cons (by decide)) (by simp) rfl
  rw [alt_err e1]
  refine alt_ok ?_
  show arrayBody (exprP env n) () _ = _
  unfold arrayBody
  have h1 := ws_ok (p := (char '[' : P Char)) (s := ()) (i := '[' :: (Tm.writes g es ++ (lastComma g' (b && !es.isEmpty) ++ ']' :: rest)))
    (r := Tm.writes g es ++ (lastComma g' (b && !es.isEmpty) ++ ']' :: rest))
    (a := '[') (s' := ()) (by rw [noWs_drop (noWs_cons (by decide))]; exact char_ok)
  rw [bind_ok h1]
  have hl := sepList0_texts (σ := Unit) (s := ()) (p := (exprP env n .parse : P Expr)) (n := n) (fun _ _ _ h => h)
    (fun _ j m h => ⟨j, m, h⟩) hcl hcl0 h (by omega) h3 hg
  refine cut_ok ?_
  refine (bind_ok hl).trans ?_
  obtain ⟨o, ho⟩ := lastComma_ok hg' (b && !es.isEmpty) (c := ']') (rest := rest) (.inr rfl)
  refine (bind_ok ho).trans ?_
  refine (bind_ok char_ok).trans ?_
  rfl

/-! ### Parentheses -/

theorem group_front {n : Nat} {i : Str} : atPos env (n + 2) 12 () ('(' :: i) = groupBody (exprP env n) () ('(' :: i) := by
  rw [single_front (by decide), alt_err (pathVarBool_err (noWs_cons (by decide)) (by simp) rfl),
    alt_err (array_err (noWs_cons (by decide)) (by simp))]
  rfl

theorem item_group {a b : Str} (ha : Blank a) (hb : Blank b) (h : ReadsWhole env t T f nd) :
    Item env ('(' :: (a ++ (t ++ (b ++ [')'])))) (.group T) 12 false (nd + 15) nm := by
  have h3 := h.need3
  refine item_suf (by omega) ⟨_, _, rfl, by simp [atomChar]⟩ (suf_of_single ?_) 12 (by omega)
  intro n rest hf _ hn
  obtain ⟨n, rfl⟩ : ∃ m, n = m + 2 := ⟨n - 2, by omega⟩
  rw [show '(' :: (a ++ (t ++ (b ++ [')']))) ++ rest = '(' :: (a ++ (t ++ (b ++ ')' :: rest))) by simp, group_front]
  unfold groupBody
  have h1 := ws_ok (p := (char '(' : P Char)) (s := ()) (i := '(' :: (a ++ (t ++ (b ++ ')' :: rest)))) (r := a ++ (t ++ (b ++ ')' :: rest)))
    (a := '(') (s' := ()) (by rw [noWs_drop (noWs_cons (by decide))]; exact char_ok)
  rw [gap_drop ha (h.start _)] at h1
  rw [bind_ok h1]
  obtain ⟨x, hx, hr⟩ := h.parse n (b ++ ')' :: rest) (ending_close hb (.inl rfl)) (by omega)
  refine (bind_ok (opt_ok hr)).trans ?_
  have h2 := ws_ok (p := (PT.opt (PT.peek (char ',')) : P (Option Char))) (s := ()) (i := x) (r := ')' :: rest)
    (a := none) (s' := ()) (by
      rw [hx.drop, gap_drop hb (noWs_cons (by decide))]
      exact opt_err (peek_err (char_err (by simp))))
  rw [noWs_drop (noWs_cons (by decide))] at h2
  refine (bind_ok h2).trans ?_
  refine (bind_ok char_ok).trans ?_
  rfl

/-- The further elements of a tuple. -/
theorem many0_more {n : Nat} {r : Str} (hr : ListEnd r) {j : Str} {m : Option Msg}
    (hstop : (do let _ ← char ','; ws (exprP env n .parse) : P Expr) () r = (.err false j m, ())) :
    ∀ (es : List Tm) (g : Gaps), g.Ok → AllWhole env es nd → nd + 12 ≤ n →
    PT.many0 (do let _ ← char ','; ws (exprP env n .parse) : P Expr) () ((Tm.more g es ++ r).dropWhile isWsp) = (.ok r (Tm.trees es), ())
  | [], g, hg, _, _ => by rw [more_drop_nil hg hr.noWs]; exact many0_stop hstop
  | e :: es, g, hg, h, hn => by
    obtain ⟨fe, d, hd, hw⟩ := h e (by simp) _ (hg.sub 0)
    have hel := element_ok (σ := Unit) (s := ()) (p := (exprP env n .parse : P Expr)) (r := Tm.more (g.sub 1) es ++ r)
      (i := g.gap 1 ++ (e.write (g.sub 0) ++ (Tm.more (g.sub 1) es ++ r))) hw (by omega) (more_ending hr es _ (hg.sub 1)) (fun _ _ _ h => h)
      (gap_drop (hg.gap 1) (hw.start _))
    rw [more_drop_cons hg]
    simp only [Tm.trees]
    refine many0_cons (r := (Tm.more (g.sub 1) es ++ r).dropWhile isWsp) ((bind_ok char_ok).trans hel) ?_
      (many0_more hr hstop es _ (hg.sub 1) (fun x hx => h x (by simp [hx])) hn)
    have := (List.dropWhile_suffix (l := Tm.more (g.sub 1) es ++ r) isWsp).length_le
    simp at this ⊢
    omega

theorem item_tuple {es : List Tm} {g g' : Gaps} (hg : g.Ok) (hg' : g'.Ok) (b : Bool) (h : AllWhole env es nd) (h3 : 3 ≤ nd) :
    Item env ('(' :: (Tm.writes g es ++ (lastComma g' (es.length = 1 || b && !es.isEmpty) ++ [')']))) (.tuple (Tm.trees es)) 12 false (nd + 15) nm := by
  refine item_suf (by omega) ⟨_, _, rfl, by simp [atomChar]⟩ (suf_of_single ?_) 12 (by omega)
  intro n rest hf _ hn
  obtain ⟨n, rfl⟩ : ∃ m, n = m + 2 := ⟨n - 2, by omega⟩
  rw [show '(' :: (Tm.writes g es ++ (lastComma g' (es.length = 1 || b && !es.isEmpty) ++ [')'])) ++ rest =
    '(' :: (Tm.writes g es ++ (lastComma g' (es.length = 1 || b && !es.isEmpty) ++ ')' :: rest)) by simp, group_front]
  unfold groupBody
  cases es with
  | nil =>
    have h1 := ws_ok (p := (char '(' : P Char)) (s := ()) (i := '(' :: (g.gap 0 ++ ')' :: rest)) (r := g.gap 0 ++ ')' :: rest)
      (a := '(') (s' := ()) (by rw [noWs_drop (noWs_cons (by decide))]; exact char_ok)
    rw [gap_drop (hg.gap 0) (noWs_cons (by decide))] at h1
    rw [show Tm.writes g [] ++ (lastComma g' (([] : List Tm).length = 1 || b && !([] : List Tm).isEmpty) ++ ')' :: rest) = g.gap 0 ++ ')' :: rest by
      simp [Tm.writes, lastComma]]
    refine (bind_ok h1).trans ?_
    obtain ⟨j, m, hj⟩ := parse_bad (env := env) (n := n) (bad_cons (c := ')') (r := rest) (by simp [BadStart])) (by omega)
    refine (bind_ok (opt_err hj)).trans ?_
    refine (bind_ok char_ok).trans ?_
    rfl
  | cons e es =>
    obtain ⟨fe, d, hd, hw⟩ := h e (by simp) _ (hg.sub 0)
    -- what stands behind the further elements
    obtain ⟨q, hq⟩ : ∃ q, q = (decide ((e :: es).length = 1) || b && !(e :: es).isEmpty) := ⟨_, rfl⟩
    rw [← hq]
    have hq1 : es = [] → q = true := by rintro rfl; rw [hq]; rfl
    have hle : ListEnd (lastComma g' q ++ ')' :: rest) := listEnd_close g' hg' _ (.inl rfl)
    have h1 := ws_ok (p := (char '(' : P Char)) (s := ()) (i := '(' :: (Tm.writes g (e :: es) ++ (lastComma g' q ++ ')' :: rest)))
      (r := Tm.writes g (e :: es) ++ (lastComma g' q ++ ')' :: rest))
      (a := '(') (s' := ()) (by rw [noWs_drop (noWs_cons (by decide))]; exact char_ok)
    simp only [Tm.writes, List.append_assoc] at h1 ⊢
    rw [gap_drop (hg.gap 0) (hw.start _)] at h1
    refine (bind_ok h1).trans ?_
    have hme := more_ending hle es _ (hg.sub 1)
    obtain ⟨x, hx, hrun⟩ := hw.parse n (Tm.more (g.sub 1) es ++ (lastComma g' q ++ ')' :: rest)) hme (by omega)
    refine (bind_ok (opt_ok hrun)).trans ?_
    -- a comma follows in any case
    obtain ⟨z, hz⟩ : ∃ z, (Tm.more (g.sub 1) es ++ (lastComma g' q ++ ')' :: rest)).dropWhile isWsp = ',' :: z := by
      cases es with
      | nil =>
        rw [more_drop_nil (hg.sub 1) hle.noWs, hq1 rfl]
        exact ⟨_, rfl⟩
      | cons e' es => exact ⟨_, more_drop_cons (hg.sub 1)⟩
    have h2 := ws_ok (p := (PT.opt (PT.peek (char ',')) : P (Option Char))) (s := ()) (i := x)
      (r := (Tm.more (g.sub 1) es ++ (lastComma g' q ++ ')' :: rest)).dropWhile isWsp) (a := some ',') (s' := ()) (by
        rw [hx.drop, hz]
        exact opt_ok (peek_ok char_ok))
    rw [dropWhile_idem] at h2
    refine (bind_ok h2).trans ?_
    -- where the further elements end
    have hstop : ∃ j m, (do let _ ← char ','; ws (exprP env n .parse) : P Expr) () (lastComma g' q ++ ')' :: rest) = (.err false j m, ()) := by
      cases q with
      | true =>
        obtain ⟨j, m, hj⟩ := close_noElement (env := env) (p := (exprP env n .parse : P Expr)) (s := ()) (g := g'.gap 0) (r := ')' :: rest)
          ⟨_, _, rfl, .inl rfl⟩ (hg'.gap 0) (by omega) (fun _ j m h => ⟨j, m, h⟩)
        refine ⟨j, m, ?_⟩
        rw [show lastComma g' true ++ ')' :: rest = ',' :: (g'.gap 0 ++ ')' :: rest) by simp [lastComma]]
        exact (bind_ok char_ok).trans hj
      | false => exact ⟨_, none, bind_err (char_err (by simp [lastComma]))⟩
    obtain ⟨j, m, hstop⟩ := hstop
    have hmany := many0_more hle hstop es _ (hg.sub 1) (fun x hx => h x (by simp [hx])) (by omega : nd + 12 ≤ n)
    refine (bind_ok hmany).trans ?_
    have h4 : ∃ o, ws (PT.opt (char ',') : P (Option Char)) () (lastComma g' q ++ ')' :: rest) = (.ok (')' :: rest) o, ()) := by
      cases q with
      | true =>
        refine ⟨some ',', ?_⟩
        rw [show lastComma g' true ++ ')' :: rest = ',' :: (g'.gap 0 ++ ')' :: rest) by simp [lastComma]]
        have := ws_ok (p := (PT.opt (char ',') : P (Option Char))) (s := ()) (i := ',' :: (g'.gap 0 ++ ')' :: rest))
          (r := g'.gap 0 ++ ')' :: rest) (a := some ',') (s' := ()) (by
          rw [noWs_drop (noWs_cons (by decide))]; exact opt_ok char_ok)
        rwa [gap_drop (hg'.gap 0) (noWs_cons (by decide))] at this
      | false =>
        refine ⟨none, ?_⟩
        have := ws_ok (p := (PT.opt (char ',') : P (Option Char))) (s := ()) (i := ')' :: rest) (r := ')' :: rest) (a := none) (s' := ()) (by
          rw [noWs_drop (noWs_cons (by decide))]; exact opt_err (char_err (by simp)))
        rwa [noWs_drop (noWs_cons (by decide))] at this
    obtain ⟨o, h4⟩ := h4
    refine (bind_ok h4).trans ?_
    refine (bind_ok char_ok).trans ?_
    rfl

end

end Askama
