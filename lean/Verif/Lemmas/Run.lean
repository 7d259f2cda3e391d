import Verif.Model.ParseNode

/-!
# Running parsers on known input
-/

namespace Askama

open PT

section
variable {σ α β γ : Type} {p q : PT σ α} {s s' s'' : σ} {i j r : Str} {a : α} {c : Bool} {m : Option Msg}

theorem bind_ok {f : α → PT σ β} (h : p s i = (.ok r a, s')) : (p >>= f) s i = f a s' r := by
  show PT.bind p f s i = _
  unfold PT.bind
  rw [h]

theorem bind_err {f : α → PT σ β} (h : p s i = (.err c j m, s')) : (p >>= f) s i = (.err c j m, s') := by
  show PT.bind p f s i = _
  unfold PT.bind
  rw [h]

theorem pure_run : (pure a : PT σ α) s i = (.ok i a, s) := rfl

theorem pos_bind {f : Str → PT σ β} : (pos >>= f) s i = f i s i := rfl

theorem map_ok {f : α → β} (h : p s i = (.ok r a, s')) : PT.map f p s i = (.ok r (f a), s') := by
  unfold PT.map PT.bind
  rw [h]
  rfl

theorem map_err {f : α → β} (h : p s i = (.err c j m, s')) : PT.map f p s i = (.err c j m, s') := by
  unfold PT.map PT.bind
  rw [h]

theorem alt_ok (h : p s i = (.ok r a, s')) : PT.alt p q s i = (.ok r a, s') := by
  unfold PT.alt; rw [h]

theorem alt_err (h : p s i = (.err false j m, s')) : PT.alt p q s i = q s' i := by
  unfold PT.alt; rw [h]

theorem alt_fail (h : p s i = (.err true j m, s')) : PT.alt p q s i = (.err true j m, s') := by
  unfold PT.alt; rw [h]

theorem opt_ok (h : p s i = (.ok r a, s')) : PT.opt p s i = (.ok r (some a), s') := by
  unfold PT.opt; rw [h]

theorem opt_err (h : p s i = (.err false j m, s')) : PT.opt p s i = (.ok i none, s') := by
  unfold PT.opt; rw [h]

theorem opt_fail (h : p s i = (.err true j m, s')) : PT.opt p s i = (.err true j m, s') := by
  unfold PT.opt; rw [h]

theorem cut_ok (h : p s i = (.ok r a, s')) : PT.cut p s i = (.ok r a, s') := by
  unfold PT.cut; rw [h]

theorem cut_err (h : p s i = (.err c j m, s')) : PT.cut p s i = (.err true j m, s') := by
  unfold PT.cut; rw [h]

theorem peek_ok (h : p s i = (.ok r a, s')) : PT.peek p s i = (.ok i a, s') := by
  unfold PT.peek; rw [h]

theorem peek_err (h : p s i = (.err c j m, s')) : PT.peek p s i = (.err c j m, s') := by
  unfold PT.peek; rw [h]

theorem lift_ok {p : P α} {s : σ} {u : Unit} (h : p () i = (.ok r a, u)) :
    (PT.lift p : PT σ α) s i = (.ok r a, s) := by
  unfold PT.lift; rw [h]

theorem lift_err {p : P α} {s : σ} {u : Unit} (h : p () i = (.err c j m, u)) :
    (PT.lift p : PT σ α) s i = (.err c j m, s) := by
  unfold PT.lift; rw [h]

theorem consumed_ok {t : Str} (h : p s (t ++ r) = (.ok r a, s')) :
    PT.consumed p s (t ++ r) = (.ok r (t, a), s') := by
  unfold PT.consumed; rw [h]; simp

theorem recognize_ok {t : Str} (h : p s (t ++ r) = (.ok r a, s')) :
    PT.recognize p s (t ++ r) = (.ok r t, s') := map_ok (consumed_ok h)

theorem consumed_err (h : p s i = (.err c j m, s')) : PT.consumed p s i = (.err c j m, s') := by
  unfold PT.consumed; rw [h]

theorem recognize_err (h : p s i = (.err c j m, s')) : PT.recognize p s i = (.err c j m, s') :=
  map_err (consumed_err h)

theorem tag_ok {t : Str} : (PT.tag t : PT σ Str) s (t ++ r) = (.ok r t, s) := by
  unfold PT.tag
  rw [if_pos (List.isPrefixOf_iff_prefix.2 (List.prefix_append _ _))]
  simp

theorem tag_err {t : Str} (h : ¬ t <+: i) : (PT.tag t : PT σ Str) s i = (.err false i none, s) := by
  unfold PT.tag
  rw [if_neg (fun hp => h (List.isPrefixOf_iff_prefix.1 hp))]

theorem char_ok {c : Char} : (PT.char c : PT σ Char) s (c :: r) = (.ok r c, s) := by
  simp [PT.char, PT.satisfy]

theorem char_err {c : Char} (h : i.head? ≠ some c) : (PT.char c : PT σ Char) s i = (.err false i none, s) := by
  unfold PT.char PT.satisfy
  cases i with
  | nil => rfl
  | cons d r =>
    have : d ≠ c := by simpa using h
    simp [this]

/-! ### Repetition -/

theorem many0F_stop {fuel : Nat} (h : p s i = (.err false j m, s')) : many0F p (fuel + 1) s i = (.ok i [], s') := by
  unfold many0F; rw [h]

theorem many0_stop (h : p s i = (.err false j m, s')) : PT.many0 p s i = (.ok i [], s') := many0F_stop h

theorem many0F_fail {fuel : Nat} (h : p s i = (.err true j m, s')) :
    many0F p (fuel + 1) s i = (.err true j m, s') := by
  unfold many0F; rw [h]

/-- More fuel does not change a result. -/
theorem many0F_mono (p : PT σ α) : ∀ n k s i, (many0F p n s i).1 ≠ .stuck → many0F p (n + k) s i = many0F p n s i := by
  intro n
  induction n with
  | zero => intro k s i h; simp [many0F, PT.stuck] at h
  | succ n ih =>
    intro k s i h
    rw [show n + 1 + k = (n + k) + 1 by omega]
    unfold many0F at h ⊢
    generalize p s i = x at h ⊢
    match x with
    | (.ok r a, s') =>
      dsimp only at h ⊢
      split at h
      · rename_i he; rw [if_pos he, if_pos he]
      · rename_i he
        rw [if_neg he, if_neg he]
        unfold PT.map PT.bind at h ⊢
        rw [ih k s' r]
        intro hst
        generalize many0F p n s' r = y at h hst
        match y with
        | (.stuck, _) => simp at h
        | (.ok _ _, _) => simp at hst
        | (.err _ _ _, _) => simp at hst
    | (.err false _ _, s') => rfl
    | (.err true _ _, s') => rfl
    | (.stuck, s') => rfl

/-- One round of `many0` that consumes something, followed by the rest. -/
theorem many0_cons {l : List α} (h : p s i = (.ok r a, s')) (hlt : r.length < i.length)
    (hr : PT.many0 p s' r = (.ok j l, s'')) : PT.many0 p s i = (.ok j (a :: l), s'') := by
  unfold PT.many0 at hr ⊢
  unfold many0F
  rw [h]
  dsimp only
  rw [if_neg (by omega)]
  have h2 := many0F_mono p (r.length + 1) (i.length - (r.length + 1)) s' r (by rw [hr]; simp)
  rw [show r.length + 1 + (i.length - (r.length + 1)) = i.length by omega, hr] at h2
  exact map_ok h2

theorem many0_cons_fail (h : p s i = (.ok r a, s')) (hlt : r.length < i.length)
    (hr : PT.many0 p s' r = (.err c j m, s'')) : PT.many0 p s i = (.err c j m, s'') := by
  unfold PT.many0 at hr ⊢
  unfold many0F
  rw [h]
  dsimp only
  rw [if_neg (by omega)]
  have h2 := many0F_mono p (r.length + 1) (i.length - (r.length + 1)) s' r (by rw [hr]; simp)
  rw [show r.length + 1 + (i.length - (r.length + 1)) = i.length by omega, hr] at h2
  exact map_err h2

end

/-! ### White space -/

/-- Only white space. -/
def AllWs (w : Str) : Prop := ∀ c ∈ w, isWsp c = true

/-- Does not start with white space. -/
def NoWs (i : Str) : Prop := ∀ c, i.head? = some c → isWsp c = false

theorem noWs_cons {c : Char} {r : Str} (h : isWsp c = false) : NoWs (c :: r) := by
  intro d hd; simp at hd; rwa [← hd]

theorem dropWhile_ws {w r : Str} (hw : AllWs w) (hr : NoWs r) : (w ++ r).dropWhile isWsp = r := by
  induction w with
  | nil =>
    cases r with
    | nil => rfl
    | cons c r => exact List.dropWhile_cons_of_neg (by simp [hr c rfl])
  | cons a w ih =>
    rw [List.cons_append, List.dropWhile_cons_of_pos (hw a (by simp))]
    exact ih fun c hc => hw c (by simp [hc])

section
variable {σ α : Type} {p : PT σ α} {s s' : σ} {i j r w w2 : Str} {a : α} {c : Bool} {m : Option Msg}

theorem skipWs_run : (skipWs : PT σ Unit) s i = (.ok (i.dropWhile isWsp) (), s) := rfl

theorem ws_ok (hp : p s (i.dropWhile isWsp) = (.ok r a, s')) : ws p s i = (.ok (r.dropWhile isWsp) a, s') := by
  show (skipWs >>= fun _ => p >>= fun a => skipWs >>= fun _ => pure a) s i = _
  rw [bind_ok skipWs_run, bind_ok hp, bind_ok skipWs_run]
  rfl

theorem ws_err (hp : p s (i.dropWhile isWsp) = (.err c j m, s')) : ws p s i = (.err c j m, s') := by
  show (skipWs >>= fun _ => p >>= fun a => skipWs >>= fun _ => pure a) s i = _
  rw [bind_ok skipWs_run, bind_err hp]

/-- `ws p` between runs of white space. -/
theorem ws_run (hw : AllWs w) (hi : NoWs i) (hp : p s i = (.ok (w2 ++ r) a, s')) (hw2 : AllWs w2) (hr : NoWs r) :
    ws p s (w ++ i) = (.ok r a, s') := by
  have h := ws_ok (p := p) (s := s) (i := w ++ i) (r := w2 ++ r) (a := a) (s' := s') (by rwa [dropWhile_ws hw hi])
  rwa [dropWhile_ws hw2 hr] at h

end

/-! ### Identifiers and keywords -/

theorem identStart_cont {c : Char} (h : identStart c = true) : identCont c = true := by
  unfold identStart at h
  unfold identCont
  simp only [Bool.or_eq_true] at h ⊢
  rcases h with (h | h) | h <;> simp [h]

theorem takeWhile_drop_cont (i : Str) :
    i.takeWhile identStart ++ (i.dropWhile identStart).takeWhile identCont = i.takeWhile identCont ∧
    (i.dropWhile identStart).dropWhile identCont = i.dropWhile identCont := by
  induction i with
  | nil => exact ⟨rfl, rfl⟩
  | cons c i ih =>
    cases h : identStart c with
    | true =>
      rw [List.takeWhile_cons_of_pos h, List.dropWhile_cons_of_pos h,
        List.takeWhile_cons_of_pos (identStart_cont h), List.dropWhile_cons_of_pos (identStart_cont h)]
      exact ⟨by rw [List.cons_append, ih.1], ih.2⟩
    | false =>
      rw [List.takeWhile_cons_of_neg (by simp [h]), List.dropWhile_cons_of_neg (by simp [h])]
      exact ⟨rfl, rfl⟩

/-- `identifier` takes as many identifier characters as there are, if the first one may start an identifier. -/
theorem identifier_run (i : Str) : identifier () i =
    if i.head?.any identStart then (.ok (i.dropWhile identCont) (i.takeWhile identCont), ())
    else (.err false i none, ()) := by
  cases i with
  | nil => rfl
  | cons c i =>
    cases h : identStart c with
    | false =>
      have h1 : (takeWhile1 identStart : P Str) () (c :: i) = (.err false (c :: i) none, ()) := by
        simp [PT.takeWhile1, h]
      simp only [List.head?_cons, Option.any_some, h, Bool.false_eq_true, if_false]
      exact recognize_err (bind_err h1)
    | true =>
      simp only [List.head?_cons, Option.any_some, h, if_true]
      have h1 : (takeWhile1 identStart : P Str) () (c :: i) =
          (.ok ((c :: i).dropWhile identStart) ((c :: i).takeWhile identStart), ()) := by
        simp [PT.takeWhile1, h]
      have h2 : ∃ o, (PT.opt (takeWhile1 identCont) : P (Option Str)) () ((c :: i).dropWhile identStart) =
          (.ok ((c :: i).dropWhile identCont) o, ()) := by
        rw [← (takeWhile_drop_cont (c :: i)).2]
        unfold PT.opt PT.takeWhile1
        split
        · rename_i r a s' heq
          split at heq
          · simp at heq
          · simp only [Prod.mk.injEq, PRes.ok.injEq] at heq
            exact ⟨_, by rw [heq.1.1]⟩
        · rename_i s' heq
          split at heq
          · rename_i hemp
            refine ⟨none, ?_⟩
            have : ((c :: i).dropWhile identStart).dropWhile identCont = (c :: i).dropWhile identStart := by
              have h3 := List.takeWhile_append_dropWhile (p := identCont) (l := (c :: i).dropWhile identStart)
              rw [List.isEmpty_iff.1 hemp] at h3
              exact h3
            rw [this]
          · simp at heq
        · rename_i s' heq
          split at heq <;> simp at heq
        · rename_i s' heq
          split at heq <;> simp at heq
      obtain ⟨o, ho⟩ := h2
      have h3 := List.takeWhile_append_dropWhile (p := identCont) (l := c :: i)
      have h4 : (takeWhile1 identStart >>= fun _ => opt (takeWhile1 identCont) : P (Option Str)) ()
          ((c :: i).takeWhile identCont ++ (c :: i).dropWhile identCont) = (.ok ((c :: i).dropWhile identCont) o, ()) := by
        rw [h3, bind_ok h1, ho]
      have h5 := recognize_ok h4
      rwa [h3] at h5

/-- A well-formed identifier. -/
def IsIdent (n : Str) : Prop := n ≠ [] ∧ n.head?.any identStart = true ∧ ∀ c ∈ n, identCont c = true

/-- The text does not continue an identifier. -/
def NoIdent (r : Str) : Prop := ∀ c, r.head? = some c → identCont c = false

theorem takeWhile_ident {n r : Str} (hn : ∀ c ∈ n, identCont c = true) (hr : NoIdent r) :
    (n ++ r).takeWhile identCont = n ∧ (n ++ r).dropWhile identCont = r := by
  induction n with
  | nil =>
    cases r with
    | nil => exact ⟨rfl, rfl⟩
    | cons c r =>
      rw [List.nil_append, List.takeWhile_cons_of_neg (by simp [hr c rfl]), List.dropWhile_cons_of_neg (by simp [hr c rfl])]
      exact ⟨rfl, rfl⟩
  | cons a n ih =>
    have ha := hn a (by simp)
    have h := ih fun c hc => hn c (by simp [hc])
    rw [List.cons_append, List.takeWhile_cons_of_pos ha, List.dropWhile_cons_of_pos ha, h.1, h.2]
    exact ⟨rfl, rfl⟩

theorem identifier_ok {n r : Str} (hn : IsIdent n) (hr : NoIdent r) : identifier () (n ++ r) = (.ok r n, ()) := by
  rw [identifier_run, (takeWhile_ident hn.2.2 hr).1, (takeWhile_ident hn.2.2 hr).2]
  have : (n ++ r).head?.any identStart = true := by
    have := hn.2.1
    cases n with
    | nil => exact absurd rfl hn.1
    | cons c n => simpa using this
  rw [if_pos this]

theorem identifier_err {i : Str} (h : i.head?.any identStart = false) :
    identifier () i = (.err false i none, ()) := by
  rw [identifier_run, if_neg (by simp [h])]

/-- What `keyword` does. -/
theorem keyword_run (k i : Str) : keyword k () i =
    if i.head?.any identStart ∧ i.takeWhile identCont = k then (.ok (i.dropWhile identCont) k, ())
    else (.err false i none, ()) := by
  have h := identifier_run i
  unfold keyword
  rw [pos_bind]
  by_cases h1 : i.head?.any identStart = true
  · rw [if_pos h1] at h
    rw [bind_ok h]
    by_cases h2 : k = i.takeWhile identCont
    · rw [if_pos h2, if_pos ⟨h1, h2.symm⟩, ← h2]; rfl
    · rw [if_neg h2, if_neg (fun hh => h2 hh.2.symm)]; rfl
  · rw [if_neg h1] at h
    rw [bind_err h, if_neg (fun hh => h1 hh.1)]

theorem keyword_ok {k r : Str} (hk : IsIdent k) (hr : NoIdent r) : keyword k () (k ++ r) = (.ok r k, ()) := by
  rw [keyword_run, (takeWhile_ident hk.2.2 hr).1, (takeWhile_ident hk.2.2 hr).2, if_pos]
  refine ⟨?_, rfl⟩
  have := hk.2.1
  cases k with
  | nil => exact absurd rfl hk.1
  | cons c n => simpa using this

end Askama
