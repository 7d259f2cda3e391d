import Verif.Lemmas.PrecTree
import Verif.Lemmas.Tags
import Verif.Spec.Doc

/-!
# The pattern parser on written patterns (C66)
-/

namespace Askama

open Spec PT

/-! ### Lists with separators -/

section
variable {σ ι α γ : Type}

/-- Further elements of a list. -/
def moreOf (sep txt : ι → Str) : List ι → Str
  | [] => []
  | a :: l => sep a ++ (txt a ++ moreOf sep txt l)

theorem moreOf_length (sep txt : ι → Str) (l : List ι) (hs : ∀ a ∈ l, sep a ≠ []) : l.length ≤ (moreOf sep txt l).length := by
  induction l with
  | nil => simp
  | cons a l ih =>
    have : 0 < (sep a).length := List.length_pos_iff.2 (hs a (by simp))
    have := ih fun b hb => hs b (by simp [hb])
    simp [moreOf]
    omega

theorem drop_length_le (r : Str) : (r.dropWhile isWsp).length ≤ r.length := by
  induction r with
  | nil => simp
  | cons c r ih =>
    rw [List.dropWhile_cons]
    split <;> simp
    omega

theorem Left.length_le {f : Bool} {r x : Str} (h : Left f r x) : x.length ≤ r.length := by
  rcases h with rfl | ⟨_, rfl⟩
  · exact Nat.le_refl _
  · exact drop_length_le r

variable {sepP : PT σ γ} {p : PT σ α} {s : σ} {r : Str} {sep txt : ι → Str} {val : ι → α} {E : Str → Prop}

theorem sepStop {x j : Str} {m : Option Msg} (h : sepP s x = (.err false j m, s)) (n : Nat) :
    sepRestF sepP p (n + 1) s x = (.ok x [], s) := by
  unfold sepRestF
  rw [h]

theorem moreOf_end (hE : E r) {l : List ι} (hEm : ∀ a ∈ l, ∀ i, E (sep a ++ (txt a ++ i))) : E (moreOf sep txt l ++ r) := by
  cases l with
  | nil => exact hE
  | cons b l => simpa [moreOf, List.append_assoc] using hEm b (by simp) (moreOf sep txt l ++ r)

theorem sepRestF_of
    (hstop : ∀ x, Left true r x → ∀ n, sepRestF sepP p (n + 1) s x = (.ok x [], s)) (hE : E r) :
    ∀ (l : List ι) (fuel : Nat) (x : Str), l.length < fuel → (∀ a ∈ l, ∀ i, E (sep a ++ (txt a ++ i))) →
      (∀ a ∈ l, ∀ i x, Left true (sep a ++ (txt a ++ i)) x →
        ∃ g, sepP s x = (.ok (txt a ++ i) g, s) ∧ (txt a ++ i).length < x.length) →
      (∀ a ∈ l, ∀ rest, E rest → ∃ y, Left true rest y ∧ p s (txt a ++ rest) = (.ok y (val a), s)) →
      Left true (moreOf sep txt l ++ r) x →
      ∃ y, Left true r y ∧ sepRestF sepP p fuel s x = (.ok y (l.map val), s)
  | [], fuel + 1, x, _, _, _, _, hx => ⟨x, hx, hstop x hx fuel⟩
  | a :: l, fuel + 1, x, hlt, hEm, hsep, hp, hx => by
    have hx' : Left true (sep a ++ (txt a ++ (moreOf sep txt l ++ r))) x := by
      simpa [moreOf, List.append_assoc] using hx
    obtain ⟨g, hg, hl⟩ := hsep a (by simp) _ x hx'
    have hEr : E (moreOf sep txt l ++ r) := moreOf_end hE fun b hb => hEm b (by simp [hb])
    obtain ⟨y, hy, hrun⟩ := hp a (by simp) _ hEr
    obtain ⟨z, hz, hrest⟩ := sepRestF_of hstop hE l fuel y (by simpa using hlt) (fun b hb => hEm b (by simp [hb]))
      (fun b hb => hsep b (by simp [hb])) (fun b hb => hp b (by simp [hb])) hy
    refine ⟨z, hz, ?_⟩
    unfold sepRestF
    rw [hg]
    dsimp only
    rw [if_neg (by omega), hrun]
    exact map_ok hrest

/-- A list with separators. -/
theorem sepList1_of (a : ι) (l : List ι) (hne : ∀ a ∈ l, sep a ≠ [])
    (hstop : ∀ x, Left true r x → ∀ n, sepRestF sepP p (n + 1) s x = (.ok x [], s))
    (hE : E r) (hEm : ∀ a ∈ l, ∀ i, E (sep a ++ (txt a ++ i)))
    (hsep : ∀ b ∈ l, ∀ i x, Left true (sep b ++ (txt b ++ i)) x →
        ∃ g, sepP s x = (.ok (txt b ++ i) g, s) ∧ (txt b ++ i).length < x.length)
    (hp : ∀ b ∈ a :: l, ∀ rest, E rest → ∃ y, Left true rest y ∧ p s (txt b ++ rest) = (.ok y (val b), s)) :
    ∃ y, Left true r y ∧ sepList1 sepP p s (txt a ++ (moreOf sep txt l ++ r)) = (.ok y (val a :: l.map val), s) := by
  have hEr : E (moreOf sep txt l ++ r) := moreOf_end hE hEm
  obtain ⟨y, hy, hrun⟩ := hp a (by simp) _ hEr
  have hfuel : l.length < y.length + 1 := by
    cases l with
    | nil => simp
    | cons b l =>
      have h0 : Left true (sep b ++ (txt b ++ (moreOf sep txt l ++ r))) y := by
        simpa [moreOf, List.append_assoc] using hy
      obtain ⟨_, _, h1⟩ := hsep b (by simp) _ y h0
      have := moreOf_length sep txt l fun a ha => hne a (by simp [ha])
      simp at h1 ⊢
      omega
  obtain ⟨z, hz, hrest⟩ := sepRestF_of (sep := sep) (txt := txt) (val := val) (p := p) hstop hE l (y.length + 1) y hfuel hEm hsep
    (fun b hb => hp b (by simp [hb])) hy
  refine ⟨z, hz, ?_⟩
  exact (bind_ok (f := fun a => (sepRest sepP p).map (a :: ·)) hrun).trans (map_ok hrest)

/-- Further elements, each behind a separator. -/
theorem many0_of
    (hstop : ∀ x, Left true r x → ∃ j m, sepP s x = (.err false j m, s)) (hE : E r) :
    ∀ (l : List ι) (x : Str), (∀ a ∈ l, ∀ i, E (sep a ++ (txt a ++ i))) →
      (∀ a ∈ l, ∀ i x, Left true (sep a ++ (txt a ++ i)) x →
        ∃ g, sepP s x = (.ok (txt a ++ i) g, s) ∧ (txt a ++ i).length < x.length) →
      (∀ a ∈ l, ∀ rest, E rest → ∃ y, Left true rest y ∧ p s (txt a ++ rest) = (.ok y (val a), s)) →
      Left true (moreOf sep txt l ++ r) x →
      ∃ y, Left true r y ∧ PT.many0 (sepP >>= fun _ => p) s x = (.ok y (l.map val), s)
  | [], x, _, _, _, hx => by
    obtain ⟨j, m, h⟩ := hstop x hx
    exact ⟨x, hx, many0_stop (bind_err h)⟩
  | a :: l, x, hEm, hsep, hp, hx => by
    have hx' : Left true (sep a ++ (txt a ++ (moreOf sep txt l ++ r))) x := by
      simpa [moreOf, List.append_assoc] using hx
    obtain ⟨g, hg, hl⟩ := hsep a (by simp) _ x hx'
    have hEr : E (moreOf sep txt l ++ r) := moreOf_end hE fun b hb => hEm b (by simp [hb])
    obtain ⟨y, hy, hrun⟩ := hp a (by simp) _ hEr
    obtain ⟨z, hz, hrest⟩ := many0_of hstop hE l y (fun b hb => hEm b (by simp [hb]))
      (fun b hb => hsep b (by simp [hb])) (fun b hb => hp b (by simp [hb])) hy
    refine ⟨z, hz, many0_cons ((bind_ok hg).trans hrun) ?_ hrest⟩
    have := hy.length_le
    simp at hl this
    omega

/-- The elements of a list with their layouts. -/
def zipG (g : Gaps) : List ι → List (Gaps × ι)
  | [] => []
  | t :: ts => (g, t) :: zipG (g.sub 1) ts

theorem zipG_mem {ts : List ι} {g : Gaps} (hg : g.Ok) {a : Gaps × ι} (h : a ∈ zipG g ts) : a.1.Ok ∧ a.2 ∈ ts := by
  induction ts generalizing g with
  | nil => simp [zipG] at h
  | cons t ts ih =>
    rcases List.mem_cons.1 h with rfl | h
    · exact ⟨hg, by simp⟩
    · have := ih (hg.sub 1) h
      exact ⟨this.1, by simp [this.2]⟩

theorem zipG_map {β : Type} (f : ι → β) (ts : List ι) (g : Gaps) : (zipG g ts).map (fun a => f a.2) = ts.map f := by
  induction ts generalizing g with
  | nil => rfl
  | cons t ts ih => simp [zipG, ih]

end

/-! ### Separators -/

section
variable {s : PState}

theorem comma_ok {g : Gaps} (hg : g.Ok) {t x : Str} (ht : NoWs t) (hx : Left true (commaText g ++ t) x) :
    ∃ a, (ws (char ',') : SP Char) s x = (.ok t a, s) ∧ t.length < x.length := by
  have hd : x.dropWhile isWsp = ',' :: (g.gap 1 ++ t) := by
    rw [hx.drop, commaText, List.append_assoc]
    exact gap_drop (hg.gap 0) (noWs_cons (by decide))
  refine ⟨',', ?_, ?_⟩
  · rw [ws_ok (p := (char ',' : SP Char)) (s := s) (i := x) (r := g.gap 1 ++ t) (a := ',') (s' := s)
      (by rw [hd]; exact char_ok), gap_drop (hg.gap 1) ht]
  · have := drop_length_le x
    rw [hd] at this
    simp at this
    omega

theorem commaText_ne (g : Gaps) : commaText g ≠ [] := by simp [commaText]

theorem wsChar_err {c : Char} {x r : Str} (hx : Left true r x) (h : (r.dropWhile isWsp).head? ≠ some c) :
    ∃ j m, (ws (char c) : SP Char) s x = (.err false j m, s) :=
  ⟨_, _, ws_err (char_err (by rwa [hx.drop]))⟩

theorem optChar_no {c : Char} {i : Str} (h : (i.dropWhile isWsp).head? ≠ some c) : optChar c s i = (.ok i false, s) :=
  map_ok (opt_err (ws_err (char_err h)))

theorem optChar_yes {c : Char} {i r : Str} (h : i.dropWhile isWsp = c :: r) :
    optChar c s i = (.ok (r.dropWhile isWsp) true, s) :=
  map_ok (opt_ok (ws_ok (by rw [h]; exact char_ok)))

theorem wsKw_no {k x r : Str} (hx : Left true r x) (h : (r.dropWhile isWsp).takeWhile identCont ≠ k) :
    ∃ j m, ws (kw k) s x = (.err false j m, s) := by
  refine ⟨r.dropWhile isWsp, none, ws_err (lift_err (u := ()) ?_)⟩
  rw [keyword_run, hx.drop, if_neg fun h' => h h'.2]

end

/-! ### What follows a pattern -/

/-- What follows one of several alternatives. -/
structure ElemEnd (r : Str) : Prop where
  noIdent : NoIdent r
  head : ∀ c, (r.dropWhile isWsp).head? = some c → c ≠ '(' ∧ c ≠ '{' ∧ c ≠ ':' ∧ c ≠ '.'
  with_ : (r.dropWhile isWsp).takeWhile identCont ≠ c!"with"

/-- What follows a pattern. -/
structure PtEnd (r : Str) : Prop extends ElemEnd r where
  or_ : ¬ c!"or" <+: r.dropWhile isWsp

theorem elemEnd_or {g : Gaps} (hg : g.Ok) (i : Str) : ElemEnd (orText g ++ i) := by
  obtain ⟨h1, h1'⟩ := sep_blank (hg.gap 1)
  obtain ⟨h3, h3'⟩ := sep_blank (hg.gap 3)
  have hd : (orText g ++ i).dropWhile isWsp = 'o' :: 'r' :: (sep (g.gap 3) ++ i) := by
    rw [orText, List.append_assoc]
    exact gap_drop h1 (noWs_cons (by decide))
  refine ⟨?_, ?_, ?_⟩
  · obtain ⟨c, r', he, hc⟩ := blank_head (r := c!"or" ++ sep (g.gap 3) ++ i) h1 h1'
    rw [orText, List.append_assoc, he]
    intro d hd
    simp at hd
    subst hd
    rcases isWsp_iff.1 hc with rfl | rfl | rfl | rfl <;> decide
  · rw [hd]
    intro c hc
    simp at hc
    subst hc
    decide
  · obtain ⟨c, r', he, hc⟩ := blank_head (r := i) h3 h3'
    rw [hd, he]
    have : identCont c = false := by rcases isWsp_iff.1 hc with rfl | rfl | rfl | rfl <;> decide
    simp [List.takeWhile, show identCont 'o' = true by decide, show identCont 'r' = true by decide, this]

theorem ptEnd_char {c : Char} (h : c = ',' ∨ c = ')' ∨ c = '}') {b : Str} (hb : Blank b) (i : Str) : PtEnd (b ++ c :: i) := by
  have h1 : isWsp c = false := by rcases h with rfl | rfl | rfl <;> decide
  have h2 : identCont c = false := by rcases h with rfl | rfl | rfl <;> decide
  have h3 : c ≠ '(' ∧ c ≠ '{' ∧ c ≠ ':' ∧ c ≠ '.' ∧ c ≠ 'o' := by rcases h with rfl | rfl | rfl <;> decide
  have hr : (b ++ c :: i).dropWhile isWsp = c :: i := gap_drop hb (noWs_cons h1)
  refine ⟨⟨gap_noIdent hb ?_, ?_, ?_⟩, ?_⟩
  · intro d hd; simp at hd; subst hd; exact h2
  · rw [hr]; intro d hd; simp at hd; subst hd; exact ⟨h3.1, h3.2.1, h3.2.2.1, h3.2.2.2.1⟩
  · rw [hr]; simp [h2]
  · rw [hr, prefix_cons_iff]; exact fun h => h3.2.2.2.2 h.1.symm

theorem ptEnd_comma {g : Gaps} (hg : g.Ok) (i : Str) : PtEnd (commaText g ++ i) := by
  rw [commaText, List.append_assoc]
  exact ptEnd_char (.inl rfl) (hg.gap 0) _

/-! ### Literals, names and paths -/

section
variable {env : PEnv} {s : PState}

theorem identStart_ne {c d : Char} (hc : identStart c = true) (hd : identStart d = false) : c ≠ d := by
  rintro rfl
  rw [hc] at hd
  cases hd

theorem boolLit_no {i : Str} (h : ∀ b, i.takeWhile identCont ≠ boolText b) : ∃ j m, boolLit () i = (.err false j m, ()) := by
  refine ⟨i, none, ?_⟩
  unfold boolLit
  rw [alt_err (j := i) (m := none) (s' := ())]
  · rw [keyword_run, if_neg fun h' => h true h'.2]
  · rw [keyword_run, if_neg fun h' => h false h'.2]

/-- No literal starts here. -/
structure NoLit (i : Str) : Prop where
  front : ∀ c, i.head? = some c → isDigitR 10 c = false ∧ c ≠ '-' ∧ c ≠ '"' ∧ c ≠ '\''
  word : ∀ b, i.takeWhile identCont ≠ boolText b

theorem targetLit_no {i : Str} (h : NoLit i) : PT.opt targetLit s i = (.ok i none, s) := by
  obtain ⟨j1, m1, h1⟩ := numLit_err (i := i) fun c hc => ⟨(h.front c hc).2.1, (h.front c hc).1⟩
  obtain ⟨j2, m2, h2⟩ := boolLit_no h.word
  refine opt_err (j := j2) (m := m2) (lift_err (u := ()) ?_)
  rw [alt_err (map_err (strLit_err fun hc => (h.front _ hc).2.2.1 rfl)),
    alt_err (map_err (charLit_err fun hc => (h.front _ hc).2.2.2 rfl)), alt_err (map_err h1), map_err h2]

theorem noLit_ident {n r : Str} (h : IsIdent n) (hr : NoIdent r) (h1 : n ≠ c!"true") (h2 : n ≠ c!"false") : NoLit (n ++ r) where
  front := name_front h
  word := by
    intro b
    rw [(takeWhile_ident h.2.2 hr).1]
    cases b
    · exact h2
    · exact h1

theorem noLit_char {c : Char} {r : Str} (h : c = '(' ∨ c = ':') : NoLit (c :: r) where
  front := by intro d hd; simp at hd; subst hd; rcases h with rfl | rfl <;> decide
  word := by
    intro b
    have : identCont c = false := by rcases h with rfl | rfl <;> decide
    cases b <;> simp [this, boolText]

theorem signed_start {t : Str} (h : Number t ∨ ∃ u, t = '-' :: u ∧ Number u) :
    ∃ c r, t = c :: r ∧ (c = '-' ∨ isDigitR 10 c = true) := by
  rcases h with h | ⟨u, rfl, _⟩
  · obtain ⟨c, r, rfl, hc⟩ := number_start' h
    exact ⟨c, r, rfl, .inr hc⟩
  · exact ⟨'-', u, rfl, .inl rfl⟩

theorem targetLit_num {t rest : Str} (h : Number t ∨ ∃ u, t = '-' :: u ∧ Number u) (hr : ElemEnd rest) :
    PT.opt targetLit s (t ++ rest) = (.ok rest (some (.numLit t)), s) := by
  have hd : ¬ DotDigit rest := by
    rintro ⟨c, r', rfl, hc⟩
    exact (hr.head '.' (by simp [show isWsp '.' = false from rfl])).2.2.2 rfl
  have hq : ∀ c, (t ++ rest).head? = some c → c ≠ '"' ∧ c ≠ '\'' := by
    obtain ⟨d, r, rfl, hc⟩ := signed_start h
    intro c hh
    simp at hh
    subst hh
    constructor <;> (rintro rfl; exact absurd hc (by decide))
  have hrun : numLit () (t ++ rest) = (.ok rest t, ()) := by
    rcases h with h | ⟨u, rfl, h⟩
    · exact number_read h hr.noIdent hd
    · exact numLit_minus h hr.noIdent hd
  refine opt_ok (lift_ok (u := ()) ?_)
  rw [alt_err (map_err (strLit_err fun hc => (hq _ hc).1 rfl)), alt_err (map_err (charLit_err fun hc => (hq _ hc).2 rfl)),
    alt_ok (map_ok hrun)]

theorem targetLit_str {t rest : Str} (h : StrBody t) :
    PT.opt targetLit s ('"' :: (t ++ ['"']) ++ rest) = (.ok rest (some (.strLit t)), s) := by
  refine opt_ok (lift_ok (u := ()) (alt_ok (map_ok ?_)))
  rw [show '"' :: (t ++ ['"']) ++ rest = '"' :: (t ++ '"' :: rest) by simp]
  exact strLit_ok h

theorem targetLit_chr {t rest : Str} (h : ChrBody t) :
    PT.opt targetLit s ('\'' :: (t ++ ['\'']) ++ rest) = (.ok rest (some (.charLit t)), s) := by
  refine opt_ok (lift_ok (u := ()) ?_)
  rw [show '\'' :: (t ++ ['\'']) ++ rest = '\'' :: (t ++ '\'' :: rest) by simp, alt_err (map_err (strLit_err (by simp))),
    alt_ok (map_ok (charLit_ok h))]

theorem isIdent_bool (b : Bool) : IsIdent (boolText b) := by
  unfold IsIdent
  cases b <;> simp [boolText] <;> decide

theorem targetLit_bool {rest : Str} (b : Bool) (h : NoIdent rest) :
    PT.opt targetLit s (boolText b ++ rest) = (.ok rest (some (.boolLit (boolText b))), s) := by
  have hf := name_front (r := rest) (isIdent_bool b)
  obtain ⟨j1, m1, h1⟩ := numLit_err (i := boolText b ++ rest) fun c hc => ⟨(hf c hc).2.1, (hf c hc).1⟩
  refine opt_ok (lift_ok (u := ()) ?_)
  rw [alt_err (map_err (strLit_err fun hc => (hf _ hc).2.2.1 rfl)),
    alt_err (map_err (charLit_err fun hc => (hf _ hc).2.2.2 rfl)), alt_err (map_err h1)]
  refine map_ok ?_
  unfold boolLit
  cases b with
  | false => exact alt_ok (keyword_ok (isIdent_bool false) h)
  | true =>
    rw [alt_err (j := boolText true ++ rest) (m := none) (s' := ())]
    · exact keyword_ok (isIdent_bool true) h
    · rw [keyword_run, (takeWhile_ident (isIdent_bool true).2.2 h).1, if_neg]
      rintro ⟨_, h⟩
      exact absurd h (by decide)

/-- A path and what follows it. -/
theorem targetPath_ok {g : Gaps} (hg : g.Ok) {root : Bool} {p : List Str} (h : PatPath env.isLower root p) {rest : Str} (hni : NoIdent rest)
    (hcol : (rest.dropWhile isWsp).head? ≠ some ':') :
    PT.opt (targetPath env) s (pathWrite g root p ++ rest) = (.ok rest (some (pathParts root p)), s) := by
  refine opt_ok ?_
  unfold targetPath
  rw [pos_bind, bind_ok (lift_ok (u := ()) (pathOrIdent_path hg (fun s hs => isIdent_of_name (h.1.1 s hs)) h.1.2 hni hcol))]
  rfl

theorem patPath_start {g : Gaps} (hg : g.Ok) {root : Bool} {p : List Str} (h : PatPath env.isLower root p) {rest : Str} (hni : NoIdent rest) :
    NoLit (pathWrite g root p ++ rest) ∧ ∃ c t', pathWrite g root p = c :: t' ∧ isWsp c = false ∧ c ≠ ')' ∧ c ≠ '(' := by
  obtain ⟨⟨h1, h2⟩, h3, h4⟩ := h
  obtain ⟨x, p, rfl⟩ : ∃ x p', p = x :: p' := by
    cases p with
    | nil => simp at h2
    | cons x p => exact ⟨x, p, rfl⟩
  have hx := isIdent_of_name (h1 x (by simp))
  cases root with
  | true =>
    refine ⟨?_, ':', _, rfl, by decide, by decide, by decide⟩
    exact noLit_char (.inr rfl)
  | false =>
    have htext : pathWrite g false (x :: p) = x ++ segText (g.sub 0) p := by simp [pathWrite]
    rw [htext]
    refine ⟨?_, ?_⟩
    · rw [List.append_assoc]
      exact noLit_ident hx (seg_noIdent (hg.sub 0) hni p) (by simpa using h3) (by simpa using h4)
    · obtain ⟨c, n, rfl, hc⟩ := ident_start hx
      have := identStart_facts hc
      exact ⟨c, _, rfl, this.2.2.2.2.2.2.2, identStart_ne hc rfl, identStart_ne hc rfl⟩

end

theorem ident_ok {s : PState} {n r : Str} (hn : IsIdent n) (hr : NoIdent r) : ident s (n ++ r) = (.ok r n, s) :=
  lift_ok (u := ()) (identifier_ok hn hr)

/-! ### Reading patterns -/

section
variable {env : PEnv}

/-- The text is read as one alternative. -/
def ReadsElem (env : PEnv) (t : Str) (T : Target) (nd : Nat) : Prop :=
  ∀ (fuel : Nat) (s : PState) (rest : Str), nd ≤ fuel + 1 → s.level + nd ≤ maxDepth → ElemEnd rest →
    ∃ x, Left true rest x ∧ targetElem env (target env fuel) s (t ++ rest) = (.ok x T, s)

/-- The text is read as a pattern. -/
def ReadsPt (env : PEnv) (t : Str) (T : Target) (nd : Nat) : Prop :=
  ∀ (fuel : Nat) (s : PState) (rest : Str), nd ≤ fuel → s.level + nd ≤ maxDepth → PtEnd rest →
    ∃ x, Left true rest x ∧ target env fuel s (t ++ rest) = (.ok x T, s)

/-- How patterns start. -/
def PtStart (t : Str) : Prop := ∃ c t', t = c :: t' ∧ isWsp c = false ∧ c ≠ ')'

theorem PtStart.noWs {t : Str} (h : PtStart t) (r : Str) : NoWs (t ++ r) := by
  obtain ⟨c, t', rfl, h1, _⟩ := h
  exact noWs_cons h1

theorem elem_of_one {t : Str} {T : Target} {nd : Nat}
    (h : ∀ (fuel : Nat) (s : PState) (rest : Str), nd ≤ fuel → s.level + nd ≤ maxDepth → ElemEnd rest →
      ∃ x, Left true rest x ∧ targetOne env (target env fuel) s (t ++ rest) = (.ok x T, s)) :
    ReadsElem env t T (nd + 1) := by
  intro fuel s rest h1 h2 h3
  obtain ⟨x, hx, hrun⟩ := h fuel { s with level := s.level + 1 } rest (by omega) (by simp; omega) h3
  refine ⟨x, hx, ?_⟩
  unfold targetElem
  rw [bind_ok (nest_run (by omega)), bind_ok hrun]
  rfl

theorem orTag_no {s : PState} {r : Str} (h : PtEnd r) {x : Str} (hx : Left true r x) :
    ∃ j m, (ws (tag c!"or") : SP Str) s x = (.err false j m, s) :=
  ⟨_, _, ws_err (tag_err (by rw [hx.drop]; exact h.or_))⟩

theorem orTag_ok {s : PState} {g : Gaps} (hg : g.Ok) {t x : Str} (ht : NoWs t) (hx : Left true (orText g ++ t) x) :
    ∃ a, (ws (tag c!"or") : SP Str) s x = (.ok t a, s) ∧ t.length < x.length := by
  obtain ⟨h1, _⟩ := sep_blank (hg.gap 1)
  obtain ⟨h3, _⟩ := sep_blank (hg.gap 3)
  have hd : x.dropWhile isWsp = c!"or" ++ (sep (g.gap 3) ++ t) := by
    rw [hx.drop, orText, List.append_assoc, List.append_assoc]
    exact gap_drop h1 (noWs_cons (by decide))
  refine ⟨c!"or", ?_, ?_⟩
  · rw [ws_ok (p := (tag c!"or" : SP Str)) (s := s) (i := x) (r := sep (g.gap 3) ++ t) (a := c!"or") (s' := s)
      (by rw [hd]; exact tag_ok), gap_drop h3 ht]
  · have := drop_length_le x
    rw [hd] at this
    simp at this
    omega

theorem orText_ne (g : Gaps) : orText g ≠ [] := by simp [orText]

theorem pt_of_elem {t : Str} {T : Target} {nd : Nat} (hp : 1 ≤ nd) (h : ReadsElem env t T nd) : ReadsPt env t T nd := by
  intro fuel s rest h1 h2 h3
  obtain ⟨fuel, rfl⟩ : ∃ m, fuel = m + 1 := ⟨fuel - 1, by omega⟩
  obtain ⟨x, hx, hrun⟩ := h fuel s rest h1 h2 h3.toElemEnd
  refine ⟨x, hx, ?_⟩
  obtain ⟨j, m, hs⟩ := orTag_no (s := s) h3 hx
  have : sepList1 (ws (tag c!"or")) (targetElem env (target env fuel)) s (t ++ rest) = (.ok x [T], s) := by
    refine (bind_ok (f := fun a => (sepRest (ws (tag c!"or")) (targetElem env (target env fuel))).map (a :: ·)) hrun).trans ?_
    refine map_ok (a := []) ?_
    unfold sepRest sepRestF
    rw [hs]
  unfold target
  rw [bind_ok this]
  rfl

/-- What is shown of every pattern. -/
structure PtSem (env : PEnv) (g : Gaps) (t : Pt) : Prop where
  pos : 1 ≤ t.need
  start : PtStart (t.write g)
  elem : t.isAny = false → ReadsElem env (t.write g) t.tree t.need
  pt : ReadsPt env (t.write g) t.tree t.need

theorem ptSem_one {g : Gaps} {t : Pt} {nd : Nat} (hn : t.need = nd + 1) (hs : PtStart (t.write g))
    (h : ∀ (fuel : Nat) (s : PState) (rest : Str), nd ≤ fuel → s.level + nd ≤ maxDepth → ElemEnd rest →
      ∃ x, Left true rest x ∧ targetOne env (target env fuel) s (t.write g ++ rest) = (.ok x t.tree, s)) : PtSem env g t := by
  have he : ReadsElem env (t.write g) t.tree t.need := by rw [hn]; exact elem_of_one h
  exact ⟨by omega, hs, fun _ => he, pt_of_elem (by omega) he⟩

theorem ptSem_lit {g : Gaps} {t : Pt} (hn : t.need = 1) (hs : PtStart (t.write g))
    (h : ∀ (s : PState) (rest : Str), ElemEnd rest → PT.opt targetLit s (t.write g ++ rest) = (.ok rest (some t.tree), s)) :
    PtSem env g t := by
  refine ptSem_one (nd := 0) hn hs fun fuel s rest _ _ hr => ⟨rest, .inl rfl, ?_⟩
  unfold targetOne
  rw [bind_ok (h s rest hr)]
  rfl

theorem ident_ptStart {n : Str} (h : IsIdent n) : PtStart n := by
  obtain ⟨c, n, rfl, hc⟩ := ident_start h
  have := identStart_facts hc
  exact ⟨c, _, rfl, this.2.2.2.2.2.2.2, identStart_ne hc rfl⟩

theorem ident_noParen {n r : Str} (h : IsIdent n) : ((n ++ r).dropWhile isWsp).head? ≠ some '(' := by
  rw [noWs_drop (noWs_ident h)]
  obtain ⟨c, n, rfl, hc⟩ := ident_start h
  simpa using identStart_ne hc rfl

theorem ptSem_var {g : Gaps} {n : Str} (h : Variable env.isLower n) (h1 : n ≠ c!"self") (h2 : n ≠ c!"writer") : PtSem env g (.var n) := by
  obtain ⟨hi, hl, ht, hf⟩ := varOk_of_variable h
  refine ptSem_one (nd := 0) rfl (ident_ptStart hi) fun fuel s rest _ _ hr => ⟨rest, .inl rfl, ?_⟩
  show targetOne env (target env fuel) s (n ++ rest) = (.ok rest (.name n), s)
  unfold targetOne
  rw [bind_ok (targetLit_no (noLit_ident hi hr.noIdent ht hf))]
  dsimp only
  rw [bind_ok (optChar_no (ident_noParen hi))]
  have hp : PT.opt (targetPath env) s (n ++ rest) = (.ok (n ++ rest) none, s) := by
    refine opt_err (j := n ++ rest) (m := none) ?_
    unfold targetPath
    rw [pos_bind, bind_ok (lift_ok (u := ()) (pathOrIdent_ident hi hr.noIdent fun hc => (hr.head _ hc).2.2.1 rfl)), if_pos hl]
    rfl
  simp only [Bool.false_eq_true, if_false]
  rw [bind_ok hp]
  dsimp only
  rw [pos_bind, bind_ok (ident_ok hi hr.noIdent)]
  unfold verifyName
  rw [if_neg (by simp [h1, h2])]
  rfl

/-- A path alone. -/
theorem ptSem_path {g : Gaps} (hg : g.Ok) {root : Bool} {p : List Str} (h : PatPath env.isLower root p) : PtSem env g (.path root p) := by
  obtain ⟨c, t', hc, hw, hcl, _⟩ := (patPath_start (rest := []) hg h (by intro c hc; simp at hc)).2
  refine ptSem_one (nd := 0) rfl ⟨c, t', hc, hw, hcl⟩ fun fuel s rest _ _ hr => ⟨rest, .inl rfl, ?_⟩
  show targetOne env (target env fuel) s (pathWrite g root p ++ rest) = (.ok rest (.path (pathParts root p)), s)
  obtain ⟨hl, c, t', hc, hw, _, hop⟩ := patPath_start hg h hr.noIdent
  unfold targetOne
  rw [bind_ok (targetLit_no hl)]
  dsimp only
  have hno : ((pathWrite g root p ++ rest).dropWhile isWsp).head? ≠ some '(' := by
    rw [hc, List.cons_append, noWs_drop (noWs_cons hw)]
    simpa using hop
  rw [bind_ok (optChar_no hno)]
  simp only [Bool.false_eq_true, if_false]
  rw [bind_ok (targetPath_ok hg h hr.noIdent fun hc => (hr.head _ hc).2.2.1 rfl)]
  dsimp only
  obtain ⟨j, m, hk⟩ := wsKw_no (s := s) (Or.inl rfl : Left true rest rest) hr.with_
  rw [pos_bind, bind_ok (opt_err hk), bind_ok (optChar_no fun hc => (hr.head _ hc).1 rfl)]
  simp only [Bool.false_eq_true, if_false]
  rw [bind_ok (optChar_no fun hc => (hr.head _ hc).2.1 rfl)]
  rfl

theorem pt_more (s : Gaps → Str) : ∀ (ts : List Pt) (g : Gaps), Pt.more s g ts =
    moreOf (fun a => s a.1) (fun a => a.2.write (a.1.sub 0)) (zipG g ts)
  | [], _ => rfl
  | t :: ts, g => by rw [Pt.more, pt_more s ts]; rfl

theorem fd_more : ∀ (fs : List Fd) (g : Gaps), Fd.more g fs =
    moreOf (fun a => commaText a.1) (fun a => a.2.write (a.1.sub 0)) (zipG g fs)
  | [], _ => rfl
  | f :: fs, g => by rw [Fd.more, fd_more fs]; rfl

theorem pt_trees : ∀ ts : List Pt, Pt.trees ts = ts.map Pt.tree
  | [] => rfl
  | t :: ts => by rw [Pt.trees, pt_trees ts]; rfl

theorem fd_trees : ∀ fs : List Fd, Fd.trees fs = fs.map Fd.tree
  | [] => rfl
  | f :: fs => by rw [Fd.trees, fd_trees fs]; rfl

theorem pt_needs {ts : List Pt} {t : Pt} (h : t ∈ ts) : t.need ≤ Pt.needs ts := by
  induction ts with
  | nil => simp at h
  | cons u ts ih =>
    rw [Pt.needs]
    rcases List.mem_cons.1 h with rfl | h
    · omega
    · have := ih h; omega

theorem fd_needs {fs : List Fd} {f : Fd} (h : f ∈ fs) : f.need ≤ Fd.needs fs := by
  induction fs with
  | nil => simp at h
  | cons u ts ih =>
    rw [Fd.needs]
    rcases List.mem_cons.1 h with rfl | h
    · omega
    · have := ih h; omega

/-- Elements between parentheses, at least one. -/
theorem pts_list {g : Gaps} (hg : g.Ok) {fuel : Nat} {s : PState} {t : Pt} {ts : List Pt} (h : ∀ u ∈ t :: ts, ∀ g, g.Ok → PtSem env g u)
    {b r : Str} (hb : Blank b)
    (hn : Pt.needs (t :: ts) ≤ fuel) (hl : s.level + Pt.needs (t :: ts) ≤ maxDepth) :
    ∃ y, y.dropWhile isWsp = ')' :: r ∧
    sepList1 (ws (char ',')) (target env fuel) s (Pt.writes commaText g (t :: ts) ++ (b ++ ')' :: r)) =
      (.ok y (Pt.trees (t :: ts)), s) := by
  have hd : (b ++ ')' :: r).dropWhile isWsp = ')' :: r := gap_drop hb (noWs_cons (by decide))
  have hm : ∀ a ∈ zipG g (t :: ts), a.1.Ok ∧ a.2 ∈ t :: ts := fun a => zipG_mem hg
  have hz : zipG g (t :: ts) = (g, t) :: zipG (g.sub 1) ts := rfl
  rw [hz] at hm
  obtain ⟨y, hy, hrun⟩ := sepList1_of (sepP := (ws (char ',') : SP Char)) (p := target env fuel) (s := s)
    (sep := fun a : Gaps × Pt => commaText a.1) (r := b ++ ')' :: r)
    (txt := fun a => a.2.write (a.1.sub 0)) (val := fun a => a.2.tree) (E := PtEnd) (g, t) (zipG (g.sub 1) ts)
    (fun a _ => commaText_ne _)
    (fun x hx n => by
      obtain ⟨j, m, hs⟩ := wsChar_err (s := s) (c := ',') hx (by rw [hd]; simp)
      exact sepStop hs n)
    (ptEnd_char (by simp) hb _) (fun a ha i => ptEnd_comma (hm a (by simp [ha])).1 _)
    (fun c hc i x hx => comma_ok (hm c (by simp [hc])).1
      ((h c.2 (hm c (by simp [hc])).2 _ ((hm c (by simp [hc])).1.sub 0)).start.noWs i) hx)
    (fun c hc rest hr => (h c.2 (hm c hc).2 _ ((hm c hc).1.sub 0)).pt fuel s rest (Nat.le_trans (pt_needs (hm c hc).2) hn)
      (by have := pt_needs (hm c hc).2; omega) hr)
  refine ⟨y, by rw [hy.drop, hd], ?_⟩
  rw [Pt.writes, pt_more, pt_trees, List.append_assoc, hrun]
  simp only [List.map_cons, zipG_map (fun a : Pt => a.tree)]

/-- Further elements. -/
theorem pts_more {g : Gaps} (hg : g.Ok) {fuel : Nat} {s : PState} {ts : List Pt} (h : ∀ u ∈ ts, ∀ g, g.Ok → PtSem env g u)
    {b r x : Str} (hb : Blank b) (hx : Left true (Pt.more commaText g ts ++ (b ++ ')' :: r)) x)
    (hn : Pt.needs ts ≤ fuel) (hl : s.level + Pt.needs ts ≤ maxDepth) :
    ∃ y, y.dropWhile isWsp = ')' :: r ∧
    PT.many0 (ws (char ',') >>= fun _ => target env fuel) s x = (.ok y (Pt.trees ts), s) := by
  have hd : (b ++ ')' :: r).dropWhile isWsp = ')' :: r := gap_drop hb (noWs_cons (by decide))
  have hm : ∀ a ∈ zipG g ts, a.1.Ok ∧ a.2 ∈ ts := fun a => zipG_mem hg
  obtain ⟨y, hy, hrun⟩ := many0_of (sepP := (ws (char ',') : SP Char)) (p := target env fuel) (s := s)
    (sep := fun a : Gaps × Pt => commaText a.1) (r := b ++ ')' :: r)
    (txt := fun a => a.2.write (a.1.sub 0)) (val := fun a => a.2.tree) (E := PtEnd)
    (fun x hx => wsChar_err hx (by rw [hd]; simp))
    (ptEnd_char (by simp) hb _) (zipG g ts) x
    (fun a ha i => ptEnd_comma (hm a ha).1 _)
    (fun c hc i x hx => comma_ok (hm c hc).1 ((h c.2 (hm c hc).2 _ ((hm c hc).1.sub 0)).start.noWs i) hx)
    (fun c hc rest hr => (h c.2 (hm c hc).2 _ ((hm c hc).1.sub 0)).pt fuel s rest (Nat.le_trans (pt_needs (hm c hc).2) hn)
      (by have := pt_needs (hm c hc).2; omega) hr) (by rwa [pt_more] at hx)
  refine ⟨y, by rw [hy.drop, hd], ?_⟩
  rw [pt_trees, hrun]
  simp only [zipG_map (fun a : Pt => a.tree)]

theorem wsCut_ok {s : PState} {c : Char} {i r : Str} (h : i.dropWhile isWsp = c :: r) :
    (ws (cut (char c)) : SP Char) s i = (.ok (r.dropWhile isWsp) c, s) :=
  ws_ok (by rw [h]; exact cut_ok char_ok)

theorem optComma_no {s : PState} {i : Str} (h : (i.dropWhile isWsp).head? ≠ some ',') :
    PT.opt (ws (char ',') : SP Char) s i = (.ok i none, s) :=
  opt_err (ws_err (char_err h))

/-- Tuples without a path. -/
theorem ptSem_tup {g : Gaps} (hg : g.Ok) {ts : List Pt} (h1 : ts.length ≠ 1) (h : ∀ u ∈ ts, ∀ g, g.Ok → PtSem env g u) :
    PtSem env g (.tup ts) := by
  refine ptSem_one (nd := Pt.needs ts) rfl ⟨'(', _, rfl, by decide, by decide⟩ fun fuel s rest hn hl hr =>
    ⟨rest.dropWhile isWsp, .inr ⟨rfl, rfl⟩, ?_⟩
  show targetOne env (target env fuel) s ('(' :: (g.gap 0 ++ (Pt.writes commaText (g.sub 0) ts ++ (g.gap 2 ++ [')']))) ++ rest) =
    (.ok _ (.tuple [] (Pt.trees ts)), s)
  rw [show '(' :: (g.gap 0 ++ (Pt.writes commaText (g.sub 0) ts ++ (g.gap 2 ++ [')']))) ++ rest =
    '(' :: (g.gap 0 ++ (Pt.writes commaText (g.sub 0) ts ++ (g.gap 2 ++ ')' :: rest))) by simp]
  unfold targetOne
  rw [bind_ok (targetLit_no (noLit_char (.inl rfl)))]
  dsimp only
  rw [bind_ok (optChar_yes (noWs_drop (noWs_cons (by decide))))]
  simp only [if_true]
  rw [blank_drop (hg.gap 0)]
  cases ts with
  | nil =>
    rw [show Pt.writes commaText (g.sub 0) [] ++ (g.gap 2 ++ ')' :: rest) = g.gap 2 ++ ')' :: rest from rfl,
      gap_drop (hg.gap 2) (noWs_cons (by decide)),
      bind_ok (optChar_yes (noWs_drop (noWs_cons (by decide))))]
    rfl
  | cons t ts =>
    have ht := h t (by simp) _ ((hg.sub 0).sub 0)
    have htx : Pt.writes commaText (g.sub 0) (t :: ts) ++ (g.gap 2 ++ ')' :: rest) =
      t.write ((g.sub 0).sub 0) ++ (Pt.more commaText ((g.sub 0).sub 1) ts ++ (g.gap 2 ++ ')' :: rest)) := by simp [Pt.writes]
    rw [htx, noWs_drop (ht.start.noWs _)]
    have hno : ((t.write ((g.sub 0).sub 0) ++ (Pt.more commaText ((g.sub 0).sub 1) ts ++ (g.gap 2 ++ ')' :: rest))).dropWhile isWsp).head? ≠ some ')' := by
      rw [noWs_drop (ht.start.noWs _)]
      obtain ⟨c, t', he, _, hc⟩ := ht.start
      rw [he]
      simpa using hc
    rw [bind_ok (optChar_no hno)]
    simp only [Bool.false_eq_true, if_false]
    obtain ⟨u, us, rfl⟩ : ∃ u us, ts = u :: us := by
      cases ts with
      | nil => simp at h1
      | cons u us => exact ⟨u, us, rfl⟩
    have hok := (hg.sub 0).sub 1
    generalize (g.sub 0).sub 1 = g1 at hok ⊢
    have hmore : Pt.more commaText g1 (u :: us) ++ (g.gap 2 ++ ')' :: rest) =
        commaText g1 ++ (u.write (g1.sub 0) ++ (Pt.more commaText (g1.sub 1) us ++ (g.gap 2 ++ ')' :: rest))) := by
      simp [Pt.more]
    obtain ⟨x, hx, hrun⟩ := ht.pt fuel s (Pt.more commaText g1 (u :: us) ++ (g.gap 2 ++ ')' :: rest))
      (Nat.le_trans (pt_needs (by simp)) hn) (by have := pt_needs (t := t) (ts := t :: u :: us) (by simp); omega)
      (by rw [hmore]; exact ptEnd_comma hok _)
    have hno2 : (x.dropWhile isWsp).head? ≠ some ')' := by
      rw [hx.drop, hmore, commaText, List.append_assoc, List.cons_append, gap_drop (hok.gap 0) (noWs_cons (by decide))]
      simp
    rw [bind_ok hrun, bind_ok (optChar_no hno2)]
    simp only [Bool.false_eq_true, if_false]
    have hneeds : Pt.needs (u :: us) ≤ Pt.needs (t :: u :: us) := by rw [Pt.needs.eq_2 t]; omega
    obtain ⟨y, hy, hm⟩ := pts_more (fuel := fuel) (s := s) hok (fun w hw => h w (by simp at hw ⊢; exact .inr hw)) (hg.gap 2) hx
      (by omega) (by omega)
    refine cut_ok ?_
    rw [bind_ok hm, bind_ok (optComma_no (by rw [hy]; simp)), bind_ok (wsCut_ok hy)]
    rfl

theorem ptSem_parens {g : Gaps} (hg : g.Ok) {t : Pt} (ht : PtSem env (g.sub 0) t) : PtSem env g (.parens t) := by
  refine ptSem_one (nd := t.need) rfl ⟨'(', _, rfl, by decide, by decide⟩ fun fuel s rest hn hl hr =>
    ⟨rest.dropWhile isWsp, .inr ⟨rfl, rfl⟩, ?_⟩
  show targetOne env (target env fuel) s ('(' :: (g.gap 0 ++ (t.write (g.sub 0) ++ (g.gap 2 ++ [')']))) ++ rest) = (.ok _ t.tree, s)
  rw [show '(' :: (g.gap 0 ++ (t.write (g.sub 0) ++ (g.gap 2 ++ [')']))) ++ rest =
    '(' :: (g.gap 0 ++ (t.write (g.sub 0) ++ (g.gap 2 ++ ')' :: rest))) by simp]
  unfold targetOne
  rw [bind_ok (targetLit_no (noLit_char (.inl rfl)))]
  dsimp only
  rw [bind_ok (optChar_yes (noWs_drop (noWs_cons (by decide))))]
  simp only [if_true]
  have hno : ((t.write (g.sub 0) ++ (g.gap 2 ++ ')' :: rest)).dropWhile isWsp).head? ≠ some ')' := by
    rw [noWs_drop (ht.start.noWs _)]
    obtain ⟨c, t', he, _, hc⟩ := ht.start
    rw [he]
    simpa using hc
  rw [gap_drop (hg.gap 0) (ht.start.noWs _), bind_ok (optChar_no hno)]
  simp only [Bool.false_eq_true, if_false]
  obtain ⟨x, hx, hrun⟩ := ht.pt fuel s (g.gap 2 ++ ')' :: rest) hn hl (ptEnd_char (.inr (.inl rfl)) (hg.gap 2) _)
  rw [bind_ok hrun, bind_ok (optChar_yes (hx.drop.trans (gap_drop (hg.gap 2) (noWs_cons (by decide)))))]
  rfl

theorem withText_noIdent {g : Gaps} (hg : g.Ok) (word : Bool) {i : Str} (hni : NoIdent i) : NoIdent (withText g word ++ i) := by
  cases word with
  | false => exact hni
  | true =>
    obtain ⟨h1, h1'⟩ := sep_blank (hg.gap 1)
    obtain ⟨c, r', he, hc⟩ := blank_head (r := c!"with" ++ i) h1 h1'
    rw [withText, if_pos rfl, List.append_assoc, he]
    intro d hd
    simp at hd
    subst hd
    rcases isWsp_iff.1 hc with rfl | rfl | rfl | rfl <;> decide

/-- Reading behind a path. -/
theorem one_path {g g' : Gaps} (hg : g.Ok) (hg' : g'.Ok) {root : Bool} {p : List Str} (h : PatPath env.isLower root p) {fuel : Nat} {s : PState} {i : Str} {c : Char}
    {r : Str} (word : Bool) (hni : NoIdent i) (hi : i.dropWhile isWsp = c :: r) (hc : c = '(' ∨ c = '{') :
    ∃ i', i'.dropWhile isWsp = c :: r ∧ targetOne env (target env fuel) s (pathWrite g root p ++ (withText g' word ++ i)) =
      (do
        if ← optChar '(' then do
          let ts ← alt (do let _ ← char ')'; pure [])
            (do
              let ts ← cut (sepList1 (ws (char ',')) (target env fuel))
              let _ ← opt (ws (char ','))
              let _ ← ws (cut (char ')'))
              pure ts)
          pure (.tuple (pathParts root p) ts)
        else if ← optChar '{' then do
          let ts ← alt (do let _ ← char '}'; pure [])
            (do
              let ts ← cut (sepList1 (ws (char ',')) (targetNamed (target env fuel)))
              let _ ← opt (ws (char ','))
              let _ ← ws (cut (char '}'))
              pure ts)
          pure (.struct (pathParts root p) ts)
        else do
          goto (withText g' word ++ i)
          pure (.path (pathParts root p)) : SP Target) s i' := by
  have hcf : identCont c = false ∧ c ≠ ':' := by rcases hc with rfl | rfl <;> decide
  have hni' : NoIdent (withText g' word ++ i) := withText_noIdent hg' word hni
  have hwd : (withText g' true ++ i).dropWhile isWsp = c!"with" ++ i := by
    rw [withText, if_pos rfl, List.append_assoc]
    exact gap_drop (sep_blank (hg'.gap 1)).1 (noWs_cons (by decide))
  have hcol : ((withText g' word ++ i).dropWhile isWsp).head? ≠ some ':' := by
    cases word with
    | false => show (i.dropWhile isWsp).head? ≠ _; rw [hi]; simpa using hcf.2
    | true => rw [hwd]; simp
  obtain ⟨hl, d, t', hd, hw, _, hop⟩ := patPath_start hg h hni'
  refine ⟨if word then i.dropWhile isWsp else i, by cases word with | false => exact hi | true => exact (dropWhile_idem i).trans hi, ?_⟩
  unfold targetOne
  rw [bind_ok (targetLit_no hl)]
  dsimp only
  have hno : ((pathWrite g root p ++ (withText g' word ++ i)).dropWhile isWsp).head? ≠ some '(' := by
    rw [hd, List.cons_append, noWs_drop (noWs_cons hw)]
    simpa using hop
  rw [bind_ok (optChar_no hno)]
  simp only [Bool.false_eq_true, if_false]
  rw [bind_ok (targetPath_ok hg h hni' hcol)]
  dsimp only
  cases word with
  | false =>
    obtain ⟨j, m, hk⟩ := wsKw_no (s := s) (k := c!"with") (Or.inl rfl : Left true i i) (by rw [hi]; simp [hcf.1])
    rw [pos_bind, show withText g' false ++ i = i from rfl, bind_ok (opt_err hk)]
    rfl
  | true =>
    have hk : ws (kw c!"with") s (withText g' true ++ i) = (.ok (i.dropWhile isWsp) c!"with", s) := by
      refine ws_ok ?_
      rw [hwd]
      exact kw_ok ⟨by simp, by decide, by decide⟩ hni
    rw [pos_bind, bind_ok (opt_ok hk)]
    rfl

theorem gap_char_noIdent {b : Str} (hb : Blank b) {c : Char} (hc : c = '(' ∨ c = '{') (r : Str) : NoIdent (b ++ c :: r) :=
  gap_noIdent hb (by intro d hd; simp at hd; subst hd; rcases hc with rfl | rfl <;> decide)

/-- Tuples with a path. -/
theorem ptSem_tupOf {g : Gaps} (hg : g.Ok) {root : Bool} {p : List Str} (hp : PatPath env.isLower root p) {word : Bool} {ts : List Pt}
    (h : ∀ u ∈ ts, ∀ g, g.Ok → PtSem env g u) :
    PtSem env g (.tupOf root p word ts) := by
  obtain ⟨c, t', hc, hw, hcl, _⟩ := (patPath_start (rest := []) (hg.sub 1) hp (by intro c hc; simp at hc)).2
  refine ptSem_one (nd := Pt.needs ts) rfl ⟨c, t' ++ (withText g word ++ (g.gap 4 ++ '(' :: (g.gap 0 ++
    (Pt.writes commaText (g.sub 0) ts ++ (g.gap 2 ++ [')']))))), by rw [Pt.write, hc]; rfl, hw, hcl⟩
    fun fuel s rest hn hl hr => ?_
  rw [show Pt.write g (.tupOf root p word ts) ++ rest =
    pathWrite (g.sub 1) root p ++ (withText g word ++ (g.gap 4 ++ '(' :: (g.gap 0 ++
      (Pt.writes commaText (g.sub 0) ts ++ (g.gap 2 ++ ')' :: rest))))) by simp [Pt.write]]
  show ∃ x, _ ∧ _ = (PRes.ok x (Target.tuple (pathParts root p) (Pt.trees ts)), s)
  obtain ⟨i', hi', hrun⟩ := one_path (fuel := fuel) (s := s) (hg.sub 1) hg hp word (gap_char_noIdent (hg.gap 4) (.inl rfl) _)
    (gap_drop (hg.gap 4) (noWs_cons (by decide)) : List.dropWhile isWsp (g.gap 4 ++ '(' :: (g.gap 0 ++
      (Pt.writes commaText (g.sub 0) ts ++ (g.gap 2 ++ ')' :: rest)))) = _) (.inl rfl)
  rw [hrun, bind_ok (optChar_yes hi')]
  simp only [if_true]
  rw [blank_drop (hg.gap 0)]
  cases ts with
  | nil =>
    refine ⟨rest, .inl rfl, ?_⟩
    rw [show Pt.writes commaText (g.sub 0) [] ++ (g.gap 2 ++ ')' :: rest) = g.gap 2 ++ ')' :: rest from rfl,
      gap_drop (hg.gap 2) (noWs_cons (by decide)),
      bind_ok (alt_ok (bind_ok char_ok))]
    rfl
  | cons t ts =>
    have ht := h t (by simp) _ ((hg.sub 0).sub 0)
    refine ⟨rest.dropWhile isWsp, .inr ⟨rfl, rfl⟩, ?_⟩
    have htx : Pt.writes commaText (g.sub 0) (t :: ts) ++ (g.gap 2 ++ ')' :: rest) =
      t.write ((g.sub 0).sub 0) ++ (Pt.more commaText ((g.sub 0).sub 1) ts ++ (g.gap 2 ++ ')' :: rest)) := by simp [Pt.writes]
    rw [noWs_drop (by rw [htx]; exact ht.start.noWs _)]
    have hno : (Pt.writes commaText (g.sub 0) (t :: ts) ++ (g.gap 2 ++ ')' :: rest)).head? ≠ some ')' := by
      rw [htx]
      obtain ⟨c, t', he, _, hc⟩ := ht.start
      rw [he]
      simpa using hc
    obtain ⟨y, hy, hl'⟩ := pts_list (env := env) (fuel := fuel) (s := s) (hg.sub 0) h (hg.gap 2) (r := rest) hn (by omega)
    generalize Pt.writes commaText (g.sub 0) (t :: ts) ++ (g.gap 2 ++ ')' :: rest) = X at *
    have hall : ∀ (Q : SP (List Target)), Q s X = (.ok (rest.dropWhile isWsp) (Pt.trees (t :: ts)), s) →
        PT.alt (do let _ ← char ')'; pure []) Q s X = (.ok (rest.dropWhile isWsp) (Pt.trees (t :: ts)), s) := by
      intro Q hQ
      rw [alt_err (bind_err (char_err hno)), hQ]
    rw [bind_ok (hall _ ?_)]
    · rfl
    · rw [bind_ok (cut_ok hl'), bind_ok (optComma_no (by rw [hy]; simp)), bind_ok (wsCut_ok hy)]
      rfl

/-- What is shown of fields. -/
structure FdSem (env : PEnv) (g : Gaps) (f : Fd) : Prop where
  start : ∃ c t', f.write g = c :: t' ∧ identStart c = true
  read : ∀ (fuel : Nat) (s : PState) (rest : Str), f.need ≤ fuel → s.level + f.need ≤ maxDepth → PtEnd rest →
    ∃ x, Left true rest x ∧ targetNamed (target env fuel) s (f.write g ++ rest) = (.ok x f.tree, s)

theorem fdSem_short {g : Gaps} {n : Str} (h : Binder n) : FdSem env g (.short n) := by
  have hi := isIdent_of_name h.1
  refine ⟨ident_start hi, fun fuel s rest _ _ hr => ⟨rest, .inl rfl, ?_⟩⟩
  show targetNamed (target env fuel) s (n ++ rest) = (.ok rest (n, .name n), s)
  unfold targetNamed
  rw [pos_bind, bind_ok (ident_ok hi hr.noIdent)]
  rw [bind_ok (opt_err (bind_err (ws_err (char_err fun hc => (hr.head _ hc).2.2.1 rfl))))]
  dsimp only
  unfold verifyName
  rw [if_neg (by simp [h.2])]
  rfl

theorem fdSem_long {g : Gaps} (hg : g.Ok) {n : Str} {t : Pt} (h : Name n) (ht : PtSem env (g.sub 0) t) : FdSem env g (.long n t) := by
  have hi := isIdent_of_name h
  refine ⟨?_, fun fuel s rest hn hl hr => ?_⟩
  · obtain ⟨c, n', rfl, hc⟩ := ident_start hi
    exact ⟨c, _, rfl, hc⟩
  obtain ⟨x, hx, hrun⟩ := ht.pt fuel s rest hn hl hr
  refine ⟨x, hx, ?_⟩
  rw [show Fd.write g (.long n t) ++ rest = n ++ (g.gap 0 ++ ':' :: (g.gap 1 ++ (t.write (g.sub 0) ++ rest))) by simp [Fd.write]]
  show _ = (PRes.ok x (n, t.tree), s)
  unfold targetNamed
  rw [pos_bind, bind_ok (ident_ok hi (gap_noIdent (hg.gap 0) (by intro c hc; simp at hc; subst hc; decide)))]
  have hw : (ws (char ':') : SP Char) s (g.gap 0 ++ ':' :: (g.gap 1 ++ (t.write (g.sub 0) ++ rest))) =
      (.ok (t.write (g.sub 0) ++ rest) ':', s) := by
    rw [ws_ok (p := (char ':' : SP Char)) (r := g.gap 1 ++ (t.write (g.sub 0) ++ rest)) (a := ':') (s' := s)
      (by rw [gap_drop (hg.gap 0) (noWs_cons (by decide))]; exact char_ok)]
    rw [gap_drop (hg.gap 1) (ht.start.noWs _)]
  rw [bind_ok (opt_ok ((bind_ok hw).trans hrun))]
  rfl

theorem ident_no {s : PState} {c : Char} {r : Str} (hc : identStart c = false) : ∃ j m, ident s (c :: r) = (.err false j m, s) :=
  ⟨_, _, lift_err (u := ()) (identifier_err (by simpa using hc))⟩

/-- What stands after the fields: perhaps a comma. -/
theorem endComma_stop {g : Gaps} (hg : g.Ok) (c : Bool) {fuel : Nat} {s : PState} {b r : Str} (hb : Blank b) {x : Str}
    (hx : Left true (endComma g c ++ (b ++ '}' :: r)) x) (n : Nat) :
    sepRestF (ws (char ',')) (targetNamed (target env fuel)) (n + 1) s x = (.ok x [], s) := by
  have hd : (b ++ '}' :: r).dropWhile isWsp = '}' :: r := gap_drop hb (noWs_cons (by decide))
  cases c with
  | false =>
    obtain ⟨j, m, hs⟩ := wsChar_err (s := s) (c := ',') hx (by rw [show endComma g false ++ (b ++ '}' :: r) = b ++ '}' :: r from rfl, hd]; simp)
    exact sepStop hs n
  | true =>
    have hxd : x.dropWhile isWsp = ',' :: (b ++ '}' :: r) := by
      rw [hx.drop, endComma, if_pos rfl, List.append_assoc]
      exact gap_drop (hg.gap 0) (noWs_cons (by decide))
    have hs : (ws (char ',') : SP Char) s x = (.ok ('}' :: r) ',', s) := by
      rw [ws_ok (p := (char ',' : SP Char)) (r := b ++ '}' :: r) (a := ',') (s' := s) (by rw [hxd]; exact char_ok), hd]
    obtain ⟨j, m, hid⟩ := ident_no (s := s) (c := '}') (r := r) (by decide)
    have hf : targetNamed (target env fuel) s ('}' :: r) = (.err false j m, s) := by
      unfold targetNamed
      rw [pos_bind, bind_err hid]
    unfold sepRestF
    rw [hs]
    dsimp only
    have := drop_length_le x
    rw [hxd] at this
    rw [if_neg (by simp at this ⊢; omega), hf]

/-- Reading over the comma. -/
theorem endComma_run {g : Gaps} (hg : g.Ok) (c : Bool) {s : PState} {b r : Str} (hb : Blank b) {x : Str}
    (hx : Left true (endComma g c ++ (b ++ '}' :: r)) x) :
    ∃ y o, y.dropWhile isWsp = '}' :: r ∧ PT.opt (ws (char ',') : SP Char) s x = (.ok y o, s) := by
  have hd : (b ++ '}' :: r).dropWhile isWsp = '}' :: r := gap_drop hb (noWs_cons (by decide))
  cases c with
  | false =>
    have hxd : x.dropWhile isWsp = '}' :: r := hx.drop.trans hd
    exact ⟨x, none, hxd, optComma_no (by rw [hxd]; simp)⟩
  | true =>
    have hxd : x.dropWhile isWsp = ',' :: (b ++ '}' :: r) := by
      rw [hx.drop, endComma, if_pos rfl, List.append_assoc]
      exact gap_drop (hg.gap 0) (noWs_cons (by decide))
    refine ⟨'}' :: r, some ',', noWs_drop (noWs_cons (by decide)), opt_ok ?_⟩
    rw [ws_ok (p := (char ',' : SP Char)) (r := b ++ '}' :: r) (a := ',') (s' := s) (by rw [hxd]; exact char_ok), hd]

theorem endComma_end {g : Gaps} (hg : g.Ok) (c : Bool) {b r : Str} (hb : Blank b) : PtEnd (endComma g c ++ (b ++ '}' :: r)) := by
  cases c with
  | false => exact ptEnd_char (by simp) hb _
  | true =>
    rw [endComma, if_pos rfl, List.append_assoc]
    exact ptEnd_char (.inl rfl) (hg.gap 0) _

/-- Fields between braces, at least one. -/
theorem fds_list {g g' : Gaps} (hg : g.Ok) (hg' : g'.Ok) (cm : Bool) {fuel : Nat} {s : PState} {t : Fd} {ts : List Fd} (h : ∀ u ∈ t :: ts, ∀ g, g.Ok → FdSem env g u) {b r : Str}
    (hb : Blank b) (hn : Fd.needs (t :: ts) ≤ fuel) (hl : s.level + Fd.needs (t :: ts) ≤ maxDepth) :
    ∃ y, Left true (endComma g' cm ++ (b ++ '}' :: r)) y ∧
    sepList1 (ws (char ',')) (targetNamed (target env fuel)) s (Fd.writes g (t :: ts) ++ (endComma g' cm ++ (b ++ '}' :: r))) =
      (.ok y (Fd.trees (t :: ts)), s) := by
  have hm : ∀ a ∈ zipG g (t :: ts), a.1.Ok ∧ a.2 ∈ t :: ts := fun a => zipG_mem hg
  have hz : zipG g (t :: ts) = (g, t) :: zipG (g.sub 1) ts := rfl
  rw [hz] at hm
  have hst : ∀ a ∈ (g, t) :: zipG (g.sub 1) ts, ∀ i, NoWs (a.2.write (a.1.sub 0) ++ i) := by
    intro a ha i
    obtain ⟨c, t', he, hc⟩ := (h a.2 (hm a ha).2 _ ((hm a ha).1.sub 0)).start
    rw [he]
    exact noWs_cons (identStart_facts hc).2.2.2.2.2.2.2
  obtain ⟨y, hy, hrun⟩ := sepList1_of (sepP := (ws (char ',') : SP Char)) (p := targetNamed (target env fuel)) (s := s)
    (sep := fun a : Gaps × Fd => commaText a.1)
    (r := endComma g' cm ++ (b ++ '}' :: r)) (txt := fun a => a.2.write (a.1.sub 0)) (val := fun a => a.2.tree) (E := PtEnd)
    (g, t) (zipG (g.sub 1) ts) (fun a _ => commaText_ne _)
    (fun x hx n => endComma_stop hg' cm hb hx n)
    (endComma_end hg' cm hb) (fun a ha i => ptEnd_comma (hm a (by simp [ha])).1 _)
    (fun c hc i x hx => comma_ok (hm c (by simp [hc])).1 (hst c (by simp [hc]) i) hx)
    (fun c hc rest hr => (h c.2 (hm c hc).2 _ ((hm c hc).1.sub 0)).read fuel s rest (Nat.le_trans (fd_needs (hm c hc).2) hn)
      (by have := fd_needs (hm c hc).2; omega) hr)
  refine ⟨y, hy, ?_⟩
  rw [Fd.writes, fd_more, fd_trees, List.append_assoc, hrun]
  simp only [List.map_cons, zipG_map (fun a : Fd => a.tree)]

/-- Structs. -/
theorem ptSem_recOf {g : Gaps} (hg : g.Ok) {root : Bool} {p : List Str} (hp : PatPath env.isLower root p) {word : Bool} {fs : List Fd}
    (h : ∀ u ∈ fs, ∀ g, g.Ok → FdSem env g u) :
    PtSem env g (.recOf root p word fs) := by
  obtain ⟨c, t', hc, hw, hcl, _⟩ := (patPath_start (rest := []) (hg.sub 1) hp (by intro c hc; simp at hc)).2
  refine ptSem_one (nd := Fd.needs fs) rfl ⟨c, t' ++ (withText g word ++ (g.gap 3 ++ '{' :: (g.gap 5 ++ (Fd.writes (g.sub 0) fs ++
    (endComma g (g.comma [] && !fs.isEmpty) ++ (g.gap 7 ++ ['}'])))))), by rw [Pt.write, hc]; rfl, hw, hcl⟩
    fun fuel s rest hn hl hr => ?_
  rw [show Pt.write g (.recOf root p word fs) ++ rest =
    pathWrite (g.sub 1) root p ++ (withText g word ++ (g.gap 3 ++ '{' :: (g.gap 5 ++ (Fd.writes (g.sub 0) fs ++
      (endComma g (g.comma [] && !fs.isEmpty) ++ (g.gap 7 ++ '}' :: rest)))))) by simp [Pt.write]]
  show ∃ x, _ ∧ _ = (PRes.ok x (Target.struct (pathParts root p) (Fd.trees fs)), s)
  obtain ⟨i', hi', hrun⟩ := one_path (fuel := fuel) (s := s) (hg.sub 1) hg hp word (gap_char_noIdent (hg.gap 3) (.inr rfl) _)
    (gap_drop (hg.gap 3) (noWs_cons (by decide)) : List.dropWhile isWsp (g.gap 3 ++ '{' :: (g.gap 5 ++ (Fd.writes (g.sub 0) fs ++
      (endComma g (g.comma [] && !fs.isEmpty) ++ (g.gap 7 ++ '}' :: rest))))) = _) (.inr rfl)
  rw [hrun, bind_ok (optChar_no (by rw [hi']; simp))]
  simp only [Bool.false_eq_true, if_false]
  rw [bind_ok (optChar_yes hi')]
  simp only [if_true]
  rw [blank_drop (hg.gap 5)]
  cases fs with
  | nil =>
    refine ⟨rest, .inl rfl, ?_⟩
    rw [show Fd.writes (g.sub 0) [] ++ (endComma g (g.comma [] && !List.isEmpty ([] : List Fd)) ++ (g.gap 7 ++ '}' :: rest)) =
      g.gap 7 ++ '}' :: rest by simp [Fd.writes, endComma], gap_drop (hg.gap 7) (noWs_cons (by decide)), bind_ok (alt_ok (bind_ok char_ok))]
    rfl
  | cons t ts =>
    refine ⟨rest.dropWhile isWsp, .inr ⟨rfl, rfl⟩, ?_⟩
    generalize (g.comma [] && !(t :: ts).isEmpty) = cm
    obtain ⟨c, t', he, hcs⟩ := (h t (by simp) _ ((hg.sub 0).sub 0)).start
    obtain ⟨y, hy, hrun⟩ := fds_list (hg.sub 0) hg cm h (hg.gap 7) hn (by omega : s.level + _ ≤ maxDepth) (r := rest)
    have htx : Fd.writes (g.sub 0) (t :: ts) ++ (endComma g cm ++ (g.gap 7 ++ '}' :: rest)) =
        c :: (t' ++ (Fd.more ((g.sub 0).sub 1) ts ++ (endComma g cm ++ (g.gap 7 ++ '}' :: rest)))) := by
      simp [Fd.writes, he]
    have hno : (Fd.writes (g.sub 0) (t :: ts) ++ (endComma g cm ++ (g.gap 7 ++ '}' :: rest))).head? ≠ some '}' := by
      rw [htx]
      simpa using identStart_ne hcs rfl
    rw [noWs_drop (by rw [htx]; exact noWs_cons (identStart_facts hcs).2.2.2.2.2.2.2)]
    obtain ⟨z, o, hz, h2⟩ := endComma_run (s := s) hg cm (hg.gap 7) hy
    generalize Fd.writes (g.sub 0) (t :: ts) ++ (endComma g cm ++ (g.gap 7 ++ '}' :: rest)) = X at *
    have hall : ∀ (Q : SP (List (Str × Target))), Q s X = (.ok (rest.dropWhile isWsp) (Fd.trees (t :: ts)), s) →
        PT.alt (do let _ ← char '}'; pure []) Q s X = (.ok (rest.dropWhile isWsp) (Fd.trees (t :: ts)), s) := by
      intro Q hQ
      rw [alt_err (bind_err (char_err hno)), hQ]
    rw [bind_ok (hall _ ?_)]
    · rfl
    · rw [bind_ok (cut_ok hrun), bind_ok h2, bind_ok (wsCut_ok hz)]
      rfl

/-- Alternatives. -/
theorem ptSem_any {g : Gaps} (hg : g.Ok) {ts : List Pt} (h2 : 2 ≤ ts.length) (h1 : ∀ t ∈ ts, t.isAny = false)
    (h : ∀ u ∈ ts, ∀ g, g.Ok → PtSem env g u) : PtSem env g (.any ts) := by
  obtain ⟨t, u, us, rfl⟩ : ∃ t u us, ts = t :: u :: us := by
    match ts, h2 with
    | t :: u :: us, _ => exact ⟨t, u, us, rfl⟩
  have ht := h t (by simp) _ ((hg.sub 0).sub 0)
  refine ⟨?_, ?_, fun h => by simp [Pt.isAny] at h, ?_⟩
  · have := ht.pos
    show 1 ≤ Pt.needs (t :: u :: us)
    rw [Pt.needs]
    omega
  · obtain ⟨c, t', he, hw, hc⟩ := ht.start
    exact ⟨c, t' ++ Pt.more orText ((g.sub 0).sub 1) (u :: us), by rw [Pt.write, Pt.writes, he]; rfl, hw, hc⟩
  · intro fuel s rest hn hl hr
    have hn' : Pt.needs (t :: u :: us) ≤ fuel := hn
    have hl' : s.level + Pt.needs (t :: u :: us) ≤ maxDepth := hl
    obtain ⟨fuel, rfl⟩ : ∃ m, fuel = m + 1 := ⟨fuel - 1, by
      have := ht.pos
      have := pt_needs (t := t) (ts := t :: u :: us) (by simp)
      omega⟩
    have hm : ∀ a ∈ zipG (g.sub 0) (t :: u :: us), a.1.Ok ∧ a.2 ∈ t :: u :: us := fun a => zipG_mem (hg.sub 0)
    have hz : zipG (g.sub 0) (t :: u :: us) = (g.sub 0, t) :: zipG ((g.sub 0).sub 1) (u :: us) := rfl
    rw [hz] at hm
    obtain ⟨y, hy, hrun⟩ := sepList1_of (sepP := (ws (tag c!"or") : SP Str)) (p := targetElem env (target env fuel)) (s := s)
      (sep := fun a : Gaps × Pt => orText a.1) (r := rest) (txt := fun a => a.2.write (a.1.sub 0)) (val := fun a => a.2.tree)
      (E := ElemEnd) (g.sub 0, t) (zipG ((g.sub 0).sub 1) (u :: us)) (fun a _ => orText_ne _)
      (fun x hx n => by
        obtain ⟨j, m, hs⟩ := orTag_no (s := s) hr hx
        exact sepStop hs n) hr.toElemEnd (fun a ha i => elemEnd_or (hm a (by simp [ha])).1 _)
      (fun b hb i x hx => orTag_ok (hm b (by simp [hb])).1
        ((h b.2 (hm b (by simp [hb])).2 _ ((hm b (by simp [hb])).1.sub 0)).start.noWs i) hx)
      (fun b hb rest hr => (h b.2 (hm b hb).2 _ ((hm b hb).1.sub 0)).elem (h1 b.2 (hm b hb).2) fuel s rest
        (Nat.le_trans (pt_needs (hm b hb).2) hn') (by have := pt_needs (hm b hb).2; omega) hr)
    refine ⟨y, hy, ?_⟩
    show target env (fuel + 1) s (Pt.writes orText (g.sub 0) (t :: u :: us) ++ rest) = (.ok y (.orChain (Pt.trees (t :: u :: us))), s)
    unfold target
    rw [Pt.writes, pt_more, pt_trees, List.append_assoc, bind_ok hrun]
    simp only [zipG_map (fun a : Pt => a.tree)]
    rfl

mutual
/-- Every well-formed pattern is read as it is written. -/
theorem sem_pt : ∀ t : Pt, t.Ok env.isLower → ∀ g, g.Ok → PtSem env g t
  | .var _, h, _, _ => ptSem_var h.1 h.2.1 h.2.2
  | .num t, h, _, _ => by
    refine ptSem_lit rfl ?_ fun s rest hr => targetLit_num h hr
    obtain ⟨d, r, rfl, hc⟩ := signed_start h
    refine ⟨d, r, rfl, ?_, ?_⟩
    · cases hd : isWsp d with
      | false => rfl
      | true => rcases isWsp_iff.1 hd with rfl | rfl | rfl | rfl <;> exact absurd hc (by decide)
    · rintro rfl; exact absurd hc (by decide)
  | .str _, h, _, _ => ptSem_lit rfl ⟨'"', _, rfl, by decide, by decide⟩ fun _ _ _ => targetLit_str h
  | .chr _, h, _, _ => ptSem_lit rfl ⟨'\'', _, rfl, by decide, by decide⟩ fun _ _ _ => targetLit_chr h
  | .bool b, _, _, _ => ptSem_lit rfl (ident_ptStart (isIdent_bool b)) fun _ _ hr => targetLit_bool b hr.noIdent
  | .path _ _, h, _, hg => ptSem_path hg h
  | .tup ts, h, _, hg => ptSem_tup hg h.1 (sem_pts ts h.2)
  | .tupOf _ _ _ ts, h, _, hg => ptSem_tupOf hg h.1 (sem_pts ts h.2)
  | .recOf _ _ _ fs, h, _, hg => ptSem_recOf hg h.1 (sem_fds fs h.2)
  | .any ts, h, _, hg => ptSem_any hg h.1 h.2.1 (sem_pts ts h.2.2)
  | .parens t, h, _, hg => ptSem_parens hg (sem_pt t h _ (hg.sub 0))
theorem sem_pts : ∀ ts : List Pt, Pt.Oks env.isLower ts → ∀ t ∈ ts, ∀ g, g.Ok → PtSem env g t
  | [], _ => by simp
  | t :: ts, h => fun u hu => (List.mem_cons.1 hu).elim (fun e => e ▸ sem_pt t h.1) fun hm => sem_pts ts h.2 u hm
theorem sem_fd : ∀ f : Fd, f.Ok env.isLower → ∀ g, g.Ok → FdSem env g f
  | .short _, h, _, _ => fdSem_short h
  | .long _ t, h, _, hg => fdSem_long hg h.1 (sem_pt t h.2 _ (hg.sub 0))
theorem sem_fds : ∀ fs : List Fd, Fd.Oks env.isLower fs → ∀ f ∈ fs, ∀ g, g.Ok → FdSem env g f
  | [], _ => by simp
  | f :: fs, h => fun u hu => (List.mem_cons.1 hu).elim (fun e => e ▸ sem_fd f h.1) fun hm => sem_fds fs h.2 u hm
end

end

end Askama
