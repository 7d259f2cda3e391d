import Verif.Lemmas.DocPat

/-!
# Arguments of macro calls (C66)
-/

namespace Askama

open Spec PT

section
variable {env : PEnv}

/-! ### An argument without a name is not taken for one with a name -/

/-- Two equal signs, if there is one. -/
def Eqs (r : Str) : Prop := (r.dropWhile isWsp).head? = some '=' → ∃ r', r.dropWhile isWsp = '=' :: '=' :: r'

/-- No name and single equal sign here. -/
def NotNamed (i : Str) : Prop := ∀ n i', i = n ++ i' → IsIdent n → NoIdent i' → Eqs i'

theorem notNamed_start {c : Char} {i : Str} (h : identStart c = false) : NotNamed (c :: i) := by
  intro n i' he hn _
  obtain ⟨d, n', rfl, hd⟩ := ident_start hn
  simp at he
  rw [he.1, hd] at h
  cases h

theorem notNamed_ident {n r : Str} (hn : IsIdent n) (hr : NoIdent r) (he : Eqs r) : NotNamed (n ++ r) := by
  intro m i' hi hm hi'
  have h1 := (takeWhile_ident hn.2.2 hr).2
  have h2 := (takeWhile_ident hm.2.2 hi').2
  rw [hi, h2] at h1
  rw [h1]
  exact he

/-- What may follow. -/
def NoEq (r : Str) : Prop := NoIdent r ∧ Eqs r

theorem noEq_cons {c : Char} {r : Str} (h1 : identCont c = false) (h2 : isWsp c = false) (h3 : c ≠ '=') : NoEq (c :: r) := by
  refine ⟨by intro d hd; simp at hd; subst hd; exact h1, fun h => ?_⟩
  rw [noWs_drop (noWs_cons h2)] at h
  simp at h
  exact absurd h h3

theorem noEq_gap {g : Str} {c : Char} {r : Str} (hg : Blank g) (h1 : identCont c = false) (h2 : isWsp c = false) (h3 : c ≠ '=') :
    NoEq (g ++ c :: r) := by
  refine ⟨gap_noIdent hg (by intro d hd; simp at hd; subst hd; exact h1), fun h => ?_⟩
  rw [gap_drop hg (noWs_cons h2)] at h
  simp at h
  exact absurd h h3

theorem noEq_op {g : Str} (hg : Blank g) (op : BinOp) (r : Str) : NoEq (g ++ (op.sym ++ r)) := by
  cases op
  case eq =>
    refine ⟨gap_noIdent hg (by intro d hd; simp [BinOp.sym] at hd; subst hd; rfl), fun _ => ⟨r, ?_⟩⟩
    exact op_drop hg .eq r
  all_goals exact noEq_gap hg (by decide) (by decide) (by decide)

theorem notNamed_paren {b : Bool} {g : Gaps} {t r : Str} (h : ∀ r, NoEq r → NotNamed (t ++ r)) (hr : NoEq r) :
    NotNamed (paren g b t ++ r) := by
  cases b with
  | true => exact notNamed_start (by decide)
  | false => exact h r hr

theorem notNamed_path {g : Gaps} (hg : g.Ok) {root : Bool} {p : List Str} (h : PathTm env.isLower root p) {r : Str} (hr : NoEq r) :
    NotNamed (pathWrite g root p ++ r) := by
  cases p with
  | nil => have := h.2; simp at this
  | cons s p =>
    cases root with
    | true => exact notNamed_start (by decide)
    | false =>
      obtain ⟨g', hg', htext⟩ : ∃ g' : Gaps, g'.Ok ∧ pathWrite g false (s :: p) ++ r = s ++ (segText g' p ++ r) := ⟨g.sub 0, hg.sub 0, by simp [pathWrite]⟩
      rw [htext]
      refine notNamed_ident (isIdent_of_name (h.1 s (by simp))) (seg_noIdent hg' hr.1 p) ?_
      cases p with
      | nil => exact hr.2
      | cons x p => rw [segText_cons]; exact (noEq_gap (hg'.gap 0) (by decide) (by decide) (by decide)).2

theorem notNamed_tm : ∀ e : Tm, e.Ok env.isLower → ∀ g : Gaps, g.Ok → ∀ r, NoEq r → NotNamed (e.write g ++ r)
  | .var n, h, _, _, r, hr => notNamed_ident (varOk_of_variable h).1 hr.1 hr.2
  | .num s, h, _, _, r, hr => by
    obtain ⟨c, s', rfl, hc⟩ := number_start' h
    refine notNamed_start ?_
    cases hi : identStart c with
    | false => rfl
    | true => rw [(identStart_facts hi).1] at hc; cases hc
  | .str s, _, _, _, r, _ => notNamed_start (by decide)
  | .chr s, _, _, _, r, _ => notNamed_start (by decide)
  | .bool b, _, _, _, r, hr => notNamed_ident (isIdent_bool b) hr.1 hr.2
  | .path root p, h, _, hg, r, hr => notNamed_path hg h hr
  | .array _, _, _, _, r, _ => notNamed_start (by decide)
  | .tuple _, _, _, _, r, _ => notNamed_start (by decide)
  | .attr e n, h, g, hg, r, _ => by
    simp only [Tm.write, List.append_assoc]
    exact notNamed_paren (notNamed_tm e h.1 _ (hg.sub 0)) (noEq_gap (hg.gap 0) (by decide) (by decide) (by decide))
  | .index e k, h, g, hg, r, _ => by
    simp only [Tm.write, List.append_assoc]
    exact notNamed_paren (notNamed_tm e h.1 _ (hg.sub 0)) (noEq_gap (hg.gap 0) (by decide) (by decide) (by decide))
  | .call e es, h, g, hg, r, _ => by
    simp only [Tm.write, List.append_assoc]
    exact notNamed_paren (notNamed_tm e h.1 _ (hg.sub 0)) (noEq_gap (hg.gap 2) (by decide) (by decide) (by decide))
  | .mac root p args, h, g, hg, r, hr => by
    obtain ⟨x, hx⟩ : ∃ x, x = g.gap 0 ++ '!' :: (g.gap 2 ++ '(' :: (args ++ ')' :: r)) := ⟨_, rfl⟩
    have hb : NoEq x := by rw [hx]; exact noEq_gap (hg.gap 0) (by decide) (by decide) (by decide)
    rw [show (Tm.mac root p args).write g ++ r = pathWrite (g.sub 0) root p ++ x by simp [Tm.write, hx]]
    rcases h.1 with hp | ⟨rfl, n, rfl, hn⟩
    · exact notNamed_path (hg.sub 0) hp hb
    · rw [show pathWrite (g.sub 0) false [n] = n by simp [pathWrite, segText]]
      exact notNamed_ident (varOk_of_variable hn).1 hb.1 hb.2
  | .parens _, _, _, _, r, _ => notNamed_start (by decide)
  | .try_ e, h, g, hg, r, _ => by
    simp only [Tm.write, List.append_assoc]
    exact notNamed_paren (notNamed_tm e h _ (hg.sub 0)) (noEq_gap (hg.gap 0) (by decide) (by decide) (by decide))
  | .unary op e, _, _, _, r, _ => by
    cases op <;> exact notNamed_start (by decide)
  | .filter e n es, h, g, hg, r, _ => by
    simp only [Tm.write, List.append_assoc]
    exact notNamed_paren (notNamed_tm e h.1 _ (hg.sub 0)) (noEq_cons (by decide) (by decide) (by decide))
  | .bin op a b, h, g, hg, r, _ => by
    simp only [Tm.write, List.append_assoc]
    refine notNamed_paren (notNamed_tm a h.1 _ (hg.sub 0)) (noEq_op ?_ op _)
    split
    · exact (sep_blank (hg.gap 1)).1
    · exact hg.gap 1
  | .range incl none b, _, _, _, r, _ => by
    cases incl <;> exact notNamed_start (by decide)
  | .range incl (some a) b, h, g, hg, r, _ => by
    simp only [Tm.write, Tm.leftText, List.append_assoc]
    refine notNamed_paren (notNamed_tm a h.1 _ ((hg.sub 0).sub 0)) ?_
    cases incl <;> exact noEq_gap ((hg.sub 0).gap 1) (by decide) (by decide) (by decide)

theorem named_no {n : Nat} {i : Str} (h : NotNamed i) (hn : 15 ≤ n) :
    ∃ j m, exprP env (n + 1) .named () i = (.err false j m, ()) := by
  show ∃ j m, namedBody (exprP env n) () i = _
  unfold namedBody
  by_cases hs : i.head?.any identStart = true
  · have hid := identifier_run i
    rw [if_pos hs] at hid
    rw [bind_ok hid]
    by_cases heq : ((i.dropWhile identCont).dropWhile isWsp).head? = some '='
    · have hni : NoIdent (i.dropWhile identCont) := fun c hc => dropWhile_head hc
      have hid2 : IsIdent (i.takeWhile identCont) := by
        cases i with
        | nil => simp at hs
        | cons c i =>
          have hc : identStart c = true := by simpa using hs
          have hc' : identCont c = true := by
            unfold identStart at hc; unfold identCont
            simp at hc ⊢
            grind
          rw [List.takeWhile_cons_of_pos hc']
          refine ⟨by simp, by simpa using hc, ?_⟩
          intro x hx
          rcases List.mem_cons.1 hx with rfl | hx
          · exact hc'
          · exact mem_takeWhile_ch hx
      obtain ⟨r', hr'⟩ := h _ _ List.takeWhile_append_dropWhile.symm hid2 hni heq
      have hw : (ws (char '=') : P Char) () (i.dropWhile identCont) = (.ok ('=' :: r') '=', ()) := by
        rw [ws_ok (p := (char '=' : P Char)) (r := '=' :: r') (a := '=') (s' := ()) (by rw [hr']; exact char_ok)]
        rw [noWs_drop (noWs_cons (by decide))]
      rw [bind_ok hw]
      obtain ⟨j, m, hj⟩ := parse_bad (env := env) (n := n) (bad_cons (c := '=') (r := r') (by simp [BadStart])) (by omega)
      exact ⟨j, m, bind_err hj⟩
    · exact ⟨_, _, bind_err (ws_err (char_err heq))⟩
  · exact ⟨_, _, bind_err (identifier_err (by simpa using hs))⟩

/-! ### Lists of arguments -/

/-- An argument, perhaps with a name. -/
abbrev ArgItem := Option Str × Tm

/-- The text of an argument. -/
def itemText : ArgItem → Gaps → Str
  | (none, e), g => e.write g
  | (some n, e), g => namedText (n, e) g

/-- The syntax tree of an argument. -/
def itemTree : ArgItem → Expr
  | (none, e) => e.tree
  | (some n, e) => .namedArg n e.tree

/-- The names used so far, after an argument. -/
def itemNames (names : List Str) : ArgItem → List Str
  | (none, _) => names
  | (some n, _) => n :: names

/-- No argument without a name after one with a name, and no name twice. -/
def NamesOk : List Str → List ArgItem → Prop
  | _, [] => True
  | names, (none, _) :: l => names = [] ∧ NamesOk names l
  | names, (some n, _) :: l => n ∉ names ∧ NamesOk (n :: names) l

/-- What follows an argument. -/
def ArgEnd (r : Str) : Prop := ∃ b c r', r = b ++ c :: r' ∧ Blank b ∧ (c = ',' ∨ c = ')')

theorem ArgEnd.facts {r : Str} (h : ArgEnd r) : Ending r ∧ NoEq r := by
  obtain ⟨b, c, r', rfl, hb, hc⟩ := h
  rcases hc with rfl | rfl
  · exact ⟨ending_close hb (by simp), noEq_gap hb (by decide) (by decide) (by decide)⟩
  · exact ⟨ending_close hb (by simp), noEq_gap hb (by decide) (by decide) (by decide)⟩

theorem argEnd_more (l : List (Gaps → Str)) {g : Gaps} (hg : g.Ok) {r : Str} (h : ∃ c r', r = c :: r' ∧ (c = ',' ∨ c = ')')) :
    ArgEnd (listText.more g l ++ r) := by
  cases l with
  | nil =>
    obtain ⟨c, r', rfl, hc⟩ := h
    exact ⟨g.gap 0, c, r', rfl, hg.gap 0, hc⟩
  | cons a l => exact ⟨g.gap 0, ',', _, by rw [listText.more, List.append_assoc]; rfl, hg.gap 0, .inl rfl⟩

variable {start : Str} {n : Nat}

theorem positional_ok {g : Gaps} (hg : g.Ok) {e : Tm} (h : e.Ok env.isLower) (hn : e.need + 13 ≤ n) {r i : Str} (hr : ArgEnd r)
    (hi : i.dropWhile isWsp = e.write g ++ r) :
    ws (argument (exprP env n) start true) [] i = (.ok (r.dropWhile isWsp) e.tree, []) := by
  obtain ⟨he, hq⟩ := hr.facts
  have hs := sem_tm e h g hg
  obtain ⟨x, hx, hrun⟩ := hs.1.parse n r he (by omega)
  obtain ⟨m, rfl⟩ : ∃ m, n = m + 1 := ⟨n - 1, by have := hs.1.need3; omega⟩
  obtain ⟨j, m', hno⟩ := named_no (env := env) (n := m) (notNamed_tm e h g hg r hq) (by have := hs.1.need3; omega)
  have hst : ∀ st : List Str, st = [] → argument (exprP env (m + 1)) start true st (e.write g ++ r) = (.ok x e.tree, st) := by
    rintro st rfl
    unfold argument
    refine (bind_ok (a := ([] : List Str)) rfl).trans ?_
    refine (bind_ok (r := x) (a := e.tree) (s' := []) ?_).trans rfl
    rw [if_pos rfl, alt_err (bind_err (lift_err (s := ([] : List Str)) hno))]
    exact lift_ok hrun
  have := ws_ok (p := argument (exprP env (m + 1)) start true) (i := i) (by rw [hi]; exact hst [] rfl)
  rwa [hx.drop] at this

theorem namedArg_ok {g : Gaps} (hg : g.Ok) {a : Str × Tm} (h1 : Name a.1) (h : a.2.Ok env.isLower) (hn : a.2.need + 13 ≤ n) {names : List Str}
    (hnew : a.1 ∉ names) {r i : Str} (hr : ArgEnd r) (hi : i.dropWhile isWsp = namedText a g ++ r) :
    ws (argument (exprP env n) start true) names i = (.ok (r.dropWhile isWsp) (.namedArg a.1 a.2.tree), a.1 :: names) := by
  obtain ⟨he, hq⟩ := hr.facts
  have hs := sem_tm a.2 h _ (hg.sub 0)
  obtain ⟨m, rfl⟩ : ∃ m, n = m + 1 := ⟨n - 1, by have := hs.1.need3; omega⟩
  obtain ⟨x, hx, hrun⟩ := hs.1.parse m r he (by omega)
  have hid := isIdent_of_name h1
  have hnamed : exprP env (m + 1) .named () (namedText a g ++ r) = (.ok x (a.1, a.2.tree), ()) := by
    show namedBody (exprP env m) () _ = _
    unfold namedBody
    have htx : namedText a g ++ r = a.1 ++ (g.gap 1 ++ '=' :: (g.gap 3 ++ (a.2.write (g.sub 0) ++ r))) := by simp [namedText]
    rw [htx, bind_ok (identifier_ok hid (gap_noIdent (hg.gap 1) (by intro c hc; simp at hc; subst hc; rfl)))]
    have hweq : (ws (char '=') : P Char) () (g.gap 1 ++ '=' :: (g.gap 3 ++ (a.2.write (g.sub 0) ++ r))) =
        (.ok (a.2.write (g.sub 0) ++ r) '=', ()) := by
      rw [ws_ok (p := (char '=' : P Char)) (r := g.gap 3 ++ (a.2.write (g.sub 0) ++ r)) (a := '=') (s' := ())
        (by rw [gap_drop (hg.gap 1) (noWs_cons (by decide))]; exact char_ok)]
      rw [gap_drop (hg.gap 3) (hs.1.start _)]
    rw [bind_ok hweq, bind_ok hrun]
    rfl
  have harg : argument (exprP env (m + 1)) start true names (namedText a g ++ r) = (.ok x (.namedArg a.1 a.2.tree), a.1 :: names) := by
    unfold argument
    refine (bind_ok (a := names) rfl).trans ?_
    have halt : (PT.alt (if true then do
          let (n, v) ← PT.lift (exprP env (m + 1) .named)
          if n ∈ (← PT.get) then
            failAt start (some (.named c!"passed more than once" n))
          else do
            PT.modify (n :: ·)
            pure (.namedArg n v)
        else error) (PT.lift (exprP env (m + 1) .parse)) : PT (List Str) Expr) names (namedText a g ++ r) =
        (.ok x (.namedArg a.1 a.2.tree), a.1 :: names) := by
      refine alt_ok ?_
      rw [if_pos rfl, bind_ok (lift_ok hnamed)]
      dsimp only
      refine (bind_ok (a := names) rfl).trans ?_
      rw [if_neg hnew]
      rfl
    refine (bind_ok halt).trans ?_
    cases names <;> rfl
  have := ws_ok (p := argument (exprP env (m + 1)) start true) (i := i) (by rw [hi]; exact harg)
  rwa [hx.drop] at this

/-- What is needed of an argument. -/
def ItemOk (env : PEnv) (n : Nat) (a : ArgItem) : Prop := (∀ k, a.1 = some k → Name k) ∧ a.2.Ok env.isLower ∧ a.2.need + 13 ≤ n

theorem item_noWs {a : ArgItem} (h : ItemOk env n a) {g : Gaps} (hg : g.Ok) (r : Str) : NoWs (itemText a g ++ r) := by
  obtain ⟨_ | k, e⟩ := a
  · exact (sem_tm e h.2.1 g hg).1.start _
  · rw [itemText, namedText, List.append_assoc]
    exact noWs_ident (isIdent_of_name (h.1 k rfl))

theorem item_ok {g : Gaps} (hg : g.Ok) {a : ArgItem} (h : ItemOk env n a) {l : List ArgItem} {names : List Str} (hn : NamesOk names (a :: l))
    {r i : Str} (hr : ArgEnd r) (hi : i.dropWhile isWsp = itemText a g ++ r) :
    ws (argument (exprP env n) start true) names i = (.ok (r.dropWhile isWsp) (itemTree a), itemNames names a) ∧
      NamesOk (itemNames names a) l := by
  obtain ⟨_ | k, e⟩ := a
  · obtain ⟨rfl, hl⟩ := hn
    exact ⟨positional_ok hg h.2.1 h.2.2 hr hi, hl⟩
  · exact ⟨namedArg_ok hg (a := (k, e)) (h.1 k rfl) h.2.1 h.2.2 hn.1 hr hi, hn.2⟩

/-- No argument starts with a parenthesis that closes. -/
theorem arg_no (names : List Str) {i r : Str} (hn : 16 ≤ n) (hi : i.dropWhile isWsp = ')' :: r) :
    ∃ j m, ws (argument (exprP env n) start true) names i = (.err false j m, names) := by
  obtain ⟨j, m, hj⟩ := parse_bad (env := env) (n := n) (bad_cons (c := ')') (r := r) (by simp [BadStart])) (by omega)
  refine ⟨j, m, ws_err ?_⟩
  rw [hi]
  unfold argument
  refine (bind_ok (a := names) rfl).trans (bind_err ?_)
  obtain ⟨k, rfl⟩ : ∃ k, n = k + 1 := ⟨n - 1, by omega⟩
  obtain ⟨j', m', hno⟩ := named_no (env := env) (n := k) (notNamed_start (c := ')') (i := r) (by decide)) (by omega)
  rw [if_pos rfl, alt_err (bind_err (lift_err (s := names) hno))]
  exact lift_err hj

theorem lastComma_head (g : Gaps) (b : Bool) (r : Str) : ∃ c r', lastComma g b ++ ')' :: r = c :: r' ∧ (c = ',' ∨ c = ')') := by
  cases b with
  | true => exact ⟨',', _, rfl, .inl rfl⟩
  | false => exact ⟨')', _, rfl, .inr rfl⟩

theorem lastComma_noWs (g : Gaps) (b : Bool) (r : Str) : NoWs (lastComma g b ++ ')' :: r) := by
  obtain ⟨c, r', h, hc⟩ := lastComma_head g b r
  rw [h]
  rcases hc with rfl | rfl <;> exact noWs_cons (by decide)

theorem args_stop {g : Gaps} (hg : g.Ok) (b : Bool) (names : List Str) (hn : 16 ≤ n) (r : Str) (k : Nat) :
    sepRestF (char ',') (ws (argument (exprP env n) start true)) (k + 1) names (lastComma g b ++ ')' :: r) =
      (.ok (lastComma g b ++ ')' :: r) [], names) := by
  unfold sepRestF
  cases b with
  | false => rw [show lastComma g false ++ ')' :: r = ')' :: r from rfl, char_err (by simp)]
  | true =>
    obtain ⟨j, m, h⟩ := arg_no (env := env) (start := start) names hn
      (gap_drop (hg.gap 0) (noWs_cons (by decide)) : List.dropWhile isWsp (g.gap 0 ++ ')' :: r) = _)
    rw [show lastComma g true ++ ')' :: r = ',' :: (g.gap 0 ++ ')' :: r) from rfl, char_ok]
    dsimp only
    rw [if_neg (by simp), h]

theorem items_rest {g' : Gaps} (hg' : g'.Ok) {b : Bool} {r : Str} (hn : 16 ≤ n) : ∀ (l : List ArgItem) (g : Gaps) (names : List Str) (fuel : Nat), g.Ok → l.length < fuel →
    (∀ a ∈ l, ItemOk env n a) → NamesOk names l →
    ∃ names', sepRestF (char ',') (ws (argument (exprP env n) start true)) fuel names
      ((listText.more g (l.map itemText) ++ (lastComma g' b ++ ')' :: r)).dropWhile isWsp) =
      (.ok (lastComma g' b ++ ')' :: r) (l.map itemTree), names')
  | [], g, names, fuel + 1, hg, _, _, _ => by
    refine ⟨names, ?_⟩
    rw [show (listText.more g (List.map itemText []) ++ (lastComma g' b ++ ')' :: r)).dropWhile isWsp = lastComma g' b ++ ')' :: r from
      gap_drop (hg.gap 0) (lastComma_noWs _ _ _)]
    exact args_stop hg' b names hn r fuel
  | a :: l, g, names, fuel + 1, hg, hf, hl, hnm => by
    have ha := hl a (by simp)
    have hend := argEnd_more (l.map itemText) (hg.sub 1) (lastComma_head g' b r)
    obtain ⟨hel, hnm'⟩ := item_ok (start := start) (hg.sub 0) ha hnm hend
      (i := g.gap 1 ++ (itemText a (g.sub 0) ++ (listText.more (g.sub 1) (l.map itemText) ++ (lastComma g' b ++ ')' :: r))))
      (gap_drop (hg.gap 1) (item_noWs ha (hg.sub 0) _))
    obtain ⟨names', ih⟩ := items_rest (r := r) hg' hn l (g.sub 1) (itemNames names a) fuel (hg.sub 1) (by simpa using hf)
      (fun b hb => hl b (by simp [hb])) hnm'
    refine ⟨names', ?_⟩
    have htx : (listText.more g ((a :: l).map itemText) ++ (lastComma g' b ++ ')' :: r)).dropWhile isWsp =
        ',' :: (g.gap 1 ++ (itemText a (g.sub 0) ++ (listText.more (g.sub 1) (l.map itemText) ++ (lastComma g' b ++ ')' :: r)))) := by
      rw [List.map_cons, listText.more, List.append_assoc, List.cons_append, gap_drop (hg.gap 0) (noWs_cons (by decide))]
      simp
    unfold sepRestF
    rw [htx, char_ok]
    dsimp only
    rw [if_neg (by simp), hel]
    exact map_ok ih

theorem listMore_length (l : List (Gaps → Str)) (g : Gaps) (hg : g.Ok) (r : Str) (hr : NoWs r) :
    l.length + r.length ≤ ((listText.more g l ++ r).dropWhile isWsp).length := by
  induction l generalizing g with
  | nil => rw [show (listText.more g [] ++ r).dropWhile isWsp = r from gap_drop (hg.gap 0) hr]; simp
  | cons a l ih =>
    have := ih (g.sub 1) (hg.sub 1)
    have := drop_length_le (listText.more (g.sub 1) l ++ r)
    rw [listText.more, List.append_assoc, List.cons_append, gap_drop (hg.gap 0) (noWs_cons (by decide))]
    simp at this ⊢
    omega

theorem tm_needs {es : List Tm} {e : Tm} (h : e ∈ es) : e.need ≤ Tm.needs es := by
  induction es with
  | nil => simp at h
  | cons u es ih =>
    rw [Tm.needs]
    rcases List.mem_cons.1 h with rfl | h
    · omega
    · have := ih h; omega

theorem tm_oks {es : List Tm} {e : Tm} (h : Tm.Oks env.isLower es) (he : e ∈ es) : e.Ok env.isLower := by
  induction es with
  | nil => simp at he
  | cons u es ih =>
    rcases List.mem_cons.1 he with rfl | he
    · exact h.1
    · exact ih h.2 he

theorem tm_trees (es : List Tm) : Tm.trees es = es.map Tm.tree := by
  induction es with
  | nil => rfl
  | cons e es ih => rw [Tm.trees, ih]; rfl

theorem namesOk_named : ∀ (l : List (Str × Tm)) (names : List Str), (l.map (·.1)).Nodup → (∀ a ∈ l, a.1 ∉ names) →
    NamesOk names (l.map fun a => (some a.1, a.2))
  | [], _, _, _ => trivial
  | a :: l, names, hd, h => by
    have hd' := List.nodup_cons.1 (by simpa using hd : (a.1 :: l.map (·.1)).Nodup)
    refine ⟨h a (by simp), namesOk_named l _ hd'.2 ?_⟩
    intro b hb hm
    rcases List.mem_cons.1 hm with h' | h'
    · exact hd'.1 (List.mem_map.2 ⟨b, hb, h'⟩)
    · exact h b (by simp [hb]) h'

theorem namesOk_all (l : List ArgItem) (h : NamesOk [] l) : ∀ es : List Tm, NamesOk [] (es.map (fun e => (none, e)) ++ l)
  | [] => h
  | _ :: es => ⟨rfl, namesOk_all l h es⟩

/-- The arguments of a macro call. -/
theorem macroArgs_ok {g : Gaps} (hg : g.Ok) {es : List Tm} {l : List (Str × Tm)} (h : ArgsOk env.isLower es l)
    (hn : max (Tm.needs es) (Tm.needs (l.map (·.2))) + 13 ≤ n) {r i : Str} (hi : i.dropWhile isWsp = argsSrc g es l ++ r) :
    exprP env (n + 1) (.args true) () i =
      (.ok r (Tm.trees es ++ l.map fun a => .namedArg a.1 a.2.tree), ()) := by
  obtain ⟨h1, h2, hd⟩ := h
  obtain ⟨items, hitems⟩ : ∃ items : List ArgItem, items = es.map (fun e => (none, e)) ++ l.map (fun a => (some a.1, a.2)) := ⟨_, rfl⟩
  have htree : Tm.trees es ++ l.map (fun a => .namedArg a.1 a.2.tree) = items.map itemTree := by
    rw [hitems, tm_trees]
    simp [itemTree, Function.comp_def]
  have htext : es.map (fun e g => e.write g) ++ l.map namedText = items.map itemText := by
    rw [hitems]
    simp only [List.map_append, List.map_map]
    rfl
  have hn16 : 16 ≤ n := by have := needs3 es; omega
  have hok : ∀ a ∈ items, ItemOk env n a := by
    intro a ha
    rw [hitems] at ha
    rcases List.mem_append.1 ha with ha | ha
    · obtain ⟨e, he, rfl⟩ := List.mem_map.1 ha
      exact ⟨by simp, tm_oks h1 he, by have := tm_needs he; simp; omega⟩
    · obtain ⟨b, hb, rfl⟩ := List.mem_map.1 ha
      refine ⟨?_, (h2 b hb).2, by have := tm_needs (es := l.map (·.2)) (e := b.2) (List.mem_map.2 ⟨b, hb, rfl⟩); simp; omega⟩
      intro k hk
      simp at hk
      exact hk ▸ (h2 b hb).1
  have hnames : NamesOk [] items := by
    rw [hitems]
    exact namesOk_all _ (namesOk_named l [] hd (by simp)) es
  rw [argsSrc, htext, listText] at hi
  rw [htree]
  show argsBody (exprP env n) true () _ = _
  generalize hb : (g.comma [] && !(items.map itemText).isEmpty) = b at hi
  clear hitems htree htext
  unfold argsBody
  have hw := ws_ok (p := (char '(' : P Char)) (s := ()) (i := i)
    (r := listText.elems (g.sub 0) (items.map itemText) ++ (lastComma g b ++ ')' :: r))
    (a := '(') (s' := ()) (by rw [hi]; simp only [List.cons_append, List.append_assoc, List.nil_append]; exact char_ok)
  rw [pos_bind, bind_ok hw]
  refine cut_ok ?_
  obtain ⟨names, hlist⟩ : ∃ names, sepList0 (char ',') (ws (argument (exprP env n) i true)) []
      ((listText.elems (g.sub 0) (items.map itemText) ++ (lastComma g b ++ ')' :: r)).dropWhile isWsp) =
      (.ok (lastComma g b ++ ')' :: r) (items.map itemTree), names) := by
    cases items with
    | nil =>
      have hb' : b = false := by rw [← hb]; simp
      subst hb'
      refine ⟨[], ?_⟩
      obtain ⟨j, m, he⟩ := arg_no (env := env) (start := i) (n := n) [] hn16 (noWs_drop (noWs_cons (by decide)) : List.dropWhile isWsp (')' :: r) = _)
      rw [show (listText.elems (g.sub 0) (List.map itemText []) ++ (lastComma g false ++ ')' :: r)).dropWhile isWsp = ')' :: r from
        gap_drop ((hg.sub 0).gap 0) (noWs_cons (by decide))]
      unfold sepList0
      rw [he]
      rfl
    | cons a l =>
      have ha := hok a (by simp)
      have hend := argEnd_more (l.map itemText) ((hg.sub 0).sub 1) (lastComma_head g b r)
      have htx : (listText.elems (g.sub 0) ((a :: l).map itemText) ++ (lastComma g b ++ ')' :: r)).dropWhile isWsp =
          itemText a ((g.sub 0).sub 0) ++ (listText.more ((g.sub 0).sub 1) (l.map itemText) ++ (lastComma g b ++ ')' :: r)) := by
        rw [List.map_cons, listText.elems, List.append_assoc, List.append_assoc]
        exact gap_drop ((hg.sub 0).gap 0) (item_noWs ha ((hg.sub 0).sub 0) _)
      obtain ⟨hel, hnm'⟩ := item_ok (start := i) ((hg.sub 0).sub 0) ha hnames hend
        (i := itemText a ((g.sub 0).sub 0) ++ (listText.more ((g.sub 0).sub 1) (l.map itemText) ++ (lastComma g b ++ ')' :: r)))
        (noWs_drop (item_noWs ha ((hg.sub 0).sub 0) _))
      obtain ⟨names, hr⟩ := items_rest (start := i) (env := env) (b := b) hg hn16 l ((g.sub 0).sub 1) (itemNames [] a)
        (((listText.more ((g.sub 0).sub 1) (l.map itemText) ++ (lastComma g b ++ ')' :: r)).dropWhile isWsp).length + 1)
        ((hg.sub 0).sub 1) (by
          have := listMore_length (l.map itemText) _ ((hg.sub 0).sub 1) _ (lastComma_noWs g b r)
          simp at this ⊢
          omega) (fun x hx => hok x (by simp [hx])) hnm' (r := r)
      refine ⟨names, ?_⟩
      rw [htx]
      unfold sepList0
      rw [hel]
      exact map_ok hr
  refine (bind_ok (a := items.map itemTree) (r := lastComma g b ++ ')' :: r) (s' := ()) (by rw [hlist])).trans ?_
  have hopt : ∃ o, PT.opt (ws (char ',') : P Char) () (lastComma g b ++ ')' :: r) = (.ok (')' :: r) o, ()) := by
    cases b with
    | false => exact ⟨none, opt_err (ws_err (char_err (by simp [lastComma, show isWsp ')' = false from rfl])))⟩
    | true =>
      refine ⟨some ',', opt_ok ?_⟩
      rw [show lastComma g true ++ ')' :: r = ',' :: (g.gap 0 ++ ')' :: r) from rfl,
        ws_ok (p := (char ',' : P Char)) (r := g.gap 0 ++ ')' :: r) (a := ',') (s' := ())
          (by rw [noWs_drop (noWs_cons (by decide))]; exact char_ok), gap_drop (hg.gap 0) (noWs_cons (by decide))]
  obtain ⟨o, hopt⟩ := hopt
  refine (bind_ok hopt).trans ((bind_ok char_ok).trans rfl)

end

end Askama
