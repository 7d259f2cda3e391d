import Verif.Lemmas.PrecLists

/-!
# The expression parser on printed expressions: suffixes, operators, ranges, and all of it together (C28)
-/

namespace Askama

open Spec PT

section
variable {env : PEnv} {t : Str} {T : Expr} {f nm : Bool} {nd pr : Nat}

/-! ### Suffixes -/

theorem item_attr {n a b : Str} {nm' : Bool} (ha : Blank a) (hb : Blank b) (h : Item env t T pr f nd nm) (hp : 11 ≤ pr) (hn : IsIdent n) :
    Item env (t ++ (a ++ '.' :: (b ++ n))) (.attr T n) 11 false nd nm' := by
  have hs : StartAtom (t ++ (a ++ '.' :: (b ++ n))) := (h.atom hp).app _
  refine item_suf h.need3 hs ?_ 11 (by omega)
  intro m rest hf _ hm
  obtain ⟨fuel, h1, h2⟩ := h.suf hp m (a ++ '.' :: (b ++ (n ++ rest))) (.suffix a '.' _ ha (by omega) (.inl rfl)) (by
    rintro _ ⟨c, r', h1, h2⟩
    cases a with
    | nil =>
      cases b with
      | nil =>
        obtain ⟨d, n', rfl, hd⟩ := ident_start hn
        simp at h1
        rw [← h1.1, (identStart_facts hd).1] at h2
        simp at h2
      | cons x b =>
        simp at h1
        rw [← h1.1] at h2
        exact absurd (isWsp_iff.2 (hb x (by simp))) (by rw [(digit_facts h2).1]; simp)
    | cons x a =>
      simp at h1
      exact absurd (isWsp_iff.2 (ha x (by simp))) (by rw [h1.1]; decide)) hm
  obtain ⟨fuel, rfl⟩ : ∃ k, fuel = k + 1 := ⟨fuel - 1, by omega⟩
  simp at h1
  refine ⟨fuel, by omega, ?_⟩
  rw [show t ++ (a ++ '.' :: (b ++ n)) ++ rest = t ++ (a ++ '.' :: (b ++ (n ++ rest))) by simp, h2]
  conv => lhs; unfold suffixLoop
  have hhd : ∃ c n', n = c :: n' ∧ identStart c = true := ident_start hn
  have hone : suffixOne (exprP env m) () (a ++ '.' :: (b ++ (n ++ rest))) = (.ok rest (some (.attr n)), ()) := by
    unfold suffixOne
    refine opt_ok (alt_ok ?_)
    unfold suffixAttr
    have hw := ws_ok (p := (do let _ ← char '.'; PT.not (char '.') : P Unit)) (s := ()) (i := a ++ '.' :: (b ++ (n ++ rest)))
      (r := b ++ (n ++ rest)) (a := ()) (s' := ()) (by
        rw [gap_drop ha (noWs_cons (by decide))]
        refine (bind_ok char_ok).trans ?_
        obtain ⟨c, n', rfl, hc⟩ := hhd
        have := (identStart_facts hc).2.2.2.2.2.1
        unfold PT.not
        rw [char_err (by rw [List.cons_append]; exact gap_head hb (by decide) this)])
    rw [gap_drop hb (noWs_ident hn)] at hw
    rw [bind_ok hw]
    obtain ⟨j, m', hnum⟩ := numLit_err (i := n ++ rest) (by
      obtain ⟨c, n', rfl, hc⟩ := hhd
      intro d hd
      simp at hd
      subst hd
      exact ⟨(identStart_facts hc).2.1, (identStart_facts hc).1⟩)
    have : PT.alt numLit identifier () (n ++ rest) = (.ok rest n, ()) := by
      rw [alt_err hnum]; exact identifier_ok hn (follow_noIdent hf)
    rw [bind_ok (cut_ok this)]
    rfl
  rw [pos_bind, bind_ok hone]

theorem item_attrNum {n a b : Str} (ha : Blank a) (hb : Blank b) (h : Item env t T pr f nd false) (hp : 11 ≤ pr) (hn : Dec n) :
    Item env (t ++ (a ++ '.' :: (b ++ n))) (.attr T n) 11 false nd true := by
  refine item_suf h.need3 ((h.atom hp).app _) ?_ 11 (by omega)
  intro m rest hf hnm hm
  obtain ⟨fuel, h1, h2⟩ := h.suf hp m (a ++ '.' :: (b ++ (n ++ rest))) (.suffix a '.' _ ha (by omega) (.inl rfl)) (by simp) hm
  obtain ⟨fuel, rfl⟩ : ∃ k, fuel = k + 1 := ⟨fuel - 1, by omega⟩
  simp at h1
  refine ⟨fuel, by omega, ?_⟩
  rw [show t ++ (a ++ '.' :: (b ++ n)) ++ rest = t ++ (a ++ '.' :: (b ++ (n ++ rest))) by simp, h2]
  conv => lhs; unfold suffixLoop
  have hhd : ∃ c n', n = c :: n' ∧ isDigitR 10 c = true := by
    obtain ⟨ha, hb⟩ := hn
    cases n with
    | nil => exact absurd rfl ha
    | cons c n => simp at hb; exact ⟨c, n, rfl, hb.1⟩
  have hone : suffixOne (exprP env m) () (a ++ '.' :: (b ++ (n ++ rest))) = (.ok rest (some (.attr n)), ()) := by
    unfold suffixOne
    refine opt_ok (alt_ok ?_)
    unfold suffixAttr
    obtain ⟨c, n', hcn, hc⟩ := hhd
    have hf1 := digit_facts hc
    have hw := ws_ok (p := (do let _ ← char '.'; PT.not (char '.') : P Unit)) (s := ()) (i := a ++ '.' :: (b ++ (n ++ rest)))
      (r := b ++ (n ++ rest)) (a := ()) (s' := ()) (by
        rw [gap_drop ha (noWs_cons (by decide))]
        refine (bind_ok char_ok).trans ?_
        unfold PT.not
        rw [char_err (by rw [hcn, List.cons_append]; exact gap_head hb (by decide) hf1.2.1)])
    rw [gap_drop hb (by rw [hcn]; exact noWs_cons hf1.1)] at hw
    rw [bind_ok hw]
    have hnum := number_read (rest := rest) (number_dec hn) (follow_noIdent hf) (hnm rfl)
    rw [bind_ok (cut_ok (alt_ok hnum))]
    rfl
  rw [pos_bind, bind_ok hone]

theorem suffixAttr_err {g i : Str} {c : Char} (hg : Blank g) (hc : c ≠ '.') (hw : isWsp c = false) :
    suffixAttr () (g ++ c :: i) = (.err false (c :: i) none, ()) := by
  unfold suffixAttr
  refine bind_err (ws_err ?_)
  rw [gap_drop hg (noWs_cons hw)]
  exact bind_err (char_err (by simpa using hc))

theorem suffixIndex_err {g i : Str} {c : Char} {m : Nat} (hg : Blank g) (hc : c ≠ '[') (hw : isWsp c = false) :
    exprP env (m + 1) .index () (g ++ c :: i) = (.err false (c :: i) none, ()) := by
  show indexBody (exprP env m) () _ = _
  unfold indexBody
  refine bind_err (ws_err ?_)
  rw [gap_drop hg (noWs_cons hw)]
  exact char_err (by simpa using hc)

theorem suffixCall_err {g i : Str} {c : Char} {m : Nat} (hg : Blank g) (hc : c ≠ '(') (hw : isWsp c = false) :
    exprP env (m + 2) .call () (g ++ c :: i) = (.err false (c :: i) none, ()) := by
  show argsBody (exprP env m) false () _ = _
  unfold argsBody
  rw [pos_bind]
  refine bind_err (ws_err ?_)
  rw [gap_drop hg (noWs_cons hw)]
  exact char_err (by simpa using hc)

theorem noDot {g : Str} {c : Char} {r : Str} (hg : Blank g) (hc : c ≠ '.') : ¬ DotDigit (g ++ c :: r) := by
  rintro ⟨d, r', h1, _⟩
  exact gap_head (c := c) (r := r) hg (d := '.') (by decide) hc (by rw [h1]; rfl)

theorem item_try {nm' : Bool} {a : Str} (ha : Blank a) (h : Item env t T pr f nd nm) (hp : 11 ≤ pr) :
    Item env (t ++ (a ++ ['?'])) (.try_ T) 11 false nd nm' := by
  have hs : StartAtom (t ++ (a ++ ['?'])) := (h.atom hp).app _
  refine item_suf h.need3 hs ?_ 11 (by omega)
  intro m rest hf _ hm
  have h3 := h.need3
  obtain ⟨fuel, h1, h2⟩ := h.suf hp m (a ++ '?' :: rest) (.suffix a '?' _ ha (by omega) (by simp)) (fun _ => noDot ha (by decide)) hm
  obtain ⟨fuel, rfl⟩ : ∃ k, fuel = k + 1 := ⟨fuel - 1, by omega⟩
  simp at h1
  refine ⟨fuel, by omega, ?_⟩
  rw [show t ++ (a ++ ['?']) ++ rest = t ++ (a ++ '?' :: rest) by simp, h2]
  conv => lhs; unfold suffixLoop
  have hone : suffixOne (exprP env m) () (a ++ '?' :: rest) = (.ok rest (some .try_), ()) := by
    obtain ⟨m, rfl⟩ : ∃ k, m = k + 2 := ⟨m - 2, by omega⟩
    unfold suffixOne
    refine opt_ok ?_
    rw [alt_err (suffixAttr_err ha (by decide) (by decide)), alt_err (map_err (suffixIndex_err ha (by decide) (by decide))),
      alt_err (map_err (suffixCall_err ha (by decide) (by decide)))]
    refine alt_ok ?_
    unfold suffixTry
    rw [bind_ok skipWs_run, gap_drop ha (noWs_cons (by decide)), bind_ok char_ok]
    rfl
  rw [pos_bind, bind_ok hone]

/-- Closed parentheses and whole strings are passed over. -/
theorem nestedParen_str {b : Str} (h : StrBody b) (n : Nat) (rest : Str) :
    nestedParenGo (b ++ '"' :: rest) n true false = nestedParenGo rest n false false := by
  induction h with
  | nil => simp [nestedParenGo]
  | char c h1 h2 _ ih =>
    rw [List.cons_append, nestedParenGo]
    by_cases hc : c = '(' ∨ c = ')'
    · rcases hc with rfl | rfl <;> simpa using ih
    · simp only [not_or] at hc
      simpa [hc.1, hc.2, h1, h2] using ih
  | escape c _ ih =>
    rw [List.cons_append, List.cons_append, nestedParenGo]
    simp only [show ('\\' == '(') = false from by decide, show ('\\' == ')') = false from by decide,
      show ('\\' == '"') = false from by decide]
    simp only [Bool.or_false, Bool.not_false, Bool.true_or, if_true, beq_self_eq_true, Bool.and_true, Bool.false_eq_true, if_false]
    rw [nestedParenGo]
    by_cases hc : c = '(' ∨ c = ')'
    · rcases hc with rfl | rfl <;> simpa using ih
    · simp only [not_or] at hc
      by_cases hq : c = '"'
      · subst hq; simpa using ih
      · by_cases hb : c = '\\'
        · subst hb; simpa using ih
        · simpa [hc.1, hc.2, hq, beq_eq_false_iff_ne.mpr hb] using ih

theorem nestedParen_text {s : Str} (h : MacroText s) : ∀ (n : Nat) (rest : Str),
    nestedParenGo (s ++ rest) n false false = nestedParenGo rest n false false := by
  induction h with
  | nil => intros; rfl
  | char c hc _ ih =>
    intro n rest
    simp only [List.mem_cons, List.not_mem_nil, or_false, not_or] at hc
    rw [List.cons_append, nestedParenGo]
    simpa [hc.1, hc.2.1, hc.2.2.1, hc.2.2.2] using ih n rest
  | escape c hc _ ih =>
    intro n rest
    simp only [List.mem_cons, List.not_mem_nil, or_false, not_or] at hc
    rw [List.cons_append, List.cons_append, nestedParenGo]
    simp only [show ('\\' == '(') = false from by decide, show ('\\' == ')') = false from by decide,
      show ('\\' == '"') = false from by decide]
    simp only [Bool.or_false, Bool.not_false, Bool.true_or, if_true, beq_self_eq_true, Bool.and_true, Bool.false_eq_true, if_false]
    rw [nestedParenGo]
    by_cases hb : c = '\\'
    · subst hb; simpa using ih n rest
    · simpa [hc.1, hc.2.1, hc.2.2, beq_eq_false_iff_ne.mpr hb] using ih n rest
  | @paren a s _ _ ih1 ih2 =>
    intro n rest
    rw [show '(' :: (a ++ ')' :: s) ++ rest = '(' :: (a ++ (')' :: (s ++ rest))) by simp, nestedParenGo]
    simp only [beq_self_eq_true, Bool.not_false, Bool.or_true, if_true, Bool.false_and]
    rw [ih1, nestedParenGo]
    simpa using ih2 n rest
  | @str b s hb _ ih =>
    intro n rest
    rw [show '"' :: (b ++ '"' :: s) ++ rest = '"' :: (b ++ ('"' :: (s ++ rest))) by simp, nestedParenGo]
    have := (nestedParen_str hb n (s ++ rest)).trans (ih n rest)
    simpa using this

theorem nestedParen_ok {a rest : Str} (h : MacroText a) : nestedParen () (a ++ ')' :: rest) = (.ok (')' :: rest) (), ()) := by
  unfold nestedParen
  rw [nestedParen_text h]
  rfl

theorem item_mac {a g g' : Str} {nm' : Bool} {ps : List Str} (hg : Blank g) (hg' : Blank g') (h : Item env t T 12 f 3 nm)
    (hT : T = .path ps ∨ ∃ n, T = .var n ∧ ps = [n])
    (ha : MacroText a) : Item env (t ++ (g ++ '!' :: (g' ++ '(' :: (a ++ [')'])))) (.rustMacro ps a) 11 false 3 nm' := by
  have hs : StartAtom (t ++ (g ++ '!' :: (g' ++ '(' :: (a ++ [')'])))) := (h.atom (by omega)).app _
  refine item_suf h.need3 hs ?_ 11 (by omega)
  intro m rest hf _ hm
  obtain ⟨fuel, h1, h2⟩ := h.suf (by omega) m (g ++ '!' :: (g' ++ '(' :: (a ++ ')' :: rest))) (.mac g g' _ hg hg' (by omega))
    (fun _ => noDot hg (by decide)) hm
  obtain ⟨fuel, rfl⟩ : ∃ k, fuel = k + 1 := ⟨fuel - 1, by omega⟩
  simp at h1
  refine ⟨fuel, by omega, ?_⟩
  rw [show t ++ (g ++ '!' :: (g' ++ '(' :: (a ++ [')']))) ++ rest = t ++ (g ++ '!' :: (g' ++ '(' :: (a ++ ')' :: rest))) by simp, h2]
  conv => lhs; unfold suffixLoop
  have hone : suffixOne (exprP env m) () (g ++ '!' :: (g' ++ '(' :: (a ++ ')' :: rest))) = (.ok rest (some (.macroCall a)), ()) := by
    obtain ⟨m, rfl⟩ : ∃ k, m = k + 2 := ⟨m - 2, by omega⟩
    unfold suffixOne
    refine opt_ok ?_
    have e4 : suffixTry () (g ++ '!' :: (g' ++ '(' :: (a ++ ')' :: rest))) = (.err false ('!' :: (g' ++ '(' :: (a ++ ')' :: rest))) none, ()) := by
      unfold suffixTry
      rw [bind_ok skipWs_run, gap_drop hg (noWs_cons (by decide)), bind_err (char_err (by simp))]
    rw [alt_err (suffixAttr_err hg (by decide) (by decide)), alt_err (map_err (suffixIndex_err hg (by decide) (by decide))),
      alt_err (map_err (suffixCall_err hg (by decide) (by decide))), alt_err e4]
    unfold suffixMacro
    have hw := ws_ok (p := (char '!' : P Char)) (s := ()) (i := g ++ '!' :: (g' ++ '(' :: (a ++ ')' :: rest)))
      (r := g' ++ '(' :: (a ++ ')' :: rest)) (a := '!')
      (s' := ()) (by rw [gap_drop hg (noWs_cons (by decide))]; exact char_ok)
    rw [gap_drop hg' (noWs_cons (by decide))] at hw
    rw [bind_ok hw, bind_ok char_ok]
    refine cut_ok ?_
    rw [bind_ok (recognize_ok (nestedParen_ok ha)), bind_ok char_ok]
    rfl
  rw [pos_bind, bind_ok hone]
  rcases hT with rfl | ⟨n, rfl, rfl⟩ <;> rfl

theorem item_index {t' a b c : Str} {T' : Expr} {nd' : Nat} {f' nm' : Bool} (ha : Blank a) (hb : Blank b) (hc : Blank c)
    (h : Item env t T pr f nd nm) (hp : 11 ≤ pr) (h' : ReadsWhole env t' T' f' nd') :
    Item env (t ++ (a ++ '[' :: (b ++ (t' ++ (c ++ [']']))))) (.index T T') 11 false (max nd (nd' + 14)) nm' := by
  have h3 := h.need3
  refine item_suf (by omega) ((h.atom hp).app _) ?_ 11 (by omega)
  intro m rest hf _ hm
  obtain ⟨fuel, h1, h2⟩ := h.suf hp m (a ++ '[' :: (b ++ (t' ++ (c ++ ']' :: rest)))) (.suffix a '[' _ ha (by omega) (by simp))
    (fun _ => noDot ha (by decide)) (by omega)
  obtain ⟨fuel, rfl⟩ : ∃ k, fuel = k + 1 := ⟨fuel - 1, by omega⟩
  simp at h1
  refine ⟨fuel, by omega, ?_⟩
  rw [show t ++ (a ++ '[' :: (b ++ (t' ++ (c ++ [']'])))) ++ rest = t ++ (a ++ '[' :: (b ++ (t' ++ (c ++ ']' :: rest)))) by simp, h2]
  conv => lhs; unfold suffixLoop
  have hone : suffixOne (exprP env m) () (a ++ '[' :: (b ++ (t' ++ (c ++ ']' :: rest)))) = (.ok rest (some (.index T')), ()) := by
    obtain ⟨m, rfl⟩ : ∃ k, m = k + 1 := ⟨m - 1, by omega⟩
    unfold suffixOne
    refine opt_ok ?_
    rw [alt_err (suffixAttr_err ha (by decide) (by decide))]
    refine alt_ok (map_ok ?_)
    show indexBody (exprP env m) () _ = _
    unfold indexBody
    have hw := ws_ok (p := (char '[' : P Char)) (s := ()) (i := a ++ '[' :: (b ++ (t' ++ (c ++ ']' :: rest)))) (r := b ++ (t' ++ (c ++ ']' :: rest)))
      (a := '[') (s' := ()) (by rw [gap_drop ha (noWs_cons (by decide))]; exact char_ok)
    rw [gap_drop hb (h'.start _)] at hw
    rw [bind_ok hw]
    obtain ⟨x, hx, hr⟩ := h'.parse m (c ++ ']' :: rest) (ending_close hc (by simp)) (by omega)
    have hw2 := ws_ok (p := (exprP env m .parse : P Expr)) (s := ()) (i := t' ++ (c ++ ']' :: rest)) (r := x)
      (a := T') (s' := ()) (by rw [noWs_drop (h'.start _)]; exact hr)
    rw [hx.drop, gap_drop hc (noWs_cons (by decide))] at hw2
    refine cut_ok ?_
    refine (bind_ok hw2).trans ?_
    refine (bind_ok char_ok).trans ?_
    rfl
  rw [pos_bind, bind_ok hone]

theorem item_call {es : List Tm} {nd' : Nat} {nm' : Bool} {a : Str} {g g' : Gaps} (ha : Blank a) (hg : g.Ok) (hg' : g'.Ok) (b : Bool)
    (h : Item env t T pr f nd nm) (hp : 11 ≤ pr) (h' : AllWhole env es nd') (h3' : 3 ≤ nd') :
    Item env (t ++ (a ++ '(' :: (Tm.writes g es ++ (lastComma g' (b && !es.isEmpty) ++ [')'])))) (.call T (Tm.trees es)) 11 false
      (max nd (nd' + 15)) nm' := by
  have h3 := h.need3
  refine item_suf (by omega) ((h.atom hp).app _) ?_ 11 (by omega)
  intro m rest hf _ hm
  obtain ⟨fuel, h1, h2⟩ := h.suf hp m (a ++ '(' :: (Tm.writes g es ++ (lastComma g' (b && !es.isEmpty) ++ ')' :: rest)))
    (.suffix a '(' _ ha (by omega) (by simp)) (fun _ => noDot ha (by decide)) (by omega)
  obtain ⟨fuel, rfl⟩ : ∃ k, fuel = k + 1 := ⟨fuel - 1, by omega⟩
  simp at h1
  refine ⟨fuel, by omega, ?_⟩
  rw [show t ++ (a ++ '(' :: (Tm.writes g es ++ (lastComma g' (b && !es.isEmpty) ++ [')']))) ++ rest =
    t ++ (a ++ '(' :: (Tm.writes g es ++ (lastComma g' (b && !es.isEmpty) ++ ')' :: rest))) by simp, h2]
  conv => lhs; unfold suffixLoop
  have hone : suffixOne (exprP env m) () (a ++ '(' :: (Tm.writes g es ++ (lastComma g' (b && !es.isEmpty) ++ ')' :: rest))) =
      (.ok rest (some (.call (Tm.trees es))), ()) := by
    obtain ⟨m, rfl⟩ : ∃ k, m = k + 2 := ⟨m - 2, by omega⟩
    unfold suffixOne
    refine opt_ok ?_
    rw [alt_err (suffixAttr_err ha (by decide) (by decide)), alt_err (map_err (suffixIndex_err ha (by decide) (by decide)))]
    refine alt_ok (map_ok ?_)
    show exprP env (m + 1) (.args false) () _ = _
    exact args_ok ha h' (by omega) h3' hg hg' b
  rw [pos_bind, bind_ok hone]

/-! ### Prefix operators, filters, binary operators -/

theorem item_unary {nm' : Bool} {a : Str} (ha : Blank a) (op : UnOp) (h : Item env t T pr f nd nm) (hp : 10 ≤ pr) :
    Item env (op.sym ++ (a ++ t)) (.unary op.sym T) 10 false (nd + 1) nm' := by
  have h3 := h.need3
  have hs : StartExpr (op.sym ++ (a ++ t)) := by
    cases op
    · exact ⟨'!', a ++ t, rfl, by simp⟩
    · exact ⟨'-', a ++ t, rfl, by simp⟩
  refine item_pre (by omega) hs ?_
  intro n rest hf hn
  obtain ⟨i, ops, T0, h1, h2, h4, h5⟩ := h.pre hp n rest hf (by omega)
  refine ⟨i, op.sym :: ops, T0, ?_, h2, by rw [h4]; rfl, by simp; omega⟩
  rw [List.append_assoc, List.append_assoc]
  have hop : altTags [c!"!", c!"-"] () (op.sym ++ (a ++ (t ++ rest))) = (.ok (a ++ (t ++ rest)) op.sym, ()) := by
    refine altTags_some _ _ _ (by cases op <;> simp [UnOp.sym]) ?_
    intro u hu
    cases op
    · simp [UnOp.sym] at hu
    · simp [UnOp.sym] at hu
      subst hu
      simp [UnOp.sym]
  have hnw : NoWs (op.sym ++ (a ++ (t ++ rest))) := by cases op <;> exact noWs_cons (by decide)
  have hw := ws_ok (p := altTags [c!"!", c!"-"]) (s := ()) (i := op.sym ++ (a ++ (t ++ rest))) (r := a ++ (t ++ rest))
    (a := op.sym) (s' := ()) (by rw [noWs_drop hnw]; exact hop)
  rw [gap_drop ha (h.start.facts _).1] at hw
  refine many0_cons hw ?_ h1
  cases op <;> simp [UnOp.sym] <;> omega

theorem item_filter {n a : Str} {nm' : Bool} (ha : Blank a) (h : Item env t T pr f nd nm) (hp : 9 ≤ pr) (hn : IsIdent n) :
    Item env (t ++ '|' :: (a ++ n)) (.filter n [T]) 9 true nd nm' := by
  have h3 := h.need3
  refine item_fil h3 (h.start.app _) ?_
  intro m rest hf hm
  obtain ⟨x, hx, hr⟩ := h.fil hp m ('|' :: (a ++ (n ++ rest))) (.filter _ (by omega)) hm
  have hx' := left_close (by decide) hx
  subst hx'
  refine ⟨rest.dropWhile isWsp, .inr ⟨rfl, rfl⟩, fun r' ps hps => ?_⟩
  rw [show t ++ '|' :: (a ++ n) ++ rest = t ++ '|' :: (a ++ (n ++ rest)) by simp]
  refine hr r' ((n, none) :: ps) (many0_cons (r := rest.dropWhile isWsp) ?_ ?_ hps)
  · unfold filterP
    rw [bind_ok char_ok]
    have hw := ws_ok (p := identifier) (s := ()) (i := a ++ (n ++ rest)) (r := rest) (a := n) (s' := ()) (by
      rw [gap_drop ha (noWs_ident hn)]; exact identifier_ok hn (follow_noIdent hf))
    rw [bind_ok hw]
    obtain ⟨m, rfl⟩ : ∃ k, m = k + 1 := ⟨m - 1, by omega⟩
    have ha : exprP env (m + 1) (.args false) () (rest.dropWhile isWsp) = (.err false (rest.dropWhile isWsp) none, ()) := by
      show argsBody (exprP env m) false () _ = _
      unfold argsBody
      rw [pos_bind]
      refine bind_err (ws_err ?_)
      rw [dropWhile_idem]
      exact char_err fun hc => (follow_head hf _ hc).2 (by omega) rfl
    refine (bind_ok (opt_err ha)).trans ?_
    rfl
  · have := (List.dropWhile_suffix (l := rest) isWsp).length_le
    simp
    omega

theorem item_filterArgs {n : Str} {es : List Tm} {nd' : Nat} {nm' : Bool} {a a' : Str} {g g' : Gaps} (ha : Blank a) (ha' : Blank a') (hg : g.Ok)
    (hg' : g'.Ok) (b : Bool) (h : Item env t T pr f nd nm) (hp : 9 ≤ pr)
    (hn : IsIdent n) (h' : AllWhole env es nd') (h3' : 3 ≤ nd') :
    Item env (t ++ '|' :: (a ++ (n ++ (a' ++ '(' :: (Tm.writes g es ++ (lastComma g' (b && !es.isEmpty) ++ [')']))))))
      (.filter n (T :: Tm.trees es)) 9 false (max nd (nd' + 12)) nm' := by
  have h3 := h.need3
  refine item_fil (by omega) (h.start.app _) ?_
  intro m rest hf hm
  obtain ⟨y, hy⟩ : ∃ y, y = '(' :: (Tm.writes g es ++ (lastComma g' (b && !es.isEmpty) ++ ')' :: rest)) := ⟨_, rfl⟩
  obtain ⟨x, hx, hr⟩ := h.fil hp m ('|' :: (a ++ (n ++ (a' ++ y)))) (.filter _ (by omega)) (by omega)
  have hx' := left_close (by decide) hx
  subst hx'
  refine ⟨rest, .inl rfl, fun r' ps hps => ?_⟩
  rw [show t ++ '|' :: (a ++ (n ++ (a' ++ '(' :: (Tm.writes g es ++ (lastComma g' (b && !es.isEmpty) ++ [')']))))) ++ rest =
    t ++ '|' :: (a ++ (n ++ (a' ++ y))) by simp [hy]]
  refine hr r' ((n, some (Tm.trees es)) :: ps) (many0_cons (r := rest) ?_ ?_ hps)
  · unfold filterP
    rw [bind_ok char_ok]
    have hw := ws_ok (p := identifier) (s := ()) (i := a ++ (n ++ (a' ++ y)))
      (r := a' ++ y) (a := n) (s' := ()) (by
        rw [gap_drop ha (noWs_ident hn)]
        exact identifier_ok hn (gap_noIdent ha' (by rw [hy]; intro c hc; simp at hc; subst hc; rfl)))
    rw [gap_drop ha' (by rw [hy]; exact noWs_cons (by decide))] at hw
    rw [bind_ok hw]
    obtain ⟨m, rfl⟩ : ∃ k, m = k + 1 := ⟨m - 1, by omega⟩
    have := args_ok (a := []) (rest := rest) blank_nil h' (by omega : nd' + 12 ≤ m) h3' hg hg' b
    rw [List.nil_append, ← hy] at this
    refine (bind_ok (opt_ok this)).trans ?_
    rfl
  · rw [hy]
    simp
    omega

/-- What stands at the start of an operand does not make an operator longer. -/
theorem start_calm {t : Str} (h : StartExpr t) {g : Str} (hg : Blank g) (r : Str) : CalmHead (g ++ (t ++ r)) := by
  cases g with
  | nil =>
    obtain ⟨c, t', rfl, hc⟩ := h
    intro d hd
    simp at hd
    subst hd
    intro hm
    rcases hc with (hc | rfl | rfl | rfl | rfl | rfl | hc) | rfl | rfl
    · simp at hm
      rcases hm with rfl | rfl | rfl | rfl | rfl <;> simp [identStart, isAsciiAlpha] at hc
    all_goals first
      | (revert hm; decide)
      | (simp at hm; rcases hm with rfl | rfl | rfl | rfl | rfl <;> simp [isDigitR] at hc)
  | cons x g =>
    intro d hd
    simp at hd
    subst hd
    have hw := isWsp_iff.2 (hg x (by simp))
    intro hm
    simp at hm
    rcases hm with rfl | rfl | rfl | rfl | rfl <;> exact absurd hw (by decide)

theorem item_binop {t' a a' : Str} {T' : Expr} {pr' nd' : Nat} {f' nm' nm'' : Bool} (o : BinOp) (ha : Blank a) (ha' : Blank a')
    (h : Item env t T pr f nd nm)
    (hp : o.prec ≤ pr) (h' : Item env t' T' pr' f' nd' nm') (hp' : o.prec + 1 ≤ pr') (hbar : o = .bitor → f = false ∧ a ≠ []) :
    Item env (t ++ (a ++ (o.sym ++ (a' ++ t')))) (.binop o.sym T T') o.prec f' (max nd nd') nm'' := by
  have h3 := h.need3
  have hs : StartExpr (t ++ (a ++ (o.sym ++ (a' ++ t')))) := h.start.app _
  have ho : o.prec < 9 := by cases o <;> decide
  refine item_bin ho (by omega) hs ?_
  intro n rest hf hn
  have hcalm := start_calm h'.start ha' rest
  obtain ⟨x, hx, hr⟩ := h.bin o.prec ho hp n (a ++ (o.sym ++ (a' ++ (t' ++ rest)))) (.op a o _ ha (by omega) hbar hcalm) (by omega)
  obtain ⟨y, hy, hr'⟩ := h'.reads (o.prec + 1) (by omega) hp' n rest hf (by omega)
  refine ⟨y, hy, fun r' ps hps => ?_⟩
  rw [show t ++ (a ++ (o.sym ++ (a' ++ t'))) ++ rest = t ++ (a ++ (o.sym ++ (a' ++ (t' ++ rest)))) by simp]
  refine hr r' ((o.sym, T') :: ps) (many0_cons (r := y) ?_ ?_ hps)
  · unfold binRest
    have hw := ws_ok (p := altTags (layerOps o.prec)) (s := ()) (i := x) (r := a' ++ (t' ++ rest)) (a := o.sym)
      (s' := ()) (by rw [hx.drop, op_drop ha]; exact layer_ok o hcalm)
    rw [gap_drop ha' (h'.start.facts _).1] at hw
    rw [bind_ok hw, operand_eq ho]
    exact (bind_ok hr').trans rfl
  · have e1 : y.length ≤ rest.length := by
      rcases hy with rfl | ⟨_, rfl⟩
      · exact Nat.le_refl _
      · exact (List.dropWhile_suffix (l := rest) isWsp).length_le
    have e2 : rest.length < x.length := by
      have : (x.dropWhile isWsp).length ≤ x.length := (List.dropWhile_suffix (l := x) isWsp).length_le
      rw [hx.drop, op_drop ha] at this
      obtain ⟨c, z, hz, _⟩ := sym_first o
      rw [hz] at this
      simp at this
      omega
    omega

/-! ### Ranges -/

theorem ending_bad {n : Nat} {r : Str} (h : Ending r) (hn : 14 ≤ n) :
    ∃ j m, exprP env n (.bin 0) () (r.dropWhile isWsp) = (.err false j m, ()) := by
  have key : Bad (r.dropWhile isWsp) ∨ ∃ t, r.dropWhile isWsp = '-' :: t := by
    cases hr : r.dropWhile isWsp with
    | nil => exact .inl fun c hc => by simp at hc
    | cons c t =>
      rcases ending_head h c (by rw [hr]; rfl) with hb | rfl
      · exact .inl (bad_cons hb)
      · exact .inr ⟨t, rfl⟩
  rcases key with hb | ⟨t, ht⟩
  · exact pos_bad (env := env) hb 12 0 n (by omega) (by omega)
  · rw [ht]
    exact pos_badMinus (env := env) (ending_minus h ht) 10 0 n (by omega) (by omega)

theorem ending_eq {r : Str} (h : Ending r) : r.head? ≠ some '=' := by
  intro hc
  cases r with
  | nil => simp at hc
  | cons c r =>
    simp at hc
    subst hc
    rcases h with h | ⟨x, u, h, hx⟩ | ⟨d, u, h, h2, h3, h4⟩ | ⟨u, h⟩ | ⟨x, d, u, h, hx, hd⟩
    all_goals rw [noWs_drop (noWs_cons (by decide))] at h
    · simp at h
    · simp at h; rcases hx with rfl | rfl | rfl | rfl <;> simp at h
    · cases d with
      | nil => simp at h2
      | cons y d =>
        simp at h h3
        rw [← h.1] at h3
        exact absurd h3.1 (by decide)
    · simp at h
    · simp at h; rcases hx with rfl | rfl <;> simp at h

theorem dots_ok {incl : Bool} {i : Str} (h : i.head? ≠ some '=') :
    altTags [c!"..=", c!".."] () (dots incl ++ i) = (.ok i (dots incl), ()) := by
  cases incl
  · exact altTags_some _ c!".." i (by simp) (by
      intro u hu
      simp at hu
      subst hu
      cases i with
      | nil => simp [prefix_cons_iff]
      | cons c i =>
        simp at h
        simp [prefix_cons_iff]
        exact fun h' => h h'.symm)
  · exact alt_ok (tag_ok (t := c!"..="))

/-- The part of a range from the dots on: the text, the tree of the end. -/
def ReadsRange (E : Str → Prop) (env : PEnv) (incl : Bool) (t : Str) (T : Option Expr) (f : Bool) (nd : Nat) : Prop :=
  ∀ n rest i, E rest → nd + 11 ≤ n → i.dropWhile isWsp = dots incl ++ (t ++ rest) →
    ∃ x, Left f rest x ∧ rangeRight (exprP env n) () i = (.ok x (dots incl, T), ())

theorem range_open (incl : Bool) (h3 : 3 ≤ nd) : ReadsRange Ending env incl [] none true nd := by
  intro n rest i he hn hi
  refine ⟨_, .inr ⟨rfl, rfl⟩, ?_⟩
  have hw := ws_ok (p := altTags [c!"..=", c!".."]) (s := ()) (i := i) (r := rest) (a := dots incl) (s' := ()) (by
    rw [hi]; exact dots_ok (ending_eq he))
  obtain ⟨j, m, hj⟩ := ending_bad (env := env) (n := n) he (by omega)
  unfold rangeRight
  rw [bind_ok hw]
  exact (bind_ok (opt_err hj)).trans rfl

theorem range_closed {E : Str → Prop} {a : Str} (ha : Blank a) (hE : ∀ r, E r → Ends f r) (incl : Bool) (h : Item env t T pr f nd nm) :
    ReadsRange E env incl (a ++ t) (some T) f nd := by
  intro n rest i he hn hi
  obtain ⟨y, hy, hr⟩ := h.reads 0 (by omega) (by omega) n rest (hE _ he).1 (by omega)
  refine ⟨y, hy, ?_⟩
  have hw := ws_ok (p := altTags [c!"..=", c!".."]) (s := ()) (i := i) (r := a ++ (t ++ rest)) (a := dots incl) (s' := ()) (by
    rw [hi, List.append_assoc]; exact dots_ok fun hc => start_calm h.start ha rest '=' hc (by simp))
  rw [gap_drop ha (h.start.facts _).1] at hw
  unfold rangeRight
  rw [bind_ok hw]
  exact (bind_ok (opt_ok hr)).trans rfl

theorem whole_rangeTo {E : Str → Prop} {incl : Bool} {T : Option Expr} (h3 : 3 ≤ nd) (h : ReadsRange E env incl t T f nd) :
    ReadsBefore E env (dots incl ++ t) (.range (dots incl) none T) f nd where
  need3 := h3
  start := fun r => by cases incl <;> exact noWs_cons (by decide)
  parse := fun n rest he hn => by
    obtain ⟨n, rfl⟩ : ∃ m, n = m + 1 := ⟨n - 1, by omega⟩
    have hnw : NoWs (dots incl ++ t ++ rest) := by cases incl <;> exact noWs_cons (by decide)
    obtain ⟨x, hx, hr⟩ := h n rest (dots incl ++ t ++ rest) he (by omega) (by rw [noWs_drop hnw, List.append_assoc])
    refine ⟨x, hx, ?_⟩
    show parseBody (exprP env n) () _ = _
    unfold parseBody
    refine alt_ok ?_
    rw [bind_ok hr]
    rfl

theorem whole_rangeFrom {E : Str → Prop} {incl : Bool} {t' : Str} {T' : Option Expr} {f' : Bool} {nd' : Nat} {a : Str} (ha : Blank a) (hl : Item env t T pr f nd nm)
    (h : ReadsRange E env incl t' T' f' nd') :
    ReadsBefore E env (t ++ (a ++ (dots incl ++ t'))) (.range (dots incl) (some T) T') f' (max nd nd') where
  need3 := by have := hl.need3; omega
  start := fun r => by rw [List.append_assoc]; exact (hl.start.facts _).1
  parse := fun n rest he hn => by
    obtain ⟨n, rfl⟩ : ∃ m, n = m + 1 := ⟨n - 1, by omega⟩
    rw [show t ++ (a ++ (dots incl ++ t')) ++ rest = t ++ (a ++ (dots incl ++ (t' ++ rest))) by simp]
    have hfol : Follow 0 f (a ++ (dots incl ++ (t' ++ rest))) := by
      cases incl
      · exact .range a (t' ++ rest) ha
      · exact .range a ('=' :: (t' ++ rest)) ha
    obtain ⟨y, hy, hy'⟩ := hl.reads 0 (by omega) (by omega) n _ hfol (by omega)
    obtain ⟨x, hx, hr⟩ := h n rest y he (by omega) (by
      rw [hy.drop, blank_drop ha]
      cases incl <;> exact noWs_drop (noWs_cons (by decide)))
    refine ⟨x, hx, ?_⟩
    show parseBody (exprP env n) () _ = _
    obtain ⟨h1, h2⟩ := hl.start.facts (a ++ (dots incl ++ (t' ++ rest)))
    have hrr : ∃ j m, rangeRight (exprP env n) () (t ++ (a ++ (dots incl ++ (t' ++ rest)))) = (.err false j m, ()) := by
      unfold rangeRight
      refine ex_bind (ex_ws ⟨_, none, tags_head (ts := [c!"..=", c!".."]) fun t ht => ?_⟩)
      rw [noWs_drop h1]
      simp only [List.mem_cons, List.not_mem_nil, or_false] at ht
      rcases ht with rfl | rfl
      · exact ⟨by simp, fun c hc => by simp at hc; subst hc; exact h2⟩
      · exact ⟨by simp, fun c hc => by simp at hc; subst hc; exact h2⟩
    obtain ⟨j, m, hj⟩ := hrr
    unfold parseBody
    rw [alt_err (bind_err hj)]
    refine (bind_ok hy').trans ?_
    rw [bind_ok (opt_ok hr)]
    rfl

end

/-! ### Names -/

theorem isIdent_of_name {n : Str} (h : Name n) : IsIdent n := by
  obtain ⟨⟨c, t, rfl, h1, h2⟩, h3⟩ := h
  refine ⟨by simp, ?_, fun x hx => identCont_iff.2 (h3 x hx)⟩
  unfold identChar at h1
  simp only [List.head?_cons, Option.any_some]
  unfold identStart isAsciiAlpha
  simp only [Bool.or_eq_true, Bool.and_eq_true, decide_eq_true_eq, beq_iff_eq]
  rcases h1 with h | h | h | h | h
  · exact .inl (.inl (.inl h))
  · exact .inl (.inl (.inr h))
  · exact absurd h h2
  · exact .inl (.inr h)
  · exact .inr h

theorem varOk_of_variable {env : PEnv} {n : Str} (h : Variable env.isLower n) : VarOk env n := by
  obtain ⟨h1, h2, h3, h4⟩ := h
  refine ⟨isIdent_of_name h1, ?_, h3, h4⟩
  cases n with
  | nil => rfl
  | cons c n => exact h2 c rfl

/-! ### All expressions -/

/-- Is it a range? -/
def Tm.isRange : Tm → Bool
  | .range _ _ _ => true
  | _ => false

/-- What is known about an expression. -/
def Sem (env : PEnv) (g : Gaps) (e : Tm) : Prop :=
  ReadsWhole env (e.write g) e.tree e.endsFilter e.need ∧
    (Tm.isRange e = false → Item env (e.write g) e.tree e.prec e.endsFilter e.need e.endsNum) ∧
    (e.endsOpen = false → ReadsBefore Word env (e.write g) e.tree e.endsFilter e.need)

theorem sem_item {env : PEnv} {g : Gaps} {e : Tm} (h : Item env (e.write g) e.tree e.prec e.endsFilter e.need e.endsNum) : Sem env g e :=
  ⟨h.whole, fun _ => h, fun _ => h.before fun _ he => he.ends⟩

theorem item_paren {env : PEnv} {g g' : Gaps} (hg' : g'.Ok) {e : Tm} (h : Sem env g e) (q : Nat) (hq : q ≤ 12) :
    ∃ pr, q ≤ pr ∧ Item env (paren g' (e.loose q) (e.write g)) (Spec.group (e.loose q) e.tree) pr
      (!e.loose q && e.endsFilter) (e.need + if e.loose q then 15 else 0) (!e.loose q && e.endsNum) := by
  by_cases hlt : e.loose q = true
  · refine ⟨12, hq, ?_⟩
    simp only [paren, Spec.group, hlt, if_true, Bool.not_true, Bool.false_and]
    exact item_group (hg'.gap 0) (hg'.gap 2) h.1
  · have hlt' : e.loose q = false := by simpa using hlt
    have : Tm.isRange e = false ∧ q ≤ e.prec := by
      cases e <;> simp [Tm.loose, Tm.isRange] at hlt' ⊢ <;> exact hlt'
    refine ⟨e.prec, this.2, ?_⟩
    simp only [paren, Spec.group, hlt', Bool.not_false, Bool.true_and]
    exact h.2.1 this.1

theorem needs3 : ∀ es : List Tm, 3 ≤ Tm.needs es
  | [] => by simp [Tm.needs]
  | e :: es => by have := needs3 es; simp [Tm.needs]; omega

theorem AllWhole.mono {env : PEnv} {es : List Tm} {a b : Nat} (h : AllWhole env es a) (hab : a ≤ b) : AllWhole env es b := by
  intro e he g hg
  obtain ⟨f, d, hd, hw⟩ := h e he g hg
  exact ⟨f, d, by omega, hw⟩

theorem sep_blank {s : Str} (h : Blank s) : Blank (sep s) ∧ sep s ≠ [] := by
  cases s with
  | nil => exact ⟨blank_sp, by simp [sep]⟩
  | cons c s => exact ⟨h, by simp [sep]⟩

mutual
theorem sem_tm {env : PEnv} : ∀ e : Tm, e.Ok env.isLower → ∀ g : Gaps, g.Ok → Sem env g e
  | .var n, h, _, _ => sem_item (item_var (varOk_of_variable h))
  | .num s, h, _, _ => sem_item (item_num h)
  | .str s, h, _, _ => sem_item (item_str h)
  | .chr s, h, _, _ => sem_item (item_chr h)
  | .bool b, h, _, _ => sem_item (item_bool b h.1 h.2)
  | .path root p, h, _, hg => sem_item (item_path hg (fun s hs => isIdent_of_name (h.1 s hs)) h.2)
  | .array es, h, g, hg => sem_item (item_array (hg.sub 0) hg (g.comma []) (sem_list es h) (needs3 es))
  | .tuple es, h, g, hg => sem_item (item_tuple (hg.sub 0) hg (g.comma []) (sem_list es h) (needs3 es))
  | .attr e n, h, g, hg => by
    obtain ⟨pr, h1, h2⟩ := item_paren (hg.sub 1) (sem_tm e h.1 (g.sub 0) (hg.sub 0)) 11 (by omega)
    rcases h.2 with hn | ⟨hn, he⟩
    · exact sem_item (item_attr (hg.gap 0) (hg.gap 2) h2 h1 (isIdent_of_name hn))
    · rw [he, Bool.and_false] at h2
      have := item_attrNum (hg.gap 0) (hg.gap 2) h2 h1 (dec_of_isDigits hn)
      refine sem_item ?_
      rw [show (Tm.attr e n).endsNum = true from hn]
      exact this
  | .index e k, h, g, hg => by
    obtain ⟨pr, h1, h2⟩ := item_paren (hg.sub 1) (sem_tm e h.1 (g.sub 0) (hg.sub 0)) 11 (by omega)
    exact sem_item (item_index (hg.gap 0) (hg.gap 2) (hg.gap 4) h2 h1 (sem_tm k h.2 (g.sub 2) (hg.sub 2)).1)
  | .call e es, h, g, hg => by
    obtain ⟨pr, h1, h2⟩ := item_paren (hg.sub 1) (sem_tm e h.1 (g.sub 0) (hg.sub 0)) 11 (by omega)
    exact sem_item (item_call (hg.gap 2) (hg.sub 2) hg (g.comma []) h2 h1 (sem_list es h.2) (needs3 es))
  | .mac root p args, h, g, hg => by
    refine sem_item ?_
    rcases h.1 with hp | ⟨rfl, n, rfl, hn⟩
    · exact item_mac (nm := false) (hg.gap 0) (hg.gap 2) (item_path (hg.sub 0) (fun s hs => isIdent_of_name (hp.1 s hs)) hp.2) (.inl rfl) h.2
    · have := item_mac (nm := false) (nm' := false) (hg.gap 0) (hg.gap 2) (item_var (varOk_of_variable hn)) (.inr ⟨n, rfl, rfl⟩) h.2
      simpa [Tm.write, pathWrite, segText, Tm.tree, Tm.prec, Tm.endsFilter, Tm.need, Tm.endsNum] using this
  | .parens e, h, g, hg => sem_item (item_group (hg.gap 0) (hg.gap 2) (sem_tm e h (g.sub 0) (hg.sub 0)).1)
  | .try_ e, h, g, hg => by
    obtain ⟨pr, h1, h2⟩ := item_paren (hg.sub 1) (sem_tm e h (g.sub 0) (hg.sub 0)) 11 (by omega)
    exact sem_item (item_try (hg.gap 0) h2 h1)
  | .unary op e, h, g, hg => by
    obtain ⟨pr, h1, h2⟩ := item_paren (hg.sub 1) (sem_tm e h (g.sub 0) (hg.sub 0)) 10 (by omega)
    exact sem_item (item_unary (hg.gap 0) op h2 h1)
  | .filter e n [], h, g, hg => by
    obtain ⟨pr, h1, h2⟩ := item_paren (hg.sub 1) (sem_tm e h.1 (g.sub 0) (hg.sub 0)) 9 (by omega)
    have := item_filter (nm' := false) (hg.gap 2) h2 h1 (isIdent_of_name h.2.1)
    refine sem_item ?_
    simpa [Tm.write, Tm.tree, Tm.trees, Tm.prec, Tm.endsFilter, Tm.need, Tm.endsNum] using this
  | .filter e n (k :: es), h, g, hg => by
    obtain ⟨pr, h1, h2⟩ := item_paren (hg.sub 1) (sem_tm e h.1 (g.sub 0) (hg.sub 0)) 9 (by omega)
    exact sem_item (item_filterArgs (hg.gap 2) (hg.gap 4) (hg.sub 2) hg (g.comma []) h2 h1 (isIdent_of_name h.2.1) (sem_list (k :: es) h.2.2) (needs3 _))
  | .bin op a b, h, g, hg => by
    have ho : op.prec < 9 := by cases op <;> decide
    obtain ⟨pr, h1, h2⟩ := item_paren (hg.sub 1) (sem_tm a h.1 (g.sub 0) (hg.sub 0)) op.prec (by omega)
    obtain ⟨pr', h1', h2'⟩ := item_paren (hg.sub 3) (sem_tm b h.2.1 (g.sub 2) (hg.sub 2)) (op.prec + 1) (by omega)
    refine sem_item (item_binop op (a := if op = .bitor then sep (g.gap 1) else g.gap 1) ?_ (hg.gap 3) h2 h1 h2' h1' ?_)
    · split
      · exact (sep_blank (hg.gap 1)).1
      · exact hg.gap 1
    · rintro rfl
      refine ⟨?_, ?_⟩
      · have := h.2.2 rfl
        simp only [BinOp.prec]
        cases h1 : Tm.loose 3 a <;> cases h2 : a.endsFilter <;> simp_all
      · rw [if_pos rfl]
        exact (sep_blank (hg.gap 1)).2
  | .range incl none none, h, g, hg => by
    refine ⟨?_, fun h => by simp [Tm.isRange] at h, fun h => by simp [Tm.endsOpen] at h⟩
    exact whole_rangeTo (by simp [Tm.need, Tm.endNeed]) (range_open incl (by simp [Tm.need, Tm.endNeed]))
  | .range incl none (some b), h, g, hg => by
    have hgb := hg.sub 1
    obtain ⟨pr, _, h2⟩ := item_paren (hgb.sub 1) (sem_tm b h.2 ((g.sub 1).sub 0) (hgb.sub 0)) 0 (by omega)
    have h3 := h2.need3
    have hm : max (Tm.endNeed none) (Tm.endNeed (some b)) = b.need + if b.loose 0 then 15 else 0 := by
      simp only [Tm.endNeed]; omega
    have key : ∀ E : Str → Prop, (∀ f r, E r → Ends f r) → ReadsBefore E env ((Tm.range incl none (some b)).write g)
        (Tm.range incl none (some b)).tree (Tm.range incl none (some b)).endsFilter (Tm.range incl none (some b)).need := by
      intro E hE
      show ReadsBefore E env _ _ _ (max (Tm.endNeed none) (Tm.endNeed (some b)))
      rw [hm]
      exact whole_rangeTo h3 (range_closed (hgb.gap 1) (hE _) incl h2)
    exact ⟨key _ fun _ _ he => he.ends, fun h => by simp [Tm.isRange] at h, fun _ => key _ fun _ _ he => he.ends⟩
  | .range incl (some a) none, h, g, hg => by
    refine ⟨?_, fun h => by simp [Tm.isRange] at h, fun h => by simp [Tm.endsOpen] at h⟩
    have hga := hg.sub 0
    obtain ⟨pr, _, h2⟩ := item_paren (hga.sub 1) (sem_tm a h.1 ((g.sub 0).sub 0) (hga.sub 0)) 0 (by omega)
    have := whole_rangeFrom (hga.gap 1) h2 (range_open (nd := 3) incl (by omega))
    simpa [Tm.write, Tm.leftText, Tm.rightText, Tm.tree, Tm.endTree, Tm.endsFilter, Tm.need, Tm.endNeed] using this
  | .range incl (some a) (some b), h, g, hg => by
    have hga := hg.sub 0
    have hgb := hg.sub 1
    obtain ⟨pr, _, h2⟩ := item_paren (hga.sub 1) (sem_tm a h.1 ((g.sub 0).sub 0) (hga.sub 0)) 0 (by omega)
    obtain ⟨pr', _, h2'⟩ := item_paren (hgb.sub 1) (sem_tm b h.2 ((g.sub 1).sub 0) (hgb.sub 0)) 0 (by omega)
    have key : ∀ E : Str → Prop, (∀ f r, E r → Ends f r) → ReadsBefore E env ((Tm.range incl (some a) (some b)).write g)
        (Tm.range incl (some a) (some b)).tree (Tm.range incl (some a) (some b)).endsFilter
        (Tm.range incl (some a) (some b)).need := by
      intro E hE
      have := whole_rangeFrom (hga.gap 1) h2 (range_closed (hgb.gap 1) (hE _) incl h2')
      simpa [Tm.write, Tm.leftText, Tm.rightText, Tm.tree, Tm.endTree, Tm.endsFilter, Tm.need, Tm.endNeed] using this
    exact ⟨key _ fun _ _ he => he.ends, fun h => by simp [Tm.isRange] at h, fun _ => key _ fun _ _ he => he.ends⟩
theorem sem_list {env : PEnv} : ∀ es : List Tm, Tm.Oks env.isLower es → AllWhole env es (Tm.needs es)
  | [], _ => fun _ h => by simp at h
  | e :: es, h => by
    have h1 := sem_tm e h.1
    have h2 := sem_list es h.2
    intro x hx g hg
    rcases List.mem_cons.1 hx with rfl | hx
    · exact ⟨_, _, by simp only [Tm.needs]; omega, (h1 g hg).1⟩
    · exact h2.mono (by simp only [Tm.needs]; omega) x hx g hg
end

end Askama
