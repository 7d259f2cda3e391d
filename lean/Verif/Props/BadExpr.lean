import Verif.Props.Stray

/-!
# Expressions that are refused (C69)

At any place in a template: a text in single quotes that is no character, a word after a complete expression, and an
expression tag without end.
-/

namespace Askama.Props

open Spec PT

section

variable {q : Option Msg → Prop} {env : PEnv}

theorem scan_chr {rest : Str} : ∀ {s : Str}, QuoteBody s → escapedScan '\'' (s ++ '\'' :: rest) = some (s, '\'' :: rest)
  | _, .nil => rfl
  | _, .char c h1 h2 h => by
    rename_i s
    have ih := scan_chr (rest := rest) h
    rw [List.cons_append, escapedScan.eq_def]
    split
    · simp_all
    · rename_i heq; injection heq with e1 e2; exact absurd e1 h2
    · rename_i heq; injection heq with e1 e2; exact absurd e1 h2
    · rename_i heq
      injection heq with e1 e2
      subst e1 e2
      rw [if_neg h1, ih]
      rfl
  | _, .escape c h => by
    rename_i s
    have ih := scan_chr (rest := rest) h
    rw [List.cons_append, List.cons_append, escapedScan, ih]
    rfl

theorem takeWhileMN_ok {m n : Nat} {f : Char → Bool} {t r a : Str} (h : (takeWhileMN m n f : P Str) () t = (.ok r a, ())) :
    t = a ++ r ∧ a.all f = true ∧ m ≤ a.length ∧ a.length ≤ n := by
  unfold takeWhileMN at h
  dsimp only at h
  split at h
  · cases h
  · rename_i hl
    injection h with h _
    injection h with h1 h2
    subst h2
    obtain ⟨u, hu⟩ : (t.takeWhile f).take n <+: t := (List.take_prefix _ _).trans (List.takeWhile_prefix _)
    have key : ∀ p, p ++ u = t → t.drop p.length = u := by
      rintro p rfl
      simp
    have := key _ hu
    refine ⟨by rw [← h1, this, hu], ?_, by omega, by simp; omega⟩
    rw [List.all_eq_true]
    intro c hc
    have := List.mem_of_mem_take hc
    exact List.all_eq_true.1 (List.all_takeWhile (p := f) (l := t)) c this

theorem fst_ok {α : Type} {p : P α} {i r : Str} {a : α} (h : (p () i).1 = .ok r a) : p () i = (.ok r a, ()) := by
  rw [← h]

theorem charKind_ok {s : Str} {k : CharKind} (hq : QuoteBody s) (h : (charKind () s).1 = .ok [] k) :
    ChrBody s ∨ (∃ nb, k = .asciiEscape nb ∧ 127 < hexNat nb) ∨ (∃ nb, k = .unicodeEscape nb ∧ 0x10FFFF < hexNat nb) := by
  unfold charKind at h
  split at h
  · rename_i hl
    cases hq with
    | nil => simp at hl
    | escape c h => simp at hl
    | char c h1 h2 h =>
      simp at hl
      subst hl
      exact .inl (.char c h1 h2)
  · cases s with
    | nil => simp [bind, PT.bind, char, satisfy] at h
    | cons x t =>
      by_cases hx : x = '\\'
      · subst hx
        rw [bind_ok char_ok] at h
        cases t with
        | nil => simp [PT.alt, PT.map, oneOf, satisfy, char, tag, bind, PT.bind, List.isPrefixOf] at h
        | cons c t =>
        by_cases hc : c ∈ c!"nrt\\0'\""
        · have : (PT.map (fun _ => CharKind.escaped) (oneOf c!"nrt\\0'\"") : P CharKind) () (c :: t) = (.ok t .escaped, ()) := by
            refine map_ok (a := c) ?_
            unfold oneOf satisfy
            have : (c!"nrt\\0'\"" : Str).contains c = true := by simpa using hc
            simp only [this]
            rfl
          rw [alt_ok this] at h
          simp at h
          obtain ⟨rfl, -⟩ := h
          exact .inl (.escape c hc)
        · have : (PT.map (fun _ => CharKind.escaped) (oneOf c!"nrt\\0'\"") : P CharKind) () (c :: t) = (.err false (c :: t) none, ()) := by
            refine map_err ?_
            unfold oneOf satisfy
            have : (c!"nrt\\0'\"" : Str).contains c = false := by simpa using hc
            simp only [this]
            rfl
          rw [alt_err this] at h
          by_cases hx : c = 'x'
          · subst hx
            have h1 : ∀ {r}, ¬ c!"u{" <+: 'x' :: r := by intro r; simp [prefix_cons_iff]
            cases hm : (takeWhileMN 2 2 (isDigitR 16) : P Str) () t with
            | mk res u =>
              cases res with
              | ok r a =>
                rw [alt_ok (a := .asciiEscape a) (r := r) (s' := ()) (bind_ok char_ok |>.trans (bind_ok hm))] at h
                simp at h
                obtain ⟨rfl, rfl⟩ := h
                obtain ⟨e1, e2, e3, e4⟩ := takeWhileMN_ok hm
                rw [List.append_nil] at e1
                subst e1
                match t, e3, e4 with
                | [a, b], _, _ =>
                  simp only [hexa_eq, List.all_cons, List.all_nil, Bool.and_true, Bool.and_eq_true] at e2
                  by_cases hv : hexaNat [a, b] ≤ 127
                  · exact .inl (.ascii a b e2.1 e2.2 hv)
                  · refine .inr (.inl ⟨_, rfl, ?_⟩)
                    rw [hexNat_eq (by simp [e2])]
                    omega
              | err b j m =>
                have hb : b = false := by
                  unfold takeWhileMN at hm
                  dsimp only at hm
                  split at hm <;> cases hm
                  rfl
                subst hb
                rw [alt_err (bind_ok char_ok |>.trans (bind_err hm)), bind_err (tag_err h1)] at h
                simp at h
              | stuck =>
                unfold takeWhileMN at hm
                dsimp only at hm
                split at hm <;> cases hm
          · rw [alt_err (bind_err (char_err (by simpa using hx)))] at h
            obtain ⟨a, _, j, h1, h2⟩ := bind_inv (fst_ok h)
            obtain ⟨nb, _, j2, h3, h4⟩ := bind_inv h2
            obtain ⟨_, _, j3, h5, h6⟩ := bind_inv h4
            injection h6 with h6 _
            injection h6 with h6 h7
            subst h6 h7
            obtain ⟨e1, e2, e3, e4⟩ := takeWhileMN_ok h3
            have ht : c :: t = c!"u{" ++ j := (tag_inv h1).1
            have hj : j2 = ['}'] := by
              unfold char satisfy at h5
              split at h5
              · split at h5
                · rename_i hd
                  injection h5 with h5 _
                  injection h5 with h5 _
                  simp at hd
                  rw [h5, hd]
                · cases h5
              · cases h5
            subst hj
            simp only [List.cons_append, List.nil_append] at ht
            injection ht with ht1 ht2
            subst ht1 ht2 e1
            simp only [show isDigitR 16 = hexaDigit from funext hexa_eq] at e2
            by_cases hv : hexaNat nb ≤ 0x10FFFF
            · refine .inl (.unicode nb ?_ e4 e2 hv)
              rintro rfl
              simp at e3
            · refine .inr (.inr ⟨_, rfl, ?_⟩)
              rw [hexNat_eq e2]
              omega
      · rw [bind_err (char_err (by simpa using hx))] at h
        simp at h

theorem charLit_refuses {s rest : Str} (hq : QuoteBody s) (hn : ¬ ChrBody s) :
    ∃ j m, charLit () ('\'' :: (s ++ '\'' :: rest)) = (.err true j m, ()) := by
  unfold charLit
  rw [pos_bind, bind_ok char_ok]
  have h1 : PT.opt (escapedBody '\'') () (s ++ '\'' :: rest) =
      (.ok (s ++ '\'' :: rest) none, ()) ∧ s = [] ∨ PT.opt (escapedBody '\'') () (s ++ '\'' :: rest) = (.ok ('\'' :: rest) (some s), ()) := by
    have hs := scan_chr (rest := rest) hq
    cases s with
    | nil =>
      refine .inl ⟨opt_err (j := '\'' :: rest) (m := none) ?_, rfl⟩
      unfold escapedBody
      rw [hs]
      rfl
    | cons c s =>
      refine .inr (opt_ok ?_)
      unfold escapedBody
      rw [hs]
      rfl
  rcases h1 with ⟨h1, rfl⟩ | h1
  · rw [bind_ok h1, List.nil_append, bind_ok char_ok]
    exact ⟨_, _, rfl⟩
  · rw [bind_ok h1, bind_ok char_ok]
    dsimp only
    cases hk : (charKind () s).1 with
    | err c j m => exact ⟨_, _, rfl⟩
    | stuck => exact ⟨_, _, rfl⟩
    | ok r k =>
      cases r with
      | cons x r => exact ⟨_, _, rfl⟩
      | nil =>
        have := charKind_ok hq hk
        cases k with
        | literal => simp [hn] at this
        | escaped => simp [hn] at this
        | asciiEscape nb =>
          simp [hn] at this
          dsimp only
          rw [if_pos this]
          exact ⟨_, _, rfl⟩
        | unicodeEscape nb =>
          simp [hn] at this
          dsimp only
          rw [if_pos this]
          exact ⟨_, _, rfl⟩

/-- A bad character is refused wherever an expression may stand. -/
theorem pos_badChr {s rest : Str} (hq : QuoteBody s) (hn : ¬ ChrBody s) : ∀ d k n, k + d = 12 → 13 ≤ n + k →
    ∃ j m, atPos env n k () ('\'' :: (s ++ '\'' :: rest)) = (.err true j m, ()) := by
  intro d
  induction d with
  | zero =>
    intro k n hk hn'
    obtain rfl : k = 12 := by omega
    obtain ⟨n, rfl⟩ : ∃ m, n = m + 1 := ⟨n - 1, by omega⟩
    obtain ⟨j, m, h⟩ := charLit_refuses (rest := rest) hq hn
    refine ⟨j, m, ?_⟩
    rw [atPos_12]
    unfold singleBody
    obtain ⟨j', m', h1⟩ := numLit_err (i := '\'' :: (s ++ '\'' :: rest)) (by
      intro x hx; simp at hx; subst hx; decide)
    rw [alt_err (map_err h1), alt_err (map_err (strLit_err (by simp)))]
    exact alt_fail (map_err h)
  | succ d ih =>
    intro k n hk hn'
    obtain ⟨n, rfl⟩ : ∃ m, n = m + 1 := ⟨n - 1, by omega⟩
    obtain ⟨j, m, h⟩ := ih (k + 1) n (by omega) (by omega)
    refine ⟨j, m, ?_⟩
    rcases Nat.lt_or_ge k 9 with h9 | h9
    · rw [atPos_bin h9]
      unfold binBody
      rw [operand_eq h9]
      exact bind_err h
    · rcases (by omega : k = 9 ∨ k = 10 ∨ k = 11) with rfl | rfl | rfl
      · rw [atPos_9]
        unfold filteredBody
        exact bind_err h
      · rw [atPos_10]
        unfold prefixBody
        rw [bind_ok (prefixOps_stop (fun x hx => by simp at hx; subst hx; decide))]
        exact bind_err h
      · rw [atPos_11]
        unfold suffixBody
        exact bind_err h

theorem parse_badChr {s rest : Str} (hq : QuoteBody s) (hn : ¬ ChrBody s) {n : Nat} (h : 14 ≤ n) :
    ∃ j m, exprP env n .parse () ('\'' :: (s ++ '\'' :: rest)) = (.err true j m, ()) := by
  obtain ⟨n, rfl⟩ : ∃ m, n = m + 1 := ⟨n - 1, by omega⟩
  show ∃ j m, parseBody (exprP env n) () ('\'' :: (s ++ '\'' :: rest)) = (.err true j m, ())
  have hrr : rangeRight (exprP env n) () ('\'' :: (s ++ '\'' :: rest)) = (.err false ('\'' :: (s ++ '\'' :: rest)) none, ()) := by
    unfold rangeRight
    refine bind_err (ws_err ?_)
    rw [noWs_drop (noWs_cons (by decide))]
    refine tags_head (ts := [c!"..=", c!".."]) fun t ht => ?_
    simp at ht
    rcases ht with rfl | rfl
    · exact ⟨by simp, fun c hc => by simp at hc; subst hc; simp⟩
    · exact ⟨by simp, fun c hc => by simp at hc; subst hc; simp⟩
  obtain ⟨j, m, hj⟩ := pos_badChr (env := env) (rest := rest) hq hn 12 0 n (by omega) (by omega)
  refine ⟨j, m, ?_⟩
  unfold parseBody
  rw [alt_err (bind_err hrr)]
  exact bind_err hj

/-- The parser at an expression that is refused. -/
theorem nodeAlt_refuses {tgt : SP Target} {many : SP (List Node)} {s : PState} {r : Str} [Usable env.syn]
    (h : Refuses q (exprNode env) s (env.syn.exprStart ++ r)) : Refuses q (nodeAlt env tgt many) s (env.syn.exprStart ++ r) := by
  obtain ⟨j, m, s', h, hq⟩ := h
  refine ⟨j, m, s', ?_, hq⟩
  rw [nodeAlt_expr (List.prefix_append _ _) expr_not.1 expr_not.2 (by simp [start_ne (syn := env.syn)])]
  exact alt_fail h

/-- An expression that is followed by `R`, at the end of its tag. -/
theorem exprNode_refuses {w : Lay} {e : Tm} {g R : Str} {s : PState} (h : e.Ok env.isLower)
    (hw : ws (exprHere env) s (e.write (w.g.sub 0) ++ (g ++ R)) = (.ok R e.tree, s)) (hm : NoMark R)
    (hc : Fails (closing env.syn.exprEnd) s R ∧ (∀ m, q m) ∨
      closing env.syn.exprEnd s R = (.ok R false, s) ∧ q (some (.unclosed c!"expression" env.syn.exprEnd))) :
    Refuses q (exprNode env) s (env.syn.exprStart ++ (mark w.l ++ (startGap w e ++ (e.write (w.g.sub 0) ++ (g ++ R))))) := by
  have hgap : Blank (startGap w e) := by
    unfold startGap
    split
    · exact sepB (g := w.g)
    · exact gapB (g := w.g)
  have hmk : PT.opt wsMark s (mark w.l ++ (startGap w e ++ (e.write (w.g.sub 0) ++ (g ++ R)))) =
      (.ok (startGap w e ++ (e.write (w.g.sub 0) ++ (g ++ R))) w.l, s) := by
    cases hl : w.l with
    | some v => exact optMark_some v
    | none =>
      refine optMark_none ?_
      rw [show mark none = [] from rfl, List.nil_append]
      unfold startGap
      split
      · exact sp_noMark (g := w.g)
      · rename_i hd
        exact gap_noMark (gapB (g := w.g)) (expr_noMark (w.ok.sub 0) h (fun he => hd ⟨hl, he⟩) _)
  unfold exprNode
  refine refuses_step tag_ok ?_
  have hc1 : (PT.cut (do
      let pws ← opt wsMark
      let e ← ws (exprHere env)
      pure (pws, e)) : SP (Option Wsp × Expr)) s
        (mark w.l ++ (startGap w e ++ (e.write (w.g.sub 0) ++ (g ++ R)))) = (.ok R (w.l, e.tree), s) := by
    refine cut_ok ?_
    rw [bind_ok hmk]
    have := ws_lead (p := exprHere env) (s := s) (i := e.write (w.g.sub 0) ++ (g ++ R)) hgap
    rw [hw] at this
    rw [bind_ok this]
    rfl
  refine refuses_step hc1 ?_
  dsimp only
  rcases hc with ⟨⟨c, j, m, s', hc⟩, hq⟩ | ⟨hc, hq⟩
  · refine refuses_bind ⟨j, m, s', cut_err (c := c) ?_, hq m⟩
    rw [bind_ok (optMark_none hm)]
    exact bind_err hc
  · refine refuses_step (r := R) (a := (none, false)) (s' := s) (cut_ok ?_) ?_
    · rw [bind_ok (optMark_none hm), bind_ok hc]
      rfl
    · exact ⟨_, _, _, rfl, hq⟩

end

/-- C69. A text in single quotes that is no character, such as `'\x80'`, `'ab'` or `''`, is refused at any place in a template. -/
theorem C69_bad_char (syn : Syntax) (hs : Usable syn) (isLower : Char → Bool) (b : Start) (m : Option Wsp) (g s rest : Str) (hb : b.Ok syn isLower)
    (hd : b.need + 14 ≤ maxDepth) (hg : Blank g) (hq : QuoteBody s) (hn : ¬ ChrBody s) :
    ∃ e, parseTemplate ⟨syn, isLower⟩ (b.text syn ++ (syn.exprStart ++ (mark m ++ (g ++ '\'' :: (s ++ '\'' :: rest))))) = .err e := by
  have := refused_deep (q := fun _ => True) (r := syn.exprStart ++ (mark m ++ (g ++ '\'' :: (s ++ '\'' :: rest)))) hs 14 hb hd (by omega)
    ⟨_, by simp, List.prefix_append _ _⟩ fun st fuel h1 _ => by
      refine nodeAlt_refuses (env := ⟨syn, isLower⟩) ?_
      unfold exprNode
      refine refuses_step tag_ok (refuses_bind (refuses_cut (refuses_step (optMark_ok (gap_noMark hg ⟨by simp, by simp, by simp⟩)) (refuses_bind ?_))))
      have hdr : (g ++ '\'' :: (s ++ '\'' :: rest)).dropWhile isWsp = '\'' :: (s ++ '\'' :: rest) := gap_drop hg (noWs_cons (by decide))
      obtain ⟨j, msg, h⟩ := parse_badChr (env := ⟨syn, isLower⟩) (rest := rest) hq hn (n := maxDepth - st.level) (by omega)
      refine ⟨j, msg, st, ws_err ?_, trivial⟩
      rw [hdr]
      unfold exprHere
      rw [h]
  obtain ⟨e, he, -⟩ := this
  exact ⟨e, he⟩

/-- C69. After a complete expression, a word is refused: `{{ a b }}`. (`endsOpen`: the expression ends with `..`, after which
the word would belong to it.) -/
theorem C69_word_after_expr (syn : Syntax) (hs : Usable syn) (isLower : Char → Bool) (b : Start) (w : Lay) (e : Tm) (g word rest : Str)
    (hb : b.Ok syn isLower) (he : e.Ok isLower) (ho : e.endsOpen = false) (hd : b.need + (e.need + 12) ≤ maxDepth)
    (hg : Blank g) (hne : g ≠ []) (hc : Name word) :
    ∃ err, parseTemplate ⟨syn, isLower⟩
      (b.text syn ++ (syn.exprStart ++ (mark w.l ++ (startGap w e ++ (e.write (w.g.sub 0) ++ (g ++ (word ++ rest))))))) = .err err := by
  have hid := isIdent_of_name hc
  obtain ⟨c, t, hw, hc⟩ : ∃ c t, word ++ rest = c :: t ∧ identStart c = true := by
    cases word with
    | nil => exact absurd rfl hid.1
    | cons c t => exact ⟨c, t ++ rest, rfl, by have := hid.2.1; simpa using this⟩
  have hno : ¬ syn.exprEnd <+: c :: t := by
    obtain ⟨h1, h2, -⟩ := hs.exprEnd
    intro hp
    cases hx : syn.exprEnd with
    | nil => rw [hx] at h1; simp at h1
    | cons x d =>
      rw [hx] at hp h2
      rw [prefix_cons_iff] at hp
      obtain ⟨rfl, -⟩ := hp
      simp only [List.all_cons, Bool.and_eq_true] at h2
      have h3 := h2.1
      unfold outside at h3
      simp only [List.contains_iff_mem, List.mem_cons, List.not_mem_nil, or_false] at h3
      rcases h3 with rfl | rfl | rfl | rfl | rfl | rfl | rfl | rfl | rfl | rfl | rfl | rfl | rfl | rfl | rfl <;> exact absurd hc (by decide)
  have := refused_deep (q := fun _ => True) (r := syn.exprStart ++ (mark w.l ++ (startGap w e ++ (e.write (w.g.sub 0) ++ (g ++ (word ++ rest))))))
    hs (e.need + 12) hb hd (by omega) ⟨_, by simp, List.prefix_append _ _⟩ fun st fuel h1 _ => by
      rw [hw]
      refine nodeAlt_refuses (env := ⟨syn, isLower⟩) (exprNode_refuses (env := ⟨syn, isLower⟩) he ?_ ?_ (.inl ⟨?_, fun _ => trivial⟩))
      · exact wsExpr_word (env := ⟨syn, isLower⟩) (g := w.g.sub 0) he ho h1 ⟨g, c, t, rfl, hg, hne, hc⟩ (gap_drop hg (noWs_cons (start_noWs hc)))
      · refine ⟨?_, ?_, ?_⟩ <;> (simp only [List.head?_cons, ne_eq, Option.some.injEq]; rintro rfl; exact absurd hc (by decide))
      · unfold closing
        have h2 : PT.map (fun _ => false) (ws eof : SP Unit) st (c :: t) = (.err false (c :: t) none, st) := by
          refine map_err (ws_err ?_)
          rw [noWs_drop (noWs_cons (start_noWs hc))]
          rfl
        exact ⟨_, _, _, _, (alt_err (map_err (tag_err hno))).trans h2⟩
  obtain ⟨e, he, -⟩ := this
  exact ⟨e, he⟩

/-- C69. An expression tag that is not closed before the template ends is refused, and the error says so. -/
theorem C69_unclosed_expr (syn : Syntax) (hs : Usable syn) (isLower : Char → Bool) (b : Start) (w : Lay) (e : Tm) (g : Str)
    (hb : b.Ok syn isLower) (he : e.Ok isLower) (hd : b.need + (e.need + 12) ≤ maxDepth) (hg : Blank g) :
    ∃ err, parseTemplate ⟨syn, isLower⟩ (b.text syn ++ (syn.exprStart ++ (mark w.l ++ (startGap w e ++ (e.write (w.g.sub 0) ++ g))))) = .err err ∧
      err.msg = some (.unclosed c!"expression" syn.exprEnd) := by
  refine refused_deep (q := (· = some (.unclosed c!"expression" syn.exprEnd)))
    (r := syn.exprStart ++ (mark w.l ++ (startGap w e ++ (e.write (w.g.sub 0) ++ g))))
    hs (e.need + 12) hb hd (by omega) ⟨_, by simp, List.prefix_append _ _⟩ fun st fuel h1 _ => ?_
  rw [← List.append_nil g]
  refine nodeAlt_refuses (env := ⟨syn, isLower⟩) (exprNode_refuses (env := ⟨syn, isLower⟩) he ?_ ⟨by simp, by simp, by simp⟩ (.inr ⟨?_, rfl⟩))
  · have hdr : (g ++ []).dropWhile isWsp = [] := gap_drop hg (by intro c hc; simp at hc)
    exact wsExpr (env := ⟨syn, isLower⟩) (g := w.g.sub 0) he h1 (.inl hdr) hdr
  · unfold closing
    rw [alt_err (map_err (tag_err (by simp [hs.exprEnd.1, List.prefix_nil]; rintro h; have := hs.exprEnd.1; simp [h] at this)))]
    rfl

example : ∃ e, parseTemplate ⟨Syntax.default, Char.isLower⟩ (deep.text Syntax.default ++ c!"{{ '\\x80' }}") = .err e := by
  refine C69_bad_char _ usable_default _ _ none c!" " c!"\\x80" c!" }}" deep_ok (by decide +kernel) blank_sp
    (.escape 'x' (.char '8' (by decide) (by decide) (.char '0' (by decide) (by decide) .nil))) ?_
  intro h
  cases h with
  | ascii _ _ _ _ h => exact absurd h (by decide)

example : ∃ e, parseTemplate ⟨Syntax.default, Char.isLower⟩ (deep.text Syntax.default ++ c!"{{ a b }}") = .err e :=
  C69_word_after_expr _ usable_default _ _ (.std none none) (.var c!"a") c!" " c!"b" c!" }}" deep_ok (var_b (by decide)) rfl (by decide +kernel)
    blank_sp (by simp) (name_b (by decide))

example : ∃ e, parseTemplate ⟨Syntax.default, Char.isLower⟩ (shallow.text Syntax.default ++ c!"{{ a ") = .err e ∧
    e.msg = some (.unclosed c!"expression" c!"}}") :=
  C69_unclosed_expr _ usable_default _ _ (.std none none) (.var c!"a") c!" " shallow_ok (var_b (by decide)) (by decide +kernel) blank_sp

end Askama.Props
