import Verif.Lemmas.Run
import Verif.Lemmas.ParseNode

/-!
# Raw blocks, comments and end names on known input
-/

namespace Askama

open Spec PT

theorem allWs_iff {w : Str} : AllWs w ↔ Blank w :=
  ⟨fun h c hc => isWsp_iff.1 (h c hc), fun h c hc => isWsp_iff.2 (h c hc)⟩

theorem identCont_iff {c : Char} : identCont c = true ↔ identChar c := by
  have hz : ¬ (c.toNat - 'a'.toNat + 10 < 10) := by omega
  have hZ : ¬ (c.toNat - 'A'.toNat + 10 < 10) := by omega
  unfold identCont identChar isAsciiAlpha isDigitR
  simp only [Bool.or_eq_true, Bool.and_eq_true, decide_eq_true_eq, beq_iff_eq, hz, hZ, and_false, or_false]
  constructor
  · rintro (((h | h) | h) | h)
    · exact h.elim .inl (fun h => .inr (.inl h))
    · exact .inr (.inr (.inl h.1))
    · exact .inr (.inr (.inr (.inl h)))
    · exact .inr (.inr (.inr (.inr h)))
  · rintro (h | h | h | h | h)
    · exact .inl (.inl (.inl (.inl h)))
    · exact .inl (.inl (.inl (.inr h)))
    · refine .inl (.inl (.inr ⟨h, ?_⟩))
      have h1 : c.toNat ≤ '9'.toNat := h.2
      have : '9'.toNat = 57 := rfl
      have : '0'.toNat = 48 := rfl
      omega
    · exact .inl (.inr h)
    · exact .inr h

/-- Not a whitespace marker. -/
def NoMark (i : Str) : Prop := i.head? ≠ some '+' ∧ i.head? ≠ some '-' ∧ i.head? ≠ some '~'

theorem optMark_none {s : PState} {i : Str} (h : NoMark i) : PT.opt wsMark s i = (.ok i none, s) := by
  refine opt_err (j := i) (m := none) ?_
  unfold wsMark
  refine lift_err (u := ()) ?_
  rw [alt_err (map_err (char_err h.1)), alt_err (map_err (char_err h.2.1))]
  exact map_err (char_err h.2.2)

theorem optMark_some {s : PState} {i : Str} (w : Wsp) : PT.opt wsMark s (mark (some w) ++ i) = (.ok i (some w), s) := by
  refine opt_ok ?_
  unfold wsMark
  cases w with
  | preserve => exact lift_ok (u := ()) (alt_ok (map_ok char_ok))
  | suppress =>
    refine lift_ok (u := ()) ?_
    rw [alt_err (map_err (char_err (by simp [mark])))]
    exact alt_ok (map_ok char_ok)
  | minimize =>
    refine lift_ok (u := ()) ?_
    rw [alt_err (map_err (char_err (by simp [mark]))), alt_err (map_err (char_err (by simp [mark])))]
    exact map_ok char_ok

theorem optMark_ok {s : PState} {i : Str} {m : Option Wsp} (h : NoMark i) :
    PT.opt wsMark s (mark m ++ i) = (.ok i m, s) := by
  cases m with
  | none => exact optMark_none h
  | some w => exact optMark_some w

/-- `opt(Whitespace::parse)` always succeeds and splits off a marker. -/
theorem optMark_run (s : PState) (i : Str) : ∃ m r, i = mark m ++ r ∧ PT.opt wsMark s i = (.ok r m, s) := by
  by_cases h1 : i.head? = some '+'
  · cases i with
    | nil => simp at h1
    | cons c i => simp at h1; subst h1; exact ⟨some .preserve, i, rfl, optMark_some .preserve⟩
  by_cases h2 : i.head? = some '-'
  · cases i with
    | nil => simp at h2
    | cons c i => simp at h2; subst h2; exact ⟨some .suppress, i, rfl, optMark_some .suppress⟩
  by_cases h3 : i.head? = some '~'
  · cases i with
    | nil => simp at h3
    | cons c i => simp at h3; subst h3; exact ⟨some .minimize, i, rfl, optMark_some .minimize⟩
  exact ⟨none, i, rfl, optMark_none ⟨h1, h2, h3⟩⟩

theorem kw_ok {s : PState} {k r : Str} (hk : IsIdent k) (hr : NoIdent r) : kw k s (k ++ r) = (.ok r k, s) :=
  lift_ok (u := ()) (keyword_ok hk hr)

theorem takeWhile_blank (i : Str) : ∃ w r, i = w ++ r ∧ Blank w ∧ i.dropWhile isWsp = r ∧ NoWs r := by
  refine ⟨i.takeWhile isWsp, i.dropWhile isWsp, List.takeWhile_append_dropWhile.symm, ?_, rfl, ?_⟩
  · intro c hc; exact isWsp_iff.1 (mem_takeWhile_ch hc)
  · intro c hc; exact dropWhile_head hc

/-- `ws(keyword(k))`: success means white space, the word and no further identifier character. -/
theorem wsKw_run (s : PState) (k i : Str) :
    (∃ w1 w2 r, i = w1 ++ k ++ w2 ++ r ∧ Blank w1 ∧ Blank w2 ∧ NoIdent (w2 ++ r) ∧ NoWs r ∧ ws (kw k) s i = (.ok r k, s)) ∨
    (∃ j m, ws (kw k) s i = (.err false j m, s)) := by
  obtain ⟨w1, r1, h1, hb1, hd1, hn1⟩ := takeWhile_blank i
  have hk := keyword_run k r1
  by_cases h : r1.head?.any identStart = true ∧ r1.takeWhile identCont = k
  · left
    rw [if_pos h] at hk
    obtain ⟨w2, r, h2, hb2, hd2, hn2⟩ := takeWhile_blank (r1.dropWhile identCont)
    refine ⟨w1, w2, r, ?_, hb1, hb2, ?_, hn2, ?_⟩
    · rw [h1]
      have h3 := List.takeWhile_append_dropWhile (p := identCont) (l := r1)
      rw [h.2, h2] at h3
      rw [← h3]
      simp [List.append_assoc]
    · rw [← h2]
      intro c hc
      exact dropWhile_head hc
    · have h4 := ws_ok (p := kw k) (s := s) (i := i) (r := r1.dropWhile identCont) (a := k) (s' := s) (by
        rw [hd1]; exact lift_ok hk)
      rwa [hd2] at h4
  · right
    rw [if_neg h] at hk
    refine ⟨r1, none, ?_⟩
    refine ws_err ?_
    rw [hd1]
    exact lift_err hk

/-- `endraw` succeeds only at an `endraw` tag and otherwise gives a recoverable error. -/
theorem endraw_run (env : PEnv) (s : PState) (i : Str) :
    (∃ r a, endraw env s i = (.ok r a, s) ∧ EndRaw env.syn.blockStart env.syn.blockEnd i) ∨
    (∃ j m, endraw env s i = (.err false j m, s)) := by
  unfold endraw
  by_cases h1 : env.syn.blockStart <+: i
  · obtain ⟨i1, rfl⟩ := h1
    rw [bind_ok tag_ok]
    obtain ⟨m1, i2, rfl, hm1⟩ := optMark_run s i1
    rw [bind_ok hm1]
    rcases wsKw_run s c!"endraw" i2 with ⟨w1, w2, r, rfl, hw1, hw2, hni, hnw, hk⟩ | ⟨j, m, hj⟩
    · rw [bind_ok hk]
      obtain ⟨m2, i3, rfl, hm2⟩ := optMark_run s r
      rw [bind_ok hm2]
      by_cases h2 : env.syn.blockEnd <+: i3
      · obtain ⟨i4, rfl⟩ := h2
        rw [bind_ok (peek_ok tag_ok)]
        left
        exact ⟨_, _, rfl, m1, w1, w2, m2, i4, hw1, hw2, by simp [wordTag, List.append_assoc]⟩
      · right
        exact ⟨_, _, bind_err (peek_err (tag_err h2))⟩
    · right
      exact ⟨j, m, bind_err hj⟩
  · right
    exact ⟨_, _, bind_err (tag_err h1)⟩

theorem noMark_end {d r : Str} (h : CleanEnd d) : NoMark (d ++ r) := by
  obtain ⟨c, t, rfl, _, _, h3, h4, h5⟩ := h
  exact ⟨by simpa using h3, by simpa using h4, by simpa using h5⟩

theorem clean_mark {d r : Str} (h : CleanEnd d) (m : Option Wsp) : NoWs (mark m ++ d ++ r) ∧ NoIdent (mark m ++ d ++ r) := by
  obtain ⟨c, t, rfl, h1, h2, _⟩ := h
  have h1' : isWsp c = false := by
    rw [Bool.eq_false_iff]; intro hh; exact h1 (isWsp_iff.1 hh)
  have h2' : identCont c = false := by
    rw [Bool.eq_false_iff]; intro hh; exact h2 (identCont_iff.1 hh)
  cases m with
  | none => exact ⟨fun x hx => by simp [mark] at hx; rwa [← hx], fun x hx => by simp [mark] at hx; rwa [← hx]⟩
  | some w =>
    cases w <;> exact ⟨fun x hx => by simp [mark] at hx; rw [← hx]; decide,
      fun x hx => by simp [mark] at hx; rw [← hx]; decide⟩

theorem noIdent_ws {w r : Str} (hw : Blank w) (hr : NoIdent r) : NoIdent (w ++ r) := by
  cases w with
  | nil => exact hr
  | cons c w =>
    intro x hx
    simp at hx
    subst hx
    rcases hw c (by simp) with rfl | rfl | rfl | rfl <;> decide

theorem noWs_ident {k r : Str} (hk : IsIdent k) : NoWs (k ++ r) := by
  cases k with
  | nil => exact absurd rfl hk.1
  | cons c k =>
    intro x hx
    simp at hx
    subst hx
    have h1 := hk.2.1
    simp at h1
    rw [Bool.eq_false_iff]
    intro hh
    rcases isWsp_iff.1 hh with rfl | rfl | rfl | rfl <;> exact absurd h1 (by decide)

theorem noMark_ws {w r : Str} (hw : Blank w) (hr : NoMark r) : NoMark (w ++ r) := by
  cases w with
  | nil => exact hr
  | cons c w => rcases hw c (by simp) with rfl | rfl | rfl | rfl <;> simp [NoMark]

theorem noMark_ident {k r : Str} (hk : IsIdent k) : NoMark (k ++ r) := by
  cases k with
  | nil => exact absurd rfl hk.1
  | cons c k =>
    have h1 := hk.2.1
    simp at h1
    refine ⟨?_, ?_, ?_⟩ <;>
    · intro hx
      simp at hx
      subst hx
      exact absurd h1 (by decide)

/-- `ws(keyword(k))` on white space, the word, white space. -/
theorem wsKw_ok {s : PState} {k w1 w2 r : Str} (hk : IsIdent k) (h1 : Blank w1) (h2 : Blank w2) (hr : NoWs r)
    (hi : NoIdent r) : ws (kw k) s (w1 ++ (k ++ (w2 ++ r))) = (.ok r k, s) :=
  ws_run (allWs_iff.2 h1) (noWs_ident hk) (kw_ok hk (noIdent_ws h2 hi)) (allWs_iff.2 h2) hr

/-- `endraw` at an end tag. -/
theorem endraw_ok {env : PEnv} (hend : CleanEnd env.syn.blockEnd) {s : PState} {m1 m2 : Option Wsp} {w1 w2 rest : Str}
    (h1 : Blank w1) (h2 : Blank w2) :
    endraw env s (wordTag env.syn.blockStart env.syn.blockEnd m1 w1 c!"endraw" w2 m2 ++ rest) =
      (.ok (env.syn.blockEnd ++ rest) (m1, m2), s) := by
  have hk : IsIdent c!"endraw" := ⟨by simp, by decide, by decide⟩
  have hc := clean_mark (r := rest) hend m2
  simp only [wordTag, List.append_assoc] at hc ⊢
  unfold endraw
  rw [bind_ok tag_ok, bind_ok (optMark_ok (noMark_ws h1 (noMark_ident hk))), bind_ok (wsKw_ok hk h1 h2 hc.1 hc.2),
    bind_ok (optMark_ok (noMark_end hend)), bind_ok (peek_ok tag_ok)]
  rfl

/-- `skip_till(endraw)` stops at the first `endraw` tag. -/
theorem skipTill_endraw {env : PEnv} {s : PState} {i r : Str} {a : Option Wsp × Option Wsp}
    (he : endraw env s i = (.ok r a, s)) :
    ∀ body, (∀ x y, body = x ++ y → y ≠ [] → ¬ EndRaw env.syn.blockStart env.syn.blockEnd (y ++ i)) →
      skipTill (endraw env) s (body ++ i) = (.ok i (r, a), s) := by
  intro body
  unfold skipTill
  induction body with
  | nil =>
    intro _
    rw [List.nil_append]
    cases i <;> (unfold skipTillGo; rw [he])
  | cons c body ih =>
    intro h
    rw [List.cons_append]
    unfold skipTillGo
    rcases endraw_run env s (c :: (body ++ i)) with ⟨r', a', hr', hend⟩ | ⟨j, m, hj⟩
    · exact absurd hend (h [] (c :: body) rfl (by simp))
    · rw [hj]
      exact ih fun x y hxy hy => h (c :: x) y (by simp [hxy]) hy

/-- A block tag is dispatched on its first word. -/
theorem nodeP_disp {env : PEnv} {tgt : SP Target} {many : SP (List Node)} {s : PState} {p : SP Node} {m1 : Option Wsp}
    {w1 word r : Str} (hw : IsIdent word) (h1 : Blank w1) (hr : NoIdent r)
    (hp : tagParser env tgt many word = some p) :
    nodeP env tgt many s (env.syn.blockStart ++ (mark m1 ++ (w1 ++ (word ++ r)))) =
      (do
        let n ← nested p
        if ← PT.cut (closing env.syn.blockEnd) then pure n
        else do
          let j ← pos
          failAt j (some (.unclosed c!"block" env.syn.blockEnd)) : SP Node) s (mark m1 ++ (w1 ++ (word ++ r))) := by
  unfold nodeP
  rw [pos_bind, bind_ok tag_ok]
  have hpk : (PT.peek (do let _ ← opt wsMark; skipWs; ident) : SP Str) s (mark m1 ++ (w1 ++ (word ++ r))) =
      (.ok (mark m1 ++ (w1 ++ (word ++ r))) word, s) := by
    refine peek_ok (r := r) ?_
    rw [bind_ok (optMark_ok (noMark_ws h1 (noMark_ident hw))), bind_ok skipWs_run,
      dropWhile_ws (allWs_iff.2 h1) (noWs_ident hw)]
    exact lift_ok (identifier_ok hw hr)
  rw [bind_ok hpk, hp]

theorem nest_run {s : PState} {i : Str} (hl : s.level < maxDepth) :
    (nest : SP Unit) s i = (.ok i (), { s with level := s.level + 1 }) := by
  unfold nest
  rw [if_neg (by omega)]

theorem nested_run {p : SP Node} {s : PState} {i : Str} (hl : s.level < maxDepth) :
    nested p s i = ((p { s with level := s.level + 1 } i).1, leave (p { s with level := s.level + 1 } i).2) := by
  unfold nested
  exact bind_ok (f := fun _ s i => ((p s i).1, leave (p s i).2)) (nest_run hl)

theorem nodeP_word {env : PEnv} {tgt : SP Target} {many : SP (List Node)} {s : PState} {p : SP Node} {m1 : Option Wsp}
    {w1 word r : Str} (hw : IsIdent word) (h1 : Blank w1) (hr : NoIdent r)
    (hp : tagParser env tgt many word = some p) (hl : s.level < maxDepth) :
    nodeP env tgt many s (env.syn.blockStart ++ (mark m1 ++ (w1 ++ (word ++ r)))) =
      (match p { s with level := s.level + 1 } (mark m1 ++ (w1 ++ (word ++ r))) with
        | (.ok i n, s') => (do
          if ← PT.cut (closing env.syn.blockEnd) then pure n
          else do
            let j ← pos
            failAt j (some (.unclosed c!"block" env.syn.blockEnd)) : SP Node) (leave s') i
        | (.err c j m, s') => (.err c j m, leave s')
        | (.stuck, s') => (.stuck, leave s')) := by
  rw [nodeP_disp hw h1 hr hp]
  generalize mark m1 ++ (w1 ++ (word ++ r)) = i
  have hne := nested_run (p := p) (i := i) hl
  generalize p { s with level := s.level + 1 } i = x at hne
  match x, hne with
  | (.ok i n, s'), hne => rw [bind_ok hne]
  | (.err c j m, s'), hne => exact bind_err hne
  | (.stuck, s'), hne =>
    show PT.bind (nested p) _ s i = _
    unfold PT.bind
    rw [hne]

/-- Running `Raw` blocks. -/
theorem raw_run {env : PEnv} {tgt : SP Target} {many : SP (List Node)} (hend : CleanEnd env.syn.blockEnd)
    {s : PState} (hl : s.level < maxDepth) {m1 m2 m3 m4 : Option Wsp} {w1 w2 w3 w4 body rest : Str}
    (h1 : Blank w1) (h2 : Blank w2) (h3 : Blank w3) (h4 : Blank w4)
    (hbody : ∀ x y, body = x ++ y → y ≠ [] → ¬ EndRaw env.syn.blockStart env.syn.blockEnd
      (y ++ (wordTag env.syn.blockStart env.syn.blockEnd m3 w3 c!"endraw" w4 m4 ++ rest))) :
    nodeP env tgt many s (wordTag env.syn.blockStart env.syn.blockEnd m1 w1 c!"raw" w2 m2 ++ body ++
      wordTag env.syn.blockStart env.syn.blockEnd m3 w3 c!"endraw" w4 m4 ++ rest) =
    (.ok rest (.raw ⟨m1, m2⟩ (splitWsParts body) ⟨m3, m4⟩), s) := by
  have hk : IsIdent c!"raw" := ⟨by simp, by decide, by decide⟩
  generalize hE : wordTag env.syn.blockStart env.syn.blockEnd m3 w3 c!"endraw" w4 m4 ++ rest = e at hbody
  have hc := clean_mark (r := body ++ e) hend m2
  have hsrc : wordTag env.syn.blockStart env.syn.blockEnd m1 w1 c!"raw" w2 m2 ++ body ++
      wordTag env.syn.blockStart env.syn.blockEnd m3 w3 c!"endraw" w4 m4 ++ rest =
      env.syn.blockStart ++ (mark m1 ++ (w1 ++ (c!"raw" ++ (w2 ++ (mark m2 ++ (env.syn.blockEnd ++ (body ++ e))))))) := by
    rw [← hE]; simp [wordTag, List.append_assoc]
  simp only [List.append_assoc] at hc
  rw [hsrc, nodeP_word (p := rawP env) hk h1 (noIdent_ws h2 hc.2) (by rfl) hl]
  have hraw : ∀ s : PState, rawP env s (mark m1 ++ (w1 ++ (c!"raw" ++ (w2 ++ (mark m2 ++ (env.syn.blockEnd ++ (body ++ e))))))) =
      (.ok (env.syn.blockEnd ++ rest) (.raw ⟨m1, m2⟩ (splitWsParts body) ⟨m3, m4⟩), s) := by
    intro s
    have hen := endraw_ok (env := env) hend (s := s) (m1 := m3) (m2 := m4) (rest := rest) h3 h4
    rw [hE] at hen
    have hsk := skipTill_endraw hen body hbody
    unfold rawP
    rw [bind_ok (optMark_ok (noMark_ws h1 (noMark_ident hk))), bind_ok (wsKw_ok hk h1 h2 hc.1 hc.2)]
    have hcut : (PT.cut do
        let nws1 ← opt wsMark
        let _ ← tag env.syn.blockEnd
        let (contents, j, pws2, nws2) ← consumed (skipTill (endraw env))
        pure (nws1, contents, j, pws2, nws2) : SP (Option Wsp × Str × Str × Option Wsp × Option Wsp)) s
        (mark m2 ++ (env.syn.blockEnd ++ (body ++ e))) = (.ok e (m2, body, env.syn.blockEnd ++ rest, m3, m4), s) := by
      refine cut_ok ?_
      rw [bind_ok (optMark_ok (noMark_end hend)), bind_ok tag_ok, bind_ok (consumed_ok hsk)]
      rfl
    rw [bind_ok hcut]
    rfl
  rw [hraw]
  dsimp only
  have hcl : PT.cut (closing env.syn.blockEnd) (leave { s with level := s.level + 1 }) (env.syn.blockEnd ++ rest) =
      (.ok rest true, leave { s with level := s.level + 1 }) := cut_ok (alt_ok (map_ok tag_ok))
  rw [bind_ok hcl]
  rfl

/-! ### Comments -/

theorem commentTag_run (syn : Syntax) (i : Str) :
    (∃ r, i = syn.commentStart ++ r ∧ commentTag syn () i = (.ok r true, ())) ∨
    (∃ r, i = syn.commentEnd ++ r ∧ ¬ syn.commentStart <+: i ∧ commentTag syn () i = (.ok r false, ())) ∨
    (¬ startsDelim [syn.commentStart, syn.commentEnd] i ∧ ∃ j m, commentTag syn () i = (.err false j m, ())) := by
  unfold commentTag
  by_cases h1 : syn.commentStart <+: i
  · obtain ⟨r, rfl⟩ := h1
    exact .inl ⟨r, rfl, alt_ok (map_ok tag_ok)⟩
  rw [alt_err (map_err (tag_err h1))]
  by_cases h2 : syn.commentEnd <+: i
  · obtain ⟨r, rfl⟩ := h2
    exact .inr (.inl ⟨r, rfl, h1, map_ok tag_ok⟩)
  · refine .inr (.inr ⟨?_, _, _, map_err (tag_err h2)⟩)
    rintro ⟨d, hd, hp⟩
    simp at hd
    rcases hd with rfl | rfl
    · exact h1 hp
    · exact h2 hp

/-- `skip_till(tag)` in a comment. -/
theorem skipTill_comment (syn : Syntax) (i : Str) :
    (∃ t r, i = t ++ syn.commentStart ++ r ∧ Free [syn.commentStart, syn.commentEnd] t (syn.commentStart ++ r) ∧
      skipTill (commentTag syn) () i = (.ok (syn.commentStart ++ r) (r, true), ())) ∨
    (∃ t r, i = t ++ syn.commentEnd ++ r ∧ Free [syn.commentStart, syn.commentEnd] t (syn.commentEnd ++ r) ∧
      ¬ syn.commentStart <+: syn.commentEnd ++ r ∧
      skipTill (commentTag syn) () i = (.ok (syn.commentEnd ++ r) (r, false), ())) ∨
    ((∀ a b, i = a ++ b → ¬ startsDelim [syn.commentStart, syn.commentEnd] b) ∧
      ∃ j m, skipTill (commentTag syn) () i = (.err false j m, ())) := by
  unfold skipTill
  have hfree : ∀ r, Free [syn.commentStart, syn.commentEnd] [] r := by
    intro r a b h hb
    simp at h
    exact absurd h.2 hb
  induction i with
  | nil =>
    rcases commentTag_run syn [] with ⟨r, he, hr⟩ | ⟨r, he, hno, hr⟩ | ⟨hno, j, m, hj⟩
    · refine .inl ⟨[], r, by simpa using he, hfree _, ?_⟩
      unfold skipTillGo; rw [hr, ← he]
    · refine .inr (.inl ⟨[], r, by simpa using he, hfree _, by rwa [← he], ?_⟩)
      unfold skipTillGo; rw [hr, ← he]
    · refine .inr (.inr ⟨?_, ?_⟩)
      · intro a b h
        simp at h
        rwa [h.2]
      · unfold skipTillGo; rw [hj]; exact ⟨_, _, rfl⟩
  | cons c i ih =>
    rcases commentTag_run syn (c :: i) with ⟨r, he, hr⟩ | ⟨r, he, hno, hr⟩ | ⟨hno, j, m, hj⟩
    · refine .inl ⟨[], r, by simpa using he, hfree _, ?_⟩
      unfold skipTillGo; rw [hr, ← he]
    · refine .inr (.inl ⟨[], r, by simpa using he, hfree _, by rwa [← he], ?_⟩)
      unfold skipTillGo; rw [hr, ← he]
    · have hcons : ∀ t r, i = t ++ r → Free [syn.commentStart, syn.commentEnd] t r →
          Free [syn.commentStart, syn.commentEnd] (c :: t) r := by
        intro t r hi hf a b hab hb
        cases a with
        | nil =>
          simp at hab
          subst hab
          rw [List.cons_append, ← hi]
          exact hno
        | cons a0 a =>
          simp at hab
          exact hf a b hab.2 hb
      have hstep : skipTillGo (commentTag syn) () (c :: i) = skipTillGo (commentTag syn) () i := by
        conv => lhs; unfold skipTillGo
        rw [hj]
      rw [hstep]
      rcases ih with ⟨t, r, he, hf, hr⟩ | ⟨t, r, he, hf, hn, hr⟩ | ⟨hall, hr⟩
      · exact .inl ⟨c :: t, r, by simp [he], hcons t _ (by simp [he]) hf, hr⟩
      · exact .inr (.inl ⟨c :: t, r, by simp [he], hcons t _ (by simp [he]) hf, hn, hr⟩)
      · refine .inr (.inr ⟨?_, hr⟩)
        intro a b hab
        cases a with
        | nil => simp at hab; rwa [← hab]
        | cons a0 a => simp at hab; exact hall a b hab.2

/-- `d` enclosing comments end, too. -/
def Closes (o c : Str) : Nat → Str → Str → Prop
  | 0, i, r => CommentTo o c i r
  | d + 1, i, r => ∃ k, CommentTo o c i k ∧ Closes o c d k r

theorem Closes.step {o c : Str} {i k : Str} (h : ∀ r, CommentTo o c k r → CommentTo o c i r) :
    ∀ d r, Closes o c d k r → Closes o c d i r
  | 0, r, hc => h r hc
  | _ + 1, _, ⟨k', h1, h2⟩ => ⟨k', h k' h1, h2⟩

/-- `content` stops at the matching delimiter. -/
theorem commentContent_run (syn : Syntax) : ∀ fuel depth i, i.length < fuel →
    (0 < syn.commentStart.length) → (0 < syn.commentEnd.length) →
    (∃ r, commentContent syn fuel depth () i = (.ok r (), ()) ∧
      Closes syn.commentStart syn.commentEnd depth i r) ∨
    (∃ j m, commentContent syn fuel depth () i = (.err true j m, ())) := by
  intro fuel
  induction fuel with
  | zero => intro depth i h; omega
  | succ fuel ih =>
    intro depth i hlen hs he
    unfold commentContent
    rw [pos_bind]
    rcases skipTill_comment syn i with ⟨t, r, hi, hf, hr⟩ | ⟨t, r, hi, hf, hn, hr⟩ | ⟨hall, j, m, hr⟩
    · rw [bind_ok (opt_ok hr)]
      have hl : r.length < fuel := by rw [hi] at hlen; simp at hlen; omega
      show (∃ r', commentContent syn fuel (depth + 1) () r = _ ∧ _) ∨ (∃ j m, commentContent syn fuel (depth + 1) () r = _)
      rcases ih (depth + 1) r hl hs he with ⟨r', h1, k, h2, h3⟩ | h
      · refine .inl ⟨r', h1, ?_⟩
        subst hi
        exact Closes.step (fun q hq => .nest hf h2 hq) _ _ h3
      · exact .inr h
    · rw [bind_ok (opt_ok hr)]
      have hl : r.length < fuel := by rw [hi] at hlen; simp at hlen; omega
      subst hi
      cases depth with
      | zero => exact .inl ⟨r, rfl, .close hf hn⟩
      | succ depth =>
        show (∃ r', commentContent syn fuel depth () r = _ ∧ _) ∨ (∃ j m, commentContent syn fuel depth () r = _)
        rcases ih depth r hl hs he with ⟨r', h1, h2⟩ | h
        · exact .inl ⟨r', h1, r, .close hf hn, h2⟩
        · exact .inr h
    · rw [bind_ok (opt_err hr)]
      exact .inr ⟨_, _, rfl⟩

/-- `t`, up to the first delimiter, and the rest are determined by the whole. -/
theorem free_unique {ds : List Str} {t t' r r' : Str} (h : t ++ r = t' ++ r') (hf : Free ds t r) (hf' : Free ds t' r')
    (hd : startsDelim ds r) (hd' : startsDelim ds r') : t = t' := by
  rcases List.append_eq_append_iff.1 h with ⟨a, h1, h2⟩ | ⟨a, h1, h2⟩
  · cases a with
    | nil => simpa using h1.symm
    | cons x a => exact absurd (h2 ▸ hd) (hf' t (x :: a) h1 (by simp))
  · cases a with
    | nil => simpa using h1
    | cons x a => exact absurd (h2 ▸ hd') (hf t' (x :: a) h1 (by simp))

theorem Spec.CommentTo.det {o c i r r' : Str} (h : CommentTo o c i r) (h' : CommentTo o c i r') : r = r' := by
  induction h generalizing r' with
  | @close t r hf hn =>
    generalize hi : t ++ c ++ r = i at h'
    cases h' with
    | @close t' r' hf' hn' =>
      rw [List.append_assoc, List.append_assoc] at hi
      have := free_unique hi hf hf' ⟨c, by simp, List.prefix_append _ _⟩ ⟨c, by simp, List.prefix_append _ _⟩
      subst this
      simpa using hi
    | @nest t' i' k' r' hf' h1' h2' =>
      rw [List.append_assoc, List.append_assoc] at hi
      have := free_unique hi hf hf' ⟨c, by simp, List.prefix_append _ _⟩ ⟨o, by simp, List.prefix_append _ _⟩
      subst this
      rw [List.append_cancel_left hi] at hn
      exact absurd (List.prefix_append _ _) hn
  | @nest t j k r hf h1 h2 ih1 ih2 =>
    generalize hi : t ++ o ++ j = i at h'
    cases h' with
    | @close t' r' hf' hn' =>
      rw [List.append_assoc, List.append_assoc] at hi
      have := free_unique hi hf hf' ⟨o, by simp, List.prefix_append _ _⟩ ⟨c, by simp, List.prefix_append _ _⟩
      subst this
      rw [← List.append_cancel_left hi] at hn'
      exact absurd (List.prefix_append _ _) hn'
    | @nest t' i' k' r' hf' h1' h2' =>
      rw [List.append_assoc, List.append_assoc] at hi
      have := free_unique hi hf hf' ⟨o, by simp, List.prefix_append _ _⟩ ⟨o, by simp, List.prefix_append _ _⟩
      subst this
      have hj : j = i' := List.append_cancel_left (List.append_cancel_left hi)
      subst hj
      have := ih1 h1'
      subst this
      exact ih2 h2'

theorem Spec.CommentTo.length {o c i r : Str} (h : CommentTo o c i r) : r.length ≤ i.length := by
  induction h with
  | close => simp; omega
  | nest _ _ _ ih1 ih2 => simp; omega

/-- A closed comment is read to its end. -/
theorem commentContent_closed (syn : Syntax) (hs : 0 < syn.commentStart.length) (he : 0 < syn.commentEnd.length)
    {i r : Str} (h : CommentTo syn.commentStart syn.commentEnd i r) : ∀ fuel depth, i.length < fuel →
    ∃ fuel', r.length < fuel' ∧ commentContent syn fuel depth () i =
      (match depth with
       | 0 => (.ok r (), ())
       | d + 1 => commentContent syn fuel' d () r) := by
  induction h with
  | @close t r hf hn =>
    intro fuel depth hlen
    cases fuel with
    | zero => omega
    | succ fuel =>
      refine ⟨fuel, by simp at hlen; omega, ?_⟩
      have hsk : skipTill (commentTag syn) () (t ++ syn.commentEnd ++ r) = (.ok (syn.commentEnd ++ r) (r, false), ()) := by
        rcases skipTill_comment syn (t ++ syn.commentEnd ++ r) with ⟨t', r', hi, hf', hr⟩ | ⟨t', r', hi, hf', hn', hr⟩ | ⟨hall, _⟩
        · rw [List.append_assoc, List.append_assoc] at hi
          have := free_unique hi hf hf' ⟨syn.commentEnd, by simp, List.prefix_append _ _⟩ ⟨syn.commentStart, by simp, List.prefix_append _ _⟩
          subst this
          rw [List.append_cancel_left hi] at hn
          exact absurd (List.prefix_append _ _) hn
        · rw [hr]
          rw [List.append_assoc, List.append_assoc] at hi
          have := free_unique hi hf hf' ⟨syn.commentEnd, by simp, List.prefix_append _ _⟩ ⟨syn.commentEnd, by simp, List.prefix_append _ _⟩
          subst this
          have := List.append_cancel_left (List.append_cancel_left hi)
          rw [this]
        · exact absurd ⟨syn.commentEnd, by simp, List.prefix_append _ _⟩ (hall t (syn.commentEnd ++ r) (by simp))
      conv => lhs; unfold commentContent
      rw [pos_bind, bind_ok (opt_ok hsk)]
      cases depth with
      | zero => rfl
      | succ d => rfl
  | @nest t i k r hf h1 h2 ih1 ih2 =>
    intro fuel depth hlen
    cases fuel with
    | zero => omega
    | succ fuel =>
      have hsk : skipTill (commentTag syn) () (t ++ syn.commentStart ++ i) = (.ok (syn.commentStart ++ i) (i, true), ()) := by
        rcases skipTill_comment syn (t ++ syn.commentStart ++ i) with ⟨t', r', hi, hf', hr⟩ | ⟨t', r', hi, hf', hn', hr⟩ | ⟨hall, _⟩
        · rw [hr]
          rw [List.append_assoc, List.append_assoc] at hi
          have := free_unique hi hf hf' ⟨syn.commentStart, by simp, List.prefix_append _ _⟩ ⟨syn.commentStart, by simp, List.prefix_append _ _⟩
          subst this
          have := List.append_cancel_left (List.append_cancel_left hi)
          rw [this]
        · rw [List.append_assoc, List.append_assoc] at hi
          have := free_unique hi hf hf' ⟨syn.commentStart, by simp, List.prefix_append _ _⟩ ⟨syn.commentEnd, by simp, List.prefix_append _ _⟩
          subst this
          rw [← List.append_cancel_left hi] at hn'
          exact absurd (List.prefix_append _ _) hn'
        · exact absurd ⟨syn.commentStart, by simp, List.prefix_append _ _⟩ (hall t (syn.commentStart ++ i) (by simp))
      obtain ⟨f1, hf1, e1⟩ := ih1 fuel (depth + 1) (by simp at hlen; omega)
      obtain ⟨f2, hf2, e2⟩ := ih2 f1 depth hf1
      refine ⟨f2, hf2, ?_⟩
      conv => lhs; unfold commentContent
      rw [pos_bind, bind_ok (opt_ok hsk)]
      show commentContent syn fuel (depth + 1) () i = _
      rw [e1]
      exact e2

/-- `Comment::parse` after the opening delimiter and its marker. -/
theorem commentP_closed {env : PEnv} (hs : 0 < env.syn.commentStart.length) (he : 0 < env.syn.commentEnd.length)
    {s : PState} {m : Option Wsp} {i r : Str} (hm : m = none → NoMark i)
    (h : CommentTo env.syn.commentStart env.syn.commentEnd i r) :
    ∃ c, i = c ++ r ∧
      commentP env s (env.syn.commentStart ++ (mark m ++ i)) = (.ok r (⟨m, commentNws env.syn c⟩, c), s) := by
  have hsuf : ∃ c, i = c ++ r := by
    clear hm
    induction h with
    | @close t r _ _ => exact ⟨t ++ env.syn.commentEnd, rfl⟩
    | @nest t j k r _ _ _ ih1 ih2 =>
      obtain ⟨a, rfl⟩ := ih1
      obtain ⟨b, rfl⟩ := ih2
      exact ⟨t ++ env.syn.commentStart ++ a ++ b, by simp⟩
  obtain ⟨c, rfl⟩ := hsuf
  refine ⟨c, rfl, ?_⟩
  obtain ⟨_, _, hcc⟩ := commentContent_closed env.syn hs he h ((c ++ r).length + 1) 0 (by omega)
  unfold commentP
  have hmk : PT.opt wsMark s (mark m ++ (c ++ r)) = (.ok (c ++ r) m, s) := by
    cases m with
    | none => exact optMark_none (hm rfl)
    | some w => exact optMark_some w
  rw [bind_ok tag_ok, bind_ok hmk, pos_bind, bind_ok (recognize_ok (cut_ok (lift_ok hcc)))]
  rfl

/-- `Comment::parse` fails for good on an unclosed comment. -/
theorem commentP_unclosed {env : PEnv} (hs : 0 < env.syn.commentStart.length) (he : 0 < env.syn.commentEnd.length)
    {s : PState} {m : Option Wsp} {i : Str} (hm : m = none → NoMark i)
    (h : ∀ r, ¬ CommentTo env.syn.commentStart env.syn.commentEnd i r) :
    ∃ j msg, commentP env s (env.syn.commentStart ++ (mark m ++ i)) = (.err true j msg, s) := by
  unfold commentP
  have hmk : PT.opt wsMark s (mark m ++ i) = (.ok i m, s) := by
    cases m with
    | none => exact optMark_none (hm rfl)
    | some w => exact optMark_some w
  rcases commentContent_run env.syn (i.length + 1) 0 i (by omega) hs he with ⟨r, _, h2⟩ | ⟨j, msg, hj⟩
  · exact absurd h2 (h r)
  · refine ⟨j, msg, ?_⟩
    rw [bind_ok tag_ok, bind_ok hmk, pos_bind, bind_err (recognize_err (cut_err (lift_err hj)))]

/-! ### Tag words -/

/-- The words a block tag may begin with. -/
def tagWords : List Str :=
  [c!"call", c!"let", c!"set", c!"if", c!"for", c!"match", c!"extends", c!"include", c!"import", c!"block", c!"macro",
   c!"raw", c!"break", c!"continue", c!"filter"]

theorem tagParser_word {env : PEnv} {tgt : SP Target} {many : SP (List Node)} {word : Str} {p : SP Node}
    (hp : tagParser env tgt many word = some p) : word ∈ tagWords := by
  unfold tagParser at hp
  have key : ∀ {c : Prop} [Decidable c] {a : SP Node} {b : Option (SP Node)}, (if c then some a else b) = some p →
      c ∨ b = some p := by
    intro c _ a b h
    by_cases hc : c
    · exact .inl hc
    · rw [if_neg hc] at h; exact .inr h
  rcases key hp with h | hp
  · simp [h, tagWords]
  rcases key hp with h | hp
  · rcases h with h | h <;> simp [h, tagWords]
  rcases key hp with h | hp
  · simp [h, tagWords]
  rcases key hp with h | hp
  · simp [h, tagWords]
  rcases key hp with h | hp
  · simp [h, tagWords]
  rcases key hp with h | hp
  · simp [h, tagWords]
  rcases key hp with h | hp
  · simp [h, tagWords]
  rcases key hp with h | hp
  · simp [h, tagWords]
  rcases key hp with h | hp
  · simp [h, tagWords]
  rcases key hp with h | hp
  · simp [h, tagWords]
  rcases key hp with h | hp
  · simp [h, tagWords]
  rcases key hp with h | hp
  · simp [h, tagWords]
  rcases key hp with h | hp
  · simp [h, tagWords]
  rcases key hp with h | hp
  · simp [h, tagWords]
  · simp at hp

/-- What `Node::parse` does first: it splits off the opening delimiter, a marker, white space and a word. -/
theorem nodeP_split (env : PEnv) (tgt : SP Target) (many : SP (List Node)) (s : PState) (i : Str) :
    (∃ j m, nodeP env tgt many s i = (.err false j m, s)) ∨
    (∃ mk w word rest p, i = env.syn.blockStart ++ (mark mk ++ (w ++ (word ++ rest))) ∧ Blank w ∧ IsIdent word ∧
      NoIdent rest ∧ tagParser env tgt many word = some p) := by
  by_cases h1 : env.syn.blockStart <+: i
  · obtain ⟨i1, rfl⟩ := h1
    obtain ⟨mk, i2, rfl, hmk⟩ := optMark_run s i1
    obtain ⟨w, i3, rfl, hw, hd, hn⟩ := takeWhile_blank i2
    have hid := identifier_run i3
    by_cases h : i3.head?.any identStart = true
    · rw [if_pos h] at hid
      have hpk : (PT.peek (do let _ ← opt wsMark; skipWs; ident) : SP Str) s (mark mk ++ (w ++ i3)) =
          (.ok (mark mk ++ (w ++ i3)) (i3.takeWhile identCont), s) := by
        refine peek_ok (r := i3.dropWhile identCont) ?_
        rw [bind_ok hmk, bind_ok skipWs_run, hd]
        exact lift_ok hid
      cases hp : tagParser env tgt many (i3.takeWhile identCont) with
      | none =>
        left
        unfold nodeP
        rw [pos_bind, bind_ok tag_ok, bind_ok hpk, hp]
        exact ⟨_, _, rfl⟩
      | some p =>
        right
        have h3 := List.takeWhile_append_dropWhile (p := identCont) (l := i3)
        refine ⟨mk, w, i3.takeWhile identCont, i3.dropWhile identCont, p, by rw [h3], hw, ⟨?_, ?_, ?_⟩, ?_, hp⟩
        · intro hnil
          cases i3 with
          | nil => simp at h
          | cons c i3 =>
            simp at h
            rw [List.takeWhile_cons_of_pos (identStart_cont h)] at hnil
            simp at hnil
        · cases i3 with
          | nil => simp at h
          | cons c i3 =>
            simp at h
            rw [List.takeWhile_cons_of_pos (identStart_cont h)]
            simpa using h
        · intro c hc; exact mem_takeWhile_ch hc
        · intro c hc; exact dropWhile_head hc
    · left
      rw [if_neg h] at hid
      have hpk : (PT.peek (do let _ ← opt wsMark; skipWs; ident) : SP Str) s (mark mk ++ (w ++ i3)) =
          (.err false i3 none, s) := by
        refine peek_err ?_
        rw [bind_ok hmk, bind_ok skipWs_run, hd]
        exact lift_err hid
      unfold nodeP
      rw [pos_bind, bind_ok tag_ok, bind_err hpk]
      exact ⟨_, _, rfl⟩
  · left
    unfold nodeP
    rw [pos_bind, bind_err (tag_err h1)]
    exact ⟨_, _, rfl⟩

/-! ### Names of end tags -/

/-- `ws(identifier)`. -/
theorem wsIdent_run (s : PState) (i : Str) :
    (∃ w1 n w2 r, i = w1 ++ n ++ w2 ++ r ∧ Blank w1 ∧ IsIdent n ∧ Blank w2 ∧ NoIdent (w2 ++ r) ∧ NoWs r ∧
      ws ident s i = (.ok r n, s)) ∨
    ((i.dropWhile isWsp).head?.any identStart = false ∧ ∃ j, ws ident s i = (.err false j none, s)) := by
  obtain ⟨w1, r1, h1, hb1, hd1, hn1⟩ := takeWhile_blank i
  have hid := identifier_run r1
  by_cases h : r1.head?.any identStart = true
  · left
    rw [if_pos h] at hid
    obtain ⟨w2, r, h2, hb2, hd2, hn2⟩ := takeWhile_blank (r1.dropWhile identCont)
    have h3 := List.takeWhile_append_dropWhile (p := identCont) (l := r1)
    have hrun : ws ident s i = (.ok r (r1.takeWhile identCont), s) := by
      have h4 := ws_ok (p := ident) (s := s) (i := i) (r := r1.dropWhile identCont) (a := r1.takeWhile identCont) (s' := s) (by
        rw [hd1]; exact lift_ok hid)
      rwa [hd2] at h4
    refine ⟨w1, r1.takeWhile identCont, w2, r, ?_, hb1, ⟨?_, ?_, ?_⟩, hb2, ?_, hn2, hrun⟩
    · rw [h1]
      conv => lhs; rw [← h3, h2]
      simp [List.append_assoc]
    · intro hnil
      cases r1 with
      | nil => simp at h
      | cons c r1 =>
        simp at h
        rw [List.takeWhile_cons_of_pos (identStart_cont h)] at hnil
        simp at hnil
    · cases r1 with
      | nil => simp at h
      | cons c r1 =>
        simp at h
        rw [List.takeWhile_cons_of_pos (identStart_cont h)]
        simpa using h
    · intro c hc; exact mem_takeWhile_ch hc
    · rw [← h2]; intro c hc; exact dropWhile_head hc
  · right
    rw [if_neg h] at hid
    exact ⟨by rw [hd1]; simpa using h, r1, ws_err (by rw [hd1]; exact lift_err hid)⟩

/-- `opt(ws(identifier)` with `check_end_name)`. -/
theorem endName_run (kind name : Str) (s : PState) (i : Str) :
    (∃ w1 n w2 r, i = w1 ++ n ++ w2 ++ r ∧ Blank w1 ∧ IsIdent n ∧ Blank w2 ∧ NoIdent (w2 ++ r) ∧ NoWs r ∧
      ((name = n ∧ endName kind name s i = (.ok r (some n), s)) ∨
       (name ≠ n ∧ endName kind name s i = (.err true i (some (.endName kind name n)), s)))) ∨
    ((i.dropWhile isWsp).head?.any identStart = false ∧ endName kind name s i = (.ok i none, s)) := by
  unfold endName
  rcases wsIdent_run s i with ⟨w1, n, w2, r, hi, hb1, hid, hb2, hni, hnw, hrun⟩ | ⟨hno, j, hj⟩
  · refine .inl ⟨w1, n, w2, r, hi, hb1, hid, hb2, hni, hnw, ?_⟩
    by_cases hn : name = n
    · refine .inl ⟨hn, ?_⟩
      refine opt_ok ?_
      rw [pos_bind, bind_ok hrun, if_pos hn]; rfl
    · refine .inr ⟨hn, ?_⟩
      refine opt_fail ?_
      rw [pos_bind, bind_ok hrun, if_neg hn]; rfl
  · refine .inr ⟨hno, ?_⟩
    refine opt_err (j := j) (m := none) ?_
    rw [pos_bind, bind_err hj]

theorem bind_inv {σ α β : Type} {p : PT σ α} {f : α → PT σ β} {s s' : σ} {i r : Str} {b : β}
    (h : (p >>= f) s i = (.ok r b, s')) : ∃ a s1 j, p s i = (.ok j a, s1) ∧ f a s1 j = (.ok r b, s') := by
  change PT.bind p f s i = _ at h
  unfold PT.bind at h
  generalize p s i = x at h ⊢
  match x, h with
  | (.ok j a, s1), h => exact ⟨a, s1, j, rfl, h⟩

theorem cut_inv {σ α : Type} {p : PT σ α} {s s' : σ} {i r : Str} {a : α}
    (h : PT.cut p s i = (.ok r a, s')) : p s i = (.ok r a, s') := by
  unfold PT.cut at h
  generalize p s i = x at h ⊢
  match x, h with
  | (.ok j a, s1), h => exact h

theorem tag_inv {σ : Type} {t i r a : Str} {s s' : σ} (h : (PT.tag t : PT σ Str) s i = (.ok r a, s')) :
    i = t ++ r ∧ s' = s := by
  by_cases hp : t <+: i
  · obtain ⟨i', rfl⟩ := hp
    rw [tag_ok] at h
    simp only [Prod.mk.injEq, PRes.ok.injEq] at h
    exact ⟨by rw [h.1.1], h.2.symm⟩
  · rw [tag_err hp] at h
    simp at h

/-- The end of a block: `endblock` with the name of the block or without a name. -/
theorem endTagName_inv {env : PEnv} {word kind name : Str} {s s' : PState} {i r : Str} {n : Node}
    {f : Option Wsp → Option Wsp → Node}
    (h : (do
      let pws2 ← endTag env word
      cut do
        let _ ← endName kind name
        let nws2 ← opt wsMark
        pure (f pws2 nws2) : SP Node) s i = (.ok r n, s')) :
    ∃ m1 w1 w2 nm w3 m2, i = env.syn.blockStart ++ mark m1 ++ w1 ++ word ++ w2 ++ nm ++ w3 ++ mark m2 ++ r ∧
      Blank w1 ∧ Blank w2 ∧ Blank w3 ∧ (nm = [] ∨ nm = name ∧ IsIdent nm) ∧
      ((nm = [] ∧ w3 = [] ∧ (mark m2 ++ r).head?.any identStart = false) ∨ NoIdent (w3 ++ (mark m2 ++ r))) ∧
      NoIdent (w2 ++ (nm ++ (w3 ++ (mark m2 ++ r)))) := by
  obtain ⟨m1, s1, j1, h1, h2⟩ := bind_inv h
  unfold endTag at h1
  obtain ⟨_, s2, j2, h3, h4⟩ := bind_inv h1
  obtain ⟨rfl, rfl⟩ := tag_inv h3
  obtain ⟨m1', s3, j3, h5, h6⟩ := bind_inv h4
  obtain ⟨mk, j3', rfl, hmk⟩ := optMark_run s2 j2
  rw [hmk] at h5
  simp only [Prod.mk.injEq, PRes.ok.injEq] at h5
  obtain ⟨⟨rfl, rfl⟩, rfl⟩ := h5
  obtain ⟨_, s4, j4, h7, h8⟩ := bind_inv h6
  rcases wsKw_run s2 word j3' with ⟨w1, w2, r', rfl, hw1, hw2, hni, hnw, hk⟩ | ⟨j, m, hj⟩
  rotate_left
  · rw [hj] at h7; simp at h7
  rw [hk] at h7
  simp only [Prod.mk.injEq, PRes.ok.injEq] at h7
  obtain ⟨⟨rfl, rfl⟩, rfl⟩ := h7
  rw [pure_run] at h8
  simp only [Prod.mk.injEq, PRes.ok.injEq] at h8
  obtain ⟨⟨rfl, rfl⟩, rfl⟩ := h8
  have h2 := cut_inv h2
  obtain ⟨_, s5, j5, h9, h10⟩ := bind_inv h2
  obtain ⟨m2, s6, j6, h11, h12⟩ := bind_inv h10
  obtain ⟨mk2, j6', rfl, hmk2⟩ := optMark_run s5 j5
  rw [hmk2] at h11
  simp only [Prod.mk.injEq, PRes.ok.injEq] at h11
  obtain ⟨⟨rfl, rfl⟩, rfl⟩ := h11
  rw [pure_run] at h12
  simp only [Prod.mk.injEq, PRes.ok.injEq] at h12
  obtain ⟨⟨rfl, _⟩, rfl⟩ := h12
  rcases endName_run kind name s2 r' with ⟨wa, nm, wb, r'', rfl, hwa, hid, hwb, hni', hnw', ⟨hn, hrun⟩ | ⟨hn, hrun⟩⟩ | ⟨hno, hrun⟩
  · rw [hrun] at h9
    simp only [Prod.mk.injEq, PRes.ok.injEq] at h9
    obtain ⟨⟨rfl, _⟩, rfl⟩ := h9
    refine ⟨mk, w1, w2 ++ wa, nm, wb, mk2, by simp [List.append_assoc], hw1, ?_, hwb, .inr ⟨hn.symm, hid⟩, .inr hni', ?_⟩
    · intro c hc
      rcases List.mem_append.1 hc with hc | hc
      · exact hw2 c hc
      · exact hwa c hc
    · simpa [List.append_assoc] using hni
  · rw [hrun] at h9; simp at h9
  · rw [hrun] at h9
    simp only [Prod.mk.injEq, PRes.ok.injEq] at h9
    obtain ⟨⟨rfl, _⟩, rfl⟩ := h9
    refine ⟨mk, w1, w2, [], [], mk2, by simp [List.append_assoc], hw1, hw2, (by intro c hc; simp at hc), .inl rfl,
      .inl ⟨rfl, rfl, ?_⟩, by simpa using hni⟩
    have : (mark mk2 ++ j6').dropWhile isWsp = mark mk2 ++ j6' := by
      cases hh : mark mk2 ++ j6' with
      | nil => rfl
      | cons c t =>
        rw [hh] at hnw
        rw [List.dropWhile_cons_of_neg (by simp [hnw c rfl])]
    rwa [this] at hno

theorem nested_inv {p : SP Node} {s s' : PState} {i r : Str} {n : Node} (h : nested p s i = (.ok r n, s')) :
    ∃ s1 s2, p s1 i = (.ok r n, s2) := by
  unfold nested at h
  obtain ⟨u, s1, j, h1, h2⟩ := bind_inv h
  unfold nest at h1
  by_cases hl : maxDepth ≤ s.level
  · rw [if_pos hl] at h1; simp at h1
  · rw [if_neg hl] at h1
    simp only [Prod.mk.injEq, PRes.ok.injEq] at h1
    obtain ⟨⟨rfl, _⟩, rfl⟩ := h1
    simp only [Prod.mk.injEq] at h2
    exact ⟨_, (p { s with level := s.level + 1 } i).2, by rw [← h2.1]⟩

theorem ok_inj {σ α : Type} {r r' : Str} {a a' : α} {s s' : σ}
    (h : ((PRes.ok r a, s) : PRes α × σ) = (.ok r' a', s')) : r = r' ∧ a = a' ∧ s = s' := by
  simp only [Prod.mk.injEq, PRes.ok.injEq] at h
  exact ⟨h.1.1, h.1.2, h.2⟩

/-- What `BlockDef::parse` accepts after the word `block`. -/
theorem blockP_inv {env : PEnv} {many : SP (List Node)} {s s' : PState} {m : Option Wsp} {w rest r : Str} {n : Node}
    (hw : Blank w) (hrest : NoIdent rest)
    (h : blockP env many s (mark m ++ (w ++ (c!"block" ++ rest))) = (.ok r n, s')) :
    ∃ name w1 w2 m2 body ns w3 s1 s2 e m3 w4 w5 nm w6 m4, n = .blockDef ⟨m, m2⟩ name ns w3 ∧ Blank w1 ∧ Blank w2 ∧
      IsIdent name ∧
      rest = w1 ++ name ++ w2 ++ mark m2 ++ env.syn.blockEnd ++ body ∧
      many s1 body = (.ok e ns, s2) ∧
      e = env.syn.blockStart ++ mark m3 ++ w4 ++ c!"endblock" ++ w5 ++ nm ++ w6 ++ mark m4 ++ r ∧
      Blank w4 ∧ Blank w5 ∧ Blank w6 ∧ (nm = [] ∨ nm = name) := by
  have hk : IsIdent c!"block" := ⟨by simp, by decide, by decide⟩
  unfold blockP at h
  rw [bind_ok (optMark_ok (noMark_ws hw (noMark_ident hk)))] at h
  obtain ⟨w1, r1, rfl, hw1, hd1, hn1⟩ := takeWhile_blank rest
  have hkw : ws (kw c!"block") s (w ++ (c!"block" ++ (w1 ++ r1))) = (.ok r1 c!"block", s) := by
    have := ws_ok (p := kw c!"block") (s := s) (i := w ++ (c!"block" ++ (w1 ++ r1))) (by
      rw [dropWhile_ws (allWs_iff.2 hw) (noWs_ident hk)]
      exact kw_ok hk hrest)
    rwa [hd1] at this
  rw [bind_ok hkw] at h
  obtain ⟨⟨name, m2⟩, s1, j1, h1, h2⟩ := bind_inv h
  have h1 := cut_inv h1
  obtain ⟨name', s3, j3, h3, h4⟩ := bind_inv h1
  rcases wsIdent_run s r1 with ⟨wa, nm, wb, r2, rfl, hwa, hid, hwb, hni, hnw, hrun⟩ | ⟨hno, j, hj⟩
  rotate_left
  · rw [hj] at h3; simp at h3
  rw [hrun] at h3
  obtain ⟨rfl, rfl, rfl⟩ := ok_inj h3
  obtain ⟨m2', s4, j4, h5, h6⟩ := bind_inv h4
  obtain ⟨mk, r3, rfl, hmk⟩ := optMark_run s r2
  rw [hmk] at h5
  obtain ⟨rfl, rfl, rfl⟩ := ok_inj h5
  obtain ⟨_, s5, j5, h7, h8⟩ := bind_inv h6
  obtain ⟨rfl, rfl⟩ := tag_inv h7
  rw [pure_run] at h8
  obtain ⟨rfl, h9, rfl⟩ := ok_inj h8
  simp only [Prod.mk.injEq] at h9
  obtain ⟨rfl, rfl⟩ := h9
  have h2 := cut_inv h2
  obtain ⟨ns, s6, e, h10, h11⟩ := bind_inv h2
  have h11 := cut_inv h11
  have h12 := h11
  obtain ⟨m3, w4, w5, nm', w6, m4, he, hw4, hw5, hw6, hnm, _, _⟩ := endTagName_inv
    (f := fun p q => .blockDef ⟨m, mk⟩ nm ns ⟨p, q⟩) h11
  obtain ⟨p, s7, j7, _, h13⟩ := bind_inv h12
  have h13 := cut_inv h13
  obtain ⟨_, s8, j8, _, h14⟩ := bind_inv h13
  obtain ⟨q, s9, j9, _, h15⟩ := bind_inv h14
  rw [pure_run] at h15
  obtain ⟨_, rfl, _⟩ := ok_inj h15
  refine ⟨nm, w1 ++ wa, wb, mk, j5, ns, ⟨p, q⟩, _, _, e, m3, w4, w5, nm', w6, m4, rfl, ?_, hwb, hid,
    by simp [List.append_assoc], h10, he, hw4, hw5, hw6, hnm.imp id (·.1)⟩
  intro c hc
  rcases List.mem_append.1 hc with hc | hc
  · exact hw1 c hc
  · exact hwa c hc

/-- What `Macro::parse` accepts after the word `macro`. -/
theorem macroP_inv {env : PEnv} {many : SP (List Node)} {s s' : PState} {m : Option Wsp} {w rest r : Str} {n : Node}
    (hw : Blank w) (hrest : NoIdent rest)
    (h : macroP env many s (mark m ++ (w ++ (c!"macro" ++ rest))) = (.ok r n, s')) :
    ∃ name ps w1 x m2 body ns w3 s1 s2 e m3 w4 w5 nm w6 m4, n = .macro ⟨m, m2⟩ name ps ns w3 ∧ Blank w1 ∧
      IsIdent name ∧ name ≠ c!"super" ∧
      rest = w1 ++ name ++ x ∧
      many s1 body = (.ok e ns, s2) ∧
      e = env.syn.blockStart ++ mark m3 ++ w4 ++ c!"endmacro" ++ w5 ++ nm ++ w6 ++ mark m4 ++ r ∧
      Blank w4 ∧ Blank w5 ∧ Blank w6 ∧ (nm = [] ∨ nm = name) := by
  have hk : IsIdent c!"macro" := ⟨by simp, by decide, by decide⟩
  unfold macroP at h
  rw [pos_bind, bind_ok (optMark_ok (noMark_ws hw (noMark_ident hk)))] at h
  obtain ⟨w1, r1, rfl, hw1, hd1, hn1⟩ := takeWhile_blank rest
  have hkw : ws (kw c!"macro") s (w ++ (c!"macro" ++ (w1 ++ r1))) = (.ok r1 c!"macro", s) := by
    have := ws_ok (p := kw c!"macro") (s := s) (i := w ++ (c!"macro" ++ (w1 ++ r1))) (by
      rw [dropWhile_ws (allWs_iff.2 hw) (noWs_ident hk)]
      exact kw_ok hk hrest)
    rwa [hd1] at this
  rw [bind_ok hkw] at h
  obtain ⟨⟨name, ps, m2⟩, s1, j1, h1, h2⟩ := bind_inv h
  have h1 := cut_inv h1
  obtain ⟨name', s3, j3, h3, h4⟩ := bind_inv h1
  rcases wsIdent_run s r1 with ⟨wa, nm, wb, r2, rfl, hwa, hid, hwb, hni, hnw, hrun⟩ | ⟨hno, j, hj⟩
  rotate_left
  · rw [hj] at h3; simp at h3
  rw [hrun] at h3
  obtain ⟨rfl, rfl, rfl⟩ := ok_inj h3
  obtain ⟨ps', s4, j4, h5, h6⟩ := bind_inv h4
  obtain ⟨m2', s5, j5, h7, h8⟩ := bind_inv h6
  obtain ⟨_, s6, j6, h9, h10⟩ := bind_inv h8
  rw [pure_run] at h10
  obtain ⟨rfl, h11, rfl⟩ := ok_inj h10
  simp only [Prod.mk.injEq] at h11
  obtain ⟨rfl, rfl, rfl⟩ := h11
  dsimp only at h2
  by_cases hsup : nm = c!"super"
  · rw [if_pos hsup] at h2; cases h2
  rw [if_neg hsup] at h2
  have h2 := cut_inv h2
  obtain ⟨ns, s6, e, h10, h11⟩ := bind_inv h2
  have h11 := cut_inv h11
  have h12 := h11
  obtain ⟨m3, w4, w5, nm', w6, m4, he, hw4, hw5, hw6, hnm, _, _⟩ := endTagName_inv
    (f := fun p q => .macro ⟨m, m2'⟩ nm (ps'.getD []) ns ⟨p, q⟩) h11
  obtain ⟨p, s7, j7, _, h13⟩ := bind_inv h12
  have h13 := cut_inv h13
  obtain ⟨_, s8, j8, _, h14⟩ := bind_inv h13
  obtain ⟨q, s9, j9, _, h15⟩ := bind_inv h14
  rw [pure_run] at h15
  obtain ⟨_, rfl, _⟩ := ok_inj h15
  refine ⟨nm, ps'.getD [], w1 ++ wa, wb ++ r2, m2', _, ns, ⟨p, q⟩, _, _, e, m3, w4, w5, nm', w6, m4, rfl, ?_, hid, hsup,
    by simp [List.append_assoc], h10, he, hw4, hw5, hw6, hnm.imp id (·.1)⟩
  intro c hc
  rcases List.mem_append.1 hc with hc | hc
  · exact hw1 c hc
  · exact hwa c hc

end Askama
