import Verif.Lemmas.DocArgs
import Verif.Props.ParseTags
import Verif.Props.Prec

/-!
# Tags are read as they are written (C66)
-/

namespace Askama

open Spec PT Props

/-- The template can be written with these delimiters. -/
abbrev Std (env : PEnv) : Prop := Usable env.syn

section

variable {syn : Syntax} [hu : Usable syn]

theorem start_ne : syn.blockStart ≠ [] ∧ syn.exprStart ≠ [] ∧ syn.commentStart ≠ [] :=
  ⟨(hu.start _ (by simp)).1, (hu.start _ (by simp)).1, (hu.start _ (by simp)).1⟩

theorem app_noWs {d : Str} (h : d ≠ [] ∧ ∀ c ∈ d, ¬ isBlank c) (r : Str) : NoWs (d ++ r) := by
  cases d with
  | nil => exact absurd rfl h.1
  | cons c d =>
    refine noWs_cons ?_
    cases hc : isWsp c with
    | false => rfl
    | true => exact absurd (isWsp_iff.1 hc) (h.2 c (by simp))

theorem blockStart_noWs {r : Str} : NoWs (syn.blockStart ++ r) := app_noWs (hu.start _ (by simp)) r

theorem app_not {a b : Str} (h : ¬ a <+: b ∧ ¬ b <+: a) {r : Str} : ¬ a <+: b ++ r := by
  intro hp
  rcases List.prefix_or_prefix_of_prefix hp (List.prefix_append b r) with h' | h'
  · exact h.1 h'
  · exact h.2 h'

theorem block_not {r : Str} : ¬ syn.commentStart <+: syn.blockStart ++ r ∧ ¬ syn.exprStart <+: syn.blockStart ++ r :=
  ⟨app_not (hu.distinct (syn.blockStart, syn.commentStart) (by simp)).symm,
    app_not (hu.distinct (syn.blockStart, syn.exprStart) (by simp)).symm⟩

theorem expr_not {r : Str} : ¬ syn.blockStart <+: syn.exprStart ++ r ∧ ¬ syn.commentStart <+: syn.exprStart ++ r :=
  ⟨app_not (hu.distinct (syn.blockStart, syn.exprStart) (by simp)),
    app_not (hu.distinct (syn.exprStart, syn.commentStart) (by simp)).symm⟩

theorem comment_not {r : Str} : ¬ syn.blockStart <+: syn.commentStart ++ r ∧ ¬ syn.exprStart <+: syn.commentStart ++ r :=
  ⟨app_not (hu.distinct (syn.blockStart, syn.commentStart) (by simp)),
    app_not (hu.distinct (syn.exprStart, syn.commentStart) (by simp))⟩

end

variable {syn : Syntax} [hu : Usable syn]

/-! ### The end of a tag -/

/-- A layout with nothing but white space. -/
class GapsOk (g : Gaps) : Prop where
  ok : g.Ok

instance {w : Lay} : GapsOk w.g := ⟨w.ok⟩

instance {g : Gaps} [h : GapsOk g] {i : Nat} : GapsOk (g.sub i) := ⟨h.ok.sub i⟩

section
variable {g : Gaps} [hg : GapsOk g]

theorem gapB {k : Nat} : Blank (g.gap k) := hg.ok.gap k

theorem sepB {k : Nat} : Blank (sep (g.gap k)) := (sep_blank gapB).1

theorem sep_head {k : Nat} (r : Str) : ∃ c r', sep (g.gap k) ++ r = c :: r' ∧ isWsp c = true :=
  blank_head sepB (sep_blank gapB).2

theorem sp_noIdent {k : Nat} {r : Str} : NoIdent (sep (g.gap k) ++ r) := by
  obtain ⟨c, r', h, hc⟩ := sep_head (g := g) (k := k) r
  rw [h]
  intro d hd
  simp at hd
  subst hd
  rcases isWsp_iff.1 hc with rfl | rfl | rfl | rfl <;> decide

theorem sp_noMark {k : Nat} {r : Str} : NoMark (sep (g.gap k) ++ r) := by
  obtain ⟨c, r', h, hc⟩ := sep_head (g := g) (k := k) r
  rw [h]
  rcases isWsp_iff.1 hc with rfl | rfl | rfl | rfl <;> exact ⟨by simp, by simp, by simp⟩

end

/-- What remains of a tag after its last word. -/
def tagEnd (syn : Syntax) (w : Lay) (r : Str) : Str := w.g.gap 3 ++ (mark w.r ++ (syn.blockEnd ++ r))

omit hu in
theorem tagText_eq (w : Lay) (inner rest : Str) :
    tagText syn w inner ++ rest = syn.blockStart ++ (mark w.l ++ (w.g.gap 1 ++ (inner ++ tagEnd syn w rest))) := by
  simp [tagText, tagEnd]

theorem closing_cons {d : Str} (h : Closing d) : ∃ c t, d = c :: t ∧ outside c = true := by
  obtain ⟨h1, h2, _⟩ := h
  cases d with
  | nil => simp at h1
  | cons c t => simp at h2; exact ⟨c, t, rfl, h2.1⟩

theorem closing_ne {d : Str} (h : Closing d) : d ≠ [] := by
  obtain ⟨c, t, rfl, _⟩ := closing_cons h
  simp

/-- How the end of a tag begins. -/
theorem ends_head {d : Str} (hd : Closing d) (m : Option Wsp) (r : Str) : ∃ c t, mark m ++ (d ++ r) = c :: t ∧
    c ∈ c!"+-~%}]>#@$^/\\;<&*`" := by
  cases m with
  | none =>
    obtain ⟨c, t, rfl, hc⟩ := closing_cons hd
    refine ⟨c, _, rfl, ?_⟩
    simp only [outside, List.contains_iff_mem] at hc
    exact List.mem_append_right ['+', '-', '~'] hc
  | some w => cases w <;> exact ⟨_, _, rfl, by simp⟩

theorem head_facts {c : Char} (h : c ∈ c!"+-~%}]>#@$^/\\;<&*`") : isWsp c = false ∧ identCont c = false ∧
    (c ≠ '(' ∧ c ≠ '{' ∧ c ≠ ':' ∧ c ≠ '.') ∧ c ≠ '=' ∧ c ≠ ',' ∧ c ≠ '"' ∧ c ≠ '|' := by
  revert h
  revert c
  decide

theorem ends_noWs {d : Str} (hd : Closing d) {m : Option Wsp} {r : Str} : NoWs (mark m ++ (d ++ r)) := by
  obtain ⟨c, t, h, hc⟩ := ends_head hd m r
  rw [h]
  exact noWs_cons (head_facts hc).1

theorem ends_noMark {d : Str} (hd : Closing d) {r : Str} : NoMark (d ++ r) := by
  obtain ⟨c, t, rfl, hc⟩ := closing_cons hd
  have : c ≠ '-' ∧ c ≠ '+' ∧ c ≠ '~' := by
    revert hc
    simp only [outside, List.contains_iff_mem]
    clear hd
    revert c
    decide
  exact ⟨by simp [this], by simp [this], by simp [this]⟩

theorem ends_ending {d : Str} (hd : Closing d) {m : Option Wsp} {r : Str} {i : Str} (h : i.dropWhile isWsp = mark m ++ (d ++ r)) :
    Ending i := by
  refine .inr (.inr ?_)
  rw [h]
  obtain ⟨c, t, rfl, hc⟩ := closing_cons hd
  cases m with
  | none => exact .inl ⟨c :: t, r, rfl, hd⟩
  | some w =>
    cases w
    · exact .inr (.inr ⟨_, _, _, rfl, .inr rfl, hc⟩)
    · exact .inr (.inr ⟨_, _, _, rfl, .inl rfl, hc⟩)
    · exact .inr (.inl ⟨_, rfl⟩)

theorem close_head (m : Option Wsp) (r : Str) : ∃ c t, mark m ++ (syn.blockEnd ++ r) = c :: t ∧
    c ∈ c!"+-~%}]>#@$^/\\;<&*`" := ends_head hu.blockEnd m r

theorem close_noWs {m : Option Wsp} {r : Str} : NoWs (mark m ++ (syn.blockEnd ++ r)) := ends_noWs hu.blockEnd

theorem close_noIdent {m : Option Wsp} {r : Str} : NoIdent (mark m ++ (syn.blockEnd ++ r)) := by
  obtain ⟨c, t, h, hc⟩ := close_head (syn := syn) m r
  rw [h]
  intro d hd
  simp at hd
  subst hd
  exact (head_facts hc).2.1

theorem close_takeWhile {m : Option Wsp} {r : Str} : (mark m ++ (syn.blockEnd ++ r)).takeWhile identCont = [] := by
  obtain ⟨c, t, h, hc⟩ := close_head (syn := syn) m r
  rw [h, List.takeWhile_cons, (head_facts hc).2.1]
  rfl

theorem tagEnd_noIdent {w : Lay} {r : Str} : NoIdent (tagEnd syn w r) := gap_noIdent gapB close_noIdent

theorem tagEnd_drop {w : Lay} {r : Str} : (tagEnd syn w r).dropWhile isWsp = mark w.r ++ (syn.blockEnd ++ r) :=
  gap_drop gapB close_noWs

theorem tagEnd_ending {w : Lay} {r : Str} : Ending (tagEnd syn w r) := ends_ending hu.blockEnd tagEnd_drop

theorem ptEnd_of {r : Str} {c : Char} {t : Str} (hn : NoIdent r) (hd : r.dropWhile isWsp = c :: t)
    (hc : c ≠ '(' ∧ c ≠ '{' ∧ c ≠ ':' ∧ c ≠ '.') (hi : identCont c = false) : PtEnd r where
  noIdent := hn
  head := by rw [hd]; intro d h; simp at h; subst h; exact hc
  with_ := by rw [hd]; simp [hi]
  or_ := by
    rw [hd]
    rintro ⟨t', h⟩
    simp at h
    rw [← h.1] at hi
    exact absurd hi (by decide)

theorem tagEnd_ptEnd {w : Lay} {r : Str} : PtEnd (tagEnd syn w r) := by
  obtain ⟨c, t, h, hc⟩ := close_head (syn := syn) w.r r
  exact ptEnd_of tagEnd_noIdent (by rw [tagEnd_drop, h]) (head_facts hc).2.2.1 (head_facts hc).2.1

section
variable {g : Gaps} [hg : GapsOk g] {i j : Nat}

theorem eq_drop {r : Str} : (g.gap i ++ '=' :: r).dropWhile isWsp = '=' :: r := gap_drop gapB (noWs_cons (by decide))

theorem eq_ptEnd {r : Str} : PtEnd (g.gap i ++ '=' :: r) :=
  ptEnd_of (c := '=') (t := r) (gap_noIdent gapB (by intro c hc; simp at hc; subst hc; decide)) eq_drop (by decide) (by decide)

theorem in_drop {r : Str} : (sep (g.gap i) ++ (c!"in" ++ r)).dropWhile isWsp = c!"in" ++ r :=
  gap_drop sepB (noWs_cons (by decide))

theorem in_ptEnd {r : Str} : PtEnd (sep (g.gap i) ++ (c!"in" ++ (sep (g.gap j) ++ r))) where
  noIdent := sp_noIdent
  head := by
    rw [in_drop]
    intro c hc
    simp at hc
    subst hc
    decide
  with_ := by
    rw [in_drop, (takeWhile_ident (by decide) sp_noIdent).1]
    decide
  or_ := by
    rw [in_drop]
    rintro ⟨t, h⟩
    simp at h

end

variable {s : PState}

theorem ident_noMark {k r : Str} (hk : IsIdent k) : NoMark (k ++ r) := by
  obtain ⟨c, n, rfl, hc⟩ := ident_start hk
  exact ⟨by simpa using identStart_ne hc rfl, by simpa using identStart_ne hc rfl, by simpa using identStart_ne hc rfl⟩

theorem gap_noMark {b r : Str} (hb : Blank b) (hr : NoMark r) : NoMark (b ++ r) := by
  cases b with
  | nil => exact hr
  | cons c b =>
    rcases hb c (by simp) with rfl | rfl | rfl | rfl <;> exact ⟨by simp, by simp, by simp⟩

theorem markStart {m : Option Wsp} {b k r : Str} (hb : Blank b) (hk : IsIdent k) :
    PT.opt wsMark s (mark m ++ (b ++ (k ++ r))) = (.ok (b ++ (k ++ r)) m, s) :=
  optMark_ok (gap_noMark hb (ident_noMark hk))

theorem markClose {m : Option Wsp} {r : Str} : PT.opt wsMark s (mark m ++ (syn.blockEnd ++ r)) = (.ok (syn.blockEnd ++ r) m, s) :=
  optMark_ok (ends_noMark hu.blockEnd)

/-- A word. -/
theorem kwWs {b b2 k r : Str} (hb : Blank b) (hk : IsIdent k) (hn : NoIdent (b2 ++ r)) (h2 : Blank b2) (hr : NoWs r) :
    ws (kw k) s (b ++ (k ++ (b2 ++ r))) = (.ok r k, s) :=
  ws_run (allWs_iff.2 hb) (noWs_ident hk) (kw_ok hk hn) (allWs_iff.2 h2) hr

section
variable {g : Gaps} [hg : GapsOk g] {i j : Nat}

/-- A word in the middle of a tag. -/
theorem kwSp {b k r : Str} (hb : Blank b) (hk : IsIdent k) (hr : NoWs r) :
    ws (kw k) s (b ++ (k ++ (sep (g.gap j) ++ r))) = (.ok r k, s) :=
  kwWs hb hk sp_noIdent sepB hr

/-- ... without white space before it. -/
theorem kwSp' {k r : Str} (hk : IsIdent k) (hr : NoWs r) :
    ws (kw k) s (k ++ (sep (g.gap j) ++ r)) = (.ok r k, s) := kwSp (b := []) blank_nil hk hr

theorem quote_noIdent {r : Str} : NoIdent (g.gap j ++ '"' :: r) := gap_noIdent gapB (by intro c hc; simp at hc; subst hc; decide)

/-- A word before a string. -/
theorem kwStr {b k r : Str} (hb : Blank b) (hk : IsIdent k) :
    ws (kw k) s (b ++ (k ++ (g.gap j ++ '"' :: r))) = (.ok ('"' :: r) k, s) :=
  kwWs hb hk quote_noIdent gapB (noWs_cons (by decide))

end

/-- The last word of a tag. -/
theorem kwEnd {b k r : Str} {w : Lay} (hb : Blank b) (hk : IsIdent k) :
    ws (kw k) s (b ++ (k ++ tagEnd syn w r)) = (.ok (mark w.r ++ (syn.blockEnd ++ r)) k, s) :=
  kwWs hb hk tagEnd_noIdent gapB close_noWs

/-- Another word. -/
theorem kwOther {b k k' r : Str} (hb : Blank b) (hk : IsIdent k') (hr : NoIdent r) (h : k' ≠ k) :
    ∃ j m, ws (kw k) s (b ++ (k' ++ r)) = (.err false j m, s) := by
  refine wsKw_no (.inl rfl) ?_
  rw [gap_drop hb (noWs_ident hk), (takeWhile_ident hk.2.2 hr).1]
  exact h

/-- No word. -/
theorem kwClose {k r : Str} {m : Option Wsp} (h : k ≠ []) :
    ∃ j m', ws (kw k) s (mark m ++ (syn.blockEnd ++ r)) = (.err false j m', s) := by
  refine wsKw_no (.inl rfl) ?_
  rw [noWs_drop close_noWs, close_takeWhile]
  exact Ne.symm h

/-- A name. -/
theorem wsIdent {n b r : Str} (hn : IsIdent n) (hi : NoIdent (b ++ r)) (hb : Blank b) (hr : NoWs r) : ws ident s (n ++ (b ++ r)) = (.ok r n, s) :=
  ws_run (w := []) (by intro c hc; simp at hc) (noWs_ident hn) (ident_ok hn hi) (allWs_iff.2 hb) hr

theorem wsIdentEnd {n r : Str} {w : Lay} (hn : IsIdent n) :
    ws ident s (n ++ tagEnd syn w r) = (.ok (mark w.r ++ (syn.blockEnd ++ r)) n, s) := wsIdent hn tagEnd_noIdent gapB close_noWs

variable {env : PEnv} {g : Gaps} [hg : GapsOk g]

/-- An expression before the end of a tag. -/
theorem wsExpr {e : Tm} (h : e.Ok env.isLower) (hl : s.level + (e.need + 12) ≤ maxDepth) {r r' : Str} (hE : Ending r)
    (hr : r.dropWhile isWsp = r') :
    ws (exprHere env) s (e.write g ++ r) = (.ok r' e.tree, s) := by
  have hi := (sem_tm (env := env) e h g hg.ok).1
  obtain ⟨x, hx, hrun⟩ := hi.parse (maxDepth - s.level) r hE (by omega)
  rw [ws_ok (r := x) (a := e.tree) (s' := s), hx.drop, hr]
  rw [noWs_drop (hi.start _)]
  unfold exprHere
  rw [hrun]

/-- ... before another word. -/
theorem wsExpr_word {e : Tm} (h : e.Ok env.isLower) (ho : e.endsOpen = false) (hl : s.level + (e.need + 12) ≤ maxDepth)
    {r r' : Str} (hE : Word r) (hr : r.dropWhile isWsp = r') :
    ws (exprHere env) s (e.write g ++ r) = (.ok r' e.tree, s) := by
  have hi := (sem_tm (env := env) e h g hg.ok).2.2 ho
  obtain ⟨x, hx, hrun⟩ := hi.parse (maxDepth - s.level) r hE (by omega)
  rw [ws_ok (r := x) (a := e.tree) (s' := s), hx.drop, hr]
  rw [noWs_drop (hi.start _)]
  unfold exprHere
  rw [hrun]

theorem tm_noWs {e : Tm} (h : e.Ok env.isLower) (r : Str) : NoWs (e.write g ++ r) := (sem_tm (env := env) e h g hg.ok).1.start r

theorem pt_noWs {p : Pt} (h : p.Ok env.isLower) (r : Str) : NoWs (p.write g ++ r) := (sem_pt (env := env) p h g hg.ok).start.noWs r

/-- A pattern. -/
theorem wsTarget {p : Pt} (h : p.Ok env.isLower) (hl : s.level + p.need ≤ maxDepth) {r r' : Str} (hE : PtEnd r)
    (hr : r.dropWhile isWsp = r') :
    ws (target env nestFuel) s (p.write g ++ r) = (.ok r' p.tree, s) := by
  obtain ⟨x, hx, hrun⟩ := (sem_pt (env := env) p h g hg.ok).pt nestFuel s r (by unfold nestFuel; omega) hl hE
  rw [ws_ok (r := x) (a := p.tree) (s' := s), hx.drop, hr]
  rw [noWs_drop (pt_noWs h _)]
  exact hrun

theorem wsEq {i : Nat} {r : Str} (hr : NoWs r) : (ws (char '=') : SP Char) s ('=' :: (g.gap i ++ r)) = (.ok r '=', s) :=
  ws_run (w := []) (i := '=' :: (g.gap i ++ r)) (by intro c hc; simp at hc) (noWs_cons (by decide)) char_ok (allWs_iff.2 gapB) hr

/-! ### Conditions -/

theorem isIdent_let : IsIdent c!"let" := ⟨by simp, by decide, by decide⟩

theorem isIdent_letWord (set : Bool) : IsIdent (letWord set) := by
  cases set <;> exact ⟨by simp [letWord], by decide, by decide⟩

/-- `let` or `set`, and a blank. -/
theorem letWord_ok {set : Bool} {i : Nat} {r : Str} : PT.alt (kw c!"let") (kw c!"set") s (letWord set ++ (sep (g.gap i) ++ r)) =
    (.ok (sep (g.gap i) ++ r) (letWord set), s) := by
  cases set with
  | false => exact alt_ok (kw_ok (isIdent_letWord false) sp_noIdent)
  | true =>
    have h : (kw c!"let" : SP Str) s (c!"set" ++ (sep (g.gap i) ++ r)) = (.err false (c!"set" ++ (sep (g.gap i) ++ r)) none, s) := by
      refine lift_err (u := ()) ?_
      rw [keyword_run, if_neg]
      intro h
      have h2 : (c!"set" ++ (sep (g.gap i) ++ r)).takeWhile identCont = c!"set" := (takeWhile_ident (isIdent_letWord true).2.2 sp_noIdent).1
      rw [h2] at h
      exact absurd h.2 (by decide)
    exact (alt_err h).trans (kw_ok (isIdent_letWord true) sp_noIdent)

theorem wsLet {set : Bool} {i : Nat} {b r : Str} (hb : Blank b) (hr : NoWs r) :
    ws (PT.alt (kw c!"let") (kw c!"set")) s (b ++ (letWord set ++ (sep (g.gap i) ++ r))) = (.ok r (letWord set), s) :=
  ws_run (allWs_iff.2 hb) (noWs_ident (isIdent_letWord set)) letWord_ok (allWs_iff.2 sepB) hr

/-! ### The first word of an expression -/

/-- The word at the start of this text is none, or this one. -/
def FirstIs (i f : Str) : Prop := ∀ k, IsIdent k → i.takeWhile identCont = k → f = k

theorem first_start {c : Char} {i f : Str} (h : identStart c = false) : FirstIs (c :: i) f := by
  rintro k hk he
  obtain ⟨d, k', rfl, hd⟩ := ident_start hk
  rw [List.takeWhile_cons] at he
  split at he
  · simp at he
    rw [he.1, hd] at h
    cases h
  · simp at he

theorem first_ident {n r : Str} (hn : IsIdent n) (hr : NoIdent r) : FirstIs (n ++ r) n := by
  rintro k hk he
  rwa [(takeWhile_ident hn.2.2 hr).1] at he

theorem first_paren {b : Bool} {g : Gaps} {t r f : Str} (h : ∀ r, NoIdent r → FirstIs (t ++ r) f) (hr : NoIdent r) :
    FirstIs (paren g b t ++ r) (if b then [] else f) := by
  cases b with
  | true => exact first_start (by decide)
  | false => exact h r hr

theorem first_path {g : Gaps} (hg : g.Ok) {root : Bool} {p : List Str} (h : PathTm env.isLower root p) {r : Str} (hr : NoIdent r) :
    FirstIs (pathWrite g root p ++ r) (Tm.path root p).first := by
  cases p with
  | nil => have := h.2; simp at this
  | cons s p =>
    cases root with
    | true => exact first_start (by decide)
    | false =>
      rw [show pathWrite g false (s :: p) ++ r = s ++ (segText (g.sub 0) p ++ r) by simp [pathWrite]]
      simp only [Tm.first]
      exact first_ident (isIdent_of_name (h.1 s (by simp))) (seg_noIdent (hg.sub 0) hr p)

theorem char_noIdent {b r : Str} {c : Char} (hb : Blank b) (hc : identCont c = false) : NoIdent (b ++ c :: r) :=
  gap_noIdent hb (by intro d hd; simp at hd; subst hd; exact hc)

theorem first_tm : ∀ e : Tm, e.Ok env.isLower → ∀ g : Gaps, g.Ok → ∀ r, NoIdent r → FirstIs (e.write g ++ r) e.first
  | .var n, h, _, _, r, hr => by simp only [Tm.first]; exact first_ident (varOk_of_variable h).1 hr
  | .num s, h, _, _, r, hr => by
    obtain ⟨c, s', rfl, hc⟩ := number_start' h
    refine first_start ?_
    cases hi : identStart c with
    | false => rfl
    | true => rw [(identStart_facts hi).1] at hc; cases hc
  | .str s, _, _, _, r, _ => first_start (by decide)
  | .chr s, _, _, _, r, _ => first_start (by decide)
  | .bool b, _, _, _, r, hr => by simp only [Tm.first]; exact first_ident (isIdent_bool b) hr
  | .path root p, h, _, hg, r, hr => first_path hg h hr
  | .array _, _, _, _, r, _ => first_start (by decide)
  | .tuple _, _, _, _, r, _ => first_start (by decide)
  | .attr e n, h, g, hg, r, _ => by
    simp only [Tm.write, Tm.first, List.append_assoc]
    exact first_paren (first_tm e h.1 _ (hg.sub 0)) (char_noIdent (hg.gap 0) (by decide))
  | .index e k, h, g, hg, r, _ => by
    simp only [Tm.write, Tm.first, List.append_assoc]
    exact first_paren (first_tm e h.1 _ (hg.sub 0)) (char_noIdent (hg.gap 0) (by decide))
  | .call e es, h, g, hg, r, _ => by
    simp only [Tm.write, Tm.first, List.append_assoc]
    exact first_paren (first_tm e h.1 _ (hg.sub 0)) (char_noIdent (hg.gap 2) (by decide))
  | .mac root p args, h, g, hg, r, hr => by
    obtain ⟨x, hx⟩ : ∃ x, x = g.gap 0 ++ '!' :: (g.gap 2 ++ '(' :: (args ++ ')' :: r)) := ⟨_, rfl⟩
    have hb : NoIdent x := by rw [hx]; exact char_noIdent (hg.gap 0) (by decide)
    rw [show (Tm.mac root p args).write g ++ r = pathWrite (g.sub 0) root p ++ x by simp [Tm.write, hx]]
    rcases h.1 with hp | ⟨rfl, n, rfl, hn⟩
    · have := first_path (hg.sub 0) hp hb
      cases root with
      | true => exact fun k hk he => this k hk he
      | false =>
        cases p with
        | nil => exact fun k hk he => this k hk he
        | cons n p => exact fun k hk he => this k hk he
    · rw [show pathWrite (g.sub 0) false [n] = n by simp [pathWrite, segText]]
      simp only [Tm.first]
      exact first_ident (varOk_of_variable hn).1 hb
  | .parens _, _, _, _, r, _ => first_start (by decide)
  | .try_ e, h, g, hg, r, _ => by
    simp only [Tm.write, Tm.first, List.append_assoc]
    exact first_paren (first_tm e h _ (hg.sub 0)) (char_noIdent (hg.gap 0) (by decide))
  | .unary op e, _, _, _, r, _ => by
    cases op <;> exact first_start (by decide)
  | .filter e n es, h, g, hg, r, _ => by
    simp only [Tm.write, Tm.first, List.append_assoc]
    exact first_paren (first_tm e h.1 _ (hg.sub 0)) (char_noIdent blank_nil (by decide))
  | .bin op a b, h, g, hg, r, _ => by
    simp only [Tm.write, Tm.first, List.append_assoc]
    refine first_paren (first_tm a h.1 _ (hg.sub 0)) (noEq_op ?_ op _).1
    split
    · exact (sep_blank (hg.gap 1)).1
    · exact hg.gap 1
  | .range incl none b, _, _, _, r, _ => by
    cases incl <;> exact first_start (by decide)
  | .range incl (some a) b, h, g, hg, r, _ => by
    simp only [Tm.write, Tm.first, Tm.leftText, List.append_assoc]
    refine first_paren (first_tm a h.1 _ ((hg.sub 0).sub 0)) ?_
    cases incl <;> exact char_noIdent ((hg.sub 0).gap 1) (by decide)

theorem kw_no {e : Tm} (h : e.Ok env.isLower) {k r : Str} (hk : IsIdent k) (hn : e.first ≠ k) (hr : NoIdent r) :
    ∃ j m', (kw k : SP Str) s (e.write g ++ r) = (.err false j m', s) := by
  refine ⟨_, _, lift_err (u := ()) (c := false) (j := e.write g ++ r) (m := none) ?_⟩
  rw [keyword_run, if_neg]
  intro hh
  exact hn (first_tm e h g hg.ok r hr k hk hh.2)

theorem cond_read [hs : Usable env.syn] {c : DocTest} (h : c.Ok env.isLower) (hl : s.level + c.need ≤ maxDepth) {w : Lay} {r : Str} :
    parseCond env (target env nestFuel) s (c.write g ++ tagEnd env.syn w r) = (.ok (mark w.r ++ (env.syn.blockEnd ++ r)) c.tree, s) := by
  unfold parseCond
  cases c with
  | plain e =>
    obtain ⟨h1, h2, h3⟩ := h
    simp only [DocTest.write, DocTest.need] at hl ⊢
    obtain ⟨j1, m1, e1⟩ := kw_no (s := s) (g := g.sub 0) h1 isIdent_let h2 (tagEnd_noIdent (syn := env.syn) (w := w) (r := r))
    obtain ⟨j2, m2, e2⟩ := kw_no (s := s) (g := g.sub 0) h1 (isIdent_letWord true) h3 (tagEnd_noIdent (syn := env.syn) (w := w) (r := r))
    have hw : ws (PT.alt (kw c!"let") (kw c!"set")) s (e.write (g.sub 0) ++ tagEnd env.syn w r) = (.err false j2 m2, s) := by
      refine ws_err ?_
      rw [noWs_drop (tm_noWs h1 _), alt_err e1]
      exact e2
    rw [bind_ok (opt_err (bind_err hw)), bind_ok (wsExpr h1 hl tagEnd_ending tagEnd_drop)]
    rfl
  | bind set p e =>
    obtain ⟨h1, h2⟩ := h
    simp only [DocTest.need] at hl
    rw [show DocTest.write g (.bind set p e) ++ tagEnd env.syn w r =
      letWord set ++ (sep (g.gap 1) ++ (p.write (g.sub 1) ++ (g.gap 3 ++ '=' :: (g.gap 5 ++ (e.write (g.sub 0) ++ tagEnd env.syn w r))))) by
        simp [DocTest.write]]
    have hp := wsTarget (s := s) (g := g.sub 1) h1 (by omega) (r := g.gap 3 ++ '=' :: (g.gap 5 ++ (e.write (g.sub 0) ++ tagEnd env.syn w r)))
      eq_ptEnd eq_drop
    have hlet := wsLet (s := s) (g := g) (set := set) (i := 1) (b := []) blank_nil
      (pt_noWs (g := g.sub 1) h1 (g.gap 3 ++ '=' :: (g.gap 5 ++ (e.write (g.sub 0) ++ tagEnd env.syn w r))))
    rw [List.nil_append] at hlet
    have hopt : (PT.opt (do
        let _ ← ws (alt (kw c!"let") (kw c!"set"))
        let t ← ws (target env nestFuel)
        let _ ← ws (char '=')
        pure t) : SP (Option Target)) s (letWord set ++ (sep (g.gap 1) ++ (p.write (g.sub 1) ++ (g.gap 3 ++ '=' :: (g.gap 5 ++ (e.write (g.sub 0) ++ tagEnd env.syn w r)))))) =
        (.ok (e.write (g.sub 0) ++ tagEnd env.syn w r) (some p.tree), s) := by
      refine opt_ok ?_
      rw [bind_ok hlet, bind_ok hp, bind_ok (wsEq (tm_noWs h2 _))]
      rfl
    rw [bind_ok hopt, bind_ok (wsExpr h2 (by omega) tagEnd_ending tagEnd_drop)]
    rfl

/-! ### Tags -/

/-- How a block tag is read, given how its own parser reads it. -/
theorem node_tag {tgt : SP Target} {many : SP (List Node)} (hs : Std env) {word R rest b : Str} (hb : Blank b) {m : Option Wsp} {p : SP Node}
    {node : Node} (hw : IsIdent word) (hR : NoIdent R) (hp : tagParser env tgt many word = some p) (hl : s.level < maxDepth)
    (h : p { s with level := s.level + 1 } (mark m ++ (b ++ (word ++ R))) =
      (.ok (env.syn.blockEnd ++ rest) node, { s with level := s.level + 1 })) :
    nodeAlt env tgt many s (env.syn.blockStart ++ (mark m ++ (b ++ (word ++ R)))) = (.ok rest node, s) := by
  rw [nodeAlt_block (List.prefix_append _ _) block_not.1 block_not.2]
  have hn := nodeP_word (m1 := m) hw hb hR hp hl
  rw [h] at hn
  rw [hn]
  dsimp only
  have hcl : PT.cut (closing env.syn.blockEnd) (leave { s with level := s.level + 1 }) (env.syn.blockEnd ++ rest) =
      (.ok rest true, leave { s with level := s.level + 1 }) := by
    exact cut_ok (alt_ok (map_ok tag_ok))
  rw [bind_ok hcl]
  rfl

/-- A piece without pieces inside is read. -/
def ReadsLeaf (env : PEnv) (d : Doc) : Prop := ∀ (many : SP (List Node)) (s : PState) (rest : Str),
  s.level + d.need ≤ maxDepth → nodeAlt env (target env nestFuel) many s (d.src env.syn ++ rest) = (.ok rest (d.node env.syn), s)

theorem break_read {w : Lay} {many : SP (List Node)} {rest : Str} (hs : Std env) (hl : s.level < maxDepth) (hd : s.loopDepth ≠ 0) :
    nodeAlt env (target env nestFuel) many s ((Doc.break_ w).src env.syn ++ rest) = (.ok rest (.break_ w.ws), s) ∧
    nodeAlt env (target env nestFuel) many s ((Doc.continue_ w).src env.syn ++ rest) = (.ok rest (.continue_ w.ws), s) := by
  have key : ∀ (word : Str) (mk : Ws → Node) (msg : Str), IsIdent word → ∀ s : PState, s.loopDepth ≠ 0 →
      breakP word mk msg s (mark w.l ++ (w.g.gap 1 ++ (word ++ tagEnd env.syn w rest))) = (.ok (env.syn.blockEnd ++ rest) (mk w.ws), s) := by
    intro word mk msg hw s hd
    unfold breakP
    rw [pos_bind, bind_ok (markStart gapB hw), bind_ok (kwEnd gapB hw), bind_ok markClose]
    show (if s.loopDepth = 0 then _ else _ : SP Node) s _ = _
    rw [if_neg hd]
    rfl
  constructor
  · rw [Doc.src, tagText_eq]
    exact node_tag hs gapB ⟨by simp, by decide, by decide⟩ tagEnd_noIdent rfl hl (key _ _ _ ⟨by simp, by decide, by decide⟩ _ hd)
  · rw [Doc.src, tagText_eq]
    exact node_tag hs gapB ⟨by simp, by decide, by decide⟩ tagEnd_noIdent rfl hl (key _ _ _ ⟨by simp, by decide, by decide⟩ _ hd)

theorem let_read {w : Lay} {set : Bool} {p : Pt} {val : Option Tm} (hs : Std env) (h1 : p.Ok env.isLower)
    (h2 : ∀ e, val = some e → e.Ok env.isLower) : ReadsLeaf env (.let_ w set p val) := by
  intro many s rest hl
  simp only [Doc.need] at hl
  have hsrc : (Doc.let_ w set p val).src env.syn ++ rest = env.syn.blockStart ++ (mark w.l ++ (w.g.gap 1 ++ (letWord set ++ (sep (w.g.gap 5) ++ (p.write (w.g.sub 0) ++
      ((match val with | some e => w.g.gap 7 ++ '=' :: (w.g.gap 9 ++ e.write (w.g.sub 1)) | none => []) ++ tagEnd env.syn w rest)))))) := by
    simp [Doc.src, tagText, tagEnd]
    cases val <;> rfl
  rw [hsrc]
  refine node_tag hs gapB (isIdent_letWord set) sp_noIdent (by cases set <;> rfl) (by omega) ?_
  generalize hs' : ({ s with level := s.level + 1 } : PState) = s'
  have hlev : s'.level = s.level + 1 := by rw [← hs']
  unfold letP
  rw [bind_ok (markStart gapB (isIdent_letWord set)), bind_ok (wsLet gapB (pt_noWs h1 _))]
  refine cut_ok ?_
  cases val with
  | none =>
    rw [bind_ok (wsTarget h1 (by omega) (r := [] ++ tagEnd env.syn w rest) tagEnd_ptEnd tagEnd_drop)]
    rw [bind_ok (opt_err (bind_err (ws_err (char_err ?_)))), bind_ok markClose]
    · rfl
    · rw [noWs_drop close_noWs]
      obtain ⟨c, t, h, hc⟩ := close_head (syn := env.syn) w.r rest
      rw [h]
      simp [(head_facts hc).2.2.2.1]
  | some e =>
    simp only [optNeed] at hl
    have h2 := h2 e rfl
    dsimp only
    rw [show w.g.gap 7 ++ '=' :: (w.g.gap 9 ++ e.write (w.g.sub 1)) ++ tagEnd env.syn w rest =
      w.g.gap 7 ++ '=' :: (w.g.gap 9 ++ (e.write (w.g.sub 1) ++ tagEnd env.syn w rest)) by simp]
    rw [bind_ok (wsTarget h1 (by omega) eq_ptEnd eq_drop)]
    have ho : (PT.opt (do let _ ← ws (char '='); ws (exprHere env)) : SP (Option Expr)) s'
        ('=' :: (w.g.gap 9 ++ (e.write (w.g.sub 1) ++ tagEnd env.syn w rest))) = (.ok (mark w.r ++ (env.syn.blockEnd ++ rest)) (some e.tree), s') := by
      refine opt_ok ?_
      rw [bind_ok (wsEq (tm_noWs h2 _))]
      exact wsExpr h2 (by omega) tagEnd_ending tagEnd_drop
    rw [bind_ok ho, bind_ok markClose]
    rfl

/-- A string. -/
theorem wsStr {t b r : Str} (h : StrBody t) (hb : Blank b) (hr : NoWs r) :
    (ws (lift strLit) : SP Str) s ('"' :: (t ++ '"' :: (b ++ r))) = (.ok r t, s) :=
  ws_run (w := []) (i := '"' :: (t ++ '"' :: (b ++ r))) (by intro c hc; simp at hc) (noWs_cons (by decide))
    (lift_ok (u := ()) (strLit_ok h)) (allWs_iff.2 hb) hr

theorem wsStrEnd [hs : Usable env.syn] {t r : Str} {w : Lay} (h : StrBody t) :
    (ws (lift strLit) : SP Str) s ('"' :: (t ++ '"' :: tagEnd env.syn w r)) = (.ok (mark w.r ++ (env.syn.blockEnd ++ r)) t, s) :=
  wsStr h gapB close_noWs

theorem include_read {w : Lay} {path : Str} (hs : Std env) (h : StrBody path) : ReadsLeaf env (.include_ w path) := by
  intro many s rest hl
  simp only [Doc.need] at hl
  have hsrc : (Doc.include_ w path).src env.syn ++ rest = env.syn.blockStart ++ (mark w.l ++ (w.g.gap 1 ++ (c!"include" ++ (w.g.gap 5 ++
      ('"' :: (path ++ '"' :: tagEnd env.syn w rest)))))) := by
    simp [Doc.src, tagText, tagEnd]
  rw [hsrc]
  have hk : IsIdent c!"include" := ⟨by simp, by decide, by decide⟩
  refine node_tag hs gapB hk quote_noIdent rfl (by omega) ?_
  unfold includeP
  rw [bind_ok (markStart gapB hk), bind_ok (kwStr gapB hk)]
  refine cut_ok ?_
  rw [bind_ok (wsStrEnd h), bind_ok markClose]
  rfl

theorem extends_read {w : Lay} {path : Str} (hs : Std env) (hw : w.ws = ⟨none, none⟩) (h : StrBody path) : ReadsLeaf env (.extends_ w path) := by
  intro many s rest hl
  simp only [Doc.need] at hl
  have hsrc : (Doc.extends_ w path).src env.syn ++ rest = env.syn.blockStart ++ (mark w.l ++ (w.g.gap 1 ++ (c!"extends" ++ (w.g.gap 5 ++
      ('"' :: (path ++ '"' :: tagEnd env.syn w rest)))))) := by
    simp [Doc.src, tagText, tagEnd]
  rw [hsrc]
  have hk : IsIdent c!"extends" := ⟨by simp, by decide, by decide⟩
  refine node_tag hs gapB hk quote_noIdent rfl (by omega) ?_
  unfold extendsP
  rw [pos_bind, bind_ok (markStart gapB hk), bind_ok (kwStr gapB hk)]
  generalize hs' : ({ s with level := s.level + 1 } : PState) = s'
  have hc : (PT.cut (do
      let path ← ws (lift strLit)
      let nws ← opt wsMark
      pure (path, nws)) : SP (Str × Option Wsp)) s' ('"' :: (path ++ '"' :: tagEnd env.syn w rest)) =
      (.ok (env.syn.blockEnd ++ rest) (path, w.r), s') := by
    refine cut_ok ?_
    rw [bind_ok (wsStrEnd h), bind_ok markClose]
    rfl
  rw [bind_ok hc]
  have h1 : w.l = none := congrArg Ws.l hw
  have h2 : w.r = none := congrArg Ws.r hw
  rw [h1, h2]
  rfl

theorem import_read {w : Lay} {path scope : Str} (hs : Std env) (h : StrBody path) (hn : Name scope) :
    ReadsLeaf env (.import_ w path scope) := by
  intro many s rest hl
  simp only [Doc.need] at hl
  have hsrc : (Doc.import_ w path scope).src env.syn ++ rest = env.syn.blockStart ++ (mark w.l ++ (w.g.gap 1 ++ (c!"import" ++ (w.g.gap 5 ++
      ('"' :: (path ++ '"' :: (w.g.gap 7 ++ (c!"as" ++ (sep (w.g.gap 9) ++ (scope ++ tagEnd env.syn w rest)))))))))) := by
    simp [Doc.src, tagText, tagEnd]
  rw [hsrc]
  have hk : IsIdent c!"import" := ⟨by simp, by decide, by decide⟩
  have hk2 : IsIdent c!"as" := ⟨by simp, by decide, by decide⟩
  have hi := isIdent_of_name hn
  refine node_tag hs gapB hk quote_noIdent rfl (by omega) ?_
  unfold importP
  rw [bind_ok (markStart gapB hk), bind_ok (kwStr gapB hk)]
  refine cut_ok ?_
  rw [bind_ok (wsStr h gapB (noWs_ident hk2)), bind_ok (kwSp' hk2 (noWs_ident hi))]
  refine cut_ok ?_
  rw [bind_ok (wsIdentEnd hi), bind_ok markClose]
  rfl

/-- The scope of a called macro. -/
theorem scope_read {i : Option Str} (h1 : ∀ m, i = some m → Name m) {name T X : Str} (hi : IsIdent name) (hT : NoIdent T)
    (hX : T.dropWhile isWsp = X) (hno : ¬ c!"::" <+: X) :
    (PT.opt (do
        let n ← ws ident
        let _ ← ws (tag c!"::")
        pure n) : SP (Option Str)) s (scopeText g i ++ (name ++ T)) = (.ok (name ++ T) i, s) := by
  have hws : ∀ {n T : Str}, IsIdent n → NoIdent T → ws ident s (n ++ T) = (.ok (T.dropWhile isWsp) n, s) := by
    intro n T hn hT
    refine ws_ok ?_
    rw [noWs_drop (noWs_ident hn)]
    exact ident_ok hn hT
  cases i with
  | none =>
    refine opt_err (j := X) (m := none) ?_
    rw [show scopeText g none ++ (name ++ T) = name ++ T from rfl, bind_ok (hws hi hT), hX]
    refine bind_err (ws_err ?_)
    rw [show X.dropWhile isWsp = X by rw [← hX, dropWhile_idem]]
    exact tag_err hno
  | some q =>
    have hq := isIdent_of_name (h1 q rfl)
    refine opt_ok ?_
    rw [show scopeText g (some q) ++ (name ++ T) = q ++ (g.gap 0 ++ (c!"::" ++ (g.gap 2 ++ (name ++ T)))) by simp [scopeText]]
    have hd : (g.gap 0 ++ (c!"::" ++ (g.gap 2 ++ (name ++ T)))).dropWhile isWsp = c!"::" ++ (g.gap 2 ++ (name ++ T)) :=
      gap_drop gapB (noWs_cons (by decide))
    have h5 : (ws (tag c!"::") : SP Str) s (c!"::" ++ (g.gap 2 ++ (name ++ T))) = (.ok (name ++ T) c!"::", s) :=
      ws_run (w := []) (by intro c hc; simp at hc) (noWs_cons (by decide)) tag_ok (allWs_iff.2 gapB) (noWs_ident hi)
    rw [bind_ok (hws hq (gap_noIdent gapB (by intro c hc; simp at hc; subst hc; decide))), hd, bind_ok h5]
    rfl

theorem scope_noWs {i : Option Str} (h1 : ∀ m, i = some m → Name m) {name T : Str} (hi : IsIdent name) :
    NoWs (scopeText g i ++ (name ++ T)) := by
  cases i with
  | none => rw [scopeText, List.nil_append]; exact noWs_ident hi
  | some q => rw [scopeText, List.append_assoc]; exact noWs_ident (isIdent_of_name (h1 q rfl))

theorem call_read {w : Lay} {scope : Option Str} {name : Str} {args : List Tm} {named : List (Str × Tm)} (hs : Std env)
    (h1 : ∀ m, scope = some m → Name m) (h2 : Name name) (h3 : ArgsOk env.isLower args named) :
    ReadsLeaf env (.call w scope name args named) := by
  intro many s rest hl
  simp only [Doc.need] at hl
  have hk : IsIdent c!"call" := ⟨by simp, by decide, by decide⟩
  have hi := isIdent_of_name h2
  have hsrc : (Doc.call w scope name args named).src env.syn ++ rest = env.syn.blockStart ++ (mark w.l ++ (w.g.gap 1 ++ (c!"call" ++ (sep (w.g.gap 5) ++
      (scopeText w.g scope ++ (name ++ (w.g.gap 4 ++ (argsSrc (w.g.sub 0) args named ++ tagEnd env.syn w rest)))))))) := by
    simp [Doc.src, tagText, tagEnd]
  rw [hsrc]
  refine node_tag hs gapB hk sp_noIdent rfl (by omega) ?_
  generalize hs' : ({ s with level := s.level + 1 } : PState) = s'
  have hlev : s'.level = s.level + 1 := by rw [← hs']
  have hX : argsSrc (w.g.sub 0) args named ++ tagEnd env.syn w rest = '(' ::
    (listText.elems ((w.g.sub 0).sub 0) (args.map (fun e g => e.write g) ++ named.map namedText) ++ (lastComma (w.g.sub 0)
      ((w.g.sub 0).comma [] && !(args.map (fun e g => e.write g) ++ named.map namedText).isEmpty) ++ [')']) ++ tagEnd env.syn w rest) := rfl
  have hXw : NoWs (argsSrc (w.g.sub 0) args named ++ tagEnd env.syn w rest) := by rw [hX]; exact noWs_cons (by decide)
  have hXn : ¬ c!"::" <+: argsSrc (w.g.sub 0) args named ++ tagEnd env.syn w rest := by rw [hX]; simp [prefix_cons_iff]
  have hTn : NoIdent (w.g.gap 4 ++ (argsSrc (w.g.sub 0) args named ++ tagEnd env.syn w rest)) := by
    rw [hX]; exact char_noIdent gapB (by decide)
  have hargs : PT.opt (ws (argsHere env true)) s' (argsSrc (w.g.sub 0) args named ++ tagEnd env.syn w rest) =
      (.ok (mark w.r ++ (env.syn.blockEnd ++ rest)) (some (Tm.trees args ++ named.map fun a => .namedArg a.1 a.2.tree)), s') := by
    refine opt_ok ?_
    rw [← tagEnd_drop]
    refine ws_ok ?_
    unfold argsHere
    obtain ⟨n, hn⟩ : ∃ n, maxDepth - s'.level = n + 1 := ⟨maxDepth - s'.level - 1, by omega⟩
    rw [hn, macroArgs_ok (w.ok.sub 0) h3 (by omega) (dropWhile_idem _ |>.trans (noWs_drop hXw))]
  have hname : ws ident s' (name ++ (w.g.gap 4 ++ (argsSrc (w.g.sub 0) args named ++ tagEnd env.syn w rest))) =
      (.ok (argsSrc (w.g.sub 0) args named ++ tagEnd env.syn w rest) name, s') := wsIdent hi hTn gapB hXw
  unfold callP
  rw [bind_ok (markStart gapB hk), bind_ok (kwSp gapB hk (scope_noWs h1 hi))]
  refine cut_ok ?_
  rw [bind_ok (scope_read h1 hi hTn (gap_drop gapB hXw) hXn), bind_ok hname, bind_ok hargs, bind_ok markClose]
  rfl

theorem argsHere_err {i : Str} (hw : NoWs i) (hh : i.head? ≠ some '(') (hl : s.level < maxDepth) :
    ∃ j m, argsHere env true s i = (.err false j m, s) := by
  obtain ⟨n, hn⟩ : ∃ n, maxDepth - s.level = n + 1 := ⟨maxDepth - s.level - 1, by omega⟩
  unfold argsHere
  rw [hn]
  have h : ∃ j m, (exprP env (n + 1) (.args true) () i).1 = .err false j m := by
    refine ⟨i, none, ?_⟩
    show (argsBody (exprP env n) true () i).1 = _
    unfold argsBody
    rw [pos_bind, bind_err (ws_err (char_err (by rw [noWs_drop hw]; exact hh))), noWs_drop hw]
  obtain ⟨j, m, h⟩ := h
  exact ⟨j, m, by rw [h]⟩

theorem callBare_read {w : Lay} {scope : Option Str} {name : Str} (hs : Std env) (h1 : ∀ m, scope = some m → Name m)
    (h2 : Name name) : ReadsLeaf env (.callBare w scope name) := by
  intro many s rest hl
  simp only [Doc.need] at hl
  have hk : IsIdent c!"call" := ⟨by simp, by decide, by decide⟩
  have hi := isIdent_of_name h2
  have hsrc : (Doc.callBare w scope name).src env.syn ++ rest = env.syn.blockStart ++ (mark w.l ++ (w.g.gap 1 ++ (c!"call" ++ (sep (w.g.gap 5) ++
      (scopeText w.g scope ++ (name ++ tagEnd env.syn w rest)))))) := by
    simp [Doc.src, tagText, tagEnd]
  rw [hsrc]
  refine node_tag hs gapB hk sp_noIdent rfl (by omega) ?_
  generalize hs' : ({ s with level := s.level + 1 } : PState) = s'
  have hno : ∀ c : Char, c ∉ c!"+-~%}]>#@$^/\\;<&*`" → (mark w.r ++ (env.syn.blockEnd ++ rest)).head? ≠ some c := by
    intro c hc
    obtain ⟨d, t, h, hd⟩ := close_head (syn := env.syn) w.r rest
    rw [h]
    intro he
    simp only [List.head?_cons, Option.some.injEq] at he
    subst he
    exact hc hd
  have hargs : PT.opt (ws (argsHere env true)) s' (mark w.r ++ (env.syn.blockEnd ++ rest)) =
      (.ok (mark w.r ++ (env.syn.blockEnd ++ rest)) none, s') := by
    obtain ⟨j, m, hj⟩ := argsHere_err (env := env) (s := s') close_noWs (hno '(' (by decide)) (by rw [← hs']; show s.level + 1 < _; omega)
    exact opt_err (ws_err (by rw [noWs_drop close_noWs]; exact hj))
  unfold callP
  rw [bind_ok (markStart gapB hk), bind_ok (kwSp gapB hk (scope_noWs h1 hi))]
  refine cut_ok ?_
  have hcol : ¬ c!"::" <+: mark w.r ++ (env.syn.blockEnd ++ rest) := by
    intro hp
    refine hno ':' (by decide) ?_
    obtain ⟨t, ht⟩ := hp
    rw [← ht]
    rfl
  rw [bind_ok (scope_read h1 hi tagEnd_noIdent tagEnd_drop hcol), bind_ok (wsIdentEnd hi), bind_ok hargs, bind_ok markClose]
  rfl

theorem clean_be (hs : Std env) : CleanEnd env.syn.blockEnd := by
  obtain ⟨c, t, h, hc⟩ := closing_cons hs.blockEnd
  have : isWsp c = false ∧ identCont c = false ∧ c ≠ '+' ∧ c ≠ '-' ∧ c ≠ '~' := by
    revert hc
    simp only [outside, List.contains_iff_mem]
    clear h
    revert c
    decide
  exact ⟨c, t, h, fun h => by simp [isWsp_iff.2 h] at this, fun h => by simp [identCont_iff.2 h] at this, this.2.2⟩

theorem raw_read {w fin : Lay} {t : Str} (hs : Std env) (h : RawFree env.syn t) (hlit : splitWsParts t = litOf t) :
    ReadsLeaf env (.raw w t fin) := by
  intro many s rest hl
  simp only [Doc.need] at hl
  have hsrc : (Doc.raw w t fin).src env.syn ++ rest = wordTag env.syn.blockStart env.syn.blockEnd w.l (w.g.gap 1) c!"raw" (w.g.gap 3) w.r ++ t ++
      wordTag env.syn.blockStart env.syn.blockEnd fin.l (fin.g.gap 1) c!"endraw" (fin.g.gap 3) fin.r ++ rest := by
    simp [Doc.src, tagText, wordTag]
  rw [hsrc, nodeAlt_block]
  · rw [raw_run (clean_be hs) (by omega) gapB gapB gapB gapB, hlit]
    · rfl
    · intro x y hxy hy
      have := h x y (mark fin.l ++ fin.g.gap 1 ++ c!"endraw" ++ fin.g.gap 3 ++ mark fin.r ++ env.syn.blockEnd ++ rest) hxy hy
      simpa [wordTag] using this
  · simp only [wordTag, List.append_assoc]
    exact List.prefix_append _ _
  · simp only [wordTag, List.append_assoc]
    exact block_not.1
  · simp only [wordTag, List.append_assoc]
    exact block_not.2

end Askama
