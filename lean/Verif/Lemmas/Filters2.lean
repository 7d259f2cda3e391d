import Verif.Lemmas.Filters

namespace Askama

open Spec

/-! ## join -/

theorem joinLoop_ok {sep : Disp} {sink : Sink} {items : List Disp} {idx : Nat} {acc out : List Str}
    (h : joinLoop sep sink idx items acc = .ok out) :
    out.flatten = acc.flatten ++ (if idx = 0 ∨ items = [] then [] else sep.text) ++
      (List.intersperse sep.text (items.map Disp.text)).flatten := by
  induction items generalizing idx acc with
  | nil => simp only [joinLoop, WRes.ok.injEq] at h; subst h; simp
  | cons t ts ih =>
    simp only [joinLoop] at h
    have step : ∀ acc1, (t.fmt (put sink) acc1).andThen (joinLoop sep sink (idx + 1) ts) = .ok out →
        out.flatten = acc1.flatten ++ (List.intersperse sep.text ((t :: ts).map Disp.text)).flatten := by
      intro acc1 h1
      cases ht : t.fmt (put sink) acc1 with
      | ok a =>
        rw [ht, WRes.andThen_ok] at h1
        have e1 := (fmt_put_ok ht).2
        have e2 := ih h1
        rw [e2, e1]
        cases ts with
        | nil => simp
        | cons t2 ts => simp
      | err a => rw [ht] at h1; cases h1
      | panic => rw [ht] at h1; cases h1
    by_cases hi : idx = 0
    · rw [if_pos hi] at h
      rw [step acc h]
      simp [hi]
    · rw [if_neg hi] at h
      cases hs : sep.fmt (put sink) acc with
      | ok a =>
        rw [hs, WRes.andThen_ok] at h
        rw [step a h, (fmt_put_ok hs).2]
        simp [hi]
      | err a => rw [hs] at h; cases h
      | panic => rw [hs] at h; cases h

theorem joinLoop_total {sep : Disp} (hs : sep.fails = false) (items : List Disp) (hi : ∀ d ∈ items, d.fails = false)
    (idx : Nat) (acc : List Str) : ∃ out, joinLoop sep Sink.total idx items acc = .ok out := by
  induction items generalizing idx acc with
  | nil => exact ⟨acc, rfl⟩
  | cons t ts ih =>
    have put_ok : ∀ s acc, ∃ acc', put Sink.total s acc = .ok acc' := fun s acc => ⟨_, put_total s acc⟩
    simp only [joinLoop]
    split
    · obtain ⟨a, ha⟩ := fmt_total put_ok t (hi t (by simp)) acc
      rw [ha, WRes.andThen_ok]
      exact ih (fun d hd => hi d (by simp [hd])) _ _
    · obtain ⟨a, ha⟩ := fmt_total put_ok sep hs acc
      obtain ⟨b, hb⟩ := fmt_total put_ok t (hi t (by simp)) a
      rw [ha, WRes.andThen_ok, hb, WRes.andThen_ok]
      exact ih (fun d hd => hi d (by simp [hd])) _ _

/-! ## replace -/

theorem replaceGo_single (c : Char) (rep : Str) (s : Str) :
    replaceGo [c] rep 0 s = s.flatMap (fun d => if d = c then rep else [d]) := by
  induction s with
  | nil => rfl
  | cons d s ih =>
    simp only [replaceGo, List.flatMap_cons, List.length_singleton, Nat.sub_self, ih]
    by_cases h : d = c
    · subst h; simp [List.isPrefixOf]
    · have : (c == d) = false := by simpa using fun h' => h h'.symm
      simp [List.isPrefixOf, h, this]

theorem replaceGo_nn_pair (rep r : Str) :
    replaceGo c!"\n\n" rep 0 ('\n' :: '\n' :: r) = rep ++ replaceGo c!"\n\n" rep 0 r := by
  simp [replaceGo, List.isPrefixOf]

theorem replaceGo_nn_other {c : Char} (rep r : Str) (h : ∀ r', c = '\n' → r = '\n' :: r' → False) :
    replaceGo c!"\n\n" rep 0 (c :: r) = c :: replaceGo c!"\n\n" rep 0 r := by
  rw [replaceGo]
  rw [if_neg]
  cases r with
  | nil => simp [List.isPrefixOf]
  | cons d r =>
    intro hp
    simp only [List.isPrefixOf, Bool.and_true, Bool.and_eq_true, beq_iff_eq] at hp
    exact h r hp.1.symm (by rw [← hp.2])

theorem linebreaks_eq (s : Str) :
    replaceGo c!"\n" c!"<br/>" 0 (replaceGo c!"\n\n" c!"</p><p>" 0 s) = lineBreaks s := by
  rw [replaceGo_single]
  induction s using lineBreaks.induct with
  | case1 r ih =>
    rw [replaceGo_nn_pair, List.flatMap_append, ih, lineBreaks]
    rfl
  | case2 r h ih =>
    rw [replaceGo_nn_other _ _ (fun r' _ hr => h r' hr), List.flatMap_cons, ih, lineBreaks]
    · rfl
    · exact h
  | case3 c r h1 h2 ih =>
    rw [replaceGo_nn_other _ _ (fun r' hc hr => h1 _ hc hr), List.flatMap_cons, ih]
    rw [lineBreaks]
    · rw [if_neg (fun h => h2 h)]; rfl
    · exact h1
    · exact h2
  | case4 => rfl

theorem lineBreaks_no_newline (s : Str) : '\n' ∉ lineBreaks s := by
  induction s using lineBreaks.induct with
  | case1 r ih => rw [lineBreaks]; simp [ih]
  | case2 r h ih => rw [lineBreaks]; simp [ih]; exact h
  | case3 c r h1 h2 ih =>
    rw [lineBreaks]
    · simp only [List.mem_cons, not_or]; exact ⟨fun h => h2 h.symm, ih⟩
    · exact h1
    · exact h2
  | case4 => simp [lineBreaks]

/-! ## paragraphbreaks -/

theorem paragraphs_ne_nil (s : Str) : paragraphs s ≠ [] := by
  induction s using paragraphs.induct with
  | case1 r ih => simp [paragraphs]
  | case2 c r h p ps h1 ih =>
    rw [paragraphs, h1]
    · simp
    · exact h
  | case3 c r h h1 ih => exact absurd h1 ih
  | case4 => simp [paragraphs]

/-- Pieces joined by a separator in front of all but the first. -/
def joinP (x : Str) : List Str → Str
  | [] => []
  | p :: ps => p ++ ps.flatMap (x ++ ·)

theorem replace_nn_paragraphs (x s : Str) : replaceGo c!"\n\n" x 0 s = joinP x (paragraphs s) := by
  induction s using paragraphs.induct with
  | case1 r ih =>
    rw [replaceGo_nn_pair, ih, paragraphs]
    cases hp : paragraphs r with
    | nil => exact absurd hp (paragraphs_ne_nil r)
    | cons p ps => simp [joinP]
  | case2 c r h p ps h1 ih =>
    rw [replaceGo_nn_other _ _ (fun r' hc hr => h r' hc hr), ih, h1, paragraphs, h1]
    · simp [joinP]
    · exact h
  | case3 c r h h1 ih => exact absurd h1 (paragraphs_ne_nil r)
  | case4 => rfl

theorem paragraphs_mem (s : Str) : ∀ p ∈ paragraphs s, ∀ c ∈ p, c ∈ s := by
  induction s using paragraphs.induct with
  | case1 r ih =>
    rw [paragraphs]
    intro p hp c hc
    rcases List.mem_cons.1 hp with rfl | hp
    · simp at hc
    · have := ih p hp c hc; simp [this]
  | case2 d r h p ps h1 ih =>
    rw [paragraphs, h1]
    · intro p' hp c hc
      rcases List.mem_cons.1 hp with rfl | hp
      · rcases List.mem_cons.1 hc with rfl | hc
        · simp
        · exact List.mem_cons_of_mem _ (ih p (by simp [h1]) c hc)
      · exact List.mem_cons_of_mem _ (ih p' (by simp [h1, hp]) c hc)
    · exact h
  | case3 d r h h1 ih => exact absurd h1 (paragraphs_ne_nil r)
  | case4 => simp [paragraphs]

theorem replaceGo_skip_noLt (p r : Str) (h : '<' ∉ p) :
    replaceGo c!"<p></p>" [] 0 (p ++ r) = p ++ replaceGo c!"<p></p>" [] 0 r := by
  induction p with
  | nil => rfl
  | cons c p ih =>
    simp only [List.mem_cons, not_or] at h
    rw [List.cons_append, replaceGo, if_neg, ih h.2, List.cons_append]
    simp only [List.isPrefixOf, Bool.and_eq_true, beq_iff_eq]
    exact fun hh => h.1 hh.1

theorem replaceGo_close (r : Str) :
    replaceGo c!"<p></p>" [] 0 (c!"</p>" ++ r) = c!"</p>" ++ replaceGo c!"<p></p>" [] 0 r := by
  simp [replaceGo, List.isPrefixOf]

/-- `<p>` not followed by `</p>` is kept. -/
theorem replaceGo_open (r : Str) (h : ∀ r', r ≠ c!"</p>" ++ r') :
    replaceGo c!"<p></p>" [] 0 (c!"<p>" ++ r) = c!"<p>" ++ replaceGo c!"<p></p>" [] 0 r := by
  have h1 : List.isPrefixOf c!"<p></p>" (c!"<p>" ++ r) = false := by
    rw [Bool.eq_false_iff]
    intro hp
    obtain ⟨t, ht⟩ := List.isPrefixOf_iff_prefix.1 hp
    simp at ht
    exact h t (by simp [ht])
  simp only [List.cons_append, List.nil_append] at h1 ⊢
  rw [replaceGo, h1]
  simp [replaceGo, List.isPrefixOf]

theorem replaceGo_empty (r : Str) :
    replaceGo c!"<p></p>" [] 0 (c!"<p></p>" ++ r) = replaceGo c!"<p></p>" [] 0 r := by
  simp [replaceGo, List.isPrefixOf]

/-- The paragraphs after the first, as scanned by the second replacement. -/
def restP : List Str → Str
  | [] => []
  | [p] => c!"<p>" ++ p
  | p :: q :: ps => c!"<p>" ++ p ++ c!"</p>" ++ restP (q :: ps)

theorem flatMap_restP (p : Str) (ps : List Str) :
    (p :: ps).flatMap (c!"</p><p>" ++ ·) = c!"</p>" ++ restP (p :: ps) := by
  induction ps generalizing p with
  | nil => simp [restP]
  | cons q ps ih =>
    rw [List.flatMap_cons, ih, restP]
    simp

theorem replace_restP (ps : List Str) (hn : ps ≠ []) (h : ∀ p ∈ ps, '<' ∉ p) (hlast : ps.getLast? ≠ some []) :
    replaceGo c!"<p></p>" [] 0 (restP ps) ++ c!"</p>" =
      (ps.filter (fun p => !p.isEmpty)).flatMap (fun p => c!"<p>" ++ p ++ c!"</p>") := by
  have hne : ∀ p : Str, '<' ∉ p → p ≠ [] → ∀ r r' : Str, p ++ r ≠ c!"</p>" ++ r' := by
    intro p h1 h2 r r' he
    cases p with
    | nil => exact h2 rfl
    | cons c p =>
      simp only [List.cons_append, List.cons.injEq] at he
      rw [he.1] at h1
      simp at h1
  match ps with
  | [p] =>
    have hp : p ≠ [] := by rintro rfl; simp at hlast
    have hlt := h p (by simp)
    have hr := replaceGo_skip_noLt p [] hlt
    simp only [List.append_nil] at hr
    rw [restP, replaceGo_open p (by have := hne p hlt hp []; simpa using this), hr]
    have : (!p.isEmpty) = true := by cases p <;> simp_all
    simp [replaceGo, this]
  | p :: q :: ps =>
    have ih := replace_restP (q :: ps) (by simp) (fun p hp => h p (by simp [List.mem_cons.1 hp]))
      (by simpa using hlast)
    have hlt := h p (by simp)
    rw [restP]
    by_cases hp : p = []
    · subst hp
      have : c!"<p>" ++ [] ++ c!"</p>" ++ restP (q :: ps) = c!"<p></p>" ++ restP (q :: ps) := by simp
      rw [this, replaceGo_empty, ih]
      rfl
    · have e : c!"<p>" ++ p ++ c!"</p>" ++ restP (q :: ps) = c!"<p>" ++ (p ++ (c!"</p>" ++ restP (q :: ps))) := by
        simp only [List.append_assoc]
      have h3 : (!p.isEmpty) = true := by cases p <;> simp_all
      rw [e, replaceGo_open _ (hne p hlt hp _), replaceGo_skip_noLt p _ hlt, replaceGo_close]
      rw [List.filter_cons, if_pos h3, List.flatMap_cons, ← ih]
      simp only [List.append_assoc]

/-! ## words -/

theorem splitOnWs_ne_nil (s : Str) : splitOnWs s ≠ [] := by
  cases s with
  | nil => simp [splitOnWs]
  | cons c s =>
    simp only [splitOnWs]
    split
    · simp
    · split <;> simp

def prevWs : Option Char → Bool
  | none => true
  | some p => isWs p

theorem startsWord_eq (prev : Option Char) (c : Char) : startsWord isWs (prev, c) = (prevWs prev && !isWs c) := by
  cases prev <;> simp [startsWord, prevWs]

theorem wordcount_aux (s : Str) (prev : Option Char) (p : Str) (ps : List Str) (h : splitOnWs s = p :: ps) :
    ((List.zip (prev :: s.map some) s).filter (startsWord isWs)).length =
      (if prevWs prev ∧ p ≠ [] then 1 else 0) + (ps.filter (fun p => !p.isEmpty)).length := by
  induction s generalizing prev p ps with
  | nil => simp [splitOnWs] at h; obtain ⟨rfl, rfl⟩ := h; simp
  | cons c s ih =>
    simp only [List.map_cons, List.zip_cons_cons, List.filter_cons, startsWord_eq]
    simp only [splitOnWs] at h
    cases hs : splitOnWs s with
    | nil => exact absurd hs (splitOnWs_ne_nil s)
    | cons q qs =>
      have ih := ih (some c) q qs hs
      rw [hs] at h
      by_cases hc : isWs c
      · simp only [hc, if_true, List.cons.injEq] at h
        obtain ⟨rfl, rfl⟩ := h
        simp only [hc, Bool.not_true, Bool.and_false, Bool.false_eq_true, if_false, ih, prevWs]
        simp only [List.filter_cons, ne_eq, not_true, and_false, if_false, true_and]
        cases q with
        | nil => simp
        | cons a b => simp; omega
      · simp only [hc, Bool.false_eq_true, if_false, List.cons.injEq] at h
        obtain ⟨rfl, rfl⟩ := h
        simp only [hc, Bool.not_false, Bool.and_true]
        have hp : prevWs (some c) = false := by simpa [prevWs] using hc
        cases hpv : prevWs prev <;> simp [ih, hp] <;> omega

theorem titleLoop_eq (o : CaseOps) (s : Str) (prev : Option Char) (need : Bool) (h : need = prevWs prev) :
    titleLoop o need s = (List.zip (prev :: s.map some) s).flatMap (fun pc =>
      if isWs pc.2 then [pc.2]
      else if startsWord isWs pc then (if o.isUp pc.2 then [pc.2] else o.up pc.2)
      else (if o.isLow pc.2 then [pc.2] else o.low pc.2)) := by
  induction s generalizing prev need with
  | nil => rfl
  | cons c s ih =>
    simp only [titleLoop, List.map_cons, List.zip_cons_cons, List.flatMap_cons, startsWord_eq]
    by_cases hc : isWs c
    · rw [if_pos hc, if_pos hc, ih (some c) true (by simpa [prevWs] using hc.symm)]
      rfl
    · rw [if_neg hc, if_neg hc]
      subst h
      have hp : false = prevWs (some c) := by simpa [prevWs] using hc
      cases hpv : prevWs prev with
      | true => simp [hc, ih (some c) false hp]
      | false => simp [ih (some c) false hp]

end Askama
