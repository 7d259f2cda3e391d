import Verif.Lemmas.CanonDef
import Verif.Lemmas.Canon

/-!
# Accepted patterns and arguments have a text in the usual layout
-/

namespace Askama

open Spec

section
variable {isLower : Char → Bool}

theorem patPath_of {t : Str} {p : List Str} (h : PathSpelt isLower t p) (hu : noBool (firstSeg p)) :
    ∃ root q, PatPath isLower root q ∧ pathParts root q = p ∧ p ≠ [] := by
  obtain ⟨root, q, hq, rfl⟩ := tm_of_path h
  have hne : q ≠ [] := by
    rintro rfl
    rcases hq.2 with h | h
    · simp at h
    · simp at h
  cases q with
  | nil => exact absurd rfl hne
  | cons s q =>
    refine ⟨root, s :: q, ⟨hq, ?_⟩, rfl, by cases root <;> simp⟩
    obtain ⟨⟨c, r, rfl, _⟩, _⟩ := hq.1 s (by simp)
    cases root <;> simpa [firstSeg, noBool] using hu

/-- A pattern in parentheses if it has alternatives. -/
def Pt.closed (m : Pt) : Pt := if m.isAny then .parens m else m

theorem closed_tree (m : Pt) : (Pt.closed m).tree = m.tree := by
  unfold Pt.closed
  split <;> simp [Pt.tree]

theorem closed_ok {m : Pt} (h : m.Ok isLower) : (Pt.closed m).Ok isLower := by
  unfold Pt.closed
  split
  · exact h
  · exact h

theorem closed_isAny (m : Pt) : (Pt.closed m).isAny = false := by
  unfold Pt.closed
  split
  · rfl
  · rename_i h
    simpa using h

mutual
theorem pt_of {t : Str} {p : Target} : SpeltPat isLower t p → usualPat isLower p → ∃ m : Pt, m.tree = p ∧ m.Ok isLower
  | .one h, hu => pt_of_one h hu
  | .chain h ha hne, hu => by
    simp only [usualPat, usualPats] at hu
    obtain ⟨m, rfl, hok⟩ := pt_of_one h hu.1
    obtain ⟨ms, rfl, hoks, hany⟩ := pts_of_alts ha hu.2
    refine ⟨.any (Pt.closed m :: ms), by simp [Pt.tree, Pt.trees, closed_tree], ?_, ?_, closed_ok hok, hoks⟩
    · cases ms with
      | nil => exact absurd rfl hne
      | cons => simp
    · intro t ht
      rcases List.mem_cons.1 ht with rfl | ht
      · exact closed_isAny m
      · exact hany t ht
theorem pts_of_alts {t : Str} {ps : List Target} : SpeltAlts isLower t ps → usualPats isLower ps →
    ∃ ms, Pt.trees ms = ps ∧ Pt.Oks isLower ms ∧ ∀ m ∈ ms, m.isAny = false
  | .nil, _ => ⟨[], rfl, trivial, by simp⟩
  | .cons _ h ha, hu => by
    simp only [usualPats] at hu
    obtain ⟨m, rfl, hok⟩ := pt_of_one h hu.1
    obtain ⟨ms, rfl, hoks, hany⟩ := pts_of_alts ha hu.2
    refine ⟨Pt.closed m :: ms, by simp [Pt.trees, closed_tree], ⟨closed_ok hok, hoks⟩, ?_⟩
    intro t ht
    rcases List.mem_cons.1 ht with rfl | ht
    · exact closed_isAny m
    · exact hany t ht
theorem pt_of_one {t : Str} {p : Target} : SpeltOne isLower t p → usualPat isLower p → ∃ m : Pt, m.tree = p ∧ m.Ok isLower
  | .str (s := s) h, _ => ⟨.str s, rfl, h⟩
  | .chr (s := s) h, _ => ⟨.chr s, rfl, h⟩
  | .num (s := s) h, _ => ⟨.num s, rfl, h⟩
  | .bool h, _ => by
    rcases h with rfl | rfl
    · exact ⟨.bool true, rfl, trivial⟩
    · exact ⟨.bool false, rfl, trivial⟩
  | .name (n := n) hn h1 h2, hu => by
    simp only [usualPat] at hu
    exact ⟨.var n, rfl, ⟨hn, hu.1, hu.2⟩, h1, h2⟩
  | .path h, hu => by
    simp only [usualPat] at hu
    obtain ⟨root, q, hq, rfl, _⟩ := patPath_of h hu
    exact ⟨.path root q, rfl, hq⟩
  | .unit _ _, _ => ⟨.tup [], rfl, by simp, trivial⟩
  | .paren _ h _, hu => pt_of h hu
  | .tuple _ h hm _ _, hu => by
    simp only [usualPat, usualPats] at hu
    obtain ⟨m, rfl, hok⟩ := pt_of h hu.2.2.1
    obtain ⟨ms, rfl, hoks⟩ := pts_of_more hm hu.2.2.2
    refine ⟨.tup (m :: ms), rfl, ?_, hok, hoks⟩
    have := hu.1 trivial
    cases ms <;> simp [Pt.trees] at this ⊢
  | .tuplePath h _ hb, hu => by
    simp only [usualPat] at hu
    obtain ⟨root, q, hq, rfl, _⟩ := patPath_of h hu.2.1
    obtain ⟨ms, rfl, hoks⟩ := pts_of hb hu.2.2
    exact ⟨.tupOf root q false ms, rfl, hq, hoks⟩
  | .structPath h _ hb, hu => by
    simp only [usualPat] at hu
    obtain ⟨root, q, hq, rfl, _⟩ := patPath_of h hu.1
    obtain ⟨ms, rfl, hoks⟩ := fds_of hb hu.2
    exact ⟨.recOf root q false ms, rfl, hq, hoks⟩
theorem pts_of {t : Str} {ps : List Target} : SpeltPats isLower t ps → usualPats isLower ps →
    ∃ ms, Pt.trees ms = ps ∧ Pt.Oks isLower ms
  | .none _, _ => ⟨[], rfl, trivial⟩
  | .some _ h hm _ _, hu => by
    simp only [usualPats] at hu
    obtain ⟨m, rfl, hok⟩ := pt_of h hu.1
    obtain ⟨ms, rfl, hoks⟩ := pts_of_more hm hu.2
    exact ⟨m :: ms, rfl, hok, hoks⟩
theorem pts_of_more {t : Str} {ps : List Target} : SpeltMorePats isLower t ps → usualPats isLower ps →
    ∃ ms, Pt.trees ms = ps ∧ Pt.Oks isLower ms
  | .nil, _ => ⟨[], rfl, trivial⟩
  | .cons _ h hm, hu => by
    simp only [usualPats] at hu
    obtain ⟨m, rfl, hok⟩ := pt_of h hu.1
    obtain ⟨ms, rfl, hoks⟩ := pts_of_more hm hu.2
    exact ⟨m :: ms, rfl, hok, hoks⟩
theorem fds_of {t : Str} {fs : List (Str × Target)} : SpeltFields isLower t fs → usualFields isLower fs →
    ∃ ms, Fd.trees ms = fs ∧ Fd.Oks isLower ms
  | .none _, _ => ⟨[], rfl, trivial⟩
  | .some _ h hm _ _, hu => by
    simp only [usualFields] at hu
    obtain ⟨m, rfl, hok⟩ := fd_of h hu.1
    obtain ⟨ms, rfl, hoks⟩ := fds_of_more hm hu.2
    exact ⟨m :: ms, rfl, hok, hoks⟩
theorem fds_of_more {t : Str} {fs : List (Str × Target)} : SpeltMoreFields isLower t fs → usualFields isLower fs →
    ∃ ms, Fd.trees ms = fs ∧ Fd.Oks isLower ms
  | .nil, _ => ⟨[], rfl, trivial⟩
  | .cons _ h hm, hu => by
    simp only [usualFields] at hu
    obtain ⟨m, rfl, hok⟩ := fd_of h hu.1
    obtain ⟨ms, rfl, hoks⟩ := fds_of_more hm hu.2
    exact ⟨m :: ms, rfl, hok, hoks⟩
theorem fd_of {t : Str} {f : Str × Target} : SpeltField isLower t f → usualPat isLower f.2 → ∃ m : Fd, m.tree = f ∧ m.Ok isLower
  | .short (n := n) hn h1 h2, _ => ⟨.short n, rfl, hn, h1, h2⟩
  | .long (n := n) hn _ h, hu => by
    obtain ⟨m, rfl, hok⟩ := pt_of h hu
    exact ⟨.long n m, rfl, hn, hok⟩
end

/-! ### Arguments, filters, conditions -/

theorem first_tree : ∀ m : Tm, firstWord m.tree = m.first := by
  intro m
  fun_induction Tm.first m <;> simp_all [Tm.tree, firstWord, Spec.group, Tm.endTree]
  rename_i t h1 h2 h3 h4 h5 h6 h7 h8 h9 h10 h11
  cases t with
  | path root p => cases root <;> cases p <;> simp_all [Tm.tree, firstWord]
  | mac root p => cases root <;> cases p <;> simp_all [Tm.tree, firstWord]
  | bool b => cases b <;> simp_all
  | range i a b => cases i <;> cases a <;> simp_all [Tm.tree, Tm.endTree, firstWord]
  | _ => simp_all [Tm.tree, firstWord]

theorem openRange_tree (m : Tm) : openRange m.tree = m.endsOpen := by
  unfold openRange Tm.endsOpen
  cases m with
  | range i a b => cases b <;> simp [Tm.tree, Tm.endTree]
  | _ => simp [Tm.tree]

variable (ht : isLower 't' = true) (hf : isLower 'f' = true)
include ht hf

omit ht hf in
theorem argsList_of {b : Bool} {t : Str} {es : List Expr} (h : SpeltArgs isLower b t es) : ∀ e ∈ es, ∃ u, SpeltArg isLower b u e := by
  have more : ∀ {t es}, SpeltMore isLower b t es → ∀ e ∈ es, ∃ u, SpeltArg isLower b u e := by
    intro t es
    induction es generalizing t with
    | nil => intro _ _ h; cases h
    | cons e es ih =>
      intro h a ha
      cases h with
      | cons _ h _ hm =>
        rcases List.mem_cons.1 ha with rfl | ha
        · exact ⟨_, h⟩
        · exact ih hm a ha
  cases h with
  | mk _ _ h _ =>
    cases h with
    | nil => intro _ h; cases h
    | cons _ h _ hm =>
      intro a ha
      rcases List.mem_cons.1 ha with rfl | ha
      · exact ⟨_, h⟩
      · exact more hm a ha

omit ht hf in
theorem tree_not_named (m : Tm) (n : Str) (e : Expr) : m.tree ≠ .namedArg n e := by
  cases m <;> simp [Tm.tree]

theorem args_of : ∀ es : List Expr, (∀ e ∈ es, ∃ u, SpeltArg isLower true u e) → writableArgs es →
    ∃ args named, (Tm.trees args ++ named.map fun a : Str × Tm => Expr.namedArg a.1 a.2.tree) = es ∧ ArgsOk isLower args named
  | [], _, _ => ⟨[], [], rfl, trivial, by simp, by simp⟩
  | e :: es, h, hu => by
    obtain ⟨u, he⟩ := h e (by simp)
    cases he with
    | plain he =>
      have hu' : usual e ∧ writableArgs es := by
        cases e
        case namedArg => cases he
        all_goals exact hu
      obtain ⟨args, named, rfl, h1, h2, h3⟩ := args_of es (fun a ha => h a (by simp [ha])) hu'.2
      obtain ⟨m, rfl, hok, _⟩ := tm_of ht hf he hu'.1
      exact ⟨m :: args, named, rfl, ⟨hok, h1⟩, h2, h3⟩
    | @named n _ _ _ e hn _ _ he =>
      simp only [writableArgs] at hu
      obtain ⟨args, named, rfl, h1, h2, h3⟩ := args_of es (fun a ha => h a (by simp [ha])) hu.2.2
      obtain ⟨m, rfl, hok, _⟩ := tm_of ht hf he hu.1
      have ha : args = [] := by
        cases args with
        | nil => rfl
        | cons a args =>
          obtain ⟨k, v, hk, _⟩ := hu.2.1 a.tree (by simp [Tm.trees])
          exact absurd hk (tree_not_named a k v)
      subst ha
      refine ⟨[], (n, m) :: named, rfl, trivial, ?_, ?_⟩
      · intro a ha
        rcases List.mem_cons.1 ha with rfl | ha
        · exact ⟨hn, hok⟩
        · exact h2 a ha
      · simp only [List.map_cons, List.nodup_cons]
        refine ⟨?_, h3⟩
        intro hmem
        obtain ⟨a, ha, hae⟩ := List.mem_map.1 hmem
        obtain ⟨k, v, hk, hne⟩ := hu.2.1 (.namedArg a.1 a.2.tree) (by
          simp only [Tm.trees, List.nil_append]
          exact List.mem_map.2 ⟨a, ha, rfl⟩)
        cases hk
        exact hne hae

theorem filters_of {t : Str} {f : FilterApp} (h : SpeltFilters isLower t f) : usualAll f.args →
    ∃ g gs, Flt.chain g gs = f ∧ g.Ok isLower ∧ ∀ x ∈ gs, Flt.Ok isLower x := by
  have opt : ∀ {a es}, SpeltOptArgs isLower false a es → usualAll es → ∃ ms, Tm.trees ms = es ∧ Tm.Oks isLower ms := by
    intro a es h hu
    cases h with
    | none => exact ⟨[], rfl, trivial⟩
    | some h => exact tms_of_args ht hf h rfl hu
  induction h with
  | @one t n a es _ hn ha =>
    intro hu
    obtain ⟨ms, rfl, hok⟩ := opt ha hu
    exact ⟨⟨n, ms⟩, [], rfl, ⟨hn, hok⟩, by simp⟩
  | @more t u n a f es _ _ hn ha ih =>
    intro hu
    simp only [usualAll, usual] at hu
    obtain ⟨g, gs, rfl, hg, hgs⟩ := ih hu.1
    obtain ⟨ms, rfl, hok⟩ := opt ha hu.2
    refine ⟨g, gs ++ [⟨n, ms⟩], ?_, hg, ?_⟩
    · simp [Flt.chain, List.foldl_append]
    · intro x hx
      rcases List.mem_append.1 hx with hx | hx
      · exact hgs x hx
      · rw [List.mem_singleton.1 hx]
        exact ⟨hn, hok⟩

theorem expr_of {t : Str} {e : Expr} (h : PaddedExpr isLower t e) (hu : usual e) : ∃ m : Tm, m.tree = e ∧ m.Ok isLower := by
  obtain ⟨x, _, hx⟩ := h
  obtain ⟨m, h1, h2, _⟩ := tm_of ht hf hx hu
  exact ⟨m, h1, h2⟩

omit ht hf in
theorem pat_of {t : Str} {p : Target} (h : PaddedPat isLower t p) (hu : usualPat isLower p) :
    ∃ m : Pt, m.tree = p ∧ m.Ok isLower := by
  obtain ⟨x, _, hx⟩ := h
  exact pt_of hx hu

theorem test_of {t : Str} {c : CondTest} (h : SpeltCond isLower t c) (hu : usualTest isLower c) :
    ∃ m : DocTest, m.tree = c ∧ m.Ok isLower := by
  cases h with
  | plain h =>
    obtain ⟨m, rfl, hok⟩ := expr_of ht hf h hu.1
    have h2 := hu.2
    rw [first_tree] at h2
    exact ⟨.plain m, rfl, hok, h2⟩
  | pat _ hp _ h =>
    obtain ⟨p, rfl, hpo⟩ := pat_of hp hu.1
    obtain ⟨m, rfl, hok⟩ := expr_of ht hf h hu.2
    exact ⟨.bind false p m, rfl, hpo, hok⟩

theorem filterCond_of {t : Str} {c : Option Expr} (h : SpeltFilterCond isLower t c) (hu : usualOpt c) :
    ∃ m : Option Tm, m.map Tm.tree = c ∧ ∀ e, m = some e → e.Ok isLower := by
  cases h with
  | none => exact ⟨none, rfl, by simp⟩
  | some _ h =>
    simp only [usualOpt] at hu
    obtain ⟨m, rfl, hok⟩ := expr_of ht hf h hu
    exact ⟨some m, rfl, by simpa using hok⟩

omit ht hf in
theorem params_of {t : Str} {ps : List Str} (h : SpeltParams t ps) : ∀ p ∈ ps, Name p := by
  have names : ∀ {t ps}, NameList t ps → ∀ p ∈ ps, Name p := by
    intro t ps h
    induction h with
    | nil => simp
    | one _ hn => simpa using hn
    | cons _ hn _ ih =>
      intro p hp
      rcases List.mem_cons.1 hp with rfl | hp
      · exact hn
      · exact ih p hp
  cases h with
  | none => simp
  | some _ _ h _ _ => exact names h

end

end Askama
