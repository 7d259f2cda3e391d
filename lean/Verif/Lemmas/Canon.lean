import Verif.Spec.Canon
import Verif.Lemmas.PrecTree

/-!
# Accepted expressions have a text in the usual layout
-/

namespace Askama

open Spec

/-- A term for an expression of strength `q`. -/
def HasTm (isLower : Char → Bool) (q : Nat) (e : Expr) : Prop :=
  ∃ m : Tm, m.tree = e ∧ m.Ok isLower ∧ (0 < q → q ≤ 12 → m.loose (q - 1) = false)

theorem loose_iff {m : Tm} (hr : Tm.isRange m = false) (q : Nat) : m.loose q = false ↔ q ≤ m.prec := by
  cases m
  case range => cases hr
  all_goals exact decide_eq_false_iff_not.trans Nat.not_lt

theorem notRange {m : Tm} {q : Nat} (h : m.loose q = false) : Tm.isRange m = false := by
  cases m
  case range => cases h
  all_goals rfl

theorem endsNumber_tree (m : Tm) : endsNumber m.tree = m.endsNum := by
  cases m <;> simp [Tm.tree, endsNumber, Tm.endsNum]

theorem endsFilter_tree : ∀ m : Tm, m.endsFilter = true → m.loose 3 = false → endsBare m.tree = true
  | .filter e n es, h, _ => by
    cases es with
    | nil => simp [Tm.tree, endsBare, Tm.trees]
    | cons => simp [Tm.endsFilter] at h
  | .bin op a b, h, hl => by
    simp only [Tm.endsFilter, Bool.and_eq_true, Bool.not_eq_true'] at h
    have h3 : b.loose 3 = false := by
      have h2 : 3 ≤ op.prec := (loose_iff rfl 3).1 hl
      have h4 := (loose_iff (notRange h.1) _).1 h.1
      exact (loose_iff (notRange h.1) _).2 (by omega)
    simp only [Tm.tree, endsBare, h.1, Spec.group]
    exact endsFilter_tree b h.2 h3
  | .range .., _, hl => by simp [Tm.loose] at hl
  | .var _, h, _ | .num _, h, _ | .str _, h, _ | .chr _, h, _ | .bool _, h, _ | .path .., h, _ | .array _, h, _
  | .tuple _, h, _ | .attr .., h, _ | .index .., h, _ | .call .., h, _ | .mac .., h, _ | .parens _, h, _ | .try_ _, h, _
  | .unary .., h, _ => by simp [Tm.endsFilter] at h

theorem tm_of_path {isLower : Char → Bool} {t : Str} {p : List Str} (h : PathSpelt isLower t p) :
    ∃ root q, PathTm isLower root q ∧ p = if root then [] :: q else q := by
  have seg : ∀ {t p}, SegSpelt t p → ∀ s ∈ p, Name s := by
    intro t p h
    induction h with
    | nil => simp
    | cons _ _ hn _ ih => 
      intro s hs
      rcases List.mem_cons.1 hs with rfl | hs
      · exact hn
      · exact ih s hs
  cases h with
  | @root w v n t p _ _ hn hs =>
    refine ⟨true, n :: p, ⟨?_, ?_⟩, rfl⟩
    · intro s hs'
      rcases List.mem_cons.1 hs' with rfl | hs'
      · exact hn
      · exact seg hs s hs'
    · cases p with
      | nil => exact .inr ⟨rfl, .inl rfl⟩
      | cons => exact .inl (by simp)
  | @long w n t p _ hn hs hne =>
    refine ⟨false, n :: p, ⟨?_, ?_⟩, rfl⟩
    · intro s hs'
      rcases List.mem_cons.1 hs' with rfl | hs'
      · exact hn
      · exact seg hs s hs'
    · cases p with
      | nil => exact absurd rfl hne
      | cons => exact .inl (by simp)
  | @one w n _ hn hl =>
    refine ⟨false, [n], ⟨by simpa using hn, .inr ⟨rfl, .inr ?_⟩⟩, rfl⟩
    intro s c hs hc
    simp at hs
    subst hs
    exact hl c hc

theorem isDigits_name {n : Str} (h : isDigits n = true) : n ≠ [] := by
  rintro rfl
  simp [isDigits] at h

section
variable {isLower : Char → Bool} (ht : isLower 't' = true) (hf : isLower 'f' = true)

theorem tight {m : Tm} (h : 11 ≤ m.prec) (hr : Tm.isRange m = false) {q : Nat} (hq : q ≤ 12) : m.loose (q - 1) = false :=
  (loose_iff hr _).2 (by omega)

theorem bin_sym {o o' : BinOp} (h : o.sym = o'.sym) : o = o' := by
  cases o <;> cases o' <;> first | rfl | (exact absurd h (by decide))

include ht hf

mutual
theorem tm_of {q : Nat} {t : Str} {e : Expr} : Spelt isLower q t e → usual e → HasTm isLower q e
  | .num (s := s) h, _ => ⟨.num s, rfl, h, fun _ hq => tight (by simp [Tm.prec]) rfl hq⟩
  | .str (s := s) h, _ => ⟨.str s, rfl, h, fun _ hq => tight (by simp [Tm.prec]) rfl hq⟩
  | .chr (s := s) h, _ => ⟨.chr s, rfl, h, fun _ hq => tight (by simp [Tm.prec]) rfl hq⟩
  | .bool (n := n) h hn, _ => by
    obtain ⟨w, _, _, _, _⟩ := h
    rcases hn with rfl | rfl
    · exact ⟨.bool true, rfl, ⟨ht, hf⟩, fun _ hq => tight (by simp [Tm.prec]) rfl hq⟩
    · exact ⟨.bool false, rfl, ⟨ht, hf⟩, fun _ hq => tight (by simp [Tm.prec]) rfl hq⟩
  | .var (n := n) h h1 h2, _ => by
    obtain ⟨w, _, _, hn, hl⟩ := h
    exact ⟨.var n, rfl, ⟨hn, hl, h1, h2⟩, fun _ hq => tight (by simp [Tm.prec]) rfl hq⟩
  | .path h, _ => by
    obtain ⟨root, p, hp, rfl⟩ := tm_of_path h
    exact ⟨.path root p, rfl, hp, fun _ hq => tight (by simp [Tm.prec]) rfl hq⟩
  | .array _ _ hl _, hu => by
    obtain ⟨ms, rfl, hok⟩ := tms_of_list hl rfl (by simpa only [usual] using hu)
    exact ⟨.array ms, rfl, hok, fun _ hq => tight (by simp [Tm.prec]) rfl hq⟩
  | .unit _ _, hu => ⟨.tuple [], rfl, trivial, fun _ hq => tight (by simp [Tm.prec]) rfl hq⟩
  | .group _ _ h _, hu => by
    obtain ⟨m, rfl, hok, _⟩ := tm_of h (by simpa only [usual] using hu)
    exact ⟨.parens m, rfl, hok, fun _ hq => tight (by simp [Tm.prec]) rfl hq⟩
  | .tuple _ _ h _ hm _, hu => by
    simp only [usual, usualAll] at hu
    obtain ⟨m, rfl, hok, _⟩ := tm_of h hu.1
    obtain ⟨ms, rfl, hoks⟩ := tms_of_more hm rfl hu.2
    exact ⟨.tuple (m :: ms), rfl, ⟨hok, hoks⟩, fun _ hq => tight (by simp [Tm.prec]) rfl hq⟩
  | .attr (n := n) h _ _ _, hu => by
    simp only [usual] at hu
    obtain ⟨m, rfl, hok, hl⟩ := tm_of h hu.1
    have hl := hl (by omega) (by omega)
    refine ⟨.attr m n, by simp [Tm.tree, hl, Spec.group], ⟨hok, ?_⟩, fun _ hq => tight (by simp [Tm.prec]) rfl hq⟩
    rw [← endsNumber_tree]
    exact hu.2
  | .index h _ _ hk _, hu => by
    simp only [usual] at hu
    obtain ⟨m, rfl, hok, hl⟩ := tm_of h hu.1
    obtain ⟨k, rfl, hk, _⟩ := tm_of hk hu.2
    have hl := hl (by omega) (by omega)
    exact ⟨.index m k, by simp [Tm.tree, hl, Spec.group], ⟨hok, hk⟩, fun _ hq => tight (by simp [Tm.prec]) rfl hq⟩
  | .call h ha, hu => by
    simp only [usual] at hu
    obtain ⟨m, rfl, hok, hl⟩ := tm_of h hu.1
    obtain ⟨ms, rfl, hoks⟩ := tms_of_args ha rfl hu.2
    have hl := hl (by omega) (by omega)
    exact ⟨.call m ms, by simp [Tm.tree, hl, Spec.group], ⟨hok, hoks⟩, fun _ hq => tight (by simp [Tm.prec]) rfl hq⟩
  | .try_ h _, hu => by
    simp only [usual] at hu
    obtain ⟨m, rfl, hok, hl⟩ := tm_of h hu
    have hl := hl (by omega) (by omega)
    exact ⟨.try_ m, by simp [Tm.tree, hl, Spec.group], hok, fun _ hq => tight (by simp [Tm.prec]) rfl hq⟩
  | .mac (a := a) h _ _ _, hu => by
    simp only [usual] at hu
    rcases h with h | ⟨n, rfl, w, _, _, hn, hl⟩
    · obtain ⟨root, p, hp, rfl⟩ := tm_of_path h
      exact ⟨.mac root p a, rfl, ⟨.inl hp, hu.1⟩, fun _ hq => tight (by simp [Tm.prec]) rfl hq⟩
    · refine ⟨.mac false [n] a, rfl, ⟨.inr ⟨rfl, n, rfl, hn, hl, ?_⟩, hu.1⟩, fun _ hq => tight (by simp [Tm.prec]) rfl hq⟩
      simpa using hu.2
  | .unary (o := o) hq _ _ h, hu => by
    simp only [usual] at hu
    obtain ⟨m, rfl, hok, hl⟩ := tm_of h hu
    have hl := hl (by omega) (by omega)
    exact ⟨.unary o m, by simp [Tm.tree, hl, Spec.group], hok, fun _ _ => (loose_iff rfl _).2 (by simp [Tm.prec]; omega)⟩
  | .filter (n := n) hq h _ hn _, hu => by
    simp only [usual, usualAll] at hu
    obtain ⟨m, rfl, hok, hl⟩ := tm_of h hu.1
    have hl := hl (by omega) (by omega)
    exact ⟨.filter m n [], by simp [Tm.tree, hl, Spec.group, Tm.trees], ⟨hok, hn, trivial⟩,
      fun _ _ => (loose_iff rfl _).2 (by simp [Tm.prec]; omega)⟩
  | .filterArgs (n := n) hq h _ hn _ ha, hu => by
    simp only [usual, usualAll] at hu
    obtain ⟨m, rfl, hok, hl⟩ := tm_of h hu.1
    obtain ⟨ms, rfl, hoks⟩ := tms_of_args ha rfl hu.2
    have hl := hl (by omega) (by omega)
    exact ⟨.filter m n ms, by simp [Tm.tree, hl, Spec.group], ⟨hok, hn, hoks⟩,
      fun _ _ => (loose_iff rfl _).2 (by simp [Tm.prec]; omega)⟩
  | .bin (o := o) hq ha _ _ hb, hu => by
    simp only [usual] at hu
    obtain ⟨m, rfl, hok, hl⟩ := tm_of ha hu.1
    obtain ⟨k, rfl, hk, hr⟩ := tm_of hb hu.2.1
    have ho : o.prec ≤ 8 := by cases o <;> decide
    have hl := hl (by omega) (by omega)
    have hr := hr (by omega) (by omega)
    simp only [Nat.add_sub_cancel] at hl
    rw [show o.prec + 2 - 1 = o.prec + 1 by omega] at hr
    refine ⟨.bin o m k, by simp [Tm.tree, hl, hr, Spec.group], ⟨hok, hk, ?_⟩, fun _ _ => (loose_iff rfl _).2 (by simp [Tm.prec]; omega)⟩
    rintro rfl ⟨h3, hff⟩
    have := endsFilter_tree m hff h3
    rw [hu.2.2 rfl] at this
    cases this
  | .rangeFull (i := i) ha _ _ hb, hu => by
    simp only [usual, usualOpt] at hu
    obtain ⟨m, rfl, hok, hl⟩ := tm_of ha hu.1
    obtain ⟨k, rfl, hk, hr⟩ := tm_of hb hu.2
    have hl := hl (by omega) (by omega)
    have hr := hr (by omega) (by omega)
    exact ⟨.range i (some m) (some k), by simp [Tm.tree, Tm.endTree, hl, hr, Spec.group], ⟨hok, hk⟩, by omega⟩
  | .rangeFrom (i := i) ha _ _, hu => by
    simp only [usual, usualOpt] at hu
    obtain ⟨m, rfl, hok, hl⟩ := tm_of ha hu.1
    have hl := hl (by omega) (by omega)
    exact ⟨.range i (some m) none, by simp [Tm.tree, Tm.endTree, hl, Spec.group], ⟨hok, trivial⟩, by omega⟩
  | .rangeTo (i := i) _ _ hb, hu => by
    simp only [usual, usualOpt] at hu
    obtain ⟨k, rfl, hk, hr⟩ := tm_of hb hu.2
    have hr := hr (by omega) (by omega)
    exact ⟨.range i none (some k), by simp [Tm.tree, Tm.endTree, hr, Spec.group], ⟨trivial, hk⟩, by omega⟩
  | .rangeAll (i := i) _ _, _ => ⟨.range i none none, rfl, ⟨trivial, trivial⟩, by omega⟩
theorem tms_of_args {b : Bool} {t : Str} {es : List Expr} : SpeltArgs isLower b t es → b = false → usualAll es →
    ∃ ms, Tm.trees ms = es ∧ Tm.Oks isLower ms
  | .mk _ _ h _, hb, hu => tms_of_list h hb hu
theorem tm_of_arg {b : Bool} {t : Str} {e : Expr} : SpeltArg isLower b t e → b = false → usual e → HasTm isLower 0 e
  | .plain h, _, hu => tm_of h hu
theorem tms_of_list {b : Bool} {t : Str} {es : List Expr} : SpeltList isLower b t es → b = false → usualAll es →
    ∃ ms, Tm.trees ms = es ∧ Tm.Oks isLower ms
  | .nil, _, _ => ⟨[], rfl, trivial⟩
  | .cons _ h _ hm, hb, hu => by
    simp only [usualAll] at hu
    obtain ⟨m, rfl, hok, _⟩ := tm_of_arg h hb hu.1
    obtain ⟨ms, rfl, hoks⟩ := tms_of_more hm hb hu.2
    exact ⟨m :: ms, rfl, hok, hoks⟩
theorem tms_of_more {b : Bool} {t : Str} {es : List Expr} : SpeltMore isLower b t es → b = false → usualAll es →
    ∃ ms, Tm.trees ms = es ∧ Tm.Oks isLower ms
  | .nil, _, _ => ⟨[], rfl, trivial⟩
  | .cons _ h _ hm, hb, hu => by
    simp only [usualAll] at hu
    obtain ⟨m, rfl, hok, _⟩ := tm_of_arg h hb hu.1
    obtain ⟨ms, rfl, hoks⟩ := tms_of_more hm hb hu.2
    exact ⟨m :: ms, rfl, hok, hoks⟩
end

end

end Askama
