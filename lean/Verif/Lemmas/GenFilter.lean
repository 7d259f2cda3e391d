import Verif.Lemmas.GenLet

/-! Filter blocks: the generated code does what the template means. -/

namespace Askama

open Askama.Spec Askama.Gen

variable {U : Type}

/-! ## The text as an argument -/

section

variable {W : World U} {I : GenInput}

/-- The first argument of a filter counts by its value, if it is not a string literal. -/
theorem evalE_filter_head {st : Store U} {hole : Option (Val U)} (name : Str) {a a' : Expr} (rest : List Expr)
    (h : evalE W I st hole a = evalE W I st hole a') (h1 : ∀ s, a ≠ .strLit s) (h2 : ∀ s, a' ≠ .strLit s) :
    evalE W I st hole (.filter name (a :: rest)) = evalE W I st hole (.filter name (a' :: rest)) := by
  have hes : evalEs W I st hole (a :: rest) = evalEs W I st hole (a' :: rest) := by simp only [evalEs, h]
  unfold evalE
  by_cases c1 : name = c!"as_ref"
  · simp only [c1, if_true]
    cases rest with
    | nil => exact h
    | cons b rest => rfl
  rw [if_neg c1, if_neg c1]
  by_cases c2 : name = c!"deref"
  · simp only [c2, if_true]
    cases rest with
    | nil => simp only [h]
    | cons b rest => rfl
  rw [if_neg c2, if_neg c2]
  by_cases c3 : name = c!"escape" ∨ name = c!"e"
  · rw [if_pos c3, if_pos c3]
    cases rest with
    | nil => simp only [h]
    | cons b rest =>
      cases rest with
      | nil => cases b <;> first | rfl | simp only [h]
      | cons c rest => cases b <;> rfl
  rw [if_neg c3, if_neg c3]
  by_cases c4 : name = c!"fmt"
  · simp only [c4, if_true]
    cases rest with
    | nil => rfl
    | cons b rest =>
      cases rest with
      | nil => cases b <;> first | rfl | simp only [h]
      | cons c rest => cases b <;> rfl
  rw [if_neg c4, if_neg c4]
  by_cases c5 : name = c!"format"
  · simp only [c5, if_true]
    cases a <;> first | exact absurd rfl (h1 _) | (cases a' <;> first | exact absurd rfl (h2 _) | rfl)
  rw [if_neg c5, if_neg c5, hes]
  by_cases c6 : name = c!"join"
  · rw [if_pos c6, if_pos c6]
  rw [if_neg c6, if_neg c6]
  by_cases c7 : name = c!"json" ∨ name = c!"tojson"
  · rw [if_pos c7, if_pos c7]
    cases rest with
    | nil => simp only [h]
    | cons b rest => rfl
  rw [if_neg c7, if_neg c7]
  by_cases c8 : name = c!"safe"
  · rw [if_pos c8, if_pos c8]
    cases rest with
    | nil => simp only [h]
    | cons b rest => rfl
  rw [if_neg c8, if_neg c8]

/-- Two lists of arguments that differ in the value of the first one only. -/
def SameArgs (W : World U) (I : GenInput) (st : Store U) (hole : Option (Val U)) (l l' : List Expr) : Prop :=
  ∃ a a' rest, l = a :: rest ∧ l' = a' :: rest ∧ evalE W I st hole a = evalE W I st hole a' ∧ (∀ s, a ≠ .strLit s)
    ∧ ∀ s, a' ≠ .strLit s

mutual
theorem insertFirst_same (st : Store U) (hole : Option (Val U)) (x : Str) : (args : List Expr) →
    SameArgs W I st hole (insertFirst x args) (fillHole args)
  | [] => ⟨.generated x, .generated [], [], by simp [insertFirst], by simp [fillHole], by simp [evalE], by simp, by simp⟩
  | e :: rest => by
    obtain ⟨a, a', r, h1, h2, h3, h4, h5⟩ := insertInto_same st hole x e
    exact ⟨a, a', r ++ rest, by simp [insertFirst, h1], by simp [fillHole, h2], h3, h4, h5⟩
theorem insertInto_same (st : Store U) (hole : Option (Val U)) (x : Str) : (e : Expr) →
    SameArgs W I st hole (insertInto x e) (fillFirst e)
  | .filter name args => by
    obtain ⟨a, a', r, h1, h2, h3, h4, h5⟩ := insertFirst_same st hole x args
    refine ⟨.filter name (insertFirst x args), .filter name (fillHole args), [], by simp only [insertInto],
      by simp only [fillFirst], ?_, by simp, by simp⟩
    rw [h1, h2]
    exact evalE_filter_head name r h3 h4 h5
  | .boolLit _ | .numLit _ | .strLit _ | .charLit _ | .path _ | .rustMacro _ _ | .generated _ | .var _ | .array _
  | .attr _ _ | .index _ _ | .namedArg _ _ | .unary _ _ | .binop _ _ _ | .range _ _ _ | .group _ | .tuple _
  | .call _ _ | .try_ _ => by
    simp only [insertInto, fillFirst]
    exact ⟨.generated x, .generated [], _, rfl, rfl, by simp [evalE], by simp, by simp⟩
end

/-- The name of the variable that holds the text does not matter. -/
theorem evalE_insertFirst (st : Store U) (hole : Option (Val U)) (x : Str) (name : Str) (args : List Expr) :
    evalE W I st hole (.filter name (insertFirst x args)) = evalE W I st hole (.filter name (fillHole args)) := by
  obtain ⟨a, a', r, h1, h2, h3, h4, h5⟩ := insertFirst_same (W := W) (I := I) st hole x args
  rw [h1, h2]
  exact evalE_filter_head name r h3 h4 h5

end

mutual
theorem insertFirst_vars (x : Str) : (args : List Expr) → Expr.varsList (insertFirst x args) = Expr.varsList args
  | [] => by simp [insertFirst, Expr.varsList, Expr.vars]
  | e :: rest => by
    have := insertInto_vars x e
    have happ : ∀ a b, Expr.varsList (a ++ b) = Expr.varsList a ++ Expr.varsList b := by
      intro a b
      induction a with
      | nil => simp [Expr.varsList]
      | cons c a ih => simp [Expr.varsList, ih]
    simp only [insertFirst, happ, this, Expr.varsList]
theorem insertInto_vars (x : Str) : (e : Expr) → Expr.varsList (insertInto x e) = Expr.vars e
  | .filter name args => by
    simp only [insertInto, Expr.varsList, Expr.vars, insertFirst_vars x args, List.append_nil]
  | .boolLit _ | .numLit _ | .strLit _ | .charLit _ | .path _ | .rustMacro _ _ | .generated _ | .var _ | .array _
  | .attr _ _ | .index _ _ | .namedArg _ _ | .unary _ _ | .binop _ _ _ | .range _ _ _ | .group _ | .tuple _
  | .call _ _ | .try_ _ => by simp [insertInto, Expr.varsList, Expr.vars]
end

mutual
theorem exprOk_hole {R : List Str × List Str} (x : Str) : (e : Expr) → exprOk R none e = true → exprOk R (some x) e = true
  | .boolLit _, _ | .numLit _, _ | .strLit _, _ | .charLit _, _ | .path [], _ | .path (_ :: _ :: _), _
  | .rustMacro _ _, _ => by simp [exprOk]
  | .path [_], h => by simpa only [exprOk] using h
  | .var _, h => by simpa only [exprOk] using h
  | .array es, h | .filter _ es, h | .tuple es, h => by
    simp only [exprOk] at h ⊢; exact exprListOk_hole x es h
  | .attr e _, h | .namedArg _ e, h | .unary _ e, h | .group e, h | .try_ e, h => by
    simp only [exprOk] at h ⊢; exact exprOk_hole x e h
  | .index a b, h | .binop _ a b, h => by
    simp only [exprOk, Bool.and_eq_true] at h ⊢; exact ⟨exprOk_hole x a h.1, exprOk_hole x b h.2⟩
  | .range _ a b, h => by
    simp only [exprOk, Bool.and_eq_true] at h ⊢; exact ⟨exprOptOk_hole x a h.1, exprOptOk_hole x b h.2⟩
  | .call f es, h => by
    simp only [exprOk, Bool.and_eq_true] at h ⊢
    exact ⟨⟨h.1.1, exprOk_hole x f h.1.2⟩, exprListOk_hole x es h.2⟩
  | .generated s, h => by simp [exprOk] at h
termination_by e => sizeOf e
theorem exprListOk_hole {R : List Str × List Str} (x : Str) : (es : List Expr) → exprListOk R none es = true →
    exprListOk R (some x) es = true
  | [], _ => by simp [exprListOk]
  | e :: es, h => by
    simp only [exprListOk, Bool.and_eq_true] at h ⊢; exact ⟨exprOk_hole x e h.1, exprListOk_hole x es h.2⟩
termination_by es => sizeOf es
theorem exprOptOk_hole {R : List Str × List Str} (x : Str) : (e : Option Expr) → exprOptOk R none e = true →
    exprOptOk R (some x) e = true
  | none, _ => by simp [exprOptOk]
  | some e, h => by simp only [exprOptOk] at h ⊢; exact exprOk_hole x e h
termination_by e => sizeOf e
end

theorem exprListOk_append {R : List Str × List Str} {v : Option Str} (a b : List Expr) :
    exprListOk R v (a ++ b) = (exprListOk R v a && exprListOk R v b) := by
  induction a with
  | nil => simp [exprListOk]
  | cons e a ih => simp [exprListOk, ih, Bool.and_assoc]

mutual
theorem insertFirst_ok {R : List Str × List Str} (x : Str) : (args : List Expr) → exprListOk R none args = true →
    exprListOk R (some x) (insertFirst x args) = true
  | [], _ => by simp [insertFirst, exprListOk, exprOk]
  | e :: rest, h => by
    simp only [exprListOk, Bool.and_eq_true] at h
    simp only [insertFirst, exprListOk_append, Bool.and_eq_true]
    exact ⟨insertInto_ok x e h.1, exprListOk_hole x rest h.2⟩
theorem insertInto_ok {R : List Str × List Str} (x : Str) : (e : Expr) → exprOk R none e = true →
    exprListOk R (some x) (insertInto x e) = true
  | .filter name args, h => by
    simp only [exprOk] at h
    simp only [insertInto, exprListOk, exprOk, Bool.and_true]
    exact insertFirst_ok x args h
  | .boolLit _, h | .numLit _, h | .strLit _, h | .charLit _, h | .path _, h | .rustMacro _ _, h | .generated _, h
  | .var _, h | .array _, h | .attr _ _, h | .index _ _, h | .namedArg _ _, h | .unary _ _, h | .binop _ _ _, h
  | .range _ _ _, h | .group _, h | .tuple _, h | .call _ _, h | .try_ _, h => by
    simp only [insertInto, exprListOk, Bool.and_true, Bool.and_eq_true]
    exact ⟨by simp [exprOk], exprOk_hole x _ h⟩
end

mutual
/-- No name made up for a filter block is in an expression, and no path that is refused. -/
theorem exprOk_vars {R : List Str × List Str} {v : Option Str} : (e : Expr) → exprOk R v e = true → 
    ∀ y ∈ Expr.vars e, internal y = false ∧ (pathLike y = true → y ∉ R.2)
  | .boolLit _, _ | .numLit _, _ | .strLit _, _ | .charLit _, _ | .path [], _ | .path (_ :: _ :: _), _
  | .rustMacro _ _, _ | .generated _, _ => by simp [Expr.vars]
  | .path [n], h => by
    simp only [exprOk, Bool.and_eq_true, Bool.not_eq_true', List.contains_eq_mem, decide_eq_false_iff_not] at h
    simp only [Expr.vars, List.mem_singleton, forall_eq]
    exact ⟨internal_of_claimed h.1.2, fun _ => h.2⟩
  | .var _, h => by
    simp only [exprOk, strange, Bool.not_eq_true', Bool.or_eq_false_iff] at h
    simp only [Expr.vars, List.mem_singleton, forall_eq]
    exact ⟨h.1, fun hp => by rw [h.2] at hp; cases hp⟩
  | .array es, h | .filter _ es, h | .tuple es, h => by
    simp only [exprOk, Expr.vars] at h ⊢; exact exprListOk_vars es h
  | .attr e _, h | .namedArg _ e, h | .unary _ e, h | .group e, h | .try_ e, h => by
    simp only [exprOk, Expr.vars] at h ⊢; exact exprOk_vars e h
  | .index a b, h | .binop _ a b, h => by
    simp only [exprOk, Bool.and_eq_true, Expr.vars, List.mem_append] at h ⊢
    rintro y (hy | hy)
    · exact exprOk_vars a h.1 y hy
    · exact exprOk_vars b h.2 y hy
  | .range _ a b, h => by
    simp only [exprOk, Bool.and_eq_true, Expr.vars, List.mem_append] at h ⊢
    rintro y (hy | hy)
    · exact exprOptOk_vars a h.1 y hy
    · exact exprOptOk_vars b h.2 y hy
  | .call f es, h => by
    simp only [exprOk, Bool.and_eq_true, Expr.vars, List.mem_append] at h ⊢
    rintro y (hy | hy)
    · exact exprOk_vars f h.1.2 y hy
    · exact exprListOk_vars es h.2 y hy
termination_by e => sizeOf e
theorem exprListOk_vars {R : List Str × List Str} {v : Option Str} : (es : List Expr) → exprListOk R v es = true →
    ∀ y ∈ Expr.varsList es, internal y = false ∧ (pathLike y = true → y ∉ R.2)
  | [], _ => by simp [Expr.varsList]
  | e :: es, h => by
    simp only [exprListOk, Bool.and_eq_true, Expr.varsList, List.mem_append] at h ⊢
    rintro y (hy | hy)
    · exact exprOk_vars e h.1 y hy
    · exact exprListOk_vars es h.2 y hy
termination_by es => sizeOf es
theorem exprOptOk_vars {R : List Str × List Str} {v : Option Str} : (e : Option Expr) → exprOptOk R v e = true →
    ∀ y ∈ Expr.varsOpt e, internal y = false ∧ (pathLike y = true → y ∉ R.2)
  | none, _ => by simp [Expr.varsOpt]
  | some e, h => by simp only [exprOptOk, Expr.varsOpt] at h ⊢; exact exprOk_vars e h
termination_by e => sizeOf e
end

/-! ## An unused name -/

theorem filterVar_inj {a b : Nat} (h : filterVar a = filterVar b) : a = b := by
  have h2 : Nat.toDigits 10 a = Nat.toDigits 10 b := List.append_cancel_left h
  have := congrArg (Nat.ofDigitChars 10 · 0) h2
  simpa [Nat.ofDigitChars_ten_toDigits] using this

theorem filterVar_internal (k : Nat) : internal (filterVar k) = true := by
  simp [internal, filterVar]

theorem internal_not_keyword {x : Str} (h : internal x = true) : x ∉ rustKeywords ∧ x ≠ c!"_" := by
  constructor
  · intro hk
    have : ∀ k ∈ rustKeywords, internal k = false := by decide
    rw [this x hk] at h; cases h
  · rintro rfl
    exact absurd h (by decide)

theorem freeFilterVar_eq (L : Locals) (k id : Nat) :
    (∃ j, id ≤ j ∧ freeFilterVar L k id = filterVar j ∧ L.get (filterVar j) = none)
      ∨ (freeFilterVar L k id = filterVar (id + k) ∧ ∀ j, id ≤ j → j < id + k → L.get (filterVar j) ≠ none) := by
  induction k generalizing id with
  | zero => exact .inr ⟨rfl, by omega⟩
  | succ k ih =>
    unfold freeFilterVar
    cases hg : L.get (filterVar id) with
    | none => exact .inl ⟨id, by omega, by simp, hg⟩
    | some m =>
      simp only [Option.isNone_some, Bool.false_eq_true, if_false]
      rcases ih (id + 1) with ⟨j, h1, h2, h3⟩ | ⟨h1, h2⟩
      · exact .inl ⟨j, by omega, h2, h3⟩
      · refine .inr ⟨by rw [h1]; congr 1; omega, ?_⟩
        intro j hj hj2
        by_cases hji : j = id
        · subst hji; rw [hg]; simp
        · exact h2 j (by omega) (by omega)

/-- All keys of the locals. -/
def localKeys (L : Locals) : List Str := (L.scopes ++ L.parent).flatMap fun s => s.map (·.1)

theorem localKeys_length (L : Locals) : (localKeys L).length = localsSize L := by
  unfold localKeys localsSize
  generalize L.scopes ++ L.parent = l
  induction l with
  | nil => rfl
  | cons s l ih => simp [List.flatMap_cons, ih]

theorem mem_localKeys {L : Locals} {k : Str} (h : L.get k ≠ none) : k ∈ localKeys L := by
  rw [MapChain.get_eq] at h
  unfold localKeys
  generalize L.scopes ++ L.parent = l at h ⊢
  induction l with
  | nil => simp [lookupStack] at h
  | cons s l ih =>
    simp only [lookupStack] at h
    rw [List.flatMap_cons, List.mem_append]
    cases hf : s.find? (fun e => e.1 == k) with
    | some e =>
      refine .inl (List.mem_map.mpr ⟨e, List.mem_of_find?_eq_some hf, ?_⟩)
      simpa using List.find?_some hf
    | none =>
      rw [hf] at h
      exact .inr (ih h)

/-- The name made up for a filter block is not in use. -/
theorem freeFilterVar_fresh (L : Locals) : ∃ j, freeFilterVar L (localsSize L) 0 = filterVar j
    ∧ L.get (filterVar j) = none := by
  rcases freeFilterVar_eq L (localsSize L) 0 with ⟨j, _, h2, h3⟩ | ⟨h1, h2⟩
  · exact ⟨j, h2, h3⟩
  · refine ⟨_, h1, ?_⟩
    cases hg : L.get (filterVar (0 + localsSize L)) with
    | none => rfl
    | some m =>
      exfalso
      have hnd : ((List.range (localsSize L + 1)).map filterVar).Nodup := by
        refine List.Pairwise.map _ (fun a b hab h => hab (filterVar_inj h)) List.nodup_range
      have hsub : ((List.range (localsSize L + 1)).map filterVar) ⊆ localKeys L := by
        intro y hy
        obtain ⟨j, hj, rfl⟩ := List.mem_map.mp hy
        rw [List.mem_range] at hj
        refine mem_localKeys ?_
        by_cases hjl : j = localsSize L
        · subst hjl; rw [Nat.zero_add] at hg; rw [hg]; simp
        · exact h2 j (by omega) (by omega)
      have := hnd.length_le_of_subset hsub
      simp [localKeys_length] at this
      omega

/-! ## Nodes that only make text -/

/-- Such nodes leave the template's variables alone. -/
def SpQuiet (sp : Render U) : Prop := ∀ chain ctx sup before nodes after st s sig st', quietList nodes = true →
  sp chain ctx sup before nodes after st = some (s, sig, st') → sig = .next ∧ st' = st

theorem runNode_quiet {W : World U} {I : GenInput} {sp : Render U} (h : SpQuiet sp) {chain : List Ctx} {ctx : Ctx}
    {sup : Option (Str × Nat)} {before : WH} {after : Option WH} {st st' : Store U} {n : Node} {s : Option Str} {sig : Sig}
    (hq : quiet n = true) (hr : runNode W I sp chain ctx sup before after st n = some (s, sig, st')) :
    sig = .next ∧ st' = st := by
  cases n with
  | lit l => simp only [runNode, Option.some.injEq, Prod.mk.injEq] at hr; exact ⟨hr.2.1.symm, hr.2.2.symm⟩
  | comment w t => simp only [runNode, silent, Option.some.injEq, Prod.mk.injEq] at hr; exact ⟨hr.2.1.symm, hr.2.2.symm⟩
  | expr w e => simp only [runNode, Option.some.injEq, Prod.mk.injEq] at hr; exact ⟨hr.2.1.symm, hr.2.2.symm⟩
  | raw w l w2 => simp only [runNode, Option.some.injEq, Prod.mk.injEq] at hr; exact ⟨hr.2.1.symm, hr.2.2.symm⟩
  | filterBlock w f nodes w2 =>
    simp only [quiet, Bool.and_eq_true] at hq
    simp only [runNode, runFilter] at hr
    cases hx : sp chain ctx sup (sideOf I w.r) nodes (some (sideOf I w2.l)) st with
    | none => rw [hx] at hr; cases hr
    | some r =>
      obtain ⟨s1, sig1, st1⟩ := r
      rw [hx] at hr
      simp only [Option.map_some, Option.some.injEq, Prod.mk.injEq] at hr
      obtain ⟨rfl, rfl⟩ := h _ _ _ _ _ _ _ _ _ _ hq.1 hx
      exact ⟨hr.2.1.symm, hr.2.2.symm⟩
  | _ => simp [quiet] at hq

theorem run_quiet (W : World U) (I : GenInput) : (fuel : Nat) → SpQuiet (run W I fuel)
  | 0 => by intro _ _ _ _ _ _ _ _ _ _ _ h; cases h
  | fuel + 1 => by
    intro chain ctx sup before nodes after st s sig st' hq h
    simp only [run] at h
    induction nodes generalizing before st s sig st' with
    | nil => simp only [runNodes, silent, Option.some.injEq, Prod.mk.injEq] at h; exact ⟨h.2.1.symm, h.2.2.symm⟩
    | cons n ns ih =>
      simp only [quietList, Bool.and_eq_true] at hq
      simp only [runNodes] at h
      cases hn : runNode W I (run W I fuel) chain ctx sup before (nextSide I ns after) st n with
      | none => rw [hn] at h; cases h
      | some r =>
        obtain ⟨s1, sig1, st1⟩ := r
        obtain ⟨rfl, rfl⟩ := runNode_quiet (run_quiet W I fuel) hq.1 hn
        rw [hn] at h
        simp only [Option.bind_some, if_true] at h
        cases hr : runNodes W I (run W I fuel) chain ctx sup (sideOf I (rightMark n)) ns after st1 with
        | none => rw [hr] at h; cases h
        | some r2 =>
          obtain ⟨s2, sig2, st2⟩ := r2
          rw [hr] at h
          simp only [Option.map_some, Option.some.injEq, Prod.mk.injEq] at h
          obtain ⟨rfl, rfl⟩ := ih _ _ _ _ _ hq.2 hr
          exact ⟨h.2.1.symm, h.2.2.symm⟩

/-- Only the names in pending output change. -/
def GdQuiet (gd : GoodRec) : Prop := ∀ chain ctx sup S nodes S', quietList nodes = true →
  gd chain ctx sup S nodes = some S' → S' = { S with P := S'.P } ∧ ∀ y ∈ S.P, y ∈ S'.P

theorem good_quiet (I : GenInput) : (fuel : Nat) → GdQuiet (good I fuel)
  | 0 => by intro _ _ _ _ _ _ _ h; cases h
  | fuel + 1 => by
    intro chain ctx sup S nodes S' hq h
    simp only [good] at h
    induction nodes generalizing S S' with
    | nil => simp only [goodNodes, Option.some.injEq] at h; subst h; exact ⟨rfl, fun _ h => h⟩
    | cons n ns ih =>
      simp only [quietList, Bool.and_eq_true] at hq
      simp only [goodNodes] at h
      split at h
      · cases h
      · cases hn : goodNode I (good I fuel) chain ctx sup S n with
        | none => rw [hn] at h; cases h
        | some S1 =>
          rw [hn] at h
          obtain ⟨h1, h2⟩ := ih _ _ hq.2 h
          have key : S1 = { S with P := S1.P } ∧ ∀ y ∈ S.P, y ∈ S1.P := by
            cases n with
            | lit l =>
              simp only [goodNode] at hn
              split at hn
              · cases hn; exact ⟨rfl, fun _ h => h⟩
              · cases hn
            | comment w t => simp only [goodNode, Option.some.injEq] at hn; subst hn; exact ⟨rfl, fun _ h => h⟩
            | expr w e =>
              simp only [goodNode] at hn
              split at hn
              · cases hn; exact ⟨rfl, fun _ h => List.mem_append_right _ h⟩
              · cases hn
            | raw w l w2 =>
              simp only [goodNode] at hn
              split at hn
              · cases hn; exact ⟨rfl, fun _ h => h⟩
              · cases hn
            | filterBlock w f nodes w2 =>
              simp only [goodNode, goodFilter] at hn
              split at hn
              · cases hn; exact ⟨rfl, fun _ h => List.mem_append_right _ h⟩
              · cases hn
            | _ => simp [quiet] at hq
          refine ⟨?_, fun y hy => h2 y (key.2 y hy)⟩
          rw [h1]
          obtain ⟨P1, hP1⟩ : ∃ P1, S1 = { S with P := P1 } := ⟨_, key.1⟩
          rw [hP1]

/-- The code for such nodes: variables for filter blocks, none of which was in use before. -/
def FreshLet (L : Locals) : Stmt → Prop
  | .letStr x _ | .letFmt x _ _ => internal x = true ∧ L.get x = none
  | _ => False

/-- What the generator does for such nodes. -/
structure QuietGen (g g' : Gen) (code : List Stmt) (vis : Bool) : Prop where
  code : ∀ s ∈ code, FreshLet g.locals s
  grow : ∀ k, g.locals.get k ≠ none → g'.locals.get k ≠ none
  pend : g.pend ≠ [] ∨ vis = true → g'.pend ≠ []

theorem QuietGen.trans {g g1 g2 : Gen} {a b : List Stmt} {v w : Bool} (h : QuietGen g g1 a v) (h2 : QuietGen g1 g2 b w) :
    QuietGen g g2 (a ++ b) (v || w) := by
  refine ⟨?_, fun k hk => h2.grow k (h.grow k hk), ?_⟩
  · intro s hs
    rcases List.mem_append.mp hs with hs | hs
    · exact h.code s hs
    · have := h2.code s hs
      have hget : ∀ x, g1.locals.get x = none → g.locals.get x = none := fun x hx => by
        cases hg : g.locals.get x with
        | none => rfl
        | some m => exact absurd hx (h.grow x (by rw [hg]; simp))
      cases s <;> simp only [FreshLet] at this ⊢ <;> exact ⟨this.1, hget _ this.2⟩
  · rintro (hp | hv)
    · exact h2.pend (.inl (h.pend (.inl hp)))
    · rw [Bool.or_eq_true] at hv
      rcases hv with hv | hv
      · exact h2.pend (.inl (h.pend (.inr hv)))
      · exact h2.pend (.inr hv)

/-- Pending output is only added to. -/
theorem QuietGen.of_append {g g' : Gen} {vis : Bool} (hl : g'.locals = g.locals) {out : List Writable}
    (hp : g'.pend = g.pend ++ out) (hv : vis = true → out ≠ []) : QuietGen g g' [] vis := by
  refine ⟨by simp, by rw [hl]; exact fun _ h => h, ?_⟩
  rw [hp]
  rintro (h | h)
  · simp [h]
  · simp [hv h]

def RecQuiet (rec : Handler) : Prop := ∀ H ctx nodes g code g', quietList nodes = true → Clean g →
  rec H ctx nodes .nested g = .ok (code, g') → QuietGen g g' code (nodes.any visible)

theorem visitLit_quiet {g g' : Gen} {l : Lit} (hd : g.pdiscard = false) (h : visitLit g l = .ok g') :
    ∃ out, g'.locals = g.locals ∧ g'.pend = g.pend ++ out ∧ (l.val ≠ [] → out ≠ []) := by
  unfold visitLit at h
  split at h
  · cases h
  · obtain ⟨g2, hg2, h⟩ := except_bind h
    have h2 : ∃ out, g2.locals = g.locals ∧ g2.pend = g.pend ++ out ∧ g2.pdiscard = false := by
      unfold visitLws at hg2
      have hp : ∀ w, (g.push w).locals = g.locals ∧ (g.push w).pend = g.pend ++ [w] ∧ (g.push w).pdiscard = false := by
        intro w; unfold push; rw [if_neg (by simp [hd])]; exact ⟨rfl, rfl, hd⟩
      split at hg2
      · cases hg2; exact ⟨[], rfl, by simp, hd⟩
      · split at hg2
        · cases hg2; exact ⟨[], rfl, by simp, hd⟩
        · split at hg2
          · split at hg2
            · cases hg2; exact ⟨[], rfl, by simp, hd⟩
            · cases hg2
          · cases hg2; exact ⟨_, hp _⟩
        · split at hg2
          · split at hg2
            · cases hg2; exact ⟨[], rfl, by simp, hd⟩
            · cases hg2
          · cases hg2; exact ⟨_, hp _⟩
    obtain ⟨out, h3, h4, h5⟩ := h2
    have h6 : ∃ o2, (if l.val.isEmpty then g2 else ({ g2 with skipWs := .preserve } : Gen).push (.lit l.val)).locals = g2.locals
        ∧ (if l.val.isEmpty then g2 else ({ g2 with skipWs := .preserve } : Gen).push (.lit l.val)).pend = g2.pend ++ o2
        ∧ (l.val ≠ [] → o2 ≠ []) := by
      by_cases hv : l.val = []
      · exact ⟨[], by simp [hv], by simp [hv], fun h => absurd hv h⟩
      · exact ⟨[.lit l.val], by simp [hv, push, h5], by simp [hv, push, h5], by simp⟩
    obtain ⟨o2, h7, h8, h9⟩ := h6
    refine ⟨out ++ o2, ?_, ?_, fun hv => by simp [h9 hv]⟩
    · cases h
      refine Eq.trans ?_ (h7.trans h3)
      by_cases hr : l.rws.isEmpty = true
      · rw [if_pos hr]
      · rw [if_neg hr]
    · cases h
      rw [← List.append_assoc, ← h4]
      refine Eq.trans ?_ h8
      by_cases hr : l.rws.isEmpty = true
      · rw [if_pos hr]
      · rw [if_neg hr]

theorem prepareFormat_none {I : GenInput} {g g' : Gen} (h : prepareFormat I g = .ok (.none, g')) : g.pend = [] := by
  unfold prepareFormat at h
  split at h
  · rename_i he; exact List.isEmpty_iff.mp he
  · split at h
    · cases h
    · obtain ⟨fs, _, h⟩ := except_bind h
      cases h

theorem writeFilterBlock_quiet {I : GenInput} {rec : Handler} {H : Option Heritage} {ctx : Ctx} (hr : RecQuiet rec)
    (fr : RecFrame rec) {g g' : Gen} {ws1 ws2 : Ws} {f : FilterApp} {nodes : List Node} {code : List Stmt} (hc : Clean g)
    (hq : quietList nodes = true) (hv : nodes.any visible = true)
    (h : writeFilterBlock rec I H ctx g ws1 f nodes ws2 = .ok (code, g')) : QuietGen g g' code true := by
  obtain ⟨b, g1, p, g2, h1, h2, h3⟩ := writeFilterBlock_inv h
  have f1 := flushWs_frame (I := I) hc ws1
  have hc1 : Clean (prepareWs I { flushWs I g ws1 with pend := [] } ws1) := ⟨f1.clean.pd, f1.clean.d, f1.clean.wf⟩
  have q1 := hr _ _ _ _ _ _ hq hc1 h1
  have f2 := fr _ _ _ _ _ _ _ h1 hc1
  have hl : (prepareWs I { flushWs I g ws1 with pend := [] } ws1).locals = g.locals := flushWs_locals hc ws1
  have hp1 : g1.pend ≠ [] := q1.pend (.inr hv)
  have hp2 : (flushWs I g1 ws2).pend ≠ [] := by rw [flushWs_eq I ws2 f2.clean.pd]; simp [hp1]
  rcases h3 with ⟨rfl, _, _⟩ | ⟨st, r, w, hne, hst, hvis, rfl, rfl⟩
  · exact absurd (prepareFormat_none h2) hp2
  · obtain ⟨j, hj, hfree⟩ := freeFilterVar_fresh (flushWs I g ws1).locals
    rw [hj] at hst ⊢
    rw [flushWs_locals hc] at hfree
    have f3 := flushWs_frame (I := I) f2.clean ws2
    have f4 := f3.trans (prepareFormat_frame f3.clean h2)
    obtain ⟨nn, hg2⟩ := prepareFormat_state I h2
    have hl2 : g2.locals = g1.locals := by rw [hg2]; exact flushWs_locals f2.clean ws2
    refine ⟨?_, ?_, ?_⟩
    · intro s hs
      rcases List.mem_append.mp hs with hs | hs
      · have := q1.code s hs
        rw [hl] at this
        exact this
      · unfold emit at hs
        split at hs
        · simp at hs
        · rw [List.mem_singleton] at hs
          rw [hs, hst]
          cases p with
          | none => exact absurd rfl hne
          | plain s => exact ⟨filterVar_internal j, hfree⟩
          | formatted fmt args => exact ⟨filterVar_internal j, hfree⟩
    · intro k hk
      have hpush : (({ g2 with pend := (flushWs I g ws1).pend } : Gen).push (.generated r w)).locals = g2.locals := by
        unfold push; split <;> rfl
      show (MapChain.insert (prepareWs I (({ g2 with pend := (flushWs I g ws1).pend } : Gen).push (.generated r w)) ws2).locals _ _).get k ≠ none
      have hl3 : (prepareWs I (({ g2 with pend := (flushWs I g ws1).pend } : Gen).push (.generated r w)) ws2).locals = g1.locals :=
        hpush.trans hl2
      rw [hl3, MapChain.get_insert f2.clean.wf]
      split
      · simp
      · exact q1.grow k (by rw [hl]; exact hk)
    · intro _
      show (({ g2 with pend := (flushWs I g ws1).pend } : Gen).push (.generated r w)).pend ≠ []
      unfold push
      rw [if_neg (by simp [f4.clean.pd])]
      simp

theorem handleNode_quiet {I : GenInput} {rec : Handler} {H : Option Heritage} {ctx : Ctx} (hr : RecQuiet rec)
    (fr : RecFrame rec) {g g' : Gen} {n : Node} {code : List Stmt} (hc : Clean g) (hq : quiet n = true)
    (h : handleNode rec I H ctx .nested g n = .ok (code, g')) : QuietGen g g' code (visible n) := by
  cases n with
  | lit l =>
    obtain ⟨g2, h1, h⟩ := except_bind h
    cases h
    obtain ⟨out, h2, h3, h4⟩ := visitLit_quiet hc.pd h1
    exact .of_append h2 h3 (by simpa [visible] using h4)
  | comment w t =>
    cases h
    rw [handleWs_eq I w hc.pd]
    exact .of_append rfl rfl (by simp [visible])
  | expr w e =>
    cases h
    unfold writeExpr
    rw [handleWs_eq I w hc.pd]
    refine .of_append (out := (wsLit (applyWs (sideOf I w.l) (g.nextWs.getD []))).map .lit ++ [.expr e]) ?_ ?_ (by simp)
    · unfold push; split <;> rfl
    · unfold push; rw [if_neg (by simp [hc.pd])]; simp only [List.append_assoc]
  | raw w l w2 =>
    obtain ⟨g2, h1, h⟩ := except_bind h
    cases h
    have f1 := handleWs_frame (I := I) hc w
    obtain ⟨out, h2, h3, h4⟩ := visitLit_quiet f1.clean.pd h1
    have f2 := f1.trans (visitLit_frame f1.clean h1)
    rw [handleWs_eq I w2 f2.clean.pd]
    rw [handleWs_eq I w hc.pd] at h2 h3
    refine .of_append (out := (wsLit (applyWs (sideOf I w.l) (g.nextWs.getD []))).map .lit ++ (out
      ++ (wsLit (applyWs (sideOf I w2.l) (g2.nextWs.getD []))).map .lit)) h2 ?_ ?_
    · rw [h3]; simp only [List.append_assoc]
    · intro hv; simp [h4 (by simpa [visible] using hv)]
  | filterBlock w f nodes w2 =>
    simp only [quiet, Bool.and_eq_true] at hq
    exact writeFilterBlock_quiet hr fr hc hq.1 hq.2 h
  | _ => simp [quiet] at hq

theorem handleNodes_quiet {I : GenInput} {rec : Handler} (hr : RecQuiet rec) (fr : RecFrame rec)
    {H : Option Heritage} {ctx : Ctx} : (nodes : List Node) → {g : Gen} → {code : List Stmt} → {g' : Gen} →
    quietList nodes = true → Clean g → handleNodes rec I H ctx .nested nodes g = .ok (code, g') →
    QuietGen g g' code (nodes.any visible)
  | [], g, code, g', _, _, h => by
    simp only [handleNodes, Except.ok.injEq, Prod.mk.injEq] at h
    obtain ⟨rfl, rfl⟩ := h
    exact .of_append rfl (List.append_nil _).symm (by simp)
  | n :: ns, g, code, g', hq, hc, h => by
    simp only [quietList, Bool.and_eq_true] at hq
    simp only [handleNodes] at h
    obtain ⟨⟨s1, g3⟩, h3, h1⟩ := except_bind h
    obtain ⟨⟨s2, g4⟩, h4, h1⟩ := except_bind h1
    cases h1
    have q1 := handleNode_quiet hr fr hc hq.1 h3
    have f1 := handleNode_frame fr hc h3
    have q2 := handleNodes_quiet hr fr ns hq.2 f1.clean h4
    rw [List.any_cons]
    exact q1.trans q2

theorem handle_quiet {I : GenInput} : (fuel : Nat) → RecQuiet (handle I fuel)
  | 0 => by intro _ _ _ _ _ _ _ _ h; cases h
  | fuel + 1 => by
    intro H ctx nodes g code g' hq hc h
    unfold handle at h
    obtain ⟨⟨s, g1⟩, h1, h⟩ := except_bind h
    obtain ⟨⟨s', g2⟩, h2, h⟩ := except_bind h
    simp only [handleEnd, reduceCtorEq, if_false] at h2
    cases h2
    cases h
    rw [List.append_nil]
    exact handleNodes_quiet (handle_quiet fuel) (handle_frame fuel) nodes hq hc h1

/-- Running such code. -/
theorem exec_fresh {W : World U} {L : Locals} : (code : List Stmt) → (∀ s ∈ code, FreshLet L s) → {ρ : REnv U} →
    {r : Str × Sig × REnv U} → execList W ρ code = some r → ∃ new, r.1 = [] ∧ r.2.1 = .next
      ∧ r.2.2 = { ρ with vars := new ++ ρ.vars } ∧ ∀ e ∈ new, internal e.1 = true ∧ L.get e.1 = none
  | [], _, ρ, r, h => by
    simp only [execList, Option.some.injEq] at h
    subst h
    exact ⟨[], rfl, rfl, rfl, by simp⟩
  | s :: code, hf, ρ, r, h => by
    rw [execList_cons] at h
    have h1 := hf s List.mem_cons_self
    have hstep : ∀ ρ', s.exec W ρ = some ρ' → ∃ x v, ρ' = ([], .next, { ρ with vars := (x, v) :: ρ.vars })
        ∧ internal x = true ∧ L.get x = none := by
      intro ρ' hs
      cases s <;> simp only [FreshLet] at h1
      · simp only [Stmt.exec, Option.some.injEq] at hs
        exact ⟨_, _, hs.symm, h1⟩
      · simp only [Stmt.exec] at hs
        obtain ⟨t, _, ht⟩ := Option.map_eq_some_iff.mp hs
        exact ⟨_, _, ht.symm, h1⟩
    cases hs : s.exec W ρ with
    | none => rw [hs] at h; cases h
    | some q =>
      obtain ⟨x, v, rfl, hx⟩ := hstep q hs
      rw [hs, seqE_nil_left] at h
      obtain ⟨new, h2, h3, h4, h5⟩ := exec_fresh code (fun s hs => hf s (List.mem_cons_of_mem _ hs)) h
      refine ⟨new ++ [(x, v)], h2, h3, by rw [h4]; simp, ?_⟩
      intro e he
      rcases List.mem_append.mp he with he | he
      · exact h5 e he
      · rw [List.mem_singleton] at he; subst he; exact hx

/-! ## Filter blocks -/

section

variable {W : World U} {I : GenInput} {S S' : Sets} {cells : List (Cell U)} {st : Store U} {ρ : REnv U} {g g' : Gen}
  {ts : List (Option Str)} {L : Locals}

theorem lookup_cons_ne {x y : Str} {v : Option (Val U)} {vars : List (Str × Option (Val U))} (h : x ≠ y) :
    RExpr.varOf ((x, v) :: vars) y = RExpr.varOf vars y := by
  unfold RExpr.varOf
  rw [List.find?_cons_of_neg (by simpa using h)]

/-- A variable for a filter block. -/
theorem Rel.addRust (h : Rel W S cells st L ρ) {x : Str} (hx : internal x = true) (v : Option (Val U)) :
    Rel W S (.rust x v :: cells) st L { ρ with vars := (x, v) :: ρ.vars } := by
  have hne : ∀ n, internal n = false → x ≠ n := fun n hn e => by rw [e, hn] at hx; cases hx
  refine ⟨h.svars, by simp only [rustVars, h.rvars], h.item, h.wf, h.keys, h.inV, h.lower, h.unknown, ?_, ?_, h.dset, h.kint,
    h.vint, h.rv, ?_, ?_, h.under⟩
  · intro n m hi hg hr
    obtain ⟨h1, ⟨w, hw⟩, h3⟩ := h.plain n m hi hg hr
    exact ⟨h1, ⟨w, by rw [firstCell_neg (by exact hne n hi)]; exact hw⟩, h3⟩
  · intro n m r hg hr
    obtain ⟨h1, h2, h3, ⟨w, hf, he⟩, h4, h5⟩ := h.refd n m r hg hr
    refine ⟨h1, h2, h3, ⟨w, by rw [firstCell_neg (by exact hne n (h.kint n h1))]; exact hf, ?_⟩, h4, h5⟩
    rw [← he]
    exact RExpr.eval_congr W _ _ r (fun y hy => lookup_cons_ne (hne y (h.kint y (h4 y hy)))) (fun _ => rfl)
  · intro n hp hi hK
    rw [firstCell_neg (by exact hne n hi)]
    refine (h.paths n hp hi hK).imp (fun ⟨h1, h2⟩ => ⟨h1, fun c hc => ?_⟩) id
    rcases List.mem_cons.mp hc with rfl | hc
    · exact hne n hi
    · exact h2 c hc
  · intro c hc hp hi
    rcases List.mem_cons.mp hc with rfl | hc
    · exact absurd rfl (hne _ hi)
    · exact h.cellsIn c hc hp hi

theorem Rel.addInternal (h : Rel W S cells st L ρ) {x : Str} (hx : internal x = true) :
    Rel W S cells st (L.insert x { refs := none, initialized := true }) ρ := by
  have hne : ∀ n, internal n = false → n ≠ x := fun n hn e => by rw [← e, hn] at hx; cases hx
  have hg := MapChain.get_insert (α := LocalMeta) h.wf x { refs := none, initialized := true }
  refine ⟨h.svars, h.rvars, h.item, MapChain.insert_scopes h.wf _ _, ?_, ?_, ?_, ?_, ?_, ?_, ?_, h.kint, h.vint, h.rv,
    h.paths, h.cellsIn, h.under⟩
  · intro n m hm
    rw [hg] at hm
    split at hm
    · rename_i hn; subst hn; exact internal_not_keyword hx
    · exact h.keys n m hm
  · intro n m hm hi
    rw [hg, if_neg (hne n hi)] at hm
    exact h.inV n m hm hi
  · intro n m hm hi
    rw [hg, if_neg (hne n hi)] at hm
    exact h.lower n m hm hi
  · intro n hi hm
    have hi' : internal n = false := by
      simp only [strange, Bool.or_eq_false_iff] at hi; exact hi.1
    rw [hg, if_neg (hne n hi')] at hm
    exact h.unknown n hi hm
  · intro n m hi hm
    rw [hg, if_neg (hne n hi)] at hm
    exact h.plain n m hi hm
  · intro n m r hm hr
    rw [hg] at hm
    split at hm
    · cases hm; cases hr
    · exact h.refd n m r hm hr
  · intro n hn
    rw [hg]
    split
    · exact ⟨_, rfl, rfl⟩
    · exact h.dset n hn

variable {rec : Handler} {sp : Render U} {gd : GoodRec} {H : Option Heritage} {chain : List Ctx} {ctx : Ctx}
  {sup : Option (Str × Nat)}

theorem writeFilterBlock_ws (fr : RecFrame rec) {ws1 ws2 : Ws} {f : FilterApp} {nodes : List Node} {code : List Stmt}
    (hc : Clean g) (qr : RecQuiet rec) (hq : quietList nodes = true) (hv : nodes.any visible = true)
    (h : writeFilterBlock rec I H ctx g ws1 f nodes ws2 = .ok (code, g')) :
    g'.nextWs = none ∧ g'.skipWs = sideOf I ws2.r := by
  obtain ⟨b, g1, p, g2, h1, h2, h3⟩ := writeFilterBlock_inv h
  have f1 := flushWs_frame (I := I) hc ws1
  have hc1 : Clean (prepareWs I { flushWs I g ws1 with pend := [] } ws1) := ⟨f1.clean.pd, f1.clean.d, f1.clean.wf⟩
  have q1 := qr _ _ _ _ _ _ hq hc1 h1
  have f2 := fr _ _ _ _ _ _ _ h1 hc1
  have hp2 : (flushWs I g1 ws2).pend ≠ [] := by rw [flushWs_eq I ws2 f2.clean.pd]; simp [q1.pend (.inr hv)]
  rcases h3 with ⟨rfl, _, _⟩ | ⟨stm, r, w, hne, hst, hvis, rfl, rfl⟩
  · exact absurd (prepareFormat_none h2) hp2
  · obtain ⟨nn, hg2⟩ := prepareFormat_state I h2
    rw [flushWs_eq I ws2 f2.clean.pd] at hg2
    refine ⟨?_, ?_⟩
    · show (({ g2 with pend := (flushWs I g ws1).pend } : Gen).push (.generated r w)).nextWs = none
      unfold push
      rw [hg2]
      split <;> rfl
    · show shouldTrimWs I ws2.r = _
      exact shouldTrimWs_side I _

theorem filter_sound (hs : Stable W) (ok : HandlerOk W I rec sp gd) (fr : RecFrame rec) (qr : RecQuiet rec)
    (qs : SpQuiet sp) (qg : GdQuiet gd) (hH : HChain H chain) {ws1 ws2 : Ws} {f : FilterApp} {nodes : List Node}
    {code : List Stmt} (h : writeFilterBlock rec I H ctx g ws1 f nodes ws2 = .ok (code, g'))
    (hg : goodFilter (gd chain ctx sup) S f nodes = some S') (hc : Clean g) (hsup : g.superBlock = sup)
    (R : Rel W S cells st g.locals ρ) (hp : PRel W I S st g.locals ρ g.pend ts) (nl : Option WH) :
    Ran S.K cells ρ (execList W ρ code) (runFilter W I (sp chain ctx sup) st ws1 f nodes ws2)
      (pendText ts (some (sideOf I ws1.l)) g) (RanPost W I S' nl g') := by
  unfold goodFilter at hg
  split at hg
  · rename_i hok
    cases hg
    simp only [Bool.and_eq_true] at hok
    obtain ⟨⟨⟨hq, hv⟩, hargs⟩, hgd⟩ := hok
    have hws := writeFilterBlock_ws fr hc qr hq hv h
    obtain ⟨S1, hS1⟩ := Option.isSome_iff_exists.mp hgd
    obtain ⟨b, g1, p, g2, h1, h2, h3⟩ := writeFilterBlock_inv h
    have f1 := flushWs_frame (I := I) hc ws1
    have hc1 : Clean (prepareWs I { flushWs I g ws1 with pend := [] } ws1) := ⟨f1.clean.pd, f1.clean.d, f1.clean.wf⟩
    have q1 := qr _ _ _ _ _ _ hq hc1 h1
    have f2 := fr _ _ _ _ _ _ _ h1 hc1
    have hl : (prepareWs I { flushWs I g ws1 with pend := [] } ws1).locals = g.locals := flushWs_locals hc ws1
    have hp1 : g1.pend ≠ [] := q1.pend (.inr hv)
    have hp2 : (flushWs I g1 ws2).pend ≠ [] := by rw [flushWs_eq I ws2 f2.clean.pd]; simp [hp1]
    have hnw : (prepareWs I { flushWs I g ws1 with pend := [] } ws1).nextWs = none := by
      show (flushWs I g ws1).nextWs = none
      rw [flushWs_eq I ws1 hc.pd]
    have hout := ok (before := sideOf I ws1.r) (after := some (sideOf I ws2.l)) (ts := []) h1 hS1 hc1 (f1.sup.trans hsup)
      hH (by simp) (fun _ => ⟨hnw, shouldTrimWs_side I _⟩) (cells := cells) (st := st) (ρ := ρ)
      (by rw [hl]; exact R.flushed) (by exact .nil)
    rw [pendText_empty hnw] at hout
    rcases h3 with ⟨rfl, _, _⟩ | ⟨stm, r, w, hne, hst, hvis, rfl, hg'⟩
    · exact absurd (prepareFormat_none h2) hp2
    obtain ⟨j, hj, hfree⟩ := freeFilterVar_fresh (flushWs I g ws1).locals
    rw [hj] at hst hvis hg'
    rw [flushWs_locals hc] at hfree
    have hxi := filterVar_internal j
    generalize filterVar j = x at hst hvis hfree hxi hg'
    have f3 := flushWs_frame (I := I) f2.clean ws2
    have f4 := f3.trans (prepareFormat_frame f3.clean h2)
    obtain ⟨nn, hg2⟩ := prepareFormat_state I h2
    have hl2 : g2.locals = g1.locals := by rw [hg2]; exact flushWs_locals f2.clean ws2
    have hemit : (prepareWs I (({ g2 with pend := (flushWs I g ws1).pend } : Gen).push (.generated r w)) ws2).emit [stm]
        = [stm] := by
      unfold emit
      rw [if_neg]
      show ¬ (push _ _).discard = true
      unfold push
      rw [if_neg (by simp [f4.clean.pd])]
      simp [f4.clean.d]
    have hpend' : g'.pend = (flushWs I g ws1).pend ++ [.generated r w] := by
      rw [hg']
      show (push _ _).pend = _
      unfold push
      rw [if_neg (by simp [f4.clean.pd])]
    have hloc' : g'.locals = g1.locals.insert x { refs := none, initialized := true } := by
      rw [hg', ← hl2]
      show MapChain.insert (push _ _).locals _ _ = _
      unfold push
      split <;> rfl
    rw [hemit, execList_append]
    unfold runFilter
    cases hsp : sp chain ctx sup (sideOf I ws1.r) nodes (some (sideOf I ws2.l)) st with
    | none =>
      rw [hsp] at hout
      have : execList W ρ b = none := hout
      rw [this]; exact rfl
    | some res =>
      obtain ⟨s, sig, st1⟩ := res
      obtain ⟨rfl, rfl⟩ := qs _ _ _ _ _ _ _ _ _ _ hq hsp
      rw [hsp] at hout
      simp only [Option.map_some]
      rcases hout with ⟨hE, hsn⟩ | ⟨o, ρ1, cells1, hE, hext, k3, k4, k5, k6, k7, k8, k9⟩
      · rw [hE]
        have : s = none := by cases s with
          | none => rfl
          | some s => simp at hsn
        subst this
        exact .inl ⟨rfl, by simp⟩
      · rw [if_pos rfl] at k9
        obtain ⟨q, hq1, R1, ts1, hp1', rfl⟩ := k9
        obtain ⟨new, e1, -, e3, e4⟩ := exec_fresh b q1.code hE
        dsimp only at e1 e3
        subst e1
        rw [hl] at e4
        have hS1' := (qg _ _ _ _ _ _ hq hS1).1
        have R1' : Rel W { S with P := Expr.varsList f.args ++ S.P } cells1 st1 g1.locals ρ1 := by
          have := R1.setP (Expr.varsList f.args ++ S.P)
          rw [hS1'] at this
          exact this
        obtain ⟨ts2, hp2', ht2⟩ := hp1'.flushWs f2.clean ws2
        have hs2 : ojoin ts2 = s := by
          rw [ht2]
          simpa [pendText] using hq1
        have htext := pend_text hs h2 (by rw [flushWs_locals f2.clean]; exact R1) hp2'
        rw [hs2] at htext
        have hstm : execList W ρ1 [stm] = s.map fun t => ([], .next, { ρ1 with vars := (x, some (W.str t)) :: ρ1.vars }) := by
          rw [execList_single, hst, ← htext]
          cases p with
          | none => exact absurd rfl hne
          | plain t => rfl
          | formatted fmt args => rfl
        rw [hE, seqE_nil_left, hstm]
        cases s with
        | none => exact .inl ⟨rfl, by simp⟩
        | some t =>
          have R2 := R1'.addRust hxi (some (W.str t))
          have R3 := R2.addInternal hxi
          have hio : exprOk S.refused (some x) (.filter f.name (insertFirst x f.args)) = true := by
            simp only [exprOk]; exact insertFirst_ok x f.args hargs
          rw [hl2] at hvis
          have hvs := visit_sound (R2.agree (some (W.str t)) (some x) (by
            intro s hs'; cases hs'; simp [lookupVar])) _ hio hvis
          have hvl := (visit_locals (R := S.refused) (v := some x) R2.refsIn _ hio hvis).1
          obtain ⟨tsf, hpf, htf⟩ := hp.flushWs hc ws1
          rw [flushWs_locals hc] at hpf
          have hT : ((r.eval W { ρ1 with vars := (x, some (W.str t)) :: ρ1.vars }).bind fun v => showArg W (escOf I w) v 0)
              = showE W I st1 (some (W.str t)) (.filter f.name (fillHole f.args)) := by
            rw [hvs.1, evalE_insertFirst, hvs.2]
            unfold showE
            congr 1
            funext v
            rw [show marked (.filter f.name (insertFirst x f.args)) = marked (.filter f.name (fillHole f.args)) from rfl]
            cases marked (.filter f.name (fillHole f.args)) <;> simp [escOf, showArg]
          have hxne : ∀ y, internal y = false → x ≠ y := fun y hy e => by rw [e, hy] at hxi; cases hxi
          refine .inr ⟨[], _, .rust x (some (W.str t)) :: cells1, rfl, ?_, R2.svars, R2.rvars, k5, k6, k7, k8, ?_⟩
          · obtain ⟨nw, old, rfl, hu, hn⟩ := hext
            refine ⟨.rust x (some (W.str t)) :: nw, old, rfl, hu, ?_⟩
            intro c hcn
            rcases List.mem_cons.mp hcn with rfl | hcn
            · refine ⟨fun hK => ?_, fun _ => hxi⟩
              exact absurd (R.kint _ hK) (by simp [Cell.name, hxi])
            · exact hn c hcn
          · rw [if_pos rfl]
            refine ⟨oapp (ojoin (tsf ++ [showE W I st1 (some (W.str t)) (.filter f.name (fillHole f.args))]))
              (some (wsTail nl g')), ?_, by rw [hloc']; exact R3, _, ?_, rfl⟩
            · rw [wsTail_none hws.1, ojoin_append, htf]
              simp [ojoin]
            · rw [hpend', hloc']
              refine PRel.append ?_ ?_
              · refine hpf.keep rfl (fun y hy => List.mem_append_right _ hy) rfl k5.symm (fun _ _ => .refl _ _ _) ?_ ?_
                · intro y hy _
                  rw [e3, lookup_cons_ne (hxne y hy)]
                  refine (lookup_append_ne ?_).symm
                  intro e he hey
                  rw [← hey, (e4 e he).1] at hy; cases hy
                · intro y hy hget
                  refine ⟨?_, ?_⟩
                  · rw [MapChain.get_insert f2.clean.wf]
                    split
                    · simp
                    · exact q1.grow y (by rw [hl]; exact hget)
                  · rw [e3, lookup_cons_ne (fun e => hget (by rw [← e]; exact hfree))]
                    refine (lookup_append_ne ?_).symm
                    intro e he hey
                    exact hget (by rw [← hey]; exact (e4 e he).2)
              · refine .cons ?_ .nil
                rw [← hT]
                have hxg : (g1.locals.insert x { refs := none, initialized := true }).get x ≠ none := by
                  rw [MapChain.get_insert f2.clean.wf]; simp
                refine .gen r w ?_ ⟨x, hxi, hxg⟩
                intro y hy
                rcases hvl y hy with hy | hy | hy
                · simp only [Expr.vars, insertFirst_vars] at hy
                  exact .inl ⟨(exprListOk_vars _ hargs y hy).1, .inl (List.mem_append_left _ hy)⟩
                · exact .inl ⟨R.kint y hy, .inr hy⟩
                · cases hy; exact .inr ⟨hxi, hxg⟩
  · cases hg

end

end Askama
