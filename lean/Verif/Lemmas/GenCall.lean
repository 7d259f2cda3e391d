import Verif.Lemmas.GenFilter

/-! Macro calls: the generated code does what the template means. -/

namespace Askama

open Askama.Spec Askama.Gen

variable {U : Type}

/-! ## Expressions -/

theorem calleeOk_mono {R R' : List Str} {f : Expr} (h : calleeOk R f = true)
    (hd : ∀ y ∈ Expr.vars f, y ∉ R → y ∉ R') : calleeOk R' f = true := by
  unfold calleeOk at h ⊢
  cases f <;> simp_all [Expr.vars]

mutual
/-- More names may be refused, as long as the expression does not refer to them. -/
theorem exprOk_mono {R R' : List Str × List Str} {v : Option Str} : (e : Expr) → exprOk R v e = true →
    (∀ y ∈ Expr.vars e, (y ∉ R.1 → y ∉ R'.1) ∧ (y ∉ R.2 → y ∉ R'.2)) → exprOk R' v e = true
  | .boolLit _, _, _ | .numLit _, _, _ | .strLit _, _, _ | .charLit _, _, _ | .path [], _, _ | .path (_ :: _ :: _), _, _
  | .rustMacro _ _, _, _ => by simp [exprOk]
  | .path [n], h, hd => by
    have hd := (hd n (by simp [Expr.vars])).2
    simp only [exprOk, Bool.and_eq_true, Bool.not_eq_true', List.contains_eq_mem, decide_eq_false_iff_not] at h ⊢
    exact ⟨h.1, hd h.2⟩
  | .generated _, h, _ | .var _, h, _ => by simpa only [exprOk] using h
  | .array es, h, hd | .filter _ es, h, hd | .tuple es, h, hd => by
    simp only [exprOk, Expr.vars] at h hd ⊢; exact exprListOk_mono es h hd
  | .attr e _, h, hd | .namedArg _ e, h, hd | .unary _ e, h, hd | .group e, h, hd | .try_ e, h, hd => by
    simp only [exprOk, Expr.vars] at h hd ⊢; exact exprOk_mono e h hd
  | .index a b, h, hd | .binop _ a b, h, hd => by
    simp only [exprOk, Bool.and_eq_true, Expr.vars, List.mem_append] at h hd ⊢
    exact ⟨exprOk_mono a h.1 fun y hy => hd y (.inl hy), exprOk_mono b h.2 fun y hy => hd y (.inr hy)⟩
  | .range _ a b, h, hd => by
    simp only [exprOk, Bool.and_eq_true, Expr.vars, List.mem_append] at h hd ⊢
    exact ⟨exprOptOk_mono a h.1 fun y hy => hd y (.inl hy), exprOptOk_mono b h.2 fun y hy => hd y (.inr hy)⟩
  | .call f es, h, hd => by
    simp only [exprOk, Bool.and_eq_true, Expr.vars, List.mem_append] at h hd ⊢
    exact ⟨⟨calleeOk_mono h.1.1 fun y hy => (hd y (.inl hy)).1, exprOk_mono f h.1.2 fun y hy => hd y (.inl hy)⟩,
      exprListOk_mono es h.2 fun y hy => hd y (.inr hy)⟩
termination_by e => sizeOf e
theorem exprListOk_mono {R R' : List Str × List Str} {v : Option Str} : (es : List Expr) → exprListOk R v es = true →
    (∀ y ∈ Expr.varsList es, (y ∉ R.1 → y ∉ R'.1) ∧ (y ∉ R.2 → y ∉ R'.2)) → exprListOk R' v es = true
  | [], _, _ => by simp [exprListOk]
  | e :: es, h, hd => by
    simp only [exprListOk, Bool.and_eq_true, Expr.varsList, List.mem_append] at h hd ⊢
    exact ⟨exprOk_mono e h.1 fun y hy => hd y (.inl hy), exprListOk_mono es h.2 fun y hy => hd y (.inr hy)⟩
termination_by es => sizeOf es
theorem exprOptOk_mono {R R' : List Str × List Str} {v : Option Str} : (e : Option Expr) → exprOptOk R v e = true →
    (∀ y ∈ Expr.varsOpt e, (y ∉ R.1 → y ∉ R'.1) ∧ (y ∉ R.2 → y ∉ R'.2)) → exprOptOk R' v e = true
  | none, _, _ => by simp [exprOptOk]
  | some e, h, hd => by simp only [exprOptOk, Expr.varsOpt] at h hd ⊢; exact exprOk_mono e h hd
termination_by e => sizeOf e
end

theorem exprListOk_mem {R : List Str × List Str} {v : Option Str} {es : List Expr} (h : exprListOk R v es = true) {e : Expr}
    (he : e ∈ es) : exprOk R v e = true := by
  induction es with
  | nil => cases he
  | cons a es ih =>
    simp only [exprListOk, Bool.and_eq_true] at h
    rcases List.mem_cons.mp he with rfl | he
    · exact h.1
    · exact ih h.2 he

theorem varsList_mem {es : List Expr} {e : Expr} (he : e ∈ es) {y : Str} (hy : y ∈ Expr.vars e) :
    y ∈ Expr.varsList es := by
  induction es with
  | nil => cases he
  | cons a es ih =>
    simp only [Expr.varsList, List.mem_append]
    rcases List.mem_cons.mp he with rfl | he
    · exact .inl hy
    · exact .inr (ih he)

/-! ## Arguments -/

/-- Is this argument given for the parameter by name? -/
def namedFor (p : Str) : Expr → Bool
  | .namedArg n _ => n == p
  | _ => false

/-- Is this argument given by name? -/
def isNamed : Expr → Bool
  | .namedArg _ _ => true
  | _ => false

theorem argFor_eq (args : List Expr) (p : Str) (i : Nat) :
    argFor args p i = match args.find? (namedFor p) with
      | some e => some e
      | none => args[i]? := by
  have : ∀ f : Expr → Bool, (∀ e, f e = namedFor p e) → (match args.find? f with
      | some e => some e
      | none => args[i]?) = match args.find? (namedFor p) with
      | some e => some e
      | none => args[i]? := by
    intro f hf; rw [funext hf]
  exact this _ (fun e => by cases e <;> rfl)

theorem argsShape_pos {e : Expr} (h : isNamed e = false) (rest : List Expr) (seen : List Str) :
    argsShape (e :: rest) seen = (seen.isEmpty && argsShape rest seen) := by
  cases e <;> first | rfl | cases h

theorem argsShape_snoc : (args : List Expr) → (seen : List Str) → (e : Expr) → argsShape (args ++ [e]) seen = true →
    argsShape args seen = true
      ∧ (∀ n x, e = .namedArg n x → n ∉ seen ∧ ∀ a ∈ args, namedFor n a = false)
      ∧ (isNamed e = false → seen = [] ∧ ∀ a ∈ args, isNamed a = false)
  | [], seen, e, h => by
    refine ⟨rfl, ?_, ?_⟩
    · rintro n x rfl
      simp only [List.nil_append, argsShape, Bool.and_true, Bool.not_eq_true', List.contains_eq_mem,
        decide_eq_false_iff_not] at h
      exact ⟨h, by simp⟩
    · intro he
      rw [List.nil_append, argsShape_pos he] at h
      simp only [Bool.and_eq_true, List.isEmpty_iff] at h
      exact ⟨h.1, by simp⟩
  | a :: args, seen, e, h => by
    cases ha : isNamed a with
    | true =>
      obtain ⟨m, y, rfl⟩ : ∃ m y, a = .namedArg m y := by
        cases a <;> first | exact ⟨_, _, rfl⟩ | cases ha
      simp only [List.cons_append, argsShape, Bool.and_eq_true] at h ⊢
      obtain ⟨h1, h2, h3⟩ := argsShape_snoc args _ e h.2
      refine ⟨⟨h.1, h1⟩, ?_, ?_⟩
      · rintro n x rfl
        obtain ⟨h4, h5⟩ := h2 n x rfl
        simp only [List.mem_cons, not_or] at h4
        refine ⟨h4.2, ?_⟩
        intro b hb
        rcases List.mem_cons.mp hb with rfl | hb
        · simpa [namedFor] using fun e => h4.1 e.symm
        · exact h5 b hb
      · intro he; exact absurd (h3 he).1 (by simp)
    | false =>
      rw [List.cons_append, argsShape_pos ha] at h
      rw [argsShape_pos ha]
      simp only [Bool.and_eq_true] at h ⊢
      obtain ⟨h1, h2, h3⟩ := argsShape_snoc args _ e h.2
      refine ⟨⟨h.1, h1⟩, ?_, ?_⟩
      · rintro n x rfl
        obtain ⟨h4, h5⟩ := h2 n x rfl
        refine ⟨h4, ?_⟩
        intro b hb
        rcases List.mem_cons.mp hb with rfl | hb
        · cases b <;> first | rfl | cases ha
        · exact h5 b hb
      · intro he
        refine ⟨(h3 he).1, ?_⟩
        intro b hb
        rcases List.mem_cons.mp hb with rfl | hb
        · exact ha
        · exact (h3 he).2 b hb

theorem namedArgs_pos {ps : List Str} {e : Expr} (h : isNamed e = false) (rest : List Expr) :
    namedArgs ps (e :: rest) = .ok [] := by
  cases e <;> first | rfl | cases h

theorem namedFor_of_pos {e : Expr} (h : isNamed e = false) (p : Str) : namedFor p e = false := by
  cases e <;> first | rfl | cases h

/-- Looking up a named argument. -/
theorem lastOf_named {ps : List Str} : (rargs : List Expr) → {named : List (Str × Expr)} →
    argsShape rargs.reverse [] = true → namedArgs ps rargs = .ok named → (p : Str) →
    lastOf named p = rargs.reverse.find? (namedFor p)
  | [], named, _, h, p => by
    simp only [namedArgs, Except.ok.injEq] at h
    subst h; rfl
  | e :: rargs, named, hsh, h, p => by
    rw [List.reverse_cons] at hsh ⊢
    obtain ⟨h1, h2, h3⟩ := argsShape_snoc _ _ _ hsh
    cases he : isNamed e with
    | false =>
      rw [namedArgs_pos he] at h
      cases h
      symm
      refine List.find?_eq_none.mpr ?_
      intro a ha
      rcases List.mem_append.mp ha with ha | ha
      · simp [namedFor_of_pos ((h3 he).2 a ha)]
      · cases List.mem_singleton.mp ha
        simp [namedFor_of_pos he]
    | true =>
      obtain ⟨m, y, rfl⟩ : ∃ m y, e = .namedArg m y := by
        cases e <;> first | exact ⟨_, _, rfl⟩ | cases he
      simp only [namedArgs] at h
      split at h
      · obtain ⟨nm, h4, h⟩ := except_bind h
        cases h
        have ih := lastOf_named rargs h1 h4 p
        rw [List.find?_append, ← ih]
        unfold lastOf assoc at ih ⊢
        rw [List.reverse_append, List.reverse_cons, List.reverse_nil, List.nil_append, List.singleton_append]
        by_cases hmp : m = p
        · subst hmp
          have : rargs.reverse.find? (namedFor m) = none :=
            List.find?_eq_none.mpr fun a ha => by simp [(h2 m y rfl).2 a ha]
          rw [this] at ih
          rw [List.find?_cons_of_pos (by simp), ih]
          simp [namedFor]
        · rw [List.find?_cons_of_neg (by simpa using hmp)]
          simp [namedFor, hmp]
      · cases h

theorem paramArg_eq {ps : List Str} {args : List Expr} {named : List (Str × Expr)} (hsh : argsShape args [] = true)
    (hn : namedArgs ps args.reverse = .ok named) {p : Str} {i : Nat} {ap ap' : Bool} {e : Expr}
    (h : paramArg named args p i ap = .ok (e, ap')) : argFor args p i = some e := by
  have hl := lastOf_named args.reverse (by rw [List.reverse_reverse]; exact hsh) hn p
  rw [List.reverse_reverse] at hl
  rw [argFor_eq, ← hl]
  unfold paramArg at h
  cases hx : lastOf named p with
  | some x =>
    rw [hx] at h
    simp only [Except.ok.injEq, Prod.mk.injEq] at h
    simp [h.1]
  | none =>
    rw [hx] at h
    simp only at h ⊢
    split at h
    · cases hy : args[i]? with
      | some y =>
        rw [hy] at h
        simp only [Except.ok.injEq, Prod.mk.injEq] at h
        simp [h.1]
      | none => rw [hy] at h; cases h
    · cases h

theorem argFor_mem {args : List Expr} {p : Str} {i : Nat} {e : Expr} (h : argFor args p i = some e) : e ∈ args := by
  rw [argFor_eq] at h
  cases hx : args.find? (namedFor p) with
  | some x => rw [hx] at h; simp only [Option.some.injEq] at h; subst h; exact List.mem_of_find?_eq_some hx
  | none => rw [hx] at h; exact List.mem_of_getElem? h

theorem passArg_inv {I : GenInput} {L : Locals} {e : Expr} {x : RExpr ⊕ RExpr} (h : passArg I L e = .ok x) :
    ∃ r w, visitExpr I L e = .ok (r, w) ∧ x = if lazyArg e then .inl r else .inr r := by
  have key : ∀ (f : RExpr → RExpr ⊕ RExpr), ((visitExpr I L e).map fun r => f r.1) = .ok x →
      ∃ r w, visitExpr I L e = .ok (r, w) ∧ x = f r := by
    intro f hf
    cases hv : visitExpr I L e with
    | error _ => rw [hv] at hf; cases hf
    | ok rw_ => rw [hv] at hf; cases hf; exact ⟨rw_.1, rw_.2, rfl, rfl⟩
  cases e with
  | var s =>
    simp only [passArg] at h
    by_cases hs : s = c!"self"
    · rw [if_pos hs] at h
      cases h
      exact ⟨.self_, false, by simp [visitExpr, hs], by simp [lazyArg, hs]⟩
    · rw [if_neg hs] at h
      cases h
      exact ⟨_, false, by simp only [visitExpr]; rw [if_neg hs], by simp [lazyArg, hs]⟩
  | attr o a => exact key .inl h
  | _ => exact key .inr h

theorem findMacro_eq {I : GenInput} {ctx : Ctx} {scope : Option Str} {name : Str} {r : MacroDef × Ctx}
    (h : findMacro I ctx scope name = .ok r) : macroOf I ctx scope name = some r := by
  unfold findMacro at h
  unfold macroOf
  cases scope with
  | none =>
    dsimp only at h ⊢
    cases h1 : assoc ctx.macros name with
    | none => rw [h1] at h; cases h
    | some d => rw [h1] at h; cases h; rfl
  | some s =>
    dsimp only at h ⊢
    cases h1 : assoc ctx.imports s with
    | none => rw [h1] at h; cases h
    | some path =>
      rw [h1] at h
      dsimp only [Option.bind_some] at h ⊢
      cases h2 : assoc I.contexts path with
      | none => rw [h2] at h; cases h
      | some m =>
        rw [h2] at h
        dsimp only [Option.bind_some] at h ⊢
        cases h3 : assoc m.macros name with
        | none => rw [h3] at h; cases h
        | some d => rw [h3] at h; cases h; rfl

/-! ## Parameters -/

section

variable {W : World U} {I : GenInput} {S Sc : Sets} {cells : List (Cell U)} {st : Store U} {ρ : REnv U} {g : Gen}
  {ts : List (Option Str)} {L : Locals}

/-- A parameter that stands for the text of its argument. -/
theorem Rel.addSpec (h : Rel W S cells st L ρ) {p : Str} {r : RExpr} (hK : p ∈ S.K) (hR : p ∈ S.R) (hD : p ∉ S.D)
    (hkey : p ∉ rustKeywords ∧ p ≠ c!"_") (hlow : pathLike p = false) (hl : ∀ x ∈ r.locals, x ∈ S.K) (hu : r.usesItem = false) :
    Rel W S (.spec p (r.eval W ρ) :: cells)
      { st with vars := (p, r.eval W ρ) :: st.vars, known := (p, true) :: st.known }
      (L.insert p { refs := some r, initialized := true }) ρ := by
  have hg := MapChain.get_insert (α := LocalMeta) h.wf p { refs := some r, initialized := true }
  have hst : ∀ n, n ≠ p → Store.status { st with vars := (p, r.eval W ρ) :: st.vars, known := (p, true) :: st.known } n
      = st.status n := by
    intro n hn
    unfold Store.status
    rw [List.find?_cons_of_neg (by simpa using fun e => hn e.symm)]
  have hstp : Store.status { st with vars := (p, r.eval W ρ) :: st.vars, known := (p, true) :: st.known } p
      = some true := by simp [Store.status]
  refine ⟨by simp only [specVars, h.svars], by simp only [rustVars, h.rvars], h.item, MapChain.insert_scopes h.wf _ _,
    ?_, ?_, ?_, ?_, ?_, ?_, ?_, h.kint, h.vint, h.rv, ?_, ?_, by rw [hst _ (Ne.symm hkey.2)]; exact h.under⟩
  · intro n m hm
    rw [hg] at hm
    split at hm
    · rename_i hn; subst hn; exact hkey
    · exact h.keys n m hm
  · intro n m hm hi
    rw [hg] at hm
    split at hm
    · rename_i hn; subst hn; exact h.rv _ hR
    · exact h.inV n m hm hi
  · intro n m hm hi
    rw [hg] at hm
    split at hm
    · rename_i hn; subst hn; exact hlow
    · exact h.lower n m hm hi
  · intro n hi hm
    rw [hg] at hm
    split at hm
    · cases hm
    · rename_i hn; rw [hst n hn]; exact h.unknown n hi hm
  · intro n m hi hm hr
    rw [hg] at hm
    split at hm
    · cases hm; cases hr
    · rename_i hn
      rw [hst n hn, firstCell_neg (by exact fun e => hn e.symm)]
      exact h.plain n m hi hm hr
  · intro n m q hm hr
    rw [hg] at hm
    split at hm
    · rename_i hn; subst hn; cases hm; cases hr
      exact ⟨hK, hR, ⟨true, hstp⟩, ⟨_, firstCell_pos rfl, rfl⟩, hl, hu⟩
    · rename_i hn
      rw [hst n hn, firstCell_neg (by exact fun e => hn e.symm)]
      exact h.refd n m q hm hr
  · intro n hn
    rw [hg, if_neg (by rintro rfl; exact hD hn)]
    exact h.dset n hn
  · intro n hp hi hk
    have hn : n ≠ p := by rintro rfl; exact hk hK
    rw [hst n hn, firstCell_neg (by exact fun e => hn e.symm)]
    refine (h.paths n hp hi hk).imp (fun ⟨h1, h2⟩ => ⟨h1, fun c hc => ?_⟩) id
    rcases List.mem_cons.mp hc with rfl | hc
    · exact fun e => hn e.symm
    · exact h2 c hc
  · intro c hc hp hi
    rcases List.mem_cons.mp hc with rfl | hc
    · exact .inr hK
    · exact h.cellsIn c hc hp hi

/-- A parameter that is a variable. -/
theorem Rel.addBoth (h : Rel W S cells st L ρ) {p : Str} {v : Option (Val U)} (hK : p ∈ S.K) (hV : p ∈ S.V) (hD : p ∉ S.D)
    (hkey : p ∉ rustKeywords ∧ p ≠ c!"_") (hlow : pathLike p = false) {K : List Str} (hr : RefsIn L K) (hp : p ∉ K) :
    Rel W S (.both p v :: cells) { st with vars := (p, v) :: st.vars, known := (p, true) :: st.known }
      (L.insert p { refs := none, initialized := false }) { ρ with vars := (p, v) :: ρ.vars } := by
  have hg := MapChain.get_insert (α := LocalMeta) h.wf p { refs := none, initialized := false }
  have hst : ∀ n, n ≠ p → Store.status { st with vars := (p, v) :: st.vars, known := (p, true) :: st.known } n
      = st.status n := by
    intro n hn
    unfold Store.status
    rw [List.find?_cons_of_neg (by simpa using fun e => hn e.symm)]
  have hstp : Store.status { st with vars := (p, v) :: st.vars, known := (p, true) :: st.known } p
      = some true := by simp [Store.status]
  refine ⟨by simp only [specVars, h.svars], by simp only [rustVars, h.rvars], h.item, MapChain.insert_scopes h.wf _ _,
    ?_, ?_, ?_, ?_, ?_, ?_, ?_, h.kint, h.vint, h.rv, ?_, ?_, by rw [hst _ (Ne.symm hkey.2)]; exact h.under⟩
  · intro n m hm
    rw [hg] at hm
    split at hm
    · rename_i hn; subst hn; exact hkey
    · exact h.keys n m hm
  · intro n m hm hi
    rw [hg] at hm
    split at hm
    · rename_i hn; subst hn; exact hV
    · exact h.inV n m hm hi
  · intro n m hm hi
    rw [hg] at hm
    split at hm
    · rename_i hn; subst hn; exact hlow
    · exact h.lower n m hm hi
  · intro n hi hm
    rw [hg] at hm
    split at hm
    · cases hm
    · rename_i hn; rw [hst n hn]; exact h.unknown n hi hm
  · intro n m hi hm hr
    rw [hg] at hm
    split at hm
    · rename_i hn; subst hn; cases hm
      exact ⟨⟨true, hstp, fun hk => absurd hK hk⟩, ⟨v, firstCell_pos rfl⟩, fun _ hk => absurd hK hk⟩
    · rename_i hn
      rw [hst n hn, firstCell_neg (by exact fun e => hn e.symm)]
      exact h.plain n m hi hm hr
  · intro n m q hm hq
    rw [hg] at hm
    split at hm
    · cases hm; cases hq
    · rename_i hn
      rw [hst n hn, firstCell_neg (by exact fun e => hn e.symm)]
      obtain ⟨h1, h2, h3, ⟨w, hf, he⟩, h4, h5⟩ := h.refd n m q hm hq
      refine ⟨h1, h2, h3, ⟨w, hf, ?_⟩, h4, h5⟩
      rw [← he]
      exact RExpr.eval_congr W _ _ q (fun y hy => lookup_cons_ne (fun e => hp (by rw [e]; exact (hr n m q hm hq).1 y hy)))
        (fun _ => rfl)
  · intro n hn
    rw [hg, if_neg (by rintro rfl; exact hD hn)]
    exact h.dset n hn
  · intro n hp hi hk
    have hn : n ≠ p := by rintro rfl; exact hk hK
    rw [hst n hn, firstCell_neg (by exact fun e => hn e.symm)]
    refine (h.paths n hp hi hk).imp (fun ⟨h1, h2⟩ => ⟨h1, fun c hc => ?_⟩) id
    rcases List.mem_cons.mp hc with rfl | hc
    · exact fun e => hn e.symm
    · exact h2 c hc
  · intro c hc hp hi
    rcases List.mem_cons.mp hc with rfl | hc
    · exact .inr hK
    · exact h.cellsIn c hc hp hi

theorem bindParams_length {named : List (Str × Expr)} {args : List Expr} : (ps : List Str) → {i : Nat} → {ap : Bool} →
    {L L' : Locals} → {ns : List Str} → {rs : List RExpr} → bindParams I named args ps i ap L = .ok (ns, rs, L') →
    ns.length = rs.length
  | [], _, _, _, _, _, _, h => by
    simp only [bindParams, Except.ok.injEq, Prod.mk.injEq] at h
    obtain ⟨rfl, rfl, _⟩ := h
    rfl
  | p :: ps, _, _, _, _, _, _, h => by
    simp only [bindParams] at h
    obtain ⟨⟨e, ap'⟩, h1, h⟩ := except_bind h
    obtain ⟨x, h2, h⟩ := except_bind h
    cases x with
    | inl r => exact bindParams_length ps h
    | inr r =>
      obtain ⟨⟨ns', rs', L2⟩, h3, h⟩ := except_bind h
      cases h
      simp [bindParams_length ps h3]

/-- What is known of a macro's parameters `P` and of the names `A` in the arguments. -/
structure CallOk (S Sc : Sets) (P A : List Str) : Prop where
  K : Sc.K = P ++ A ++ S.K
  R : Sc.R = P ++ S.R
  V : Sc.V = P ++ S.V
  D : ∀ n ∈ Sc.D, n ∈ S.D ∧ n ∉ P
  disj : ∀ p ∈ P, p ∉ A
  fresh : ∀ p ∈ P, p ∉ S.K
  key : ∀ p ∈ P, p ∉ rustKeywords ∧ p ≠ c!"_"
  pint : ∀ p ∈ P, internal p = false
  low : ∀ p ∈ P, pathLike p = false
  aint : ∀ y ∈ A, internal y = false

theorem Rel.toCall {P A : List Str} (c : CallOk S Sc P A) (h : Rel W S cells st L ρ) : Rel W Sc cells st L ρ := by
  have hK : ∀ n ∈ S.K, n ∈ Sc.K := fun n hn => by rw [c.K]; exact List.mem_append_right _ hn
  have hR : ∀ n ∈ S.R, n ∈ Sc.R := fun n hn => by rw [c.R]; exact List.mem_append_right _ hn
  have hV : ∀ n ∈ S.V, n ∈ Sc.V := fun n hn => by rw [c.V]; exact List.mem_append_right _ hn
  refine ⟨h.svars, h.rvars, h.item, h.wf, h.keys, fun n m hm hi => hV n (h.inV n m hm hi), h.lower, h.unknown, ?_, ?_,
    fun n hn => h.dset n (c.D n hn).1, ?_, ?_, ?_, fun n hp hi hn => h.paths n hp hi (fun hk => hn (hK n hk)),
    fun d hd hp hi => (h.cellsIn d hd hp hi).imp (hV _) (hK _), h.under⟩
  · intro n m hi hm hr
    obtain ⟨⟨b, hb, h1⟩, h2, h3⟩ := h.plain n m hi hm hr
    exact ⟨⟨b, hb, fun hn => h1 (fun hk => hn (hK n hk))⟩, h2, fun hi hn => h3 hi (fun hk => hn (hK n hk))⟩
  · intro n m r hm hr
    obtain ⟨h1, h2, h3, h4, h5, h6⟩ := h.refd n m r hm hr
    exact ⟨hK n h1, hR n h2, h3, h4, fun x hx => hK x (h5 x hx), h6⟩
  · intro n hn
    rw [c.K] at hn
    simp only [List.mem_append] at hn
    rcases hn with (hn | hn) | hn
    · exact c.pint n hn
    · exact c.aint n hn
    · exact h.kint n hn
  · intro n hn
    rw [c.V] at hn
    rcases List.mem_append.mp hn with hn | hn
    · exact c.pint n hn
    · exact h.vint n hn
  · intro n hn
    rw [c.R] at hn
    rw [c.V]
    rcases List.mem_append.mp hn with hn | hn
    · exact List.mem_append_left _ hn
    · exact List.mem_append_right _ (h.rv n hn)

/-- The parameters are bound. -/
def ParamsOk (W : World U) (P : List Str) (Sc : Sets) (ρ0 : REnv U) (ns : List Str) (rs : List RExpr) (cells : List (Cell U))
    (st : Store U) (L' : Locals) (ρ : REnv U) : Option (List (Str × Option (Val U))) → Prop
  | none => RExpr.evalList W ρ0 rs = none
  | some vals => ∃ vs new, RExpr.evalList W ρ0 rs = some vs ∧ (∀ c ∈ new, Cell.name c ∈ P)
      ∧ Rel W Sc (new ++ cells)
        { st with vars := vals.reverse ++ st.vars, known := (vals.map fun p => (p.1, true)).reverse ++ st.known } L'
        { ρ with vars := bindVars ns vs ρ.vars }

theorem name_push {p x : Str} (v : Option (Val U)) (h : rawIdent x ≠ p) :
    Store.name W { st with vars := (p, v) :: st.vars, known := (p, true) :: st.known } x = st.name W x := by
  unfold Store.name Store.status
  rw [List.find?_cons_of_neg (by simpa using fun e => h e.symm), List.find?_cons_of_neg (by simpa using fun e => h e.symm)]

theorem path_push {p n : Str} (v : Option (Val U)) (h : n ≠ p) :
    Store.path W { st with vars := (p, v) :: st.vars, known := (p, true) :: st.known } [n] = st.path W [n] := by
  unfold Store.path Store.status
  simp only
  rw [List.find?_cons_of_neg (by simpa using fun e => h e.symm), List.find?_cons_of_neg (by simpa using fun e => h e.symm)]

theorem pathVal_push {p n : Str} (v : Option (Val U)) {vars : List (Str × Option (Val U))} (h : n ≠ p) :
    pathVal W ((p, v) :: vars) [n] = pathVal W vars [n] := by
  unfold pathVal
  simp only
  rw [List.find?_cons_of_neg (by simpa using fun e => h e.symm)]

theorem argValues_lazy {W : World U} {I : GenInput} {st : Store U} {args : List Expr} {p : Str} {ps : List Str} {i : Nat}
    {e : Expr} (h : argFor args p i = some e) (hl : lazyArg e = true) :
    argValues W I st args (p :: ps) i
      = (argValues W I st args ps (i + 1)).map ((p, evalE W I st none e) :: ·) := by
  simp [argValues, h, hl]

theorem argValues_eager {W : World U} {I : GenInput} {st : Store U} {args : List Expr} {p : Str} {ps : List Str} {i : Nat}
    {e : Expr} (h : argFor args p i = some e) (hl : lazyArg e = false) :
    argValues W I st args (p :: ps) i
      = (evalE W I st none e).bind fun v => (argValues W I st args ps (i + 1)).map ((p, some v) :: ·) := by
  simp only [argValues, h, hl, Option.bind_some, Bool.not_false, Bool.and_true]
  cases evalE W I st none e <;> simp

theorem params_sound {P : List Str} {args : List Expr} {named : List (Str × Expr)} (c : CallOk S Sc P (Expr.varsList args))
    (hsh : argsShape args [] = true) (hnm : namedArgs P args.reverse = .ok named) (hok : exprListOk S.refused none args = true)
    (hloop : ∀ e ∈ args, lazyArg e = true → usesLoop e = false) {st0 : Store U} {ρ0 : REnv U} : (ps : List Str) →
    {i : Nat} → {ap : Bool} → {L L' : Locals} → {ns : List Str} → {rs : List RExpr} → {cells : List (Cell U)} →
    {st : Store U} → {ρ : REnv U} → (∀ p ∈ ps, p ∈ P) → Rel W Sc cells st L ρ →
    RefsIn L (Expr.varsList args ++ S.K) → (∀ n, n ∉ P → SameName W st st0 n) → st.item = st0.item →
    (∀ y, y ∉ P → RExpr.varOf ρ.vars y = RExpr.varOf ρ0.vars y) → ρ.item = ρ0.item →
    (∀ n, pathLike n = true → claimed n = false → n ∉ S.K → pathVal W ρ.vars [n] = st.path W [n]) →
    bindParams I named args ps i ap L = .ok (ns, rs, L') →
    ParamsOk W P Sc ρ0 ns rs cells st L' ρ (argValues W I st0 args ps i)
  | [], i, ap, L, L', ns, rs, cells, st, ρ, _, R, _, _, _, _, _, _, h => by
    simp only [bindParams, Except.ok.injEq, Prod.mk.injEq] at h
    obtain ⟨rfl, rfl, rfl⟩ := h
    exact ⟨[], [], rfl, by simp, R⟩
  | p :: ps, i, ap, L, L', ns, rs, cells, st, ρ, hps, R, hK, hn, hi, hl, hi', hpt, h => by
    have hpP := hps p List.mem_cons_self
    simp only [bindParams] at h
    obtain ⟨⟨e, ap'⟩, h1, h⟩ := except_bind h
    obtain ⟨x, h2, h⟩ := except_bind h
    have harg := paramArg_eq hsh hnm h1
    have hmem := argFor_mem harg
    obtain ⟨r, w, hv, hx⟩ := passArg_inv h2
    have hvars : ∀ y ∈ Expr.vars e, y ∉ P := fun y hy hP => c.disj y hP (varsList_mem hmem hy)
    have hok' : exprOk (Sc.R, S.K) none e = true := by
      refine exprOk_mono e (exprListOk_mem hok hmem) ?_
      intro y hy
      refine ⟨fun hy' => ?_, id⟩
      show y ∉ Sc.R
      rw [c.R, List.mem_append, not_or]
      exact ⟨hvars y hy, hy'⟩
    have hag : NamesAgree W L ρ st (Sc.R, S.K) none none :=
      ⟨R.agree'.names, R.agree'.callee, hpt, R.agree'.item, R.agree'.hole⟩
    have hev := (visit_sound hag e hok' hv).1
    have hev0 : evalE W I st none e = evalE W I st0 none e := evalE_congr hi e fun x hx => hn x (hvars _ hx)
    obtain ⟨hloc, hitem⟩ := visit_locals hK e hok' hv
    have hAK : ∀ y, y ∈ Expr.varsList args ++ S.K → y ∉ P := by
      intro y hy hP
      rcases List.mem_append.mp hy with hy | hy
      · exact c.disj y hP hy
      · exact c.fresh y hP hy
    have hloc' : ∀ y ∈ r.locals, y ∈ Expr.varsList args ++ S.K := by
      intro y hy
      rcases hloc y hy with hy | hy | hy
      · exact List.mem_append_left _ (varsList_mem hmem hy)
      · exact hy
      · cases hy
    have hr0 : r.eval W ρ = r.eval W ρ0 :=
      RExpr.eval_congr W _ _ r (fun y hy => hl y (hAK y (hloc' y hy))) (fun _ => hi')
    have hKc : p ∈ Sc.K := by rw [c.K]; exact List.mem_append_left _ (List.mem_append_left _ hpP)
    have hDc : p ∉ Sc.D := fun hd => (c.D p hd).2 hpP
    have hn' : ∀ v n, n ∉ P → SameName W { st with vars := (p, v) :: st.vars, known := (p, true) :: st.known } st0 n := by
      intro v n hx
      have hne : n ≠ p := fun e => hx (by rw [e]; exact hpP)
      refine ⟨fun x hxn => ?_, ?_⟩
      · rw [name_push v (by rw [hxn]; exact hne)]
        exact (hn n hx).1 x hxn
      · rw [path_push v hne]; exact (hn n hx).2
    have hnp : ∀ n, pathLike n = true → n ≠ p := fun n hp e => by rw [e, c.low p hpP] at hp; cases hp
    cases hlz : lazyArg e with
    | true =>
      rw [hlz, if_pos rfl] at hx
      subst hx
      dsimp only at h
      have hu : r.usesItem = false := by
        cases hui : r.usesItem with
        | false => rfl
        | true => rw [hloop e hmem hlz] at hitem; exact absurd (hitem hui) (by simp)
      have R' := R.addSpec (r := r) hKc (by rw [c.R]; exact List.mem_append_left _ hpP) hDc (c.key p hpP) (c.low p hpP)
        (fun y hy => by
          rw [c.K, List.append_assoc]
          exact List.mem_append_right _ (hloc' y hy)) hu
      have hK' : RefsIn (L.insert p { refs := some r, initialized := true }) (Expr.varsList args ++ S.K) := by
        intro n m q hg hq
        rw [MapChain.get_insert R.wf] at hg
        split at hg
        · cases hg; cases hq; exact ⟨hloc', hu⟩
        · exact hK n m q hg hq
      have ih := params_sound c hsh hnm hok hloop (ρ0 := ρ0) ps (fun q hq => hps q (List.mem_cons_of_mem _ hq)) R' hK'
        (hn' _) hi hl hi' (fun n hp hr hk => by rw [path_push _ (hnp n hp)]; exact hpt n hp hr hk) h
      rw [argValues_lazy harg hlz, ← hev0, ← hev]
      cases ha : argValues W I st0 args ps (i + 1) with
      | none => rw [ha] at ih; exact ih
      | some vals =>
        rw [ha] at ih
        obtain ⟨vs, new, k1, k2, k3⟩ := ih
        refine ⟨vs, new ++ [.spec p (r.eval W ρ)], k1, ?_, ?_⟩
        · intro d hd
          rcases List.mem_append.mp hd with hd | hd
          · exact k2 d hd
          · cases List.mem_singleton.mp hd; exact hpP
        · simpa using k3
    | false =>
      rw [hlz, if_neg (by simp)] at hx
      subst hx
      dsimp only at h
      obtain ⟨⟨ns', rs', L2⟩, h3, h⟩ := except_bind h
      cases h
      rw [argValues_eager harg hlz, ← hev0, ← hev, hr0]
      cases hr : r.eval W ρ0 with
      | none =>
        simp only [Option.bind_none]
        show RExpr.evalList W ρ0 (r :: rs') = none
        simp [RExpr.evalList, hr]
      | some v =>
        have R' := R.addBoth (v := some v) hKc (by rw [c.V]; exact List.mem_append_left _ hpP) hDc (c.key p hpP) (c.low p hpP) hK
          (fun hk => hAK p hk hpP)
        have hK' : RefsIn (L.insert p { refs := none, initialized := false }) (Expr.varsList args ++ S.K) := by
          intro n m q hg hq
          rw [MapChain.get_insert R.wf] at hg
          split at hg
          · cases hg; cases hq
          · exact hK n m q hg hq
        have ih := params_sound c hsh hnm hok hloop (ρ0 := ρ0) ps (fun q hq => hps q (List.mem_cons_of_mem _ hq)) R' hK'
          (hn' _) hi (fun y hy => by rw [lookup_cons_ne (fun e => hy (by rw [← e]; exact hpP))]; exact hl y hy) hi'
          (fun n hp hr hk => by rw [path_push _ (hnp n hp), pathVal_push _ (hnp n hp)]; exact hpt n hp hr hk) h3
        simp only [Option.bind_some]
        cases ha : argValues W I st0 args ps (i + 1) with
        | none =>
          rw [ha] at ih
          have : RExpr.evalList W ρ0 rs' = none := ih
          show RExpr.evalList W ρ0 (r :: rs') = none
          simp [RExpr.evalList, hr, this]
        | some vals =>
          rw [ha] at ih
          obtain ⟨vs, new, k1, k2, k3⟩ := ih
          refine ⟨v :: vs, new ++ [.both p (some v)], by simp [RExpr.evalList, hr, k1], ?_, ?_⟩
          · intro d hd
            rcases List.mem_append.mp hd with hd | hd
            · exact k2 d hd
            · cases List.mem_singleton.mp hd; exact hpP
          · simpa [bindVars] using k3

variable {rec : Handler} {sp : Render U} {gd : GoodRec} {H : Option Heritage} {chain : List Ctx} {ctx : Ctx}
  {sup : Option (Str × Nat)}

/-- What the check keeps track of inside a macro. -/
def callSets (S : Sets) (P A : List Str) : Sets :=
  ⟨P ++ A ++ S.K, P ++ S.R, P ++ S.V, S.D.filter (fun n => !P.contains n), []⟩

theorem goodCall_ok {rc : Ctx → Sets → List Node → Option Sets} {scope : Option Str} {name : Str} {args : List Expr}
    {d : MacroDef} {own : Ctx} (hm : macroOf I ctx scope name = some (d, own))
    (hg : goodCall I rc ctx S scope name args = true) :
    argsShape args [] = true ∧ exprListOk S.refused none args = true
      ∧ (∀ e ∈ args, lazyArg e = true → usesLoop e = false)
      ∧ CallOk S (callSets S d.args (Expr.varsList args)) d.args (Expr.varsList args)
      ∧ (rc own (callSets S d.args (Expr.varsList args)) d.nodes).isSome = true := by
  unfold goodCall at hg
  rw [hm] at hg
  simp only [Bool.and_eq_true] at hg
  obtain ⟨⟨⟨⟨⟨h1, h2⟩, h3⟩, h4⟩, h5⟩, h6⟩ := hg
  rw [List.all_eq_true] at h3 h5
  have hp : ∀ p ∈ d.args, (p ∉ rustKeywords ∧ p ≠ c!"_") ∧ claimed p = false ∧ p ∉ S.K ∧ pathLike p = false := by
    intro p hp
    have := h3 p hp
    simp only [paramOk, simpleName, Bool.and_eq_true, Bool.not_eq_true', List.contains_eq_mem,
      decide_eq_false_iff_not, bne_iff_ne, ne_eq] at this
    exact ⟨⟨this.1.1.1.1.1, this.1.1.1.2⟩, this.1.1.2, this.2, this.1.2⟩
  refine ⟨h1, h2, ?_, ⟨rfl, rfl, rfl, ?_, ?_, fun p h => (hp p h).2.2.1, fun p h => (hp p h).1,
    fun p h => internal_of_claimed (hp p h).2.1, fun p h => (hp p h).2.2.2,
    fun y hy => (exprListOk_vars args h2 y hy).1⟩, h6⟩
  · intro e he hl
    have := h5 e he
    cases e <;> simp_all [lazyArg]
  · intro n hn
    simpa [callSets] using hn
  · intro p hpp
    unfold disj at h4
    rw [List.all_eq_true] at h4
    simpa using h4 p hpp

theorem call_sound (hs : Stable W) (ok : HandlerOk W I rec sp gd) (fr : RecFrame rec) (hH : HChain H chain) {ws : Ws}
    {scope : Option Str} {name : Str} {args : List Expr} {g' : Gen} {code : List Stmt}
    (h : writeCall rec I H ctx g ws scope name args = .ok (code, g'))
    (hg : goodCall I (fun own => gd chain own sup) ctx S scope name args = true) (hc : Clean g)
    (hsup : g.superBlock = sup) (R : Rel W S cells st g.locals ρ) (hp : PRel W I S st g.locals ρ g.pend ts)
    (nl : Option WH) :
    Ran S.K cells ρ (execList W ρ code) (runCall W I (fun own => sp chain own sup) ctx st scope name args)
      (pendText ts (some (sideOf I ws.l)) g) (RanPost W I S.flushed nl g') := by
  have hfr := writeCall_frame fr hc h
  obtain ⟨d, own, pre, g1, named, ns, rs, L, b, g2, fl, g3, g4, h1, h2, h3, h4, h5, h6, h7, h8, hg', hcode⟩ :=
    writeCall_inv h
  have hm := findMacro_eq h1
  obtain ⟨hsh, hok, hloop, c, hgd⟩ := goodCall_ok hm hg
  have f0 := flushWs_frame (I := I) hc ws
  have f1 := writeBuf_frame (push_clean f0.clean) h2
  have f2 := f1.trans (openLine_frame f1.clean)
  have hl0 := flushWs_locals (I := I) hc ws
  obtain ⟨b1, b2, b3, b4, b5⟩ := writeBuf_locals h2
  obtain ⟨o1, o2, o3, o4, o5⟩ := openLine_same g1
  have hlp : (prepareWs I g1.openLine d.ws1).locals = g.locals.push := by
    show g1.openLine.locals = _
    rw [o1, b1, ← hl0]
  rw [hlp] at h5
  have hemit : (prepareWs I g1.openLine d.ws1).emit (if ns.isEmpty then [] else [.letMany ns rs])
      = if ns.isEmpty then [] else [.letMany ns rs] := by
    unfold emit
    rw [if_neg]
    show ¬ g1.openLine.discard = true
    simp [f2.clean.d]
  have hwrap : ∀ bd, g'.wrap .block bd = [.block bd] := by
    intro bd; unfold wrap; rw [if_neg (by simp [hfr.1.clean.d])]
  rw [hcode, hwrap, hemit]
  have hpre : execList W ρ pre = (pendText ts (some (sideOf I ws.l)) g).map fun s => (s, .next, ρ) := by
    obtain ⟨ts', k1, k2⟩ := hp.flushWs hc ws
    rw [← k2]
    refine writeBuf_exec hs h2 (push_clean f0.clean).d (S := S) (cells := cells) (st := st) ?_ ?_
    · show Rel W S cells st (flushWs I g ws).locals.push ρ
      rw [hl0]; exact R.push
    · exact k1.congrL (by simp)
  refine Ran.after_flush hpre R ?_
  rw [execList_single]
  simp only [Stmt.exec]
  unfold runCall
  rw [hm]
  simp only [Option.bind_some]
  have hpar := params_sound (W := W) c hsh h4 hok hloop (st0 := st) (ρ0 := ρ) d.args (fun _ h => h) (R.push.toCall c)
    (fun n m q hq hr => ⟨fun x hx => List.mem_append_right _ ((R.push.refsIn n m q hq hr).1 x hx),
      (R.push.refsIn n m q hq hr).2⟩)
    (fun _ _ => .refl _ _ _) rfl (fun _ _ => rfl) rfl R.agree'.paths h5
  have hlets : execList W ρ ((if ns.isEmpty then [] else [.letMany ns rs]) ++ b ++ fl)
      = (RExpr.evalList W ρ rs).bind fun vs => execList W { ρ with vars := bindVars ns vs ρ.vars } (b ++ fl) := by
    have hlen := bindParams_length _ h5
    rw [List.append_assoc, execList_append]
    cases ns with
    | nil =>
      cases rs with
      | nil => simp [RExpr.evalList, execList, seqE_nil_left, bindVars]
      | cons _ _ => simp at hlen
    | cons n ns =>
      rw [if_neg (by simp), execList_single]
      simp only [Stmt.exec]
      cases RExpr.evalList W ρ rs with
      | none => rfl
      | some vs => simp [seqE_nil_left]
  rw [hlets]
  cases hav : argValues W I st args d.args 0 with
  | none =>
    rw [hav] at hpar
    have : RExpr.evalList W ρ rs = none := hpar
    rw [this]; exact rfl
  | some vals =>
    rw [hav] at hpar
    obtain ⟨vs, new, k1, k2, k3⟩ := hpar
    rw [k1]
    simp only [Option.bind_some]
    have hcl : Clean { prepareWs I g1.openLine d.ws1 with locals := L } :=
      ⟨f2.clean.pd, f2.clean.d, k3.wf⟩
    have := scope_sound_sub hs ok fr (ρ := ρ) R (cells1 := new ++ cells)
      ⟨new, cells, rfl, .refl _ _, fun c' hc' hK => c.fresh _ (k2 c' hc') hK⟩
      (g := { prepareWs I g1.openLine d.ws1 with locals := L }) k3
      (fun x hx => List.mem_append_right _ hx) h6 hgd hcl (by
        show g1.openLine.superBlock = sup
        rw [o5, b5]; exact f0.sup.trans hsup) hH (o2.trans b2) (o3.trans (b3.trans (by
          show (flushWs I g ws).nextWs = none
          rw [flushWs_eq I ws hc.pd]))) (shouldTrimWs_side I d.ws1.r) (.inr h7)
      (f := fun ρ' => { vars := leaveVars ρ.vars ρ'.vars, item := ρ.item, did := ρ.did, iter := ρ.iter })
      (fun _ _ _ _ => rfl)
    refine this.conseq ?_
    rintro cells' st' ρ' q ⟨hu, R', hk, rfl⟩
    refine RanPost.written ?_ hfr.2.2.2.2 hfr.2.2.1
    rw [hfr.2.1]
    exact R'

end

end Askama
