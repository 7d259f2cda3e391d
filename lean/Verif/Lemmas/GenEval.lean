import Verif.Spec.Good
import Verif.Lemmas.Names
import Verif.Lemmas.GenFmt

/-! Lemmas about `visit_expr`: the emitted expression has the value of the template's expression. -/

namespace Askama

open Askama.Spec

theorem except_bind {ε α β : Type} {x : Except ε α} {f : α → Except ε β} {y : β} (h : (x >>= f) = .ok y) :
    ∃ a, x = .ok a ∧ f a = .ok y := by
  cases x with
  | error e => cases h
  | ok a => exact ⟨a, rfl, h⟩

theorem fits_ok {α : Type} {b : Bool} {x : Except GErr α} {y : α} (h : (if !b then .error .panic else x) = .ok y) :
    b = true ∧ x = .ok y := by
  cases b with
  | false => cases h
  | true => exact ⟨rfl, h⟩

/-! ## The variables of emitted expressions -/

namespace RExpr

mutual
/-- The local variables of an emitted expression. -/
def locals : RExpr → List Str
  | .lit _ _ | .self_ | .field _ | .fieldRef _ | .loopIndex | .loopIndex0 | .loopFirst | .loopLast
  | .rustMacro _ _ => []
  | .local_ n => [n]
  | .path [n] => [n]
  | .path _ => []
  | .array es => localsList es
  | .attr e _ => locals e
  | .index e k => locals e ++ locals k
  | .asRef e => locals e
  | .deref e => locals e
  | .escape _ e => locals e
  | .safe e => locals e
  | .format _ es => localsList es
  | .join es => localsList es
  | .filter _ _ es => localsList es
  | .unary _ e => locals e
  | .binop _ a b => locals a ++ locals b
  | .range _ a b => localsOpt a ++ localsOpt b
  | .group e => locals e
  | .tuple es => localsList es
  | .call f es => locals f ++ localsList es
  | .cycle e => locals e
  | .try_ e => locals e
def localsList : List RExpr → List Str
  | [] => []
  | e :: es => locals e ++ localsList es
def localsOpt : Option RExpr → List Str
  | none => []
  | some e => locals e
end

mutual
/-- Does an emitted expression use `_loop_item`? -/
def usesItem : RExpr → Bool
  | .lit _ _ | .self_ | .field _ | .fieldRef _ | .path _ | .rustMacro _ _ | .local_ _ => false
  | .loopIndex | .loopIndex0 | .loopFirst | .loopLast | .cycle _ => true
  | .array es => usesItemList es
  | .attr e _ => usesItem e
  | .index e k => usesItem e || usesItem k
  | .asRef e => usesItem e
  | .deref e => usesItem e
  | .escape _ e => usesItem e
  | .safe e => usesItem e
  | .format _ es => usesItemList es
  | .join es => usesItemList es
  | .filter _ _ es => usesItemList es
  | .unary _ e => usesItem e
  | .binop _ a b => usesItem a || usesItem b
  | .range _ a b => usesItemOpt a || usesItemOpt b
  | .group e => usesItem e
  | .tuple es => usesItemList es
  | .call f es => usesItem f || usesItemList es
  | .try_ e => usesItem e
def usesItemList : List RExpr → Bool
  | [] => false
  | e :: es => usesItem e || usesItemList es
def usesItemOpt : Option RExpr → Bool
  | none => false
  | some e => usesItem e
end

section

variable {U : Type} (W : World U)

theorem eval_call_other (ρ : REnv U) (f : RExpr) (args : List RExpr) (h1 : ∀ e a, f ≠ .attr e a)
    (h2 : ∀ n, f ≠ .field n) :
    eval W ρ (.call f args) = (eval W ρ f).bind fun v => (evalList W ρ args).bind fun vs => W.call v vs := by
  cases f <;> first
    | exact absurd rfl (h1 _ _)
    | exact absurd rfl (h2 _)
    | simp only [eval]

/-- The innermost variable of a name. -/
def varOf (vars : List (Str × Option (Val U))) (n : Str) : Option (Str × Option (Val U)) := vars.find? (fun e => e.1 == n)

theorem lookupVar_eq (vars : List (Str × Option (Val U))) (n : Str) : lookupVar vars n = (varOf vars n).bind (·.2) := rfl

mutual
/-- The value depends only on the variables that occur. -/
theorem eval_congr (ρ ρ' : REnv U) : (r : RExpr) → (∀ x ∈ locals r, varOf ρ.vars x = varOf ρ'.vars x) →
    (usesItem r = true → ρ.item = ρ'.item) → eval W ρ r = eval W ρ' r
  | .lit _ _, _, _ => by simp [eval]
  | .self_, _, _ => by simp [eval]
  | .local_ n, h, _ => by
    have h := h n (by simp [locals])
    simp only [eval, lookupVar_eq, h]
  | .field _, _, _ => by simp [eval]
  | .fieldRef _, _, _ => by simp [eval]
  | .path [n], h, _ => by
    have h := h n (by simp [locals])
    unfold varOf at h
    simp only [eval, pathVal, h]
  | .path [], _, _ => by simp [eval, pathVal]
  | .path (_ :: _ :: _), _, _ => by simp [eval, pathVal]
  | .array es, h, hi => by
    simp only [eval]; rw [evalList_congr ρ ρ' es (by simpa [locals] using h) (by simpa [usesItem] using hi)]
  | .attr e a, h, hi => by
    simp only [eval]; rw [eval_congr ρ ρ' e (by simpa [locals] using h) (by simpa [usesItem] using hi)]
  | .loopIndex, _, hi => by simp only [eval]; rw [hi (by simp [usesItem])]
  | .loopIndex0, _, hi => by simp only [eval]; rw [hi (by simp [usesItem])]
  | .loopFirst, _, hi => by simp only [eval]; rw [hi (by simp [usesItem])]
  | .loopLast, _, hi => by simp only [eval]; rw [hi (by simp [usesItem])]
  | .index e k, h, hi => by
    simp only [locals, List.mem_append, usesItem, Bool.or_eq_true] at h hi
    simp only [eval]
    rw [eval_congr ρ ρ' e (fun x hx => h x (Or.inl hx)) (fun u => hi (Or.inl u)),
      eval_congr ρ ρ' k (fun x hx => h x (Or.inr hx)) (fun u => hi (Or.inr u))]
  | .asRef e, h, hi => by
    simp only [eval]; rw [eval_congr ρ ρ' e (by simpa [locals] using h) (by simpa [usesItem] using hi)]
  | .deref e, h, hi => by
    simp only [eval]; rw [eval_congr ρ ρ' e (by simpa [locals] using h) (by simpa [usesItem] using hi)]
  | .escape _ e, h, hi => by
    simp only [eval]; rw [eval_congr ρ ρ' e (by simpa [locals] using h) (by simpa [usesItem] using hi)]
  | .safe e, h, hi => by
    simp only [eval]; rw [eval_congr ρ ρ' e (by simpa [locals] using h) (by simpa [usesItem] using hi)]
  | .format _ es, h, hi => by
    simp only [eval]; rw [evalList_congr ρ ρ' es (by simpa [locals] using h) (by simpa [usesItem] using hi)]
  | .join es, h, hi => by
    simp only [eval]; rw [evalList_congr ρ ρ' es (by simpa [locals] using h) (by simpa [usesItem] using hi)]
  | .filter _ _ es, h, hi => by
    simp only [eval]; rw [evalList_congr ρ ρ' es (by simpa [locals] using h) (by simpa [usesItem] using hi)]
  | .unary _ e, h, hi => by
    simp only [eval]; rw [eval_congr ρ ρ' e (by simpa [locals] using h) (by simpa [usesItem] using hi)]
  | .binop op a b, h, hi => by
    simp only [locals, List.mem_append, usesItem, Bool.or_eq_true] at h hi
    simp only [eval]
    rw [eval_congr ρ ρ' a (fun x hx => h x (Or.inl hx)) (fun u => hi (Or.inl u)),
      eval_congr ρ ρ' b (fun x hx => h x (Or.inr hx)) (fun u => hi (Or.inr u))]
  | .range op a b, h, hi => by
    simp only [locals, List.mem_append, usesItem, Bool.or_eq_true] at h hi
    simp only [eval]
    rw [evalOpt_congr ρ ρ' a (fun x hx => h x (Or.inl hx)) (fun u => hi (Or.inl u)),
      evalOpt_congr ρ ρ' b (fun x hx => h x (Or.inr hx)) (fun u => hi (Or.inr u))]
  | .group e, h, hi => by
    simp only [eval]; rw [eval_congr ρ ρ' e (by simpa [locals] using h) (by simpa [usesItem] using hi)]
  | .tuple es, h, hi => by
    simp only [eval]; rw [evalList_congr ρ ρ' es (by simpa [locals] using h) (by simpa [usesItem] using hi)]
  | .call (.attr e a) es, h, hi => by
    simp only [locals, List.mem_append, usesItem, Bool.or_eq_true] at h hi
    simp only [eval]
    rw [eval_congr ρ ρ' e (fun x hx => h x (Or.inl hx)) (fun u => hi (Or.inl u)),
      evalList_congr ρ ρ' es (fun x hx => h x (Or.inr hx)) (fun u => hi (Or.inr u))]
  | .call (.field n) es, h, hi => by
    simp only [locals, List.mem_append, usesItem, Bool.or_eq_true] at h hi
    simp only [eval]
    rw [evalList_congr ρ ρ' es (fun x hx => h x (Or.inr hx)) (fun u => hi (Or.inr u))]
  | .call f es, h, hi => by
    simp only [locals, List.mem_append, usesItem, Bool.or_eq_true] at h hi
    by_cases h1 : ∃ e a, f = .attr e a
    · obtain ⟨e, a, rfl⟩ := h1
      simp only [locals, usesItem] at h hi
      simp only [eval]
      rw [eval_congr ρ ρ' e (fun x hx => h x (Or.inl hx)) (fun u => hi (Or.inl u)),
        evalList_congr ρ ρ' es (fun x hx => h x (Or.inr hx)) (fun u => hi (Or.inr u))]
    by_cases h2 : ∃ n, f = .field n
    · obtain ⟨n, rfl⟩ := h2
      simp only [eval]
      rw [evalList_congr ρ ρ' es (fun x hx => h x (Or.inr hx)) (fun u => hi (Or.inr u))]
    have h1' : ∀ e a, f ≠ .attr e a := fun e a he => h1 ⟨e, a, he⟩
    have h2' : ∀ n, f ≠ .field n := fun n he => h2 ⟨n, he⟩
    rw [eval_call_other W ρ f es h1' h2', eval_call_other W ρ' f es h1' h2',
      eval_congr ρ ρ' f (fun x hx => h x (Or.inl hx)) (fun u => hi (Or.inl u)),
      evalList_congr ρ ρ' es (fun x hx => h x (Or.inr hx)) (fun u => hi (Or.inr u))]
  | .cycle e, h, hi => by
    simp only [eval]
    rw [eval_congr ρ ρ' e (by simpa [locals] using h) (fun _ => hi (by simp [usesItem])), hi (by simp [usesItem])]
  | .rustMacro _ _, _, _ => by simp [eval]
  | .try_ e, h, hi => by
    simp only [eval]; rw [eval_congr ρ ρ' e (by simpa [locals] using h) (by simpa [usesItem] using hi)]
theorem evalList_congr (ρ ρ' : REnv U) : (es : List RExpr) →
    (∀ x ∈ localsList es, varOf ρ.vars x = varOf ρ'.vars x) →
    (usesItemList es = true → ρ.item = ρ'.item) → evalList W ρ es = evalList W ρ' es
  | [], _, _ => by simp [evalList]
  | e :: es, h, hi => by
    simp only [localsList, List.mem_append, usesItemList, Bool.or_eq_true] at h hi
    simp only [evalList]
    rw [eval_congr ρ ρ' e (fun x hx => h x (Or.inl hx)) (fun u => hi (Or.inl u)),
      evalList_congr ρ ρ' es (fun x hx => h x (Or.inr hx)) (fun u => hi (Or.inr u))]
theorem evalOpt_congr (ρ ρ' : REnv U) : (e : Option RExpr) →
    (∀ x ∈ localsOpt e, varOf ρ.vars x = varOf ρ'.vars x) →
    (usesItemOpt e = true → ρ.item = ρ'.item) → evalOpt W ρ e = evalOpt W ρ' e
  | none, _, _ => by simp [evalOpt]
  | some e, h, hi => by
    simp only [evalOpt]
    rw [eval_congr ρ ρ' e (by simpa [localsOpt] using h) (by simpa [usesItemOpt] using hi)]
end

end

end RExpr

/-! ## `visit_expr` -/

theorem visitExpr_attr (I : GenInput) (L : Locals) (e : Expr) (a : Str) (h : ∀ x, e ≠ .var x) :
    visitExpr I L (.attr e a) = (do
      let (r, _) ← visitExpr I L e
      return (.attr r (normalizeIdentifier a), false)) := by
  cases e <;> first
    | exact absurd rfl (h _)
    | rfl
    | simp only [visitExpr]

theorem visitExpr_call (I : GenInput) (L : Locals) (f : Expr) (args : List Expr) (h : ∀ x, f ≠ .var x)
    (h2 : ∀ x a, f ≠ .attr (.var x) a) :
    visitExpr I L (.call f args) = (do
      let (r, _) ← visitExpr I L f
      let rs ← visitList I L args
      return (.call r rs, false)) := by
  cases f with
  | var x => exact absurd rfl (h x)
  | attr e a =>
    cases e with
    | var x => exact absurd rfl (h2 x a)
    | _ => simp only [visitExpr]
  | _ => simp only [visitExpr]

section

variable {U : Type} (W : World U) (I : GenInput)

theorem evalE_attr (st : Store U) (hole : Option (Val U)) (e : Expr) (a : Str) (h : ∀ x, e ≠ .var x) :
    evalE W I st hole (.attr e a) = (evalE W I st hole e).bind fun v => W.attr v (rawIdent a) := by
  cases e <;> first
    | exact absurd rfl (h _)
    | simp only [evalE]

theorem evalE_call_attr (st : Store U) (hole : Option (Val U)) (e : Expr) (a : Str) (args : List Expr)
    (h : ∀ x, e ≠ .var x) :
    evalE W I st hole (.call (.attr e a) args) = (evalE W I st hole e).bind fun v =>
      (evalEs W I st hole args).bind fun vs => W.method v (rawIdent a) vs := by
  cases e <;> first
    | exact absurd rfl (h _)
    | simp only [evalE]

theorem evalE_call (st : Store U) (hole : Option (Val U)) (f : Expr) (args : List Expr)
    (h : ∀ x, f ≠ .var x) (h2 : ∀ e a, f ≠ .attr e a) :
    evalE W I st hole (.call f args) = (evalE W I st hole f).bind fun v =>
      (evalEs W I st hole args).bind fun vs => W.call v vs := by
  cases f <;> first
    | exact absurd rfl (h _)
    | exact absurd rfl (h2 _ _)
    | simp only [evalE]

/-- What is called is not emitted as a field access, unless it is one in the template. -/
theorem visit_callee_shape (L : Locals) (f : Expr) (r : RExpr) (w : Bool) (h : ∀ x, f ≠ .var x)
    (h2 : ∀ e a, f ≠ .attr e a) (h3 : ∀ n e, f ≠ .namedArg n e) (hv : visitExpr I L f = .ok (r, w)) :
    (∀ e a, r ≠ .attr e a) ∧ (∀ n, r ≠ .field n) := by
  have key : ∀ {x : Except GErr (RExpr × Bool)}, x = .ok (r, w) →
      (x = .ok (r, w) → (∀ e a, r ≠ .attr e a) ∧ (∀ n, r ≠ .field n)) →
      (∀ e a, r ≠ .attr e a) ∧ (∀ n, r ≠ .field n) := fun h1 h2 => h2 h1
  cases f with
  | var x => exact absurd rfl (h x)
  | attr e a => exact absurd rfl (h2 e a)
  | namedArg n e => exact absurd rfl (h3 n e)
  | boolLit s | numLit s | strLit s | charLit s | path s | rustMacro p a | generated s =>
    simp only [visitExpr, Except.ok.injEq, Prod.mk.injEq] at hv
    obtain ⟨rfl, _⟩ := hv
    exact ⟨by simp, by simp⟩
  | array es | tuple es =>
    simp only [visitExpr] at hv
    obtain ⟨a, _, hv⟩ := except_bind hv
    simp only [pure, Except.pure, Except.ok.injEq, Prod.mk.injEq] at hv
    obtain ⟨rfl, _⟩ := hv
    exact ⟨by simp, by simp⟩
  | unary op e | group e | try_ e =>
    simp only [visitExpr] at hv
    obtain ⟨a, _, hv⟩ := except_bind hv
    simp only [pure, Except.pure, Except.ok.injEq, Prod.mk.injEq] at hv
    obtain ⟨rfl, _⟩ := hv
    exact ⟨by simp, by simp⟩
  | index a b | binop op a b | range op a b =>
    simp only [visitExpr] at hv
    obtain ⟨a, _, hv⟩ := except_bind hv
    obtain ⟨b, _, hv⟩ := except_bind hv
    simp only [pure, Except.pure, Except.ok.injEq, Prod.mk.injEq] at hv
    obtain ⟨rfl, _⟩ := hv
    exact ⟨by simp, by simp⟩
  | filter name args =>
    unfold visitExpr at hv
    repeat' split at hv
    all_goals first
      | (cases hv; done)
      | (obtain ⟨a, _, hv⟩ := except_bind hv
         simp only [pure, Except.pure, Except.ok.injEq, Prod.mk.injEq] at hv
         obtain ⟨rfl, _⟩ := hv
         exact ⟨by simp, by simp⟩)
  | call f args =>
    by_cases hx : ∃ x, f = .var x
    · obtain ⟨x, rfl⟩ := hx
      simp only [visitExpr] at hv
      obtain ⟨b, _, hv⟩ := except_bind hv
      simp only [pure, Except.pure, Except.ok.injEq, Prod.mk.injEq] at hv
      obtain ⟨rfl, _⟩ := hv
      exact ⟨by simp, by simp⟩
    by_cases hxa : ∃ x a, f = .attr (.var x) a
    · obtain ⟨x, a, rfl⟩ := hxa
      unfold visitExpr at hv
      repeat' split at hv
      all_goals first
        | (cases hv; done)
        | (obtain ⟨a, _, hv⟩ := except_bind hv
           simp only [pure, Except.pure, Except.ok.injEq, Prod.mk.injEq] at hv
           obtain ⟨rfl, _⟩ := hv
           exact ⟨by simp, by simp⟩)
    rw [visitExpr_call I L f args (fun x e => hx ⟨x, e⟩) (fun x a e => hxa ⟨x, a, e⟩)] at hv
    obtain ⟨a, _, hv⟩ := except_bind hv
    obtain ⟨b, _, hv⟩ := except_bind hv
    simp only [pure, Except.pure, Except.ok.injEq, Prod.mk.injEq] at hv
    obtain ⟨rfl, _⟩ := hv
    exact ⟨by simp, by simp⟩

/-- Locals of the generator, variables of the running code and variables of the template agree on what names mean. -/
structure NamesAgree (L : Locals) (ρ : REnv U) (st : Store U) (R : List Str × List Str) (hole : Option (Val U)) (v : Option Str) :
    Prop where
  names : ∀ x, strange (rawIdent x) = false → (L.resolveOrSelf x).eval W ρ = st.name W x
  callee : ∀ x, strange (rawIdent x) = false → rawIdent x ∉ R.1 → ∀ m, L.get (rawIdent x) = some m → m.refs = none
  paths : ∀ n, pathLike n = true → claimed n = false → n ∉ R.2 → pathVal W ρ.vars [n] = st.path W [n]
  item : st.item = ρ.item
  hole : ∀ s, v = some s → lookupVar ρ.vars s = hole

variable {W I}

theorem NamesAgree.var {L : Locals} {ρ : REnv U} {st : Store U} {R : List Str × List Str} {hole : Option (Val U)} {v : Option Str}
    (N : NamesAgree W L ρ st R hole v) (x : Str) (h : strange (rawIdent x) = false) :
    (if x = c!"self" then RExpr.self_ else L.resolveOrSelf x).eval W ρ
      = if x = c!"self" then some W.self_ else st.name W x := by
  split
  · simp [RExpr.eval]
  · exact N.names x h

theorem cycle_eq (vs : List (Val U)) (i : LoopItem) : (loopCycle vs i).bind id = cycleOf vs i := by
  unfold loopCycle cycleOf
  cases vs <;> simp

/-- An attribute of a variable. -/
theorem varAttr_eval (L : Locals) (ρ : REnv U) (x a : Str) :
    RExpr.eval W ρ (varAttr L x a)
      = (RExpr.eval W ρ (if x = c!"self" then .self_ else L.resolveOrSelf x)).bind fun v => W.attr v a := by
  unfold varAttr
  split <;> simp only [RExpr.eval, Option.bind_some]

/-- A method of a variable. -/
theorem varAttr_call (L : Locals) (ρ : REnv U) (x a : Str) (rs : List RExpr) :
    RExpr.eval W ρ (.call (varAttr L x a) rs)
      = (RExpr.eval W ρ (if x = c!"self" then .self_ else L.resolveOrSelf x)).bind fun v =>
          (RExpr.evalList W ρ rs).bind fun vs => W.method v a vs := by
  unfold varAttr
  split <;> simp only [RExpr.eval, Option.bind_some]

mutual
theorem visit_sound {L : Locals} {ρ : REnv U} {st : Store U} {R : List Str × List Str} {hole : Option (Val U)} {v : Option Str}
    (N : NamesAgree W L ρ st R hole v) : (e : Expr) → {r : RExpr} → {w : Bool} → exprOk R v e = true →
    visitExpr I L e = .ok (r, w) → r.eval W ρ = evalE W I st hole e ∧ w = marked e
  | .boolLit s, r, w, _, h | .numLit s, r, w, _, h | .strLit s, r, w, _, h | .charLit s, r, w, _, h
  | .rustMacro s a, r, w, _, h => by
    simp only [visitExpr, Except.ok.injEq, Prod.mk.injEq] at h
    obtain ⟨rfl, rfl⟩ := h
    simp [RExpr.eval, evalE, marked]
  | .path s, r, w, ok, h => by
    simp only [visitExpr, Except.ok.injEq, Prod.mk.injEq] at h
    obtain ⟨rfl, rfl⟩ := h
    simp only [RExpr.eval, evalE, marked, and_true]
    match s, ok with
    | [], _ => rfl
    | [n], ok =>
      simp only [exprOk, Bool.and_eq_true, Bool.not_eq_true', List.contains_eq_mem, decide_eq_false_iff_not] at ok
      exact N.paths n ok.1.1 ok.1.2 ok.2
    | _ :: _ :: _, _ => rfl
  | .generated s, r, w, ok, h => by
    simp only [visitExpr, Except.ok.injEq, Prod.mk.injEq] at h
    obtain ⟨rfl, rfl⟩ := h
    simp only [exprOk, beq_iff_eq] at ok
    simp only [RExpr.eval, evalE, marked, and_true]
    exact N.hole s ok
  | .var x, r, w, ok, h => by
    simp only [visitExpr, Except.ok.injEq, Prod.mk.injEq] at h
    obtain ⟨rfl, rfl⟩ := h
    simp only [exprOk, Bool.not_eq_true'] at ok
    simp only [evalE, marked, and_true]
    exact N.var x ok
  | .array es, r, w, ok, h => by
    simp only [visitExpr] at h
    obtain ⟨rs, h1, h⟩ := except_bind h
    simp only [pure, Except.pure, Except.ok.injEq, Prod.mk.injEq] at h
    obtain ⟨rfl, rfl⟩ := h
    simp only [exprOk] at ok
    simp only [RExpr.eval, evalE, marked, and_true, visitList_sound N es ok h1]
  | .tuple es, r, w, ok, h => by
    simp only [visitExpr] at h
    obtain ⟨rs, h1, h⟩ := except_bind h
    simp only [pure, Except.pure, Except.ok.injEq, Prod.mk.injEq] at h
    obtain ⟨rfl, rfl⟩ := h
    simp only [exprOk] at ok
    simp only [RExpr.eval, evalE, marked, and_true, visitList_sound N es ok h1]
  | .attr e a, r, w, ok, h => by
    by_cases hx : ∃ x, e = .var x
    · obtain ⟨x, rfl⟩ := hx
      simp only [exprOk, Bool.not_eq_true'] at ok
      simp only [visitExpr] at h
      by_cases hl : x = c!"loop"
      · simp only [if_pos hl] at h
        simp only [evalE, marked, if_pos hl, ← N.item]
        split at h
        · simp only [Except.ok.injEq, Prod.mk.injEq] at h
          obtain ⟨rfl, rfl⟩ := h
          rename_i h1
          simp [h1, RExpr.eval, N.item]
        · split at h
          · simp only [Except.ok.injEq, Prod.mk.injEq] at h
            obtain ⟨rfl, rfl⟩ := h
            rename_i h1
            simp [h1, RExpr.eval, N.item]
          · split at h
            · simp only [Except.ok.injEq, Prod.mk.injEq] at h
              obtain ⟨rfl, rfl⟩ := h
              rename_i h1
              simp [h1, RExpr.eval, N.item]
            · split at h
              · simp only [Except.ok.injEq, Prod.mk.injEq] at h
                obtain ⟨rfl, rfl⟩ := h
                rename_i h1
                simp [h1, RExpr.eval, N.item]
              · cases h
      · simp only [if_neg hl, Except.ok.injEq, Prod.mk.injEq] at h
        obtain ⟨rfl, rfl⟩ := h
        simp only [evalE, marked, if_neg hl, and_true, varAttr_eval, N.var x ok, normalizeIdentifier_eq]
    · have hx' : ∀ x, e ≠ .var x := fun x he => hx ⟨x, he⟩
      rw [visitExpr_attr I L e a hx'] at h
      obtain ⟨⟨r1, w1⟩, h1, h⟩ := except_bind h
      simp only [pure, Except.pure, Except.ok.injEq, Prod.mk.injEq] at h
      obtain ⟨rfl, rfl⟩ := h
      simp only [exprOk] at ok
      simp only [evalE_attr W I st hole e a hx', marked, and_true, RExpr.eval, (visit_sound N e ok h1).1,
        normalizeIdentifier_eq]
  | .index a b, r, w, ok, h => by
    simp only [visitExpr] at h
    obtain ⟨⟨r1, w1⟩, h1, h⟩ := except_bind h
    obtain ⟨⟨r2, w2⟩, h2, h⟩ := except_bind h
    simp only [pure, Except.pure, Except.ok.injEq, Prod.mk.injEq] at h
    obtain ⟨rfl, rfl⟩ := h
    simp only [exprOk, Bool.and_eq_true] at ok
    simp only [RExpr.eval, evalE, marked, and_true, (visit_sound N a ok.1 h1).1, (visit_sound N b ok.2 h2).1]
  | .binop op a b, r, w, ok, h => by
    simp only [visitExpr] at h
    obtain ⟨⟨r1, w1⟩, h1, h⟩ := except_bind h
    obtain ⟨⟨r2, w2⟩, h2, h⟩ := except_bind h
    simp only [pure, Except.pure, Except.ok.injEq, Prod.mk.injEq] at h
    obtain ⟨rfl, rfl⟩ := h
    simp only [exprOk, Bool.and_eq_true] at ok
    simp only [RExpr.eval, evalE, marked, and_true, (visit_sound N a ok.1 h1).1, (visit_sound N b ok.2 h2).1]
  | .range op a b, r, w, ok, h => by
    simp only [visitExpr] at h
    obtain ⟨r1, h1, h⟩ := except_bind h
    obtain ⟨r2, h2, h⟩ := except_bind h
    simp only [pure, Except.pure, Except.ok.injEq, Prod.mk.injEq] at h
    obtain ⟨rfl, rfl⟩ := h
    simp only [exprOk, Bool.and_eq_true] at ok
    simp only [RExpr.eval, evalE, marked, and_true, visitOpt_sound N a ok.1 h1, visitOpt_sound N b ok.2 h2]
  | .unary op e, r, w, ok, h => by
    simp only [visitExpr] at h
    obtain ⟨⟨r1, w1⟩, h1, h⟩ := except_bind h
    simp only [pure, Except.pure, Except.ok.injEq, Prod.mk.injEq] at h
    obtain ⟨rfl, rfl⟩ := h
    simp only [exprOk] at ok
    simp only [RExpr.eval, evalE, marked, and_true, (visit_sound N e ok h1).1]
  | .group e, r, w, ok, h => by
    simp only [visitExpr] at h
    obtain ⟨⟨r1, w1⟩, h1, h⟩ := except_bind h
    simp only [pure, Except.pure, Except.ok.injEq, Prod.mk.injEq] at h
    obtain ⟨rfl, rfl⟩ := h
    simp only [exprOk] at ok
    simp only [RExpr.eval, evalE, marked, and_true, (visit_sound N e ok h1).1]
  | .namedArg n e, r, w, ok, h => by
    simp only [visitExpr] at h
    obtain ⟨⟨r1, w1⟩, h1, h⟩ := except_bind h
    simp only [pure, Except.pure, Except.ok.injEq, Prod.mk.injEq] at h
    obtain ⟨rfl, rfl⟩ := h
    simp only [exprOk] at ok
    simp only [evalE, marked, and_true, (visit_sound N e ok h1).1]
  | .try_ e, r, w, ok, h => by
    simp only [visitExpr] at h
    obtain ⟨⟨r1, w1⟩, h1, h⟩ := except_bind h
    simp only [pure, Except.pure, Except.ok.injEq, Prod.mk.injEq] at h
    obtain ⟨rfl, rfl⟩ := h
    simp only [exprOk] at ok
    simp only [RExpr.eval, evalE, marked, and_true, (visit_sound N e ok h1).1]
  | .filter name args, r, w, ok, h => by
    simp only [exprOk] at ok
    unfold visitExpr at h
    unfold evalE
    simp only [marked]
    by_cases hn1 : name = c!"as_ref"
    · subst hn1
      simp only [if_true] at h ⊢
      split at h
      · rename_i a
        obtain ⟨⟨r1, w1⟩, h1, h⟩ := except_bind h
        simp only [pure, Except.pure, Except.ok.injEq, Prod.mk.injEq] at h
        obtain ⟨rfl, rfl⟩ := h
        simp only [exprListOk, Bool.and_true] at ok
        exact ⟨by simp only [RExpr.eval, (visit_sound N a ok h1).1], by decide⟩
      · cases h
    simp only [if_neg hn1] at h ⊢
    by_cases hn2 : name = c!"deref"
    · subst hn2
      simp only [if_true] at h ⊢
      split at h
      · rename_i a
        obtain ⟨⟨r1, w1⟩, h1, h⟩ := except_bind h
        simp only [pure, Except.pure, Except.ok.injEq, Prod.mk.injEq] at h
        obtain ⟨rfl, rfl⟩ := h
        simp only [exprListOk, Bool.and_true] at ok
        exact ⟨by simp only [RExpr.eval, (visit_sound N a ok h1).1], by decide⟩
      · cases h
    simp only [if_neg hn2] at h ⊢
    by_cases hn3 : name = c!"escape" ∨ name = c!"e"
    · simp only [if_pos hn3] at h ⊢
      have hm : (decide (name = c!"safe") || decide (name = c!"escape") || decide (name = c!"e")) = true := by
        rcases hn3 with rfl | rfl <;> decide
      rw [hm]
      split at h
      · cases h
      · rename_i a
        obtain ⟨⟨r1, w1⟩, h1, h⟩ := except_bind h
        simp only [pure, Except.pure, Except.ok.injEq, Prod.mk.injEq] at h
        obtain ⟨rfl, rfl⟩ := h
        simp only [exprListOk, Bool.and_true] at ok
        exact ⟨by simp only [RExpr.eval, (visit_sound N a ok h1).1], rfl⟩
      · rename_i a n
        split at h
        · rename_i x hx
          obtain ⟨⟨r1, w1⟩, h1, h⟩ := except_bind h
          simp only [pure, Except.pure, Except.ok.injEq, Prod.mk.injEq] at h
          obtain ⟨rfl, rfl⟩ := h
          simp only [exprListOk, Bool.and_eq_true] at ok
          unfold findEscaper at hx
          rw [Option.map_eq_some_iff] at hx
          obtain ⟨y, hy, rfl⟩ := hx
          simp only [hy]
          exact ⟨by simp only [RExpr.eval, (visit_sound N a ok.1 h1).1], by simp⟩
        · cases h
      · cases h
    simp only [if_neg hn3] at h ⊢
    by_cases hn4 : name = c!"fmt"
    · subst hn4
      simp only [if_true] at h ⊢
      split at h
      · rename_i a f
        obtain ⟨⟨r1, w1⟩, h1, h⟩ := except_bind h
        simp only [pure, Except.pure, Except.ok.injEq, Prod.mk.injEq] at h
        obtain ⟨rfl, rfl⟩ := h
        simp only [exprListOk, Bool.and_eq_true] at ok
        refine ⟨?_, by decide⟩
        simp only [RExpr.eval, RExpr.evalList, (visit_sound N a ok.1 h1).1]
        cases evalE W I st hole a <;> rfl
      · cases h
    simp only [if_neg hn4] at h ⊢
    by_cases hn5 : name = c!"format"
    · subst hn5
      simp only [if_true] at h ⊢
      split at h
      · rename_i f rest
        obtain ⟨rs, h1, h⟩ := except_bind h
        simp only [pure, Except.pure, Except.ok.injEq, Prod.mk.injEq] at h
        obtain ⟨rfl, rfl⟩ := h
        simp only [exprListOk, Bool.and_eq_true] at ok
        exact ⟨by simp only [RExpr.eval, visitList_sound N rest ok.2 h1], by decide⟩
      · cases h
    simp only [if_neg hn5] at h ⊢
    by_cases hn6 : name = c!"join"
    · subst hn6
      simp only [if_true] at h ⊢
      obtain ⟨rs, h1, h⟩ := except_bind h
      simp only [pure, Except.pure, Except.ok.injEq, Prod.mk.injEq] at h
      obtain ⟨rfl, rfl⟩ := h
      exact ⟨by simp only [RExpr.eval, visitList_sound N args ok h1], by decide⟩
    simp only [if_neg hn6] at h ⊢
    by_cases hn7 : name = c!"json" ∨ name = c!"tojson"
    · simp only [if_pos hn7] at h ⊢
      have hm : (decide (name = c!"safe") || decide (name = c!"escape") || decide (name = c!"e")) = false := by
        rcases hn7 with rfl | rfl <;> decide
      rw [hm]
      split at h
      · split at h
        · rename_i a
          obtain ⟨⟨r1, w1⟩, h1, h⟩ := except_bind h
          simp only [pure, Except.pure, Except.ok.injEq, Prod.mk.injEq] at h
          obtain ⟨rfl, rfl⟩ := h
          simp only [exprListOk, Bool.and_true] at ok
          refine ⟨?_, rfl⟩
          simp only [RExpr.eval, RExpr.evalList, (visit_sound N a ok h1).1]
          cases evalE W I st hole a <;> rfl
        · cases h
      · cases h
    simp only [if_neg hn7] at h ⊢
    by_cases hn8 : name = c!"safe"
    · subst hn8
      simp only [if_true] at h ⊢
      split at h
      · rename_i a
        obtain ⟨⟨r1, w1⟩, h1, h⟩ := except_bind h
        simp only [pure, Except.pure, Except.ok.injEq, Prod.mk.injEq] at h
        obtain ⟨rfl, rfl⟩ := h
        simp only [exprListOk, Bool.and_true] at ok
        exact ⟨by simp only [RExpr.eval, (visit_sound N a ok h1).1], by decide⟩
      · cases h
    simp only [if_neg hn8] at h ⊢
    obtain ⟨rs, h1, h⟩ := except_bind h
    simp only [pure, Except.pure, Except.ok.injEq, Prod.mk.injEq] at h
    obtain ⟨rfl, rfl⟩ := h
    refine ⟨by simp only [RExpr.eval, visitList_sound N args ok h1], ?_⟩
    rw [not_or] at hn3
    simp [hn8, hn3.1, hn3.2]
  | .call f args, r, w, ok, h => by
    simp only [exprOk, Bool.and_eq_true] at ok
    obtain ⟨⟨okc, okf⟩, oka⟩ := ok
    by_cases hx : ∃ x, f = .var x
    · obtain ⟨x, rfl⟩ := hx
      simp only [visitExpr] at h
      obtain ⟨rs, h1, h⟩ := except_bind h
      simp only [pure, Except.pure, Except.ok.injEq, Prod.mk.injEq] at h
      obtain ⟨rfl, rfl⟩ := h
      simp only [calleeOk, Bool.not_eq_true'] at okc
      simp only [exprOk, Bool.not_eq_true'] at okf
      have hR : rawIdent x ∉ R.1 := by
        intro hm
        rw [List.contains_iff_mem.mpr hm] at okc
        cases okc
      have hname := N.names x okf
      unfold Locals.resolveOrSelf at hname
      simp only [evalE, marked, and_true]
      rw [← hname]
      unfold Locals.resolve
      simp only [normalizeIdentifier_idem]
      cases hg : MapChain.get L (normalizeIdentifier x) with
      | none =>
        simp only [Option.map_none, Option.getD_none]
        rw [RExpr.eval_call_other W ρ _ _ (by simp) (by simp), visitList_sound N args oka h1]
        simp only [RExpr.eval]
      | some m =>
        have hrn := N.callee x okf hR m (by rw [← normalizeIdentifier_eq]; exact hg)
        simp only [Option.map_some, Option.getD_some, hrn]
        rw [RExpr.eval_call_other W ρ _ _ (by simp) (by simp), visitList_sound N args oka h1]
    · have hx' : ∀ x, f ≠ .var x := fun x he => hx ⟨x, he⟩
      by_cases hxa : ∃ x a, f = .attr (.var x) a
      · obtain ⟨x, a, rfl⟩ := hxa
        simp only [exprOk, Bool.not_eq_true'] at okf
        unfold visitExpr at h
        unfold evalE
        simp only [marked]
        by_cases hl : x = c!"loop"
        · simp only [if_pos hl] at h ⊢
          split at h
          · rename_i hc
            simp only [if_pos hc]
            split at h
            · rename_i a
              split at h
              · cases h
              · obtain ⟨⟨r1, w1⟩, h1, h⟩ := except_bind h
                simp only [pure, Except.pure, Except.ok.injEq, Prod.mk.injEq] at h
                obtain ⟨rfl, rfl⟩ := h
                simp only [exprListOk, Bool.and_true] at oka
                refine ⟨?_, rfl⟩
                simp only [RExpr.eval, (visit_sound N a oka h1).1, N.item, cycle_eq]
            · cases h
          · cases h
        · simp only [if_neg hl] at h ⊢
          obtain ⟨rs, h1, h⟩ := except_bind h
          simp only [pure, Except.pure, Except.ok.injEq, Prod.mk.injEq] at h
          obtain ⟨rfl, rfl⟩ := h
          refine ⟨?_, rfl⟩
          simp only [varAttr_call, N.var x okf, visitList_sound N args oka h1, normalizeIdentifier_eq]
      · have hxa' : ∀ x a, f ≠ .attr (.var x) a := fun x a he => hxa ⟨x, a, he⟩
        rw [visitExpr_call I L f args hx' hxa'] at h
        obtain ⟨⟨r1, w1⟩, h1, h⟩ := except_bind h
        obtain ⟨rs, h2, h⟩ := except_bind h
        simp only [pure, Except.pure, Except.ok.injEq, Prod.mk.injEq] at h
        obtain ⟨rfl, rfl⟩ := h
        refine ⟨?_, rfl⟩
        by_cases hat : ∃ e a, f = .attr e a
        · obtain ⟨e, a, rfl⟩ := hat
          have he : ∀ x, e ≠ .var x := fun x he => hxa' x a (he ▸ rfl)
          rw [visitExpr_attr I L e a he] at h1
          obtain ⟨⟨r2, w2⟩, h3, h1⟩ := except_bind h1
          simp only [pure, Except.pure, Except.ok.injEq, Prod.mk.injEq] at h1
          obtain ⟨rfl, rfl⟩ := h1
          simp only [exprOk] at okf
          rw [evalE_call_attr W I st hole e a args he]
          simp only [RExpr.eval, (visit_sound N e okf h3).1, visitList_sound N args oka h2, normalizeIdentifier_eq]
        · have hat' : ∀ e a, f ≠ .attr e a := fun e a he => hat ⟨e, a, he⟩
          have hna : ∀ n e, f ≠ .namedArg n e := by
            intro n e he
            subst he
            simp [calleeOk] at okc
          obtain ⟨hs1, hs2⟩ := visit_callee_shape I L f r1 w1 hx' hat' hna h1
          rw [RExpr.eval_call_other W ρ r1 rs hs1 hs2, evalE_call W I st hole f args hx' hat',
            (visit_sound N f okf h1).1, visitList_sound N args oka h2]
termination_by e => sizeOf e
decreasing_by all_goals (subst_vars; simp; try omega)
theorem visitList_sound {L : Locals} {ρ : REnv U} {st : Store U} {R : List Str × List Str} {hole : Option (Val U)}
    {v : Option Str} (N : NamesAgree W L ρ st R hole v) : (es : List Expr) → {rs : List RExpr} → exprListOk R v es = true →
    visitList I L es = .ok rs → RExpr.evalList W ρ rs = evalEs W I st hole es
  | [], rs, _, h => by
    simp only [visitList, Except.ok.injEq] at h
    subst h
    simp [RExpr.evalList, evalEs]
  | e :: es, rs, ok, h => by
    simp only [visitList] at h
    obtain ⟨⟨r1, w1⟩, h1, h⟩ := except_bind h
    obtain ⟨rs', h2, h⟩ := except_bind h
    simp only [pure, Except.pure, Except.ok.injEq] at h
    subst h
    simp only [exprListOk, Bool.and_eq_true] at ok
    simp only [RExpr.evalList, evalEs, (visit_sound N e ok.1 h1).1, visitList_sound N es ok.2 h2]
termination_by es => sizeOf es
decreasing_by all_goals (subst_vars; simp; try omega)
theorem visitOpt_sound {L : Locals} {ρ : REnv U} {st : Store U} {R : List Str × List Str} {hole : Option (Val U)}
    {v : Option Str} (N : NamesAgree W L ρ st R hole v) : (e : Option Expr) → {r : Option RExpr} →
    exprOptOk R v e = true → visitOpt I L e = .ok r → RExpr.evalOpt W ρ r = evalO W I st hole e
  | none, r, _, h => by
    simp only [visitOpt, Except.ok.injEq] at h
    subst h
    simp [RExpr.evalOpt, evalO]
  | some e, r, ok, h => by
    simp only [visitOpt] at h
    obtain ⟨⟨r1, w1⟩, h1, h⟩ := except_bind h
    simp only [pure, Except.pure, Except.ok.injEq] at h
    subst h
    simp only [exprOptOk] at ok
    simp only [RExpr.evalOpt, evalO, (visit_sound N e ok h1).1]
termination_by e => sizeOf e
decreasing_by all_goals (subst_vars; simp; try omega)
end

/-! ## What expressions depend on -/

/-- A name means the same with both stores. -/
def SameName (W : World U) (st st' : Store U) (n : Str) : Prop :=
  (∀ x, rawIdent x = n → st.name W x = st'.name W x) ∧ st.path W [n] = st'.path W [n]

theorem SameName.refl (W : World U) (st : Store U) (n : Str) : SameName W st st n := ⟨fun _ _ => rfl, rfl⟩

mutual
/-- The value of an expression depends only on the names in it and on the loop. -/
theorem evalE_congr {st st' : Store U} {hole : Option (Val U)} (hi : st.item = st'.item) : (e : Expr) →
    (∀ n, n ∈ Expr.vars e → SameName W st st' n) → evalE W I st hole e = evalE W I st' hole e
  | .boolLit s, _ | .numLit s, _ | .strLit s, _ | .charLit s, _ | .rustMacro s a, _ | .generated s, _ => by
    simp only [evalE]
  | .path [n], h => by
    simp only [Expr.vars, List.mem_singleton] at h
    simp only [evalE, (h n rfl).2]
  | .path [], _ => by simp only [evalE, Store.path]
  | .path (_ :: _ :: _), _ => by simp only [evalE, Store.path]
  | .var x, h => by
    simp only [Expr.vars, List.mem_singleton] at h
    simp only [evalE, (h _ rfl).1 x rfl]
  | .array es, h => by
    simp only [Expr.vars] at h
    simp only [evalE, evalEs_congr hi es h]
  | .tuple es, h => by
    simp only [Expr.vars] at h
    simp only [evalE, evalEs_congr hi es h]
  | .attr e a, h => by
    simp only [Expr.vars] at h
    by_cases hx : ∃ x, e = .var x
    · obtain ⟨x, rfl⟩ := hx
      simp only [Expr.vars, List.mem_singleton] at h
      simp only [evalE, (h _ rfl).1 x rfl, hi]
    · have hx' : ∀ x, e ≠ .var x := fun x he => hx ⟨x, he⟩
      rw [evalE_attr W I st hole e a hx', evalE_attr W I st' hole e a hx', evalE_congr hi e h]
  | .index a b, h => by
    simp only [Expr.vars, List.mem_append] at h
    simp only [evalE, evalE_congr hi a (fun x hx => h x (Or.inl hx)), evalE_congr hi b (fun x hx => h x (Or.inr hx))]
  | .binop op a b, h => by
    simp only [Expr.vars, List.mem_append] at h
    simp only [evalE, evalE_congr hi a (fun x hx => h x (Or.inl hx)), evalE_congr hi b (fun x hx => h x (Or.inr hx))]
  | .range op a b, h => by
    simp only [Expr.vars, List.mem_append] at h
    simp only [evalE, evalO_congr hi a (fun x hx => h x (Or.inl hx)), evalO_congr hi b (fun x hx => h x (Or.inr hx))]
  | .unary op e, h => by
    simp only [Expr.vars] at h
    simp only [evalE, evalE_congr hi e h]
  | .group e, h => by
    simp only [Expr.vars] at h
    simp only [evalE, evalE_congr hi e h]
  | .namedArg n e, h => by
    simp only [Expr.vars] at h
    simp only [evalE, evalE_congr hi e h]
  | .try_ e, h => by
    simp only [Expr.vars] at h
    simp only [evalE, evalE_congr hi e h]
  | .filter name [], h => by
    unfold evalE
    simp only [evalEs]
  | .filter name (a :: rest), h => by
    simp only [Expr.vars, Expr.varsList, List.mem_append] at h
    have ha : evalE W I st hole a = evalE W I st' hole a := evalE_congr hi a (fun x hx => h x (Or.inl hx))
    have hr : evalEs W I st hole rest = evalEs W I st' hole rest := evalEs_congr hi rest (fun x hx => h x (Or.inr hx))
    unfold evalE
    simp only [evalEs, ha, hr]
    clear h
    by_cases h3 : name = c!"escape" ∨ name = c!"e"
    · simp only [if_pos h3]
      match rest, hr with
      | [], _ => simp only [ha]
      | [b], _ => cases b <;> simp only [ha]
      | _ :: _ :: _, _ => simp only [ha]
    simp only [if_neg h3]
    by_cases h4 : name = c!"fmt"
    · simp only [if_pos h4]
      match rest, hr with
      | [], _ => simp only [ha]
      | [b], _ => cases b <;> simp only [ha]
      | _ :: _ :: _, _ => simp only [ha]
    simp only [if_neg h4]
    by_cases h5 : name = c!"format"
    · simp only [if_pos h5]
      cases a <;> simp only [hr] <;> (cases rest <;> simp only [ha])
    simp only [if_neg h5]
    cases rest <;> simp only [ha]
  | .call f args, h => by
    simp only [Expr.vars, List.mem_append] at h
    have ha : evalEs W I st hole args = evalEs W I st' hole args := evalEs_congr hi args (fun x hx => h x (Or.inr hx))
    by_cases hx : ∃ x, f = .var x
    · obtain ⟨x, rfl⟩ := hx
      simp only [Expr.vars, List.mem_singleton] at h
      simp only [evalE, (h _ (Or.inl rfl)).1 x rfl, ha]
    have hx' : ∀ x, f ≠ .var x := fun x he => hx ⟨x, he⟩
    by_cases hat : ∃ e a, f = .attr e a
    · obtain ⟨e, a, rfl⟩ := hat
      simp only [Expr.vars] at h
      by_cases hv : ∃ x, e = .var x
      · obtain ⟨x, rfl⟩ := hv
        simp only [Expr.vars, List.mem_singleton] at h
        have hb : ∀ b, args = [b] → evalE W I st hole b = evalE W I st' hole b := fun b hb =>
          evalE_congr hi b (fun x hx => h x (Or.inr (by subst hb; simpa [Expr.varsList] using hx)))
        unfold evalE
        simp only [(h _ (Or.inl rfl)).1 x rfl, ha, hi]
        match args, hb with
        | [], _ => rfl
        | [b], hb => simp only [hb b rfl]
        | _ :: _ :: _, _ => rfl
      · have hv' : ∀ x, e ≠ .var x := fun x he => hv ⟨x, he⟩
        rw [evalE_call_attr W I st hole e a args hv', evalE_call_attr W I st' hole e a args hv', ha,
          evalE_congr hi e (fun x hx => h x (Or.inl hx))]
    have hat' : ∀ e a, f ≠ .attr e a := fun e a he => hat ⟨e, a, he⟩
    rw [evalE_call W I st hole f args hx' hat', evalE_call W I st' hole f args hx' hat', ha,
      evalE_congr hi f (fun x hx => h x (Or.inl hx))]
termination_by e => sizeOf e
decreasing_by all_goals (subst_vars; simp; try omega)
theorem evalEs_congr {st st' : Store U} {hole : Option (Val U)} (hi : st.item = st'.item) : (es : List Expr) →
    (∀ n, n ∈ Expr.varsList es → SameName W st st' n) →
    evalEs W I st hole es = evalEs W I st' hole es
  | [], _ => by simp only [evalEs]
  | e :: es, h => by
    simp only [Expr.varsList, List.mem_append] at h
    simp only [evalEs, evalE_congr hi e (fun x hx => h x (Or.inl hx)), evalEs_congr hi es (fun x hx => h x (Or.inr hx))]
termination_by es => sizeOf es
decreasing_by all_goals (subst_vars; simp; try omega)
theorem evalO_congr {st st' : Store U} {hole : Option (Val U)} (hi : st.item = st'.item) : (e : Option Expr) →
    (∀ n, n ∈ Expr.varsOpt e → SameName W st st' n) → evalO W I st hole e = evalO W I st' hole e
  | none, _ => by simp only [evalO]
  | some e, h => by
    simp only [Expr.varsOpt] at h
    simp only [evalO, evalE_congr hi e h]
termination_by e => sizeOf e
decreasing_by all_goals (subst_vars; simp; try omega)
end

theorem showE_congr {st st' : Store U} {hole : Option (Val U)} (hi : st.item = st'.item) (e : Expr)
    (h : ∀ n, n ∈ Expr.vars e → SameName W st st' n) :
    showE W I st hole e = showE W I st' hole e := by
  unfold showE
  rw [evalE_congr hi e h]

/-- The names that refer to text refer to variables in `K`, and not to the loop. -/
def RefsIn (L : Locals) (K : List Str) : Prop :=
  ∀ n m q, L.get n = some m → m.refs = some q → (∀ x ∈ q.locals, x ∈ K) ∧ q.usesItem = false

theorem resolveOrSelf_locals {L : Locals} {K : List Str} (hK : RefsIn L K) (x : Str) :
    (∀ y ∈ (L.resolveOrSelf x).locals, y = rawIdent x ∨ y ∈ K) ∧ (L.resolveOrSelf x).usesItem = false := by
  unfold Locals.resolveOrSelf Locals.resolve
  simp only [normalizeIdentifier_idem]
  cases hg : MapChain.get L (normalizeIdentifier x) with
  | none => simp [RExpr.locals, RExpr.usesItem]
  | some m =>
    cases hr : m.refs with
    | none => simp [hr, RExpr.locals, RExpr.usesItem, normalizeIdentifier_eq]
    | some q =>
      simp only [hr, Option.map_some, Option.getD_some]
      obtain ⟨h1, h2⟩ := hK _ _ _ hg hr
      exact ⟨fun y hy => Or.inr (h1 y hy), h2⟩

mutual
/-- The variables of an emitted expression are those named in the template's expression, or stand for them. -/
theorem visit_locals {L : Locals} {K : List Str} {R : List Str × List Str} {v : Option Str} (hK : RefsIn L K) : (e : Expr) → {r : RExpr} →
    {w : Bool} → exprOk R v e = true → visitExpr I L e = .ok (r, w) →
    (∀ y ∈ r.locals, y ∈ Expr.vars e ∨ y ∈ K ∨ v = some y) ∧ (r.usesItem = true → usesLoop e = true)
  | .boolLit s, r, w, _, h | .numLit s, r, w, _, h | .strLit s, r, w, _, h | .charLit s, r, w, _, h
  | .rustMacro s a, r, w, _, h => by
    simp only [visitExpr, Except.ok.injEq, Prod.mk.injEq] at h
    obtain ⟨rfl, rfl⟩ := h
    simp [RExpr.locals, RExpr.usesItem]
  | .path s, r, w, _, h => by
    simp only [visitExpr, Except.ok.injEq, Prod.mk.injEq] at h
    obtain ⟨rfl, rfl⟩ := h
    match s with
    | [] => simp [RExpr.locals, RExpr.usesItem]
    | [n] => simp +contextual [RExpr.locals, RExpr.usesItem, Expr.vars]
    | _ :: _ :: _ => simp [RExpr.locals, RExpr.usesItem]
  | .generated s, r, w, ok, h => by
    simp only [visitExpr, Except.ok.injEq, Prod.mk.injEq] at h
    obtain ⟨rfl, rfl⟩ := h
    simp only [exprOk, beq_iff_eq] at ok
    simp [RExpr.locals, RExpr.usesItem, ok]
  | .var x, r, w, _, h => by
    simp only [visitExpr, Except.ok.injEq, Prod.mk.injEq] at h
    obtain ⟨rfl, rfl⟩ := h
    obtain ⟨h1, h2⟩ := resolveOrSelf_locals hK x
    simp only [Expr.vars, List.mem_singleton]
    split
    · simp [RExpr.locals, RExpr.usesItem]
    · refine ⟨fun y hy => ?_, by simp [h2]⟩
      rcases h1 y hy with h | h
      · exact Or.inl h
      · exact Or.inr (Or.inl h)
  | .array es, r, w, ok, h => by
    simp only [visitExpr] at h
    obtain ⟨rs, h1, h⟩ := except_bind h
    simp only [pure, Except.pure, Except.ok.injEq, Prod.mk.injEq] at h
    obtain ⟨rfl, rfl⟩ := h
    simp only [exprOk] at ok
    simpa only [RExpr.locals, RExpr.usesItem, Expr.vars, usesLoop] using visitList_locals hK es ok h1
  | .tuple es, r, w, ok, h => by
    simp only [visitExpr] at h
    obtain ⟨rs, h1, h⟩ := except_bind h
    simp only [pure, Except.pure, Except.ok.injEq, Prod.mk.injEq] at h
    obtain ⟨rfl, rfl⟩ := h
    simp only [exprOk] at ok
    simpa only [RExpr.locals, RExpr.usesItem, Expr.vars, usesLoop] using visitList_locals hK es ok h1
  | .attr e a, r, w, ok, h => by
    by_cases hx : ∃ x, e = .var x
    · obtain ⟨x, rfl⟩ := hx
      simp only [visitExpr] at h
      by_cases hl : x = c!"loop"
      · simp only [if_pos hl] at h
        simp only [usesLoop, hl]
        repeat' split at h
        all_goals first
          | (cases h; done)
          | (simp only [Except.ok.injEq, Prod.mk.injEq] at h
             obtain ⟨rfl, rfl⟩ := h
             simp [RExpr.locals])
      · simp only [if_neg hl, Except.ok.injEq, Prod.mk.injEq] at h
        obtain ⟨rfl, rfl⟩ := h
        obtain ⟨h1, h2⟩ := resolveOrSelf_locals hK x
        simp only [Expr.vars, List.mem_singleton, varAttr]
        split
        · simp [RExpr.locals, RExpr.usesItem]
        · refine ⟨fun y hy => ?_, by simp [RExpr.usesItem, h2]⟩
          simp only [RExpr.locals] at hy
          rcases h1 y hy with h | h
          · exact Or.inl h
          · exact Or.inr (Or.inl h)
    · have hx' : ∀ x, e ≠ .var x := fun x he => hx ⟨x, he⟩
      rw [visitExpr_attr I L e a hx'] at h
      obtain ⟨⟨r1, w1⟩, h1, h⟩ := except_bind h
      simp only [pure, Except.pure, Except.ok.injEq, Prod.mk.injEq] at h
      obtain ⟨rfl, rfl⟩ := h
      simp only [exprOk] at ok
      simpa only [RExpr.locals, RExpr.usesItem, Expr.vars, usesLoop] using visit_locals hK e ok h1
  | .index a b, r, w, ok, h => by
    simp only [visitExpr] at h
    obtain ⟨⟨r1, w1⟩, h1, h⟩ := except_bind h
    obtain ⟨⟨r2, w2⟩, h2, h⟩ := except_bind h
    simp only [pure, Except.pure, Except.ok.injEq, Prod.mk.injEq] at h
    obtain ⟨rfl, rfl⟩ := h
    simp only [exprOk, Bool.and_eq_true] at ok
    have ha := visit_locals hK a ok.1 h1
    have hb := visit_locals hK b ok.2 h2
    simp only [RExpr.locals, RExpr.usesItem, Expr.vars, usesLoop, List.mem_append, Bool.or_eq_true]
    grind
  | .binop op a b, r, w, ok, h => by
    simp only [visitExpr] at h
    obtain ⟨⟨r1, w1⟩, h1, h⟩ := except_bind h
    obtain ⟨⟨r2, w2⟩, h2, h⟩ := except_bind h
    simp only [pure, Except.pure, Except.ok.injEq, Prod.mk.injEq] at h
    obtain ⟨rfl, rfl⟩ := h
    simp only [exprOk, Bool.and_eq_true] at ok
    have ha := visit_locals hK a ok.1 h1
    have hb := visit_locals hK b ok.2 h2
    simp only [RExpr.locals, RExpr.usesItem, Expr.vars, usesLoop, List.mem_append, Bool.or_eq_true]
    grind
  | .range op a b, r, w, ok, h => by
    simp only [visitExpr] at h
    obtain ⟨r1, h1, h⟩ := except_bind h
    obtain ⟨r2, h2, h⟩ := except_bind h
    simp only [pure, Except.pure, Except.ok.injEq, Prod.mk.injEq] at h
    obtain ⟨rfl, rfl⟩ := h
    simp only [exprOk, Bool.and_eq_true] at ok
    have ha := visitOpt_locals hK a ok.1 h1
    have hb := visitOpt_locals hK b ok.2 h2
    simp only [RExpr.locals, RExpr.usesItem, Expr.vars, usesLoop, List.mem_append, Bool.or_eq_true]
    grind
  | .unary op e, r, w, ok, h => by
    simp only [visitExpr] at h
    obtain ⟨⟨r1, w1⟩, h1, h⟩ := except_bind h
    simp only [pure, Except.pure, Except.ok.injEq, Prod.mk.injEq] at h
    obtain ⟨rfl, rfl⟩ := h
    simp only [exprOk] at ok
    simpa only [RExpr.locals, RExpr.usesItem, Expr.vars, usesLoop] using visit_locals hK e ok h1
  | .group e, r, w, ok, h => by
    simp only [visitExpr] at h
    obtain ⟨⟨r1, w1⟩, h1, h⟩ := except_bind h
    simp only [pure, Except.pure, Except.ok.injEq, Prod.mk.injEq] at h
    obtain ⟨rfl, rfl⟩ := h
    simp only [exprOk] at ok
    simpa only [RExpr.locals, RExpr.usesItem, Expr.vars, usesLoop] using visit_locals hK e ok h1
  | .namedArg n e, r, w, ok, h => by
    simp only [visitExpr] at h
    obtain ⟨⟨r1, w1⟩, h1, h⟩ := except_bind h
    simp only [pure, Except.pure, Except.ok.injEq, Prod.mk.injEq] at h
    obtain ⟨rfl, rfl⟩ := h
    simp only [exprOk] at ok
    simpa only [Expr.vars, usesLoop] using visit_locals hK e ok h1
  | .try_ e, r, w, ok, h => by
    simp only [visitExpr] at h
    obtain ⟨⟨r1, w1⟩, h1, h⟩ := except_bind h
    simp only [pure, Except.pure, Except.ok.injEq, Prod.mk.injEq] at h
    obtain ⟨rfl, rfl⟩ := h
    simp only [exprOk] at ok
    simpa only [RExpr.locals, RExpr.usesItem, Expr.vars, usesLoop] using visit_locals hK e ok h1
  | .filter name args, r, w, ok, h => by
    simp only [exprOk] at ok
    unfold visitExpr at h
    repeat' split at h
    all_goals first
      | (cases h; done)
      | (obtain ⟨⟨r1, w1⟩, h1, h⟩ := except_bind h
         simp only [pure, Except.pure, Except.ok.injEq, Prod.mk.injEq] at h
         obtain ⟨rfl, rfl⟩ := h
         simp only [exprListOk, Bool.and_true, Bool.and_eq_true] at ok
         first
           | (have ha := visit_locals hK _ ok h1
              simp only [RExpr.locals, RExpr.localsList, RExpr.usesItem, RExpr.usesItemList, Expr.vars, Expr.varsList,
                usesLoop, usesLoopList, List.append_nil, Bool.or_false]
              exact ha)
           | (have ha := visit_locals hK _ ok.1 h1
              simp only [RExpr.locals, RExpr.localsList, RExpr.usesItem, RExpr.usesItemList, Expr.vars, Expr.varsList,
                usesLoop, usesLoopList, List.append_nil, Bool.or_false]
              exact ha))
      | (obtain ⟨rs, h1, h⟩ := except_bind h
         simp only [pure, Except.pure, Except.ok.injEq, Prod.mk.injEq] at h
         obtain ⟨rfl, rfl⟩ := h
         first
           | (have ha := visitList_locals hK _ ok h1
              simp only [RExpr.locals, RExpr.usesItem, Expr.vars, usesLoop]
              exact ha)
           | (simp only [exprListOk, Bool.and_eq_true] at ok
              have ha := visitList_locals hK _ ok.2 h1
              simp only [RExpr.locals, RExpr.usesItem, Expr.vars, Expr.varsList, usesLoop, usesLoopList,
                List.nil_append, Bool.false_or]
              exact ha))
  | .call f args, r, w, ok, h => by
    simp only [exprOk, Bool.and_eq_true] at ok
    obtain ⟨⟨okc, okf⟩, oka⟩ := ok
    by_cases hx : ∃ x, f = .var x
    · obtain ⟨x, rfl⟩ := hx
      simp only [visitExpr] at h
      obtain ⟨rs, h1, h⟩ := except_bind h
      simp only [pure, Except.pure, Except.ok.injEq, Prod.mk.injEq] at h
      obtain ⟨rfl, rfl⟩ := h
      have ha := visitList_locals hK args oka h1
      obtain ⟨h3, h4⟩ := resolveOrSelf_locals hK x
      have hfix : ∀ (o : Option RExpr), (o.getD (.fieldRef (normalizeIdentifier x))).locals
            = (o.getD (.field (normalizeIdentifier x))).locals
          ∧ (o.getD (.fieldRef (normalizeIdentifier x))).usesItem
            = (o.getD (.field (normalizeIdentifier x))).usesItem := by
        intro o
        cases o <;> simp [RExpr.locals, RExpr.usesItem]
      have hres : L.resolveOrSelf x = (L.resolve x).getD (.field (normalizeIdentifier x)) := by
        unfold Locals.resolveOrSelf Locals.resolve
        simp only [normalizeIdentifier_idem]
      simp only [RExpr.locals, RExpr.usesItem, Expr.vars, usesLoop, List.mem_append, Bool.or_eq_true,
        (hfix _).1, (hfix _).2, ← hres, h4, List.mem_singleton]
      grind
    have hx' : ∀ x, f ≠ .var x := fun x he => hx ⟨x, he⟩
    by_cases hxa : ∃ x a, f = .attr (.var x) a
    · obtain ⟨x, a, rfl⟩ := hxa
      unfold visitExpr at h
      by_cases hl : x = c!"loop"
      · simp only [if_pos hl] at h
        split at h
        · split at h
          · rename_i a
            split at h
            · cases h
            · obtain ⟨⟨r1, w1⟩, h1, h⟩ := except_bind h
              simp only [pure, Except.pure, Except.ok.injEq, Prod.mk.injEq] at h
              obtain ⟨rfl, rfl⟩ := h
              simp only [exprListOk, Bool.and_true] at oka
              have ha := visit_locals hK a oka h1
              simp only [RExpr.locals, RExpr.usesItem, Expr.vars, Expr.varsList, usesLoop, hl, List.append_nil,
                List.mem_append]
              simp
              grind
          · cases h
        · cases h
      · simp only [if_neg hl] at h
        obtain ⟨rs, h1, h⟩ := except_bind h
        simp only [pure, Except.pure, Except.ok.injEq, Prod.mk.injEq] at h
        obtain ⟨rfl, rfl⟩ := h
        have ha := visitList_locals hK args oka h1
        obtain ⟨h3, h4⟩ := resolveOrSelf_locals hK x
        simp only [RExpr.locals, RExpr.usesItem, Expr.vars, usesLoop, List.mem_append, Bool.or_eq_true,
          List.mem_singleton, varAttr]
        split
        · simp only [RExpr.locals, RExpr.usesItem]
          grind
        · simp only [RExpr.locals, RExpr.usesItem, h4]
          grind
    have hxa' : ∀ x a, f ≠ .attr (.var x) a := fun x a he => hxa ⟨x, a, he⟩
    rw [visitExpr_call I L f args hx' hxa'] at h
    obtain ⟨⟨r1, w1⟩, h1, h⟩ := except_bind h
    obtain ⟨rs, h2, h⟩ := except_bind h
    simp only [pure, Except.pure, Except.ok.injEq, Prod.mk.injEq] at h
    obtain ⟨rfl, rfl⟩ := h
    have hf := visit_locals hK f okf h1
    have ha := visitList_locals hK args oka h2
    simp only [RExpr.locals, RExpr.usesItem, Expr.vars, usesLoop, List.mem_append, Bool.or_eq_true]
    grind
termination_by e => sizeOf e
decreasing_by all_goals (subst_vars; simp; try omega)
theorem visitList_locals {L : Locals} {K : List Str} {R : List Str × List Str} {v : Option Str} (hK : RefsIn L K) : (es : List Expr) →
    {rs : List RExpr} → exprListOk R v es = true → visitList I L es = .ok rs →
    (∀ y ∈ RExpr.localsList rs, y ∈ Expr.varsList es ∨ y ∈ K ∨ v = some y)
      ∧ (RExpr.usesItemList rs = true → usesLoopList es = true)
  | [], rs, _, h => by
    simp only [visitList, Except.ok.injEq] at h
    subst h
    simp [RExpr.localsList, RExpr.usesItemList]
  | e :: es, rs, ok, h => by
    simp only [visitList] at h
    obtain ⟨⟨r1, w1⟩, h1, h⟩ := except_bind h
    obtain ⟨rs', h2, h⟩ := except_bind h
    simp only [pure, Except.pure, Except.ok.injEq] at h
    subst h
    simp only [exprListOk, Bool.and_eq_true] at ok
    have hf := visit_locals hK e ok.1 h1
    have ha := visitList_locals hK es ok.2 h2
    simp only [RExpr.localsList, RExpr.usesItemList, Expr.varsList, usesLoopList, List.mem_append, Bool.or_eq_true]
    grind
termination_by es => sizeOf es
decreasing_by all_goals (subst_vars; simp; try omega)
theorem visitOpt_locals {L : Locals} {K : List Str} {R : List Str × List Str} {v : Option Str} (hK : RefsIn L K) : (e : Option Expr) →
    {r : Option RExpr} → exprOptOk R v e = true → visitOpt I L e = .ok r →
    (∀ y ∈ RExpr.localsOpt r, y ∈ Expr.varsOpt e ∨ y ∈ K ∨ v = some y)
      ∧ (RExpr.usesItemOpt r = true → usesLoopOpt e = true)
  | none, r, _, h => by
    simp only [visitOpt, Except.ok.injEq] at h
    subst h
    simp [RExpr.localsOpt, RExpr.usesItemOpt]
  | some e, r, ok, h => by
    simp only [visitOpt] at h
    obtain ⟨⟨r1, w1⟩, h1, h⟩ := except_bind h
    simp only [pure, Except.pure, Except.ok.injEq] at h
    subst h
    simp only [exprOptOk] at ok
    simpa only [RExpr.localsOpt, RExpr.usesItemOpt, Expr.varsOpt, usesLoopOpt] using visit_locals hK e ok h1
termination_by e => sizeOf e
decreasing_by all_goals (subst_vars; simp; try omega)
end

end

end Askama
