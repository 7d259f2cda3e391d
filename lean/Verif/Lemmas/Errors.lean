import Verif.Spec.Errors

/-! Failing operations make rendering fail (C20). -/

namespace Askama

open Spec

variable {U : Type} {W W' : World U}

theorem Spec.FailsOr.refl {α : Type} (a : Option α) : FailsOr a a := Or.inr rfl

theorem Spec.FailsOr.of_eq {α : Type} {a b : Option α} (h : a = b) : FailsOr a b := Or.inr h

theorem Spec.FailsOr.bind {α β : Type} {a b : Option α} {f g : α → Option β} (h : FailsOr a b)
    (hf : ∀ x, FailsOr (f x) (g x)) : FailsOr (a.bind f) (b.bind g) := by
  rcases h with h | h
  · left; rw [h]; rfl
  · subst h
    cases a with
    | none => left; rfl
    | some x => exact hf x

theorem Spec.FailsOr.map {α β : Type} {a b : Option α} (f : α → β) (h : FailsOr a b) : FailsOr (a.map f) (b.map f) := by
  rcases h with h | h
  · left; rw [h]; rfl
  · right; rw [h]

theorem Spec.FailsOr.ite {α : Type} {c : Prop} [Decidable c] {a b a' b' : Option α} (h : FailsOr a b) (h' : FailsOr a' b') :
    FailsOr (if c then a else a') (if c then b else b') := by
  split
  · exact h
  · exact h'

theorem pathVal_fails (h : FailsMore W W') (vars : List (Str × Option (Val U))) (p : List Str) :
    FailsOr (pathVal W vars p) (pathVal W' vars p) := by
  match p with
  | [] => exact h.path _
  | [n] =>
    simp only [pathVal]
    cases vars.find? (fun e => e.1 == n) with
    | none => exact h.path _
    | some e => exact .refl _
  | _ :: _ :: _ => exact h.path _

mutual
theorem eval_fails (h : FailsMore W W') (ρ : REnv U) (e : RExpr) : FailsOr (e.eval W ρ) (e.eval W' ρ) := by
  match e with
  | .lit k s => simp only [RExpr.eval, h.lit]; exact .refl _
  | .self_ => simp only [RExpr.eval, h.self_]; exact .refl _
  | .local_ n => simp only [RExpr.eval]; exact .refl _
  | .field n => simp only [RExpr.eval, h.self_]; exact h.attr _ _
  | .fieldRef n => simp only [RExpr.eval, h.self_]; exact h.attr _ _
  | .path p => simp only [RExpr.eval]; exact pathVal_fails h _ p
  | .array es => simp only [RExpr.eval]; exact (evalList_fails h ρ es).bind h.array
  | .attr e a => simp only [RExpr.eval]; exact (eval_fails h ρ e).bind fun v => h.attr v a
  | .loopIndex => simp only [RExpr.eval, h.nat]; exact .refl _
  | .loopIndex0 => simp only [RExpr.eval, h.nat]; exact .refl _
  | .loopFirst => simp only [RExpr.eval, h.bool]; exact .refl _
  | .loopLast => simp only [RExpr.eval, h.bool]; exact .refl _
  | .index e k =>
    simp only [RExpr.eval]; exact (eval_fails h ρ e).bind fun v => (eval_fails h ρ k).bind fun w => h.index v w
  | .asRef e => simp only [RExpr.eval]; exact eval_fails h ρ e
  | .deref e => simp only [RExpr.eval]; exact (eval_fails h ρ e).bind h.deref
  | .escape x e => simp only [RExpr.eval]; exact (eval_fails h ρ e).map _
  | .safe e => simp only [RExpr.eval]; exact (eval_fails h ρ e).map _
  | .format f es => simp only [RExpr.eval]; exact (evalList_fails h ρ es).bind (h.format f)
  | .join es => simp only [RExpr.eval]; exact (evalList_fails h ρ es).bind h.join
  | .filter b n es => simp only [RExpr.eval]; exact (evalList_fails h ρ es).bind (h.filter b n)
  | .unary op e => simp only [RExpr.eval]; exact (eval_fails h ρ e).bind (h.unop op)
  | .binop op a b =>
    simp only [RExpr.eval, h.bool]
    have hb := (eval_fails h ρ b).bind h.truthy
    refine (eval_fails h ρ a).bind fun v => .ite ?_ (.ite ?_ ?_)
    · exact (h.truthy v).bind fun t => .ite (hb.map _) (.refl _)
    · exact (h.truthy v).bind fun t => .ite (.refl _) (hb.map _)
    · exact (eval_fails h ρ b).bind fun w => h.binop op v w
  | .range op a b =>
    simp only [RExpr.eval]; exact (evalOpt_fails h ρ a).bind fun v => (evalOpt_fails h ρ b).bind fun w => h.range op v w
  | .group e => simp only [RExpr.eval]; exact eval_fails h ρ e
  | .tuple es => simp only [RExpr.eval]; exact (evalList_fails h ρ es).bind h.tuple
  | .call f args =>
    have ha := evalList_fails h ρ args
    have hf := eval_fails h ρ f
    have key : FailsOr ((f.eval W ρ).bind fun v => (RExpr.evalList W ρ args).bind fun vs => W.call v vs)
        ((f.eval W' ρ).bind fun v => (RExpr.evalList W' ρ args).bind fun vs => W'.call v vs) :=
      hf.bind fun v => ha.bind fun vs => h.call v vs
    match f with
    | .attr e a =>
      simp only [RExpr.eval]; exact (eval_fails h ρ e).bind fun v => ha.bind fun vs => h.method v a vs
    | .field n => simp only [RExpr.eval, h.self_]; exact ha.bind fun vs => h.method _ n vs
    | .call g as => exact key
    | .lit .. | .self_ | .local_ _ | .fieldRef _ | .path _ | .array _ | .loopIndex | .loopIndex0 | .loopFirst | .loopLast
    | .index .. | .asRef _ | .deref _ | .escape .. | .safe _ | .format .. | .join _ | .filter .. | .unary .. | .binop ..
    | .range .. | .group _ | .tuple _ | .cycle _ | .rustMacro .. | .try_ _ =>
      rw [RExpr.eval, RExpr.eval]
      · exact key
      all_goals (intros; rename_i hh; cases hh)
  | .cycle e =>
    simp only [RExpr.eval]
    exact (eval_fails h ρ e).bind fun v => (h.elems v).bind fun vs => .refl _
  | .rustMacro p a => exact h.rustMacro p a
  | .try_ e => simp only [RExpr.eval]; exact (eval_fails h ρ e).bind h.try_
termination_by sizeOf e
theorem evalList_fails (h : FailsMore W W') (ρ : REnv U) (es : List RExpr) :
    FailsOr (RExpr.evalList W ρ es) (RExpr.evalList W' ρ es) := by
  match es with
  | [] => exact .refl _
  | e :: es => simp only [RExpr.evalList]; exact (eval_fails h ρ e).bind fun v => (evalList_fails h ρ es).map _
termination_by sizeOf es
theorem evalOpt_fails (h : FailsMore W W') (ρ : REnv U) (e : Option RExpr) :
    FailsOr (RExpr.evalOpt W ρ e) (RExpr.evalOpt W' ρ e) := by
  match e with
  | none => exact .refl _
  | some e => simp only [RExpr.evalOpt]; exact (eval_fails h ρ e).map _
termination_by sizeOf e
end

theorem evalArgs_fails (h : FailsMore W W') (ρ : REnv U) (as : List FmtArg) :
    FailsOr (evalArgs W ρ as) (evalArgs W' ρ as) := by
  induction as with
  | nil => exact .refl _
  | cons a as ih => exact (eval_fails h ρ a.expr).bind fun v => ih.map _

theorem show_fails (h : FailsMore W W') (v : Val U) (k : Nat) : FailsOr (W.show_ v k) (W'.show_ v k) := by
  induction v with
  | user u => exact h.disp u k
  | safe v ih => exact ih
  | esc e v ih => simp only [World.show_, h.escape]; exact ih.map _

theorem showArg_fails (h : FailsMore W W') (x : Option Str) (v : Val U) (k : Nat) :
    FailsOr (showArg W x v k) (showArg W' x v k) := by
  cases x with
  | none => exact show_fails h v k
  | some x => simp only [showArg, h.escape]; exact (show_fails h v k).map _

theorem showPieces_fails (h : FailsMore W W') (args : List (Str × Option Str × Val U)) (ps : List Piece) :
    ∀ seen, FailsOr (showPieces W args seen ps) (showPieces W' args seen ps) := by
  induction ps with
  | nil => intro seen; exact .refl _
  | cons p ps ih =>
    intro seen
    cases p with
    | ch c => exact (ih seen).map _
    | arg n => exact (FailsOr.refl _).bind fun a => (showArg_fails h _ _ _).bind fun s => (ih _).map _

theorem formatText_fails (h : FailsMore W W') (ρ : REnv U) (fmt : Str) (args : List FmtArg) :
    FailsOr (formatText W ρ fmt args) (formatText W' ρ fmt args) :=
  (FailsOr.refl _).bind fun _ => (evalArgs_fails h ρ args).bind fun _ => showPieces_fails h _ _ _

theorem patMatch_eq (h : FailsMore W W') (t : Target) (v : Val U) : patMatch W t v = patMatch W' t v := by
  unfold patMatch; rw [h.pmatch, h.constant]

mutual
/-- Patterns bind the same names. -/
theorem bound_same (h : FailsMore W W') : (t : Target) → t.bound W = t.bound W'
  | .path [n] => by simp only [Target.bound, h.constant]
  | .path [] | .path (_ :: _ :: _) | .name _ | .numLit _ | .strLit _ | .charLit _ | .boolLit _ => by
    simp only [Target.bound]
  | .tuple _ ts => by simp only [Target.bound]; exact boundList_same h ts
  | .struct _ ts => by simp only [Target.bound]; exact boundFields_same h ts
  | .orChain ts => by simp only [Target.bound]; exact boundList_same h ts
/-- The same for lists. -/
theorem boundList_same (h : FailsMore W W') : (ts : List Target) → Target.boundList W ts = Target.boundList W' ts
  | [] => rfl
  | t :: ts => by simp only [Target.boundList, bound_same h t, boundList_same h ts]
/-- The same for the fields of a struct. -/
theorem boundFields_same (h : FailsMore W W') : (ts : List (Str × Target)) →
    Target.boundFields W ts = Target.boundFields W' ts
  | [] => rfl
  | (_, t) :: ts => by simp only [Target.boundFields, bound_same h t, boundFields_same h ts]
end

theorem holds_fails (h : FailsMore W W') (ρ : REnv U) (c : RCond) : FailsOr (c.holds W ρ) (c.holds W' ρ) := by
  cases c with
  | always => exact .refl _
  | test e => exact ((eval_fails h ρ e).bind h.truthy).map _
  | let_ t e => simp only [RCond.holds, patMatch_eq h, bound_same h]; exact (eval_fails h ρ e).map _
  | letChain op t l r =>
    simp only [RCond.holds, patMatch_eq h, bound_same h]
    refine .ite ?_ (.refl _)
    refine (eval_fails h ρ l).bind fun v => ?_
    cases patMatch W' t v with
    | none => exact .refl _
    | some vs => exact ((eval_fails h _ r).bind h.truthy).map _

theorem filterItems_fails (h : FailsMore W W') (ρ : REnv U) (t : Target) (c : RExpr) (vs : List (Val U)) :
    FailsOr (filterItems W ρ t c vs) (filterItems W' ρ t c vs) := by
  induction vs with
  | nil => exact .refl _
  | cons v vs ih =>
    simp only [filterItems, patMatch_eq h, bound_same h]
    exact (FailsOr.refl _).bind fun ws => ((eval_fails h _ c).bind h.truthy).bind fun b => ih.map _

theorem forItems_fails (h : FailsMore W W') (t : Target) {body body' : REnv U → Option (Str × Sig × REnv U)}
    (hb : ∀ ρ, FailsOr (body ρ) (body' ρ)) (vs : List (Val U)) :
    ∀ i ρ, FailsOr (forItems W t body vs i ρ) (forItems W' t body' vs i ρ) := by
  induction vs with
  | nil => intro i ρ; exact .refl _
  | cons v vs ih =>
    intro i ρ
    simp only [forItems, patMatch_eq h, bound_same h]
    refine (FailsOr.refl _).bind fun ws => (hb _).bind fun (s, sig, ρ') => ?_
    cases sig with
    | brk => exact .refl _
    | next => exact (ih _ _).map _
    | cont => exact (ih _ _).map _

mutual
theorem exec_fails (h : FailsMore W W') (ρ : REnv U) (s : Stmt) : FailsOr (s.exec W ρ) (s.exec W' ρ) := by
  match s with
  | .writeLit s => simp only [Stmt.exec]; exact .refl _
  | .writeFmt f args => simp only [Stmt.exec]; exact (formatText_fails h ρ f args).map _
  | .letDecl t => simp only [Stmt.exec, bound_same h]; exact .refl _
  | .letInit t e => simp only [Stmt.exec, patMatch_eq h, bound_same h]; exact (eval_fails h ρ e).bind fun v => .refl _
  | .assign n e => simp only [Stmt.exec]; exact (eval_fails h ρ e).bind fun v => .refl _
  | .letMany ns es => simp only [Stmt.exec]; exact (evalList_fails h ρ es).map _
  | .letStr x s => simp only [Stmt.exec, h.str]; exact .refl _
  | .letFmt x f args => simp only [Stmt.exec, h.str]; exact (formatText_fails h ρ f args).map _
  | .if_ bs => simp only [Stmt.exec]; exact execIf_fails h ρ bs
  | .match_ e arms =>
    simp only [Stmt.exec]; exact (eval_fails h ρ e).bind fun v => execMatch_fails h ρ v arms
  | .block b => simp only [Stmt.exec]; exact (execList_fails h ρ b).map _
  | .letDid => simp only [Stmt.exec]; exact .refl _
  | .setDid => simp only [Stmt.exec]; exact .refl _
  | .letIter e => simp only [Stmt.exec]; exact (eval_fails h ρ e).bind fun v => (h.iter v).map _
  | .filterIter t c => simp only [Stmt.exec]; exact (filterItems_fails h ρ t c _).map _
  | .forIter t b =>
    simp only [Stmt.exec]; exact (forItems_fails h t (fun ρ' => execList_fails h ρ' b) _ _ _).map _
  | .ifNotDid b => simp only [Stmt.exec]; exact .ite (.refl _) ((execList_fails h ρ b).map _)
  | .brk => simp only [Stmt.exec]; exact .refl _
  | .cont => simp only [Stmt.exec]; exact .refl _
  | .includeBytes p => simp only [Stmt.exec]; exact .refl _
termination_by sizeOf s
theorem execList_fails (h : FailsMore W W') (ρ : REnv U) (ss : List Stmt) :
    FailsOr (execList W ρ ss) (execList W' ρ ss) := by
  match ss with
  | [] => simp only [execList]; exact .refl _
  | s :: ss =>
    simp only [execList]
    refine (exec_fails h ρ s).bind fun (t, sig, ρ') => ?_
    cases sig with
    | next => exact (execList_fails h ρ' ss).map _
    | brk => exact .refl _
    | cont => exact .refl _
termination_by sizeOf ss
theorem execIf_fails (h : FailsMore W W') (ρ : REnv U) (bs : List Branch) :
    FailsOr (execIf W ρ bs) (execIf W' ρ bs) := by
  match bs with
  | [] => simp only [execIf]; exact .refl _
  | .mk c b :: bs =>
    simp only [execIf]
    refine (holds_fails h ρ c).bind fun r => ?_
    cases r with
    | none => exact execIf_fails h ρ bs
    | some ρ' => exact (execList_fails h ρ' b).map _
termination_by sizeOf bs
theorem execMatch_fails (h : FailsMore W W') (ρ : REnv U) (v : Val U) (arms : List Arm) :
    FailsOr (execMatch W ρ v arms) (execMatch W' ρ v arms) := by
  match arms with
  | [] => simp only [execMatch]; exact .refl _
  | .mk t b :: arms =>
    simp only [execMatch, patMatch_eq h, bound_same h]
    cases patMatch W' t v with
    | none => exact execMatch_fails h ρ v arms
    | some vs => exact (execList_fails h _ b).map _
termination_by sizeOf arms
end

end Askama
