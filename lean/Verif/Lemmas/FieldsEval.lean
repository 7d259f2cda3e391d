import Verif.Spec.Fields
import Verif.Model.Rust

/-!
# Code that reads the same runs the same
-/

namespace Askama

open Spec

mutual
/-- An emitted expression uses only this. -/
def RExpr.In (S : Named → Prop) : RExpr → Prop
  | .self_ => S .self_
  | .field n | .fieldRef n => S (.field n)
  | .path p => S (.path p)
  | .rustMacro p a => S (.rustMacro p a)
  | .lit _ _ | .local_ _ | .loopIndex | .loopIndex0 | .loopFirst | .loopLast => True
  | .filter b n es => S (.filter b n) ∧ InL S es
  | .array es | .format _ es | .join es | .tuple es => InL S es
  | .attr e _ | .asRef e | .deref e | .escape _ e | .safe e | .unary _ e | .group e | .cycle e | .try_ e => e.In S
  | .index a b | .binop _ a b => a.In S ∧ b.In S
  | .range _ a b => InO S a ∧ InO S b
  | .call f es => f.In S ∧ InL S es
/-- ... expressions. -/
def InL (S : Named → Prop) : List RExpr → Prop
  | [] => True
  | e :: es => e.In S ∧ InL S es
/-- ... an optional expression. -/
def InO (S : Named → Prop) : Option RExpr → Prop
  | none => True
  | some e => e.In S
end

/-- A condition uses only this. -/
def RCond.In (S : Named → Prop) : RCond → Prop
  | .always => True
  | .test e | .let_ _ e => e.In S
  | .letChain _ _ l r => l.In S ∧ r.In S

mutual
/-- A statement uses only this. -/
def Stmt.In (S : Named → Prop) : Stmt → Prop
  | .writeFmt _ as | .letFmt _ _ as => ∀ a ∈ as, a.expr.In S
  | .letInit _ e | .assign _ e | .letIter e | .filterIter _ e => e.In S
  | .letMany _ es => InL S es
  | .if_ bs => InB S bs
  | .match_ e arms => e.In S ∧ InA S arms
  | .block b | .forIter _ b | .ifNotDid b => InS S b
  | .writeLit _ | .letDecl _ | .letStr _ _ | .letDid | .setDid | .brk | .cont | .includeBytes _ => True
/-- ... statements. -/
def InS (S : Named → Prop) : List Stmt → Prop
  | [] => True
  | s :: ss => s.In S ∧ InS S ss
/-- ... branches. -/
def InB (S : Named → Prop) : List Branch → Prop
  | [] => True
  | .mk c b :: bs => c.In S ∧ InS S b ∧ InB S bs
/-- ... arms. -/
def InA (S : Named → Prop) : List Arm → Prop
  | [] => True
  | .mk _ b :: bs => InS S b ∧ InA S bs
end

section
variable {U : Type} {W : World U} {p : Program U}

mutual
theorem eval_alike (ρ : REnv U) : (r : RExpr) → r.In (AlikeIn W p) → r.eval (W.withProgram p) ρ = r.eval W ρ
  | .lit _ _, _ | .local_ _, _ | .loopIndex, _ | .loopIndex0, _ | .loopFirst, _ | .loopLast, _ => rfl
  | .path q, h => by
    simp only [RExpr.In, AlikeIn] at h
    have h : (W.withProgram p).path q = W.path q := h.symm
    simp only [RExpr.eval]
    unfold pathVal
    split
    · simp only [h]
    · exact h
  | .rustMacro q a, h => by
    simp only [RExpr.In, AlikeIn] at h
    exact h.symm
  | .filter b n es, h => by
    simp only [RExpr.In, AlikeIn] at h
    have h1 : (W.withProgram p).filter b n = W.filter b n := funext fun vs => (h.1 vs).symm
    simp only [RExpr.eval, evalL_alike ρ es h.2, h1]
  | .self_, h => by
    simp only [RExpr.In, AlikeIn] at h
    simp only [RExpr.eval, World.withProgram, h]
  | .field n, h | .fieldRef n, h => by
    simp only [RExpr.In, AlikeIn] at h
    simp only [RExpr.eval, World.withProgram, h.1]
  | .array es, h | .format _ es, h | .join es, h | .tuple es, h => by
    simp only [RExpr.In] at h
    simp only [RExpr.eval, evalL_alike ρ es h]; rfl
  | .attr e _, h | .asRef e, h | .deref e, h | .escape _ e, h | .safe e, h | .unary _ e, h | .group e, h | .cycle e, h | .try_ e, h => by
    simp only [RExpr.In] at h
    simp only [RExpr.eval, eval_alike ρ e h]; try rfl
  | .index a b, h | .binop _ a b, h => by
    simp only [RExpr.In] at h
    simp only [RExpr.eval, eval_alike ρ a h.1, eval_alike ρ b h.2]; rfl
  | .range _ a b, h => by
    simp only [RExpr.In] at h
    simp only [RExpr.eval, evalO_alike ρ a h.1, evalO_alike ρ b h.2]; rfl
  | .call f es, h => by
    simp only [RExpr.In] at h
    have h1 := eval_alike ρ f h.1
    have h2 := evalL_alike ρ es h.2
    cases f with
    | attr e a =>
      simp only [RExpr.In] at h
      simp only [RExpr.eval, eval_alike ρ e h.1, h2]; rfl
    | field n =>
      simp only [RExpr.In, AlikeIn] at h
      simp only [RExpr.eval, h2]
      congr 1; funext vs; exact (h.1.2 vs).symm
    | _ => simp only [RExpr.eval] at h1 ⊢; simp only [h1, h2]; rfl
theorem evalL_alike (ρ : REnv U) : (es : List RExpr) → InL (AlikeIn W p) es →
    RExpr.evalList (W.withProgram p) ρ es = RExpr.evalList W ρ es
  | [], _ => rfl
  | e :: es, h => by
    simp only [InL] at h
    simp only [RExpr.evalList, eval_alike ρ e h.1, evalL_alike ρ es h.2]
theorem evalO_alike (ρ : REnv U) : (e : Option RExpr) → InO (AlikeIn W p) e →
    RExpr.evalOpt (W.withProgram p) ρ e = RExpr.evalOpt W ρ e
  | none, _ => rfl
  | some e, h => by
    simp only [InO] at h
    simp only [RExpr.evalOpt, eval_alike ρ e h]
end

mutual
theorem bound_withProgram : (t : Target) → t.bound (W.withProgram p) = t.bound W
  | .name _ | .path [_] | .path [] | .path (_ :: _ :: _) | .numLit _ | .strLit _ | .charLit _ | .boolLit _ => rfl
  | .tuple _ ts | .orChain ts => by simp only [Target.bound, boundL_withProgram ts]
  | .struct _ ts => by simp only [Target.bound, boundF_withProgram ts]
theorem boundL_withProgram : (ts : List Target) → Target.boundList (W.withProgram p) ts = Target.boundList W ts
  | [] => rfl
  | t :: ts => by simp only [Target.boundList, bound_withProgram t, boundL_withProgram ts]
theorem boundF_withProgram : (ts : List (Str × Target)) → Target.boundFields (W.withProgram p) ts = Target.boundFields W ts
  | [] => rfl
  | (_, t) :: ts => by simp only [Target.boundFields, bound_withProgram t, boundF_withProgram ts]
end

theorem patMatch_withProgram (t : Target) (x : Val U) : patMatch (W.withProgram p) t x = patMatch W t x := rfl

theorem evalArgs_alike (ρ : REnv U) : (as : List FmtArg) → (∀ a ∈ as, a.expr.In (AlikeIn W p)) →
    evalArgs (W.withProgram p) ρ as = evalArgs W ρ as
  | [], _ => rfl
  | a :: as, h => by
    rw [List.forall_mem_cons] at h
    simp only [evalArgs, eval_alike ρ _ h.1, evalArgs_alike ρ as h.2]

theorem showArg_withProgram (esc : Option Str) (x : Val U) (k : Nat) : showArg (W.withProgram p) esc x k = showArg W esc x k := by
  have h : (W.withProgram p).show_ x k = W.show_ x k := by
    induction x <;> simp_all [World.show_, World.withProgram]
  simp only [showArg, h]; rfl

theorem showPieces_withProgram (args : List (Str × Option Str × Val U)) : (ps : List Piece) → (seen : List Str) →
    showPieces (W.withProgram p) args seen ps = showPieces W args seen ps
  | [], _ => rfl
  | .ch _ :: ps, seen => by simp only [showPieces, showPieces_withProgram args ps]
  | .arg _ :: ps, seen => by simp only [showPieces, showPieces_withProgram args ps, showArg_withProgram]

theorem formatText_alike (ρ : REnv U) (fmt : Str) {as : List FmtArg} (h : ∀ a ∈ as, a.expr.In (AlikeIn W p)) :
    formatText (W.withProgram p) ρ fmt as = formatText W ρ fmt as := by
  simp only [formatText, evalArgs_alike ρ as h, showPieces_withProgram]

theorem holds_alike (ρ : REnv U) {c : RCond} (h : c.In (AlikeIn W p)) :
    c.holds (W.withProgram p) ρ = c.holds W ρ := by
  cases c with
  | always => rfl
  | test e => simp only [RCond.In] at h; simp only [RCond.holds, eval_alike ρ e h]; rfl
  | let_ t e => simp only [RCond.In] at h; simp only [RCond.holds, eval_alike ρ e h, bound_withProgram, patMatch_withProgram]
  | letChain op t l r =>
    simp only [RCond.In] at h
    simp only [RCond.holds, eval_alike ρ l h.1, bound_withProgram, patMatch_withProgram, fun ρ => eval_alike ρ r h.2]; rfl

theorem filterItems_alike (ρ : REnv U) (t : Target) {c : RExpr} (h : c.In (AlikeIn W p)) : (vs : List (Val U)) →
    filterItems (W.withProgram p) ρ t c vs = filterItems W ρ t c vs
  | [] => rfl
  | x :: vs => by
    simp only [filterItems, fun ρ => eval_alike ρ c h, bound_withProgram, patMatch_withProgram, filterItems_alike ρ t h vs]; rfl

theorem forItems_alike (t : Target) (body : REnv U → Option (Str × Sig × REnv U)) : (vs : List (Val U)) → (i : Nat) →
    (ρ : REnv U) → forItems (W.withProgram p) t body vs i ρ = forItems W t body vs i ρ
  | [], _, _ => rfl
  | x :: vs, i, ρ => by
    simp only [forItems, bound_withProgram, patMatch_withProgram, forItems_alike t body vs]

mutual
theorem exec_alike : (s : Stmt) → s.In (AlikeIn W p) → ∀ ρ, s.exec (W.withProgram p) ρ = s.exec W ρ
  | .writeFmt f as, h, ρ | .letFmt _ f as, h, ρ => by
    simp only [Stmt.In] at h
    simp only [Stmt.exec, formatText_alike ρ f h]; try rfl
  | .letInit _ e, h, ρ | .assign _ e, h, ρ | .letIter e, h, ρ => by
    simp only [Stmt.In] at h
    simp only [Stmt.exec, eval_alike ρ e h, bound_withProgram, patMatch_withProgram]; try rfl
  | .filterIter t e, h, ρ => by
    simp only [Stmt.In] at h
    simp only [Stmt.exec, filterItems_alike ρ t h]
  | .letMany _ es, h, ρ => by
    simp only [Stmt.In] at h
    simp only [Stmt.exec, evalL_alike ρ es h]
  | .if_ bs, h, ρ => by
    simp only [Stmt.In] at h
    simp only [Stmt.exec, execIf_alike bs h]
  | .match_ e as, h, ρ => by
    simp only [Stmt.In] at h
    simp only [Stmt.exec, eval_alike ρ e h.1, fun x => execMatch_alike as h.2 ρ x]
  | .block b, h, ρ | .ifNotDid b, h, ρ => by
    simp only [Stmt.In] at h
    simp only [Stmt.exec, execList_alike b h]
  | .forIter t b, h, ρ => by
    simp only [Stmt.In] at h
    simp only [Stmt.exec, execList_alike b h, forItems_alike]
  | .letDecl _, _, ρ => by simp only [Stmt.exec, bound_withProgram]
  | .writeLit _, _, ρ | .letStr _ _, _, ρ | .letDid, _, ρ | .setDid, _, ρ | .brk, _, ρ | .cont, _, ρ | .includeBytes _, _, ρ => rfl
theorem execList_alike : (b : List Stmt) → InS (AlikeIn W p) b → ∀ ρ, execList (W.withProgram p) ρ b = execList W ρ b
  | [], _, _ => rfl
  | s :: b, h, ρ => by
    simp only [InS] at h
    simp only [execList, exec_alike s h.1, execList_alike b h.2]
theorem execIf_alike : (b : List Branch) → InB (AlikeIn W p) b → ∀ ρ, execIf (W.withProgram p) ρ b = execIf W ρ b
  | [], _, _ => rfl
  | .mk c s :: b, h, ρ => by
    simp only [InB] at h
    simp only [execIf, holds_alike ρ h.1, execList_alike s h.2.1, execIf_alike b h.2.2]
theorem execMatch_alike : (b : List Arm) → InA (AlikeIn W p) b → ∀ ρ x,
    execMatch (W.withProgram p) ρ x b = execMatch W ρ x b
  | [], _, _, _ => rfl
  | .mk t s :: b, h, ρ, x => by
    simp only [InA] at h
    simp only [execMatch, patMatch_withProgram, bound_withProgram, execList_alike s h.1, execMatch_alike b h.2]
end

end

end Askama
