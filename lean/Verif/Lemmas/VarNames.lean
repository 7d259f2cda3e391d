import Verif.Model.Rust

/-! The names of the variables after a statement: those before it, and in front of them those it declares itself. -/

namespace Askama

section

variable {U : Type} {W : World U}

/-- The variables a statement declares in the scope it stands in. -/
def Stmt.lets (W : World U) : Stmt → List Str
  | .letDecl t | .letInit t _ => t.bound W
  | .letMany names _ => names
  | .letStr x _ | .letFmt x _ _ => [x]
  | _ => []

/-- The names of the variables. -/
def REnv.names (ρ : REnv U) : List Str := ρ.vars.map (·.1)

theorem bindVars_names : (ns : List Str) → (vs : List (Val U)) → (vars : List (Str × Option (Val U))) →
    (bindVars ns vs vars).map (·.1) = ns.reverse ++ vars.map (·.1)
  | [], _, _ => by simp [bindVars]
  | n :: ns, v :: vs, vars => by rw [bindVars, bindVars_names ns vs]; simp
  | n :: ns, [], vars => by rw [bindVars, bindVars_names ns []]; simp

theorem assignVar_names {n : Str} {v : Val U} : (vars : List (Str × Option (Val U))) →
    {vars' : List (Str × Option (Val U))} → assignVar n v vars = some vars' → vars'.map (·.1) = vars.map (·.1)
  | [], _, h => by cases h
  | (m, w) :: vars, vars', h => by
    simp only [assignVar] at h
    split at h
    · cases h; simp
    · rw [Option.map_eq_some_iff] at h
      obtain ⟨vs, h1, rfl⟩ := h
      simp only [List.map_cons, assignVar_names vars h1]

/-- When a scope is left, the variables are those from before. -/
theorem leaveVars_names {outer inner : List (Str × Option (Val U))} {pre : List Str}
    (h : inner.map (·.1) = pre ++ outer.map (·.1)) : (leaveVars outer inner).map (·.1) = outer.map (·.1) := by
  have hl : inner.length = pre.length + outer.length := by
    have := congrArg List.length h
    simpa using this
  unfold leaveVars
  rw [List.map_drop, h, hl, Nat.add_sub_cancel, List.drop_left]

/-- New variables come in front. -/
def Grows (ρ ρ' : REnv U) (new : Str → Prop) : Prop := ∃ pre, ρ'.names = pre ++ ρ.names ∧ ∀ n ∈ pre, new n

theorem Grows.refl {ρ : REnv U} {p : Str → Prop} : Grows ρ ρ p := ⟨[], rfl, by simp⟩

theorem Grows.trans {a b c : REnv U} {p : Str → Prop} (h1 : Grows a b p) (h2 : Grows b c p) : Grows a c p := by
  obtain ⟨x, e1, hx⟩ := h1
  obtain ⟨y, e2, hy⟩ := h2
  refine ⟨y ++ x, by rw [e2, e1, List.append_assoc], fun n hn => ?_⟩
  rcases List.mem_append.mp hn with hn | hn
  · exact hy n hn
  · exact hx n hn

theorem Grows.imp {a b : REnv U} {p q : Str → Prop} (h : Grows a b p) (hpq : ∀ n, p n → q n) : Grows a b q := by
  obtain ⟨x, e, hx⟩ := h
  exact ⟨x, e, fun n hn => hpq n (hx n hn)⟩

/-- A scope: the names from before are left. -/
theorem Grows.leave {a b c : REnv U} {p q r : Str → Prop} (h1 : Grows a b p) (h2 : Grows b c q) {d : REnv U}
    (hd : d.vars = leaveVars a.vars c.vars) : Grows a d r := by
  obtain ⟨x, e1, -⟩ := h1
  obtain ⟨y, e2, -⟩ := h2
  refine ⟨[], ?_, by simp⟩
  unfold REnv.names at *
  rw [hd, leaveVars_names (pre := y ++ x) (by rw [e2, e1, List.append_assoc])]
  rfl

theorem Grows.bind {ρ : REnv U} {ns : List Str} {vs : List (Val U)} {d : REnv U}
    (hd : d.vars = bindVars ns vs ρ.vars) : Grows ρ d (· ∈ ns) := by
  refine ⟨ns.reverse, ?_, fun n hn => List.mem_reverse.mp hn⟩
  unfold REnv.names
  rw [hd, bindVars_names]

theorem Grows.same {ρ d : REnv U} {p : Str → Prop} (hd : d.vars = ρ.vars) : Grows ρ d p :=
  ⟨[], by unfold REnv.names; rw [hd]; rfl, by simp⟩

theorem holds_grows {ρ ρ' : REnv U} {c : RCond} (h : c.holds W ρ = some (some ρ')) : Grows ρ ρ' fun _ => True := by
  cases c with
  | always => cases h; exact .refl
  | test e =>
    simp only [RCond.holds, Option.map_eq_some_iff] at h
    obtain ⟨b, -, h⟩ := h
    split at h
    · cases h; exact .refl
    · cases h
  | let_ t e =>
    simp only [RCond.holds, Option.map_eq_some_iff] at h
    obtain ⟨v, -, vs, -, rfl⟩ := h
    exact (Grows.bind (ns := t.bound W) (vs := vs) rfl).imp fun _ _ => trivial
  | letChain op t l r =>
    simp only [RCond.holds] at h
    split at h
    · rw [Option.bind_eq_some_iff] at h
      obtain ⟨v, -, h⟩ := h
      split at h
      · cases h
      · rename_i vs hvs
        rw [Option.map_eq_some_iff] at h
        obtain ⟨b, -, h⟩ := h
        split at h
        · cases h
          exact (Grows.bind (ns := t.bound W) (vs := vs) rfl).imp fun _ _ => trivial
        · cases h
    · cases h

theorem forItems_grows {t : Target} {body : REnv U → Option (Str × Sig × REnv U)}
    (hb : ∀ ρ o sig ρ', body ρ = some (o, sig, ρ') → Grows ρ ρ' fun _ => True) (vs : List (Val U)) :
    ∀ i ρ o ρ', forItems W t body vs i ρ = some (o, ρ') → Grows ρ ρ' fun _ => False := by
  induction vs with
  | nil => intro i ρ o ρ' h; cases h; exact .refl
  | cons v vs ih =>
    intro i ρ o ρ' h
    simp only [forItems, Option.bind_eq_some_iff] at h
    obtain ⟨ws, -, ⟨s, sig, ρ1⟩, h1, h⟩ := h
    have key : ∀ d : REnv U, d.vars = leaveVars ρ.vars ρ1.vars → Grows ρ d fun _ => False := fun d hd =>
      Grows.leave (Grows.bind (ns := t.bound W) (vs := ws) rfl) (hb _ _ _ _ h1) hd
    cases sig with
    | brk => cases h; exact key _ rfl
    | next =>
      rw [Option.map_eq_some_iff] at h
      obtain ⟨⟨o2, ρ2⟩, h2, h⟩ := h
      cases h
      exact (key _ rfl).trans (ih _ _ _ _ h2)
    | cont =>
      rw [Option.map_eq_some_iff] at h
      obtain ⟨⟨o2, ρ2⟩, h2, h⟩ := h
      cases h
      exact (key _ rfl).trans (ih _ _ _ _ h2)

mutual
/-- A statement declares what is in `Stmt.lets`. -/
theorem exec_grows (s : Stmt) (ρ : REnv U) (o : Str) (sig : Sig) (ρ' : REnv U)
    (h : s.exec W ρ = some (o, sig, ρ')) : Grows ρ ρ' (· ∈ s.lets W) := by
  match s with
  | .writeLit _ | .letDid | .setDid | .brk | .cont | .includeBytes _ =>
    simp only [Stmt.exec, Option.some.injEq, Prod.mk.injEq] at h
    obtain ⟨-, -, rfl⟩ := h
    exact .same rfl
  | .writeFmt f args =>
    simp only [Stmt.exec, Option.map_eq_some_iff, Prod.mk.injEq] at h
    obtain ⟨_, -, -, -, rfl⟩ := h
    exact .refl
  | .letDecl t =>
    simp only [Stmt.exec, Option.some.injEq, Prod.mk.injEq] at h
    obtain ⟨-, -, rfl⟩ := h
    exact .bind (vs := []) rfl
  | .letInit t e =>
    simp only [Stmt.exec, Option.bind_eq_some_iff, Option.map_eq_some_iff, Prod.mk.injEq] at h
    obtain ⟨_, -, vs, -, -, -, rfl⟩ := h
    exact .bind (vs := vs) rfl
  | .assign n e =>
    simp only [Stmt.exec, Option.bind_eq_some_iff, Option.map_eq_some_iff, Prod.mk.injEq] at h
    obtain ⟨_, -, vars, h1, -, -, rfl⟩ := h
    exact ⟨[], assignVar_names _ h1, by simp⟩
  | .letMany ns es =>
    simp only [Stmt.exec, Option.map_eq_some_iff, Prod.mk.injEq] at h
    obtain ⟨vs, -, -, -, rfl⟩ := h
    exact .bind (vs := vs) rfl
  | .letStr x s =>
    simp only [Stmt.exec, Option.some.injEq, Prod.mk.injEq] at h
    obtain ⟨-, -, rfl⟩ := h
    exact .bind (vs := [W.str s]) rfl
  | .letFmt x f args =>
    simp only [Stmt.exec, Option.map_eq_some_iff, Prod.mk.injEq] at h
    obtain ⟨s, -, -, -, rfl⟩ := h
    exact .bind (vs := [W.str s]) rfl
  | .if_ bs =>
    simp only [Stmt.exec] at h
    exact (execIf_grows bs ρ o sig ρ' h).imp fun _ hn => hn.elim
  | .match_ e arms =>
    simp only [Stmt.exec, Option.bind_eq_some_iff] at h
    obtain ⟨v, -, h⟩ := h
    exact (execMatch_grows arms ρ v o sig ρ' h).imp fun _ hn => hn.elim
  | .block b =>
    simp only [Stmt.exec, Option.map_eq_some_iff, Prod.mk.injEq] at h
    obtain ⟨⟨o1, s1, ρ1⟩, h1, -, -, rfl⟩ := h
    exact Grows.leave (p := fun _ => False) .refl (execList_grows b ρ o1 s1 ρ1 h1) rfl
  | .letIter e =>
    simp only [Stmt.exec, Option.bind_eq_some_iff, Option.map_eq_some_iff, Prod.mk.injEq] at h
    obtain ⟨_, -, _, -, -, -, rfl⟩ := h
    exact .same rfl
  | .filterIter t c =>
    simp only [Stmt.exec, Option.map_eq_some_iff, Prod.mk.injEq] at h
    obtain ⟨_, -, -, -, rfl⟩ := h
    exact .same rfl
  | .forIter t b =>
    simp only [Stmt.exec, Option.map_eq_some_iff, Prod.mk.injEq] at h
    obtain ⟨⟨o1, ρ1⟩, h1, -, -, rfl⟩ := h
    exact (forItems_grows (fun ρ o sig ρ' h => (execList_grows b ρ o sig ρ' h).imp fun _ _ => trivial) _ _ _ _ _ h1).imp
      fun _ hn => hn.elim
  | .ifNotDid b =>
    simp only [Stmt.exec] at h
    split at h
    · simp only [Option.some.injEq, Prod.mk.injEq] at h
      obtain ⟨-, -, rfl⟩ := h
      exact .refl
    · simp only [Option.map_eq_some_iff, Prod.mk.injEq] at h
      obtain ⟨⟨o1, s1, ρ1⟩, h1, -, -, rfl⟩ := h
      exact Grows.leave (p := fun _ => False) .refl (execList_grows b ρ o1 s1 ρ1 h1) rfl
termination_by sizeOf s
theorem execList_grows (ss : List Stmt) (ρ : REnv U) (o : Str) (sig : Sig) (ρ' : REnv U)
    (h : execList W ρ ss = some (o, sig, ρ')) : Grows ρ ρ' fun n => ∃ s ∈ ss, n ∈ s.lets W := by
  match ss with
  | [] =>
    simp only [execList, Option.some.injEq, Prod.mk.injEq] at h
    obtain ⟨-, -, rfl⟩ := h
    exact .refl
  | s :: ss =>
    simp only [execList, Option.bind_eq_some_iff] at h
    obtain ⟨⟨t, sig1, ρ1⟩, h1, h⟩ := h
    have g1 := (exec_grows s ρ t sig1 ρ1 h1).imp (q := fun n => ∃ x ∈ s :: ss, n ∈ x.lets W)
      fun n hn => ⟨s, List.mem_cons_self .., hn⟩
    cases sig1 with
    | next =>
      simp only [Option.map_eq_some_iff, Prod.mk.injEq] at h
      obtain ⟨⟨o2, s2, ρ2⟩, h2, -, -, rfl⟩ := h
      exact g1.trans ((execList_grows ss ρ1 o2 s2 ρ2 h2).imp fun n ⟨x, hx, hn⟩ => ⟨x, List.mem_cons_of_mem _ hx, hn⟩)
    | brk => simp only [Option.some.injEq, Prod.mk.injEq] at h; obtain ⟨-, -, rfl⟩ := h; exact g1
    | cont => simp only [Option.some.injEq, Prod.mk.injEq] at h; obtain ⟨-, -, rfl⟩ := h; exact g1
termination_by sizeOf ss
theorem execIf_grows (bs : List Branch) (ρ : REnv U) (o : Str) (sig : Sig) (ρ' : REnv U)
    (h : execIf W ρ bs = some (o, sig, ρ')) : Grows ρ ρ' fun _ => False := by
  match bs with
  | [] =>
    simp only [execIf, Option.some.injEq, Prod.mk.injEq] at h
    obtain ⟨-, -, rfl⟩ := h
    exact .refl
  | .mk c b :: bs =>
    simp only [execIf, Option.bind_eq_some_iff] at h
    obtain ⟨r, h1, h⟩ := h
    cases r with
    | none => exact execIf_grows bs ρ o sig ρ' h
    | some ρ1 =>
      simp only [Option.map_eq_some_iff, Prod.mk.injEq] at h
      obtain ⟨⟨o2, s2, ρ2⟩, h2, -, -, rfl⟩ := h
      exact Grows.leave (holds_grows h1) (execList_grows b ρ1 o2 s2 ρ2 h2) rfl
termination_by sizeOf bs
theorem execMatch_grows (arms : List Arm) (ρ : REnv U) (v : Val U) (o : Str) (sig : Sig) (ρ' : REnv U)
    (h : execMatch W ρ v arms = some (o, sig, ρ')) : Grows ρ ρ' fun _ => False := by
  match arms with
  | [] => simp only [execMatch] at h; cases h
  | .mk t b :: arms =>
    simp only [execMatch] at h
    split at h
    · rename_i vs _
      simp only [Option.map_eq_some_iff, Prod.mk.injEq] at h
      obtain ⟨⟨o2, s2, ρ2⟩, h2, -, -, rfl⟩ := h
      exact Grows.leave (Grows.bind (ns := t.bound W) (vs := vs) rfl) (execList_grows b _ o2 s2 ρ2 h2) rfl
    · exact execMatch_grows arms ρ v o sig ρ' h
termination_by sizeOf arms
end

end

end Askama
