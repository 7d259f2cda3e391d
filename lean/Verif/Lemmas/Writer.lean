import Verif.Model.Writer

/-! Running against a writer (C20). -/

namespace Askama

variable {U σ : Type}

theorem putAll_append (k : Writer σ) (a b : List Str) (s : σ) :
    k.putAll s (a ++ b) = if (k.putAll s a).2 then k.putAll (k.putAll s a).1 b else k.putAll s a := by
  induction a generalizing s with
  | nil => simp [Writer.putAll]
  | cons c cs ih =>
    simp only [List.cons_append, Writer.putAll]
    split
    · exact ih _
    · simp

/-- The pieces a computation writes do not depend on the writer; it stops when one is refused; and otherwise its result
is that of the computation that collects the text. -/
def Traced {α : Type} (k : Writer σ) (m : Writes σ α) (e : Option (Str × α)) : Prop :=
  ∃ cs, ∃ o : Option α, (∀ s, m s = ((k.putAll s cs).1, if (k.putAll s cs).2 then o else none))
    ∧ o = e.map (·.2) ∧ ∀ t a, e = some (t, a) → cs.flatten = t

theorem Traced.pure {α : Type} {k : Writer σ} (a : α) : Traced k (.pure a) (some ([], a)) :=
  ⟨[], some a, fun _ => rfl, rfl, by rintro t b ⟨rfl, rfl⟩; rfl⟩

theorem Traced.lift {α : Type} {k : Writer σ} (o : Option α) : Traced k (.lift o) (o.map fun a => ([], a)) :=
  ⟨[], o, fun _ => rfl, by cases o <;> rfl, by intro t a h; cases o <;> cases h; rfl⟩

theorem Traced.put (k : Writer σ) (cs : List Str) : Traced k (.put k cs) (some (cs.flatten, ())) :=
  ⟨cs, some (), fun _ => rfl, rfl, by rintro t a h; cases h; rfl⟩

/-- One computation after the other. -/
def both {α β : Type} (e : Option (Str × α)) (f : α → Option (Str × β)) : Option (Str × β) :=
  e.bind fun r => (f r.2).map fun r' => (r.1 ++ r'.1, r'.2)

theorem Traced.bind {α β : Type} {k : Writer σ} {m : Writes σ α} {e : Option (Str × α)} {f : α → Writes σ β}
    {g : α → Option (Str × β)} (h : Traced k m e) (hf : ∀ a, Traced k (f a) (g a)) : Traced k (m.bind f) (both e g) := by
  obtain ⟨cs, o, h1, h2, h3⟩ := h
  cases e with
  | none =>
    simp only [Option.map_none] at h2
    subst h2
    refine ⟨cs, none, ?_, rfl, by intro t a h; cases h⟩
    intro s
    simp only [Writes.bind, h1, ite_self]
  | some r =>
    obtain ⟨t, a⟩ := r
    simp only [Option.map_some] at h2
    subst h2
    obtain ⟨cs', o', h1', h2', h3'⟩ := hf a
    refine ⟨cs ++ cs', o', ?_, ?_, ?_⟩
    · intro s
      rw [putAll_append]
      simp only [Writes.bind, h1]
      by_cases hp : (k.putAll s cs).2 = true
      · simp only [hp, if_true, h1']
      · simp only [hp, Bool.false_eq_true, if_false]
    · rw [h2']
      simp only [both, Option.bind_some]
      cases g a <;> rfl
    · intro t' b hb
      simp only [both, Option.bind_some] at hb
      cases hg : g a with
      | none => rw [hg] at hb; cases hb
      | some r =>
        rw [hg] at hb
        cases hb
        rw [List.flatten_append, h3 t a rfl, h3' r.1 r.2 hg]

theorem Traced.map {α β : Type} {k : Writer σ} {m : Writes σ α} {e : Option (Str × α)} (h : Traced k m e) (f : α → β) :
    Traced k (m.map f) (e.map fun r => (r.1, f r.2)) := by
  obtain ⟨cs, o, h1, h2, h3⟩ := h
  refine ⟨cs, o.map f, ?_, ?_, ?_⟩
  · intro s
    simp only [Writes.map, h1]
    by_cases hp : (k.putAll s cs).2 = true
    · simp only [hp, if_true]
    · simp only [hp, Bool.false_eq_true, if_false, Option.map_none]
  · rw [h2]; cases e <;> rfl
  · intro t a ha
    cases e with
    | none => cases ha
    | some r => cases ha; exact h3 r.1 r.2 rfl

theorem Traced.congr {α : Type} {k : Writer σ} {m : Writes σ α} {e e' : Option (Str × α)} (h : Traced k m e)
    (he : e = e') : Traced k m e' := he ▸ h

/-- Displaying and then failing if displaying failed. -/
theorem Traced.show {k : Writer σ} {W : World U} {D : Display U}
    (hD : ∀ x v n s, showArg W x v n = some s → (D x v n).flatten = s) (x : Option Str) (v : Val U) (n : Nat) :
    Traced k ((Writes.put k (D x v n)).bind fun _ => (Writes.lift (showArg W x v n)).map fun _ => ())
      ((showArg W x v n).map fun s => (s, ())) := by
  refine ((Traced.put k _).bind fun _ => (Traced.lift _).map _).congr ?_
  cases h : showArg W x v n with
  | none => rfl
  | some s => simp [both, hD x v n s h]

variable (W : World U) (D : Display U) (k : Writer σ)

theorem showPiecesTo_traced (hD : ∀ x v n s, showArg W x v n = some s → (D x v n).flatten = s)
    (args : List (Str × Option Str × Val U)) (ps : List Piece) :
    ∀ seen, Traced k (showPiecesTo W D k args seen ps) ((showPieces W args seen ps).map fun s => (s, ())) := by
  induction ps with
  | nil => intro seen; exact .pure ()
  | cons p ps ih =>
    intro seen
    cases p with
    | ch c =>
      refine ((Traced.put k [[c]]).bind fun _ => ih seen).congr ?_
      simp only [showPieces, both, Option.bind_some]
      cases showPieces W args seen ps <;> simp
    | arg n =>
      refine ((Traced.lift _).bind fun a => (Traced.put k _).bind fun _ => (Traced.lift _).bind fun _ => ih _).congr ?_
      simp only [showPieces, both]
      cases args.find? (fun a => a.1 == n) with
      | none => rfl
      | some a =>
        simp only [Option.map_some, Option.bind_some]
        cases h : showArg W a.2.1 a.2.2 (seen.count n) with
        | none => rfl
        | some s =>
          simp only [Option.map_some, Option.bind_some]
          rw [hD _ _ _ _ h]
          cases showPieces W args (n :: seen) ps <;> simp

theorem formatTo_traced (hD : ∀ x v n s, showArg W x v n = some s → (D x v n).flatten = s) (ρ : REnv U) (fmt : Str)
    (args : List FmtArg) : Traced k (formatTo W D k ρ fmt args) ((formatText W ρ fmt args).map fun s => (s, ())) := by
  refine ((Traced.lift _).bind fun ps => (Traced.lift _).bind fun vs => showPiecesTo_traced W D k hD vs ps []).congr ?_
  simp only [formatText, both]
  cases parseFmt none fmt with
  | none => rfl
  | some ps =>
    simp only [Option.map_some, Option.bind_some]
    cases evalArgs W ρ args with
    | none => rfl
    | some vs => 
      simp only [Option.map_some, Option.bind_some]
      cases showPieces W vs [] ps <;> rfl

theorem forItemsTo_traced (t : Target) {body : REnv U → Writes σ (Sig × REnv U)}
    {body' : REnv U → Option (Str × Sig × REnv U)} (hb : ∀ ρ, Traced k (body ρ) (body' ρ)) (vs : List (Val U)) :
    ∀ i ρ, Traced k (forItemsTo W t body vs i ρ) (forItems W t body' vs i ρ) := by
  induction vs with
  | nil => intro i ρ; exact .pure ρ
  | cons v vs ih =>
    intro i ρ
    simp only [forItemsTo, forItems]
    refine ((Traced.lift _).bind (g := fun ws => (body' ⟨bindVars (t.bound W) ws ρ.vars, some ⟨i, i == 0, vs.isEmpty⟩, ρ.did, ρ.iter⟩).bind fun (s, sig, ρ') =>
        match sig with
        | .brk => some (s, { ρ' with vars := leaveVars ρ.vars ρ'.vars, item := ρ.item })
        | _ => (forItems W t body' vs (i + 1) { ρ' with vars := leaveVars ρ.vars ρ'.vars, item := ρ.item }).map
            fun (s', ρ''') => (s ++ s', ρ''')) fun ws => ?_).congr ?_
    · refine ((hb _).bind (g := fun r => match r.1 with
        | .brk => some ([], { r.2 with vars := leaveVars ρ.vars r.2.vars, item := ρ.item })
        | _ => forItems W t body' vs (i + 1) { r.2 with vars := leaveVars ρ.vars r.2.vars, item := ρ.item }) ?_).congr ?_
      · rintro ⟨sig, ρ'⟩
        cases sig with
        | brk => exact .pure _
        | next => exact ih _ _
        | cont => exact ih _ _
      · simp only [both]
        congr 1
        funext ⟨s, sig, ρ'⟩
        cases sig <;> simp
    · simp only [both]
      cases patMatch W t v with
      | none => rfl
      | some ws =>
        simp only [Option.map_some, Option.bind_some, List.nil_append]
        exact Option.map_id' ..

mutual
theorem execTo_traced (hD : ∀ x v n s, showArg W x v n = some s → (D x v n).flatten = s) (ρ : REnv U) (st : Stmt) :
    Traced k (st.execTo W D k ρ) (st.exec W ρ) := by
  match st with
  | .writeLit s => simp only [Stmt.execTo, Stmt.exec]; exact ((Traced.put k [s]).map _).congr (by simp)
  | .writeFmt f args =>
    simp only [Stmt.execTo, Stmt.exec]
    exact ((formatTo_traced W D k hD ρ f args).map _).congr (by cases formatText W ρ f args <;> rfl)
  | .letDecl t => simp only [Stmt.execTo, Stmt.exec]; exact .pure _
  | .letInit t e =>
    simp only [Stmt.execTo, Stmt.exec]
    refine (Traced.lift _).congr ?_
    cases e.eval W ρ with
    | none => rfl
    | some v => simp only [Option.bind_some]; cases patMatch W t v <;> rfl
  | .assign n e =>
    simp only [Stmt.execTo, Stmt.exec]
    refine (Traced.lift _).congr ?_
    cases e.eval W ρ with
    | none => rfl
    | some v => simp only [Option.bind_some]; cases assignVar n v ρ.vars <;> rfl
  | .letMany ns es =>
    simp only [Stmt.execTo, Stmt.exec]
    exact (Traced.lift _).congr (by cases RExpr.evalList W ρ es <;> rfl)
  | .letStr x s => simp only [Stmt.execTo, Stmt.exec]; exact .pure _
  | .letFmt x f args =>
    simp only [Stmt.execTo, Stmt.exec]
    exact (Traced.lift _).congr (by cases formatText W ρ f args <;> rfl)
  | .if_ bs => simp only [Stmt.execTo, Stmt.exec]; exact execIfTo_traced hD ρ bs
  | .match_ e arms =>
    simp only [Stmt.execTo, Stmt.exec]
    refine ((Traced.lift _).bind fun v => execMatchTo_traced hD ρ v arms).congr ?_
    cases e.eval W ρ with
    | none => rfl
    | some v => simp [both]
  | .block b =>
    simp only [Stmt.execTo, Stmt.exec]
    exact (execListTo_traced hD ρ b).map _
  | .letDid => simp only [Stmt.execTo, Stmt.exec]; exact .pure _
  | .setDid => simp only [Stmt.execTo, Stmt.exec]; exact .pure _
  | .letIter e =>
    simp only [Stmt.execTo, Stmt.exec]
    refine (Traced.lift _).congr ?_
    cases e.eval W ρ with
    | none => rfl
    | some v => simp only [Option.bind_some]; cases W.iter v <;> rfl
  | .filterIter t c =>
    simp only [Stmt.execTo, Stmt.exec]
    exact (Traced.lift _).congr (by cases filterItems W ρ t c ρ.iter <;> rfl)
  | .forIter t b =>
    simp only [Stmt.execTo, Stmt.exec]
    exact (forItemsTo_traced W k t (fun ρ' => execListTo_traced hD ρ' b) _ _ _).map _
  | .ifNotDid b =>
    simp only [Stmt.execTo, Stmt.exec]
    split
    · exact .pure _
    · exact (execListTo_traced hD ρ b).map _
  | .brk => simp only [Stmt.execTo, Stmt.exec]; exact .pure _
  | .cont => simp only [Stmt.execTo, Stmt.exec]; exact .pure _
  | .includeBytes p => simp only [Stmt.execTo, Stmt.exec]; exact .pure _
termination_by sizeOf st
theorem execListTo_traced (hD : ∀ x v n s, showArg W x v n = some s → (D x v n).flatten = s) (ρ : REnv U)
    (ss : List Stmt) : Traced k (execListTo W D k ρ ss) (execList W ρ ss) := by
  match ss with
  | [] => simp only [execListTo, execList]; exact .pure _
  | s :: ss =>
    simp only [execListTo, execList]
    refine ((execTo_traced hD ρ s).bind (g := fun r => match r.1 with
      | .next => execList W r.2 ss
      | sig => some ([], sig, r.2)) ?_).congr ?_
    · rintro ⟨sig, ρ'⟩
      cases sig with
      | next => exact execListTo_traced hD ρ' ss
      | brk => exact .pure _
      | cont => exact .pure _
    · simp only [both]
      congr 1
      funext ⟨t, sig, ρ'⟩
      cases sig <;> simp
termination_by sizeOf ss
theorem execIfTo_traced (hD : ∀ x v n s, showArg W x v n = some s → (D x v n).flatten = s) (ρ : REnv U)
    (bs : List Branch) : Traced k (execIfTo W D k ρ bs) (execIf W ρ bs) := by
  match bs with
  | [] => simp only [execIfTo, execIf]; exact .pure _
  | .mk c b :: bs =>
    simp only [execIfTo, execIf]
    refine ((Traced.lift _).bind (g := fun r => match r with
      | some ρ' => (execList W ρ' b).map fun (s, sig, ρ'') => (s, sig, { ρ'' with vars := leaveVars ρ.vars ρ''.vars })
      | none => execIf W ρ bs) ?_).congr ?_
    · intro r
      cases r with
      | none => exact execIfTo_traced hD ρ bs
      | some ρ' => exact (execListTo_traced hD ρ' b).map _
    · simp only [both]
      cases c.holds W ρ with
      | none => rfl
      | some r =>
        simp only [Option.map_some, Option.bind_some, List.nil_append]
        exact Option.map_id' ..
termination_by sizeOf bs
theorem execMatchTo_traced (hD : ∀ x v n s, showArg W x v n = some s → (D x v n).flatten = s) (ρ : REnv U) (v : Val U)
    (arms : List Arm) : Traced k (execMatchTo W D k ρ v arms) (execMatch W ρ v arms) := by
  match arms with
  | [] => simp only [execMatchTo, execMatch]; exact .lift none
  | .mk t b :: arms =>
    simp only [execMatchTo, execMatch]
    cases patMatch W t v with
    | none => exact execMatchTo_traced hD ρ v arms
    | some vs => exact (execListTo_traced hD _ b).map _
termination_by sizeOf arms
end

end Askama
