import Verif.Lemmas.ParseShape
import Verif.Spec.NodeExprs
import Verif.Model.ParseNode

/-!
# The expressions of a parsed template are shaped
-/

namespace Askama

open PT Spec

/-! ## Filters of filter blocks -/

mutual
theorem insertFirst_shaped {x : Str} (hx : isName x = true) : (args : List Expr) → (∀ e ∈ args, ShapedAt 0 e) →
    shapedAll (Gen.insertFirst x args) = true ∧ ∃ a l, Gen.insertFirst x args = a :: l ∧ 10 ≤ strength a
  | [], _ => by
    simp only [Gen.insertFirst]
    exact ⟨by simp [shapedAll, shaped, hx], _, _, rfl, by simp [strength]⟩
  | e :: rest, h => by
    simp only [Gen.insertFirst]
    obtain ⟨h1, a, l, h2, h3⟩ := insertInto_shaped hx e (h e List.mem_cons_self).1
    refine ⟨?_, a, l ++ rest, by rw [h2]; rfl, h3⟩
    rw [shapedAll_iff] at h1 ⊢
    intro y hy
    rcases List.mem_append.mp hy with hy | hy
    · exact h1 y hy
    · exact h y (List.mem_cons_of_mem _ hy)
theorem insertInto_shaped {x : Str} (hx : isName x = true) : (e : Expr) → shaped e = true →
    shapedAll (Gen.insertInto x e) = true ∧ ∃ a l, Gen.insertInto x e = a :: l ∧ 10 ≤ strength a
  | .filter n args, h => by
    simp only [shaped, Bool.and_eq_true] at h
    obtain ⟨h1, a, l, h2, h3⟩ := insertFirst_shaped hx args ((shapedAll_iff _).mp h.1.2)
    have h4 : shaped (.filter n (Gen.insertFirst x args)) = true := by
      rw [h2] at h1 ⊢
      simp only [shaped, h.1.1, h1, decide_eq_true h3, Bool.and_self]
    simp only [Gen.insertInto]
    exact ⟨by simp only [shapedAll, h4, Bool.and_self], _, _, rfl, Nat.le_refl _⟩
  | .boolLit _, h | .numLit _, h | .strLit _, h | .charLit _, h | .var _, h | .path _, h | .array _, h | .attr _ _, h
  | .index _ _, h | .namedArg _ _, h | .unary _ _, h | .binop _ _ _, h | .range _ _ _, h | .group _, h | .tuple _, h
  | .call _ _, h | .rustMacro _ _, h | .try_ _, h | .generated _, h => by
    simp only [Gen.insertInto, shapedAll, h, Bool.and_true]
    exact ⟨hx, _, _, rfl, by simp [strength]⟩
end

/-- The filters of a filter block, applied to the variable, are shaped. -/
def AppOk (x : Str) (f : FilterApp) : Prop := shaped (.filter f.name (Gen.insertFirst x f.args)) = true

theorem appOk {x n : Str} {args : List Expr} (hx : isName x = true) (hn : isName n = true)
    (h : ∀ e ∈ args, ShapedAt 0 e) : AppOk x ⟨n, args⟩ := by
  obtain ⟨h1, a, l, h2, h3⟩ := insertFirst_shaped hx args h
  rw [h2] at h1
  simp only [AppOk, h2, shaped, hn, h1, decide_eq_true h3, Bool.and_self]

theorem appOk_more {x n : Str} {f : FilterApp} {args : List Expr} (hn : isName n = true)
    (hf : AppOk x f) (h : ∀ e ∈ args, ShapedAt 0 e) : AppOk x ⟨n, .filter f.name f.args :: args⟩ := by
  have h1 := (shapedAll_iff _).mpr h
  simp only [AppOk] at hf
  simp only [AppOk, Gen.insertFirst, Gen.insertInto]
  unfold shaped
  simp only [List.cons_append, List.nil_append, shapedAll, hn, hf, h1, strength, Bool.and_self]
  rfl

/-! ## Nodes -/

section
variable {α : Type} {P : Str → Prop}

theorem gives_here {p : Nat → PT Unit α} {Q : α → Prop} (h : ∀ n, Gives AnyIn (p n) Q) :
    Gives P (fun (s : PState) i => ((p (maxDepth - s.level) () i).1, s) : SP α) Q := by
  intro s i r a s' _ hp
  simp only [Prod.mk.injEq] at hp
  exact h _ _ _ _ _ _ trivial (Prod.ext hp.1 rfl)

variable {env : PEnv}

theorem exprHere_gives : Gives P (exprHere env) (ShapedAt 0) := gives_here fun n => exprP_shape env n .parse

theorem argsHere_gives {m : Bool} : Gives P (argsHere env m) fun es => ∀ e ∈ es, ShapedAt 0 e :=
  gives_here fun n => exprP_shape env n (.args m)

theorem filterP_gives {self : Self} (hs : SelfShaped self) : Gives AnyIn (filterP self) fun f =>
    isName f.1 = true ∧ ∀ e ∈ f.2.getD [], ShapedAt 0 e :=
  Gives.then fun _ => Gives.bind (Q := fun n => isName n = true) (Gives.ws (yields_identifier.gives fun _ _ h => h.2))
    fun m hm => (hs (.args false)).opt.bind fun a ha => .pure ⟨hm, by
      cases a with
      | none => simp
      | some a => exact ha a rfl⟩

theorem filterHere_gives : Gives P (filterHere env) fun f => isName f.1 = true ∧ ∀ e ∈ f.2.getD [], ShapedAt 0 e :=
  gives_here (p := fun n => filterP (exprP env n)) fun n => filterP_gives (exprP_shape env n)

theorem ident_gives : Gives P ident fun n => isName n = true :=
  Gives.lift (yields_identifier.gives fun _ _ h => h.2)

end

/-- All of these are shaped. -/
def AllShaped (es : List Expr) : Prop := ∀ e ∈ es, shaped e = true

theorem AllShaped.app {a b : List Expr} (ha : AllShaped a) (hb : AllShaped b) : AllShaped (a ++ b) := fun e he =>
  (List.mem_append.mp he).elim (ha e) (hb e)

theorem AllShaped.cons {e : Expr} {b : List Expr} (ha : shaped e = true) (hb : AllShaped b) : AllShaped (e :: b) :=
  fun y hy => (List.mem_cons.mp hy).elim (fun h => h ▸ ha) (hb y)

theorem allShaped_nil : AllShaped [] := by simp [AllShaped]

theorem allShaped_opt {o : Option Expr} (h : ∀ b, o = some b → ShapedAt 0 b) : AllShaped o.toList := by
  cases o with
  | none => exact allShaped_nil
  | some e => exact .cons (h e rfl).1 allShaped_nil

theorem nodesExprs_shaped {x : Str} {ns : List Node} (h : ∀ n ∈ ns, AllShaped (nodeExprs x n)) :
    AllShaped (nodesExprs x ns) := by
  induction ns with
  | nil => exact allShaped_nil
  | cons n ns ih =>
    simp only [nodesExprs]
    exact (h n List.mem_cons_self).app (ih fun m hm => h m (List.mem_cons_of_mem _ hm))

theorem condExprs_shaped {x : Str} {bs : List Cond} (h : ∀ b ∈ bs, AllShaped (condExprs x [b])) :
    AllShaped (condExprs x bs) := by
  induction bs with
  | nil => exact allShaped_nil
  | cons b bs ih =>
    have h1 := h b List.mem_cons_self
    cases b with
    | mk ws c nodes =>
      simp only [condExprs, List.append_nil] at h1 ⊢
      rw [← List.append_assoc]
      exact h1.app (ih fun m hm => h m (List.mem_cons_of_mem _ hm))

theorem whenExprs_shaped {x : Str} {bs : List When} (h : ∀ b ∈ bs, AllShaped (whenExprs x [b])) :
    AllShaped (whenExprs x bs) := by
  induction bs with
  | nil => exact allShaped_nil
  | cons b bs ih =>
    have h1 := h b List.mem_cons_self
    cases b with
    | mk ws c nodes =>
      simp only [whenExprs, List.append_nil] at h1 ⊢
      exact h1.app (ih fun m hm => h m (List.mem_cons_of_mem _ hm))

section
variable {x : Str} (hx : isName x = true) {env : PEnv} {tgt : SP Target} {many : SP (List Node)}
  (hm : Gives AnyIn many fun ns => AllShaped (nodesExprs x ns))

theorem exprNode_shape : Gives AnyIn (exprNode env) fun n => AllShaped (nodeExprs x n) := by
  refine Gives.then fun _ => Gives.bind (Q := fun p => ShapedAt 0 p.2) (Gives.cut (Gives.then fun _ =>
    exprHere_gives.ws.bind fun e he => .pure he)) fun p hp => ?_
  obtain ⟨pws, e⟩ := p
  refine Gives.then fun q => ?_
  obtain ⟨nws, closed⟩ := q
  dsimp only
  split
  · exact .pure (.cons hp.1 allShaped_nil)
  · exact Gives.then fun _ => gives_failAt

theorem callP_shape : Gives AnyIn (callP env) fun n => AllShaped (nodeExprs x n) := by
  refine Gives.then fun _ => Gives.then fun _ => Gives.cut (Gives.then fun _ => Gives.then fun _ =>
    (Gives.ws argsHere_gives).opt.bind fun a ha => Gives.then fun _ => .pure ?_)
  intro e he
  cases a with
  | none => simp [nodeExprs] at he
  | some a => exact (ha a rfl e he).1

theorem letP_shape : Gives AnyIn (letP env tgt) fun n => AllShaped (nodeExprs x n) :=
  Gives.then fun _ => Gives.then fun _ => Gives.cut (Gives.then fun _ => Gives.bind (Gives.opt (Gives.then fun _ =>
    Gives.ws exprHere_gives)) fun _ hv => Gives.then fun _ => .pure (allShaped_opt hv))

theorem parseCond_shape {P : Str → Prop} : Gives P (parseCond env tgt) fun c => ShapedAt 0 c.expr :=
  Gives.then fun _ => exprHere_gives.ws.bind fun _ he => .pure he

theorem condTest_shape {P : Str → Prop} : Gives P (condTest env tgt) fun c => ShapedAt 0 c.expr :=
  Gives.then fun _ => Gives.cut parseCond_shape

include hm

theorem condP_shape : Gives AnyIn (condP env tgt many) fun b => AllShaped (condExprs x [b]) := by
  refine Gives.then fun _ => Gives.then fun _ => Gives.bind (Q := fun c => ∀ b, c = some b → ShapedAt 0 b.expr)
    (.alt (Gives.then fun _ => condTest_shape.opt) (Gives.then fun _ => Gives.cut (Gives.map parseCond_shape
      fun c hc b hb => by cases hb; exact hc))) fun c hc => Gives.then fun _ => Gives.then fun _ => hm.cut.bind fun ns hn =>
        .pure ?_
  simp only [condExprs, List.append_nil]
  refine .app (allShaped_opt ?_) hn
  intro b hb
  cases c with
  | none => cases hb
  | some c =>
    cases hb
    exact hc c rfl

theorem ifP_shape : Gives AnyIn (ifP env tgt many) fun n => AllShaped (nodeExprs x n) := by
  refine Gives.then fun _ => condTest_shape.bind fun c hc => Gives.cut (Gives.then fun _ => Gives.then fun _ =>
    Gives.cut (hm.bind fun ns hn => (condP_shape hm).many0.bind fun bs hb => Gives.cut (Gives.then fun _ =>
      Gives.then fun _ => .pure ?_)))
  simp only [nodeExprs, condExprs]
  exact .cons hc.1 (hn.app (condExprs_shaped hb))

theorem loopP_shape : Gives AnyIn (loopP env tgt many) fun n => AllShaped (nodeExprs x n) := by
  refine Gives.then fun _ => Gives.then fun _ => Gives.cut (Gives.then fun _ => Gives.then fun _ => Gives.cut
    (exprHere_gives.ws.bind fun e he => Gives.bind (Gives.opt (Gives.then fun _ => Gives.cut (Gives.ws exprHere_gives)))
      fun c hc => Gives.then fun _ => Gives.then fun _ => Gives.cut (Gives.bind
        (Q := fun ns => AllShaped (nodesExprs x ns)) ?_ fun body hb => Gives.cut (Gives.then fun _ => Gives.then fun _ =>
          Gives.bind (Q := fun o => ∀ p, o = some p → AllShaped (nodesExprs x p.2.1)) (Gives.opt ?_) fun els hels =>
            Gives.then fun _ => Gives.then fun _ => ?_))))
  · intro s i r a s' _ h
    simp only [loopContent, Prod.mk.injEq] at h
    exact hm _ _ _ _ _ trivial (Prod.ext h.1 rfl)
  · exact Gives.then fun _ => Gives.cut (Gives.then fun _ => Gives.then fun _ => hm.bind fun ns hn => Gives.then fun _ =>
      Gives.then fun _ => .pure hn)
  · cases els with
    | none =>
      refine .pure ?_
      simp only [nodeExprs]
      exact .cons he.1 ((allShaped_opt hc).app (hb.app allShaped_nil))
    | some p =>
      refine .pure ?_
      simp only [nodeExprs]
      exact .cons he.1 ((allShaped_opt hc).app (hb.app (hels p rfl)))

theorem whenElse_shape : Gives AnyIn (whenElse env many) fun b => AllShaped (whenExprs x [b]) := by
  refine Gives.then fun _ => Gives.cut (Gives.then fun _ => Gives.then fun _ => hm.cut.bind fun ns hn => .pure ?_)
  simpa only [whenExprs, List.append_nil] using hn

theorem whenP_shape : Gives AnyIn (whenP env tgt many) fun b => AllShaped (whenExprs x [b]) := by
  refine Gives.then fun _ => Gives.cut (Gives.then fun _ => Gives.then fun _ => Gives.then fun _ =>
    hm.cut.bind fun ns hn => .pure ?_)
  simpa only [whenExprs, List.append_nil] using hn

theorem matchP_shape : Gives AnyIn (matchP env tgt many) fun n => AllShaped (nodeExprs x n) := by
  refine Gives.then fun _ => Gives.then fun _ => Gives.cut (exprHere_gives.ws.bind fun e he => Gives.then fun _ =>
    Gives.then fun _ => Gives.cut (Gives.then fun _ => Gives.bind (Q := fun bs => ∀ b ∈ bs, AllShaped (whenExprs x [b])) ?_
      fun arms ha => Gives.cut ((whenElse_shape hm).opt.bind fun els hels => Gives.cut (Gives.then fun _ =>
        Gives.then fun _ => Gives.then fun _ => Gives.then fun _ => .pure ?_))))
  · refine Gives.bind (whenP_shape hm) fun a ha => (whenP_shape hm).many0.map fun l hl b hb => ?_
    rcases List.mem_cons.mp hb with rfl | hb
    · exact ha
    · exact hl b hb
  · simp only [nodeExprs]
    refine .cons he.1 (whenExprs_shaped fun b hb => ?_)
    rcases List.mem_append.mp hb with hb | hb
    · exact ha b hb
    · cases els with
      | none => cases hb
      | some w =>
        simp only [Option.toList_some, List.mem_singleton] at hb
        subst hb
        exact hels _ rfl

theorem blockP_shape : Gives AnyIn (blockP env many) fun n => AllShaped (nodeExprs x n) := by
  refine Gives.then fun _ => Gives.then fun _ => Gives.then fun p => ?_
  obtain ⟨n, w⟩ := p
  exact Gives.cut (hm.bind fun ns hn => Gives.cut (Gives.then fun _ => Gives.cut (Gives.then fun _ => Gives.then fun _ =>
    .pure hn)))

theorem macroP_shape : Gives AnyIn (macroP env many) fun n => AllShaped (nodeExprs x n) := by
  refine Gives.then fun _ => Gives.then fun _ => Gives.then fun _ => Gives.then fun p => ?_
  obtain ⟨n, ps, w⟩ := p
  dsimp only
  split
  · exact gives_failAt
  · exact Gives.cut (hm.bind fun ns hn => Gives.cut (Gives.then fun _ => Gives.cut (Gives.then fun _ => Gives.then fun _ =>
      .pure hn)))

include hx

theorem filterBlockP_shape : Gives AnyIn (filterBlockP env many) fun n => AllShaped (nodeExprs x n) := by
  refine Gives.then fun _ => Gives.then fun _ => Gives.bind (Q := fun p => isName p.1 = true ∧
    (∀ e ∈ p.2.1.getD [], ShapedAt 0 e) ∧ ∀ f ∈ p.2.2.1, isName f.1 = true ∧ ∀ e ∈ f.2.getD [], ShapedAt 0 e)
    (Gives.cut (ident_gives.ws.bind fun n hn => argsHere_gives.opt.bind fun a ha => filterHere_gives.many0.bind fun fs hfs =>
      Gives.then fun _ => Gives.then fun _ => Gives.then fun _ => .pure ⟨hn, ?_, hfs⟩)) fun p hp => ?_
  · cases a with
    | none => simp
    | some a => exact ha a rfl
  · obtain ⟨n, ps, fs, w⟩ := p
    refine Gives.cut (hm.bind fun ns hn => Gives.cut (Gives.then fun _ => Gives.then fun _ => .pure ?_))
    simp only [nodeExprs]
    refine .cons ?_ hn
    have h0 := appOk (x := x) hx hp.1 hp.2.1
    have h1 := hp.2.2
    clear hp
    dsimp only at h0 h1
    generalize (⟨n, ps.getD []⟩ : FilterApp) = f at h0
    induction fs generalizing f with
    | nil => exact h0
    | cons g fs ih =>
      obtain ⟨h2, h3⟩ := h1 g List.mem_cons_self
      exact ih (fun g' hg' => h1 g' (List.mem_cons_of_mem _ hg')) _ (appOk_more h2 h0 h3)

theorem tagParser_shape {word : Str} {p : SP Node} (h : tagParser env tgt many word = some p) :
    Gives AnyIn p fun n => AllShaped (nodeExprs x n) := by
  unfold tagParser at h
  have step : ∀ {c : Prop} [Decidable c] {a b : Option (SP Node)}, (if c then a else b) = some p → a = some p ∨ b = some p := by
    intro c _ a b h
    split at h
    · exact .inl h
    · exact .inr h
  rcases step h with h | h
  · cases h
    exact callP_shape
  rcases step h with h | h
  · cases h
    exact letP_shape
  rcases step h with h | h
  · cases h
    exact ifP_shape hm
  rcases step h with h | h
  · cases h
    exact loopP_shape hm
  rcases step h with h | h
  · cases h
    exact matchP_shape hm
  rcases step h with h | h
  · cases h
    refine Gives.then fun _ => Gives.then fun _ => Gives.then fun _ => Gives.then fun p => ?_
    obtain ⟨a, b⟩ := p
    dsimp only
    split
    · exact .pure allShaped_nil
    · exact gives_failAt
  rcases step h with h | h
  · cases h
    exact Gives.then fun _ => Gives.then fun _ => Gives.cut (Gives.then fun _ => Gives.then fun _ => .pure allShaped_nil)
  rcases step h with h | h
  · cases h
    exact Gives.then fun _ => Gives.then fun _ => Gives.cut (Gives.then fun _ => Gives.then fun _ => Gives.cut
      (Gives.then fun _ => Gives.then fun _ => .pure allShaped_nil))
  rcases step h with h | h
  · cases h
    exact blockP_shape hm
  rcases step h with h | h
  · cases h
    exact macroP_shape hm
  rcases step h with h | h
  · cases h
    refine Gives.then fun _ => Gives.then fun _ => Gives.then fun p => ?_
    obtain ⟨a, b, c, d, e⟩ := p
    exact Gives.then fun _ => .pure allShaped_nil
  have hb : ∀ (w msg : Str) (mk : Ws → Node), (∀ ws, nodeExprs x (mk ws) = []) →
      Gives AnyIn (breakP w mk msg) fun n => AllShaped (nodeExprs x n) := by
    intro w msg mk hk
    refine Gives.then fun _ => Gives.then fun _ => Gives.then fun _ => Gives.then fun _ => Gives.then fun _ => ?_
    split
    · exact gives_failAt
    · refine .pure ?_
      rw [hk]
      exact allShaped_nil
  rcases step h with h | h
  · cases h
    exact hb _ _ _ fun _ => rfl
  rcases step h with h | h
  · cases h
    exact hb _ _ _ fun _ => rfl
  rcases step h with h | h
  · cases h
    exact filterBlockP_shape hx hm
  · cases h

theorem nodeP_shape : Gives AnyIn (nodeP env tgt many) fun n => AllShaped (nodeExprs x n) := by
  refine Gives.then fun _ => Gives.then fun _ => Gives.then fun word => ?_
  split
  · exact Gives.then fun _ => gives_error
  · rename_i p hp
    have h := tagParser_shape hx hm hp
    refine Gives.bind (Q := fun n => AllShaped (nodeExprs x n)) (Gives.then fun _ => ?_) fun n hn => Gives.then fun c => ?_
    · intro s i r a s' _ h1
      simp only [Prod.mk.injEq] at h1
      exact h _ _ _ _ _ trivial (Prod.ext h1.1 rfl)
    · split
      · exact .pure hn
      · exact Gives.then fun _ => gives_failAt

end

theorem nodesP_shape {x : Str} (hx : isName x = true) (env : PEnv) : (n : Nat) →
    Gives AnyIn (nodesP env n) fun ns => AllShaped (nodesExprs x ns)
  | 0 => by
    intro s i r a s' _ h
    simp [nodesP, PT.stuck] at h
  | n + 1 => by
    have ih := nodesP_shape hx env n
    simp only [nodesP]
    refine Gives.mono (Gives.many0 (Q := fun n => AllShaped (nodeExprs x n)) ?_) fun ns h => nodesExprs_shaped h
    exact .alt (gives_any.map fun _ _ => allShaped_nil) <| .alt (gives_any.map fun _ _ => allShaped_nil) <|
      .alt exprNode_shape (nodeP_shape hx ih)

/-- All expressions of a parsed template are shaped. -/
theorem template_shaped {env : PEnv} {src : Str} {nodes : List Node} (h : parseTemplate env src = .ok nodes) {x : Str}
    (hx : isName x = true) : ∀ e ∈ nodesExprs x nodes, shaped e = true := by
  unfold parseTemplate at h
  split at h
  · rename_i h1
    cases h
    have h2 : Gives AnyIn (do let ns ← nodesP env nestFuel; cut eof; pure ns : SP (List Node))
        fun ns => AllShaped (nodesExprs x ns) :=
      (nodesP_shape hx env nestFuel).bind fun ns hn => Gives.then fun _ => .pure hn
    exact h2 _ _ _ _ _ trivial h1
  · cases h
  · unfold mkParseErr at h
    dsimp only at h
    split at h
    · cases h
    · split at h <;> cases h
  · cases h

end Askama
