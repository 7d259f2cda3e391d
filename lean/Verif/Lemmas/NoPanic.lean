import Verif.Lemmas.Depth
import Verif.Lemmas.Layout
import Verif.Lemmas.Lineage
import Verif.Spec.Refs

/-!
# The generator does not panic

Each function of the generator is shown to return or to fail with an error, from states that can be reached.
-/

namespace Askama

open Spec Gen

/-- No panic, and a result with a property. -/
def Sat {α : Type} (Q : α → Prop) : Except GErr α → Prop
  | .ok a => Q a
  | .error e => e ≠ .panic

theorem Sat.bind {α β : Type} {P : α → Prop} {Q : β → Prop} {x : Except GErr α} {f : α → Except GErr β}
    (h : Sat P x) (hf : ∀ a, P a → Sat Q (f a)) : Sat Q (x >>= f) := by
  cases x with
  | ok a => exact hf a h
  | error e => exact h

theorem Sat.map {α β : Type} {P : α → Prop} {Q : β → Prop} {x : Except GErr α} {f : α → β}
    (h : Sat P x) (hf : ∀ a, P a → Q (f a)) : Sat Q (x.map f) := by
  cases x with
  | ok a => exact hf a h
  | error e => exact h

theorem Sat.mono {α : Type} {P Q : α → Prop} {x : Except GErr α} (h : Sat P x) (hq : ∀ a, P a → Q a) : Sat Q x := by
  cases x with
  | ok a => exact hq a h
  | error e => exact h

theorem Sat.not_panic {α : Type} {P : α → Prop} {x : Except GErr α} (h : Sat P x) : x ≠ .error .panic := by
  rintro rfl; exact h rfl

theorem Sat.of {α : Type} {x : Except GErr α} (h : x ≠ .error .panic) : Sat (fun _ => True) x := by
  cases x with
  | ok a => trivial
  | error e => intro he; exact h (by rw [he])

theorem Sat.also {α : Type} {P : α → Prop} {x : Except GErr α} (h : Sat P x) : Sat (fun a => P a ∧ x = .ok a) x := by
  cases x with
  | ok a => exact ⟨h, rfl⟩
  | error e => exact h

theorem sat_err {α : Type} {Q : α → Prop} : Sat Q (.error .err) := by intro h; cases h

/-! ## Expressions -/

/-- Does not panic. -/
abbrev Calm {α : Type} (x : Except GErr α) : Prop := Sat (fun _ => True) x

theorem Calm.bind {α β : Type} {x : Except GErr α} {f : α → Except GErr β} (h : Calm x) (hf : ∀ a, Calm (f a)) :
    Calm (x >>= f) := Sat.bind h fun a _ => hf a

/-- A filter with at least one argument. -/
theorem filter_calm {I : GenInput} {L : Locals} {name : Str} {args : List Expr} (hne : args ≠ [])
    (h1 : ∀ a ∈ args, Calm (visitExpr I L a)) (hl : Calm (visitList I L args))
    (hr : ∀ a rest, args = a :: rest → Calm (visitList I L rest)) : Calm (visitExpr I L (.filter name args)) := by
  have one : ∀ {a : Expr} {f : RExpr → RExpr × Bool}, Calm (visitExpr I L a) →
      Calm (do let (r, _) ← visitExpr I L a; return f r : Except GErr (RExpr × Bool)) :=
    fun h => Calm.bind h fun _ => trivial
  unfold visitExpr
  repeat' split
  all_goals first
    | exact sat_err
    | (exact absurd rfl hne)
    | (refine Calm.bind (h1 _ (by simp)) fun _ => ?_; trivial)
    | (refine Calm.bind hl fun _ => ?_; trivial)
    | (refine Calm.bind (hr _ _ rfl) fun _ => ?_; trivial)

theorem call_calm {I : GenInput} {L : Locals} {f : Expr} {args : List Expr} (h1 : Calm (visitExpr I L f))
    (h2 : Calm (visitList I L args)) (h3 : ∀ a ∈ args, Calm (visitExpr I L a)) :
    Calm (visitExpr I L (.call f args)) := by
  have key : Calm (do
      let (r, _) ← visitExpr I L f
      let rs ← visitList I L args
      return (.call r rs, false) : Except GErr (RExpr × Bool)) :=
    Calm.bind h1 fun _ => Calm.bind h2 fun _ => trivial
  cases f with
  | var x => simp only [visitExpr]; exact Calm.bind h2 fun _ => trivial
  | attr o m =>
    cases o with
    | var x =>
      unfold visitExpr
      dsimp only
      repeat' split
      all_goals first
        | exact sat_err
        | exact Calm.bind h2 fun _ => trivial
        | exact Calm.bind (h3 _ (by simp)) fun _ => trivial
    | _ => unfold visitExpr; exact key
  | _ => unfold visitExpr; exact key

mutual
theorem visit_calm (I : GenInput) (L : Locals) : (e : Expr) → Plain e → Calm (visitExpr I L e)
  | .boolLit _, _ | .numLit _, _ | .strLit _, _ | .charLit _, _ | .var _, _ | .path _, _ | .rustMacro _ _, _ => by
    simp only [visitExpr]; trivial
  | .array es, h => by
    simp only [visitExpr]
    exact Calm.bind (visitList_calm I L es (by simpa only [Plain] using h)) fun _ => trivial
  | .tuple es, h => by
    simp only [visitExpr]
    exact Calm.bind (visitList_calm I L es (by simpa only [Plain] using h)) fun _ => trivial
  | .attr e a, h => by
    have h1 := visit_calm I L e (by simpa only [Plain] using h)
    cases e with
    | var x =>
      simp only [visitExpr]
      repeat' split
      all_goals first | exact sat_err | trivial
    | _ => simp only [visitExpr] at h1 ⊢; exact Calm.bind h1 fun _ => trivial
  | .index a b, h => by
    simp only [Plain] at h
    simp only [visitExpr]
    exact Calm.bind (visit_calm I L a h.1) fun _ => Calm.bind (visit_calm I L b h.2) fun _ => trivial
  | .filter name es, h => by
    simp only [Plain] at h
    refine filter_calm h.1 ?_ (visitList_calm I L es h.2) ?_
    · exact visitAll_calm I L es h.2
    · rintro a rest rfl
      exact visitList_calm I L rest h.2.2
  | .unary _ e, h => by
    simp only [visitExpr]
    exact Calm.bind (visit_calm I L e (by simpa only [Plain] using h)) fun _ => trivial
  | .group e, h => by
    simp only [visitExpr]
    exact Calm.bind (visit_calm I L e (by simpa only [Plain] using h)) fun _ => trivial
  | .try_ e, h => by
    simp only [visitExpr]
    exact Calm.bind (visit_calm I L e (by simpa only [Plain] using h)) fun _ => trivial
  | .binop _ a b, h => by
    simp only [Plain] at h
    simp only [visitExpr]
    exact Calm.bind (visit_calm I L a h.1) fun _ => Calm.bind (visit_calm I L b h.2) fun _ => trivial
  | .range _ a b, h => by
    simp only [Plain] at h
    simp only [visitExpr]
    exact Calm.bind (visitOpt_calm I L a h.1) fun _ => Calm.bind (visitOpt_calm I L b h.2) fun _ => trivial
  | .call f args, h => by
    simp only [Plain] at h
    have h1 := visit_calm I L f h.1
    have h2 := visitList_calm I L args h.2
    have h3 := visitAll_calm I L args h.2
    exact call_calm h1 h2 h3
  | .namedArg _ _, h => by simp only [Plain] at h
  | .generated _, h => by simp only [Plain] at h
  termination_by e => sizeOf e
theorem visitList_calm (I : GenInput) (L : Locals) : (es : List Expr) → PlainL es → Calm (visitList I L es)
  | [], _ => by simp only [visitList]; trivial
  | e :: es, h => by
    simp only [PlainL] at h
    simp only [visitList]
    exact Calm.bind (visit_calm I L e h.1) fun _ => Calm.bind (visitList_calm I L es h.2) fun _ => trivial
  termination_by es => sizeOf es
theorem visitAll_calm (I : GenInput) (L : Locals) : (es : List Expr) → PlainL es → ∀ a ∈ es, Calm (visitExpr I L a)
  | [], _ => by simp
  | e :: es, h => by
    simp only [PlainL] at h
    exact List.forall_mem_cons.mpr ⟨visit_calm I L e h.1, visitAll_calm I L es h.2⟩
  termination_by es => sizeOf es
theorem visitOpt_calm (I : GenInput) (L : Locals) : (o : Option Expr) → PlainO o → Calm (visitOpt I L o)
  | none, _ => by simp only [visitOpt]; trivial
  | some e, h => by
    simp only [PlainO] at h
    simp only [visitOpt]
    exact Calm.bind (visit_calm I L e h) fun _ => trivial
  termination_by o => sizeOf o
end

theorem visitList_of_all (I : GenInput) (L : Locals) : (es : List Expr) → (∀ a ∈ es, Calm (visitExpr I L a)) →
    Calm (visitList I L es)
  | [], _ => by simp only [visitList]; trivial
  | e :: es, h => by
    simp only [visitList]
    exact Calm.bind (h e (by simp)) fun _ =>
      Calm.bind (visitList_of_all I L es fun a ha => h a (List.mem_cons_of_mem _ ha)) fun _ => trivial

theorem insertFirst_ne (x : Str) (args : List Expr) : insertFirst x args ≠ [] := by
  cases args with
  | nil => simp [insertFirst]
  | cons e es =>
    simp only [insertFirst]
    intro h
    have := (List.append_eq_nil_iff.mp h).1
    cases e <;> simp [insertInto] at this

mutual
theorem insertFirst_calm (I : GenInput) (L : Locals) (x : Str) : (args : List Expr) → FilterArgs args →
    ∀ a ∈ insertFirst x args, Calm (visitExpr I L a)
  | [], _ => by
    intro a ha
    simp only [insertFirst, List.mem_singleton] at ha
    subst ha
    simp only [visitExpr]; trivial
  | e :: es, h => by
    simp only [FilterArgs] at h
    intro a ha
    simp only [insertFirst, List.mem_append] at ha
    rcases ha with ha | ha
    · exact insertInto_calm I L x e h.1 a ha
    · exact visitAll_calm I L es h.2 a ha
  termination_by args => sizeOf args
theorem insertInto_calm (I : GenInput) (L : Locals) (x : Str) : (e : Expr) → FirstArg e →
    ∀ a ∈ insertInto x e, Calm (visitExpr I L a)
  | .filter name args, h => by
    simp only [FirstArg] at h
    intro a ha
    simp only [insertInto, List.mem_singleton] at ha
    subst ha
    have h1 := insertFirst_calm I L x args h
    refine filter_calm (insertFirst_ne x args) h1 (visitList_of_all I L _ h1) ?_
    intro b rest hr
    exact visitList_of_all I L _ fun c hc => h1 c (by rw [hr]; exact List.mem_cons_of_mem _ hc)
  | .boolLit s, h | .numLit s, h | .strLit s, h | .charLit s, h | .var s, h | .path s, h | .array s, h | .tuple s, h
  | .generated s, h | .group s, h | .try_ s, h => by
    intro a ha
    simp only [insertInto, List.mem_cons, List.not_mem_nil, or_false] at ha
    rcases ha with rfl | rfl
    · simp only [visitExpr]; trivial
    · exact visit_calm I L _ (by simpa only [FirstArg] using h)
  | .attr s t, h | .index s t, h | .unary s t, h | .call s t, h | .rustMacro s t, h | .namedArg s t, h => by
    intro a ha
    simp only [insertInto, List.mem_cons, List.not_mem_nil, or_false] at ha
    rcases ha with rfl | rfl
    · simp only [visitExpr]; trivial
    · exact visit_calm I L _ (by simpa only [FirstArg] using h)
  | .binop o s t, h | .range o s t, h => by
    intro a ha
    simp only [insertInto, List.mem_cons, List.not_mem_nil, or_false] at ha
    rcases ha with rfl | rfl
    · simp only [visitExpr]; trivial
    · exact visit_calm I L _ (by simpa only [FirstArg] using h)
  termination_by e => sizeOf e
end

/-- The filter of a filter block. -/
theorem filterBlock_calm (I : GenInput) (L : Locals) (x name : Str) {args : List Expr} (h : FilterArgs args) :
    Calm (visitExpr I L (.filter name (insertFirst x args))) := by
  have h1 := insertFirst_calm I L x args h
  refine filter_calm (insertFirst_ne x args) h1 (visitList_of_all I L _ h1) ?_
  intro b rest hr
  exact visitList_of_all I L _ fun c hc => h1 c (by rw [hr]; exact List.mem_cons_of_mem _ hc)

/-! ## States -/

/-- Nothing that is pending makes the generator panic, and the block that is being written is known. -/
structure Tame (H : Option Heritage) (g : Gen) : Prop where
  pend : ∀ e, .expr e ∈ g.pend → ∀ I L, Calm (visitExpr I L e)
  sup : ∀ h n k, H = some h → g.superBlock = some (n, k) → (assoc h.blocks n).isSome = true

/-- ... and no whitespace is pending. -/
structure Quiet (H : Option Heritage) (g : Gen) : Prop extends Tame H g where
  ws : g.nextWs = none

section
variable {I : GenInput} {H : Option Heritage} {g : Gen}

theorem Tame.push_lit (h : Tame H g) (s : Str) : Tame H (g.push (.lit s)) := by
  unfold Gen.push
  split
  · exact h
  · refine ⟨?_, h.sup⟩
    intro e he
    simp only [List.mem_append, List.mem_singleton, reduceCtorEq, or_false] at he
    exact h.pend e he

theorem Tame.push_gen (h : Tame H g) (r : RExpr) (w : Bool) : Tame H (g.push (.generated r w)) := by
  unfold Gen.push
  split
  · exact h
  · refine ⟨?_, h.sup⟩
    intro e he
    simp only [List.mem_append, List.mem_singleton, reduceCtorEq, or_false] at he
    exact h.pend e he

theorem Tame.push_expr (h : Tame H g) {e : Expr} (he : Plain e) : Tame H (g.push (.expr e)) := by
  unfold Gen.push
  split
  · exact h
  · refine ⟨?_, h.sup⟩
    intro e' he'
    simp only [List.mem_append, List.mem_singleton, Writable.expr.injEq] at he'
    rcases he' with he' | rfl
    · exact h.pend e' he'
    · exact fun I L => visit_calm I L _ he

theorem push_nextWs (g : Gen) (w : Writable) : (g.push w).nextWs = g.nextWs := by
  unfold Gen.push; split <;> rfl

theorem Tame.flushWs (h : Tame H g) (I : GenInput) (ws : Ws) : Quiet H (flushWs I g ws) := by
  unfold Gen.flushWs
  cases hn : g.nextWs with
  | none => exact ⟨h, hn⟩
  | some val =>
    dsimp only
    refine ⟨?_, rfl⟩
    have key : Tame H (match shouldTrimWs I ws.l with
      | .preserve => if val.isEmpty then g else g.push (.lit val)
      | .minimize => if val.isEmpty then g else g.push (.lit (minimized val))
      | .suppress => g) := by
      repeat' split
      all_goals first | exact h | exact h.push_lit _
    exact ⟨key.pend, key.sup⟩

theorem Tame.prepareWs (h : Tame H g) (I : GenInput) (ws : Ws) : Tame H (prepareWs I g ws) := ⟨h.pend, h.sup⟩

theorem Quiet.prepareWs (h : Quiet H g) (I : GenInput) (ws : Ws) : Quiet H (prepareWs I g ws) :=
  ⟨⟨h.pend, h.sup⟩, h.ws⟩

theorem Tame.handleWs (h : Tame H g) (I : GenInput) (ws : Ws) : Quiet H (handleWs I g ws) :=
  (h.flushWs I ws).prepareWs I ws

theorem Quiet.locals (h : Quiet H g) (L : Locals) : Quiet H { g with locals := L } := ⟨⟨h.pend, h.sup⟩, h.ws⟩

theorem Quiet.declare (h : Quiet H g) (t : Target) (b : Bool) : Quiet H (declare g t b) := h.locals _

theorem Quiet.openLine (h : Quiet H g) : Quiet H g.openLine := by
  obtain ⟨k, hk⟩ := openLine_eq g
  rw [hk]; exact ⟨⟨h.pend, h.sup⟩, h.ws⟩

theorem Quiet.dedent (h : Quiet H g) : Sat (Quiet H) g.dedent := by
  unfold Gen.dedent
  split
  · exact sat_err
  · exact ⟨⟨h.pend, h.sup⟩, h.ws⟩

theorem Quiet.closeLine (h : Quiet H g) : Sat (Quiet H) g.closeLine := by
  unfold Gen.closeLine
  split
  · exact h
  · exact h.dedent

theorem Quiet.dedentUnless (h : Quiet H g) (b : Bool) : Sat (Quiet H) (dedentUnless b g) := by
  unfold Gen.dedentUnless
  split
  · exact h
  · exact h.dedent

theorem formatLoop_calm (I : GenInput) (L : Locals) : (ws : List Writable) → (st : FmtSt) →
    (∀ e, .expr e ∈ ws → ∀ I L, Calm (visitExpr I L e)) → Calm (formatLoop I L ws st)
  | [], _, _ => trivial
  | .lit s :: ws, st, h => by
    simp only [formatLoop]
    exact formatLoop_calm I L ws _ fun e he => h e (List.mem_cons_of_mem _ he)
  | .expr e :: ws, st, h => by
    simp only [formatLoop]
    exact Calm.bind (h e (by simp) I L) fun x =>
      formatLoop_calm I L ws _ fun e he => h e (List.mem_cons_of_mem _ he)
  | .generated r w :: ws, st, h => by
    simp only [formatLoop]
    exact formatLoop_calm I L ws _ fun e he => h e (List.mem_cons_of_mem _ he)

theorem Tame.prepareFormat (h : Tame H g) (I : GenInput) :
    Sat (fun x => Tame H x.2 ∧ x.2.nextWs = g.nextWs) (prepareFormat I g) := by
  unfold Gen.prepareFormat
  split
  · exact ⟨h, rfl⟩
  · split
    · exact ⟨⟨by simp, h.sup⟩, rfl⟩
    · exact Sat.bind (formatLoop_calm I _ _ _ h.pend) fun st _ => ⟨⟨by simp, h.sup⟩, rfl⟩

theorem Quiet.prepareFormat (h : Quiet H g) (I : GenInput) : Sat (fun x => Quiet H x.2) (prepareFormat I g) :=
  (h.toTame.prepareFormat I).mono fun _ hx => ⟨hx.1, hx.2.trans h.ws⟩

theorem Tame.writeBuf (h : Tame H g) (I : GenInput) :
    Sat (fun x => Tame H x.2 ∧ x.2.nextWs = g.nextWs) (writeBuf I g) := by
  unfold Gen.writeBuf
  refine Sat.bind (h.prepareFormat I) ?_
  rintro ⟨p, g'⟩ hg
  cases p <;> exact hg

theorem Quiet.writeBuf (h : Quiet H g) (I : GenInput) : Sat (fun x => Quiet H x.2) (writeBuf I g) :=
  (h.toTame.writeBuf I).mono fun _ hx => ⟨hx.1, hx.2.trans h.ws⟩

theorem Quiet.flushIf (h : Quiet H g) (I : GenInput) (b : Bool) : Sat (fun x => Quiet H x.2) (flushIf I b g) := by
  unfold Gen.flushIf
  split
  · exact h.writeBuf I
  · exact h

theorem Tame.flushIf (h : Tame H g) (I : GenInput) (b : Bool) : Sat (fun x => Tame H x.2) (flushIf I b g) := by
  unfold Gen.flushIf
  split
  · exact (h.writeBuf I).mono fun _ hx => hx.1
  · exact h

theorem Tame.visitLws (h : Tame H g) {l : Lit} (hl : Spec.LitOk l) : Sat (Tame H) (visitLws g l) := by
  unfold Gen.visitLws
  have hrw : l.val.isEmpty = true → l.rws.isEmpty = true := by
    intro hv
    rw [hl.2.2.2.2 (List.isEmpty_iff.mp hv)]; rfl
  split
  · exact h
  · split
    · exact h
    · split
      · rename_i hv
        rw [if_pos (hrw hv)]
        exact ⟨h.pend, h.sup⟩
      · exact h.push_lit _
    · split
      · rename_i hv
        rw [if_pos (hrw hv)]
        exact ⟨h.pend, h.sup⟩
      · exact h.push_lit _

theorem Quiet.visitLit (h : Quiet H g) {l : Lit} (hl : Spec.LitOk l) : Sat (Tame H) (visitLit g l) := by
  unfold Gen.visitLit
  rw [h.ws, if_neg (by simp)]
  refine Sat.bind (h.toTame.visitLws hl) fun g1 h1 => ?_
  have h2 : Tame H (if l.val.isEmpty then g1 else ({ g1 with skipWs := .preserve } : Gen).push (.lit l.val)) := by
    split
    · exact h1
    · exact Tame.push_lit (g := { g1 with skipWs := .preserve }) ⟨h1.pend, h1.sup⟩ _
  show Tame H _
  split
  · exact h2
  · exact ⟨h2.pend, h2.sup⟩

mutual
theorem isShadowing_calm (L : Locals) : (t : Target) → Calm (isShadowing L t)
  | .name n => by unfold isShadowing; split <;> trivial
  | .tuple _ ts => by simp only [isShadowing]; exact isShadowingList_calm L ts
  | .struct _ ts => by simp only [isShadowing]; exact isShadowingFields_calm L ts
  | .numLit _ | .strLit _ | .charLit _ | .boolLit _ | .path _ | .orChain _ => by simp only [isShadowing]; exact sat_err
theorem isShadowingList_calm (L : Locals) : (ts : List Target) → Calm (isShadowingList L ts)
  | [] => by simp only [isShadowingList]; trivial
  | t :: ts => by
    have h1 := isShadowing_calm L t
    have h2 := isShadowingList_calm L ts
    simp only [isShadowingList]
    split
    · exact h2
    · exact h1
theorem isShadowingFields_calm (L : Locals) : (ts : List (Str × Target)) → Calm (isShadowingFields L ts)
  | [] => by simp only [isShadowingFields]; trivial
  | (_, t) :: ts => by
    have h1 := isShadowing_calm L t
    have h2 := isShadowingFields_calm L ts
    simp only [isShadowingFields]
    split
    · exact h2
    · exact h1
end

theorem writeLet_calm (h : Tame H g) {ws : Ws} {t : Target} {v : Option Expr} (hv : PlainO v) :
    Sat (fun x => Quiet H x.2) (writeLet I g ws t v) := by
  unfold Gen.writeLet
  have h1 := h.handleWs I ws
  cases v with
  | none =>
    refine Sat.bind (h1.writeBuf I) ?_
    rintro ⟨s, g2⟩ h2
    exact h2.declare t false
  | some e =>
    refine Sat.bind (visit_calm I _ e hv) fun r _ => Sat.bind (isShadowing_calm _ t) fun b _ => ?_
    refine Sat.bind (h1.flushIf I b) ?_
    rintro ⟨s, g2⟩ h2
    exact h2.declare t true

theorem branchCond_calm (h : Quiet H g) {c : Option CondTest} (hc : ∀ t, c = some t → Plain t.expr) :
    Sat (fun x => Quiet H x.2) (branchCond I g c) := by
  cases c with
  | none => exact h
  | some ct =>
    obtain ⟨t, e⟩ := ct
    have hp : Plain e := hc _ rfl
    cases t with
    | none => exact Sat.bind (visit_calm I _ e hp) fun _ _ => h
    | some t =>
      have key : Sat (fun x : RCond × Gen => Quiet H x.2) (do
          let (r, _) ← visitExpr I g.locals e
          return (.let_ t r, Gen.declare g t true)) :=
        Sat.bind (visit_calm I _ e hp) fun _ _ => h.declare t true
      cases e with
      | binop op a b =>
        unfold Gen.branchCond
        dsimp only
        split
        · simp only [Plain] at hp
          exact Sat.bind (visit_calm I _ a hp.1) fun _ _ => Sat.bind (visit_calm I _ b hp.2) fun _ _ => h.declare t true
        · exact key
      | _ => exact key

end

/-! ## Templates -/

/-- A node with references that can be followed. -/
structure NodeFine (I : GenInput) (H : Option Heritage) (n : Node) : Prop where
  loaded : includeLoaded I n = true
  known : ∀ h w1 name ns w2, H = some h → n = .blockDef w1 name ns w2 → (assoc h.blocks name).isSome = true

/-- ... and all nodes of a list. -/
structure Fine (I : GenInput) (H : Option Heritage) (ns : List Node) : Prop where
  parsed : ParsedList ns
  every : Every (NodeFine I H) ns

/-- The macros of a template are such that they can be called anywhere. -/
def FineMacros (I : GenInput) (c : Ctx) : Prop := ∀ e ∈ c.macros, ∀ H, Fine I H e.2.nodes

/-- A template and its macros. -/
structure FineCtx (I : GenInput) (c : Ctx) : Prop where
  nodup : BlocksOk c
  nodes : ∀ H, (∀ h n, H = some h → (assoc c.blocks n).isSome = true → (assoc h.blocks n).isSome = true) → Fine I H c.nodes
  blocks : ∀ H, (∀ h n, H = some h → (assoc c.blocks n).isSome = true → (assoc h.blocks n).isSome = true) →
    ∀ e ∈ c.blocks, Fine I H e.2.nodes
  macros : FineMacros I c
  root : c.extends_ = none → ∀ p, .extends_ p ∉ c.nodes
  parent : ∀ q, c.extends_ = some q → (assoc I.contexts q).isSome = true

/-- All definitions of blocks along the chain. -/
def FineH (I : GenInput) (H : Option Heritage) : Prop :=
  ∀ h n defs, H = some h → assoc h.blocks n = some defs → ∀ x ∈ defs, FineMacros I x.1 ∧ Fine I H x.2.nodes

/-- The handler for nested nodes does not panic. -/
def RecCalm (I : GenInput) (rec : Handler) : Prop :=
  ∀ H ctx nodes level g, FineH I H → FineMacros I ctx → Fine I H nodes → (level = .top → ∀ p, .extends_ p ∉ nodes) →
    Quiet H g → Sat (fun x => Tame H x.2) (rec H ctx nodes level g)

theorem FineMacros.merge {I : GenInput} {a b : Ctx} (ha : FineMacros I a) (hb : FineMacros I b) :
    FineMacros I (mergeCtx a b) := by
  intro e he
  rcases List.mem_append.mp he with he | he
  · exact ha e he
  · exact hb e he

theorem FineCtx.merge {I : GenInput} {a b : Ctx} (ha : FineCtx I a) (hb : FineMacros I b) : FineCtx I (mergeCtx a b) :=
  ⟨ha.nodup, ha.nodes, ha.blocks, ha.macros.merge hb, ha.root, ha.parent⟩

section
variable {I : GenInput} {H : Option Heritage} {ctx : Ctx} {rec : Handler} {g : Gen}

/-- The branches, or arms, or bodies of a node. -/
theorem fine_inner {ns : List Node} {n : Node} (hp : ParsedList ns) (h : ∀ m ∈ parts n, NodeFine I H m)
    (hs : ∀ m ∈ partsL ns, m ∈ parts n) : Fine I H ns := ⟨hp, fun m hm => h m (hs m hm)⟩

theorem ifBranches_calm (ok : RecCalm I rec) (hH : FineH I H) (hc : FineMacros I ctx) (wsEnd : Ws) :
    (first : Bool) → (bs : List Cond) → {g : Gen} →
    (∀ w c ns, Cond.mk w c ns ∈ bs → Fine I H ns ∧ ∀ t, c = some t → Plain t.expr) → Quiet H g →
    Sat (fun x => Quiet H x.2) (ifBranches rec I H ctx wsEnd first bs g)
  | _, [], _, _, hg => by simp only [ifBranches]; exact hg
  | first, .mk w c ns :: rest, g, hb, hg => by
    unfold Gen.ifBranches
    have h0 := hb w c ns (by simp)
    refine Sat.bind ((hg.locals _).dedentUnless first) fun g1 h1 => Sat.bind (branchCond_calm h1 h0.2) ?_
    rintro ⟨rc, g2⟩ h2
    dsimp only at h2 ⊢
    refine Sat.bind (ok H ctx ns .nested _ hH hc h0.1 (by simp) h2.openLine) ?_
    rintro ⟨body, g3⟩ h3
    dsimp only at h3 ⊢
    cases rest with
    | nil =>
      refine Sat.bind ((h3.handleWs I wsEnd).writeBuf I) ?_
      rintro ⟨fl, g4⟩ h4
      exact h4
    | cons b2 rest =>
      obtain ⟨w2, c2, ns2⟩ := b2
      refine Sat.bind ((h3.handleWs I w2).writeBuf I) ?_
      rintro ⟨fl, g4⟩ h4
      dsimp only at h4 ⊢
      refine Sat.bind (ifBranches_calm ok hH hc wsEnd false _ (fun w c ns hm => hb w c ns (List.mem_cons_of_mem _ hm))
        (h4.locals _)) ?_
      rintro ⟨bs, g5⟩ h5
      exact h5

theorem writeIf_calm (ok : RecCalm I rec) (hH : FineH I H) (hc : FineMacros I ctx) {ws : Ws} {bs : List Cond} (hne : bs ≠ [])
    (hb : ∀ w c ns, Cond.mk w c ns ∈ bs → Fine I H ns ∧ ∀ t, c = some t → Plain t.expr) (hg : Tame H g) :
    Sat (fun x => Quiet H x.2) (writeIf rec I H ctx g ws bs) := by
  cases bs with
  | nil => exact absurd rfl hne
  | cons b rest =>
    obtain ⟨w1, c1, ns1⟩ := b
    unfold Gen.writeIf
    dsimp only
    refine Sat.bind ((hg.handleWs I w1).writeBuf I) ?_
    rintro ⟨pre, g1⟩ h1
    refine Sat.bind (ifBranches_calm ok hH hc ws true _ hb h1) ?_
    rintro ⟨bs, g2⟩ h2
    refine Sat.bind h2.closeLine fun g3 h3 => ?_
    exact h3.locals _

theorem matchArms_calm (ok : RecCalm I rec) (hH : FineH I H) (hc : FineMacros I ctx) (ws2 : Ws) :
    (bs : List When) → {g : Gen} → (∀ w c ns, When.mk w c ns ∈ bs → Fine I H ns) → Quiet H g →
    Sat (fun x => Quiet H x.2) (matchArms rec I H ctx ws2 bs g)
  | [], _, _, hg => by simp only [matchArms]; exact hg
  | .mk w c ns :: rest, g, hb, hg => by
    unfold Gen.matchArms
    have h0 := hb w c ns (by simp)
    refine Sat.bind (ok H ctx ns .nested _ hH hc h0 (by simp) ((hg.locals _).declare c true).openLine) ?_
    rintro ⟨body, g3⟩ h3
    dsimp only at h3 ⊢
    refine Sat.bind ((h3.handleWs I _).writeBuf I) ?_
    rintro ⟨fl, g4⟩ h4
    dsimp only at h4 ⊢
    refine Sat.bind h4.closeLine fun g5 h5 => ?_
    refine Sat.bind (matchArms_calm ok hH hc ws2 rest (fun w c ns hm => hb w c ns (List.mem_cons_of_mem _ hm))
      (h5.locals _)) ?_
    rintro ⟨bs, g6⟩ h6
    exact h6

theorem writeMatch_calm (ok : RecCalm I rec) (hH : FineH I H) (hc : FineMacros I ctx) {ws1 ws2 : Ws} {e : Expr} {bs : List When}
    (hne : bs ≠ []) (he : Plain e) (hb : ∀ w c ns, When.mk w c ns ∈ bs → Fine I H ns) (hg : Tame H g) :
    Sat (fun x => Quiet H x.2) (writeMatch rec I H ctx g ws1 e bs ws2) := by
  cases bs with
  | nil => exact absurd rfl hne
  | cons b rest =>
    obtain ⟨w1, c1, ns1⟩ := b
    unfold Gen.writeMatch
    dsimp only
    refine Sat.bind ((hg.flushWs I ws1).writeBuf I) ?_
    rintro ⟨pre, g1⟩ h1
    refine Sat.bind (visit_calm I _ e he) ?_
    rintro ⟨r, w⟩ -
    refine Sat.bind (matchArms_calm ok hH hc ws2 _ hb (h1.openLine.toTame.handleWs I w1)) ?_
    rintro ⟨bs, g2⟩ h2
    refine Sat.bind h2.closeLine fun g3 h3 => ?_
    exact h3

theorem loopFilter_calm {var : Target} {c : Option Expr} (hc : PlainO c) : Calm (loopFilter I g var c) := by
  cases c with
  | none => trivial
  | some c => exact Calm.bind (visit_calm I _ c hc) fun _ => trivial

theorem writeLoop_calm (ok : RecCalm I rec) (hH : FineH I H) (hc : FineMacros I ctx) {ws1 ws2 ws3 : Ws} {var : Target}
    {iter : Expr} {cond : Option Expr} {body els : List Node} (hi : Plain iter) (hcond : PlainO cond)
    (hb : Fine I H body) (he : Fine I H els) (hg : Tame H g) :
    Sat (fun x => Quiet H x.2) (writeLoop rec I H ctx g ws1 var iter cond body ws2 els ws3) := by
  unfold Gen.writeLoop
  dsimp only
  refine Sat.bind (visit_calm I _ iter hi) ?_
  rintro ⟨r, w⟩ -
  refine Sat.bind (((hg.handleWs I ws1).locals _).writeBuf I) ?_
  rintro ⟨pre, g1⟩ h1
  refine Sat.bind (loopFilter_calm hcond) fun filt _ => ?_
  refine Sat.bind (ok H ctx body .nested _ hH hc hb (by simp) ((h1.openLine.locals _).declare var true).openLine) ?_
  rintro ⟨b, g2⟩ h2
  refine Sat.bind ((h2.handleWs I ws2).writeBuf I) ?_
  rintro ⟨fl, g3⟩ h3
  refine Sat.bind (Quiet.closeLine (h3.locals _)) fun g4 h4 => ?_
  split
  · refine Sat.bind (ok H ctx els .nested _ hH hc he (by simp) (h4.openLine.locals _)) ?_
    rintro ⟨b, g5⟩ h5
    refine Sat.bind ((h5.handleWs I ws3).writeBuf I) ?_
    rintro ⟨fl, g6⟩ h6
    refine Sat.bind (Quiet.closeLine (h6.locals _)) fun g7 h7 => Sat.bind h7.closeLine fun g8 h8 => ?_
    exact h8.locals _
  · refine Sat.bind ((h4.toTame.handleWs I ws3).writeBuf I) ?_
    rintro ⟨fl, g6⟩ h6
    refine Sat.bind h6.closeLine fun g8 h8 => ?_
    exact h8.locals _

/-! ### Macro calls -/

theorem namedArgs_calm (params : List Str) : (args : List Expr) → Sat (fun m => ∀ x ∈ m, x.2 ∈ args) (namedArgs params args)
  | [] => by simp only [namedArgs]; exact fun x hx => by cases hx
  | e :: rest => by
    unfold Gen.namedArgs
    split
    · rename_i n e' r heq
      cases heq
      split
      · refine Sat.bind (namedArgs_calm params rest) fun m hm => ?_
        intro x hx
        rcases List.mem_append.mp hx with hx | hx
        · exact List.mem_cons_of_mem _ (hm x hx)
        · rw [List.mem_singleton.mp hx]; simp
      · exact sat_err
    · exact fun x hx => by cases hx

theorem paramArg_calm {named : List (Str × Expr)} {args : List Expr} {p : Str} {i : Nat} {b : Bool}
    (hn : ∀ x ∈ named, x.2 ∈ args) (hi : i < args.length) : Sat (fun x => x.1 ∈ args) (paramArg named args p i b) := by
  unfold Gen.paramArg
  cases hl : lastOf named p with
  | some e =>
    obtain ⟨k, hk⟩ := assoc_mem hl
    exact hn _ (List.mem_reverse.mp hk)
  | none =>
    dsimp only
    split
    · rw [List.getElem?_eq_getElem hi]
      exact List.getElem_mem hi
    · exact sat_err

theorem passArg_calm {L : Locals} {e : Expr} (he : Calm (visitExpr I L e)) : Calm (passArg I L e) := by
  cases e with
  | var x => unfold passArg; dsimp only; split <;> trivial
  | attr o a =>
    exact Sat.map (β := RExpr ⊕ RExpr) (f := fun r => .inl r.1) (P := fun _ => True) (Q := fun _ => True) he
      fun _ _ => trivial
  | _ =>
    exact Sat.map (β := RExpr ⊕ RExpr) (f := fun r => .inr r.1) (P := fun _ => True) (Q := fun _ => True) he
      fun _ _ => trivial

theorem bindParams_calm {named : List (Str × Expr)} {args : List Expr} (hn : ∀ x ∈ named, x.2 ∈ args)
    (ha : ∀ e ∈ args, ∀ L, Calm (visitExpr I L e)) : (ps : List Str) → (i : Nat) → (b : Bool) → (L : Locals) →
    i + ps.length = args.length → Calm (bindParams I named args ps i b L)
  | [], _, _, _, _ => trivial
  | p :: ps, i, b, L, hi => by
    simp only [List.length_cons] at hi
    unfold Gen.bindParams
    refine Sat.bind (paramArg_calm hn (by omega)) ?_
    rintro ⟨e, b2⟩ he
    refine Sat.bind (passArg_calm (ha e he L)) fun x _ => ?_
    cases x with
    | inl r => exact bindParams_calm hn ha ps (i + 1) b2 _ (by omega)
    | inr r => exact Calm.bind (bindParams_calm hn ha ps (i + 1) b2 _ (by omega)) fun _ => trivial

theorem argList_calm {args : List Expr} (h : ArgList args) : ∀ e ∈ args, ∀ L, Calm (visitExpr I L e) := by
  obtain ⟨pos, named, rfl, h1, h2, -⟩ := h
  intro e he L
  rcases List.mem_append.mp he with he | he
  · exact visitAll_calm I L pos h1 e he
  · obtain ⟨x, hx, rfl⟩ := List.mem_map.mp he
    simp only [visitExpr]
    exact Calm.bind (visitAll_calm I L _ h2 _ (List.mem_map.mpr ⟨x, hx, rfl⟩)) fun _ => trivial

theorem findMacro_calm (hI : ∀ p c, assoc I.contexts p = some c → FineCtx I c) (hc : FineMacros I ctx)
    {scope : Option Str} {name : Str} :
    Sat (fun x => FineMacros I x.2 ∧ ∀ H, Fine I H x.1.nodes) (findMacro I ctx scope name) := by
  unfold Gen.findMacro
  cases scope with
  | some s =>
    dsimp only
    split
    · exact sat_err
    · split
      · exact sat_err
      · rename_i mctx hm
        split
        · exact sat_err
        · rename_i d hd
          obtain ⟨k, hk⟩ := assoc_mem hd
          exact ⟨(hI _ _ hm).macros, (hI _ _ hm).macros _ hk⟩
  | none =>
    dsimp only
    split
    · exact sat_err
    · rename_i d hd
      obtain ⟨k, hk⟩ := assoc_mem hd
      exact ⟨hc, hc _ hk⟩

theorem writeCall_calm (hI : ∀ p c, assoc I.contexts p = some c → FineCtx I c) (ok : RecCalm I rec) (hH : FineH I H)
    (hc : FineMacros I ctx) {ws : Ws} {scope : Option Str} {name : Str} {args : List Expr} (ha : ArgList args)
    (hg : Tame H g) : Sat (fun x => Quiet H x.2) (writeCall rec I H ctx g ws scope name args) := by
  unfold Gen.writeCall
  refine Sat.bind (findMacro_calm hI hc) ?_
  rintro ⟨d, own⟩ ⟨hown, hd⟩
  dsimp only at hown hd ⊢
  refine Sat.bind (((hg.flushWs I ws).locals _).writeBuf I) ?_
  rintro ⟨pre, g1⟩ h1
  dsimp only at h1 ⊢
  split
  · exact sat_err
  · rename_i hlen
    refine Sat.bind (namedArgs_calm d.args args.reverse) fun named hn => ?_
    refine Sat.bind (bindParams_calm (fun x hx => List.mem_reverse.mp (hn x hx)) (argList_calm ha) d.args 0 true _
      (by omega)) ?_
    rintro ⟨ns, rs, L⟩ -
    dsimp only
    refine Sat.bind (ok H own d.nodes .nested _ hH hown (hd H) (by simp) ((h1.openLine.prepareWs I d.ws1).locals L)) ?_
    rintro ⟨b, g2⟩ h2
    refine Sat.bind ((h2.flushWs I d.ws2).writeBuf I) ?_
    rintro ⟨fl, g3⟩ h3
    refine Sat.bind h3.closeLine fun g4 h4 => ?_
    exact Quiet.prepareWs (h4.locals _) I ws

/-! ### Filter blocks -/

theorem filterEnd_calm {ws2 : Ws} {b : List Stmt} {st : Stmt} {x name : Str} {args : List Expr} (hf : FilterArgs args)
    (h : Quiet H g) : Sat (fun x : List Stmt × Gen => Quiet H x.2) (do
      let (r, wrapped) ← visitExpr I g.locals (.filter name (insertFirst x args))
      let g := Gen.prepareWs I (g.push (.generated r wrapped)) ws2
      return (b ++ g.emit [st], { g with locals := g.locals.insert x { refs := none, initialized := true } })) := by
  refine Sat.bind (filterBlock_calm I _ _ _ hf) ?_
  rintro ⟨r, w⟩ -
  have h5 : Quiet H (g.push (.generated r w)) := ⟨h.toTame.push_gen r w, by rw [push_nextWs]; exact h.ws⟩
  exact (h5.prepareWs I ws2).locals _

theorem writeFilterBlock_calm (ok : RecCalm I rec) (hH : FineH I H) (hc : FineMacros I ctx) {ws1 ws2 : Ws} {f : FilterApp}
    {nodes : List Node} (hf : FilterArgs f.args) (hn : Fine I H nodes) (hg : Tame H g) :
    Sat (fun x => Quiet H x.2) (writeFilterBlock rec I H ctx g ws1 f nodes ws2) := by
  unfold Gen.writeFilterBlock
  have h0 := hg.flushWs I ws1
  dsimp only
  have h1 : Quiet H (Gen.prepareWs I { Gen.flushWs I g ws1 with pend := [] } ws1) := ⟨⟨by simp [Gen.prepareWs], h0.sup⟩, h0.ws⟩
  refine Sat.bind (ok H ctx nodes .nested _ hH hc hn (by simp) h1) ?_
  rintro ⟨b, g2⟩ h2
  dsimp only at h2 ⊢
  refine Sat.bind ((h2.flushWs I ws2).prepareFormat I) ?_
  rintro ⟨p, g3⟩ h3
  dsimp only at h3 ⊢
  have h4 : Quiet H { g3 with pend := (Gen.flushWs I g ws1).pend } := ⟨⟨h0.pend, h3.sup⟩, h3.ws⟩
  have key := fun st x => filterEnd_calm (I := I) (b := b) (st := st) (x := x) (name := f.name) (ws2 := ws2) hf h4
  cases p with
  | none => exact h3
  | plain s => exact key _ _
  | formatted a c => exact key _ _

/-! ### Blocks -/

theorem writeBlock_calm (ok : RecCalm I rec) (hH : FineH I H) (hc : FineMacros I ctx) {name : Option Str} {outer : Ws}
    (hn : ∀ h n, H = some h → name = some n → (assoc h.blocks n).isSome = true) (hg : Tame H g) :
    Sat (fun x => Quiet H x.2) (writeBlock rec I H ctx g name outer) := by
  unfold Gen.writeBlock
  have h0 := hg.flushWs I outer
  dsimp only
  have hcur : Sat (fun cur => ∀ h, H = some h → (assoc h.blocks cur.1).isSome = true)
      (currentBlock name (Gen.flushWs I g outer).superBlock) := by
    cases name with
    | none =>
      cases hs : (Gen.flushWs I g outer).superBlock with
      | none => exact sat_err
      | some x => exact fun h hh => h0.sup h x.1 x.2 hh hs
    | some n =>
      cases hs : (Gen.flushWs I g outer).superBlock with
      | none => exact fun h hh => hn h n hh rfl
      | some x =>
        obtain ⟨a, b⟩ := x
        unfold currentBlock
        dsimp only
        split
        · exact sat_err
        · exact fun h hh => hn h n hh rfl
  refine Sat.bind hcur fun cur hcur => ?_
  refine Sat.bind (h0.writeBuf I) ?_
  rintro ⟨pre, g1⟩ h1
  dsimp only at h1 ⊢
  cases H with
  | none => exact sat_err
  | some h =>
    dsimp only
    have hk := hcur h rfl
    cases hb : assoc h.blocks cur.1 with
    | none => rw [hb] at hk; cases hk
    | some defs =>
      dsimp only
      cases hd : defs[cur.2]? with
      | none => exact sat_err
      | some x =>
        obtain ⟨cctx, d⟩ := x
        dsimp only
        obtain ⟨hm, hf⟩ := hH h _ _ rfl hb _ (List.mem_of_getElem? hd)
        refine Sat.bind (ok (some h) _ d.nodes .block _ hH (FineMacros.merge hm hc) hf (by simp) ?_) ?_
        · exact ⟨⟨h1.pend, fun h' n k hh hs => by cases hs; exact hcur h' hh⟩, rfl⟩
        · rintro ⟨b, g2⟩ h2
          refine Sat.bind (h2.flushIf I _) ?_
          rintro ⟨fl, g3⟩ h3
          have h4 := h3.flushWs I d.ws2
          exact ⟨⟨h4.pend, h1.sup⟩, h1.ws⟩

/-! ### Included templates -/

theorem heritageChain_calm (hI : ∀ p c, assoc I.contexts p = some c → FineCtx I c) : (fuel : Nat) → {c : Ctx} → FineCtx I c →
    Sat (fun l => (∀ x ∈ l, FineCtx I x) ∧ ∃ r, l.getLast? = some r ∧ r.extends_ = none) (heritageChain I.contexts fuel c)
  | 0, _, _ => by intro h; cases h
  | fuel + 1, c, hc => by
    unfold heritageChain
    cases he : c.extends_ with
    | none =>
      refine ⟨?_, c, rfl, he⟩
      intro x hx; rw [List.mem_singleton.mp hx]; exact hc
    | some p =>
      dsimp only
      have := hc.parent p he
      cases ha : assoc I.contexts p with
      | none => rw [ha] at this; cases this
      | some d =>
        refine Sat.bind (heritageChain_calm hI fuel (hI p d ha)) fun rest hr => ?_
        obtain ⟨h1, r, h2, h3⟩ := hr
        refine ⟨?_, r, ?_, h3⟩
        · intro x hx
          rcases List.mem_cons.mp hx with rfl | hx
          · exact hc
          · exact h1 x hx
        · rw [List.getLast?_cons, h2]; rfl

/-- What the heritage of a template is like. -/
structure Sane (I : GenInput) (H : Option Heritage) (root : Ctx) : Prop where
  h : FineH I H
  nodes : Fine I H root.nodes
  macros : FineMacros I root
  root : ∀ p, .extends_ p ∉ root.nodes

theorem heritageNew_calm (hI : ∀ p c, assoc I.contexts p = some c → FineCtx I c) {c : Ctx} (hc : FineCtx I c) :
    Sat (fun h => Sane I (some h) h.root) (heritageNew I.contexts c) := by
  unfold heritageNew
  refine Sat.bind (heritageChain_calm hI _ hc) fun chain hch => ?_
  obtain ⟨hfc, r, hr, hre⟩ := hch
  have hd : ∀ n, assoc (chain.foldl (fun m c => addBlocks c m) []) n = moreDefs none (blockDefs chain n) :=
    fun n => fold_blocks chain (fun c hc => (hfc c hc).nodup) [] n
  have hcov : ∀ x ∈ chain, ∀ h n,
      some (⟨chain.getLastD c, chain.foldl (fun m c => addBlocks c m) []⟩ : Heritage) = some h →
      (assoc x.blocks n).isSome = true → (assoc h.blocks n).isSome = true := by
    intro x hx h n hh hs
    cases hh
    dsimp only
    rw [hd]
    obtain ⟨d, hs⟩ := Option.isSome_iff_exists.mp hs
    have : (x, d) ∈ blockDefs chain n := List.mem_filterMap.mpr ⟨x, hx, by rw [hs]; rfl⟩
    cases hb : blockDefs chain n with
    | nil => rw [hb] at this; cases this
    | cons y ys => rfl
  have hroot : chain.getLastD c = r := by rw [List.getLastD_eq_getLast?, hr]; rfl
  have hrm : r ∈ chain := List.mem_of_getLast? hr
  refine ⟨?_, ?_, ?_, ?_⟩
  · intro h n defs hh hdn x hx
    cases hh
    dsimp only at hdn
    rw [hd] at hdn
    have hx' : x ∈ blockDefs chain n := by
      cases hb : blockDefs chain n with
      | nil => rw [hb] at hdn; simp [moreDefs] at hdn
      | cons y ys =>
        rw [hb] at hdn
        simp only [moreDefs, Option.some.injEq] at hdn
        rw [hdn]; exact hx
    obtain ⟨y, hy, hx'⟩ := List.mem_filterMap.mp hx'
    obtain ⟨d, hd1, hd2⟩ := Option.map_eq_some_iff.mp hx'
    cases hd2
    exact ⟨(hfc y hy).macros, (hfc y hy).blocks _ (hcov y hy) _ (mem_blocks hd1)⟩
  · dsimp only
    rw [hroot]
    have := hcov r hrm
    rw [hroot] at this
    exact (hfc r hrm).nodes _ this
  · dsimp only; rw [hroot]; exact (hfc r hrm).macros
  · dsimp only; rw [hroot]; exact (hfc r hrm).root hre

theorem includeHeritage_calm (hI : ∀ p c, assoc I.contexts p = some c → FineCtx I c) {c : Ctx} (hc : FineCtx I c) :
    Sat (fun Hc => Sane I Hc (rootOf Hc c)) (includeHeritage I c) := by
  unfold includeHeritage
  split
  · exact Sat.map (heritageNew_calm hI hc) fun h hs => hs
  · rename_i hcond
    have he : c.extends_ = none := by
      cases hx : c.extends_ with
      | none => rfl
      | some p => rw [hx] at hcond; simp at hcond
    refine ⟨?_, hc.nodes none (fun h n hh => by cases hh), hc.macros, hc.root he⟩
    intro h n defs hh; cases hh

theorem handleInclude_calm (hI : ∀ p c, assoc I.contexts p = some c → FineCtx I c) (ok : RecCalm I rec)
    (hc : FineMacros I ctx) {ws : Ws} {path : Str} (hp : includeLoaded I (.include ws path) = true) (hg : Tame H g) :
    Sat (fun x => Quiet H x.2) (handleInclude rec I ctx g ws path) := by
  unfold Gen.handleInclude
  refine Sat.bind ((hg.flushWs I ws).writeBuf I) ?_
  rintro ⟨pre, g1⟩ h1
  dsimp only at h1 ⊢
  simp only [includeLoaded] at hp
  cases hf : I.find path with
  | none => exact sat_err
  | some p =>
    rw [hf] at hp
    dsimp only at hp ⊢
    cases ha : assoc I.contexts p with
    | none => rw [ha] at hp; cases hp
    | some c =>
      dsimp only
      refine Sat.bind (includeHeritage_calm hI ((hI p c ha).merge hc)) fun H2 hs => ?_
      refine Sat.bind (P := fun x => Tame H2 x.2) (ok H2 (rootOf H2 (mergeCtx c ctx)) (rootOf H2 (mergeCtx c ctx)).nodes
        .top _ hs.h hs.macros hs.nodes (fun _ => hs.root) ?_) ?_
      · exact ⟨⟨by simp [Gen.new], by simp [Gen.new]⟩, rfl⟩
      · rintro ⟨b, g2⟩ h2
        refine Sat.bind (h2.writeBuf I) ?_
        rintro ⟨fl, g3⟩ -
        exact ⟨⟨h1.pend, h1.sup⟩, h1.ws⟩

/-! ### All nodes -/

theorem node_calm (hI : ∀ p c, assoc I.contexts p = some c → FineCtx I c) (ok : RecCalm I rec) (hH : FineH I H)
    (hc : FineMacros I ctx) {level : Level} {n : Node} (hp : ParsedNode n) (hn : ∀ m ∈ parts n, NodeFine I H m)
    (hext : level = .top → ∀ p, n ≠ .extends_ p) (hg : Tame H g) (hws : isLitNode n = true → g.nextWs = none) :
    Sat (fun x => Tame H x.2 ∧ (isLitNode n = false → x.2.nextWs = none)) (handleNode rec I H ctx level g n) := by
  obtain ⟨b, -, -, hargs, hex, hsh, -⟩ := hp.ok
  have quiet : ∀ {x : GRes}, Sat (fun x => Quiet H x.2) x →
      Sat (fun x => Tame H x.2 ∧ (isLitNode n = false → x.2.nextWs = none)) x :=
    fun h => h.mono fun _ hx => ⟨hx.toTame, fun _ => hx.ws⟩
  cases n with
  | lit l =>
    refine Sat.bind (Quiet.visitLit ⟨hg, hws rfl⟩ hsh.1) fun g' hg' => ?_
    exact ⟨hg', fun h => by cases h⟩
  | comment ws c => exact quiet (x := .ok _) (hg.handleWs I ws)
  | expr ws e =>
    refine quiet (x := .ok _) ?_
    have h1 := hg.handleWs I ws
    exact ⟨h1.toTame.push_expr hex, by unfold Gen.writeExpr; rw [push_nextWs]; exact h1.ws⟩
  | let_ ws t v => exact quiet (writeLet_calm hg hex)
  | if_ ws bs =>
    obtain ⟨w, t, ns, rest, hbs⟩ := hsh
    refine quiet (writeIf_calm ok hH hc (by rw [hbs]; simp) ?_ hg)
    intro w c ns hm
    refine ⟨fine_inner (hp.branch hm) hn ?_, hex w c ns hm⟩
    intro m hm'
    simp only [parts, List.mem_cons]
    exact .inr (partsC_mem bs ns (List.mem_map.mpr ⟨_, hm, rfl⟩) m hm')
  | match_ ws1 e arms ws2 =>
    refine quiet (writeMatch_calm ok hH hc hsh hex ?_ hg)
    intro w c ns hm
    refine fine_inner (hp.arm hm) hn ?_
    intro m hm'
    simp only [parts, List.mem_cons]
    exact .inr (partsW_mem arms ns (List.mem_map.mpr ⟨_, hm, rfl⟩) m hm')
  | loop ws1 var iter cond body ws2 els ws3 =>
    refine quiet (writeLoop_calm ok hH hc hex.1 hex.2 (fine_inner hp.loop.1 hn ?_) (fine_inner hp.loop.2 hn ?_) hg)
    · intro m hm; simp [parts, hm]
    · intro m hm; simp [parts, hm]
  | blockDef ws1 name ns ws2 =>
    refine quiet (writeBlock_calm ok hH hc ?_ hg)
    intro h n hh hx
    cases hx
    exact (hn _ (by simp [parts])).known h ws1 name ns ws2 hh rfl
  | «include» ws path => exact quiet (handleInclude_calm hI ok hc (hn _ (by simp [parts])).loaded hg)
  | call ws scope name args =>
    unfold Gen.handleNode
    dsimp only
    split
    · exact quiet (writeBlock_calm ok hH hc (by intro h n _ hx; cases hx) hg)
    · exact quiet (writeCall_calm hI ok hH hc hargs hg)
  | filterBlock ws1 f ns ws2 =>
    refine quiet (writeFilterBlock_calm ok hH hc hex (fine_inner hp.filter hn ?_) hg)
    intro m hm; simp [parts, hm]
  | «macro» ws1 name args ns ws2 =>
    unfold Gen.handleNode
    dsimp only
    split
    · exact quiet (x := .ok _) ((hg.flushWs I ws1).prepareWs I ws2)
    · exact sat_err
  | raw ws1 l ws2 =>
    refine Sat.bind ((hg.handleWs I ws1).visitLit hsh) fun g1 h1 => ?_
    have h2 := h1.handleWs I ws2
    exact ⟨h2.toTame, fun _ => h2.ws⟩
  | import_ ws p s =>
    unfold Gen.handleNode
    dsimp only
    split
    · exact quiet (x := .ok _) (hg.handleWs I ws)
    · exact sat_err
  | extends_ p =>
    unfold Gen.handleNode
    dsimp only
    split
    · rename_i hl
      exact absurd rfl (hext hl p)
    · exact sat_err
  | break_ ws =>
    refine Sat.bind ((hg.handleWs I ws).writeBuf I) ?_
    rintro ⟨s, g1⟩ h1
    exact ⟨h1.toTame, fun _ => h1.ws⟩
  | continue_ ws =>
    refine Sat.bind ((hg.handleWs I ws).writeBuf I) ?_
    rintro ⟨s, g1⟩ h1
    exact ⟨h1.toTame, fun _ => h1.ws⟩

theorem nodes_calm (hI : ∀ p c, assoc I.contexts p = some c → FineCtx I c) (ok : RecCalm I rec) (hH : FineH I H)
    (hc : FineMacros I ctx) {level : Level} : (ns : List Node) → {g : Gen} → Fine I H ns →
    (level = .top → ∀ p, .extends_ p ∉ ns) → Tame H g → ((ns.head?.map isLitNode).getD false = true → g.nextWs = none) →
    Sat (fun x => Tame H x.2) (handleNodes rec I H ctx level ns g)
  | [], _, _, _, hg, _ => hg
  | n :: ns, g, hf, hext, hg, hws => by
    unfold Gen.handleNodes
    refine Sat.bind (node_calm hI ok hH hc hf.parsed.head hf.every.head (fun hl p he => hext hl p (by simp [he])) hg
      (fun h => hws (by simpa using h))) ?_
    rintro ⟨s, g1⟩ ⟨h1, h2⟩
    dsimp only at h1 h2 ⊢
    refine Sat.bind (nodes_calm hI ok hH hc ns ⟨hf.parsed.tail, hf.every.tail⟩
      (fun hl p he => hext hl p (List.mem_cons_of_mem _ he)) h1 ?_) ?_
    · intro hh
      apply h2
      have := hf.parsed.1.1
      cases hx : isLitNode n with
      | false => rfl
      | true => exact absurd ⟨hx, hh⟩ this
    · rintro ⟨s2, g2⟩ h3
      exact h3

end

theorem handle_calm {I : GenInput} (hI : ∀ p c, assoc I.contexts p = some c → FineCtx I c) : (fuel : Nat) →
    RecCalm I (handle I fuel)
  | 0 => by intro H ctx nodes level g _ _ _ _ _ h; cases h
  | fuel + 1 => by
    intro H ctx nodes level g hH hc hn hext hg
    unfold handle
    refine Sat.bind (nodes_calm hI (handle_calm hI fuel) hH hc nodes hn hext hg.toTame (fun _ => hg.ws)) ?_
    rintro ⟨s, g1⟩ h1
    have : Sat (fun x => Tame H x.2) (handleEnd I level g1) := by
      unfold handleEnd
      split
      · dsimp only
        split
        · exact ((h1.flushWs I _).toTame.writeBuf I).mono fun _ hx => hx.1
        · exact (h1.writeBuf I).mono fun _ hx => hx.1
      · exact h1
    refine Sat.bind this ?_
    rintro ⟨s2, g2⟩ h2
    exact h2

theorem generate_calm {I : GenInput} (hI : ∀ p c, assoc I.contexts p = some c → FineCtx I c) {fuel : Nat} (hf : fuel ≤ 29)
    {H : Option Heritage} {ctx : Ctx} (hs : Sane I H (rootOf H ctx)) : Calm (generate I fuel H ctx) := by
  unfold generate
  have h0 : Quiet H (Gen.new I .empty 2 false) := ⟨⟨by simp [Gen.new], by simp [Gen.new]⟩, rfl⟩
  refine Sat.bind (P := fun x => Gen.handle I fuel H (rootOf H ctx) (rootOf H ctx).nodes .top (Gen.new I .empty 2 false) = .ok x)
    ((handle_calm hI fuel H (rootOf H ctx) (rootOf H ctx).nodes .top _ hs.h hs.macros hs.nodes (fun _ => hs.root) h0).also.mono
      fun _ h => h.2) ?_
  rintro ⟨s, g⟩ hg
  dsimp only
  rw [Gen.handle_shallow hf hg]
  have hcl : ∀ g : Gen, Calm g.closeLine := by
    intro g
    unfold Gen.closeLine Gen.dedent
    repeat' split
    all_goals first | exact sat_err | trivial
  exact Calm.bind (hcl g) fun g2 => Calm.bind (hcl g2) fun _ => trivial

/-! ## Loaded templates -/

/-- The block is in the map, or in a list that is going to be searched. -/
def Found (st : CtxSt) (m : Node) : Prop :=
  ∀ w1 name ns w2, m = .blockDef w1 name ns w2 →
    (assoc st.blocks name).isSome = true ∨ ∃ l ∈ st.nested, m ∈ partsL l

/-- No blocks in the macros. -/
def BareMacros (st : CtxSt) : Prop := ∀ e ∈ st.macros, ∀ m ∈ partsL e.2.nodes, notBlock m = true

theorem ctxNested_mem {n m : Node} (hm : m ∈ parts n) (hp : blocksPlaced n = true) (hb : notBlock m = false) :
    m = n ∨ ∃ l ∈ ctxNested n, m ∈ partsL l := by
  have none : ∀ {ns : List Node}, (partsL ns).all notBlock = true → m ∈ partsL ns → False := by
    intro ns h1 h2
    rw [List.all_eq_true.mp h1 m h2] at hb; cases hb
  have cond : ∀ cs : List Cond, m ∈ partsC cs → ∃ l ∈ cs.map Cond.nodes, m ∈ partsL l := by
    intro cs
    induction cs with
    | nil => intro h; cases h
    | cons c cs ih =>
      obtain ⟨w, c, ns⟩ := c
      intro h
      simp only [partsC, List.mem_append] at h
      rcases h with h | h
      · exact ⟨ns, by simp [Cond.nodes], h⟩
      · obtain ⟨l, h1, h2⟩ := ih h
        exact ⟨l, List.mem_cons_of_mem _ h1, h2⟩
  have arms : ∀ cs : List When, m ∈ partsW cs → ∃ l ∈ cs.map When.nodes, m ∈ partsL l := by
    intro cs
    induction cs with
    | nil => intro h; cases h
    | cons c cs ih =>
      obtain ⟨w, c, ns⟩ := c
      intro h
      simp only [partsW, List.mem_append] at h
      rcases h with h | h
      · exact ⟨ns, by simp [When.nodes], h⟩
      · obtain ⟨l, h1, h2⟩ := ih h
        exact ⟨l, List.mem_cons_of_mem _ h1, h2⟩
  cases n with
  | if_ w bs =>
    simp only [parts, List.mem_cons] at hm
    rcases hm with hm | hm
    · exact .inl hm
    · obtain ⟨l, h1, h2⟩ := cond bs hm
      exact .inr ⟨l, by simpa [ctxNested] using h1, h2⟩
  | match_ w e as w2 =>
    simp only [parts, List.mem_cons] at hm
    rcases hm with hm | hm
    · exact .inl hm
    · obtain ⟨l, h1, h2⟩ := arms as hm
      exact .inr ⟨l, by simpa [ctxNested] using h1, h2⟩
  | loop w1 t it c body w2 els w3 =>
    simp only [parts, List.mem_cons, List.mem_append] at hm
    rcases hm with hm | hm | hm
    · exact .inl hm
    · exact .inr ⟨body, by simp [ctxNested], hm⟩
    · exact .inr ⟨els, by simp [ctxNested], hm⟩
  | blockDef w1 name ns w2 =>
    simp only [parts, List.mem_cons] at hm
    rcases hm with hm | hm
    · exact .inl hm
    · exact .inr ⟨ns, by simp [ctxNested], hm⟩
  | «macro» w1 name args ns w2 =>
    simp only [parts, List.mem_cons] at hm
    rcases hm with hm | hm
    · exact .inl hm
    · exact (none hp hm).elim
  | filterBlock w1 f ns w2 =>
    simp only [parts, List.mem_cons] at hm
    rcases hm with hm | hm
    · exact .inl hm
    · exact (none hp hm).elim
  | _ => exact .inl (by simpa [parts] using hm)

theorem ctxNode_found {find : Str → Option Str} {top : Bool} {st st' : CtxSt} {n : Node}
    (h : ctxNode find top st n = .ok st') (hp : blocksPlaced n = true) (hb : BareMacros st) :
    BareMacros st' ∧ (∀ m, Found st m → Found st' m) ∧ ∀ m ∈ parts n, Found st' m := by
  have same : ∀ {s1 s2 : CtxSt}, s1.blocks = s2.blocks → s1.nested = s2.nested → ∀ m, Found s1 m → Found s2 m := by
    intro s1 s2 h1 h2 m hf w1 name ns w2 hm
    rw [← h1, ← h2]; exact hf w1 name ns w2 hm
  have grow : ∀ ls, ∀ m, Found st m → Found { st with nested := ls ++ st.nested } m := by
    intro ls m hf w1 name ns w2 hm
    rcases hf w1 name ns w2 hm with h1 | ⟨l, h1, h2⟩
    · exact .inl h1
    · exact .inr ⟨l, List.mem_append.mpr (.inr h1), h2⟩
  have inner : ∀ st2 : CtxSt, (∀ l ∈ ctxNested n, l ∈ st2.nested) → ∀ m ∈ parts n, m ≠ n → Found st2 m := by
    intro st2 h2 m hm hne w1 name ns w2 he
    rcases ctxNested_mem hm hp (by rw [he]; rfl) with h3 | ⟨l, h3, h4⟩
    · exact absurd h3 hne
    · exact .inr ⟨l, h2 l h3, h4⟩
  have other : notBlock n = true → ∀ st2, Found st2 n := by
    intro hn st2 w1 name ns w2 he
    rw [he] at hn; cases hn
  cases n with
  | extends_ p =>
    simp only [ctxNode] at h
    repeat' split at h
    all_goals cases h
    refine ⟨hb, same rfl rfl, ?_⟩
    intro m hm
    rw [show m = .extends_ p by simpa [parts] using hm]
    exact other rfl _
  | import_ w p s =>
    simp only [ctxNode] at h
    repeat' split at h
    all_goals cases h
    refine ⟨hb, same rfl rfl, ?_⟩
    intro m hm
    rw [show m = .import_ w p s by simpa [parts] using hm]
    exact other rfl _
  | «macro» w1 name args ns w2 =>
    simp only [ctxNode] at h
    split at h
    · cases h
      refine ⟨?_, same rfl rfl, ?_⟩
      · intro e he m hm
        rcases mapInsert_mem he with rfl | he
        · exact List.all_eq_true.mp hp m hm
        · exact hb e he m hm
      · intro m hm w1' name' ns' w2' he
        simp only [parts, List.mem_cons] at hm
        rcases hm with rfl | hm
        · cases he
        · have := List.all_eq_true.mp hp m hm
          rw [he] at this; cases this
    · cases h
  | blockDef w1 name ns w2 =>
    cases h
    refine ⟨hb, ?_, ?_⟩
    · intro m hf w1' name' ns' w2' he
      rcases hf w1' name' ns' w2' he with h1 | ⟨l, h1, h2⟩
      · refine .inl ?_
        dsimp only
        rw [assoc_mapInsert]
        split
        · rfl
        · exact h1
      · exact .inr ⟨l, List.mem_append.mpr (.inr h1), h2⟩
    · intro m hm
      by_cases hne : m = .blockDef w1 name ns w2
      · intro w1' name' ns' w2' he
        rw [hne] at he
        cases he
        refine .inl ?_
        dsimp only
        rw [assoc_mapInsert, if_pos rfl]; rfl
      · refine inner _ ?_ m hm hne
        intro l hl
        simp only [ctxNested, List.mem_singleton] at hl
        simp [hl]
  | _ =>
    cases h
    refine ⟨hb, grow _, ?_⟩
    intro m hm
    refine Classical.byCases (fun hne : m = _ => ?_) (fun hne => inner _ (fun l hl => by simp [hl]) m hm hne)
    rw [hne]
    exact other rfl _

theorem ctxNodes_found {find : Str → Option Str} {top : Bool} : (ns : List Node) → {st st' : CtxSt} →
    ctxNodes find top ns st = .ok st' → Every (fun n => blocksPlaced n = true) ns → BareMacros st →
    BareMacros st' ∧ (∀ m, Found st m → Found st' m) ∧ ∀ m ∈ partsL ns, Found st' m
  | [], _, _, h, _, hb => by cases h; exact ⟨hb, fun _ h => h, by simp [partsL]⟩
  | n :: ns, _, _, h, hp, hb => by
    unfold ctxNodes at h
    obtain ⟨st1, h1, h⟩ := except_bind h
    have hpn : blocksPlaced n = true := hp.head n (by cases n <;> simp [parts])
    obtain ⟨a1, a2, a3⟩ := ctxNode_found h1 hpn hb
    obtain ⟨b1, b2, b3⟩ := ctxNodes_found ns h hp.tail a1
    refine ⟨b1, fun m hm => b2 m (a2 m hm), ?_⟩
    intro m hm
    simp only [partsL, List.mem_append] at hm
    rcases hm with hm | hm
    · exact b2 m (a3 m hm)
    · exact b3 m hm

theorem ctxLoop_found {find : Str → Option Str} : (fuel : Nat) → {top : Bool} → {st st' : CtxSt} →
    ctxLoop find fuel top st = .ok st' → CtxStOk (fun n => blocksPlaced n = true) st → BareMacros st →
    BareMacros st' ∧ st'.nested = [] ∧ ∀ m, Found st m → Found st' m
  | fuel, top, st, st', h, hs, hb => by
    unfold ctxLoop at h
    split at h
    · rename_i hn
      cases h; exact ⟨hb, hn, fun _ h => h⟩
    · rename_i ns rest hn
      cases fuel with
      | zero => cases h
      | succ fuel =>
        dsimp only at h
        obtain ⟨st1, h1, h⟩ := except_bind h
        have hns := hs.nested ns (by rw [hn]; simp)
        have hs1 : CtxStOk (fun n => blocksPlaced n = true) { st with nested := rest } :=
          ⟨hs.blocks, hs.macros, fun l hl => hs.nested l (by rw [hn]; exact List.mem_cons_of_mem _ hl)⟩
        obtain ⟨a1, a2, a3⟩ := ctxNodes_found ns h1 hns hb
        obtain ⟨b1, b2, b3⟩ := ctxLoop_found fuel h (ctxNodes_parts ns h1 hns hs1) a1
        refine ⟨b1, b2, ?_⟩
        intro m hm
        apply b3
        intro w1 name bs w2 he
        rcases hm w1 name bs w2 he with h2 | ⟨l, h2, h3⟩
        · exact a2 m (fun _ name' _ _ he' => by rw [he] at he'; cases he'; exact .inl h2) w1 name bs w2 he
        · rw [hn] at h2
          rcases List.mem_cons.mp h2 with rfl | h2
          · exact a3 m h3 w1 name bs w2 he
          · exact a2 m (fun _ _ _ _ _ => .inr ⟨l, h2, h3⟩) w1 name bs w2 he

/-- All blocks of a template are collected. -/
theorem contextNew_found {find : Str → Option Str} {nodes : List Node} {c : Ctx} (h : contextNew find nodes = .ok c)
    (hp : Every (fun n => blocksPlaced n = true) nodes) :
    (∀ w1 name ns w2, .blockDef w1 name ns w2 ∈ partsL nodes → (assoc c.blocks name).isSome = true)
    ∧ ∀ e ∈ c.macros, ∀ m ∈ partsL e.2.nodes, notBlock m = true := by
  unfold contextNew at h
  obtain ⟨st, h1, h⟩ := except_bind h
  cases h
  obtain ⟨a1, a2, a3⟩ := ctxLoop_found _ h1 ⟨by simp, by simp, by simpa using hp⟩ (by intro e he; cases he)
  refine ⟨?_, a1⟩
  intro w1 name ns w2 hm
  rcases a3 _ (fun _ _ _ _ _ => .inr ⟨nodes, by simp, hm⟩) w1 name ns w2 rfl with h2 | ⟨l, h2, -⟩
  · exact h2
  · rw [a2] at h2; cases h2

theorem contextNew_fine {I : GenInput} {find : Str → Option Str} {nodes : List Node} {c : Ctx}
    (h : contextNew find nodes = .ok c) (hn : ParsedList nodes) (hp : Every (fun n => blocksPlaced n = true) nodes)
    (hi : Every (fun n => includeLoaded I n = true) nodes)
    (hq : ∀ q, c.extends_ = some q → (assoc I.contexts q).isSome = true) : FineCtx I c := by
  have hb := contextNew_blocks h
  obtain ⟨f1, f2⟩ := contextNew_found h hp
  have hin := contextNew_parts (P := fun n => n ∈ partsL nodes) h (fun _ h => h)
  have hinc := contextNew_parts h hi
  unfold contextNew at h
  obtain ⟨st, h1, h⟩ := except_bind h
  cases h
  have h2 := ctxLoop_parsed _ h1 ⟨by simp, by simp, fun ns hns => by rw [List.mem_singleton.mp hns]; exact hn⟩
  refine ⟨hb, ?_, ?_, ?_, fun he => (ctxLoop_extends _ h1 he).2 nodes [] rfl, hq⟩
  · intro H hH
    refine ⟨hn, fun m hm => ⟨hi m hm, ?_⟩⟩
    rintro h w1 name ns w2 rfl rfl
    exact hH h name rfl (f1 _ _ _ _ hm)
  · intro H hH e he
    refine ⟨h2.blocks e he, fun m hm => ⟨hinc.blocks e he m hm, ?_⟩⟩
    rintro h w1 name ns w2 rfl rfl
    exact hH h name rfl (f1 _ _ _ _ (hin.blocks e he _ hm))
  · intro e he H
    refine ⟨h2.macros e he, fun m hm => ⟨hinc.macros e he m hm, ?_⟩⟩
    rintro h w1 name ns w2 rfl rfl
    have := f2 e he _ hm
    cases this

/-! ## Loading -/

/-- Every reference of a template that has been visited has an entry. -/
def RefsDone (ld : Loader) (st : UseSt) : Prop :=
  ∀ p nodes, assoc st.map p = some nodes → (∃ s, (p, s) ∈ st.check) ∨
    ∀ r ∈ refsOfL true nodes, ∃ q, ld.find p r = some q ∧ Known st.map q

theorem useTemplate_refs {ld : Loader} {path s : Str} {st st' : UseSt} {rest : List (Str × Str)}
    (hc : st.check = (path, s) :: rest) (inv : RefsDone ld st)
    (h : useTemplate ld path s { st with check := rest } = .ok st') : RefsDone ld st' := by
  unfold useTemplate at h
  split at h
  · cases h
  · rename_i nodes hp
    obtain ⟨st1, h1, h⟩ := except_bind h
    cases h
    obtain ⟨g, k⟩ := useLoop_grow _ h1 (R := refsOfL true nodes) (by simp [stackRefs])
    intro p ns hk
    dsimp only at hk ⊢
    rw [assoc_cons] at hk
    split at hk
    · rename_i hpath
      subst hpath
      cases hk
      right
      intro r hrn
      obtain ⟨q, hq, hkq⟩ := k r hrn
      exact ⟨q, hq, known_cons.mpr (.inr hkq)⟩
    · rename_i hpath
      have hk1 : Known st1.map p := by unfold Known; rw [hk]; rfl
      rcases g.new p hk1 with h2 | ⟨-, h2⟩
      · have h3 := g.keep p h2
        rw [hk] at h3
        rcases inv p ns h3.symm with ⟨s', hs'⟩ | hd
        · left
          rw [hc] at hs'
          rcases List.mem_cons.mp hs' with hs' | hs'
          · cases hs'; exact absurd rfl hpath
          · exact ⟨s', g.old _ hs'⟩
        · right
          intro r hrn
          obtain ⟨q, hq, hkq⟩ := hd r hrn
          exact ⟨q, hq, known_cons.mpr (.inr (g.known hkq))⟩
      · exact .inl h2

theorem checkLoop_refs {ld : Loader} : (fuel : Nat) → {st : UseSt} → {m : List (Str × List Node)} → RefsDone ld st →
    checkLoop ld fuel st = .ok m →
    ∀ p nodes, assoc m p = some nodes → ∀ r ∈ refsOfL true nodes, ∃ q, ld.find p r = some q ∧ Known m q
  | fuel, st, m, inv, h => by
    unfold checkLoop at h
    cases hc : st.check with
    | nil =>
      rw [hc] at h; cases h
      intro p nodes hp
      rcases inv p nodes hp with ⟨s, hs⟩ | h
      · rw [hc] at hs; cases hs
      · exact h
    | cons e rest =>
      obtain ⟨path, s⟩ := e
      rw [hc] at h
      cases fuel with
      | zero => cases h
      | succ fuel =>
        obtain ⟨st1, h1, h⟩ := except_bind h
        exact checkLoop_refs fuel (useTemplate_refs hc inv h1) h

theorem checkLoop_main {ld : Loader} {main : Str} : (fuel : Nat) → {st : UseSt} → {m : List (Str × List Node)} →
    (Known st.map main ∨ ∃ s, (main, s) ∈ st.check) → checkLoop ld fuel st = .ok m → Known m main
  | fuel, st, m, inv, h => by
    unfold checkLoop at h
    cases hc : st.check with
    | nil =>
      rw [hc] at h inv; cases h
      rcases inv with h | ⟨s, hs⟩
      · exact h
      · cases hs
    | cons e rest =>
      obtain ⟨path, s⟩ := e
      rw [hc] at h inv
      cases fuel with
      | zero => cases h
      | succ fuel =>
        obtain ⟨st1, h1, h⟩ := except_bind h
        refine checkLoop_main fuel ?_ h
        unfold useTemplate at h1
        split at h1
        · cases h1
        · rename_i nodes hp
          obtain ⟨st2, h2, h1⟩ := except_bind h1
          cases h1
          obtain ⟨g, -⟩ := useLoop_grow _ h2 (R := refsOfL true nodes) (by simp [stackRefs])
          rcases inv with h3 | ⟨s', hs'⟩
          · exact .inl (known_cons.mpr (.inr (g.known h3)))
          · rcases List.mem_cons.mp hs' with hs' | hs'
            · cases hs'; exact .inl (known_cons.mpr (.inl rfl))
            · exact .inr ⟨s', g.old _ hs'⟩

theorem checkLoop_calm {ld : Loader} : (fuel : Nat) → (st : UseSt) → Calm (checkLoop ld fuel st)
  | fuel, st => by
    unfold checkLoop
    split
    · trivial
    · cases fuel with
      | zero => intro h; cases h
      | succ fuel =>
        dsimp only
        refine Sat.bind (P := fun _ => True) ?_ fun st1 _ => checkLoop_calm fuel st1
        apply Sat.of
        intro h
        have := useTemplate_error h
        cases this

theorem makeContexts_calm {find : Str → Str → Option Str} : (l : List (Str × List Node)) → Calm (makeContexts find l)
  | [] => trivial
  | (p, ns) :: rest => by
    unfold makeContexts
    refine Calm.bind (Sat.of ?_) fun c => Calm.bind (makeContexts_calm rest) fun _ => trivial
    intro h
    have := contextNew_error h
    cases this

theorem findUsedTemplates_refs {ld : Loader} {fuel : Nat} {main src : Str} {m : List (Str × List Node)}
    (h : findUsedTemplates ld fuel main src = .ok m) :
    (∀ p nodes, assoc m p = some nodes → ∀ r ∈ refsOfL true nodes, ∃ q, ld.find p r = some q ∧ Known m q) ∧ Known m main :=
  ⟨checkLoop_refs fuel (fun _ _ h => by cases h) h, checkLoop_main fuel (.inr ⟨src, by simp⟩) h⟩

theorem makeContexts_known {find : Str → Str → Option Str} {m : List (Str × List Node)} {cs : List (Str × Ctx)}
    (h : makeContexts find (dedupKeys m []) = .ok cs) (p : Str) : (assoc cs p).isSome = (assoc m p).isSome := by
  have h1 : ∀ (l : List (Str × List Node)) (l2 : List (Str × Ctx)), l2.map (·.1) = l.map (·.1) →
      (assoc l2 p).isSome = (assoc l p).isSome := by
    intro l
    induction l with
    | nil => intro l2 h; cases l2 with | nil => rfl | cons => cases h
    | cons e l ih =>
      obtain ⟨k, v⟩ := e
      intro l2 h
      cases l2 with
      | nil => cases h
      | cons e2 l2 =>
        obtain ⟨k2, v2⟩ := e2
        simp only [List.map_cons, List.cons.injEq] at h
        obtain ⟨rfl, h⟩ := h
        rw [assoc_cons, assoc_cons]
        split
        · rfl
        · exact ih l2 h
  rw [h1 _ _ (makeContexts_keys h), assoc_dedup]
  simp

theorem dedup_mem {α : Type} : (m : List (Str × α)) → (seen : List Str) → {e : Str × α} → e ∈ dedupKeys m seen →
    assoc m e.1 = some e.2 ∧ e.1 ∉ seen
  | [], _, _, h => by cases h
  | (k, v) :: rest, seen, e, h => by
    unfold dedupKeys at h
    split at h
    · rename_i hk
      obtain ⟨h1, h2⟩ := dedup_mem rest seen h
      refine ⟨?_, h2⟩
      rw [assoc_cons, if_neg, h1]
      rintro rfl
      exact h2 (by simpa using hk)
    · rename_i hk
      rcases List.mem_cons.mp h with rfl | h
      · exact ⟨by rw [assoc_cons, if_pos rfl], by simpa using hk⟩
      · obtain ⟨h1, h2⟩ := dedup_mem rest _ h
        simp only [List.mem_cons, not_or] at h2
        refine ⟨?_, h2.2⟩
        rw [assoc_cons, if_neg (fun h => h2.1 h.symm), h1]

theorem makeContexts_list {find : Str → Str → Option Str} : (l : List (Str × List Node)) → {cs : List (Str × Ctx)} →
    makeContexts find l = .ok cs → ∀ e ∈ cs, (e.1, e.2.nodes) ∈ l
  | [], _, h, e, he => by cases h; cases he
  | (q, nodes) :: rest, cs, h, e, he => by
    unfold makeContexts at h
    obtain ⟨c1, h1, h⟩ := except_bind h
    obtain ⟨cs1, h2, h⟩ := except_bind h
    cases h
    rcases List.mem_cons.mp he with rfl | he
    · rw [(contextNew_refs h1).2]; exact List.mem_cons_self
    · exact List.mem_cons_of_mem _ (makeContexts_list rest h2 e he)

theorem makeContexts_mem {find : Str → Str → Option Str} {m : List (Str × List Node)} {cs : List (Str × Ctx)}
    (h : makeContexts find (dedupKeys m []) = .ok cs) {e : Str × Ctx} (he : e ∈ cs) :
    ∃ nodes, assoc m e.1 = some nodes ∧ e.2.nodes = nodes :=
  ⟨_, (dedup_mem _ _ (makeContexts_list _ h e he)).1, rfl⟩

/-! ## Includes -/

mutual
theorem include_ref {ws : Ws} {r : Str} : (n : Node) → (top : Bool) → (parts n).tail.all notMacro = true →
    (top = true ∨ notMacro n = true) → .include ws r ∈ parts n → r ∈ refsOf top n
  | .include w p, _, _, _, h => by
    simp only [parts, List.mem_singleton] at h
    cases h; simp [refsOf]
  | .lit _, _, _, _, h => by simp [parts] at h
  | .comment .., _, _, _, h => by simp [parts] at h
  | .expr .., _, _, _, h => by simp [parts] at h
  | .call .., _, _, _, h => by simp [parts] at h
  | .let_ .., _, _, _, h => by simp [parts] at h
  | .raw .., _, _, _, h => by simp [parts] at h
  | .break_ .., _, _, _, h => by simp [parts] at h
  | .continue_ .., _, _, _, h => by simp [parts] at h
  | .extends_ .., _, _, _, h => by simp [parts] at h
  | .import_ .., _, _, _, h => by simp [parts] at h
  | .if_ w bs, _, hm, _, h => by
    simp only [parts, List.tail_cons, List.mem_cons, reduceCtorEq, false_or] at h hm
    rw [refsOf]
    exact include_refC bs hm h
  | .match_ w e as w2, _, hm, _, h => by
    simp only [parts, List.tail_cons, List.mem_cons, reduceCtorEq, false_or] at h hm
    rw [refsOf]
    exact include_refW as hm h
  | .loop w1 t it c body w2 els w3, _, hm, _, h => by
    simp only [parts, List.tail_cons, List.mem_cons, reduceCtorEq, false_or, List.all_append, Bool.and_eq_true,
      List.mem_append] at h hm
    rw [refsOf, List.mem_append]
    rcases h with h | h
    · exact .inl (include_refL body hm.1 h)
    · exact .inr (include_refL els hm.2 h)
  | .blockDef w1 name ns w2, _, hm, _, h => by
    simp only [parts, List.tail_cons, List.mem_cons, reduceCtorEq, false_or] at h hm
    rw [refsOf]
    exact include_refL ns hm h
  | .filterBlock w1 f ns w2, _, hm, _, h => by
    simp only [parts, List.tail_cons, List.mem_cons, reduceCtorEq, false_or] at h hm
    rw [refsOf]
    exact include_refL ns hm h
  | .macro w1 name args ns w2, top, hm, ht, h => by
    simp only [parts, List.tail_cons, List.mem_cons, reduceCtorEq, false_or] at h hm
    rcases ht with rfl | ht
    · rw [refsOf, if_pos rfl]
      exact include_refL ns hm h
    · cases ht
termination_by n => sizeOf n
theorem include_refL {ws : Ws} {r : Str} : (ns : List Node) → (partsL ns).all notMacro = true →
    .include ws r ∈ partsL ns → r ∈ refsOfL false ns
  | [], _, h => by cases h
  | n :: ns, hm, h => by
    simp only [partsL, List.all_append, Bool.and_eq_true, List.mem_append] at h hm
    rw [refsOfL, List.mem_append]
    rcases h with h | h
    · have hn : notMacro n = true ∧ (parts n).tail.all notMacro = true := by
        have h1 := hm.1
        cases n <;> simp only [parts, List.all_cons, Bool.and_eq_true, List.tail_cons] at h1 ⊢ <;> exact h1
      exact .inl (include_ref n false hn.2 (.inr hn.1) h)
    · exact .inr (include_refL ns hm.2 h)
termination_by ns => sizeOf ns
theorem include_refC {ws : Ws} {r : Str} : (cs : List Cond) → (partsC cs).all notMacro = true →
    .include ws r ∈ partsC cs → r ∈ refsOfC cs
  | [], _, h => by cases h
  | .mk w c ns :: cs, hm, h => by
    simp only [partsC, List.all_append, Bool.and_eq_true, List.mem_append] at h hm
    rw [refsOfC, List.mem_append]
    rcases h with h | h
    · exact .inl (include_refL ns hm.1 h)
    · exact .inr (include_refC cs hm.2 h)
termination_by cs => sizeOf cs
theorem include_refW {ws : Ws} {r : Str} : (cs : List When) → (partsW cs).all notMacro = true →
    .include ws r ∈ partsW cs → r ∈ refsOfW cs
  | [], _, h => by cases h
  | .mk w c ns :: cs, hm, h => by
    simp only [partsW, List.all_append, Bool.and_eq_true, List.mem_append] at h hm
    rw [refsOfW, List.mem_append]
    rcases h with h | h
    · exact .inl (include_refL ns hm.1 h)
    · exact .inr (include_refW cs hm.2 h)
termination_by cs => sizeOf cs
end

theorem include_refs {ws : Ws} {r : Str} : (ns : List Node) → (ns.all fun n => (parts n).tail.all notMacro) = true →
    .include ws r ∈ partsL ns → r ∈ refsOfL true ns
  | [], _, h => by cases h
  | n :: ns, hm, h => by
    simp only [List.all_cons, Bool.and_eq_true] at hm
    simp only [partsL, List.mem_append] at h
    rw [refsOfL, List.mem_append]
    rcases h with h | h
    · exact .inl (include_ref n true hm.1 (.inl rfl) h)
    · exact .inr (include_refs ns hm.2 h)

/-! ## Configuration -/

theorem addSyntaxes_calm {isWs : Char → Bool} : (rs : List RawSyntax) → (m : List (Str × Syntax)) → Calm (addSyntaxes isWs rs m)
  | [], _ => trivial
  | r :: rs, m => by
    unfold addSyntaxes
    refine Calm.bind ?_ fun s => ?_
    · unfold RawSyntax.toSyntax
      dsimp only
      split
      · trivial
      · exact sat_err
    · split
      · exact sat_err
      · exact addSyntaxes_calm rs _

theorem config_calm {isWs : Char → Bool} {krate root : Str} {raw : RawConfig} {ws : Option Str} :
    Sat (fun c => (assoc c.syntaxes c.defaultSyntax).isSome = true) (Config.new isWs krate root raw ws) := by
  unfold Config.new
  dsimp only
  refine Sat.bind (P := fun _ => True) ?_ fun w _ => Sat.bind (P := fun _ => True) (addSyntaxes_calm _ _) fun m _ => ?_
  · unfold whitespaceArg
    repeat' split
    all_goals first | trivial | exact sat_err
  · have aux : ∀ (n : Str) (c : Config), c.syntaxes = m → c.defaultSyntax = n →
        Sat (fun c => (assoc c.syntaxes c.defaultSyntax).isSome = true)
          (if (assoc m n).isNone then .error .err else (pure c : Except GErr Config)) := by
      intro n c h1 h2
      split
      · exact sat_err
      · rename_i h
        change (assoc c.syntaxes c.defaultSyntax).isSome = true
        rw [h1, h2]
        cases hm : assoc m n with
        | none => rw [hm] at h; exact absurd rfl h
        | some s => rfl
    exact aux _ _ rfl rfl

end Askama
