import Verif.Lemmas.FieldsEval
import Verif.Lemmas.Woven
import Verif.Lemmas.Accept

/-!
# Generated code reads what the templates name
-/

namespace Askama

open Spec Gen

section
variable {S : Named → Prop} {I : GenInput} {L : Locals}

theorem inS_append {a b : List Stmt} : InS S (a ++ b) ↔ InS S a ∧ InS S b := by
  induction a with
  | nil => simp [InS]
  | cons s a ih => simp [InS, ih, and_assoc]

theorem inS_branchBodies : (bs : List Branch) → InB S bs → InS S (branchBodies bs)
  | [], _ => trivial
  | .mk _ _ :: bs, h => inS_append.2 ⟨h.2.1, inS_branchBodies bs h.2.2⟩

theorem inS_armBodies : (bs : List Arm) → InA S bs → InS S (armBodies bs)
  | [], _ => trivial
  | .mk _ _ :: bs, h => inS_append.2 ⟨h.1, inS_armBodies bs h.2⟩

/-- The texts that names stand for use only this. -/
def LIn (S : Named → Prop) (L : Locals) : Prop :=
  ∀ sc ∈ L.scopes ++ L.parent, ∀ e ∈ sc, ∀ r, e.2.refs = some r → r.In S

theorem LIn.push (h : LIn S L) : LIn S L.push := by
  intro sc hs
  rcases List.mem_cons.1 hs with rfl | hs
  · intro e he; cases he
  · exact h sc hs

theorem LIn.pop (h : LIn S L) : LIn S L.pop := by
  intro sc hs
  refine h sc ?_
  rcases List.mem_append.1 hs with hs | hs
  · exact List.mem_append_left _ (List.mem_of_mem_tail hs)
  · exact List.mem_append_right _ hs

theorem LIn.insert (h : LIn S L) (k : Str) {m : LocalMeta} (hm : ∀ r, m.refs = some r → r.In S) : LIn S (L.insert k m) := by
  unfold MapChain.insert
  cases hs : L.scopes with
  | nil => exact h
  | cons s rest =>
    intro sc hsc
    rcases List.mem_cons.1 hsc with rfl | hsc
    · intro e he
      rcases List.mem_cons.1 he with rfl | he
      · exact hm
      · exact h s (by simp [hs]) e he
    · exact h sc (by simp only [hs]; exact List.mem_cons_of_mem _ hsc)

theorem LIn.withParent (h : LIn S L) : LIn S L.withParent := by
  intro sc hs
  rcases List.mem_cons.1 hs with rfl | hs
  · intro e he; cases he
  · exact h sc hs

theorem LIn.empty : LIn S .empty := by
  intro sc hs
  rcases List.mem_cons.1 hs with rfl | hs
  · intro e he; cases he
  · cases hs

theorem LIn.get (h : LIn S L) {k : Str} {m : LocalMeta} (hm : L.get k = some m) : ∀ r, m.refs = some r → r.In S := by
  have key : ∀ l : List (Scope LocalMeta), (∀ sc ∈ l, ∀ e ∈ sc, ∀ r, e.2.refs = some r → r.In S) →
      l.findSome? (fun s => s.get k) = some m → ∀ r, m.refs = some r → r.In S := by
    intro l hl hf
    obtain ⟨sc, h1, h2⟩ := List.exists_of_findSome?_eq_some hf
    unfold Scope.get at h2
    rw [Option.map_eq_some_iff] at h2
    obtain ⟨e, h3, rfl⟩ := h2
    exact hl sc h1 e (List.mem_of_find?_eq_some h3)
  unfold MapChain.get at hm
  split at hm
  · rename_i v hv
    cases hm
    exact key _ (fun sc hs => h sc (List.mem_append_left _ hs)) hv
  · exact key _ (fun sc hs => h sc (List.mem_append_right _ hs)) hm

theorem LIn.resolve (h : LIn S L) {x : Str} {r : RExpr} (hr : L.resolve x = some r) : r.In S := by
  unfold Locals.resolve at hr
  rw [Option.map_eq_some_iff] at hr
  obtain ⟨m, h1, rfl⟩ := hr
  split
  · rename_i e he; exact h.get h1 _ he
  · trivial

theorem LIn.resolveOrSelf (h : LIn S L) {x : Str} (hx : S (.field (rawIdent x))) : (L.resolveOrSelf x).In S := by
  show ((L.resolve (normalizeIdentifier x)).getD (.field (normalizeIdentifier x))).In S
  have hn : normalizeIdentifier x = rawIdent x := normalizeIdentifier_eq x
  cases hr : L.resolve (normalizeIdentifier x) with
  | none => rw [hn]; exact hx
  | some r => exact h.resolve hr

/-! ## Expressions -/

/-- Whoever sees all of `self` sees every field. -/
def Whole (S : Named → Prop) : Prop := S .self_ → ∀ n, S (.field n)

theorem visitList_in_of : (es : List Expr) → (∀ a ∈ es, ∀ r w, visitExpr I L a = .ok (r, w) → r.In S) → {rs : List RExpr} →
    visitList I L es = .ok rs → InL S rs
  | [], _, _, h => by simp only [visitList] at h; cases h; trivial
  | e :: es, hl, _, h => by
    simp only [visitList] at h
    obtain ⟨⟨r, w⟩, h1, h⟩ := except_bind h
    obtain ⟨rs, h2, h⟩ := except_bind h
    cases h
    rw [List.forall_mem_cons] at hl
    exact ⟨hl.1 r w h1, visitList_in_of es hl.2 h2⟩

theorem filterNamed_json {name : Str} (h : name = c!"json" ∨ name = c!"tojson") : filterNamed name = [.filter true c!"json"] := by
  rcases h with rfl | rfl <;> decide +kernel

theorem filterNamed_other {name : Str} (h1 : name ≠ c!"as_ref") (h2 : name ≠ c!"deref") (h3 : ¬ (name = c!"escape" ∨ name = c!"e"))
    (h4 : name ≠ c!"fmt") (h5 : name ≠ c!"format") (h6 : name ≠ c!"join") (h7 : ¬ (name = c!"json" ∨ name = c!"tojson"))
    (h8 : name ≠ c!"safe") : filterNamed name = [.filter (builtInFilters.contains name) name] := by
  rw [not_or] at h3 h7
  have hl : filtersOfTheLanguage.contains name = false := by
    simp only [filtersOfTheLanguage, List.contains_cons, List.contains_nil, Bool.or_eq_false_iff, beq_eq_false_iff_ne]
    exact ⟨h1, h2, h3.1, h3.2, h8, h4, h5, h6, trivial⟩
  have hb : builtInFilters.contains name = filtersOfAskama.contains name := by
    have e1 : (name == c!"escape") = false := beq_eq_false_iff_ne.2 h3.1
    have e2 : (name == c!"e") = false := beq_eq_false_iff_ne.2 h3.2
    have e3 : (name == c!"fmt") = false := beq_eq_false_iff_ne.2 h4
    have e4 : (name == c!"format") = false := beq_eq_false_iff_ne.2 h5
    have e5 : (name == c!"join") = false := beq_eq_false_iff_ne.2 h6
    have e6 : (name == c!"json") = false := beq_eq_false_iff_ne.2 h7.1
    have e7 : (name == c!"safe") = false := beq_eq_false_iff_ne.2 h8
    simp only [builtInFilters, filtersOfAskama, List.contains_cons, List.contains_nil, e1, e2, e3, e4, e5, e6, e7,
      Bool.false_or, Bool.or_false]
  simp only [filterNamed, hl, hb, not_or.2 h7, if_false, Bool.false_eq_true]

theorem filter_in {name : Str} {args : List Expr} (hn : ∀ x ∈ filterNamed name, S x)
    (hl : ∀ a ∈ args, ∀ r w, visitExpr I L a = .ok (r, w) → r.In S)
    {r : RExpr} {w : Bool} (h : visitExpr I L (.filter name args) = .ok (r, w)) : r.In S := by
  unfold visitExpr at h
  repeat' split at h
  all_goals first
    | (cases h; done)
    | (obtain ⟨⟨r1, w1⟩, h1, h⟩ := except_bind h; cases h
       simp only [RExpr.In, InL, and_true]
       exact hl _ (by simp) _ _ h1)
    | (obtain ⟨⟨r1, w1⟩, h1, h⟩ := except_bind h; cases h
       simp only [RExpr.In, InL, and_true]
       refine ⟨?_, hl _ (by simp) _ _ h1⟩
       rw [filterNamed_json (by assumption)] at hn
       exact hn _ (List.mem_cons_self ..))
    | (obtain ⟨rs, h1, h⟩ := except_bind h; cases h
       simp only [RExpr.In]
       exact visitList_in_of _ hl h1)
    | (obtain ⟨rs, h1, h⟩ := except_bind h; cases h
       simp only [RExpr.In]
       exact visitList_in_of _ (fun a ha => hl a (List.mem_cons_of_mem _ ha)) h1)
    | (obtain ⟨rs, h1, h⟩ := except_bind h; cases h
       simp only [RExpr.In]
       refine ⟨?_, visitList_in_of _ hl h1⟩
       rw [filterNamed_other (by assumption) (by assumption) (by assumption) (by assumption) (by assumption) (by assumption)
         (by assumption) (by assumption)] at hn
       exact hn _ (List.mem_cons_self ..))

theorem varAttr_in (hL : LIn S L) {x a : Str} (hx : x ≠ c!"loop") (h : ∀ y ∈ reads (.attr (.var x) a), S y) :
    (varAttr L x (normalizeIdentifier a)).In S := by
  have hn : normalizeIdentifier a = rawIdent a := normalizeIdentifier_eq a
  unfold varAttr
  unfold reads at h
  split
  · rename_i hx
    simp only [hx, if_true, List.mem_singleton, forall_eq] at h
    simpa only [RExpr.In, hn] using h
  · rename_i hs
    simp only [hs, hx, if_false, List.mem_singleton, forall_eq] at h
    exact hL.resolveOrSelf h

mutual
theorem visit_in (hS : Whole S) (hL : LIn S L) : (e : Expr) → (∀ x ∈ reads e, S x) → ∀ r w, visitExpr I L e = .ok (r, w) → r.In S
  | .boolLit _, _, r, w, h | .numLit _, _, r, w, h | .strLit _, _, r, w, h | .charLit _, _, r, w, h | .generated _, _, r, w, h => by
    simp only [visitExpr] at h; cases h; trivial
  | .path _, hx, r, w, h | .rustMacro _ _, hx, r, w, h => by
    simp only [visitExpr] at h; cases h
    simp only [reads, List.mem_singleton, forall_eq] at hx
    exact hx
  | .var x, hx, r, w, h => by
    simp only [visitExpr] at h; cases h
    unfold reads at hx
    split
    · rename_i he
      simp only [he, if_true, List.mem_singleton, forall_eq] at hx
      exact hx
    · rename_i he
      simp only [he, if_false, List.mem_singleton, forall_eq] at hx
      exact hL.resolveOrSelf hx
  | .array es, hx, r, w, h | .tuple es, hx, r, w, h => by
    simp only [visitExpr] at h
    obtain ⟨rs, h1, h⟩ := except_bind h
    cases h
    simp only [reads] at hx
    exact visitList_in_of es (visitAll_in hS hL es hx) h1
  | .attr e a, hx, r, w, h => by
    cases e with
    | var x =>
      simp only [visitExpr] at h
      split at h
      · repeat' split at h
        all_goals first | (cases h; trivial) | cases h
      · rename_i hl
        cases h
        exact varAttr_in hL hl hx
    | _ =>
      unfold visitExpr at h
      obtain ⟨⟨r1, w1⟩, h1, h⟩ := except_bind h
      cases h
      exact visit_in hS hL _ (by simpa only [reads] using hx) r1 w1 h1
  | .index a b, hx, r, w, h | .binop _ a b, hx, r, w, h => by
    simp only [visitExpr] at h
    obtain ⟨⟨r1, w1⟩, h1, h⟩ := except_bind h
    obtain ⟨⟨r2, w2⟩, h2, h⟩ := except_bind h
    cases h
    simp only [reads, List.mem_append, or_imp, forall_and] at hx
    exact ⟨visit_in hS hL a hx.1 r1 w1 h1, visit_in hS hL b hx.2 r2 w2 h2⟩
  | .range _ a b, hx, r, w, h => by
    simp only [visitExpr] at h
    obtain ⟨r1, h1, h⟩ := except_bind h
    obtain ⟨r2, h2, h⟩ := except_bind h
    cases h
    simp only [reads, List.mem_append, or_imp, forall_and] at hx
    exact ⟨visitOpt_in hS hL a hx.1 r1 h1, visitOpt_in hS hL b hx.2 r2 h2⟩
  | .filter name es, hx, r, w, h => by
    simp only [reads, List.mem_append, or_imp, forall_and] at hx
    exact filter_in hx.1 (visitAll_in hS hL es hx.2) h
  | .namedArg _ e, hx, r, w, h => by
    simp only [visitExpr] at h
    obtain ⟨⟨r1, w1⟩, h1, h⟩ := except_bind h
    cases h
    exact visit_in hS hL e (by simpa only [reads] using hx) r1 w1 h1
  | .unary _ e, hx, r, w, h | .group e, hx, r, w, h | .try_ e, hx, r, w, h => by
    simp only [visitExpr] at h
    obtain ⟨⟨r1, w1⟩, h1, h⟩ := except_bind h
    cases h
    exact visit_in hS hL e (by simpa only [reads] using hx) r1 w1 h1
  | .call f args, hx, r, w, h => by
    rw [reads] at hx
    simp only [List.mem_append, or_imp, forall_and] at hx
    have ha := visitAll_in hS hL args hx.2
    have hf := visit_in hS hL f hx.1
    have key : ∀ r w, (do
        let (r, _) ← visitExpr I L f
        let rs ← visitList I L args
        return (.call r rs, false) : Except GErr (RExpr × Bool)) = .ok (r, w) → r.In S := by
      intro r w h
      obtain ⟨⟨r1, w1⟩, h1, h⟩ := except_bind h
      obtain ⟨rs, h2, h⟩ := except_bind h
      cases h
      exact ⟨hf r1 w1 h1, visitList_in_of args ha h2⟩
    cases f with
    | var x =>
      unfold visitExpr at h
      obtain ⟨rs, h2, h⟩ := except_bind h
      cases h
      refine ⟨?_, visitList_in_of args ha h2⟩
      cases hr : L.resolve x with
      | some r => exact hL.resolve hr
      | none =>
        have hn : normalizeIdentifier x = rawIdent x := normalizeIdentifier_eq x
        simp only [Option.getD_none, RExpr.In, hn]
        have hx := hx.1
        unfold reads at hx
        by_cases he : x = c!"self"
        · simp only [he, if_true, List.mem_singleton, forall_eq] at hx
          exact hS hx _
        · simp only [he, if_false, List.mem_singleton, forall_eq] at hx
          exact hx
    | attr o m =>
      cases o with
      | var x =>
        unfold visitExpr at h
        split at h
        · split at h
          · split at h
            · split at h
              · cases h
              · obtain ⟨⟨r1, w1⟩, h1, h⟩ := except_bind h
                cases h
                exact ha _ (by simp) r1 w1 h1
            · cases h
          · cases h
        · rename_i hl
          obtain ⟨rs, h2, h⟩ := except_bind h
          cases h
          exact ⟨varAttr_in hL hl hx.1, visitList_in_of args ha h2⟩
      | _ => unfold visitExpr at h; exact key r w h
    | _ => unfold visitExpr at h; exact key r w h
  termination_by e => sizeOf e
theorem visitAll_in (hS : Whole S) (hL : LIn S L) : (es : List Expr) → (∀ x ∈ readsL es, S x) →
    ∀ a ∈ es, ∀ r w, visitExpr I L a = .ok (r, w) → r.In S
  | [], _ => by simp
  | e :: es, hx => by
    simp only [readsL, List.mem_append, or_imp, forall_and] at hx
    exact List.forall_mem_cons.mpr ⟨visit_in hS hL e hx.1, visitAll_in hS hL es hx.2⟩
  termination_by es => sizeOf es
theorem visitOpt_in (hS : Whole S) (hL : LIn S L) : (o : Option Expr) → (∀ x ∈ readsO o, S x) → ∀ r, visitOpt I L o = .ok r → InO S r
  | none, _, r, h => by simp only [visitOpt] at h; cases h; trivial
  | some e, hx, r, h => by
    simp only [visitOpt] at h
    obtain ⟨⟨r1, w1⟩, h1, h⟩ := except_bind h
    cases h
    exact visit_in hS hL e (by simpa only [readsO] using hx) r1 w1 h1
  termination_by o => sizeOf o
end

/-! ## Pending output -/

/-- Pending output uses only this. -/
def WIn (S : Named → Prop) : Writable → Prop
  | .lit _ => True
  | .expr e => ∀ x ∈ reads e, S x
  | .generated r _ => r.In S

/-- What is known of the generator's state. -/
structure RIn (S : Named → Prop) (g : Gen) : Prop where
  pend : ∀ w ∈ g.pend, WIn S w
  loc : LIn S g.locals

theorem RIn.of {g g' : Gen} (h : RIn S g) (h1 : g'.pend = g.pend) (h2 : g'.locals = g.locals) : RIn S g' :=
  ⟨by rw [h1]; exact h.pend, by rw [h2]; exact h.loc⟩

theorem RIn.withLocals {g : Gen} (h : RIn S g) (hL : LIn S L) : RIn S { g with locals := L } := ⟨h.pend, hL⟩

theorem RIn.enter {g : Gen} (h : RIn S g) : RIn S { g with locals := g.locals.push } := h.withLocals h.loc.push

theorem RIn.leave {g : Gen} (h : RIn S g) : RIn S { g with locals := g.locals.pop } := h.withLocals h.loc.pop

theorem declare_in {g : Gen} (h : RIn S g) (t : Target) (b : Bool) : RIn S (declare g t b) := by
  refine h.withLocals ?_
  have hl := h.loc
  generalize g.locals = L at hl
  generalize t.names = ns
  induction ns generalizing L with
  | nil => exact hl
  | cons n ns ih => exact ih _ (hl.insert n fun r hr => by cases hr)

theorem emit_in {g : Gen} {s : List Stmt} (h : InS S s) : InS S (g.emit s) := by
  unfold Gen.emit
  split
  · trivial
  · exact h

theorem wrap_in {g : Gen} {f : List Stmt → Stmt} {b : List Stmt} (h : InS S b) (hf : (f b).In S) : InS S (g.wrap f b) := by
  unfold Gen.wrap
  split
  · exact h
  · exact ⟨hf, trivial⟩

theorem namedExpression_in {st : FmtSt} {r : RExpr} {w c : Bool} (h : ∀ a ∈ st.args, a.expr.In S) (hr : r.In S) :
    ∀ a ∈ (namedExpression I st r w c).args, a.expr.In S := by
  unfold namedExpression
  dsimp only
  split
  · exact h
  · intro a ha
    rcases List.mem_append.1 ha with ha | ha
    · exact h a ha
    · rw [List.mem_singleton] at ha; subst ha; exact hr

theorem formatLoop_in (hS : Whole S) (hL : LIn S L) : (ws : List Writable) → (∀ w ∈ ws, WIn S w) → {st st' : FmtSt} →
    (∀ a ∈ st.args, a.expr.In S) → formatLoop I L ws st = .ok st' → ∀ a ∈ st'.args, a.expr.In S
  | [], _, st, st', h, hr => by unfold formatLoop at hr; cases hr; exact h
  | .lit s :: ws, hw, st, st', h, hr => by
    rw [formatLoop] at hr
    exact formatLoop_in hS hL ws (List.forall_mem_cons.1 hw).2 (by exact h) hr
  | .expr e :: ws, hw, st, st', h, hr => by
    rw [formatLoop] at hr
    rw [List.forall_mem_cons] at hw
    obtain ⟨⟨r, w⟩, h1, hr⟩ := except_bind hr
    exact formatLoop_in hS hL ws hw.2 (namedExpression_in h (visit_in hS hL e hw.1 r w h1)) hr
  | .generated r w :: ws, hw, st, st', h, hr => by
    rw [formatLoop] at hr
    rw [List.forall_mem_cons] at hw
    exact formatLoop_in hS hL ws hw.2 (namedExpression_in h hw.1) hr

/-- The pieces of a format string use only this. -/
def PartsIn (S : Named → Prop) : Parts → Prop
  | .formatted _ args => ∀ a ∈ args, a.expr.In S
  | _ => True

theorem prepareFormat_in (hS : Whole S) {g g' : Gen} {p : Parts} (hg : RIn S g) (h : prepareFormat I g = .ok (p, g')) :
    PartsIn S p ∧ RIn S g' := by
  unfold prepareFormat at h
  split at h
  · cases h; exact ⟨trivial, hg⟩
  · split at h
    · cases h; exact ⟨trivial, ⟨by simp, hg.loc⟩⟩
    · obtain ⟨st, h1, h⟩ := except_bind h
      cases h
      exact ⟨formatLoop_in hS hg.loc _ hg.pend (by simp) h1, ⟨by simp, hg.loc⟩⟩

theorem writeBuf_in (hS : Whole S) {g g' : Gen} {code : List Stmt} (h : writeBuf I g = .ok (code, g')) (hg : RIn S g) :
    InS S code ∧ RIn S g' := by
  unfold writeBuf at h
  obtain ⟨⟨p, g1⟩, h1, h⟩ := except_bind h
  have h2 := prepareFormat_in hS hg h1
  cases p with
  | none => cases h; exact ⟨trivial, h2.2⟩
  | plain s => cases h; exact ⟨emit_in ⟨trivial, trivial⟩, h2.2⟩
  | formatted f args => cases h; exact ⟨emit_in ⟨h2.1, trivial⟩, h2.2⟩

theorem push_in {g : Gen} {w : Writable} (hg : RIn S g) (hw : WIn S w) : RIn S (g.push w) := by
  unfold push
  split
  · exact hg
  · refine ⟨?_, hg.loc⟩
    intro x hx
    rcases List.mem_append.mp hx with hx | hx
    · exact hg.pend x hx
    · rw [List.mem_singleton] at hx; subst hx; exact hw

theorem flushWs_in {g : Gen} (hg : RIn S g) (ws : Ws) : RIn S (flushWs I g ws) := by
  unfold flushWs
  split
  · exact hg
  · have key : ∀ g', RIn S g' → RIn S { g' with nextWs := none } := fun g' h => h.of rfl rfl
    apply key
    split
    · split
      · exact hg
      · exact push_in hg trivial
    · split
      · exact hg
      · exact push_in hg trivial
    · exact hg

theorem handleWs_in {g : Gen} (hg : RIn S g) (ws : Ws) : RIn S (handleWs I g ws) := (flushWs_in hg ws).of rfl rfl

theorem visitLit_in {g g' : Gen} {l : Lit} (hg : RIn S g) (h : visitLit g l = .ok g') : RIn S g' := by
  unfold visitLit at h
  split at h
  · cases h
  · obtain ⟨g1, h1, h⟩ := except_bind h
    have h2 : RIn S g1 := by
      unfold visitLws at h1
      repeat' split at h1
      all_goals first
        | (cases h1; done)
        | (cases h1; exact hg)
        | (cases h1; exact hg.of rfl rfl)
        | (cases h1; exact push_in hg trivial)
    have h3 : RIn S (if l.val.isEmpty then g1 else ({ g1 with skipWs := .preserve } : Gen).push (.lit l.val)) := by
      split
      · exact h2
      · exact push_in (h2.of rfl rfl) trivial
    simp only [pure, Except.pure, Except.ok.injEq] at h
    subst h
    split
    · exact h3
    · exact h3.of rfl rfl

theorem openLine_in {g : Gen} (h : RIn S g) : RIn S g.openLine := by
  obtain ⟨k, hk⟩ := openLine_eq g
  rw [hk]; exact h.of rfl rfl

theorem closeLine_in {g g' : Gen} (hc : g.closeLine = .ok g') (h : RIn S g) : RIn S g' := by
  obtain ⟨k, rfl⟩ := closeLine_eq hc
  exact h.of rfl rfl

/-! ## Nodes -/

/-- The expressions of a tag use only this. -/
def NodeIn (S : Named → Prop) (n : Node) : Prop := ∀ x ∈ readsN n, S x

/-- The recursive calls. -/
def RecIn (S : Named → Prop) (rec : Handler) : Prop :=
  ∀ H ctx nodes level g code g', rec H ctx nodes level g = .ok (code, g') → (∀ h, H = some h → HOk (NodeIn S) h) →
    CtxOk (NodeIn S) ctx → Every (NodeIn S) nodes → RIn S g → InS S code ∧ RIn S g'

variable {rec : Handler} {H : Option Heritage} {ctx : Ctx}

theorem branchCond_in (hS : Whole S) {g g' : Gen} {cond : Option CondTest} {c : RCond} (hg : RIn S g)
    (hc : ∀ x ∈ readsO (cond.map (·.expr)), S x) (h : branchCond I g cond = .ok (c, g')) : c.In S ∧ RIn S g' := by
  unfold branchCond at h
  split at h
  · cases h; exact ⟨trivial, hg⟩
  · obtain ⟨⟨r, w⟩, h1, h⟩ := except_bind h
    cases h
    exact ⟨visit_in hS hg.loc _ hc r w h1, hg⟩
  · rename_i t op a b
    split at h
    · obtain ⟨⟨r, w⟩, h1, h⟩ := except_bind h
      obtain ⟨⟨r2, w2⟩, h2, h⟩ := except_bind h
      cases h
      simp only [Option.map_some, readsO, reads, List.mem_append, or_imp, forall_and] at hc
      have hd := declare_in hg t true
      exact ⟨⟨visit_in hS hg.loc _ hc.1 r w h1, visit_in hS hd.loc _ hc.2 r2 w2 h2⟩, hd⟩
    · obtain ⟨⟨r, w⟩, h1, h⟩ := except_bind h
      cases h
      exact ⟨visit_in hS hg.loc _ hc r w h1, declare_in hg t true⟩
  · rename_i t e _
    obtain ⟨⟨r, w⟩, h1, h⟩ := except_bind h
    cases h
    exact ⟨visit_in hS hg.loc _ hc r w h1, declare_in hg t true⟩

theorem ifBranches_in (hS : Whole S) (hr : RecIn S rec) (hH : ∀ h, H = some h → HOk (NodeIn S) h)
    (hc : CtxOk (NodeIn S) ctx) {wsEnd : Ws} :
    (cs : List Cond) → {first : Bool} → {g g' : Gen} → {bs : List Branch} → ifBranches rec I H ctx wsEnd first cs g = .ok (bs, g') →
    (∀ n ∈ partsC cs, NodeIn S n) → (∀ w c ns, .mk w c ns ∈ cs → ∀ x ∈ readsO (c.map (·.expr)), S x) → RIn S g →
    InB S bs ∧ RIn S g'
  | [], _, _, _, _, h, _, _, hg => by cases h; exact ⟨trivial, hg⟩
  | .mk w cond nodes :: rest, first, g, g', bs, h, hp, hx, hg => by
    obtain ⟨g1, c, g2, body, g3, fl, g4, h1, h2, h3, h4, h5⟩ := ifBranches_inv h
    obtain ⟨k, rfl⟩ := dedentUnless_eq h1
    obtain ⟨hcc, hg2⟩ := branchCond_in hS (RIn.of hg.enter (by rfl) (by rfl)) (hx w cond nodes (List.mem_cons_self ..)) h2
    obtain ⟨h6, h7⟩ := hr _ _ _ _ _ _ _ h3 hH hc (fun n hn => hp n (by simp [partsC, hn])) (openLine_in hg2)
    obtain ⟨h8, h9⟩ := writeBuf_in hS h4 (handleWs_in h7 _)
    have hb := inS_append.2 ⟨h6, h8⟩
    rcases h5 with ⟨rfl, rfl, rfl⟩ | ⟨bs', -, h5, rfl⟩
    · exact ⟨⟨hcc, hb, trivial⟩, h9⟩
    · obtain ⟨h10, h11⟩ := ifBranches_in hS hr hH hc rest h5 (fun n hn => hp n (by simp [partsC, hn]))
        (fun w c ns hm => hx w c ns (List.mem_cons_of_mem _ hm)) h9.leave
      exact ⟨⟨hcc, hb, h10⟩, h11⟩

theorem matchArms_in (hS : Whole S) (hr : RecIn S rec) (hH : ∀ h, H = some h → HOk (NodeIn S) h)
    (hc : CtxOk (NodeIn S) ctx) {wsEnd : Ws} :
    (cs : List When) → {g g' : Gen} → {bs : List Arm} → matchArms rec I H ctx wsEnd cs g = .ok (bs, g') →
    (∀ n ∈ partsW cs, NodeIn S n) → RIn S g → InA S bs ∧ RIn S g'
  | [], _, _, _, h, _, hg => by cases h; exact ⟨trivial, hg⟩
  | .mk w t nodes :: rest, g, g', bs, h, hp, hg => by
    obtain ⟨body, g1, fl, g2, g3, as', h1, h2, h3, h4, rfl⟩ := matchArms_inv h
    obtain ⟨h6, h7⟩ := hr _ _ _ _ _ _ _ h1 hH hc (fun n hn => hp n (by simp [partsW, hn]))
      (openLine_in (declare_in hg.enter t true))
    obtain ⟨h8, h9⟩ := writeBuf_in hS h2 (handleWs_in h7 _)
    have h10 := closeLine_in h3 h9
    obtain ⟨h11, h12⟩ := matchArms_in hS hr hH hc rest h4 (fun n hn => hp n (by simp [partsW, hn])) h10.leave
    exact ⟨⟨inS_append.2 ⟨h6, h8⟩, h11⟩, h12⟩

theorem loopFilter_in (hS : Whole S) {g : Gen} {var : Target} {cond : Option Expr} {filt : List Stmt} (hg : RIn S g)
    (hc : ∀ x ∈ readsO cond, S x) (h : loopFilter I g var cond = .ok filt) : InS S filt := by
  cases cond with
  | none => cases h; trivial
  | some c =>
    unfold loopFilter at h
    obtain ⟨⟨r, w⟩, h1, h⟩ := except_bind h
    cases h
    exact emit_in ⟨visit_in hS (declare_in hg.enter var true).loc c hc r w h1, trivial⟩

theorem writeLoop_in (hS : Whole S) (hr : RecIn S rec) (hH : ∀ h, H = some h → HOk (NodeIn S) h)
    (hc : CtxOk (NodeIn S) ctx) {g g' : Gen}
    {ws1 ws2 ws3 : Ws} {var : Target} {iter : Expr} {cond : Option Expr} {body els : List Node} {code : List Stmt}
    (hx : ∀ x ∈ reads iter ++ readsO cond, S x)
    (hb : Every (NodeIn S) body) (he : Every (NodeIn S) els) (hg : RIn S g)
    (h : writeLoop rec I H ctx g ws1 var iter cond body ws2 els ws3 = .ok (code, g')) : InS S code ∧ RIn S g' := by
  simp only [List.mem_append, or_imp, forall_and] at hx
  obtain ⟨r, w, pre, g1, filt, b, g2, fl, g3, g4, h1, h2, h3, h4, h5, h6, h7⟩ := writeLoop_inv h
  have a0 := (handleWs_in (I := I) hg ws1).enter
  have ar := visit_in hS a0.loc iter hx.1 r w h1
  obtain ⟨a1, a2⟩ := writeBuf_in hS h2 a0
  have a3 := openLine_in a2
  have a4 := loopFilter_in hS a3 hx.2 h3
  obtain ⟨a5, a6⟩ := hr _ _ _ _ _ _ _ h4 hH hc hb (openLine_in (declare_in a3.enter var true))
  obtain ⟨a7, a8⟩ := writeBuf_in hS h5 (handleWs_in a6 ws2)
  have a9 := closeLine_in h6 a8.leave
  have hfor : ∀ {g : Gen} {s : List Stmt}, InS S s → InS S (g.wrap (.forIter var) (s ++ b ++ fl)) := fun hs =>
    wrap_in (inS_append.2 ⟨inS_append.2 ⟨hs, a5⟩, a7⟩) (inS_append.2 ⟨inS_append.2 ⟨hs, a5⟩, a7⟩)
  rcases h7 with ⟨-, eb, g5, fl2, g6, g7, g8, h7, h8, h9, h10, rfl, rfl⟩ | ⟨-, fl2, g6, g8, h7, h8, rfl, rfl⟩
  · obtain ⟨b1, b2⟩ := hr _ _ _ _ _ _ _ h7 hH hc he (openLine_in a9).enter
    obtain ⟨b3, b4⟩ := writeBuf_in hS h8 (handleWs_in b2 ws3)
    have b5 := closeLine_in h9 b4.leave
    have b6 := closeLine_in h10 b5
    have b7 := inS_append.2 ⟨b1, b3⟩
    refine ⟨inS_append.2 ⟨a1, ?_⟩, b6.leave⟩
    have k := inS_append.2 ⟨inS_append.2 ⟨inS_append.2 ⟨emit_in (g := g1.openLine) (S := S) (s := [.letDid, .letIter r])
      ⟨trivial, ar, trivial⟩, a4⟩, hfor (g := g4) (emit_in (g := (declare { g1.openLine with locals := g1.openLine.locals.push } var true).openLine) (s := [.setDid]) ⟨trivial, trivial⟩)⟩, wrap_in (g := g7) (f := .ifNotDid) b7 b7⟩
    exact wrap_in k k
  · obtain ⟨b3, b4⟩ := writeBuf_in hS h7 (handleWs_in a9 ws3)
    have b5 := closeLine_in h8 b4
    refine ⟨inS_append.2 ⟨a1, ?_⟩, b5.leave⟩
    have k := inS_append.2 ⟨inS_append.2 ⟨inS_append.2 ⟨emit_in (g := g1.openLine) (S := S) (s := [.letIter r])
      ⟨ar, trivial⟩, a4⟩, hfor (g := g4) (emit_in (g := (declare { g1.openLine with locals := g1.openLine.locals.push } var true).openLine) (s := []) trivial)⟩, b3⟩
    exact wrap_in k k

theorem writeIf_in (hS : Whole S) (hr : RecIn S rec) (hH : ∀ h, H = some h → HOk (NodeIn S) h)
    (hc : CtxOk (NodeIn S) ctx) {g g' : Gen} {ws : Ws} {cs : List Cond} {code : List Stmt}
    (hp : ∀ n ∈ partsC cs, NodeIn S n) (hx : NodeIn S (.if_ ws cs)) (hg : RIn S g)
    (h : writeIf rec I H ctx g ws cs = .ok (code, g')) : InS S code ∧ RIn S g' := by
  obtain ⟨ws1, c, ns, rest, pre, g1, bs, g2, g3, -, h1, h2, h3, rfl, rfl⟩ := writeIf_inv h
  obtain ⟨a1, a2⟩ := writeBuf_in hS h1 (handleWs_in hg _)
  obtain ⟨a3, a4⟩ := ifBranches_in hS hr hH hc cs h2 hp
    (fun w c ns hm x hxx => hx x (by simp only [readsN]; exact List.mem_flatMap.2 ⟨_, hm, hxx⟩)) a2
  refine ⟨inS_append.2 ⟨a1, ?_⟩, (closeLine_in h3 a4).leave⟩
  split
  · exact inS_branchBodies bs a3
  · exact ⟨a3, trivial⟩

theorem writeMatch_in (hS : Whole S) (hr : RecIn S rec) (hH : ∀ h, H = some h → HOk (NodeIn S) h)
    (hc : CtxOk (NodeIn S) ctx) {g g' : Gen} {ws1 ws2 : Ws} {e : Expr} {arms : List When} {code : List Stmt}
    (hp : ∀ n ∈ partsW arms, NodeIn S n) (hx : ∀ x ∈ reads e, S x) (hg : RIn S g)
    (h : writeMatch rec I H ctx g ws1 e arms ws2 = .ok (code, g')) : InS S code ∧ RIn S g' := by
  obtain ⟨ws, t, ns, rest, pre, g1, r, w, as, g2, g3, -, h1, h2, h3, h4, rfl, rfl⟩ := writeMatch_inv h
  obtain ⟨a1, a2⟩ := writeBuf_in hS h1 (flushWs_in hg _)
  obtain ⟨a3, a4⟩ := matchArms_in hS hr hH hc arms h3 hp (handleWs_in (openLine_in a2) _)
  refine ⟨inS_append.2 ⟨a1, ?_⟩, closeLine_in h4 a4⟩
  split
  · exact inS_armBodies as a3
  · exact ⟨⟨visit_in hS a2.loc e hx r w h2, a3⟩, trivial⟩

theorem namedArgs_from {params : List Str} : (as : List Expr) → {m : List (Str × Expr)} → namedArgs params as = .ok m →
    ∀ e ∈ m, e.2 ∈ as
  | [], _, h => by simp only [namedArgs] at h; cases h; simp
  | a :: as, m, h => by
    unfold namedArgs at h
    split at h
    · rename_i heq
      split at h
      · obtain ⟨m1, h1, h⟩ := except_bind h
        cases h
        cases heq
        intro e he
        rcases List.mem_append.1 he with he | he
        · exact List.mem_cons_of_mem _ (namedArgs_from as h1 e he)
        · rw [List.mem_singleton] at he; subst he; exact List.mem_cons_self ..
      · cases h
    · cases h; simp

theorem readsL_mem : {es : List Expr} → (∀ x ∈ readsL es, S x) → ∀ e ∈ es, ∀ x ∈ reads e, S x
  | [], _, e, he => by cases he
  | a :: es, h, e, he => by
    simp only [readsL, List.mem_append, or_imp, forall_and] at h
    rcases List.mem_cons.1 he with rfl | he
    · exact h.1
    · exact readsL_mem h.2 e he

theorem paramArg_mem {named : List (Str × Expr)} {args : List Expr} {p : Str} {i : Nat} {b b' : Bool} {e : Expr}
    (hn : ∀ e ∈ named, e.2 ∈ args) (h : paramArg named args p i b = .ok (e, b')) : e ∈ args := by
  unfold paramArg at h
  split at h
  · rename_i e' he
    cases h
    unfold lastOf at he
    obtain ⟨k, hk⟩ := assoc_mem he
    exact hn _ (List.mem_reverse.1 hk)
  · split at h
    · split at h
      · rename_i he
        cases h
        exact List.mem_of_getElem? he
      · cases h
    · cases h

theorem passArg_in (hS : Whole S) (hL : LIn S L) {e : Expr} {r : RExpr ⊕ RExpr} (hx : ∀ x ∈ reads e, S x)
    (h : passArg I L e = .ok r) : r.elim (·.In S) (·.In S) := by
  have key : ∀ e, (∀ x ∈ reads e, S x) → ∀ (f : RExpr → RExpr ⊕ RExpr), (∀ r, r.In S → (f r).elim (·.In S) (·.In S)) →
      ∀ r, (visitExpr I L e).map (fun r => f r.1) = .ok r → r.elim (·.In S) (·.In S) := by
    intro e hx f hf r h
    cases hv : visitExpr I L e with
    | error _ => rw [hv] at h; cases h
    | ok y =>
      rw [hv] at h; cases h
      exact hf _ (visit_in hS hL e hx y.1 y.2 hv)
  unfold passArg at h
  split at h
  · unfold reads at hx
    split at h
    · rename_i he
      cases h
      simp only [he, if_true, List.mem_singleton, forall_eq] at hx
      exact hx
    · rename_i he
      cases h
      simp only [he, if_false, List.mem_singleton, forall_eq] at hx
      exact hL.resolveOrSelf hx
  · exact key _ hx .inl (fun r hr => hr) _ h
  · exact key _ hx .inr (fun r hr => hr) _ h

theorem bindParams_in (hS : Whole S) {named : List (Str × Expr)} {args : List Expr} (hn : ∀ e ∈ named, e.2 ∈ args)
    (hx : ∀ e ∈ args, ∀ x ∈ reads e, S x) : (ps : List Str) → {i : Nat} → {b : Bool} → {L : Locals} → LIn S L →
    {ns : List Str} → {rs : List RExpr} → {L' : Locals} → bindParams I named args ps i b L = .ok (ns, rs, L') →
    InL S rs ∧ LIn S L'
  | [], _, _, _, hL, _, _, _, h => by unfold bindParams at h; cases h; exact ⟨trivial, hL⟩
  | p :: ps, i, b, L, hL, ns, rs, L', h => by
    unfold bindParams at h
    obtain ⟨⟨e, b1⟩, h1, h⟩ := except_bind h
    obtain ⟨r, h2, h⟩ := except_bind h
    have hr := passArg_in hS hL (hx e (paramArg_mem hn h1)) h2
    cases r with
    | inl r => exact bindParams_in hS hn hx ps (hL.insert p fun r' h' => by cases h'; exact hr) h
    | inr r =>
      obtain ⟨⟨ns1, rs1, L1⟩, h3, h⟩ := except_bind h
      cases h
      obtain ⟨a, b⟩ := bindParams_in hS hn hx ps (hL.insert p fun r' h' => by cases h') h3
      exact ⟨⟨hr, a⟩, b⟩

theorem writeCall_in (hS : Whole S) (hr : RecIn S rec) (hI : ∀ p c, assoc I.contexts p = some c → CtxOk (NodeIn S) c)
    (hH : ∀ h, H = some h → HOk (NodeIn S) h) (hc : CtxOk (NodeIn S) ctx) {g g' : Gen} {ws : Ws} {scope : Option Str} {name : Str}
    {args : List Expr} {code : List Stmt} (hx : ∀ x ∈ readsL args, S x) (hg : RIn S g)
    (h : writeCall rec I H ctx g ws scope name args = .ok (code, g')) : InS S code ∧ RIn S g' := by
  obtain ⟨d, own, pre, g1, named, ns, rs, L, b, g2, fl, g3, g4, h1, h2, -, h4, h5, h6, h7, h8, rfl, rfl⟩ := writeCall_inv h
  obtain ⟨hown, hd⟩ := findMacro_ok hI hc h1
  obtain ⟨a1, a2⟩ := writeBuf_in hS h2 (flushWs_in hg ws).enter
  have ao := openLine_in a2
  obtain ⟨c1, c2⟩ := bindParams_in hS (fun e he => List.mem_reverse.1 (namedArgs_from _ h4 e he)) (readsL_mem hx) _ ao.loc h5
  obtain ⟨a3, a4⟩ := hr _ _ _ _ _ _ _ h6 hH hown hd ⟨ao.pend, c2⟩
  obtain ⟨a5, a6⟩ := writeBuf_in hS h7 (flushWs_in a4 _)
  refine ⟨inS_append.2 ⟨a1, ?_⟩, (closeLine_in h8 a6).leave.of rfl rfl⟩
  have hl : InS S (if ns.isEmpty then [] else [.letMany ns rs]) := by
    split
    · trivial
    · exact ⟨c1, trivial⟩
  have hb := inS_append.2 ⟨inS_append.2 ⟨emit_in (g := prepareWs I g1.openLine d.ws1) hl, a3⟩, a5⟩
  exact wrap_in hb hb

mutual
theorem insertFirst_reads (v : Str) : (es : List Expr) → ∀ x ∈ readsL (insertFirst v es), x ∈ readsL es
  | [], x, h => by simp [insertFirst, readsL, reads] at h
  | e :: es, x, h => by
    simp only [insertFirst] at h
    have key : ∀ a b : List Expr, readsL (a ++ b) = readsL a ++ readsL b := by
      intro a b
      induction a with
      | nil => rfl
      | cons y a ih => simp only [List.cons_append, readsL, ih, List.append_assoc]
    rw [key] at h
    simp only [readsL, List.mem_append]
    rcases List.mem_append.1 h with h | h
    · exact .inl (insertInto_reads v e x h)
    · exact .inr h
theorem insertInto_reads (v : Str) : (e : Expr) → ∀ x ∈ readsL (insertInto v e), x ∈ reads e
  | .filter name es, x, h => by
    simp only [insertInto, readsL, reads, List.append_nil] at h
    rw [reads, List.mem_append]
    rcases List.mem_append.1 h with h | h
    · exact .inl h
    · exact .inr (insertFirst_reads v es x h)
  | .boolLit _, x, h | .numLit _, x, h | .strLit _, x, h | .charLit _, x, h | .path _, x, h
  | .rustMacro _ _, x, h | .generated _, x, h | .var _, x, h | .array _, x, h | .tuple _, x, h | .attr _ _, x, h
  | .index _ _, x, h | .binop _ _ _, x, h | .range _ _ _, x, h | .namedArg _ _, x, h | .unary _ _, x, h | .group _, x, h
  | .try_ _, x, h | .call _ _, x, h => by
    simpa only [insertInto, readsL, List.append_nil, List.nil_append, show reads (.generated v) = [] from rfl] using h
end

theorem writeFilterBlock_in (hS : Whole S) (hr : RecIn S rec) (hH : ∀ h, H = some h → HOk (NodeIn S) h)
    (hc : CtxOk (NodeIn S) ctx) {g g' : Gen} {ws1 ws2 : Ws} {f : FilterApp} {nodes : List Node} {code : List Stmt}
    (hx : ∀ x ∈ filterNamed f.name ++ readsL f.args, S x)
    (hp : Every (NodeIn S) nodes) (hg : RIn S g) (h : writeFilterBlock rec I H ctx g ws1 f nodes ws2 = .ok (code, g')) :
    InS S code ∧ RIn S g' := by
  obtain ⟨b, g1, p, g2, h1, h2, h3⟩ := writeFilterBlock_inv h
  have a0 := flushWs_in (I := I) hg ws1
  obtain ⟨a1, a2⟩ := hr _ _ _ _ _ _ _ h1 hH hc hp ⟨fun w hw => (by cases hw), a0.loc⟩
  obtain ⟨a3, a4⟩ := prepareFormat_in hS (flushWs_in a2 ws2) h2
  rcases h3 with ⟨rfl, rfl, rfl⟩ | ⟨st, r, w, h3, h4, h5, rfl, rfl⟩
  · exact ⟨a1, a4⟩
  · have hr := visit_in hS a4.loc _ (by
        rw [reads]
        intro x h
        rcases List.mem_append.1 h with h | h
        · exact hx x (List.mem_append_left _ h)
        · exact hx x (List.mem_append_right _ (insertFirst_reads _ _ x h))) r w h5
    constructor
    · refine inS_append.2 ⟨a1, emit_in ⟨?_, trivial⟩⟩
      subst h4
      cases p with
      | none => exact absurd rfl h3
      | plain s => trivial
      | formatted f args => exact a3
    · have hq := push_in (w := .generated r w) (g := { g2 with pend := (flushWs I g ws1).pend }) ⟨a0.pend, a4.loc⟩ hr
      exact ⟨hq.pend, hq.loc.insert _ fun r' h' => by cases h'⟩

theorem writeBlock_in (hS : Whole S) (hr : RecIn S rec) (hH : ∀ h, H = some h → HOk (NodeIn S) h)
    (hc : CtxOk (NodeIn S) ctx) {g g' : Gen} {name : Option Str} {outer : Ws} {code : List Stmt} (hg : RIn S g)
    (h : writeBlock rec I H ctx g name outer = .ok (code, g')) : InS S code ∧ RIn S g' := by
  unfold writeBlock at h
  obtain ⟨cur, h1, h⟩ := except_bind h
  obtain ⟨⟨pre, g1⟩, h2, h⟩ := except_bind h
  obtain ⟨a1, a2⟩ := writeBuf_in hS h2 (flushWs_in hg outer)
  cases H with
  | none => cases h
  | some hh =>
    dsimp only at h
    cases hdefs : assoc hh.blocks cur.1 with
    | none => rw [hdefs] at h; cases h
    | some defs =>
      rw [hdefs] at h; dsimp only at h
      cases hcd : defs[cur.2]? with
      | none => rw [hcd] at h; cases h
      | some cd =>
        obtain ⟨cctx, d⟩ := cd
        rw [hcd] at h; dsimp only at h
        obtain ⟨⟨b, g2⟩, h3, h⟩ := except_bind h
        obtain ⟨⟨fl, g3⟩, h4, h⟩ := except_bind h
        cases h
        obtain ⟨k, hk⟩ := assoc_mem hdefs
        obtain ⟨hcc, hd⟩ := (hH hh rfl).blocks _ hk _ (List.mem_of_getElem? hcd)
        obtain ⟨a3, a4⟩ := hr _ _ _ _ _ _ _ h3 hH (mergeCtx_ok hcc hc) hd ⟨a2.pend, LIn.empty⟩
        have a5 : InS S fl ∧ RIn S g3 := by
          unfold flushIf at h4
          split at h4
          · exact writeBuf_in hS h4 a4
          · cases h4; exact ⟨trivial, a4⟩
        exact ⟨inS_append.2 ⟨inS_append.2 ⟨a1, a3⟩, a5.1⟩, ⟨(flushWs_in a5.2 d.ws2).pend, a2.loc⟩⟩

theorem handleInclude_in (hS : Whole S) (hr : RecIn S rec) (hI : ∀ p c, assoc I.contexts p = some c → CtxOk (NodeIn S) c)
    (hc : CtxOk (NodeIn S) ctx) {g g' : Gen} {ws : Ws} {path : Str} {code : List Stmt} (hg : RIn S g)
    (h : handleInclude rec I ctx g ws path = .ok (code, g')) : InS S code ∧ RIn S g' := by
  obtain ⟨pre, g1, p, c, Hc, b, g2, fl, g3, h1, -, h3, h4, h5, h6, rfl, rfl⟩ := handleInclude_inv h
  obtain ⟨a1, a2⟩ := writeBuf_in hS h1 (flushWs_in hg ws)
  have a3 := mergeCtx_ok (hI _ _ h3) hc
  have a4 : ∀ h, Hc = some h → HOk (NodeIn S) h := by
    rintro h rfl
    unfold includeHeritage at h4
    split at h4
    · cases h7 : heritageNew I.contexts (mergeCtx c ctx) with
      | error e => rw [h7] at h4; cases h4
      | ok x => rw [h7] at h4; cases h4; exact heritageNew_ok hI a3 h7
    · cases h4
  have a5 : CtxOk (NodeIn S) (rootOf Hc (mergeCtx c ctx)) := by
    cases Hc with
    | none => exact a3
    | some h => exact (a4 h rfl).root
  obtain ⟨a6, a7⟩ := hr _ _ _ _ _ _ _ h5 a4 a5 a5.nodes ⟨fun w hw => (by cases hw), a2.loc.withParent⟩
  obtain ⟨a8, a9⟩ := writeBuf_in hS h6 a7
  exact ⟨inS_append.2 ⟨inS_append.2 ⟨inS_append.2 ⟨a1, emit_in ⟨trivial, trivial⟩⟩, a6⟩, a8⟩, a2.of rfl rfl⟩

theorem writeLet_in (hS : Whole S) {g g' : Gen} {ws : Ws} {var : Target} {val : Option Expr} {code : List Stmt}
    (hx : ∀ x ∈ readsO val, S x) (hg : RIn S g)
    (h : writeLet I g ws var val = .ok (code, g')) : InS S code ∧ RIn S g' := by
  have a0 := handleWs_in (I := I) hg ws
  rcases writeLet_inv h with ⟨s, g1, -, h1, rfl, rfl⟩ | ⟨e, r, w, sh, s, g1, rfl, h1, h2, h3, rfl, rfl⟩
  · obtain ⟨a1, a2⟩ := writeBuf_in hS h1 a0
    exact ⟨inS_append.2 ⟨a1, emit_in ⟨trivial, trivial⟩⟩, declare_in a2 var false⟩
  · have a5 : InS S s ∧ RIn S g1 := by
      unfold flushIf at h3
      split at h3
      · exact writeBuf_in hS h3 a0
      · cases h3; exact ⟨trivial, a0⟩
    have hr := visit_in hS a0.loc e hx r w h1
    refine ⟨inS_append.2 ⟨a5.1, emit_in ⟨?_, trivial⟩⟩, declare_in a5.2 var true⟩
    split
    · split
      · exact hr
      · exact hr
    · exact hr

theorem handleNode_in (hS : Whole S) (hr : RecIn S rec) (hI : ∀ p c, assoc I.contexts p = some c → CtxOk (NodeIn S) c)
    (hH : ∀ h, H = some h → HOk (NodeIn S) h) (hc : CtxOk (NodeIn S) ctx) {level : Level} {g g' : Gen} {n : Node} {code : List Stmt}
    (hp : ∀ m ∈ parts n, NodeIn S m) (hg : RIn S g) (h : handleNode rec I H ctx level g n = .ok (code, g')) :
    InS S code ∧ RIn S g' := by
  have hn : NodeIn S n := hp n (by cases n <;> simp [parts])
  cases n with
  | lit l =>
    unfold handleNode at h
    obtain ⟨g1, h1, h⟩ := except_bind h
    cases h
    exact ⟨trivial, visitLit_in hg h1⟩
  | comment ws c => cases h; exact ⟨trivial, handleWs_in hg ws⟩
  | expr ws e => cases h; exact ⟨trivial, push_in (handleWs_in hg ws) hn⟩
  | let_ ws var val => exact writeLet_in hS hn hg h
  | if_ ws bs => exact writeIf_in hS hr hH hc (fun n hn => hp n (by simp [parts, hn])) hn hg h
  | match_ ws1 e arms ws2 => exact writeMatch_in hS hr hH hc (fun n hn => hp n (by simp [parts, hn])) hn hg h
  | loop ws1 v i c body ws2 els ws3 =>
    exact writeLoop_in hS hr hH hc hn (fun n hn => hp n (by simp [parts, hn])) (fun n hn => hp n (by simp [parts, hn])) hg h
  | blockDef ws1 name ns ws2 => exact writeBlock_in hS hr hH hc hg h
  | «include» ws path => exact handleInclude_in hS hr hI hc hg h
  | call ws scope name args =>
    simp only [handleNode] at h
    split at h
    · exact writeBlock_in hS hr hH hc hg h
    · exact writeCall_in hS hr hI hH hc hn hg h
  | filterBlock ws1 f ns ws2 =>
    exact writeFilterBlock_in hS hr hH hc hn (fun n hn => hp n (by simp [parts, hn])) hg h
  | «macro» ws1 nm args ns ws2 =>
    simp only [handleNode] at h
    split at h
    · cases h; exact ⟨trivial, (flushWs_in hg ws1).of rfl rfl⟩
    · cases h
  | raw ws1 l ws2 =>
    unfold handleNode at h
    obtain ⟨g1, h1, h⟩ := except_bind h
    cases h
    exact ⟨trivial, handleWs_in (visitLit_in (handleWs_in hg ws1) h1) ws2⟩
  | import_ ws p s =>
    simp only [handleNode] at h
    split at h
    · cases h; exact ⟨trivial, handleWs_in hg ws⟩
    · cases h
  | extends_ p =>
    simp only [handleNode] at h
    split at h
    · cases h; exact ⟨trivial, hg⟩
    · cases h
  | break_ ws | continue_ ws =>
    unfold handleNode at h
    obtain ⟨⟨s, g1⟩, h1, h⟩ := except_bind h
    cases h
    obtain ⟨a1, a2⟩ := writeBuf_in hS h1 (handleWs_in hg ws)
    exact ⟨inS_append.2 ⟨a1, emit_in ⟨trivial, trivial⟩⟩, a2⟩

theorem handleNodes_in (hS : Whole S) (hr : RecIn S rec) (hI : ∀ p c, assoc I.contexts p = some c → CtxOk (NodeIn S) c)
    (hH : ∀ h, H = some h → HOk (NodeIn S) h) (hc : CtxOk (NodeIn S) ctx) {level : Level} : (ns : List Node) → {g g' : Gen} →
    {code : List Stmt} → Every (NodeIn S) ns → RIn S g → handleNodes rec I H ctx level ns g = .ok (code, g') →
    InS S code ∧ RIn S g'
  | [], _, _, _, _, hg, h => by cases h; exact ⟨trivial, hg⟩
  | n :: ns, g, g', code, hp, hg, h => by
    unfold handleNodes at h
    obtain ⟨⟨s, g1⟩, h1, h⟩ := except_bind h
    obtain ⟨⟨s', g2⟩, h2, h⟩ := except_bind h
    cases h
    obtain ⟨a1, a2⟩ := handleNode_in hS hr hI hH hc hp.head hg h1
    obtain ⟨a3, a4⟩ := handleNodes_in hS hr hI hH hc ns hp.tail a2 h2
    exact ⟨inS_append.2 ⟨a1, a3⟩, a4⟩

theorem handle_in (hS : Whole S) (hI : ∀ p c, assoc I.contexts p = some c → CtxOk (NodeIn S) c) : (fuel : Nat) →
    RecIn S (handle I fuel)
  | 0 => by intro H ctx nodes level g code g' h; cases h
  | fuel + 1 => by
    intro H ctx nodes level g code g' h hH hc hn hg
    unfold handle at h
    obtain ⟨⟨s, g1⟩, h1, h⟩ := except_bind h
    obtain ⟨⟨s', g2⟩, h2, h⟩ := except_bind h
    cases h
    obtain ⟨a1, a2⟩ := handleNodes_in hS (handle_in hS hI fuel) hI hH hc nodes hn hg h1
    have a3 : InS S s' ∧ RIn S g' := by
      unfold handleEnd at h2
      split at h2
      · refine writeBuf_in hS h2 ?_
        split
        · exact flushWs_in a2 _
        · exact a2
      · cases h2; exact ⟨trivial, a2⟩
    exact ⟨inS_append.2 ⟨a1, a3.1⟩, a3.2⟩

theorem generate_in (hS : Whole S) (hI : ∀ p c, assoc I.contexts p = some c → CtxOk (NodeIn S) c) {fuel : Nat}
    (hH : ∀ h, H = some h → HOk (NodeIn S) h) (hc : CtxOk (NodeIn S) ctx) {code : List Stmt}
    (h : generate I fuel H ctx = .ok code) : InS S code := by
  unfold generate at h
  obtain ⟨⟨s, g1⟩, h1, h⟩ := except_bind h
  obtain ⟨g2, -, h'⟩ := except_bind (fits_ok h).2
  obtain ⟨g3, -, h'⟩ := except_bind h'
  cases h'
  have a5 : CtxOk (NodeIn S) (rootOf H ctx) := by
    cases H with
    | none => exact hc
    | some hh => exact (hH hh rfl).root
  exact (handle_in hS hI fuel _ _ _ _ _ _ _ h1 hH a5 a5.nodes ⟨fun w hw => (by cases hw), LIn.empty⟩).1

end

/-! ## Filters of the program -/

theorem filterNamed_own (name f : Str) (h : .filter false f ∈ filterNamed name) :
    ¬ (f ∈ filtersOfTheLanguage ∨ f ∈ filtersOfAskama ∨ f = c!"json" ∨ f = c!"tojson") := by
  unfold filterNamed at h
  split at h
  · cases h
  · rename_i h1
    split at h
    · simp at h
    · rename_i h2
      simp only [List.mem_singleton, Named.filter.injEq] at h
      obtain ⟨h3, rfl⟩ := h
      have h4 : ¬ f ∈ filtersOfTheLanguage := fun hm => h1 (List.contains_iff_mem.2 hm)
      have h5 : ¬ f ∈ filtersOfAskama := fun hm => by rw [List.contains_iff_mem.2 hm] at h3; cases h3
      rw [not_or, not_or]
      exact ⟨h4, h5, h2⟩

mutual
theorem reads_own (f : Str) : (e : Expr) → .filter false f ∈ reads e →
    ¬ (f ∈ filtersOfTheLanguage ∨ f ∈ filtersOfAskama ∨ f = c!"json" ∨ f = c!"tojson")
  | .var x, h => by
    unfold reads at h
    split at h <;> simp at h
  | .attr e a, h => by
    cases e with
    | var x =>
      unfold reads at h
      repeat' split at h
      all_goals simp at h
    | _ => rw [reads] at h; exact reads_own f _ h; all_goals (intro x hx; cases hx)
  | .unary _ e, h | .group e, h | .try_ e, h | .namedArg _ e, h => reads_own f e (by simpa only [reads] using h)
  | .index a b, h | .binop _ a b, h => by
    simp only [reads] at h
    rcases List.mem_append.1 h with h | h
    · exact reads_own f a h
    · exact reads_own f b h
  | .range _ a b, h => by
    simp only [reads] at h
    rcases List.mem_append.1 h with h | h
    · exact readsO_own f a h
    · exact readsO_own f b h
  | .array es, h | .tuple es, h => readsL_own f es (by simpa only [reads] using h)
  | .filter n es, h => by
    simp only [reads] at h
    rcases List.mem_append.1 h with h | h
    · exact filterNamed_own n f h
    · exact readsL_own f es h
  | .call e es, h => by
    rw [reads] at h
    rcases List.mem_append.1 h with h | h
    · exact reads_own f e h
    · exact readsL_own f es h
  | .path _, h | .rustMacro _ _, h | .boolLit _, h | .numLit _, h | .strLit _, h | .charLit _, h | .generated _, h => by
    simp [reads] at h
  termination_by e => sizeOf e
theorem readsL_own (f : Str) : (es : List Expr) → .filter false f ∈ readsL es →
    ¬ (f ∈ filtersOfTheLanguage ∨ f ∈ filtersOfAskama ∨ f = c!"json" ∨ f = c!"tojson")
  | [], h => by simp [readsL] at h
  | e :: es, h => by
    simp only [readsL] at h
    rcases List.mem_append.1 h with h | h
    · exact reads_own f e h
    · exact readsL_own f es h
  termination_by es => sizeOf es
theorem readsO_own (f : Str) : (o : Option Expr) → .filter false f ∈ readsO o →
    ¬ (f ∈ filtersOfTheLanguage ∨ f ∈ filtersOfAskama ∨ f = c!"json" ∨ f = c!"tojson")
  | none, h => by simp [readsO] at h
  | some e, h => reads_own f e (by simpa only [readsO] using h)
  termination_by o => sizeOf o
end

theorem readsN_own (n : Node) (f : Str) (h : .filter false f ∈ readsN n) :
    ¬ (f ∈ filtersOfTheLanguage ∨ f ∈ filtersOfAskama ∨ f = c!"json" ∨ f = c!"tojson") := by
  unfold readsN at h
  split at h
  · exact reads_own f _ h
  · exact readsO_own f _ h
  · obtain ⟨⟨w, c, ns⟩, -, h⟩ := List.mem_flatMap.1 h
    exact readsO_own f _ h
  · exact reads_own f _ h
  · rcases List.mem_append.1 h with h | h
    · exact reads_own f _ h
    · exact readsO_own f _ h
  · exact readsL_own f _ h
  · rcases List.mem_append.1 h with h | h
    · exact filterNamed_own _ f h
    · exact readsL_own f _ h
  · cases h

end Askama
