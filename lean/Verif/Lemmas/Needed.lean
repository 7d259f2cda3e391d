import Verif.Lemmas.Alone

/-!
# The rules are needed

What the generator accepts keeps the rules: an expression that is pending is visited before the end.
-/

namespace Askama

open Spec Gen

theorem visit_needs {I : GenInput} {L : Locals} {e : Expr} {x : RExpr × Bool} (h : visitExpr I L e = .ok x) :
    exprFits I.options e = true := by
  rw [← visit_fits I L e, h]
  rfl

/-- All pending expressions keep the rules. -/
def Owes (I : GenInput) (g : Gen) : Prop := ∀ e, .expr e ∈ g.pend → exprFits I.options e = true

/-- From `g` to `g'`, the block is the same, what is pending remains pending or has been visited, and `F` is known at the
end. -/
def Due (I : GenInput) (g g' : Gen) (F : Prop) : Prop :=
  g'.superBlock = g.superBlock ∧ (g.pdiscard = false → g'.pdiscard = false ∧ (Owes I g' → Owes I g ∧ F))

section
variable {I : GenInput} {g g' g1 g2 : Gen} {F G : Prop}

theorem Due.trans (h1 : Due I g g1 F) (h2 : Due I g1 g2 G) : Due I g g2 (F ∧ G) := by
  refine ⟨h2.1.trans h1.1, fun hd => ?_⟩
  obtain ⟨a1, a2⟩ := h1.2 hd
  obtain ⟨b1, b2⟩ := h2.2 a1
  refine ⟨b1, fun ho => ?_⟩
  obtain ⟨c1, c2⟩ := b2 ho
  exact ⟨(a2 c1).1, (a2 c1).2, c2⟩

theorem Due.mono (h : Due I g g' F) (hf : F → G) : Due I g g' G :=
  ⟨h.1, fun hd => ⟨(h.2 hd).1, fun ho => ⟨((h.2 hd).2 ho).1, hf ((h.2 hd).2 ho).2⟩⟩⟩

theorem Due.know (h : Due I g g' F) (hg : G) : Due I g g' (G ∧ F) := h.mono fun hf => ⟨hg, hf⟩

/-- The same output is pending. -/
theorem due_same (hp : g'.pend = g.pend) (hd : g'.pdiscard = g.pdiscard) (hs : g'.superBlock = g.superBlock := by rfl) :
    Due I g g' True :=
  ⟨hs, fun h => ⟨hd.trans h, fun ho => ⟨fun e he => ho e (by rw [hp]; exact he), trivial⟩⟩⟩

theorem due_push (w : Writable) : Due I g (g.push w) (∀ e, w = .expr e → exprFits I.options e = true) := by
  refine ⟨by unfold Gen.push; split <;> rfl, fun hd => ?_⟩
  unfold Gen.push
  rw [if_neg (by rw [hd]; decide)]
  refine ⟨hd, fun ho => ⟨fun e he => ho e (List.mem_append_left _ he), ?_⟩⟩
  rintro e rfl
  exact ho e (List.mem_append_right _ (List.mem_singleton.mpr rfl))

theorem Due.true (h : Due I g g' F) : Due I g g' True := h.mono fun _ => trivial

theorem Due.then (h1 : Due I g g1 F) (h2 : Due I g1 g2 True) : Due I g g2 F := (h1.trans h2).mono And.left

theorem Due.next (h1 : Due I g g1 True) (h2 : Due I g1 g2 F) : Due I g g2 F := (h1.trans h2).mono And.right

theorem due_flushWs (ws : Ws) : Due I g (flushWs I g ws) True := by
  unfold Gen.flushWs
  cases hn : g.nextWs with
  | none => exact due_same rfl rfl
  | some val =>
    dsimp only
    have key : Due I g (match shouldTrimWs I ws.l with
      | .preserve => if val.isEmpty then g else g.push (.lit val)
      | .minimize => if val.isEmpty then g else g.push (.lit (minimized val))
      | .suppress => g) True := by
      repeat' split
      all_goals first | exact due_same rfl rfl | exact (due_push _).true
    exact key.then (due_same rfl rfl)

theorem due_prepareWs (ws : Ws) : Due I g (prepareWs I g ws) True := due_same rfl rfl

theorem due_handleWs (ws : Ws) : Due I g (handleWs I g ws) True := (due_flushWs ws).next (due_prepareWs ws)

theorem due_openLine : Due I g g.openLine True := by
  unfold Gen.openLine
  split <;> exact due_same rfl rfl

theorem due_dedent (h : g.dedent = .ok g') : Due I g g' True := by
  unfold Gen.dedent at h
  split at h
  · cases h
  · cases h; exact due_same rfl rfl

theorem due_closeLine (h : g.closeLine = .ok g') : Due I g g' True := by
  unfold Gen.closeLine at h
  split at h
  · cases h; exact due_same rfl rfl
  · exact due_dedent h

theorem formatLoop_needs {L : Locals} : (ws : List Writable) → {st st' : FmtSt} → formatLoop I L ws st = .ok st' →
    ∀ e, .expr e ∈ ws → exprFits I.options e = true
  | [], _, _, _, e, he => by cases he
  | .lit s :: ws, _, _, h, e, he => by
    simp only [formatLoop] at h
    rcases List.mem_cons.mp he with he | he
    · cases he
    · exact formatLoop_needs ws h e he
  | .expr e' :: ws, _, _, h, e, he => by
    simp only [formatLoop] at h
    obtain ⟨⟨r, w⟩, h1, h2⟩ := except_bind h
    rcases List.mem_cons.mp he with he | he
    · cases he; exact visit_needs h1
    · exact formatLoop_needs ws h2 e he
  | .generated _ _ :: ws, _, _, h, e, he => by
    simp only [formatLoop] at h
    rcases List.mem_cons.mp he with he | he
    · cases he
    · exact formatLoop_needs ws h e he

theorem due_writeBuf {s : List Stmt} (h : writeBuf I g = .ok (s, g')) : Due I g g' True := by
  refine ⟨by obtain ⟨n, rfl⟩ := writeBuf_state h; rfl, fun hd => ?_⟩
  unfold Gen.writeBuf at h
  obtain ⟨⟨p, g1⟩, h1, h⟩ := except_bind h
  obtain rfl : g1 = g' := by cases p <;> (cases h; rfl)
  unfold Gen.prepareFormat at h1
  split at h1
  · cases h1
    exact ⟨hd, fun ho => ⟨ho, trivial⟩⟩
  · split at h1
    · rename_i hl
      cases h1
      refine ⟨hd, fun _ => ⟨fun e he => ?_, trivial⟩⟩
      have := List.all_eq_true.mp hl _ he
      cases this
    · obtain ⟨st, h2, h1⟩ := except_bind h1
      cases h1
      exact ⟨hd, fun _ => ⟨fun e he => formatLoop_needs _ h2 e he, trivial⟩⟩

theorem writeBuf_pend {s : List Stmt} (h : writeBuf I g = .ok (s, g')) : g'.pend = [] := by
  unfold Gen.writeBuf at h
  obtain ⟨⟨p, g1⟩, h1, h⟩ := except_bind h
  obtain rfl : g1 = g' := by cases p <;> (cases h; rfl)
  unfold Gen.prepareFormat at h1
  split at h1
  · rename_i he; cases h1; exact List.isEmpty_iff.mp he
  · split at h1
    · cases h1; rfl
    · obtain ⟨st, h2, h1⟩ := except_bind h1
      cases h1; rfl

theorem due_flushIf {b : Bool} {s : List Stmt} (h : flushIf I b g = .ok (s, g')) : Due I g g' True := by
  unfold Gen.flushIf at h
  split at h
  · exact due_writeBuf h
  · cases h; exact due_same rfl rfl

theorem due_visitLit {l : Lit} (h : visitLit g l = .ok g') : Due I g g' True := by
  unfold Gen.visitLit at h
  split at h
  · cases h
  · obtain ⟨g1, h1, h⟩ := except_bind h
    have a1 : Due I g g1 True := by
      unfold Gen.visitLws at h1
      repeat' split at h1
      all_goals first | (cases h1; done) | (cases h1; exact due_same rfl rfl) | (cases h1; exact (due_push _).true)
    refine a1.next ?_
    have a2 : Due I g1 (if l.val.isEmpty then g1 else ({ g1 with skipWs := .preserve } : Gen).push (.lit l.val)) True := by
      split
      · exact due_same rfl rfl
      · exact (due_same (g' := { g1 with skipWs := .preserve }) rfl rfl).next (due_push _).true
    refine a2.next ?_
    simp only [pure, Except.pure, Except.ok.injEq] at h
    rw [← h]
    generalize (if l.val.isEmpty then g1 else ({ g1 with skipWs := .preserve } : Gen).push (.lit l.val)) = g2
    split <;> exact due_same rfl rfl

theorem due_branchCond {c : Option CondTest} {rc : RCond} (h : branchCond I g c = .ok (rc, g')) :
    Due I g g' (∀ t, c = some t → exprFits I.options t.expr = true) := by
  cases c with
  | none => cases h; exact (due_same rfl rfl).mono fun _ t ht => by cases ht
  | some ct =>
    obtain ⟨t, e⟩ := ct
    suffices hh : exprFits I.options e = true ∧ Due I g g' True from hh.2.mono fun _ t ht => by cases ht; exact hh.1
    have key : ∀ t, (do
        let (r, _) ← visitExpr I g.locals e
        return (.let_ t r, Gen.declare g t true) : Except GErr (RCond × Gen)) = .ok (rc, g') →
        exprFits I.options e = true ∧ Due I g g' True := by
      intro t h
      obtain ⟨⟨r, w⟩, h1, h⟩ := except_bind h
      cases h
      exact ⟨visit_needs h1, due_same rfl rfl⟩
    cases t with
    | none =>
      obtain ⟨⟨r, w⟩, h1, h⟩ := except_bind h
      cases h
      exact ⟨visit_needs h1, due_same rfl rfl⟩
    | some t =>
      cases e with
      | binop op a b =>
        unfold Gen.branchCond at h
        dsimp only at h
        split at h
        · obtain ⟨⟨r, w⟩, h1, h⟩ := except_bind h
          obtain ⟨⟨r2, w2⟩, h2, h⟩ := except_bind h
          cases h
          refine ⟨?_, due_same rfl rfl⟩
          simp only [exprFits, Bool.and_eq_true]
          exact ⟨visit_needs h1, visit_needs h2⟩
        · exact key t h
      | _ => exact key t h

end

/-! ## Nodes -/

/-- All nodes of a list are simple, and of a certain kind. -/
def SimpleList (P : Node → Prop) (ns : List Node) : Prop := ∀ m ∈ partsL ns, P m ∧ simpleNode m = true

/-- What is accepted for nested nodes keeps the rules. -/
def RecNeeds (I : GenInput) (H : Option Heritage) (ctx : Ctx) (bl : Option (Str × Nat)) (P : Node → Prop)
    (inside : List Node → Bool) (rec : Handler) : Prop :=
  ∀ nodes g s g', ParsedList nodes → SimpleList P nodes → g.superBlock = bl → rec H ctx nodes .nested g = .ok (s, g') →
    Due I g g' (inside nodes = true)

section
variable {I : GenInput} {H : Option Heritage} {ctx : Ctx} {bl : Option (Str × Nat)} {P : Node → Prop} {inside : List Node → Bool}
  {rec : Handler} {g g' : Gen} {n : Nat}

theorem ifBranches_needs (ok : RecNeeds I H ctx bl P inside rec) {wsEnd : Ws} :
    (first : Bool) → (bs : List Cond) → {g g' : Gen} → {code : List Branch} →
    (∀ w c ns, Cond.mk w c ns ∈ bs → ParsedList ns ∧ SimpleList P ns) →
    g.superBlock = bl → ifBranches rec I H ctx wsEnd first bs g = .ok (code, g') →
    Due I g g' (∀ w c ns, Cond.mk w c ns ∈ bs → (∀ t, c = some t → exprFits I.options t.expr = true) ∧
      inside ns = true)
  | _, [], _, _, _, _, _, h => by
    simp only [ifBranches] at h
    cases h
    exact (due_same rfl rfl).mono fun _ _ _ _ hm => by cases hm
  | first, .mk w c ns :: rest, g, g', code, hb, hsup, h => by
    obtain ⟨g1, rc, g2, body, g3, fl, g4, h1, h2, h3, h4, h5⟩ := ifBranches_inv h
    have d1 : Due I g g1 True := by
      unfold Gen.dedentUnless at h1
      refine Due.next (g1 := { g with locals := g.locals.push }) (due_same rfl rfl) ?_
      split at h1
      · cases h1; exact due_same rfl rfl
      · exact due_dedent h1
    have d2 := due_branchCond h2
    have hsup2 : g2.openLine.superBlock = bl := (due_openLine (I := I)).1.trans (d2.1.trans (d1.1.trans hsup))
    have d3 := due_openLine.next (ok ns _ _ _ (hb w c ns (by simp)).1 (hb w c ns (by simp)).2 hsup2 h3)
    have d4 := (due_handleWs (condEnd rest wsEnd)).next (due_writeBuf h4)
    have d := d1.next (d2.trans (d3.then d4))
    rcases h5 with ⟨rfl, -, rfl⟩ | ⟨bs', -, h5, -⟩
    · refine d.mono ?_
      rintro ⟨k1, k2⟩ w' c' ns' hm
      simp only [List.mem_singleton, Cond.mk.injEq] at hm
      obtain ⟨rfl, rfl, rfl⟩ := hm
      exact ⟨k1, k2⟩
    · have d5 := ifBranches_needs ok false rest (fun w c ns hm => hb w c ns (List.mem_cons_of_mem _ hm)) (g := { g4 with locals := g4.locals.pop }) (d.1.trans hsup) h5
      refine (d.trans ((due_same (g' := { g4 with locals := g4.locals.pop }) rfl rfl).next d5)).mono ?_
      rintro ⟨⟨k1, k2⟩, k3⟩ w' c' ns' hm
      rcases List.mem_cons.mp hm with hm | hm
      · simp only [Cond.mk.injEq] at hm
        obtain ⟨rfl, rfl, rfl⟩ := hm
        exact ⟨k1, k2⟩
      · exact k3 _ _ _ hm

theorem matchArms_needs (ok : RecNeeds I H ctx bl P inside rec) {ws2 : Ws} :
    (bs : List When) → {g g' : Gen} → {code : List Arm} → (∀ w c ns, When.mk w c ns ∈ bs → ParsedList ns ∧ SimpleList P ns) →
    g.superBlock = bl → matchArms rec I H ctx ws2 bs g = .ok (code, g') →
    Due I g g' (∀ w c ns, When.mk w c ns ∈ bs → inside ns = true)
  | [], _, _, _, _, _, h => by
    simp only [matchArms] at h
    cases h
    exact (due_same rfl rfl).mono fun _ _ _ _ hm => by cases hm
  | .mk w c ns :: rest, g, g', code, hb, hsup, h => by
    obtain ⟨body, g1, fl, g2, g3, as', h1, h2, h3, h4, -⟩ := matchArms_inv h
    have d0 : Due I g (declare { g with locals := g.locals.push } c true) True := due_same rfl rfl
    have hsup1 : (declare { g with locals := g.locals.push } c true).openLine.superBlock = bl := (due_openLine (I := I)).1.trans hsup
    have d1 := d0.next (due_openLine.next (ok ns _ _ _ (hb w c ns (by simp)).1 (hb w c ns (by simp)).2 hsup1 h1))
    have d2 := ((due_handleWs (whenEnd rest ws2)).next (due_writeBuf h2)).next (due_closeLine h3)
    have d4 := matchArms_needs ok rest (fun w c ns hm => hb w c ns (List.mem_cons_of_mem _ hm)) (g := { g3 with locals := g3.locals.pop }) ((d1.then d2).1.trans hsup) h4
    refine ((d1.then d2).trans ((due_same (g' := { g3 with locals := g3.locals.pop }) rfl rfl).next d4)).mono ?_
    rintro ⟨k1, k2⟩ w' c' ns' hm
    rcases List.mem_cons.mp hm with hm | hm
    · simp only [When.mk.injEq] at hm
      obtain ⟨rfl, rfl, rfl⟩ := hm
      exact k1
    · exact k2 _ _ _ hm

theorem bindParams_needs {named : List (Str × Expr)} {args : List Expr} : (ps : List Str) → {i : Nat} → {b : Bool} →
    {L L' : Locals} → {ns : List Str} → {rs : List RExpr} → bindParams I named args ps i b L = .ok (ns, rs, L') →
    (∀ p ∈ ps, ∀ e, lastOf named p = some e → exprFits I.options e = true) ∧
    (∀ j p, ps[j]? = some p → lastOf named p = none → ∀ e, args[i + j]? = some e → exprFits I.options e = true)
  | [], _, _, _, _, _, _, _ => by simp
  | p :: ps, i, b, L, L', ns, rs, h => by
    unfold Gen.bindParams at h
    obtain ⟨⟨e, b2⟩, h1, h⟩ := except_bind h
    obtain ⟨x, h2, h⟩ := except_bind h
    have he : exprFits I.options e = true := by
      obtain ⟨r, w, hv, -⟩ := passArg_inv h2
      exact visit_needs hv
    have ih : ∃ L1 L1' ns rs, bindParams I named args ps (i + 1) b2 L1 = .ok (ns, rs, L1') := by
      cases x with
      | inl r => exact ⟨_, _, _, _, h⟩
      | inr r =>
        obtain ⟨⟨a, b, c⟩, h3, h⟩ := except_bind h
        exact ⟨_, _, _, _, h3⟩
    obtain ⟨L1, L1', ns1, rs1, h3⟩ := ih
    obtain ⟨k1, k2⟩ := bindParams_needs ps h3
    unfold Gen.paramArg at h1
    constructor
    · intro q hq e' he'
      rcases List.mem_cons.mp hq with rfl | hq
      · rw [he'] at h1; cases h1; exact he
      · exact k1 q hq e' he'
    · intro j q hq hn e' he'
      cases j with
      | zero =>
        simp only [List.getElem?_cons_zero, Option.some.injEq] at hq
        subst hq
        rw [hn] at h1
        dsimp only at h1
        split at h1
        · rw [Nat.add_zero] at he'
          rw [he'] at h1
          cases h1; exact he
        · cases h1
      | succ j =>
        simp only [List.getElem?_cons_succ] at hq
        exact k2 j q hq hn e' (by rw [show i + 1 + j = i + (j + 1) by omega]; exact he')

theorem exprsFit_of : {es : List Expr} → (∀ e ∈ es, exprFits I.options e = true) → exprsFit I.options es = true
  | [], _ => rfl
  | e :: es, h => by
    simp only [exprsFit, Bool.and_eq_true]
    exact ⟨h e (by simp), exprsFit_of fun e he => h e (List.mem_cons_of_mem _ he)⟩

theorem assoc_unique {α : Type} {k : Str} {v : α} : {l : List (Str × α)} → (l.map (·.1)).Nodup → (k, v) ∈ l → assoc l k = some v
  | [], _, h => by cases h
  | (k', v') :: l, hn, h => by
    simp only [List.map_cons, List.nodup_cons] at hn
    rw [assoc_cons]
    rcases List.mem_cons.mp h with h | h
    · cases h; rw [if_pos rfl]
    · rw [if_neg, assoc_unique hn.2 h]
      rintro rfl
      exact hn.1 (List.mem_map.mpr ⟨_, h, rfl⟩)

theorem args_need {args : List Expr} {params : List Str} (ha : ArgList args) (hnd : params.Nodup)
    (hlen : args.length = params.length) {named : List (Str × Expr)} (hn : namedArgs params args.reverse = .ok named)
    {L L' : Locals} {ns : List Str} {rs : List RExpr} (hb : bindParams I named args params 0 true L = .ok (ns, rs, L')) :
    argsFit params args = true ∧ exprsFit I.options args = true := by
  obtain ⟨pos, nms, front, back, rfl, hpos, rfl, hl, hnn, hmem⟩ := params_bound ha hnd hlen hn hb
  obtain ⟨k1, k2⟩ := bindParams_needs _ hb
  have hnamed : named = nms.map fun x => (x.1, asNamed x) := by
    rw [List.reverse_append, ← List.map_reverse] at hn
    have := (namedArgs_split (fun e he => hpos e (List.mem_reverse.mp he)) _ hn).1
    simpa using this
  have e1 : pos.filterMap argLabel = [] := by
    rw [List.filterMap_eq_nil_iff]
    intro e he
    cases e with
    | namedArg n v => exact absurd rfl (hpos _ he n v)
    | _ => rfl
  have e2 : ∀ l : List (Str × Expr), (l.map asNamed).filterMap argLabel = l.map (·.1) := by
    intro l
    induction l with
    | nil => rfl
    | cons x l ih => simpa [asNamed, argLabel] using ih
  have hdis : ∀ p ∈ front, p ∉ back := fun p hp hq => (List.nodup_append.mp hnd).2.2 p hp p hq rfl
  constructor
  · unfold argsFit
    simp only [List.filterMap_append]
    rw [e1, e2]
    simp only [List.nil_append, List.length_append, List.length_map, Nat.add_sub_cancel, Bool.and_eq_true, beq_iff_eq,
      List.all_eq_true, Bool.not_eq_true', List.contains_iff_mem]
    rw [← hl]
    simp only [List.take_left, List.drop_left]
    refine ⟨⟨⟨?_, ?_⟩, ?_⟩, ?_⟩
    · simp only [List.length_append, List.length_map] at hlen
      omega
    · intro p hp
      rw [← Bool.not_eq_true, List.contains_iff_mem, hmem]
      exact hdis p hp
    · exact fun p hp => (hmem p).mpr hp
    · exact fun p hp => List.mem_append_right _ ((hmem p).mp hp)
  · refine exprsFit_of fun e he => ?_
    rcases List.mem_append.mp he with he | he
    · obtain ⟨j, hj, rfl⟩ := List.mem_iff_getElem.mp he
      have hj' : j < front.length := by omega
      refine k2 j front[j] ?_ ?_ _ ?_
      · rw [List.getElem?_append_left hj', List.getElem?_eq_getElem hj']
      · cases hx : lastOf named front[j] with
        | none => rfl
        | some e =>
          have := lastOf_isSome.mp (by rw [hx]; rfl : (lastOf named front[j]).isSome = true)
          rw [hnamed] at this
          simp only [List.map_map, Function.comp_def] at this
          exact absurd ((hmem _).mp this) (hdis _ (List.getElem_mem hj'))
      · rw [Nat.zero_add, List.getElem?_append_left hj, List.getElem?_eq_getElem hj]
    · obtain ⟨x, hx, rfl⟩ := List.mem_map.mp he
      refine k1 x.1 (List.mem_append_right _ ((hmem _).mp (List.mem_map.mpr ⟨x, hx, rfl⟩))) _ ?_
      unfold lastOf
      refine assoc_unique ?_ ?_
      · rw [hnamed, List.map_reverse, List.Nodup, List.pairwise_reverse]
        have : (nms.map (·.1)).Pairwise fun a b => b ≠ a := hnn.imp fun h => Ne.symm h
        simpa [Function.comp_def] using this
      · rw [List.mem_reverse, hnamed]
        exact List.mem_map.mpr ⟨x, hx, rfl⟩

/-- The macros that can be called. -/
def MacrosSimple (ctx : Ctx) : Prop :=
  ∀ name d, assoc ctx.macros name = some d → ParsedList d.nodes ∧ SimpleList (ownNode · = true) d.nodes ∧ d.args.Nodup

theorem writeBlock_needs {name : Option Str} {ws : Ws} {s : List Stmt} : writeBlock rec I none ctx g name ws ≠ .ok (s, g') := by
  intro h
  unfold Gen.writeBlock at h
  obtain ⟨_, -, h⟩ := except_bind h
  obtain ⟨_, -, h⟩ := except_bind h
  cases h

theorem nodesFit_nil {o : Options} {ms : List (Str × MacroDef)} {top : Bool} {ns : List Node}
    (h : nodesFit o ms n top ns = true) : nodesFit o ms n top [] = true := by
  cases n with
  | zero => simp [nodesFit] at h
  | succ n => simp [nodesFit]

/-- A tag other than a call, a block, `include` and `extends`. -/
def plainTag : Node → Bool
  | .call _ _ _ _ | .blockDef _ _ _ _ | .include _ _ | .extends_ _ => false
  | _ => true

theorem tag_needs (ok : RecNeeds I H ctx bl P inside rec) (hnil : ∀ ns, inside ns = true → inside [] = true) {level : Level}
    {m : Node} (htag : plainTag m = true) (hp : ParsedNode m) (hs : ∀ x ∈ parts m, P x ∧ simpleNode x = true)
    (hsup : g.superBlock = bl) {s : List Stmt} (h : handleNode rec I H ctx level g m = .ok (s, g')) :
    Due I g g' (tagFits I.options inside (level = .top) m = true) := by
  have hself := hs m (parts_self m)
  cases m with
  | lit l =>
    obtain ⟨g1, h1, h⟩ := except_bind h
    cases h
    exact (due_visitLit h1).mono fun _ => rfl
  | comment ws c => cases h; exact (due_handleWs ws).mono fun _ => rfl
  | expr ws e =>
    cases h
    exact (due_handleWs ws).next ((due_push (.expr e)).mono fun k => k e rfl)
  | let_ ws t v =>
    rcases writeLet_inv h with ⟨s, g1, rfl, h1, -, rfl⟩ | ⟨e, r, w, sh, s, g1, rfl, h1, h2, h3, -, rfl⟩
    · exact ((due_handleWs ws).next ((due_writeBuf h1).next (due_same rfl rfl))).mono fun _ => rfl
    · refine ((due_handleWs ws).next ((due_flushIf h3).next (due_same rfl rfl))).mono fun _ => ?_
      simp only [tagFits, Bool.and_eq_true]
      exact ⟨hself.2, visit_needs h1⟩
  | if_ ws bs =>
    obtain ⟨ws1, c, ns, rest, pre, g1, code, g2, g3, -, h1, h2, h3, -, rfl⟩ := writeIf_inv h
    have d := ifBranches_needs ok true bs (fun w c ns hmem => ⟨hp.branch hmem, fun x hx =>
      hs x (List.mem_cons_of_mem _ (partsC_mem bs ns (List.mem_map.mpr ⟨_, hmem, rfl⟩) x hx))⟩) (((due_handleWs ws1).next (due_writeBuf h1)).1.trans hsup) h2
    refine ((due_handleWs ws1).next (due_writeBuf h1)).next ((d.then ((due_closeLine h3).next (due_same rfl rfl))).mono ?_)
    intro k
    simp only [tagFits, List.all_eq_true]
    rintro ⟨w, c, ns⟩ hmem
    obtain ⟨k1, k2⟩ := k w c ns hmem
    rw [Bool.and_eq_true]
    refine ⟨?_, k2⟩
    cases c with
    | none => rfl
    | some t => exact k1 t rfl
  | match_ ws1 e arms ws2 =>
    obtain ⟨ws, t, ns, rest, pre, g1, r, w, as, g2, g3, -, h1, h2, h3, h4, -, rfl⟩ := writeMatch_inv h
    have d := matchArms_needs ok arms (fun w c ns hmem => ⟨hp.arm hmem, fun x hx =>
      hs x (List.mem_cons_of_mem _ (partsW_mem arms ns (List.mem_map.mpr ⟨_, hmem, rfl⟩) x hx))⟩) ((((due_flushWs ws1).next (due_writeBuf h1)).next (due_openLine.next (due_handleWs ws))).1.trans hsup) h3
    refine ((due_flushWs ws1).next (due_writeBuf h1)).next
      (due_openLine.next ((due_handleWs ws).next ((d.then (due_closeLine h4)).mono ?_)))
    intro k
    simp only [tagFits, Bool.and_eq_true, List.all_eq_true]
    refine ⟨visit_needs h2, ?_⟩
    rintro ⟨w, c, ns⟩ hmem
    exact k w c ns hmem
  | loop ws1 var iter cond body ws2 els ws3 =>
    obtain ⟨r, w, pre, g1, filt, b, g2, fl, g3, g4, h1, h2, h3, h4, h5, h6, h7⟩ := writeLoop_inv h
    have hsb : SimpleList P body := fun x hx => hs x (by simp only [parts, List.mem_cons, List.mem_append]; exact .inr (.inl hx))
    have hse : SimpleList P els := fun x hx => hs x (by simp only [parts, List.mem_cons, List.mem_append]; exact .inr (.inr hx))
    have hcond : optFits I.options cond = true := by
      cases cond with
      | none => rfl
      | some c =>
        unfold Gen.loopFilter at h3
        obtain ⟨⟨rc, wc⟩, h3, -⟩ := except_bind h3
        exact visit_needs h3
    have d1 : Due I g g1 True := (due_handleWs ws1).next (Due.next (g1 := { handleWs I g ws1 with locals := (handleWs I g ws1).locals.push })
      (due_same rfl rfl) (due_writeBuf h2))
    have d2 : Due I g1 (declare { g1.openLine with locals := g1.openLine.locals.push } var true) True :=
      due_openLine.next (due_same rfl rfl)
    have d3 := due_openLine.next (ok body _ _ _ hp.loop.1 hsb (((d1.next d2).next due_openLine).1.trans hsup) h4)
    have d4 := ((due_handleWs ws2).next (due_writeBuf h5)).next
      ((due_same (g' := { g3 with locals := g3.locals.pop }) rfl rfl).next (due_closeLine h6))
    have d := (d1.next d2).next (d3.then d4)
    rcases h7 with ⟨-, eb, g5, fl2, g6, g7, g8, q1, q2, q3, q4, -, rfl⟩ | ⟨rfl, fl2, g6, g8, q1, q2, -, rfl⟩
    · have d0 := due_openLine.next (due_same (I := I) (g := g4.openLine) (g' := { g4.openLine with locals := g4.openLine.locals.push }) rfl rfl)
      have d5 := d0.next (ok els _ _ _ hp.loop.2 hse ((d.true.next d0).1.trans hsup) q1)
      have d6 := ((due_handleWs ws3).next (due_writeBuf q2)).next
        ((due_same (g' := { g6 with locals := g6.locals.pop }) rfl rfl).next ((due_closeLine q3).next ((due_closeLine q4).next
          (due_same (g' := { g8 with locals := g8.locals.pop }) rfl rfl))))
      refine (d.trans (d5.then d6)).mono ?_
      rintro ⟨k1, k2⟩
      simp only [tagFits, Bool.and_eq_true]
      exact ⟨⟨⟨visit_needs h1, hcond⟩, k1⟩, k2⟩
    · have d6 := ((due_handleWs ws3).next (due_writeBuf q1)).next
        ((due_closeLine q2).next (due_same (g' := { g8 with locals := g8.locals.pop }) rfl rfl))
      refine (d.then d6).mono ?_
      intro k1
      simp only [tagFits, Bool.and_eq_true]
      exact ⟨⟨⟨visit_needs h1, hcond⟩, k1⟩, hnil _ k1⟩
  | filterBlock ws1 f ns ws2 => cases hself.2
  | «macro» ws1 name args ns ws2 =>
    unfold Gen.handleNode at h
    dsimp only at h
    split at h
    · rename_i hl
      cases h
      exact ((due_flushWs ws1).next (due_prepareWs ws2)).mono fun _ => by simpa [tagFits] using hl
    · cases h
  | raw ws1 l ws2 =>
    obtain ⟨g1, h1, h⟩ := except_bind h
    cases h
    exact ((due_handleWs ws1).next ((due_visitLit h1).next (due_handleWs ws2))).mono fun _ => rfl
  | import_ ws p s =>
    unfold Gen.handleNode at h
    dsimp only at h
    split at h
    · rename_i hl
      cases h
      exact (due_handleWs ws).mono fun _ => by simpa [tagFits] using hl
    · cases h
  | call _ _ _ _ => cases htag
  | blockDef _ _ _ _ => cases htag
  | «include» _ _ => cases htag
  | extends_ _ => cases htag
  | break_ ws =>
    obtain ⟨⟨s, g1⟩, h1, h⟩ := except_bind h
    cases h
    exact ((due_handleWs ws).next (due_writeBuf h1)).mono fun _ => rfl
  | continue_ ws =>
    obtain ⟨⟨s, g1⟩, h1, h⟩ := except_bind h
    cases h
    exact ((due_handleWs ws).next (due_writeBuf h1)).mono fun _ => rfl

theorem node_needs (ok : RecNeeds I none ctx none (ownNode · = true) (nodesFit I.options ctx.macros n false) rec)
    (hm : MacrosSimple ctx) (hi : ctx.imports = []) {level : Level} {m : Node}
    (hp : ParsedNode m) (hs : ∀ x ∈ parts m, ownNode x = true ∧ simpleNode x = true) (hsup : g.superBlock = none) {s : List Stmt}
    (h : handleNode rec I none ctx level g m = .ok (s, g')) :
    Due I g g' (nodesFit I.options ctx.macros (n + 1) (level = .top) [m] = true) := by
  obtain ⟨b, -, -, hargs, -, -, -⟩ := hp.ok
  have hself := hs m (parts_self m)
  simp only [nodesFit, List.all_cons, List.all_nil, Bool.and_true]
  cases m with
  | call ws scope name args =>
    unfold Gen.handleNode at h
    dsimp only at h
    split at h
    · exact absurd h writeBlock_needs
    · rename_i hname
      obtain ⟨d, own, pre, g1, named, ns, rs, L, b, g2, fl, g3, g4, h1, h2, h3, h4, h5, h6, h7, h8, rfl, -⟩ := writeCall_inv h
      cases scope with
      | some sc =>
        unfold Gen.findMacro at h1
        rw [hi] at h1
        cases h1
      | none =>
        unfold Gen.findMacro at h1
        dsimp only at h1
        split at h1
        · cases h1
        · rename_i d' hd
          cases h1
          obtain ⟨hm1, hm2, hm3⟩ := hm _ _ hd
          obtain ⟨a1, a2⟩ := args_need hargs hm3 h3 h4 h5
          have d1 : Due I g g1 True := (due_flushWs ws).next (Due.next (g1 := { flushWs I g ws with locals := (flushWs I g ws).locals.push })
            (due_same rfl rfl) (due_writeBuf h2))
          have d2 : Due I g1 { prepareWs I g1.openLine d.ws1 with locals := L } True := due_openLine.next (due_same rfl rfl)
          have d3 := ok d.nodes _ _ _ hm1 hm2 ((d1.next d2).1.trans hsup) h6
          have d4 := ((due_flushWs d.ws2).next (due_writeBuf h7)).next ((due_closeLine h8).next
            ((due_same (g' := { g4 with locals := g4.locals.pop }) rfl rfl).next (due_prepareWs ws)))
          refine ((d1.next d2).next (d3.then d4)).mono ?_
          intro k
          dsimp only
          rw [hd]
          simp only [Bool.and_eq_true, bne_iff_ne]
          exact ⟨hname, ⟨a1, a2⟩, k⟩
  | blockDef ws1 name ns ws2 => cases hself.1
  | «include» ws path => cases hself.1
  | import_ ws p s => cases hself.1
  | extends_ p => cases hself.1
  | _ => exact tag_needs ok (fun _ => nodesFit_nil) rfl hp hs hsup h

theorem nodes_need (ok : RecNeeds I none ctx none (ownNode · = true) (nodesFit I.options ctx.macros n false) rec) (hm : MacrosSimple ctx) (hi : ctx.imports = []) {level : Level} :
    (ns : List Node) → {g g' : Gen} → {s : List Stmt} → ParsedList ns → SimpleList (ownNode · = true) ns → g.superBlock = none →
    handleNodes rec I none ctx level ns g = .ok (s, g') →
    Due I g g' (nodesFit I.options ctx.macros (n + 1) (level = .top) ns = true)
  | [], _, _, _, _, _, _, h => by cases h; exact (due_same rfl rfl).mono fun _ => by simp [nodesFit]
  | m :: ns, g, g', s, hp, hs, hsup, h => by
    unfold Gen.handleNodes at h
    obtain ⟨⟨s1, g1⟩, h1, h⟩ := except_bind h
    obtain ⟨⟨s2, g2⟩, h2, h⟩ := except_bind h
    cases h
    have d1 := node_needs ok hm hi hp.head (fun x hx => hs x (by simp only [partsL, List.mem_append]; exact .inl hx)) hsup h1
    have d2 := nodes_need ok hm hi ns hp.tail (fun x hx => hs x (by simp only [partsL, List.mem_append]; exact .inr hx)) (d1.1.trans hsup) h2
    rw [nodesFit_cons, Bool.and_eq_true]
    exact d1.trans d2

theorem handle_needs_once (ok : RecNeeds I none ctx none (ownNode · = true) (nodesFit I.options ctx.macros n false) rec) (hm : MacrosSimple ctx) (hi : ctx.imports = []) {level : Level}
    {nodes : List Node} (hp : ParsedList nodes) (hsi : SimpleList (ownNode · = true) nodes) (hsup : g.superBlock = none) {s : List Stmt}
    (h : (do
      let (s, g) ← handleNodes rec I none ctx level nodes g
      let (s', g) ← handleEnd I level g
      return (s ++ s', g) : GRes) = .ok (s, g')) :
    Due I g g' (nodesFit I.options ctx.macros (n + 1) (level = .top) nodes = true) ∧ (level = .top → Owes I g') := by
  obtain ⟨⟨s1, g1⟩, h1, h⟩ := except_bind h
  obtain ⟨⟨s2, g2⟩, h2, h⟩ := except_bind h
  cases h
  unfold Gen.handleEnd at h2
  have d1 := nodes_need ok hm hi nodes hp hsi hsup h1
  split at h2
  · dsimp only at h2
    refine ⟨d1.then ?_, fun _ => ?_⟩
    · split at h2
      · exact (due_flushWs _).next (due_writeBuf h2)
      · exact due_writeBuf h2
    · have := writeBuf_pend h2
      intro e he
      rw [this] at he
      cases he
  · rename_i hl
    cases h2
    exact ⟨d1, fun k => absurd k hl⟩

end

theorem handle_needs {I : GenInput} {ctx : Ctx} (hm : MacrosSimple ctx) (hi : ctx.imports = []) :
    (n : Nat) → RecNeeds I none ctx none (ownNode · = true) (nodesFit I.options ctx.macros n false) (handle I n)
  | 0 => by
    intro nodes g s g' _ _ _ h
    unfold handle at h
    cases h
  | n + 1 => by
    intro nodes g s g' hp hs hsup h
    unfold handle at h
    have := (handle_needs_once (handle_needs hm hi n) hm hi hp hs hsup h).1
    simpa using this

/-- What the generator accepts keeps the rules. -/
theorem generate_needs {I : GenInput} (hI : I.block = none) {ctx : Ctx} (hm : MacrosSimple ctx) (hi : ctx.imports = []) {n : Nat}
    (hp : ParsedList ctx.nodes) (hs : SimpleList (ownNode · = true) ctx.nodes) {code : List Stmt} (h : generate I n none ctx = .ok code) :
    nodesFit I.options ctx.macros n true ctx.nodes = true := by
  unfold generate at h
  obtain ⟨⟨s, g⟩, h1, -⟩ := except_bind h
  change Gen.handle I n none ctx ctx.nodes .top (Gen.new I .empty 2 false) = .ok (s, g) at h1
  cases n with
  | zero => unfold handle at h1; cases h1
  | succ n =>
    unfold handle at h1
    obtain ⟨d, ho⟩ := handle_needs_once (handle_needs hm hi n) hm hi hp hs rfl h1
    have hd : (Gen.new I .empty 2 false).pdiscard = false := by simp [Gen.new, hI]
    have := ((d.2 hd).2 (ho rfl)).2
    simpa using this

theorem parts_mem {m : Node} : {nodes : List Node} → m ∈ nodes → ∀ x ∈ parts m, x ∈ partsL nodes
  | a :: l, hm, x, hx => by
    simp only [partsL, List.mem_append]
    rcases List.mem_cons.mp hm with rfl | hm
    · exact .inl hx
    · exact .inr (parts_mem hm x hx)

theorem alone_needs {env : DeriveEnv} {c : Config} {ident : Str} {args : TemplateArgs} (hb : args.block = none)
    {t : TemplateInput} (ht : TemplateInput.new env.files env.guess c ident args = .ok t) (htb : t.block = args.block)
    (hc : t.syn.CommentOk) {src : Str} (hs : mainSource env t = .ok src) {nodes : List Node}
    (hp : parseNodes env.isLower t.syn src = some nodes) (hw : standsAlone nodes = true)
    (hsi : (partsL nodes).all simpleNode = true) {n : Nat} {code : List Stmt}
    (h : buildTemplate env c ident args n = .ok code) : wellFormed ⟨env.json, c.escapers⟩ n nodes = true := by
  have hpar : ParsedList nodes := by
    unfold parseNodes at hp
    split at hp
    · rename_i ns hok
      cases hp
      exact parse_parsed (env := ⟨t.syn, env.isLower⟩) hc hok
    · cases hp
  obtain ⟨macros, h1, h2⟩ := contextNew_alone (find := (env.loader c t.syn).find t.path) hw
  have hown : OwnList nodes := by
    unfold standsAlone at hw
    rw [Bool.and_eq_true, List.all_eq_true] at hw
    exact hw.1
  have hsim : SimpleList (ownNode · = true) nodes := fun x hx => ⟨hown x hx, List.all_eq_true.mp hsi x hx⟩
  cases n with
  | zero =>
    unfold buildTemplate at h
    rw [ht] at h
    dsimp only [bind, Except.bind] at h
    rw [hs] at h
    cases h
  | succ n =>
    unfold buildTemplate at h
    rw [ht] at h
    dsimp only [bind, Except.bind] at h
    rw [hs] at h
    dsimp only at h
    rw [find_own (ld := env.loader c t.syn) (by exact hp) hown n] at h
    have e : makeContexts (env.loader c t.syn).find (dedupKeys [(t.path, nodes)] [])
        = .ok [(t.path, { nodes, extends_ := none, blocks := [], macros, imports := [] })] := by
      simp only [dedupKeys, List.contains_nil, Bool.false_eq_true, if_false, makeContexts, h1]
      rfl
    dsimp only at h
    rw [e] at h
    dsimp only at h
    have e2 : assoc [(t.path, ({ nodes, extends_ := none, blocks := [], macros, imports := [] } : Ctx))] t.path
        = some { nodes, extends_ := none, blocks := [], macros, imports := [] } := by simp [assoc]
    rw [e2] at h
    unfold wellFormed
    rw [Bool.and_eq_true]
    refine ⟨hw, ?_⟩
    rw [← nodesFit_congr h2]
    refine generate_needs (I := genInput env c t [(t.path, { nodes, extends_ := none, blocks := [], macros, imports := [] })])
      (ctx := { nodes, extends_ := none, blocks := [], macros, imports := [] }) (by exact htb.trans hb) ?_ rfl hpar hsim h
    intro name d hd
    have hd : assoc (ownMacros nodes) name = some d := (h2 name).symm.trans hd
    refine ⟨macros_parsed hpar hd, ?_⟩
    have h3 := assoc_pair hd
    simp only [ownMacros, List.mem_reverse, List.mem_filterMap] at h3
    obtain ⟨m, hm, h3⟩ := h3
    have hm' : ∀ x ∈ parts m, x ∈ partsL nodes := by
      exact fun x hx => parts_mem hm x hx
    cases m with
    | «macro» w1 nm as body w2 =>
      cases h3
      refine ⟨fun x hx => hsim x (hm' x (List.mem_cons_of_mem _ hx)), ?_⟩
      simpa [simpleNode] using (hsim _ (hm' _ (parts_self _))).2
    | _ => cases h3

end Askama
