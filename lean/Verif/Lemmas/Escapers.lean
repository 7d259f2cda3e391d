import Verif.Lemmas.Woven
import Verif.Lemmas.Depth

/-!
The generator with two escapers: it ends in the same way with both. Used for C80.
-/

namespace Askama

open Askama.Spec Gen

/-! ## Outcomes -/

/-- Both fail with the same error, or both succeed, with related results. -/
def Even {α β : Type} (R : α → β → Prop) (a : Except GErr α) (b : Except GErr β) : Prop :=
  (∃ e, a = .error e ∧ b = .error e) ∨ ∃ x y, a = .ok x ∧ b = .ok y ∧ R x y

theorem Even.pure {α β : Type} {R : α → β → Prop} {x : α} {y : β} (h : R x y) : Even R (.ok x) (.ok y) := .inr ⟨x, y, rfl, rfl, h⟩

theorem Even.fail {α β : Type} {R : α → β → Prop} {e : GErr} : Even R (.error e : Except GErr α) (.error e : Except GErr β) :=
  .inl ⟨e, rfl, rfl⟩

theorem Even.bind {α β γ δ : Type} {R : α → β → Prop} {S : γ → δ → Prop} {a : Except GErr α} {b : Except GErr β}
    {f : α → Except GErr γ} {f' : β → Except GErr δ} (h : Even R a b) (hf : ∀ x y, R x y → Even S (f x) (f' y)) :
    Even S (a >>= f) (b >>= f') := by
  rcases h with ⟨e, rfl, rfl⟩ | ⟨x, y, rfl, rfl, hxy⟩
  · exact .fail
  · exact hf x y hxy

theorem Even.same {α γ δ : Type} {S : γ → δ → Prop} {a b : Except GErr α} {f : α → Except GErr γ} {f' : α → Except GErr δ}
    (hab : b = a) (hf : ∀ x, a = .ok x → Even S (f x) (f' x)) : Even S (a >>= f) (b >>= f') := by
  subst hab
  cases b with
  | error e => exact .fail
  | ok x => exact hf x rfl

/-- Anything. -/
def Any {α β : Type} (_ : α) (_ : β) : Prop := True

/-- The other escaper. -/
def escI (I : GenInput) (x : Str) : GenInput := { I with escaper := x }

variable {I : GenInput} {z : Str}

/-! ## Expressions -/

/-- A single visit, whatever is made of it. -/
theorem Even.one {α β γ δ : Type} {a : Except GErr α} {b : Except GErr β} {f : α → Except GErr γ} {f' : β → Except GErr δ}
    (h : Even Any a b) (hf : ∀ x, ∃ y, f x = .ok y) (hf' : ∀ x, ∃ y, f' x = .ok y) : Even Any (a >>= f) (b >>= f') := by
  refine h.bind fun x y _ => ?_
  obtain ⟨u, hu⟩ := hf x
  obtain ⟨v, hv⟩ := hf' y
  rw [hu, hv]; exact .pure trivial

mutual
theorem visitExpr_even (L L' : Locals) : (e : Expr) → Even Any (visitExpr I L e) (visitExpr (escI I z) L' e)
  | .boolLit s => by simp only [visitExpr]; exact .pure trivial
  | .numLit s => by simp only [visitExpr]; exact .pure trivial
  | .strLit s => by simp only [visitExpr]; exact .pure trivial
  | .charLit s => by simp only [visitExpr]; exact .pure trivial
  | .var s => by simp only [visitExpr]; exact .pure trivial
  | .path p => by simp only [visitExpr]; exact .pure trivial
  | .rustMacro p a => by simp only [visitExpr]; exact .pure trivial
  | .generated s => by simp only [visitExpr]; exact .pure trivial
  | .array es => by
    simp only [visitExpr]
    exact (visitList_even L L' es).1.one (fun _ => ⟨_, rfl⟩) fun _ => ⟨_, rfl⟩
  | .tuple es => by
    simp only [visitExpr]
    exact (visitList_even L L' es).1.one (fun _ => ⟨_, rfl⟩) fun _ => ⟨_, rfl⟩
  | .attr e a => by
    have ih := visitExpr_even L L' e
    cases e with
    | var x =>
      simp only [visitExpr]
      repeat' split
      all_goals first | exact .fail | exact .pure trivial
    | _ =>
      unfold visitExpr
      exact ih.one (fun _ => ⟨_, rfl⟩) fun _ => ⟨_, rfl⟩
  | .index e k => by
    simp only [visitExpr]
    refine (visitExpr_even L L' e).bind fun x y _ => ?_
    exact (visitExpr_even L L' k).one (fun _ => ⟨_, rfl⟩) fun _ => ⟨_, rfl⟩
  | .filter name args => by
    obtain ⟨hl, ha, ht⟩ := visitList_even L L' args
    have hfe : ∀ n, findEscaper (escI I z) n = findEscaper I n := fun _ => rfl
    have hj : (escI I z).json = I.json := rfl
    unfold visitExpr
    simp only [hfe, hj]
    repeat' split
    all_goals first
      | exact .fail
      | exact hl.one (fun _ => ⟨_, rfl⟩) fun _ => ⟨_, rfl⟩
      | exact (ha _ (by simp)).one (fun _ => ⟨_, rfl⟩) fun _ => ⟨_, rfl⟩
      | exact ht.one (fun _ => ⟨_, rfl⟩) fun _ => ⟨_, rfl⟩
  | .namedArg n e => by
    simp only [visitExpr]
    exact (visitExpr_even L L' e).one (fun _ => ⟨_, rfl⟩) fun _ => ⟨_, rfl⟩
  | .unary op e => by
    simp only [visitExpr]
    exact (visitExpr_even L L' e).one (fun _ => ⟨_, rfl⟩) fun _ => ⟨_, rfl⟩
  | .group e => by
    simp only [visitExpr]
    exact (visitExpr_even L L' e).one (fun _ => ⟨_, rfl⟩) fun _ => ⟨_, rfl⟩
  | .try_ e => by
    simp only [visitExpr]
    exact (visitExpr_even L L' e).one (fun _ => ⟨_, rfl⟩) fun _ => ⟨_, rfl⟩
  | .binop op a b => by
    simp only [visitExpr]
    refine (visitExpr_even L L' a).bind fun x y _ => ?_
    exact (visitExpr_even L L' b).one (fun _ => ⟨_, rfl⟩) fun _ => ⟨_, rfl⟩
  | .range op a b => by
    simp only [visitExpr]
    refine (visitOpt_even L L' a).bind fun x y _ => ?_
    exact (visitOpt_even L L' b).one (fun _ => ⟨_, rfl⟩) fun _ => ⟨_, rfl⟩
  | .call f args => by
    have ihf := visitExpr_even L L' f
    obtain ⟨hl, ha, -⟩ := visitList_even L L' args
    have gen : Even Any
        (do let (r, _) ← visitExpr I L f; let rs ← visitList I L args; return (RExpr.call r rs, false))
        (do let (r, _) ← visitExpr (escI I z) L' f; let rs ← visitList (escI I z) L' args; return (RExpr.call r rs, false)) := by
      refine ihf.bind fun x y _ => ?_
      exact hl.one (fun _ => ⟨_, rfl⟩) fun _ => ⟨_, rfl⟩
    cases f with
    | var x =>
      unfold visitExpr
      exact hl.one (fun _ => ⟨_, rfl⟩) fun _ => ⟨_, rfl⟩
    | attr o m =>
      cases o with
      | var x =>
        unfold visitExpr
        repeat' split
        all_goals first
          | exact .fail
          | exact hl.one (fun _ => ⟨_, rfl⟩) fun _ => ⟨_, rfl⟩
          | exact (ha _ (by simp)).one (fun _ => ⟨_, rfl⟩) fun _ => ⟨_, rfl⟩
      | _ => rw [visitExpr_call I L _ args (by simp) (by simp), visitExpr_call (escI I z) L' _ args (by simp) (by simp)]; exact gen
    | _ => rw [visitExpr_call I L _ args (by simp) (by simp), visitExpr_call (escI I z) L' _ args (by simp) (by simp)]; exact gen
theorem visitList_even (L L' : Locals) : (es : List Expr) → Even Any (visitList I L es) (visitList (escI I z) L' es)
    ∧ (∀ e ∈ es, Even Any (visitExpr I L e) (visitExpr (escI I z) L' e))
    ∧ Even Any (visitList I L es.tail) (visitList (escI I z) L' es.tail)
  | [] => ⟨.pure trivial, by simp, .pure trivial⟩
  | e :: es => by
    have h1 := visitExpr_even L L' e
    obtain ⟨h2, h3, -⟩ := visitList_even L L' es
    refine ⟨?_, ?_, h2⟩
    · simp only [visitList]
      refine h1.bind fun x y _ => ?_
      exact h2.one (fun _ => ⟨_, rfl⟩) fun _ => ⟨_, rfl⟩
    · intro a ha
      rcases List.mem_cons.mp ha with rfl | ha
      · exact h1
      · exact h3 a ha
theorem visitOpt_even (L L' : Locals) : (e : Option Expr) → Even Any (visitOpt I L e) (visitOpt (escI I z) L' e)
  | none => .pure trivial
  | some e => by
    simp only [visitOpt]
    exact (visitExpr_even L L' e).one (fun _ => ⟨_, rfl⟩) fun _ => ⟨_, rfl⟩
end

/-! ## Scopes -/

/-- A scope without what the variables stand for. -/
def blindS (s : Scope LocalMeta) : Scope LocalMeta := s.map fun e => (e.1, { refs := none, initialized := e.2.initialized })

/-- The scopes without what the variables stand for. -/
def blind (L : Locals) : Locals := ⟨L.scopes.map blindS, L.parent.map blindS⟩

theorem blindS_get (s : Scope LocalMeta) (k : Str) :
    Scope.get (blindS s) k = (Scope.get s k).map fun m => { refs := none, initialized := m.initialized } := by
  unfold Scope.get blindS
  induction s with
  | nil => rfl
  | cons e s ih =>
    simp only [List.map_cons, List.find?_cons]
    cases e.1 == k
    · exact ih
    · rfl

theorem blind_find (ss : List (Scope LocalMeta)) (k : Str) :
    (ss.map blindS).findSome? (fun s => Scope.get s k)
      = (ss.findSome? fun s => Scope.get s k).map fun m => { refs := none, initialized := m.initialized } := by
  induction ss with
  | nil => rfl
  | cons s ss ih =>
    simp only [List.map_cons, List.findSome?_cons, blindS_get]
    cases Scope.get s k
    · exact ih
    · rfl

theorem blind_get (L : Locals) (k : Str) :
    MapChain.get (blind L) k = (MapChain.get L k).map fun m => { refs := none, initialized := m.initialized } := by
  unfold MapChain.get blind
  dsimp only
  rw [blind_find, blind_find]
  cases L.scopes.findSome? fun s => Scope.get s k <;> rfl

/-- The same variables. -/
def SameVars (L L' : Locals) : Prop := blind L' = blind L

variable {L L' : Locals}

theorem SameVars.push (h : SameVars L L') : SameVars (MapChain.push L) (MapChain.push L') := by
  unfold SameVars blind at h ⊢
  injection h with h1 h2
  unfold MapChain.push
  simp only [List.map_cons, h1, h2]

theorem SameVars.pop (h : SameVars L L') : SameVars (MapChain.pop L) (MapChain.pop L') := by
  unfold SameVars blind at h ⊢
  injection h with h1 h2
  unfold MapChain.pop
  dsimp only
  rw [h2, List.map_tail, List.map_tail, h1]

theorem SameVars.insert (h : SameVars L L') (k : Str) {m m' : LocalMeta} (hm : m'.initialized = m.initialized) :
    SameVars (MapChain.insert L k m) (MapChain.insert L' k m') := by
  obtain ⟨ss, ps⟩ := L
  obtain ⟨ss', ps'⟩ := L'
  unfold SameVars blind at h ⊢
  injection h with h1 h2
  dsimp only at h1 h2
  unfold MapChain.insert
  cases ss with
  | nil =>
    cases ss' with
    | nil => dsimp only; rw [h2]
    | cons s' ss' => cases h1
  | cons s ss =>
    cases ss' with
    | nil => cases h1
    | cons s' ss' =>
      simp only [List.map_cons, List.cons.injEq] at h1
      have e : ∀ (x : LocalMeta) (s : Scope LocalMeta), blindS ((k, x) :: s) = (k, { refs := none, initialized := x.initialized }) :: blindS s :=
        fun _ _ => rfl
      simp only [List.map_cons, e, h1.1, h1.2, h2, hm]

theorem SameVars.withParent (h : SameVars L L') : SameVars (MapChain.withParent L) (MapChain.withParent L') := by
  unfold SameVars blind at h ⊢
  injection h with h1 h2
  unfold MapChain.withParent
  simp only [List.map_append, h1, h2]

theorem SameVars.get (h : SameVars L L') (k : Str) :
    (MapChain.get L' k).map LocalMeta.initialized = (MapChain.get L k).map LocalMeta.initialized := by
  have := congrArg (fun M => (MapChain.get M k).map LocalMeta.initialized) (show blind L' = blind L from h)
  simpa only [blind_get, Option.map_map, Function.comp_def] using this

theorem SameVars.isNone (h : SameVars L L') (k : Str) : (MapChain.get L' k).isNone = (MapChain.get L k).isNone := by
  have := congrArg Option.isNone (h.get k)
  simpa only [Option.isNone_map] using this

theorem SameVars.isCurrentEmpty (h : SameVars L L') : MapChain.isCurrentEmpty L' = MapChain.isCurrentEmpty L := by
  obtain ⟨ss, ps⟩ := L
  obtain ⟨ss', ps'⟩ := L'
  unfold SameVars blind at h
  injection h with h1 h2
  dsimp only at h1 h2
  unfold MapChain.isCurrentEmpty
  cases ss with
  | nil =>
    cases ss' with
    | nil => rfl
    | cons s' ss' => cases h1
  | cons s ss =>
    cases ss' with
    | nil => cases h1
    | cons s' ss' =>
      simp only [List.map_cons, List.cons.injEq] at h1
      dsimp only
      have := congrArg List.isEmpty h1.1
      simpa only [blindS, List.isEmpty_map] using this

theorem SameVars.size (h : SameVars L L') : localsSize L' = localsSize L := by
  have e : ∀ M : Locals, localsSize M = localsSize (blind M) := by
    intro M
    unfold localsSize blind
    rw [← List.map_append, List.map_map]
    congr 1
    exact List.map_congr_left fun s _ => by simp [blindS]
  rw [e L', e L, show blind L' = blind L from h]

theorem SameVars.free (h : SameVars L L') : (k id : Nat) → freeFilterVar L' k id = freeFilterVar L k id
  | 0, _ => rfl
  | k + 1, id => by unfold freeFilterVar; rw [h.isNone, h.free k]

theorem SameVars.declare (h : SameVars L L') (b : Bool) : (names : List Str) →
    SameVars (names.foldl (fun L n => L.insert n { refs := none, initialized := b }) L)
      (names.foldl (fun L n => L.insert n { refs := none, initialized := b }) L') := by
  intro names
  induction names generalizing L L' with
  | nil => exact h
  | cons n names ih => exact ih (h.insert n rfl)

mutual
theorem SameVars.isShadowing (h : SameVars L L') : (t : Target) → isShadowing L' t = isShadowing L t
  | .name n => by
    unfold Gen.isShadowing
    have := h.get (normalizeIdentifier n)
    cases h1 : MapChain.get L (normalizeIdentifier n) <;> cases h2 : MapChain.get L' (normalizeIdentifier n) <;> rw [h1, h2] at this
    · cases this
    · cases this
    · exact congrArg Except.ok (Option.some.inj this)
  | .tuple p ts => by unfold Gen.isShadowing; exact h.isShadowingList ts
  | .struct p ts => by unfold Gen.isShadowing; exact h.isShadowingFields ts
  | .numLit _ | .strLit _ | .charLit _ | .boolLit _ | .path _ | .orChain _ => by unfold Gen.isShadowing; rfl
theorem SameVars.isShadowingList (h : SameVars L L') : (ts : List Target) → isShadowingList L' ts = isShadowingList L ts
  | [] => by unfold Gen.isShadowingList; rfl
  | t :: ts => by unfold Gen.isShadowingList; rw [h.isShadowing t, h.isShadowingList ts]
theorem SameVars.isShadowingFields (h : SameVars L L') : (ts : List (Str × Target)) → isShadowingFields L' ts = isShadowingFields L ts
  | [] => by unfold Gen.isShadowingFields; rfl
  | (_, t) :: ts => by unfold Gen.isShadowingFields; rw [h.isShadowing t, h.isShadowingFields ts]
end

/-! ## Code -/

/-- The same lines, as far as their indentation goes. -/
def Shape (s s' : List Stmt) : Prop := ∀ d, fitsList d s' = fitsList d s

theorem Shape.refl (s : List Stmt) : Shape s s := fun _ => rfl

theorem fitsList_append_eq (d : Nat) (a b : List Stmt) : fitsList d (a ++ b) = (fitsList d a && fitsList d b) := by
  rw [Bool.eq_iff_iff, fitsList_append, Bool.and_eq_true]

theorem Shape.append {a a' b b' : List Stmt} (h : Shape a a') (h' : Shape b b') : Shape (a ++ b) (a' ++ b') := by
  intro d; rw [fitsList_append_eq, fitsList_append_eq, h d, h' d]

/-! ## States -/

/-- What is to be written, without the expressions that were made already. -/
def blindW : Writable → Writable
  | .generated _ _ => .generated .self_ false
  | w => w

/-- The same but for what variables and expressions stand for. -/
structure Alike (g g' : Gen) : Prop where
  locals : SameVars g.locals g'.locals
  nextWs : g'.nextWs = g.nextWs
  skipWs : g'.skipWs = g.skipWs
  superBlock : g'.superBlock = g.superBlock
  pend : g'.pend.map blindW = g.pend.map blindW
  pdiscard : g'.pdiscard = g.pdiscard
  indent : g'.indent = g.indent
  discard : g'.discard = g.discard

/-- The results of the functions of the generator. -/
def AlikeR (x y : List Stmt × Gen) : Prop := Shape x.1 y.1 ∧ Alike x.2 y.2

variable {g g' : Gen}

theorem Alike.withLocals (h : Alike g g') {L L' : Locals} (hL : SameVars L L') : Alike { g with locals := L } { g' with locals := L' } :=
  ⟨hL, h.nextWs, h.skipWs, h.superBlock, h.pend, h.pdiscard, h.indent, h.discard⟩

theorem Alike.pushL (h : Alike g g') : Alike { g with locals := g.locals.push } { g' with locals := g'.locals.push } :=
  h.withLocals h.locals.push

theorem Alike.popL (h : Alike g g') : Alike { g with locals := g.locals.pop } { g' with locals := g'.locals.pop } :=
  h.withLocals h.locals.pop

theorem Alike.push (h : Alike g g') {x x' : Writable} (hx : blindW x' = blindW x) : Alike (g.push x) (g'.push x') := by
  unfold Gen.push
  rw [h.pdiscard]
  split
  · exact h
  · refine ⟨h.locals, h.nextWs, h.skipWs, h.superBlock, ?_, rfl, h.indent, h.discard⟩
    simp only [List.map_append, h.pend, List.map_cons, List.map_nil, hx]

theorem Alike.withNext (h : Alike g g') (x : Option Str) : Alike { g with nextWs := x } { g' with nextWs := x } :=
  ⟨h.locals, rfl, h.skipWs, h.superBlock, h.pend, h.pdiscard, h.indent, h.discard⟩

theorem Alike.withSkip (h : Alike g g') (x : WH) : Alike { g with skipWs := x } { g' with skipWs := x } :=
  ⟨h.locals, h.nextWs, rfl, h.superBlock, h.pend, h.pdiscard, h.indent, h.discard⟩

theorem Alike.flushWs (h : Alike g g') (ws : Ws) : Alike (Gen.flushWs I g ws) (Gen.flushWs (escI I z) g' ws) := by
  unfold Gen.flushWs
  rw [h.nextWs]
  cases g.nextWs with
  | none => exact h
  | some val =>
    dsimp only
    have e : shouldTrimWs (escI I z) ws.l = shouldTrimWs I ws.l := rfl
    rw [e]
    cases shouldTrimWs I ws.l with
    | suppress => exact h.withNext none
    | preserve =>
      dsimp only
      split
      · exact h.withNext none
      · exact (h.push rfl).withNext none
    | minimize =>
      dsimp only
      split
      · exact h.withNext none
      · exact (h.push rfl).withNext none

theorem Alike.prepareWs (h : Alike g g') (ws : Ws) : Alike (Gen.prepareWs I g ws) (Gen.prepareWs (escI I z) g' ws) := h.withSkip _

theorem Alike.handleWs (h : Alike g g') (ws : Ws) : Alike (Gen.handleWs I g ws) (Gen.handleWs (escI I z) g' ws) :=
  (h.flushWs ws).prepareWs ws

theorem Alike.visitLws (h : Alike g g') (l : Lit) : Even Alike (Gen.visitLws g l) (Gen.visitLws g' l) := by
  unfold Gen.visitLws
  rw [h.skipWs]
  split
  · exact .pure h
  · cases g.skipWs with
    | suppress => exact .pure h
    | preserve =>
      dsimp only
      split
      · split
        · exact .pure ⟨h.locals, rfl, rfl, h.superBlock, h.pend, h.pdiscard, h.indent, h.discard⟩
        · exact .fail
      · exact .pure (h.push rfl)
    | minimize =>
      dsimp only
      split
      · split
        · exact .pure ⟨h.locals, rfl, rfl, h.superBlock, h.pend, h.pdiscard, h.indent, h.discard⟩
        · exact .fail
      · exact .pure (h.push rfl)

theorem Alike.visitLit (h : Alike g g') (l : Lit) : Even Alike (Gen.visitLit g l) (Gen.visitLit g' l) := by
  unfold Gen.visitLit
  rw [h.nextWs]
  split
  · exact .fail
  · refine (h.visitLws l).bind fun x y hxy => .pure ?_
    have e : Alike (if l.val.isEmpty then x else ({ x with skipWs := .preserve } : Gen).push (.lit l.val))
        (if l.val.isEmpty then y else ({ y with skipWs := .preserve } : Gen).push (.lit l.val)) := by
      split
      · exact hxy
      · exact (hxy.withSkip _).push rfl
    split
    · exact e
    · exact e.withNext _

theorem Alike.openLine (h : Alike g g') : Alike g.openLine g'.openLine := by
  unfold Gen.openLine
  rw [h.discard]
  split
  · exact h
  · exact ⟨h.locals, h.nextWs, h.skipWs, h.superBlock, h.pend, h.pdiscard, congrArg (· + 1) h.indent, rfl⟩

theorem Alike.dedent (h : Alike g g') : Even Alike g.dedent g'.dedent := by
  unfold Gen.dedent
  rw [h.indent]
  split
  · exact .fail
  · exact .pure ⟨h.locals, h.nextWs, h.skipWs, h.superBlock, h.pend, h.pdiscard, rfl, h.discard⟩

theorem Alike.closeLine (h : Alike g g') : Even Alike g.closeLine g'.closeLine := by
  unfold Gen.closeLine
  rw [h.discard]
  split
  · exact .pure h
  · exact h.dedent

theorem Alike.declare (h : Alike g g') (t : Target) (b : Bool) : Alike (Gen.declare g t b) (Gen.declare g' t b) :=
  h.withLocals (h.locals.declare b t.names)

theorem Alike.emit (h : Alike g g') {s s' : List Stmt} (hs : Shape s s') : Shape (g.emit s) (g'.emit s') := by
  unfold Gen.emit
  rw [h.discard]
  split
  · exact .refl _
  · exact hs

theorem Alike.wrap (h : Alike g g') {f f' : List Stmt → Stmt} {b b' : List Stmt} (hb : Shape b b') (hf : ∀ d, (f' b').fits d = (f b).fits d) :
    Shape (g.wrap f b) (g'.wrap f' b') := by
  unfold Gen.wrap
  rw [h.discard]
  split
  · exact hb
  · intro d; simp only [fitsList, hf d]

/-! ## Output -/

theorem formatLoop_even : (ws ws' : List Writable) → ws'.map blindW = ws.map blindW → (L L' : Locals) → (st st' : FmtSt) →
    Even Any (formatLoop I L ws st) (formatLoop (escI I z) L' ws' st')
  | [], [], _, _, _, _, _ => .pure trivial
  | [], _ :: _, h, _, _, _, _ => by cases h
  | _ :: _, [], h, _, _, _, _ => by cases h
  | x :: ws, x' :: ws', h, L, L', st, st' => by
    simp only [List.map_cons, List.cons.injEq] at h
    obtain ⟨hx, hw⟩ := h
    have ih := formatLoop_even ws ws' hw L L'
    cases x <;> cases x' <;> first | (cases hx; done) | skip
    · exact ih _ _
    · cases hx
      exact (visitExpr_even L L' _).bind fun _ _ _ => ih _ _
    · exact ih _ _

/-- What is written of a kind. -/
def sameParts : Parts → Parts → Prop
  | .none, .none => True
  | .plain _, .plain _ => True
  | .formatted _ _, .formatted _ _ => True
  | _, _ => False

theorem isLit_blindW (w : Writable) : (blindW w).isLit = w.isLit := by cases w <;> rfl

theorem Alike.prepareFormat (h : Alike g g') :
    Even (fun x y => sameParts x.1 y.1 ∧ Alike x.2 y.2) (Gen.prepareFormat I g) (Gen.prepareFormat (escI I z) g') := by
  unfold Gen.prepareFormat
  have e1 : g'.pend.isEmpty = g.pend.isEmpty := by
    have := congrArg List.isEmpty h.pend
    simpa only [List.isEmpty_map] using this
  have e2 : g'.pend.all Writable.isLit = g.pend.all Writable.isLit := by
    have := congrArg (fun l => l.all Writable.isLit) h.pend
    simpa only [List.all_map, Function.comp_def, isLit_blindW] using this
  rw [e1, e2]
  split
  · exact .pure ⟨trivial, h⟩
  · split
    · exact .pure ⟨trivial, h.locals, h.nextWs, h.skipWs, h.superBlock, rfl, h.pdiscard, h.indent, h.discard⟩
    · refine (formatLoop_even _ _ h.pend _ _ _ _).bind fun x y _ => ?_
      exact .pure ⟨trivial, h.locals, h.nextWs, h.skipWs, h.superBlock, rfl, h.pdiscard, h.indent, h.discard⟩

theorem Alike.writeBuf (h : Alike g g') : Even AlikeR (Gen.writeBuf I g) (Gen.writeBuf (escI I z) g') := by
  unfold Gen.writeBuf
  refine h.prepareFormat.bind fun x y hxy => ?_
  obtain ⟨p, g1⟩ := x
  obtain ⟨p', g1'⟩ := y
  obtain ⟨hp, hg⟩ := hxy
  cases p <;> cases p' <;> first | (exact hp.elim) | skip
  · exact .pure ⟨.refl _, hg⟩
  · exact .pure ⟨Alike.emit hg fun d => by simp [fitsList, Stmt.fits], hg⟩
  · exact .pure ⟨Alike.emit hg fun d => by simp [fitsList, Stmt.fits], hg⟩

theorem Alike.flushIf (h : Alike g g') (b : Bool) : Even AlikeR (Gen.flushIf I b g) (Gen.flushIf (escI I z) b g') := by
  unfold Gen.flushIf
  split
  · exact h.writeBuf
  · exact .pure ⟨.refl _, h⟩

/-! ## Nodes -/

/-- The recursive calls. -/
def RecAlike (rec rec' : Handler) : Prop :=
  ∀ H ctx nodes level g g', Alike g g' → Even AlikeR (rec H ctx nodes level g) (rec' H ctx nodes level g')

theorem Alike.writeLet (h : Alike g g') (ws : Ws) (var : Target) (val : Option Expr) :
    Even AlikeR (Gen.writeLet I g ws var val) (Gen.writeLet (escI I z) g' ws var val) := by
  unfold Gen.writeLet
  have hw := h.handleWs (I := I) (z := z) ws
  cases val with
  | none =>
    dsimp only
    refine hw.writeBuf.bind fun x y hxy => ?_
    exact .pure ⟨hxy.1.append (hxy.2.emit fun d => by simp [fitsList, Stmt.fits]), hxy.2.declare _ _⟩
  | some e =>
    dsimp only
    refine (visitExpr_even _ _ e).bind fun r r' _ => ?_
    refine Even.same (hw.locals.isShadowing var) fun b _ => ?_
    refine (hw.flushIf b).bind fun x y hxy => ?_
    refine .pure ⟨hxy.1.append (hxy.2.emit fun d => ?_), hxy.2.declare _ _⟩
    have one : ∀ (st st' : Stmt), (∀ d, st.fits d = decide (d < 64)) → (∀ d, st'.fits d = decide (d < 64)) →
        fitsList d [st'] = fitsList d [st] := by
      intro st st' h1 h2; simp only [fitsList, h1, h2]
    apply one
    · intro d
      cases targetName var with
      | none => simp [Stmt.fits]
      | some n => dsimp only; split <;> simp [Stmt.fits]
    · intro d
      cases targetName var with
      | none => simp [Stmt.fits]
      | some n => dsimp only; split <;> simp [Stmt.fits]

theorem Alike.branchCond (h : Alike g g') (c : Option CondTest) :
    Even (fun x y => Alike x.2 y.2) (Gen.branchCond I g c) (Gen.branchCond (escI I z) g' c) := by
  rcases c with _ | ⟨_ | t, e⟩
  · exact .pure h
  · unfold Gen.branchCond
    exact (visitExpr_even _ _ e).bind fun _ _ _ => .pure h
  · cases e with
    | binop op a b =>
      unfold Gen.branchCond
      dsimp only
      split
      · refine (visitExpr_even _ _ a).bind fun _ _ _ => ?_
        exact (visitExpr_even _ _ b).bind fun _ _ _ => .pure (h.declare _ _)
      · exact (visitExpr_even _ _ _).bind fun _ _ _ => .pure (h.declare _ _)
    | _ =>
      unfold Gen.branchCond
      exact (visitExpr_even _ _ _).bind fun _ _ _ => .pure (h.declare _ _)

/-- The same lines in the branches. -/
def BranchShape (x y : List Branch) : Prop :=
  (∀ d, fitsBranches d y = fitsBranches d x) ∧ Shape (branchBodies x) (branchBodies y)

/-- The same lines in the arms. -/
def ArmShape (x y : List Arm) : Prop := (∀ d, fitsArms d y = fitsArms d x) ∧ Shape (armBodies x) (armBodies y)

theorem BranchShape.cons {c c' : RCond} {b b' : List Stmt} {x y : List Branch} (h : Shape b b') (hxy : BranchShape x y) :
    BranchShape (.mk c b :: x) (.mk c' b' :: y) :=
  ⟨fun d => by simp only [fitsBranches, h d, hxy.1 d], h.append hxy.2⟩

theorem ArmShape.cons {t : Target} {b b' : List Stmt} {x y : List Arm} (h : Shape b b') (hxy : ArmShape x y) :
    ArmShape (.mk t b :: x) (.mk t b' :: y) :=
  ⟨fun d => by simp only [fitsArms, h (d + 1), hxy.1 d], h.append hxy.2⟩

section

variable {rec rec' : Handler} {H : Option Heritage} {ctx : Ctx}

theorem Alike.ifBranches (hr : RecAlike rec rec') (ws : Ws) :
    (bs : List Cond) → (first : Bool) → {g g' : Gen} → Alike g g' →
    Even (fun x y => BranchShape x.1 y.1 ∧ Alike x.2 y.2) (Gen.ifBranches rec I H ctx ws first bs g)
      (Gen.ifBranches rec' (escI I z) H ctx ws first bs g')
  | [], _, _, _, h => by unfold Gen.ifBranches; exact .pure ⟨⟨fun _ => rfl, .refl _⟩, h⟩
  | .mk _ cond nodes :: rest, first, g, g', h => by
    unfold Gen.ifBranches
    dsimp only
    have hd : Even Alike (dedentUnless first { g with locals := g.locals.push }) (dedentUnless first { g' with locals := g'.locals.push }) := by
      unfold dedentUnless
      split
      · exact .pure h.pushL
      · exact h.pushL.dedent
    refine hd.bind fun x y hxy => ?_
    refine (hxy.branchCond cond).bind fun x y hxy => ?_
    refine (hr _ _ _ _ _ _ hxy.openLine).bind fun x y hb => ?_
    cases rest with
    | nil =>
      refine (Alike.writeBuf (hb.2.handleWs _)).bind fun x y hxy => ?_
      exact .pure ⟨.cons (hb.1.append hxy.1) ⟨fun _ => rfl, .refl _⟩, hxy.2⟩
    | cons c rest =>
      obtain ⟨ws', c', ns'⟩ := c
      refine (Alike.writeBuf (hb.2.handleWs _)).bind fun x y hxy => ?_
      refine (Alike.ifBranches hr ws (.mk ws' c' ns' :: rest) false hxy.2.popL).bind fun x y hrest => ?_
      exact .pure ⟨.cons (hb.1.append hxy.1) hrest.1, hrest.2⟩

theorem Alike.writeIf (hr : RecAlike rec rec') (h : Alike g g') (ws : Ws) (bs : List Cond) :
    Even AlikeR (Gen.writeIf rec I H ctx g ws bs) (Gen.writeIf rec' (escI I z) H ctx g' ws bs) := by
  cases bs with
  | nil => exact .fail
  | cons c rest =>
    obtain ⟨ws', c', ns'⟩ := c
    unfold Gen.writeIf
    dsimp only
    refine (Alike.writeBuf (h.handleWs _)).bind fun x y hp => ?_
    refine (Alike.ifBranches hr ws _ true hp.2).bind fun x y hb => ?_
    refine hb.2.closeLine.bind fun u v huv => ?_
    refine .pure ⟨hp.1.append ?_, huv.popL⟩
    rw [huv.discard]
    split
    · exact hb.1.2
    · intro d; simp only [fitsList, Stmt.fits, hb.1.1]

theorem Alike.matchArms (hr : RecAlike rec rec') (ws : Ws) :
    (bs : List When) → {g g' : Gen} → Alike g g' →
    Even (fun x y => ArmShape x.1 y.1 ∧ Alike x.2 y.2) (Gen.matchArms rec I H ctx ws bs g) (Gen.matchArms rec' (escI I z) H ctx ws bs g')
  | [], _, _, h => by unfold Gen.matchArms; exact .pure ⟨⟨fun _ => rfl, .refl _⟩, h⟩
  | .mk _ t nodes :: rest, g, g', h => by
    unfold Gen.matchArms
    dsimp only
    refine (hr _ _ _ _ _ _ (h.pushL.declare t true).openLine).bind fun x y hb => ?_
    refine (Alike.writeBuf (hb.2.handleWs _)).bind fun x y hxy => ?_
    refine hxy.2.closeLine.bind fun u v huv => ?_
    refine (Alike.matchArms hr ws rest huv.popL).bind fun x y hrest => ?_
    exact .pure ⟨.cons (hb.1.append hxy.1) hrest.1, hrest.2⟩

theorem Alike.writeMatch (hr : RecAlike rec rec') (h : Alike g g') (ws1 : Ws) (e : Expr) (bs : List When) (ws2 : Ws) :
    Even AlikeR (Gen.writeMatch rec I H ctx g ws1 e bs ws2) (Gen.writeMatch rec' (escI I z) H ctx g' ws1 e bs ws2) := by
  cases bs with
  | nil => exact .fail
  | cons c rest =>
    obtain ⟨ws', c', ns'⟩ := c
    unfold Gen.writeMatch
    dsimp only
    refine (Alike.writeBuf (h.flushWs _)).bind fun x y hp => ?_
    refine (visitExpr_even _ _ e).bind fun r r' _ => ?_
    refine (Alike.matchArms hr ws2 _ (hp.2.openLine.handleWs _)).bind fun x y hb => ?_
    refine hb.2.closeLine.bind fun u v huv => ?_
    refine .pure ⟨hp.1.append ?_, huv⟩
    rw [huv.discard]
    split
    · exact hb.1.2
    · intro d; simp only [fitsList, Stmt.fits, hb.1.1]

theorem Alike.loopFilter (h : Alike g g') (var : Target) (c : Option Expr) :
    Even Shape (Gen.loopFilter I g var c) (Gen.loopFilter (escI I z) g' var c) := by
  unfold Gen.loopFilter
  cases c with
  | none => exact .pure (.refl _)
  | some c =>
    dsimp only
    exact (visitExpr_even _ _ c).bind fun _ _ _ => .pure (h.emit fun d => by simp [fitsList, Stmt.fits])

theorem Alike.writeLoop (hr : RecAlike rec rec') (h : Alike g g')
    (ws1 : Ws) (var : Target) (iter : Expr) (cond : Option Expr) (body : List Node) (ws2 : Ws) (els : List Node) (ws3 : Ws) :
    Even AlikeR (Gen.writeLoop rec I H ctx g ws1 var iter cond body ws2 els ws3)
      (Gen.writeLoop rec' (escI I z) H ctx g' ws1 var iter cond body ws2 els ws3) := by
  unfold Gen.writeLoop
  have h1 := (h.handleWs (I := I) (z := z) ws1).pushL
  dsimp only
  refine (visitExpr_even _ _ iter).bind fun r r' _ => ?_
  refine (Alike.writeBuf h1).bind fun x y hp => ?_
  refine (hp.2.openLine.loopFilter _ _).bind fun f f' hf => ?_
  have hhead : Shape (x.2.openLine.emit ((if (!els.isEmpty) = true then [.letDid] else []) ++ [.letIter r.1]) ++ f)
      (y.2.openLine.emit ((if (!els.isEmpty) = true then [.letDid] else []) ++ [.letIter r'.1]) ++ f') := by
    refine Shape.append (hp.2.openLine.emit ?_) hf
    refine Shape.append (.refl _) fun d => by simp [fitsList, Stmt.fits]
  refine (hr _ _ _ _ _ _ (hp.2.openLine.pushL.declare var true).openLine).bind fun x1 y1 hb => ?_
  have hset := (hp.2.openLine.pushL.declare var true).openLine.emit (Shape.refl (if (!els.isEmpty) = true then [.setDid] else []))
  refine (Alike.writeBuf (hb.2.handleWs _)).bind fun x2 y2 hfl => ?_
  refine hfl.2.popL.closeLine.bind fun u v huv => ?_
  have hin := (hset.append hb.1).append hfl.1
  have hloop := huv.wrap (f := .forIter var) (f' := .forIter var) hin fun d => by simp only [Stmt.fits, hin (d + 1)]
  split
  · rename_i hels'
    refine (hr _ _ _ _ _ _ huv.openLine.pushL).bind fun x3 y3 he => ?_
    refine (Alike.writeBuf (he.2.handleWs _)).bind fun x4 y4 hef => ?_
    refine hef.2.popL.closeLine.bind fun u2 v2 h2 => ?_
    refine h2.closeLine.bind fun u3 v3 h3 => ?_
    have hels := he.1.append hef.1
    have hcode := (hhead.append hloop).append
      (h2.wrap (f := .ifNotDid) (f' := .ifNotDid) hels fun d => by simp only [Stmt.fits, hels (d + 1)])
    simp only [if_pos hels'] at hcode
    exact .pure ⟨hp.1.append (h3.wrap (f := .block) (f' := .block) hcode fun d => by simp only [Stmt.fits, hcode (d + 1)]), h3.popL⟩
  · rename_i hels'
    refine (Alike.writeBuf (huv.handleWs _)).bind fun x4 y4 hef => ?_
    refine hef.2.closeLine.bind fun u3 v3 h3 => ?_
    have hcode := (hhead.append hloop).append hef.1
    simp only [if_neg hels'] at hcode
    exact .pure ⟨hp.1.append (h3.wrap (f := .block) (f' := .block) hcode fun d => by simp only [Stmt.fits, hcode (d + 1)]), h3.popL⟩

theorem passArg_even (L L' : Locals) (e : Expr) :
    Even (fun x y => x.isLeft = y.isLeft) (passArg I L e) (passArg (escI I z) L' e) := by
  have m : ∀ {f f' : RExpr × Bool → RExpr ⊕ RExpr}, (∀ x y, (f x).isLeft = (f' y).isLeft) →
      Even (fun x y => x.isLeft = y.isLeft) ((visitExpr I L e).map f) ((visitExpr (escI I z) L' e).map f') := by
    intro f f' hf
    rcases visitExpr_even (I := I) (z := z) L L' e with ⟨x, h1, h2⟩ | ⟨x, y, h1, h2, -⟩ <;> rw [h1, h2]
    · exact .fail
    · exact .pure (hf x y)
  cases e with
  | var x =>
    unfold passArg
    dsimp only
    split
    · exact .pure rfl
    · exact .pure rfl
  | _ => exact m fun _ _ => rfl

theorem bindParams_even (named : List (Str × Expr)) (args : List Expr) : (ps : List Str) → (k : Nat) → (b : Bool) →
    {L L' : Locals} → SameVars L L' →
    Even (fun x y => y.1 = x.1 ∧ SameVars x.2.2 y.2.2) (bindParams I named args ps k b L) (bindParams (escI I z) named args ps k b L')
  | [], _, _, _, _, h => by unfold bindParams; exact .pure ⟨rfl, h⟩
  | p :: ps, k, b, L, L', h => by
    unfold bindParams
    refine Even.same rfl fun x _ => ?_
    obtain ⟨e, b'⟩ := x
    dsimp only
    refine (passArg_even L L' e).bind fun x y hxy => ?_
    cases x <;> cases y <;> first | (cases hxy; done) | skip
    · exact bindParams_even named args ps (k + 1) b' (h.insert p rfl)
    · exact (bindParams_even named args ps (k + 1) b' (h.insert p rfl)).bind fun x y hxy =>
        .pure ⟨congrArg (p :: ·) hxy.1, hxy.2⟩

theorem Alike.writeCall (hr : RecAlike rec rec') (h : Alike g g') (ws : Ws) (scope : Option Str) (name : Str) (args : List Expr) :
    Even AlikeR (Gen.writeCall rec I H ctx g ws scope name args) (Gen.writeCall rec' (escI I z) H ctx g' ws scope name args) := by
  unfold Gen.writeCall
  refine Even.same rfl fun x hx => ?_
  obtain ⟨d, own⟩ := x
  dsimp only
  refine (Alike.writeBuf (h.flushWs ws).pushL).bind fun x y hp => ?_
  obtain ⟨s, g1⟩ := x
  obtain ⟨s', g1'⟩ := y
  dsimp only
  split
  · exact .fail
  · refine Even.same rfl fun named _ => ?_
    have h2 := hp.2.openLine.prepareWs (I := I) (z := z) d.ws1
    refine (bindParams_even _ _ _ _ _ h2.locals).bind fun x y hxy => ?_
    obtain ⟨ns, rs, L⟩ := x
    obtain ⟨ns', rs', L'⟩ := y
    obtain ⟨hn, hL⟩ := hxy
    dsimp only at hn hL ⊢
    subst hn
    have h3 := h2.withLocals hL
    have hl := h3.emit (s := if ns'.isEmpty then [] else [.letMany ns' rs]) (s' := if ns'.isEmpty then [] else [.letMany ns' rs'])
      (by split
          · exact .refl _
          · intro d; simp [fitsList, Stmt.fits])
    refine (hr _ _ _ _ _ _ h3).bind fun x y hb => ?_
    refine (Alike.writeBuf (hb.2.flushWs _)).bind fun x y hfl => ?_
    refine hfl.2.closeLine.bind fun u v huv => ?_
    have h4 := huv.popL.prepareWs (I := I) (z := z) ws
    have hin := (hl.append hb.1).append hfl.1
    exact .pure ⟨hp.1.append (h4.wrap hin fun d => by simp only [Stmt.fits, hin (d + 1)]), h4⟩

theorem Alike.writeFilterBlock (hr : RecAlike rec rec') (h : Alike g g') (ws1 : Ws) (f : FilterApp) (nodes : List Node) (ws2 : Ws) :
    Even AlikeR (Gen.writeFilterBlock rec I H ctx g ws1 f nodes ws2) (Gen.writeFilterBlock rec' (escI I z) H ctx g' ws1 f nodes ws2) := by
  unfold Gen.writeFilterBlock
  have h1 := h.flushWs (I := I) (z := z) ws1
  dsimp only
  rw [h1.locals.size, h1.locals.free]
  generalize freeFilterVar _ _ _ = x
  have h2 : Alike { Gen.flushWs I g ws1 with pend := [] } { Gen.flushWs (escI I z) g' ws1 with pend := [] } :=
    ⟨h1.locals, h1.nextWs, h1.skipWs, h1.superBlock, rfl, h1.pdiscard, h1.indent, h1.discard⟩
  refine (hr _ _ _ _ _ _ (h2.prepareWs ws1)).bind fun b b' hb => ?_
  refine (hb.2.flushWs ws2).prepareFormat.bind fun p p' hp => ?_
  obtain ⟨p, g1⟩ := p
  obtain ⟨p', g1'⟩ := p'
  obtain ⟨hpp, hg⟩ := hp
  have rest : ∀ {st st' : Stmt}, (∀ d, st'.fits d = st.fits d) → Even AlikeR
      (do
        let (r, wrapped) ← visitExpr I { g1 with pend := (Gen.flushWs I g ws1).pend }.locals (.filter f.name (insertFirst x f.args))
        let g := Gen.prepareWs I ({ g1 with pend := (Gen.flushWs I g ws1).pend }.push (.generated r wrapped)) ws2
        return (b.1 ++ g.emit [st], { g with locals := g.locals.insert x { refs := none, initialized := true } }))
      (do
        let (r, wrapped) ← visitExpr (escI I z) { g1' with pend := (Gen.flushWs (escI I z) g' ws1).pend }.locals (.filter f.name (insertFirst x f.args))
        let g := Gen.prepareWs (escI I z) ({ g1' with pend := (Gen.flushWs (escI I z) g' ws1).pend }.push (.generated r wrapped)) ws2
        return (b'.1 ++ g.emit [st'], { g with locals := g.locals.insert x { refs := none, initialized := true } })) := by
    intro st st' hst
    refine (visitExpr_even _ _ _).bind fun r r' _ => ?_
    have h3 : Alike { g1 with pend := (Gen.flushWs I g ws1).pend } { g1' with pend := (Gen.flushWs (escI I z) g' ws1).pend } :=
      ⟨hg.locals, hg.nextWs, hg.skipWs, hg.superBlock, h1.pend, hg.pdiscard, hg.indent, hg.discard⟩
    have h4 := (h3.push (x := .generated r.1 r.2) (x' := .generated r'.1 r'.2) rfl).prepareWs (I := I) (z := z) ws2
    exact .pure ⟨hb.1.append (h4.emit fun d => by simp only [fitsList, hst]), h4.withLocals (h4.locals.insert x rfl)⟩
  cases p <;> cases p' <;> first | (exact hpp.elim) | skip
  · exact .pure ⟨hb.1, hg⟩
  · exact rest fun d => by simp [Stmt.fits]
  · exact rest fun d => by simp [Stmt.fits]

theorem Alike.writeBlock (hr : RecAlike rec rec') (h : Alike g g') (name : Option Str) (outer : Ws) :
    Even AlikeR (Gen.writeBlock rec I H ctx g name outer) (Gen.writeBlock rec' (escI I z) H ctx g' name outer) := by
  unfold Gen.writeBlock
  dsimp only
  have h1 := h.flushWs (I := I) (z := z) outer
  rw [h1.superBlock]
  refine Even.same rfl fun cur _ => ?_
  refine (Alike.writeBuf h1).bind fun x y hp => ?_
  obtain ⟨s, g1⟩ := x
  obtain ⟨s', g1'⟩ := y
  obtain ⟨hs, hxy⟩ := hp
  dsimp only at hs hxy ⊢
  cases H with
  | none => exact .fail
  | some hh =>
    dsimp only
    cases hdefs : assoc hh.blocks cur.1 with
    | none => exact .fail
    | some defs =>
      dsimp only
      cases hcd : defs[cur.2]? with
      | none => exact .fail
      | some cd =>
        obtain ⟨cctx, d⟩ := cd
        dsimp only
        rw [hxy.pdiscard, hxy.discard, hxy.indent, show (escI I z).block = I.block from rfl]
        refine Even.bind (R := AlikeR) (hr _ _ _ _ _ _ ?_) fun x y hch => ?_
        · exact ⟨rfl, rfl, rfl, rfl, hxy.pend, rfl, rfl, rfl⟩
        rw [hch.2.locals.isCurrentEmpty]
        refine (Alike.flushIf hch.2 _).bind fun x2 y2 hfl => ?_
        have h3 := Alike.flushWs (I := I) (z := z) hfl.2 d.ws2
        refine .pure ⟨(hs.append hch.1).append hfl.1, ?_⟩
        show Alike (Gen.prepareWs _ _ _) (Gen.prepareWs _ _ _)
        apply Alike.prepareWs
        refine ⟨hxy.locals, hxy.nextWs, hxy.skipWs, hxy.superBlock, h3.pend, ?_, h3.indent, rfl⟩
        show (if _ then _ else _) = (if _ then _ else _)
        rw [h3.pdiscard]

theorem Alike.handleInclude (hr : RecAlike rec rec') (h : Alike g g') (ws : Ws) (path : Str) :
    Even AlikeR (Gen.handleInclude rec I ctx g ws path) (Gen.handleInclude rec' (escI I z) ctx g' ws path) := by
  unfold Gen.handleInclude
  refine (Alike.writeBuf (h.flushWs ws)).bind fun x y hp => ?_
  obtain ⟨s, g1⟩ := x
  obtain ⟨s', g1'⟩ := y
  obtain ⟨hs, hxy⟩ := hp
  dsimp only at hs hxy
  rw [show (escI I z).find = I.find from rfl, show (escI I z).contexts = I.contexts from rfl]
  dsimp only
  cases hf : I.find path with
  | none => exact .fail
  | some p =>
    dsimp only
    cases hp : assoc I.contexts p with
    | none => exact .fail
    | some c =>
      dsimp only
      refine Even.same rfl fun Hc h2 => ?_
      have hch : Alike { Gen.new I g1.locals.withParent g1.indent g1.discard with pdiscard := g1.pdiscard }
          { Gen.new (escI I z) g1'.locals.withParent g1'.indent g1'.discard with pdiscard := g1'.pdiscard } :=
        ⟨hxy.locals.withParent, rfl, rfl, rfl, rfl, hxy.pdiscard, hxy.indent, hxy.discard⟩
      refine (hr _ _ _ _ _ _ hch).bind fun x y hb => ?_
      refine (Alike.writeBuf hb.2).bind fun x2 y2 hfl => ?_
      have h4 : Alike { g1 with indent := x2.2.indent, discard := x2.2.discard } { g1' with indent := y2.2.indent, discard := y2.2.discard } :=
        ⟨hxy.locals, hxy.nextWs, hxy.skipWs, hxy.superBlock, hxy.pend, hxy.pdiscard, hfl.2.indent, hfl.2.discard⟩
      exact .pure ⟨((hs.append (h4.emit (.refl _))).append hb.1).append hfl.1, h4.prepareWs ws⟩

theorem Alike.handleNode (hr : RecAlike rec rec') (h : Alike g g') (level : Level) (n : Node) :
    Even AlikeR (Gen.handleNode rec I H ctx level g n) (Gen.handleNode rec' (escI I z) H ctx level g' n) := by
  cases n with
  | lit l =>
    unfold Gen.handleNode
    exact (h.visitLit l).bind fun x y hxy => .pure ⟨.refl _, hxy⟩
  | raw ws1 l ws2 =>
    unfold Gen.handleNode
    exact ((h.handleWs ws1).visitLit l).bind fun x y hxy => .pure ⟨.refl _, hxy.handleWs _⟩
  | comment ws c => exact .pure ⟨.refl _, h.handleWs _⟩
  | expr ws e => exact .pure ⟨.refl _, (h.handleWs _).push rfl⟩
  | let_ ws var val => exact h.writeLet ws var val
  | if_ ws bs => exact h.writeIf hr ws bs
  | match_ ws1 e arms ws2 => exact h.writeMatch hr ws1 e arms ws2
  | loop ws1 v i c body ws2 els ws3 => exact h.writeLoop hr ws1 v i c body ws2 els ws3
  | blockDef ws1 name ns ws2 => exact h.writeBlock hr _ _
  | «include» ws path => exact h.handleInclude hr _ _
  | call ws scope name args =>
    simp only [Gen.handleNode]
    split
    · exact h.writeBlock hr _ _
    · exact h.writeCall hr _ _ _ _
  | filterBlock ws1 f ns ws2 => exact h.writeFilterBlock hr _ _ _ _
  | «macro» ws1 nm args ns ws2 =>
    simp only [Gen.handleNode]
    split
    · exact .pure ⟨.refl _, (h.flushWs _).prepareWs _⟩
    · exact .fail
  | import_ ws p s =>
    simp only [Gen.handleNode]
    split
    · exact .pure ⟨.refl _, h.handleWs _⟩
    · exact .fail
  | extends_ p =>
    simp only [Gen.handleNode]
    split
    · exact .pure ⟨.refl _, h⟩
    · exact .fail
  | break_ ws =>
    unfold Gen.handleNode
    exact (Alike.writeBuf (h.handleWs _)).bind fun x y hxy => .pure ⟨hxy.1.append (hxy.2.emit (.refl _)), hxy.2⟩
  | continue_ ws =>
    unfold Gen.handleNode
    exact (Alike.writeBuf (h.handleWs _)).bind fun x y hxy => .pure ⟨hxy.1.append (hxy.2.emit (.refl _)), hxy.2⟩

theorem Alike.handleNodes (hr : RecAlike rec rec') (level : Level) : (ns : List Node) → {g g' : Gen} → Alike g g' →
    Even AlikeR (Gen.handleNodes rec I H ctx level ns g) (Gen.handleNodes rec' (escI I z) H ctx level ns g')
  | [], _, _, h => by unfold Gen.handleNodes; exact .pure ⟨.refl _, h⟩
  | n :: ns, g, g', h => by
    unfold Gen.handleNodes
    refine (h.handleNode hr level n).bind fun x y hxy => ?_
    refine (Alike.handleNodes hr level ns hxy.2).bind fun x y hxy' => ?_
    exact .pure ⟨hxy.1.append hxy'.1, hxy'.2⟩

end

theorem handle_alike : (fuel : Nat) → RecAlike (handle I fuel) (handle (escI I z) fuel)
  | 0 => by intro _ _ _ _ _ _ _; exact .fail
  | fuel + 1 => by
    intro H ctx nodes level g g' h
    unfold handle
    refine (h.handleNodes (handle_alike fuel) level nodes).bind fun x y hxy => ?_
    have he : Even AlikeR (handleEnd I level x.2) (handleEnd (escI I z) level y.2) := by
      unfold handleEnd
      split
      · refine Alike.writeBuf ?_
        rw [hxy.2.nextWs, hxy.2.skipWs]
        split
        · exact hxy.2.flushWs _
        · exact hxy.2
      · exact .pure ⟨.refl _, hxy.2⟩
    exact he.bind fun x2 y2 hxy2 => .pure ⟨hxy.1.append hxy2.1, hxy2.2⟩

/-- With another escaper the generator ends in the same way. -/
theorem generate_alike (H : Option Heritage) (ctx : Ctx) (fuel : Nat) :
    Even Any (generate I fuel H ctx) (generate (escI I z) fuel H ctx) := by
  unfold generate
  refine (handle_alike fuel _ _ _ _ _ _ ⟨rfl, rfl, rfl, rfl, rfl, rfl, rfl, rfl⟩).bind fun x y hxy => ?_
  obtain ⟨s, g⟩ := x
  obtain ⟨s', g'⟩ := y
  obtain ⟨hs, hg⟩ := hxy
  dsimp only at hs hg ⊢
  rw [hs 2]
  split
  · exact .fail
  · refine hg.closeLine.bind fun u v huv => ?_
    exact huv.closeLine.bind fun _ _ _ => .pure trivial

end Askama
