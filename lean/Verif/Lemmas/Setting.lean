import Verif.Lemmas.Woven
import Verif.Spec.Space

/-!
The generator under two settings of `whitespace`: it gets as far with one as with the other, but for panics. Used for C79.
-/

namespace Askama

open Askama.Spec Gen

/-! ## Outcomes -/

/-- If the first succeeds the second does so too, with a related result, or it panics. -/
def OkOr {α β : Type} (R : α → β → Prop) (a : Except GErr α) (b : Except GErr β) : Prop :=
  ∀ x, a = .ok x → b = .error .panic ∨ ∃ y, b = .ok y ∧ R x y

theorem OkOr.pure {α β : Type} {R : α → β → Prop} {x : α} {y : β} (h : R x y) : OkOr R (.ok x) (.ok y) := by
  intro z hz; cases hz; exact .inr ⟨y, rfl, h⟩

theorem OkOr.fail {α β : Type} {R : α → β → Prop} {e : GErr} {b : Except GErr β} : OkOr R (.error e : Except GErr α) b := by
  intro z hz; cases hz

theorem OkOr.panic {α β : Type} {R : α → β → Prop} {a : Except GErr α} : OkOr R a (.error .panic : Except GErr β) := by
  intro _ _; exact .inl rfl

theorem OkOr.self {α : Type} (a : Except GErr α) : OkOr Eq a a := by
  intro z hz; exact .inr ⟨z, hz, rfl⟩

theorem OkOr.bind {α β γ δ : Type} {R : α → β → Prop} {S : γ → δ → Prop} {a : Except GErr α} {b : Except GErr β}
    {f : α → Except GErr γ} {f' : β → Except GErr δ} (h : OkOr R a b) (hf : ∀ x y, R x y → OkOr S (f x) (f' y)) :
    OkOr S (a >>= f) (b >>= f') := by
  intro z hz
  obtain ⟨x, hx, hz⟩ := except_bind hz
  rcases h x hx with h | ⟨y, hy, hxy⟩
  · exact .inl (by rw [h]; rfl)
  · rw [hy]; exact hf x y hxy z hz

/-- The same value on both sides, of which something is known. -/
theorem OkOr.same {α γ δ : Type} {S : γ → δ → Prop} {a b : Except GErr α} {f : α → Except GErr γ} {f' : α → Except GErr δ}
    (hab : b = a) (hf : ∀ x, a = .ok x → OkOr S (f x) (f' x)) : OkOr S (a >>= f) (b >>= f') := by
  intro z hz
  obtain ⟨x, hx, hz⟩ := except_bind hz
  rw [hab, hx]; exact hf x hx z hz

/-! ## States -/

/-- What is to be written, but for the texts. -/
def dark (l : List Writable) : List Writable := l.filter fun w => !w.isLit

/-- The same but for texts and white space. -/
structure Like (g g' : Gen) : Prop where
  locals : g'.locals = g.locals
  superBlock : g'.superBlock = g.superBlock
  pend : dark g'.pend = dark g.pend
  pdiscard : g'.pdiscard = g.pdiscard
  named : g'.named = g.named
  indent : g'.indent = g.indent
  discard : g'.discard = g.discard

/-- The results of the functions of the generator. -/
def LikeR (x y : List Stmt × Gen) : Prop := Like x.2 y.2

/-- The other setting. -/
def wsI (I : GenInput) (w : WH) : GenInput := { I with ws := w }

variable {I : GenInput} {w : WH} {g g' : Gen}

theorem Like.withLocals (h : Like g g') {L L' : Locals} (hL : L' = L) : Like { g with locals := L } { g' with locals := L' } :=
  ⟨hL, h.superBlock, h.pend, h.pdiscard, h.named, h.indent, h.discard⟩

theorem Like.pushL (h : Like g g') : Like { g with locals := g.locals.push } { g' with locals := g'.locals.push } :=
  h.withLocals (by rw [h.locals])

theorem Like.popL (h : Like g g') : Like { g with locals := g.locals.pop } { g' with locals := g'.locals.pop } :=
  h.withLocals (by rw [h.locals])

theorem Like.push (h : Like g g') (x : Writable) : Like (g.push x) (g'.push x) := by
  unfold Gen.push
  rw [h.pdiscard]
  split
  · exact h
  · refine ⟨h.locals, h.superBlock, ?_, rfl, h.named, h.indent, h.discard⟩
    unfold dark
    simp only [List.filter_append]
    exact congrArg (· ++ _) h.pend

theorem push_lit (g : Gen) (s : Str) : Like g (g.push (.lit s)) := by
  unfold Gen.push
  split
  · exact ⟨rfl, rfl, rfl, rfl, rfl, rfl, rfl⟩
  · refine ⟨rfl, rfl, ?_, rfl, rfl, rfl, rfl⟩
    show dark (g.pend ++ [.lit s]) = _
    simp [dark, Writable.isLit]

theorem Like.refl (g : Gen) : Like g g := ⟨rfl, rfl, rfl, rfl, rfl, rfl, rfl⟩

theorem Like.symm (h : Like g g') : Like g' g :=
  ⟨h.1.symm, h.2.symm, h.3.symm, h.4.symm, h.5.symm, h.6.symm, h.7.symm⟩

theorem Like.trans {g'' : Gen} (h : Like g g') (h' : Like g' g'') : Like g g'' :=
  ⟨h'.1.trans h.1, h'.2.trans h.2, h'.3.trans h.3, h'.4.trans h.4, h'.5.trans h.5, h'.6.trans h.6, h'.7.trans h.7⟩

theorem like_nextWs (g : Gen) (x : Option Str) : Like g { g with nextWs := x } := ⟨rfl, rfl, rfl, rfl, rfl, rfl, rfl⟩

theorem like_skipWs (g : Gen) (x : WH) : Like g { g with skipWs := x } := ⟨rfl, rfl, rfl, rfl, rfl, rfl, rfl⟩

theorem like_flushWs (I : GenInput) (g : Gen) (ws : Ws) : Like g (flushWs I g ws) := by
  unfold flushWs
  split
  · exact .refl _
  · dsimp only
    refine Like.trans ?_ (like_nextWs _ _)
    split
    · split
      · exact .refl _
      · exact push_lit _ _
    · split
      · exact .refl _
      · exact push_lit _ _
    · exact .refl _

theorem Like.flushWs (h : Like g g') (J K : GenInput) (ws ws' : Ws) : Like (Gen.flushWs J g ws) (Gen.flushWs K g' ws') :=
  ((like_flushWs J g ws).symm.trans h).trans (like_flushWs K g' ws')

theorem Like.prepareWs (h : Like g g') (J K : GenInput) (ws ws' : Ws) : Like (Gen.prepareWs J g ws) (Gen.prepareWs K g' ws') :=
  ((like_skipWs g _).symm.trans h).trans (like_skipWs g' _)

theorem Like.handleWs (h : Like g g') (J K : GenInput) (ws ws' : Ws) : Like (Gen.handleWs J g ws) (Gen.handleWs K g' ws') :=
  (h.flushWs J K ws ws').prepareWs J K ws ws'

theorem like_visitLws {l : Lit} {g1 : Gen} (h : visitLws g l = .ok g1) : Like g g1 := by
  unfold visitLws at h
  repeat' split at h
  all_goals first
    | (cases h; first | exact .refl _ | exact like_nextWs _ _ | exact push_lit _ _)
    | cases h

theorem like_visitLit {l : Lit} {g1 : Gen} (h : visitLit g l = .ok g1) : Like g g1 := by
  unfold visitLit at h
  split at h
  · cases h
  · obtain ⟨g2, h1, h⟩ := except_bind h
    cases h
    refine (like_visitLws h1).trans ?_
    have e : Like g2 (if l.val.isEmpty then g2 else ({ g2 with skipWs := .preserve } : Gen).push (.lit l.val)) := by
      split
      · exact .refl _
      · exact (like_skipWs g2 _).trans (push_lit _ _)
    split
    · exact e
    · exact e.trans (like_nextWs _ _)

theorem visitLit_fails (g : Gen) (l : Lit) : visitLit g l = .error .panic ∨ ∃ g1, visitLit g l = .ok g1 := by
  unfold visitLit
  split
  · exact .inl rfl
  · have : visitLws g l = .error .panic ∨ ∃ g1, visitLws g l = .ok g1 := by
      unfold visitLws
      repeat' split
      all_goals first | exact .inl rfl | exact .inr ⟨_, rfl⟩
    rcases this with h | ⟨g1, h⟩ <;> rw [h]
    · exact .inl rfl
    · exact .inr ⟨_, rfl⟩

theorem Like.visitLit (h : Like g g') (l : Lit) : OkOr Like (Gen.visitLit g l) (Gen.visitLit g' l) := by
  intro g1 h1
  rcases visitLit_fails g' l with h2 | ⟨g2, h2⟩
  · exact .inl h2
  · exact .inr ⟨g2, h2, ((like_visitLit h1).symm.trans h).trans (like_visitLit h2)⟩

theorem Like.openLine (h : Like g g') : Like g.openLine g'.openLine := by
  unfold Gen.openLine
  rw [h.discard]
  split
  · exact h
  · exact ⟨h.locals, h.superBlock, h.pend, h.pdiscard, h.named, congrArg (· + 1) h.indent, rfl⟩

theorem Like.dedent (h : Like g g') : OkOr Like g.dedent g'.dedent := by
  unfold Gen.dedent
  rw [h.indent]
  split
  · exact .fail
  · exact .pure ⟨h.locals, h.superBlock, h.pend, h.pdiscard, h.named, rfl, h.discard⟩

theorem Like.closeLine (h : Like g g') : OkOr Like g.closeLine g'.closeLine := by
  unfold Gen.closeLine
  rw [h.discard]
  split
  · exact .pure h
  · exact h.dedent

theorem Like.declare (h : Like g g') (t : Target) (b : Bool) : Like (Gen.declare g t b) (Gen.declare g' t b) :=
  h.withLocals (by rw [h.locals])

/-! ## Expressions and output -/

theorem visitExpr_wsI (L : Locals) (e : Expr) : visitExpr (wsI I w) L e = visitExpr I L e := by
  delta visitExpr; rfl

theorem passArg_wsI (L : Locals) (e : Expr) : passArg (wsI I w) L e = passArg I L e := by
  unfold passArg
  simp only [visitExpr_wsI]

theorem bindParams_wsI (named : List (Str × Expr)) (args : List Expr) : (ps : List Str) → (k : Nat) → (b : Bool) →
    (L : Locals) → bindParams (wsI I w) named args ps k b L = bindParams I named args ps k b L
  | [], _, _, _ => rfl
  | p :: ps, k, b, L => by
    simp only [bindParams, passArg_wsI, bindParams_wsI named args ps]

theorem namedExpression_format (st : FmtSt) (f : Str) (r : RExpr) (b c : Bool) :
    ∃ f', namedExpression (wsI I w) { st with format := f } r b c = { namedExpression I st r b c with format := f' } := by
  unfold namedExpression
  dsimp only
  have e : FmtSt.find { st with format := f } = st.find := rfl
  rw [e, show (wsI I w).escaper = I.escaper from rfl]
  split
  · exact ⟨_, rfl⟩
  · exact ⟨_, rfl⟩

theorem formatLoop_dark (L : Locals) : (ws : List Writable) → (st : FmtSt) → (f : Str) →
    (formatLoop I L ws st).map FmtSt.named = (formatLoop (wsI I w) L (dark ws) { st with format := f }).map FmtSt.named
  | [], st, f => rfl
  | .lit s :: ws, st, f => formatLoop_dark L ws { st with format := st.format ++ escapeBraces s } f
  | .expr e :: ws, st, f => by
    show ((visitExpr I L e).bind fun x => formatLoop I L ws (namedExpression I st x.1 x.2 (isCacheable e))).map FmtSt.named
      = ((visitExpr (wsI I w) L e).bind fun x =>
          formatLoop (wsI I w) L (dark ws) (namedExpression (wsI I w) { st with format := f } x.1 x.2 (isCacheable e))).map FmtSt.named
    rw [visitExpr_wsI]
    cases visitExpr I L e with
    | error e => rfl
    | ok x =>
      obtain ⟨f', hf⟩ := namedExpression_format (I := I) (w := w) st f x.1 x.2 (isCacheable e)
      dsimp only [Except.bind]
      rw [hf]
      exact formatLoop_dark L ws _ f'
  | .generated r b :: ws, st, f => by
    obtain ⟨f', hf⟩ := namedExpression_format (I := I) (w := w) st f r b false
    show (formatLoop I L ws (namedExpression I st r b false)).map FmtSt.named
      = (formatLoop (wsI I w) L (dark ws) (namedExpression (wsI I w) { st with format := f } r b false)).map FmtSt.named
    rw [hf]
    exact formatLoop_dark L ws _ f'

theorem dark_nil {l : List Writable} (h : l.all Writable.isLit = true) : dark l = [] := by
  unfold dark
  rw [List.filter_eq_nil_iff]
  intro a ha
  rw [List.all_eq_true.mp h a ha]
  simp

/-- What the flush leaves: the same state, with the number of expressions counted on. -/
theorem writeBuf_named (I : GenInput) (g : Gen) :
    (writeBuf I g).map (·.2) = (formatLoop I g.locals g.pend ⟨[], [], [], g.named⟩).map fun st => { g with pend := [], named := st.named } := by
  have lits : ∀ (l : List Writable) (st : FmtSt), l.all Writable.isLit = true →
      ∃ f, formatLoop I g.locals l st = .ok { st with format := f } := by
    intro l
    induction l with
    | nil => intro st _; exact ⟨_, rfl⟩
    | cons x l ih =>
      intro st h
      cases x with
      | lit s => exact ih { st with format := st.format ++ escapeBraces s } h
      | _ => simp [Writable.isLit] at h
  unfold writeBuf prepareFormat
  split
  · rename_i h
    rw [List.isEmpty_iff] at h
    obtain ⟨loc, nw, sk, sb, p, pd, nm, i, d⟩ := g
    dsimp only at h
    subst h
    rfl
  · split
    · rename_i h
      obtain ⟨f, hf⟩ := lits _ ⟨[], [], [], g.named⟩ h
      rw [hf]
      rfl
    · cases formatLoop I g.locals g.pend ⟨[], [], [], g.named⟩ <;> rfl

theorem Like.writeBuf (h : Like g g') : OkOr LikeR (Gen.writeBuf I g) (Gen.writeBuf (wsI I w) g') := by
  intro x hx
  have a := writeBuf_named I g
  have b := writeBuf_named (wsI I w) g'
  rw [hx] at a
  have e1 := formatLoop_dark (I := wsI I w) (w := (wsI I w).ws) g'.locals g'.pend ⟨[], [], [], g'.named⟩ []
  have e2 := formatLoop_dark (I := I) (w := w) g.locals g.pend ⟨[], [], [], g.named⟩ []
  rw [h.locals, h.pend, h.named] at e1
  cases hf : formatLoop I g.locals g.pend ⟨[], [], [], g.named⟩ with
  | error e => rw [hf] at a; cases a
  | ok st =>
    rw [hf] at a e2
    have hx2 : x.2 = { g with pend := [], named := st.named } := by injection a
    have e3 : (formatLoop (wsI I w) g'.locals g'.pend ⟨[], [], [], g'.named⟩).map FmtSt.named = .ok st.named := by
      rw [h.locals, h.named]; exact e1.trans e2.symm
    cases hf' : formatLoop (wsI I w) g'.locals g'.pend ⟨[], [], [], g'.named⟩ with
    | error e => rw [hf'] at e3; cases e3
    | ok st' =>
      rw [hf'] at b e3
      have hn : st'.named = st.named := by injection e3
      cases hw : Gen.writeBuf (wsI I w) g' with
      | error e => rw [hw] at b; cases b
      | ok y =>
        rw [hw] at b
        refine .inr ⟨y, rfl, ?_⟩
        have hy : y.2 = { g' with pend := [], named := st'.named } := by injection b
        show Like x.2 y.2
        rw [hx2, hy]
        exact ⟨h.locals, h.superBlock, rfl, h.pdiscard, hn, h.indent, h.discard⟩

theorem Like.flushIf (h : Like g g') (b : Bool) : OkOr LikeR (Gen.flushIf I b g) (Gen.flushIf (wsI I w) b g') := by
  unfold Gen.flushIf
  split
  · exact h.writeBuf
  · exact .pure h

/-! ## Nodes -/

/-- Not a filter block. -/
abbrev NoFb (n : Node) : Prop := noFilterBlock n = true

/-- The recursive calls. -/
def RecLike (rec rec' : Handler) : Prop :=
  ∀ H ctx nodes level g g', (∀ h, H = some h → HOk NoFb h) → CtxOk NoFb ctx → Every NoFb nodes → Like g g' →
    OkOr LikeR (rec H ctx nodes level g) (rec' H ctx nodes level g')

theorem Like.writeLet (h : Like g g') (ws : Ws) (var : Target) (val : Option Expr) :
    OkOr LikeR (Gen.writeLet I g ws var val) (Gen.writeLet (wsI I w) g' ws var val) := by
  unfold Gen.writeLet
  have hw := h.handleWs I (wsI I w) ws ws
  cases val with
  | none =>
    dsimp only
    refine hw.writeBuf.bind fun x y hxy => ?_
    exact .pure (hxy.declare _ _)
  | some e =>
    dsimp only
    rw [hw.locals]
    refine OkOr.same (visitExpr_wsI _ _) fun r _ => ?_
    refine OkOr.same rfl fun b _ => ?_
    refine (hw.flushIf b).bind fun x y hxy => ?_
    exact .pure (hxy.declare _ _)

/-- The results of the functions that return something beside the state. -/
def LikeS {α : Type} (x y : α × Gen) : Prop := Like x.2 y.2

theorem Like.branchCond (h : Like g g') (c : Option CondTest) :
    OkOr LikeS (Gen.branchCond I g c) (Gen.branchCond (wsI I w) g' c) := by
  rcases c with _ | ⟨_ | t, e⟩
  · exact .pure h
  · unfold Gen.branchCond
    rw [h.locals]
    exact OkOr.same (visitExpr_wsI _ _) fun r _ => .pure h
  · cases e with
    | binop op a b =>
      unfold Gen.branchCond
      dsimp only
      split
      · rw [h.locals]
        refine OkOr.same (visitExpr_wsI _ _) fun r _ => ?_
        rw [(h.declare t true).locals]
        exact OkOr.same (visitExpr_wsI _ _) fun r _ => .pure (h.declare _ _)
      · rw [h.locals]
        exact OkOr.same (visitExpr_wsI _ _) fun r _ => .pure (h.declare _ _)
    | _ =>
      unfold Gen.branchCond
      rw [h.locals]
      exact OkOr.same (visitExpr_wsI _ _) fun r _ => .pure (h.declare _ _)

section

variable {rec rec' : Handler} {H : Option Heritage} {ctx : Ctx}

theorem Like.ifBranches (hr : RecLike rec rec') (hH : ∀ h, H = some h → HOk NoFb h) (hc : CtxOk NoFb ctx) (ws : Ws) :
    (bs : List Cond) → (first : Bool) → {g g' : Gen} → Like g g' → (∀ n ∈ partsC bs, NoFb n) →
    OkOr LikeS (Gen.ifBranches rec I H ctx ws first bs g) (Gen.ifBranches rec' (wsI I w) H ctx ws first bs g')
  | [], _, _, _, h, _ => by unfold Gen.ifBranches; exact .pure h
  | .mk _ cond nodes :: rest, first, g, g', h, hp => by
    unfold Gen.ifBranches
    dsimp only
    have hd : OkOr Like (dedentUnless first { g with locals := g.locals.push }) (dedentUnless first { g' with locals := g'.locals.push }) := by
      unfold dedentUnless
      split
      · exact .pure h.pushL
      · exact h.pushL.dedent
    refine hd.bind fun x y hxy => ?_
    refine (hxy.branchCond cond).bind fun x y hxy => ?_
    refine (hr _ _ _ _ _ _ hH hc (fun n hn => hp n (by simp [partsC, hn])) hxy.openLine).bind fun x y hxy => ?_
    cases rest with
    | nil =>
      refine (Like.writeBuf (hxy.handleWs I (wsI I w) _ _)).bind fun x y hxy => ?_
      exact .pure hxy
    | cons c rest =>
      obtain ⟨ws', c', ns'⟩ := c
      refine (Like.writeBuf (hxy.handleWs I (wsI I w) _ _)).bind fun x y hxy => ?_
      refine (Like.ifBranches hr hH hc ws (.mk ws' c' ns' :: rest) false hxy.popL
        (fun n hn => hp n (by rw [partsC]; exact List.mem_append_right _ hn))).bind fun x y hxy => ?_
      exact .pure hxy

theorem Like.writeIf (hr : RecLike rec rec') (hH : ∀ h, H = some h → HOk NoFb h) (hc : CtxOk NoFb ctx) (h : Like g g') (ws : Ws)
    {bs : List Cond} (hp : ∀ n ∈ partsC bs, NoFb n) :
    OkOr LikeR (Gen.writeIf rec I H ctx g ws bs) (Gen.writeIf rec' (wsI I w) H ctx g' ws bs) := by
  cases bs with
  | nil => exact .fail
  | cons c rest =>
    obtain ⟨ws', c', ns'⟩ := c
    unfold Gen.writeIf
    dsimp only
    refine (Like.writeBuf (h.handleWs I (wsI I w) _ _)).bind fun x y hxy => ?_
    refine (Like.ifBranches hr hH hc ws _ true hxy hp).bind fun x y hxy => ?_
    refine hxy.closeLine.bind fun x y hxy => ?_
    exact .pure hxy.popL

theorem Like.matchArms (hr : RecLike rec rec') (hH : ∀ h, H = some h → HOk NoFb h) (hc : CtxOk NoFb ctx) (ws : Ws) :
    (bs : List When) → {g g' : Gen} → Like g g' → (∀ n ∈ partsW bs, NoFb n) →
    OkOr LikeS (Gen.matchArms rec I H ctx ws bs g) (Gen.matchArms rec' (wsI I w) H ctx ws bs g')
  | [], _, _, h, _ => by unfold Gen.matchArms; exact .pure h
  | .mk _ t nodes :: rest, g, g', h, hp => by
    unfold Gen.matchArms
    dsimp only
    refine (hr _ _ _ _ _ _ hH hc (fun n hn => hp n (by simp [partsW, hn])) (h.pushL.declare t true).openLine).bind fun x y hxy => ?_
    refine (Like.writeBuf (hxy.handleWs I (wsI I w) _ _)).bind fun x y hxy => ?_
    refine hxy.closeLine.bind fun x y hxy => ?_
    refine (Like.matchArms hr hH hc ws rest hxy.popL (fun n hn => hp n (by rw [partsW]; exact List.mem_append_right _ hn))).bind fun x y hxy => ?_
    exact .pure hxy

theorem Like.writeMatch (hr : RecLike rec rec') (hH : ∀ h, H = some h → HOk NoFb h) (hc : CtxOk NoFb ctx) (h : Like g g') (ws1 : Ws)
    (e : Expr) {bs : List When} (ws2 : Ws) (hp : ∀ n ∈ partsW bs, NoFb n) :
    OkOr LikeR (Gen.writeMatch rec I H ctx g ws1 e bs ws2) (Gen.writeMatch rec' (wsI I w) H ctx g' ws1 e bs ws2) := by
  cases bs with
  | nil => exact .fail
  | cons c rest =>
    obtain ⟨ws', c', ns'⟩ := c
    unfold Gen.writeMatch
    dsimp only
    refine (Like.writeBuf (h.flushWs I (wsI I w) _ _)).bind fun x y hxy => ?_
    obtain ⟨s, g1⟩ := x
    obtain ⟨s', g1'⟩ := y
    dsimp only
    rw [show g1'.locals = g1.locals from hxy.locals]
    refine OkOr.same (visitExpr_wsI _ _) fun r _ => ?_
    refine (Like.matchArms hr hH hc ws2 _ (hxy.openLine.handleWs I (wsI I w) _ _) hp).bind fun x y hxy => ?_
    refine hxy.closeLine.bind fun x y hxy => ?_
    exact .pure hxy

theorem Like.loopFilter (h : Like g g') (var : Target) (c : Option Expr) :
    Gen.loopFilter (wsI I w) g' var c = Gen.loopFilter I g var c := by
  unfold Gen.loopFilter
  cases c with
  | none => rfl
  | some c =>
    dsimp only
    rw [visitExpr_wsI, (h.pushL.declare var true).locals]
    unfold emit
    rw [h.discard]

theorem Like.writeLoop (hr : RecLike rec rec') (hH : ∀ h, H = some h → HOk NoFb h) (hc : CtxOk NoFb ctx) (h : Like g g')
    (ws1 : Ws) (var : Target) (iter : Expr) (cond : Option Expr) {body : List Node} (ws2 : Ws) {els : List Node} (ws3 : Ws)
    (hb : Every NoFb body) (he : Every NoFb els) :
    OkOr LikeR (Gen.writeLoop rec I H ctx g ws1 var iter cond body ws2 els ws3)
      (Gen.writeLoop rec' (wsI I w) H ctx g' ws1 var iter cond body ws2 els ws3) := by
  unfold Gen.writeLoop
  have h1 := (h.handleWs I (wsI I w) ws1 ws1).pushL
  dsimp only
  rw [(h.handleWs I (wsI I w) ws1 ws1).locals]
  refine OkOr.same (visitExpr_wsI _ _) fun r _ => ?_
  rw [(h.handleWs I (wsI I w) ws1 ws1).locals] at h1
  refine (Like.writeBuf h1).bind fun x y hxy => ?_
  refine OkOr.same (hxy.openLine.loopFilter _ _) fun f _ => ?_
  refine (hr _ _ _ _ _ _ hH hc hb (hxy.openLine.pushL.declare var true).openLine).bind fun x y hxy => ?_
  refine (Like.writeBuf (hxy.handleWs I (wsI I w) _ _)).bind fun x y hxy => ?_
  refine hxy.popL.closeLine.bind fun x y hxy => ?_
  split
  · refine (hr _ _ _ _ _ _ hH hc he hxy.openLine.pushL).bind fun x y hxy => ?_
    refine (Like.writeBuf (hxy.handleWs I (wsI I w) _ _)).bind fun x y hxy => ?_
    refine hxy.popL.closeLine.bind fun x y hxy => ?_
    refine hxy.closeLine.bind fun x y hxy => ?_
    exact .pure hxy.popL
  · refine (Like.writeBuf (hxy.handleWs I (wsI I w) _ _)).bind fun x y hxy => ?_
    refine hxy.closeLine.bind fun x y hxy => ?_
    exact .pure hxy.popL

theorem Like.writeCall (hr : RecLike rec rec') (hI : ∀ p c, assoc I.contexts p = some c → CtxOk NoFb c)
    (hH : ∀ h, H = some h → HOk NoFb h) (hc : CtxOk NoFb ctx) (h : Like g g') (ws : Ws) (scope : Option Str) (name : Str)
    (args : List Expr) :
    OkOr LikeR (Gen.writeCall rec I H ctx g ws scope name args) (Gen.writeCall rec' (wsI I w) H ctx g' ws scope name args) := by
  unfold Gen.writeCall
  refine OkOr.same rfl fun x hx => ?_
  obtain ⟨d, own⟩ := x
  obtain ⟨hown, hd⟩ := findMacro_ok hI hc hx
  dsimp only
  refine (Like.writeBuf (h.flushWs I (wsI I w) ws ws).pushL).bind fun x y hxy => ?_
  obtain ⟨s, g1⟩ := x
  obtain ⟨s', g1'⟩ := y
  dsimp only
  split
  · exact .fail
  · refine OkOr.same rfl fun named _ => ?_
    have h2 := hxy.openLine.prepareWs I (wsI I w) d.ws1 d.ws1
    rw [h2.locals]
    refine OkOr.same (bindParams_wsI _ _ _ _ _ _) fun x _ => ?_
    obtain ⟨ns, rs, L⟩ := x
    dsimp only
    refine (hr _ _ _ _ _ _ hH hown hd (h2.withLocals rfl)).bind fun x y hxy => ?_
    refine (Like.writeBuf (hxy.flushWs I (wsI I w) _ _)).bind fun x y hxy => ?_
    refine hxy.closeLine.bind fun x y hxy => ?_
    exact .pure (hxy.popL.prepareWs _ _ _ _)

theorem Like.writeBlock (hr : RecLike rec rec') (hH : ∀ h, H = some h → HOk NoFb h) (hc : CtxOk NoFb ctx) (h : Like g g')
    (name : Option Str) (outer : Ws) :
    OkOr LikeR (Gen.writeBlock rec I H ctx g name outer) (Gen.writeBlock rec' (wsI I w) H ctx g' name outer) := by
  unfold Gen.writeBlock
  dsimp only
  have h1 := h.flushWs I (wsI I w) outer outer
  rw [h1.superBlock]
  refine OkOr.same rfl fun cur _ => ?_
  refine (Like.writeBuf h1).bind fun x y hxy => ?_
  obtain ⟨s, g1⟩ := x
  obtain ⟨s', g1'⟩ := y
  have hxy : Like g1 g1' := hxy
  dsimp only
  cases H with
  | none => exact .fail
  | some hh =>
    dsimp only
    cases hdefs : assoc hh.blocks cur.1 with
    | none => exact .fail
    | some defs =>
      dsimp only
      cases hcd : defs[cur.2]? with
      | none => exact .fail
      | some cd =>
        obtain ⟨cctx, d⟩ := cd
        dsimp only
        obtain ⟨k, hk⟩ := assoc_mem hdefs
        obtain ⟨hcc, hd⟩ := (hH hh rfl).blocks _ hk _ (List.mem_of_getElem? hcd)
        rw [hxy.pdiscard, hxy.discard, hxy.indent, show (wsI I w).block = I.block from rfl]
        refine OkOr.bind (R := LikeR) (hr _ _ _ _ _ _ hH (mergeCtx_ok hcc hc) hd ?_) fun x y hch => ?_
        · exact ⟨rfl, rfl, hxy.pend, rfl, rfl, rfl, rfl⟩
        rw [show y.2.locals = x.2.locals from hch.locals]
        refine (Like.flushIf hch _).bind fun x y hch => ?_
        have h3 := Like.flushWs hch I (wsI I w) d.ws2 d.ws2
        refine .pure ?_
        show Like (Gen.prepareWs _ _ _) (Gen.prepareWs _ _ _)
        apply Like.prepareWs
        refine ⟨hxy.locals, hxy.superBlock, h3.pend, ?_, hxy.named, h3.indent, rfl⟩
        show (if _ then _ else _) = (if _ then _ else _)
        rw [h3.pdiscard]

theorem Like.handleInclude (hr : RecLike rec rec') (hI : ∀ p c, assoc I.contexts p = some c → CtxOk NoFb c) (hc : CtxOk NoFb ctx)
    (h : Like g g') (ws : Ws) (path : Str) :
    OkOr LikeR (Gen.handleInclude rec I ctx g ws path) (Gen.handleInclude rec' (wsI I w) ctx g' ws path) := by
  unfold Gen.handleInclude
  refine (Like.writeBuf (h.flushWs I (wsI I w) ws ws)).bind fun x y hxy => ?_
  obtain ⟨s, g1⟩ := x
  obtain ⟨s', g1'⟩ := y
  have hxy : Like g1 g1' := hxy
  rw [show (wsI I w).find = I.find from rfl, show (wsI I w).contexts = I.contexts from rfl]
  dsimp only
  cases hf : I.find path with
  | none => exact .fail
  | some p =>
    dsimp only
    cases hp : assoc I.contexts p with
    | none => exact .fail
    | some c =>
      dsimp only
      refine OkOr.same rfl fun Hc h2 => ?_
      have hcc := mergeCtx_ok (hI _ _ hp) hc
      have hHc : ∀ h, Hc = some h → HOk NoFb h := by
        rintro h rfl
        unfold includeHeritage at h2
        split at h2
        · cases h7 : heritageNew I.contexts (mergeCtx c ctx) with
          | error e => rw [h7] at h2; cases h2
          | ok x => rw [h7] at h2; cases h2; exact heritageNew_ok hI hcc h7
        · cases h2
      have hch : Like { Gen.new I g1.locals.withParent g1.indent g1.discard with pdiscard := g1.pdiscard }
          { Gen.new (wsI I w) g1'.locals.withParent g1'.indent g1'.discard with pdiscard := g1'.pdiscard } :=
        ⟨congrArg MapChain.withParent hxy.locals, rfl, rfl, hxy.pdiscard, rfl, hxy.indent, hxy.discard⟩
      have fin : ∀ {x y : List Stmt × Gen} {t t' : List Stmt × Gen → List Stmt}, LikeR x y →
          OkOr LikeR (do let z ← Gen.writeBuf I x.2; return (t z, Gen.prepareWs I { g1 with indent := z.2.indent, discard := z.2.discard } ws))
            (do let z ← Gen.writeBuf (wsI I w) y.2; return (t' z, Gen.prepareWs (wsI I w) { g1' with indent := z.2.indent, discard := z.2.discard } ws)) := by
        intro x y t t' hch
        refine (Like.writeBuf hch).bind fun x y hch => ?_
        refine .pure ?_
        show Like (Gen.prepareWs _ _ _) (Gen.prepareWs _ _ _)
        apply Like.prepareWs
        exact ⟨hxy.locals, hxy.superBlock, hxy.pend, hxy.pdiscard, hxy.named, hch.indent, hch.discard⟩
      cases Hc with
      | none => exact (hr _ _ _ _ _ _ hHc hcc hcc.nodes hch).bind fun x y hch => fin hch
      | some hh => exact (hr _ _ _ _ _ _ hHc (hHc hh rfl).root (hHc hh rfl).root.nodes hch).bind fun x y hch => fin hch

theorem Like.handleNode (hr : RecLike rec rec') (hI : ∀ p c, assoc I.contexts p = some c → CtxOk NoFb c)
    (hH : ∀ h, H = some h → HOk NoFb h) (hc : CtxOk NoFb ctx) (h : Like g g') (level : Level) (n : Node)
    (hp : ∀ m ∈ parts n, NoFb m) :
    OkOr LikeR (Gen.handleNode rec I H ctx level g n) (Gen.handleNode rec' (wsI I w) H ctx level g' n) := by
  have hn : NoFb n := hp n (by cases n <;> simp [parts])
  cases n with
  | lit l =>
    unfold Gen.handleNode
    exact (h.visitLit l).bind fun x y hxy => .pure hxy
  | raw ws1 l ws2 =>
    unfold Gen.handleNode
    exact ((h.handleWs I (wsI I w) ws1 ws1).visitLit l).bind fun x y hxy => .pure (hxy.handleWs _ _ _ _)
  | comment ws c => exact .pure (h.handleWs _ _ _ _)
  | expr ws e => exact .pure ((h.handleWs _ _ _ _).push _)
  | let_ ws var val => exact h.writeLet ws var val
  | if_ ws bs => exact h.writeIf hr hH hc ws (fun n hn => hp n (by simp [parts, hn]))
  | match_ ws1 e arms ws2 => exact h.writeMatch hr hH hc ws1 e ws2 (fun n hn => hp n (by simp [parts, hn]))
  | loop ws1 v i c body ws2 els ws3 =>
    exact h.writeLoop hr hH hc ws1 v i c ws2 ws3 (fun n hn => hp n (by simp [parts, hn])) (fun n hn => hp n (by simp [parts, hn]))
  | blockDef ws1 name ns ws2 => exact h.writeBlock hr hH hc _ _
  | «include» ws path => exact h.handleInclude hr hI hc _ _
  | call ws scope name args =>
    simp only [Gen.handleNode]
    split
    · exact h.writeBlock hr hH hc _ _
    · exact h.writeCall hr hI hH hc _ _ _ _
  | filterBlock ws1 f ns ws2 => cases hn
  | «macro» ws1 nm args ns ws2 =>
    simp only [Gen.handleNode]
    split
    · exact .pure ((h.flushWs _ _ _ _).prepareWs _ _ _ _)
    · exact .fail
  | import_ ws p s =>
    simp only [Gen.handleNode]
    split
    · exact .pure (h.handleWs _ _ _ _)
    · exact .fail
  | extends_ p =>
    simp only [Gen.handleNode]
    split
    · exact .pure h
    · exact .fail
  | break_ ws =>
    unfold Gen.handleNode
    exact (Like.writeBuf (h.handleWs I (wsI I w) _ _)).bind fun x y hxy => .pure hxy
  | continue_ ws =>
    unfold Gen.handleNode
    exact (Like.writeBuf (h.handleWs I (wsI I w) _ _)).bind fun x y hxy => .pure hxy

theorem Like.handleNodes (hr : RecLike rec rec') (hI : ∀ p c, assoc I.contexts p = some c → CtxOk NoFb c)
    (hH : ∀ h, H = some h → HOk NoFb h) (hc : CtxOk NoFb ctx) (level : Level) : (ns : List Node) → {g g' : Gen} → Like g g' →
    Every NoFb ns → OkOr LikeR (Gen.handleNodes rec I H ctx level ns g) (Gen.handleNodes rec' (wsI I w) H ctx level ns g')
  | [], _, _, h, _ => by unfold Gen.handleNodes; exact .pure h
  | n :: ns, g, g', h, hp => by
    unfold Gen.handleNodes
    refine (h.handleNode hr hI hH hc level n hp.head).bind fun x y hxy => ?_
    refine (Like.handleNodes hr hI hH hc level ns hxy hp.tail).bind fun x y hxy => ?_
    exact .pure hxy

end

theorem handle_like (hI : ∀ p c, assoc I.contexts p = some c → CtxOk NoFb c) : (fuel : Nat) →
    RecLike (handle I fuel) (handle (wsI I w) fuel)
  | 0 => by intro _ _ _ _ _ _ _ _ _ _; exact .fail
  | fuel + 1 => by
    intro H ctx nodes level g g' hH hc hn h
    unfold handle
    refine (h.handleNodes (handle_like hI fuel) hI hH hc level nodes hn).bind fun x y hxy => ?_
    have he : OkOr LikeR (handleEnd I level x.2) (handleEnd (wsI I w) level y.2) := by
      unfold handleEnd
      split
      · refine Like.writeBuf ?_
        have e : ∀ (J : GenInput) (g : Gen) ws, Like g (if g.nextWs.isSome then flushWs J g ws else g) := by
          intro J g ws
          split
          · exact like_flushWs _ _ _
          · exact .refl _
        exact ((e I _ _).symm.trans hxy).trans (e (wsI I w) _ _)
      · exact .pure hxy
    exact he.bind fun x y hxy => .pure hxy

/-- With another setting the generator succeeds too, or it panics. -/
theorem generate_like (hI : ∀ p c, assoc I.contexts p = some c → CtxOk NoFb c) {H : Option Heritage}
    (hH : ∀ h, H = some h → HOk NoFb h) {ctx : Ctx} (hc : CtxOk NoFb ctx) (fuel : Nat) :
    OkOr (fun _ _ => True) (generate I fuel H ctx) (generate (wsI I w) fuel H ctx) := by
  have key : ∀ C : Ctx, CtxOk NoFb C →
      OkOr (fun _ _ => True)
        (do
          let x ← handle I fuel H C C.nodes .top (Gen.new I .empty 2 false)
          if !fitsList 2 x.1 then .error .panic
          else do
            let g ← x.2.closeLine
            let _ ← g.closeLine
            return x.1)
        (do
          let x ← handle (wsI I w) fuel H C C.nodes .top (Gen.new (wsI I w) .empty 2 false)
          if !fitsList 2 x.1 then .error .panic
          else do
            let g ← x.2.closeLine
            let _ ← g.closeLine
            return x.1) := by
    intro C hC
    refine (handle_like hI fuel _ _ _ _ _ _ hH hC hC.nodes ⟨rfl, rfl, rfl, rfl, rfl, rfl, rfl⟩).bind fun x y hxy => ?_
    split
    · exact .fail
    · split
      · exact .panic
      · refine hxy.closeLine.bind fun x y hxy => ?_
        exact hxy.closeLine.bind fun x y hxy => .pure trivial
  cases H with
  | none => exact key ctx hc
  | some hh => exact key hh.root (hH hh rfl).root

end Askama
