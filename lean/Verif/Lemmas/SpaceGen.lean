import Verif.Spec.Space
import Verif.Lemmas.Woven
import Verif.Lemmas.GenInv

/-! The generated code of a template without its white space is the generated code without its white space. -/

namespace Askama

open Askama.Spec Gen

/-! ## Texts -/

theorem squeeze_nil : squeeze [] = [] := rfl

theorem squeeze_append (a b : Str) : squeeze (a ++ b) = squeeze a ++ squeeze b := List.filter_append ..

theorem squeeze_idem (s : Str) : squeeze (squeeze s) = squeeze s := by simp [squeeze]

theorem black_not {c : Char} (h : isBlank c) : black c = false := by
  rcases h with rfl | rfl | rfl | rfl <;> decide

theorem squeeze_blank {s : Str} (h : ∀ c ∈ s, isBlank c) : squeeze s = [] := by
  unfold squeeze
  rw [List.filter_eq_nil_iff]
  intro c hc
  rw [black_not (h c hc)]
  simp

theorem squeeze_minimized (s : Str) : squeeze (minimized s) = [] := by
  unfold minimized
  split <;> decide

theorem squeeze_argName (id : Nat) : squeeze (argName id) = argName id := by
  unfold squeeze
  rw [List.filter_eq_self]
  intro c hc
  unfold argName at hc
  rw [List.mem_append] at hc
  rcases hc with hc | hc
  · revert c; decide
  · have := Nat.isDigit_of_mem_toDigits (by omega) (by omega) hc
    cases hb : black c with
    | true => rfl
    | false =>
      exfalso
      simp only [black, Bool.not_eq_false', Bool.or_eq_true, beq_iff_eq] at hb
      rcases hb with ((rfl | rfl) | rfl) | rfl <;> exact absurd this (by decide)

theorem squeeze_escapeBraces (s : Str) : squeeze (escapeBraces s) = escapeBraces (squeeze s) := by
  induction s with
  | nil => rfl
  | cons c s ih =>
    rw [escapeBraces_cons, squeeze_append, ih]
    by_cases h1 : c = '{'
    · subst h1
      show ['{', '{'] ++ _ = escapeBraces ('{' :: squeeze s)
      rw [escapeBraces_cons]; rfl
    · by_cases h2 : c = '}'
      · subst h2
        show ['}', '}'] ++ _ = escapeBraces ('}' :: squeeze s)
        rw [escapeBraces_cons]; rfl
      · rw [if_neg h1, if_neg h2]
        cases hb : black c with
        | true =>
          have : squeeze (c :: s) = c :: squeeze s := by simp [squeeze, hb]
          rw [this, escapeBraces_cons, if_neg h1, if_neg h2]
          simp [squeeze, hb]
        | false =>
          have : squeeze (c :: s) = squeeze s := by simp [squeeze, hb]
          rw [this]
          simp [squeeze, hb]

/-- A piece that is not white space. -/
def blackPiece : Piece → Bool
  | .ch c => black c
  | .arg _ => true

/-- A format string that means the same without its white space, but for white space. -/
def SpaceFine (f : Str) : Prop := ∃ ps, IsFmt f ps ∧ IsFmt (squeeze f) (ps.filter blackPiece)

theorem SpaceFine.nil : SpaceFine [] := ⟨[], IsFmt.nil, IsFmt.nil⟩

theorem SpaceFine.append {a b : Str} (ha : SpaceFine a) (hb : SpaceFine b) : SpaceFine (a ++ b) := by
  obtain ⟨p, h1, h2⟩ := ha
  obtain ⟨q, h3, h4⟩ := hb
  refine ⟨p ++ q, h1.append h3, ?_⟩
  rw [squeeze_append, List.filter_append]
  exact h2.append h4

theorem fine_text (s : Str) : SpaceFine (escapeBraces s) := by
  refine ⟨s.map Piece.ch, isFmt_escapeBraces s, ?_⟩
  rw [squeeze_escapeBraces, List.filter_map]
  exact isFmt_escapeBraces (squeeze s)

theorem squeeze_arg (id : Nat) : squeeze (['{'] ++ argName id ++ ['}']) = ['{'] ++ argName id ++ ['}'] := by
  rw [squeeze_append, squeeze_append, squeeze_argName]
  rfl

theorem fine_arg (id : Nat) : SpaceFine (['{'] ++ argName id ++ ['}']) := by
  refine ⟨_, isFmt_arg id, ?_⟩
  rw [squeeze_arg]
  exact isFmt_arg id

/-! ## Statements -/

mutual
/-- A statement that writes no white space of its own. -/
def bareStmt : Stmt → List Stmt
  | .writeLit s => if squeeze s = [] then [] else [.writeLit (squeeze s)]
  | .writeFmt f args => [.writeFmt (squeeze f) args]
  | .if_ bs => [.if_ (bareBranches bs)]
  | .match_ e arms => [.match_ e (bareArms arms)]
  | .block b => [.block (bareS b)]
  | .forIter t b => [.forIter t (bareS b)]
  | .ifNotDid b => [.ifNotDid (bareS b)]
  | s => [s]
/-- All statements of a list. -/
def bareS : List Stmt → List Stmt
  | [] => []
  | s :: ss => bareStmt s ++ bareS ss
/-- All statements in the branches. -/
def bareBranches : List Branch → List Branch
  | [] => []
  | .mk c b :: bs => .mk c (bareS b) :: bareBranches bs
/-- All statements in the arms. -/
def bareArms : List Arm → List Arm
  | [] => []
  | .mk t b :: bs => .mk t (bareS b) :: bareArms bs
end

mutual
/-- All formats are fine. -/
def FineStmt : Stmt → Prop
  | .writeFmt f _ => SpaceFine f
  | .if_ bs => FineBranches bs
  | .match_ _ arms => FineArms arms
  | .block b => FineS b
  | .forIter _ b => FineS b
  | .ifNotDid b => FineS b
  | _ => True
/-- All formats are fine. -/
def FineS : List Stmt → Prop
  | [] => True
  | s :: ss => FineStmt s ∧ FineS ss
/-- All formats are fine. -/
def FineBranches : List Branch → Prop
  | [] => True
  | .mk _ b :: bs => FineS b ∧ FineBranches bs
/-- All formats are fine. -/
def FineArms : List Arm → Prop
  | [] => True
  | .mk _ b :: bs => FineS b ∧ FineArms bs
end

theorem bareS_append (a b : List Stmt) : bareS (a ++ b) = bareS a ++ bareS b := by
  induction a with
  | nil => rfl
  | cons s a ih => simp only [List.cons_append, bareS, ih, List.append_assoc]

theorem fineS_append {a b : List Stmt} : FineS (a ++ b) ↔ FineS a ∧ FineS b := by
  induction a with
  | nil => simp [FineS]
  | cons s a ih => simp only [List.cons_append, FineS, ih, and_assoc]

theorem bare_branchBodies (bs : List Branch) : bareS (branchBodies bs) = branchBodies (bareBranches bs) := by
  induction bs with
  | nil => rfl
  | cons b bs ih => obtain ⟨c, b⟩ := b; simp only [branchBodies, bareBranches, bareS_append, ih]

theorem bare_armBodies (bs : List Arm) : bareS (armBodies bs) = armBodies (bareArms bs) := by
  induction bs with
  | nil => rfl
  | cons b bs ih => obtain ⟨c, b⟩ := b; simp only [armBodies, bareArms, bareS_append, ih]

theorem fine_branchBodies {bs : List Branch} (h : FineBranches bs) : FineS (branchBodies bs) := by
  induction bs with
  | nil => trivial
  | cons b bs ih => obtain ⟨c, b⟩ := b; exact fineS_append.2 ⟨h.1, ih h.2⟩

theorem fine_armBodies {bs : List Arm} (h : FineArms bs) : FineS (armBodies bs) := by
  induction bs with
  | nil => trivial
  | cons b bs ih => obtain ⟨c, b⟩ := b; exact fineS_append.2 ⟨h.1, ih h.2⟩

/-! ## The state of the generator -/

/-- What is to be written, without white space. -/
def bareW1 : Writable → Option Writable
  | .lit s => if squeeze s = [] then none else some (.lit (squeeze s))
  | w => some w

/-- What is to be written, without white space. -/
def bareP (ws : List Writable) : List Writable := ws.filterMap bareW1

/-- The state without white space. -/
def bareG (g : Gen) : Gen := { g with nextWs := none, skipWs := .preserve, pend := bareP g.pend }

/-- What waits to be written or dropped is white space. -/
def StOk (g : Gen) : Prop := ∀ s, g.nextWs = some s → squeeze s = []

theorem StOk.of {g g' : Gen} (h : StOk g) (e : g'.nextWs = g.nextWs) : StOk g' := by
  unfold StOk; rw [e]; exact h

/-- The settings without the handling of white space, with these templates. -/
def bareI (I : GenInput) (cs : List (Str × Ctx)) : GenInput := { I with ws := .preserve, contexts := cs }

theorem bareG_push (g : Gen) (w : Writable) :
    bareG (g.push w) = if g.pdiscard then bareG g else { bareG g with pend := bareP g.pend ++ bareP [w] } := by
  unfold push
  split
  · rfl
  · simp only [bareG, bareP, List.filterMap_append]

theorem bareG_push_blank (g : Gen) {s : Str} (h : squeeze s = []) : bareG (g.push (.lit s)) = bareG g := by
  rw [bareG_push]
  split
  · rfl
  · simp [bareP, bareW1, h, bareG]

theorem push_nextWs (g : Gen) (w : Writable) : (g.push w).nextWs = g.nextWs := by unfold push; split <;> rfl

section

variable {I : GenInput} {cs : List (Str × Ctx)}

theorem flushWs_nextWs (g : Gen) (ws : Ws) : (flushWs I g ws).nextWs = none := by
  unfold flushWs
  split
  · assumption
  · rfl

theorem flushWs_stOk (g : Gen) (ws : Ws) : StOk (flushWs I g ws) := by
  intro s hs; rw [flushWs_nextWs] at hs; cases hs

theorem flushWs_bare {g : Gen} (h : StOk g) (ws : Ws) : bareG (flushWs I g ws) = bareG g := by
  unfold flushWs
  split
  · rfl
  · rename_i val hv
    have hb := h _ hv
    dsimp only
    cases shouldTrimWs I ws.l with
    | preserve =>
      dsimp only
      split
      · rfl
      · exact bareG_push_blank g hb
    | minimize =>
      dsimp only
      split
      · rfl
      · exact bareG_push_blank g (squeeze_minimized val)
    | suppress => rfl

theorem flushWs_of_bare (J : GenInput) (g : Gen) (ws : Ws) : flushWs J (bareG g) ws = bareG g := rfl
theorem prepareWs_bare (g : Gen) (ws : Ws) : bareG (prepareWs I g ws) = bareG g := rfl
theorem prepareWs_of_bare (g : Gen) : prepareWs (bareI I cs) (bareG g) noWs = bareG g := rfl
theorem handleWs_bare {g : Gen} (h : StOk g) (ws : Ws) : bareG (handleWs I g ws) = bareG g := flushWs_bare h ws
theorem handleWs_of_bare (g : Gen) : handleWs (bareI I cs) (bareG g) noWs = bareG g := rfl
theorem handleWs_stOk (g : Gen) (ws : Ws) : StOk (handleWs I g ws) := (flushWs_stOk g ws).of rfl

theorem visitLws_bare {g g' : Gen} {l : Lit} (hl : squeeze l.lws = []) (h : visitLws g l = .ok g') (hg : StOk g) :
    bareG g' = bareG g ∧ StOk g' := by
  unfold visitLws at h
  repeat' split at h
  all_goals cases h
  all_goals first
    | exact ⟨rfl, hg⟩
    | exact ⟨rfl, by intro s hs; cases hs; exact hl⟩
    | exact ⟨bareG_push_blank g hl, hg.of (push_nextWs ..)⟩
    | exact ⟨bareG_push_blank g (squeeze_minimized _), hg.of (push_nextWs ..)⟩

/-- What a literal adds. -/
theorem visitLit_bare {g g' : Gen} {l : Lit} (hl : squeeze l.lws = []) (hr : squeeze l.rws = []) (h : visitLit g l = .ok g') :
    bareG g' = bareG (g.push (.lit l.val)) ∧ StOk g' := by
  unfold visitLit at h
  split at h
  · cases h
  · rename_i hn
    have hg : StOk g := by intro s hs; rw [hs] at hn; exact absurd rfl hn
    obtain ⟨g1, h1, h⟩ := except_bind h
    obtain ⟨a1, a2⟩ := visitLws_bare hl h1 hg
    have key : ∀ g2 : Gen, StOk g2 → bareG (if l.rws.isEmpty then g2 else { g2 with nextWs := some l.rws }) = bareG g2
        ∧ StOk (if l.rws.isEmpty then g2 else { g2 with nextWs := some l.rws }) := by
      intro g2 h2
      split
      · exact ⟨rfl, h2⟩
      · exact ⟨rfl, by intro s hs; cases hs; exact hr⟩
    cases h
    have e1 : bareG (if l.val.isEmpty then g1 else ({ g1 with skipWs := .preserve } : Gen).push (.lit l.val))
        = bareG (g.push (.lit l.val)) := by
      split
      · rename_i hv
        rw [bareG_push_blank g (by rw [List.isEmpty_iff.1 hv]; rfl), a1]
      · rw [bareG_push, bareG_push, show bareG { g1 with skipWs := .preserve } = bareG g1 from rfl, a1,
          show g1.pdiscard = g.pdiscard from congrArg (fun x : Gen => x.pdiscard) (show bareG g1 = bareG g from a1) |> fun (h : (bareG g1).pdiscard = (bareG g).pdiscard) => h,
          show bareP g1.pend = bareP g.pend from congrArg Gen.pend a1]
    have e2 : StOk (if l.val.isEmpty then g1 else ({ g1 with skipWs := .preserve } : Gen).push (.lit l.val)) := by
      split
      · exact a2
      · exact a2.of (push_nextWs ..)
    exact ⟨(key _ e2).1.trans e1, (key _ e2).2⟩

/-! ## Functions that read no nodes -/

theorem visitExpr_bareI (L : Locals) (e : Expr) : visitExpr (bareI I cs) L e = visitExpr I L e := by
  delta visitExpr; rfl

theorem branchCond_bare {g g' : Gen} {c : Option CondTest} {r : RCond} (h : branchCond I g c = .ok (r, g')) :
    branchCond (bareI I cs) (bareG g) c = .ok (r, bareG g') ∧ g'.nextWs = g.nextWs := by
  have hl : (bareG g).locals = g.locals := rfl
  rcases c with _ | ⟨_ | t, e⟩
  · cases h; exact ⟨rfl, rfl⟩
  · unfold branchCond at h
    obtain ⟨⟨r1, w⟩, h1, h⟩ := except_bind h
    cases h
    refine ⟨?_, rfl⟩
    simp only [branchCond, visitExpr_bareI, hl, h1]
    rfl
  · cases e with
    | binop op a b =>
      unfold branchCond at h ⊢
      by_cases ho : op = c!"||" ∨ op = c!"&&"
      · simp only [if_pos ho] at h ⊢
        obtain ⟨⟨r1, w⟩, h1, h⟩ := except_bind h
        obtain ⟨⟨r2, w2⟩, h2, h⟩ := except_bind h
        cases h
        refine ⟨?_, rfl⟩
        have h2 : visitExpr I (declare (bareG g) t true).locals b = .ok (r2, w2) := h2
        simp only [visitExpr_bareI, hl, h1, bind, Except.bind, h2]
        rfl
      · simp only [if_neg ho] at h ⊢
        obtain ⟨⟨r1, w⟩, h1, h⟩ := except_bind h
        cases h
        refine ⟨?_, rfl⟩
        simp only [visitExpr_bareI, hl, h1]
        rfl
    | _ =>
      unfold branchCond at h
      obtain ⟨⟨r1, w⟩, h1, h⟩ := except_bind h
      cases h
      refine ⟨?_, rfl⟩
      simp only [branchCond, visitExpr_bareI, hl, h1]
      rfl

theorem loopFilter_bare (g : Gen) (var : Target) (c : Option Expr) :
    loopFilter (bareI I cs) (bareG g) var c = loopFilter I g var c := by
  unfold loopFilter
  simp only [visitExpr_bareI]
  rfl

theorem passArg_bareI (L : Locals) (e : Expr) : passArg (bareI I cs) L e = passArg I L e := by
  unfold passArg
  simp only [visitExpr_bareI]

theorem bindParams_bareI (named : List (Str × Expr)) (args : List Expr) : (ps : List Str) → (k : Nat) → (b : Bool) →
    (L : Locals) → bindParams (bareI I cs) named args ps k b L = bindParams I named args ps k b L
  | [], _, _, _ => rfl
  | p :: ps, k, b, L => by
    simp only [bindParams, passArg_bareI, bindParams_bareI named args ps]

/-! ## Pending output -/

/-- The state of the loop over what is to be written, without white space. -/
def bareF (st : FmtSt) : FmtSt := { st with format := squeeze st.format }

theorem namedExpression_bare (st : FmtSt) (r : RExpr) (w c : Bool) :
    bareF (namedExpression I st r w c) = namedExpression (bareI I cs) (bareF st) r w c := by
  have e : ∀ id, squeeze (st.format ++ ['{'] ++ argName id ++ ['}']) = squeeze st.format ++ ['{'] ++ argName id ++ ['}'] := by
    intro id
    have := squeeze_arg id
    simp only [squeeze_append] at this ⊢
    simp only [List.append_assoc] at this ⊢
    rw [this]
  unfold namedExpression
  show _ = match st.find _, c with | some id, true => _ | found, _ => _
  show bareF (match st.find (if w = true then none else some I.escaper, r), c with | some id, true => _ | found, _ => _) =
    match st.find (if w = true then none else some I.escaper, r), c with | some id, true => _ | found, _ => _
  cases st.find (if w = true then none else some I.escaper, r) with
  | none => simp only [bareF, e]; rfl
  | some id => cases c <;> (simp only [bareF, e]; try rfl)

theorem namedExpression_fine {st : FmtSt} (h : SpaceFine st.format) (r : RExpr) (w c : Bool) :
    SpaceFine (namedExpression I st r w c).format := by
  have e : ∀ id, SpaceFine (st.format ++ ['{'] ++ argName id ++ ['}']) := by
    intro id
    have := h.append (fine_arg id)
    simpa only [List.append_assoc] using this
  unfold namedExpression
  dsimp only
  split <;> exact e _

theorem formatLoop_bare {L : Locals} : (ws : List Writable) → {st st' : FmtSt} → formatLoop I L ws st = .ok st' →
    SpaceFine st.format → formatLoop (bareI I cs) L (bareP ws) (bareF st) = .ok (bareF st') ∧ SpaceFine st'.format
  | [], _, _, h, hf => by cases h; exact ⟨rfl, hf⟩
  | .lit s :: ws, st, st', h, hf => by
    have h : formatLoop I L ws { st with format := st.format ++ escapeBraces s } = .ok st' := h
    obtain ⟨a, b⟩ := formatLoop_bare ws h (hf.append (fine_text s))
    refine ⟨?_, b⟩
    have e : bareF { st with format := st.format ++ escapeBraces s } = { bareF st with format := squeeze st.format ++ escapeBraces (squeeze s) } := by
      simp only [bareF, squeeze_append, squeeze_escapeBraces]
    rw [e] at a
    by_cases hs : squeeze s = []
    · have : bareP (.lit s :: ws) = bareP ws := by simp [bareP, bareW1, hs]
      rw [this]
      rw [hs] at a
      have e2 : ({ bareF st with format := squeeze st.format ++ escapeBraces [] } : FmtSt) = bareF st := by
        simp [escapeBraces, bareF]
      rw [e2] at a
      exact a
    · have : bareP (.lit s :: ws) = .lit (squeeze s) :: bareP ws := by simp [bareP, bareW1, hs]
      rw [this]
      exact a
  | .expr e :: ws, st, st', h, hf => by
    unfold formatLoop at h
    obtain ⟨⟨r, w⟩, h1, h⟩ := except_bind h
    obtain ⟨a, b⟩ := formatLoop_bare ws h (namedExpression_fine hf r w _)
    refine ⟨?_, b⟩
    show formatLoop (bareI I cs) L (.expr e :: bareP ws) (bareF st) = _
    rw [namedExpression_bare] at a
    simp only [formatLoop, visitExpr_bareI, h1]
    exact a
  | .generated r w :: ws, st, st', h, hf => by
    have h : formatLoop I L ws (namedExpression I st r w false) = .ok st' := h
    obtain ⟨a, b⟩ := formatLoop_bare ws h (namedExpression_fine hf r w _)
    refine ⟨?_, b⟩
    rw [namedExpression_bare] at a
    exact a

theorem bareP_lits {ws : List Writable} (h : ws.all Writable.isLit = true) :
    (bareP ws).all Writable.isLit = true ∧ (bareP ws).flatMap Writable.litText = squeeze (ws.flatMap Writable.litText)
      ∧ (bareP ws = [] ↔ squeeze (ws.flatMap Writable.litText) = []) := by
  induction ws with
  | nil => exact ⟨rfl, rfl, by simp [bareP, squeeze]⟩
  | cons w ws ih =>
    simp only [List.all_cons, Bool.and_eq_true] at h
    obtain ⟨a, b, c⟩ := ih h.2
    cases w with
    | lit s =>
      by_cases hs : squeeze s = []
      · have : bareP (.lit s :: ws) = bareP ws := by simp [bareP, bareW1, hs]
        rw [this, List.flatMap_cons, squeeze_append]
        show _ ∧ _ = squeeze s ++ _ ∧ (_ ↔ squeeze s ++ _ = _)
        rw [hs]
        exact ⟨a, b, c⟩
      · have : bareP (.lit s :: ws) = .lit (squeeze s) :: bareP ws := by simp [bareP, bareW1, hs]
        rw [this, List.flatMap_cons, List.flatMap_cons, squeeze_append, b]
        refine ⟨by simpa [Writable.isLit] using a, rfl, ?_⟩
        show _ ↔ squeeze s ++ _ = _
        simp [hs]
    | _ => cases h.1

theorem bareP_all (ws : List Writable) (h : (bareP ws).all Writable.isLit = true) : ws.all Writable.isLit = true := by
  induction ws with
  | nil => rfl
  | cons w ws ih =>
    cases w with
    | lit s =>
      simp only [List.all_cons, Writable.isLit, Bool.true_and]
      refine ih ?_
      by_cases hs : squeeze s = []
      · simpa [bareP, bareW1, hs] using h
      · have : bareP (.lit s :: ws) = .lit (squeeze s) :: bareP ws := by simp [bareP, bareW1, hs]
        rw [this] at h
        simpa [Writable.isLit] using h
    | expr e =>
      have : bareP (.expr e :: ws) = .expr e :: bareP ws := rfl
      rw [this] at h
      cases h
    | generated r w =>
      have : bareP (.generated r w :: ws) = .generated r w :: bareP ws := rfl
      rw [this] at h
      cases h

/-- Code and state of one step with and without white space. -/
structure Step (J : Except GErr (List Stmt × Gen)) (code : List Stmt) (g' : Gen) : Prop where
  run : J = .ok (bareS code, bareG g')
  fine : FineS code
  st : StOk g'

theorem writeBuf_bare {g g' : Gen} {code : List Stmt} (h : writeBuf I g = .ok (code, g')) (hg : StOk g) :
    Step (writeBuf (bareI I cs) (bareG g)) code g' := by
  unfold writeBuf at h
  obtain ⟨⟨p, g1⟩, h1, h⟩ := except_bind h
  unfold prepareFormat at h1
  have hp : (bareG g).pend = bareP g.pend := rfl
  split at h1
  · rename_i he
    cases h1
    cases h
    have : bareP g.pend = [] := by rw [List.isEmpty_iff.1 he]; rfl
    refine ⟨?_, trivial, hg⟩
    unfold writeBuf prepareFormat
    rw [hp, this]
    rfl
  · split at h1
    · rename_i ha
      cases h1
      cases h
      obtain ⟨a, b, c⟩ := bareP_lits ha
      have hf : FineS (emit { g with pend := [] } [.writeLit (g.pend.flatMap Writable.litText)]) := by
        unfold emit; split
        · trivial
        · exact ⟨trivial, trivial⟩
      refine ⟨?_, hf, hg⟩
      unfold writeBuf prepareFormat
      rw [hp]
      by_cases hb : bareP g.pend = []
      · have hb' := c.1 hb
        have hgg : bareG g = bareG { g with pend := [] } := by unfold bareG; rw [hb]; rfl
        rw [hb]
        show Except.ok ([], bareG g) = _
        rw [hgg]
        congr 1
        congr 1
        unfold emit
        split
        · rfl
        · simp [bareS, bareStmt, hb']
      · have hb' : squeeze (g.pend.flatMap Writable.litText) ≠ [] := fun h => hb (c.2 h)
        rw [if_neg (by simpa using hb), if_pos a, b]
        show Except.ok _ = Except.ok _
        congr 1
        show (_, _) = (_, _)
        congr 1
        unfold emit
        show (if g.discard = true then _ else _) = bareS (if g.discard = true then _ else _)
        split
        · rfl
        · simp [bareS, bareStmt, hb']
    · rename_i hne ha
      obtain ⟨st, h2, h1⟩ := except_bind h1
      cases h1
      cases h
      obtain ⟨a, b⟩ := formatLoop_bare (cs := cs) g.pend h2 SpaceFine.nil
      have hf : FineS (emit { g with pend := [], named := st.named } [.writeFmt st.format st.args]) := by
        unfold emit; split
        · trivial
        · exact ⟨b, trivial⟩
      refine ⟨?_, hf, hg⟩
      have h3 : ¬ (bareP g.pend).all Writable.isLit = true := fun h => ha (bareP_all _ h)
      have h4 : ¬ (bareP g.pend).isEmpty = true := by
        intro h
        rw [List.isEmpty_iff.1 h] at h3
        exact h3 rfl
      have a : formatLoop (bareI I cs) (bareG g).locals (bareP g.pend) ⟨[], [], [], (bareG g).named⟩ = .ok (bareF st) := a
      unfold writeBuf prepareFormat
      rw [hp, if_neg h4, if_neg h3, a]
      show Except.ok _ = Except.ok _
      congr 1
      show (_, _) = (_, _)
      congr 1
      unfold emit
      show (if g.discard = true then _ else _) = bareS (if g.discard = true then _ else _)
      split
      · rfl
      · rfl

theorem flushIf_bare {c : Bool} {g g' : Gen} {code : List Stmt} (h : flushIf I c g = .ok (code, g')) (hg : StOk g) :
    Step (flushIf (bareI I cs) c (bareG g)) code g' := by
  unfold flushIf at h ⊢
  split at h
  · rename_i hc; rw [if_pos hc]; exact writeBuf_bare h hg
  · rename_i hc; rw [if_neg hc]; cases h; exact ⟨rfl, trivial, hg⟩

end

end Askama
