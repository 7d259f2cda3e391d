import Verif.Spec.Escaping
import Verif.Lemmas.GenInv
import Verif.Lemmas.Lineage

/-! Lemmas about automatic escaping. -/

namespace Askama

open Askama.Spec Askama.Gen

section

variable {U : Type} {W : World U} {I : GenInput} {P : Node → Prop}

theorem Spec.Woven.append {s t : Str} (hs : Woven W I P s) (ht : Woven W I P t) : Woven W I P (s ++ t) := by
  induction hs with
  | nil => exact ht
  | text n l s u h1 h2 h3 _ ih => rw [List.append_assoc]; exact .text n l s _ h1 h2 h3 ih
  | escaped s u _ ih => rw [List.append_assoc]; exact .escaped s _ ih
  | optedOut n e v k s u h1 h2 h3 h4 h5 _ ih => rw [List.append_assoc]; exact .optedOut n e v k s _ h1 h2 h3 h4 h5 ih

/-! ## Displayed expressions -/

/-- The generator leaves out the escaper only for these filters, and then the value is marked. -/
theorem visitExpr_wrapped {L : Locals} {e : Expr} {r : RExpr} (h : visitExpr I L e = .ok (r, true)) : OptsOut e := by
  unfold visitExpr at h
  repeat' split at h
  all_goals first
    | (cases h; done)
    | (obtain ⟨x, h1, h⟩ := except_bind h; cases h; done)
    | (obtain ⟨x, h1, h⟩ := except_bind h; obtain ⟨y, h2, h⟩ := except_bind h; cases h; done)
    | (refine ⟨_, _, rfl, ?_⟩; simp only [*, true_or, or_true]; done)
    | (refine ⟨_, _, rfl, ?_⟩; rename_i h _; rcases h with h | h <;> simp [h]; done)
    | skip

/-! ## Statements whose text is woven -/

/-- Statements that only write such text. -/
def SW (W : World U) (I : GenInput) (P : Node → Prop) (code : List Stmt) : Prop :=
  ∀ ρ x, execList W ρ code = some x → Woven W I P x.1

theorem SW.nil : SW W I P [] := by
  intro ρ x h
  simp only [execList, Option.some.injEq] at h
  subst h; exact .nil

theorem SW.append {a b : List Stmt} (ha : SW W I P a) (hb : SW W I P b) : SW W I P (a ++ b) := by
  intro ρ x h
  rw [execList_append] at h
  unfold seqE at h
  rw [Option.bind_eq_some_iff] at h
  obtain ⟨⟨t, sig, ρ'⟩, h1, h⟩ := h
  have h1' := ha ρ _ h1
  cases sig with
  | next =>
    dsimp only at h
    rw [Option.map_eq_some_iff] at h
    obtain ⟨y, h2, rfl⟩ := h
    exact h1'.append (hb ρ' _ h2)
  | brk => cases h; exact h1'
  | cont => cases h; exact h1'

theorem SW.single {s : Stmt} (h : ∀ ρ x, s.exec W ρ = some x → Woven W I P x.1) : SW W I P [s] := by
  intro ρ x hx
  rw [execList_single] at hx
  exact h ρ x hx

/-- A statement that writes nothing. -/
theorem SW.silent {s : Stmt} (h : ∀ ρ x, s.exec W ρ = some x → x.1 = []) : SW W I P [s] :=
  .single fun ρ x hx => by rw [h ρ x hx]; exact .nil

theorem SW.emit {g : Gen} {c : List Stmt} (h : SW W I P c) : SW W I P (g.emit c) := by
  unfold Gen.emit; split
  · exact .nil
  · exact h

theorem SW.wrap {g : Gen} {f : List Stmt → Stmt} {b : List Stmt} (hb : SW W I P b) (h : SW W I P [f b]) :
    SW W I P (g.wrap f b) := by
  unfold Gen.wrap; split
  · exact hb
  · exact h

theorem SW.block {b : List Stmt} (h : SW W I P b) : SW W I P [.block b] := .single fun ρ x hx => by
  simp only [Stmt.exec, Option.map_eq_some_iff] at hx
  obtain ⟨y, h1, rfl⟩ := hx
  exact h ρ y h1

theorem SW.ifNotDid {b : List Stmt} (h : SW W I P b) : SW W I P [.ifNotDid b] := .single fun ρ x hx => by
  simp only [Stmt.exec] at hx
  split at hx
  · cases hx; exact .nil
  · rw [Option.map_eq_some_iff] at hx
    obtain ⟨y, h1, rfl⟩ := hx
    exact h ρ y h1

theorem forItems_woven {t : Target} {b : List Stmt} (h : SW W I P b) (vs : List (Val U)) :
    ∀ i ρ x, forItems W t (fun ρ' => execList W ρ' b) vs i ρ = some x → Woven W I P x.1 := by
  induction vs with
  | nil => intro i ρ x hx; cases hx; exact .nil
  | cons v vs ih =>
    intro i ρ x hx
    simp only [forItems, Option.bind_eq_some_iff] at hx
    obtain ⟨ws, -, ⟨s, sig, ρ'⟩, h1, hx⟩ := hx
    have h1' := h _ _ h1
    cases sig with
    | brk => cases hx; exact h1'
    | next =>
      rw [Option.map_eq_some_iff] at hx
      obtain ⟨y, h2, rfl⟩ := hx
      exact h1'.append (ih _ _ _ h2)
    | cont =>
      rw [Option.map_eq_some_iff] at hx
      obtain ⟨y, h2, rfl⟩ := hx
      exact h1'.append (ih _ _ _ h2)

theorem SW.forIter {t : Target} {b : List Stmt} (h : SW W I P b) : SW W I P [.forIter t b] := .single fun ρ x hx => by
  simp only [Stmt.exec, Option.map_eq_some_iff] at hx
  obtain ⟨y, h1, rfl⟩ := hx
  exact forItems_woven h _ _ _ _ h1

theorem SW.blockW {g : Gen} {b : List Stmt} (h : SW W I P b) : SW W I P (g.wrap .block b) := .wrap h h.block

theorem SW.forW {g : Gen} {t : Target} {b : List Stmt} (h : SW W I P b) : SW W I P (g.wrap (.forIter t) b) :=
  .wrap h h.forIter

/-- The bodies of branches. -/
def BSW (W : World U) (I : GenInput) (P : Node → Prop) (bs : List Branch) : Prop :=
  ∀ b ∈ bs, match b with | .mk _ code => SW W I P code

theorem execIf_woven : (bs : List Branch) → BSW W I P bs → ∀ ρ x, execIf W ρ bs = some x → Woven W I P x.1
  | [], _, ρ, x, h => by
    simp only [execIf, Option.some.injEq] at h
    subst h; exact .nil
  | .mk c code :: bs, hb, ρ, x, h => by
    simp only [execIf, Option.bind_eq_some_iff] at h
    obtain ⟨r, -, h⟩ := h
    cases r with
    | none => exact execIf_woven bs (fun b h => hb b (List.mem_cons_of_mem _ h)) ρ x h
    | some ρ' =>
      rw [Option.map_eq_some_iff] at h
      obtain ⟨y, h1, rfl⟩ := h
      exact hb _ (List.mem_cons_self ..) _ y h1

theorem branchBodies_woven : (bs : List Branch) → BSW W I P bs → SW W I P (branchBodies bs)
  | [], _ => .nil
  | .mk _ _ :: bs, hb =>
    (hb _ (List.mem_cons_self ..) : SW _ _ _ _).append (branchBodies_woven bs fun b h => hb b (List.mem_cons_of_mem _ h))

/-- The bodies of arms. -/
def ASW (W : World U) (I : GenInput) (P : Node → Prop) (as : List Arm) : Prop :=
  ∀ b ∈ as, match b with | .mk _ code => SW W I P code

theorem execMatch_woven : (as : List Arm) → ASW W I P as → ∀ ρ v x, execMatch W ρ v as = some x → Woven W I P x.1
  | [], _, ρ, v, x, h => by simp [execMatch] at h
  | .mk t code :: as, hb, ρ, v, x, h => by
    simp only [execMatch] at h
    split at h
    · rw [Option.map_eq_some_iff] at h
      obtain ⟨y, h1, rfl⟩ := h
      exact hb _ (List.mem_cons_self ..) _ y h1
    · exact execMatch_woven as (fun b h => hb b (List.mem_cons_of_mem _ h)) ρ v x h

theorem armBodies_woven : (as : List Arm) → ASW W I P as → SW W I P (armBodies as)
  | [], _ => .nil
  | .mk _ _ :: as, hb =>
    (hb _ (List.mem_cons_self ..) : SW _ _ _ _).append (armBodies_woven as fun b h => hb b (List.mem_cons_of_mem _ h))

/-! ## Format strings -/

/-- The text of a pending literal. -/
def LitOk (P : Node → Prop) (s : Str) : Prop := ∃ n l, P n ∧ IsText n l ∧ TextPiece l s

theorem LitOk.woven {s : Str} (h : LitOk P s) : Woven W I P s := by
  obtain ⟨n, l, h1, h2, h3⟩ := h
  have := Woven.text (W := W) (I := I) n l s [] h1 h2 h3 .nil
  simpa using this

/-- An expression displayed by the templates. -/
def Shown (P : Node → Prop) (e : Expr) : Prop := ∃ n, P n ∧ Shows n e

/-- Code that is displayed without the escaper comes from an expression that opts out. -/
def RawOk (I : GenInput) (P : Node → Prop) (r : RExpr) : Prop := ∃ e L, Shown P e ∧ visitExpr I L e = .ok (r, true)

/-- A pending piece of output. -/
def WrittenOk (I : GenInput) (P : Node → Prop) : Writable → Prop
  | .lit s => LitOk P s
  | .expr e => Shown P e
  | .generated r w => w = true → RawOk I P r

/-- An argument of `write!` or `format!`. -/
def ArgOk (I : GenInput) (P : Node → Prop) (a : FmtArg) : Prop :=
  a.esc = some I.escaper ∨ (a.esc = none ∧ RawOk I P a.expr)

/-- The pieces of a format string: whole literals and arguments. -/
inductive PiecesOk (P : Node → Prop) : List Piece → Prop where
  | nil : PiecesOk P []
  | lit (s : Str) (ps : List Piece) : LitOk P s → PiecesOk P ps → PiecesOk P (s.map Piece.ch ++ ps)
  | arg (n : Str) (ps : List Piece) : PiecesOk P ps → PiecesOk P (.arg n :: ps)

theorem PiecesOk.append {a b : List Piece} (ha : PiecesOk P a) (hb : PiecesOk P b) : PiecesOk P (a ++ b) := by
  induction ha with
  | nil => exact hb
  | lit s ps h _ ih => rw [List.append_assoc]; exact .lit s _ h ih
  | arg n ps _ ih => exact .arg n _ ih

theorem showPieces_lit (args : List (Str × Option Str × Val U)) (seen : List Str) (s : Str) (ps : List Piece) :
    showPieces W args seen (s.map Piece.ch ++ ps) = (showPieces W args seen ps).map (s ++ ·) := by
  induction s with
  | nil => simp
  | cons c s ih =>
    rw [List.map_cons, List.cons_append, showPieces, ih, Option.map_map]
    rfl

/-- An evaluated argument. -/
def ValOk (W : World U) (I : GenInput) (P : Node → Prop) (a : Str × Option Str × Val U) : Prop :=
  a.2.1 = some I.escaper ∨ (a.2.1 = none ∧ ∃ e, Shown P e ∧ OptsOut e ∧ ValueOf W I e a.2.2)

theorem evalArgs_woven {ρ : REnv U} : {args : List FmtArg} → {vs : List (Str × Option Str × Val U)} →
    evalArgs W ρ args = some vs → (∀ a ∈ args, ArgOk I P a) → ∀ v ∈ vs, ValOk W I P v
  | [], vs, h, _ => by cases h; simp
  | a :: args, vs, h, ha => by
    simp only [evalArgs, Option.bind_eq_some_iff, Option.map_eq_some_iff] at h
    obtain ⟨v, hv, ws, hws, rfl⟩ := h
    intro x hx
    rcases List.mem_cons.mp hx with rfl | hx
    · rcases ha a (List.mem_cons_self ..) with h1 | ⟨h1, e, L, h2, h3⟩
      · exact .inl h1
      · exact .inr ⟨h1, e, h2, visitExpr_wrapped h3, L, ρ, a.expr, true, h3, hv⟩
    · exact evalArgs_woven hws (fun b hb => ha b (List.mem_cons_of_mem _ hb)) x hx

theorem showPieces_woven {vs : List (Str × Option Str × Val U)} (hv : ∀ v ∈ vs, ValOk W I P v) {ps : List Piece}
    (hp : PiecesOk P ps) : ∀ seen s, showPieces W vs seen ps = some s → Woven W I P s := by
  induction hp with
  | nil => intro seen s h; cases h; exact .nil
  | lit t ps ht _ ih =>
    intro seen s h
    rw [showPieces_lit, Option.map_eq_some_iff] at h
    obtain ⟨u, h1, rfl⟩ := h
    exact ht.woven.append (ih _ _ h1)
  | arg n ps _ ih =>
    intro seen s h
    simp only [showPieces, Option.bind_eq_some_iff, Option.map_eq_some_iff] at h
    obtain ⟨a, h1, t, h2, u, h3, rfl⟩ := h
    have hu := ih _ _ h3
    rcases hv a (List.mem_of_find?_eq_some h1) with h4 | ⟨h4, e, ⟨n, hn, he⟩, h5, h6⟩
    · rw [h4] at h2
      simp only [showArg, Option.map_eq_some_iff] at h2
      obtain ⟨x, -, rfl⟩ := h2
      exact .escaped x u hu
    · rw [h4] at h2
      exact .optedOut n e a.2.2 _ t u hn he h5 h6 h2 hu

/-- Invariant of the loop of `prepare_format`. -/
structure FmtOk (I : GenInput) (P : Node → Prop) (st : FmtSt) : Prop where
  pieces : ∃ ps, IsFmt st.format ps ∧ PiecesOk P ps
  args : ∀ a ∈ st.args, ArgOk I P a

theorem FmtOk.lit {st : FmtSt} (h : FmtOk I P st) {s : Str} (hs : LitOk P s) :
    FmtOk I P { st with format := st.format ++ escapeBraces s } := by
  obtain ⟨ps, hf, hp⟩ := h.pieces
  refine ⟨⟨ps ++ s.map Piece.ch, hf.append (isFmt_escapeBraces s), hp.append ?_⟩, h.args⟩
  have := PiecesOk.lit s [] hs .nil
  simpa using this

theorem FmtOk.named {st : FmtSt} (h : FmtOk I P st) {r : RExpr} {w c : Bool} (hr : w = true → RawOk I P r) :
    FmtOk I P (namedExpression I st r w c) := by
  obtain ⟨ps, hf, hp⟩ := h.pieces
  have hfmt : ∀ id, ∃ qs, IsFmt (st.format ++ ['{'] ++ argName id ++ ['}']) qs ∧ PiecesOk P qs := by
    intro id
    refine ⟨ps ++ [.arg (argName id)], ?_, hp.append (.arg _ _ .nil)⟩
    have := hf.append (isFmt_arg id)
    simpa using this
  unfold namedExpression
  simp only
  split
  · exact ⟨hfmt _, h.args⟩
  · refine ⟨hfmt _, ?_⟩
    intro a ha
    rcases List.mem_append.mp ha with ha | ha
    · exact h.args a ha
    · rw [List.mem_singleton] at ha
      subst ha
      cases w with
      | false => exact .inl rfl
      | true => exact .inr ⟨rfl, hr rfl⟩

theorem FmtOk.loop {L : Locals} : (ws : List Writable) → {st st' : FmtSt} → FmtOk I P st → (∀ w ∈ ws, WrittenOk I P w) →
    formatLoop I L ws st = .ok st' → FmtOk I P st'
  | [], _, _, h, _, hr => by cases hr; exact h
  | .lit s :: ws, _, _, h, hw, hr => by
    rw [formatLoop] at hr
    exact FmtOk.loop ws (h.lit (hw (.lit s) (List.mem_cons_self ..))) (fun w hm => hw w (List.mem_cons_of_mem _ hm)) hr
  | .expr e :: ws, _, _, h, hw, hr => by
    rw [formatLoop] at hr
    obtain ⟨⟨r, w⟩, h1, hr⟩ := except_bind hr
    refine FmtOk.loop ws (h.named ?_) (fun w hm => hw w (List.mem_cons_of_mem _ hm)) hr
    rintro rfl
    exact ⟨e, L, hw (.expr e) (List.mem_cons_self ..), h1⟩
  | .generated r w :: ws, _, _, h, hw, hr => by
    rw [formatLoop] at hr
    exact FmtOk.loop ws (h.named (hw (.generated r w) (List.mem_cons_self ..)))
      (fun w hm => hw w (List.mem_cons_of_mem _ hm)) hr

/-- What is known of the generator's state. -/
structure GOk (I : GenInput) (P : Node → Prop) (g : Gen) : Prop where
  pend : ∀ w ∈ g.pend, WrittenOk I P w
  next : ∀ s, g.nextWs = some s → ∃ n l, P n ∧ IsText n l ∧ (s = l.lws ∨ s = l.rws)

theorem GOk.of {g g' : Gen} (h : GOk I P g) (h1 : g'.pend = g.pend) (h2 : g'.nextWs = g.nextWs) : GOk I P g' :=
  ⟨by rw [h1]; exact h.pend, by rw [h2]; exact h.next⟩

theorem prepareFormat_woven {g g' : Gen} {p : Parts} (hg : GOk I P g) (h : prepareFormat I g = .ok (p, g')) :
    (∀ (W : World U) ρ s, partsText W ρ p = some s → Woven W I P s) ∧ GOk I P g' := by
  constructor
  · intro W ρ s hs
    unfold prepareFormat at h
    split at h
    · cases h; cases hs; exact .nil
    · split at h
      · rename_i hl
        cases h
        cases hs
        have hp := hg.pend
        generalize g.pend = ws at hl hp
        induction ws with
        | nil => exact .nil
        | cons w ws ih =>
          simp only [List.all_cons, Bool.and_eq_true] at hl
          cases w with
          | lit s =>
            rw [List.flatMap_cons]
            exact (LitOk.woven (hp (.lit s) (List.mem_cons_self ..))).append
              (ih hl.2 fun w hm => hp w (List.mem_cons_of_mem _ hm))
          | expr e => simp [Writable.isLit] at hl
          | generated r w => simp [Writable.isLit] at hl
      · obtain ⟨st, h1, h⟩ := except_bind h
        cases h
        have hf : FmtOk I P st := FmtOk.loop g.pend ⟨⟨[], IsFmt.nil, .nil⟩, by simp⟩ hg.pend h1
        obtain ⟨ps, h2, h3⟩ := hf.pieces
        simp only [partsText, formatText, h2.parse, Option.bind_some, Option.bind_eq_some_iff] at hs
        obtain ⟨vs, h4, h5⟩ := hs
        exact showPieces_woven (evalArgs_woven h4 hf.args) h3 _ _ h5
  · obtain ⟨n, rfl⟩ := prepareFormat_state I h
    exact ⟨by simp, hg.next⟩

theorem writeBuf_woven {g g' : Gen} {code : List Stmt} (h : writeBuf I g = .ok (code, g')) (hg : GOk I P g) :
    SW W I P code ∧ GOk I P g' := by
  unfold writeBuf at h
  obtain ⟨⟨p, g1⟩, h1, h⟩ := except_bind h
  have h2 := prepareFormat_woven (U := U) hg h1
  cases p with
  | none => cases h; exact ⟨.nil, h2.2⟩
  | plain s =>
    cases h
    refine ⟨SW.emit (.single fun ρ x hx => ?_), h2.2⟩
    simp only [Stmt.exec, Option.some.injEq] at hx
    subst hx
    exact h2.1 W ρ _ rfl
  | formatted f args =>
    cases h
    refine ⟨SW.emit (.single fun ρ x hx => ?_), h2.2⟩
    simp only [Stmt.exec, Option.map_eq_some_iff] at hx
    obtain ⟨s, hs, rfl⟩ := hx
    exact h2.1 W ρ _ hs

theorem push_ok {g : Gen} {w : Writable} (hg : GOk I P g) (hw : WrittenOk I P w) : GOk I P (g.push w) := by
  unfold push
  split
  · exact hg
  · refine ⟨?_, hg.next⟩
    intro x hx
    rcases List.mem_append.mp hx with hx | hx
    · exact hg.pend x hx
    · rw [List.mem_singleton] at hx; subst hx; exact hw

theorem minimized_piece (l : Lit) (s : Str) : TextPiece l (minimized s) := by
  unfold minimized
  split
  · exact .inr (.inr (.inr (.inr rfl)))
  · exact .inr (.inr (.inr (.inl rfl)))

theorem flushWs_ok {g : Gen} (hg : GOk I P g) (ws : Ws) : GOk I P (flushWs I g ws) := by
  unfold flushWs
  split
  · exact hg
  · rename_i val hv
    obtain ⟨n, l, h1, h2, h3⟩ := hg.next val hv
    have key : ∀ g', GOk I P g' → GOk I P { g' with nextWs := none } := fun g' h => ⟨h.pend, by simp⟩
    apply key
    split
    · split
      · exact hg
      · refine push_ok hg ⟨n, l, h1, h2, ?_⟩
        rcases h3 with rfl | rfl
        · exact .inr (.inl rfl)
        · exact .inr (.inr (.inl rfl))
    · split
      · exact hg
      · exact push_ok hg ⟨n, l, h1, h2, minimized_piece l val⟩
    · exact hg

theorem handleWs_ok {g : Gen} (hg : GOk I P g) (ws : Ws) : GOk I P (handleWs I g ws) :=
  (flushWs_ok hg ws).of rfl rfl

theorem visitLit_ok {g g' : Gen} {l : Lit} {n : Node} (hg : GOk I P g) (hn : P n) (hl : IsText n l)
    (h : visitLit g l = .ok g') : GOk I P g' := by
  unfold visitLit at h
  split at h
  · cases h
  · obtain ⟨g1, h1, h⟩ := except_bind h
    have h2 : GOk I P g1 := by
      unfold visitLws at h1
      have hlws : WrittenOk I P (.lit l.lws) := ⟨n, l, hn, hl, .inr (.inl rfl)⟩
      have hnext : GOk I P { g with nextWs := some l.lws } :=
        ⟨hg.pend, by intro s hs; cases hs; exact ⟨n, l, hn, hl, .inl rfl⟩⟩
      repeat' split at h1
      all_goals first
        | (cases h1; done)
        | (cases h1; exact hg)
        | (cases h1; exact hnext)
        | (cases h1; exact push_ok hg hlws)
        | (cases h1; exact push_ok hg ⟨n, l, hn, hl, minimized_piece l _⟩)
    have h3 : GOk I P (if l.val.isEmpty then g1 else ({ g1 with skipWs := .preserve } : Gen).push (.lit l.val)) := by
      split
      · exact h2
      · exact push_ok (h2.of rfl rfl) ⟨n, l, hn, hl, .inl rfl⟩
    simp only [pure, Except.pure, Except.ok.injEq] at h
    subst h
    split
    · exact h3
    · exact ⟨h3.pend, by intro s hs; cases hs; exact ⟨n, l, hn, hl, .inr rfl⟩⟩

/-! ## Nodes -/

/-- All nodes of the list and inside of it belong to the templates. -/
def Every (P : Node → Prop) (ns : List Node) : Prop := ∀ n ∈ partsL ns, P n

/-- All nodes of a context belong to the templates. -/
structure CtxOk (P : Node → Prop) (c : Ctx) : Prop where
  nodes : Every P c.nodes
  blocks : ∀ e ∈ c.blocks, Every P e.2.nodes
  macros : ∀ e ∈ c.macros, Every P e.2.nodes

/-- All nodes of a chain belong to the templates. -/
structure HOk (P : Node → Prop) (h : Heritage) : Prop where
  root : CtxOk P h.root
  blocks : ∀ e ∈ h.blocks, ∀ d ∈ e.2, CtxOk P d.1 ∧ Every P d.2.nodes

/-- The recursive calls. -/
def RecOk (W : World U) (I : GenInput) (P : Node → Prop) (rec : Handler) : Prop :=
  ∀ H ctx nodes level g code g', rec H ctx nodes level g = .ok (code, g') → (∀ h, H = some h → HOk P h) → CtxOk P ctx →
    Every P nodes → GOk I P g → SW W I P code ∧ GOk I P g'

theorem openLine_ok {g : Gen} (h : GOk I P g) : GOk I P g.openLine := by
  obtain ⟨k, hk⟩ := openLine_eq g
  rw [hk]; exact h.of rfl rfl

theorem closeLine_ok {g g' : Gen} (hc : g.closeLine = .ok g') (h : GOk I P g) : GOk I P g' := by
  obtain ⟨k, rfl⟩ := closeLine_eq hc
  exact h.of rfl rfl

theorem assoc_mem {α : Type} {l : List (Str × α)} {k : Str} {v : α} (h : assoc l k = some v) : ∃ k', (k', v) ∈ l := by
  unfold assoc at h
  rw [Option.map_eq_some_iff] at h
  obtain ⟨⟨k', v'⟩, h1, rfl⟩ := h
  exact ⟨k', List.mem_of_find?_eq_some h1⟩

theorem mergeCtx_ok {a b : Ctx} (ha : CtxOk P a) (hb : CtxOk P b) : CtxOk P (mergeCtx a b) := by
  refine ⟨ha.nodes, ha.blocks, ?_⟩
  intro e he
  rcases List.mem_append.mp he with he | he
  · exact ha.macros e he
  · exact hb.macros e he

theorem Every.tail {n : Node} {ns : List Node} (h : Every P (n :: ns)) : Every P ns :=
  fun m hm => h m (by simp [partsL, hm])

theorem Every.head {n : Node} {ns : List Node} (h : Every P (n :: ns)) : ∀ m ∈ parts n, P m :=
  fun m hm => h m (by simp [partsL, hm])

variable {rec : Handler} {H : Option Heritage} {ctx : Ctx}

theorem ifBranches_woven (hr : RecOk W I P rec) (hH : ∀ h, H = some h → HOk P h) (hc : CtxOk P ctx) {wsEnd : Ws} :
    (cs : List Cond) → {first : Bool} → {g g' : Gen} → {bs : List Branch} → ifBranches rec I H ctx wsEnd first cs g = .ok (bs, g') →
    (∀ n ∈ partsC cs, P n) → GOk I P g → BSW W I P bs ∧ GOk I P g'
  | [], _, _, _, _, h, _, hg => by cases h; exact ⟨by (intro b hb; cases hb), hg⟩
  | .mk w cond nodes :: rest, first, g, g', bs, h, hp, hg => by
    obtain ⟨g1, c, g2, body, g3, fl, g4, h1, h2, h3, h4, h5⟩ := ifBranches_inv h
    obtain ⟨k, rfl⟩ := dedentUnless_eq h1
    have hg2 : GOk I P g2 := by
      rcases branchCond_locals h2 with rfl | ⟨t, rfl⟩ <;> exact hg.of rfl rfl
    obtain ⟨h6, h7⟩ := hr _ _ _ _ _ _ _ h3 hH hc (fun n hn => hp n (by simp [partsC, hn])) (openLine_ok hg2)
    obtain ⟨h8, h9⟩ := writeBuf_woven (W := W) h4 (handleWs_ok h7 _)
    rcases h5 with ⟨rfl, rfl, rfl⟩ | ⟨bs', -, h5, rfl⟩
    · refine ⟨?_, h9⟩
      intro b hb
      rw [List.mem_singleton] at hb; subst hb
      exact h6.append h8
    · obtain ⟨h10, h11⟩ := ifBranches_woven hr hH hc rest h5 (fun n hn => hp n (by simp [partsC, hn])) (h9.of rfl rfl)
      refine ⟨?_, h11⟩
      intro b hb
      rcases List.mem_cons.mp hb with rfl | hb
      · exact h6.append h8
      · exact h10 b hb

theorem matchArms_woven (hr : RecOk W I P rec) (hH : ∀ h, H = some h → HOk P h) (hc : CtxOk P ctx) {wsEnd : Ws} :
    (cs : List When) → {g g' : Gen} → {bs : List Arm} → matchArms rec I H ctx wsEnd cs g = .ok (bs, g') →
    (∀ n ∈ partsW cs, P n) → GOk I P g → ASW W I P bs ∧ GOk I P g'
  | [], _, _, _, h, _, hg => by cases h; exact ⟨by (intro b hb; cases hb), hg⟩
  | .mk w t nodes :: rest, g, g', bs, h, hp, hg => by
    obtain ⟨body, g1, fl, g2, g3, as', h1, h2, h3, h4, rfl⟩ := matchArms_inv h
    obtain ⟨h6, h7⟩ := hr _ _ _ _ _ _ _ h1 hH hc (fun n hn => hp n (by simp [partsW, hn]))
      (openLine_ok (hg.of rfl rfl))
    obtain ⟨h8, h9⟩ := writeBuf_woven (W := W) h2 (handleWs_ok h7 _)
    have h10 := closeLine_ok h3 h9
    obtain ⟨h11, h12⟩ := matchArms_woven hr hH hc rest h4 (fun n hn => hp n (by simp [partsW, hn])) (h10.of rfl rfl)
    refine ⟨?_, h12⟩
    intro b hb
    rcases List.mem_cons.mp hb with rfl | hb
    · exact h6.append h8
    · exact h11 b hb

/-- The statements in front of a loop write nothing. -/
theorem loopFilter_woven {g : Gen} {var : Target} {cond : Option Expr} {filt : List Stmt}
    (h : loopFilter I g var cond = .ok filt) : SW W I P filt := by
  cases cond with
  | none => cases h; exact .nil
  | some c =>
    unfold loopFilter at h
    obtain ⟨r, h1, h⟩ := except_bind h
    cases h
    refine SW.emit (.silent fun ρ x hx => ?_)
    simp only [Stmt.exec, Option.map_eq_some_iff] at hx
    obtain ⟨y, -, rfl⟩ := hx
    rfl

theorem SW.letIter (r : RExpr) : SW W I P [.letIter r] := .silent fun ρ x hx => by
  simp only [Stmt.exec, Option.bind_eq_some_iff, Option.map_eq_some_iff] at hx
  obtain ⟨y, -, z, -, rfl⟩ := hx
  rfl

theorem SW.letDid : SW W I P [.letDid] := .silent fun ρ x hx => by
  simp only [Stmt.exec, Option.some.injEq] at hx; subst hx; rfl

theorem SW.setDid : SW W I P [.setDid] := .silent fun ρ x hx => by
  simp only [Stmt.exec, Option.some.injEq] at hx; subst hx; rfl

theorem writeLoop_woven (hr : RecOk W I P rec) (hH : ∀ h, H = some h → HOk P h) (hc : CtxOk P ctx) {g g' : Gen}
    {ws1 ws2 ws3 : Ws} {var : Target} {iter : Expr} {cond : Option Expr} {body els : List Node} {code : List Stmt}
    (hb : Every P body) (he : Every P els) (hg : GOk I P g)
    (h : writeLoop rec I H ctx g ws1 var iter cond body ws2 els ws3 = .ok (code, g')) : SW W I P code ∧ GOk I P g' := by
  obtain ⟨r, w, pre, g1, filt, b, g2, fl, g3, g4, h1, h2, h3, h4, h5, h6, h7⟩ := writeLoop_inv h
  obtain ⟨a1, a2⟩ := writeBuf_woven (W := W) h2 ((handleWs_ok hg ws1).of rfl rfl)
  have a3 := openLine_ok a2
  have a4 := loopFilter_woven (W := W) (P := P) h3
  obtain ⟨a5, a6⟩ := hr _ _ _ _ _ _ _ h4 hH hc hb (openLine_ok (a3.of rfl rfl))
  obtain ⟨a7, a8⟩ := writeBuf_woven (W := W) h5 (handleWs_ok a6 ws2)
  have a9 := closeLine_ok h6 (a8.of rfl rfl)
  rcases h7 with ⟨-, eb, g5, fl2, g6, g7, g8, h7, h8, h9, h10, rfl, rfl⟩ | ⟨-, fl2, g6, g8, h7, h8, rfl, rfl⟩
  · obtain ⟨b1, b2⟩ := hr _ _ _ _ _ _ _ h7 hH hc he ((openLine_ok a9).of rfl rfl)
    obtain ⟨b3, b4⟩ := writeBuf_woven (W := W) h8 (handleWs_ok b2 ws3)
    have b5 := closeLine_ok h9 (b4.of rfl rfl)
    have b6 := closeLine_ok h10 b5
    refine ⟨a1.append ?_, b6.of rfl rfl⟩
    exact SW.blockW (SW.append (SW.append (SW.append (SW.emit (SW.append SW.letDid (SW.letIter r))) a4)
      (SW.forW (SW.append (SW.append (SW.emit SW.setDid) a5) a7))) (SW.wrap (b1.append b3) (b1.append b3).ifNotDid))
  · obtain ⟨b3, b4⟩ := writeBuf_woven (W := W) h7 (handleWs_ok a9 ws3)
    have b5 := closeLine_ok h8 b4
    refine ⟨a1.append ?_, b5.of rfl rfl⟩
    exact SW.blockW (SW.append (SW.append (SW.append (SW.emit (SW.letIter r)) a4)
      (SW.forW (SW.append (SW.append (SW.emit SW.nil) a5) a7))) b3)

theorem writeIf_woven (hr : RecOk W I P rec) (hH : ∀ h, H = some h → HOk P h) (hc : CtxOk P ctx) {g g' : Gen} {ws : Ws}
    {cs : List Cond} {code : List Stmt} (hp : ∀ n ∈ partsC cs, P n) (hg : GOk I P g)
    (h : writeIf rec I H ctx g ws cs = .ok (code, g')) : SW W I P code ∧ GOk I P g' := by
  obtain ⟨ws1, c, ns, rest, pre, g1, bs, g2, g3, -, h1, h2, h3, rfl, rfl⟩ := writeIf_inv h
  obtain ⟨a1, a2⟩ := writeBuf_woven (W := W) h1 (handleWs_ok hg _)
  obtain ⟨a3, a4⟩ := ifBranches_woven hr hH hc cs h2 hp a2
  refine ⟨a1.append ?_, (closeLine_ok h3 a4).of rfl rfl⟩
  split
  · exact branchBodies_woven bs a3
  · refine .single fun ρ x hx => ?_
    simp only [Stmt.exec] at hx
    exact execIf_woven bs a3 ρ x hx

theorem writeMatch_woven (hr : RecOk W I P rec) (hH : ∀ h, H = some h → HOk P h) (hc : CtxOk P ctx) {g g' : Gen}
    {ws1 ws2 : Ws} {e : Expr} {arms : List When} {code : List Stmt} (hp : ∀ n ∈ partsW arms, P n) (hg : GOk I P g)
    (h : writeMatch rec I H ctx g ws1 e arms ws2 = .ok (code, g')) : SW W I P code ∧ GOk I P g' := by
  obtain ⟨ws, t, ns, rest, pre, g1, r, w, as, g2, g3, -, h1, h2, h3, h4, rfl, rfl⟩ := writeMatch_inv h
  obtain ⟨a1, a2⟩ := writeBuf_woven (W := W) h1 (flushWs_ok hg _)
  obtain ⟨a3, a4⟩ := matchArms_woven hr hH hc arms h3 hp (handleWs_ok (openLine_ok a2) _)
  refine ⟨a1.append ?_, closeLine_ok h4 a4⟩
  split
  · exact armBodies_woven as a3
  · refine .single fun ρ x hx => ?_
    simp only [Stmt.exec, Option.bind_eq_some_iff] at hx
    obtain ⟨v, -, hx⟩ := hx
    exact execMatch_woven as a3 ρ v x hx

theorem findMacro_ok (hI : ∀ p c, assoc I.contexts p = some c → CtxOk P c) (hc : CtxOk P ctx) {scope : Option Str}
    {name : Str} {d : MacroDef} {own : Ctx} (h : findMacro I ctx scope name = .ok (d, own)) :
    CtxOk P own ∧ Every P d.nodes := by
  unfold findMacro at h
  cases scope with
  | none =>
    dsimp only at h
    cases hm : assoc ctx.macros name with
    | none => rw [hm] at h; cases h
    | some d' =>
      rw [hm] at h; cases h
      obtain ⟨k, hk⟩ := assoc_mem hm
      exact ⟨hc, hc.macros _ hk⟩
  | some s =>
    dsimp only at h
    cases hi : assoc ctx.imports s with
    | none => rw [hi] at h; cases h
    | some path =>
      rw [hi] at h; dsimp only at h
      cases hp : assoc I.contexts path with
      | none => rw [hp] at h; cases h
      | some mctx =>
        rw [hp] at h; dsimp only at h
        cases hm : assoc mctx.macros name with
        | none => rw [hm] at h; cases h
        | some d' =>
          rw [hm] at h; cases h
          obtain ⟨k, hk⟩ := assoc_mem hm
          exact ⟨hI _ _ hp, (hI _ _ hp).macros _ hk⟩

theorem writeCall_woven (hr : RecOk W I P rec) (hI : ∀ p c, assoc I.contexts p = some c → CtxOk P c)
    (hH : ∀ h, H = some h → HOk P h) (hc : CtxOk P ctx) {g g' : Gen} {ws : Ws} {scope : Option Str} {name : Str}
    {args : List Expr} {code : List Stmt} (hg : GOk I P g)
    (h : writeCall rec I H ctx g ws scope name args = .ok (code, g')) : SW W I P code ∧ GOk I P g' := by
  obtain ⟨d, own, pre, g1, named, ns, rs, L, b, g2, fl, g3, g4, h1, h2, -, -, -, h6, h7, h8, rfl, rfl⟩ := writeCall_inv h
  obtain ⟨hown, hd⟩ := findMacro_ok hI hc h1
  obtain ⟨a1, a2⟩ := writeBuf_woven (W := W) h2 ((flushWs_ok hg ws).of rfl rfl)
  obtain ⟨a3, a4⟩ := hr _ _ _ _ _ _ _ h6 hH hown hd ((openLine_ok a2).of rfl rfl)
  obtain ⟨a5, a6⟩ := writeBuf_woven (W := W) h7 (flushWs_ok a4 _)
  refine ⟨a1.append ?_, (closeLine_ok h8 a6).of rfl rfl⟩
  have hl : SW W I P (if ns.isEmpty then [] else [.letMany ns rs]) := by
    split
    · exact .nil
    · refine .silent fun ρ x hx => ?_
      simp only [Stmt.exec, Option.map_eq_some_iff] at hx
      obtain ⟨y, -, rfl⟩ := hx
      rfl
  have hb := ((SW.emit (g := prepareWs I g1.openLine d.ws1) hl).append a3).append a5
  exact SW.wrap hb hb.block

theorem writeFilterBlock_woven (hr : RecOk W I P rec) (hH : ∀ h, H = some h → HOk P h) (hc : CtxOk P ctx) {g g' : Gen}
    {ws1 ws2 : Ws} {f : FilterApp} {nodes : List Node} {code : List Stmt} (hn : P (.filterBlock ws1 f nodes ws2))
    (hp : Every P nodes) (hg : GOk I P g) (h : writeFilterBlock rec I H ctx g ws1 f nodes ws2 = .ok (code, g')) :
    SW W I P code ∧ GOk I P g' := by
  obtain ⟨b, g1, p, g2, h1, h2, h3⟩ := writeFilterBlock_inv h
  have a0 := flushWs_ok hg ws1
  obtain ⟨a1, a2⟩ := hr _ _ _ _ _ _ _ h1 hH hc hp ⟨fun w hw => (by cases hw), a0.next⟩
  obtain ⟨a3, a4⟩ := prepareFormat_woven (U := U) (flushWs_ok a2 ws2) h2
  rcases h3 with ⟨rfl, rfl, rfl⟩ | ⟨st, r, w, h3, h4, h5, rfl, rfl⟩
  · exact ⟨a1, a4⟩
  · constructor
    · refine a1.append (SW.emit (.silent fun ρ x hx => ?_))
      subst h4
      cases p with
      | none => exact absurd rfl h3
      | plain s => simp only [Stmt.exec, Option.some.injEq] at hx; subst hx; rfl
      | formatted f args =>
        simp only [Stmt.exec, Option.map_eq_some_iff] at hx
        obtain ⟨y, -, rfl⟩ := hx
        rfl
    · refine GOk.of (push_ok (w := .generated r w) (g := { g2 with pend := (flushWs I g ws1).pend }) ⟨a0.pend, a4.next⟩ ?_)
        rfl rfl
      rintro rfl
      exact ⟨_, _, ⟨_, hn, .filter ws1 f nodes ws2 _⟩, h5⟩

theorem writeBlock_woven (hr : RecOk W I P rec) (hH : ∀ h, H = some h → HOk P h) (hc : CtxOk P ctx) {g g' : Gen}
    {name : Option Str} {outer : Ws} {code : List Stmt} (hg : GOk I P g)
    (h : writeBlock rec I H ctx g name outer = .ok (code, g')) : SW W I P code ∧ GOk I P g' := by
  unfold writeBlock at h
  obtain ⟨cur, h1, h⟩ := except_bind h
  obtain ⟨⟨pre, g1⟩, h2, h⟩ := except_bind h
  obtain ⟨a1, a2⟩ := writeBuf_woven (W := W) h2 (flushWs_ok hg outer)
  cases H with
  | none => cases h
  | some hh =>
    dsimp only at h
    cases hdefs : assoc hh.blocks cur.1 with
    | none => rw [hdefs] at h; cases h
    | some defs =>
      rw [hdefs] at h; dsimp only at h
      cases hcd : defs[cur.2]? with
      | none => rw [hcd] at h; cases h
      | some cd =>
        obtain ⟨cctx, d⟩ := cd
        rw [hcd] at h; dsimp only at h
        obtain ⟨⟨b, g2⟩, h3, h⟩ := except_bind h
        obtain ⟨⟨fl, g3⟩, h4, h⟩ := except_bind h
        cases h
        obtain ⟨k, hk⟩ := assoc_mem hdefs
        obtain ⟨hcc, hd⟩ := (hH hh rfl).blocks _ hk _ (List.mem_of_getElem? hcd)
        obtain ⟨a3, a4⟩ := hr _ _ _ _ _ _ _ h3 hH (mergeCtx_ok hcc hc) hd ⟨a2.pend, fun s hs => by cases hs⟩
        have a5 : SW W I P fl ∧ GOk I P g3 := by
          unfold flushIf at h4
          split at h4
          · exact writeBuf_woven h4 a4
          · cases h4; exact ⟨.nil, a4⟩
        exact ⟨(a1.append a3).append a5.1, ⟨(flushWs_ok a5.2 d.ws2).pend, a2.next⟩⟩

theorem addBlocks_ok {c : Ctx} (hc : CtxOk P c) {m : List (Str × List (Ctx × BlockDefn))}
    (hm : ∀ e ∈ m, ∀ d ∈ e.2, CtxOk P d.1 ∧ Every P d.2.nodes) :
    ∀ e ∈ addBlocks c m, ∀ d ∈ e.2, CtxOk P d.1 ∧ Every P d.2.nodes := by
  unfold addBlocks
  have key : ∀ (l : List (Str × BlockDefn)), (∀ e ∈ l, Every P e.2.nodes) → ∀ m : List (Str × List (Ctx × BlockDefn)),
      (∀ e ∈ m, ∀ d ∈ e.2, CtxOk P d.1 ∧ Every P d.2.nodes) →
      ∀ e ∈ l.foldl (fun m (nd : Str × BlockDefn) =>
        match assoc m nd.1 with
        | none => m ++ [(nd.1, [(c, nd.2)])]
        | some _ => m.map fun e => if e.1 = nd.1 then (e.1, e.2 ++ [(c, nd.2)]) else e) m,
      ∀ d ∈ e.2, CtxOk P d.1 ∧ Every P d.2.nodes := by
    intro l
    induction l with
    | nil => intro _ m hm; exact hm
    | cons nd l ih =>
      intro hl m hm
      rw [List.foldl_cons]
      apply ih (fun e he => hl e (List.mem_cons_of_mem _ he))
      have hnd := hl nd (List.mem_cons_self ..)
      split
      · intro e he
        rcases List.mem_append.mp he with he | he
        · exact hm e he
        · rw [List.mem_singleton] at he; subst he
          intro d hd
          rw [List.mem_singleton] at hd; subst hd
          exact ⟨hc, hnd⟩
      · intro e he
        obtain ⟨e', he', rfl⟩ := List.mem_map.mp he
        split
        · intro d hd
          rcases List.mem_append.mp hd with hd | hd
          · exact hm e' he' d hd
          · rw [List.mem_singleton] at hd; subst hd
            exact ⟨hc, hnd⟩
        · exact hm e' he'
  exact key _ hc.blocks m hm

theorem heritageChain_ok {contexts : List (Str × Ctx)} (hI : ∀ p c, assoc contexts p = some c → CtxOk P c) :
    (fuel : Nat) → {c : Ctx} → {l : List Ctx} → CtxOk P c → heritageChain contexts fuel c = .ok l → ∀ x ∈ l, CtxOk P x
  | 0, _, _, _, h => by cases h
  | fuel + 1, c, l, hc, h => by
    unfold heritageChain at h
    cases hx : c.extends_ with
    | none => rw [hx] at h; cases h; intro x hx; rw [List.mem_singleton] at hx; subst hx; exact hc
    | some path =>
      rw [hx] at h; dsimp only at h
      cases ha : assoc contexts path with
      | none => rw [ha] at h; cases h
      | some p =>
        rw [ha] at h; dsimp only at h
        obtain ⟨rest, h1, h⟩ := except_bind h
        cases h
        intro x hx
        rcases List.mem_cons.mp hx with rfl | hx
        · exact hc
        · exact heritageChain_ok hI fuel (hI _ _ ha) h1 x hx

theorem heritageNew_ok {contexts : List (Str × Ctx)} (hI : ∀ p c, assoc contexts p = some c → CtxOk P c) {c : Ctx}
    (hc : CtxOk P c) {h : Heritage} (hh : heritageNew contexts c = .ok h) : HOk P h := by
  unfold heritageNew at hh
  obtain ⟨chain, h1, hh⟩ := except_bind hh
  cases hh
  have hch := heritageChain_ok hI _ hc h1
  refine ⟨?_, ?_⟩
  · show CtxOk P (chain.getLastD c)
    rw [List.getLastD_eq_getLast?]
    cases hl : chain.getLast? with
    | none => exact hc
    | some x => exact hch x (List.mem_of_getLast? hl)
  · have key : ∀ (l : List Ctx), (∀ x ∈ l, CtxOk P x) → ∀ m : List (Str × List (Ctx × BlockDefn)),
        (∀ e ∈ m, ∀ d ∈ e.2, CtxOk P d.1 ∧ Every P d.2.nodes) →
        ∀ e ∈ l.foldl (fun m c => addBlocks c m) m, ∀ d ∈ e.2, CtxOk P d.1 ∧ Every P d.2.nodes := by
      intro l
      induction l with
      | nil => intro _ m hm; exact hm
      | cons a l ih =>
        intro hl m hm
        rw [List.foldl_cons]
        exact ih (fun x hx => hl x (List.mem_cons_of_mem _ hx)) _ (addBlocks_ok (hl a (List.mem_cons_self ..)) hm)
    exact key chain hch [] (by simp)

theorem handleInclude_woven (hr : RecOk W I P rec) (hI : ∀ p c, assoc I.contexts p = some c → CtxOk P c)
    (hc : CtxOk P ctx) {g g' : Gen} {ws : Ws} {path : Str} {code : List Stmt} (hg : GOk I P g)
    (h : handleInclude rec I ctx g ws path = .ok (code, g')) : SW W I P code ∧ GOk I P g' := by
  obtain ⟨pre, g1, p, c, Hc, b, g2, fl, g3, h1, -, h3, h4, h5, h6, rfl, rfl⟩ := handleInclude_inv h
  obtain ⟨a1, a2⟩ := writeBuf_woven (W := W) h1 (flushWs_ok hg ws)
  have a3 := mergeCtx_ok (hI _ _ h3) hc
  have a4 : ∀ h, Hc = some h → HOk P h := by
    rintro h rfl
    unfold includeHeritage at h4
    split at h4
    · cases h7 : heritageNew I.contexts (mergeCtx c ctx) with
      | error e => rw [h7] at h4; cases h4
      | ok x => rw [h7] at h4; cases h4; exact heritageNew_ok hI a3 h7
    · cases h4
  have a5 : CtxOk P (rootOf Hc (mergeCtx c ctx)) := by
    cases Hc with
    | none => exact a3
    | some h => exact (a4 h rfl).root
  obtain ⟨a6, a7⟩ := hr _ _ _ _ _ _ _ h5 a4 a5 a5.nodes ⟨fun w hw => (by cases hw), fun s hs => by cases hs⟩
  obtain ⟨a8, a9⟩ := writeBuf_woven (W := W) h6 a7
  refine ⟨((a1.append (SW.emit (.silent fun ρ x hx => ?_))).append a6).append a8, a2.of rfl rfl⟩
  simp only [Stmt.exec, Option.some.injEq] at hx; subst hx; rfl

theorem writeLet_woven {g g' : Gen} {ws : Ws} {var : Target} {val : Option Expr} {code : List Stmt} (hg : GOk I P g)
    (h : writeLet I g ws var val = .ok (code, g')) : SW W I P code ∧ GOk I P g' := by
  have a0 := handleWs_ok hg ws
  rcases writeLet_inv h with ⟨s, g1, -, h1, rfl, rfl⟩ | ⟨e, r, w, sh, s, g1, -, h1, h2, h3, rfl, rfl⟩
  · obtain ⟨a1, a2⟩ := writeBuf_woven (W := W) h1 a0
    refine ⟨a1.append (SW.emit (.silent fun ρ x hx => ?_)), a2.of rfl rfl⟩
    simp only [Stmt.exec, Option.some.injEq] at hx; subst hx; rfl
  · have a5 : SW W I P s ∧ GOk I P g1 := by
      unfold flushIf at h3
      split at h3
      · exact writeBuf_woven h3 a0
      · cases h3; exact ⟨.nil, a0⟩
    refine ⟨a5.1.append (SW.emit (.silent fun ρ x hx => ?_)), a5.2.of rfl rfl⟩
    have k1 : (Stmt.letInit var r).exec W ρ = some x → x.1 = [] := by
      intro hx
      simp only [Stmt.exec, Option.bind_eq_some_iff, Option.map_eq_some_iff] at hx
      obtain ⟨v, -, vs, -, rfl⟩ := hx
      rfl
    have k2 : ∀ n, (Stmt.assign n r).exec W ρ = some x → x.1 = [] := by
      intro n hx
      simp only [Stmt.exec, Option.bind_eq_some_iff, Option.map_eq_some_iff] at hx
      obtain ⟨v, -, vs, -, rfl⟩ := hx
      rfl
    split at hx
    · split at hx
      · exact k1 hx
      · exact k2 _ hx
    · exact k1 hx

theorem handleNode_woven (hr : RecOk W I P rec) (hI : ∀ p c, assoc I.contexts p = some c → CtxOk P c)
    (hH : ∀ h, H = some h → HOk P h) (hc : CtxOk P ctx) {level : Level} {g g' : Gen} {n : Node} {code : List Stmt}
    (hp : ∀ m ∈ parts n, P m) (hg : GOk I P g) (h : handleNode rec I H ctx level g n = .ok (code, g')) :
    SW W I P code ∧ GOk I P g' := by
  cases n with
  | lit l =>
    unfold handleNode at h
    obtain ⟨g1, h1, h⟩ := except_bind h
    cases h
    exact ⟨.nil, visitLit_ok hg (hp _ (by simp [parts])) (.lit l) h1⟩
  | comment ws c => cases h; exact ⟨.nil, handleWs_ok hg ws⟩
  | expr ws e => cases h; exact ⟨.nil, push_ok (handleWs_ok hg ws) ⟨_, hp _ (by simp [parts]), .expr ws e⟩⟩
  | let_ ws var val => exact writeLet_woven hg h
  | if_ ws bs => exact writeIf_woven hr hH hc (fun n hn => hp n (by simp [parts, hn])) hg h
  | match_ ws1 e arms ws2 => exact writeMatch_woven hr hH hc (fun n hn => hp n (by simp [parts, hn])) hg h
  | loop ws1 v i c body ws2 els ws3 =>
    exact writeLoop_woven hr hH hc (fun n hn => hp n (by simp [parts, hn])) (fun n hn => hp n (by simp [parts, hn])) hg h
  | blockDef ws1 name ns ws2 => exact writeBlock_woven hr hH hc hg h
  | «include» ws path => exact handleInclude_woven hr hI hc hg h
  | call ws scope name args =>
    simp only [handleNode] at h
    split at h
    · exact writeBlock_woven hr hH hc hg h
    · exact writeCall_woven hr hI hH hc hg h
  | filterBlock ws1 f ns ws2 =>
    exact writeFilterBlock_woven hr hH hc (hp _ (by simp [parts])) (fun n hn => hp n (by simp [parts, hn])) hg h
  | «macro» ws1 nm args ns ws2 =>
    simp only [handleNode] at h
    split at h
    · cases h; exact ⟨.nil, (flushWs_ok hg ws1).of rfl rfl⟩
    · cases h
  | raw ws1 l ws2 =>
    unfold handleNode at h
    obtain ⟨g1, h1, h⟩ := except_bind h
    cases h
    exact ⟨.nil, handleWs_ok (visitLit_ok (handleWs_ok hg ws1) (hp _ (by simp [parts])) (.raw ws1 l ws2) h1) ws2⟩
  | import_ ws p s =>
    simp only [handleNode] at h
    split at h
    · cases h; exact ⟨.nil, handleWs_ok hg ws⟩
    · cases h
  | extends_ p =>
    simp only [handleNode] at h
    split at h
    · cases h; exact ⟨.nil, hg⟩
    · cases h
  | break_ ws =>
    unfold handleNode at h
    obtain ⟨⟨s, g1⟩, h1, h⟩ := except_bind h
    cases h
    obtain ⟨a1, a2⟩ := writeBuf_woven (W := W) h1 (handleWs_ok hg ws)
    refine ⟨a1.append (SW.emit (.silent fun ρ x hx => ?_)), a2⟩
    simp only [Stmt.exec, Option.some.injEq] at hx; subst hx; rfl
  | continue_ ws =>
    unfold handleNode at h
    obtain ⟨⟨s, g1⟩, h1, h⟩ := except_bind h
    cases h
    obtain ⟨a1, a2⟩ := writeBuf_woven (W := W) h1 (handleWs_ok hg ws)
    refine ⟨a1.append (SW.emit (.silent fun ρ x hx => ?_)), a2⟩
    simp only [Stmt.exec, Option.some.injEq] at hx; subst hx; rfl

theorem handleNodes_woven (hr : RecOk W I P rec) (hI : ∀ p c, assoc I.contexts p = some c → CtxOk P c)
    (hH : ∀ h, H = some h → HOk P h) (hc : CtxOk P ctx) {level : Level} : (ns : List Node) → {g g' : Gen} →
    {code : List Stmt} → Every P ns → GOk I P g → handleNodes rec I H ctx level ns g = .ok (code, g') →
    SW W I P code ∧ GOk I P g'
  | [], _, _, _, _, hg, h => by cases h; exact ⟨.nil, hg⟩
  | n :: ns, g, g', code, hp, hg, h => by
    unfold handleNodes at h
    obtain ⟨⟨s, g1⟩, h1, h⟩ := except_bind h
    obtain ⟨⟨s', g2⟩, h2, h⟩ := except_bind h
    cases h
    obtain ⟨a1, a2⟩ := handleNode_woven hr hI hH hc hp.head hg h1
    obtain ⟨a3, a4⟩ := handleNodes_woven hr hI hH hc ns hp.tail a2 h2
    exact ⟨a1.append a3, a4⟩

theorem handle_woven (hI : ∀ p c, assoc I.contexts p = some c → CtxOk P c) : (fuel : Nat) →
    RecOk W I P (handle I fuel)
  | 0 => by intro H ctx nodes level g code g' h; cases h
  | fuel + 1 => by
    intro H ctx nodes level g code g' h hH hc hn hg
    unfold handle at h
    obtain ⟨⟨s, g1⟩, h1, h⟩ := except_bind h
    obtain ⟨⟨s', g2⟩, h2, h⟩ := except_bind h
    cases h
    obtain ⟨a1, a2⟩ := handleNodes_woven (handle_woven hI fuel) hI hH hc nodes hn hg h1
    have a3 : SW W I P s' ∧ GOk I P g' := by
      unfold handleEnd at h2
      split at h2
      · refine writeBuf_woven h2 ?_
        split
        · exact flushWs_ok a2 _
        · exact a2
      · cases h2; exact ⟨.nil, a2⟩
    exact ⟨a1.append a3.1, a3.2⟩

theorem generate_woven (hI : ∀ p c, assoc I.contexts p = some c → CtxOk P c) {fuel : Nat}
    (hH : ∀ h, H = some h → HOk P h) (hc : CtxOk P ctx) {code : List Stmt} (h : generate I fuel H ctx = .ok code) :
    SW W I P code := by
  unfold generate at h
  obtain ⟨⟨s, g1⟩, h1, h⟩ := except_bind h
  obtain ⟨g2, -, h'⟩ := except_bind (fits_ok h).2
  obtain ⟨g3, -, h'⟩ := except_bind h'
  cases h'
  have a5 : CtxOk P (rootOf H ctx) := by
    cases H with
    | none => exact hc
    | some hh => exact (hH hh rfl).root
  exact (handle_woven hI fuel _ _ _ _ _ _ _ h1 hH a5 a5.nodes ⟨fun w hw => (by cases hw), fun s hs => by cases hs⟩).1

/-! ## The nodes of blocks and macros -/

theorem partsC_mem : (cs : List Cond) → ∀ ns ∈ cs.map Cond.nodes, ∀ n ∈ partsL ns, n ∈ partsC cs
  | [], ns, h => by simp at h
  | .mk _ _ nodes :: cs, ns, h => by
    intro n hn
    simp only [partsC, List.mem_append]
    rcases List.mem_cons.mp h with rfl | h
    · exact .inl hn
    · exact .inr (partsC_mem cs ns h n hn)

theorem partsW_mem : (cs : List When) → ∀ ns ∈ cs.map When.nodes, ∀ n ∈ partsL ns, n ∈ partsW cs
  | [], ns, h => by simp at h
  | .mk _ _ nodes :: cs, ns, h => by
    intro n hn
    simp only [partsW, List.mem_append]
    rcases List.mem_cons.mp h with rfl | h
    · exact .inl hn
    · exact .inr (partsW_mem cs ns h n hn)

theorem ctxNested_parts {n : Node} (h : ∀ m ∈ parts n, P m) : ∀ ns ∈ ctxNested n, Every P ns := by
  cases n with
  | if_ w bs =>
    intro ns hns m hm
    simp only [ctxNested, List.mem_reverse] at hns
    exact h m (by simp [parts, partsC_mem bs ns hns m hm])
  | match_ w e arms w2 =>
    intro ns hns m hm
    simp only [ctxNested, List.mem_reverse] at hns
    exact h m (by simp [parts, partsW_mem arms ns hns m hm])
  | loop w1 v i c body w2 els w3 =>
    intro ns hns m hm
    simp only [ctxNested, List.mem_cons, List.not_mem_nil, or_false] at hns
    rcases hns with rfl | rfl <;> exact h m (by simp [parts, hm])
  | blockDef w1 name nodes w2 =>
    intro ns hns m hm
    simp only [ctxNested, List.mem_cons, List.not_mem_nil, or_false] at hns
    subst hns
    exact h m (by simp [parts, hm])
  | _ => intro ns hns; simp [ctxNested] at hns

/-- The collected nodes belong to the templates. -/
structure CtxStOk (P : Node → Prop) (st : CtxSt) : Prop where
  blocks : ∀ e ∈ st.blocks, Every P e.2.nodes
  macros : ∀ e ∈ st.macros, Every P e.2.nodes
  nested : ∀ ns ∈ st.nested, Every P ns

theorem mapInsert_mem {α : Type} {m : List (Str × α)} {k : Str} {v : α} {e : Str × α} (h : e ∈ mapInsert m k v) :
    e = (k, v) ∨ e ∈ m := by
  unfold mapInsert at h
  rcases List.mem_cons.mp h with h | h
  · exact .inl h
  · exact .inr (List.mem_filter.mp h).1

theorem ctxNode_parts {find : Str → Option Str} {top : Bool} {st st' : CtxSt} {n : Node}
    (h : ctxNode find top st n = .ok st') (hn : ∀ m ∈ parts n, P m) (hs : CtxStOk P st) : CtxStOk P st' := by
  have key : ctxNested n = ctxNested n → CtxStOk P { st with nested := ctxNested n ++ st.nested } := fun _ =>
    ⟨hs.blocks, hs.macros, by
      intro ns hns
      rcases List.mem_append.mp hns with hns | hns
      · exact ctxNested_parts hn ns hns
      · exact hs.nested ns hns⟩
  cases n with
  | extends_ p =>
    simp only [ctxNode] at h
    repeat' split at h
    all_goals cases h
    exact ⟨hs.blocks, hs.macros, hs.nested⟩
  | import_ w p s =>
    simp only [ctxNode] at h
    repeat' split at h
    all_goals cases h
    exact ⟨hs.blocks, hs.macros, hs.nested⟩
  | «macro» w1 name args nodes w2 =>
    simp only [ctxNode] at h
    split at h
    · cases h
      refine ⟨hs.blocks, ?_, hs.nested⟩
      intro e he
      rcases mapInsert_mem he with rfl | he
      · exact fun m hm => hn m (by simp [parts, hm])
      · exact hs.macros e he
    · cases h
  | blockDef w1 name nodes w2 =>
    cases h
    refine ⟨?_, hs.macros, (key rfl).nested⟩
    intro e he
    rcases mapInsert_mem he with rfl | he
    · exact fun m hm => hn m (by simp [parts, hm])
    · exact hs.blocks e he
  | _ => cases h; exact key rfl

theorem ctxNodes_parts {find : Str → Option Str} {top : Bool} : (ns : List Node) → {st st' : CtxSt} →
    ctxNodes find top ns st = .ok st' → Every P ns → CtxStOk P st → CtxStOk P st'
  | [], _, _, h, _, hs => by cases h; exact hs
  | n :: ns, _, _, h, hn, hs => by
    unfold ctxNodes at h
    obtain ⟨st1, h1, h⟩ := except_bind h
    exact ctxNodes_parts ns h hn.tail (ctxNode_parts h1 hn.head hs)

theorem ctxLoop_parts {find : Str → Option Str} : (fuel : Nat) → {top : Bool} → {st st' : CtxSt} →
    ctxLoop find fuel top st = .ok st' → CtxStOk P st → CtxStOk P st'
  | fuel, top, st, st', h, hs => by
    unfold ctxLoop at h
    split at h
    · cases h; exact hs
    · rename_i ns rest hn
      cases fuel with
      | zero => cases h
      | succ fuel =>
        dsimp only at h
        obtain ⟨st1, h1, h⟩ := except_bind h
        have hns : Every P ns := hs.nested ns (by rw [hn]; simp)
        refine ctxLoop_parts fuel h (ctxNodes_parts ns h1 hns ⟨hs.blocks, hs.macros, ?_⟩)
        intro l hl
        exact hs.nested l (by rw [hn]; exact List.mem_cons_of_mem _ hl)

theorem contextNew_parts {find : Str → Option Str} {nodes : List Node} {c : Ctx} (h : contextNew find nodes = .ok c)
    (hn : Every P nodes) : CtxOk P c := by
  unfold contextNew at h
  obtain ⟨st, h1, h⟩ := except_bind h
  cases h
  have := ctxLoop_parts (P := P) _ h1 ⟨by simp, by simp, by simpa using hn⟩
  exact ⟨hn, this.blocks, this.macros⟩

end

end Askama
