import Verif.Lemmas.Text

/-! The text of an expression is read as the modelled expression: variables, and all expressions. -/

namespace Askama.Spec

open Askama

variable {esc : Str} {I : GenInput} {T : TextLocals} {L : Locals}

/-! ## Variables -/

/-- The text and the expression that a name stands for. -/
def AtOk (esc : Str) : Option (Option Str) → Option LocalMeta → Prop
  | none, none => True
  | some none, some m => m.refs = none
  | some (some s), some m => ∃ r, m.refs = some r ∧ OutS esc folP s r ∧ normalizeIdentifier s = s
  | _, _ => False

/-- ... of every name. -/
def VarsOk (esc : Str) (T : TextLocals) (L : Locals) : Prop := ∀ n, AtOk esc (T n) (MapChain.get L n)

theorem self_out : OutS esc folP c!"self" .self_ := OutS.name (.inl (by decide)) (by decide) .self_

theorem resolve_out (hv : VarsOk esc T L) {x : Str} (hx : plainName x = true) :
    (T.resolve x = none ∧ L.resolve x = none) ∨
    ∃ s r, T.resolve x = some s ∧ L.resolve x = some r ∧ OutS esc folP s r ∧ normalizeIdentifier s = s := by
  have h := hv (normalizeIdentifier x)
  unfold TextLocals.resolve Locals.resolve
  dsimp only
  cases ht : T (normalizeIdentifier x) with
  | none =>
    cases hl : MapChain.get L (normalizeIdentifier x) with
    | none => exact .inl ⟨rfl, rfl⟩
    | some m => simp [ht, hl, AtOk] at h
  | some o =>
    cases hl : MapChain.get L (normalizeIdentifier x) with
    | none => cases o <;> simp [ht, hl, AtOk] at h
    | some m =>
      cases o with
      | none =>
        simp only [ht, hl, AtOk] at h
        refine .inr ⟨_, _, rfl, rfl, ?_⟩
        simp only [h]
        exact ⟨OutS.name (plainName_word hx) (nameOk_seg (plainName_ok hx)) (.local_ _), normalizeIdentifier_idem x⟩
      | some s =>
        simp only [ht, hl, AtOk] at h
        obtain ⟨r, h1, h2⟩ := h
        refine .inr ⟨_, _, rfl, rfl, ?_⟩
        simp only [h1]
        exact h2

theorem resolve_normal (x : Str) : T.resolve (normalizeIdentifier x) = T.resolve x := by
  simp only [TextLocals.resolve, normalizeIdentifier_idem]

theorem resolve_normalL (x : Str) : Locals.resolve L (normalizeIdentifier x) = Locals.resolve L x := by
  simp only [Locals.resolve, normalizeIdentifier_idem]

/-- A field of the template. -/
theorem selfField {x : Str} (hx : plainName x = true) :
    LexTo folP (c!"self." ++ normalizeIdentifier x) (Tree.field (.path [c!"self"]) (normalizeIdentifier x)).toks ∧
    (Tree.field (.path [c!"self"]) (normalizeIdentifier x)).Wf ∧
    Opens (c!"self." ++ normalizeIdentifier x) (Tree.field (.path [c!"self"]) (normalizeIdentifier x)).toks := by
  have hw := plainName_word hx
  have e : (Tree.field (.path [c!"self"]) (normalizeIdentifier x)).toks
      = [.word c!"self"] ++ [.op c!".", .word (normalizeIdentifier x)] := by
    simp only [Tree.toks, pathToks, segToks, fieldTok, hw.notDec]
    rfl
  refine ⟨?_, ?_, ?_⟩
  · rw [e]
    have := (lx_word (w := c!"self") (by decide)).app (lx_fieldName hw) fun u _ => rfl
    exact (this.mono fun _ => noWord_folP)
  · simp only [Tree.Wf]
    exact ⟨by simp only [PathOk]; decide, by simp [Tree.level], fieldOk_word hw (plainName_ok hx)⟩
  · rw [e]
    exact (Opens.word (w := c!"self") (.inl (by decide)) []).app _ _

/-- A called variable. -/
theorem callee_out (hv : VarsOk esc T L) {x : Str} (hx : plainName x = true) :
    OutS esc folP ((T.resolve x).getD (c!"(&self." ++ normalizeIdentifier x ++ c!")"))
      ((L.resolve x).getD (.fieldRef (normalizeIdentifier x))) := by
  rcases resolve_out hv hx with ⟨h1, h2⟩ | ⟨s, r, h1, h2, h3, h4⟩
  · rw [h1, h2]
    simp only [Option.getD_none]
    obtain ⟨h1, h2, h3⟩ := selfField hx
    have ha : LexTo folP (c!"&" ++ (c!"self." ++ normalizeIdentifier x))
        (Tree.borrow (.field (.path [c!"self"]) (normalizeIdentifier x))).toks := fun rest hr =>
      (lx_amp (rest := (c!"self." ++ normalizeIdentifier x) ++ rest) rfl).trans (h1 rest hr)
    refine OutS.prim (t := .paren (.borrow (.field (.path [c!"self"]) (normalizeIdentifier x)))) ?_ ?_
      (by simp [Tree.level]) ?_ (.fieldRef _)
    · have := lx_in (.inl ⟨rfl, rfl⟩) (ha.mono fun _ h => folP_of_R (folR_of_A h))
      have := this.of_any (G := folP)
      simp only [Tree.toks] at this ⊢
      simpa only [List.append_assoc, List.cons_append, List.nil_append] using this
    · simp only [Tree.Wf] at h2 ⊢
      exact ⟨h2, by simp [Tree.level]⟩
    · simp only [Tree.toks]
      exact ⟨'(', _, _, _, rfl, rfl, rfl, rfl, rfl⟩
  · rw [h1, h2]
    exact h3

/-- A variable. -/
theorem var_out (hv : VarsOk esc T L) {x : Str} (hx : x = c!"self" ∨ plainName x = true) :
    OutS esc folP (varText T x) (if x = c!"self" then .self_ else L.resolveOrSelf x) ∧
    (x ≠ c!"self" → normalizeIdentifier (varText T x) = varText T x) := by
  unfold varText
  by_cases hs : x = c!"self"
  · simp only [if_pos hs]
    subst hs
    exact ⟨self_out, fun h => absurd rfl h⟩
  · simp only [if_neg hs, normalizeIdentifier_idem, implies_true, and_true]
    have hx := hx.resolve_left hs
    unfold TextLocals.resolveOrSelf Locals.resolveOrSelf
    dsimp only
    rw [resolve_normal, resolve_normalL]
    rcases resolve_out hv hx with ⟨h1, h2⟩ | ⟨s, r, h1, h2, h3, h4⟩
    · rw [h1, h2]
      simp only [Option.getD_none]
      rw [normal_dot (by simp)]
      obtain ⟨h1, h2, h3⟩ := selfField hx
      exact OutS.prim h1 h2 (by simp [Tree.level]) h3 (.field _)
    · rw [h1, h2]
      simp only [Option.getD_some]
      rw [h4]
      exact h3

/-! ## Pieces -/

/-- The text of an attribute of a variable. -/
theorem varAttr_out (hv : VarsOk esc T L) {x a : Str} (hx : x = c!"self" ∨ plainName x = true) (ha : plainAttr a = true) :
    OutS esc folP (varText T x ++ (c!"." ++ normalizeIdentifier a)) (varAttr L x (normalizeIdentifier a)) := by
  have h := (var_out hv hx).1.attr ha
  unfold varAttr
  by_cases hs : x = c!"self"
  · simp only [if_pos hs] at h ⊢
    obtain ⟨n, c, h1, h2, h3, h4, h5⟩ := h
    exact ⟨n, c, h1, h2, h3, h4, .selfAttr _ h5⟩
  · simpa only [if_neg hs] using h

/-- What may follow the text of an operand. -/
def folS : Expr → Str → Bool
  | .numLit _ => folW
  | _ => folP

theorem folS_of_W {e : Expr} {u : Str} (h : folW u = true) : folS e u = true := by
  unfold folS
  split
  · exact h
  · exact folP_of_W h

theorem folP_of_S {e : Expr} {u : Str} (h : folS e u = true) : folP u = true := by
  unfold folS at h
  split at h
  · exact folP_of_W h
  · exact h

/-- The text of an expression. -/
def Good (esc : Str) (e : Expr) (s : Str) (r : RExpr) : Prop :=
  (12 ≤ strength e → OutS esc (folS e) s r) ∧ Out esc (strength e) s r

theorem Good.of {F : Str → Bool} {e : Expr} {s : Str} {r : RExpr} (h : OutS esc F s r)
    (hf : ∀ u, folS e u = true → F u = true) (hk : strength e ≠ 0) : Good esc e s r :=
  ⟨fun _ => h.mono hf, h.out (fun _ hu => hf _ (folS_of_W (folW_of_R hu))) hk⟩

theorem Good.ofP {e : Expr} {s : Str} {r : RExpr} (h : OutS esc folP s r) (hk : strength e ≠ 0) : Good esc e s r :=
  .of h (fun _ => folP_of_S) hk

theorem Good.ofAny {e : Expr} {s : Str} {r : RExpr} (h : OutS esc anyText s r) (hk : strength e ≠ 0) : Good esc e s r :=
  .of h (fun _ _ => rfl) hk

/-- A prefix operator. -/
theorem Out.prefix {op : Str} (ho : op = c!"-" ∨ op = c!"!" ∨ op = c!"*") {k : Nat} (hk : 10 ≤ k) {s : Str} {r r' : RExpr}
    (h : Out esc k s r) (hr : ∀ t, Spells esc t r → Spells esc (.unary op t) r') {j : Nat} (hj : j ≠ 0) :
    Out esc j (op ++ s) r' := by
  obtain ⟨t, h1, h2, h3, h4, h5⟩ := h
  have hop := h4 (by omega)
  rw [if_neg (by omega)] at h1
  refine ⟨.unary op t, ?_, ?_, ?_, fun _ => ?_, hr t h5⟩
  · rw [if_neg hj]
    intro rest hrest
    rw [List.append_assoc]
    have ha := lx_prefix ho (rest := s ++ rest) (hop.head (by simp) rest)
    have := ha.trans (h1 rest hrest)
    simpa only [Tree.toks, List.cons_append, List.nil_append] using this
  · simp only [Tree.Wf]
    exact ⟨ho, h2, by omega⟩
  · simp only [Tree.level]
    omega
  · simp only [Tree.toks]
    rcases ho with rfl | rfl | rfl <;> exact ⟨_, _, _, _, rfl, rfl, rfl, rfl, rfl⟩

theorem folR_sp (u : Str) : folR (c!" " ++ u) = true := rfl

theorem binOpOf_sym {op : Str} {o : BinOp} (h : binOpOf op = some o) : op = o.sym := by
  unfold binOpOf at h
  have := List.find?_some h
  simp only [beq_iff_eq] at this
  exact this.symm

/-- A binary operator. -/
theorem binop_out {o : BinOp} {j k : Nat} (hj : o.prec + 1 ≤ j) (hk : o.prec + 2 ≤ k) (hc : o.prec = 2 → 4 ≤ j)
    {s u : Str} {r r' : RExpr} (h : Out esc j s r) (h' : Out esc k u r') :
    Out esc (o.prec + 1) (s ++ (c!" " ++ o.sym ++ c!" ") ++ u) (.binop o.sym r r') := by
  obtain ⟨t, h1, h2, h3, h4, h5⟩ := h
  obtain ⟨t', g1, g2, g3, g4, g5⟩ := h'
  have ho : o.prec ≤ 8 := by cases o <;> simp [BinOp.prec]
  rw [if_neg (by omega)] at h1 g1
  refine ⟨.binary o t t', ?_, ?_, ?_, fun _ => ?_, .binop o h5 g5⟩
  · rw [if_neg (by omega)]
    have := h1.app ((lx_binop o).any g1) fun v _ => rfl
    simpa only [Tree.toks, List.append_assoc] using this
  · simp only [Tree.Wf]
    refine ⟨h2, g2, by omega, by omega, fun he => ?_⟩
    have := hc he
    omega
  · simp only [Tree.level]
    omega
  · have := (h4 (by omega)).app ((c!" " ++ o.sym ++ c!" ") ++ u) (o.toks ++ t'.toks)
    simpa only [Tree.toks, List.append_assoc] using this

theorem folA_head {rest : Str} (h : folA rest = true) : headIs (fun c => c == '=' || c == '.') rest = false := by
  cases rest with
  | nil => rfl
  | cons c u => rcases stopC_cases h with rfl | rfl | rfl | rfl | rfl | rfl | rfl | rfl | rfl <;> rfl

/-- The end of a range. -/
inductive OutO (esc : Str) (I : GenInput) (T : TextLocals) : Option Expr → Option RExpr → Prop
  | none : OutO esc I T none none
  | some {e : Expr} {r : RExpr} : Out esc (strength e) (exprText I T e) r → 1 ≤ strength e → OutO esc I T (some e) (some r)

/-- A range. -/
theorem range_out {op : Str} (hop : op = c!".." ∨ op = c!"..=") {a b : Option Expr} {r s : Option RExpr}
    (ha : OutO esc I T a r) (hb : OutO esc I T b s) :
    Out esc 0 (optText I T a ++ op ++ optText I T b) (.range op r s) := by
  have hb' : ∃ t, LexTo folA (optText I T b) (toksOpt t) ∧ WfO t ∧ SpellsOpt esc t s ∧
      ∀ rest, folA rest = true → headIs (fun c => c == '=' || c == '.') (optText I T b ++ rest) = false := by
    cases hb with
    | none =>
      refine ⟨none, by simpa only [optText, toksOpt] using LexTo.nil folA, by simp only [WfO], .none, fun rest hr => ?_⟩
      simp only [optText, List.nil_append]
      exact folA_head hr
    | some h hk =>
      obtain ⟨t, h1, h2, h3, h4, h5⟩ := h
      rw [if_neg (by omega)] at h1
      refine ⟨some t, ?_, ?_, .some h5, fun rest hr => ?_⟩
      · simp only [optText, toksOpt]
        exact h1.mono fun _ => folR_of_A
      · simp only [WfO]
        exact ⟨h2, by omega⟩
      · simp only [optText]
        exact (h4 hk).head (by simp) rest
  obtain ⟨tb, b1, b2, b3, b4⟩ := hb'
  have hop2 : LexTo folA (op ++ optText I T b) (.op op :: toksOpt tb) := fun rest hr => by
    rw [List.append_assoc]
    rcases hop with rfl | rfl
    · exact (lx_dotdot (b4 rest hr)).trans (b1 rest hr)
    · exact (lx_dotdoteq _ rfl).trans (b1 rest hr)
  have ha' : ∃ t, LexTo folR (optText I T a) (toksOpt t) ∧ WfO t ∧ SpellsOpt esc t r := by
    cases ha with
    | none => exact ⟨none, by simpa only [optText, toksOpt] using LexTo.nil folR, by simp only [WfO], .none⟩
    | some h hk =>
      obtain ⟨t, h1, h2, h3, h4, h5⟩ := h
      rw [if_neg (by omega)] at h1
      exact ⟨some t, by simpa only [optText, toksOpt] using h1, by simp only [WfO]; exact ⟨h2, by omega⟩, .some h5⟩
  obtain ⟨ta, a1, a2, a3⟩ := ha'
  refine ⟨.range op ta tb, ?_, ?_, by omega, fun h => absurd h (by omega), .range op a3 b3⟩
  · rw [if_pos rfl, List.append_assoc]
    simp only [Tree.toks]
    exact a1.app hop2 fun u _ => by rcases hop with rfl | rfl <;> rfl
  · simp only [Tree.Wf]
    exact ⟨hop, a2, b2⟩

/-- An index. -/
theorem index_out {F : Str → Bool} {s k : Str} {r q : RExpr} (h : OutS esc F s r) (hf : ∀ u, F (c!"[" ++ u) = true)
    {j : Nat} (hk : Out esc j k q) : OutS esc anyText (c!"&" ++ s ++ c!"[" ++ k ++ c!"]") (.index r q) := by
  obtain ⟨t, h1, h2, h3⟩ := hk.folA
  have := (h.post (p := fun c => .index c t) (lx_in (.inr ⟨rfl, rfl⟩) h1) (fun u _ => by
    rw [List.append_assoc, List.append_assoc]
    exact hf _) (fun c hc hl => ⟨by simp only [Tree.Wf]; exact ⟨hc, hl, h2⟩, by simp [Tree.level], by simp [Tree.toks]⟩)
    (r' := .index r q) fun c hc => .index hc h3).amp
  simpa only [List.append_assoc, List.cons_append, List.nil_append] using this

theorem num_opens {s : Str} (h : isNumber s = true) : Opens s (Tree.lit (.num s)).toks := by
  simp only [Tree.toks]
  simp only [isNumber, Bool.and_eq_true] at h
  cases s with
  | nil => cases h.1.1
  | cons c u =>
    have hc : isDec c = true := h.1.1
    refine ⟨c, u, _, _, rfl, rfl, by simp [startC, hc], ?_, rfl⟩
    simp only [isAmp, beq_eq_false_iff_ne, ne_eq]
    rintro rfl
    exact absurd hc (by decide)

/-- `_loop_item.f` -/
theorem loop_field_out {f : Str} {r : RExpr} (hn : isName f = true) (hk : nameOk f = true)
    (hr : Spells esc (.field (.path [c!"_loop_item"]) f) r) : OutS esc folP (c!"_loop_item." ++ f) r := by
  have hw : RustWord f := .inl hn
  have e : (Tree.field (.path [c!"_loop_item"]) f).toks = [.word c!"_loop_item"] ++ [.op c!".", .word f] := by
    simp only [Tree.toks, pathToks, segToks, fieldTok, hw.notDec]
    rfl
  refine OutS.prim ?_ ?_ (by simp [Tree.level]) ?_ hr
  · rw [e]
    have := (lx_word (w := c!"_loop_item") (by decide)).app (lx_fieldName hw) fun u _ => rfl
    exact (this.mono fun _ => noWord_folP)
  · simp only [Tree.Wf]
    exact ⟨by simp only [PathOk]; decide, by simp [Tree.level], fieldOk_word hw hk⟩
  · rw [e]
    exact (Opens.word (w := c!"_loop_item") (.inl (by decide)) []).app _ _

/-- `loop.index` -/
theorem loop_index_out : OutS esc anyText c!"(_loop_item.index + 1)" .loopIndex := by
  have h1 : LexTo noWord c!"_loop_item" [.word c!"_loop_item"] := lx_word (by decide)
  have h2 : LexTo noWord (c!"." ++ c!"index") [.op c!".", .word c!"index"] := lx_fieldName (.inl (by decide))
  have h3 : LexTo folW c!"1" [.num c!"1"] := lx_num (by decide)
  have h4 := h1.app (h2.app ((lx_binop .add).any h3) fun u _ => rfl) fun u _ => rfl
  have h5 := lx_in (.inl ⟨rfl, rfl⟩) (h4.mono fun _ h => folW_of_R (folR_of_A h))
  refine OutS.prim (t := .paren (.binary .add (.field (.path [c!"_loop_item"]) c!"index") (.lit (.num c!"1")))) h5 ?_
    (by simp [Tree.level]) ⟨'(', _, _, _, rfl, rfl, rfl, rfl, rfl⟩ .loopIndex
  simp only [Tree.Wf]
  exact ⟨⟨by simp only [PathOk]; decide, by simp [Tree.level], by unfold FieldOk; decide⟩, rfl, by decide, by decide,
    by decide⟩

/-- `join` -/
theorem joinCall_out {s u : Str} {t : Tree} {ts : List Tree} {r : RExpr} {rs : List RExpr}
    (h1 : LexTo folR (c!"&" ++ s) (Tree.borrow t).toks) (h2 : (Tree.borrow t).Wf) (h3 : Spells esc t r)
    (g1 : LexTo folA u (toksMore (ts.map .borrow)))
    (g2 : WfL (ts.map .borrow)) (g3 : SpellsAll esc ts rs) :
    OutS esc anyText (c!"::askama" ++ c!"::filters::join((&" ++ s ++ c!").into_iter()" ++ u ++ c!")?") (.join (r :: rs)) := by
  have p1 := lx_in (.inl ⟨rfl, rfl⟩) (h1.mono fun _ => folR_of_A)
  have p2 : LexTo noWord (c!"." ++ c!"into_iter") [.op c!".", .word c!"into_iter"] := lx_fieldName (.inl (by decide))
  have p3 : LexTo anyText (c!"(" ++ [] ++ c!")") (.opn '(' :: ([] ++ [.cls ')'])) :=
    lx_in (.inl ⟨rfl, rfl⟩) (LexTo.nil folA)
  have p4 := (p1.any (p2.app p3 fun _ _ => rfl)).any g1
  have ha : LexTo folA (c!"(" ++ (c!"&" ++ s) ++ c!")" ++ (c!"." ++ c!"into_iter" ++ (c!"(" ++ [] ++ c!")")) ++ u)
      (toksSep (.call (.field (.paren (.borrow t)) c!"into_iter") [] :: ts.map .borrow)) := by
    simp only [Tree.toks] at p4
    simp only [toksSep, Tree.toks]
    have e : fieldTok c!"into_iter" = .word c!"into_iter" := rfl
    rw [e]
    simpa only [List.append_assoc, List.cons_append, List.nil_append, List.append_nil] using p4
  have hw : WfL (.call (.field (.paren (.borrow t)) c!"into_iter") [] :: ts.map .borrow) := by
    simp only [WfL, Tree.Wf] at h2 ⊢
    exact ⟨⟨⟨h2, by simp [Tree.level], by unfold FieldOk; decide⟩, by simp [Tree.level], trivial⟩, g2⟩
  have := OutS.callTry (esc := esc) (p := [[], c!"askama", c!"filters", c!"join"]) (by decide) (by decide) ha hw (.join h3 g3)
  simpa only [joinPath, List.append_assoc, List.cons_append, List.nil_append, List.append_nil] using this

/-! ## Equations -/

theorem exprText_attr (e : Expr) (a : Str) (h : ∀ x, e ≠ .var x) :
    exprText I T (.attr e a) = exprText I T e ++ (c!"." ++ normalizeIdentifier a) := by
  cases e <;> first
    | exact absurd rfl (h _)
    | rfl

theorem exprText_call (f : Expr) (args : List Expr) (h : ∀ x, f ≠ .var x) (h2 : ∀ x a, f ≠ .attr (.var x) a) :
    exprText I T (.call f args) = exprText I T f ++ c!"(" ++ argsText I T args ++ c!")" := by
  cases f with
  | var x => exact absurd rfl (h x)
  | attr e a =>
    cases e <;> first
      | exact absurd rfl (h2 _ _)
      | rfl
  | _ => rfl

theorem ordinary_attr (e : Expr) (a : Str) (h : ∀ x, e ≠ .var x) (h2 : ∀ s, e ≠ .numLit s) :
    ordinary (.attr e a) = (ordinary e ∧ plainAttr a = true) := by
  cases e <;> first
    | exact absurd rfl (h _)
    | exact absurd rfl (h2 _)
    | simp only [ordinary]

theorem ordinary_call (f : Expr) (args : List Expr) (h : ∀ x, f ≠ .var x) (h2 : ∀ x a, f ≠ .attr (.var x) a) :
    ordinary (.call f args) = (ordinary f ∧ ordinaryAll args) := by
  cases f with
  | var x => exact absurd rfl (h x)
  | attr e a =>
    cases e <;> first
      | exact absurd rfl (h2 _ _)
      | simp only [ordinary]
  | _ => simp only [ordinary]

/-! ## Expressions -/

/-- The escapers are paths. -/
structure EscOk (I : GenInput) : Prop where
  own : EscaperPath I.escaper
  all : ∀ e ∈ I.escapers, EscaperPath e.2

theorem EscOk.find (h : EscOk I) {n x : Str} (hx : findEscaper I n = some x) : EscaperPath x := by
  unfold findEscaper at hx
  simp only [Option.map_eq_some_iff] at hx
  obtain ⟨e, he, rfl⟩ := hx
  exact h.all e (List.mem_of_find?_eq_some he)

/-- Filters. -/
theorem filter_out (hE : EscOk I) {name : Str} {args : List Expr} {r : RExpr} {w : Bool}
    (hs : shaped (.filter name args) = true) (ho : ordinary (.filter name args))
    (h : visitExpr I L (.filter name args) = .ok (r, w))
    (ih : ∀ rs, visitList I L args = .ok rs → Outs I.escaper I T args rs) :
    Out I.escaper 10 (exprText I T (.filter name args)) r := by
  simp only [shaped, Bool.and_eq_true] at hs
  simp only [ordinary] at ho
  obtain ⟨⟨hn, hsa⟩, hst⟩ := hs
  obtain ⟨hseg, hoa, hj⟩ := ho
  have one : ∀ {a : Expr} {q : RExpr} {v : Bool}, args = [a] → visitExpr I L a = .ok (q, v) →
      Out I.escaper (strength a) (exprText I T a) q := by
    intro a q v ha hv
    subst ha
    have := ih [q] (by simp [visitList, hv, bind, Except.bind, pure, Except.pure])
    cases this with
    | cons h _ => exact h
  have two : ∀ {a : Expr} {b : Str} {q : RExpr} {v : Bool}, args = [a, .strLit b] → visitExpr I L a = .ok (q, v) →
      Out I.escaper (strength a) (exprText I T a) q := by
    intro a b q v ha hv
    subst ha
    have := ih [q, .lit .str b] (by simp [visitList, visitExpr, hv, bind, Except.bind, pure, Except.pure])
    cases this with
    | cons h _ => exact h
  have wide : ∀ {s : Str} {q : RExpr}, OutS I.escaper anyText s q → Out I.escaper 10 s q := fun h =>
    h.out (fun _ _ => rfl) (by omega)
  unfold visitExpr at h
  unfold exprText
  by_cases n1 : name = c!"as_ref"
  · simp only [if_pos n1] at h ⊢
    split at h
    · rename_i a
      obtain ⟨⟨q, v⟩, h1, h⟩ := except_bind h
      simp only [pure, Except.pure, Except.ok.injEq, Prod.mk.injEq] at h
      obtain ⟨rfl, rfl⟩ := h
      simp only [decide_eq_true_eq] at hst
      obtain ⟨t, t1, t2, t3⟩ := (one rfl h1).amp hst
      refine ⟨.borrow t, by simpa using t1, t2, by simp [Tree.level], fun _ => ?_, .asRef t3⟩
      simp only [Tree.toks]
      exact ⟨_, _, _, _, rfl, rfl, rfl, rfl, rfl⟩
    · cases h
  simp only [if_neg n1] at h ⊢
  by_cases n2 : name = c!"deref"
  · simp only [if_pos n2] at h ⊢
    split at h
    · rename_i a
      obtain ⟨⟨q, v⟩, h1, h⟩ := except_bind h
      simp only [pure, Except.pure, Except.ok.injEq, Prod.mk.injEq] at h
      obtain ⟨rfl, rfl⟩ := h
      simp only [decide_eq_true_eq] at hst
      exact (one rfl h1).prefix (by simp) hst (fun t ht => .deref ht) (by omega)
    · cases h
  simp only [if_neg n2] at h ⊢
  by_cases n3 : name = c!"escape" ∨ name = c!"e"
  · simp only [if_pos n3] at h ⊢
    split at h
    · cases h
    · obtain ⟨⟨q, v⟩, h1, h⟩ := except_bind h
      simp only [pure, Except.pure, Except.ok.injEq, Prod.mk.injEq] at h
      obtain ⟨rfl, rfl⟩ := h
      exact wide (esc_out (by decide) (by decide) hE.own (one rfl h1) fun p t hp ht => .escape hp ht)
    · split at h
      · rename_i x hx
        obtain ⟨⟨q, v⟩, h1, h⟩ := except_bind h
        simp only [pure, Except.pure, Except.ok.injEq, Prod.mk.injEq] at h
        obtain ⟨rfl, rfl⟩ := h
        simp only [hx]
        exact wide (esc_out (by decide) (by decide) (hE.find hx) (two rfl h1) fun p t hp ht => .escape hp ht)
      · cases h
    · cases h
  simp only [if_neg n3] at h ⊢
  by_cases n4 : name = c!"fmt"
  · simp only [if_pos n4] at h ⊢
    split at h
    · obtain ⟨⟨q, v⟩, h1, h⟩ := except_bind h
      simp only [pure, Except.pure, Except.ok.injEq, Prod.mk.injEq] at h
      obtain ⟨rfl, rfl⟩ := h
      simp only [shapedAll, shaped, Bool.and_eq_true] at hsa
      have hm := more_out (.cons (two rfl h1) .nil)
      obtain ⟨ts, t1, t2, t3⟩ := hm
      simp only [moreText, List.append_nil] at t1
      exact wide (format_out hsa.2.1 t1 (fun u _ => rfl) t2 t3)
    · cases h
  simp only [if_neg n4] at h ⊢
  by_cases n5 : name = c!"format"
  · simp only [if_pos n5] at h ⊢
    split at h
    · rename_i f rest
      obtain ⟨rs, h1, h⟩ := except_bind h
      simp only [pure, Except.pure, Except.ok.injEq, Prod.mk.injEq] at h
      obtain ⟨rfl, rfl⟩ := h
      simp only [shapedAll, shaped, Bool.and_eq_true] at hsa
      have := ih (.lit .str f :: rs) (by simp [visitList, visitExpr, h1, bind, Except.bind, pure, Except.pure])
      cases this with
      | cons _ hr =>
        obtain ⟨ts, t1, t2, t3⟩ := more_out hr
        exact wide (format_out hsa.1 t1 (fun u hu => folA_more hu rest) t2 t3)
    · cases h
  simp only [if_neg n5] at h ⊢
  by_cases n6 : name = c!"join"
  · simp only [if_pos n6] at h ⊢
    obtain ⟨rs, h1, h⟩ := except_bind h
    simp only [pure, Except.pure, Except.ok.injEq, Prod.mk.injEq] at h
    obtain ⟨rfl, rfl⟩ := h
    have hr := ih rs h1
    have hj := hj n6
    cases hr with
    | nil => cases hst
    | @cons a rest q qs ha hrest =>
      simp only [decide_eq_true_eq] at hst
      obtain ⟨t, t1, t2, t3⟩ := ha.amp hst
      obtain ⟨ts, u1, u2, u3⟩ := join_out hrest fun e he => hj e (by simp [he])
      exact wide (joinCall_out t1 t2 t3 u1 u2 u3)
  simp only [if_neg n6] at h ⊢
  by_cases n7 : name = c!"json" ∨ name = c!"tojson"
  · simp only [if_pos n7] at h ⊢
    split at h
    · split at h
      · obtain ⟨⟨q, v⟩, h1, h⟩ := except_bind h
        simp only [pure, Except.pure, Except.ok.injEq, Prod.mk.injEq] at h
        obtain ⟨rfl, rfl⟩ := h
        obtain ⟨ts, t1, t2, t3⟩ := args_out (.cons (one rfl h1) .nil)
        simp only [argsText, moreText, List.append_nil] at t1
        have := OutS.callTry (esc := I.escaper) (p := [[], c!"askama", c!"filters", c!"json"]) (by decide) (by decide) t1 t2
          (.builtIn c!"json" t3)
        exact wide (by simpa only [joinPath, List.append_assoc, List.cons_append, List.nil_append] using this)
      · cases h
    · cases h
  simp only [if_neg n7] at h ⊢
  by_cases n8 : name = c!"safe"
  · simp only [if_pos n8] at h ⊢
    split at h
    · obtain ⟨⟨q, v⟩, h1, h⟩ := except_bind h
      simp only [pure, Except.pure, Except.ok.injEq, Prod.mk.injEq] at h
      obtain ⟨rfl, rfl⟩ := h
      exact wide (esc_out (by decide) (by decide) hE.own (one rfl h1) fun p t hp ht => .safe hp ht)
    · cases h
  simp only [if_neg n8] at h ⊢
  obtain ⟨rs, h1, h⟩ := except_bind h
  simp only [pure, Except.pure, Except.ok.injEq, Prod.mk.injEq] at h
  obtain ⟨rfl, rfl⟩ := h
  obtain ⟨ts, t1, t2, t3⟩ := args_out (ih rs h1)
  have hne : name ≠ [] := by
    rintro rfl
    cases hn
  cases hb : builtInFilters.contains name with
  | true =>
    have := OutS.callTry (esc := I.escaper) (p := [[], c!"askama", c!"filters", name])
      (by simp only [pathNames, List.all_cons, hn]; rfl) (by simp only [List.all_cons, hseg]; rfl) t1 t2 (.builtIn name t3)
    exact wide (by simpa only [if_true, joinPath, List.append_assoc, List.cons_append, List.nil_append] using this)
  | false =>
    have := OutS.callTry (esc := I.escaper) (p := [c!"filters", name])
      (by simp only [pathNames, List.all_cons, hn]; rfl) (by simp only [List.all_cons, hseg]; rfl) t1 t2 (.filter name t3)
    exact wide (by simpa only [Bool.false_eq_true, if_false, joinPath, List.append_assoc, List.cons_append, List.nil_append] using this)

mutual
/-- The text of an expression is that of the modelled expression. -/
theorem expr_out (hE : EscOk I) (hv : VarsOk I.escaper T L) : (e : Expr) → {r : RExpr} → {w : Bool} → shaped e = true →
    ordinary e → visitExpr I L e = .ok (r, w) → Good I.escaper e (exprText I T e) r
  | .boolLit s, r, w, hs, ho, h => by
    simp only [visitExpr, Except.ok.injEq, Prod.mk.injEq] at h
    obtain ⟨rfl, rfl⟩ := h
    simp only [exprText]
    simp only [shaped, Bool.or_eq_true, beq_iff_eq] at hs
    refine .ofP (OutS.name (.inl ?_) ?_ (.bool s)) (by simp [strength])
    · rcases hs with rfl | rfl <;> decide
    · rcases hs with rfl | rfl <;> decide
  | .numLit s, r, w, hs, ho, h => by
    simp only [visitExpr, Except.ok.injEq, Prod.mk.injEq] at h
    obtain ⟨rfl, rfl⟩ := h
    simp only [exprText]
    simp only [shaped] at hs
    exact .of (OutS.prim (t := .lit (.num s)) (by simp only [Tree.toks]; exact lx_num hs) (by simp only [Tree.Wf]; rfl)
      (by simp [Tree.level]) (num_opens hs) (.num s)) (fun _ h => h) (by simp [strength])
  | .strLit s, r, w, hs, ho, h => by
    simp only [visitExpr, Except.ok.injEq, Prod.mk.injEq] at h
    obtain ⟨rfl, rfl⟩ := h
    simp only [exprText]
    simp only [shaped] at hs
    refine .ofP (OutS.prim (t := .lit (.str s)) (by simp only [Tree.toks]; exact lx_str hs) (by simp only [Tree.Wf]; rfl)
      (by simp [Tree.level]) ?_ (.str s)) (by simp [strength])
    simp only [Tree.toks]
    exact ⟨_, _, _, _, rfl, rfl, rfl, rfl, rfl⟩
  | .charLit s, r, w, hs, ho, h => by
    simp only [visitExpr, Except.ok.injEq, Prod.mk.injEq] at h
    obtain ⟨rfl, rfl⟩ := h
    simp only [exprText]
    simp only [shaped] at hs
    refine .ofP (OutS.prim (t := .lit (.chr s)) (by simp only [Tree.toks]; exact lx_chr hs) (by simp only [Tree.Wf]; rfl)
      (by simp [Tree.level]) ?_ (.char s)) (by simp [strength])
    simp only [Tree.toks]
    exact ⟨_, _, _, _, rfl, rfl, rfl, rfl, rfl⟩
  | .var x, r, w, hs, ho, h => by
    simp only [visitExpr, Except.ok.injEq, Prod.mk.injEq] at h
    obtain ⟨rfl, rfl⟩ := h
    simp only [exprText]
    simp only [ordinary] at ho
    exact .ofP (var_out hv ho).1 (by simp [strength])
  | .path p, r, w, hs, ho, h => by
    simp only [visitExpr, Except.ok.injEq, Prod.mk.injEq] at h
    obtain ⟨rfl, rfl⟩ := h
    simp only [exprText, pathText_join]
    simp only [shaped] at hs
    simp only [ordinary] at ho
    exact .ofP (OutS.path hs ho (.path p)) (by simp [strength])
  | .rustMacro p a, r, w, hs, ho, h => by
    simp only [visitExpr, Except.ok.injEq, Prod.mk.injEq] at h
    obtain ⟨rfl, rfl⟩ := h
    simp only [exprText, pathText_join]
    simp only [shaped] at hs
    simp only [ordinary] at ho
    obtain ⟨ho, ts, h1, h2, h3⟩ := ho
    refine .ofAny (OutS.mac hs ho (body := ts) (fun rest _ us hu => ?_) h2 (.rustMacro p h1)) (by simp [strength])
    have := h3 rest us hu
    simpa only [List.append_assoc, List.cons_append, List.nil_append] using this
  | .generated s, r, w, hs, ho, h => by
    simp only [visitExpr, Except.ok.injEq, Prod.mk.injEq] at h
    obtain ⟨rfl, rfl⟩ := h
    simp only [exprText]
    simp only [shaped] at hs
    simp only [ordinary] at ho
    exact .ofP (OutS.name (.inl hs) (nameOk_seg ho) (.local_ s)) (by simp [strength])
  | .array es, r, w, hs, ho, h => by
    simp only [visitExpr] at h
    obtain ⟨rs, h1, h⟩ := except_bind h
    simp only [pure, Except.pure, Except.ok.injEq, Prod.mk.injEq] at h
    obtain ⟨rfl, rfl⟩ := h
    simp only [shaped] at hs
    simp only [ordinary] at ho
    obtain ⟨ts, t1, t2, t3⟩ := sep_out (exprs_out hE hv es hs ho h1)
    simp only [exprText]
    refine .ofAny (OutS.prim (t := .array ts) (by simp only [Tree.toks]; exact lx_in (.inr ⟨rfl, rfl⟩) t1)
      (by simpa only [Tree.Wf] using t2) (by simp [Tree.level]) ?_ (.array t3)) (by simp [strength])
    simp only [Tree.toks]
    exact ⟨_, _, _, _, rfl, rfl, rfl, rfl, rfl⟩
  | .tuple es, r, w, hs, ho, h => by
    simp only [visitExpr] at h
    obtain ⟨rs, h1, h⟩ := except_bind h
    simp only [pure, Except.pure, Except.ok.injEq, Prod.mk.injEq] at h
    obtain ⟨rfl, rfl⟩ := h
    simp only [shaped] at hs
    simp only [ordinary] at ho
    obtain ⟨ts, t1, t2, t3⟩ := tuple_out (exprs_out hE hv es hs ho h1)
    simp only [exprText]
    refine .ofAny (OutS.prim (t := .tuple ts) (by simp only [Tree.toks]; exact lx_in (.inl ⟨rfl, rfl⟩) t1.of_any)
      (by simpa only [Tree.Wf] using t2) (by simp [Tree.level]) ?_ (.tuple t3)) (by simp [strength])
    simp only [Tree.toks]
    exact ⟨_, _, _, _, rfl, rfl, rfl, rfl, rfl⟩
  | .attr e a, r, w, hs, ho, h => by
    simp only [shaped, Bool.and_eq_true, decide_eq_true_eq] at hs
    obtain ⟨⟨hk, hse⟩, hsa⟩ := hs
    by_cases hx : ∃ x, e = .var x
    · obtain ⟨x, rfl⟩ := hx
      simp only [visitExpr] at h
      simp only [exprText]
      simp only [ordinary] at ho
      by_cases hl : x = c!"loop"
      · simp only [if_pos hl] at h ⊢
        repeat' split at h
        all_goals first
          | (cases h; done)
          | skip
        all_goals
          simp only [Except.ok.injEq, Prod.mk.injEq] at h
          obtain ⟨rfl, rfl⟩ := h
        · rename_i ha
          simp only [ha, if_true]
          exact .ofAny loop_index_out (by simp [strength])
        · rename_i ha
          simp only [ha]
          exact .ofP (loop_field_out (f := c!"index") (by decide) (by decide) .loopIndex0) (by simp [strength])
        · rename_i ha
          simp only [ha]
          exact .ofP (loop_field_out (f := c!"first") (by decide) (by decide) .loopFirst) (by simp [strength])
        · rename_i ha
          simp only [ha]
          exact .ofP (loop_field_out (f := c!"last") (by decide) (by decide) .loopLast) (by simp [strength])
      · simp only [if_neg hl, Except.ok.injEq, Prod.mk.injEq] at h ⊢
        obtain ⟨rfl, rfl⟩ := h
        obtain ⟨h1, h2⟩ := ho.resolve_left hl
        exact .ofP (varAttr_out hv h1 h2) (by simp [strength])
    · have hx' : ∀ x, e ≠ .var x := fun x he => hx ⟨x, he⟩
      rw [visitExpr_attr I L e a hx'] at h
      rw [exprText_attr e a hx']
      obtain ⟨⟨r1, w1⟩, h1, h⟩ := except_bind h
      simp only [pure, Except.pure, Except.ok.injEq, Prod.mk.injEq] at h
      obtain ⟨rfl, rfl⟩ := h
      by_cases hnum : ∃ s, e = .numLit s
      · obtain ⟨s, rfl⟩ := hnum
        simp only [ordinary] at ho
        have ih := expr_out hE hv (.numLit s) hse (by simp only [ordinary]) h1
        exact .ofP ((ih.1 hk).fieldName (fun _ h => h) (plainName_word ho) (plainName_ok ho) fun c hc => .attr _ hc)
          (by simp [strength])
      · rw [ordinary_attr e a hx' fun s he => hnum ⟨s, he⟩] at ho
        have ih := expr_out hE hv e hse ho.1 h1
        refine .ofP (OutS.attr ((ih.1 hk).mono fun u hu => ?_) ho.2) (by simp [strength])
        unfold folS
        split
        · exact absurd ⟨_, rfl⟩ hnum
        · exact hu
  | .index a b, r, w, hs, ho, h => by
    simp only [visitExpr] at h
    obtain ⟨⟨r1, w1⟩, h1, h⟩ := except_bind h
    obtain ⟨⟨r2, w2⟩, h2, h⟩ := except_bind h
    simp only [pure, Except.pure, Except.ok.injEq, Prod.mk.injEq] at h
    obtain ⟨rfl, rfl⟩ := h
    simp only [shaped, Bool.and_eq_true, decide_eq_true_eq] at hs
    simp only [ordinary] at ho
    have ha := expr_out hE hv a hs.1.2 ho.1 h1
    have hb := expr_out hE hv b hs.2 ho.2 h2
    simp only [exprText]
    exact .ofAny (index_out (ha.1 hs.1.1) (fun u => folS_of_W rfl) hb.2) (by simp [strength])
  | .binop op a b, r, w, hs, ho, h => by
    simp only [visitExpr] at h
    obtain ⟨⟨r1, w1⟩, h1, h⟩ := except_bind h
    obtain ⟨⟨r2, w2⟩, h2, h⟩ := except_bind h
    simp only [pure, Except.pure, Except.ok.injEq, Prod.mk.injEq] at h
    obtain ⟨rfl, rfl⟩ := h
    simp only [shaped, Bool.and_eq_true] at hs
    simp only [ordinary] at ho
    obtain ⟨⟨hb1, hsa⟩, hsb⟩ := hs
    obtain ⟨hc, hoa, hob⟩ := ho
    have ha := expr_out hE hv a hsa hoa h1
    have hb := expr_out hE hv b hsb hob h2
    simp only [exprText]
    split at hb1
    · rename_i o hop
      simp only [Bool.and_eq_true, decide_eq_true_eq] at hb1
      have hsym := binOpOf_sym hop
      refine ⟨fun hk => ?_, ?_⟩
      · simp only [strength, hop] at hk
        have : o.prec ≤ 8 := by cases o <;> simp [BinOp.prec]
        omega
      · simp only [strength, hop]
        subst hsym
        exact binop_out hb1.1 hb1.2 (fun he => hc (by simp [hop, he])) ha.2 hb.2
    · cases hb1
  | .range op a b, r, w, hs, ho, h => by
    simp only [visitExpr] at h
    obtain ⟨r1, h1, h⟩ := except_bind h
    obtain ⟨r2, h2, h⟩ := except_bind h
    simp only [pure, Except.pure, Except.ok.injEq, Prod.mk.injEq] at h
    obtain ⟨rfl, rfl⟩ := h
    simp only [shaped, Bool.and_eq_true, Bool.or_eq_true, beq_iff_eq] at hs
    simp only [ordinary] at ho
    have ha := opt_out hE hv a hs.1.2 ho.1 h1
    have hb := opt_out hE hv b hs.2 ho.2 h2
    simp only [exprText]
    exact ⟨fun hk => absurd hk (by simp [strength]), range_out hs.1.1 ha hb⟩
  | .unary op e, r, w, hs, ho, h => by
    simp only [visitExpr] at h
    obtain ⟨⟨r1, w1⟩, h1, h⟩ := except_bind h
    simp only [pure, Except.pure, Except.ok.injEq, Prod.mk.injEq] at h
    obtain ⟨rfl, rfl⟩ := h
    simp only [shaped, Bool.and_eq_true, Bool.or_eq_true, beq_iff_eq, decide_eq_true_eq] at hs
    simp only [ordinary] at ho
    have ih := expr_out hE hv e hs.2 ho h1
    simp only [exprText]
    refine ⟨fun hk => absurd hk (by simp [strength]), ih.2.prefix (by rcases hs.1.1 with h | h <;> simp [h])
      (by omega) (fun t ht => ?_) (by simp [strength])⟩
    rcases hs.1.1 with rfl | rfl
    · exact .unary .not ht
    · exact .unary .neg ht
  | .group e, r, w, hs, ho, h => by
    simp only [visitExpr] at h
    obtain ⟨⟨r1, w1⟩, h1, h⟩ := except_bind h
    simp only [pure, Except.pure, Except.ok.injEq, Prod.mk.injEq] at h
    obtain ⟨rfl, rfl⟩ := h
    simp only [shaped] at hs
    simp only [ordinary] at ho
    obtain ⟨t, t1, t2, t3⟩ := (expr_out hE hv e hs ho h1).2.folA
    simp only [exprText]
    refine .ofAny (OutS.prim (t := .paren t) (by simp only [Tree.toks]; exact lx_in (.inl ⟨rfl, rfl⟩) t1)
      (by simpa only [Tree.Wf] using t2) (by simp [Tree.level]) ?_ (.group t3)) (by simp [strength])
    simp only [Tree.toks]
    exact ⟨_, _, _, _, rfl, rfl, rfl, rfl, rfl⟩
  | .namedArg n e, r, w, hs, ho, h => by
    simp only [visitExpr] at h
    obtain ⟨⟨r1, w1⟩, h1, h⟩ := except_bind h
    simp only [pure, Except.pure, Except.ok.injEq, Prod.mk.injEq] at h
    obtain ⟨rfl, rfl⟩ := h
    simp only [shaped] at hs
    simp only [ordinary] at ho
    obtain ⟨t, t1, t2, t3⟩ := (expr_out hE hv e hs ho h1).2.folA
    simp only [exprText]
    exact ⟨fun hk => absurd hk (by simp [strength]), t, by simpa [strength] using t1, t2, by simp [strength],
      fun hk => absurd hk (by simp [strength]), t3⟩
  | .try_ e, r, w, hs, ho, h => by
    simp only [visitExpr] at h
    obtain ⟨⟨r1, w1⟩, h1, h⟩ := except_bind h
    simp only [pure, Except.pure, Except.ok.injEq, Prod.mk.injEq] at h
    obtain ⟨rfl, rfl⟩ := h
    simp only [shaped, Bool.and_eq_true] at hs
    simp only [ordinary] at ho
    simp only [exprText]
    exact .ofAny (try_out (expr_out hE hv e hs.2 ho h1).2) (by simp [strength])
  | .filter name args, r, w, hs, ho, h => by
    have hs' := hs
    have ho' := ho
    simp only [shaped, Bool.and_eq_true] at hs
    simp only [ordinary] at ho
    have ih : ∀ rs, visitList I L args = .ok rs → Outs I.escaper I T args rs := fun rs hr =>
      exprs_out hE hv args hs.1.2 ho.2.1 hr
    exact ⟨fun hk => absurd hk (by simp [strength]), filter_out hE hs' ho' h ih⟩
  | .call f args, r, w, hs, ho, h => by
    simp only [shaped, Bool.and_eq_true, decide_eq_true_eq] at hs
    obtain ⟨⟨hk, hsf⟩, hsa⟩ := hs
    have iha : ∀ rs, ordinaryAll args → visitList I L args = .ok rs → Outs I.escaper I T args rs := fun rs hr =>
      exprs_out hE hv args hsa hr
    by_cases hx : ∃ x, f = .var x
    · obtain ⟨x, rfl⟩ := hx
      simp only [ordinary] at ho
      simp only [visitExpr] at h
      obtain ⟨rs, h1, h⟩ := except_bind h
      simp only [pure, Except.pure, Except.ok.injEq, Prod.mk.injEq] at h
      obtain ⟨rfl, rfl⟩ := h
      obtain ⟨ts, t1, t2, t3⟩ := args_out (iha rs ho.2 h1)
      simp only [exprText]
      have := (callee_out hv ho.1).call (fun u => rfl) t1 t2 (r' := .call _ rs) fun c hc => .call hc t3
      refine .ofAny ?_ (by simp [strength])
      simpa only [List.append_assoc] using this
    · by_cases hxa : ∃ x a, f = .attr (.var x) a
      · obtain ⟨x, m, rfl⟩ := hxa
        simp only [ordinary] at ho
        unfold visitExpr at h
        unfold exprText
        by_cases hl : x = c!"loop"
        · simp only [if_pos hl] at h ⊢
          split at h
          · split at h
            · split at h
              · cases h
              · obtain ⟨⟨r1, w1⟩, h1, h⟩ := except_bind h
                simp only [pure, Except.pure, Except.ok.injEq, Prod.mk.injEq] at h
                obtain ⟨rfl, rfl⟩ := h
                have := iha [r1] ho.2 (by simp [visitList, h1, bind, Except.bind, pure, Except.pure])
                cases this with
                | cons h _ => exact .ofAny (cycle_out h) (by simp [strength])
            · cases h
          · cases h
        · simp only [if_neg hl] at h ⊢
          obtain ⟨rs, h1, h⟩ := except_bind h
          simp only [pure, Except.pure, Except.ok.injEq, Prod.mk.injEq] at h
          obtain ⟨rfl, rfl⟩ := h
          obtain ⟨k1, k2⟩ := ho.1.resolve_left hl
          obtain ⟨ts, t1, t2, t3⟩ := args_out (iha rs ho.2 h1)
          have := (varAttr_out hv k1 k2).call (fun u => rfl) t1 t2 (r' := .call _ rs) fun c hc => .call hc t3
          refine .ofAny ?_ (by simp [strength])
          simpa only [List.append_assoc] using this
      · have hx' : ∀ x, f ≠ .var x := fun x he => hx ⟨x, he⟩
        have hxa' : ∀ x a, f ≠ .attr (.var x) a := fun x a he => hxa ⟨x, a, he⟩
        rw [visitExpr_call I L f args hx' hxa'] at h
        rw [exprText_call f args hx' hxa']
        rw [ordinary_call f args hx' hxa'] at ho
        obtain ⟨⟨r1, w1⟩, h1, h⟩ := except_bind h
        obtain ⟨rs, h2, h⟩ := except_bind h
        simp only [pure, Except.pure, Except.ok.injEq, Prod.mk.injEq] at h
        obtain ⟨rfl, rfl⟩ := h
        have ih := expr_out hE hv f hsf ho.1 h1
        obtain ⟨ts, t1, t2, t3⟩ := args_out (iha rs ho.2 h2)
        have := (ih.1 hk).call (fun u => folS_of_W rfl) t1 t2 (r' := .call _ rs) fun c hc => .call hc t3
        refine .ofAny ?_ (by simp [strength])
        simpa only [List.append_assoc] using this
/-- ... of a list. -/
theorem exprs_out (hE : EscOk I) (hv : VarsOk I.escaper T L) : (es : List Expr) → {rs : List RExpr} →
    shapedAll es = true → ordinaryAll es → visitList I L es = .ok rs → Outs I.escaper I T es rs
  | [], rs, _, _, h => by
    simp only [visitList, Except.ok.injEq] at h
    subst h
    exact .nil
  | e :: es, rs, hs, ho, h => by
    simp only [visitList] at h
    obtain ⟨⟨r1, w1⟩, h1, h⟩ := except_bind h
    obtain ⟨r2, h2, h⟩ := except_bind h
    simp only [pure, Except.pure, Except.ok.injEq] at h
    subst h
    simp only [shapedAll, Bool.and_eq_true] at hs
    simp only [ordinaryAll] at ho
    exact .cons (expr_out hE hv e hs.1 ho.1 h1).2 (exprs_out hE hv es hs.2 ho.2 h2)
/-- ... of an end of a range. -/
theorem opt_out (hE : EscOk I) (hv : VarsOk I.escaper T L) : (o : Option Expr) → {r : Option RExpr} →
    shapedOpt o = true → ordinaryOpt o → visitOpt I L o = .ok r → OutO I.escaper I T o r
  | none, r, _, _, h => by
    simp only [visitOpt, Except.ok.injEq] at h
    subst h
    exact .none
  | some e, r, hs, ho, h => by
    simp only [visitOpt] at h
    obtain ⟨⟨r1, w1⟩, h1, h⟩ := except_bind h
    simp only [pure, Except.pure, Except.ok.injEq] at h
    subst h
    simp only [shapedOpt, Bool.and_eq_true, decide_eq_true_eq] at hs
    simp only [ordinaryOpt] at ho
    exact .some (expr_out hE hv e hs.2 ho h1).2 hs.1
end

/-! ## Scopes -/

theorem passable_normal (hv : VarsOk I.escaper T L) {e : Expr} {r : RExpr} {w : Bool} (hp : passable e = true)
    (ho : ordinary e) (h : visitExpr I L e = .ok (r, w)) : normalizeIdentifier (exprText I T e) = exprText I T e := by
  cases e with
  | var x =>
    simp only [passable, bne_iff_ne, ne_eq] at hp
    simp only [ordinary] at ho
    simp only [exprText]
    exact (var_out hv ho).2 hp
  | attr e a =>
    apply normal_dot
    by_cases hx : ∃ x, e = .var x
    · obtain ⟨x, rfl⟩ := hx
      simp only [visitExpr] at h
      simp only [exprText]
      by_cases hl : x = c!"loop"
      · simp only [if_pos hl] at h ⊢
        repeat' split at h
        all_goals first
          | (cases h; done)
          | simp_all
      · simp [if_neg hl]
    · rw [exprText_attr e a fun x he => hx ⟨x, he⟩]
      simp
  | _ => cases hp

mutual
theorem Agree.vars (hE : EscOk I) : {T : TextLocals} → {L : Locals} → Agree I T L → VarsOk I.escaper T L
  | _, _, .mk h => fun n => AgreeAt.atOk hE (h n)
theorem AgreeAt.atOk (hE : EscOk I) : {o : Option (Option Str)} → {m : Option LocalMeta} → AgreeAt I o m →
    AtOk I.escaper o m
  | _, _, .unknown => trivial
  | _, _, .variable i => rfl
  | _, _, .stands i hA hp hs ho hv => by
    have ih := Agree.vars hE hA
    have hk : ∀ e, passable e = true → 12 ≤ strength e ∧ folS e = folP := by
      intro e he
      cases e <;> first
        | (cases he; done)
        | exact ⟨by simp [strength], rfl⟩
    have hg := (expr_out hE ih _ hs ho hv).1 (hk _ hp).1
    rw [(hk _ hp).2] at hg
    exact ⟨_, rfl, hg, passable_normal ih hp ho hv⟩
end

/-- The text of an expression is read as the modelled expression. -/
theorem text_reads (hE : EscOk I) (hA : Agree I T L) {e : Expr} {r : RExpr} {w : Bool} (hs : shaped e = true)
    (ho : ordinary e) (h : visitExpr I L e = .ok (r, w)) :
    ∃ t, ReadsAs (exprText I T e) t ∧ Spells I.escaper t r := by
  obtain ⟨t, h1, h2, h3⟩ := (expr_out hE (Agree.vars hE hA) e hs ho h).2.folA
  refine ⟨t, ⟨t.toks, h1.lex rfl, ?_⟩, h3⟩
  have := Tree.read (rest := []) h2 endE_nil
  simp only [List.append_nil] at this
  exact this

end Askama.Spec
