import Verif.Lemmas.TextRead
import Verif.Lemmas.PatRead

/-! The text of statements is read as the modelled statements: the parts of statements. -/

namespace Askama.Spec

open Askama

variable {I : GenInput} {plain : Char → Bool} {X : Use → Prop}

/-! ## Expressions -/

/-- The text of an expression of a template. -/
theorem _root_.Askama.Written.good (hE : EscOk I) {e : Expr} {r : RExpr} {w : Bool} {s : Str} (h : Written I e r w s) (hf : Fine e) :
    Good I.escaper e s r := by
  obtain ⟨T, L, hA, hv, rfl⟩ := h
  exact expr_out hE (Agree.vars hE hA) e hf.1 hf.2 hv

theorem _root_.Askama.Written.folA (hE : EscOk I) {e : Expr} {r : RExpr} {w : Bool} {s : Str} (h : Written I e r w s) (hf : Fine e) :
    ∃ t, LexTo folA s t.toks ∧ t.Wf ∧ Spells I.escaper t r := (h.good hE hf).2.folA

theorem _root_.Askama.Written.amp (hE : EscOk I) {e : Expr} {r : RExpr} {w : Bool} {s : Str} (h : Written I e r w s) (hf : Fine e)
    (hk : 10 ≤ strength e) :
    ∃ t, LexTo folR (c!"&" ++ s) (Tree.borrow t).toks ∧ (Tree.borrow t).Wf ∧ Spells I.escaper t r :=
  (h.good hE hf).2.amp hk

/-- Only filters give text that is already wrapped. -/
theorem wrapped_strength {L : Locals} {e : Expr} {r : RExpr} (h : visitExpr I L e = .ok (r, true)) : 10 ≤ strength e := by
  cases e with
  | filter n args => simp [strength]
  | var s => simp [visitExpr] at h
  | attr e a => simp [strength]
  | call f args => simp [strength]
  | range op a b =>
    simp only [visitExpr] at h
    obtain ⟨_, _, h⟩ := except_bind h
    obtain ⟨_, _, h⟩ := except_bind h
    simp [pure, Except.pure] at h
  | namedArg n e =>
    simp only [visitExpr] at h
    obtain ⟨⟨_, _⟩, _, h⟩ := except_bind h
    simp [pure, Except.pure] at h
  | binop op a b =>
    simp only [visitExpr] at h
    obtain ⟨⟨_, _⟩, _, h⟩ := except_bind h
    obtain ⟨⟨_, _⟩, _, h⟩ := except_bind h
    simp [pure, Except.pure] at h
  | _ => simp [strength]

/-! ## Names -/

theorem digits_cont (n : Nat) : (Nat.toDigits 10 n).all wordCont = true := by
  rw [List.all_eq_true]
  intro c hc
  have := Nat.isDigit_of_mem_toDigits (by decide) (by decide) hc
  simp only [Char.isDigit, Bool.and_eq_true, decide_eq_true_eq] at this
  apply isDec_cont
  simp only [isDec, Bool.and_eq_true, decide_eq_true_eq]
  exact this

theorem argName_isName (id : Nat) : isName (argName id) = true := by
  unfold isName argName
  simp only [List.cons_append, List.nil_append, List.all_cons, digits_cont, headIs]
  decide

theorem filterVar_isName (id : Nat) : isName (Gen.filterVar id) = true := by
  unfold isName Gen.filterVar
  simp only [List.cons_append, List.nil_append, List.all_cons, digits_cont, headIs]
  decide

theorem filterVar_seg (id : Nat) : segOk (Gen.filterVar id) = true ∧ Gen.filterVar id ≠ c!"_" := by
  constructor
  · simp only [segOk, Bool.not_eq_true', List.contains_eq_mem, decide_eq_false_iff_not]
    intro h
    have : ∀ y ∈ reserved, y.head? ≠ some '_' := by decide
    exact this _ h rfl
  · simp [Gen.filterVar]

/-! ## Expressions at the beginning -/

/-- An operand that is no tree of the usual form. -/
theorem read_primary {ts rest : List Tok} {u : Tree} (hp : headTok plainTok ts = true) (hs : headTok startTok ts = true)
    (h : Ev (fun n => rPrimary n ts) (u, rest)) (hr : EndB rest) : Ev (fun n => rExpr n ts) (u, rest) := by
  have h1 : Ev (fun n => rUnary n ts) (u, rest) :=
    Ev.step (Ev.bind h (rPost_stop hr.tight)) fun n => rUnary_plain hp n
  have h2 : ∀ j, j ≤ 9 → Ev (fun n => rBin n (9 - j) ts) (u, rest) := by
    intro j
    induction j with
    | zero => exact fun _ => h1.step fun n => by simp only [rBin]; rfl
    | succ j ih =>
      intro hj
      refine Ev.step (g := fun n => (rBin n (9 - j) ts).bind fun x => rBinLoop n (9 - (j + 1)) x.1 x.2)
        (Ev.bind (ih (by omega)) (rBinLoop_stop fun o r e => by rw [hr.noBin] at e; cases e)) fun n => ?_
      conv => lhs; unfold rBin
      rw [if_pos (by omega)]
      have : 9 - (j + 1) + 1 = 9 - j := by omega
      rw [this]
      rfl
  refine Ev.step (Ev.bind (h2 9 (by omega)) ?_) fun n => rExpr_start hs n
  refine (Ev.const _).congr fun n => ?_
  simp only [hr.noRange]

/-! ## Arguments of format macros -/

/-- The tokens of named arguments. -/
def namedToks : List (Str × Tree) → List Tok
  | [] => []
  | x :: xs => .word x.1 :: .op c!"=" :: (x.2.toks ++ .op c!"," :: namedToks xs)

theorem read_named : (xs : List (Str × Tree)) → (∀ x ∈ xs, x.2.Wf) →
    Ev (fun n => rNamed n (namedToks xs)) (xs.map fun x => (some x.1, x.2))
  | [], _ => Ev.step (g := fun _ => some []) (Ev.const _) fun n => by simp only [namedToks, rNamed]
  | x :: xs, h => by
    refine Ev.step (g := fun n => (rExpr n (x.2.toks ++ .op c!"," :: namedToks xs)).bind fun y =>
      match y.2 with
      | [] => some [(some x.1, y.1)]
      | .op [','] :: r => (rNamed n r).map ((some x.1, y.1) :: ·)
      | _ => none) (Ev.bind ((x.2.core (h x (by simp))).expr (h x (by simp)) (endE_comma _)) ?_) fun n => ?_
    · have ih := read_named xs fun y hy => h y (by simp [hy])
      obtain ⟨N, ih⟩ := ih
      exact ⟨N, fun n hn => by simp only [ih n hn, Option.map_some, List.map_cons]⟩
    · simp only [namedToks]
      conv => lhs; unfold rNamed
      rfl

theorem shut_named : (xs : List (Str × Tree)) → (∀ x ∈ xs, x.2.Wf) → Shut (namedToks xs)
  | [], _ => Shut.nil
  | x :: xs, h => Shut.cons rfl (Shut.cons rfl ((x.2.shut (h x (by simp))).app
      (Shut.cons rfl (shut_named xs fun y hy => h y (by simp [hy])))))

/-- An argument before the named ones. -/
theorem read_first {t : Tree} (hw : t.Wf) (hn : ∀ x r, t.toks ++ .op c!"," :: rest ≠ .word x :: .op c!"=" :: r)
    (h0 : t.toks ≠ []) {xs : List (Option Str × Tree)} (h : Ev (fun n => rNamed n rest) xs) :
    Ev (fun n => rNamed n (t.toks ++ .op c!"," :: rest)) ((none, t) :: xs) := by
  refine Ev.step (g := fun n => (rExpr n (t.toks ++ .op c!"," :: rest)).bind fun y =>
      match y.2 with
      | [] => some [(none, y.1)]
      | .op [','] :: r => (rNamed n r).map ((none, y.1) :: ·)
      | _ => none) (Ev.bind ((t.core hw).expr hw (endE_comma _)) ?_) fun n => ?_
  · obtain ⟨N, h⟩ := h
    exact ⟨N, fun n hn => by simp only [h n hn, Option.map_some]⟩
  · conv => lhs; unfold rNamed
    split
    · rename_i he
      cases ht : t.toks with
      | nil => exact absurd ht h0
      | cons a b => rw [ht] at he; cases he
    · rename_i x r he
      exact absurd he (hn x r)
    · rfl

/-- An argument of `write!`. -/
theorem arg_out (hE : EscOk I) (hX : ∀ u, X u → u.fine) {a : FmtArg} {s : Str} (h : ArgText I X a s) :
    ∃ t, LexTo folA s (.word (argName a.id) :: .op c!"=" :: t.toks) ∧ t.Wf ∧
      SpellsShown I.escaper (some (argName a.id), t) a := by
  have eq : LexTo anyText c!" = " [.op c!"="] := by fixed_text
  have nm : ∀ id, LexTo noWord (argName id) [.word (argName id)] := fun id => lx_word (argName_isName id)
  cases h with
  | @wrapped e r s id hx hw =>
    have hf : Fine e := hX _ hx
    obtain ⟨T, L, hA, hv, rfl⟩ := hw
    have hk := wrapped_strength hv
    obtain ⟨t, h1, h2, h3⟩ := Askama.Written.amp hE ⟨T, L, hA, hv, rfl⟩ hf hk
    refine ⟨.borrow t, ?_, h2, .wrapped id h3⟩
    have := (nm id).app (eq.any (h1.mono fun _ => folR_of_A)) fun u _ => rfl
    simpa only [List.append_assoc, List.cons_append, List.nil_append] using this
  | @unwrapped e r s id hx hw =>
    have hf : Fine e := hX _ hx
    obtain ⟨t, h1, h2, h3⟩ := hw.folA hE hf
    obtain ⟨p, hp, hpn, hps⟩ := hE.own
    refine ⟨.borrow (.call (inAskama [c!"MarkupDisplay", c!"new_unsafe"]) [.borrow (.paren t), .path p]), ?_, ?_,
      .unwrapped id h3 (by rw [hp]; exact readsAs_path hpn hps)⟩
    · have c1 : LexTo anyText c!"&::askama::MarkupDisplay::new_unsafe(&("
          [.amp false, .op c!"::", .word c!"askama", .op c!"::", .word c!"MarkupDisplay", .op c!"::", .word c!"new_unsafe",
           .opn '(', .amp false, .opn '('] := by fixed_text
      have c2 : LexTo anyText c!"), " [.cls ')', .op c!","] := by fixed_text
      have c3 : LexTo anyText c!")" [.cls ')'] := lx_cls (by simp)
      have e1 : LexTo noWord I.escaper (pathToks p) := by rw [hp]; exact lx_path (pathNames_words hpn)
      have := (nm id).app (eq.any (c1.any (h1.app (c2.any (e1.app c3 fun u _ => rfl)) fun u _ => rfl))) fun u _ => rfl
      simpa [Tree.toks, inAskama, pathToks, segToks, toksSep, toksMore, headTok, isAmp] using this.of_any
    · simp only [Tree.Wf, inAskama, WfL, Tree.level, PathOk]
      exact ⟨⟨by decide, by decide, ⟨h2, by decide⟩, pathNames_ok hpn hps, trivial⟩, by decide⟩

/-- The arguments of `write!`. -/
theorem args_named (hE : EscOk I) (hX : ∀ u, X u → u.fine) : {as : List FmtArg} → {s : Str} → ArgsText I X as s →
    ∃ xs : List (Str × Tree), LexTo anyText s (namedToks xs) ∧ (∀ x ∈ xs, x.2.Wf) ∧
      SpellsShowns I.escaper (xs.map fun x => (some x.1, x.2)) as
  | _, _, .one (a := a) (s := s) h => by
    obtain ⟨t, h1, h2, h3⟩ := arg_out hE hX h
    refine ⟨[(argName a.id, t)], ?_, by simpa using h2, .cons h3 .nil⟩
    have := h1.app lx_comma fun u _ => rfl
    simpa only [namedToks, List.append_assoc, List.cons_append, List.nil_append] using this
  | _, _, .more (a := a) (s := s) h hs => by
    obtain ⟨t, h1, h2, h3⟩ := arg_out hE hX h
    obtain ⟨xs, g1, g2, g3⟩ := args_named hE hX hs
    refine ⟨(argName a.id, t) :: xs, ?_, ?_, .cons h3 g3⟩
    · have := h1.app (lx_comma.any (lx_line.any g1)) fun u _ => rfl
      simpa only [namedToks, List.append_assoc, List.cons_append, List.nil_append] using this
    · intro x hx
      rcases List.mem_cons.1 hx with rfl | hx
      · exact h2
      · exact g2 x hx

end Askama.Spec
