import Verif.Lemmas.StmtTextRead

/-! The text of statements is read as the modelled statements: control flow, and all statements together. -/

namespace Askama.Spec

open Askama

variable {I : GenInput} {plain : Char → Bool} {X : Use → Prop}

/-! ## `let` -/

theorem letDecl_out (esc : Str) {t : Target} (h : plainTarget t = true ∧ isOr t = false) :
    SOut esc (c!"let " ++ targetText true t ++ c!";\n") (.letDecl t) := by
  obtain ⟨ts, p, h1, h2, h3, _⟩ := target_out true t h.1
  rw [h.2] at h2
  have c0 : LexTo anyText c!"let " [.word c!"let"] := by fixed_text
  have c1 : LexTo anyText c!";\n" [.op c!";"] := by fixed_text
  have hh := c0.any (h1.app c1 fun u _ => endF_of_A rfl)
  refine ⟨_, _, ?_, SReads.letDecl h2, .letDecl h3⟩
  simp only [List.append_assoc] at hh ⊢
  exact lx_to hh rfl

theorem letInit_out (hE : EscOk I) {t : Target} (h : plainTarget t = true ∧ isOr t = false) {e : Expr} {r : RExpr} {w : Bool}
    {s : Str} (hf : Fine e) (hw : Written I e r w s) :
    SOut I.escaper (c!"let " ++ targetText true t ++ (c!" = " ++ s ++ c!";\n")) (.letInit t r) := by
  obtain ⟨ts, p, h1, h2, h3, _⟩ := target_out true t h.1
  rw [h.2] at h2
  obtain ⟨u, g1, g2, g3⟩ := hw.folA hE hf
  have c0 : LexTo anyText c!"let " [.word c!"let"] := by fixed_text
  have c2 : LexTo anyText c!" = " [.op c!"="] := by fixed_text
  have c1 : LexTo anyText c!";\n" [.op c!";"] := by fixed_text
  have hh := c0.any (h1.app (c2.any (g1.app c1 fun u _ => rfl)) fun u _ => endF_of_A rfl)
  refine ⟨_, _, ?_, SReads.letInit h2 g2, .letInit h3 g3⟩
  simp only [List.append_assoc] at hh ⊢
  exact lx_to hh rfl

theorem assign_out (hE : EscOk I) {n : Str} (h : plainTarget (.name n) = true) {e : Expr} {r : RExpr} {w : Bool}
    {s : Str} (hf : Fine e) (hw : Written I e r w s) :
    SOut I.escaper (targetText true (.name n) ++ (c!" = " ++ s ++ c!";\n")) (.assign (normalizeIdentifier n) r) := by
  obtain ⟨u, g1, g2, g3⟩ := hw.folA hE hf
  have c2 : LexTo anyText c!" = " [.op c!"="] := by fixed_text
  have c1 : LexTo anyText c!";\n" [.op c!";"] := by fixed_text
  simp only [plainTarget, Bool.or_eq_true, beq_iff_eq] at h
  have hx : LexTo noWord (targetText true (.name n)) [.word (normalizeIdentifier n)] ∧ segOk (normalizeIdentifier n) = true := by
    by_cases hn : n = c!"_"
    · subst hn
      exact ⟨lx_word (w := c!"_") (by decide), by decide⟩
    · have hp := h.resolve_left hn
      simp only [targetText, if_neg hn]
      exact ⟨(plainName_word hp).lex, nameOk_seg (plainName_ok hp)⟩
  have hh := hx.1.app (c2.any (g1.app c1 fun u _ => rfl)) fun u _ => rfl
  refine ⟨_, _, ?_, SReads.assign hx.2 g2, .assign g3⟩
  simp only [List.append_assoc] at hh ⊢
  exact lx_to hh rfl

/-! ## Loops -/

theorem into_wf {t : Tree} (h : t.Wf) : (Tree.call (.field (.paren t) c!"into_iter") []).Wf := by
  simp only [Tree.Wf, WfL, Tree.level, FieldOk]
  exact ⟨⟨h, by decide, by decide⟩, by decide, trivial⟩

theorem into_plain (hE : EscOk I) {e : Expr} {r : RExpr} {w : Bool} {s : Str} (hf : Fine e) (hw : Written I e r w s) :
    ∃ t, LexTo folA (c!"(" ++ s ++ c!").into_iter()") t.toks ∧ t.Wf ∧ SpellsIter I.escaper t r := by
  obtain ⟨t, h1, h2, h3⟩ := hw.folA hE hf
  have c0 : LexTo anyText c!"(" [.opn '('] := by fixed_text
  have c1 : LexTo anyText c!").into_iter()" [.cls ')', .op c!".", .word c!"into_iter", .opn '(', .cls ')'] := by fixed_text
  have hh := c0.any (h1.app c1 fun u _ => rfl)
  refine ⟨_, ?_, into_wf h2, .into h3⟩
  rw [List.append_assoc]
  refine lx_to hh.of_any ?_
  simp [Tree.toks, toksSep, fieldTok, headIs, isDec]

theorem into_ref (hE : EscOk I) {e : Expr} {r : RExpr} {w : Bool} {s : Str} (hf : Fine e) (hw : Written I e r w s)
    (hk : 10 ≤ strength e) :
    ∃ t, LexTo folA (c!"(&" ++ s ++ c!").into_iter()") t.toks ∧ t.Wf ∧ SpellsIter I.escaper t r := by
  obtain ⟨t, h1, h2, h3⟩ := hw.amp hE hf hk
  have c0 : LexTo anyText c!"(" [.opn '('] := by fixed_text
  have c1 : LexTo anyText c!").into_iter()" [.cls ')', .op c!".", .word c!"into_iter", .opn '(', .cls ')'] := by fixed_text
  have hh := c0.any (h1.app c1 fun u _ => folR_of_A rfl)
  refine ⟨_, ?_, into_wf h2, .into (.borrow h3)⟩
  have e : c!"(&" ++ s ++ c!").into_iter()" = c!"(" ++ (c!"&" ++ s ++ c!").into_iter()") := rfl
  rw [e]
  refine lx_to hh.of_any ?_
  simp [Tree.toks, toksSep, fieldTok, headIs, isDec]

theorem iter_array (hE : EscOk I) {es : List Expr} {r : RExpr} {w : Bool} {s : Str} (hf : Fine (.array es))
    (hw : Written I (.array es) r w s) :
    ∃ t, LexTo folA (s ++ c!".iter()") t.toks ∧ t.Wf ∧ SpellsIter I.escaper t r := by
  have hg := (hw.good hE hf).1 (by simp [strength])
  obtain ⟨T, L, hA, hv, rfl⟩ := hw
  simp only [visitExpr] at hv
  obtain ⟨rs, _, hv⟩ := except_bind hv
  simp only [pure, Except.pure, Except.ok.injEq, Prod.mk.injEq] at hv
  obtain ⟨rfl, rfl⟩ := hv
  obtain ⟨n, c, h1, h2, h3, h4, h5⟩ := hg
  cases n with
  | succ n =>
    obtain ⟨d, s', k, ts', g1, g2, _, g3, _⟩ := h4
    simp only [exprText, List.cons_append, List.cons.injEq] at g1
    simp only [borrows, Tree.toks, List.cons.injEq] at g2
    rw [← g1.1, ← g2.1] at g3
    cases g3
  | zero =>
    have c1 : LexTo anyText c!".iter()" [.op c!".", .word c!"iter", .opn '(', .cls ')'] := by fixed_text
    refine ⟨_, ?_, ?_, .iter h5⟩
    · have hh := h1.app c1 fun u _ => rfl
      refine lx_to hh.of_any ?_
      simp [Tree.toks, toksSep, fieldTok, headIs, isDec, borrows]
    · simp only [Tree.Wf, WfL, Tree.level, FieldOk]
      exact ⟨⟨h2, h3, by decide⟩, by decide, trivial⟩

theorem iter_range (hE : EscOk I) {op : Str} {a b : Option Expr} {r : RExpr} {w : Bool} {s : Str} (hf : Fine (.range op a b))
    (hw : Written I (.range op a b) r w s) :
    ∃ t, LexTo folA s t.toks ∧ t.Wf ∧ SpellsIter I.escaper t r := by
  obtain ⟨t, h1, h2, h3⟩ := hw.folA hE hf
  obtain ⟨T, L, hA, hv, rfl⟩ := hw
  simp only [visitExpr] at hv
  obtain ⟨_, _, hv⟩ := except_bind hv
  obtain ⟨_, _, hv⟩ := except_bind hv
  simp only [pure, Except.pure, Except.ok.injEq, Prod.mk.injEq] at hv
  obtain ⟨rfl, rfl⟩ := hv
  exact ⟨t, h1, h2, .range h3⟩

theorem iter_out (hE : EscOk I) {e : Expr} {r : RExpr} {w : Bool} {s : Str}
    (hf : Fine e ∧ ((∃ op a b, e = .range op a b) ∨ 10 ≤ strength e)) (hw : Written I e r w s) :
    ∃ t, LexTo folA (iterText e s) t.toks ∧ t.Wf ∧ SpellsIter I.escaper t r := by
  obtain ⟨hf, hk⟩ := hf
  by_cases hr : ∃ op a b, e = .range op a b
  · obtain ⟨op, a, b, rfl⟩ := hr
    exact iter_range hE hf hw
  · have hk := hk.resolve_left hr
    cases e with
    | range op a b => exact absurd ⟨_, _, _, rfl⟩ hr
    | array es => exact iter_array hE hf hw
    | call f args => exact into_plain hE hf hw
    | index f args => exact into_plain hE hf hw
    | attr f a =>
      simp only [iterText]
      split
      · exact into_ref hE hf hw hk
      · exact into_ref hE hf hw hk
    | _ =>
      simp only [iterText]
      split
      · exact into_ref hE hf hw hk
      · exact into_plain hE hf hw

theorem letIter_out (hE : EscOk I) {e : Expr} {r : RExpr} {w : Bool} {s : Str}
    (hf : Fine e ∧ ((∃ op a b, e = .range op a b) ∨ 10 ≤ strength e)) (hw : Written I e r w s) :
    SOut I.escaper (c!"let _iter = " ++ iterText e s ++ c!";\n") (.letIter r) := by
  obtain ⟨t, h1, h2, h3⟩ := iter_out hE hf hw
  have c0 : LexTo anyText c!"let _iter = " [.word c!"let", .word c!"_iter", .op c!"="] := by fixed_text
  have c1 : LexTo anyText c!";\n" [.op c!";"] := by fixed_text
  have hh := c0.any (h1.app c1 fun u _ => rfl)
  refine ⟨_, _, ?_, SReads.letVar (by decide) (by decide) (by decide) h2, .letIter h3⟩
  simp only [List.append_assoc] at hh ⊢
  exact lx_to hh rfl

/-- `|`, with no character following that would make it another operator. -/
theorem lx_bar {rest : Str} (h : headIs (fun c => c == '|' || c == '=') rest = false) : Lx (c!"|" ++ rest) [.op c!"|"] rest := by
  cases rest with
  | nil => exact Lx.one rfl (by simp)
  | cons c r =>
    simp only [headIs, Bool.or_eq_false_iff, beq_eq_false_iff_ne, ne_eq] at h
    have h1 : ('|' == c) = false := by simpa using Ne.symm h.1
    have h2 : ('=' == c) = false := by simpa using Ne.symm h.2
    refine Lx.one ?_ (by simp)
    simp [lexOne, isWhite, wordStart, isDec, operators, List.isPrefixOf, h1, h2, List.find?]

/-- `|` before a pattern. -/
theorem lx_barPat {F : Str → Bool} {s : Str} {ts : List Tok} (h : LexTo F s ts) (ho : Opens s ts) :
    LexTo F (c!"|" ++ s) (.op c!"|" :: ts) := by
  intro rest hr
  have := h rest hr
  obtain ⟨c, s', k, ts', rfl, rfl, h1, h2, h3⟩ := ho
  rw [List.append_assoc]
  refine (lx_bar ?_).trans this
  have h4 := startC_ne h1
  have h5 : c ≠ '|' := by rintro rfl; exact absurd h1 (by decide)
  simp [headIs, h4.1, h5]

theorem filterIter_out (hE : EscOk I) {t : Target} {e : Expr} {r : RExpr} {w : Bool} {s : Str}
    (hf : plainTarget t = true ∧ isOr t = false ∧ isLitTarget t = false ∧ Fine e ∧ 1 ≤ strength e) (hw : Written I e r w s) :
    SOut I.escaper (c!"let _iter = _iter.filter(|" ++ targetText true t ++ c!"| -> bool {" ++ s ++ c!"});\n")
      (.filterIter t r) := by
  obtain ⟨ht, ho, hl, hf, hk⟩ := hf
  obtain ⟨ts, p, h1, h2, h3, hop⟩ := target_out true t ht
  rw [ho] at h2
  have hF : endF t = noWord := by simp [endF, ho, hl]
  rw [hF] at h1
  obtain ⟨u, g1, g2, g3, g4, g5⟩ := (hw.good hE hf).2
  have g1 : LexTo folA s u.toks := by
    split at g1
    · exact g1
    · exact g1.mono fun _ => folR_of_A
  have g4 := g4 hk
  have c0 : LexTo anyText c!"let _iter = _iter.filter("
    [.word c!"let", .word c!"_iter", .op c!"=", .word c!"_iter", .op c!".", .word c!"filter", .opn '('] := by
    fixed_text
  have c1 : LexTo anyText c!"| -> bool {" [.op c!"|", .op c!"->", .word c!"bool", .opn '{'] := by fixed_text
  have c2 : LexTo anyText c!"});\n" [.cls '}', .cls ')', .op c!";"] := by fixed_text
  have hh := c0.any ((lx_barPat h1 hop).app (c1.any (g1.app c2 fun u _ => rfl)) fun u _ => rfl)
  have hp : Ev (fun n => rPat1 n ts) (p, []) := by simpa only [List.append_nil] using h2.one rfl [] rfl
  refine ⟨_, _, ?_, SReads.letVar (w := c!"_iter") (by decide) (by decide) (by decide) (t := .call (.field (.path [c!"_iter"]) c!"filter")
        [.fn_ ts c!"bool" (.block [] (some u))]) ?_, .filterIter hp h3 g5⟩
  · simp only [List.append_assoc, List.cons_append, List.nil_append] at hh ⊢
    refine lx_to hh ?_
    simp [Tree.toks, toksSep, toksMore, fieldTok, headIs, isDec, pathToks, segToks, toksStmts, toksOpt]
  · simp only [Tree.Wf, WfL, Tree.level, FieldOk, PathOk, Tree.WfBlock, WfS, WfT]
    refine ⟨⟨⟨by decide, by simp⟩, by decide, by decide⟩, by decide, ⟨fun rest => ?_, h2.shut, trivial, g2, ?_⟩, trivial⟩
    · rw [h2.bar 0 _ (by simp)]
      have : untilBar 0 (.op c!"|" :: rest) = some ([], rest) := by unfold untilBar; rfl
      rw [this]
      simp
    · obtain ⟨c, s', k, ts', _, g, _, _, h⟩ := g4
      rw [g]
      exact h

theorem forIter_out {esc : Str} {t : Target} {b : List Stmt} {s : Str} (ht : plainTarget t = true) (hb : SsOut esc s b) :
    SOut esc (c!"for (" ++ targetText true t ++ c!", _loop_item) in " ++ c!"::askama"
        ++ c!"::helpers::TemplateLoop::new(_iter) {\n" ++ s ++ c!"}\n") (.forIter t b) := by
  obtain ⟨ts, p, h1, h2, h3, _⟩ := target_out true t ht
  obtain ⟨us, bs, g1, g2, g3⟩ := hb
  have c0 : LexTo anyText c!"for (" [.word c!"for", .opn '('] := by fixed_text
  have c1 : LexTo anyText c!", _loop_item) in ::askama::helpers::TemplateLoop::new(_iter) {\n"
    [.op c!",", .word c!"_loop_item", .cls ')', .word c!"in", .op c!"::", .word c!"askama", .op c!"::", .word c!"helpers",
     .op c!"::", .word c!"TemplateLoop", .op c!"::", .word c!"new", .opn '(', .word c!"_iter", .cls ')', .opn '{'] := by
    fixed_text
  have c2 : LexTo anyText c!"}\n" [.cls '}'] := by fixed_text
  have hh := c0.any (h1.app (c1.any (g1.any c2)) fun u _ => endF_of_A rfl)
  have hp := PReads.parens (PsReads.cons h2 (PsReads.last (PReads.word (w := c!"_loop_item") (.inl (by decide)) (by decide) (by decide))))
  refine ⟨_, _, ?_, SReads.for_ hp (t := .call (inAskama [c!"helpers", c!"TemplateLoop", c!"new"]) [.path [c!"_iter"]]) ?_
    (by decide) g2, .forIter h3 g3⟩
  · simp only [List.append_assoc, List.cons_append, List.nil_append] at hh ⊢
    refine lx_to hh ?_
    simp [Tree.toks, toksSep, toksMore, inAskama, pathToks, segToks]
  · simp only [Tree.Wf, inAskama, WfL, Tree.level, PathOk]
    exact ⟨by decide, by decide, ⟨by decide, by simp⟩, trivial⟩

theorem ifNotDid_out {esc : Str} {b : List Stmt} {s : Str} (hb : SsOut esc s b) :
    SOut esc (c!"if !_did_loop {\n" ++ s ++ c!"}\n") (.ifNotDid b) := by
  obtain ⟨us, bs, g1, g2, g3⟩ := hb
  have c0 : LexTo anyText c!"if !_did_loop {\n" [.word c!"if", .op c!"!", .word c!"_did_loop", .opn '{'] := by fixed_text
  have c2 : LexTo anyText c!"}\n" [.cls '}'] := by fixed_text
  have hh := c0.any (g1.any c2)
  have ht : TReads (Tree.unary c!"!" (.path [c!"_did_loop"])).toks (.expr (.unary c!"!" (.path [c!"_did_loop"]))) := by
    refine TReads.expr ?_ (by decide) ⟨.op c!"!", _, rfl, by simp, by simp⟩
    simp only [Tree.Wf, PathOk, Tree.level]
    exact ⟨by simp, ⟨by decide, by simp⟩, by decide⟩
  refine ⟨_, _, ?_, SReads.if_ (IfReads.mk ht g2 ElseReads.nil), .ifNotDid g3⟩
  rw [List.append_assoc]
  refine lx_to hh ?_
  simp [Tree.toks, pathToks, segToks]

theorem letDid_out (esc : Str) : SOut esc c!"let mut _did_loop = false;\n" .letDid := by
  have c0 : LexTo anyText c!"let mut _did_loop = false;\n"
    [.word c!"let", .word c!"mut", .word c!"_did_loop", .op c!"=", .word c!"false", .op c!";"] := by fixed_text
  refine ⟨_, _, c0, SReads.letMut (t := .path [c!"false"]) ?_, .letDid⟩
  simp only [Tree.Wf, PathOk]
  exact ⟨by decide, by simp⟩

theorem setDid_out (esc : Str) : SOut esc c!"_did_loop = true;\n" .setDid := by
  have c0 : LexTo anyText c!"_did_loop = true;\n" [.word c!"_did_loop", .op c!"=", .word c!"true", .op c!";"] := by fixed_text
  refine ⟨_, _, c0, SReads.assign (t := .path [c!"true"]) (by decide) ?_, .setDid⟩
  simp only [Tree.Wf, PathOk]
  exact ⟨by decide, by simp⟩

/-! ## Conditions -/

/-- The tokens before a test. -/
def ifToks (first : Bool) : List Tok :=
  if first then [.word c!"if"] else [.cls '}', .word c!"else", .word c!"if"]

theorem lx_if (first : Bool) : LexTo anyText (if first then c!"if " else c!"} else if ") (ifToks first) := by
  cases first
  · show LexTo anyText c!"} else if " [.cls '}', .word c!"else", .word c!"if"]
    fixed_text
  · show LexTo anyText c!"if " [.word c!"if"]
    fixed_text

theorem cond_out (hE : EscOk I) (hX : ∀ u, X u → u.fine) {first : Bool} {c : RCond} {s : Str} (h : CondText I X first c s)
    (hc : c ≠ .always) : ∃ ts t, LexTo folR s (ifToks first ++ ts) ∧ TReads ts t ∧ SpellsTest I.escaper t c := by
  cases h with
  | always h => exact absurd rfl hc
  | test hx hw =>
    obtain ⟨t, h1, h2, h3⟩ := hw.folA hE (hX _ hx)
    have c0 : LexTo anyText c!"*(&(" [.op c!"*", .opn '(', .amp false, .opn '('] := by fixed_text
    have c1 : LexTo anyText c!") as &bool)" [.cls ')', .word c!"as", .amp false, .word c!"bool", .cls ')'] := by fixed_text
    have hh := (lx_if first).any (c0.any (h1.app c1 fun u _ => rfl))
    refine ⟨_, _, ?_, TReads.cast (t := .borrow (.paren t)) ?_ (by simp [Tree.level]) c!"bool", .test h3⟩
    · simp only [List.append_assoc] at hh ⊢
      refine lx_to hh.of_any ?_
      simp [Tree.toks, headTok, isAmp]
    · simp only [Tree.Wf, Tree.level]
      exact ⟨h2, by decide⟩
  | @let_ t e r w s hx hw =>
    obtain ⟨ht, hf, hk⟩ := (hX _ hx : plainTarget t = true ∧ Fine e ∧ 10 ≤ strength e)
    obtain ⟨ts, p, h1, h2, h3, _⟩ := target_out true t ht
    obtain ⟨u, g1, g2, g3⟩ := hw.amp hE hf hk
    have c0 : LexTo anyText c!"let " [.word c!"let"] := by fixed_text
    have c1 : LexTo anyText c!" = " [.op c!"="] := by fixed_text
    have hh := (lx_if first).any (c0.any (h1.app (c1.any g1) fun u _ => endF_of_A rfl))
    refine ⟨_, _, ?_, TReads.let_ h2 g2 (by simp [Tree.level]), .let_ h3 g3⟩
    simp only [List.append_assoc, List.cons_append, List.nil_append] at hh ⊢
    exact lx_to hh rfl
  | @letChain op t a b l r w w' s s' hx hw hw' =>
    obtain ⟨ht, ho, hf, hk, hf', hk'⟩ := (hX _ hx : plainTarget t = true ∧ op = c!"&&" ∧ Fine a ∧ 10 ≤ strength a ∧ Fine b ∧
      3 ≤ strength b)
    subst ho
    obtain ⟨ts, p, h1, h2, h3, _⟩ := target_out true t ht
    obtain ⟨u, g1, g2, g3⟩ := hw.amp hE hf hk
    obtain ⟨v, k1, k2, k3, _, k5⟩ := (hw'.good hE hf').2
    rw [if_neg (by omega)] at k1
    have c0 : LexTo anyText c!"let " [.word c!"let"] := by fixed_text
    have c1 : LexTo anyText c!" = " [.op c!"="] := by fixed_text
    have c2 : LexTo anyText c!" && " BinOp.and.toks := lx_binop .and
    have hh := (lx_if first).any (c0.any (h1.app (c1.any (g1.app (c2.any k1) fun u _ => folR_of_A rfl)) fun u _ => endF_of_A rfl))
    refine ⟨_, _, ?_, TReads.letAnd h2 g2 (by simp [Tree.level]) k2 (by omega), .letChain h3 g3 k5⟩
    simp only [List.append_assoc, List.cons_append, List.nil_append] at hh ⊢
    exact lx_to hh rfl

/-! ## All statements -/

/-- The text of branches. -/
def BOut (esc : Str) (first : Bool) (s : Str) (bs : List Branch) : Prop :=
  ∃ ts us, LexTo anyText s ts ∧ SpellsBranches esc us bs ∧
    if first then ∃ vs, ts = .word c!"if" :: vs ∧ IfReads vs us else ElseReads ts us

/-- The text of arms. -/
def AOut (esc : Str) (s : Str) (as : List Arm) : Prop :=
  ∃ ts us, LexTo anyText s ts ∧ ArmsRead ts us ∧ SpellsArms esc us as

theorem elseLast_tail {b : Bool} {bs : List Bool} (h : elseLast (b :: bs) = true) : elseLast bs = true := by
  cases bs with
  | nil => rfl
  | cons c bs =>
    simp only [elseLast, Bool.and_eq_true] at h
    exact h.2

theorem if_out {esc : Str} {bs : List Branch} {s : Str} (h : BOut esc true s bs) : SOut esc (s ++ c!"}\n") (.if_ bs) := by
  obtain ⟨ts, us, h1, h2, vs, rfl, h3⟩ := h
  have c1 : LexTo anyText c!"}\n" [.cls '}'] := by fixed_text
  exact ⟨_, _, h1.any c1, SReads.if_ h3, .if_ h2⟩

theorem match_out (hE : EscOk I) {e : Expr} {r : RExpr} {w : Bool} {s u : Str} {arms : List Arm} (hf : Fine e ∧ 10 ≤ strength e)
    (hw : Written I e r w s) (h : AOut I.escaper u arms) :
    SOut I.escaper (c!"match &" ++ s ++ c!" {\n" ++ u ++ c!"}\n") (.match_ r arms) := by
  obtain ⟨ts, us, h1, h2, h3⟩ := h
  obtain ⟨t, g1, g2, g3⟩ := hw.amp hE hf.1 hf.2
  have c0 : LexTo anyText c!"match " [.word c!"match"] := by fixed_text
  have c1 : LexTo anyText c!" {\n" [.opn '{'] := by fixed_text
  have c2 : LexTo anyText c!"}\n" [.cls '}'] := by fixed_text
  have hh := c0.any (g1.app (c1.any (h1.any c2)) fun u _ => folR_of_A rfl)
  refine ⟨_, _, ?_, SReads.match_ g2 (by simp [Tree.level]) h2, .match_ g3 h3⟩
  simp only [List.append_assoc, List.cons_append, List.nil_append] at hh ⊢
  exact lx_to hh rfl

theorem block_out {esc : Str} {b : List Stmt} {s : Str} (h : SsOut esc s b) : SOut esc (c!"{\n" ++ s ++ c!"}\n") (.block b) := by
  obtain ⟨ts, us, h1, h2, h3⟩ := h
  have c1 : LexTo anyText c!"{\n" [.opn '{'] := by fixed_text
  have c2 : LexTo anyText c!"}\n" [.cls '}'] := by fixed_text
  have hh := c1.any (h1.any c2)
  refine ⟨_, _, ?_, SReads.block h2, .block h3⟩
  rw [List.append_assoc]
  exact lx_to hh rfl

theorem arms_cons {esc : Str} {t : Target} {b : List Stmt} {as : List Arm} {s u : Str} (ht : plainTarget t = true)
    (hb : SsOut esc s b) (h : AOut esc u as) :
    AOut esc (targetText true t ++ c!" => {\n" ++ s ++ c!"}\n" ++ u) (.mk t b :: as) := by
  obtain ⟨ts, p, h1, h2, h3, _⟩ := target_out true t ht
  obtain ⟨us, bs, g1, g2, g3⟩ := hb
  obtain ⟨vs, ws, k1, k2, k3⟩ := h
  have c1 : LexTo anyText c!" => {\n" [.op c!"=>", .opn '{'] := by fixed_text
  have c2 : LexTo anyText c!"}\n" [.cls '}'] := by fixed_text
  have hh := h1.app (c1.any (g1.any (c2.any k1))) fun u _ => endF_of_A rfl
  refine ⟨_, _, ?_, ArmsRead.cons h2 g2 k2, .cons h3 g3 k3⟩
  simp only [List.append_assoc] at hh ⊢
  exact lx_to hh rfl

theorem branch_test {esc : Str} {first : Bool} {c : RCond} {b : List Stmt} {bs : List Branch} {s t u : Str}
    (hc : ∃ ts t, LexTo folR s (ifToks first ++ ts) ∧ TReads ts t ∧ SpellsTest esc t c) (hb : SsOut esc t b)
    (h : BOut esc false u bs) : BOut esc first (s ++ c!" {\n" ++ t ++ u) (.mk c b :: bs) := by
  obtain ⟨ts, test, h1, h2, h3⟩ := hc
  obtain ⟨us, sts, g1, g2, g3⟩ := hb
  obtain ⟨vs, ws, k1, k2, k3⟩ := h
  have c1 : LexTo anyText c!" {\n" [.opn '{'] := by fixed_text
  have hh := h1.app (c1.any (g1.any k1)) fun u _ => folR_of_A rfl
  have hi := IfReads.mk h2 g2 k3
  refine ⟨ifToks first ++ (ts ++ .opn '{' :: (us ++ vs)), _, ?_, .cons h3 g3 k2, ?_⟩
  · simp only [List.append_assoc, List.cons_append, List.nil_append] at hh ⊢
    exact hh
  · cases first
    · exact ElseReads.elseIf hi
    · exact ⟨_, rfl, hi⟩

theorem branch_else {esc : Str} {b : List Stmt} {t : Str} (hb : SsOut esc t b) :
    BOut esc false (c!"} else" ++ c!" {\n" ++ t ++ []) [.mk .always b] := by
  obtain ⟨us, sts, g1, g2, g3⟩ := hb
  have c1 : LexTo anyText c!"} else {\n" [.cls '}', .word c!"else", .opn '{'] := by fixed_text
  refine ⟨_, _, ?_, .cons .always g3 .nil, ElseReads.else_ g2⟩
  simp only [List.append_nil]
  exact lx_to (c1.any g1) rfl

theorem branches_nil (esc : Str) : BOut esc false [] [] := ⟨[], [], LexTo.nil _, .nil, ElseReads.nil⟩

mutual
theorem stmt_out (hE : EscOk I) (hX : ∀ u, X u → u.fine) {st : Stmt} {s : Str} :
    StmtText I plain X st s → SOut I.escaper s st
  | .writeLit s => writeLit_out _ _ s
  | .writeFmt fmt h => writeFmt_out hE hX fmt h
  | .letDecl hx => letDecl_out _ (hX _ hx)
  | .letInit hx hy hw => letInit_out hE (hX _ hx) (hX _ hy) hw
  | .assign hx hy hw => assign_out hE (hX _ hx).1 (hX _ hy) hw
  | .letMany hl hn h => letMany_out hE hX hl hn h
  | .letStr id s => letStr_out _ _ id s
  | .letFmt id fmt h => letFmt_out hE hX id fmt h
  | .if_ hx h => if_out (branches_out hE hX h (hX _ hx).2)
  | .match_ hx hw h => match_out hE (hX _ hx) hw (arms_out hE hX h)
  | .block h => block_out (stmts_out hE hX h)
  | .letDid => letDid_out _
  | .setDid => setDid_out _
  | .letIter hx hw => letIter_out hE (hX _ hx) hw
  | .filterIter hx hw => filterIter_out hE (hX _ hx) hw
  | .forIter hx h => forIter_out (hX _ hx) (stmts_out hE hX h)
  | .ifNotDid h => ifNotDid_out (stmts_out hE hX h)
  | .brk => ⟨_, _, by fixed_text, SReads.brk, .brk⟩
  | .cont => ⟨_, _, by fixed_text, SReads.cont, .cont⟩
  | .includeBytes p => includeBytes_out _ _ p
theorem stmts_out (hE : EscOk I) (hX : ∀ u, X u → u.fine) {sts : List Stmt} {s : Str} :
    StmtsText I plain X sts s → SsOut I.escaper s sts
  | .nil => ⟨[], [], LexTo.nil _, SsReads.nil, .nil⟩
  | .cons h hs => by
    obtain ⟨ts, t, h1, h2, h3⟩ := stmt_out hE hX h
    obtain ⟨us, u, g1, g2, g3⟩ := stmts_out hE hX hs
    exact ⟨_, _, h1.any g1, SsReads.cons h2 g2, .cons h3 g3⟩
theorem branches_out (hE : EscOk I) (hX : ∀ u, X u → u.fine) {first : Bool} {bs : List Branch} {s : Str} :
    BranchesText I plain X first bs s → elseLast (bs.map isElse) = true → BOut I.escaper first s bs
  | .nil, _ => branches_nil _
  | .cons (c := c) (bs := bs) hc hb hs, he => by
    have h1 := stmts_out hE hX hb
    have h2 := branches_out hE hX hs (elseLast_tail he)
    by_cases ha : c = .always
    · subst ha
      cases hc with
      | always hf =>
        subst hf
        cases hs with
        | nil => exact branch_else h1
        | cons _ _ _ => simp [elseLast, isElse] at he
    · exact branch_test (cond_out hE hX hc ha) h1 h2
theorem arms_out (hE : EscOk I) (hX : ∀ u, X u → u.fine) {as : List Arm} {s : Str} :
    ArmsText I plain X as s → AOut I.escaper s as
  | .nil => ⟨[], [], LexTo.nil _, ArmsRead.nil, .nil⟩
  | .cons hx hb hs => arms_cons (hX _ hx) (stmts_out hE hX hb) (arms_out hE hX hs)
end

/-- **The text of statements is read as these statements.** -/
theorem stmts_read (hE : EscOk I) (hX : ∀ u, X u → u.fine) {sts : List Stmt} {s : Str} (h : StmtsText I plain X sts s) :
    ∃ ts, StmtsReadAs s ts ∧ SpellsStmts I.escaper ts sts := by
  obtain ⟨ts, us, h1, h2, h3⟩ := stmts_out hE hX h
  have : Ev (fun n => rStmts n ts) (us, []) := by simpa only [List.append_nil] using h2.read [] (.inl rfl)
  exact ⟨us, ⟨ts, h1.lex rfl, this⟩, h3⟩

end Askama.Spec
