import Verif.Lemmas.TextParts

/-! The text of an expression is read as the modelled expression. -/

namespace Askama.Spec

open Askama

variable {esc : Str}

/-! ## Lists -/

/-- The texts of a list of expressions. -/
inductive Outs (esc : Str) (I : GenInput) (T : TextLocals) : List Expr → List RExpr → Prop
  | nil : Outs esc I T [] []
  | cons {e : Expr} {es : List Expr} {r : RExpr} {rs : List RExpr} : Out esc (strength e) (exprText I T e) r →
      Outs esc I T es rs → Outs esc I T (e :: es) (r :: rs)

variable {I : GenInput} {T : TextLocals}

theorem braced_strength {e : Expr} (h : isBraced e = true) : strength e = 12 := by
  cases e <;> first | rfl | cases h

/-- One argument. -/
theorem wrapArg_out {e : Expr} {s : Str} {r : RExpr} (h : Out esc (strength e) s r) :
    ∃ t, LexTo folA (wrapArg e s) t.toks ∧ t.Wf ∧ SpellsArg esc t r := by
  obtain ⟨u, g1, g2, g3⟩ := h.folA
  obtain ⟨t, h1, h2, h3, h4, h5⟩ := h
  unfold wrapArg
  cases hb : isBraced e with
  | true =>
    have hc : isCopyable e = true := by
      cases e <;> first | rfl | cases hb
    simp only [hc, if_true]
    have hk := braced_strength hb
    rw [hk] at h1 h4
    refine ⟨.block [] (some t), ?_, ?_, .block h5⟩
    · have e1 : LexTo anyText c!"{" [.opn '{'] := lx_opn (by simp)
      have e2 : LexTo anyText c!"}" [.cls '}'] := lx_cls (by simp)
      have e3 := e1.any (lx_line.any (h1.app (e2.any lx_line) fun u _ => rfl))
      simp only [Tree.toks, toksStmts, toksOpt]
      simpa only [List.append_assoc, List.cons_append, List.nil_append, List.append_nil] using e3.of_any
    · simp only [Tree.Wf, WfS, WfT]
      exact ⟨trivial, h2, (h4 (by omega)).brace⟩
  | false =>
    simp only [Bool.false_eq_true, if_false]
    split
    · exact ⟨u, g1, g2, .plain g3⟩
    · refine ⟨.borrow (.paren u), ?_, ?_, .ref g3⟩
      · have e1 := lx_in (.inl ⟨rfl, rfl⟩) g1
        intro rest _
        have e2 := (lx_amp (rest := c!"(" ++ s ++ c!")" ++ rest) rfl).trans (e1 rest rfl)
        simp only [Tree.toks]
        simp only [List.append_assoc, List.cons_append, List.nil_append] at e2 ⊢
        exact e2
      · simp only [Tree.Wf]
        exact ⟨g2, by simp [Tree.level]⟩

theorem folA_more {rest : Str} (h : folA rest = true) : (es : List Expr) → folA (moreText I T es ++ rest) = true
  | [] => by simpa only [moreText, List.nil_append] using h
  | e :: es => by simp [moreText, folA, stopC]

theorem lx_sepr : LexTo anyText c!", " [.op c!","] := lx_comma.any lx_space

theorem more_out : {es : List Expr} → {rs : List RExpr} → Outs esc I T es rs →
    ∃ ts, LexTo folA (moreText I T es) (toksMore ts) ∧ WfL ts ∧ SpellsArgs esc ts rs
  | [], _, .nil => ⟨[], by simpa only [moreText, toksMore] using LexTo.nil folA, by simp only [WfL], .nil⟩
  | e :: es, _, .cons h hs => by
    obtain ⟨t, h1, h2, h3⟩ := wrapArg_out h
    obtain ⟨ts, g1, g2, g3⟩ := more_out hs
    refine ⟨t :: ts, ?_, by simp only [WfL]; exact ⟨h2, g2⟩, .cons h3 g3⟩
    have e1 := lx_sepr.any (h1.app g1 fun u hu => folA_more hu es)
    simpa only [moreText, toksMore, List.append_assoc, List.cons_append, List.nil_append] using e1

/-- The arguments of a call. -/
theorem args_out {es : List Expr} {rs : List RExpr} (h : Outs esc I T es rs) :
    ∃ ts, LexTo folA (argsText I T es) (toksSep ts) ∧ WfL ts ∧ SpellsArgs esc ts rs := by
  cases h with
  | nil => exact ⟨[], by simpa only [argsText, toksSep] using LexTo.nil folA, by simp only [WfL], .nil⟩
  | @cons e es r rs h hs =>
    obtain ⟨t, h1, h2, h3⟩ := wrapArg_out h
    obtain ⟨ts, g1, g2, g3⟩ := more_out hs
    refine ⟨t :: ts, ?_, by simp only [WfL]; exact ⟨h2, g2⟩, .cons h3 g3⟩
    simp only [argsText, toksSep]
    exact h1.app g1 fun u hu => folA_more hu es

theorem folA_sepMore {rest : Str} (h : folA rest = true) : (es : List Expr) → folA (sepMore I T es ++ rest) = true
  | [] => by simpa only [sepMore, List.nil_append] using h
  | e :: es => by simp [sepMore, folA, stopC]

theorem sepMore_out : {es : List Expr} → {rs : List RExpr} → Outs esc I T es rs →
    ∃ ts, LexTo folA (sepMore I T es) (toksMore ts) ∧ WfL ts ∧ SpellsAll esc ts rs
  | [], _, .nil => ⟨[], by simpa only [sepMore, toksMore] using LexTo.nil folA, by simp only [WfL], .nil⟩
  | e :: es, _, .cons h hs => by
    obtain ⟨t, h1, h2, h3⟩ := h.folA
    obtain ⟨ts, g1, g2, g3⟩ := sepMore_out hs
    refine ⟨t :: ts, ?_, by simp only [WfL]; exact ⟨h2, g2⟩, .cons h3 g3⟩
    have e1 := lx_sepr.any (h1.app g1 fun u hu => folA_sepMore hu es)
    simpa only [sepMore, toksMore, List.append_assoc, List.cons_append, List.nil_append] using e1

/-- The elements of an array. -/
theorem sep_out {es : List Expr} {rs : List RExpr} (h : Outs esc I T es rs) :
    ∃ ts, LexTo folA (sepText I T es) (toksSep ts) ∧ WfL ts ∧ SpellsAll esc ts rs := by
  cases h with
  | nil => exact ⟨[], by simpa only [sepText, toksSep] using LexTo.nil folA, by simp only [WfL], .nil⟩
  | @cons e es r rs h hs =>
    obtain ⟨t, h1, h2, h3⟩ := h.folA
    obtain ⟨ts, g1, g2, g3⟩ := sepMore_out hs
    refine ⟨t :: ts, ?_, by simp only [WfL]; exact ⟨h2, g2⟩, .cons h3 g3⟩
    simp only [sepText, toksSep]
    exact h1.app g1 fun u hu => folA_sepMore hu es

theorem tupleMore_out : {es : List Expr} → {rs : List RExpr} → Outs esc I T es rs →
    ∃ ts, LexTo anyText (tupleMore I T es) (toksEnd ts) ∧ WfL ts ∧ SpellsAll esc ts rs
  | [], _, .nil => ⟨[], by simpa only [tupleMore, toksEnd] using LexTo.nil anyText, by simp only [WfL], .nil⟩
  | e :: es, _, .cons h hs => by
    obtain ⟨t, h1, h2, h3⟩ := h.folA
    obtain ⟨ts, g1, g2, g3⟩ := tupleMore_out hs
    refine ⟨t :: ts, ?_, by simp only [WfL]; exact ⟨h2, g2⟩, .cons h3 g3⟩
    have e1 := lx_space.any (h1.app (lx_comma.any g1) fun u _ => rfl)
    simpa only [tupleMore, toksEnd, List.append_assoc, List.cons_append, List.nil_append] using e1

/-- The elements of a tuple. -/
theorem tuple_out {es : List Expr} {rs : List RExpr} (h : Outs esc I T es rs) :
    ∃ ts, LexTo anyText (tupleText I T es) (toksEnd ts) ∧ WfL ts ∧ SpellsAll esc ts rs := by
  cases h with
  | nil => exact ⟨[], by simpa only [tupleText, toksEnd] using LexTo.nil anyText, by simp only [WfL], .nil⟩
  | @cons e es r rs h hs =>
    obtain ⟨t, h1, h2, h3⟩ := h.folA
    obtain ⟨ts, g1, g2, g3⟩ := tupleMore_out hs
    refine ⟨t :: ts, ?_, by simp only [WfL]; exact ⟨h2, g2⟩, .cons h3 g3⟩
    have e1 := h1.app (lx_comma.any g1) fun u _ => rfl
    simpa only [tupleText, toksEnd, List.append_assoc, List.cons_append, List.nil_append] using e1

/-- `&` before an expression that needs no parentheses there. -/
theorem Out.amp {k : Nat} (hk : 10 ≤ k) {s : Str} {r : RExpr} (h : Out esc k s r) :
    ∃ t, LexTo folR (c!"&" ++ s) (Tree.borrow t).toks ∧ (Tree.borrow t).Wf ∧ Spells esc t r := by
  obtain ⟨t, h1, h2, h3, h4, h5⟩ := h
  have ho := h4 (by omega)
  rw [if_neg (by omega)] at h1
  refine ⟨t, ?_, ?_, h5⟩
  · intro rest hr
    rw [List.append_assoc]
    have ha := lx_amp (rest := s ++ rest) (ho.head (by simp) rest)
    rw [ho.amp rest] at ha
    have := ha.trans (h1 rest hr)
    simpa only [Tree.toks, List.cons_append, List.nil_append] using this
  · simp only [Tree.Wf]
    exact ⟨h2, by omega⟩

theorem folA_join {rest : Str} (h : folA rest = true) : (es : List Expr) → folA (joinText I T es ++ rest) = true
  | [] => by simpa only [joinText, List.nil_append] using h
  | e :: es => by simp [joinText, folA, stopC]

/-- The arguments of `join` after the first. -/
theorem join_out : {es : List Expr} → {rs : List RExpr} → Outs esc I T es rs → (∀ e ∈ es, 10 ≤ strength e) →
    ∃ ts : List Tree, LexTo folA (joinText I T es) (toksMore (ts.map .borrow)) ∧ WfL (ts.map .borrow) ∧ SpellsAll esc ts rs
  | [], _, .nil, _ => ⟨[], by simpa only [joinText, toksMore, List.map_nil] using LexTo.nil folA, by
      simp only [List.map_nil, WfL], .nil⟩
  | e :: es, _, .cons h hs, hk => by
    obtain ⟨t, h1, h2, h3⟩ := h.amp (hk e (by simp))
    obtain ⟨ts, g1, g2, g3⟩ := join_out hs fun a ha => hk a (by simp [ha])
    refine ⟨t :: ts, ?_, by simp only [List.map_cons, WfL]; exact ⟨h2, g2⟩, .cons h3 g3⟩
    have e1 := lx_sepr.any ((h1.mono fun _ => folR_of_A).app g1 fun u hu => folA_join hu es)
    simpa only [joinText, List.map_cons, toksMore, List.append_assoc, List.cons_append, List.nil_append] using e1

/-! ## Fixed texts -/

/-- Two arguments, the first of them a path. -/
theorem two_args {u : Str} {p : List Str} (hu : u = joinPath p) (hn : pathNames p = true) {a : Str} {t : Tree}
    (ha : LexTo folA a t.toks) : LexTo folA (u ++ c!", " ++ a) (toksSep [.path p, t]) := by
  subst hu
  have h1 : LexTo noWord (joinPath p) (pathToks p) := lx_path (pathNames_words hn)
  have e1 := h1.app (lx_sepr.any ha) fun u _ => rfl
  simpa only [toksSep, toksMore, Tree.toks, List.append_assoc, List.cons_append, List.nil_append, List.append_nil] using e1

theorem readsAs_path {p : List Str} (hn : pathNames p = true) (hs : p.all segOk = true) :
    ReadsAs (joinPath p) (.path p) := by
  refine ⟨pathToks p, ((lx_path (pathNames_words hn)).lex rfl), ?_⟩
  have hw : (Tree.path p).Wf := by simpa only [Tree.Wf] using pathNames_ok hn hs
  have := Tree.read (rest := []) hw endE_nil
  simp only [Tree.toks, List.append_nil] at this
  exact this

/-- `escape` and `safe`. -/
theorem esc_out {name u : Str} (hn : isName name = true) (hs : segOk name = true) (hu : EscaperPath u) {e : Expr} {s : Str}
    {r r' : RExpr} (h : Out esc (strength e) s r)
    (hr : ∀ p t, ReadsAs u (.path p) → SpellsArg esc t r →
      Spells esc (.try_ (.call (inAskama [c!"filters", name]) [.path p, t])) r') :
    OutS esc anyText (escText name u (wrapArg e s)) r' := by
  obtain ⟨p, hp, hpn, hps⟩ := hu
  obtain ⟨t, h1, h2, h3⟩ := wrapArg_out h
  have hq : pathNames [[], c!"askama", c!"filters", name] = true := by
    simp only [pathNames, List.all_cons, hn]
    rfl
  have hqs : ([[], c!"askama", c!"filters", name] : List Str).all segOk = true := by
    simp only [List.all_cons, hs]
    rfl
  have := OutS.callTry (esc := esc) (r := r') hq hqs (two_args hp hpn h1)
    (by simp only [WfL, Tree.Wf]; exact ⟨pathNames_ok hpn hps, h2, trivial⟩)
    (hr p t (by rw [hp]; exact readsAs_path hpn hps) h3)
  simpa only [escText, joinPath, List.append_assoc, List.cons_append, List.nil_append] using this

/-- The format filters. -/
theorem format_out {f a : Str} {ts : List Tree} {rs : List RExpr} (hf : isStrBody f = true)
    (ha : LexTo folA a (toksMore ts)) (hfa : ∀ u, folA u = true → folA (a ++ u) = true) (hw : WfL ts)
    (hr : SpellsArgs esc ts rs) : OutS esc anyText (fmtCallText f a) (.format f rs) := by
  have h1 : LexTo folA ((c!"\"" ++ f ++ c!"\"") ++ a) (toksSep (.lit (.str f) :: ts)) := by
    have := (lx_str hf).app ha fun u hu => folP_of_R (folR_of_A (hfa u hu))
    simpa only [toksSep, Tree.toks] using this
  have hw' : WfL (.lit (.str f) :: ts) := by
    simp only [WfL, Tree.Wf]
    exact ⟨rfl, hw⟩
  have h2 : LexTo anyText ((c!"\"" ++ f ++ c!"\"" ++ a) ++ c!")") (toksSep (.lit (.str f) :: ts) ++ [.cls ')']) :=
    h1.app (lx_cls (by simp)) fun u _ => rfl
  have := OutS.mac (esc := esc) (p := [[], c!"std", c!"format"]) (by decide) (by decide) h2 (shut_sep _ hw')
    (.format f (read_sep (Tree.coreL _ hw') []) hr)
  simpa only [fmtCallText, joinPath, List.append_assoc, List.cons_append, List.nil_append] using this

/-- `?` -/
theorem try_out {s : Str} {r : RExpr} {k : Nat} (h : Out esc k s r) : OutS esc anyText (tryText s) (.try_ r) := by
  obtain ⟨t, h1, h2, h3⟩ := h.folA
  have p1 : LexTo noWord c!"::askama::shared::Error::Custom" (pathToks [[], c!"askama", c!"shared", c!"Error", c!"Custom"]) :=
    lx_path (p := [[], c!"askama", c!"shared", c!"Error", c!"Custom"]) (pathNames_words (by decide))
  have p2 : LexTo noWord c!"::core::convert::Into::into" (pathToks [[], c!"core", c!"convert", c!"Into", c!"into"]) :=
    lx_path (p := [[], c!"core", c!"convert", c!"Into", c!"into"]) (pathNames_words (by decide))
  have w : LexTo noWord c!"err" [.word c!"err"] := lx_word (by decide)
  have bar : ∀ rest, (headIs (fun c => c == '|' || c == '=') rest = false) → Lx (c!"|" ++ rest) [.op c!"|"] rest := by
    intro rest hr
    cases rest with
    | nil => exact Lx.one rfl (by simp)
    | cons c u =>
      simp only [headIs, Bool.or_eq_false_iff, beq_eq_false_iff_ne, ne_eq] at hr
      have h1 : ('|' == c) = false := by simpa using Ne.symm hr.1
      have h2 : ('=' == c) = false := by simpa using Ne.symm hr.2
      refine Lx.one ?_ (by simp)
      simp [lexOne, isWhite, wordStart, isDec, operators, List.isPrefixOf, h1, h2, List.find?]
  have q1 : LexTo anyText c!"(" [.opn '('] := lx_opn (by simp)
  have q2 : LexTo anyText c!")" [.cls ')'] := lx_cls (by simp)
  have b1 : LexTo anyText (c!"|" ++ (c!"err" ++ c!"| ")) [.op c!"|", .word c!"err", .op c!"|"] := fun rest _ => by
    have e2 := (bar (c!" " ++ rest) rfl).trans (lx_space rest rfl)
    have e3 := (w (c!"|" ++ (c!" " ++ rest)) rfl).trans e2
    have e4 := (bar (c!"err" ++ (c!"|" ++ (c!" " ++ rest))) rfl).trans e3
    simpa only [List.append_assoc, List.cons_append, List.nil_append] using e4
  have e1 := lx_sepr.any (b1.any (p1.app (q1.any (p2.app (q1.any (w.app (q2.any q2) fun u _ => rfl)) fun u _ => rfl))
    fun u _ => rfl))
  have e2 : LexTo folA (s ++ c!", |err| ::askama::shared::Error::Custom(::core::convert::Into::into(err))") (toksSep
      [t, .closure c!"err" (.call (inAskama [c!"shared", c!"Error", c!"Custom"])
        [.call (.path [[], c!"core", c!"convert", c!"Into", c!"into"]) [.path [c!"err"]]])]) := by
    have := h1.app e1 fun u _ => rfl
    simpa only [toksSep, toksMore, Tree.toks, inAskama, pathToks, segToks, List.append_assoc, List.cons_append,
      List.nil_append, List.append_nil] using this.of_any
  have := OutS.callTry (esc := esc) (r := .try_ r) (p := [[], c!"core", c!"result", c!"Result", c!"map_err"]) (by decide)
    (by decide) e2 (by
      simp only [WfL, Tree.Wf, inAskama, Tree.level, PathOk]
      exact ⟨h2, ⟨by decide, by decide, ⟨by decide, by decide, by decide, trivial⟩, trivial⟩, trivial⟩) (.try_ h3)
  simpa only [tryText, joinPath, List.append_assoc, List.cons_append, List.nil_append] using this

theorem Lx.step {s u q : Str} {ts us : List Tok} (h : lexOne s = some (ts, u)) (hl : u.length < s.length)
    (h2 : Lx u us q) : Lx s (ts ++ us) q := (Lx.one h hl).trans h2

theorem Lx.cast {s q : Str} {us : List Tok} (h : ∃ ts, Lx s ts q ∧ ts = us) : Lx s us q := by
  obtain ⟨ts, h, rfl⟩ := h
  exact h

/-- The tokens of a fixed text. -/
macro "fixed_text" : tactic => `(tactic| (
  intro rest _
  simp only [List.cons_append, List.nil_append]
  apply Lx.cast
  apply Exists.intro
  apply And.intro
  · repeat (apply Lx.step rfl (by simp <;> omega))
    exact Lx.refl _
  · rfl))

/-- `loop.cycle(e)` -/
theorem cycle_out {s : Str} {r : RExpr} {k : Nat} (h : Out esc k s r) : OutS esc anyText (cycleText s) (.cycle r) := by
  obtain ⟨t, h1, h2, h3⟩ := h.folA
  have c1 : LexTo anyText c!"({let _cycle = &("
      [.opn '(', .opn '{', .word c!"let", .word c!"_cycle", .op c!"=", .amp false, .opn '('] := by fixed_text
  have c2a : LexTo anyText c!");\nlet _len = _cycle.len();\nif _len == "
      [.cls ')', .op c!";", .word c!"let", .word c!"_len", .op c!"=", .word c!"_cycle", .op c!".", .word c!"len", .opn '(',
       .cls ')', .op c!";", .word c!"if", .word c!"_len", .op c!"=="] := by fixed_text
  have c2b : LexTo folW c!"0" [.num c!"0"] := lx_num (by decide)
  have c2c : LexTo anyText c!" {\n" [.opn '{'] := by fixed_text
  have c3 : LexTo anyText c!"return ::core::result::Result::Err(::askama::Error::Fmt(::core::fmt::Error));\n}\n"
      [.word c!"return", .op c!"::", .word c!"core", .op c!"::", .word c!"result", .op c!"::", .word c!"Result", .op c!"::",
       .word c!"Err", .opn '(', .op c!"::", .word c!"askama", .op c!"::", .word c!"Error", .op c!"::", .word c!"Fmt",
       .opn '(', .op c!"::", .word c!"core", .op c!"::", .word c!"fmt", .op c!"::", .word c!"Error", .cls ')', .cls ')',
       .op c!";", .cls '}'] := by fixed_text
  have c4 : LexTo anyText c!"_cycle[_loop_item.index % _len]\n})\n"
      [.word c!"_cycle", .opn '[', .word c!"_loop_item", .op c!".", .word c!"index", .op c!"%", .word c!"_len", .cls ']',
       .cls '}', .cls ')'] := by fixed_text
  refine OutS.prim (t := cycleTree t) ?_ ?_ (by simp [cycleTree, Tree.level]) ?_ (.cycle h3)
  · have := c1.any (h1.app (c2a.any (c2b.app (c2c.any (c3.any c4)) fun u _ => rfl)) fun u _ => rfl)
    have e1 : cycleText s = c!"({let _cycle = &(" ++ (s ++ (c!");\nlet _len = _cycle.len();\nif _len == " ++ (c!"0"
        ++ (c!" {\n" ++ (c!"return ::core::result::Result::Err(::askama::Error::Fmt(::core::fmt::Error));\n}\n"
        ++ c!"_cycle[_loop_item.index % _len]\n})\n"))))) := by
      simp only [cycleText, List.append_assoc]
      rfl
    rw [e1]
    refine Eq.mp ?_ this
    congr 1
    simp [cycleTree, inAskama, Tree.toks, toksStmts, toksOpt, toksSep, toksMore, Tree.isStmt, pathToks, segToks, fieldTok, BinOp.toks,
      headTok, isAmp]
    decide
  · have p1 : (Tree.path [c!"_len"]).Wf := by simp only [Tree.Wf, PathOk]; decide
    have p2 : (Tree.path [c!"_cycle"]).Wf := by simp only [Tree.Wf, PathOk]; decide
    have p3 : (Tree.path [c!"_loop_item"]).Wf := by simp only [Tree.Wf, PathOk]; decide
    have p4 : (Tree.path [[], c!"core", c!"result", c!"Result", c!"Err"]).Wf := by simp only [Tree.Wf, PathOk]; decide
    have p5 : (inAskama [c!"Error", c!"Fmt"]).Wf := by simp only [inAskama, Tree.Wf, PathOk]; decide
    have p6 : (Tree.path [[], c!"core", c!"fmt", c!"Error"]).Wf := by simp only [Tree.Wf, PathOk]; decide
    have f1 : FieldOk c!"len" := by unfold FieldOk; decide
    have f2 : FieldOk c!"index" := by unfold FieldOk; decide
    have q1 : (Tree.call (.field (.path [c!"_cycle"]) c!"len") []).Wf := by
      simp only [Tree.Wf, WfL, and_true]; exact ⟨⟨by simpa only [Tree.Wf] using p2, by decide, f1⟩, by decide⟩
    have q2 : (Tree.binary .eq (.path [c!"_len"]) (.lit (.num c!"0"))).Wf := by
      unfold Tree.Wf; exact ⟨p1, by simp only [Tree.Wf]; decide, by decide, by decide, by decide⟩
    have q3 : (Tree.call (inAskama [c!"Error", c!"Fmt"]) [.path [[], c!"core", c!"fmt", c!"Error"]]).Wf := by
      unfold Tree.Wf; exact ⟨p5, by decide, by unfold WfL; exact ⟨p6, by simp only [WfL]⟩⟩
    have q4 : (Tree.call (.path [[], c!"core", c!"result", c!"Result", c!"Err"])
         [.call (inAskama [c!"Error", c!"Fmt"]) [.path [[], c!"core", c!"fmt", c!"Error"]]]).Wf := by
      unfold Tree.Wf; exact ⟨p4, by decide, by unfold WfL; exact ⟨q3, by simp only [WfL]⟩⟩
    have q5 : (Tree.field (.path [c!"_loop_item"]) c!"index").Wf := by unfold Tree.Wf; exact ⟨p3, by decide, f2⟩
    have q6 : (Tree.index (.path [c!"_cycle"])
      (.binary .rem (.field (.path [c!"_loop_item"]) c!"index") (.path [c!"_len"]))).Wf := by
      unfold Tree.Wf; exact ⟨p2, by decide, by unfold Tree.Wf; exact ⟨q5, p1, by decide, by decide, by decide⟩⟩
    have q0 : (Tree.borrow (.paren t)).Wf := by
      unfold Tree.Wf; exact ⟨by unfold Tree.Wf; exact h2, Nat.le_succ 10⟩
    unfold cycleTree Tree.Wf Tree.Wf
    refine ⟨?_, ?_⟩
    · unfold WfS Tree.WfStmt
      refine ⟨q0, ?_⟩
      unfold WfS Tree.WfStmt
      refine ⟨q1, ?_⟩
      unfold WfS Tree.WfStmt
      refine ⟨⟨q2, by decide, ?_⟩, by simp only [WfS]⟩
      unfold Tree.WfBlock WfS Tree.WfStmt
      exact ⟨⟨q4, by simp only [WfS]⟩, by simp only [WfT]⟩
    · unfold WfT
      exact ⟨q6, by decide +kernel⟩
  · exact ⟨'(', _, _, _, rfl, rfl, rfl, rfl, rfl⟩

end Askama.Spec
