import Verif.Lemmas.StmtOut

/-! The text of statements is read as the modelled statements: all statements. -/

namespace Askama.Spec

open Askama

variable {I : GenInput} {plain : Char → Bool} {X : Use → Prop}

theorem lx_to {F : Str → Bool} {s : Str} {ts us : List Tok} (h : LexTo F s ts) (e : ts = us) : LexTo F s us := e ▸ h

/-! ## Texts of literals and arguments -/

theorem writeLit_out (esc : Str) (plain : Char → Bool) (s : Str) :
    SOut esc (c!"writer.write_str(" ++ debugStr plain s ++ c!")?;\n") (.writeLit s) := by
  have c1 : LexTo anyText c!"writer.write_str(" [.word c!"writer", .op c!".", .word c!"write_str", .opn '('] := by fixed_text
  have c2 : LexTo anyText c!")?;\n" [.cls ')', .op c!"?", .op c!";"] := by fixed_text
  have h := c1.any ((lx_debug plain s).app c2 fun u _ => rfl)
  refine ⟨_, _, ?_, SReads.expr
    (t := .try_ (.call (.field (.path [c!"writer"]) c!"write_str") [.lit (.str (debugBody plain s))])) ?_ ?_,
    .writeLit (debug_value plain s)⟩
  · rw [List.append_assoc]
    refine lx_to h ?_
    simp [Tree.toks, pathToks, segToks, toksSep, toksMore, fieldTok, headIs, isDec]
  · simp only [Tree.Wf, WfL, Tree.level, PathOk, FieldOk]
    exact ⟨⟨⟨⟨by decide, by simp⟩, by decide, by decide⟩, by decide, rfl, trivial⟩, by decide⟩
  · exact ⟨_, _, _, rfl, ⟨by simp, by simp⟩, by simp, by simp, fun w hw => by cases hw; decide⟩

theorem includeBytes_out (esc : Str) (plain : Char → Bool) (p : Str) :
    SOut esc (c!"include_bytes!(" ++ debugStr plain p ++ c!");\n") (.includeBytes p) := by
  have c1 : LexTo anyText c!"include_bytes!(" [.word c!"include_bytes", .op c!"!", .opn '('] := by fixed_text
  have c2 : LexTo anyText c!");\n" [.cls ')', .op c!";"] := by fixed_text
  have h := c1.any ((lx_debug plain p).app c2 fun u _ => rfl)
  refine ⟨_, _, ?_, SReads.expr (t := .mac [c!"include_bytes"] [.str (debugBody plain p)]) ?_ ?_,
    .includeBytes (debug_value plain p)⟩
  · rw [List.append_assoc]
    refine lx_to h ?_
    simp [Tree.toks, pathToks, segToks]
  · simp only [Tree.Wf, PathOk]
    exact ⟨⟨by decide, by simp⟩, Shut.tok rfl⟩
  · exact ⟨_, _, _, rfl, ⟨by simp, by simp⟩, by simp, by simp, fun w hw => by cases hw; decide⟩

theorem lit_named {b : Str} {xs : List (Str × Tree)} (h : ∀ x ∈ xs, x.2.Wf) :
    Ev (fun n => rNamed n (.str b :: .op c!"," :: namedToks xs)) ((none, .lit (.str b)) :: xs.map fun x => (some x.1, x.2)) :=
  read_first (t := .lit (.str b)) (by simp [Tree.Wf, isLit]) (by simp [Tree.toks]) (by simp [Tree.toks]) (read_named xs h)

theorem writeFmt_out (hE : EscOk I) (hX : ∀ u, X u → u.fine) {args : List FmtArg} {s : Str} (fmt : Str)
    (h : ArgsText I X args s) : SOut I.escaper
      (c!"::std::write!(\n" ++ c!"writer,\n" ++ (debugStr plain fmt ++ c!",\n") ++ (s ++ c!"\n") ++ c!")?;\n")
      (.writeFmt fmt args) := by
  obtain ⟨xs, h1, h2, h3⟩ := args_named hE hX h
  have c1 : LexTo anyText c!"::std::write!(\nwriter,\n"
    [.op c!"::", .word c!"std", .op c!"::", .word c!"write", .op c!"!", .opn '(', .word c!"writer", .op c!","] := by fixed_text
  have c2 : LexTo anyText c!",\n" [.op c!","] := by fixed_text
  have c3 : LexTo anyText c!"\n)?;\n" [.cls ')', .op c!"?", .op c!";"] := by fixed_text
  have hh := c1.any ((lx_debug plain fmt).app (c2.any (h1.any c3)) fun u _ => rfl)
  refine ⟨_, _, ?_, SReads.expr (t := .try_ (.mac [[], c!"std", c!"write"]
    (.word c!"writer" :: .op c!"," :: .str (debugBody plain fmt) :: .op c!"," :: namedToks xs))) ?_ ?_,
    .writeFmt ?_ (debug_value plain fmt) h3⟩
  · have e : c!"::std::write!(\n" ++ c!"writer,\n" ++ (debugStr plain fmt ++ c!",\n") ++ (s ++ c!"\n") ++ c!")?;\n"
        = c!"::std::write!(\nwriter,\n" ++ (debugStr plain fmt ++ (c!",\n" ++ (s ++ c!"\n)?;\n"))) := by
      simp only [List.append_assoc, List.cons_append, List.nil_append]
    rw [e]
    refine lx_to hh ?_
    simp [Tree.toks, pathToks, segToks]
  · simp only [Tree.Wf, PathOk, Tree.level]
    exact ⟨⟨⟨by simp, by decide⟩, Shut.cons rfl (Shut.cons rfl (Shut.cons rfl (Shut.cons rfl (shut_named xs h2))))⟩, by decide⟩
  · exact ⟨_, _, _, rfl, ⟨by simp, by simp⟩, by simp, by simp, fun w hw => by cases hw⟩
  · exact read_first (t := .path [c!"writer"]) (by simp only [Tree.Wf, PathOk]; exact ⟨by decide, by simp⟩)
      (by simp [Tree.toks, pathToks, segToks]) (by simp [Tree.toks, pathToks]) (lit_named h2)

theorem letFmt_out (hE : EscOk I) (hX : ∀ u, X u → u.fine) {args : List FmtArg} {s : Str} (id : Nat) (fmt : Str)
    (h : ArgsText I X args s) : SOut I.escaper
      (c!"let " ++ Gen.filterVar id ++ c!" = format!(" ++ debugStr plain fmt ++ c!", " ++ s ++ c!");\n")
      (.letFmt (Gen.filterVar id) fmt args) := by
  obtain ⟨xs, h1, h2, h3⟩ := args_named hE hX h
  have c0 : LexTo anyText c!"let " [.word c!"let"] := by fixed_text
  have c1 : LexTo anyText c!" = format!(" [.op c!"=", .word c!"format", .op c!"!", .opn '('] := by fixed_text
  have c2 : LexTo anyText c!", " [.op c!","] := by fixed_text
  have c3 : LexTo anyText c!");\n" [.cls ')', .op c!";"] := by fixed_text
  have hh := c0.any ((lx_word (filterVar_isName id)).app
    (c1.any ((lx_debug plain fmt).app (c2.any (h1.any c3)) fun u _ => rfl)) fun u _ => rfl)
  refine ⟨_, _, ?_, SReads.letVar (filterVar_isName id) (filterVar_seg id).1 (filterVar_seg id).2
    (t := .mac [c!"format"] (.str (debugBody plain fmt) :: .op c!"," :: namedToks xs)) ?_,
    .letFmt (lit_named h2) (debug_value plain fmt) h3⟩
  · simp only [List.append_assoc] at hh ⊢
    refine lx_to hh ?_
    simp [Tree.toks, pathToks, segToks]
  · simp only [Tree.Wf, PathOk]
    exact ⟨⟨by decide, by simp⟩, Shut.cons rfl (Shut.cons rfl (shut_named xs h2))⟩

theorem letStr_out (esc : Str) (plain : Char → Bool) (id : Nat) (s : Str) :
    SOut esc (c!"let " ++ Gen.filterVar id ++ c!" = " ++ debugStr plain s ++ c!";\n") (.letStr (Gen.filterVar id) s) := by
  have c0 : LexTo anyText c!"let " [.word c!"let"] := by fixed_text
  have c1 : LexTo anyText c!" = " [.op c!"="] := by fixed_text
  have c3 : LexTo anyText c!";\n" [.op c!";"] := by fixed_text
  have hh := c0.any ((lx_word (filterVar_isName id)).app
    (c1.any ((lx_debug plain s).app c3 fun u _ => rfl)) fun u _ => rfl)
  refine ⟨_, _, ?_, SReads.letVar (filterVar_isName id) (filterVar_seg id).1 (filterVar_seg id).2
    (t := .lit (.str (debugBody plain s))) (by simp [Tree.Wf, isLit]), .letStr (debug_value plain s)⟩
  simp only [List.append_assoc] at hh ⊢
  refine lx_to hh ?_
  simp [Tree.toks]

/-! ## Arguments of macros -/

/-- The names of parameters. -/
theorem names_out : (n : Str) → (ns : List Str) → (∀ m ∈ n :: ns, isName m = true ∧ segOk m = true ∧ m ≠ c!"_") →
    ∃ ts, LexTo noWord (namesText (n :: ns)) ts ∧ PsReads (!ns.isEmpty) ts ((n :: ns).map fun x => .path [x])
  | n, [], h => by
    have hn := h n (by simp)
    exact ⟨_, by simpa only [namesText] using lx_word hn.1, PsReads.last (PReads.word (.inl hn.1) hn.2.1 hn.2.2)⟩
  | n, m :: ns, h => by
    have hn := h n (by simp)
    obtain ⟨ts, h1, h2⟩ := names_out m ns fun x hx => h x (List.mem_cons_of_mem _ hx)
    refine ⟨_, ?_, PsReads.cons (PReads.word (.inl hn.1) hn.2.1 hn.2.2) h2⟩
    have := (lx_word hn.1).app (lx_sepr.any h1) fun u _ => rfl
    simpa only [namesText, List.append_assoc, List.cons_append, List.nil_append] using this

theorem namesPat_eq (n : Str) (ns : List Str) :
    parenPat ((n :: ns).map fun x => .path [x]) (!ns.isEmpty) = namesPat (n :: ns) := by
  cases ns <;> rfl

theorem folA_paren (s u : Str) : folA (c!"(" ++ s ++ u) = true := rfl

/-- The values for them. -/
theorem values_out (hE : EscOk I) (hX : ∀ u, X u → u.fine) : {rs : List RExpr} → {s : Str} → ValuesText I X rs s →
    ∃ t ts, LexTo anyText s (toksSep ((t :: ts).map .paren)) ∧ WfL ((t :: ts).map .paren) ∧ SpellsAll I.escaper (t :: ts) rs
  | _, _, .one (e := e) hx hw => by
    obtain ⟨t, h1, h2, h3⟩ := hw.folA hE (hX _ hx : Fine e)
    refine ⟨t, [], ?_, ?_, .cons h3 .nil⟩
    · have := lx_in (.inl ⟨rfl, rfl⟩) h1
      simpa [toksSep, toksMore, Tree.toks] using this
    · simp only [List.map_cons, List.map_nil, WfL, Tree.Wf, and_true]
      exact h2
  | _, _, .more (e := e) hx hw hs => by
    obtain ⟨t, h1, h2, h3⟩ := hw.folA hE (hX _ hx : Fine e)
    obtain ⟨u, us, g1, g2, g3⟩ := values_out hE hX hs
    refine ⟨t, u :: us, ?_, ?_, .cons h3 g3⟩
    · have := (lx_in (.inl ⟨rfl, rfl⟩) h1).any (lx_sepr.any g1)
      simp only [List.append_assoc] at this ⊢
      refine lx_to this ?_
      simp [toksSep, toksMore, Tree.toks]
    · simp only [List.map_cons, WfL, Tree.Wf] at g2 ⊢
      exact ⟨h2, g2⟩

theorem read_values {t : Tree} {ts : List Tree} (h : WfL ((t :: ts).map .paren)) (rest : List Tok) :
    Ev (fun n => rExpr n (.opn '(' :: (toksSep ((t :: ts).map .paren) ++ [.cls ')']) ++ .op c!";" :: rest))
      (valuesTree (t :: ts), .op c!";" :: rest) := by
  cases ts with
  | nil =>
    simp only [List.map_cons, List.map_nil, WfL, and_true] at h
    have := Tree.read (t := .paren (.paren t)) (by simpa only [Tree.Wf] using h) (endE_semi rest)
    simpa only [valuesTree, Tree.toks, toksSep, toksMore, List.map_cons, List.map_nil, List.append_assoc, List.cons_append,
      List.nil_append, List.append_nil] using this
  | cons u us =>
    refine read_primary rfl rfl ?_ (endE_semi rest).toEndB
    have hc := Tree.coreL _ h
    have h1 := hc (.paren t) (by simp)
    have h2 := hc (.paren u) (by simp)
    simp only [List.map_cons, toksSep, toksMore, List.append_assoc, List.cons_append, List.nil_append]
    refine Ev.step (Ev.bind (h1.2.expr h1.1 (endE_comma _)) ?_) fun n => cons_notCls (toks_notCls h1.1) n
    refine Ev.bind (read_more (close := ')') (us.map .paren) (fun e he => hc e ?_) (.paren u) h2.1 h2.2 (.op c!";" :: rest)) ?_
    · simp only [List.map_cons, List.mem_cons]
      exact .inr (.inr he)
    · exact Ev.const _

theorem letMany_out (hE : EscOk I) (hX : ∀ u, X u → u.fine) {ns : List Str} {rs : List RExpr} {s : Str}
    (hl : ns.length = rs.length) (hn : ∀ n ∈ ns, X (.param n)) (h : ValuesText I X rs s) :
    SOut I.escaper (c!"let (" ++ namesText ns ++ c!") = (" ++ s ++ c!");\n") (.letMany ns rs) := by
  obtain ⟨t, ts, h1, h2, h3⟩ := values_out hE hX h
  cases ns with
  | nil => cases h3; simp at hl
  | cons n ns =>
    obtain ⟨ps, g1, g2⟩ := names_out n ns fun m hm => hX _ (hn m hm)
    have hp := PReads.parens g2
    rw [namesPat_eq] at hp
    have c0 : LexTo anyText c!"let (" [.word c!"let", .opn '('] := by fixed_text
    have c1 : LexTo anyText c!") = (" [.cls ')', .op c!"=", .opn '('] := by fixed_text
    have c3 : LexTo anyText c!");\n" [.cls ')', .op c!";"] := by fixed_text
    have hh := c0.any (g1.app (c1.any (h1.any c3)) fun u _ => rfl)
    refine ⟨_, _, ?_, SReads.letToks hp (read_values h2), .letMany h3⟩
    simp only [List.append_assoc] at hh ⊢
    refine lx_to hh ?_
    simp only [List.append_assoc, List.cons_append, List.nil_append]

end Askama.Spec
