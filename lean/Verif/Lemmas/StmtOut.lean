import Verif.Lemmas.StmtRead

/-! The text of statements is read as the modelled statements. -/

namespace Askama.Spec

open Askama

variable {I : GenInput} {plain : Char → Bool} {X : Use → Prop}

/-! ## Readings -/

/-- `else` -/
def isElseTok (t : Tok) : Bool := t == .word c!"else"

/-- The tokens are read as this statement. -/
structure SReads (ts : List Tok) (st : STree) : Prop where
  read : ∀ rest, headTok isElseTok rest = false → Ev (fun n => rStmt n (ts ++ rest)) (st, rest)
  start : ∃ t r, ts = t :: r ∧ (∀ c, t ≠ .cls c) ∧ isElseTok t = false

/-- The tokens are read as these statements. -/
structure SsReads (ts : List Tok) (sts : List STree) : Prop where
  read : ∀ rest, (rest = [] ∨ ∃ c r, rest = .cls c :: r) → Ev (fun n => rStmts n (ts ++ rest)) (sts, rest)
  start : ∀ rest, headTok isElseTok rest = false → headTok isElseTok (ts ++ rest) = false

theorem SsReads.nil : SsReads [] [] where
  read := fun rest h => by
    refine Ev.step (g := fun _ => some ([], rest)) (Ev.const _) fun n => ?_
    rcases h with rfl | ⟨c, r, rfl⟩
    · simp only [List.nil_append, rStmts]
    · simp only [List.nil_append, rStmts]
  start := fun rest h => h

theorem SsReads.cons {ts us : List Tok} {st : STree} {sts : List STree} (h : SReads ts st) (hs : SsReads us sts) :
    SsReads (ts ++ us) (st :: sts) where
  read := fun rest hr => by
    have hne : headTok isElseTok rest = false := by
      rcases hr with rfl | ⟨c, r, rfl⟩ <;> rfl
    refine Ev.step (g := fun n => (rStmt n (ts ++ (us ++ rest))).bind fun x => (rStmts n x.2).bind fun y =>
      some (x.1 :: y.1, y.2)) (Ev.bind (h.read _ (hs.start rest hne)) (Ev.bind (hs.read rest hr) (Ev.const _))) fun n => ?_
    rw [List.append_assoc]
    obtain ⟨t, r, rfl, h1, _⟩ := h.start
    simp only [List.cons_append]
    conv => lhs; unfold rStmts
    split
    · rename_i he; cases he
    · rename_i he; cases he; exact absurd rfl (h1 _)
    · rfl
  start := fun rest hr => by
    obtain ⟨t, r, rfl, _, h1⟩ := h.start
    exact h1

/-- Statements in braces. -/
theorem SsReads.body {ts : List Tok} {sts : List STree} (h : SsReads ts sts) (rest : List Tok) :
    Ev (fun n => rBody n (.opn '{' :: (ts ++ .cls '}' :: rest))) (sts, rest) := by
  refine Ev.step (g := fun n => (rStmts n (ts ++ .cls '}' :: rest)).bind fun x =>
    match x.2 with
    | .cls '}' :: r => some (x.1, r)
    | _ => none) (Ev.bind (h.read _ (.inr ⟨_, _, rfl⟩)) (Ev.const _)) fun n => ?_
  conv => lhs; unfold rBody
  rfl

/-- The text of a statement. -/
def SOut (esc : Str) (s : Str) (st : Stmt) : Prop :=
  ∃ ts t, LexTo anyText s ts ∧ SReads ts t ∧ SpellsStmt esc t st

/-- ... of statements. -/
def SsOut (esc : Str) (s : Str) (sts : List Stmt) : Prop :=
  ∃ ts us, LexTo anyText s ts ∧ SsReads ts us ∧ SpellsStmts esc us sts

/-! ## Expressions as statements -/

theorem SReads.expr {t : Tree} (hw : t.Wf)
    (h : ∃ a b r, t.toks = a :: b :: r ∧ (b ≠ .op c!"=" ∧ b ≠ .op c!";") ∧ a ≠ .opn '{' ∧ (∀ c, a ≠ .cls c) ∧
      ∀ w, a = .word w → segOk w = true) : SReads (t.toks ++ [.op c!";"]) (.expr t) where
  read := fun rest _ => by
    refine Ev.step (g := fun n => (rExpr n (t.toks ++ .op c!";" :: rest)).bind fun x =>
      match x.2 with
      | .op [';'] :: r => some (STree.expr x.1, r)
      | _ => none) (Ev.bind (Tree.read hw (endE_semi rest)) (Ev.const _)) fun n => ?_
    obtain ⟨a, b, r, h1, ⟨h2, h2'⟩, h3, h4, h5⟩ := h
    simp only [List.append_assoc, List.cons_append, List.nil_append, h1]
    conv => lhs; unfold rStmt
    split
    all_goals first
      | rfl
      | (rename_i he
         simp only [List.cons.injEq] at he
         first
           | exact absurd (h5 _ he.1) (by decide)
           | exact absurd he.1 h3
           | exact absurd he.2.1 h2)
  start := by
    obtain ⟨a, b, r, h1, ⟨h2, h2'⟩, h3, h4, h5⟩ := h
    refine ⟨a, _, by rw [h1]; rfl, h4, ?_⟩
    cases he : isElseTok a with
    | false => rfl
    | true =>
      simp only [isElseTok, beq_iff_eq] at he
      exact absurd (h5 _ he) (by decide)

/-! ## `let` and assignments -/

theorem PReads.notMut {ts : List Tok} {p : Pat} (h : PReads false ts p) (rest : List Tok) :
    ∀ r, ts ++ rest ≠ .word c!"mut" :: r := by
  obtain ⟨t, u, rfl, _⟩ := h.start
  intro r he
  simp only [List.cons_append, List.cons.injEq] at he
  obtain ⟨rfl, _⟩ := he
  obtain ⟨N, hN⟩ := h.one rfl [] rfl
  have := hN (N + 1) (by omega)
  simp only [List.append_nil] at this
  unfold rPat1 at this
  have h1 : segOk c!"mut" = false := by decide
  simp [h1] at this

theorem rLet_step {ts : List Tok} (h : ∀ r, ts ≠ .word c!"mut" :: r) (n : Nat) :
    rLet (n + 1) ts = (rPat1 n ts).bind fun x =>
      match x.2 with
      | .op [';'] :: r => some (.let_ x.1 none, r)
      | .op ['='] :: r => (rExpr n r).bind fun y =>
        match y.2 with
        | .op [';'] :: r => some (.let_ x.1 (some y.1), r)
        | _ => none
      | _ => none := by
  conv => lhs; unfold rLet; dsimp only
  split
  · exact absurd rfl (h _)
  · rfl

theorem SReads.ofLet {ts : List Tok} {st : STree} (h : ∀ rest, Ev (fun n => rLet n (ts ++ rest)) (st, rest)) :
    SReads (.word c!"let" :: ts) st where
  read := fun rest _ => (h rest).step fun n => by
    simp only [List.cons_append]
    conv => lhs; unfold rStmt
    rfl
  start := ⟨_, _, rfl, by simp, rfl⟩

theorem SReads.letDecl {ts : List Tok} {p : Pat} (h : PReads false ts p) :
    SReads (.word c!"let" :: (ts ++ [.op c!";"])) (.let_ p none) := by
  refine SReads.ofLet fun rest => ?_
  rw [List.append_assoc]
  exact Ev.step (Ev.bind (h.one rfl _ rfl) (Ev.const _)) fun n => rLet_step (h.notMut _) n

/-- `let` with an expression, given by its tokens. -/
theorem SReads.letToks {ts us : List Tok} {p : Pat} {t : Tree} (h : PReads false ts p)
    (hu : ∀ rest, Ev (fun n => rExpr n (us ++ .op c!";" :: rest)) (t, .op c!";" :: rest)) :
    SReads (.word c!"let" :: (ts ++ .op c!"=" :: (us ++ [.op c!";"]))) (.let_ p (some t)) := by
  refine SReads.ofLet fun rest => ?_
  simp only [List.append_assoc, List.cons_append, List.nil_append]
  refine Ev.step (Ev.bind (h.one rfl _ rfl) ?_) fun n => rLet_step (h.notMut _) n
  exact Ev.bind (hu rest) (Ev.const _)

theorem SReads.letInit {ts : List Tok} {p : Pat} {t : Tree} (h : PReads false ts p) (hw : t.Wf) :
    SReads (.word c!"let" :: (ts ++ .op c!"=" :: (t.toks ++ [.op c!";"]))) (.let_ p (some t)) :=
  SReads.letToks h fun rest => Tree.read hw (endE_semi rest)

theorem SReads.letVar {w : Str} (hn : isName w = true) (hs : segOk w = true) (hu : w ≠ c!"_") {t : Tree} (hw : t.Wf) :
    SReads (.word c!"let" :: .word w :: .op c!"=" :: (t.toks ++ [.op c!";"])) (.let_ (.path [w]) (some t)) :=
  SReads.letInit (PReads.word (.inl hn) hs hu) hw

theorem SReads.letMut {w : Str} {t : Tree} (hw : t.Wf) :
    SReads (.word c!"let" :: .word c!"mut" :: .word w :: .op c!"=" :: (t.toks ++ [.op c!";"])) (.letMut w t) := by
  refine SReads.ofLet fun rest => ?_
  simp only [List.append_assoc, List.cons_append, List.nil_append]
  refine Ev.step (g := fun n => (rExpr n (t.toks ++ .op c!";" :: rest)).bind fun x =>
      match x.2 with
      | .op [';'] :: r => some (STree.letMut w x.1, r)
      | _ => none) (Ev.bind (Tree.read hw (endE_semi rest)) (Ev.const _)) fun n => ?_
  conv => lhs; unfold rLet
  rfl

theorem SReads.assign {w : Str} (hs : segOk w = true) {t : Tree} (hw : t.Wf) :
    SReads (.word w :: .op c!"=" :: (t.toks ++ [.op c!";"])) (.assign w t) where
  read := fun rest _ => by
    simp only [List.append_assoc, List.cons_append, List.nil_append]
    refine Ev.step (g := fun n => (rExpr n (t.toks ++ .op c!";" :: rest)).bind fun x =>
      match x.2 with
      | .op [';'] :: r => some (STree.assign w x.1, r)
      | _ => none) (Ev.bind (Tree.read hw (endE_semi rest)) (Ev.const _)) fun n => ?_
    conv => lhs; unfold rStmt
    split
    all_goals first
      | (rename_i he
         simp only [List.cons.injEq, Tok.word.injEq] at he
         first
           | exact absurd (he.1 ▸ hs) (by decide)
           | (obtain ⟨rfl, _, rfl⟩ := he; rfl)
           | exact absurd he.1 (by simp)
           | exact absurd he.2.1 (by simp))
      | (rename_i hc; exact absurd rfl (hc _ _))
  start := by
    refine ⟨_, _, rfl, by simp, ?_⟩
    cases he : isElseTok (.word w) with
    | false => rfl
    | true =>
      simp only [isElseTok, beq_iff_eq, Tok.word.injEq] at he
      rw [he] at hs
      exact absurd hs (by decide)

theorem SReads.block {ts : List Tok} {sts : List STree} (h : SsReads ts sts) :
    SReads (.opn '{' :: (ts ++ [.cls '}'])) (.block sts) where
  read := fun rest _ => by
    refine Ev.step (g := fun n => (rBody n (.opn '{' :: (ts ++ .cls '}' :: rest))).bind fun x => some (STree.block x.1, x.2))
      (Ev.bind (h.body rest) (Ev.const _)) fun n => ?_
    simp only [List.append_assoc, List.cons_append, List.nil_append]
    conv => lhs; unfold rStmt
    rfl
  start := ⟨_, _, rfl, by simp, rfl⟩

theorem SReads.brk : SReads [.word c!"break", .op c!";"] .brk where
  read := fun rest _ => Ev.step (g := fun _ => some (STree.brk, rest)) (Ev.const _) fun n => by
    simp only [List.cons_append, List.nil_append]
    conv => lhs; unfold rStmt
    rfl
  start := ⟨_, _, rfl, by simp, rfl⟩

theorem SReads.cont : SReads [.word c!"continue", .op c!";"] .cont where
  read := fun rest _ => Ev.step (g := fun _ => some (STree.cont, rest)) (Ev.const _) fun n => by
    simp only [List.cons_append, List.nil_append]
    conv => lhs; unfold rStmt
    rfl
  start := ⟨_, _, rfl, by simp, rfl⟩

/-! ## `for` -/

theorem SReads.for_ {or : Bool} {ps ts : List Tok} {p : Pat} {t : Tree} {sts : List STree} (hp : PReads or ps p) (hw : t.Wf)
    (hl : 1 ≤ t.level) (h : SsReads ts sts) :
    SReads (.word c!"for" :: (ps ++ .word c!"in" :: (t.toks ++ .opn '{' :: (ts ++ [.cls '}'])))) (.for_ p t sts) where
  read := fun rest _ => by
    simp only [List.append_assoc, List.cons_append, List.nil_append]
    refine Ev.step (g := fun n => (rPat n (ps ++ .word c!"in" :: (t.toks ++ .opn '{' :: (ts ++ .cls '}' :: rest)))).bind fun x =>
      match x.2 with
      | .word ['i', 'n'] :: r => (rExpr n r).bind fun y => (rBody n y.2).bind fun z => some (STree.for_ x.1 y.1 z.1, z.2)
      | _ => none) (Ev.bind (hp.all _ rfl rfl) ?_) fun n => ?_
    · exact Ev.bind ((t.core hw).expr1 hw hl (endB_brace _)) (Ev.bind (h.body rest) (Ev.const _))
    · conv => lhs; unfold rStmt
      rfl
  start := ⟨_, _, rfl, by simp, rfl⟩

/-! ## `match` -/

/-- The tokens of arms. -/
structure ArmsRead (ts : List Tok) (arms : List SArm) : Prop where
  read : ∀ rest, Ev (fun n => rArms n (ts ++ .cls '}' :: rest)) (arms, rest)

theorem ArmsRead.nil : ArmsRead [] [] where
  read := fun rest => Ev.step (g := fun _ => some ([], rest)) (Ev.const _) fun n => by
    simp only [List.nil_append]
    unfold rArms
    rfl

theorem ArmsRead.cons {or : Bool} {ps ts us : List Tok} {p : Pat} {b : List STree} {arms : List SArm} (hp : PReads or ps p)
    (h : SsReads ts b) (hs : ArmsRead us arms) :
    ArmsRead (ps ++ .op c!"=>" :: .opn '{' :: (ts ++ .cls '}' :: us)) (.mk p b :: arms) where
  read := fun rest => by
    simp only [List.append_assoc, List.cons_append]
    refine Ev.step (g := fun n => (rPat n (ps ++ .op c!"=>" :: .opn '{' :: (ts ++ .cls '}' :: (us ++ .cls '}' :: rest)))).bind
      fun x => match x.2 with
        | .op ['=', '>'] :: r => (rBody n r).bind fun y => (rArms n y.2).bind fun z => some (SArm.mk x.1 y.1 :: z.1, z.2)
        | _ => none) (Ev.bind (hp.all _ rfl rfl) ?_) fun n => ?_
    · exact Ev.bind (h.body _) (Ev.bind (hs.read rest) (Ev.const _))
    · obtain ⟨t, r, rfl, ht⟩ := hp.start
      simp only [List.cons_append]
      conv => lhs; unfold rArms
      split
      · rename_i he; cases he; exact absurd rfl (ht _)
      · rfl

theorem SReads.match_ {ts : List Tok} {t : Tree} {arms : List SArm} (hw : t.Wf) (hl : 1 ≤ t.level) (h : ArmsRead ts arms) :
    SReads (.word c!"match" :: (t.toks ++ .opn '{' :: (ts ++ [.cls '}']))) (.match_ t arms) where
  read := fun rest _ => by
    simp only [List.append_assoc, List.cons_append, List.nil_append]
    refine Ev.step (g := fun n => (rExpr n (t.toks ++ .opn '{' :: (ts ++ .cls '}' :: rest))).bind fun x =>
      match x.2 with
      | .opn '{' :: r => (rArms n r).bind fun y => some (STree.match_ x.1 y.1, y.2)
      | _ => none) (Ev.bind ((t.core hw).expr1 hw hl (endB_brace _)) ?_) fun n => ?_
    · exact Ev.bind (h.read rest) (Ev.const _)
    · conv => lhs; unfold rStmt
      rfl
  start := ⟨_, _, rfl, by simp, rfl⟩

/-! ## `if` -/

/-- The tokens are read as this test. -/
def TReads (ts : List Tok) (t : Test) : Prop := ∀ rest, Ev (fun n => rTest n (ts ++ .opn '{' :: rest)) (t, .opn '{' :: rest)

/-- What follows a branch. -/
def rElse (n : Nat) : List Tok → Option (List SBranch × List Tok)
  | .word ['e', 'l', 's', 'e'] :: .word ['i', 'f'] :: r => rIf n r
  | .word ['e', 'l', 's', 'e'] :: r => (rBody n r).bind fun x => some ([.mk .always x.1], x.2)
  | r => some ([], r)

theorem rIf_step (n : Nat) (ts : List Tok) : rIf (n + 1) ts = (rTest n ts).bind fun x => (rBody n x.2).bind fun y =>
    (rElse n y.2).bind fun z => some (.mk x.1 y.1 :: z.1, z.2) := by
  conv => lhs; unfold rIf
  simp only [Option.bind_eq_bind]
  congr 1
  funext x
  congr 1
  funext y
  obtain ⟨b, r⟩ := y
  dsimp only
  unfold rElse
  split
  · rfl
  · rename_i r' h1
    split
    · rename_i he
      simp only [List.cons.injEq, true_and] at he
      exact absurd he (h1 _)
    · rename_i he
      cases he
      cases rBody n r' <;> rfl
    · rename_i h2
      exact absurd rfl (h2 _)
  · rename_i h1 h2
    split
    · exact absurd rfl (h1 _)
    · exact absurd rfl (h2 _)
    · rfl

/-- The tokens of further branches, without the last closing brace. -/
structure ElseReads (ts : List Tok) (bs : List SBranch) : Prop where
  read : ∀ rest, headTok isElseTok rest = false →
    ∃ us, ts ++ .cls '}' :: rest = .cls '}' :: us ∧ Ev (fun n => rElse n us) (bs, rest)

theorem ElseReads.nil : ElseReads [] [] where
  read := fun rest h => by
    refine ⟨rest, rfl, (Ev.const _).congr fun n => ?_⟩
    unfold rElse
    split
    · simp [headTok, isElseTok] at h
    · simp [headTok, isElseTok] at h
    · rfl

/-- The tokens from the first test on, without the last closing brace. -/
def IfReads (ts : List Tok) (bs : List SBranch) : Prop :=
  ∀ rest, headTok isElseTok rest = false → Ev (fun n => rIf n (ts ++ .cls '}' :: rest)) (bs, rest)

theorem IfReads.mk {ts us vs : List Tok} {t : Test} {b : List STree} {bs : List SBranch} (ht : TReads ts t)
    (hb : SsReads us b) (hs : ElseReads vs bs) : IfReads (ts ++ .opn '{' :: (us ++ vs)) (.mk t b :: bs) := by
  intro rest hr
  obtain ⟨ws, e, h⟩ := hs.read rest hr
  simp only [List.append_assoc, List.cons_append, e]
  refine Ev.step (Ev.bind (ht _) (Ev.bind (hb.body ws) (Ev.bind h ?_))) fun n => rIf_step n _
  exact Ev.const _

theorem ElseReads.elseIf {ts : List Tok} {bs : List SBranch} (h : IfReads ts bs) :
    ElseReads (.cls '}' :: .word c!"else" :: .word c!"if" :: ts) bs where
  read := fun rest hr => ⟨_, rfl, (h rest hr).congr fun n => rfl⟩

theorem ElseReads.else_ {ts : List Tok} {b : List STree} (h : SsReads ts b) :
    ElseReads (.cls '}' :: .word c!"else" :: .opn '{' :: ts) [.mk .always b] where
  read := fun rest hr => ⟨_, rfl, Ev.congr (g := fun n => (rBody n (.opn '{' :: (ts ++ .cls '}' :: rest))).bind fun x =>
    some ([SBranch.mk .always x.1], x.2)) (Ev.bind (h.body rest) (Ev.const _)) fun n => rfl⟩

theorem SReads.if_ {ts : List Tok} {bs : List SBranch} (h : IfReads ts bs) :
    SReads (.word c!"if" :: (ts ++ [.cls '}'])) (.if_ bs) where
  read := fun rest hr => by
    simp only [List.append_assoc, List.cons_append, List.nil_append]
    refine Ev.step (g := fun n => (rIf n (ts ++ .cls '}' :: rest)).bind fun x => some (STree.if_ x.1, x.2))
      (Ev.bind (h rest hr) (Ev.const _)) fun n => ?_
    conv => lhs; unfold rStmt
    rfl
  start := ⟨_, _, rfl, by simp, rfl⟩

/-! ### Tests -/

theorem TReads.cast {t : Tree} (hw : t.Wf) (hl : 10 ≤ t.level) (ty : Str) :
    TReads (.op c!"*" :: .opn '(' :: (t.toks ++ [.word c!"as", .amp false, .word ty, .cls ')'])) (.cast t ty) := by
  intro rest
  simp only [List.append_assoc, List.cons_append, List.nil_append]
  refine Ev.step (g := fun n => (rUnary n (t.toks ++ .word c!"as" :: .amp false :: .word ty :: .cls ')' :: .opn '{' :: rest)).bind
    fun x => match x.2 with
      | .word ['a', 's'] :: .amp false :: .word ty :: .cls ')' :: r => some (Test.cast x.1 ty, r)
      | _ => none) (Ev.bind ((t.core hw).unary hl rfl) (Ev.const _)) fun n => ?_
  conv => lhs; unfold rTest; dsimp only
  rfl

theorem rConds_stop (r : List Tok) : Ev (fun n => rConds n (.opn '{' :: r)) ([], .opn '{' :: r) :=
  Ev.step (g := fun _ => some ([], .opn '{' :: r)) (Ev.const _) fun n => by
    unfold rConds
    rfl

theorem rTest_let (n : Nat) (ts : List Tok) : rTest (n + 1) (.word c!"let" :: ts) = (rPat n ts).bind fun x =>
    match x.2 with
    | .op ['='] :: r => (rBin n 2 r).bind fun y => (rConds n y.2).bind fun z => some (Test.let_ x.1 y.1 z.1, z.2)
    | _ => none := by
  conv => lhs; unfold rTest; dsimp only
  rfl

theorem TReads.let_ {or : Bool} {ps : List Tok} {p : Pat} {t : Tree} (hp : PReads or ps p) (hw : t.Wf) (hl : 3 ≤ t.level) :
    TReads (.word c!"let" :: (ps ++ .op c!"=" :: t.toks)) (.let_ p t []) := by
  intro rest
  simp only [List.append_assoc, List.cons_append, List.nil_append]
  refine Ev.step (Ev.bind (hp.all _ rfl rfl) ?_) fun n => rTest_let n _
  exact Ev.bind ((t.core hw).full 2 (by omega) (by omega) rfl fun o r e => by cases e) (Ev.bind (rConds_stop rest) (Ev.const _))

theorem TReads.letAnd {or : Bool} {ps : List Tok} {p : Pat} {t u : Tree} (hp : PReads or ps p) (hw : t.Wf) (hl : 3 ≤ t.level)
    (hw' : u.Wf) (hl' : 3 ≤ u.level) :
    TReads (.word c!"let" :: (ps ++ .op c!"=" :: (t.toks ++ (BinOp.and.toks ++ u.toks)))) (.let_ p t [u]) := by
  intro rest
  simp only [List.append_assoc, List.cons_append, List.nil_append]
  refine Ev.step (Ev.bind (hp.all _ rfl rfl) ?_) fun n => rTest_let n _
  refine Ev.bind ((t.core hw).full 2 (by omega) (by omega) rfl fun o r e => ?_)
    (Ev.bind (a := ([u], .opn '{' :: rest)) ?_ (Ev.const _))
  · rw [binOpAt_toks] at e
    cases e
    decide
  · refine Ev.step (g := fun n => (rBin n 2 (u.toks ++ .opn '{' :: rest)).bind fun x => (rConds n x.2).bind fun y =>
      some (x.1 :: y.1, y.2)) (Ev.bind ((u.core hw').full 2 (by omega) (by omega) rfl fun o r e => by cases e)
        (Ev.bind (rConds_stop rest) (Ev.const _))) fun n => ?_
    conv => lhs; unfold rConds
    rw [binOpAt_toks]
    rfl

theorem TReads.expr {t : Tree} (hw : t.Wf) (hl : 1 ≤ t.level)
    (h : ∃ a r, t.toks = a :: r ∧ a ≠ .word c!"let" ∧ a ≠ .op c!"*") : TReads t.toks (.expr t) := by
  intro rest
  refine Ev.step (g := fun n => (rExpr n (t.toks ++ .opn '{' :: rest)).bind fun x => some (Test.expr x.1, x.2))
    (Ev.bind ((t.core hw).expr1 hw hl (endB_brace _)) (Ev.const _)) fun n => ?_
  obtain ⟨a, r, h1, h2, h3⟩ := h
  rw [h1]
  simp only [List.cons_append]
  conv => lhs; unfold rTest; dsimp only
  split
  · rename_i he; cases he; exact absurd rfl h2
  · rename_i he
    simp only [List.cons.injEq] at he
    exact absurd he.1 h3
  · rfl

end Askama.Spec
