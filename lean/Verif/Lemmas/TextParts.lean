import Verif.Lemmas.RustLex
import Verif.Lemmas.GenEval
import Verif.Spec.Spells

/-! Pieces of the text of an expression, their tokens and trees. -/

namespace Askama.Spec

open Askama

/-! ## Tokens of trees have closed brackets -/

theorem Shut.nil : Shut [] := fun _ _ _ _ h => h

theorem Shut.app {a b : List Tok} (ha : Shut a) (hb : Shut b) : Shut (a ++ b) := fun st d r x h => by
  rw [List.append_assoc, ha st d _ _ (hb st d r x h), List.append_assoc]

/-- Tokens that are not brackets. -/
def notBracket : Tok → Bool
  | .opn _ | .cls _ => false
  | _ => true

theorem Shut.tok {t : Tok} (h : notBracket t = true) : Shut [t] := fun st d r x hx => by
  simp only [List.cons_append, List.nil_append]
  cases t with
  | opn c => cases h
  | cls c => cases h
  | _ => simp [untilClose, hx]

theorem Shut.cons {t : Tok} (h : notBracket t = true) {ts : List Tok} (hs : Shut ts) : Shut (t :: ts) :=
  (Shut.tok h).app hs

theorem Shut.group {c : Char} {ts : List Tok} (h : Shut ts) : Shut (.opn c :: (ts ++ [.cls (closer c)])) :=
  fun st d r x hx => by
  simp only [List.cons_append, List.append_assoc, List.nil_append, untilClose]
  rw [h (d :: st) (closer c) (.cls (closer c) :: r) (.cls (closer c) :: x.1, x.2) (by
    simp [untilClose, hx])]
  simp

theorem shut_segs : (p : List Str) → Shut (segToks p)
  | [] => Shut.nil
  | s :: r => Shut.cons rfl (Shut.cons rfl (shut_segs r))

theorem shut_path (p : List Str) : Shut (pathToks p) := by
  match p with
  | [] => exact Shut.nil
  | [] :: r => exact shut_segs r
  | (c :: s) :: r => exact Shut.cons rfl (shut_segs r)

theorem shut_op (op : BinOp) : Shut op.toks := by
  cases op <;> first
    | exact Shut.tok rfl
    | exact Shut.cons rfl (Shut.tok rfl)

mutual
/-- The tokens of a tree have closed brackets. -/
theorem Tree.shut : (t : Tree) → t.Wf → Shut t.toks
  | .lit t, h => by
    simp only [Tree.Wf] at h
    simp only [Tree.toks]
    cases t <;> first | (cases h; done) | exact Shut.tok rfl
  | .path p, _ => by simpa only [Tree.toks] using shut_path p
  | .field e n, h => by
    simp only [Tree.Wf] at h
    simp only [Tree.toks]
    refine (Tree.shut e h.1).app (Shut.cons rfl (Shut.tok ?_))
    simp only [fieldTok]
    split <;> rfl
  | .index e k, h => by
    simp only [Tree.Wf] at h
    simp only [Tree.toks]
    exact (Tree.shut e h.1).app (Shut.group (c := '[') (Tree.shut k h.2.2))
  | .call f args, h => by
    simp only [Tree.Wf] at h
    simp only [Tree.toks]
    exact (Tree.shut f h.1).app (Shut.group (c := '(') (shut_sep args h.2.2))
  | .try_ e, h => by
    simp only [Tree.Wf] at h
    simp only [Tree.toks]
    exact (Tree.shut e h.1).app (Shut.tok rfl)
  | .mac p b, h => by
    simp only [Tree.Wf] at h
    simp only [Tree.toks]
    exact (shut_path p).app (Shut.cons rfl (Shut.group (c := '(') h.2))
  | .unary op e, h => by
    simp only [Tree.Wf] at h
    simp only [Tree.toks]
    exact Shut.cons rfl (Tree.shut e h.2.1)
  | .borrow e, h => by
    simp only [Tree.Wf] at h
    simp only [Tree.toks]
    exact Shut.cons rfl (Tree.shut e h.1)
  | .binary op a b, h => by
    simp only [Tree.Wf] at h
    simp only [Tree.toks]
    exact (Tree.shut a h.1).app ((shut_op op).app (Tree.shut b h.2.1))
  | .range op a b, h => by
    simp only [Tree.Wf] at h
    simp only [Tree.toks]
    exact (shut_opt a (fun e he => by subst he; simp only [WfO] at h; exact h.2.1.1)).app
      (Shut.cons rfl (shut_opt b (fun e he => by subst he; simp only [WfO] at h; exact h.2.2.1)))
  | .array es, h => by
    simp only [Tree.Wf] at h
    simp only [Tree.toks]
    exact Shut.group (c := '[') (shut_sep es h)
  | .tuple es, h => by
    simp only [Tree.Wf] at h
    simp only [Tree.toks]
    exact Shut.group (c := '(') (shut_end es h)
  | .paren e, h => by
    simp only [Tree.Wf] at h
    simp only [Tree.toks]
    exact Shut.group (c := '(') (Tree.shut e h)
  | .closure x e, h => by
    simp only [Tree.Wf] at h
    simp only [Tree.toks]
    exact Shut.cons rfl (Shut.cons rfl (Shut.cons rfl (Tree.shut e h)))
  | .fn_ ps ty b, h => by
    simp only [Tree.Wf] at h
    simp only [Tree.toks]
    exact Shut.cons rfl (h.2.1.app (Shut.cons rfl (Shut.cons rfl (Shut.cons rfl (shut_body b h.2.2)))))
  | .ret e, h => by
    simp only [Tree.Wf] at h
    simp only [Tree.toks]
    exact Shut.cons rfl (Tree.shut e h)
  | .let_ _ _, h => by simp only [Tree.Wf] at h
  | .if_ _ _, h => by simp only [Tree.Wf] at h
  | .block ss l, h => by
    simp only [Tree.Wf] at h
    simp only [Tree.toks]
    have h1 := (shut_stmts ss h.1).app (shut_opt l (fun e he => by subst he; simp only [WfT] at h; exact h.2.1))
    have := Shut.group (c := '{') h1
    rw [List.append_assoc] at this
    exact this
theorem shut_sep : (es : List Tree) → WfL es → Shut (toksSep es)
  | [], _ => by simpa only [toksSep] using Shut.nil
  | e :: es, h => by
    simp only [WfL] at h
    simp only [toksSep]
    exact (Tree.shut e h.1).app (shut_more es h.2)
theorem shut_more : (es : List Tree) → WfL es → Shut (toksMore es)
  | [], _ => by simpa only [toksMore] using Shut.nil
  | e :: es, h => by
    simp only [WfL] at h
    simp only [toksMore]
    exact Shut.cons rfl ((Tree.shut e h.1).app (shut_more es h.2))
theorem shut_end : (es : List Tree) → WfL es → Shut (toksEnd es)
  | [], _ => by simpa only [toksEnd] using Shut.nil
  | e :: es, h => by
    simp only [WfL] at h
    simp only [toksEnd]
    exact (Tree.shut e h.1).app (Shut.cons rfl (shut_end es h.2))
theorem shut_opt : (o : Option Tree) → (∀ e, o = some e → e.Wf) → Shut (toksOpt o)
  | none, _ => by simpa only [toksOpt] using Shut.nil
  | some e, h => by
    simp only [toksOpt]
    exact Tree.shut e (h e rfl)
theorem shut_stmts : (ss : List Tree) → WfS ss → Shut (toksStmts ss)
  | [], _ => by simpa only [toksStmts] using Shut.nil
  | e :: es, h => by
    simp only [WfS] at h
    simp only [toksStmts]
    refine (shut_stmt e h.1).app (Shut.app ?_ (shut_stmts es h.2))
    split
    · exact Shut.nil
    · exact Shut.tok rfl
theorem shut_stmt : (t : Tree) → t.WfStmt → Shut t.toks
  | .let_ x e, h => by
    simp only [Tree.WfStmt] at h
    simp only [Tree.toks]
    exact Shut.cons rfl (Shut.cons rfl (Shut.cons rfl ((Tree.shut e h).app (Shut.tok rfl))))
  | .if_ c b, h => by
    simp only [Tree.WfStmt] at h
    simp only [Tree.toks]
    refine Shut.cons rfl ((Tree.shut c h.1).app (shut_body b h.2.2))
  | .ret e, h => by
    simp only [Tree.WfStmt] at h
    simp only [Tree.toks]
    exact Shut.cons rfl (Tree.shut e h)
  | .lit _, h | .path _, h | .field _ _, h | .index _ _, h | .call _ _, h | .try_ _, h | .mac _ _, h | .unary _ _, h
  | .borrow _, h | .binary _ _ _, h | .range _ _ _, h | .array _, h | .tuple _, h | .paren _, h | .closure _ _, h
  | .fn_ _ _ _, h
  | .block _ _, h => by simp [Tree.WfStmt] at h
theorem shut_body : (t : Tree) → t.WfBlock → Shut t.toks
  | .block ss l, h => by
    simp only [Tree.WfBlock] at h
    simp only [Tree.toks]
    have h1 := (shut_stmts ss h.1).app (shut_opt l (fun e he => by subst he; simp only [WfT] at h; exact h.2.1))
    have := Shut.group (c := '{') h1
    rw [List.append_assoc] at this
    exact this
  | .lit _, h | .path _, h | .field _ _, h | .index _ _, h | .call _ _, h | .try_ _, h | .mac _ _, h | .unary _ _, h
  | .borrow _, h | .binary _ _ _, h | .range _ _ _, h | .array _, h | .tuple _, h | .paren _, h | .closure _ _, h
  | .fn_ _ _ _, h
  | .ret _, h | .let_ _ _, h | .if_ _ _, h => by simp [Tree.WfBlock] at h
end

/-! ## First characters -/

/-- Characters an operand begins with. -/
def startC (c : Char) : Bool := wordStart c || isDec c || ['"', '\'', '(', '[', '&', '*', '!', '-', ':'].contains c

/-- Text and tokens begin alike. -/
def Opens (s : Str) (ts : List Tok) : Prop :=
  ∃ c s' k ts', s = c :: s' ∧ ts = k :: ts' ∧ startC c = true ∧ (c == '&') = isAmp k ∧ (k == .opn '{') = false

theorem startC_ne {c : Char} (h : startC c = true) : c ≠ '=' ∧ c ≠ '>' ∧ c ≠ '.' := by
  refine ⟨?_, ?_, ?_⟩ <;> (rintro rfl; exact absurd h (by decide))

theorem Opens.app {s : Str} {ts : List Tok} (h : Opens s ts) (u : Str) (us : List Tok) : Opens (s ++ u) (ts ++ us) := by
  obtain ⟨c, s', k, ts', rfl, rfl, h1, h2, h3⟩ := h
  exact ⟨c, s' ++ u, k, ts' ++ us, rfl, rfl, h1, h2, h3⟩

theorem Opens.brace {s : Str} {ts : List Tok} (h : Opens s ts) : headTok (· == .opn '{') ts = false := by
  obtain ⟨c, s', k, ts', rfl, rfl, h1, h2, h3⟩ := h
  exact h3

theorem Opens.amp {s : Str} {ts : List Tok} (h : Opens s ts) (u : Str) :
    headIs (· == '&') (s ++ u) = headTok isAmp ts := by
  obtain ⟨c, s', k, ts', rfl, rfl, h1, h2, h3⟩ := h
  exact h2

theorem Opens.head {s : Str} {ts : List Tok} (h : Opens s ts) {p : Char → Bool}
    (hp : ∀ c, p c = true → c = '=' ∨ c = '>' ∨ c = '.') (u : Str) : headIs p (s ++ u) = false := by
  obtain ⟨c, s', k, ts', rfl, rfl, h1, h2, h3⟩ := h
  simp only [List.cons_append, headIs]
  cases hq : p c with
  | false => rfl
  | true =>
    have := startC_ne h1
    rcases hp c hq with rfl | rfl | rfl <;> simp_all

theorem Opens.word {w : Str} (h : RustWord w) (ts : List Tok) : Opens w (.word w :: ts) := by
  obtain ⟨c, r, rfl, hc⟩ := h.head
  refine ⟨c, r, _, ts, rfl, rfl, by simp [startC, hc], ?_, rfl⟩
  simpa [isAmp] using (wordStart_cases hc).2.2.2.2.1

/-! ## Operands -/

/-- `&`, repeated. -/
def borrows : Nat → Tree → Tree
  | 0, t => t
  | n + 1, t => .borrow (borrows n t)

theorem borrows_level (n : Nat) {c : Tree} (h : 11 ≤ c.level) : 10 ≤ (borrows n c).level := by
  cases n with
  | zero => simp only [borrows]; omega
  | succ n => simp [borrows, Tree.level]

theorem borrows_wf : (n : Nat) → {c : Tree} → c.Wf → 11 ≤ c.level → (borrows n c).Wf
  | 0, c, h, _ => h
  | n + 1, c, h, hl => by
    simp only [borrows, Tree.Wf]
    exact ⟨borrows_wf n h hl, borrows_level n hl⟩

theorem toks_ne {t : Tree} (h : t.Wf) (hl : 1 ≤ t.level) : t.toks ≠ [] := by
  intro he
  have := t.start h hl
  rw [he] at this
  cases this

/-- Something behind an operand does not change the references before it. -/
theorem borrows_post : (n : Nat) → {c p : Tree} → {ex : List Tok} → c.toks ≠ [] → p.toks = c.toks ++ ex →
    (borrows n p).toks = (borrows n c).toks ++ ex
  | 0, c, p, ex, _, hp => hp
  | n + 1, c, p, ex, h, hp => by
    have ih := borrows_post n h hp
    have hne : (borrows n c).toks ≠ [] := by
      cases n with
      | zero => exact h
      | succ n => simp [borrows, Tree.toks]
    have hh : headTok isAmp (borrows n p).toks = headTok isAmp (borrows n c).toks := by
      rw [ih]
      cases hc : (borrows n c).toks with
      | nil => exact absurd hc hne
      | cons k ts => rfl
    simp only [borrows, Tree.toks]
    rw [hh, ih]
    rfl

theorem borrows_spells {esc : Str} {r : RExpr} : (n : Nat) → {c : Tree} → Spells esc c r → Spells esc (borrows n c) r
  | 0, _, h => h
  | n + 1, _, h => .borrow (borrows_spells n h)

/-- The text of an operand. -/
def OutS (esc : Str) (F : Str → Bool) (s : Str) (r : RExpr) : Prop :=
  ∃ n c, LexTo F s (borrows n c).toks ∧ c.Wf ∧ 11 ≤ c.level ∧ Opens s (borrows n c).toks ∧ Spells esc c r

/-- The text of an expression that binds this tightly. -/
def Out (esc : Str) (k : Nat) (s : Str) (r : RExpr) : Prop :=
  ∃ t, LexTo (if k = 0 then folA else folR) s t.toks ∧ t.Wf ∧ min k 10 ≤ t.level ∧ (1 ≤ k → Opens s t.toks)
    ∧ Spells esc t r

variable {esc : Str} {s : Str} {r : RExpr}

theorem OutS.mono {F G : Str → Bool} (h : OutS esc F s r) (hg : ∀ u, G u = true → F u = true) : OutS esc G s r := by
  obtain ⟨n, c, h1, h2⟩ := h
  exact ⟨n, c, h1.mono hg, h2⟩

theorem OutS.out {F : Str → Bool} (h : OutS esc F s r) (hf : ∀ u, folR u = true → F u = true) {k : Nat} (hk : k ≠ 0) :
    Out esc k s r := by
  obtain ⟨n, c, h1, h2, h3, h4, h5⟩ := h
  refine ⟨borrows n c, ?_, borrows_wf n h2 h3, ?_, fun _ => h4, borrows_spells n h5⟩
  · rw [if_neg hk]
    exact h1.mono hf
  · have := borrows_level n h3
    omega

/-- A single operand. -/
theorem OutS.prim {F : Str → Bool} {t : Tree} (h1 : LexTo F s t.toks) (h2 : t.Wf) (h3 : 11 ≤ t.level) (h4 : Opens s t.toks)
    (h5 : Spells esc t r) : OutS esc F s r := ⟨0, t, h1, h2, h3, h4, h5⟩

/-- Something behind an operand. -/
theorem OutS.post {F G : Str → Bool} (h : OutS esc F s r) {x : Str} {ex : List Tok} {r' : RExpr} {p : Tree → Tree}
    (hx : LexTo G x ex) (hf : ∀ u, G u = true → F (x ++ u) = true)
    (hp : ∀ c : Tree, c.Wf → 11 ≤ c.level → (p c).Wf ∧ 11 ≤ (p c).level ∧ (p c).toks = c.toks ++ ex)
    (hr : ∀ c, Spells esc c r → Spells esc (p c) r') : OutS esc G (s ++ x) r' := by
  obtain ⟨n, c, h1, h2, h3, h4, h5⟩ := h
  obtain ⟨p1, p2, p3⟩ := hp c h2 h3
  have e := borrows_post n (toks_ne h2 (by omega)) p3
  refine ⟨n, p c, ?_, p1, p2, ?_, hr c h5⟩
  · rw [e]
    exact h1.app hx hf
  · rw [e]
    exact h4.app x ex

/-- `&` before an operand. -/
theorem OutS.amp {F : Str → Bool} (h : OutS esc F s r) : OutS esc F (c!"&" ++ s) r := by
  obtain ⟨n, c, h1, h2, h3, h4, h5⟩ := h
  refine ⟨n + 1, c, ?_, h2, h3, ?_, h5⟩
  · intro rest hr
    rw [List.append_assoc]
    have ha := lx_amp (rest := s ++ rest) (h4.head (by simp) rest)
    rw [h4.amp rest] at ha
    have := ha.trans (h1 rest hr)
    simpa only [borrows, Tree.toks, List.cons_append, List.nil_append] using this
  · simp only [borrows, Tree.toks]
    exact ⟨'&', s, _, _, rfl, rfl, rfl, rfl, rfl⟩

/-! ## Expressions in brackets -/

theorem Out.folA {k : Nat} (h : Out esc k s r) : ∃ t, LexTo folA s t.toks ∧ t.Wf ∧ Spells esc t r := by
  obtain ⟨t, h1, h2, _, _, h5⟩ := h
  refine ⟨t, ?_, h2, h5⟩
  split at h1
  · exact h1
  · exact h1.mono fun _ => folR_of_A

theorem lx_in {o c : Char} (ho : (o = '(' ∧ c = ')') ∨ (o = '[' ∧ c = ']')) {ts : List Tok} (h : LexTo folA s ts) :
    LexTo anyText ([o] ++ s ++ [c]) (.opn o :: (ts ++ [.cls c])) := by
  have h1 : LexTo anyText [o] [.opn o] := lx_opn (by rcases ho with ⟨rfl, _⟩ | ⟨rfl, _⟩ <;> simp)
  have h2 : LexTo anyText [c] [.cls c] := lx_cls (by rcases ho with ⟨_, rfl⟩ | ⟨_, rfl⟩ <;> simp)
  rw [List.append_assoc]
  exact h1.any (h.app h2 fun u _ => by rcases ho with ⟨_, rfl⟩ | ⟨_, rfl⟩ <;> rfl)

/-! ## Names -/

theorem keyword_plain {x : Str} (h : x ∈ reserved ∨ x ∈ pathWords) (hk : x ∉ rustKeywords) :
    x ∈ [c!"loop", c!"self", c!"Self", c!"super"] := by
  have : ∀ y ∈ reserved ++ pathWords, y ∈ rustKeywords ∨ y ∈ [c!"loop", c!"self", c!"Self", c!"super"] := by decide
  rcases this x (by simpa using h) with h1 | h1
  · exact absurd h1 hk
  · exact h1

theorem plainName_name {x : Str} (h : plainName x = true) : isName x = true := by
  simp only [plainName, Bool.and_eq_true] at h
  exact h.1

theorem plainName_word {x : Str} (h : plainName x = true) : RustWord (normalizeIdentifier x) :=
  RustWord.normal (plainName_name h)

theorem plainName_ok {x : Str} (h : plainName x = true) : nameOk (normalizeIdentifier x) = true := by
  simp only [plainName, Bool.and_eq_true, Bool.not_eq_true', List.contains_eq_mem, decide_eq_false_iff_not] at h
  rw [normalizeIdentifier_eq, rawIdent]
  split
  · simp [nameOk, reserved, pathWords]
  · rename_i hk
    simp only [nameOk, Bool.and_eq_true, Bool.not_eq_true', List.contains_eq_mem, decide_eq_false_iff_not]
    exact ⟨fun h1 => h.2 (keyword_plain (.inl h1) hk), fun h1 => h.2 (keyword_plain (.inr h1) hk)⟩

theorem nameOk_seg {x : Str} (h : nameOk x = true) : segOk x = true := by
  simp only [nameOk, Bool.and_eq_true] at h
  exact h.1

theorem RustWord.notDec {w : Str} (h : RustWord w) : headIs isDec w = false := by
  obtain ⟨c, r, rfl, hc⟩ := h.head
  exact (wordStart_cases hc).1

theorem fieldOk_word {w : Str} (h : RustWord w) (hn : nameOk w = true) : FieldOk w := by
  simp only [FieldOk, h.notDec]
  simpa using hn

/-- A text with a dot is no keyword. -/
theorem normal_dot {x : Str} (h : '.' ∈ x) : normalizeIdentifier x = x := by
  rw [normalizeIdentifier_eq, rawIdent, if_neg]
  intro hk
  have : ∀ y ∈ rustKeywords, '.' ∉ y := by decide
  exact this x hk h

theorem normal_dec {x : Str} (h : headIs isDec x = true) : normalizeIdentifier x = x := by
  rw [normalizeIdentifier_eq, rawIdent, if_neg]
  intro hk
  have : ∀ y ∈ rustKeywords, headIs isDec y = false := by decide
  rw [this x hk] at h
  cases h

/-- One word. -/
theorem OutS.name {w : Str} (h : RustWord w) (hs : segOk w = true) (hr : Spells esc (.path [w]) r) :
    OutS esc folP w r := by
  have ht : (Tree.path [w]).toks = [.word w] := by
    obtain ⟨c, u, rfl, _⟩ := h.head
    rfl
  have hp : PathOk [w] := by
    obtain ⟨c, u, rfl, _⟩ := h.head
    exact ⟨hs, by simp⟩
  refine OutS.prim ?_ (by simpa only [Tree.Wf] using hp) (by simp [Tree.level]) ?_ hr
  · rw [ht]
    exact h.lex.mono fun _ => noWord_folP
  · rw [ht]
    exact Opens.word h []

/-- A field behind an operand. -/
theorem OutS.fieldName {F : Str → Bool} (h : OutS esc F s r) (hf : ∀ u, folW u = true → F u = true) {w : Str} {r' : RExpr}
    (hw : RustWord w) (hn : nameOk w = true) (hr : ∀ c, Spells esc c r → Spells esc (.field c w) r') :
    OutS esc folP (s ++ (c!"." ++ w)) r' := by
  refine h.post (p := fun c => .field c w) ((lx_fieldName hw).mono fun _ => noWord_folP) ?_ ?_ hr
  · intro u hu
    apply hf
    obtain ⟨c, v, rfl, hc⟩ := hw.head
    simp [folW, hc]
  · intro c hc hl
    refine ⟨by simp only [Tree.Wf]; exact ⟨hc, hl, fieldOk_word hw hn⟩, by simp [Tree.level], ?_⟩
    simp [Tree.toks, fieldTok, hw.notDec]

theorem fieldNumber_head {a : Str} (h : isFieldNumber a = true) : headIs isDec a = true ∧ a ≠ [] ∧ a.all isDec = true := by
  simp only [isFieldNumber, Bool.and_eq_true, Bool.not_eq_true', List.isEmpty_eq_false_iff] at h
  obtain ⟨h1, h2⟩ := h
  cases a with
  | nil => exact absurd rfl h1
  | cons c a =>
    refine ⟨?_, by simp, h2⟩
    simp only [List.all_cons, Bool.and_eq_true] at h2
    exact h2.1

/-- The number of a field behind an operand. -/
theorem OutS.fieldNum (h : OutS esc folP s r) {a : Str} {r' : RExpr} (ha : isFieldNumber a = true)
    (hr : ∀ c, Spells esc c r → Spells esc (.field c a) r') : OutS esc folP (s ++ (c!"." ++ a)) r' := by
  obtain ⟨h1, h2, h3⟩ := fieldNumber_head ha
  refine h.post (p := fun c => .field c a) ((lx_fieldNum h2 h3).mono fun _ => noWord_folP) ?_ ?_ hr
  · intro u hu
    rfl
  · intro c hc hl
    refine ⟨by simp only [Tree.Wf]; exact ⟨hc, hl, by simpa [FieldOk, h1] using h3⟩, by simp [Tree.level], ?_⟩
    simp [Tree.toks, fieldTok, h1]

theorem twoFields_split {a : Str} (h : isTwoFields a = true) :
    ∃ x y, a = x ++ c!"." ++ y ∧ isFieldNumber x = true ∧ isFieldNumber y = true := by
  unfold isTwoFields at h
  split at h
  · rename_i x y he
    simp only [Bool.and_eq_true] at h
    have := span_split (p := isDec) a
    rw [he] at this
    exact ⟨x, y, by simpa using this.symm, h⟩
  · cases h

/-- An attribute behind an operand. -/
theorem OutS.attr (h : OutS esc folP s r) {a : Str} (ha : plainAttr a = true) :
    OutS esc folP (s ++ (c!"." ++ normalizeIdentifier a)) (.attr r (normalizeIdentifier a)) := by
  simp only [plainAttr, Bool.or_eq_true] at ha
  rcases ha with (ha | ha) | ha
  · exact h.fieldName (fun _ => folP_of_W) (plainName_word ha) (plainName_ok ha) fun c hc => .attr _ hc
  · rw [normal_dec (fieldNumber_head ha).1]
    exact h.fieldNum ha fun c hc => .attr _ hc
  · obtain ⟨x, y, rfl, hx, hy⟩ := twoFields_split ha
    have hd : headIs isDec (x ++ c!"." ++ y) = true := by
      have := (fieldNumber_head hx).1
      cases x with
      | nil => simp [headIs] at this
      | cons c x => exact this
    rw [normal_dec hd]
    have h1 : OutS esc folP (s ++ (c!"." ++ x)) (.attr r x) := h.fieldNum hx fun c hc => .attr _ hc
    obtain ⟨n, c, e1, e2, e3, e4, e5⟩ := h
    obtain ⟨g1, g2, g3⟩ := fieldNumber_head hx
    obtain ⟨k1, k2, k3⟩ := fieldNumber_head hy
    have key : OutS esc folP (s ++ (c!"." ++ x ++ (c!"." ++ y))) (.attr r (x ++ c!"." ++ y)) := by
      refine OutS.post (p := fun c => .field (.field c x) y) ⟨n, c, e1, e2, e3, e4, e5⟩
        (((lx_fieldNum g2 g3).mono (G := folP) fun _ => noWord_folP).app
          ((lx_fieldNum k2 k3).mono (G := folP) fun _ => noWord_folP) fun u hu => rfl) (fun u hu => rfl) ?_
        fun c hc => .attr2 x y hc
      intro c hc hl
      refine ⟨?_, by simp [Tree.level], ?_⟩
      · simp only [Tree.Wf]
        exact ⟨⟨hc, hl, by simpa [FieldOk, g1] using g3⟩, by simp [Tree.level], by simpa [FieldOk, k1] using k3⟩
      · simp [Tree.toks, fieldTok, g1, k1]
    simpa only [List.append_assoc, List.cons_append, List.nil_append] using key

/-! ## Paths -/

theorem pathNames_words {p : List Str} (h : pathNames p = true) : PathWords p := by
  match p, h with
  | [] :: r, h =>
    simp only [pathNames, Bool.and_eq_true, Bool.not_eq_true', List.isEmpty_eq_false_iff, List.all_eq_true] at h
    exact ⟨h.1, fun s hs => .inl (h.2 s hs)⟩
  | (c :: s) :: r, h =>
    simp only [pathNames, Bool.and_eq_true, List.all_eq_true] at h
    exact ⟨.inl h.1, fun s hs => .inl (h.2 s hs)⟩

theorem pathNames_ok {p : List Str} (h : pathNames p = true) (hs : p.all segOk = true) : PathOk p := by
  simp only [List.all_eq_true] at hs
  match p, h with
  | [] :: r, h =>
    simp only [pathNames, Bool.and_eq_true, Bool.not_eq_true', List.isEmpty_eq_false_iff] at h
    exact ⟨h.1, fun s hs' => hs s (by simp [hs'])⟩
  | (c :: s) :: r, h => exact ⟨hs _ (by simp), fun s hs' => hs s (by simp [hs'])⟩

theorem pathText_join : (p : List Str) → pathText p = joinPath p
  | [] => rfl
  | [s] => rfl
  | s :: b :: p => by simp only [pathText, joinPath, pathText_join (b :: p)]

theorem opens_path {p : List Str} (h : pathNames p = true) (u : Str) (us : List Tok) :
    Opens (joinPath p ++ u) (pathToks p ++ us) := by
  refine Opens.app ?_ u us
  match p, h with
  | [[]], h => simp [pathNames] at h
  | [] :: b :: r, h => exact ⟨':', _, _, _, rfl, rfl, rfl, rfl, rfl⟩
  | [c :: s], h =>
    simp only [pathNames, Bool.and_eq_true] at h
    exact Opens.word (.inl h.1) _
  | (c :: s) :: b :: r, h =>
    simp only [pathNames, Bool.and_eq_true] at h
    simp only [joinPath, pathToks, List.append_assoc]
    exact (Opens.word (.inl h.1) (segToks (b :: r))).app _ [] |> fun h => by simpa using h

theorem OutS.path {p : List Str} (h : pathNames p = true) (hs : p.all segOk = true) (hr : Spells esc (.path p) r) :
    OutS esc folP (joinPath p) r := by
  refine OutS.prim (t := .path p) ?_ (by simpa only [Tree.Wf] using pathNames_ok h hs) (by simp [Tree.level]) ?_ hr
  · simp only [Tree.toks]
    exact (lx_path (pathNames_words h)).mono fun _ => noWord_folP
  · simpa only [Tree.toks, List.append_nil] using opens_path h [] []

/-! ## Calls -/

/-- Arguments behind an operand. -/
theorem OutS.call {F : Str → Bool} (h : OutS esc F s r) (hf : ∀ u, F (c!"(" ++ u) = true) {args : Str} {ts : List Tree}
    {r' : RExpr} (ha : LexTo folA args (toksSep ts)) (hw : WfL ts)
    (hr : ∀ c, Spells esc c r → Spells esc (.call c ts) r') : OutS esc anyText (s ++ (c!"(" ++ args ++ c!")")) r' := by
  refine h.post (p := fun c => .call c ts) (lx_in (.inl ⟨rfl, rfl⟩) ha) ?_ ?_ hr
  · intro u _
    rw [List.append_assoc, List.append_assoc]
    exact hf _
  · intro c hc hl
    refine ⟨by simp only [Tree.Wf]; exact ⟨hc, hl, hw⟩, by simp [Tree.level], ?_⟩
    simp [Tree.toks]

/-- A call of a function that is a path, and `?`. -/
theorem callTry_lex {p : List Str} (h : pathNames p = true) {args : Str} {ts : List Tree}
    (ha : LexTo folA args (toksSep ts)) :
    LexTo anyText (joinPath p ++ c!"(" ++ args ++ c!")?") (Tree.try_ (.call (.path p) ts)).toks := by
  have h1 : LexTo noWord (joinPath p) (pathToks p) := lx_path (pathNames_words h)
  have h2 : LexTo anyText (c!"(" ++ args ++ c!")") (.opn '(' :: (toksSep ts ++ [.cls ')'])) := lx_in (.inl ⟨rfl, rfl⟩) ha
  have h3 := (h1.app h2 fun u _ => rfl).any lx_query
  simpa only [Tree.toks, List.append_assoc, List.cons_append, List.nil_append] using h3

theorem OutS.callTry {p : List Str} (h : pathNames p = true) (hs : p.all segOk = true) {args : Str} {ts : List Tree}
    (ha : LexTo folA args (toksSep ts)) (hw : WfL ts) (hr : Spells esc (.try_ (.call (.path p) ts)) r) :
    OutS esc anyText (joinPath p ++ c!"(" ++ args ++ c!")?") r := by
  refine OutS.prim (callTry_lex h ha) ?_ (by simp [Tree.level]) ?_ hr
  · simp only [Tree.Wf]
    exact ⟨⟨pathNames_ok h hs, by simp [Tree.level], hw⟩, by simp [Tree.level]⟩
  · simpa only [Tree.toks, List.append_assoc] using opens_path h _ _

/-- The call of a macro. -/
theorem OutS.mac {p : List Str} (h : pathNames p = true) (hs : p.all segOk = true) {a : Str} {body : List Tok}
    (ha : LexTo anyText (a ++ c!")") (body ++ [.cls ')'])) (hb : Shut body) (hr : Spells esc (.mac p body) r) :
    OutS esc anyText (joinPath p ++ c!"!(" ++ a ++ c!")") r := by
  refine OutS.prim (t := .mac p body) ?_ ?_ (by simp [Tree.level]) ?_ hr
  · have h1 : LexTo noWord (joinPath p) (pathToks p) := lx_path (pathNames_words h)
    have h2 : LexTo anyText (c!"!(" ++ (a ++ c!")")) (.op c!"!" :: .opn '(' :: (body ++ [.cls ')'])) := fun rest hr => by
      have e1 := lx_prefix (op := c!"!") (by simp) (rest := c!"(" ++ (a ++ c!")" ++ rest)) rfl
      have e2 := e1.trans ((lx_opn (c := '(') (by simp) _ rfl).trans (ha rest rfl))
      simpa only [List.append_assoc, List.cons_append, List.nil_append] using e2
    have h3 := h1.app h2 fun u _ => rfl
    simpa only [Tree.toks, List.append_assoc, List.cons_append, List.nil_append] using h3
  · simp only [Tree.Wf]
    exact ⟨pathNames_ok h hs, hb⟩
  · simpa only [Tree.toks, List.append_assoc] using opens_path h _ _

end Askama.Spec
