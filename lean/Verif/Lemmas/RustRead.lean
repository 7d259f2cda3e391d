import Verif.Spec.RustRead

/-!
# The reader of Rust expressions inverts writing

`Tree.toks` are the tokens of a tree; where they are written with the parentheses that are needed (`Tree.Wf`), reading
them gives the tree back.
-/

namespace Askama.Spec

/-! ## Tokens of a tree -/

/-- Tokens of an operator. -/
def BinOp.toks : BinOp → List Tok
  | .and => [.amp true, .amp false]
  | .bitand => [.amp false]
  | o => [.op o.sym]

/-- Does a token like this come first? -/
def headTok (p : Tok → Bool) : List Tok → Bool
  | [] => false
  | t :: _ => p t

/-- `&` -/
def isAmp : Tok → Bool
  | .amp _ => true
  | _ => false

/-- Tokens of the rest of a path. -/
def segToks : List Str → List Tok
  | [] => []
  | s :: r => .op c!"::" :: .word s :: segToks r

/-- Tokens of a path. -/
def pathToks : List Str → List Tok
  | [] => []
  | [] :: r => segToks r
  | s :: r => .word s :: segToks r

/-- The token of a field name. -/
def fieldTok (n : Str) : Tok := if headIs isDec n then .num n else .word n

mutual
/-- Tokens of a tree. -/
def Tree.toks : Tree → List Tok
  | .lit t => [t]
  | .path p => pathToks p
  | .field e n => e.toks ++ [.op c!".", fieldTok n]
  | .index e k => e.toks ++ .opn '[' :: (k.toks ++ [.cls ']'])
  | .call f args => f.toks ++ .opn '(' :: (toksSep args ++ [.cls ')'])
  | .try_ e => e.toks ++ [.op c!"?"]
  | .mac p body => pathToks p ++ .op c!"!" :: .opn '(' :: (body ++ [.cls ')'])
  | .unary op e => .op op :: e.toks
  | .borrow e => .amp (headTok isAmp e.toks) :: e.toks
  | .binary op a b => a.toks ++ (op.toks ++ b.toks)
  | .range op a b => toksOpt a ++ .op op :: toksOpt b
  | .array es => .opn '[' :: (toksSep es ++ [.cls ']'])
  | .tuple es => .opn '(' :: (toksEnd es ++ [.cls ')'])
  | .paren e => .opn '(' :: (e.toks ++ [.cls ')'])
  | .closure x e => .op c!"|" :: .word x :: .op c!"|" :: e.toks
  | .fn_ ps ty b => .op c!"|" :: (ps ++ .op c!"|" :: .op c!"->" :: .word ty :: b.toks)
  | .ret e => .word c!"return" :: e.toks
  | .let_ x e => .word c!"let" :: .word x :: .op c!"=" :: (e.toks ++ [.op c!";"])
  | .if_ c b => .word c!"if" :: (c.toks ++ b.toks)
  | .block ss l => .opn '{' :: (toksStmts ss ++ (toksOpt l ++ [.cls '}']))
/-- ... separated by commas. -/
def toksSep : List Tree → List Tok
  | [] => []
  | e :: es => e.toks ++ toksMore es
/-- ... each after a comma. -/
def toksMore : List Tree → List Tok
  | [] => []
  | e :: es => .op c!"," :: (e.toks ++ toksMore es)
/-- ... each before a comma. -/
def toksEnd : List Tree → List Tok
  | [] => []
  | e :: es => e.toks ++ .op c!"," :: toksEnd es
/-- ... if there is one. -/
def toksOpt : Option Tree → List Tok
  | none => []
  | some e => e.toks
/-- ... of statements. -/
def toksStmts : List Tree → List Tok
  | [] => []
  | e :: es => e.toks ++ ((if e.isStmt then [] else [.op c!";"]) ++ toksStmts es)
/-- Statements that are not expressions. -/
def Tree.isStmt : Tree → Bool
  | .let_ _ _ | .if_ _ _ => true
  | _ => false
end

/-- How tightly the outermost operator binds. -/
def Tree.level : Tree → Nat
  | .range _ _ _ | .closure _ _ | .fn_ _ _ _ | .ret _ | .let_ _ _ | .if_ _ _ => 0
  | .binary op _ _ => op.prec + 1
  | .unary _ _ | .borrow _ => 10
  | _ => 11

/-- Literals. -/
def isLit : Tok → Bool
  | .num _ | .str _ | .chr _ => true
  | _ => false

/-- A path that can be read. -/
def PathOk : List Str → Prop
  | [] => False
  | [] :: r => r ≠ [] ∧ ∀ s ∈ r, segOk s = true
  | s :: r => segOk s = true ∧ ∀ s ∈ r, segOk s = true

/-- A field name that can be read. -/
def FieldOk (n : Str) : Prop := if headIs isDec n then n.all isDec = true else nameOk n = true

mutual
/-- Written with the parentheses that are needed. -/
def Tree.Wf : Tree → Prop
  | .lit t => isLit t = true
  | .path p => PathOk p
  | .field e n => e.Wf ∧ 11 ≤ e.level ∧ FieldOk n
  | .index e k => e.Wf ∧ 11 ≤ e.level ∧ k.Wf
  | .call f args => f.Wf ∧ 11 ≤ f.level ∧ WfL args
  | .try_ e => e.Wf ∧ 11 ≤ e.level
  | .mac p body => PathOk p ∧ Shut body
  | .unary op e => (op = c!"-" ∨ op = c!"!" ∨ op = c!"*") ∧ e.Wf ∧ 10 ≤ e.level
  | .borrow e => e.Wf ∧ 10 ≤ e.level
  | .binary op a b => a.Wf ∧ b.Wf ∧ op.prec + 1 ≤ a.level ∧ op.prec + 2 ≤ b.level ∧ (op.prec = 2 → 4 ≤ a.level)
  | .range op a b => (op = c!".." ∨ op = c!"..=") ∧ WfO a ∧ WfO b
  | .array es => WfL es
  | .tuple es => WfL es
  | .paren e => e.Wf
  | .closure _ e => e.Wf
  | .fn_ ps _ b => (∀ rest, untilBar 0 (ps ++ .op c!"|" :: rest) = some (ps, rest)) ∧ Shut ps ∧ b.WfBlock
  | .ret e => e.Wf
  | .let_ _ _ | .if_ _ _ => False
  | .block ss l => WfS ss ∧ WfT l
/-- ... every one of them. -/
def WfL : List Tree → Prop
  | [] => True
  | e :: es => e.Wf ∧ WfL es
/-- ... an end of a range. -/
def WfO : Option Tree → Prop
  | none => True
  | some e => e.Wf ∧ 1 ≤ e.level
/-- ... the last expression of a block. -/
def WfT : Option Tree → Prop
  | none => True
  | some e => e.Wf ∧ headTok (· == .opn '{') e.toks = false
/-- ... statements. -/
def WfS : List Tree → Prop
  | [] => True
  | e :: es => e.WfStmt ∧ WfS es
/-- ... a statement. -/
def Tree.WfStmt : Tree → Prop
  | .let_ _ e => e.Wf
  | .if_ c b => c.Wf ∧ 1 ≤ c.level ∧ b.WfBlock
  | .ret e => e.Wf
  | _ => False
/-- ... the body of an `if`. -/
def Tree.WfBlock : Tree → Prop
  | .block ss l => WfS ss ∧ WfT l
  | _ => False
end

/-! ## Eventually -/

/-- The outcome for every sufficiently large bound. -/
def Ev {α : Type} (f : Nat → Option α) (v : α) : Prop := ∃ N, ∀ n, N ≤ n → f n = some v

theorem Ev.const {α : Type} (v : α) : Ev (fun _ => some v) v := ⟨0, fun _ _ => rfl⟩

/-- One step of the recursion. -/
theorem Ev.step {α : Type} {f g : Nat → Option α} {v : α} (h : Ev g v) (e : ∀ n, f (n + 1) = g n) : Ev f v := by
  obtain ⟨N, h⟩ := h
  refine ⟨N + 1, fun n hn => ?_⟩
  cases n with
  | zero => omega
  | succ n => rw [e, h n (by omega)]

/-- A step that reads something first. -/
theorem Ev.bind {α β : Type} {f : Nat → Option α} {g : Nat → α → Option β} {a : α} {v : β} (h : Ev f a)
    (h2 : Ev (fun n => g n a) v) : Ev (fun n => (f n).bind (g n)) v := by
  obtain ⟨N, h⟩ := h
  obtain ⟨M, h2⟩ := h2
  refine ⟨max N M, fun n hn => ?_⟩
  simp only [h n (by omega), Option.bind_some]
  exact h2 n (by omega)

theorem Ev.congr {α : Type} {f g : Nat → Option α} {v : α} (h : Ev g v) (e : ∀ n, f n = g n) : Ev f v := by
  obtain ⟨N, h⟩ := h
  exact ⟨N, fun n hn => by rw [e, h n hn]⟩

/-! ## What may follow -/

/-- Tokens that continue an operand. -/
def tightTok : Tok → Bool
  | .op s => [c!".", c!"?", c!"!", c!"::"].contains s
  | .opn c => c == '(' || c == '['
  | _ => false

/-- Tokens that continue a path. -/
def pathTok : Tok → Bool
  | .op s => [c!"!", c!"::"].contains s
  | _ => false

theorem tight_path {ts : List Tok} (h : headTok tightTok ts = false) : headTok pathTok ts = false := by
  cases ts with
  | nil => rfl
  | cons t ts => cases t <;> simp_all [headTok, tightTok, pathTok]

/-- The operator here, if any, has at most this precedence. -/
def Low (k : Nat) (ts : List Tok) : Prop := ∀ o r, binOpAt ts = some (o, r) → o.prec ≤ k

/-- No comparison comes next. -/
def NoCmp (ts : List Tok) : Prop := ∀ o r, binOpAt ts = some (o, r) → o.prec ≠ 2

/-- Nothing comes next that would continue an expression. -/
structure EndB (ts : List Tok) : Prop where
  tight : headTok tightTok ts = false
  noBin : binOpAt ts = none
  noRange : rangeAt ts = none

/-- ... and nothing that would be the end of a range. -/
structure EndE (ts : List Tok) : Prop extends EndB ts where
  closed : canBegin ts = false

theorem binOpAt_toks (op : BinOp) (r : List Tok) : binOpAt (op.toks ++ r) = some (op, r) := by
  cases op <;> rfl

theorem toks_tight (op : BinOp) (r : List Tok) : headTok tightTok (op.toks ++ r) = false := by
  cases op <;> rfl

theorem rPost_stop {e : Tree} {ts : List Tok} (h : headTok tightTok ts = false) : Ev (fun n => rPost n e ts) (e, ts) := by
  refine Ev.step (g := fun _ => some (e, ts)) (Ev.const _) fun n => ?_
  cases ts with
  | nil => simp only [rPost]
  | cons t ts =>
    unfold rPost
    split <;> simp_all [headTok, tightTok]

theorem rBinLoop_stop {k : Nat} {e : Tree} {ts : List Tok} (h : ∀ o r, binOpAt ts = some (o, r) → o.prec ≠ k) :
    Ev (fun n => rBinLoop n k e ts) (e, ts) := by
  refine Ev.step (g := fun _ => some (e, ts)) (Ev.const _) fun n => ?_
  simp only [rBinLoop]
  cases hb : binOpAt ts with
  | none => rfl
  | some x =>
    obtain ⟨o, r⟩ := x
    simp [h o r hb]

/-! ## First tokens -/

/-- Tokens an operand begins with. -/
def startTok : Tok → Bool
  | .word s => segOk s
  | .num _ | .str _ | .chr _ | .amp _ | .opn _ => true
  | .op s => [c!"!", c!"-", c!"*", c!"::"].contains s
  | .cls _ => false

theorem headTok_append {p : Tok → Bool} {a b : List Tok} (h : headTok p a = true) : headTok p (a ++ b) = true := by
  cases a with
  | nil => simp [headTok] at h
  | cons t a => exact h

theorem pathToks_start {p : List Str} (h : PathOk p) : headTok startTok (pathToks p) = true := by
  match p, h with
  | [] :: [], h => exact absurd rfl h.1
  | [] :: s :: r, h => rfl
  | (c :: s) :: r, h => exact h.1

mutual
/-- The first token of an operand. -/
theorem Tree.start : (t : Tree) → t.Wf → 1 ≤ t.level → headTok startTok t.toks = true
  | .lit t, h, _ => by
    simp only [Tree.Wf] at h
    cases t <;> simp_all [isLit, Tree.toks, headTok, startTok]
  | .path p, h, _ => by
    simp only [Tree.Wf] at h
    simp only [Tree.toks]
    exact pathToks_start h
  | .field e n, h, _ => by
    simp only [Tree.Wf] at h
    simp only [Tree.toks]
    exact headTok_append (Tree.start e h.1 (by omega))
  | .index e k, h, _ => by
    simp only [Tree.Wf] at h
    simp only [Tree.toks]
    exact headTok_append (Tree.start e h.1 (by omega))
  | .call e k, h, _ => by
    simp only [Tree.Wf] at h
    simp only [Tree.toks]
    exact headTok_append (Tree.start e h.1 (by omega))
  | .try_ e, h, _ => by
    simp only [Tree.Wf] at h
    simp only [Tree.toks]
    exact headTok_append (Tree.start e h.1 (by omega))
  | .mac p b, h, _ => by
    simp only [Tree.Wf] at h
    simp only [Tree.toks]
    exact headTok_append (pathToks_start h.1)
  | .unary op e, h, _ => by
    simp only [Tree.Wf] at h
    obtain ⟨rfl | rfl | rfl, _⟩ := h <;> simp [Tree.toks, headTok, startTok]
  | .borrow e, h, _ => by simp [Tree.toks, headTok, startTok]
  | .binary op a b, h, _ => by
    simp only [Tree.Wf] at h
    simp only [Tree.toks]
    exact headTok_append (Tree.start a h.1 (by omega))
  | .range _ _ _, _, hl => by simp [Tree.level] at hl
  | .array es, h, _ => by simp [Tree.toks, headTok, startTok]
  | .tuple es, h, _ => by simp [Tree.toks, headTok, startTok]
  | .paren e, h, _ => by simp [Tree.toks, headTok, startTok]
  | .closure _ _, _, hl => by simp [Tree.level] at hl
  | .fn_ _ _ _, _, hl => by simp [Tree.level] at hl
  | .ret _, _, hl => by simp [Tree.level] at hl
  | .let_ _ _, _, hl => by simp [Tree.level] at hl
  | .if_ _ _, _, hl => by simp [Tree.level] at hl
  | .block ss l, h, _ => by simp [Tree.toks, headTok, startTok]
end

theorem start_cons {ts : List Tok} (h : headTok startTok ts = true) : ∃ t r, ts = t :: r ∧ startTok t = true := by
  cases ts with
  | nil => simp [headTok] at h
  | cons t r => exact ⟨t, r, rfl, h⟩

theorem canBegin_start {ts : List Tok} (h0 : headTok startTok ts = true) : canBegin ts = true := by
  obtain ⟨t, r, rfl, h⟩ := start_cons h0
  cases t with
  | op s =>
    simp only [startTok, List.contains_eq_mem, List.mem_cons, List.not_mem_nil, or_false, decide_eq_true_eq] at h
    rcases h with rfl | rfl | rfl | rfl <;> rfl
  | cls c => cases h
  | word s => exact h
  | _ => rfl

theorem rangeAt_start {ts : List Tok} (h0 : headTok startTok ts = true) : rangeAt ts = none := by
  obtain ⟨t, r, rfl, h⟩ := start_cons h0
  cases t with
  | op s =>
    simp only [startTok, List.contains_eq_mem, List.mem_cons, List.not_mem_nil, or_false, decide_eq_true_eq] at h
    rcases h with rfl | rfl | rfl | rfl <;> rfl
  | _ => rfl

/-- Reading an expression that begins with an operand. -/
theorem rExpr_start {ts : List Tok} (h : headTok startTok ts = true) (n : Nat) :
    rExpr (n + 1) ts = (rBin n 0 ts).bind fun x =>
      match rangeAt x.2 with
      | some (op, r) =>
        if canBegin r then (rBin n 0 r).bind fun y => some (.range op (some x.1) (some y.1), y.2)
        else some (.range op (some x.1) none, r)
      | none => some (x.1, x.2) := by
  have hr := rangeAt_start h
  obtain ⟨t, r, rfl, h⟩ := start_cons h
  conv => lhs; unfold rExpr
  split
  · rename_i he
    cases he
    cases h
  · rename_i he
    cases he
    cases h
  · rw [hr]
    rfl

/-! ## One tree from its parts -/

/-- What reading the tokens of a tree gives, at the level of its outermost operator. -/
structure Core (t : Tree) : Prop where
  post : 11 ≤ t.level → ∀ rest v, headTok pathTok rest = false → Ev (fun n => rPost n t rest) v →
    Ev (fun n => rUnary n (t.toks ++ rest)) v
  pre : t.level = 10 → ∀ rest, headTok tightTok rest = false → Ev (fun n => rUnary n (t.toks ++ rest)) (t, rest)
  bin : ∀ k, k < 9 → t.level = k + 1 → ∀ rest v, headTok tightTok rest = false → Low k rest → (k = 2 → NoCmp rest) →
    Ev (fun n => rBinLoop n k t rest) v → Ev (fun n => rBin n k (t.toks ++ rest)) v
  low : t.level = 0 → ∀ rest, EndE rest → Ev (fun n => rExpr n (t.toks ++ rest)) (t, rest)

variable {t : Tree} {rest : List Tok}

theorem Core.unary (h : Core t) (hl : 10 ≤ t.level) (hr : headTok tightTok rest = false) :
    Ev (fun n => rUnary n (t.toks ++ rest)) (t, rest) := by
  by_cases h1 : t.level = 10
  · exact h.pre h1 rest hr
  · exact h.post (by omega) rest _ (tight_path hr) (rPost_stop hr)

theorem Tree.level_le (t : Tree) : t.level ≤ 11 := by
  cases t <;> simp only [Tree.level] <;> try omega
  rename_i op _ _
  cases op <;> decide

/-- Reading at a level below the outermost operator, with nothing following that binds tighter. -/
theorem Core.full (h : Core t) (k : Nat) (hk : k ≤ 9) (hl : k + 1 ≤ t.level) (hr : headTok tightTok rest = false)
    (ho : ∀ o r, binOpAt rest = some (o, r) → o.prec < k) : Ev (fun n => rBin n k (t.toks ++ rest)) (t, rest) := by
  by_cases h9 : k = 9
  · subst h9
    exact (h.unary hl hr).step fun n => by simp only [rBin]; rfl
  · have hs : Ev (fun n => rBinLoop n k t rest) (t, rest) := rBinLoop_stop fun o r e => by have := ho o r e; omega
    by_cases he : t.level = k + 1
    · exact h.bin k (by omega) he rest _ hr (fun o r e => by have := ho o r e; omega)
        (fun h2 o r e => by have := ho o r e; omega) hs
    · have := Core.full h (k + 1) (by omega) (by omega) hr fun o r e => by have := ho o r e; omega
      refine Ev.step (g := fun n => (rBin n (k + 1) (t.toks ++ rest)).bind fun x => rBinLoop n k x.1 x.2)
        (Ev.bind this hs) fun n => ?_
      simp only [rBin, show k < 9 by omega, if_true]
      rfl
termination_by 9 - k

/-- Reading at a level, up to the operators of that level. -/
theorem Core.loop (h : Core t) {k : Nat} (hk : k < 9) (hl : k + 1 ≤ t.level) (hr : headTok tightTok rest = false)
    (ho : Low k rest) (hc : k = 2 → t.level = 3 → NoCmp rest) {v : Tree × List Tok}
    (hv : Ev (fun n => rBinLoop n k t rest) v) : Ev (fun n => rBin n k (t.toks ++ rest)) v := by
  by_cases he : t.level = k + 1
  · exact h.bin k hk he rest v hr ho (fun h2 => hc h2 (by omega)) hv
  · have := Core.full (rest := rest) h (k + 1) (by omega) (by omega) hr fun o r e => by have := ho o r e; omega
    refine Ev.step (g := fun n => (rBin n (k + 1) (t.toks ++ rest)).bind fun x => rBinLoop n k x.1 x.2)
      (Ev.bind this hv) fun n => ?_
    simp only [rBin, hk, if_true]
    rfl

/-- Reading a whole expression that is not a range or closure. -/
theorem Core.expr1 (h : Core t) (hw : t.Wf) (hl : 1 ≤ t.level) (hr : EndB rest) :
    Ev (fun n => rExpr n (t.toks ++ rest)) (t, rest) := by
  have hf := h.full (rest := rest) 0 (by omega) (by omega) hr.tight fun o r e => by rw [hr.noBin] at e; cases e
  refine Ev.step (Ev.bind hf ?_) fun n => rExpr_start (headTok_append (t.start hw (by omega))) n
  refine (Ev.const _).congr fun n => ?_
  simp only [hr.noRange]

/-- Reading a whole expression. -/
theorem Core.expr (h : Core t) (hw : t.Wf) (hr : EndE rest) : Ev (fun n => rExpr n (t.toks ++ rest)) (t, rest) := by
  by_cases h0 : t.level = 0
  · exact h.low h0 rest hr
  · exact h.expr1 hw (by omega) hr.toEndB

/-- The end of a range. -/
theorem Core.right (h : Core t) (hl : 1 ≤ t.level) (hr : EndB rest) :
    Ev (fun n => rBin n 0 (t.toks ++ rest)) (t, rest) :=
  h.full 0 (by omega) (by omega) hr.tight fun o r e => by rw [hr.noBin] at e; cases e

/-! ### Closing brackets and separators -/

theorem endE_cls (c : Char) (r : List Tok) : EndE (.cls c :: r) := ⟨⟨rfl, rfl, rfl⟩, rfl⟩

theorem endE_comma (r : List Tok) : EndE (.op c!"," :: r) := ⟨⟨rfl, rfl, rfl⟩, rfl⟩

theorem endE_semi (r : List Tok) : EndE (.op c!";" :: r) := ⟨⟨rfl, rfl, rfl⟩, rfl⟩

theorem endB_brace (r : List Tok) : EndB (.opn '{' :: r) := ⟨rfl, rfl, rfl⟩

theorem endE_nil : EndE [] := ⟨⟨rfl, rfl, rfl⟩, rfl⟩

/-! ### Lists -/

/-- The first token of an expression. -/
def exprTok : Tok → Bool
  | .cls _ => false
  | _ => true

theorem toks_notCls (hw : t.Wf) : ∀ c r, t.toks ++ rest ≠ .cls c :: r := by
  intro c r
  by_cases hl : 1 ≤ t.level
  · obtain ⟨a, b, h1, h2⟩ := start_cons (t.start hw hl)
    rw [h1]
    intro h
    simp at h
    rw [h.1] at h2
    cases h2
  · cases t <;> simp [Tree.level] at hl
    · rename_i op a b
      cases a with
      | none => simp [Tree.toks, toksOpt]
      | some a =>
        simp only [Tree.Wf, WfO] at hw
        obtain ⟨x, y, h1, h2⟩ := start_cons (a.start hw.2.1.1 hw.2.1.2)
        simp only [Tree.toks, toksOpt, h1]
        intro h
        simp at h
        rw [h.1] at h2
        cases h2
    · simp [Tree.toks]
    · simp [Tree.toks]
    · simp [Tree.toks]
    · simp [Tree.Wf] at hw
    · simp [Tree.Wf] at hw

theorem rList_step {ts : List Tok} (h : ∀ c r, ts ≠ .cls c :: r) (n : Nat) (close : Char) :
    rList (n + 1) close ts = (rExpr n ts).bind fun x =>
      match x.2 with
      | .op [','] :: r => (rList n close r).bind fun y => some (x.1 :: y.1, y.2)
      | .cls c :: r => if c = close then some ([x.1], r) else none
      | _ => none := by
  conv => lhs; unfold rList
  split
  · exact absurd rfl (h _ _)
  · rfl

theorem rList_nil (close : Char) (r : List Tok) : Ev (fun n => rList n close (.cls close :: r)) ([], r) :=
  Ev.step (g := fun _ => some ([], r)) (Ev.const _) fun n => by simp [rList]

/-- Elements separated by commas. -/
theorem read_more {close : Char} : (es : List Tree) → (∀ e ∈ es, e.Wf ∧ Core e) → (a : Tree) → a.Wf → Core a →
    ∀ rest, Ev (fun n => rList n close (a.toks ++ (toksMore es ++ .cls close :: rest))) (a :: es, rest)
  | [], _, a, hw, ha, rest => by
    simp only [toksMore, List.nil_append]
    refine Ev.step (Ev.bind (ha.expr hw (endE_cls close rest)) ?_) fun n => rList_step (toks_notCls hw) n close
    refine (Ev.const _).congr fun n => ?_
    simp
  | e :: es, h, a, hw, ha, rest => by
    simp only [toksMore, List.cons_append, List.append_assoc]
    have ih := read_more (close := close) es (fun x hx => h x (List.mem_cons_of_mem _ hx)) e (h e (by simp)).1
      (h e (by simp)).2 rest
    refine Ev.step (Ev.bind (ha.expr hw (endE_comma _)) ?_) fun n => rList_step (toks_notCls hw) n close
    exact Ev.bind ih (Ev.const _)

theorem read_sep {close : Char} {es : List Tree} (h : ∀ e ∈ es, e.Wf ∧ Core e) (rest : List Tok) :
    Ev (fun n => rList n close (toksSep es ++ .cls close :: rest)) (es, rest) := by
  cases es with
  | nil => simpa [toksSep] using rList_nil close rest
  | cons a es =>
    simp only [toksSep, List.append_assoc]
    exact read_more es (fun e he => h e (by simp [he])) a (h a (by simp)).1 (h a (by simp)).2 rest

/-- Elements before commas. -/
theorem read_end {close : Char} : (es : List Tree) → (∀ e ∈ es, e.Wf ∧ Core e) → ∀ rest,
    Ev (fun n => rList n close (toksEnd es ++ .cls close :: rest)) (es, rest)
  | [], _, rest => by simpa [toksEnd] using rList_nil close rest
  | e :: es, h, rest => by
    simp only [toksEnd, List.append_assoc, List.cons_append]
    have ih := read_end (close := close) es (fun x hx => h x (List.mem_cons_of_mem _ hx)) rest
    refine Ev.step (Ev.bind ((h e (by simp)).2.expr (h e (by simp)).1 (endE_comma _)) ?_)
      fun n => rList_step (toks_notCls (h e (by simp)).1) n close
    exact Ev.bind ih (Ev.const _)

/-! ### Paths -/

theorem pathRest_toks : (p : List Str) → (∀ s ∈ p, segOk s = true) → (rest : List Tok) →
    headTok pathTok rest = false → pathRest (segToks p ++ rest) = (p, rest)
  | [], _, rest, hr => by
    unfold pathRest
    simp only [segToks, List.nil_append]
    split
    · simp [headTok, pathTok] at hr
    · rfl
  | s :: p, h, rest, hr => by
    simp only [segToks, List.cons_append]
    unfold pathRest
    simp [h s (by simp), pathRest_toks p (fun x hx => h x (by simp [hx])) rest hr]

theorem afterPath_stop {p : List Str} (hr : headTok pathTok rest = false) : afterPath p rest = some (.path p, rest) := by
  unfold afterPath
  split
  · simp [headTok, pathTok] at hr
  · rfl

theorem bang_path (r : List Tok) : headTok pathTok (.op c!"!" :: r) = true := by simp [headTok, pathTok]

/-- Reading a path, up to what follows it. -/
theorem rPrimary_path {p : List Str} (h : PathOk p) (hr : headTok (fun t => t == .op c!"::") rest = false) (n : Nat) :
    rPrimary (n + 1) (pathToks p ++ rest) = afterPath p rest := by
  have hp : ∀ q : List Str, (∀ s ∈ q, segOk s = true) → pathRest (segToks q ++ rest) = (q, rest) := by
    intro q
    induction q with
    | nil =>
      intro _
      unfold pathRest
      simp only [segToks, List.nil_append]
      split
      · simp [headTok] at hr
      · rfl
    | cons s q ih =>
      intro h
      simp only [segToks, List.cons_append]
      unfold pathRest
      simp [h s (by simp), ih fun x hx => h x (by simp [hx])]
  match p, h with
  | [] :: [], h => exact absurd rfl h.1
  | [] :: s :: r, h =>
    simp only [pathToks, segToks, List.cons_append, rPrimary, h.2 s (by simp), if_true]
    rw [hp r fun x hx => h.2 x (by simp [hx])]
  | (c :: s) :: r, h =>
    simp only [pathToks, List.cons_append, rPrimary, h.1, if_true]
    rw [hp r h.2]

/-- An operand that is not a prefix operator. -/
def plainTok : Tok → Bool
  | .word _ | .num _ | .str _ | .chr _ | .opn _ => true
  | .op s => s == c!"::"
  | _ => false

theorem rUnary_plain {ts : List Tok} (h : headTok plainTok ts = true) (n : Nat) :
    rUnary (n + 1) ts = (rPrimary n ts).bind fun x => rPost n x.1 x.2 := by
  cases ts with
  | nil => simp [headTok] at h
  | cons t ts =>
    conv => lhs; unfold rUnary
    split
    · rename_i he
      cases he
      cases h
    · rename_i he
      cases he
      cases h
    · rename_i he
      cases he
      cases h
    · rename_i he
      cases he
      cases h
    · rfl

theorem pathToks_plain {p : List Str} (h : PathOk p) : headTok plainTok (pathToks p) = true := by
  match p, h with
  | [] :: [], h => exact absurd rfl h.1
  | [] :: s :: r, h => rfl
  | (c :: s) :: r, h => rfl

theorem path_noColon (hr : headTok pathTok rest = false) : headTok (fun t => t == .op c!"::") rest = false := by
  cases rest with
  | nil => rfl
  | cons t r => cases t <;> simp_all [headTok, pathTok]

/-! ### Operands -/

theorem core_of_primary (hl : t.level = 11)
    (h : ∀ rest, headTok pathTok rest = false → headTok plainTok (t.toks ++ rest) = true ∧
      Ev (fun n => rPrimary n (t.toks ++ rest)) (t, rest)) : Core t where
  post _ rest v hr hv := by
    refine Ev.step (Ev.bind (h rest hr).2 ?_) fun n => rUnary_plain (h rest hr).1 n
    exact hv
  pre h1 := by omega
  bin k hk h1 := by omega
  low h0 := by omega

/-- A suffix. -/
theorem core_of_post {e : Tree} (he : Core e) (hle : 11 ≤ e.level) (hl : t.level = 11) {s : List Tok}
    (hs : headTok pathTok s = false) (hne : s ≠ []) (ht : t.toks = e.toks ++ s)
    (h : ∀ rest v, headTok pathTok rest = false → Ev (fun n => rPost n t rest) v → Ev (fun n => rPost n e (s ++ rest)) v) :
    Core t where
  post _ rest v hr hv := by
    rw [ht, List.append_assoc]
    refine he.post hle (s ++ rest) v ?_ (h rest v hr hv)
    cases s with
    | nil => exact absurd rfl hne
    | cons a s => exact hs
  pre h1 := by omega
  bin k hk h1 := by omega
  low h0 := by omega


theorem core_lit {a : Tok} (h : isLit a = true) : Core (.lit a) := by
  refine core_of_primary rfl fun rest _ => ?_
  cases a with
  | num s => exact ⟨rfl, Ev.step (g := fun _ => some (.lit (.num s), rest)) (Ev.const _) fun n => rfl⟩
  | str s => exact ⟨rfl, Ev.step (g := fun _ => some (.lit (.str s), rest)) (Ev.const _) fun n => rfl⟩
  | chr s => exact ⟨rfl, Ev.step (g := fun _ => some (.lit (.chr s), rest)) (Ev.const _) fun n => rfl⟩
  | _ => cases h

theorem core_path {p : List Str} (h : PathOk p) : Core (.path p) := by
  refine core_of_primary rfl fun rest hr => ?_
  simp only [Tree.toks]
  refine ⟨headTok_append (pathToks_plain h), ?_⟩
  refine Ev.step (g := fun _ => some (.path p, rest)) (Ev.const _) fun n => ?_
  rw [rPrimary_path h (path_noColon hr), afterPath_stop hr]

theorem shut_close {ts : List Tok} (h : Shut ts) (rest : List Tok) :
    untilClose [')'] (ts ++ .cls ')' :: rest) = some (ts, rest) := by
  have := h [] ')' (.cls ')' :: rest) ([], rest) (by simp [untilClose])
  simpa using this

theorem core_mac {p : List Str} {body : List Tok} (h : PathOk p) (hb : Shut body) : Core (.mac p body) := by
  refine core_of_primary rfl fun rest hr => ?_
  simp only [Tree.toks, List.append_assoc, List.cons_append, List.nil_append]
  refine ⟨headTok_append (pathToks_plain h), ?_⟩
  refine Ev.step (g := fun _ => some (.mac p body, rest)) (Ev.const _) fun n => ?_
  rw [rPrimary_path h (by simp [headTok])]
  simp only [afterPath, shut_close hb, Option.map_some]

theorem cons_notCls {ts : List Tok} (h : ∀ c r, ts ≠ .cls c :: r) (n : Nat) :
    rPrimary (n + 1) (.opn '(' :: ts) = (rExpr n ts).bind fun x =>
      match x.2 with
      | .cls ')' :: r => some (.paren x.1, r)
      | .op [','] :: r => (rList n ')' r).bind fun y => some (.tuple (x.1 :: y.1), y.2)
      | _ => none := by
  conv => lhs; unfold rPrimary
  cases ts with
  | nil => rfl
  | cons t ts =>
    cases t with
    | cls c => exact absurd rfl (h c ts)
    | _ => rfl

theorem core_paren {e : Tree} (hw : e.Wf) (he : Core e) : Core (.paren e) := by
  refine core_of_primary rfl fun rest hr => ?_
  simp only [Tree.toks, List.append_assoc, List.cons_append, List.nil_append]
  refine ⟨rfl, ?_⟩
  refine Ev.step (Ev.bind (he.expr hw (endE_cls ')' rest)) ?_) fun n => cons_notCls (toks_notCls hw) n
  exact Ev.const _

theorem core_tuple {es : List Tree} (h : ∀ e ∈ es, e.Wf ∧ Core e) : Core (.tuple es) := by
  refine core_of_primary rfl fun rest hr => ?_
  simp only [Tree.toks, List.append_assoc, List.cons_append, List.nil_append]
  refine ⟨rfl, ?_⟩
  cases es with
  | nil =>
    simp only [toksEnd, List.nil_append]
    exact Ev.step (g := fun _ => some (.tuple [], rest)) (Ev.const _) fun n => rfl
  | cons e es =>
    simp only [toksEnd, List.append_assoc, List.cons_append]
    have he := h e (by simp)
    refine Ev.step (Ev.bind (he.2.expr he.1 (endE_comma _)) ?_) fun n => cons_notCls (toks_notCls he.1) n
    exact Ev.bind (read_end (close := ')') es (fun x hx => h x (by simp [hx])) rest) (Ev.const _)

theorem core_array {es : List Tree} (h : ∀ e ∈ es, e.Wf ∧ Core e) : Core (.array es) := by
  refine core_of_primary rfl fun rest hr => ?_
  simp only [Tree.toks, List.append_assoc, List.cons_append, List.nil_append]
  refine ⟨rfl, ?_⟩
  refine Ev.step (g := fun n => (rList n ']' (toksSep es ++ .cls ']' :: rest)).bind fun x => some (.array x.1, x.2)) ?_
    fun n => rfl
  exact Ev.bind (read_sep h rest) (Ev.const _)

theorem core_block {ss : List Tree} {l : Option Tree}
    (h : ∀ rest, Ev (fun n => rBlock n (toksStmts ss ++ (toksOpt l ++ .cls '}' :: rest))) (ss, l, rest)) :
    Core (.block ss l) := by
  refine core_of_primary rfl fun rest hr => ?_
  simp only [Tree.toks, List.append_assoc, List.cons_append, List.nil_append]
  refine ⟨rfl, ?_⟩
  refine Ev.step (g := fun n => (rBlock n (toksStmts ss ++ (toksOpt l ++ .cls '}' :: rest))).bind fun x =>
    some (.block x.1 x.2.1, x.2.2)) ?_ fun n => rfl
  exact Ev.bind (h rest) (Ev.const _)

theorem core_field {e : Tree} {x : Str} (he : Core e) (hl : 11 ≤ e.level) (hx : FieldOk x) : Core (.field e x) := by
  refine core_of_post he hl rfl (s := [.op c!".", fieldTok x]) rfl (by simp) (by simp [Tree.toks]) fun rest v hr hv => ?_
  refine hv.step fun n => ?_
  unfold FieldOk at hx
  unfold fieldTok
  split at hx
  · simp [rPost, *]
  · simp [rPost, *]

theorem core_try {e : Tree} (he : Core e) (hl : 11 ≤ e.level) : Core (.try_ e) := by
  refine core_of_post he hl rfl (s := [.op c!"?"]) rfl (by simp) (by simp [Tree.toks]) fun rest v hr hv => ?_
  exact hv.step fun n => rfl

theorem core_call {e : Tree} {es : List Tree} (he : Core e) (hl : 11 ≤ e.level) (h : ∀ e ∈ es, e.Wf ∧ Core e) :
    Core (.call e es) := by
  refine core_of_post he hl rfl (s := .opn '(' :: (toksSep es ++ [.cls ')'])) rfl (by simp) (by simp [Tree.toks])
    fun rest v hr hv => ?_
  simp only [List.append_assoc, List.cons_append, List.nil_append]
  refine Ev.step (g := fun n => (rList n ')' (toksSep es ++ .cls ')' :: rest)).bind fun x => rPost n (.call e x.1) x.2) ?_
    fun n => rfl
  exact Ev.bind (read_sep h rest) hv

theorem core_index {e k : Tree} (he : Core e) (hl : 11 ≤ e.level) (hw : k.Wf) (hk : Core k) : Core (.index e k) := by
  refine core_of_post he hl rfl (s := .opn '[' :: (k.toks ++ [.cls ']'])) rfl (by simp) (by simp [Tree.toks])
    fun rest v hr hv => ?_
  simp only [List.append_assoc, List.cons_append, List.nil_append]
  refine Ev.step (g := fun n => (rExpr n (k.toks ++ .cls ']' :: rest)).bind fun x =>
    match x.2 with
    | .cls ']' :: r => rPost n (.index e x.1) r
    | _ => none) ?_ fun n => rfl
  exact Ev.bind (hk.expr hw (endE_cls _ _)) hv

theorem core_unary {op : Str} {e : Tree} (ho : op = c!"-" ∨ op = c!"!" ∨ op = c!"*") (he : Core e) (hl : 10 ≤ e.level) :
    Core (.unary op e) where
  post h := by simp [Tree.level] at h
  bin k hk h := by simp [Tree.level] at h; omega
  low h := by simp [Tree.level] at h
  pre _ rest hr := by
    simp only [Tree.toks, List.cons_append]
    refine Ev.step (g := fun n => (rUnary n (e.toks ++ rest)).bind fun x => some (.unary op x.1, x.2)) ?_ fun n => ?_
    · exact Ev.bind (he.unary hl hr) (Ev.const _)
    · obtain rfl | rfl | rfl := ho <;> rfl

theorem core_borrow {e : Tree} (he : Core e) (hl : 10 ≤ e.level) : Core (.borrow e) where
  post h := by simp [Tree.level] at h
  bin k hk h := by simp [Tree.level] at h; omega
  low h := by simp [Tree.level] at h
  pre _ rest hr := by
    simp only [Tree.toks, List.cons_append]
    refine Ev.step (g := fun n => (rUnary n (e.toks ++ rest)).bind fun x => some (.borrow x.1, x.2)) ?_ fun n => rfl
    exact Ev.bind (he.unary hl hr) (Ev.const _)

theorem BinOp.prec_le (op : BinOp) : op.prec ≤ 8 := by cases op <;> decide

theorem core_binary {op : BinOp} {a b : Tree} (ha : Core a) (hb : Core b) (hla : op.prec + 1 ≤ a.level)
    (hlb : op.prec + 2 ≤ b.level) (hc : op.prec = 2 → 4 ≤ a.level) : Core (.binary op a b) where
  post h := by simp only [Tree.level] at h; have := op.prec_le; omega
  pre h := by simp only [Tree.level] at h; have := op.prec_le; omega
  low h := by simp [Tree.level] at h
  bin k hk hl rest v hr ho hcm hv := by
    simp only [Tree.level] at hl
    obtain rfl : k = op.prec := by omega
    simp only [Tree.toks, List.append_assoc]
    refine ha.loop hk hla (toks_tight op _) ?_ (fun h2 h3 => by have := hc h2; omega) ?_
    · intro o r e
      rw [binOpAt_toks] at e
      cases e
      exact Nat.le_refl _
    · have hbf := hb.full (rest := rest) (op.prec + 1) (by omega) hlb hr fun o r e => by have := ho o r e; omega
      refine Ev.step (g := fun n => (rBin n (op.prec + 1) (b.toks ++ rest)).bind fun x =>
        if op.prec = 2 then
          if (binOpAt x.2).any (fun y => y.1.prec == 2) then none else some (.binary op a x.1, x.2)
        else rBinLoop n op.prec (.binary op a x.1) x.2) ?_ fun n => ?_
      · refine Ev.bind hbf ?_
        by_cases h2 : op.prec = 2
        · have hn := hcm h2
          have hst : Ev (fun n => rBinLoop n op.prec (.binary op a b) rest) (.binary op a b, rest) :=
            rBinLoop_stop fun o r e => by rw [h2]; exact hn o r e
          obtain ⟨N, h3⟩ := hst
          obtain ⟨M, h4⟩ := hv
          have h5 := h3 (max N M) (by omega)
          have h6 := h4 (max N M) (by omega)
          simp only at h5 h6
          rw [h5] at h6
          cases h6
          refine (Ev.const _).congr fun n => ?_
          have : (binOpAt rest).any (fun y => y.1.prec == 2) = false := by
            cases hb : binOpAt rest with
            | none => rfl
            | some x => simp [hn x.1 x.2 (by rw [hb])]
          simp [h2, this]
        · exact hv.congr fun n => by simp [h2]
      · conv => lhs; unfold rBinLoop
        simp only [binOpAt_toks, if_true]
        rfl

theorem range_op {op : Str} (h : op = c!".." ∨ op = c!"..=") (r : List Tok) : rangeAt (.op op :: r) = some (op, r) := by
  simp [rangeAt, h]

theorem range_tight {op : Str} (h : op = c!".." ∨ op = c!"..=") (r : List Tok) :
    headTok tightTok (.op op :: r) = false ∧ binOpAt (.op op :: r) = none := by
  obtain rfl | rfl := h <;> exact ⟨rfl, rfl⟩

theorem range_start {op : Str} (h : op = c!".." ∨ op = c!"..=") (r : List Tok) (n : Nat) :
    rExpr (n + 1) (.op op :: r) = if canBegin r then (rBin n 0 r).bind fun y => some (.range op none (some y.1), y.2)
      else some (.range op none none, r) := by
  obtain rfl | rfl := h <;> rfl

theorem core_range {op : Str} {a b : Option Tree} (ho : op = c!".." ∨ op = c!"..=") (hwa : WfO a) (hwb : WfO b)
    (ha : ∀ x, a = some x → Core x) (hb : ∀ x, b = some x → Core x) : Core (.range op a b) where
  post h := by simp [Tree.level] at h
  pre h := by simp [Tree.level] at h
  bin k hk h := by simp [Tree.level] at h
  low _ rest hr := by
    simp only [Tree.toks, List.append_assoc, List.cons_append]
    cases a with
    | none =>
      simp only [toksOpt, List.nil_append]
      cases b with
      | none =>
        simp only [toksOpt, List.nil_append]
        exact Ev.step (g := fun _ => some (.range op none none, rest)) (Ev.const _) fun n => by
          rw [range_start ho, hr.closed]
          rfl
      | some b =>
        simp only [toksOpt]
        simp only [WfO] at hwb
        refine Ev.step (g := fun n => (rBin n 0 (b.toks ++ rest)).bind fun y => some (.range op none (some y.1), y.2))
          (Ev.bind ((hb b rfl).right hwb.2 hr.toEndB) (Ev.const _)) fun n => ?_
        rw [range_start ho, canBegin_start (headTok_append (b.start hwb.1 hwb.2))]
        rfl
    | some a =>
      simp only [WfO] at hwa
      simp only [toksOpt]
      have h1 := (ha a rfl).full (rest := .op op :: (toksOpt b ++ rest)) 0 (by omega) (by omega) (range_tight ho _).1
        fun o r e => by rw [(range_tight ho _).2] at e; cases e
      refine Ev.step (Ev.bind h1 ?_) fun n => rExpr_start (headTok_append (a.start hwa.1 hwa.2)) n
      simp only [range_op ho]
      cases b with
      | none =>
        simp only [toksOpt, List.nil_append, hr.closed]
        exact Ev.const _
      | some b =>
        simp only [WfO] at hwb
        simp only [toksOpt, canBegin_start (headTok_append (b.start hwb.1 hwb.2)), if_true]
        exact Ev.bind ((hb b rfl).right hwb.2 hr.toEndB) (Ev.const _)

theorem start_noArrow {ts r : List Tok} (h : headTok startTok ts = true) : ts ≠ .op c!"->" :: r := by
  rintro rfl
  cases h

theorem toks_noArrow (hw : t.Wf) {r : List Tok} : t.toks ++ rest ≠ .op c!"->" :: r := by
  by_cases hl : 1 ≤ t.level
  · exact start_noArrow (headTok_append (t.start hw hl))
  · cases t with
    | range op a b =>
      simp only [Tree.Wf] at hw
      simp only [Tree.toks]
      cases a with
      | none =>
        rcases hw.1 with rfl | rfl <;> simp [toksOpt]
      | some a =>
        simp only [WfO] at hw
        simp only [toksOpt, List.append_assoc]
        exact start_noArrow (headTok_append (a.start hw.2.1.1 hw.2.1.2))
    | closure x e => simp [Tree.toks]
    | fn_ ps ty b => simp [Tree.toks]
    | ret e => simp [Tree.toks]
    | let_ x e => simp [Tree.Wf] at hw
    | if_ c b => simp [Tree.Wf] at hw
    | binary op a b => simp [Tree.level] at hl
    | _ => simp [Tree.level] at hl

theorem core_closure {x : Str} {e : Tree} (hw : e.Wf) (he : Core e) : Core (.closure x e) where
  post h := by simp [Tree.level] at h
  pre h := by simp [Tree.level] at h
  bin k hk h := by simp [Tree.level] at h
  low _ rest hr := by
    simp only [Tree.toks, List.cons_append]
    have hf : fnHead (.word x :: .op c!"|" :: (e.toks ++ rest)) = none := by
      simp only [fnHead, untilBar, Option.map_some]
      split
      · rename_i h
        simp only [Option.some.injEq, Prod.mk.injEq] at h
        exact absurd h.2 (toks_noArrow hw)
      · rfl
    refine Ev.step (g := fun n => (rExpr n (e.toks ++ rest)).bind fun y => some (.closure x y.1, y.2)) ?_ fun n => ?_
    · exact Ev.bind (he.expr hw hr) (Ev.const _)
    · conv => lhs; unfold rExpr
      simp only [hf]
      rfl

theorem core_fn {ps : List Tok} {ty : Str} {ss : List Tree} {l : Option Tree}
    (hp : ∀ rest, untilBar 0 (ps ++ .op c!"|" :: rest) = some (ps, rest))
    (h : ∀ rest, Ev (fun n => rBlock n (toksStmts ss ++ (toksOpt l ++ .cls '}' :: rest))) (ss, l, rest)) :
    Core (.fn_ ps ty (.block ss l)) where
  post h := by simp [Tree.level] at h
  pre h := by simp [Tree.level] at h
  bin k hk h := by simp [Tree.level] at h
  low _ rest hr := by
    simp only [Tree.toks, List.cons_append, List.append_assoc, List.nil_append]
    have hf : fnHead (ps ++ .op c!"|" :: .op c!"->" :: .word ty :: .opn '{' :: (toksStmts ss ++ (toksOpt l ++ .cls '}' ::
        rest))) = some (ps, ty, toksStmts ss ++ (toksOpt l ++ .cls '}' :: rest)) := by
      simp only [fnHead, hp]
    refine Ev.step (g := fun n => (rBlock n (toksStmts ss ++ (toksOpt l ++ .cls '}' :: rest))).bind fun x =>
      some (.fn_ ps ty (.block x.1 x.2.1), x.2.2)) ?_ fun n => ?_
    · exact Ev.bind (h rest) (Ev.const _)
    · conv => lhs; unfold rExpr
      simp only [hf]
      rfl

theorem core_ret {e : Tree} (hw : e.Wf) (he : Core e) : Core (.ret e) where
  post h := by simp [Tree.level] at h
  pre h := by simp [Tree.level] at h
  bin k hk h := by simp [Tree.level] at h
  low _ rest hr := by
    simp only [Tree.toks, List.cons_append]
    refine Ev.step (g := fun n => (rExpr n (e.toks ++ rest)).bind fun y => some (.ret y.1, y.2)) ?_ fun n => rfl
    exact Ev.bind (he.expr hw hr) (Ev.const _)

/-! ### Blocks -/

/-- First tokens of a statement or last expression. -/
def stmtTok : Tok → Bool
  | .cls _ => false
  | .opn c => !(c == '{')
  | .word s => !(s == c!"let") && !(s == c!"if")
  | _ => true

theorem rBlock_expr {ts : List Tok} (h : headTok stmtTok ts = true) (n : Nat) :
    rBlock (n + 1) ts = (rExpr n ts).bind fun x =>
      match x.2 with
      | .op [';'] :: r => (rBlock n r).bind fun y => some (x.1 :: y.1, y.2.1, y.2.2)
      | .cls '}' :: r => some ([], some x.1, r)
      | _ => none := by
  cases ts with
  | nil => simp [headTok] at h
  | cons t ts =>
    conv => lhs; unfold rBlock
    split
    · rename_i he; cases he; cases h
    · rename_i he; cases he; cases h
    · rename_i he; cases he; cases h
    · rename_i he; cases he; cases h
    · rfl

theorem stmtTok_of_start {ts : List Tok} (h : headTok startTok ts = true) (hb : headTok (· == .opn '{') ts = false) :
    headTok stmtTok ts = true := by
  obtain ⟨t, r, rfl, h1⟩ := start_cons h
  cases t with
  | cls c => cases h1
  | opn c =>
    simp only [headTok, beq_eq_false_iff_ne, ne_eq, Tok.opn.injEq] at hb
    simpa [headTok, stmtTok] using hb
  | word s =>
    simp only [startTok] at h1
    simp only [headTok, stmtTok, Bool.and_eq_true, Bool.not_eq_true', beq_eq_false_iff_ne, ne_eq]
    constructor
    · rintro rfl; cases h1
    · rintro rfl; cases h1
  | _ => rfl

theorem toks_stmtTok (hw : t.Wf) (hb : headTok (· == .opn '{') t.toks = false) : headTok stmtTok t.toks = true := by
  by_cases hl : 1 ≤ t.level
  · exact stmtTok_of_start (t.start hw hl) hb
  · cases t <;> simp [Tree.level] at hl
    · rename_i op a b
      cases a with
      | none => simp [Tree.toks, toksOpt, headTok, stmtTok]
      | some a =>
        simp only [Tree.Wf, WfO] at hw
        simp only [Tree.toks, toksOpt] at hb ⊢
        refine stmtTok_of_start (headTok_append (a.start hw.2.1.1 hw.2.1.2)) hb
    · rfl
    · rfl
    · rfl
    · simp [Tree.Wf] at hw
    · simp [Tree.Wf] at hw

/-- The last expression of a block. -/
theorem read_last {l : Option Tree} (hw : WfT l) (hl : ∀ e, l = some e → Core e) (rest : List Tok) :
    Ev (fun n => rBlock n (toksOpt l ++ .cls '}' :: rest)) ([], l, rest) := by
  cases l with
  | none => exact Ev.step (g := fun _ => some ([], none, rest)) (Ev.const _) fun n => rfl
  | some e =>
    simp only [WfT] at hw
    simp only [toksOpt]
    refine Ev.step (Ev.bind ((hl e rfl).expr hw.1 (endE_cls '}' rest)) ?_)
      fun n => rBlock_expr (headTok_append (toks_stmtTok hw.1 hw.2)) n
    exact Ev.const _

/-! ## The theorem -/

mutual
theorem Tree.core : (t : Tree) → t.Wf → Core t
  | .lit t, h => core_lit (by simpa only [Tree.Wf] using h)
  | .path p, h => core_path (by simpa only [Tree.Wf] using h)
  | .field e n, h => by
    simp only [Tree.Wf] at h
    exact core_field (Tree.core e h.1) h.2.1 h.2.2
  | .index e k, h => by
    simp only [Tree.Wf] at h
    exact core_index (Tree.core e h.1) h.2.1 h.2.2 (Tree.core k h.2.2)
  | .call f args, h => by
    simp only [Tree.Wf] at h
    exact core_call (Tree.core f h.1) h.2.1 (Tree.coreL args h.2.2)
  | .try_ e, h => by
    simp only [Tree.Wf] at h
    exact core_try (Tree.core e h.1) h.2
  | .mac p body, h => by
    simp only [Tree.Wf] at h
    exact core_mac h.1 h.2
  | .unary op e, h => by
    simp only [Tree.Wf] at h
    exact core_unary h.1 (Tree.core e h.2.1) h.2.2
  | .borrow e, h => by
    simp only [Tree.Wf] at h
    exact core_borrow (Tree.core e h.1) h.2
  | .binary op a b, h => by
    simp only [Tree.Wf] at h
    exact core_binary (Tree.core a h.1) (Tree.core b h.2.1) h.2.2.1 h.2.2.2.1 h.2.2.2.2
  | .range op a b, h => by
    simp only [Tree.Wf] at h
    exact core_range h.1 h.2.1 h.2.2 (Tree.coreO a h.2.1) (Tree.coreO b h.2.2)
  | .array es, h => by
    simp only [Tree.Wf] at h
    exact core_array (Tree.coreL es h)
  | .tuple es, h => by
    simp only [Tree.Wf] at h
    exact core_tuple (Tree.coreL es h)
  | .paren e, h => by
    simp only [Tree.Wf] at h
    exact core_paren h (Tree.core e h)
  | .closure x e, h => by
    simp only [Tree.Wf] at h
    exact core_closure h (Tree.core e h)
  | .fn_ ps ty (.block ss l), h => by
    simp only [Tree.Wf, Tree.WfBlock] at h
    exact core_fn h.1 (read_stmts ss h.2.2.1 l h.2.2.2 (Tree.coreT l h.2.2.2))
  | .fn_ _ _ (.lit _), h
  | .fn_ _ _ (.path _), h
  | .fn_ _ _ (.field _ _), h
  | .fn_ _ _ (.index _ _), h
  | .fn_ _ _ (.call _ _), h
  | .fn_ _ _ (.try_ _), h
  | .fn_ _ _ (.mac _ _), h
  | .fn_ _ _ (.unary _ _), h
  | .fn_ _ _ (.borrow _), h
  | .fn_ _ _ (.binary _ _ _), h
  | .fn_ _ _ (.range _ _ _), h
  | .fn_ _ _ (.array _), h
  | .fn_ _ _ (.tuple _), h
  | .fn_ _ _ (.paren _), h
  | .fn_ _ _ (.closure _ _), h
  | .fn_ _ _ (.fn_ _ _ _), h
  | .fn_ _ _ (.ret _), h
  | .fn_ _ _ (.let_ _ _), h
  | .fn_ _ _ (.if_ _ _), h => by simp [Tree.Wf, Tree.WfBlock] at h
  | .ret e, h => by
    simp only [Tree.Wf] at h
    exact core_ret h (Tree.core e h)
  | .let_ _ _, h => by simp [Tree.Wf] at h
  | .if_ _ _, h => by simp [Tree.Wf] at h
  | .block ss l, h => by
    simp only [Tree.Wf] at h
    exact core_block (read_stmts ss h.1 l h.2 (Tree.coreT l h.2))
theorem Tree.coreL : (es : List Tree) → WfL es → ∀ e ∈ es, e.Wf ∧ Core e
  | [], _, _, hm => by simp at hm
  | a :: es, h, e, hm => by
    simp only [WfL] at h
    have h1 := Tree.core a h.1
    have h2 := Tree.coreL es h.2
    rcases List.mem_cons.1 hm with hm | hm
    · rw [hm]
      exact ⟨h.1, h1⟩
    · exact h2 e hm
theorem Tree.coreO : (o : Option Tree) → WfO o → ∀ e, o = some e → Core e
  | none, _, _, hm => by cases hm
  | some a, h, e, hm => by
    simp only [WfO] at h
    have h1 := Tree.core a h.1
    cases hm
    exact h1
theorem Tree.coreT : (o : Option Tree) → WfT o → ∀ e, o = some e → Core e
  | none, _, _, hm => by cases hm
  | some a, h, e, hm => by
    simp only [WfT] at h
    have h1 := Tree.core a h.1
    cases hm
    exact h1
theorem read_stmts : (ss : List Tree) → WfS ss → (l : Option Tree) → WfT l → (∀ e, l = some e → Core e) → ∀ rest,
    Ev (fun n => rBlock n (toksStmts ss ++ (toksOpt l ++ .cls '}' :: rest))) (ss, l, rest)
  | [], _, l, hw, hl, rest => by
    simp only [toksStmts, List.nil_append]
    exact read_last hw hl rest
  | .let_ x e :: ss, h, l, hw, hl, rest => by
    simp only [WfS, Tree.WfStmt] at h
    have ih := read_stmts ss h.2 l hw hl rest
    simp only [toksStmts, Tree.toks, Tree.isStmt, if_true, List.nil_append, List.cons_append, List.append_assoc]
    refine Ev.step (g := fun n => (rExpr n (e.toks ++ .op c!";" :: (toksStmts ss ++ (toksOpt l ++ .cls '}' :: rest)))).bind
      fun y => match y.2 with
        | .op [';'] :: r => (rBlock n r).bind fun z => some (.let_ x y.1 :: z.1, z.2.1, z.2.2)
        | _ => none) ?_ fun n => rfl
    exact Ev.bind ((Tree.core e h.1).expr h.1 (endE_semi _)) (Ev.bind ih (Ev.const _))
  | .ret e :: ss, h, l, hw, hl, rest => by
    simp only [WfS, Tree.WfStmt] at h
    have ih := read_stmts ss h.2 l hw hl rest
    simp only [toksStmts, Tree.isStmt, List.cons_append, List.append_assoc, List.nil_append, Bool.false_eq_true, if_false]
    have hc := core_ret h.1 (Tree.core e h.1)
    refine Ev.step (Ev.bind (hc.expr (by simpa only [Tree.Wf] using h.1) (endE_semi _)) ?_)
      fun n => rBlock_expr (headTok_append rfl) n
    exact Ev.bind ih (Ev.const _)
  | .if_ c (.block bs bl) :: ss, h, l, hw, hl, rest => by
    simp only [WfS, Tree.WfStmt, Tree.WfBlock] at h
    have ih := read_stmts ss h.2 l hw hl rest
    have ih2 := read_stmts bs h.1.2.2.1 bl h.1.2.2.2 (Tree.coreT bl h.1.2.2.2)
      (toksStmts ss ++ (toksOpt l ++ .cls '}' :: rest))
    simp only [toksStmts, Tree.toks, Tree.isStmt, if_true, List.nil_append, List.cons_append, List.append_assoc]
    refine Ev.step (g := fun n => (rExpr n (c.toks ++ .opn '{' :: (toksStmts bs ++ (toksOpt bl ++ .cls '}' ::
      (toksStmts ss ++ (toksOpt l ++ .cls '}' :: rest)))))).bind
      fun y => match y.2 with
        | .opn '{' :: r => (rBlock n r).bind fun z => (rBlock n z.2.2).bind fun w =>
          some (.if_ y.1 (.block z.1 z.2.1) :: w.1, w.2.1, w.2.2)
        | _ => none) ?_ fun n => rfl
    exact Ev.bind ((Tree.core c h.1.1).expr1 h.1.1 h.1.2.1 (endB_brace _)) (Ev.bind ih2 (Ev.bind ih (Ev.const _)))
  | .lit _ :: _, h, _, _, _, _ | .path _ :: _, h, _, _, _, _ | .field _ _ :: _, h, _, _, _, _
  | .index _ _ :: _, h, _, _, _, _ | .call _ _ :: _, h, _, _, _, _ | .try_ _ :: _, h, _, _, _, _
  | .mac _ _ :: _, h, _, _, _, _ | .unary _ _ :: _, h, _, _, _, _ | .borrow _ :: _, h, _, _, _, _
  | .binary _ _ _ :: _, h, _, _, _, _ | .range _ _ _ :: _, h, _, _, _, _ | .array _ :: _, h, _, _, _, _
  | .tuple _ :: _, h, _, _, _, _ | .paren _ :: _, h, _, _, _, _ | .closure _ _ :: _, h, _, _, _, _
  | .fn_ _ _ _ :: _, h, _, _, _, _
  | .block _ _ :: _, h, _, _, _, _ => by simp [WfS, Tree.WfStmt] at h
  | .if_ _ (.lit _) :: _, h, _, _, _, _
  | .if_ _ (.path _) :: _, h, _, _, _, _
  | .if_ _ (.field _ _) :: _, h, _, _, _, _
  | .if_ _ (.index _ _) :: _, h, _, _, _, _
  | .if_ _ (.call _ _) :: _, h, _, _, _, _
  | .if_ _ (.try_ _) :: _, h, _, _, _, _
  | .if_ _ (.mac _ _) :: _, h, _, _, _, _
  | .if_ _ (.unary _ _) :: _, h, _, _, _, _
  | .if_ _ (.borrow _) :: _, h, _, _, _, _
  | .if_ _ (.binary _ _ _) :: _, h, _, _, _, _
  | .if_ _ (.range _ _ _) :: _, h, _, _, _, _
  | .if_ _ (.array _) :: _, h, _, _, _, _
  | .if_ _ (.tuple _) :: _, h, _, _, _, _
  | .if_ _ (.paren _) :: _, h, _, _, _, _
  | .if_ _ (.closure _ _) :: _, h, _, _, _, _
  | .if_ _ (.fn_ _ _ _) :: _, h, _, _, _, _
  | .if_ _ (.ret _) :: _, h, _, _, _, _
  | .if_ _ (.let_ _ _) :: _, h, _, _, _, _
  | .if_ _ (.if_ _ _) :: _, h, _, _, _, _ => by
    simp [WfS, Tree.WfStmt, Tree.WfBlock] at h
end

/-- The tokens of a tree are read as this tree. -/
theorem Tree.read {t : Tree} (h : t.Wf) {rest : List Tok} (hr : EndE rest) :
    Ev (fun n => rExpr n (t.toks ++ rest)) (t, rest) := (t.core h).expr h hr

end Askama.Spec
