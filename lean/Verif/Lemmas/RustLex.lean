import Verif.Lemmas.RustRead
import Verif.Lemmas.Names

/-!
# The tokens of pieces of text

`Lx s ts r`: the text `s` begins with the tokens `ts`, after which `r` is left. `LexTo F s ts`: so it is for `s` followed
by any text in `F`.
-/

namespace Askama.Spec

open Askama

/-! ## Steps of the lexer -/

/-- The tokens of `s` are `ts` and those of `r`. -/
def Lx (s : Str) (ts : List Tok) (r : Str) : Prop := ∀ us, lex r = some us → lex s = some (ts ++ us)

theorem Lx.refl (s : Str) : Lx s [] s := fun _ h => h

theorem Lx.trans {s r q : Str} {ts us : List Tok} (h : Lx s ts r) (h2 : Lx r us q) : Lx s (ts ++ us) q :=
  fun vs hv => by rw [h _ (h2 _ hv), List.append_assoc]

theorem lexN_mono : (n : Nat) → (s : Str) → (us : List Tok) → lexN n s = some us → (m : Nat) → n ≤ m →
    lexN m s = some us
  | n, [], us, h, m, _ => by
    simp only [lexN] at h ⊢
    exact h
  | 0, c :: s, us, h, m, _ => by simp [lexN] at h
  | n + 1, c :: s, us, h, m, hm => by
    cases m with
    | zero => omega
    | succ m =>
      simp only [lexN] at h ⊢
      cases h1 : lexOne (c :: s) with
      | none => simp [h1] at h
      | some x =>
        obtain ⟨ts, r⟩ := x
        simp only [h1, Option.bind_eq_bind, Option.bind_some] at h ⊢
        cases h2 : lexN n r with
        | none => simp [h2] at h
        | some vs =>
          rw [lexN_mono n r vs h2 m (by omega)]
          rw [h2] at h
          exact h

/-- One step. -/
theorem Lx.one {s r : Str} {ts : List Tok} (h : lexOne s = some (ts, r)) (hl : r.length < s.length) : Lx s ts r := by
  intro us hu
  cases s with
  | nil => simp at hl
  | cons c s =>
    simp only [lex, List.length_cons, lexN, h, Option.bind_eq_bind, Option.bind_some]
    rw [lexN_mono _ _ _ hu s.length (by simp only [List.length_cons] at hl; omega)]
    rfl

/-! ## What may follow -/

/-- Characters that end an operand. -/
def stopC (c : Char) : Bool := [' ', '\n', ')', ']', '}', ',', ';', '(', '['].contains c

/-- The end of the text, or such a character. -/
def folA : Str → Bool
  | [] => true
  | c :: _ => stopC c

/-- ... or `..`. -/
def folR : Str → Bool
  | '.' :: '.' :: _ => true
  | s => folA s

/-- ... or a dot and a word. -/
def folW : Str → Bool
  | '.' :: c :: _ => c == '.' || wordStart c
  | s => folA s

/-- ... or any dot. -/
def folP : Str → Bool
  | '.' :: _ => true
  | s => folA s

theorem folR_of_A {s : Str} (h : folA s = true) : folR s = true := by
  unfold folR
  split
  · rfl
  · exact h

theorem folW_of_R {s : Str} (h : folR s = true) : folW s = true := by
  unfold folW
  split
  · rename_i c r
    unfold folR at h
    split at h
    · rename_i he
      simp only [List.cons.injEq, true_and] at he
      simp [he.1]
    · simp [folA, stopC] at h
  · unfold folR at h
    split at h
    · rename_i hx
      exact absurd rfl (hx _ _)
    · exact h

theorem folP_of_W {s : Str} (h : folW s = true) : folP s = true := by
  unfold folP
  split
  · rfl
  · unfold folW at h
    split at h
    · rename_i hx
      exact absurd rfl (hx _)
    · exact h

theorem folP_of_R {s : Str} (h : folR s = true) : folP s = true := folP_of_W (folW_of_R h)

theorem stopC_cases {c : Char} (h : stopC c = true) :
    c = ' ' ∨ c = '\n' ∨ c = ')' ∨ c = ']' ∨ c = '}' ∨ c = ',' ∨ c = ';' ∨ c = '(' ∨ c = '[' := by
  simpa only [stopC, List.contains_eq_mem, List.mem_cons, List.not_mem_nil, or_false, decide_eq_true_eq] using h

/-- What may follow is empty or begins with a dot or an end. -/
theorem folP_cases {s : Str} (h : folP s = true) : s = [] ∨ ∃ c r, s = c :: r ∧ (c = '.' ∨ stopC c = true) := by
  cases s with
  | nil => exact .inl rfl
  | cons c r =>
    refine .inr ⟨c, r, rfl, ?_⟩
    unfold folP at h
    split at h
    · rename_i he
      cases he
      exact .inl rfl
    · exact .inr h

/-- A property of characters that no possible next character has. -/
theorem folP_head {s : Str} (h : folP s = true) {p : Char → Bool}
    (hp : ([' ', '\n', ')', ']', '}', ',', ';', '(', '[', '.'].any p) = false) : headIs p s = false := by
  simp only [List.any_cons, List.any_nil, Bool.or_false, Bool.or_eq_false_iff] at hp
  obtain rfl | ⟨c, r, rfl, hc⟩ := folP_cases h
  · rfl
  · simp only [headIs]
    rcases hc with rfl | hc
    · simp [hp]
    · rcases stopC_cases hc with rfl | rfl | rfl | rfl | rfl | rfl | rfl | rfl | rfl <;> simp [hp]

/-! ## Pieces of text -/

/-- The tokens of a text, whatever of this kind follows. -/
def LexTo (F : Str → Bool) (s : Str) (ts : List Tok) : Prop := ∀ rest, F rest = true → Lx (s ++ rest) ts rest

/-- Anything may follow. -/
def anyText (_ : Str) : Bool := true

theorem LexTo.nil (F : Str → Bool) : LexTo F [] [] := fun rest _ => Lx.refl rest

theorem LexTo.mono {F G : Str → Bool} {s : Str} {ts : List Tok} (h : LexTo F s ts)
    (hg : ∀ r, G r = true → F r = true) : LexTo G s ts := fun rest hr => h rest (hg rest hr)

theorem LexTo.app {F G : Str → Bool} {s u : Str} {ts us : List Tok} (h : LexTo F s ts) (h2 : LexTo G u us)
    (hf : ∀ r, G r = true → F (u ++ r) = true) : LexTo G (s ++ u) (ts ++ us) := fun rest hr => by
  rw [List.append_assoc]
  exact (h _ (hf rest hr)).trans (h2 rest hr)

/-- A text that can be followed by anything. -/
theorem LexTo.any {G : Str → Bool} {s u : Str} {ts us : List Tok} (h : LexTo anyText s ts) (h2 : LexTo G u us) :
    LexTo G (s ++ u) (ts ++ us) := h.app h2 fun _ _ => rfl

theorem LexTo.of_any {G : Str → Bool} {s : Str} {ts : List Tok} (h : LexTo anyText s ts) : LexTo G s ts :=
  h.mono fun _ _ => rfl

theorem LexTo.lex {F : Str → Bool} {s : Str} {ts : List Tok} (h : LexTo F s ts) (hf : F [] = true) :
    lex s = some ts := by
  have := h [] hf [] rfl
  simpa using this

/-! ## Single tokens -/

theorem isWhite_iff {c : Char} : isWhite c = true ↔ c = ' ' ∨ c = '\n' ∨ c = '\t' ∨ c = '\r' := by
  simp [isWhite, or_assoc]

theorem lx_white {c : Char} (h : isWhite c = true) : LexTo anyText [c] [] := fun rest _ =>
  Lx.one (by simp [lexOne, h]) (by simp)

theorem lx_space : LexTo anyText c!" " [] := lx_white rfl

theorem lx_line : LexTo anyText c!"\n" [] := lx_white rfl

theorem lx_opn {c : Char} (h : c = '(' ∨ c = '[' ∨ c = '{') : LexTo anyText [c] [.opn c] := fun rest _ => by
  rcases h with rfl | rfl | rfl <;> exact Lx.one rfl (by simp)

theorem lx_cls {c : Char} (h : c = ')' ∨ c = ']' ∨ c = '}') : LexTo anyText [c] [.cls c] := fun rest _ => by
  rcases h with rfl | rfl | rfl <;> exact Lx.one rfl (by simp)

theorem lx_colon : LexTo anyText c!"::" [.op c!"::"] := fun rest _ => Lx.one rfl (by simp <;> omega)

theorem lx_comma : LexTo anyText c!"," [.op c!","] := fun rest _ => Lx.one rfl (by simp)

theorem lx_semi : LexTo anyText c!";" [.op c!";"] := fun rest _ => Lx.one rfl (by simp)

theorem lx_query : LexTo anyText c!"?" [.op c!"?"] := fun rest _ => Lx.one rfl (by simp)

theorem lx_dotdoteq : LexTo anyText c!"..=" [.op c!"..="] := fun rest _ => Lx.one rfl (by simp <;> omega)

/-- `..`, with neither `=` nor `.` following. -/
theorem lx_dotdot {rest : Str} (h : headIs (fun c => c == '=' || c == '.') rest = false) :
    Lx (c!".." ++ rest) [.op c!".."] rest := by
  cases rest with
  | nil => exact Lx.one rfl (by simp)
  | cons c r =>
    simp only [headIs, Bool.or_eq_false_iff, beq_eq_false_iff_ne, ne_eq] at h
    refine Lx.one ?_ (by simp <;> omega)
    have h1 : ('=' == c) = false := by simpa using Ne.symm h.1
    have h2 : ('.' == c) = false := by simpa using Ne.symm h.2
    simp [lexOne, isWhite, wordStart, isDec, headIs, operators, List.isPrefixOf, h1, h2, List.find?]

/-- A prefix operator, with no character following that would make it another operator. -/
theorem lx_prefix {op : Str} (ho : op = c!"-" ∨ op = c!"!" ∨ op = c!"*") {rest : Str}
    (h : headIs (fun c => c == '=' || c == '>') rest = false) : Lx (op ++ rest) [.op op] rest := by
  cases rest with
  | nil => rcases ho with rfl | rfl | rfl <;> exact Lx.one rfl (by simp)
  | cons c r =>
    simp only [headIs, Bool.or_eq_false_iff, beq_eq_false_iff_ne, ne_eq] at h
    have h1 : ('=' == c) = false := by simpa using Ne.symm h.1
    have h2 : ('>' == c) = false := by simpa using Ne.symm h.2
    rcases ho with rfl | rfl | rfl <;> refine Lx.one ?_ (by simp) <;>
      simp [lexOne, isWhite, wordStart, isDec, operators, List.isPrefixOf, h1, h2, List.find?]

/-- `&` -/
theorem lx_amp {rest : Str} (h : headIs (· == '=') rest = false) :
    Lx (c!"&" ++ rest) [.amp (headIs (· == '&') rest)] rest :=
  Lx.one (by simp [lexOne, isWhite, wordStart, isDec, h]) (by simp)

/-- A binary operator between spaces. -/
theorem lx_binop (op : BinOp) : LexTo anyText (c!" " ++ op.sym ++ c!" ") op.toks := fun rest _ => by
  rw [List.append_assoc, List.append_assoc]
  refine (lx_space _ rfl).trans (ts := []) ?_
  have h2 : ∀ r : Str, Lx (op.sym ++ (c!" " ++ r)) op.toks (c!" " ++ r) := fun r => by
    cases op
    case and =>
      exact (Lx.one (s := c!"&&" ++ (c!" " ++ r)) (ts := [.amp true]) (r := c!"&" ++ (c!" " ++ r)) rfl (by simp)).trans
        (Lx.one rfl (by simp))
    all_goals exact Lx.one rfl (by simp [BinOp.sym] <;> omega)
  have := (h2 rest).trans (lx_space _ rfl)
  rwa [List.append_nil] at this

/-! ## Words -/

theorem span_loop {p : Char → Bool} : (s acc : Str) →
    List.span.loop p s acc = (acc.reverse ++ s.takeWhile p, s.dropWhile p)
  | [], acc => by simp [List.span.loop]
  | c :: s, acc => by
    simp only [List.span.loop]
    cases h : p c with
    | true => simp [span_loop s (c :: acc), h]
    | false => simp [h]

theorem span_eq {p : Char → Bool} (s : Str) : s.span p = (s.takeWhile p, s.dropWhile p) := by
  simp [List.span, span_loop]

theorem span_app {p : Char → Bool} : (s : Str) → (rest : Str) → s.all p = true → headIs p rest = false →
    (s ++ rest).span p = (s, rest)
  | s, rest, hs, hr => by
    rw [span_eq]
    simp only [List.all_eq_true] at hs
    have h1 : rest.takeWhile p = [] ∧ rest.dropWhile p = rest := by
      cases rest with
      | nil => exact ⟨rfl, rfl⟩
      | cons c r =>
        simp only [headIs] at hr
        simp [hr]
    rw [List.takeWhile_append_of_pos hs, List.dropWhile_append_of_pos hs, h1.1, h1.2, List.append_nil]

/-- Nothing follows that would belong to the word or make it something else. -/
def noWord (rest : Str) : Bool := !headIs (fun c => wordCont c || c == '#' || c == '"' || c == '\'') rest

theorem noWord_folP {s : Str} (h : folP s = true) : noWord s = true := by
  simp only [noWord, Bool.not_eq_true']
  exact folP_head h (by decide)

theorem headIs_mono {p q : Char → Bool} (hpq : ∀ c, q c = true → p c = true) {s : Str} (h : headIs p s = false) :
    headIs q s = false := by
  cases s with
  | nil => rfl
  | cons c r =>
    simp only [headIs] at h ⊢
    cases hq : q c with
    | false => rfl
    | true => rw [hpq c hq] at h; cases h

theorem wordStart_notWhite {c : Char} (h : wordStart c = true) : isWhite c = false := by
  cases hw : isWhite c with
  | false => rfl
  | true =>
    rcases isWhite_iff.1 hw with rfl | rfl | rfl | rfl <;> simp [wordStart] at h

theorem lx_word {w : Str} (h : isName w = true) : LexTo noWord w [.word w] := fun rest hr => by
  simp only [isName, Bool.and_eq_true] at h
  simp only [noWord, Bool.not_eq_true'] at hr
  cases w with
  | nil => simp [headIs] at h
  | cons c w =>
    have hc : wordStart c = true := h.1
    have hs := span_app (c :: w) rest h.2 (headIs_mono (fun c hc => by simp [hc]) hr)
    refine Lx.one ?_ (by simp <;> omega)
    rw [List.cons_append] at hs ⊢
    simp only [lexOne, wordStart_notWhite hc, hc, if_true, Bool.false_eq_true, if_false, lexWord, hs]
    split
    · simp [headIs] at hr
    · rw [headIs_mono (fun c hc => by
        simp only [Bool.or_eq_true] at hc
        rcases hc with hc | hc <;> simp [hc]) hr]
      rfl

/-- A raw identifier. -/
theorem lx_raw {w : Str} (h : isName w = true) : LexTo noWord (c!"r#" ++ w) [.word (c!"r#" ++ w)] := fun rest hr => by
  simp only [isName, Bool.and_eq_true] at h
  simp only [noWord, Bool.not_eq_true'] at hr
  have hs := span_app w rest h.2 (headIs_mono (fun c hc => by simp [hc]) hr)
  have h0 : ('r' :: '#' :: (w ++ rest)).span wordCont = (c!"r", '#' :: (w ++ rest)) :=
    span_app c!"r" ('#' :: (w ++ rest)) rfl rfl
  have hh : headIs wordStart (w ++ rest) = true := by
    cases w with
    | nil => simp [headIs] at h
    | cons c w => exact h.1
  refine Lx.one ?_ (by simp <;> omega)
  show lexOne ('r' :: '#' :: (w ++ rest)) = _
  simp only [lexOne, wordStart_notWhite (c := 'r') rfl, show wordStart 'r' = true from rfl, if_true, Bool.false_eq_true,
    if_false, lexWord, h0, hh, and_self, hs]
  rw [headIs_mono (fun c hc => by
    simp only [Bool.or_eq_true] at hc
    rcases hc with (hc | hc) | hc <;> simp [hc]) hr]
  rfl

/-- A word as it stands in Rust: perhaps a raw identifier. -/
def RustWord (w : Str) : Prop := isName w = true ∨ ∃ x, isName x = true ∧ w = c!"r#" ++ x

theorem RustWord.lex {w : Str} (h : RustWord w) : LexTo noWord w [.word w] := by
  rcases h with h | ⟨x, h, rfl⟩
  · exact lx_word h
  · exact lx_raw h

theorem RustWord.normal {x : Str} (h : isName x = true) : RustWord (normalizeIdentifier x) := by
  rw [normalizeIdentifier_eq, rawIdent]
  split
  · exact .inr ⟨x, h, rfl⟩
  · exact .inl h

theorem RustWord.head {w : Str} (h : RustWord w) : ∃ c r, w = c :: r ∧ wordStart c = true := by
  rcases h with h | ⟨x, _, rfl⟩
  · cases w with
    | nil => simp [isName, headIs] at h
    | cons c r =>
      simp only [isName, Bool.and_eq_true] at h
      exact ⟨c, r, rfl, h.1⟩
  · exact ⟨'r', '#' :: x, rfl, rfl⟩

/-! ## Fields -/

theorem wordStart_cases {c : Char} (h : wordStart c = true) : isDec c = false ∧ c ≠ '.' ∧ c ≠ '=' ∧ c ≠ '>' ∧ c ≠ '&'
    ∧ c ≠ '{' := by
  refine ⟨?_, ?_, ?_, ?_, ?_, ?_⟩
  · cases hd : isDec c with
    | false => rfl
    | true =>
      exfalso
      simp only [isDec, Bool.and_eq_true, decide_eq_true_eq] at hd
      simp only [wordStart, Bool.or_eq_true, Bool.and_eq_true, decide_eq_true_eq, beq_iff_eq, Char.le_def,
        UInt32.le_iff_toNat_le] at h hd
      simp only [show ('0' : Char).val.toNat = 48 from rfl, show ('9' : Char).val.toNat = 57 from rfl,
        show ('a' : Char).val.toNat = 97 from rfl, show ('A' : Char).val.toNat = 65 from rfl,
        show ('z' : Char).val.toNat = 122 from rfl, show ('Z' : Char).val.toNat = 90 from rfl] at h hd
      rcases h with ((h | h) | rfl) | h
      · omega
      · omega
      · exact absurd hd.2 (by decide)
      · have : c.toNat = c.val.toNat := rfl
        omega
  all_goals (rintro rfl; simp [wordStart] at h)

/-- A dot before a word. -/
theorem lx_dot {rest : Str} (h : headIs wordStart rest = true) : Lx (c!"." ++ rest) [.op c!"."] rest := by
  cases rest with
  | nil => simp [headIs] at h
  | cons c r =>
    have h := wordStart_cases (c := c) h
    have h1 : ('=' == c) = false := by simpa using Ne.symm h.2.2.1
    have h2 : ('.' == c) = false := by simpa using Ne.symm h.2.1
    refine Lx.one ?_ (by simp)
    simp [lexOne, isWhite, wordStart, headIs, operators, List.isPrefixOf, h1, h2, List.find?, h.1,
      show isDec '.' = false from rfl]

theorem lx_fieldName {w : Str} (h : RustWord w) : LexTo noWord (c!"." ++ w) [.op c!".", .word w] := fun rest hr => by
  rw [List.append_assoc]
  refine (lx_dot ?_).trans (h.lex rest hr)
  obtain ⟨c, r, rfl, hc⟩ := h.head
  exact hc

theorem isDec_cont {c : Char} (h : isDec c = true) : wordCont c = true := by simp [wordCont, h]

/-- A dot and a number: a field of a tuple. -/
theorem lx_fieldNum {w : Str} (hn : w ≠ []) (h : w.all isDec = true) :
    LexTo noWord (c!"." ++ w) [.op c!".", .num w] := fun rest hr => by
  simp only [noWord, Bool.not_eq_true'] at hr
  have hs := span_app w rest (List.all_eq_true.2 fun c hc => isDec_cont (List.all_eq_true.1 h c hc))
    (headIs_mono (fun c hc => by simp [hc]) hr)
  have hh : headIs isDec (w ++ rest) = true := by
    cases w with
    | nil => exact absurd rfl hn
    | cons c w =>
      simp only [List.all_cons, Bool.and_eq_true] at h
      exact h.1
  refine Lx.one ?_ (by simp <;> omega)
  show lexOne ('.' :: (w ++ rest)) = _
  simp [lexOne, isWhite, wordStart, hh, hs, show isDec '.' = false from rfl]

/-! ## Paths -/

theorem lx_segs : (p : List Str) → (∀ s ∈ p, RustWord s) → (a : Str) → RustWord a →
    LexTo noWord (joinPath (a :: p)) (.word a :: segToks p)
  | [], _, a, ha => ha.lex
  | b :: p, h, a, ha => by
    have hb := lx_segs p (fun s hs => h s (by simp [hs])) b (h b (by simp))
    have h2 : LexTo noWord (a ++ (c!"::" ++ joinPath (b :: p))) ([.word a] ++ ([.op c!"::"] ++ (.word b :: segToks p))) :=
      ha.lex.app (lx_colon.any hb) fun _ _ => rfl
    simpa only [joinPath, List.append_assoc, segToks, List.cons_append, List.nil_append] using h2

/-- The words of a path. -/
def PathWords : List Str → Prop
  | [] => False
  | [] :: r => r ≠ [] ∧ ∀ s ∈ r, RustWord s
  | s :: r => RustWord s ∧ ∀ s ∈ r, RustWord s

theorem lx_path {p : List Str} (h : PathWords p) : LexTo noWord (joinPath p) (pathToks p) := by
  match p, h with
  | [] :: [], h => exact absurd rfl h.1
  | [] :: b :: r, h =>
    have hb := lx_segs r (fun s hs => h.2 s (by simp [hs])) b (h.2 b (by simp))
    simpa [joinPath, pathToks, segToks] using lx_colon.any hb
  | (c :: s) :: r, h => exact lx_segs r h.2 (c :: s) h.1

/-! ## Literals -/

/-- What a run of characters takes does not depend on what follows. -/
theorem span_more {p : Char → Bool} {rest : Str} (hr : headIs p rest = false) (s : Str) :
    (s ++ rest).span p = ((s.span p).1, (s.span p).2 ++ rest) := by
  have h1 : rest.takeWhile p = [] ∧ rest.dropWhile p = rest := by
    cases rest with
    | nil => exact ⟨rfl, rfl⟩
    | cons c r =>
      simp only [headIs] at hr
      simp [hr]
  simp only [span_eq]
  induction s with
  | nil => simp [h1]
  | cons c s ih =>
    simp only [List.cons_append, List.takeWhile_cons, List.dropWhile_cons]
    simp only [Prod.mk.injEq] at ih
    split
    · simp [ih]
    · simp

variable {rest : Str}

theorem decRun_more (h : folW rest = true) (s : Str) : decRun (s ++ rest) = ((decRun s).1, (decRun s).2 ++ rest) :=
  span_more (folP_head (folP_of_W h) (by decide)) s

theorem hexRun_more (h : folW rest = true) (s : Str) : hexRun (s ++ rest) = ((hexRun s).1, (hexRun s).2 ++ rest) :=
  span_more (folP_head (folP_of_W h) (by decide)) s

theorem lexExp_more (h : folW rest = true) (s : Str) : lexExp (s ++ rest) = ((lexExp s).1, (lexExp s).2 ++ rest) := by
  cases s with
  | nil =>
    have hd := decRun_more h []
    simp only [List.nil_append] at hd ⊢
    cases rest with
    | nil => rfl
    | cons c r =>
      have := folP_head (folP_of_W h) (p := fun c => c == '+' || c == '-') (by decide)
      simp only [headIs] at this
      simp only [lexExp, this]
      rw [if_neg (by simp), hd]
      rfl
  | cons c s =>
    have h1 := decRun_more h s
    have h2 := decRun_more h (c :: s)
    simp only [List.cons_append] at h2 ⊢
    simp only [lexExp]
    split
    · rw [h1]
    · rw [h2]

theorem lexExpOpt_more (h : folW rest = true) (s : Str) :
    lexExpOpt (s ++ rest) = ((lexExpOpt s).1, (lexExpOpt s).2 ++ rest) := by
  cases s with
  | nil =>
    simp only [List.nil_append]
    cases rest with
    | nil => rfl
    | cons c r =>
      have := folP_head (folP_of_W h) (p := fun c => c == 'e' || c == 'E') (by decide)
      simp only [headIs] at this
      simp only [lexExpOpt, this]
      rw [if_neg (by simp)]
      rfl
  | cons c s =>
    have h1 := lexExp_more h s
    simp only [List.cons_append, lexExpOpt]
    split
    · rw [h1]
    · rfl

theorem lexFrac_more (h : folW rest = true) (s : Str) (hs : s ≠ ['.']) :
    lexFrac (s ++ rest) = ((lexFrac s).1, (lexFrac s).2 ++ rest) := by
  match s, hs with
  | [], _ =>
    simp only [List.nil_append]
    cases rest with
    | nil => rfl
    | cons c r =>
      by_cases hc : c = '.'
      · subst hc
        have : headIs (fun c => c == '.' || wordStart c) r = true := by
          cases r with
          | nil => simp [folW, folA, stopC] at h
          | cons d r => exact h
        simp only [lexFrac, this, if_true]
        rfl
      · have h1 : ∀ r', lexFrac (c :: r') = lexExpOpt (c :: r') := fun r' => by
          unfold lexFrac
          split
          · rename_i he
            cases he
            exact absurd rfl hc
          · rfl
        rw [h1]
        have := lexExpOpt_more h []
        simpa [lexExpOpt, lexFrac] using this
  | ['.'], hs => exact absurd rfl hs
  | c :: s, hs =>
    by_cases hc : c = '.'
    · subst hc
      cases s with
      | nil => exact absurd rfl hs
      | cons d s =>
        have h1 := decRun_more h (d :: s)
        have h2 := lexExpOpt_more h (decRun (d :: s)).2
        simp only [List.cons_append] at h1 ⊢
        have key : ∀ u : Str, lexFrac ('.' :: d :: u) = bif (d == '.' || wordStart d) then ([], '.' :: d :: u)
            else bif isDec d then ('.' :: ((decRun (d :: u)).1 ++ (lexExpOpt (decRun (d :: u)).2).1),
              (lexExpOpt (decRun (d :: u)).2).2)
            else (['.'], d :: u) := fun u => by
          simp only [lexFrac, headIs, Bool.cond_eq_ite]
          congr
        rw [key, key]
        cases (d == '.' || wordStart d) with
        | true => rfl
        | false =>
          cases isDec d with
          | true =>
            rw [h1]
            simp only [h2, cond_true, cond_false]
          | false => rfl
    · have h1 : ∀ r', lexFrac (c :: r') = lexExpOpt (c :: r') := fun r' => by
        unfold lexFrac
        split
        · rename_i he
          cases he
          exact absurd rfl hc
        · rfl
      have h2 := lexExpOpt_more h (c :: s)
      simp only [List.cons_append] at h2 ⊢
      rw [h1, h1, h2]

theorem lexDigits_more (h : folW rest = true) (s : Str) :
    lexDigits (s ++ rest) = ((lexDigits s).1, (lexDigits s).2 ++ rest) := by
  have other : ∀ u : Str, (∀ c r, u ≠ '0' :: c :: r) → lexDigits u = decRun u := fun u hu => by
    unfold lexDigits
    split
    · exact absurd rfl (hu _ _)
    · rfl
  match s with
  | [] =>
    have hr : ∀ c r, rest ≠ '0' :: c :: r := by
      rintro c r rfl
      simp [folW, folA, stopC] at h
    simp only [List.nil_append]
    rw [other _ hr, other [] (by simp)]
    exact decRun_more h []
  | [c] =>
    by_cases hc : c = '0'
    · subst hc
      have hd := decRun_more h ['0']
      rw [other ['0'] (by simp)]
      cases rest with
      | nil => rfl
      | cons d r =>
        have h1 := folP_head (folP_of_W h) (p := fun c => c == 'x') (by decide)
        have h2 := folP_head (folP_of_W h) (p := fun c => c == 'b' || c == 'o') (by decide)
        simp only [headIs] at h1 h2
        simp only [List.cons_append, List.nil_append] at hd ⊢
        simp only [lexDigits, h1, h2, Bool.false_eq_true, if_false, hd]
    · rw [other _ (by intro d r he; simp at he; exact hc he.1), other [c] (by simp)]
      exact decRun_more h [c]
  | c :: d :: s =>
    by_cases hc : c = '0'
    · subst hc
      have h1 := hexRun_more h s
      have h2 := decRun_more h s
      have h3 := decRun_more h ('0' :: d :: s)
      simp only [List.cons_append] at h3 ⊢
      simp only [lexDigits]
      split
      · rw [h1]
      · split
        · rw [h2]
        · rw [h3]
    · rw [other _ (by intro d r he; simp at he; exact hc he.1), other (c :: d :: s) (by
        intro d r he; simp at he; exact hc he.1)]
      exact decRun_more h (c :: d :: s)

theorem span_split {p : Char → Bool} (s : Str) : (s.span p).1 ++ (s.span p).2 = s := by
  rw [span_eq]
  exact List.takeWhile_append_dropWhile

theorem lexDigits_split (s : Str) : (lexDigits s).1 ++ (lexDigits s).2 = s := by
  unfold lexDigits
  split
  · split
    · simp [hexRun, span_split]
    · split
      · simp [decRun, span_split]
      · simp [decRun, span_split]
  · simp [decRun, span_split]

theorem lexNum_more (h : folW rest = true) {s : Str} (hs : isNumber s = true) : lexNum (s ++ rest) = (s, rest) := by
  simp only [isNumber, Bool.and_eq_true, decide_eq_true_eq, Bool.not_eq_true', beq_eq_false_iff_ne, ne_eq] at hs
  obtain ⟨⟨_, hs⟩, hl⟩ := hs
  have hne : (lexDigits s).2 ≠ ['.'] := by
    intro he
    have := lexDigits_split s
    rw [he] at this
    apply hl
    rw [← this]
    simp
  have h1 := lexDigits_more h s
  have h2 := lexFrac_more h _ hne
  have h3 := folP_head (folP_of_W h) (p := wordStart) (by decide)
  have h4 : headIs wordStart ((lexFrac (lexDigits s).2).2 ++ rest) = headIs wordStart (lexFrac (lexDigits s).2).2 := by
    cases (lexFrac (lexDigits s).2).2 with
    | nil => simpa [headIs] using h3
    | cons c r => rfl
  have h5 := span_more (folP_head (folP_of_W h) (p := wordCont) (by decide)) (lexFrac (lexDigits s).2).2
  simp only [lexNum] at hs ⊢
  rw [h1]
  simp only [h2, h4, h5]
  split
  · rename_i hh
    rw [if_pos hh] at hs
    simp only [Prod.mk.injEq] at hs
    rw [hs.1, hs.2]
    rfl
  · rename_i hh
    rw [if_neg hh] at hs
    simp only [Prod.mk.injEq] at hs
    rw [hs.1, hs.2]
    rfl

theorem lx_num {s : Str} (h : isNumber s = true) : LexTo folW s [.num s] := fun rest hr => by
  have h1 := lexNum_more hr h
  simp only [isNumber, Bool.and_eq_true] at h
  cases s with
  | nil => simp [headIs] at h
  | cons c s =>
    have hc : isDec c = true := h.1.1
    have hw : wordStart c = false := by
      cases hw : wordStart c with
      | false => rfl
      | true => rw [(wordStart_cases hw).1] at hc; cases hc
    have hx : isWhite c = false := by
      cases hx : isWhite c with
      | false => rfl
      | true =>
        rcases isWhite_iff.1 hx with rfl | rfl | rfl | rfl <;> simp [isDec] at hc
    refine Lx.one ?_ (by simp <;> omega)
    rw [List.cons_append] at h1 ⊢
    simp only [lexOne, hx, hw, hc, if_true, Bool.false_eq_true, if_false, h1]

theorem scanQuoted_cons {q c : Char} (h : c ≠ '\\') (r : Str) :
    scanQuoted q (c :: r) = if c = q then some ([], r) else (scanQuoted q r).map fun p => (c :: p.1, p.2) := by
  conv => lhs; unfold scanQuoted
  split
  · rename_i he; cases he
  · rename_i he; cases he; exact absurd rfl h
  · rename_i he; cases he; exact absurd rfl h
  · rename_i he; cases he; rfl

theorem scanQuoted_esc {q : Char} (c : Char) (r : Str) :
    scanQuoted q ('\\' :: c :: r) = (scanQuoted q r).map fun p => ('\\' :: c :: p.1, p.2) := by
  rw [scanQuoted]

/-- What a literal takes does not depend on what follows. -/
theorem scanQuoted_more {q : Char} (rest : Str) : (s t r : Str) → scanQuoted q s = some (t, r) →
    scanQuoted q (s ++ rest) = some (t, r ++ rest)
  | [], t, r, h => by simp [scanQuoted] at h
  | c :: s, t, r, h => by
    by_cases hc : c = '\\'
    · subst hc
      match s, h with
      | [], h => simp [scanQuoted] at h
      | d :: s, h =>
        rw [scanQuoted_esc] at h
        rw [List.cons_append, List.cons_append, scanQuoted_esc]
        cases hs : scanQuoted q s with
        | none => simp [hs] at h
        | some x =>
          obtain ⟨t', r'⟩ := x
          rw [scanQuoted_more rest s t' r' hs]
          simp only [hs, Option.map_some, Option.some.injEq, Prod.mk.injEq] at h ⊢
          exact ⟨h.1, by rw [h.2]⟩
    · rw [scanQuoted_cons hc] at h
      rw [List.cons_append, scanQuoted_cons hc]
      split at h
      · cases h
        rename_i he
        rw [if_pos he]
      · rename_i he
        rw [if_neg he]
        cases hs : scanQuoted q s with
        | none => simp [hs] at h
        | some x =>
          obtain ⟨t', r'⟩ := x
          rw [scanQuoted_more rest s t' r' hs]
          simp only [hs, Option.map_some, Option.some.injEq, Prod.mk.injEq] at h ⊢
          exact ⟨h.1, by rw [h.2]⟩

theorem lx_str {s : Str} (h : isStrBody s = true) : LexTo folP (c!"\"" ++ s ++ c!"\"") [.str s] := fun rest hr => by
  simp only [isStrBody, beq_iff_eq] at h
  have h1 := scanQuoted_more rest _ _ _ h
  rw [List.append_assoc, List.nil_append] at h1
  simp only [List.cons_append, List.nil_append] at h1
  refine Lx.one ?_ (by simp <;> omega)
  have h2 := folP_head hr (p := wordStart) (by decide)
  simp [lexOne, isWhite, wordStart, isDec, lexStr, h1, h2]

theorem lexChr_esc (c : Char) (r : Str) : lexChr ('\\' :: c :: r) =
    match scanQuoted '\'' r with
    | some (t, r) => if headIs wordStart r then none else some ([.chr ('\\' :: c :: t)], r)
    | none => none := by
  rw [lexChr]
  rfl

theorem lx_chr {s : Str} (h : isChrBody s = true) : LexTo folP (c!"'" ++ s ++ c!"'") [.chr s] := fun rest hr => by
  simp only [isChrBody, beq_iff_eq] at h
  refine Lx.one ?_ (by simp <;> omega)
  show lexOne ('\'' :: (s ++ ['\''] ++ rest)) = _
  have h2 := folP_head hr (p := wordStart) (by decide)
  have h3 : lexChr (s ++ ['\''] ++ rest) = some ([.chr s], rest) := by
    match s, h with
    | [], h => simp [lexChr] at h
    | [c], h =>
      by_cases hc : c = '\\'
      · subst hc
        simp [lexChr, scanQuoted] at h
      · have hq : c ≠ '\'' := by
          rintro rfl
          simp [lexChr] at h
        simp only [List.cons_append, List.nil_append]
        unfold lexChr
        split
        · rename_i he; cases he; exact absurd rfl hc
        · rename_i he; cases he; simp [hq, h2]
        · rename_i he; exact absurd rfl (he _ _)
    | c :: d :: s, h =>
      by_cases hc : c = '\\'
      · subst hc
        simp only [List.cons_append] at h ⊢
        rw [lexChr_esc] at h ⊢
        cases hs : scanQuoted '\'' (s ++ ['\'']) with
        | none => simp [hs] at h
        | some x =>
          obtain ⟨t, r⟩ := x
          rw [scanQuoted_more rest _ _ _ hs]
          simp only [hs] at h ⊢
          split at h
          · cases h
          · simp only [Option.some.injEq, Prod.mk.injEq, List.cons.injEq, Tok.chr.injEq, and_true, true_and] at h
            rw [h.1, h.2]
            simp [h2]
      · simp only [List.cons_append] at h
        unfold lexChr at h
        split at h
        · rename_i he; cases he; exact absurd rfl hc
        · rename_i he
          cases he
          split at h
          · cases h
          · simp at h
        · cases h
  simp [lexOne, isWhite, wordStart, isDec]
  simpa using h3

end Askama.Spec
