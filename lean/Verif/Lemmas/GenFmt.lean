import Verif.Spec.Text
import Verif.Lemmas.Rust

/-! Lemmas about `prepare_format`: what the emitted `write!` prints. -/

namespace Askama

open Askama.Spec

/-! ## Optional texts -/

@[simp] theorem oapp_nil_left (b : Option Str) : oapp (some []) b = b := by cases b <;> simp [oapp]
@[simp] theorem oapp_nil_right (a : Option Str) : oapp a (some []) = a := by cases a <;> simp [oapp]
@[simp] theorem oapp_none_left (b : Option Str) : oapp none b = none := rfl
@[simp] theorem oapp_none_right (a : Option Str) : oapp a none = none := by cases a <;> rfl
@[simp] theorem oapp_some (a b : Str) : oapp (some a) (some b) = some (a ++ b) := rfl

theorem oapp_assoc (a b c : Option Str) : oapp (oapp a b) c = oapp a (oapp b c) := by
  cases a <;> cases b <;> cases c <;> simp [oapp]

theorem ojoin_append (a b : List (Option Str)) : ojoin (a ++ b) = oapp (ojoin a) (ojoin b) := by
  induction a with
  | nil => simp [ojoin]
  | cons t a ih => simp [ojoin, ih, oapp_assoc]

theorem ojoin_single (t : Option Str) : ojoin [t] = t := by simp [ojoin]

theorem ojoin_none_of_mem {l : List (Option Str)} (h : none ∈ l) : ojoin l = none := by
  induction l with
  | nil => simp at h
  | cons t l ih =>
    simp only [List.mem_cons] at h
    rcases h with h | h
    · subst h; rfl
    · simp [ojoin, ih h]

/-! ## Format strings -/

/-- `fmt` is the format string for the pieces `ps`. -/
def IsFmt (fmt : Str) (ps : List Piece) : Prop :=
  ∀ rest, parseFmt none (fmt ++ rest) = (parseFmt none rest).map (ps ++ ·)

theorem IsFmt.parse {fmt : Str} {ps : List Piece} (h : IsFmt fmt ps) : parseFmt none fmt = some ps := by
  have := h []
  rw [List.append_nil, parseFmt] at this
  simpa using this

theorem IsFmt.nil : IsFmt [] [] := by intro rest; simp

theorem IsFmt.append {a b : Str} {p q : List Piece} (ha : IsFmt a p) (hb : IsFmt b q) : IsFmt (a ++ b) (p ++ q) := by
  intro rest
  rw [List.append_assoc, ha, hb, Option.map_map]
  congr 1
  funext x
  simp

theorem escapeBraces_cons (c : Char) (s : Str) : Gen.escapeBraces (c :: s)
    = (if c = '{' then ['{', '{'] else if c = '}' then ['}', '}'] else [c]) ++ Gen.escapeBraces s := by
  unfold Gen.escapeBraces
  rw [List.flatMap_cons, List.flatMap_append]
  congr 1
  by_cases h1 : c = '{'
  · subst h1; decide
  · by_cases h2 : c = '}'
    · subst h2; decide
    · simp [h1, h2]

theorem parseFmt_char (c : Char) (h1 : c ≠ '{') (h2 : c ≠ '}') (s : Str) :
    parseFmt none (c :: s) = (parseFmt none s).map (.ch c :: ·) := by
  rw [parseFmt.eq_def]
  split <;> simp_all

theorem isFmt_escapeBraces (s : Str) : IsFmt (Gen.escapeBraces s) (s.map Piece.ch) := by
  induction s with
  | nil => exact IsFmt.nil
  | cons c s ih =>
    rw [escapeBraces_cons]
    refine IsFmt.append (p := [Piece.ch c]) ?_ ih
    intro rest
    by_cases h1 : c = '{'
    · subst h1; simp [parseFmt]
    · by_cases h2 : c = '}'
      · subst h2; simp [parseFmt]
      · simp only [h1, h2, if_false, List.singleton_append]
        exact parseFmt_char c h1 h2 rest

theorem parseFmt_name (pre name rest : Str) (h : ∀ c ∈ name, c ≠ '}') :
    parseFmt (some pre) (name ++ '}' :: rest) = (parseFmt none rest).map (.arg (pre ++ name) :: ·) := by
  induction name generalizing pre with
  | nil => simp [parseFmt]
  | cons c name ih =>
    rw [List.cons_append, parseFmt.eq_def]
    have hc := h c (by simp)
    split <;> simp_all

theorem argName_chars (id : Nat) : ∀ c ∈ argName id, c ≠ '{' ∧ c ≠ '}' := by
  intro c hc
  unfold argName at hc
  rw [List.mem_append] at hc
  rcases hc with hc | hc
  · revert c; decide
  · have := Nat.isDigit_of_mem_toDigits (by omega) (by omega) hc
    constructor <;> · rintro rfl; exact absurd this (by decide)

theorem argName_inj {a b : Nat} (h : argName a = argName b) : a = b := by
  have h2 : Nat.toDigits 10 a = Nat.toDigits 10 b := List.append_cancel_left h
  have := congrArg (Nat.ofDigitChars 10 · 0) h2
  simpa [Nat.ofDigitChars_ten_toDigits] using this

theorem argName_cons (id : Nat) : ∃ c s, argName id = c :: s ∧ c ≠ '{' ∧ c ≠ '}' := by
  refine ⟨'e', c!"xpr" ++ Nat.toDigits 10 id, rfl, by decide, by decide⟩

theorem parseFmt_open (c : Char) (t : Str) (h : c ≠ '{') :
    parseFmt none ('{' :: c :: t) = parseFmt (some []) (c :: t) := by
  rw [parseFmt.eq_6 _ (by intro s e; exact h (List.cons.inj e).1)]

theorem isFmt_arg (id : Nat) : IsFmt (['{'] ++ argName id ++ ['}']) [.arg (argName id)] := by
  intro rest
  obtain ⟨c, s, hcs, h1, h2⟩ := argName_cons id
  have hn : ∀ c ∈ argName id, c ≠ '}' := fun c hc => (argName_chars id c hc).2
  have := parseFmt_name [] (argName id) rest hn
  have h3 : ['{'] ++ argName id ++ ['}'] ++ rest = '{' :: (argName id ++ '}' :: rest) := by simp
  rw [h3]
  have h4 : parseFmt none ('{' :: (argName id ++ '}' :: rest)) = parseFmt (some []) (argName id ++ '}' :: rest) := by
    rw [hcs, List.cons_append, parseFmt_open c _ h1]
  rw [h4, this]
  simp

/-! ## Showing pieces -/

section

variable {U : Type} (W : World U)

theorem show_stable (h : Stable W) (v : Val U) (k : Nat) : W.show_ v k = W.show_ v 0 := by
  induction v with
  | user u => exact h u k
  | safe v ih => exact ih
  | esc e v ih => simp [World.show_, ih]

theorem showArg_stable (h : Stable W) (esc : Option Str) (v : Val U) (k : Nat) :
    showArg W esc v k = showArg W esc v 0 := by
  unfold showArg
  rw [show_stable W h v k]

/-- Text of an argument. -/
def argText (ρ : REnv U) (a : FmtArg) : Option Str := (a.expr.eval W ρ).bind fun v => showArg W a.esc v 0

/-- Text of a piece. -/
def pieceText (ρ : REnv U) (args : List FmtArg) : Piece → Option Str
  | .ch c => some [c]
  | .arg n => (args.find? (fun a => argName a.id == n)).bind (argText W ρ)

theorem evalArgs_find {ρ : REnv U} {args : List FmtArg} {vs : List (Str × Option Str × Val U)}
    (h : evalArgs W ρ args = some vs) (n : Str) :
    ((vs.find? (fun a => a.1 == n)).bind fun a => showArg W a.2.1 a.2.2 0)
      = (args.find? (fun a => argName a.id == n)).bind (argText W ρ) := by
  induction args generalizing vs with
  | nil => simp [evalArgs] at h; subst h; rfl
  | cons a args ih =>
    simp only [evalArgs, Option.bind_eq_some_iff, Option.map_eq_some_iff] at h
    obtain ⟨v, hv, ws, hws, rfl⟩ := h
    rw [List.find?_cons, List.find?_cons]
    by_cases hn : argName a.id = n
    · simp [hn, argText, hv]
    · have : (argName a.id == n) = false := beq_eq_false_iff_ne.mpr hn
      simp only [this]
      exact ih hws

theorem showPieces_eq (hs : Stable W) {ρ : REnv U} {args : List FmtArg} {vs : List (Str × Option Str × Val U)}
    (h : evalArgs W ρ args = some vs) (seen : List Str) (ps : List Piece) :
    showPieces W vs seen ps = ojoin (ps.map (pieceText W ρ args)) := by
  induction ps generalizing seen with
  | nil => rfl
  | cons p ps ih =>
    cases p with
    | ch c =>
      rw [showPieces, ih, List.map_cons, ojoin, pieceText]
      cases ojoin (ps.map (pieceText W ρ args)) <;> rfl
    | arg n =>
      rw [showPieces, List.map_cons, ojoin, pieceText, ← evalArgs_find W h n]
      cases vs.find? (fun a => a.1 == n) with
      | none => rfl
      | some a =>
        simp only [Option.bind_some]
        rw [showArg_stable W hs]
        cases showArg W a.2.1 a.2.2 0 with
        | none => rfl
        | some s => simp only [Option.bind_some, oapp, ih]

theorem evalArgs_none {ρ : REnv U} {args : List FmtArg} (h : evalArgs W ρ args = none) :
    ∃ a ∈ args, a.expr.eval W ρ = none := by
  induction args with
  | nil => simp [evalArgs] at h
  | cons a args ih =>
    cases ha : a.expr.eval W ρ with
    | none => exact ⟨a, by simp, ha⟩
    | some v =>
      simp only [evalArgs, ha, Option.bind_some, Option.map_eq_none_iff] at h
      obtain ⟨b, hb, hb2⟩ := ih h
      exact ⟨b, by simp [hb], hb2⟩

/-- What `format!` makes of a format string all of whose arguments occur in it. -/
theorem formatText_eq (hs : Stable W) {ρ : REnv U} {fmt : Str} {ps : List Piece} {args : List FmtArg}
    (hf : IsFmt fmt ps) (hnd : args.Pairwise (fun a b => argName a.id ≠ argName b.id))
    (hall : ∀ a ∈ args, Piece.arg (argName a.id) ∈ ps) :
    formatText W ρ fmt args = ojoin (ps.map (pieceText W ρ args)) := by
  unfold formatText
  rw [hf.parse, Option.bind_some]
  cases h : evalArgs W ρ args with
  | some vs => exact showPieces_eq W hs h [] ps
  | none =>
    obtain ⟨a, ha, hn⟩ := evalArgs_none W h
    rw [ojoin_none_of_mem]
    · rfl
    · rw [List.mem_map]
      refine ⟨_, hall a ha, ?_⟩
      simp only [pieceText]
      have : args.find? (fun b => argName b.id == argName a.id) = some a := by
        clear h hall
        induction args with
        | nil => simp at ha
        | cons b args ih =>
          rw [List.find?_cons]
          rcases List.mem_cons.mp ha with rfl | ha'
          · simp
          · have hne : argName b.id ≠ argName a.id := (List.pairwise_cons.mp hnd).1 a ha'
            simp only [beq_eq_false_iff_ne.mpr hne]
            exact ih (List.pairwise_cons.mp hnd).2 ha'
      rw [this]
      simp [argText, hn]

end

/-! ## The loop of `prepare_format` -/

/-- The escaper an expression is displayed with. -/
def escOf (I : GenInput) (wrapped : Bool) : Option Str := if wrapped then none else some I.escaper

section

variable {U : Type} (W : World U) (I : GenInput)

/-- The text of a pending piece of output, when it is written with these locals and variables. -/
def wText (L : Locals) (ρ : REnv U) : Writable → Option Str
  | .lit s => some s
  | .expr e =>
    match visitExpr I L e with
    | .ok (r, w) => (r.eval W ρ).bind fun v => showArg W (escOf I w) v 0
    | .error _ => none
  | .generated r w => (r.eval W ρ).bind fun v => showArg W (escOf I w) v 0

/-- Invariant of the loop: the pieces made so far show the texts `ts`. -/
structure FmtInv (ρ : REnv U) (st : Gen.FmtSt) (ts : List (Option Str)) : Prop where
  pieces : ∃ ps, IsFmt st.format ps ∧ ojoin (ps.map (pieceText W ρ st.args)) = ojoin ts
    ∧ (∀ a ∈ st.args, Piece.arg (argName a.id) ∈ ps)
    ∧ (∀ n, Piece.arg n ∈ ps → ∃ a ∈ st.args, argName a.id = n)
  ids : ∀ a ∈ st.args, a.id < st.named
  distinct : st.args.Pairwise (fun a b => argName a.id ≠ argName b.id)
  cached : ∀ c ∈ st.cache, (⟨c.2, c.1.1, c.1.2⟩ : FmtArg) ∈ st.args

theorem FmtInv.text {ρ : REnv U} {st : Gen.FmtSt} {ts : List (Option Str)} (hs : Stable W) (h : FmtInv W ρ st ts) :
    formatText W ρ st.format st.args = ojoin ts := by
  obtain ⟨ps, hf, ht, hall, _⟩ := h.pieces
  rw [formatText_eq W hs hf h.distinct hall, ht]

theorem find_of_mem {args : List FmtArg} (hnd : args.Pairwise (fun a b => argName a.id ≠ argName b.id))
    {a : FmtArg} (ha : a ∈ args) : args.find? (fun b => argName b.id == argName a.id) = some a := by
  induction args with
  | nil => simp at ha
  | cons b args ih =>
    rw [List.find?_cons]
    rcases List.mem_cons.mp ha with rfl | ha'
    · simp
    · have hne : argName b.id ≠ argName a.id := (List.pairwise_cons.mp hnd).1 a ha'
      simp only [beq_eq_false_iff_ne.mpr hne]
      exact ih (List.pairwise_cons.mp hnd).2 ha'

theorem pieceText_more {ρ : REnv U} {args more : List FmtArg} {p : Piece}
    (h : ∀ n, p = .arg n → ∃ a ∈ args, argName a.id = n) :
    pieceText W ρ (args ++ more) p = pieceText W ρ args p := by
  cases p with
  | ch c => rfl
  | arg n =>
    obtain ⟨a, ha, hn⟩ := h n rfl
    simp only [pieceText]
    rw [List.find?_append]
    have : (args.find? (fun a => argName a.id == n)).isSome := by
      rw [List.find?_isSome]
      exact ⟨a, ha, by simp [hn]⟩
    obtain ⟨b, hb⟩ := Option.isSome_iff_exists.mp this
    rw [hb]
    rfl

theorem FmtInv.lit {ρ : REnv U} {st : Gen.FmtSt} {ts : List (Option Str)} (h : FmtInv W ρ st ts) (s : Str) :
    FmtInv W ρ { st with format := st.format ++ Gen.escapeBraces s } (ts ++ [some s]) := by
  obtain ⟨ps, hf, ht, hall, hin⟩ := h.pieces
  refine ⟨⟨ps ++ s.map Piece.ch, hf.append (isFmt_escapeBraces s), ?_, ?_, ?_⟩, h.ids, h.distinct, h.cached⟩
  · rw [List.map_append, ojoin_append, ojoin_append, ht, ojoin_single]
    congr 1
    rw [List.map_map]
    clear hf ht hall hin
    induction s with
    | nil => rfl
    | cons c s ih => rw [List.map_cons, ojoin, ih]; rfl
  · intro a ha
    exact List.mem_append_left _ (hall a ha)
  · intro n hn
    rw [List.mem_append] at hn
    rcases hn with hn | hn
    · exact hin n hn
    · simp at hn

theorem FmtInv.named {ρ : REnv U} {st : Gen.FmtSt} {ts : List (Option Str)} (h : FmtInv W ρ st ts) (r : RExpr)
    (w c : Bool) :
    FmtInv W ρ (Gen.namedExpression I st r w c) (ts ++ [(r.eval W ρ).bind fun v => showArg W (escOf I w) v 0]) := by
  obtain ⟨ps, hf, ht, hall, hin⟩ := h.pieces
  -- a new argument
  have hnew : ∀ cache', (∀ c ∈ cache', c = ((escOf I w, r), st.named) ∨ c ∈ st.cache) →
      FmtInv W ρ { cache := cache', format := st.format ++ ['{'] ++ argName st.named ++ ['}'],
                   args := st.args ++ [{ id := st.named, esc := escOf I w, expr := r }], named := st.named + 1 }
        (ts ++ [(r.eval W ρ).bind fun v => showArg W (escOf I w) v 0]) := by
    intro cache' hc
    have hfresh : ∀ a ∈ st.args, argName a.id ≠ argName st.named := by
      intro a ha e
      have := h.ids a ha
      have := argName_inj e
      omega
    have hnd : (st.args ++ [(⟨st.named, escOf I w, r⟩ : FmtArg)]).Pairwise
        (fun a b => argName a.id ≠ argName b.id) := by
      rw [List.pairwise_append]
      refine ⟨h.distinct, by simp, ?_⟩
      intro a ha b hb
      simp at hb
      subst hb
      exact hfresh a ha
    refine ⟨⟨ps ++ [.arg (argName st.named)], ?_, ?_, ?_, ?_⟩, ?_, hnd, ?_⟩
    · have := hf.append (isFmt_arg st.named)
      simpa using this
    · rw [List.map_append, ojoin_append, ojoin_append, List.map_singleton, ojoin_single, ojoin_single]
      have h1 : ps.map (pieceText W ρ (st.args ++ [{ id := st.named, esc := escOf I w, expr := r }]))
          = ps.map (pieceText W ρ st.args) := by
        apply List.map_congr_left
        intro p hp
        exact pieceText_more W (fun n e => hin n (e ▸ hp))
      rw [h1, ht]
      congr 1
      have := find_of_mem hnd (a := { id := st.named, esc := escOf I w, expr := r }) (by simp)
      simp only [pieceText] at this ⊢
      rw [this]
      rfl
    · intro a ha
      rw [List.mem_append] at ha ⊢
      rcases ha with ha | ha
      · exact Or.inl (hall a ha)
      · simp at ha; subst ha; simp
    · intro n hn
      simp only [List.mem_append, List.mem_singleton, Piece.arg.injEq] at hn
      rcases hn with hn | hn
      · obtain ⟨a, ha, e⟩ := hin n hn
        exact ⟨a, by simp [ha], e⟩
      · subst hn
        exact ⟨⟨st.named, escOf I w, r⟩, by simp, rfl⟩
    · intro a ha
      rw [List.mem_append] at ha
      rcases ha with ha | ha
      · have := h.ids a ha; show a.id < st.named + 1; omega
      · simp at ha; subst ha; show st.named < st.named + 1; omega
    · intro c hcm
      rcases hc c hcm with rfl | hc
      · simp
      · exact List.mem_append_left _ (h.cached c hc)
  unfold Gen.namedExpression
  simp only
  split
  · -- a cached argument
    rename_i id hfind
    unfold Gen.FmtSt.find at hfind
    rw [Option.map_eq_some_iff] at hfind
    obtain ⟨e, he, rfl⟩ := hfind
    have hp := List.find?_some he
    simp only [Bool.and_eq_true, beq_iff_eq] at hp
    have hr := RExpr.beq_sound _ _ hp.2
    have hm := h.cached e (List.mem_of_find?_eq_some he)
    rw [hp.1, hr] at hm
    refine ⟨⟨ps ++ [.arg (argName e.2)], ?_, ?_, ?_, ?_⟩, h.ids, h.distinct, h.cached⟩
    · have := hf.append (isFmt_arg e.2)
      simpa using this
    · rw [List.map_append, ojoin_append, ojoin_append, List.map_singleton, ojoin_single, ojoin_single, ht]
      congr 1
      have := find_of_mem h.distinct hm
      simp only at this
      simp only [pieceText]
      rw [this]
      rfl
    · intro a ha
      exact List.mem_append_left _ (hall a ha)
    · intro n hn
      simp only [List.mem_append, List.mem_singleton, Piece.arg.injEq] at hn
      rcases hn with hn | hn
      · exact hin n hn
      · exact ⟨_, hm, hn.symm⟩
  · apply hnew
    intro c hc
    change c ∈ (if (st.find (escOf I w, r)).isNone = true then ((escOf I w, r), st.named) :: st.cache else st.cache) at hc
    by_cases hn : (st.find (escOf I w, r)).isNone = true
    · rw [if_pos hn] at hc
      exact List.mem_cons.mp hc
    · rw [if_neg hn] at hc
      exact Or.inr hc

theorem FmtInv.loop {L : Locals} {ρ : REnv U} (ws : List Writable) {st st' : Gen.FmtSt} {ts : List (Option Str)}
    (h : FmtInv W ρ st ts) (hr : Gen.formatLoop I L ws st = .ok st') :
    FmtInv W ρ st' (ts ++ ws.map (wText W I L ρ)) := by
  induction ws generalizing st ts with
  | nil =>
    simp only [Gen.formatLoop, Except.ok.injEq] at hr
    subst hr
    simpa using h
  | cons w ws ih =>
    cases w with
    | lit s =>
      rw [Gen.formatLoop] at hr
      have := ih (h.lit W s) hr
      simpa [wText] using this
    | expr e =>
      rw [Gen.formatLoop] at hr
      cases hv : visitExpr I L e with
      | error x => rw [hv] at hr; cases hr
      | ok p =>
        obtain ⟨r, wr⟩ := p
        rw [hv] at hr
        have := ih (h.named W I r wr (isCacheable e)) hr
        simpa [wText, hv] using this
    | generated r wr =>
      rw [Gen.formatLoop] at hr
      have := ih (h.named W I r wr false) hr
      simpa [wText] using this

/-- Text of the prepared output. -/
def partsText (ρ : REnv U) : Gen.Parts → Option Str
  | .none => some []
  | .plain s => some s
  | .formatted fmt args => formatText W ρ fmt args

theorem ojoin_lits (L : Locals) (ρ : REnv U) (ws : List Writable) (h : ws.all Writable.isLit = true) :
    ojoin (ws.map (wText W I L ρ)) = some (ws.flatMap Writable.litText) := by
  induction ws with
  | nil => rfl
  | cons w ws ih =>
    simp only [List.all_cons, Bool.and_eq_true] at h
    cases w with
    | lit s => rw [List.map_cons, ojoin, ih h.2]; rfl
    | expr e => simp [Writable.isLit] at h
    | generated r w => simp [Writable.isLit] at h

theorem prepareFormat_text (hs : Stable W) {g g' : Gen} {p : Gen.Parts} (ρ : REnv U)
    (h : Gen.prepareFormat I g = .ok (p, g')) :
    partsText W ρ p = ojoin (g.pend.map (wText W I g.locals ρ)) := by
  unfold Gen.prepareFormat at h
  split at h
  · rename_i he
    simp only [Except.ok.injEq, Prod.mk.injEq] at h
    rw [← h.1, List.isEmpty_iff.mp he]
    rfl
  · split at h
    · rename_i hl
      simp only [Except.ok.injEq, Prod.mk.injEq] at h
      rw [← h.1, ojoin_lits W I g.locals ρ g.pend hl]
      rfl
    · cases hf : Gen.formatLoop I g.locals g.pend ⟨[], [], [], g.named⟩ with
      | error x => rw [hf] at h; cases h
      | ok st =>
        rw [hf] at h
        simp only [bind, Except.bind, pure, Except.pure, Except.ok.injEq, Prod.mk.injEq] at h
        have hinv : FmtInv W ρ (⟨[], [], [], g.named⟩ : Gen.FmtSt) [] :=
          ⟨⟨[], IsFmt.nil, rfl, by simp, by simp⟩, by simp, by simp, by simp⟩
        have := hinv.loop W I g.pend hf
        rw [← h.1, partsText]
        simpa using this.text W hs

theorem prepareFormat_state {g g' : Gen} {p : Gen.Parts} (h : Gen.prepareFormat I g = .ok (p, g')) :
    ∃ n, g' = { g with pend := [], named := n } := by
  unfold Gen.prepareFormat at h
  split at h
  · rename_i he
    simp only [Except.ok.injEq, Prod.mk.injEq] at h
    refine ⟨g.named, ?_⟩
    rw [← h.2, ← List.isEmpty_iff.mp he]
  · split at h
    · simp only [Except.ok.injEq, Prod.mk.injEq] at h
      exact ⟨g.named, h.2.symm⟩
    · cases hf : Gen.formatLoop I g.locals g.pend ⟨[], [], [], g.named⟩ with
      | error x => rw [hf] at h; cases h
      | ok st =>
        rw [hf] at h
        simp only [bind, Except.bind, pure, Except.pure, Except.ok.injEq, Prod.mk.injEq] at h
        exact ⟨st.named, h.2.symm⟩

end

end Askama
