import Verif.Lemmas.Text
import Verif.Lemmas.StrLit
import Verif.Spec.SpellsStmt

/-! The text of patterns is read as the patterns of the template. -/

namespace Askama.Spec

open Askama

/-! ## What may follow a pattern -/

/-- Tokens that continue a path in a pattern. -/
def patTok : Tok → Bool
  | .op s => s == c!"::"
  | .opn c => c == '(' || c == '{'
  | _ => false

/-- `|` -/
def isBar (t : Tok) : Bool := t == .op c!"|"

/-- What is known of the tokens of a pattern; `or` says whether it has alternatives. -/
structure PReads (or : Bool) (ts : List Tok) (p : Pat) : Prop where
  one : or = false → ∀ rest, headTok patTok rest = false → Ev (fun n => rPat1 n (ts ++ rest)) (p, rest)
  all : ∀ rest, headTok patTok rest = false → headTok isBar rest = false → Ev (fun n => rPat n (ts ++ rest)) (p, rest)
  start : ∃ t r, ts = t :: r ∧ ∀ c, t ≠ .cls c
  shut : Shut ts
  bar : ∀ d rest, (or = true → d ≠ 0) → untilBar d (ts ++ rest) = (untilBar d rest).map fun x => (ts ++ x.1, x.2)

theorem rAlts_stop {rest : List Tok} (h : headTok isBar rest = false) : Ev (fun n => rAlts n rest) ([], rest) := by
  refine Ev.step (g := fun _ => some ([], rest)) (Ev.const _) fun n => ?_
  unfold rAlts
  split
  · simp [headTok, isBar] at h
  · rfl

/-- Patterns without alternatives. -/
theorem PReads.single {ts : List Tok} {p : Pat}
    (one : ∀ rest, headTok patTok rest = false → Ev (fun n => rPat1 n (ts ++ rest)) (p, rest))
    (start : ∃ t r, ts = t :: r ∧ ∀ c, t ≠ .cls c) (shut : Shut ts)
    (bar : ∀ d rest, untilBar d (ts ++ rest) = (untilBar d rest).map fun x => (ts ++ x.1, x.2)) : PReads false ts p where
  one := fun _ => one
  all := fun rest h h2 => by
    refine Ev.step (g := fun n => (rPat1 n (ts ++ rest)).bind fun x => (rAlts n x.2).bind fun y => some (orPat x.1 y.1, y.2))
      (Ev.bind (one rest h) (Ev.bind (rAlts_stop h2) (Ev.const _))) fun n => ?_
    simp only [rPat]
    rfl
  start := start
  shut := shut
  bar := fun d rest _ => bar d rest

/-! ## Tokens without bars -/

/-- Neither a bracket nor a bar. -/
def calmTok : Tok → Bool
  | .opn _ | .cls _ => false
  | t => !isBar t

theorem bar_quiet {t : Tok} (h : calmTok t = true) (d : Nat) (r : List Tok) :
    untilBar d (t :: r) = (untilBar d r).map fun x => (t :: x.1, x.2) := by
  conv => lhs; unfold untilBar
  split
  · simp [calmTok, isBar] at h
  · simp [calmTok] at h
  · simp [calmTok] at h
  · simp [calmTok] at h
  · rfl

theorem bar_quiets : {ts : List Tok} → ts.all calmTok = true → (d : Nat) → (r : List Tok) →
    untilBar d (ts ++ r) = (untilBar d r).map fun x => (ts ++ x.1, x.2)
  | [], _, d, r => by
    simp only [List.nil_append]
    cases untilBar d r <;> rfl
  | t :: ts, h, d, r => by
    simp only [List.all_cons, Bool.and_eq_true] at h
    rw [List.cons_append, bar_quiet h.1, bar_quiets h.2]
    cases untilBar d r <;> simp

theorem bar_group {o c : Char} {ts : List Tok}
    (h : ∀ d rest, d ≠ 0 → untilBar d (ts ++ rest) = (untilBar d rest).map fun x => (ts ++ x.1, x.2)) (d : Nat) (r : List Tok) :
    untilBar d (.opn o :: (ts ++ [.cls c]) ++ r) = (untilBar d r).map fun x => (.opn o :: (ts ++ [.cls c]) ++ x.1, x.2) := by
  simp only [List.cons_append, List.append_assoc, List.nil_append]
  have e1 : ∀ u, untilBar d (.opn o :: u) = (untilBar (d + 1) u).map fun p => (.opn o :: p.1, p.2) := fun u => by
    conv => lhs; unfold untilBar
  have e2 : ∀ u, untilBar (d + 1) (.cls c :: u) = (untilBar d u).map fun p => (.cls c :: p.1, p.2) := fun u => by
    conv => lhs; unfold untilBar
  rw [e1, h (d + 1) _ (by omega), e2]
  cases untilBar d r <;> simp

theorem shut_quiets {ts : List Tok} (h : ts.all calmTok = true) : Shut ts := by
  induction ts with
  | nil => exact Shut.nil
  | cons t ts ih =>
    simp only [List.all_cons, Bool.and_eq_true] at h
    refine Shut.cons ?_ (ih h.2)
    cases t <;> first | rfl | (simp [calmTok] at h)

theorem segToks_quiet : (p : List Str) → (segToks p).all calmTok = true
  | [] => rfl
  | s :: r => by simp [segToks, segToks_quiet r, calmTok, isBar]

theorem pathToks_quiet (p : List Str) : (pathToks p).all calmTok = true := by
  match p with
  | [] => rfl
  | [] :: r => exact segToks_quiet r
  | (c :: s) :: r => simp [pathToks, segToks_quiet r, calmTok, isBar]

/-! ## Paths -/

theorem pathRest_pat : (p : List Str) → (∀ s ∈ p, segOk s = true) → {rest : List Tok} →
    headTok (fun t => t == .op c!"::") rest = false → pathRest (segToks p ++ rest) = (p, rest)
  | [], _, rest, hr => by
    unfold pathRest
    simp only [segToks, List.nil_append]
    split
    · simp [headTok] at hr
    · rfl
  | s :: p, h, rest, hr => by
    simp only [segToks, List.cons_append]
    unfold pathRest
    simp [h s (by simp), pathRest_pat p (fun x hx => h x (by simp [hx])) hr]

/-- Reading a path, up to what follows it. -/
theorem rPat1_path {p : List Str} (h : PathOk p) (hu : p.head? ≠ some c!"_") {rest : List Tok}
    (hr : headTok (fun t => t == .op c!"::") rest = false) (n : Nat) :
    rPat1 (n + 1) (pathToks p ++ rest) = rAfter n p rest := by
  match p, h with
  | [] :: [], h => exact absurd rfl h.1
  | [] :: b :: r, h =>
    have hb : segOk b = true := h.2 b (by simp)
    simp only [pathToks, segToks, List.cons_append]
    unfold rPat1
    simp only [hb, if_true, pathRest_pat r (fun s hs => h.2 s (by simp [hs])) hr]
  | (c :: s) :: r, h =>
    simp only [pathToks, List.cons_append]
    unfold rPat1
    have hn : c :: s ≠ c!"_" := fun e => hu (by rw [e]; rfl)
    simp only [hn, if_false, h.1, if_true, pathRest_pat r h.2 hr]

theorem pat_colon {rest : List Tok} (h : headTok patTok rest = false) : headTok (fun t => t == .op c!"::") rest = false := by
  cases rest with
  | nil => rfl
  | cons t r => cases t <;> simp_all [headTok, patTok]

theorem rAfter_stop {p : List Str} {rest : List Tok} (h : headTok patTok rest = false) (n : Nat) :
    rAfter (n + 1) p rest = some (.path p, rest) := by
  unfold rAfter
  split
  · simp [headTok, patTok] at h
  · simp [headTok, patTok] at h
  · rfl

theorem path_start {p : List Str} (h : PathOk p) : ∃ t r, pathToks p = t :: r ∧ ∀ c, t ≠ .cls c := by
  match p, h with
  | [] :: [], h => exact absurd rfl h.1
  | [] :: b :: r, h => exact ⟨_, _, rfl, by simp⟩
  | (c :: s) :: r, h => exact ⟨_, _, rfl, by simp⟩

theorem PReads.path {p : List Str} (h : PathOk p) (hu : p.head? ≠ some c!"_") : PReads false (pathToks p) (.path p) := by
  refine PReads.single ?_ (path_start h) (shut_path p) (bar_quiets (pathToks_quiet p))
  intro rest hr
  refine Ev.step (g := fun n => rAfter n p rest) ?_ fun n => rPat1_path h hu (pat_colon hr) n
  exact Ev.step (g := fun _ => some (.path p, rest)) (Ev.const _) fun n => rAfter_stop hr n

theorem PReads.word {w : Str} (h : RustWord w) (hs : segOk w = true) (hu : w ≠ c!"_") : PReads false [.word w] (.path [w]) := by
  obtain ⟨c, r, rfl, _⟩ := h.head
  exact PReads.path (p := [c :: r]) ⟨hs, by simp⟩ (by simpa using hu)

theorem PReads.wild : PReads false [.word c!"_"] .wild := by
  refine PReads.single ?_ ⟨_, _, rfl, by simp⟩ (Shut.tok rfl) (bar_quiets (by decide))
  intro rest _
  refine Ev.step (g := fun _ => some (.wild, rest)) (Ev.const _) fun n => ?_
  simp only [List.cons_append, List.nil_append]
  unfold rPat1
  simp only [if_true]

/-! ## Literals -/

theorem PReads.lit {t : Tok} (h : isLit t = true) : PReads false [t] (.lit t) := by
  refine PReads.single ?_ ⟨_, _, rfl, ?_⟩ ?_ ?_
  · intro rest _
    refine Ev.step (g := fun _ => some (.lit t, rest)) (Ev.const _) fun n => ?_
    simp only [List.cons_append, List.nil_append]
    cases t <;> first | (cases h; done) | (unfold rPat1; rfl)
  · rintro c rfl
    cases h
  · cases t <;> first | (cases h; done) | exact Shut.tok rfl
  · refine bar_quiets ?_
    cases t <;> first | (cases h; done) | rfl

theorem PReads.neg (s : Str) : PReads false [.op c!"-", .num s] (.neg s) := by
  refine PReads.single ?_ ⟨_, _, rfl, by simp⟩ (shut_quiets rfl) (bar_quiets rfl)
  intro rest _
  refine Ev.step (g := fun _ => some (.neg s, rest)) (Ev.const _) fun n => ?_
  simp only [List.cons_append, List.nil_append]
  unfold rPat1
  rfl

theorem PReads.ref {b : Bool} {ts : List Tok} {p : Pat} (h : PReads false ts p) : PReads false (.amp b :: ts) (.ref p) := by
  refine PReads.single ?_ ⟨_, _, rfl, by simp⟩ (Shut.cons rfl h.shut) ?_
  · intro rest hr
    refine Ev.step (g := fun n => (rPat1 n (ts ++ rest)).bind fun x => some (.ref x.1, x.2))
      (Ev.bind (h.one rfl rest hr) (Ev.const _)) fun n => ?_
    simp only [List.cons_append]
    conv => lhs; unfold rPat1
    rfl
  · intro d rest
    rw [List.cons_append, bar_quiet rfl, h.bar d rest (by simp)]
    cases untilBar d rest <;> simp

/-! ## Tuples -/

/-- The tokens of the parts of a tuple; is there a comma? -/
structure PsReads (comma : Bool) (ts : List Tok) (ps : List Pat) : Prop where
  read : ∀ rest, Ev (fun n => rPats n (ts ++ .cls ')' :: rest)) (ps, comma, rest)
  shut : Shut ts
  bar : ∀ d rest, d ≠ 0 → untilBar d (ts ++ rest) = (untilBar d rest).map fun x => (ts ++ x.1, x.2)

theorem PsReads.nil : PsReads false [] [] where
  read := fun rest => Ev.step (g := fun _ => some ([], false, rest)) (Ev.const _) fun n => by
    simp only [List.nil_append]
    unfold rPats
    rfl
  shut := Shut.nil
  bar := fun d rest _ => by
    simp only [List.nil_append]
    cases untilBar d rest <;> rfl

theorem rPats_step {ts : List Tok} (h : ∃ t r, ts = t :: r ∧ ∀ c, t ≠ .cls c) (n : Nat) :
    rPats (n + 1) ts = (rPat n ts).bind fun x =>
      match x.2 with
      | .op [','] :: r => (rPats n r).bind fun y => some (x.1 :: y.1, true, y.2.2)
      | .cls ')' :: r => some ([x.1], false, r)
      | _ => none := by
  obtain ⟨t, r, rfl, ht⟩ := h
  conv => lhs; unfold rPats
  split
  · rename_i he
    cases he
    exact absurd rfl (ht _)
  · rfl

theorem start_app {ts us : List Tok} (h : ∃ t r, ts = t :: r ∧ ∀ c, t ≠ .cls c) :
    ∃ t r, ts ++ us = t :: r ∧ ∀ c, t ≠ .cls c := by
  obtain ⟨t, r, rfl, h⟩ := h
  exact ⟨t, r ++ us, rfl, h⟩

theorem PsReads.cons {or : Bool} {ts us : List Tok} {p : Pat} {ps : List Pat} {comma : Bool} (h : PReads or ts p)
    (hs : PsReads comma us ps) : PsReads true (ts ++ .op c!"," :: us) (p :: ps) where
  read := fun rest => by
    refine Ev.step (g := fun n => (rPat n (ts ++ .op c!"," :: (us ++ .cls ')' :: rest))).bind fun x =>
      match x.2 with
      | .op [','] :: r => (rPats n r).bind fun y => some (x.1 :: y.1, true, y.2.2)
      | .cls ')' :: r => some ([x.1], false, r)
      | _ => none) (Ev.bind (h.all _ rfl rfl) ?_) fun n => ?_
    · exact Ev.bind (hs.read rest) (Ev.const _)
    · rw [List.append_assoc, List.cons_append]
      exact rPats_step (start_app h.start) n
  shut := h.shut.app (Shut.cons rfl hs.shut)
  bar := fun d rest hd => by
    rw [List.append_assoc, List.cons_append, h.bar d _ (fun _ => hd), bar_quiet rfl, hs.bar d rest hd]
    cases untilBar d rest <;> simp

/-- The last part needs no comma. -/
theorem PsReads.last {or : Bool} {ts : List Tok} {p : Pat} (h : PReads or ts p) : PsReads false ts [p] where
  read := fun rest => by
    refine Ev.step (g := fun n => (rPat n (ts ++ .cls ')' :: rest)).bind fun x =>
      match x.2 with
      | .op [','] :: r => (rPats n r).bind fun y => some (x.1 :: y.1, true, y.2.2)
      | .cls ')' :: r => some ([x.1], false, r)
      | _ => none) (Ev.bind (h.all _ rfl rfl) (Ev.const _)) fun n => ?_
    exact rPats_step (start_app h.start) n
  shut := h.shut
  bar := fun d rest hd => h.bar d rest (fun _ => hd)

theorem PReads.parens {ts : List Tok} {ps : List Pat} {comma : Bool} (h : PsReads comma ts ps) :
    PReads false (.opn '(' :: (ts ++ [.cls ')'])) (parenPat ps comma) := by
  refine PReads.single ?_ ⟨_, _, rfl, by simp⟩ (Shut.group h.shut) (bar_group h.bar)
  intro rest _
  refine Ev.step (g := fun n => (rPats n (ts ++ .cls ')' :: rest)).bind fun x => some (parenPat x.1 x.2.1, x.2.2))
    (Ev.bind (h.read rest) (Ev.const _)) fun n => ?_
  simp only [List.cons_append, List.append_assoc, List.nil_append]
  conv => lhs; unfold rPat1
  rfl

theorem parenPat_tuple (ps : List Pat) : parenPat ps (!ps.isEmpty) = .tuple ps := by
  match ps with
  | [] => rfl
  | [p] => rfl
  | p :: q :: ps => rfl

theorem shut_app_group {c : Char} {a b : List Tok} (ha : Shut a) (hb : Shut b) (hc : closer c = d) :
    Shut (a ++ .opn c :: (b ++ [.cls d])) := by
  subst hc
  exact ha.app (Shut.group hb)

theorem PReads.tupleStruct {p : List Str} (hp : PathOk p) (hu : p.head? ≠ some c!"_") {ts : List Tok} {ps : List Pat}
    {comma : Bool} (h : PsReads comma ts ps) : PReads false (pathToks p ++ .opn '(' :: (ts ++ [.cls ')'])) (.tupleStruct p ps) := by
  refine PReads.single ?_ (start_app (path_start hp)) (shut_app_group (shut_path p) h.shut rfl) ?_
  · intro rest _
    refine Ev.step (g := fun n => rAfter n p (.opn '(' :: (ts ++ .cls ')' :: rest))) ?_ fun n => ?_
    · refine Ev.step (g := fun n => (rPats n (ts ++ .cls ')' :: rest)).bind fun x => some (.tupleStruct p x.1, x.2.2))
        (Ev.bind (h.read rest) (Ev.const _)) fun n => ?_
      conv => lhs; unfold rAfter
      rfl
    · simp only [List.cons_append, List.append_assoc, List.nil_append]
      exact rPat1_path hp hu rfl n
  · intro d rest
    rw [List.append_assoc, bar_quiets (pathToks_quiet p), bar_group h.bar]
    cases untilBar d rest <;> simp

/-! ## Structs -/

/-- The tokens of fields, each with a comma. -/
structure FsReads (ts : List Tok) (fs : List (Str × Pat)) : Prop where
  read : ∀ rest, Ev (fun n => rFields n (ts ++ .cls '}' :: rest)) (fs, rest)
  shut : Shut ts
  bar : ∀ d rest, d ≠ 0 → untilBar d (ts ++ rest) = (untilBar d rest).map fun x => (ts ++ x.1, x.2)

theorem FsReads.nil : FsReads [] [] where
  read := fun rest => Ev.step (g := fun _ => some ([], rest)) (Ev.const _) fun n => by
    simp only [List.nil_append]
    unfold rFields
    rfl
  shut := Shut.nil
  bar := fun d rest _ => by
    simp only [List.nil_append]
    cases untilBar d rest <;> rfl

theorem FsReads.cons {or : Bool} {x : Str} {ts us : List Tok} {p : Pat} {fs : List (Str × Pat)} (h : PReads or ts p)
    (hs : FsReads us fs) : FsReads (.word x :: .op c!":" :: (ts ++ .op c!"," :: us)) ((x, p) :: fs) where
  read := fun rest => by
    refine Ev.step (g := fun n => (rPat n (ts ++ .op c!"," :: (us ++ .cls '}' :: rest))).bind fun y =>
      match y.2 with
      | .op [','] :: r => (rFields n r).bind fun z => some ((x, y.1) :: z.1, z.2)
      | .cls '}' :: r => some ([(x, y.1)], r)
      | _ => none) (Ev.bind (h.all _ rfl rfl) ?_) fun n => ?_
    · exact Ev.bind (hs.read rest) (Ev.const _)
    · simp only [List.cons_append, List.append_assoc]
      conv => lhs; unfold rFields
      rfl
  shut := Shut.cons rfl (Shut.cons rfl (h.shut.app (Shut.cons rfl hs.shut)))
  bar := fun d rest hd => by
    simp only [List.cons_append, List.append_assoc]
    rw [bar_quiet rfl, bar_quiet rfl, h.bar d _ (fun _ => hd), bar_quiet rfl, hs.bar d rest hd]
    cases untilBar d rest <;> simp

theorem PReads.struct {p : List Str} (hp : PathOk p) (hu : p.head? ≠ some c!"_") {ts : List Tok} {fs : List (Str × Pat)}
    (h : FsReads ts fs) : PReads false (pathToks p ++ .opn '{' :: (ts ++ [.cls '}'])) (.struct p fs) := by
  refine PReads.single ?_ (start_app (path_start hp)) (shut_app_group (shut_path p) h.shut rfl) ?_
  · intro rest _
    refine Ev.step (g := fun n => rAfter n p (.opn '{' :: (ts ++ .cls '}' :: rest))) ?_ fun n => ?_
    · refine Ev.step (g := fun n => (rFields n (ts ++ .cls '}' :: rest)).bind fun x => some (.struct p x.1, x.2))
        (Ev.bind (h.read rest) (Ev.const _)) fun n => ?_
      conv => lhs; unfold rAfter
      rfl
    · simp only [List.cons_append, List.append_assoc, List.nil_append]
      exact rPat1_path hp hu rfl n
  · intro d rest
    rw [List.append_assoc, bar_quiets (pathToks_quiet p), bar_group h.bar]
    cases untilBar d rest <;> simp

/-! ## Alternatives -/

/-- The tokens of the alternatives after the first. -/
structure AltsRead (ts : List Tok) (ps : List Pat) : Prop where
  read : ∀ rest, headTok patTok rest = false → headTok isBar rest = false → Ev (fun n => rAlts n (ts ++ rest)) (ps, rest)
  first : ∀ rest, headTok patTok rest = false → headTok patTok (ts ++ rest) = false
  shut : Shut ts
  bar : ∀ d rest, d ≠ 0 → untilBar d (ts ++ rest) = (untilBar d rest).map fun x => (ts ++ x.1, x.2)

theorem AltsRead.nil : AltsRead [] [] where
  read := fun rest _ h => rAlts_stop h
  first := fun rest h => h
  shut := Shut.nil
  bar := fun d rest _ => by
    simp only [List.nil_append]
    cases untilBar d rest <;> rfl

theorem AltsRead.cons {ts us : List Tok} {p : Pat} {ps : List Pat} (h : PReads false ts p) (hs : AltsRead us ps) :
    AltsRead (.op c!"|" :: (ts ++ us)) (p :: ps) where
  read := fun rest h1 h2 => by
    refine Ev.step (g := fun n => (rPat1 n (ts ++ (us ++ rest))).bind fun x => (rAlts n x.2).bind fun y => some (x.1 :: y.1, y.2))
      (Ev.bind (h.one rfl _ (hs.first rest h1)) (Ev.bind (hs.read rest h1 h2) (Ev.const _))) fun n => ?_
    simp only [List.cons_append, List.append_assoc]
    conv => lhs; unfold rAlts
    rfl
  first := fun rest _ => rfl
  shut := Shut.cons rfl (h.shut.app hs.shut)
  bar := fun d rest hd => by
    have e : ∀ u, untilBar d (.op c!"|" :: u) = (untilBar d u).map fun x => (.op c!"|" :: x.1, x.2) := fun u => by
      cases d with
      | zero => exact absurd rfl hd
      | succ d =>
        conv => lhs; unfold untilBar
        rfl
    simp only [List.cons_append, List.append_assoc]
    rw [e, h.bar d _ (by simp), hs.bar d rest hd]
    cases untilBar d rest <;> simp

theorem PReads.or {ts us : List Tok} {p q : Pat} {ps : List Pat} (h : PReads false ts p) (hs : AltsRead us (q :: ps)) :
    PReads true (ts ++ us) (.or (p :: q :: ps)) where
  one := fun h => by cases h
  all := fun rest h1 h2 => by
    refine Ev.step (g := fun n => (rPat1 n (ts ++ (us ++ rest))).bind fun x => (rAlts n x.2).bind fun y => some (orPat x.1 y.1, y.2))
      (Ev.bind (h.one rfl _ (hs.first rest h1)) (Ev.bind (hs.read rest h1 h2) (Ev.const _))) fun n => ?_
    rw [List.append_assoc]
    conv => lhs; unfold rPat
    rfl
  start := start_app h.start
  shut := h.shut.app hs.shut
  bar := fun d rest hd => by
    rw [List.append_assoc, h.bar d _ (by simp), hs.bar d rest (hd rfl)]
    cases untilBar d rest <;> simp

/-! ## Texts -/

/-- What may follow the text of a pattern. -/
def endF (t : Target) : Str → Bool := if isLitTarget t || isOr t then folA else noWord

theorem endF_of_A {t : Target} {u : Str} (h : folA u = true) : endF t u = true := by
  unfold endF
  split
  · exact h
  · exact noWord_folP (folP_of_R (folR_of_A h))

/-- The text of a pattern is read as intended. -/
def TOut (first : Bool) (t : Target) : Prop :=
  ∃ ts p, LexTo (endF t) (targetText first t) ts ∧ PReads (isOr t) ts p ∧ SpellsPat first p t ∧ Opens (targetText first t) ts

theorem TOut.lit {first : Bool} {t : Target} {s : Str} {ts : List Tok} {p : Pat} (hl : isLitTarget t = true)
    (he : targetText first t = (if first then c!"&" else []) ++ s) (h : LexTo folA s ts) (hp : PReads false ts p)
    (ho : Opens s ts) (hn : headIs (· == '&') s = false) (hs : SpellsLit p t) : TOut first t := by
  have hor : isOr t = false := by cases t <;> first | rfl | cases hl
  have hF : endF t = folA := by simp [endF, hl]
  unfold TOut
  rw [hor, hF, he]
  cases first with
  | false => exact ⟨ts, p, by simpa using h, hp, .lit hs, by simpa using ho⟩
  | true =>
    refine ⟨.amp false :: ts, .ref p, ?_, hp.ref, .ref hs, ⟨'&', s, _, ts, rfl, rfl, rfl, rfl, rfl⟩⟩
    intro rest hr
    have h1 := lx_amp (rest := s ++ rest) (ho.head (by simp) rest)
    have h2 : headIs (· == '&') (s ++ rest) = false := by
      obtain ⟨c, s', k, ts', rfl, _⟩ := ho
      exact hn
    rw [h2] at h1
    have := h1.trans (h rest hr)
    simpa only [if_true, List.append_assoc, List.cons_append, List.nil_append] using this

theorem number_start {s : Str} (h : isNumber s = true) : ∃ c r, s = c :: r ∧ isDec c = true := by
  simp only [isNumber, Bool.and_eq_true] at h
  cases s with
  | nil => simp [headIs] at h
  | cons c r => exact ⟨c, r, rfl, h.1.1⟩

theorem dec_ne {c : Char} (h : isDec c = true) : (c == '&') = false := by
  cases hc : c == '&' with
  | false => rfl
  | true =>
    rw [beq_iff_eq] at hc
    subst hc
    exact absurd h (by decide)

theorem opens_num {s : Str} (h : isNumber s = true) : Opens s [.num s] ∧ headIs (· == '&') s = false := by
  obtain ⟨c, r, rfl, hc⟩ := number_start h
  exact ⟨⟨c, r, _, _, rfl, rfl, by simp [startC, hc], dec_ne hc, rfl⟩, dec_ne hc⟩

theorem folW_of_A {u : Str} (h : folA u = true) : folW u = true := folW_of_R (folR_of_A h)
theorem folP_of_A {u : Str} (h : folA u = true) : folP u = true := folP_of_W (folW_of_A h)
theorem noWord_of_A {u : Str} (h : folA u = true) : noWord u = true := noWord_folP (folP_of_A h)

theorem plainPath_ok {p : List Str} (h : plainPath p = true) :
    pathNames p = true ∧ PathOk p ∧ p.head? ≠ some c!"_" := by
  simp only [plainPath, Bool.and_eq_true, bne_iff_ne] at h
  exact ⟨h.1.1, pathNames_ok h.1.1 h.1.2, h.2⟩

theorem normal_wild {n : Str} (h : n ≠ c!"_") : normalizeIdentifier n ≠ c!"_" := by
  rw [normalizeIdentifier_eq, rawIdent]
  split
  · simp
  · exact h

theorem isOr_iff {t : Target} (h : isOr t = true) : ∃ ts, t = .orChain ts := by
  cases t <;> first | exact ⟨_, rfl⟩ | cases h

theorem folA_alts (first : Bool) {rest : Str} (h : folA rest = true) : (ts : List Target) →
    folA (altsText first ts ++ rest) = true
  | [] => by simpa only [altsText, List.nil_append] using h
  | t :: ts => by simp [altsText, folA, stopC]

mutual
theorem target_out : (first : Bool) → (t : Target) → plainTarget t = true → TOut first t
  | first, .name n, h => by
    simp only [plainTarget, Bool.or_eq_true, beq_iff_eq] at h
    unfold TOut
    have hF : endF (.name n) = noWord := rfl
    rw [hF]
    simp only [isOr, targetText]
    by_cases hn : n = c!"_"
    · subst hn
      simp only [if_true]
      exact ⟨_, _, lx_word (by decide), PReads.wild, .wild first, Opens.word (.inl (by decide)) []⟩
    · have hp := h.resolve_left hn
      rw [if_neg hn]
      exact ⟨_, _, (plainName_word hp).lex, PReads.word (plainName_word hp) (nameOk_seg (plainName_ok hp)) (normal_wild hn),
        .name first hn, Opens.word (plainName_word hp) []⟩
  | first, .path p, h => by
    simp only [plainTarget, Bool.or_eq_true, beq_iff_eq] at h
    unfold TOut
    have hF : endF (.path p) = noWord := rfl
    rw [hF]
    by_cases hp : p = [c!"_"]
    · subst hp
      simp only [isOr, targetText, show pathText [c!"_"] = c!"_" from rfl]
      exact ⟨_, _, lx_word (by decide), PReads.wild, .wildPath first, Opens.word (.inl (by decide)) []⟩
    obtain ⟨h1, h2, h3⟩ := plainPath_ok (h.resolve_left hp)
    simp only [isOr, targetText, pathText_join]
    exact ⟨_, _, lx_path (pathNames_words h1), PReads.path h2 h3, .path first p, by simpa using opens_path h1 [] []⟩
  | first, .numLit s, h => by
    simp only [plainTarget, Bool.or_eq_true, Bool.and_eq_true] at h
    rcases h with h | ⟨h1, h2⟩
    · exact TOut.lit rfl (by simp only [targetText]) ((lx_num h).mono fun _ => folW_of_A) (PReads.lit rfl) (opens_num h).1
        (opens_num h).2 (.num s)
    · cases s with
      | nil => cases h1
      | cons c s =>
        simp only [headIs, beq_iff_eq] at h1
        subst h1
        simp only [List.drop_succ_cons, List.drop_zero] at h2
        refine TOut.lit (s := '-' :: s) (ts := [.op c!"-", .num s]) rfl (by simp only [targetText]) ?_ (PReads.neg s)
          ⟨'-', s, _, _, rfl, rfl, rfl, rfl, rfl⟩ rfl (.neg s)
        intro rest hr
        have h3 := lx_num h2 rest (folW_of_A hr)
        refine (lx_prefix (op := c!"-") (by simp) (rest := s ++ rest) ?_).trans h3
        exact (opens_num h2).1.head (by simp) rest
  | first, .strLit s, h => by
    simp only [plainTarget] at h
    exact TOut.lit rfl (by simp only [targetText]) ((lx_str h).mono fun _ => folP_of_A) (PReads.lit rfl)
      ⟨'"', _, _, _, rfl, rfl, rfl, rfl, rfl⟩ rfl (.str s)
  | first, .charLit s, h => by
    simp only [plainTarget] at h
    exact TOut.lit rfl (by simp only [targetText]) ((lx_chr h).mono fun _ => folP_of_A) (PReads.lit rfl)
      ⟨'\'', _, _, _, rfl, rfl, rfl, rfl, rfl⟩ rfl (.char s)
  | first, .boolLit s, h => by
    simp only [plainTarget, Bool.or_eq_true, beq_iff_eq] at h
    have hw : isName s = true ∧ segOk s = true ∧ s ≠ c!"_" := by
      rcases h with rfl | rfl <;> decide
    refine TOut.lit rfl (by simp only [targetText]) ((lx_word hw.1).mono fun _ => noWord_of_A)
      (PReads.word (.inl hw.1) hw.2.1 hw.2.2) (Opens.word (.inl hw.1) []) ?_ (.bool s)
    rcases h with rfl | rfl <;> rfl
  | first, .tuple [] ts, h => by
    simp only [plainTarget, Bool.and_eq_true] at h
    obtain ⟨us, ps, h1, h2, h3⟩ := elems_out ts h.2
    unfold TOut
    have hF : endF (.tuple [] ts) = noWord := rfl
    rw [hF]
    simp only [isOr, targetText, pathText, List.nil_append]
    have h4 := PReads.parens h2
    rw [parenPat_tuple] at h4
    exact ⟨_, _, (lx_in (.inl ⟨rfl, rfl⟩) h1.of_any).of_any, h4, .tuple first h3, ⟨'(', _, _, _, rfl, rfl, rfl, rfl, rfl⟩⟩
  | first, .tuple (q :: qs) ts, h => by
    simp only [plainTarget, Bool.and_eq_true, List.isEmpty_cons, Bool.false_or] at h
    obtain ⟨us, ps, h1, h2, h3⟩ := elems_out ts h.2
    obtain ⟨g1, g2, g3⟩ := plainPath_ok h.1
    unfold TOut
    have hF : endF (.tuple (q :: qs) ts) = noWord := rfl
    rw [hF]
    simp only [isOr, targetText, pathText_join, List.append_assoc]
    refine ⟨_, _, ?_, PReads.tupleStruct g2 g3 h2, .tupleStruct first h3, opens_path g1 _ _⟩
    have := (lx_path (pathNames_words g1)).app (lx_in (.inl ⟨rfl, rfl⟩) h1.of_any) fun u _ => rfl
    simpa only [List.append_assoc] using this.of_any
  | first, .struct q ts, h => by
    simp only [plainTarget, Bool.and_eq_true] at h
    obtain ⟨us, ps, h1, h2, h3⟩ := fields_out ts h.2
    obtain ⟨g1, g2, g3⟩ := plainPath_ok h.1
    unfold TOut
    have hF : endF (.struct q ts) = noWord := rfl
    rw [hF]
    simp only [isOr, targetText, pathText_join, List.append_assoc]
    refine ⟨_, _, ?_, PReads.struct g2 g3 h2, .struct first h3, opens_path g1 _ _⟩
    have o : LexTo anyText c!" { " [.opn '{'] := by fixed_text
    have c : LexTo anyText c!" }" [.cls '}'] := by fixed_text
    have := (lx_path (pathNames_words g1)).app (o.any (h1.any c)) fun u _ => rfl
    simpa only [List.append_assoc, List.cons_append, List.nil_append] using this.of_any
  | first, .orChain [], h => by simp [plainTarget] at h
  | first, .orChain [t], h => by simp [plainTarget] at h
  | first, .orChain (t :: t' :: ts), h => by
    simp only [plainTarget, Bool.and_eq_true] at h
    have h1 := h.2
    unfold plainAlts at h1
    simp only [Bool.and_eq_true, Bool.not_eq_true'] at h1
    obtain ⟨us, p, e1, e2, e3, e4⟩ := target_out first t h1.1.1
    obtain ⟨vs, ps, f1, f2, f3⟩ := alts_out first (t' :: ts) h1.2
    rw [h1.1.2] at e2
    cases f3 with
    | @cons _ q qs _ _ f4 f5 =>
      unfold TOut
      have hF : endF (.orChain (t :: t' :: ts)) = folA := rfl
      rw [hF]
      simp only [isOr, targetText]
      refine ⟨_, _, ?_, PReads.or e2 f2, .or (.cons e3 (.cons f4 f5)), e4.app _ _⟩
      exact e1.app f1 fun u hu => endF_of_A (folA_alts first hu (t' :: ts))
theorem alts_out : (first : Bool) → (ts : List Target) → plainAlts ts = true →
    ∃ us ps, LexTo folA (altsText first ts) us ∧ AltsRead us ps ∧ SpellsPats first ps ts
  | first, [], _ => ⟨[], [], by simpa only [altsText] using LexTo.nil folA, .nil, .nil first⟩
  | first, t :: ts, h => by
    unfold plainAlts at h
    simp only [Bool.and_eq_true, Bool.not_eq_true'] at h
    obtain ⟨us, p, e1, e2, e3, e4⟩ := target_out first t h.1.1
    obtain ⟨vs, ps, f1, f2, f3⟩ := alts_out first ts h.2
    rw [h.1.2] at e2
    refine ⟨_, _, ?_, AltsRead.cons e2 f2, .cons e3 f3⟩
    have b : LexTo anyText c!" | " [.op c!"|"] := by fixed_text
    have := b.any (e1.app f1 fun u hu => endF_of_A (folA_alts first hu ts))
    simpa only [altsText, List.append_assoc, List.cons_append, List.nil_append] using this
theorem elems_out : (ts : List Target) → plainTargets ts = true →
    ∃ us ps, LexTo anyText (elemsText ts) us ∧ PsReads (!ps.isEmpty) us ps ∧ SpellsPats false ps ts
  | [], _ => ⟨[], [], by simpa only [elemsText] using LexTo.nil anyText, .nil, .nil false⟩
  | t :: ts, h => by
    simp only [plainTargets, Bool.and_eq_true] at h
    obtain ⟨us, p, e1, e2, e3, e4⟩ := target_out false t h.1
    obtain ⟨vs, ps, f1, f2, f3⟩ := elems_out ts h.2
    refine ⟨us ++ .op c!"," :: vs, p :: ps, ?_, PsReads.cons e2 f2, .cons e3 f3⟩
    have := e1.app (lx_comma.any f1) fun u _ => endF_of_A rfl
    simpa only [elemsText, List.append_assoc, List.cons_append, List.nil_append] using this
theorem fields_out : (ts : List (Str × Target)) → plainFields ts = true →
    ∃ us ps, LexTo anyText (fieldsText ts) us ∧ FsReads us ps ∧ SpellsFields ps ts
  | [], _ => ⟨[], [], by simpa only [fieldsText] using LexTo.nil anyText, .nil, .nil⟩
  | (n, t) :: ts, h => by
    simp only [plainFields, Bool.and_eq_true] at h
    obtain ⟨us, p, e1, e2, e3, e4⟩ := target_out false t h.1.2
    obtain ⟨vs, ps, f1, f2, f3⟩ := fields_out ts h.2
    refine ⟨_, _, ?_, FsReads.cons e2 f2, .cons e3 f3⟩
    have b : LexTo anyText c!": " [.op c!":"] := by fixed_text
    have := (plainName_word h.1.1).lex.app (b.any (e1.app (lx_comma.any f1) fun u _ => endF_of_A rfl)) fun u _ => rfl
    simpa only [fieldsText, List.append_assoc, List.cons_append, List.nil_append] using this
end

end Askama.Spec
