import Verif.Lemmas.Nom

/-!
# The lexical parsers return, stay inside the input, and never get stuck
-/

namespace Askama

open PT

/-- `Sat` without a postcondition on the value. -/
abbrev SatT {σ α : Type} (src : Str) (I : σ → Prop) (p : PT σ α) : Prop := Sat src I p (fun _ => True)

section
variable {σ α β γ : Type} {src : Str} {I : σ → Prop}

theorem SatT.bind {p : PT σ α} {f : α → PT σ β} {R : β → Prop} (hp : SatT src I p)
    (hf : ∀ a, Sat src I (f a) R) : Sat src I (p >>= f) R := Sat.bind hp fun a _ => hf a

theorem SatT.bind' {p : PT σ α} {f : α → PT σ β} {R : β → Prop} (hp : SatT src I p)
    (hf : ∀ a, Sat src I (f a) R) : Sat src I (PT.bind p f) R := Sat.bind hp fun a _ => hf a

theorem satT_pure (a : α) : SatT src I (pure a : PT σ α) := sat_pure a trivial

theorem SatT.map {p : PT σ α} {f : α → β} (hp : SatT src I p) : SatT src I (PT.map f p) := Sat.map hp

theorem SatT.opt {p : PT σ α} (hp : SatT src I p) : SatT src I (PT.opt p) := (Sat.opt hp).triv

theorem SatT.consumed {p : PT σ α} (hp : SatT src I p) : SatT src I (PT.consumed p) := (Sat.consumed hp).triv

theorem SatT.many0 {p : PT σ α} (hp : SatT src I p) : SatT src I (PT.many0 p) := (Sat.many0 hp).triv

theorem SatT.many1 {p : PT σ α} (hp : SatT src I p) : SatT src I (PT.many1 p) := (Sat.many1 hp).triv

theorem SatT.sepList0 {sep : PT σ γ} {p : PT σ α} (hs : SatT src I sep) (hp : SatT src I p) :
    SatT src I (PT.sepList0 sep p) := (Sat.sepList0 hs hp).triv

theorem SatT.sepList1 {sep : PT σ γ} {p : PT σ α} (hs : SatT src I sep) (hp : SatT src I p) :
    SatT src I (PT.sepList1 sep p) := (Sat.sepList1 hs hp).triv

theorem SatT.skipTill {e : PT σ α} (he : SatT src I e) : SatT src I (Askama.skipTill e) := (Sat.skipTill he).triv

theorem SatT.recognize {p : PT σ α} (hp : SatT src I p) : SatT src I (PT.recognize p) := Sat.recognize hp

theorem SatT.not {p : PT σ α} (hp : SatT src I p) : SatT src I (PT.not p) := Sat.not hp

theorem satT_satisfy {f : Char → Bool} : SatT src I (PT.satisfy f : PT σ Char) := sat_satisfy.triv

theorem satT_pos : SatT src I (PT.pos : PT σ Str) := fun _ _ _ hs => ⟨List.suffix_refl _, trivial, hs⟩

end

/-- One step of a `Sat` proof; extended below with the lemma of each parser. -/
syntax "sat_step" : tactic

macro_rules | `(tactic| sat_step) => `(tactic| split)
macro_rules | `(tactic| sat_step) => `(tactic| with_reducible (refine SatT.bind ?_ (fun _ => ?_)))
macro_rules | `(tactic| sat_step) => `(tactic| with_reducible (refine sat_pos (fun _ _ => ?_)))
macro_rules | `(tactic| sat_step) => `(tactic| with_reducible (exact satT_pure _))
macro_rules | `(tactic| sat_step) => `(tactic| with_reducible (exact sat_error))
macro_rules | `(tactic| sat_step) => `(tactic| with_reducible (exact sat_tag))
macro_rules | `(tactic| sat_step) => `(tactic| with_reducible (exact sat_char))
macro_rules | `(tactic| sat_step) => `(tactic| with_reducible (exact satT_satisfy))
macro_rules | `(tactic| sat_step) => `(tactic| with_reducible (exact sat_anychar))
macro_rules | `(tactic| sat_step) => `(tactic| with_reducible (exact sat_oneOf))
macro_rules | `(tactic| sat_step) => `(tactic| with_reducible (exact sat_eof))
macro_rules | `(tactic| sat_step) => `(tactic| with_reducible (exact sat_takeWhile))
macro_rules | `(tactic| sat_step) => `(tactic| with_reducible (exact sat_takeWhile1))
macro_rules | `(tactic| sat_step) => `(tactic| with_reducible (exact sat_takeWhileMN))
macro_rules | `(tactic| sat_step) => `(tactic| with_reducible (exact sat_skipWs))
macro_rules | `(tactic| sat_step) => `(tactic| with_reducible (apply Sat.ws))
macro_rules | `(tactic| sat_step) => `(tactic| with_reducible (apply SatT.opt))
macro_rules | `(tactic| sat_step) => `(tactic| with_reducible (apply Sat.alt))
macro_rules | `(tactic| sat_step) => `(tactic| with_reducible (apply Sat.cut))
macro_rules | `(tactic| sat_step) => `(tactic| with_reducible (apply Sat.peek))
macro_rules | `(tactic| sat_step) => `(tactic| with_reducible (apply SatT.not))
macro_rules | `(tactic| sat_step) => `(tactic| with_reducible (apply SatT.recognize))
macro_rules | `(tactic| sat_step) => `(tactic| with_reducible (apply SatT.consumed))
macro_rules | `(tactic| sat_step) => `(tactic| with_reducible (apply SatT.map))
macro_rules | `(tactic| sat_step) => `(tactic| with_reducible (apply SatT.many0))
macro_rules | `(tactic| sat_step) => `(tactic| with_reducible (apply SatT.many1))
macro_rules | `(tactic| sat_step) => `(tactic| with_reducible (apply SatT.sepList0))
macro_rules | `(tactic| sat_step) => `(tactic| with_reducible (apply SatT.sepList1))
macro_rules | `(tactic| sat_step) => `(tactic| with_reducible (apply SatT.skipTill))
macro_rules | `(tactic| sat_step) => `(tactic| with_reducible (apply Sat.lift))
macro_rules | `(tactic| sat_step) => `(tactic| with_reducible ((apply sat_failAt; assumption)))
macro_rules | `(tactic| sat_step) => `(tactic| with_reducible ((apply sat_goto_error; assumption)))
macro_rules | `(tactic| sat_step) => `(tactic| assumption)

/-- Closes goals of the form `SatT ..`. -/
macro "sat0" : tactic => `(tactic| repeat' sat_step)

section
variable {src : Str}

/-- Trivial state invariant of the stateless parsers. -/
abbrev NoState : Unit → Prop := fun _ => True

theorem identifier_sat : SatT src NoState identifier := by unfold identifier; sat0
macro_rules | `(tactic| sat_step) => `(tactic| with_reducible (exact identifier_sat))

theorem keyword_sat {k : Str} : SatT src NoState (keyword k) := by
  unfold keyword
  refine sat_pos fun i hi => identifier_sat.bind fun v => ?_
  split <;> sat0
macro_rules | `(tactic| sat_step) => `(tactic| with_reducible (exact keyword_sat))

theorem boolLit_sat : SatT src NoState boolLit := by unfold boolLit; sat0
macro_rules | `(tactic| sat_step) => `(tactic| with_reducible (exact boolLit_sat))

theorem altTags_sat {ts : List Str} : SatT src NoState (altTags ts) := by
  induction ts with
  | nil => exact sat_error
  | cons t ts ih =>
    cases ts with
    | nil => exact sat_tag
    | cons t' ts => exact Sat.alt sat_tag ih
macro_rules | `(tactic| sat_step) => `(tactic| with_reducible (exact altTags_sat))

theorem integerSuffix_sat : SatT src NoState integerSuffix := altTags_sat
macro_rules | `(tactic| sat_step) => `(tactic| with_reducible (exact integerSuffix_sat))

theorem floatSuffix_sat : SatT src NoState floatSuffix := altTags_sat
macro_rules | `(tactic| sat_step) => `(tactic| with_reducible (exact floatSuffix_sat))

theorem separatedDigits_sat {radix : Nat} {start : Bool} : SatT src NoState (separatedDigits radix start) := by
  unfold separatedDigits
  apply Sat.recognize (Q := fun _ => True)
  dsimp only
  split <;> sat0
macro_rules | `(tactic| sat_step) => `(tactic| with_reducible (exact separatedDigits_sat))

theorem numTail_sat : SatT src NoState numTail := by unfold numTail; sat0
macro_rules | `(tactic| sat_step) => `(tactic| with_reducible (exact numTail_sat))

theorem numLit_sat : SatT src NoState numLit := by unfold numLit; sat0
macro_rules | `(tactic| sat_step) => `(tactic| with_reducible (exact numLit_sat))

theorem escapedScan_spec (q : Char) (i : Str) : ∀ t r, escapedScan q i = some (t, r) → i = t ++ r := by
  fun_induction escapedScan q i with
  | case1 => simp
  | case2 c r ih =>
    intro t r' h
    cases h2 : escapedScan q r with
    | none => simp [h2] at h
    | some p =>
      have := ih p.1 p.2 h2
      simp [h2] at h
      rw [← h.1, ← h.2, this]; simp
  | case3 => simp
  | case4 r _ _ => intro t r' h; simp at h; simp [← h.1, ← h.2]
  | case5 c r _ _ _ ih =>
    intro t r' h
    cases h2 : escapedScan q r with
    | none => simp [h2] at h
    | some p =>
      have := ih p.1 p.2 h2
      simp [h2] at h
      rw [← h.1, ← h.2, this]; simp

theorem escaped_sat {q : Char} : SatT src NoState (escapedBody q) := by
  intro s i hi hs
  unfold escapedBody
  split
  · exact ⟨hi, hs⟩
  · rename_i t r h
    split
    · exact ⟨hi, hs⟩
    · refine ⟨?_, trivial, trivial⟩
      rw [escapedScan_spec q i t r h]
      exact List.suffix_append _ _
macro_rules | `(tactic| sat_step) => `(tactic| with_reducible (exact escaped_sat))

theorem strLit_sat : SatT src NoState strLit := by unfold strLit; sat0
macro_rules | `(tactic| sat_step) => `(tactic| with_reducible (exact strLit_sat))

theorem charLit_sat : SatT src NoState charLit := by
  unfold charLit
  refine sat_pos fun start hstart => ?_
  refine sat_char.bind fun _ _ => ?_
  refine SatT.bind (by sat0) fun s => ?_
  refine sat_char.bind fun _ _ => ?_
  split
  · sat0
  · split
    · sat0
    · sat0
    · split <;> sat0
    · split <;> sat0
    · sat0
macro_rules | `(tactic| sat_step) => `(tactic| with_reducible (exact charLit_sat))

theorem pathOrIdent_sat {env : PEnv} : SatT src NoState (pathOrIdent env) := by
  unfold pathOrIdent
  refine SatT.bind (by sat0) fun root => ?_
  refine identifier_sat.bind fun start => ?_
  refine SatT.bind (by sat0) fun rest => ?_
  dsimp only
  split
  · sat0
  · split <;> sat0
  · sat0
macro_rules | `(tactic| sat_step) => `(tactic| with_reducible (exact pathOrIdent_sat))

end

end Askama
