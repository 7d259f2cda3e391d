import Verif.Model.Lex

/-!
# Closure properties of the parser combinators

`Sat src I p Q`: started anywhere in `src` in a state satisfying `I`, the parser `p` returns (it is never
`stuck`); on success the rest is a suffix of the input and the value satisfies `Q`; the position of an error is a
suffix of `src`; in every case the state satisfies `I` afterwards.
-/

namespace Askama

namespace PT

variable {σ α β γ : Type} {src : Str} {I : σ → Prop}

/-- The outcome of a run from input `i`. -/
def Out (src i : Str) (I : σ → Prop) (Q : α → Prop) : PRes α × σ → Prop
  | (.ok r a, s') => r <:+ i ∧ Q a ∧ I s'
  | (.err _ j _, s') => j <:+ src ∧ I s'
  | (.stuck, _) => False

def Sat (src : Str) (I : σ → Prop) (p : PT σ α) (Q : α → Prop) : Prop :=
  ∀ s i, i <:+ src → I s → Out src i I Q (p s i)

/-- Success consumes something. -/
def Prog (src : Str) (I : σ → Prop) (p : PT σ α) : Prop :=
  ∀ s i, i <:+ src → I s → ∀ r a s', p s i = (.ok r a, s') → r.length < i.length

theorem Out.mono {i : Str} {Q R : α → Prop} {x : PRes α × σ} (h : Out src i I Q x) (hqr : ∀ a, Q a → R a) :
    Out src i I R x := by
  match x, h with
  | (.ok r a, s'), h => exact ⟨h.1, hqr a h.2.1, h.2.2⟩
  | (.err _ _ _, s'), h => exact h

theorem Out.weaken {i j : Str} {Q : α → Prop} {x : PRes α × σ} (h : Out src j I Q x) (hij : j <:+ i) :
    Out src i I Q x := by
  match x, h with
  | (.ok r a, s'), h => exact ⟨h.1.trans hij, h.2⟩
  | (.err _ _ _, s'), h => exact h

theorem Sat.mono {p : PT σ α} {Q R : α → Prop} (h : Sat src I p Q) (hqr : ∀ a, Q a → R a) : Sat src I p R :=
  fun s i hi hs => (h s i hi hs).mono hqr

theorem Sat.triv {p : PT σ α} {Q : α → Prop} (h : Sat src I p Q) : Sat src I p (fun _ => True) :=
  h.mono fun _ _ => trivial

theorem sat_pure {Q : α → Prop} (a : α) (h : Q a) : Sat src I (pure a : PT σ α) Q :=
  fun _ _ _ hs => ⟨List.suffix_refl _, h, hs⟩

theorem sat_pure' {Q : α → Prop} (a : α) (h : Q a) : Sat src I (PT.pure a : PT σ α) Q := sat_pure a h

theorem Sat.bind {p : PT σ α} {f : α → PT σ β} {Q : α → Prop} {R : β → Prop}
    (hp : Sat src I p Q) (hf : ∀ a, Q a → Sat src I (f a) R) : Sat src I (p >>= f) R := by
  intro s i hi hs
  show Out src i I R (PT.bind p f s i)
  unfold PT.bind
  have h := hp s i hi hs
  generalize p s i = x at h
  match x, h with
  | (.ok r a, s'), h => exact (hf a h.2.1 s' r (h.1.trans hi) h.2.2).weaken h.1
  | (.err _ _ _, s'), h => exact h

theorem Sat.bind' {p : PT σ α} {f : α → PT σ β} {Q : α → Prop} {R : β → Prop}
    (hp : Sat src I p Q) (hf : ∀ a, Q a → Sat src I (f a) R) : Sat src I (PT.bind p f) R := hp.bind hf

theorem Sat.map {p : PT σ α} {f : α → β} {Q : β → Prop}
    (hp : Sat src I p (fun a => Q (f a))) : Sat src I (PT.map f p) Q :=
  hp.bind fun _ h => sat_pure _ h

theorem sat_get {Q : σ → Prop} (hq : ∀ s, I s → Q s) : Sat src I (PT.get : PT σ σ) Q :=
  fun s _ _ hs => ⟨List.suffix_refl _, hq s hs, hs⟩

theorem sat_modify {f : σ → σ} {Q : Unit → Prop} (hf : ∀ s, I s → I (f s)) (hq : Q ()) :
    Sat src I (PT.modify f) Q :=
  fun s _ _ hs => ⟨List.suffix_refl _, hq, hf s hs⟩

/-- `pos` hands out a suffix of the source; what follows may assume that, and that it continues there. -/
theorem sat_pos {f : Str → PT σ β} {R : β → Prop}
    (hf : ∀ i, i <:+ src → Sat src I (f i) R) : Sat src I (pos >>= f) R :=
  fun s i hi hs => hf i hi s i hi hs

theorem sat_error {Q : α → Prop} : Sat src I (PT.error : PT σ α) Q :=
  fun _ _ hi hs => ⟨hi, hs⟩

theorem sat_failAt {Q : α → Prop} {j : Str} {m : Option Msg} (hj : j <:+ src) :
    Sat src I (failAt j m : PT σ α) Q :=
  fun _ _ _ hs => ⟨hj, hs⟩

/-- Going back to an earlier position and failing there. -/
theorem sat_goto_error {Q : α → Prop} {j : Str} (hj : j <:+ src) :
    Sat src I (goto j >>= fun _ => (PT.error : PT σ α)) Q :=
  fun _ _ _ hs => ⟨hj, hs⟩

theorem sat_goto_nil {f : Unit → PT σ β} {R : β → Prop} (hf : Sat src I (f ()) R) :
    Sat src I (goto [] >>= f) R :=
  fun s _ _ hs => (hf s [] (List.nil_suffix) hs).weaken List.nil_suffix

theorem Sat.lift {p : PT Unit α} {Q : α → Prop} (hp : Sat src (fun _ => True) p Q) :
    Sat src I (PT.lift p : PT σ α) Q := by
  intro s i hi hs
  have h := hp () i hi trivial
  unfold PT.lift
  generalize p () i = x at h
  match x, h with
  | (.ok r a, s'), h => exact ⟨h.1, h.2.1, hs⟩
  | (.err _ _ _, s'), h => exact ⟨h.1, hs⟩

theorem Sat.alt {p q : PT σ α} {Q : α → Prop} (hp : Sat src I p Q) (hq : Sat src I q Q) :
    Sat src I (PT.alt p q) Q := by
  intro s i hi hs
  have h := hp s i hi hs
  unfold PT.alt
  generalize p s i = x at h
  match x, h with
  | (.ok r a, s'), h => exact h
  | (.err false _ _, s'), h => exact hq s' i hi h.2
  | (.err true _ _, s'), h => exact h

theorem Sat.opt {p : PT σ α} {Q : α → Prop} (hp : Sat src I p Q) :
    Sat src I (PT.opt p) (fun o => ∀ a, o = some a → Q a) := by
  intro s i hi hs
  have h := hp s i hi hs
  unfold PT.opt
  generalize p s i = x at h
  match x, h with
  | (.ok r a, s'), h => exact ⟨h.1, fun a h' => by cases h'; exact h.2.1, h.2.2⟩
  | (.err false _ _, s'), h => exact ⟨List.suffix_refl _, fun a h' => (by cases h'), h.2⟩
  | (.err true _ _, s'), h => exact h

theorem Sat.cut {p : PT σ α} {Q : α → Prop} (hp : Sat src I p Q) : Sat src I (PT.cut p) Q := by
  intro s i hi hs
  have h := hp s i hi hs
  unfold PT.cut
  generalize p s i = x at h
  match x, h with
  | (.ok r a, s'), h => exact h
  | (.err _ _ _, s'), h => exact h

theorem Sat.peek {p : PT σ α} {Q : α → Prop} (hp : Sat src I p Q) : Sat src I (PT.peek p) Q := by
  intro s i hi hs
  have h := hp s i hi hs
  unfold PT.peek
  generalize p s i = x at h
  match x, h with
  | (.ok r a, s'), h => exact ⟨List.suffix_refl _, h.2⟩
  | (.err _ _ _, s'), h => exact h

theorem Sat.not {p : PT σ α} {Q : α → Prop} (hp : Sat src I p Q) :
    Sat src I (PT.not p) (fun _ => True) := by
  intro s i hi hs
  have h := hp s i hi hs
  unfold PT.not
  generalize p s i = x at h
  match x, h with
  | (.ok r a, s'), h => exact ⟨hi, h.2.2⟩
  | (.err false _ _, s'), h => exact ⟨List.suffix_refl _, trivial, h.2⟩
  | (.err true _ _, s'), h => exact h

theorem Sat.consumed {p : PT σ α} {Q : α → Prop} (hp : Sat src I p Q) :
    Sat src I (PT.consumed p) (fun x => Q x.2) := by
  intro s i hi hs
  have h := hp s i hi hs
  unfold PT.consumed
  generalize p s i = x at h
  match x, h with
  | (.ok r a, s'), h => exact h
  | (.err _ _ _, s'), h => exact h

theorem Sat.recognize {p : PT σ α} {Q : α → Prop} (hp : Sat src I p Q) :
    Sat src I (PT.recognize p) (fun _ => True) :=
  Sat.map (hp.consumed.triv)

theorem sat_tag {t : Str} : Sat src I (PT.tag t : PT σ Str) (fun _ => True) := by
  intro s i hi hs
  unfold PT.tag
  split
  · exact ⟨List.drop_suffix _ _, trivial, hs⟩
  · exact ⟨hi, hs⟩

theorem sat_satisfy {f : Char → Bool} : Sat src I (PT.satisfy f : PT σ Char) (fun c => f c = true) := by
  intro s i hi hs
  unfold PT.satisfy
  match i, hi with
  | [], hi => exact ⟨hi, hs⟩
  | c :: r, hi =>
    dsimp only
    split
    · rename_i h; exact ⟨List.suffix_cons _ _, h, hs⟩
    · exact ⟨hi, hs⟩

theorem sat_char {c : Char} : Sat src I (PT.char c : PT σ Char) (fun _ => True) := sat_satisfy.triv

theorem sat_anychar : Sat src I (PT.anychar : PT σ Char) (fun _ => True) := sat_satisfy.triv

theorem sat_oneOf {cs : Str} : Sat src I (PT.oneOf cs : PT σ Char) (fun _ => True) := sat_satisfy.triv

theorem sat_eof : Sat src I (PT.eof : PT σ Unit) (fun _ => True) := by
  intro s i hi hs
  unfold PT.eof
  split
  · exact ⟨List.suffix_refl _, trivial, hs⟩
  · exact ⟨hi, hs⟩

theorem sat_takeWhile {f : Char → Bool} : Sat src I (PT.takeWhile f : PT σ Str) (fun _ => True) :=
  fun _ _ _ hs => ⟨List.dropWhile_suffix _, trivial, hs⟩

theorem sat_takeWhile1 {f : Char → Bool} : Sat src I (PT.takeWhile1 f : PT σ Str) (fun _ => True) := by
  intro s i hi hs
  unfold PT.takeWhile1
  split
  · exact ⟨hi, hs⟩
  · exact ⟨List.dropWhile_suffix _, trivial, hs⟩

theorem sat_takeWhileMN {m n : Nat} {f : Char → Bool} :
    Sat src I (PT.takeWhileMN m n f : PT σ Str) (fun _ => True) := by
  intro s i hi hs
  simp only [PT.takeWhileMN]
  split
  · exact ⟨hi, hs⟩
  · exact ⟨List.drop_suffix _ _, trivial, hs⟩

theorem suffix_length {a b : Str} (h : a <:+ b) : a.length ≤ b.length := h.length_le

theorem many0F_sat {p : PT σ α} {Q : α → Prop} (hp : Sat src I p Q) :
    ∀ fuel s i, i <:+ src → I s → i.length < fuel →
      Out src i I (fun l => ∀ a ∈ l, Q a) (many0F p fuel s i) := by
  intro fuel
  induction fuel with
  | zero => intro s i _ _ h; omega
  | succ fuel ih =>
    intro s i hi hs hl
    unfold many0F
    have h := hp s i hi hs
    generalize p s i = x at h
    match x, h with
    | (.ok r a, s'), h =>
      dsimp only
      split
      · exact ⟨hi, h.2.2⟩
      · rename_i hne
        have hle := suffix_length h.1
        have h2 := ih s' r (h.1.trans hi) h.2.2 (by omega)
        unfold PT.map PT.bind
        generalize many0F p fuel s' r = y at h2
        match y, h2 with
        | (.ok r2 l, s2), h2 =>
          refine ⟨h2.1.trans h.1, ?_, h2.2.2⟩
          intro b hb
          rcases List.mem_cons.1 hb with rfl | hb
          · exact h.2.1
          · exact h2.2.1 b hb
        | (.err _ _ _, s2), h2 => exact h2
    | (.err false _ _, s'), h => exact ⟨List.suffix_refl _, by simp, h.2⟩
    | (.err true _ _, s'), h => exact h

theorem Sat.many0 {p : PT σ α} {Q : α → Prop} (hp : Sat src I p Q) :
    Sat src I (PT.many0 p) (fun l => ∀ a ∈ l, Q a) :=
  fun s i hi hs => many0F_sat hp _ s i hi hs (by omega)

theorem Sat.many1 {p : PT σ α} {Q : α → Prop} (hp : Sat src I p Q) :
    Sat src I (PT.many1 p) (fun l => ∀ a ∈ l, Q a) := by
  refine Sat.bind' hp fun a ha => Sat.map ?_
  refine (Sat.many0 hp).mono fun l hl b hb => ?_
  rcases List.mem_cons.1 hb with rfl | hb
  · exact ha
  · exact hl b hb

theorem sepRestF_sat {sep : PT σ γ} {p : PT σ α} {Q : α → Prop} {S : γ → Prop}
    (hsep : Sat src I sep S) (hp : Sat src I p Q) :
    ∀ fuel s i, i <:+ src → I s → i.length < fuel →
      Out src i I (fun l => ∀ a ∈ l, Q a) (sepRestF sep p fuel s i) := by
  intro fuel
  induction fuel with
  | zero => intro s i _ _ h; omega
  | succ fuel ih =>
    intro s i hi hs hl
    unfold sepRestF
    have h := hsep s i hi hs
    generalize sep s i = x at h
    match x, h with
    | (.ok r a, s'), h =>
      dsimp only
      split
      · exact ⟨h.1.trans hi, h.2.2⟩
      · rename_i hne
        have hle := suffix_length h.1
        have hq := hp s' r (h.1.trans hi) h.2.2
        generalize p s' r = y at hq
        match y, hq with
        | (.ok r' b, s''), hq =>
          dsimp only
          have hle2 := suffix_length hq.1
          have h2 := ih s'' r' (hq.1.trans (h.1.trans hi)) hq.2.2 (by omega)
          unfold PT.map PT.bind
          generalize sepRestF sep p fuel s'' r' = z at h2
          match z, h2 with
          | (.ok r2 l, s2), h2 =>
            refine ⟨h2.1.trans (hq.1.trans h.1), ?_, h2.2.2⟩
            intro c hc
            rcases List.mem_cons.1 hc with rfl | hc
            · exact hq.2.1
            · exact h2.2.1 c hc
          | (.err _ _ _, s2), h2 => exact h2
        | (.err false _ _, s''), hq => exact ⟨List.suffix_refl _, by simp, hq.2⟩
        | (.err true _ _, s''), hq => exact hq
    | (.err false _ _, s'), h => exact ⟨List.suffix_refl _, by simp, h.2⟩
    | (.err true _ _, s'), h => exact h

theorem Sat.sepRest {sep : PT σ γ} {p : PT σ α} {Q : α → Prop} {S : γ → Prop}
    (hsep : Sat src I sep S) (hp : Sat src I p Q) :
    Sat src I (PT.sepRest sep p) (fun l => ∀ a ∈ l, Q a) :=
  fun s i hi hs => sepRestF_sat hsep hp _ s i hi hs (by omega)

theorem Sat.sepList1 {sep : PT σ γ} {p : PT σ α} {Q : α → Prop} {S : γ → Prop}
    (hsep : Sat src I sep S) (hp : Sat src I p Q) :
    Sat src I (PT.sepList1 sep p) (fun l => ∀ a ∈ l, Q a) := by
  refine Sat.bind' hp fun a ha => Sat.map ?_
  refine (Sat.sepRest hsep hp).mono fun l hl b hb => ?_
  rcases List.mem_cons.1 hb with rfl | hb
  · exact ha
  · exact hl b hb

theorem Sat.sepList0 {sep : PT σ γ} {p : PT σ α} {Q : α → Prop} {S : γ → Prop}
    (hsep : Sat src I sep S) (hp : Sat src I p Q) :
    Sat src I (PT.sepList0 sep p) (fun l => ∀ a ∈ l, Q a) := by
  intro s i hi hs
  unfold PT.sepList0
  have h := hp s i hi hs
  generalize p s i = x at h
  match x, h with
  | (.ok r a, s'), h =>
    have h2 : Sat src I (PT.map (fun l => a :: l) (PT.sepRest sep p)) (fun l => ∀ a ∈ l, Q a) := by
      refine Sat.map ((Sat.sepRest hsep hp).mono fun l hl b hb => ?_)
      rcases List.mem_cons.1 hb with rfl | hb
      · exact h.2.1
      · exact hl b hb
    exact (h2 s' r (h.1.trans hi) h.2.2).weaken h.1
  | (.err false _ _, s'), h => exact ⟨List.suffix_refl _, by simp, h.2⟩
  | (.err true _ _, s'), h => exact h

/-! ### Progress -/

theorem Prog.bind_left {p : PT σ α} {f : α → PT σ β} {Q : α → Prop} {R : α → β → Prop}
    (hp : Prog src I p) (hs : Sat src I p Q) (hf : ∀ a, Q a → Sat src I (f a) (R a)) :
    Prog src I (p >>= f) := by
  intro s i hi hI r b s2 hb
  change PT.bind p f s i = _ at hb
  unfold PT.bind at hb
  have h1 := hp s i hi hI
  have h2 := hs s i hi hI
  generalize p s i = x at h1 h2 hb
  match x, h2 with
  | (.ok r' a, s'), h2 =>
    dsimp only at hb
    have h3 := hf a h2.2.1 s' r' (h2.1.trans hi) h2.2.2
    rw [hb] at h3
    have := h1 r' a s' rfl
    have := suffix_length h3.1
    omega
  | (.err _ _ _, s'), h2 => simp at hb

theorem Prog.bind_right {p : PT σ α} {f : α → PT σ β} {Q : α → Prop}
    (hs : Sat src I p Q) (hf : ∀ a, Q a → Prog src I (f a)) :
    Prog src I (p >>= f) := by
  intro s i hi hI r b s2 hb
  change PT.bind p f s i = _ at hb
  unfold PT.bind at hb
  have h2 := hs s i hi hI
  generalize p s i = x at h2 hb
  match x, h2 with
  | (.ok r' a, s'), h2 =>
    dsimp only at hb
    have h3 := hf a h2.2.1 s' r' (h2.1.trans hi) h2.2.2 _ _ _ hb
    have := suffix_length h2.1
    omega
  | (.err _ _ _, s'), h2 => simp at hb

theorem Prog.map {p : PT σ α} {f : α → β} (hp : Prog src I p) : Prog src I (PT.map f p) := by
  intro s i hi hI r b s2 hb
  unfold PT.map PT.bind at hb
  have h1 := hp s i hi hI
  generalize p s i = x at h1 hb
  match x with
  | (.ok r' a, s') =>
    simp only [PT.pure, Prod.mk.injEq, PRes.ok.injEq] at hb
    have := h1 r' a s' rfl
    rw [hb.1.1] at this
    exact this
  | (.err _ _ _, s') => simp at hb
  | (.stuck, s') => simp at hb

theorem Prog.alt {p q : PT σ α} {Q : α → Prop} (hp : Prog src I p) (hs : Sat src I p Q) (hq : Prog src I q) :
    Prog src I (PT.alt p q) := by
  intro s i hi hI r b s2 hb
  unfold PT.alt at hb
  have h1 := hp s i hi hI
  have h2 := hs s i hi hI
  generalize p s i = x at h1 h2 hb
  match x, h2 with
  | (.ok r' a, s'), _ =>
    dsimp only at hb
    exact h1 r b s2 hb
  | (.err false _ _, s'), h2 =>
    dsimp only at hb
    exact hq s' i hi h2.2 r b s2 hb
  | (.err true _ _, s'), _ => simp at hb

theorem Prog.cut {p : PT σ α} (hp : Prog src I p) : Prog src I (PT.cut p) := by
  intro s i hi hI r b s2 hb
  unfold PT.cut at hb
  have h1 := hp s i hi hI
  generalize p s i = x at h1 hb
  match x with
  | (.ok r' a, s') =>
    dsimp only at hb
    exact h1 r b s2 hb
  | (.err _ _ _, s') => simp at hb
  | (.stuck, s') => simp at hb

theorem Prog.lift {p : PT Unit α} (hp : Prog src (fun _ => True) p) : Prog src I (PT.lift p : PT σ α) := by
  intro s i hi hI r b s2 hb
  unfold PT.lift at hb
  have h1 := hp () i hi trivial
  generalize p () i = x at h1 hb
  match x with
  | (.ok r' a, s') =>
    simp only [Prod.mk.injEq, PRes.ok.injEq] at hb
    have := h1 r' a s' rfl
    rw [hb.1.1] at this
    exact this
  | (.err _ _ _, s') => simp at hb
  | (.stuck, s') => simp at hb

theorem prog_satisfy {f : Char → Bool} : Prog src I (PT.satisfy f : PT σ Char) := by
  intro s i hi hI r b s2 hb
  unfold PT.satisfy at hb
  match i with
  | [] => simp at hb
  | c :: cs =>
    dsimp only at hb
    split at hb
    · simp only [Prod.mk.injEq, PRes.ok.injEq] at hb
      rw [← hb.1.1]; simp
    · simp at hb

theorem prog_char {c : Char} : Prog src I (PT.char c : PT σ Char) := prog_satisfy

theorem prog_tooDeep : Prog src I (fun s i => (PRes.err true i none, s) : PT σ α) := by
  intro s i hi hI r b s2 hb
  simp at hb

end PT

open PT

section
variable {σ α : Type} {src : Str} {I : σ → Prop}

theorem sat_skipWs : Sat src I (skipWs : PT σ Unit) (fun _ => True) := Sat.map sat_takeWhile

theorem Sat.ws {p : PT σ α} {Q : α → Prop} (hp : Sat src I p Q) : Sat src I (ws p) Q :=
  sat_skipWs.bind fun _ _ => hp.bind fun _ h => sat_skipWs.bind fun _ _ => sat_pure _ h

theorem Prog.ws {p : PT σ α} {Q : α → Prop} (hs : Sat src I p Q) (hp : Prog src I p) : Prog src I (ws p) :=
  Prog.bind_right sat_skipWs fun _ _ =>
    Prog.bind_left (R := fun _ _ => True) hp hs fun _ _ => sat_skipWs.bind fun _ _ => sat_pure _ trivial

theorem skipTillGo_sat {e : PT σ α} {Q : α → Prop} (he : Sat src I e Q) :
    ∀ i s, i <:+ src → I s →
      Out src i I (fun x => x.1 <:+ i ∧ Q x.2) (skipTillGo e s i) := by
  intro i
  induction i with
  | nil =>
    intro s hi hs
    unfold skipTillGo
    have h := he s [] hi hs
    generalize e s [] = x at h
    match x, h with
    | (.ok r a, s'), h => exact ⟨List.suffix_refl _, ⟨h.1, h.2.1⟩, h.2.2⟩
    | (.err false _ _, s'), h => exact ⟨hi, h.2⟩
    | (.err true _ _, s'), h => exact h
  | cons c cs ih =>
    intro s hi hs
    unfold skipTillGo
    have h := he s (c :: cs) hi hs
    generalize e s (c :: cs) = x at h
    match x, h with
    | (.ok r a, s'), h => exact ⟨List.suffix_refl _, ⟨h.1, h.2.1⟩, h.2.2⟩
    | (.err false _ _, s'), h =>
      dsimp only
      exact ((ih s' ((List.suffix_cons _ _).trans hi) h.2).mono
        (fun x hx => ⟨hx.1.trans (List.suffix_cons _ _), hx.2⟩)).weaken (List.suffix_cons _ _)
    | (.err true _ _, s'), h => exact h

/-- The lookahead position returned by `skip_till` is inside the input. -/
theorem Sat.skipTill {e : PT σ α} {Q : α → Prop} (he : Sat src I e Q) :
    Sat src I (skipTill e) (fun x => x.1 <:+ src ∧ Q x.2) :=
  fun s i hi hs => (skipTillGo_sat he i s hi hs).mono fun _ hx => ⟨hx.1.trans hi, hx.2⟩

/-! ### Values that are positions

`SatR` is `Sat` with a postcondition that may also speak about the remaining input. -/

/-- The outcome of a run from input `i`, postcondition on rest and value. -/
def OutR (src i : Str) (I : σ → Prop) (Q : Str → α → Prop) : PRes α × σ → Prop
  | (.ok r a, s') => r <:+ i ∧ Q r a ∧ I s'
  | (.err _ j _, s') => j <:+ src ∧ I s'
  | (.stuck, _) => False

def SatR (src : Str) (I : σ → Prop) (p : PT σ α) (Q : Str → α → Prop) : Prop :=
  ∀ s i, i <:+ src → I s → OutR src i I Q (p s i)

theorem SatR.mono {p : PT σ α} {Q R : Str → α → Prop} (h : SatR src I p Q) (hqr : ∀ r a, Q r a → R r a) :
    SatR src I p R := by
  intro s i hi hs
  have h := h s i hi hs
  generalize p s i = x at h
  match x, h with
  | (.ok r a, s'), h => exact ⟨h.1, hqr _ _ h.2.1, h.2.2⟩
  | (.err _ _ _, s'), h => exact h

/-- The lookahead position returned by `skip_till` is inside the remaining input. -/
theorem satR_skipTill {e : PT σ α} {Q : α → Prop} (he : Sat src I e Q) :
    SatR src I (skipTill e) (fun r x => x.1 <:+ r ∧ Q x.2) := by
  intro s i
  show _ → _ → OutR src i I _ (skipTillGo e s i)
  induction i generalizing s with
  | nil =>
    intro hi hs
    unfold skipTillGo
    have h := he s [] hi hs
    generalize e s [] = x at h
    match x, h with
    | (.ok r a, s'), h => exact ⟨List.suffix_refl _, ⟨h.1, h.2.1⟩, h.2.2⟩
    | (.err false _ _, s'), h => exact ⟨hi, h.2⟩
    | (.err true _ _, s'), h => exact h
  | cons c cs ih =>
    intro hi hs
    unfold skipTillGo
    have h := he s (c :: cs) hi hs
    generalize e s (c :: cs) = x at h
    match x, h with
    | (.ok r a, s'), h => exact ⟨List.suffix_refl _, ⟨h.1, h.2.1⟩, h.2.2⟩
    | (.err false _ _, s'), h =>
      dsimp only
      have h2 := ih s' ((List.suffix_cons _ _).trans hi) h.2
      generalize skipTillGo e s' cs = y at h2
      match y, h2 with
      | (.ok r a, s2), h2 => exact ⟨h2.1.trans (List.suffix_cons _ _), h2.2⟩
      | (.err _ _ _, s2), h2 => exact h2
    | (.err true _ _, s'), h => exact h

theorem SatR.opt {p : PT σ α} {Q : Str → α → Prop} (hp : SatR src I p Q) :
    SatR src I (PT.opt p) (fun r o => ∀ a, o = some a → Q r a) := by
  intro s i hi hs
  have h := hp s i hi hs
  unfold PT.opt
  generalize p s i = x at h
  match x, h with
  | (.ok r a, s'), h => exact ⟨h.1, fun a h' => by cases h'; exact h.2.1, h.2.2⟩
  | (.err false _ _, s'), h => exact ⟨List.suffix_refl _, fun a h' => (by cases h'), h.2⟩
  | (.err true _ _, s'), h => exact h

theorem SatR.cut {p : PT σ α} {Q : Str → α → Prop} (hp : SatR src I p Q) : SatR src I (PT.cut p) Q := by
  intro s i hi hs
  have h := hp s i hi hs
  unfold PT.cut
  generalize p s i = x at h
  match x, h with
  | (.ok r a, s'), h => exact h
  | (.err _ _ _, s'), h => exact h

theorem SatR.consumed {p : PT σ α} {Q : Str → α → Prop} (hp : SatR src I p Q) :
    SatR src I (PT.consumed p) (fun r x => Q r x.2) := by
  intro s i hi hs
  have h := hp s i hi hs
  unfold PT.consumed
  generalize p s i = x at h
  match x, h with
  | (.ok r a, s'), h => exact h
  | (.err _ _ _, s'), h => exact h

theorem satR_pure {Q : Str → α → Prop} (a : α) (h : ∀ r, Q r a) : SatR src I (pure a : PT σ α) Q :=
  fun _ _ _ hs => ⟨List.suffix_refl _, h _, hs⟩

theorem SatR.bind {β : Type} {p : PT σ α} {f : α → PT σ β} {Q : α → Prop} {R : Str → β → Prop}
    (hp : Sat src I p Q) (hf : ∀ a, Q a → SatR src I (f a) R) : SatR src I (p >>= f) R := by
  intro s i hi hs
  show OutR src i I R (PT.bind p f s i)
  unfold PT.bind
  have h := hp s i hi hs
  generalize p s i = x at h
  match x, h with
  | (.ok r a, s'), h =>
    have h2 := hf a h.2.1 s' r (h.1.trans hi) h.2.2
    dsimp only
    generalize f a s' r = y at h2
    match y, h2 with
    | (.ok r2 b, s2), h2 => exact ⟨h2.1.trans h.1, h2.2⟩
    | (.err _ _ _, s2), h2 => exact h2
  | (.err _ _ _, s'), h => exact h

theorem SatR.map {β : Type} {p : PT σ α} {f : α → β} {Q : Str → β → Prop}
    (hp : SatR src I p (fun r a => Q r (f a))) : SatR src I (p >>= fun a => pure (f a)) Q := by
  intro s i hi hs
  show OutR src i I Q (PT.bind p _ s i)
  unfold PT.bind
  have h := hp s i hi hs
  generalize p s i = x at h
  match x, h with
  | (.ok r a, s'), h => exact h
  | (.err _ _ _, s'), h => exact h

/-- Continue at a position inside the remaining input. -/
theorem SatR.goto {β : Type} {p : PT σ α} {f : α → PT σ β} {Q : Str → α → Prop} {R : β → Prop}
    (hp : SatR src I p Q)
    (hf : ∀ r a, r <:+ src → Q r a → ∀ s, I s → Out src r I R (f a s r)) : Sat src I (p >>= f) R := by
  intro s i hi hs
  show Out src i I R (PT.bind p f s i)
  unfold PT.bind
  have h := hp s i hi hs
  generalize p s i = x at h
  match x, h with
  | (.ok r a, s'), h => exact (hf r a (h.1.trans hi) h.2.1 s' h.2.2).weaken h.1
  | (.err _ _ _, s'), h => exact h

theorem out_goto {β : Type} {f : Unit → PT σ β} {R : β → Prop} {j r : Str} {s : σ}
    (hr : r <:+ src) (hj : j <:+ r) (hs : I s) (hf : Sat src I (f ()) R) :
    Out src r I R ((goto j >>= f) s r) :=
  (hf s j (hj.trans hr) hs).weaken hj

end

end Askama
