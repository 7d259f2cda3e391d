import Verif.Lemmas.Lex
import Verif.Model.ParseExpr
import Verif.Spec.Parse

/-!
# The expression parser returns well-formed expressions
-/

namespace Askama

open PT Spec

/-! ### Plain expressions -/

theorem plainL_iff {es : List Expr} : PlainL es ↔ ∀ e ∈ es, Plain e := by
  induction es with
  | nil => simp [PlainL]
  | cons e es ih => simp [PlainL, ih]

theorem plainL_append {a b : List Expr} : PlainL (a ++ b) ↔ PlainL a ∧ PlainL b := by
  simp only [plainL_iff, List.mem_append]
  constructor
  · intro h; exact ⟨fun e he => h e (.inl he), fun e he => h e (.inr he)⟩
  · rintro ⟨h1, h2⟩ e (he | he)
    · exact h1 e he
    · exact h2 e he

theorem plainO_iff {o : Option Expr} : PlainO o ↔ ∀ e, o = some e → Plain e := by
  cases o <;> simp [PlainO]

theorem plainL_getD {o : Option (List Expr)} (h : ∀ l, o = some l → PlainL l) : PlainL (o.getD []) := by
  cases o with
  | none => simp [PlainL]
  | some l => exact h l rfl

/-- What each parsing function returns. -/
def NT.Post : (nt : NT) → nt.ty → Prop
  | .args true => ArgList
  | .args false => PlainL
  | .call => PlainL
  | .named => fun x => Plain x.2
  | .parse => Plain
  | .bin _ => Plain
  | .filtered => Plain
  | .prefix => Plain
  | .suffix => Plain
  | .single => Plain
  | .group => Plain
  | .array => Plain
  | .index => Plain

/-! ### Lists whose elements change the state -/

section
variable {σ α γ : Type} {src : Str}

/-- A list of values produced one after the other, each changing the state by `Step`. -/
inductive Chain (Step : σ → α → σ → Prop) : σ → List α → Prop
  | nil (s : σ) : Chain Step s []
  | cons {s : σ} {a : α} {s' : σ} {l : List α} : Step s a s' → Chain Step s' l → Chain Step s (a :: l)

/-- Result of one element. -/
def StepOut (src i : Str) (Step : σ → α → σ → Prop) (s : σ) : PRes α × σ → Prop
  | (.ok r a, s') => r <:+ i ∧ Step s a s'
  | (.err _ j _, _) => j <:+ src
  | (.stuck, _) => False

/-- Result of a list. -/
def ChainOut (src i : Str) (Step : σ → α → σ → Prop) (s : σ) : PRes (List α) × σ → Prop
  | (.ok r l, _) => r <:+ i ∧ Chain Step s l
  | (.err _ j _, _) => j <:+ src
  | (.stuck, _) => False

theorem sepRestF_chain {sep : PT σ γ} {p : PT σ α} {Step : σ → α → σ → Prop}
    (hsep : SatT src (fun _ => True) sep) (hst : ∀ s i r a s', sep s i = (.ok r a, s') → s' = s)
    (hp : ∀ s i, i <:+ src → StepOut src i Step s (p s i)) :
    ∀ fuel s i, i <:+ src → i.length < fuel → ChainOut src i Step s (sepRestF sep p fuel s i) := by
  intro fuel
  induction fuel with
  | zero => intro s i _ h; omega
  | succ fuel ih =>
    intro s i hi hl
    unfold sepRestF
    have h := hsep s i hi trivial
    have hst := hst s i
    generalize sep s i = x at h hst
    match x, h with
    | (.ok r a, s'), h =>
      dsimp only
      obtain rfl := hst r a s' rfl
      split
      · exact h.1.trans hi
      · have hle := suffix_length h.1
        have hq := hp s' r (h.1.trans hi)
        generalize p s' r = y at hq
        match y, hq with
        | (.ok r' b, s''), hq =>
          dsimp only
          have hle2 := suffix_length hq.1
          have h2 := ih s'' r' (hq.1.trans (h.1.trans hi)) (by omega)
          unfold PT.map PT.bind
          generalize sepRestF sep p fuel s'' r' = z at h2
          match z, h2 with
          | (.ok r2 l, s2), h2 =>
            exact ⟨h2.1.trans (hq.1.trans h.1), .cons hq.2 h2.2⟩
          | (.err _ _ _, s2), h2 => exact h2
        | (.err false _ _, s''), hq => exact ⟨List.suffix_refl _, .nil _⟩
        | (.err true _ _, s''), hq => exact hq
    | (.err false _ _, s'), h => exact ⟨List.suffix_refl _, .nil _⟩
    | (.err true _ _, s'), h => exact h.1

theorem sepList0_chain {sep : PT σ γ} {p : PT σ α} {Step : σ → α → σ → Prop}
    (hsep : SatT src (fun _ => True) sep) (hst : ∀ s i r a s', sep s i = (.ok r a, s') → s' = s)
    (hp : ∀ s i, i <:+ src → StepOut src i Step s (p s i)) (s : σ) (i : Str) (hi : i <:+ src) :
    ChainOut src i Step s (PT.sepList0 sep p s i) := by
  unfold PT.sepList0
  have hq := hp s i hi
  generalize p s i = y at hq
  match y, hq with
  | (.ok r' b, s''), hq =>
    dsimp only
    have h2 := sepRestF_chain hsep hst hp (r'.length + 1) s'' r' (hq.1.trans hi) (by omega)
    unfold PT.map PT.bind PT.sepRest
    generalize sepRestF sep p _ s'' r' = z at h2
    match z, h2 with
    | (.ok r2 l, s2), h2 => exact ⟨h2.1.trans hq.1, .cons hq.2 h2.2⟩
    | (.err _ _ _, s2), h2 => exact h2
  | (.err false _ _, s''), hq => exact ⟨List.suffix_refl _, .nil _⟩
  | (.err true _ _, s''), hq => exact hq

end

/-- What one argument does to the set of names seen so far. -/
inductive ArgStep : List Str → Expr → List Str → Prop
  | positional {e : Expr} : Plain e → ArgStep [] e []
  | named {s : List Str} {n : Str} {v : Expr} : n ∉ s → Plain v → ArgStep s (.namedArg n v) (n :: s)

theorem argChain_named {s : List Str} {l : List Expr} (h : Chain ArgStep s l) (hs : s ≠ []) :
    ∃ named : List (Str × Expr), l = named.map (fun x => Expr.namedArg x.1 x.2) ∧
      PlainL (named.map (·.2)) ∧ (named.map (·.1)).Nodup ∧ ∀ n ∈ named.map (·.1), n ∉ s := by
  induction h with
  | nil => exact ⟨[], by simp [PlainL]⟩
  | cons h1 _ ih =>
    cases h1 with
    | positional => exact absurd rfl hs
    | @named s n v hn hv =>
      obtain ⟨named, rfl, hp, hnd, hni⟩ := ih (by simp)
      refine ⟨(n, v) :: named, by simp, ⟨hv, hp⟩, ?_, ?_⟩
      · simp only [List.map_cons, List.nodup_cons]
        exact ⟨fun hm => hni n hm (by simp), hnd⟩
      · intro m hm
        simp only [List.map_cons, List.mem_cons] at hm
        rcases hm with rfl | hm
        · exact hn
        · exact fun h => hni m hm (List.mem_cons_of_mem _ h)

theorem argChain_argList {l : List Expr} (h : Chain ArgStep [] l) : ArgList l := by
  suffices ∀ s l, Chain ArgStep s l → s = [] → ArgList l from this [] l h rfl
  intro s l h
  induction h with
  | nil => intro _; exact ⟨[], [], by simp [PlainL]⟩
  | @cons s a s' l h1 h2 ih =>
    intro hs
    cases h1 with
    | positional he =>
      obtain ⟨pos, named, rfl, hp, hn, hnd⟩ := ih rfl
      exact ⟨a :: pos, named, by simp, ⟨he, hp⟩, hn, hnd⟩
    | @named _ n v hn hv =>
      obtain ⟨named, rfl, hp, hnd, hni⟩ := argChain_named h2 (by simp)
      refine ⟨[], (n, v) :: named, by simp, trivial, ⟨hv, hp⟩, ?_⟩
      simp only [List.map_cons, List.nodup_cons]
      exact ⟨fun hm => hni n hm (by simp), hnd⟩

theorem plain_not_named {e : Expr} (h : Plain e) : ∀ n v, e ≠ .namedArg n v := by
  intro n v he
  subst he
  exact h

/-! ### The body of each function -/

section
variable {src : Str} {self : Self} (env : PEnv)

/-- The induction hypothesis: the functions one level deeper behave. -/
def SelfOk (src : Str) (self : Self) : Prop := ∀ nt, Sat src NoState (self nt) nt.Post

theorem operand_sat (h : SelfOk src self) (k : Nat) : Sat src NoState (operand self k) Plain := by
  unfold operand
  split
  · exact h (.bin _)
  · exact h .filtered

theorem foldl_binop_plain {l : List (Str × Expr)} {e : Expr} (he : Plain e) (hl : ∀ p ∈ l, Plain p.2) :
    Plain (l.foldl (fun l p => .binop p.1 l p.2) e) := by
  induction l generalizing e with
  | nil => exact he
  | cons p l ih =>
    exact ih (e := .binop p.1 e p.2) (by simp [Plain]; exact ⟨he, hl p (by simp)⟩)
      (fun q hq => hl q (by simp [hq]))

theorem binBody_sat (h : SelfOk src self) (k : Nat) : Sat src NoState (binBody self k) Plain := by
  unfold binBody
  refine (operand_sat h k).bind fun left hl => ?_
  have hr : Sat src NoState (binRest self k) (fun p => Plain p.2) := by
    unfold binRest
    refine SatT.bind (by sat0) fun op => ?_
    exact (operand_sat h k).bind fun r hr => sat_pure _ hr
  exact (Sat.many0 hr).bind fun l hl' => sat_pure _ (foldl_binop_plain hl hl')

theorem rangeRight_sat (h : SelfOk src self) : Sat src NoState (rangeRight self) (fun x => PlainO x.2) := by
  unfold rangeRight
  refine SatT.bind (by sat0) fun op => ?_
  exact (Sat.opt (h (.bin 0))).bind fun r hr => sat_pure _ (plainO_iff.2 hr)

theorem parseBody_sat (h : SelfOk src self) : Sat src NoState (parseBody self) Plain := by
  unfold parseBody
  refine Sat.alt ?_ ?_
  · refine (rangeRight_sat h).bind fun x hx => ?_
    exact sat_pure _ (by simp only [Plain, PlainO]; exact ⟨trivial, hx⟩)
  · refine Sat.bind (h (.bin 0)) fun left hl => ?_
    refine Sat.bind (Sat.opt (rangeRight_sat h)) fun o ho => ?_
    split
    · refine sat_pure _ ?_
      simp only [Plain, PlainO]
      exact ⟨hl, ho _ rfl⟩
    · exact sat_pure _ hl

theorem filterP_sat (h : SelfOk src self) :
    Sat src NoState (filterP self) (fun x => PlainL (x.2.getD [])) := by
  unfold filterP
  refine SatT.bind (by sat0) fun _ => SatT.bind (by sat0) fun _ => ?_
  exact (Sat.opt (h (.args false))).bind fun a ha => sat_pure _ (plainL_getD ha)

theorem foldl_filter_plain {l : List (Str × Option (List Expr))} {e : Expr} (he : Plain e)
    (hl : ∀ p ∈ l, PlainL (p.2.getD [])) :
    Plain (l.foldl (fun res f => .filter f.1 (res :: f.2.getD [])) e) := by
  induction l generalizing e with
  | nil => exact he
  | cons p l ih =>
    exact ih (e := .filter p.1 (e :: p.2.getD [])) (by simp only [Plain, PlainL]; exact ⟨by simp, he, hl p (by simp)⟩)
      (fun q hq => hl q (by simp [hq]))

theorem filteredBody_sat (h : SelfOk src self) : Sat src NoState (filteredBody self) Plain := by
  unfold filteredBody
  refine Sat.bind (h .prefix) fun obj ho => ?_
  exact (Sat.many0 (filterP_sat h)).bind fun l hl => sat_pure _ (foldl_filter_plain ho hl)

theorem foldr_unary_plain {l : List Str} {e : Expr} (he : Plain e) :
    Plain (l.foldr (fun op e => .unary op e) e) := by
  induction l with
  | nil => exact he
  | cons p l ih => simp only [List.foldr_cons, Plain]; exact ih

theorem sat_tooDeep {σ α : Type} {I : σ → Prop} {Q : α → Prop} : Sat src I (tooDeep : PT σ α) Q :=
  fun _ _ hi hs => ⟨hi, hs⟩

theorem prefixBody_sat (h : SelfOk src self) (rem : Nat) : Sat src NoState (prefixBody self rem) Plain := by
  unfold prefixBody
  refine SatT.bind (by sat0) fun ops => ?_
  refine Sat.bind (h .suffix) fun e he => ?_
  split
  · exact sat_pure _ (foldr_unary_plain he)
  · exact sat_tooDeep

theorem pathVarBool_sat : Sat src NoState (pathVarBool env) Plain := by
  unfold pathVarBool
  refine pathOrIdent_sat.bind fun v => ?_
  split
  · exact sat_pure _ trivial
  · split <;> exact sat_pure _ trivial

theorem singleBody_sat (h : SelfOk src self) : Sat src NoState (singleBody self env) Plain := by
  unfold singleBody
  refine Sat.alt (Sat.map (numLit_sat.mono fun _ _ => trivial)) ?_
  refine Sat.alt (Sat.map (strLit_sat.mono fun _ _ => trivial)) ?_
  refine Sat.alt (Sat.map (charLit_sat.mono fun _ _ => trivial)) ?_
  exact Sat.alt (pathVarBool_sat env) (Sat.alt (h .array) (h .group))

theorem groupBody_sat (h : SelfOk src self) : Sat src NoState (groupBody self) Plain := by
  unfold groupBody
  refine SatT.bind (by sat0) fun _ => ?_
  refine Sat.bind (Sat.opt (h .parse)) fun o ho => ?_
  split
  · exact SatT.bind (by sat0) fun _ => sat_pure _ (by simp [Plain, PlainL])
  · rename_i e
    have he : Plain e := ho e rfl
    refine SatT.bind (by sat0) fun c => ?_
    split
    · exact SatT.bind (by sat0) fun _ => sat_pure _ (by simpa [Plain] using he)
    · have hc : Sat src NoState (do let _ ← char ','; ws (self .parse)) Plain :=
        SatT.bind (by sat0) fun _ => Sat.ws (h .parse)
      refine Sat.bind (Sat.many0 hc) fun es hes => ?_
      refine SatT.bind (by sat0) fun _ => SatT.bind (by sat0) fun _ => sat_pure _ ?_
      simp only [Plain, PlainL]
      exact ⟨he, plainL_iff.2 hes⟩

theorem arrayBody_sat (h : SelfOk src self) : Sat src NoState (arrayBody self) Plain := by
  unfold arrayBody
  refine SatT.bind (by sat0) fun _ => Sat.cut ?_
  refine Sat.bind (Sat.sepList0 sat_char (Sat.ws (h .parse))) fun es hes => ?_
  refine SatT.bind (by sat0) fun _ => SatT.bind (by sat0) fun _ => sat_pure _ ?_
  simp only [Plain]
  exact plainL_iff.2 hes

/-- One argument: what it returns and how it changes the set of names. -/
theorem argument_step (h : SelfOk src self) {start : Str} (hst : start <:+ src) (m : Bool)
    {F : Prop} (hF : F → m = false) :
    ∀ s i, i <:+ src →
      StepOut src i (fun s e s' => ArgStep s e s' ∧ (F → Plain e)) s (argument self start m s i) := by
  intro s i hi
  have hp := h .parse () i hi trivial
  have hn := h .named () i hi trivial
  -- the second alternative
  have key : StepOut src i (fun s e s' => ArgStep s e s' ∧ (F → Plain e)) s
      ((match (self .parse () i).1 with
        | .ok r e => (match !s.isEmpty, e with
          | true, .namedArg _ _ => (PT.pure e : PT (List Str) Expr)
          | true, _ => failAt start (some (.text c!"named arguments must always be passed last"))
          | false, _ => PT.pure e) s r
        | .err c j mm => (PRes.err c j mm, s)
        | .stuck => (.stuck, s)) : PRes Expr × List Str) := by
    generalize self .parse () i = x at hp
    match x, hp with
    | (.ok r e, u), hp =>
      have hpl : Plain e := hp.2.1
      cases s with
      | nil => exact ⟨hp.1, .positional hpl, fun _ => hpl⟩
      | cons n s =>
        cases e <;> first | exact (hpl : False).elim | exact hst
    | (.err _ _ _, u), hp => exact hp.1
  cases m with
  | false =>
    unfold argument
    simp only [Bool.false_eq_true, if_false]
    show StepOut src i _ s (PT.bind PT.get _ s i)
    simp only [PT.bind, PT.get, PT.alt, PT.error, PT.lift, bind]
    generalize hx : (self .parse () i).1 = x at key ⊢
    match x with
    | .ok r e => exact key
    | .err c j mm => exact key
    | .stuck => exact key
  | true =>
    unfold argument
    simp only [if_true]
    show StepOut src i _ s (PT.bind PT.get _ s i)
    simp only [PT.bind, PT.get, PT.alt, PT.lift, bind]
    generalize self .named () i = y at hn
    match y, hn with
    | (.ok r (n, v), u), hn =>
      dsimp only
      by_cases hm : n ∈ s
      · rw [if_pos hm]
        exact hst
      · rw [if_neg hm]
        simp only [pure]
        cases s with
        | nil => exact ⟨hn.1, .named hm hn.2.1, fun h => by simp at hF; exact absurd h hF⟩
        | cons n' s => exact ⟨hn.1, .named hm hn.2.1, fun h => by simp at hF; exact absurd h hF⟩
    | (.err false _ _, u), hn =>
      dsimp only
      generalize hx : (self .parse () i).1 = x at key ⊢
      match x with
      | .ok r e => exact key
      | .err c j mm => exact key
      | .stuck => exact key
    | (.err true _ _, u), hn => exact hn.1

theorem chain_plainL {Step : List Str → Expr → List Str → Prop} {s : List Str} {l : List Expr}
    (h : Chain Step s l) (hs : ∀ s e s', Step s e s' → Plain e) : PlainL l := by
  induction h with
  | nil => trivial
  | cons h1 _ ih => exact ⟨hs _ _ _ h1, ih⟩

theorem chain_mono {σ α : Type} {S T : σ → α → σ → Prop} {s : σ} {l : List α}
    (h : Chain S s l) (hs : ∀ s e s', S s e s' → T s e s') : Chain T s l := by
  induction h with
  | nil => exact .nil _
  | cons h1 _ ih => exact .cons (hs _ _ _ h1) ih

theorem ws_argument_step (h : SelfOk src self) {start : Str} (hst : start <:+ src) (m : Bool)
    {F : Prop} (hF : F → m = false) :
    ∀ s i, i <:+ src →
      StepOut src i (fun s e s' => ArgStep s e s' ∧ (F → Plain e)) s (ws (argument self start m) s i) := by
  intro s i hi
  have hd : i.dropWhile isWsp <:+ i := List.dropWhile_suffix _
  have h1 := argument_step h hst m hF s (i.dropWhile isWsp) (hd.trans hi)
  have e : ws (argument self start m) s i
      = (match argument self start m s (i.dropWhile isWsp) with
        | (.ok r a, s') => (.ok (r.dropWhile isWsp) a, s')
        | (.err c j mm, s') => (.err c j mm, s')
        | (.stuck, s') => (.stuck, s')) := by
    simp only [ws, skipWs, PT.map, bind, PT.bind, PT.takeWhile, PT.pure, pure]
    rcases argument self start m s (i.dropWhile isWsp) with ⟨_ | _ | _, _⟩ <;> rfl
  rw [e]
  generalize argument self start m s (i.dropWhile isWsp) = x at h1
  match x, h1 with
  | (.ok r a, s'), h1 => exact ⟨(List.dropWhile_suffix _).trans (h1.1.trans hd), h1.2⟩
  | (.err _ _ _, s'), h1 => exact h1

theorem char_state {σ : Type} {c : Char} : ∀ (s : σ) i r a s', PT.char c s i = (.ok r a, s') → s' = s := by
  intro s i r a s' h
  unfold PT.char PT.satisfy at h
  match i with
  | [] => simp at h
  | d :: ds =>
    dsimp only at h
    split at h
    · simp only [Prod.mk.injEq] at h; exact h.2.symm
    · simp at h

theorem argsBody_sat (h : SelfOk src self) (m : Bool) :
    Sat src NoState (argsBody self m) (NT.Post (.args m)) := by
  unfold argsBody
  refine sat_pos fun start hstart => ?_
  refine SatT.bind (by sat0) fun _ => Sat.cut ?_
  have key : Sat src NoState
      ((fun s i => ((sepList0 (char ',') (ws (argument self start m)) [] i).1, s) : P (List Expr)))
      (NT.Post (.args m)) := by
    intro s i hi hs
    have h1 := sepList0_chain (Step := fun s e s' => ArgStep s e s' ∧ (m = false → Plain e))
      (sat_char (c := ',') (src := src) (σ := List Str)) char_state
      (ws_argument_step h hstart m id) [] i hi
    show Out src i NoState _ ((sepList0 (char ',') (ws (argument self start m)) [] i).1, s)
    generalize sepList0 (char ',') (ws (argument self start m)) [] i = x at h1 ⊢
    match x, h1 with
    | (.ok r l, s'), h1 =>
      refine ⟨h1.1, ?_, trivial⟩
      cases m with
      | true => exact argChain_argList (chain_mono h1.2 fun _ _ _ h => h.1)
      | false => exact chain_plainL h1.2 fun _ _ _ h => h.2 rfl
    | (.err _ _ _, s'), h1 => exact ⟨h1, trivial⟩
  refine Sat.bind key fun es hes => ?_
  exact SatT.bind (by sat0) fun _ => SatT.bind (by sat0) fun _ => sat_pure _ hes

theorem namedBody_sat (h : SelfOk src self) : Sat src NoState (namedBody self) (fun x => Plain x.2) := by
  unfold namedBody
  refine SatT.bind (by sat0) fun _ => SatT.bind (by sat0) fun _ => ?_
  exact Sat.bind (h .parse) fun v hv => sat_pure _ hv

theorem indexBody_sat (h : SelfOk src self) : Sat src NoState (indexBody self) Plain := by
  unfold indexBody
  refine SatT.bind (by sat0) fun _ => Sat.cut ?_
  exact Sat.bind (Sat.ws (h .parse)) fun e he => SatT.bind (by sat0) fun _ => sat_pure _ he

/-! ### Suffixes -/

theorem nestedParenGo_suffix (i : Str) (n : Nat) (a b : Bool) :
    ∀ r k, nestedParenGo i n a b = (some r, k) → r <:+ i := by
  induction i generalizing n a b with
  | nil => intro r k h; simp [nestedParenGo] at h
  | cons c cs ih =>
    intro r k h
    unfold nestedParenGo at h
    dsimp only at h
    repeat' split at h
    all_goals first
      | exact (ih _ _ _ _ _ h).trans (List.suffix_cons _ _)
      | (simp only [Prod.mk.injEq, Option.some.injEq] at h; rw [← h.1]; exact List.suffix_refl _)

theorem nestedParen_sat : SatT src NoState nestedParen := by
  intro s i hi hs
  unfold nestedParen
  split
  · rename_i r k h
    exact ⟨nestedParenGo_suffix i 0 false false r k h, trivial, trivial⟩
  · exact ⟨List.suffix_refl _, trivial, trivial⟩
  · exact ⟨hi, trivial⟩
macro_rules | `(tactic| sat_step) => `(tactic| with_reducible exact nestedParen_sat)

/-- Expressions carried by a suffix are plain. -/
def SuffixOk : Suffix → Prop
  | .index e => Plain e
  | .call args => PlainL args
  | _ => True

theorem suffixMacro_sat : Sat src NoState suffixMacro SuffixOk := by
  unfold suffixMacro
  refine SatT.bind (by sat0) fun _ => SatT.bind (by sat0) fun _ => Sat.cut ?_
  exact SatT.bind (by sat0) fun _ => SatT.bind (by sat0) fun _ => sat_pure _ trivial

theorem suffixAttr_sat : Sat src NoState suffixAttr SuffixOk := by
  unfold suffixAttr
  exact SatT.bind (by sat0) fun _ => SatT.bind (by sat0) fun _ => sat_pure _ trivial

theorem suffixTry_sat : Sat src NoState suffixTry SuffixOk := by
  unfold suffixTry
  exact SatT.bind (by sat0) fun _ => SatT.bind (by sat0) fun _ => sat_pure _ trivial

theorem suffixMacro_prog : Prog src NoState suffixMacro := by
  unfold suffixMacro
  refine Prog.bind_left (R := fun _ _ => True) (Prog.ws sat_char prog_char) (Sat.ws sat_char) fun _ _ => ?_
  refine SatT.bind (by sat0) fun _ => Sat.cut ?_
  exact SatT.bind (by sat0) fun _ => SatT.bind (by sat0) fun _ => sat_pure _ trivial

theorem suffixAttr_prog : Prog src NoState suffixAttr := by
  unfold suffixAttr
  have hs : SatT src NoState (do let _ ← char '.'; PT.not (char '.') : P Unit) := by sat0
  have hp : Prog src NoState (do let _ ← char '.'; PT.not (char '.') : P Unit) :=
    Prog.bind_left (R := fun _ _ => True) prog_char sat_char fun _ _ => SatT.not sat_char
  refine Prog.bind_left (R := fun _ _ => True) (Prog.ws hs hp) (Sat.ws hs) fun _ _ => ?_
  exact SatT.bind (by sat0) fun _ => sat_pure _ trivial

theorem suffixTry_prog : Prog src NoState suffixTry := by
  unfold suffixTry
  refine Prog.bind_right sat_skipWs fun _ _ => ?_
  exact Prog.bind_left (R := fun _ _ => True) prog_char sat_char fun _ _ => sat_pure _ trivial

theorem argsBody_prog (h : SelfOk src self) (m : Bool) : Prog src NoState (argsBody self m) := by
  unfold argsBody
  intro s i hi hs
  refine Prog.bind_left (R := fun _ _ => True) (Prog.ws sat_char prog_char) (Sat.ws sat_char)
    (f := fun _ => PT.cut do
      let es ← (fun s j => ((sepList0 (char ',') (ws (argument self i m)) [] j).1, s) : P (List Expr))
      let _ ← opt (ws (char ','))
      let _ ← char ')'
      pure es) (fun _ _ => Sat.cut ?_) s i hi hs
  have key : SatT src NoState
      ((fun s j => ((sepList0 (char ',') (ws (argument self i m)) [] j).1, s) : P (List Expr))) := by
    intro s j hj hs
    have h1 := sepList0_chain (Step := fun s e s' => ArgStep s e s' ∧ (m = false → Plain e))
      (sat_char (c := ',') (src := src) (σ := List Str)) char_state
      (ws_argument_step h hi m id) [] j hj
    show Out src j NoState _ ((sepList0 (char ',') (ws (argument self i m)) [] j).1, s)
    generalize sepList0 (char ',') (ws (argument self i m)) [] j = x at h1 ⊢
    match x, h1 with
    | (.ok r l, s'), h1 => exact ⟨h1.1, trivial, trivial⟩
    | (.err _ _ _, s'), h1 => exact ⟨h1, trivial⟩
  exact SatT.bind key fun _ => SatT.bind (by sat0) fun _ => SatT.bind (by sat0) fun _ => sat_pure _ trivial

theorem indexBody_prog (h : SelfOk src self) : Prog src NoState (indexBody self) := by
  unfold indexBody
  refine Prog.bind_left (R := fun _ _ => True) (Prog.ws sat_char prog_char) (Sat.ws sat_char) fun _ _ => ?_
  exact Sat.cut (Sat.bind (Sat.ws (h .parse)) fun e _ => SatT.bind (by sat0) fun _ => sat_pure _ trivial)

/-- Index and call suffixes consume something. -/
def SelfProg (src : Str) (self : Self) : Prop :=
  Prog src NoState (self .index) ∧ Prog src NoState (self .call) ∧ ∀ m, Prog src NoState (self (.args m))

theorem suffixAlt_sat (h : SelfOk src self) :
    Sat src NoState (alt suffixAttr <| alt ((self .index).map .index) <| alt ((self .call).map .call) <|
      alt suffixTry suffixMacro) SuffixOk :=
  Sat.alt suffixAttr_sat (Sat.alt (Sat.map (h .index)) (Sat.alt (Sat.map (h .call))
    (Sat.alt suffixTry_sat suffixMacro_sat)))

theorem suffixAlt_prog (h : SelfOk src self) (hp : SelfProg src self) :
    Prog src NoState (alt suffixAttr <| alt ((self .index).map .index) <| alt ((self .call).map .call) <|
      alt suffixTry suffixMacro) := by
  refine Prog.alt suffixAttr_prog suffixAttr_sat ?_
  refine Prog.alt (Prog.map hp.1) (Sat.map (Q := SuffixOk) (h .index)) ?_
  refine Prog.alt (Prog.map hp.2.1) (Sat.map (Q := SuffixOk) (h .call)) ?_
  exact Prog.alt suffixTry_prog suffixTry_sat suffixMacro_prog

theorem suffixLoop_out (h : SelfOk src self) (hp : SelfProg src self) :
    ∀ fuel e s i, i <:+ src → i.length < fuel → Plain e →
      Out src i NoState Plain (suffixLoop self fuel e s i) := by
  intro fuel
  induction fuel with
  | zero => intro e s i _ h; omega
  | succ fuel ih =>
    intro e s i hi hl
    have e1 : suffixLoop self (fuel + 1) e s i =
        (suffixOne self >>= fun o => match o with
          | some (.attr a) => suffixLoop self fuel (.attr e a)
          | some (.index k) => suffixLoop self fuel (.index e k)
          | some (.call args) => suffixLoop self fuel (.call e args)
          | some .try_ => suffixLoop self fuel (.try_ e)
          | some (.macroCall a) =>
            match e with
            | .path p => suffixLoop self fuel (.rustMacro p a)
            | .var n => suffixLoop self fuel (.rustMacro [n] a)
            | _ => failAt i none
          | none => pure e) s i := by
      rw [suffixLoop]; rfl
    intro he
    rw [e1]
    show Out src i NoState Plain (PT.bind _ _ s i)
    unfold PT.bind suffixOne PT.opt
    have h1 := suffixAlt_sat h s i hi trivial
    have h2 := suffixAlt_prog h hp s i hi trivial
    generalize (alt suffixAttr <| alt ((self .index).map .index) <| alt ((self .call).map .call) <|
      alt suffixTry suffixMacro) s i = x at h1 h2
    match x, h1 with
    | (.ok r a, s'), h1 =>
      have hlt := h2 r a s' rfl
      have hr : r <:+ src := h1.1.trans hi
      have hlt' : r.length < fuel := by omega
      have ha := h1.2.1
      dsimp only
      cases a with
      | attr n => exact (ih _ s' r hr hlt' (by simpa [Plain] using he)).weaken h1.1
      | index k => exact (ih _ s' r hr hlt' (by simp only [Plain]; exact ⟨he, ha⟩)).weaken h1.1
      | call as => exact (ih _ s' r hr hlt' (by simp only [Plain]; exact ⟨he, ha⟩)).weaken h1.1
      | try_ => exact (ih _ s' r hr hlt' (by simpa [Plain] using he)).weaken h1.1
      | macroCall m =>
        dsimp only
        split
        · exact (ih _ s' r hr hlt' (by simp [Plain])).weaken h1.1
        · exact (ih _ s' r hr hlt' (by simp [Plain])).weaken h1.1
        · exact ⟨hi, trivial⟩
    | (.err false _ _, s'), h1 => exact ⟨List.suffix_refl _, he, trivial⟩
    | (.err true _ _, s'), h1 => exact h1

theorem suffixBody_sat (h : SelfOk src self) (hp : SelfProg src self) :
    Sat src NoState (suffixBody self) Plain := by
  unfold suffixBody
  refine Sat.bind (h .single) fun e he => ?_
  intro s i hi hs
  exact suffixLoop_out h hp (i.length + 1) e s i hi (by omega) he

theorem exprBody_sat (h : SelfOk src self) (hp : SelfProg src self) (rem : Nat) :
    ∀ nt, Sat src NoState (exprBody env self rem nt) nt.Post
  | .parse => parseBody_sat h
  | .bin k => binBody_sat h k
  | .filtered => filteredBody_sat h
  | .prefix => prefixBody_sat h rem
  | .suffix => suffixBody_sat h hp
  | .single => singleBody_sat env h
  | .group => groupBody_sat h
  | .array => arrayBody_sat h
  | .args m => argsBody_sat h m
  | .named => namedBody_sat h
  | .index => indexBody_sat h
  | .call => h (.args false)

end

theorem exprP_sat_prog (env : PEnv) (src : Str) :
    ∀ n, SelfOk src (exprP env n) ∧ SelfProg src (exprP env n) := by
  intro n
  induction n with
  | zero =>
    exact ⟨fun nt => sat_tooDeep, prog_tooDeep, prog_tooDeep, fun m => prog_tooDeep⟩
  | succ n ih =>
    exact ⟨fun nt => exprBody_sat env ih.1 ih.2 (n + 1) nt, indexBody_prog ih.1, ih.2.2.2 false,
      fun m => argsBody_prog ih.1 m⟩

/-- The expression parser, at any nesting level: it returns, positions stay inside the source, and the result
is well formed. -/
theorem exprP_sat (env : PEnv) (src : Str) (n : Nat) (nt : NT) :
    Sat src NoState (exprP env n nt) nt.Post := (exprP_sat_prog env src n).1 nt

end Askama
