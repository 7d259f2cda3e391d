import Verif.Lemmas.Errors
import Verif.Spec.Whole

/-! The bounds on recursion do not matter: with a larger bound the result is the same, unless the bound was reached. -/

namespace Askama

open Spec Gen

/-! ## The interpreter -/

section
variable {U : Type}

/-- With `rec'` for `rec` the result is the same, or there was none. -/
def Extends (rec rec' : Render U) : Prop :=
  ∀ chain ctx sup before ns after st, FailsOr (rec chain ctx sup before ns after st) (rec' chain ctx sup before ns after st)

theorem runIf_extends {W : World U} {I : GenInput} {rec rec' : WH → List Node → Option WH → Store U → Res U}
    (h : ∀ b ns a st, FailsOr (rec b ns a st) (rec' b ns a st)) (ws : Ws) (st : Store U) : (bs : List Cond) →
    FailsOr (runIf W I rec ws st bs) (runIf W I rec' ws st bs)
  | [] => .refl _
  | .mk w cond nodes :: rest => by
    simp only [runIf]
    refine (FailsOr.refl _).bind fun o => ?_
    cases o with
    | some st' => exact (h _ _ _ _).map _
    | none => exact runIf_extends h ws st rest

theorem runMatch_extends {W : World U} {I : GenInput} {rec rec' : WH → List Node → Option WH → Store U → Res U}
    (h : ∀ b ns a st, FailsOr (rec b ns a st) (rec' b ns a st)) (ws : Ws) (st : Store U) (v : Val U) :
    (arms : List When) → FailsOr (runMatch W I rec ws st v arms) (runMatch W I rec' ws st v arms)
  | [] => .refl _
  | .mk w t nodes :: rest => by
    simp only [runMatch]
    cases patMatch W t v with
    | some vs => exact (h _ _ _ _).map _
    | none => exact runMatch_extends h ws st v rest

theorem runItems_extends {W : World U} {t : Target} {body body' : Store U → Res U}
    (h : ∀ st, FailsOr (body st) (body' st)) : (vs : List (Val U)) → (i : Nat) → (st : Store U) →
    FailsOr (runItems W t body vs i st) (runItems W t body' vs i st)
  | [], _, _ => .refl _
  | v :: vs, i, st => by
    simp only [runItems]
    refine (FailsOr.refl _).bind fun ws => (h _).bind fun r => ?_
    obtain ⟨s, sig, st'⟩ := r
    exact FailsOr.ite (.refl _) ((runItems_extends h vs _ _).map _)

theorem runLoop_extends {W : World U} {I : GenInput} {rec rec' : WH → List Node → Option WH → Store U → Res U}
    (h : ∀ b ns a st, FailsOr (rec b ns a st) (rec' b ns a st)) (st : Store U) (ws1 : Ws) (t : Target) (iter : Expr)
    (cond : Option Expr) (body : List Node) (ws2 : Ws) (els : List Node) (ws3 : Ws) :
    FailsOr (runLoop W I rec st ws1 t iter cond body ws2 els ws3) (runLoop W I rec' st ws1 t iter cond body ws2 els ws3) := by
  unfold runLoop
  refine (FailsOr.refl _).bind fun v => (FailsOr.refl _).bind fun vs => (FailsOr.refl _).bind fun vs => ?_
  exact FailsOr.ite (FailsOr.ite (.refl _) ((h _ _ _ _).map _)) ((runItems_extends (fun st => h _ _ _ _) _ _ _).map _)

theorem runBlock_extends {I : GenInput} {rec rec' : Render U} (h : Extends rec rec') (chain : List Ctx) (ctx : Ctx)
    (st : Store U) (name : Str) (k : Nat) : FailsOr (runBlock I rec chain ctx st name k) (runBlock I rec' chain ctx st name k) := by
  unfold runBlock
  split
  · exact .refl _
  · exact (h _ _ _ _ _ _ _).map _

theorem runNode_extends {W : World U} {I : GenInput} {rec rec' : Render U} (h : Extends rec rec') (chain : List Ctx)
    (ctx : Ctx) (sup : Option (Str × Nat)) (before : WH) (after : Option WH) (st : Store U) (n : Node) :
    FailsOr (runNode W I rec chain ctx sup before after st n) (runNode W I rec' chain ctx sup before after st n) := by
  have hr : ∀ b ns a st, FailsOr (rec chain ctx sup b ns a st) (rec' chain ctx sup b ns a st) := fun _ _ _ _ => h _ _ _ _ _ _ _
  cases n with
  | call ws scope name args =>
    simp only [runNode]
    refine FailsOr.ite ?_ ?_
    · cases sup with
      | none => exact .refl _
      | some p => exact runBlock_extends h _ _ _ _ _
    · unfold runCall
      refine (FailsOr.refl _).bind fun d => ?_
      obtain ⟨d, own⟩ := d
      refine (FailsOr.refl _).bind fun ps => ?_
      exact (h _ _ _ _ _ _ _).map _
  | if_ => exact runIf_extends hr _ _ _
  | match_ => simp only [runNode]; exact (FailsOr.refl _).bind fun v => runMatch_extends hr _ _ _ _
  | loop => exact runLoop_extends hr _ _ _ _ _ _ _ _ _
  | blockDef => exact runBlock_extends h _ _ _ _ _
  | «include» =>
    simp only [runNode, runInclude]
    refine (FailsOr.refl _).bind fun p => (FailsOr.refl _).bind fun c => (FailsOr.refl _).bind fun chain => ?_
    exact (h _ _ _ _ _ _ _).map _
  | filterBlock =>
    simp only [runNode, runFilter]
    exact (h _ _ _ _ _ _ _).map _
  | _ => exact .refl _

theorem runNodes_extends {W : World U} {I : GenInput} {rec rec' : Render U} (h : Extends rec rec') (chain : List Ctx)
    (ctx : Ctx) (sup : Option (Str × Nat)) : (before : WH) → (ns : List Node) → (after : Option WH) → (st : Store U) →
    FailsOr (runNodes W I rec chain ctx sup before ns after st) (runNodes W I rec' chain ctx sup before ns after st)
  | _, [], _, _ => .refl _
  | before, n :: ns, after, st => by
    simp only [runNodes]
    refine (runNode_extends h _ _ _ _ _ _ _).bind fun r => ?_
    obtain ⟨s, sig, st'⟩ := r
    exact FailsOr.ite ((runNodes_extends h _ _ _ _ ns _ _).map _) (.refl _)

theorem run_step (W : World U) (I : GenInput) : (fuel : Nat) → Extends (run W I fuel) (run W I (fuel + 1))
  | 0 => fun _ _ _ _ _ _ _ => .inl rfl
  | fuel + 1 => fun _ _ _ _ _ _ _ => runNodes_extends (run_step W I fuel) _ _ _ _ _ _ _

theorem run_mono (W : World U) (I : GenInput) {n m : Nat} (h : n ≤ m) : Extends (run W I n) (run W I m) := by
  induction h with
  | refl => exact fun _ _ _ _ _ _ _ => .refl _
  | step _ ih =>
    intro a b c d e f g
    rcases ih a b c d e f g with h | h
    · exact .inl h
    · rw [h]; exact run_step W I _ a b c d e f g

theorem render_mono (W : World U) (I : GenInput) {n m : Nat} (h : n ≤ m) (chain : List Ctx) (ctx : Ctx) :
    FailsOr (render W I n chain ctx) (render W I m chain ctx) :=
  (run_mono W I h _ _ _ _ _ _ _).bind fun _ => .refl _

end

/-! ## The check -/

theorem FailsOr.guard {α : Type} {a b : Bool} {x : α} (h : a = true → b = true) :
    FailsOr (if a = true then some x else none) (if b = true then some x else none) := by
  cases a with
  | false => left; rfl
  | true => right; rw [h rfl]

theorem FailsOr.isSome {α : Type} {a b : Option α} (h : FailsOr a b) (ha : a.isSome = true) : b.isSome = true := by
  rcases h with h | h
  · rw [h] at ha; cases ha
  · rw [← h]; exact ha

/-- With `rec'` for `rec` the result is the same, or there was none. -/
def ChecksMore (rec rec' : GoodRec) : Prop := ∀ chain ctx sup S ns, FailsOr (rec chain ctx sup S ns) (rec' chain ctx sup S ns)

theorem goodIf_more {rec rec' : Sets → List Node → Option Sets} (h : ∀ S ns, FailsOr (rec S ns) (rec' S ns)) (S : Sets) :
    (bs : List Cond) → goodIf rec S bs = true → goodIf rec' S bs = true
  | [], _ => rfl
  | .mk w c nodes :: rest, hg => by
    simp only [goodIf] at hg ⊢
    cases hc : goodCond S c with
    | none => rw [hc] at hg; cases hg
    | some S' =>
      rw [hc] at hg
      simp only [Bool.and_eq_true] at hg ⊢
      exact ⟨FailsOr.isSome (h _ _) hg.1, goodIf_more h S rest hg.2⟩

theorem goodMatch_more {rec rec' : Sets → List Node → Option Sets} (h : ∀ S ns, FailsOr (rec S ns) (rec' S ns)) (S : Sets) :
    (arms : List When) → goodMatch rec S arms = true → goodMatch rec' S arms = true
  | [], _ => rfl
  | .mk w c nodes :: rest, hg => by
    simp only [goodMatch, Bool.and_eq_true] at hg ⊢
    exact ⟨⟨hg.1.1, FailsOr.isSome (h _ _) hg.1.2⟩, goodMatch_more h S rest hg.2⟩

theorem goodNode_more (I : GenInput) {rec rec' : GoodRec} (h : ChecksMore rec rec') (chain : List Ctx) (ctx : Ctx)
    (sup : Option (Str × Nat)) (S : Sets) (n : Node) :
    FailsOr (goodNode I rec chain ctx sup S n) (goodNode I rec' chain ctx sup S n) := by
  have hblock : ∀ name k, FailsOr (goodBlock rec chain ctx S name k) (goodBlock rec' chain ctx S name k) := by
    intro name k
    unfold goodBlock
    cases (blockDefs chain name)[k]? with
    | none => exact .refl _
    | some p =>
      obtain ⟨c, d⟩ := p
      dsimp only
      rcases h chain (withMacrosOf c ctx) (some (name, k)) ⟨S.V ++ S.K, [], [], [], []⟩ d.nodes with e | e
      · left; rw [e]
      · right; rw [e]
  have hr : ∀ S ns, FailsOr (rec chain ctx sup S ns) (rec' chain ctx sup S ns) := fun _ _ => h _ _ _ _ _
  cases n with
  | call ws scope name args =>
    simp only [goodNode]
    refine FailsOr.ite ?_ (FailsOr.guard ?_)
    · cases sup with
      | none => exact .refl _
      | some p => exact hblock _ _
    · unfold goodCall
      cases macroOf I ctx scope name with
      | none => exact id
      | some p =>
        obtain ⟨d, own⟩ := p
        simp only [Bool.and_eq_true]
        exact fun hg => ⟨hg.1, FailsOr.isSome (h _ _ _ _ _) hg.2⟩
  | if_ => exact FailsOr.guard (goodIf_more hr _ _)
  | match_ =>
    refine FailsOr.guard ?_
    simp only [Bool.and_eq_true]
    exact fun hg => ⟨hg.1, goodMatch_more hr _ _ hg.2⟩
  | loop =>
    refine FailsOr.guard ?_
    simp only [goodLoop, Bool.and_eq_true]
    exact fun hg => ⟨⟨hg.1.1, FailsOr.isSome (hr _ _) hg.1.2⟩, FailsOr.isSome (hr _ _) hg.2⟩
  | blockDef => exact hblock _ _
  | «include» ws path =>
    refine FailsOr.guard ?_
    unfold goodInclude
    cases I.find path with
    | none => exact id
    | some p =>
      dsimp only
      cases assoc I.contexts p with
      | none => exact id
      | some c =>
        dsimp only
        split
        · exact id
        · exact fun hg => FailsOr.isSome (h _ _ _ _ _) hg
  | filterBlock ws f nodes ws2 =>
    simp only [goodNode, goodFilter]
    refine FailsOr.guard ?_
    simp only [Bool.and_eq_true]
    exact fun hg => ⟨hg.1, FailsOr.isSome (hr _ _) hg.2⟩
  | _ => exact .refl _

theorem goodNodes_more (I : GenInput) {rec rec' : GoodRec} (h : ChecksMore rec rec') (chain : List Ctx) (ctx : Ctx)
    (sup : Option (Str × Nat)) : (S : Sets) → (ns : List Node) →
    FailsOr (goodNodes I rec chain ctx sup S ns) (goodNodes I rec' chain ctx sup S ns)
  | _, [] => .refl _
  | S, n :: ns => by
    simp only [goodNodes]
    refine FailsOr.ite (.refl _) ?_
    rcases goodNode_more I h chain ctx sup S n with e | e
    · left; rw [e]
    · rw [e]
      cases goodNode I rec' chain ctx sup S n with
      | none => exact .refl _
      | some S' => exact goodNodes_more I h chain ctx sup S' ns

theorem good_step (I : GenInput) : (fuel : Nat) → ChecksMore (good I fuel) (good I (fuel + 1))
  | 0 => fun _ _ _ _ _ => .inl rfl
  | fuel + 1 => fun _ _ _ _ _ => goodNodes_more I (good_step I fuel) _ _ _ _ _

theorem good_mono {w : Whole} {n m : Nat} (h : n ≤ m) (hg : w.good n = true) : w.good m = true := by
  induction h with
  | refl => exact hg
  | step _ ih => exact FailsOr.isSome (good_step _ _ _ _ _ _ _) ih

/-! ## The generator -/

/-- The first computation reaches its bound, or does the same as the second. -/
def Until {α : Type} (a b : Except GErr α) : Prop := a = .error .diverge ∨ a = b

theorem Until.refl {α : Type} (a : Except GErr α) : Until a a := .inr rfl

theorem Until.bind {α β : Type} {a b : Except GErr α} {f g : α → Except GErr β} (h : Until a b)
    (hf : ∀ x, Until (f x) (g x)) : Until (a >>= f) (b >>= g) := by
  rcases h with h | h
  · left; rw [h]; rfl
  · subst h
    cases a with
    | error e => right; rfl
    | ok x => exact hf x

theorem Until.ite {α : Type} {c : Prop} [Decidable c] {a b a' b' : Except GErr α} (h : Until a b) (h' : Until a' b') :
    Until (if c then a else a') (if c then b else b') := by
  split
  · exact h
  · exact h'

theorem Until.trans {α : Type} {a b c : Except GErr α} (h : Until a b) (h' : Until b c) : Until a c := by
  rcases h with h | h
  · exact .inl h
  · rw [h]; exact h'

/-- With `rec'` for `rec` the result is the same, unless the bound was reached. -/
def Longer (rec rec' : Handler) : Prop := ∀ H ctx ns level g, Until (rec H ctx ns level g) (rec' H ctx ns level g)

theorem ifBranches_longer {rec rec' : Handler} (h : Longer rec rec') (I : GenInput) (H : Option Heritage) (ctx : Ctx)
    (ws : Ws) : (first : Bool) → (bs : List Cond) → (g : Gen) →
    Until (ifBranches rec I H ctx ws first bs g) (ifBranches rec' I H ctx ws first bs g)
  | _, [], _ => .refl _
  | first, .mk w cond nodes :: rest, g => by
    unfold ifBranches
    refine (Until.refl _).bind fun g => (Until.refl _).bind fun r => ?_
    obtain ⟨c, g⟩ := r
    refine (h _ _ _ _ _).bind fun r => ?_
    obtain ⟨body, g⟩ := r
    cases rest with
    | nil => exact .refl _
    | cons c rest =>
      obtain ⟨w', c', n'⟩ := c
      refine (Until.refl _).bind fun r => ?_
      obtain ⟨fl, g⟩ := r
      refine (ifBranches_longer h I H ctx ws _ _ _).bind fun _ => .refl _

theorem matchArms_longer {rec rec' : Handler} (h : Longer rec rec') (I : GenInput) (H : Option Heritage) (ctx : Ctx)
    (ws : Ws) : (arms : List When) → (g : Gen) →
    Until (matchArms rec I H ctx ws arms g) (matchArms rec' I H ctx ws arms g)
  | [], _ => .refl _
  | .mk w t nodes :: rest, g => by
    unfold matchArms
    refine (h _ _ _ _ _).bind fun r => ?_
    obtain ⟨body, g⟩ := r
    refine (Until.refl _).bind fun r => ?_
    obtain ⟨fl, g⟩ := r
    refine (Until.refl _).bind fun g => ?_
    exact (matchArms_longer h I H ctx ws rest _).bind fun _ => .refl _

theorem handleNode_longer {rec rec' : Handler} (h : Longer rec rec') (I : GenInput) (H : Option Heritage) (ctx : Ctx)
    (level : Level) (g : Gen) (n : Node) : Until (handleNode rec I H ctx level g n) (handleNode rec' I H ctx level g n) := by
  have hblock : ∀ name outer, Until (writeBlock rec I H ctx g name outer) (writeBlock rec' I H ctx g name outer) := by
    intro name outer
    unfold writeBlock
    refine (Until.refl _).bind fun cur => (Until.refl _).bind fun r => ?_
    obtain ⟨pre, g⟩ := r
    cases H with
    | none => exact .refl _
    | some hh =>
      dsimp only
      cases assoc hh.blocks cur.1 with
      | none => exact .refl _
      | some defs =>
        dsimp only
        cases defs[cur.2]? with
        | none => exact .refl _
        | some d => exact (h _ _ _ _ _).bind fun _ => .refl _
  cases n with
  | if_ ws bs =>
    simp only [handleNode]
    cases bs with
    | nil => exact .refl _
    | cons b bs =>
      obtain ⟨w, c, ns⟩ := b
      simp only [writeIf]
      refine (Until.refl _).bind fun r => ?_
      exact (ifBranches_longer h I H ctx _ _ _ _).bind fun _ => .refl _
  | match_ ws1 e arms ws2 =>
    simp only [handleNode]
    cases arms with
    | nil => exact .refl _
    | cons b bs =>
      obtain ⟨w, c, ns⟩ := b
      simp only [writeMatch]
      refine (Until.refl _).bind fun r => (Until.refl _).bind fun r' => ?_
      exact (matchArms_longer h I H ctx _ _ _).bind fun _ => .refl _
  | loop ws1 t iter cond body ws2 els ws3 =>
    simp only [handleNode]
    unfold writeLoop
    refine (Until.refl _).bind fun _ => (Until.refl _).bind fun _ => (Until.refl _).bind fun _ =>
      (h _ _ _ _ _).bind fun _ => (Until.refl _).bind fun _ => (Until.refl _).bind fun _ => ?_
    refine Until.ite ((h _ _ _ _ _).bind fun _ => .refl _) (.refl _)
  | blockDef => exact hblock _ _
  | «include» ws path =>
    simp only [handleNode]
    unfold handleInclude
    refine (Until.refl _).bind fun r => ?_
    obtain ⟨pre, g⟩ := r
    dsimp only
    cases I.find path with
    | none => exact .refl _
    | some p =>
      dsimp only
      cases assoc I.contexts p with
      | none => exact .refl _
      | some c =>
        dsimp only
        exact (Until.refl _).bind fun H => (h _ _ _ _ _).bind fun _ => .refl _
  | call ws scope name args =>
    simp only [handleNode]
    refine Until.ite (hblock _ _) ?_
    unfold writeCall
    refine (Until.refl _).bind fun r => ?_
    obtain ⟨d, own⟩ := r
    refine (Until.refl _).bind fun r => Until.ite (.refl _) ?_
    exact (Until.refl _).bind fun _ => (Until.refl _).bind fun _ => (h _ _ _ _ _).bind fun _ => .refl _
  | filterBlock ws1 f ns ws2 =>
    simp only [handleNode]
    unfold writeFilterBlock
    exact (h _ _ _ _ _).bind fun _ => .refl _
  | _ => exact .refl _

theorem handleNodes_longer {rec rec' : Handler} (h : Longer rec rec') (I : GenInput) (H : Option Heritage) (ctx : Ctx)
    (level : Level) : (ns : List Node) → (g : Gen) →
    Until (handleNodes rec I H ctx level ns g) (handleNodes rec' I H ctx level ns g)
  | [], _ => .refl _
  | n :: ns, g => by
    unfold handleNodes
    refine (handleNode_longer h I H ctx level g n).bind fun r => ?_
    exact (handleNodes_longer h I H ctx level ns _).bind fun _ => .refl _

theorem handle_step (I : GenInput) : (fuel : Nat) → Longer (handle I fuel) (handle I (fuel + 1))
  | 0 => fun _ _ _ _ _ => .inl rfl
  | fuel + 1 => fun _ _ _ _ _ => by
    unfold handle
    exact (handleNodes_longer (handle_step I fuel) I _ _ _ _ _).bind fun _ => .refl _

theorem generate_step (I : GenInput) (fuel : Nat) (H : Option Heritage) (ctx : Ctx) :
    Until (generate I fuel H ctx) (generate I (fuel + 1) H ctx) := by
  unfold generate
  exact (handle_step I fuel _ _ _ _ _).bind fun _ => .refl _

/-! ## Collecting templates -/

theorem checkLoop_step (ld : Loader) : (fuel : Nat) → (st : UseSt) → Until (checkLoop ld fuel st) (checkLoop ld (fuel + 1) st)
  | fuel, st => by
    cases hc : st.check with
    | nil => unfold checkLoop; rw [hc]; exact .refl _
    | cons e rest =>
      obtain ⟨path, src⟩ := e
      cases fuel with
      | zero => left; unfold checkLoop; rw [hc]
      | succ fuel =>
        have h1 : checkLoop ld (fuel + 1) st = (useTemplate ld path src { st with check := rest } >>= checkLoop ld fuel) := by
          rw [checkLoop]; rw [hc]
        have h2 : checkLoop ld (fuel + 1 + 1) st
            = (useTemplate ld path src { st with check := rest } >>= checkLoop ld (fuel + 1)) := by
          rw [checkLoop]; rw [hc]
        rw [h1, h2]
        exact (Until.refl _).bind fun st => checkLoop_step ld fuel st

theorem buildTemplate_step (env : DeriveEnv) (c : Config) (ident : Str) (args : TemplateArgs) (fuel : Nat) :
    Until (buildTemplate env c ident args fuel) (buildTemplate env c ident args (fuel + 1)) := by
  unfold buildTemplate
  refine (Until.refl _).bind fun t => (Until.refl _).bind fun src => (checkLoop_step _ _ _).bind fun ts =>
    (Until.refl _).bind fun cs => ?_
  cases assoc cs t.path with
  | none => exact .refl _
  | some ctx => exact (Until.refl _).bind fun H => generate_step _ _ _ _

theorem buildTemplate_mono (env : DeriveEnv) (c : Config) (ident : Str) (args : TemplateArgs) {n m : Nat} (h : n ≤ m) :
    Until (buildTemplate env c ident args n) (buildTemplate env c ident args m) := by
  induction h with
  | refl => exact .refl _
  | step _ ih => exact ih.trans (buildTemplate_step env c ident args _)

theorem load_step (env : DeriveEnv) (c : Config) (ident : Str) (args : TemplateArgs) (fuel : Nat) :
    FailsOr (load env c ident args fuel) (load env c ident args (fuel + 1)) := by
  unfold load
  cases TemplateInput.new env.files env.guess c ident args with
  | error _ => exact .refl _
  | ok t =>
    dsimp only
    cases mainSource env t with
    | error _ => exact .refl _
    | ok src =>
      dsimp only
      rcases checkLoop_step (env.loader c t.syn) fuel ⟨[], [(t.path, src)], []⟩ with h | h
      · left; unfold findUsedTemplates; rw [h]
      · right; unfold findUsedTemplates; rw [h]

theorem load_mono (env : DeriveEnv) (c : Config) (ident : Str) (args : TemplateArgs) {n m : Nat} (h : n ≤ m) :
    FailsOr (load env c ident args n) (load env c ident args m) := by
  induction h with
  | refl => exact .refl _
  | step _ ih =>
    rcases ih with h | h
    · exact .inl h
    · rw [h]; exact load_step env c ident args _

end Askama
