import Verif.Lemmas.GenEval
import Verif.Lemmas.GenFmt
import Verif.Spec.Toy

/-! C33, C34, C36 and C37: what is written for literals and for a run of literals and expressions. -/

namespace Askama.Props

open Askama Askama.Spec

/-! ## C36, C37 -/

/-- A run of output: literal texts and expressions. -/
abbrev Run := List (Str ⊕ Expr)

/-- What a run is to print: its texts and the texts of its expressions, in order. -/
def runText {U : Type} (W : World U) (I : GenInput) (st : Store U) (run : Run) : Option Str :=
  ojoin (run.map fun
    | .inl s => some s
    | .inr e => showE W I st none e)

/-- The generator's pending output for a run. -/
def pending (run : Run) : List Writable :=
  run.map fun
    | .inl s => .lit s
    | .inr e => .expr e

/-- C36: the statements written for a run of literals and expressions print the texts of the literals, unchanged, and the
texts of the expressions, in order; and if one of these cannot be displayed they fail. -/
theorem C36_run {U : Type} {W : World U} (hs : Stable W) {I : GenInput} {g g' : Gen} {run : Run} {code : List Stmt}
    {ρ : REnv U} {st : Store U} (hp : g.pend = pending run) (hd : g.discard = false)
    (hn : NamesAgree W g.locals ρ st ([], []) none none) (hok : ∀ e, .inr e ∈ run → exprOk ([], []) none e = true)
    (h : Gen.writeBuf I g = .ok (code, g')) :
    (execList W ρ code).map (fun r => (r.1, r.2.1)) = (runText W I st run).map fun s => (s, .next) := by
  have htext : ∀ p gg, Gen.prepareFormat I g = .ok (p, gg) → partsText W ρ p = runText W I st run := by
    intro p gg hpf
    rw [prepareFormat_text W I hs ρ hpf, hp]
    unfold runText pending
    rw [List.map_map]
    -- every expression is visited successfully, or else there is no output
    have hv : ∀ e, .inr e ∈ run → ∃ r, visitExpr I g.locals e = .ok r := by
      intro e he
      unfold Gen.prepareFormat at hpf
      have hne : g.pend.isEmpty = false := by
        rw [hp]
        cases run with
        | nil => simp at he
        | cons a b => rfl
      have hnl : g.pend.all Writable.isLit = false := by
        rw [hp]
        simp only [pending, List.all_map, List.all_eq_false]
        exact ⟨.inr e, he, by simp [Writable.isLit]⟩
      simp only [hne, hnl, Bool.false_eq_true, if_false] at hpf
      obtain ⟨fs, hf, _⟩ := except_bind hpf
      have key : ∀ (run : Run) (st0 st1 : Gen.FmtSt), Gen.formatLoop I g.locals (pending run) st0 = .ok st1 →
          .inr e ∈ run → ∃ r, visitExpr I g.locals e = .ok r := by
        intro run
        induction run with
        | nil => intro _ _ _ h; simp at h
        | cons x run ih =>
          intro st0 st1 hl hm
          cases x with
          | inl s =>
            simp only [pending, List.map_cons, Gen.formatLoop] at hl
            exact ih _ _ hl (by simpa using hm)
          | inr e' =>
            simp only [pending, List.map_cons, Gen.formatLoop] at hl
            obtain ⟨r, hr, hl⟩ := except_bind hl
            rcases List.mem_cons.mp hm with heq | hm
            · cases heq; exact ⟨r, hr⟩
            · exact ih _ _ hl hm
      rw [hp] at hf
      exact key run _ _ hf he
    congr 1
    apply List.map_congr_left
    intro x hx
    cases x with
    | inl s => rfl
    | inr e =>
      obtain ⟨⟨r, w⟩, hr⟩ := hv e hx
      have := visit_sound hn e (hok e hx) hr
      simp only [Function.comp_apply, wText, hr, showE, this.1]
      congr 1
      funext v
      rw [← this.2]
      cases w <;> simp [escOf, showArg]
  unfold Gen.writeBuf at h
  obtain ⟨⟨p, gg⟩, hpf, h⟩ := except_bind h
  have ht := htext p gg hpf
  obtain ⟨k, hk⟩ := prepareFormat_state I hpf
  have hdd : gg.discard = false := by rw [hk]; exact hd
  rw [← ht]
  cases p with
  | none =>
    simp only [pure, Except.pure, Except.ok.injEq, Prod.mk.injEq] at h
    rw [← h.1]; rfl
  | plain s =>
    simp only [pure, Except.pure, Except.ok.injEq, Prod.mk.injEq] at h
    rw [← h.1]; simp [Gen.emit, hdd, execList, Stmt.exec, partsText]
  | formatted fmt args =>
    simp only [pure, Except.pure, Except.ok.injEq, Prod.mk.injEq] at h
    rw [← h.1]
    simp only [Gen.emit, hdd, execList, Stmt.exec, partsText, Bool.false_eq_true, if_false]
    cases formatText W ρ fmt args <;> simp [execList, Stmt.exec]

/-- C37, for values that show the same text whenever they are displayed: an expression that occurs `n` times in a run
prints the same text `n` times. What is missing: the value of `join` is used up by its first display, see
`C37_false`. -/
theorem C37_sharing_partial {U : Type} {W : World U} (hs : Stable W) {I : GenInput} {g g' : Gen} {e : Expr} {n : Nat}
    {code : List Stmt} {ρ : REnv U} {st : Store U} (hp : g.pend = pending (List.replicate n (.inr e)))
    (hd : g.discard = false) (hn : NamesAgree W g.locals ρ st ([], []) none none) (hok : exprOk ([], []) none e = true)
    {s : Str} (hsh : showE W I st none e = some s) (h : Gen.writeBuf I g = .ok (code, g')) :
    (execList W ρ code).map (fun r => (r.1, r.2.1)) = some ((List.replicate n s).flatten, .next) := by
  rw [C36_run hs hp hd hn (fun e' he' => by cases List.eq_of_mem_replicate he'; exact hok) h]
  have : runText W I st (List.replicate n (.inr e)) = some (List.replicate n s).flatten := by
    unfold runText
    rw [List.map_replicate]
    simp only [hsh]
    clear hp h
    induction n with
    | zero => rfl
    | succ n ih => rw [List.replicate_succ, ojoin, ih]; simp [List.replicate_succ]
  rw [this]
  rfl

/-- The hypotheses of C36 and C37 hold at the start of every template. -/
example {U : Type} (W : World U) : NamesAgree W (.empty : Locals) ⟨[], none, false, []⟩ ⟨[], [], none⟩ ([], []) none none := by
  refine ⟨fun x _ => ?_, fun x _ _ m hm => ?_, fun n _ _ _ => rfl, rfl, fun s hs => by cases hs⟩
  · simp [Locals.resolveOrSelf, Locals.resolve, MapChain.get_eq, MapChain.empty, lookupStack, RExpr.eval, Store.name,
      Store.status, normalizeIdentifier_eq]
  · simp [MapChain.get_eq, MapChain.empty, lookupStack] at hm

example : ∃ code g', Gen.writeBuf ⟨.preserve, [], [], false, none, fun _ => none, []⟩
    { Gen.new ⟨.preserve, [], [], false, none, fun _ => none, []⟩ .empty 0 false with
      pend := pending [.inl c!"{a}", .inr (.var c!"x"), .inl c!"}}", .inr (.var c!"x")] } = .ok (code, g')
    ∧ (execList toy ⟨[], none, false, []⟩ code).map (·.1) = some c!"{a}x}}x" := ⟨_, _, rfl, by decide +kernel⟩

mutual
/-- The expression contains a call, a Rust macro or `?`: evaluating it may have effects. -/
def mayAct : Expr → Bool
  | .call _ _ | .rustMacro _ _ | .try_ _ => true
  | .array es | .filter _ es | .tuple es => mayActAny es
  | .attr e _ | .unary _ e | .group e | .namedArg _ e => mayAct e
  | .index a b | .binop _ a b => mayAct a || mayAct b
  | .range _ a b => mayActOpt a || mayActOpt b
  | .boolLit _ | .numLit _ | .strLit _ | .charLit _ | .var _ | .path _ | .generated _ => false
/-- One of the expressions does. -/
def mayActAny : List Expr → Bool
  | [] => false
  | e :: es => mayAct e || mayActAny es
/-- The expression, if there is one, does. -/
def mayActOpt : Option Expr → Bool
  | none => false
  | some e => mayAct e
end

mutual
theorem mayAct_eq : (e : Expr) → isCacheable e = !mayAct e
  | .call _ _ | .rustMacro _ _ | .try_ _ => by simp [isCacheable, mayAct]
  | .array es | .filter _ es | .tuple es => by simp [isCacheable, mayAct, mayActAny_eq es]
  | .attr e _ | .unary _ e | .group e | .namedArg _ e => by simp [isCacheable, mayAct, mayAct_eq e]
  | .index a b | .binop _ a b => by simp [isCacheable, mayAct, mayAct_eq a, mayAct_eq b]
  | .range _ a b => by simp [isCacheable, mayAct, mayActOpt_eq a, mayActOpt_eq b]
  | .boolLit _ | .numLit _ | .strLit _ | .charLit _ | .var _ | .path _ | .generated _ => by simp [isCacheable, mayAct]
theorem mayActAny_eq : (es : List Expr) → isCacheableList es = !mayActAny es
  | [] => rfl
  | e :: es => by simp [isCacheableList, mayActAny, mayAct_eq e, mayActAny_eq es]
theorem mayActOpt_eq : (e : Option Expr) → isCacheableOpt e = !mayActOpt e
  | none => rfl
  | some e => by simp [isCacheableOpt, mayActOpt, mayAct_eq e]
end

/-- The expressions of a run that may have effects. -/
def acting (run : Run) : List Expr :=
  run.filterMap fun
    | .inl _ => none
    | .inr e => if mayAct e then some e else none

theorem formatLoop_acting {I : GenInput} {L : Locals} : (run : Run) → {st st' : Gen.FmtSt} →
    Gen.formatLoop I L (pending run) st = .ok st' →
    ∃ more, ∃ rs : List RExpr, st'.args = st.args ++ more ∧ rs.Sublist (more.map (·.expr))
      ∧ (acting run).map (fun e => (visitExpr I L e).toOption.map (·.1)) = rs.map some
  | [], st, st', h => by
    cases h
    exact ⟨[], [], by simp, List.nil_sublist _, rfl⟩
  | .inl s :: run, st, st', h => by
    simp only [pending, List.map_cons, Gen.formatLoop] at h
    obtain ⟨more, rs, h3, h4, h5⟩ := formatLoop_acting run h
    exact ⟨more, rs, h3, h4, h5⟩
  | .inr e :: run, st, st', h => by
    simp only [pending, List.map_cons, Gen.formatLoop] at h
    obtain ⟨⟨r, w⟩, h1, h2⟩ := except_bind h
    obtain ⟨more, rs, h3, h4, h5⟩ := formatLoop_acting run h2
    by_cases ha : mayAct e = true
    · have hc : isCacheable e = false := by rw [mayAct_eq, ha]; rfl
      have hn : ∃ a, (Gen.namedExpression I st r w (isCacheable e)).args = st.args ++ [a] ∧ a.expr = r := by
        unfold Gen.namedExpression
        simp only [hc]
        cases st.find (if w then none else some I.escaper, r) <;> exact ⟨_, rfl, rfl⟩
      obtain ⟨a, hn1, hn2⟩ := hn
      refine ⟨a :: more, r :: rs, by rw [h3, hn1]; simp, ?_, ?_⟩
      · rw [List.map_cons, hn2]; exact h4.cons_cons _
      · rw [acting, List.filterMap_cons]
        simp only [ha, if_true, List.map_cons, h1]
        exact congrArg (_ :: ·) h5
    · have hn : ∃ pre, (Gen.namedExpression I st r w (isCacheable e)).args = st.args ++ pre := by
        unfold Gen.namedExpression
        cases hf : st.find (if w then none else some I.escaper, r) <;> cases hc : isCacheable e <;> simp only [hf]
        · exact ⟨_, rfl⟩
        · exact ⟨_, rfl⟩
        · exact ⟨_, rfl⟩
        · exact ⟨[], by simp⟩
      obtain ⟨pre, hn1⟩ := hn
      refine ⟨pre ++ more, rs, by rw [h3, hn1]; simp, ?_, ?_⟩
      · rw [List.map_append]; exact h4.trans (List.sublist_append_right _ _)
      · rw [acting, List.filterMap_cons]
        simp only [if_neg ha]
        exact h5

/-- C37: what may have effects is never shared. Each occurrence of such an expression in a run is an argument of its own of
what is written, in the order of the template. -/
theorem C37_effects_not_shared {I : GenInput} {g g' : Gen} {run : Run} {code : List Stmt} (hp : g.pend = pending run)
    (hd : g.discard = false) (hne : acting run ≠ []) (h : Gen.writeBuf I g = .ok (code, g')) :
    ∃ fmt args, ∃ rs : List RExpr, code = [.writeFmt fmt args] ∧ rs.Sublist (args.map (·.expr))
      ∧ (acting run).map (fun e => (visitExpr I g.locals e).toOption.map (·.1)) = rs.map some := by
  have hex : ∃ e, .inr e ∈ run := by
    obtain ⟨e, he⟩ := List.exists_mem_of_ne_nil _ hne
    obtain ⟨x, hx, h2⟩ := List.mem_filterMap.mp he
    cases x with
    | inl s => cases h2
    | inr e' => exact ⟨e', hx⟩
  obtain ⟨e, he⟩ := hex
  unfold Gen.writeBuf Gen.prepareFormat at h
  rw [if_neg (by rw [hp]; intro hh; simp [pending] at hh; subst hh; cases he), if_neg (by
    rw [hp]; intro hh
    have := List.all_eq_true.mp hh (.expr e) (List.mem_map.mpr ⟨_, he, rfl⟩)
    cases this)] at h
  obtain ⟨⟨p, g1⟩, h1, h2⟩ := except_bind h
  obtain ⟨st, h3, h4⟩ := except_bind h1
  cases h4
  rw [hp] at h3
  obtain ⟨more, rs, h5, h6, h7⟩ := formatLoop_acting run h3
  cases h2
  refine ⟨st.format, st.args, rs, ?_, ?_, h7⟩
  · simp [Gen.emit, hd]
  · rw [h5]; exact h6

example : ∃ run I g code g', g.pend = pending run ∧ g.discard = false ∧ Gen.writeBuf I g = .ok (code, g')
    ∧ acting run = [.call (.var c!"f") [], .call (.var c!"f") []] :=
  ⟨[.inr (.call (.var c!"f") []), .inl c!"-", .inr (.call (.var c!"f") []), .inr (.var c!"x")],
    ⟨.preserve, [], [], false, none, fun _ => none, []⟩,
    { Gen.new ⟨.preserve, [], [], false, none, fun _ => none, []⟩ .empty 0 false with
      pend := pending [.inr (.call (.var c!"f") []), .inl c!"-", .inr (.call (.var c!"f") []), .inr (.var c!"x")] },
    _, _, rfl, rfl, rfl, rfl⟩

/-! ## C33, C34 -/

/-- The text of output that consists of literals only. -/
def litsText (ws : List Writable) : Str := ws.flatMap Writable.litText

theorem shouldTrimWs_eq (I : GenInput) (w : Option Wsp) : Gen.shouldTrimWs I w = sideOf I w := by
  cases w with
  | none => rfl
  | some w => cases w <;> rfl

theorem minimized_eq {s : Str} (h : s ≠ []) : Gen.minimized s = applyWs .minimize s := by
  simp [Gen.minimized, applyWs, h]

theorem flushWs_pend (I : GenInput) (g : Gen) (ws : Ws) (hd : g.pdiscard = false) :
    ∃ out, (Gen.flushWs I g ws).pend = g.pend ++ out ∧ out.all Writable.isLit = true
      ∧ litsText out = applyWs (sideOf I ws.l) (g.nextWs.getD []) ∧ (Gen.flushWs I g ws).nextWs = none := by
  unfold Gen.flushWs
  cases hn : g.nextWs with
  | none => exact ⟨[], by simp, rfl, by cases sideOf I ws.l <;> simp [litsText, applyWs], by simp [hn]⟩
  | some val =>
    simp only [shouldTrimWs_eq, Option.getD_some]
    cases sideOf I ws.l with
    | suppress => exact ⟨[], by simp, rfl, by simp [litsText, applyWs], by simp⟩
    | preserve =>
      simp only
      split
      · rename_i h
        exact ⟨[], by simp, rfl, by simp [litsText, applyWs, List.isEmpty_iff.mp h], by simp⟩
      · exact ⟨[.lit val], by simp [Gen.push, hd], rfl, by simp [litsText, applyWs, Writable.litText], by simp⟩
    | minimize =>
      simp only
      split
      · rename_i h
        exact ⟨[], by simp, rfl, by simp [litsText, applyWs, List.isEmpty_iff.mp h], by simp⟩
      · rename_i h
        have hne : val ≠ [] := by simpa using h
        exact ⟨[.lit (Gen.minimized val)], by simp [Gen.push, hd], rfl,
          by simp [litsText, Writable.litText, minimized_eq hne], by simp⟩

/-- C33, for one literal: the tag before it, with right marker `before`, the literal, and the tag after it, with left
marker `after`. The literal's leading whitespace is handled as the tag before asks for, its trailing whitespace as the tag
after asks for, and what is between is written unchanged. -/
theorem C33_one_literal (I : GenInput) (g g1 : Gen) (l : Lit) (before after : Ws) (hl : l.val ≠ [])
    (hd : g.pdiscard = false) (h : Gen.visitLit (Gen.handleWs I g before) l = .ok g1) :
    ∃ out, (Gen.flushWs I g1 after).pend = (Gen.handleWs I g before).pend ++ out ∧ out.all Writable.isLit = true
      ∧ litsText out = applyWs (sideOf I before.r) l.lws ++ l.val ++ applyWs (sideOf I after.l) l.rws
      ∧ (Gen.flushWs I g1 after).nextWs = none := by
  have hsk : (Gen.handleWs I g before).skipWs = sideOf I before.r := by
    simp [Gen.handleWs, Gen.prepareWs, shouldTrimWs_eq]
  have hdd : (Gen.handleWs I g before).pdiscard = false := by
    unfold Gen.handleWs Gen.prepareWs Gen.flushWs
    simp only [Gen.push]
    repeat' split
    all_goals simp [hd]
  generalize Gen.handleWs I g before = g0 at *
  unfold Gen.visitLit at h
  split at h
  · cases h
  · rename_i hnw
    have hnw : g0.nextWs = none := by simpa using hnw
    obtain ⟨g2, hg2, h⟩ := except_bind h
    have hve : l.val.isEmpty = false := by simpa using hl
    -- after the leading whitespace
    have hlead : ∃ out, g2.pend = g0.pend ++ out ∧ out.all Writable.isLit = true
        ∧ litsText out = applyWs (sideOf I before.r) l.lws ∧ g2.pdiscard = false ∧ g2.nextWs = none := by
      unfold Gen.visitLws at hg2
      split at hg2
      · rename_i he
        simp only [Except.ok.injEq] at hg2
        subst hg2
        refine ⟨[], by simp, rfl, ?_, hdd, hnw⟩
        rw [List.isEmpty_iff.mp he]
        cases sideOf I before.r <;> simp [litsText, applyWs]
      · rename_i he
        have hne : l.lws ≠ [] := by simpa using he
        rw [hsk] at hg2
        simp only [hve, Bool.false_eq_true, if_false] at hg2
        cases hb : sideOf I before.r with
        | suppress =>
          rw [hb] at hg2
          simp only [Except.ok.injEq] at hg2
          subst hg2
          exact ⟨[], by simp, rfl, by simp [litsText, applyWs], hdd, hnw⟩
        | preserve =>
          rw [hb] at hg2
          simp only [Except.ok.injEq] at hg2
          subst hg2
          exact ⟨[.lit l.lws], by simp [Gen.push, hdd], rfl, by simp [litsText, applyWs, Writable.litText],
            by simp [Gen.push, hdd], by simp [Gen.push, hdd, hnw]⟩
        | minimize =>
          rw [hb] at hg2
          simp only [Except.ok.injEq] at hg2
          subst hg2
          exact ⟨[.lit (Gen.minimized l.lws)], by simp [Gen.push, hdd], rfl,
            by simp [litsText, Writable.litText, minimized_eq hne],
            by simp [Gen.push, hdd], by simp [Gen.push, hdd, hnw]⟩
    obtain ⟨o1, hp1, hl1, ht1, hd1, hn1⟩ := hlead
    simp only [hve, Bool.false_eq_true, if_false, pure, Except.pure, Except.ok.injEq] at h
    have hg1 : g1.pend = g0.pend ++ o1 ++ [.lit l.val] ∧ g1.pdiscard = false ∧ g1.nextWs.getD [] = l.rws := by
      subst h
      split
      · rename_i he
        simp [Gen.push, hd1, hp1, hn1, List.isEmpty_iff.mp he]
      · simp [Gen.push, hd1, hp1]
    obtain ⟨o2, hp2, hl2, ht2, hn2⟩ := flushWs_pend I g1 after hg1.2.1
    refine ⟨o1 ++ [.lit l.val] ++ o2, ?_, ?_, ?_, hn2⟩
    · rw [hp2, hg1.1]; simp
    · simp [hl1, hl2, Writable.isLit]
    · unfold litsText at ht1 ht2 ⊢
      rw [List.flatMap_append, List.flatMap_append, ht1, ht2, hg1.2.2]
      simp [Writable.litText]

/-- The documented preference between two handlings of the same whitespace: suppress, then minimize, then preserve. -/
def stronger : WH → WH → WH
  | .suppress, _ => .suppress
  | _, .suppress => .suppress
  | .minimize, _ => .minimize
  | _, .minimize => .minimize
  | .preserve, .preserve => .preserve

/-- C34, except for a tag before that asks for `~` and a tag after that asks for `+`: of the handlings that two tags ask
for the whitespace between them, the stronger one is applied. What is missing: in the excluded case everything is
kept, see `C34_false`. -/
theorem C34_preference_partial (I : GenInput) (g g1 : Gen) (w : Str) (before after : Ws) (hd : g.pdiscard = false)
    (h : Gen.visitLit (Gen.handleWs I g before) ⟨w, [], []⟩ = .ok g1)
    (hne : ¬(sideOf I before.r = .minimize ∧ sideOf I after.l = .preserve)) :
    ∃ out, (Gen.flushWs I g1 after).pend = (Gen.handleWs I g before).pend ++ out ∧ out.all Writable.isLit = true
      ∧ litsText out = applyWs (stronger (sideOf I before.r) (sideOf I after.l)) w := by
  have hsk : (Gen.handleWs I g before).skipWs = sideOf I before.r := by
    simp [Gen.handleWs, Gen.prepareWs, shouldTrimWs_eq]
  have hdd : (Gen.handleWs I g before).pdiscard = false := by
    unfold Gen.handleWs Gen.prepareWs Gen.flushWs
    simp only [Gen.push]
    repeat' split
    all_goals simp [hd]
  generalize Gen.handleWs I g before = g0 at *
  unfold Gen.visitLit at h
  split at h
  · cases h
  · rename_i hnw
    have hnw : g0.nextWs = none := by simpa using hnw
    obtain ⟨g2, hg2, h⟩ := except_bind h
    unfold Gen.visitLws at hg2
    simp only [List.isEmpty_nil, if_true, pure, Except.pure, Except.ok.injEq] at h hg2
    subst h
    have hcase : g2.pend = g0.pend ∧ g2.pdiscard = false
        ∧ g2.nextWs.getD [] = if sideOf I before.r = .suppress then [] else w := by
      split at hg2
      · rename_i he
        simp only [Except.ok.injEq] at hg2
        subst hg2
        rw [List.isEmpty_iff.mp he]
        simp [hnw, hdd]
      · rw [hsk] at hg2
        cases hb : sideOf I before.r <;>
          (rw [hb] at hg2; simp only [Except.ok.injEq] at hg2; subst hg2; simp [hdd, hnw])
    obtain ⟨out, hp, hl, ht, _⟩ := flushWs_pend I g2 after hcase.2.1
    refine ⟨out, by rw [hp, hcase.1], hl, ?_⟩
    rw [ht, hcase.2.2]
    cases hb : sideOf I before.r <;> cases ha : sideOf I after.l <;> simp [hb, ha, stronger, applyWs] at hne ⊢

example : ∃ g1, Gen.visitLit (Gen.handleWs ⟨.preserve, [], [], false, none, fun _ => none, []⟩
      (Gen.new ⟨.preserve, [], [], false, none, fun _ => none, []⟩ .empty 0 false) ⟨none, some .minimize⟩)
      ⟨c!" \n", c!"x y", c!"  "⟩ = .ok g1
    ∧ litsText (Gen.flushWs ⟨.preserve, [], [], false, none, fun _ => none, []⟩ g1 ⟨some .suppress, none⟩).pend
      = c!"\nx y" := ⟨_, rfl, by decide⟩

end Askama.Props
