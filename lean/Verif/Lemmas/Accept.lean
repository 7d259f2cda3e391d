import Verif.Lemmas.NoPanic
import Verif.Lemmas.Params
import Verif.Spec.Accept

/-! Templates that keep the rules compile. -/

namespace Askama

open Askama.Spec Askama.Gen

/-! ## Expressions -/

theorem isOk_bind {α β : Type} {x : Except GErr α} {f : α → Except GErr β} {b : Bool} (h : ∀ a, (f a).isOk = b) :
    (x >>= f).isOk = (x.isOk && b) := by
  cases x with
  | ok a => exact (h a).trans (Bool.true_and b).symm
  | error e => rfl

theorem isOk_one {α β : Type} {x : Except GErr α} {f : α → Except GErr β} (h : ∀ a, (f a).isOk = true) :
    (x >>= f).isOk = x.isOk := (isOk_bind h).trans (Bool.and_true _)

theorem findEscaper_some (I : GenInput) (n : Str) : (findEscaper I n).isSome = I.escapers.any fun e => e.1.contains n := by
  unfold findEscaper
  rw [Option.isSome_map, Bool.eq_iff_iff, List.find?_isSome, List.any_eq_true]

theorem fits_escape (I : GenInput) {name : Str} (h : name = c!"escape" ∨ name = c!"e") (args : List Expr) :
    filterFits I.options name args = match args with
      | [_] => true
      | [_, .strLit esc] => I.escapers.any fun e => e.1.contains esc
      | _ => false := by
  rcases h with rfl | rfl <;> rfl

theorem fits_fmt (I : GenInput) (args : List Expr) : filterFits I.options c!"fmt" args = match args with
    | [_, .strLit _] => true
    | _ => false := rfl

theorem fits_format (I : GenInput) (args : List Expr) : filterFits I.options c!"format" args = match args with
    | .strLit _ :: _ => true
    | _ => false := rfl

theorem filter_fits (I : GenInput) (L : Locals) (name : Str) (args : List Expr)
    (h1 : ∀ a ∈ args, (visitExpr I L a).isOk = exprFits I.options a) (hl : (visitList I L args).isOk = exprsFit I.options args)
    (hr : ∀ a rest, args = a :: rest → (visitList I L rest).isOk = exprsFit I.options rest) :
    (visitExpr I L (.filter name args)).isOk = (filterFits I.options name args && exprsFit I.options args) := by
  have ne : (Except.error GErr.err : Except GErr (RExpr × Bool)).isOk = false := rfl
  have np : (Except.error GErr.panic : Except GErr (RExpr × Bool)).isOk = false := rfl
  by_cases n1 : name = c!"as_ref"
  · subst n1
    rcases args with _ | ⟨a, _ | ⟨b, rest⟩⟩
    · rfl
    · unfold visitExpr; simp only [if_true]
      rw [isOk_one (fun _ => rfl), h1 a (by simp)]
      simp [filterFits, exprsFit]
    · unfold visitExpr; simp [filterFits, ne]
  by_cases n2 : name = c!"deref"
  · subst n2
    rcases args with _ | ⟨a, _ | ⟨b, rest⟩⟩
    · rfl
    · unfold visitExpr; simp only [if_true, n1, if_false]
      rw [isOk_one (fun _ => rfl), h1 a (by simp)]
      simp [filterFits, exprsFit]
    · unfold visitExpr; simp [filterFits, ne]
  by_cases n3 : name = c!"escape" ∨ name = c!"e"
  · rw [fits_escape I n3]
    rcases args with _ | ⟨a, _ | ⟨b, _ | ⟨c, rest⟩⟩⟩
    · unfold visitExpr; simp only [n1, n2, n3, if_true, if_false, np]; rfl
    · unfold visitExpr; simp only [n1, n2, n3, if_true, if_false]
      rw [isOk_one (fun _ => rfl), h1 a (by simp)]
      simp [exprsFit]
    · cases b with
      | strLit s =>
        unfold visitExpr; simp only [n1, n2, n3, if_true, if_false]
        rw [← findEscaper_some]
        cases findEscaper I s with
        | none => simp [ne]
        | some x =>
          dsimp only
          rw [isOk_one (fun _ => rfl), h1 a (by simp)]
          simp [exprsFit, exprFits]
      | _ => unfold visitExpr; simp only [n1, n2, n3, if_true, if_false, ne, Bool.false_and]
    · unfold visitExpr; simp only [n1, n2, n3, if_true, if_false, ne]; simp
  by_cases n4 : name = c!"fmt"
  · subst n4
    rw [fits_fmt]
    rcases args with _ | ⟨a, _ | ⟨b, _ | ⟨c, rest⟩⟩⟩
    · rfl
    · unfold visitExpr; simp only [n1, n2, n3, if_true, if_false, ne, Bool.false_and]
    · cases b with
      | strLit s =>
        unfold visitExpr; simp only [n1, n2, n3, if_true, if_false]
        rw [isOk_one (fun _ => rfl), h1 a (by simp)]
        simp [exprsFit, exprFits]
      | _ => unfold visitExpr; simp only [n1, n2, n3, if_true, if_false, ne, Bool.false_and]
    · unfold visitExpr; simp only [n1, n2, n3, if_true, if_false, ne, Bool.false_and]
  by_cases n5 : name = c!"format"
  · subst n5
    rw [fits_format]
    rcases args with _ | ⟨a, rest⟩
    · rfl
    · cases a with
      | strLit s =>
        unfold visitExpr; simp only [n1, n2, n3, n4, if_true, if_false]
        rw [isOk_one (fun _ => rfl), hr _ rest rfl]
        simp [exprsFit, exprFits]
      | _ => unfold visitExpr; simp only [n1, n2, n3, n4, if_true, if_false, ne, Bool.false_and]
  by_cases n6 : name = c!"join"
  · subst n6
    unfold visitExpr; simp only [n1, n2, n3, n4, n5, if_true, if_false]
    rw [isOk_one (fun _ => rfl), hl]
    rfl
  by_cases n7 : name = c!"json" ∨ name = c!"tojson"
  · have hf : filterFits I.options name args = (I.json && args.length == 1) := by
      rcases n7 with rfl | rfl <;> rfl
    rw [hf]
    unfold visitExpr; simp only [n1, n2, n3, n4, n5, n6, n7, if_true, if_false]
    cases I.json with
    | false => simp [ne]
    | true =>
      rcases args with _ | ⟨a, _ | ⟨b, rest⟩⟩
      · simp [ne]
      · simp only [if_true]
        rw [isOk_one (fun _ => rfl), h1 a (by simp)]
        simp [exprsFit]
      · simp [ne]
  by_cases n8 : name = c!"safe"
  · subst n8
    rcases args with _ | ⟨a, _ | ⟨b, rest⟩⟩
    · rfl
    · unfold visitExpr; simp only [if_true, n1, n2, n3, n4, n5, n6, n7, if_false]
      rw [isOk_one (fun _ => rfl), h1 a (by simp)]
      simp [filterFits, exprsFit]
    · unfold visitExpr; simp only [if_true, n1, n2, n3, n4, n5, n6, n7, if_false, ne]
      simp [filterFits]
  unfold visitExpr; simp only [n1, n2, n3, n4, n5, n6, n7, n8, if_false]
  rw [isOk_one (fun _ => rfl), hl]
  have : filterFits I.options name args = true := by
    unfold filterFits
    simp only [not_or] at n3 n7
    simp [n1, n2, n3, n4, n5, n7, n8]
  rw [this, Bool.true_and]

theorem call_fits (I : GenInput) (L : Locals) (f : Expr) (args : List Expr)
    (h1 : (visitExpr I L f).isOk = exprFits I.options f) (h2 : ∀ a ∈ args, (visitExpr I L a).isOk = exprFits I.options a)
    (hl : (visitList I L args).isOk = exprsFit I.options args) :
    (visitExpr I L (.call f args)).isOk = exprFits I.options (.call f args) := by
  have ne : (Except.error GErr.err : Except GErr (RExpr × Bool)).isOk = false := rfl
  have key : (do
      let (r, _) ← visitExpr I L f
      let rs ← visitList I L args
      return (.call r rs, false) : Except GErr (RExpr × Bool)).isOk = (exprFits I.options f && exprsFit I.options args) := by
    rw [isOk_bind (fun _ => isOk_one fun _ => rfl), h1, hl]
  cases f with
  | var x =>
    unfold visitExpr; simp only [exprFits, Bool.true_and]
    rw [isOk_one (fun _ => rfl), hl]
  | attr o m =>
    cases o with
    | var x =>
      unfold visitExpr; simp only [exprFits]
      by_cases hx : x = c!"loop"
      · subst hx
        by_cases hm : m = c!"cycle"
        · subst hm
          rcases args with _ | ⟨a, _ | ⟨b, rest⟩⟩
          · simp [ne]
          · have hea : isEmptyArray a = emptyArray a := by
              cases a <;> try rfl
              rename_i es; cases es <;> rfl
            simp only [if_true]
            rw [hea]
            cases he : emptyArray a with
            | true => simp [ne, he]
            | false =>
              simp only [Bool.false_eq_true, if_false]
              rw [isOk_one (fun _ => rfl), h2 a (by simp)]
              simp [exprsFit, he]
          · simp [ne]
        · simp [hm, ne]
      · simp only [hx, if_false]
        rw [isOk_one (fun _ => rfl), hl]
        simp [hx]
    | _ => simp only [exprFits] at key ⊢; unfold visitExpr; exact key
  | _ => simp only [exprFits] at key ⊢; unfold visitExpr; exact key

mutual
/-- The rules for expressions are those of the generator. -/
theorem visit_fits (I : GenInput) (L : Locals) : (e : Expr) → (visitExpr I L e).isOk = exprFits I.options e
  | .boolLit _ | .numLit _ | .strLit _ | .charLit _ | .var _ | .path _ | .rustMacro _ _ | .generated _ => by
    simp only [visitExpr, exprFits]; rfl
  | .array es => by
    simp only [visitExpr, exprFits]
    rw [isOk_one (fun _ => rfl)]
    exact visitList_fits I L es
  | .tuple es => by
    simp only [visitExpr, exprFits]
    rw [isOk_one (fun _ => rfl)]
    exact visitList_fits I L es
  | .attr e a => by
    have h1 := visit_fits I L e
    cases e with
    | var x =>
      simp only [visitExpr, exprFits]
      by_cases hx : x = c!"loop"
      · subst hx
        by_cases a1 : a = c!"index"
        · subst a1; rfl
        by_cases a2 : a = c!"index0"
        · subst a2; rfl
        by_cases a3 : a = c!"first"
        · subst a3; rfl
        by_cases a4 : a = c!"last"
        · subst a4; rfl
        simp only [a1, a2, a3, a4, if_false, if_true]
        simp [a1, a2, a3, a4, Except.isOk, Except.toBool]
      · simp only [hx, if_false]
        simp [hx, Except.isOk, Except.toBool]
    | _ => simp only [visitExpr, exprFits] at h1 ⊢; rw [isOk_one (fun _ => rfl)]; exact h1
  | .index a b => by
    simp only [visitExpr, exprFits]
    rw [isOk_bind (fun _ => isOk_one fun _ => rfl), visit_fits I L a, visit_fits I L b]
  | .filter name es => by
    simp only [exprFits]
    refine filter_fits I L name es (visitAll_fits I L es) (visitList_fits I L es) ?_
    rintro a rest rfl
    exact visitList_fits I L rest
  | .namedArg _ e => by
    simp only [visitExpr, exprFits]
    rw [isOk_one (fun _ => rfl)]
    exact visit_fits I L e
  | .unary _ e => by
    simp only [visitExpr, exprFits]
    rw [isOk_one (fun _ => rfl)]
    exact visit_fits I L e
  | .group e => by
    simp only [visitExpr, exprFits]
    rw [isOk_one (fun _ => rfl)]
    exact visit_fits I L e
  | .try_ e => by
    simp only [visitExpr, exprFits]
    rw [isOk_one (fun _ => rfl)]
    exact visit_fits I L e
  | .binop _ a b => by
    simp only [visitExpr, exprFits]
    rw [isOk_bind (fun _ => isOk_one fun _ => rfl), visit_fits I L a, visit_fits I L b]
  | .range _ a b => by
    simp only [visitExpr, exprFits]
    rw [isOk_bind (fun _ => isOk_one fun _ => rfl), visitOpt_fits I L a, visitOpt_fits I L b]
  | .call f args => call_fits I L f args (visit_fits I L f) (visitAll_fits I L args) (visitList_fits I L args)
  termination_by e => sizeOf e
theorem visitList_fits (I : GenInput) (L : Locals) : (es : List Expr) → (visitList I L es).isOk = exprsFit I.options es
  | [] => by simp only [visitList, exprsFit]; rfl
  | e :: es => by
    simp only [visitList, exprsFit]
    rw [isOk_bind (fun _ => isOk_one fun _ => rfl), visit_fits I L e, visitList_fits I L es]
  termination_by es => sizeOf es
theorem visitAll_fits (I : GenInput) (L : Locals) : (es : List Expr) → ∀ a ∈ es, (visitExpr I L a).isOk = exprFits I.options a
  | [] => by simp
  | e :: es => List.forall_mem_cons.mpr ⟨visit_fits I L e, visitAll_fits I L es⟩
  termination_by es => sizeOf es
theorem visitOpt_fits (I : GenInput) (L : Locals) : (o : Option Expr) → (visitOpt I L o).isOk = optFits I.options o
  | none => by simp only [visitOpt, optFits]; rfl
  | some e => by
    simp only [visitOpt, optFits]
    rw [isOk_one (fun _ => rfl)]
    exact visit_fits I L e
  termination_by o => sizeOf o
end

/-! ## States -/

/-- Succeeds. -/
def Got {α : Type} (Q : α → Prop) (x : Except GErr α) : Prop := ∃ a, x = .ok a ∧ Q a

theorem Got.bind {α β : Type} {P : α → Prop} {Q : β → Prop} {x : Except GErr α} {f : α → Except GErr β}
    (h : Got P x) (hf : ∀ a, P a → Got Q (f a)) : Got Q (x >>= f) := by
  obtain ⟨a, rfl, ha⟩ := h
  exact hf a ha

theorem Got.mono {α : Type} {P Q : α → Prop} {x : Except GErr α} (h : Got P x) (hq : ∀ a, P a → Q a) : Got Q x := by
  obtain ⟨a, rfl, ha⟩ := h
  exact ⟨a, rfl, hq a ha⟩

theorem got_ok {α : Type} {Q : α → Prop} {a : α} (h : Q a) : Got Q (.ok a) := ⟨a, rfl, h⟩

theorem got_of_isOk {α : Type} {x : Except GErr α} (h : x.isOk = true) : Got (fun _ => True) x := by
  cases x with
  | ok a => exact ⟨a, rfl, trivial⟩
  | error e => cases h

theorem visit_got {I : GenInput} (L : Locals) {e : Expr} (h : exprFits I.options e = true) : Got (fun _ => True) (visitExpr I L e) :=
  got_of_isOk ((visit_fits I L e).trans h)

/-- Everything pending keeps the rules, and the indentation and the current block are known. -/
structure Ready (I : GenInput) (b : Option (Str × Nat)) (k : Nat) (g : Gen) : Prop where
  pend : ∀ e, .expr e ∈ g.pend → exprFits I.options e = true
  ind : g.indent = k
  dis : g.discard = false
  sup : g.superBlock = b
  pd : I.block = none → g.pdiscard = false

/-- ... and no whitespace is pending. -/
structure Poised (I : GenInput) (b : Option (Str × Nat)) (k : Nat) (g : Gen) : Prop extends Ready I b k g where
  ws : g.nextWs = none

section
variable {I : GenInput} {bl : Option (Str × Nat)} {k : Nat} {g : Gen}

theorem Ready.push (h : Ready I bl k g) {w : Writable} (hw : ∀ e, w = .expr e → exprFits I.options e = true) : Ready I bl k (g.push w) := by
  unfold Gen.push
  split
  · exact h
  · refine ⟨?_, h.ind, h.dis, h.sup, h.pd⟩
    intro e he
    rcases List.mem_append.mp he with he | he
    · exact h.pend e he
    · exact hw e (List.mem_singleton.mp he).symm

theorem Ready.push_lit (h : Ready I bl k g) (s : Str) : Ready I bl k (g.push (.lit s)) := h.push fun e he => by cases he

theorem Ready.flushWs (h : Ready I bl k g) (ws : Ws) : Poised I bl k (flushWs I g ws) := by
  unfold Gen.flushWs
  cases hn : g.nextWs with
  | none => exact ⟨h, hn⟩
  | some val =>
    dsimp only
    refine ⟨?_, rfl⟩
    have key : Ready I bl k (match shouldTrimWs I ws.l with
      | .preserve => if val.isEmpty then g else g.push (.lit val)
      | .minimize => if val.isEmpty then g else g.push (.lit (minimized val))
      | .suppress => g) := by
      repeat' split
      all_goals first | exact h | exact h.push_lit _
    exact ⟨key.pend, key.ind, key.dis, key.sup, key.pd⟩

theorem Poised.prepareWs (h : Poised I bl k g) (ws : Ws) : Poised I bl k (prepareWs I g ws) := ⟨⟨h.pend, h.ind, h.dis, h.sup, h.pd⟩, h.ws⟩

theorem Ready.handleWs (h : Ready I bl k g) (ws : Ws) : Poised I bl k (handleWs I g ws) := (h.flushWs ws).prepareWs ws

theorem Poised.locals (h : Poised I bl k g) (L : Locals) : Poised I bl k { g with locals := L } := ⟨⟨h.pend, h.ind, h.dis, h.sup, h.pd⟩, h.ws⟩

theorem Poised.declare (h : Poised I bl k g) (t : Target) (b : Bool) : Poised I bl k (declare g t b) := h.locals _

theorem Poised.openLine (h : Poised I bl k g) : Poised I bl (k + 1) g.openLine := by
  unfold Gen.openLine
  rw [if_neg (by rw [h.dis]; decide)]
  exact ⟨⟨h.pend, congrArg (· + 1) h.ind, h.dis, h.sup, h.pd⟩, h.ws⟩

theorem Poised.dedent (h : Poised I bl (k + 1) g) : Got (Poised I bl k) g.dedent := by
  unfold Gen.dedent
  rw [h.ind, if_neg (by omega)]
  exact got_ok ⟨⟨h.pend, rfl, h.dis, h.sup, h.pd⟩, h.ws⟩

theorem Poised.closeLine (h : Poised I bl (k + 1) g) : Got (Poised I bl k) g.closeLine := by
  unfold Gen.closeLine
  rw [h.dis]
  exact h.dedent

theorem formatLoop_got (I : GenInput) (L : Locals) : (ws : List Writable) → (st : FmtSt) →
    (∀ e, .expr e ∈ ws → exprFits I.options e = true) → Got (fun _ => True) (formatLoop I L ws st)
  | [], _, _ => got_ok trivial
  | .lit s :: ws, st, h => by
    simp only [formatLoop]
    exact formatLoop_got I L ws _ fun e he => h e (List.mem_cons_of_mem _ he)
  | .expr e :: ws, st, h => by
    simp only [formatLoop]
    exact (visit_got L (h e (by simp))).bind fun x _ =>
      formatLoop_got I L ws _ fun e he => h e (List.mem_cons_of_mem _ he)
  | .generated r w :: ws, st, h => by
    simp only [formatLoop]
    exact formatLoop_got I L ws _ fun e he => h e (List.mem_cons_of_mem _ he)

theorem Ready.prepareFormat (h : Ready I bl k g) :
    Got (fun x => Ready I bl k x.2 ∧ x.2.nextWs = g.nextWs) (prepareFormat I g) := by
  unfold Gen.prepareFormat
  split
  · exact got_ok ⟨h, rfl⟩
  · split
    · exact got_ok ⟨⟨by simp, h.ind, h.dis, h.sup, h.pd⟩, rfl⟩
    · exact (formatLoop_got I _ _ _ h.pend).bind fun st _ => got_ok ⟨⟨by simp, h.ind, h.dis, h.sup, h.pd⟩, rfl⟩

theorem Poised.prepareFormat (h : Poised I bl k g) : Got (fun x => Poised I bl k x.2) (prepareFormat I g) :=
  h.toReady.prepareFormat.mono fun _ hx => ⟨hx.1, hx.2.trans h.ws⟩

theorem Ready.writeBuf (h : Ready I bl k g) :
    Got (fun x => Ready I bl k x.2 ∧ x.2.nextWs = g.nextWs) (writeBuf I g) := by
  unfold Gen.writeBuf
  refine h.prepareFormat.bind ?_
  rintro ⟨p, g'⟩ hg
  cases p <;> exact got_ok hg

theorem Poised.writeBuf (h : Poised I bl k g) : Got (fun x => Poised I bl k x.2) (writeBuf I g) :=
  h.toReady.writeBuf.mono fun _ hx => ⟨hx.1, hx.2.trans h.ws⟩

theorem Poised.flushIf (h : Poised I bl k g) (b : Bool) : Got (fun x => Poised I bl k x.2) (flushIf I b g) := by
  unfold Gen.flushIf
  split
  · exact h.writeBuf
  · exact got_ok h

theorem Ready.visitLws (h : Ready I bl k g) {l : Lit} (hl : Spec.LitOk l) : Got (Ready I bl k) (visitLws g l) := by
  unfold Gen.visitLws
  have hrw : l.val.isEmpty = true → l.rws.isEmpty = true := by
    intro hv
    rw [hl.2.2.2.2 (List.isEmpty_iff.mp hv)]; rfl
  split
  · exact got_ok h
  · split
    · exact got_ok h
    · split
      · rename_i hv
        rw [if_pos (hrw hv)]
        exact got_ok ⟨h.pend, h.ind, h.dis, h.sup, h.pd⟩
      · exact got_ok (h.push_lit _)
    · split
      · rename_i hv
        rw [if_pos (hrw hv)]
        exact got_ok ⟨h.pend, h.ind, h.dis, h.sup, h.pd⟩
      · exact got_ok (h.push_lit _)

theorem Poised.visitLit (h : Poised I bl k g) {l : Lit} (hl : Spec.LitOk l) : Got (Ready I bl k) (visitLit g l) := by
  unfold Gen.visitLit
  rw [h.ws, if_neg (by simp)]
  refine (h.toReady.visitLws hl).bind fun g1 h1 => got_ok ?_
  have h2 : Ready I bl k (if l.val.isEmpty then g1 else ({ g1 with skipWs := .preserve } : Gen).push (.lit l.val)) := by
    split
    · exact h1
    · exact Ready.push_lit (g := { g1 with skipWs := .preserve }) ⟨h1.pend, h1.ind, h1.dis, h1.sup, h1.pd⟩ _
  split
  · exact h2
  · exact ⟨h2.pend, h2.ind, h2.dis, h2.sup, h2.pd⟩

mutual
theorem isShadowing_got (L : Locals) : (t : Target) → binds t = true → Got (fun _ => True) (isShadowing L t)
  | .name n, _ => by unfold isShadowing; split <;> exact got_ok trivial
  | .tuple _ ts, h => by simp only [isShadowing]; exact isShadowingList_got L ts (by simpa only [binds] using h)
  | .struct _ ts, h => by simp only [isShadowing]; exact isShadowingFields_got L ts (by simpa only [binds] using h)
  | .numLit _, h | .strLit _, h | .charLit _, h | .boolLit _, h | .path _, h | .orChain _, h => by cases h
theorem isShadowingList_got (L : Locals) : (ts : List Target) → bindsAll ts = true → Got (fun _ => True) (isShadowingList L ts)
  | [], _ => by simp only [isShadowingList]; exact got_ok trivial
  | t :: ts, h => by
    simp only [bindsAll, Bool.and_eq_true] at h
    have h1 := isShadowing_got L t h.1
    have h2 := isShadowingList_got L ts h.2
    simp only [isShadowingList]
    split
    · exact h2
    · exact h1
theorem isShadowingFields_got (L : Locals) : (ts : List (Str × Target)) → bindsFields ts = true →
    Got (fun _ => True) (isShadowingFields L ts)
  | [], _ => by simp only [isShadowingFields]; exact got_ok trivial
  | (_, t) :: ts, h => by
    simp only [bindsFields, Bool.and_eq_true] at h
    have h1 := isShadowing_got L t h.1
    have h2 := isShadowingFields_got L ts h.2
    simp only [isShadowingFields]
    split
    · exact h2
    · exact h1
end

theorem writeLet_got (h : Ready I bl k g) {ws : Ws} {t : Target} {v : Option Expr}
    (hv : ∀ e, v = some e → binds t = true ∧ exprFits I.options e = true) : Got (fun x => Poised I bl k x.2) (writeLet I g ws t v) := by
  unfold Gen.writeLet
  have h1 := h.handleWs ws
  cases v with
  | none =>
    refine h1.writeBuf.bind ?_
    rintro ⟨s, g2⟩ h2
    exact got_ok (h2.declare t false)
  | some e =>
    refine (visit_got _ (hv e rfl).2).bind fun r _ => (isShadowing_got _ t (hv e rfl).1).bind fun b _ => ?_
    refine (h1.flushIf b).bind ?_
    rintro ⟨s, g2⟩ h2
    exact got_ok (h2.declare t true)

theorem branchCond_got (h : Poised I bl k g) {c : Option CondTest} (hc : ∀ t, c = some t → exprFits I.options t.expr = true) :
    Got (fun x => Poised I bl k x.2) (branchCond I g c) := by
  cases c with
  | none => exact got_ok h
  | some ct =>
    obtain ⟨t, e⟩ := ct
    have hp : exprFits I.options e = true := hc _ rfl
    cases t with
    | none => exact (visit_got _ hp).bind fun _ _ => got_ok h
    | some t =>
      have key : Got (fun x : RCond × Gen => Poised I bl k x.2) (do
          let (r, _) ← visitExpr I g.locals e
          return (.let_ t r, Gen.declare g t true)) :=
        (visit_got _ hp).bind fun _ _ => got_ok (h.declare t true)
      cases e with
      | binop op a b =>
        unfold Gen.branchCond
        dsimp only
        split
        · simp only [exprFits, Bool.and_eq_true] at hp
          exact (visit_got _ hp.1).bind fun _ _ => (visit_got _ hp.2).bind fun _ _ => got_ok (h.declare t true)
        · exact key
      | _ => exact key

end

/-! ## Nodes -/

/-- The handler for nested nodes succeeds on those that keep the rules. -/
def RecGets (I : GenInput) (H : Option Heritage) (ctx : Ctx) (bl : Option (Str × Nat)) (fit : List Node → Prop) (rec : Handler) :
    Prop :=
  ∀ nodes k g, ParsedList nodes → fit nodes → Poised I bl k g → Got (fun x => Ready I bl k x.2) (rec H ctx nodes .nested g)

section
variable {I : GenInput} {H : Option Heritage} {ctx : Ctx} {rec : Handler} {g : Gen} {n k : Nat} {bl : Option (Str × Nat)}
  {fit : List Node → Prop}

theorem ifBranches_got (ok : RecGets I H ctx bl fit rec) (wsEnd : Ws) :
    (first : Bool) → (bs : List Cond) → {g : Gen} → bs ≠ [] →
    (∀ w c ns, Cond.mk w c ns ∈ bs → ParsedList ns ∧ (∀ t, c = some t → exprFits I.options t.expr = true) ∧
      fit ns) → Poised I bl (if first then k else k + 1) g →
    Got (fun x => Poised I bl (k + 1) x.2) (ifBranches rec I H ctx wsEnd first bs g)
  | _, [], _, hne, _, _ => absurd rfl hne
  | first, .mk w c ns :: rest, g, _, hb, hg => by
    unfold Gen.ifBranches
    obtain ⟨hp, hc, hn⟩ := hb w c ns (by simp)
    have hd : Got (Poised I bl k) (dedentUnless first { g with locals := g.locals.push }) := by
      unfold Gen.dedentUnless
      cases first with
      | true => exact got_ok (hg.locals _)
      | false => exact (Poised.locals hg _).dedent
    refine hd.bind fun g1 h1 => (branchCond_got h1 hc).bind ?_
    rintro ⟨rc, g2⟩ h2
    dsimp only at h2 ⊢
    refine (ok ns _ _ hp hn h2.openLine).bind ?_
    rintro ⟨body, g3⟩ h3
    dsimp only at h3 ⊢
    cases rest with
    | nil =>
      refine (h3.handleWs wsEnd).writeBuf.bind ?_
      rintro ⟨fl, g4⟩ h4
      exact got_ok h4
    | cons b2 rest =>
      obtain ⟨w2, c2, ns2⟩ := b2
      refine (h3.handleWs w2).writeBuf.bind ?_
      rintro ⟨fl, g4⟩ h4
      dsimp only at h4 ⊢
      refine (ifBranches_got ok wsEnd false _ (by simp) (fun w c ns hm => hb w c ns (List.mem_cons_of_mem _ hm))
        (h4.locals _)).bind ?_
      rintro ⟨bs, g5⟩ h5
      exact got_ok h5

theorem writeIf_got (ok : RecGets I H ctx bl fit rec) {ws : Ws} {bs : List Cond} (hne : bs ≠ [])
    (hb : ∀ w c ns, Cond.mk w c ns ∈ bs → ParsedList ns ∧ (∀ t, c = some t → exprFits I.options t.expr = true) ∧
      fit ns) (hg : Ready I bl k g) :
    Got (fun x => Poised I bl k x.2) (writeIf rec I H ctx g ws bs) := by
  cases bs with
  | nil => exact absurd rfl hne
  | cons b rest =>
    obtain ⟨w1, c1, ns1⟩ := b
    unfold Gen.writeIf
    dsimp only
    refine (hg.handleWs w1).writeBuf.bind ?_
    rintro ⟨pre, g1⟩ h1
    refine (ifBranches_got ok ws true _ (by simp) hb h1).bind ?_
    rintro ⟨bs, g2⟩ h2
    exact h2.closeLine.bind fun g3 h3 => got_ok (h3.locals _)

theorem matchArms_got (ok : RecGets I H ctx bl fit rec) (ws2 : Ws) :
    (bs : List When) → {g : Gen} → (∀ w c ns, When.mk w c ns ∈ bs → ParsedList ns ∧ fit ns) →
    Poised I bl k g → Got (fun x => Poised I bl k x.2) (matchArms rec I H ctx ws2 bs g)
  | [], _, _, hg => by simp only [matchArms]; exact got_ok hg
  | .mk w c ns :: rest, g, hb, hg => by
    unfold Gen.matchArms
    have h0 := hb w c ns (by simp)
    refine (ok ns _ _ h0.1 h0.2 ((hg.locals _).declare c true).openLine).bind ?_
    rintro ⟨body, g3⟩ h3
    dsimp only at h3 ⊢
    refine (h3.handleWs _).writeBuf.bind ?_
    rintro ⟨fl, g4⟩ h4
    dsimp only at h4 ⊢
    refine h4.closeLine.bind fun g5 h5 => ?_
    refine (matchArms_got ok ws2 rest (fun w c ns hm => hb w c ns (List.mem_cons_of_mem _ hm)) (h5.locals _)).bind ?_
    rintro ⟨bs, g6⟩ h6
    exact got_ok h6

theorem writeMatch_got (ok : RecGets I H ctx bl fit rec) {ws1 ws2 : Ws} {e : Expr} {bs : List When}
    (hne : bs ≠ []) (he : exprFits I.options e = true)
    (hb : ∀ w c ns, When.mk w c ns ∈ bs → ParsedList ns ∧ fit ns) (hg : Ready I bl k g) :
    Got (fun x => Poised I bl k x.2) (writeMatch rec I H ctx g ws1 e bs ws2) := by
  cases bs with
  | nil => exact absurd rfl hne
  | cons b rest =>
    obtain ⟨w1, c1, ns1⟩ := b
    unfold Gen.writeMatch
    dsimp only
    refine (hg.flushWs ws1).writeBuf.bind ?_
    rintro ⟨pre, g1⟩ h1
    refine (visit_got _ he).bind ?_
    rintro ⟨r, w⟩ -
    refine (matchArms_got ok ws2 _ hb (h1.openLine.toReady.handleWs w1)).bind ?_
    rintro ⟨bs, g2⟩ h2
    exact h2.closeLine.bind fun g3 h3 => got_ok h3

theorem writeLoop_got (ok : RecGets I H ctx bl fit rec) {ws1 ws2 ws3 : Ws} {var : Target}
    {iter : Expr} {cond : Option Expr} {body els : List Node} (hi : exprFits I.options iter = true) (hcond : optFits I.options cond = true)
    (hp : ParsedList body) (hb : fit body)
    (hpe : ParsedList els) (he : fit els) (hg : Ready I bl k g) :
    Got (fun x => Poised I bl k x.2) (writeLoop rec I H ctx g ws1 var iter cond body ws2 els ws3) := by
  unfold Gen.writeLoop
  dsimp only
  refine (visit_got _ hi).bind ?_
  rintro ⟨r, w⟩ -
  refine ((hg.handleWs ws1).locals _).writeBuf.bind ?_
  rintro ⟨pre, g1⟩ h1
  have hf : ∀ g, Got (fun _ => True) (loopFilter I g var cond) := by
    intro g
    cases cond with
    | none => exact got_ok trivial
    | some c => exact (visit_got _ (by simpa only [optFits] using hcond)).bind fun _ _ => got_ok trivial
  refine (hf _).bind fun filt _ => ?_
  refine (ok body _ _ hp hb ((h1.openLine.locals _).declare var true).openLine).bind ?_
  rintro ⟨b, g2⟩ h2
  refine (h2.handleWs ws2).writeBuf.bind ?_
  rintro ⟨fl, g3⟩ h3
  refine (Poised.closeLine (h3.locals _)).bind fun g4 h4 => ?_
  split
  · refine (ok els _ _ hpe he (h4.openLine.locals _)).bind ?_
    rintro ⟨b, g5⟩ h5
    refine (h5.handleWs ws3).writeBuf.bind ?_
    rintro ⟨fl, g6⟩ h6
    exact (Poised.closeLine (h6.locals _)).bind fun g7 h7 => h7.closeLine.bind fun g8 h8 => got_ok (h8.locals _)
  · refine (h4.toReady.handleWs ws3).writeBuf.bind ?_
    rintro ⟨fl, g6⟩ h6
    exact h6.closeLine.bind fun g8 h8 => got_ok (h8.locals _)

/-! ### Macro calls -/

theorem namedArgs_got (params : List Str) {tail : List Expr} (ht : ∀ e ∈ tail, ∀ n v, e ≠ .namedArg n v) :
    (l : List (Str × Expr)) → (∀ x ∈ l, x.1 ∈ params) →
      Got (fun m => m = l.reverse.map fun x => (x.1, asNamed x)) (namedArgs params (l.map asNamed ++ tail))
  | [], _ => by
    cases tail with
    | nil => exact got_ok rfl
    | cons e tail =>
      simp only [List.map_nil, List.nil_append]
      unfold namedArgs
      split
      · rename_i heq; cases heq; exact absurd rfl (ht _ (List.mem_cons_self ..) _ _)
      · exact got_ok rfl
  | x :: l, h => by
    simp only [List.map_cons, List.cons_append, namedArgs]
    rw [if_pos (by simpa using h x (by simp))]
    refine (namedArgs_got params ht l fun y hy => h y (List.mem_cons_of_mem _ hy)).bind fun m hm => got_ok ?_
    subst hm
    simp

theorem passArg_got {L : Locals} {e : Expr} (he : exprFits I.options e = true) : Got (fun _ => True) (passArg I L e) := by
  have key : ∀ f : RExpr × Bool → RExpr ⊕ RExpr, Got (fun _ => True) ((visitExpr I L e).map f) := by
    intro f
    obtain ⟨a, ha, -⟩ := visit_got L he
    exact ⟨f a, by rw [ha]; rfl, trivial⟩
  cases e with
  | var x => unfold passArg; dsimp only; split <;> exact got_ok trivial
  | attr o a => exact key fun r => .inl r.1
  | _ => exact key fun r => .inr r.1

theorem bindParams_got {named : List (Str × Expr)} {args : List Expr} (hn : ∀ x ∈ named, exprFits I.options x.2 = true)
    (ha : ∀ e ∈ args, exprFits I.options e = true) : (ps : List Str) → (i m : Nat) → (b : Bool) → (L : Locals) →
    (b = false → m ≤ i) → m ≤ args.length →
    (∀ p ∈ ps.take (m - i), lastOf named p = none) → (∀ p ∈ ps.drop (m - i), (lastOf named p).isSome = true) →
    Got (fun _ => True) (bindParams I named args ps i b L)
  | [], _, _, _, _, _, _, _, _ => got_ok trivial
  | p :: ps, i, m, b, L, hb, hm, h1, h2 => by
    unfold Gen.bindParams
    have hpa : Got (fun x => exprFits I.options x.1 = true ∧ (x.2 = false → m ≤ i + 1)) (paramArg named args p i b) := by
      unfold Gen.paramArg
      cases hl : lastOf named p with
      | some e =>
        obtain ⟨q, hq⟩ := assoc_mem hl
        refine got_ok ⟨hn _ (List.mem_reverse.mp hq), fun _ => ?_⟩
        rcases Nat.lt_or_ge i m with hi | hi
        · have := h1 p (by rw [show m - i = (m - i - 1) + 1 by omega]; simp)
          rw [hl] at this; cases this
        · omega
      | none =>
        rcases Nat.lt_or_ge i m with hi | hi
        · have hbt : b = true := by
            cases b with
            | true => rfl
            | false => have := hb rfl; omega
          subst hbt
          have hi' : i < args.length := by omega
          simp only [if_true]
          rw [List.getElem?_eq_getElem hi']
          exact got_ok ⟨ha _ (List.getElem_mem hi'), fun h => by cases h⟩
        · have := h2 p (by rw [show m - i = 0 by omega]; simp)
          rw [hl] at this; cases this
    refine hpa.bind ?_
    rintro ⟨e, b2⟩ ⟨he, hb2⟩
    refine (passArg_got (L := L) he).bind fun x _ => ?_
    have hd1 : ∀ p ∈ ps.take (m - (i + 1)), lastOf named p = none := by
      intro q hq
      rcases Nat.lt_or_ge i m with hi | hi
      · refine h1 q ?_
        rw [show m - i = (m - (i + 1)) + 1 by omega, List.take_succ_cons]
        exact List.mem_cons_of_mem _ hq
      · rw [show m - (i + 1) = 0 by omega] at hq; cases hq
    have hd2 : ∀ p ∈ ps.drop (m - (i + 1)), (lastOf named p).isSome = true := by
      intro q hq
      refine h2 q ?_
      rcases Nat.lt_or_ge i m with hi | hi
      · rw [show m - i = (m - (i + 1)) + 1 by omega, List.drop_succ_cons]
        exact hq
      · rw [show m - i = 0 by omega]
        rw [show m - (i + 1) = 0 by omega] at hq
        exact List.mem_cons_of_mem _ hq
    cases x with
    | inl r => exact bindParams_got hn ha ps (i + 1) m b2 _ hb2 hm hd1 hd2
    | inr r =>
      refine (bindParams_got hn ha ps (i + 1) m b2 _ hb2 hm hd1 hd2).bind ?_
      rintro ⟨a, b, c⟩ -
      exact got_ok trivial

theorem exprsFit_all : {es : List Expr} → exprsFit I.options es = true → ∀ e ∈ es, exprFits I.options e = true
  | [], _ => by simp
  | e :: es, h => by
    simp only [exprsFit, Bool.and_eq_true] at h
    exact List.forall_mem_cons.mpr ⟨h.1, exprsFit_all h.2⟩

theorem args_got {args : List Expr} {params : List Str} (ha : ArgList args) (hf : exprsFit I.options args = true)
    (hfit : argsFit params args = true) (L : Locals) : args.length = params.length ∧
    Got (fun named => Got (fun _ => True) (bindParams I named args params 0 true L)) (namedArgs params args.reverse) := by
  obtain ⟨pos, nms, rfl, hpl, -, hd⟩ := ha
  have hpos := plainL_pos pos hpl
  have hall := exprsFit_all hf
  have e1 : pos.filterMap argLabel = [] := by
    rw [List.filterMap_eq_nil_iff]
    intro e he
    cases e with
    | namedArg n v => exact absurd rfl (hpos _ he n v)
    | _ => rfl
  have e2 : ∀ l : List (Str × Expr), (l.map asNamed).filterMap argLabel = l.map (·.1) := by
    intro l
    induction l with
    | nil => rfl
    | cons x l ih => simpa [asNamed, argLabel] using ih
  unfold argsFit at hfit
  simp only [List.filterMap_append] at hfit
  rw [show (nms.map fun x => Expr.namedArg x.1 x.2) = nms.map asNamed from rfl] at hfit ⊢
  rw [e1, e2] at hfit
  simp only [List.nil_append, List.length_append, List.length_map, Nat.add_sub_cancel, Bool.and_eq_true, beq_iff_eq,
    List.all_eq_true, Bool.not_eq_true', List.contains_iff_mem] at hfit
  obtain ⟨⟨⟨h1, h2⟩, h3⟩, h4⟩ := hfit
  refine ⟨by simpa using h1, ?_⟩
  rw [List.reverse_append, ← List.map_reverse]
  refine (namedArgs_got params (fun e he => hpos e (List.mem_reverse.mp he)) nms.reverse ?_).mono ?_
  · intro x hx
    exact h4 x.1 (List.mem_map.mpr ⟨x, List.mem_reverse.mp hx, rfl⟩)
  · rintro named rfl
    have hmem : ∀ p, (lastOf (nms.reverse.reverse.map fun x => (x.1, asNamed x)) p).isSome = true ↔ p ∈ nms.map (·.1) := by
      intro p
      rw [lastOf_isSome]
      simp
    refine bindParams_got ?_ hall params 0 pos.length true L (by simp) (by simp) ?_ ?_
    · intro x hx
      obtain ⟨y, hy, rfl⟩ := List.mem_map.mp hx
      refine hall _ (List.mem_append_right _ (List.mem_map.mpr ⟨y, by simpa using hy, rfl⟩))
    · intro p hp
      have hp' := h2 p (by simpa using hp)
      cases hl : lastOf (nms.reverse.reverse.map fun x => (x.1, asNamed x)) p with
      | none => rfl
      | some e =>
        have := (hmem p).mp (by rw [hl]; rfl)
        rw [← List.contains_iff_mem, hp'] at this
        cases this
    · intro p hp
      exact (hmem p).mpr (h3 p (by simpa using hp))

theorem writeCall_got {own : Ctx} (ok : RecGets I H own bl fit rec) {ws : Ws} {scope : Option Str} {name : Str} {args : List Expr}
    {d : MacroDef} (hd : findMacro I ctx scope name = .ok (d, own)) (ha : ArgList args) (hf : exprsFit I.options args = true)
    (hfit : argsFit d.args args = true) (hp : ParsedList d.nodes) (hb : fit d.nodes)
    (hg : Ready I bl k g) : Got (fun x => Poised I bl k x.2) (writeCall rec I H ctx g ws scope name args) := by
  unfold Gen.writeCall
  rw [hd]
  refine Got.bind (got_ok (Q := fun x => x = (d, own)) rfl) ?_
  rintro _ rfl
  dsimp only
  refine ((hg.flushWs ws).locals _).writeBuf.bind ?_
  rintro ⟨pre, g1⟩ h1
  dsimp only at h1 ⊢
  obtain ⟨hlen, hargs⟩ := args_got ha hf hfit (prepareWs I g1.openLine d.ws1).locals
  rw [if_neg (by simpa using hlen)]
  refine hargs.bind fun named hn => hn.bind ?_
  rintro ⟨ns, rs, L⟩ -
  dsimp only
  refine (ok d.nodes _ _ hp hb ((h1.openLine.prepareWs d.ws1).locals L)).bind ?_
  rintro ⟨b, g2⟩ h2
  refine (h2.flushWs d.ws2).writeBuf.bind ?_
  rintro ⟨fl, g3⟩ h3
  exact h3.closeLine.bind fun g4 h4 => got_ok (Poised.prepareWs (h4.locals _) ws)

/-! ### Filter blocks -/

theorem insertFirst_filter (x : Str) (name : Str) (as rest : List Expr) :
    insertFirst x (.filter name as :: rest) = .filter name (insertFirst x as) :: rest := by
  simp [insertFirst, insertInto]

theorem insertFirst_other (x : Str) {e : Expr} (h : ∀ name as, e ≠ .filter name as) (rest : List Expr) :
    insertFirst x (e :: rest) = .generated x :: e :: rest := by
  cases e with
  | filter name as => exact absurd rfl (h name as)
  | _ => simp [insertFirst, insertInto]

theorem piped_other (v : Expr) {e : Expr} (h : ∀ name as, e ≠ .filter name as) (rest : List Expr) :
    piped v (e :: rest) = v :: e :: rest := by
  cases e with
  | filter name as => exact absurd rfl (h name as)
  | _ => simp [piped, pipedInto]

/-- Not a string literal. -/
def notText : Expr → Bool
  | .strLit _ => false
  | _ => true

theorem filterFits_head (I : GenInput) (name : Str) {a b : Expr} (ha : notText a = true) (hb : notText b = true)
    (rest : List Expr) : filterFits I.options name (a :: rest) = filterFits I.options name (b :: rest) := by
  have h : ∀ {e : Expr}, notText e = true → filterFits I.options name (e :: rest) = filterFits I.options name (.boolLit [] :: rest) := by
    intro e he
    cases e with
    | strLit s => cases he
    | _ =>
      unfold filterFits
      rcases rest with _ | ⟨c, _ | ⟨d, rest⟩⟩
      · rfl
      · cases c <;> rfl
      · cases c <;> rfl
  rw [h ha, h hb]

theorem piped_fits (x : Str) : (args : List Expr) → (name : Str) →
    exprFits I.options (.filter name (insertFirst x args)) = exprFits I.options (.filter name (piped (.boolLit c!"true") args))
  | [], name => by
    simp only [insertFirst, piped, exprFits, exprsFit]
    rw [filterFits_head I name (a := .generated x) (b := .boolLit c!"true") rfl rfl]
  | .filter n as :: rest, name => by
    rw [insertFirst_filter, show piped (.boolLit c!"true") (.filter n as :: rest) = .filter n (piped (.boolLit c!"true") as) :: rest by
      simp [piped, pipedInto]]
    have ih := piped_fits x as n
    generalize insertFirst x as = l at ih ⊢
    generalize piped (.boolLit c!"true") as = l' at ih ⊢
    simp only [exprFits, exprsFit] at ih ⊢
    rw [ih, filterFits_head I name (a := .filter n l) (b := .filter n l') rfl rfl]
  | .boolLit _ :: rest, name | .numLit _ :: rest, name | .strLit _ :: rest, name | .charLit _ :: rest, name
  | .var _ :: rest, name | .path _ :: rest, name | .array _ :: rest, name | .attr _ _ :: rest, name
  | .index _ _ :: rest, name | .namedArg _ _ :: rest, name | .unary _ _ :: rest, name | .binop _ _ _ :: rest, name
  | .range _ _ _ :: rest, name | .group _ :: rest, name | .tuple _ :: rest, name | .call _ _ :: rest, name
  | .rustMacro _ _ :: rest, name | .try_ _ :: rest, name | .generated _ :: rest, name => by
    rw [insertFirst_other x (by intro _ _ h; cases h), piped_other _ (by intro _ _ h; cases h)]
    rw [exprFits, exprFits, filterFits_head I name (a := .generated x) (b := .boolLit c!"true") rfl rfl]
    simp only [exprsFit]
    simp only [exprFits]

theorem filterEnd_got {ws2 : Ws} {b : List Stmt} {st : Stmt} {x name : Str} {args : List Expr}
    (hf : exprFits I.options (.filter name (insertFirst x args)) = true)
    (h : Poised I bl k g) : Got (fun x : List Stmt × Gen => Poised I bl k x.2) (do
      let (r, wrapped) ← visitExpr I g.locals (.filter name (insertFirst x args))
      let g := Gen.prepareWs I (g.push (.generated r wrapped)) ws2
      return (b ++ g.emit [st], { g with locals := g.locals.insert x { refs := none, initialized := true } })) := by
  refine (visit_got _ hf).bind ?_
  rintro ⟨r, w⟩ -
  have h5 : Poised I bl k (g.push (.generated r w)) :=
    ⟨h.toReady.push (fun e he => by cases he), by rw [push_nextWs]; exact h.ws⟩
  exact got_ok ((h5.prepareWs ws2).locals _)

theorem writeFilterBlock_got (ok : RecGets I H ctx bl fit rec) {ws1 ws2 : Ws} {f : FilterApp} {nodes : List Node}
    (hf : exprFits I.options (.filter f.name (piped (.boolLit c!"true") f.args)) = true) (hp : ParsedList nodes)
    (hn : fit nodes) (hg : Ready I bl k g) :
    Got (fun x => Poised I bl k x.2) (writeFilterBlock rec I H ctx g ws1 f nodes ws2) := by
  unfold Gen.writeFilterBlock
  have h0 := hg.flushWs ws1
  dsimp only
  have h1 : Poised I bl k (Gen.prepareWs I { Gen.flushWs I g ws1 with pend := [] } ws1) :=
    ⟨⟨by simp [Gen.prepareWs], h0.ind, h0.dis, h0.sup, h0.pd⟩, h0.ws⟩
  refine (ok nodes _ _ hp hn h1).bind ?_
  rintro ⟨b, g2⟩ h2
  dsimp only at h2 ⊢
  refine (h2.flushWs ws2).prepareFormat.bind ?_
  rintro ⟨p, g3⟩ h3
  dsimp only at h3 ⊢
  have h4 : Poised I bl k { g3 with pend := (Gen.flushWs I g ws1).pend } := ⟨⟨h0.pend, h3.ind, h3.dis, h3.sup, h3.pd⟩, h3.ws⟩
  have key := fun st x => filterEnd_got (b := b) (st := st) (x := x) (name := f.name) (args := f.args) (ws2 := ws2)
    ((piped_fits x f.args f.name).trans hf) h4
  cases p with
  | none => exact got_ok h3
  | plain s => exact key _ _
  | formatted a c => exact key _ _

/-! ### All nodes -/

/-- What a node leaves behind. -/
def After (I : GenInput) (bl : Option (Str × Nat)) (k : Nat) (m : Node) (g : Gen) : Prop :=
  Ready I bl k g ∧ (isLitNode m = false → g.nextWs = none)

theorem after_poised {m : Node} {x : GRes} (h : Got (fun x => Poised I bl k x.2) x) : Got (fun x => After I bl k m x.2) x :=
  h.mono fun _ hx => ⟨hx.toReady, fun _ => hx.ws⟩

theorem tag_got {inside : List Node → Bool} (ok : RecGets I H ctx bl (inside · = true) rec) {level : Level} {m : Node}
    (hp : ParsedNode m) (hfit : tagFits I.options inside (level = .top) m = true) (hg : Ready I bl k g)
    (hws : isLitNode m = true → g.nextWs = none) : Got (fun x => After I bl k m x.2) (handleNode rec I H ctx level g m) := by
  obtain ⟨b, -, -, hargs, hex, hsh, -⟩ := hp.ok
  cases m with
  | lit l =>
    refine (Poised.visitLit ⟨hg, hws rfl⟩ hsh.1).bind fun g' hg' => ?_
    exact got_ok ⟨hg', fun h => by cases h⟩
  | comment ws c => exact after_poised (x := .ok _) (got_ok (hg.handleWs ws))
  | expr ws e =>
    refine after_poised (x := .ok _) (got_ok ?_)
    have h1 := hg.handleWs ws
    exact ⟨h1.toReady.push (fun e' he => by cases he; exact hfit), by unfold Gen.writeExpr; rw [push_nextWs]; exact h1.ws⟩
  | let_ ws t v =>
    refine after_poised (writeLet_got hg ?_)
    rintro e rfl
    simpa only [tagFits, Bool.and_eq_true] using hfit
  | if_ ws bs =>
    obtain ⟨w, t, ns, rest, hbs⟩ := hsh
    refine after_poised (writeIf_got ok (by rw [hbs]; simp) ?_ hg)
    intro w c ns hm'
    have := List.all_eq_true.mp hfit _ hm'
    simp only [Bool.and_eq_true] at this
    refine ⟨hp.branch hm', ?_, this.2⟩
    rintro t rfl
    simpa using this.1
  | match_ ws1 e arms ws2 =>
    simp only [tagFits, Bool.and_eq_true] at hfit
    refine after_poised (writeMatch_got ok hsh hfit.1 ?_ hg)
    intro w c ns hm'
    exact ⟨hp.arm hm', List.all_eq_true.mp hfit.2 _ hm'⟩
  | loop ws1 var iter cond body ws2 els ws3 =>
    simp only [tagFits, Bool.and_eq_true] at hfit
    exact after_poised (writeLoop_got ok hfit.1.1.1 hfit.1.1.2 hp.loop.1 hfit.1.2 hp.loop.2 hfit.2 hg)
  | blockDef ws1 name ns ws2 => cases hfit
  | «include» ws path => cases hfit
  | call ws scope name args => cases hfit
  | filterBlock ws1 f ns ws2 =>
    simp only [tagFits, Bool.and_eq_true] at hfit
    exact after_poised (writeFilterBlock_got ok hfit.1 hp.filter hfit.2 hg)
  | «macro» ws1 name args ns ws2 =>
    have hl : level = .top := by simpa [tagFits] using hfit
    unfold Gen.handleNode
    dsimp only
    rw [if_pos hl]
    exact after_poised (x := .ok _) (got_ok ((hg.flushWs ws1).prepareWs ws2))
  | raw ws1 l ws2 =>
    refine ((hg.handleWs ws1).visitLit hsh).bind fun g1 h1 => ?_
    have h2 := h1.handleWs ws2
    exact got_ok ⟨h2.toReady, fun _ => h2.ws⟩
  | import_ ws p s =>
    have hl : level = .top := by simpa [tagFits] using hfit
    unfold Gen.handleNode
    dsimp only
    rw [if_pos hl]
    exact after_poised (x := .ok _) (got_ok (hg.handleWs ws))
  | extends_ p => cases hfit
  | break_ ws =>
    refine (hg.handleWs ws).writeBuf.bind ?_
    rintro ⟨s, g1⟩ h1
    exact got_ok ⟨h1.toReady, fun _ => h1.ws⟩
  | continue_ ws =>
    refine (hg.handleWs ws).writeBuf.bind ?_
    rintro ⟨s, g1⟩ h1
    exact got_ok ⟨h1.toReady, fun _ => h1.ws⟩

/-- The macros that can be called have been read by the parser. -/
def MacrosParsed (ctx : Ctx) : Prop := ∀ name d, assoc ctx.macros name = some d → ParsedList d.nodes

/-- Inside of the nodes. -/
abbrev insideOf (I : GenInput) (ctx : Ctx) (n : Nat) (ns : List Node) : Prop := nodesFit I.options ctx.macros n false ns = true

theorem node_got (ok : RecGets I H ctx bl (insideOf I ctx n) rec) (hm : MacrosParsed ctx) {level : Level} {m : Node} (hp : ParsedNode m)
    (hfit : nodesFit I.options ctx.macros (n + 1) (level = .top) [m] = true) (hg : Ready I bl k g)
    (hws : isLitNode m = true → g.nextWs = none) : Got (fun x => After I bl k m x.2) (handleNode rec I H ctx level g m) := by
  simp only [nodesFit, List.all_cons, List.all_nil, Bool.and_true] at hfit
  cases m with
  | call ws scope name args =>
    obtain ⟨b, -, -, hargs, -, -, -⟩ := hp.ok
    cases scope with
    | some s => cases hfit
    | none =>
      simp only [Bool.and_eq_true, bne_iff_ne] at hfit
      obtain ⟨h1, h2⟩ := hfit
      unfold Gen.handleNode
      dsimp only
      rw [if_neg h1]
      split at h2
      · rename_i d hd
        simp only [Bool.and_eq_true] at h2
        exact after_poised (writeCall_got ok (by unfold Gen.findMacro; rw [hd]) hargs h2.1.2 h2.1.1 (hm _ _ hd) h2.2 hg)
      · cases h2
  | blockDef ws1 name ns ws2 => cases hfit
  | «include» ws path => cases hfit
  | import_ ws p s => cases hfit
  | extends_ p => cases hfit
  | _ => exact tag_got ok hp hfit hg hws

theorem nodesFit_cons {ms : List (Str × MacroDef)} {top : Bool} {m : Node} {ns : List Node} :
    nodesFit I.options ms (n + 1) top (m :: ns) = (nodesFit I.options ms (n + 1) top [m] && nodesFit I.options ms (n + 1) top ns) := by
  simp only [nodesFit, List.all_cons, List.all_nil, Bool.and_true]

theorem nodes_got (ok : RecGets I H ctx bl (insideOf I ctx n) rec) (hm : MacrosParsed ctx) {level : Level} : (ns : List Node) → {g : Gen} →
    ParsedList ns → nodesFit I.options ctx.macros (n + 1) (level = .top) ns = true → Ready I bl k g →
    ((ns.head?.map isLitNode).getD false = true → g.nextWs = none) →
    Got (fun x => Ready I bl k x.2) (handleNodes rec I H ctx level ns g)
  | [], _, _, _, hg, _ => got_ok hg
  | m :: ns, g, hp, hfit, hg, hws => by
    unfold Gen.handleNodes
    rw [nodesFit_cons, Bool.and_eq_true] at hfit
    refine (node_got ok hm hp.head hfit.1 hg (fun h => hws (by simpa using h))).bind ?_
    rintro ⟨s, g1⟩ ⟨h1, h2⟩
    dsimp only at h1 h2 ⊢
    refine (nodes_got ok hm ns hp.tail hfit.2 h1 ?_).bind ?_
    · intro hh
      apply h2
      have := hp.1.1
      cases hx : isLitNode m with
      | false => rfl
      | true => exact absurd ⟨hx, hh⟩ this
    · rintro ⟨s2, g2⟩ h3
      exact got_ok h3

theorem handle_once (ok : RecGets I H ctx bl (insideOf I ctx n) rec) (hm : MacrosParsed ctx) {level : Level} {nodes : List Node} (hp : ParsedList nodes)
    (hfit : nodesFit I.options ctx.macros (n + 1) (level = .top) nodes = true) (hg : Poised I bl k g) :
    Got (fun x => Ready I bl k x.2) (do
      let (s, g) ← handleNodes rec I H ctx level nodes g
      let (s', g) ← handleEnd I level g
      return (s ++ s', g)) := by
  refine (nodes_got ok hm nodes hp hfit hg.toReady fun _ => hg.ws).bind ?_
  rintro ⟨s, g1⟩ h1
  have : Got (fun x => Ready I bl k x.2) (handleEnd I level g1) := by
    unfold handleEnd
    split
    · dsimp only
      split
      · exact ((h1.flushWs _).toReady.writeBuf).mono fun _ hx => hx.1
      · exact h1.writeBuf.mono fun _ hx => hx.1
    · exact got_ok h1
  refine this.bind ?_
  rintro ⟨s2, g2⟩ h2
  exact got_ok h2

end

theorem handle_got {I : GenInput} {H : Option Heritage} {ctx : Ctx} {bl : Option (Str × Nat)} (hm : MacrosParsed ctx) : (n : Nat) → RecGets I H ctx bl (insideOf I ctx n) (handle I n)
  | 0 => by
    intro nodes k g _ h _
    simp [insideOf, nodesFit] at h
  | n + 1 => by
    intro nodes k g hp hfit hg
    unfold handle
    exact handle_once (level := .nested) (handle_got hm n) hm hp (by simpa using hfit) hg

/-- The generator accepts a template that keeps the rules. -/
theorem generate_got {I : GenInput} {ctx : Ctx} (hm : MacrosParsed ctx) {n : Nat} (hn : n ≤ 29) (hp : ParsedList ctx.nodes)
    (hfit : nodesFit I.options ctx.macros n true ctx.nodes = true) : ∃ code, generate I n none ctx = .ok code := by
  cases n with
  | zero => simp [nodesFit] at hfit
  | succ n =>
    have h0 : Poised I none 2 (Gen.new I .empty 2 false) :=
      ⟨⟨by simp [Gen.new], rfl, rfl, rfl, fun h => by simp [Gen.new, h]⟩, rfl⟩
    obtain ⟨⟨s, g⟩, h1, h2⟩ := handle_once (H := none) (level := .top) (handle_got (I := I) hm n) hm hp (by simpa using hfit) h0
    have h1' : Gen.handle I (n + 1) none ctx ctx.nodes .top (Gen.new I .empty 2 false) = .ok (s, g) := by
      unfold handle
      exact h1
    unfold generate
    simp only [h1']
    have hfits := Gen.handle_shallow hn h1'
    refine ⟨s, ?_⟩
    show (if (!fitsList 2 s) = true then Except.error GErr.panic else _) = _
    rw [hfits]
    dsimp only at h2
    have hd := h2.dis
    have hi := h2.ind
    simp only [Gen.closeLine, Gen.dedent, hd, hi]
    rfl

end Askama
