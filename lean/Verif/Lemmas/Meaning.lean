import Verif.Lemmas.GenLoop
import Verif.Lemmas.Fuel
import Verif.Spec.Meaning

/-! Laws of `Makes`: what each kind of node renders to. -/

namespace Askama

open Spec

variable {U : Type} {W : World U} {I : GenInput}

theorem failsOr_some {α : Type} {a b : Option α} {x : α} (h : FailsOr a b) (ha : a = some x) : b = some x := by
  rcases h with h | h
  · rw [h] at ha; cases ha
  · rw [← h]; exact ha

theorem makes_at {p : Place U} {ns : List Node} {s : Str} {sig : Sig} {st : Store U} (h : Makes W I p ns s sig st) :
    ∃ f, ∀ m, f ≤ m → run W I m p.chain p.ctx p.sup p.before ns p.after p.store = some (some s, sig, st) := by
  obtain ⟨f, h⟩ := h
  exact ⟨f, fun m hm => failsOr_some (run_mono W I hm _ _ _ _ _ _ _) h⟩

/-- What is rendered is determined. -/
theorem makes_det {p : Place U} {ns : List Node} {s s' : Str} {sig sig' : Sig} {st st' : Store U}
    (h : Makes W I p ns s sig st) (h' : Makes W I p ns s' sig' st') : s = s' ∧ sig = sig' ∧ st = st' := by
  obtain ⟨f, h⟩ := makes_at h
  obtain ⟨f', h'⟩ := makes_at h'
  have := (h (max f f') (Nat.le_max_left _ _)).symm.trans (h' (max f f') (Nat.le_max_right _ _))
  cases this
  exact ⟨rfl, rfl, rfl⟩

theorem makes_run {p : Place U} {ns : List Node} {s : Str} {sig : Sig} {st : Store U} :
    Makes W I p ns s sig st
      ↔ ∃ f, runNodes W I (run W I f) p.chain p.ctx p.sup p.before ns p.after p.store = some (some s, sig, st) := by
  constructor
  · rintro ⟨f, h⟩
    cases f with
    | zero => cases h
    | succ f => exact ⟨f, h⟩
  · rintro ⟨f, h⟩
    exact ⟨f + 1, h⟩

theorem makes_nil {p : Place U} {s : Str} {sig : Sig} {st : Store U} :
    Makes W I p [] s sig st ↔ s = [] ∧ sig = .next ∧ st = p.store := by
  rw [makes_run]
  simp only [runNodes, silent, exists_const]
  constructor
  · intro h; cases h; exact ⟨rfl, rfl, rfl⟩
  · rintro ⟨rfl, rfl, rfl⟩; rfl

theorem oapp_nil (s : Option Str) : oapp s (some []) = s := by
  cases s <;> simp [oapp]

theorem oapp_some_iff {a b : Option Str} {s : Str} : oapp a b = some s ↔ ∃ x y, a = some x ∧ b = some y ∧ s = x ++ y := by
  cases a <;> cases b <;> simp [oapp, eq_comm]

theorem endSide_cons (I : GenInput) (before : WH) (n : Node) (ns : List Node) :
    endSide I before (n :: ns) = endSide I (sideOf I (rightMark n)) ns := by
  unfold endSide
  cases ns with
  | nil => rfl
  | cons m ns =>
    rw [List.getLast?_cons_cons]
    cases h : (m :: ns).getLast? with
    | none => simp at h
    | some x => rfl

theorem nextSide_append (I : GenInput) (a b : List Node) (after : Option WH) :
    nextSide I (a ++ b) after = nextSide I a (nextSide I b after) := by
  cases a <;> rfl

/-- Rendering of nodes in two parts. -/
theorem runNodes_append (rec : Render U) (chain : List Ctx) (ctx : Ctx) (sup : Option (Str × Nat)) (post : List Node)
    (after : Option WH) : (pre : List Node) → (before : WH) → (st : Store U) →
    runNodes W I rec chain ctx sup before (pre ++ post) after st
      = (runNodes W I rec chain ctx sup before pre (nextSide I post after) st).bind fun (s, sig, st') =>
          if sig = .next then
            (runNodes W I rec chain ctx sup (endSide I before pre) post after st').map fun (s', sig', st'') =>
              (oapp s s', sig', st'')
          else some (s, sig, st')
  | [], before, st => by
    have e : endSide I before [] = before := rfl
    simp only [List.nil_append, runNodes, silent, Option.bind_some, if_true, e]
    cases runNodes W I rec chain ctx sup before post after st with
    | none => rfl
    | some r => obtain ⟨s, sig, st'⟩ := r; simp [oapp]
  | n :: pre, before, st => by
    simp only [List.cons_append, runNodes]
    rw [nextSide_append]
    cases runNode W I rec chain ctx sup before (nextSide I pre (nextSide I post after)) st n with
    | none => rfl
    | some r =>
      obtain ⟨s, sig, st'⟩ := r
      simp only [Option.bind_some]
      by_cases hs : sig = .next
      · simp only [hs, if_true]
        rw [runNodes_append rec chain ctx sup post after pre, endSide_cons]
        cases runNodes W I rec chain ctx sup (sideOf I (rightMark n)) pre (nextSide I post after) st' with
        | none => rfl
        | some r' =>
          obtain ⟨s', sig', st''⟩ := r'
          simp only [Option.bind_some, Option.map_some]
          by_cases hs' : sig' = .next
          · simp only [hs', if_true]
            cases runNodes W I rec chain ctx sup (endSide I (sideOf I (rightMark n)) pre) post after st'' with
            | none => rfl
            | some r'' => obtain ⟨a, b, c⟩ := r''; simp [oapp_assoc]
          · simp [hs']
      · simp [hs]

theorem makes_append {p : Place U} {pre post : List Node} {s : Str} {sig : Sig} {st : Store U} :
    Makes W I p (pre ++ post) s sig st ↔
      (∃ a b st1, Makes W I (p.front I post) pre a .next st1 ∧ Makes W I (p.rear I pre st1) post b sig st ∧ s = a ++ b)
      ∨ (sig ≠ .next ∧ Makes W I (p.front I post) pre s sig st) := by
  constructor
  · intro h
    obtain ⟨f, h⟩ := makes_run.mp h
    rw [runNodes_append] at h
    cases h1 : runNodes W I (run W I f) p.chain p.ctx p.sup p.before pre (nextSide I post p.after) p.store with
    | none => rw [h1] at h; cases h
    | some r =>
      obtain ⟨a, sig1, st1⟩ := r
      rw [h1] at h
      simp only [Option.bind_some] at h
      by_cases hs : sig1 = .next
      · left
        subst hs
        simp only [if_true] at h
        cases h2 : runNodes W I (run W I f) p.chain p.ctx p.sup (endSide I p.before pre) post p.after st1 with
        | none => rw [h2] at h; cases h
        | some r' =>
          obtain ⟨b, sig2, st2⟩ := r'
          rw [h2] at h
          simp only [Option.map_some, Option.some.injEq, Prod.mk.injEq] at h
          obtain ⟨e, rfl, rfl⟩ := h
          obtain ⟨x, y, rfl, rfl, rfl⟩ := oapp_some_iff.mp e
          exact ⟨x, y, st1, makes_run.mpr ⟨f, h1⟩, makes_run.mpr ⟨f, h2⟩, rfl⟩
      · right
        simp only [hs, if_false] at h
        cases h
        exact ⟨hs, makes_run.mpr ⟨f, h1⟩⟩
  · rintro (⟨a, b, st1, h1, h2, rfl⟩ | ⟨hs, h1⟩)
    · obtain ⟨f1, h1⟩ := makes_at h1
      obtain ⟨f2, h2⟩ := makes_at h2
      have h1 := h1 (max f1 f2 + 1) (by omega)
      have h2 := h2 (max f1 f2 + 1) (by omega)
      refine makes_run.mpr ⟨max f1 f2, ?_⟩
      rw [runNodes_append]
      change runNodes W I (run W I (max f1 f2)) p.chain p.ctx p.sup p.before pre (nextSide I post p.after) p.store = _ at h1
      change runNodes W I (run W I (max f1 f2)) p.chain p.ctx p.sup (endSide I p.before pre) post p.after st1 = _ at h2
      rw [h1]
      simp only [Option.bind_some, if_true]
      rw [h2]
      rfl
    · obtain ⟨f, h1⟩ := makes_run.mp h1
      refine makes_run.mpr ⟨f, ?_⟩
      rw [runNodes_append]
      change runNodes W I (run W I f) p.chain p.ctx p.sup p.before pre (nextSide I post p.after) p.store = _ at h1
      rw [h1]
      simp [hs]

theorem runNodes_one (rec : Render U) (chain : List Ctx) (ctx : Ctx) (sup : Option (Str × Nat)) (before : WH) (n : Node)
    (after : Option WH) (st : Store U) :
    runNodes W I rec chain ctx sup before [n] after st = runNode W I rec chain ctx sup before after st n := by
  simp only [runNodes, silent, nextSide, Option.map_some]
  cases runNode W I rec chain ctx sup before after st n with
  | none => rfl
  | some r =>
    obtain ⟨s, sig, st'⟩ := r
    by_cases hs : sig = .next
    · simp [hs, oapp_nil]
    · simp [hs]

theorem makes_one {p : Place U} {n : Node} {s : Str} {sig : Sig} {st : Store U} :
    Makes W I p [n] s sig st
      ↔ ∃ f, runNode W I (run W I f) p.chain p.ctx p.sup p.before p.after p.store n = some (some s, sig, st) := by
  rw [makes_run]
  simp only [runNodes_one]

/-- A node in the middle of others that is not left early. -/
theorem makes_middle {p : Place U} {pre post : List Node} {n : Node} {s : Str} {sig : Sig} {st : Store U}
    (hpre : ∀ a sig st, Makes W I (p.front I (n :: post)) pre a sig st → sig = .next)
    (hn : ∀ st1 a sig st, Makes W I ((p.rear I pre st1).front I post) [n] a sig st → sig = .next) :
    Makes W I p (pre ++ n :: post) s sig st ↔
      ∃ a m b st1 st2, Makes W I (p.front I (n :: post)) pre a .next st1
        ∧ Makes W I ((p.rear I pre st1).front I post) [n] m .next st2
        ∧ Makes W I (p.rear I (pre ++ [n]) st2) post b sig st ∧ s = a ++ m ++ b := by
  have hside : ∀ st1 st2, (p.rear I pre st1).rear I [n] st2 = p.rear I (pre ++ [n]) st2 := by
    intro st1 st2
    simp [Place.rear, endSide]
  have key : ∀ st1 b, Makes W I (p.rear I pre st1) (n :: post) b sig st ↔
      ∃ m b' st2, Makes W I ((p.rear I pre st1).front I post) [n] m .next st2
        ∧ Makes W I (p.rear I (pre ++ [n]) st2) post b' sig st ∧ b = m ++ b' := by
    intro st1 b
    rw [show n :: post = [n] ++ post from rfl, makes_append]
    constructor
    · rintro (⟨a, b', st2, h1, h2, rfl⟩ | ⟨hs, h1⟩)
      · exact ⟨a, b', st2, h1, by rw [← hside st1]; exact h2, rfl⟩
      · exact absurd (hn _ _ _ _ h1) hs
    · rintro ⟨m, b', st2, h1, h2, rfl⟩
      exact .inl ⟨m, b', st2, h1, by rw [hside st1]; exact h2, rfl⟩
  rw [makes_append]
  constructor
  · rintro (⟨a, b, st1, h1, h2, rfl⟩ | ⟨hs, h1⟩)
    · obtain ⟨m, b', st2, h3, h4, rfl⟩ := (key st1 b).mp h2
      exact ⟨a, m, b', st1, st2, h1, h3, h4, by rw [List.append_assoc]⟩
    · exact absurd (hpre _ _ _ h1) hs
  · rintro ⟨a, m, b, st1, st2, h1, h2, h3, rfl⟩
    exact .inl ⟨a, m ++ b, st1, h1, (key st1 _).mpr ⟨m, b, st2, h2, h3, rfl⟩, by rw [List.append_assoc]⟩

/-! ## Conditionals -/

theorem condAfter_eq (rest : List Cond) (ws : Ws) :
    condAfter I rest ws = sideOf I ((rest.head?.map Cond.tag).getD ws).l := by
  cases rest with
  | nil => rfl
  | cons c rest => obtain ⟨w, c, ns⟩ := c; rfl

theorem whenAfter_eq (rest : List When) (ws : Ws) :
    whenAfter I rest ws = sideOf I ((rest.head?.map When.tag).getD ws).l := by
  cases rest with
  | nil => rfl
  | cons c rest => obtain ⟨w, c, ns⟩ := c; rfl

/-- An `if`, with the part of the branches that is left. -/
theorem runIf_iff {p : Place U} {ws : Ws} {s : Str} {sig : Sig} {st' : Store U} : (bs : List Cond) →
    ((∃ f, runIf W I (run W I f p.chain p.ctx p.sup) ws p.store bs = some (some s, sig, st')) ↔
      (∃ pre b post st1 st2, bs = pre ++ b :: post ∧ (∀ c ∈ pre, HoldsNot W I p.store c.test)
        ∧ Holds W I p.store b.test st1
        ∧ Makes W I (p.inside (sideOf I b.tag.r) (sideOf I ((post.head?.map Cond.tag).getD ws).l) st1) b.body s sig st2
        ∧ st' = p.store.leave st2)
      ∨ ((∀ c ∈ bs, HoldsNot W I p.store c.test) ∧ s = [] ∧ sig = .next ∧ st' = p.store))
  | [] => by
    simp only [runIf, silent, exists_const]
    constructor
    · intro h; cases h; exact .inr ⟨by simp, rfl, rfl, rfl⟩
    · rintro (⟨pre, b, post, _, _, h, _⟩ | ⟨_, rfl, rfl, rfl⟩)
      · cases pre <;> cases h
      · rfl
  | .mk w cond nodes :: rest => by
    simp only [runIf]
    cases hc : runCond W I p.store cond with
    | none =>
      simp only [Option.bind_none, reduceCtorEq, exists_const, false_iff, not_or]
      constructor
      · rintro ⟨pre, b, post, st1, st2, h, hn, hh, -⟩
        cases pre with
        | nil => cases h; rw [Holds, show (Cond.mk w cond nodes).test = cond from rfl, hc] at hh; cases hh
        | cons c pre =>
          cases h
          have := hn (.mk w cond nodes) List.mem_cons_self
          rw [HoldsNot, show (Cond.mk w cond nodes).test = cond from rfl, hc] at this; cases this
      · rintro ⟨hn, -⟩
        have := hn (.mk w cond nodes) List.mem_cons_self
        rw [HoldsNot, show (Cond.mk w cond nodes).test = cond from rfl, hc] at this; cases this
    | some o =>
      simp only [Option.bind_some]
      cases o with
      | none =>
        simp only
        rw [runIf_iff rest]
        refine or_congr ?_ ?_
        · constructor
          · rintro ⟨pre, b, post, st1, st2, rfl, hn, hrest⟩
            refine ⟨.mk w cond nodes :: pre, b, post, st1, st2, rfl, ?_, hrest⟩
            intro c hcm
            cases List.mem_cons.mp hcm with
            | inl e => subst e; exact hc
            | inr e => exact hn c e
          · rintro ⟨pre, b, post, st1, st2, h, hn, hh, hrest⟩
            cases pre with
            | nil => cases h; rw [Holds, show (Cond.mk w cond nodes).test = cond from rfl, hc] at hh; cases hh
            | cons c pre =>
              cases h
              exact ⟨pre, b, post, st1, st2, rfl, fun c hcm => hn c (List.mem_cons_of_mem _ hcm), hh, hrest⟩
        · refine and_congr ?_ Iff.rfl
          constructor
          · intro h c hcm
            cases List.mem_cons.mp hcm with
            | inl e => subst e; exact hc
            | inr e => exact h c e
          · exact fun h c hcm => h c (List.mem_cons_of_mem _ hcm)
      | some st1 =>
        simp only
        constructor
        · rintro ⟨f, h⟩
          left
          cases hr : run W I f p.chain p.ctx p.sup (sideOf I w.r) nodes (some (condAfter I rest ws)) st1 with
          | none => rw [hr] at h; cases h
          | some r =>
            obtain ⟨s1, sig1, st2⟩ := r
            rw [hr] at h
            simp only [Option.map_some, Option.some.injEq, Prod.mk.injEq] at h
            obtain ⟨rfl, rfl, rfl⟩ := h
            refine ⟨[], .mk w cond nodes, rest, st1, st2, rfl, by simp, hc, ⟨f, ?_⟩, rfl⟩
            rw [condAfter_eq] at hr
            exact hr
        · rintro (⟨pre, b, post, st1', st2, h, hn, hh, ⟨f, hm⟩, rfl⟩ | ⟨hn, -⟩)
          · cases pre with
            | nil =>
              cases h
              rw [Holds, show (Cond.mk w cond nodes).test = cond from rfl, hc] at hh
              cases hh
              refine ⟨f, ?_⟩
              rw [condAfter_eq]
              change run W I f p.chain p.ctx p.sup (sideOf I w.r) nodes
                (some (sideOf I ((rest.head?.map Cond.tag).getD ws).l)) st1 = _ at hm
              rw [hm]
              rfl
            | cons c pre =>
              cases h
              have := hn (.mk w cond nodes) List.mem_cons_self
              rw [HoldsNot, show (Cond.mk w cond nodes).test = cond from rfl, hc] at this; cases this
          · have := hn (.mk w cond nodes) List.mem_cons_self
            rw [HoldsNot, show (Cond.mk w cond nodes).test = cond from rfl, hc] at this; cases this

/-- A `match`, with the part of the arms that is left. -/
theorem runMatch_iff {p : Place U} {ws : Ws} {v : Val U} {s : Str} {sig : Sig} {st' : Store U} : (arms : List When) →
    ((∃ f, runMatch W I (run W I f p.chain p.ctx p.sup) ws p.store v arms = some (some s, sig, st')) ↔
      ∃ pre b post vs st2, arms = pre ++ b :: post ∧ (∀ c ∈ pre, patMatch W c.pat v = none)
        ∧ patMatch W b.pat v = some vs
        ∧ Makes W I (p.inside (sideOf I b.tag.r) (sideOf I ((post.head?.map When.tag).getD ws).l)
            (p.store.declare (b.pat.bound W) vs true)) b.body s sig st2
        ∧ st' = p.store.leave st2)
  | [] => by
    simp only [runMatch, reduceCtorEq, exists_const, false_iff]
    rintro ⟨pre, b, post, _, _, h, _⟩
    cases pre <;> cases h
  | .mk w t nodes :: rest => by
    simp only [runMatch]
    cases hc : patMatch W t v with
    | none =>
      simp only
      rw [runMatch_iff rest]
      constructor
      · rintro ⟨pre, b, post, st1, st2, rfl, hn, hrest⟩
        refine ⟨.mk w t nodes :: pre, b, post, st1, st2, rfl, ?_, hrest⟩
        intro c hcm
        cases List.mem_cons.mp hcm with
        | inl e => subst e; exact hc
        | inr e => exact hn c e
      · rintro ⟨pre, b, post, st1, st2, h, hn, hh, hrest⟩
        cases pre with
        | nil => cases h; rw [show (When.mk w t nodes).pat = t from rfl, hc] at hh; cases hh
        | cons c pre =>
          cases h
          exact ⟨pre, b, post, st1, st2, rfl, fun c hcm => hn c (List.mem_cons_of_mem _ hcm), hh, hrest⟩
    | some vs =>
      simp only
      constructor
      · rintro ⟨f, h⟩
        cases hr : run W I f p.chain p.ctx p.sup (sideOf I w.r) nodes (some (whenAfter I rest ws))
            (p.store.declare (t.bound W) vs true) with
        | none => rw [hr] at h; cases h
        | some r =>
          obtain ⟨s1, sig1, st2⟩ := r
          rw [hr] at h
          simp only [Option.map_some, Option.some.injEq, Prod.mk.injEq] at h
          obtain ⟨rfl, rfl, rfl⟩ := h
          refine ⟨[], .mk w t nodes, rest, vs, st2, rfl, by simp, hc, ⟨f, ?_⟩, rfl⟩
          rw [whenAfter_eq] at hr
          exact hr
      · rintro ⟨pre, b, post, vs', st2, h, hn, hh, ⟨f, hm⟩, rfl⟩
        cases pre with
        | nil =>
          cases h
          rw [show (When.mk w t nodes).pat = t from rfl, hc] at hh
          cases hh
          refine ⟨f, ?_⟩
          rw [whenAfter_eq]
          change run W I f p.chain p.ctx p.sup (sideOf I w.r) nodes (some (sideOf I ((rest.head?.map When.tag).getD ws).l))
            (p.store.declare (t.bound W) vs true) = _ at hm
          rw [hm]
          rfl
        | cons c pre =>
          cases h
          have := hn (.mk w t nodes) List.mem_cons_self
          rw [show (When.mk w t nodes).pat = t from rfl, hc] at this; cases this

/-! ## Loops -/

theorem keepItems_iff {st : Store U} {t : Target} {c : Expr} : (all kept : List (Val U)) →
    (keepItems W I st t c all = some kept ↔ Kept W I st t (some c) all kept)
  | [], kept => by
    simp only [keepItems, Kept, List.filter_nil, List.not_mem_nil, false_implies, implies_true, and_true, exists_const,
      Option.some.injEq]
    constructor
    · intro h; exact h.symm
    · intro h; exact h.symm
  | v :: vs, kept => by
    simp only [keepItems]
    constructor
    · intro h
      cases hp : patMatch W t v with
      | none => rw [hp] at h; cases h
      | some ws =>
        rw [hp] at h
        simp only [Option.bind_some] at h
        cases hb : (evalE W I (st.declare (t.bound W) ws true) none c).bind W.truthy with
        | none => rw [hb] at h; cases h
        | some b =>
          rw [hb] at h
          simp only [Option.bind_some] at h
          cases hk : keepItems W I st t c vs with
          | none => rw [hk] at h; cases h
          | some rest =>
            rw [hk] at h
            simp only [Option.map_some, Option.some.injEq] at h
            obtain ⟨passes, e, hall⟩ := (keepItems_iff vs rest).mp hk
            -- the answer for an item depends on the item only
            classical
            refine ⟨fun x => if x = v then b else passes x, ?_, ?_⟩
            · have hrest : vs.filter (fun x => if x = v then b else passes x) = rest := by
                rw [e]
                refine List.filter_congr fun x hx => ?_
                by_cases hxv : x = v
                · subst hxv
                  obtain ⟨ws', h1, h2⟩ := hall x hx
                  rw [hp] at h1; cases h1
                  rw [hb] at h2; cases h2
                  simp
                · simp [hxv]
              rw [List.filter_cons, hrest, ← h]
              simp
            · intro x hx
              by_cases hxv : x = v
              · subst hxv
                exact ⟨ws, hp, by simpa using hb⟩
              · simp only [hxv, if_false]
                cases List.mem_cons.mp hx with
                | inl e => exact absurd e hxv
                | inr e => exact hall x e
    · rintro ⟨passes, rfl, hall⟩
      obtain ⟨ws, h1, h2⟩ := hall v List.mem_cons_self
      rw [h1]
      simp only [Option.bind_some]
      rw [h2]
      simp only [Option.bind_some]
      rw [(keepItems_iff vs (vs.filter passes)).mpr ⟨passes, rfl, fun x hx => hall x (List.mem_cons_of_mem _ hx)⟩]
      simp [List.filter_cons]

section
variable {t : Target} {body : Store U → Str → Sig → Store U → Prop}

theorem rounds_nil {i : Nat} {st st' : Store U} {rs : List (Round U)} :
    Rounds W t body i [] st rs st' ↔ rs = [] ∧ st' = st := by
  constructor
  · intro h
    have : rs = [] := by simpa using h.items
    subst this
    exact ⟨rfl, h.last.symm⟩
  · rintro ⟨rfl, rfl⟩
    exact ⟨by simp, by simp, by simp, by simp, rfl, by simp, rfl⟩

theorem rounds_cons {i : Nat} {v : Val U} {vs : List (Val U)} {st st' : Store U} {rs : List (Round U)} :
    Rounds W t body i (v :: vs) st rs st' ↔ ∃ ws x sig st1 rs', rs = ⟨v, x, sig, st, st.leave st1⟩ :: rs'
      ∧ patMatch W t v = some ws
      ∧ body { st.declare (t.bound W) ws true with item := some ⟨i, i == 0, vs.isEmpty⟩ } x sig st1
      ∧ (sig = .brk ∧ rs' = [] ∧ st' = st.leave st1 ∨ sig ≠ .brk ∧ Rounds W t body (i + 1) vs (st.leave st1) rs' st') := by
  have hlen : (0 + 1 == (v :: vs).length) = vs.isEmpty := by cases vs <;> simp
  constructor
  · intro h
    cases rs with
    | nil =>
      obtain ⟨r, hr, -⟩ := h.goes (by simp)
      simp at hr
    | cons r rs =>
      obtain ⟨ws, st1, h1, h2, h3⟩ := h.each 0 r rfl
      have hst : r.start = st := by simpa using h.first
      have hitem : r.item = v := by
        have := h.items
        rw [List.map_cons, List.cons_prefix_cons] at this
        exact this.1
      obtain ⟨item, text, sig, start, stop⟩ := r
      subst hst hitem
      dsimp only at h1 h2 h3
      subst h3
      rw [Nat.add_zero, hlen] at h2
      refine ⟨ws, text, sig, st1, rs, rfl, h1, h2, ?_⟩
      by_cases hs : sig = .brk
      · left
        have := h.stops 0 _ rfl hs
        have hrs : rs = [] := by simpa using this
        subst hrs
        exact ⟨hs, rfl, h.last.symm⟩
      · right
        refine ⟨hs, ⟨?_, ?_, ?_, ?_, ?_, ?_, ?_⟩⟩
        · have := h.items
          rw [List.map_cons, List.cons_prefix_cons] at this
          exact this.2
        · intro j r hj
          obtain ⟨ws', st1', e1, e2, e3⟩ := h.each (j + 1) r hj
          refine ⟨ws', st1', e1, ?_, e3⟩
          have a1 : i + (j + 1) = i + 1 + j := by omega
          have a2 : (j + 1 + 1 == (item :: vs).length) = (j + 1 == vs.length) := by simp
          rw [a1, a2] at e2
          exact e2
        · intro j r hj hb
          have := h.stops (j + 1) r hj hb
          simpa using this
        · intro hl
          obtain ⟨r, hr, hb⟩ := h.goes (by simpa using hl)
          cases rs with
          | nil =>
            simp at hr
            subst hr
            exact absurd hb hs
          | cons r' rs => exact ⟨r, by rwa [List.getLast?_cons_cons] at hr, hb⟩
        · cases rs with
          | nil => exact h.last.symm
          | cons r' rs => exact h.link 0 _ r' rfl rfl
        · intro j r r' h1 h2
          exact h.link (j + 1) r r' h1 h2
        · cases rs with
          | nil => exact h.last
          | cons r' rs =>
            have := h.last
            rw [List.getLast?_cons_cons] at this
            cases hr : (r' :: rs).getLast? with
            | none => simp at hr
            | some x => rw [hr] at this; simpa using this
  · rintro ⟨ws, x, sig, st1, rs', rfl, h1, h2, h3⟩
    rcases h3 with ⟨hs, rfl, rfl⟩ | ⟨hs, h⟩
    · refine ⟨by simp, ?_, ?_, ?_, rfl, ?_, rfl⟩
      · intro j r hj
        cases j with
        | succ j => cases hj
        | zero =>
          cases hj
          refine ⟨ws, st1, h1, ?_, rfl⟩
          rw [Nat.add_zero, hlen]
          exact h2
      · intro j r hj _
        cases j with
        | succ j => cases hj
        | zero => rfl
      · exact fun _ => ⟨_, rfl, hs⟩
      · intro j r r' _ h2
        cases h2
    · refine ⟨?_, ?_, ?_, ?_, rfl, ?_, ?_⟩
      · rw [List.map_cons, List.cons_prefix_cons]
        exact ⟨rfl, h.items⟩
      · intro j r hj
        cases j with
        | zero =>
          cases hj
          refine ⟨ws, st1, h1, ?_, rfl⟩
          rw [Nat.add_zero, hlen]
          exact h2
        | succ j =>
          obtain ⟨ws', st1', e1, e2, e3⟩ := h.each j r hj
          refine ⟨ws', st1', e1, ?_, e3⟩
          have a1 : i + (j + 1) = i + 1 + j := by omega
          have a2 : (j + 1 + 1 == (v :: vs).length) = (j + 1 == vs.length) := by simp
          rw [a1, a2]
          exact e2
      · intro j r hj hb
        cases j with
        | zero => cases hj; exact absurd hb hs
        | succ j => simpa using h.stops j r hj hb
      · intro hl
        obtain ⟨r, hr, hb⟩ := h.goes (by simpa using hl)
        cases rs' with
        | nil => simp at hr
        | cons r' rs => exact ⟨r, by rwa [List.getLast?_cons_cons], hb⟩
      · intro j r r' h1 h2
        cases j with
        | zero =>
          cases h1
          cases rs' with
          | nil => cases h2
          | cons r2 rs => cases h2; exact h.first
        | succ j => exact h.link j r r' h1 h2
      · cases rs' with
        | nil => exact h.last
        | cons r' rs =>
          rw [List.getLast?_cons_cons]
          have := h.last
          cases hr : (r' :: rs).getLast? with
          | none => simp at hr
          | some x => rw [hr] at this; simpa using this

end

theorem runItems_iff {p : Place U} {t : Target} {b a : WH} {nodes : List Node} : (vs : List (Val U)) → {i : Nat} →
    {st : Store U} → {s : Str} → {st' : Store U} →
    ((∃ f, runItems W t (run W I f p.chain p.ctx p.sup b nodes (some a)) vs i st = some (some s, st')) ↔
      ∃ rs, Rounds W t (fun st => Makes W I (p.inside b a st) nodes) i vs st rs st' ∧ s = (rs.map (·.text)).flatten)
  | [], i, st, s, st' => by
    simp only [runItems, exists_const, Option.some.injEq, Prod.mk.injEq, rounds_nil]
    constructor
    · rintro ⟨rfl, rfl⟩; exact ⟨[], ⟨rfl, rfl⟩, rfl⟩
    · rintro ⟨rs, ⟨rfl, rfl⟩, rfl⟩; exact ⟨rfl, rfl⟩
  | v :: vs, i, st, s, st' => by
    simp only [rounds_cons]
    constructor
    · rintro ⟨f, h⟩
      simp only [runItems] at h
      cases hp : patMatch W t v with
      | none => rw [hp] at h; cases h
      | some ws =>
        rw [hp] at h
        simp only [Option.bind_some] at h
        cases hb : run W I f p.chain p.ctx p.sup b nodes (some a)
            { st.declare (t.bound W) ws true with item := some { index := i, first := i == 0, last := vs.isEmpty } } with
        | none => rw [hb] at h; cases h
        | some r =>
          obtain ⟨x, sig, st1⟩ := r
          rw [hb] at h
          simp only [Option.bind_some] at h
          by_cases hs : sig = .brk
          · simp only [hs, if_true, Option.some.injEq, Prod.mk.injEq] at h
            obtain ⟨rfl, rfl⟩ := h
            exact ⟨_, ⟨ws, s, sig, st1, [], rfl, rfl, ⟨f, hb⟩, .inl ⟨hs, rfl, rfl⟩⟩, by simp⟩
          · simp only [hs, if_false] at h
            cases hi : runItems W t (run W I f p.chain p.ctx p.sup b nodes (some a)) vs (i + 1) (st.leave st1) with
            | none => rw [hi] at h; cases h
            | some r =>
              obtain ⟨y, st2⟩ := r
              rw [hi] at h
              simp only [Option.map_some, Option.some.injEq, Prod.mk.injEq] at h
              obtain ⟨e, rfl⟩ := h
              obtain ⟨x', y', rfl, rfl, rfl⟩ := oapp_some_iff.mp e
              obtain ⟨rs, hrs, rfl⟩ := (runItems_iff vs).mp ⟨f, hi⟩
              exact ⟨_, ⟨ws, x', sig, st1, rs, rfl, rfl, ⟨f, hb⟩, .inr ⟨hs, hrs⟩⟩, by simp⟩
    · rintro ⟨rs, ⟨ws, x, sig, st1, rs', rfl, hp, hb, h3⟩, rfl⟩
      obtain ⟨f1, hb⟩ := makes_at hb
      rcases h3 with ⟨hs, rfl, rfl⟩ | ⟨hs, h⟩
      · have hb := hb f1 (Nat.le_refl _)
        refine ⟨f1, ?_⟩
        simp only [runItems, hp, Option.bind_some]
        change run W I f1 p.chain p.ctx p.sup b nodes (some a) _ = _ at hb
        dsimp only [Place.inside] at hb
        rw [hb]
        simp [hs]
      · obtain ⟨f2, hi⟩ := (runItems_iff vs).mpr ⟨rs', h, rfl⟩
        have hb := hb (max f1 f2) (Nat.le_max_left _ _)
        have hi := failsOr_some (runItems_extends (fun st => run_mono W I (Nat.le_max_right f1 f2) _ _ _ _ _ _ st) _ _ _) hi
        refine ⟨max f1 f2, ?_⟩
        simp only [runItems, hp, Option.bind_some]
        dsimp only [Place.inside] at hb
        rw [hb]
        simp only [Option.bind_some, hs, if_false]
        rw [hi]
        simp [oapp]

/-- A loop, once its items are known. -/
theorem runLoop_iff {p : Place U} {ws1 : Ws} {t : Target} {body : List Node} {ws2 : Ws} {els : List Node} {ws3 : Ws}
    {kept : List (Val U)} {s : Str} {sig : Sig} {st' : Store U} :
    (∃ f, (if kept.isEmpty then
            if els.isEmpty then silent p.store
            else (run W I f p.chain p.ctx p.sup (sideOf I ws2.r) els (some (sideOf I ws3.l)) p.store).map
              fun (s, sig, st') => (s, sig, p.store.leave st')
          else (runItems W t (run W I f p.chain p.ctx p.sup (sideOf I ws1.r) body (some (sideOf I ws2.l))) kept 0 p.store).map
            fun (s, st') => (s, .next, st')) = some (some s, sig, st')) ↔
      (kept = [] ∧ (∃ st1, Makes W I (p.inside (sideOf I ws2.r) (sideOf I ws3.l) p.store) els s sig st1
              ∧ st' = p.store.leave st1)
          ∨ kept ≠ [] ∧ sig = .next ∧ ∃ rs,
              Rounds W t (fun st => Makes W I (p.inside (sideOf I ws1.r) (sideOf I ws2.l) st) body) 0 kept p.store rs st'
              ∧ s = (rs.map (·.text)).flatten) := by
  cases kept with
  | nil =>
    simp only [List.isEmpty_nil, if_true, true_and, ne_eq, not_true_eq_false, false_and, or_false]
    cases els with
    | nil =>
      simp only [List.isEmpty_nil, if_true, silent, exists_const, makes_nil]
      constructor
      · intro h; cases h
        exact ⟨p.store, ⟨rfl, rfl, rfl⟩, (leave_self _).symm⟩
      · rintro ⟨_, ⟨rfl, rfl, rfl⟩, rfl⟩
        show some (some [], Sig.next, p.store) = some (some [], Sig.next, p.store.leave p.store)
        rw [leave_self]
    | cons n els =>
      simp only [List.isEmpty_cons, Bool.false_eq_true, if_false]
      constructor
      · rintro ⟨f, h⟩
        cases hr : run W I f p.chain p.ctx p.sup (sideOf I ws2.r) (n :: els) (some (sideOf I ws3.l)) p.store with
        | none => rw [hr] at h; cases h
        | some r =>
          obtain ⟨a, b, c⟩ := r
          rw [hr] at h
          simp only [Option.map_some, Option.some.injEq, Prod.mk.injEq] at h
          obtain ⟨rfl, rfl, rfl⟩ := h
          exact ⟨c, ⟨f, hr⟩, rfl⟩
      · rintro ⟨c, ⟨f, h⟩, rfl⟩
        refine ⟨f, ?_⟩
        dsimp only [Place.inside] at h
        rw [h]
        rfl
  | cons k kept =>
    simp only [List.isEmpty_cons, Bool.false_eq_true, if_false, reduceCtorEq, false_and, false_or, ne_eq,
      not_false_eq_true, true_and]
    rw [← runItems_iff]
    constructor
    · rintro ⟨f, h⟩
      cases hr : runItems W t (run W I f p.chain p.ctx p.sup (sideOf I ws1.r) body (some (sideOf I ws2.l)))
          (k :: kept) 0 p.store with
      | none => rw [hr] at h; cases h
      | some r =>
        obtain ⟨a, b⟩ := r
        rw [hr] at h
        simp only [Option.map_some, Option.some.injEq, Prod.mk.injEq] at h
        obtain ⟨rfl, rfl, rfl⟩ := h
        exact ⟨rfl, f, hr⟩
    · rintro ⟨rfl, f, h⟩
      exact ⟨f, by rw [h]; rfl⟩

theorem makes_loop {p : Place U} {ws1 : Ws} {t : Target} {iter : Expr} {cond : Option Expr} {body : List Node} {ws2 : Ws}
    {els : List Node} {ws3 : Ws} {s : Str} {sig : Sig} {st' : Store U} :
    Makes W I p [.loop ws1 t iter cond body ws2 els ws3] s sig st'
      ↔ LoopMakes W I p ws1 t iter cond body ws2 els ws3 s sig st' := by
  unfold LoopMakes
  rw [makes_one]
  simp only [runNode, runLoop]
  cases he : evalE W I p.store none iter with
  | none => simp
  | some v =>
    cases hi : W.iter v with
    | none => simp [hi]
    | some all =>
      simp only [Option.bind_some, hi]
      cases cond with
      | none =>
        simp only [Option.bind_some, Kept]
        rw [runLoop_iff]
        constructor
        · exact fun h => ⟨v, all, all, rfl, hi, rfl, h⟩
        · rintro ⟨v', all', kept', h1, h2, rfl, h4⟩
          cases h1
          rw [hi] at h2; cases h2
          exact h4
      | some c =>
        cases hk : keepItems W I p.store t c all with
        | none =>
          simp only [hk, Option.bind_none, reduceCtorEq, exists_const, false_iff]
          rintro ⟨v', all', kept, h1, h2, h3, -⟩
          cases h1
          rw [hi] at h2; cases h2
          rw [(keepItems_iff all kept).mpr h3] at hk
          cases hk
        | some kept =>
          simp only [hk, Option.bind_some]
          rw [runLoop_iff]
          constructor
          · exact fun h => ⟨v, all, kept, rfl, hi, (keepItems_iff all kept).mp hk, h⟩
          · rintro ⟨v', all', kept', h1, h2, h3, h4⟩
            cases h1
            rw [hi] at h2; cases h2
            rw [(keepItems_iff all kept').mpr h3] at hk
            cases hk
            exact h4

theorem makes_if {p : Place U} {ws : Ws} {bs : List Cond} {s : Str} {sig : Sig} {st' : Store U} :
    Makes W I p [.if_ ws bs] s sig st' ↔ IfMakes W I p ws bs s sig st' := by
  rw [makes_one]
  exact runIf_iff bs

theorem makes_match {p : Place U} {ws1 ws2 : Ws} {e : Expr} {arms : List When} {s : Str} {sig : Sig} {st' : Store U} :
    Makes W I p [.match_ ws1 e arms ws2] s sig st' ↔ MatchMakes W I p e arms ws2 s sig st' := by
  rw [makes_one]
  unfold MatchMakes
  simp only [runNode]
  cases he : evalE W I p.store none e with
  | none => simp
  | some v =>
    simp only [Option.bind_some, Option.some.injEq, exists_and_left, exists_eq_left']
    rw [runMatch_iff]
    simp only [exists_and_left]

/-- Nodes in order, not left early. -/
theorem makes_split {p : Place U} {pre post : List Node} {n : Node} {s : Str} {st : Store U} :
    Makes W I p (pre ++ n :: post) s .next st ↔
      ∃ a m b st1 st2, Makes W I (p.front I (n :: post)) pre a .next st1
        ∧ Makes W I ((p.rear I pre st1).front I post) [n] m .next st2
        ∧ Makes W I (p.rear I (pre ++ [n]) st2) post b .next st ∧ s = a ++ m ++ b := by
  have hside : ∀ st1 st2, (p.rear I pre st1).rear I [n] st2 = p.rear I (pre ++ [n]) st2 := by
    intro st1 st2
    simp [Place.rear, endSide]
  rw [makes_append]
  simp only [ne_eq, not_true_eq_false, false_and, or_false]
  constructor
  · rintro ⟨a, b, st1, h1, h2, rfl⟩
    rw [show n :: post = [n] ++ post from rfl, makes_append] at h2
    rcases h2 with ⟨m, b', st2, h2, h3, rfl⟩ | ⟨h, -⟩
    · rw [hside] at h3
      exact ⟨a, m, b', st1, st2, h1, h2, h3, by rw [List.append_assoc]⟩
    · exact absurd rfl h
  · rintro ⟨a, m, b, st1, st2, h1, h2, h3, rfl⟩
    refine ⟨a, m ++ b, st1, h1, ?_, by rw [List.append_assoc]⟩
    rw [show n :: post = [n] ++ post from rfl, makes_append]
    rw [← hside st1 st2] at h3
    exact .inl ⟨m, b, st2, h2, h3, rfl⟩

theorem defines_zero_skip {x : Ctx} {rest : List Ctx} {name : Str} {k : Nat} {c : Ctx} {d : BlockDefn}
    (hx : assoc x.blocks name = none) : Defines (x :: rest) name k c d ↔ Defines rest name k c d := by
  constructor
  · rintro ⟨nearer, farther, h1, h2, h3⟩
    cases nearer with
    | nil =>
      cases h1
      rw [hx] at h3; cases h3
    | cons y nearer =>
      cases h1
      rw [List.filter_cons_of_neg (by simp [hx])] at h2
      exact ⟨nearer, farther, rfl, h2, h3⟩
  · rintro ⟨nearer, farther, rfl, h2, h3⟩
    exact ⟨x :: nearer, farther, rfl, by rw [List.filter_cons_of_neg (by simp [hx])]; exact h2, h3⟩

theorem blockDefs_iff {name : Str} {c : Ctx} {d : BlockDefn} : (chain : List Ctx) → {k : Nat} →
    ((blockDefs chain name)[k]? = some (c, d) ↔ Defines chain name k c d)
  | [], k => by
    simp only [blockDefs, List.filterMap_nil, List.getElem?_nil, reduceCtorEq, false_iff]
    rintro ⟨nearer, farther, h, -⟩
    simp at h
  | x :: rest, k => by
    cases hx : assoc x.blocks name with
    | none =>
      rw [defines_zero_skip hx, ← blockDefs_iff rest]
      unfold blockDefs
      rw [List.filterMap_cons_none (by simp [hx])]
    | some dx =>
      have e : blockDefs (x :: rest) name = (x, dx) :: blockDefs rest name := by
        unfold blockDefs
        rw [List.filterMap_cons_some (b := (x, dx)) (by simp [hx])]
      rw [e]
      cases k with
      | zero =>
        simp only [List.getElem?_cons_zero, Option.some.injEq, Prod.mk.injEq]
        constructor
        · rintro ⟨rfl, rfl⟩
          exact ⟨[], rest, rfl, rfl, hx⟩
        · rintro ⟨nearer, farther, h1, h2, h3⟩
          cases nearer with
          | nil => cases h1; rw [hx] at h3; cases h3; exact ⟨rfl, rfl⟩
          | cons y nearer =>
            cases h1
            rw [List.filter_cons_of_pos (by simp [hx])] at h2
            cases h2
      | succ k =>
        rw [List.getElem?_cons_succ, blockDefs_iff rest]
        constructor
        · rintro ⟨nearer, farther, rfl, h2, h3⟩
          exact ⟨x :: nearer, farther, rfl, by
            rw [List.filter_cons_of_pos (by simp [hx]), List.length_cons, h2], h3⟩
        · rintro ⟨nearer, farther, h1, h2, h3⟩
          cases nearer with
          | nil => cases h2
          | cons y nearer =>
            cases h1
            rw [List.filter_cons_of_pos (by simp [hx]), List.length_cons] at h2
            exact ⟨nearer, farther, rfl, Nat.succ.inj h2, h3⟩

theorem runBlock_iff {p : Place U} {name : Str} {k : Nat} {s : Str} {sig : Sig} {st' : Store U} :
    (∃ f, runBlock I (run W I f) p.chain p.ctx p.store name k = some (some s, sig, st'))
      ↔ BlockMakes W I p name k s sig st' := by
  unfold BlockMakes
  constructor
  · rintro ⟨f, h⟩
    unfold runBlock at h
    cases hd : (blockDefs p.chain name)[k]? with
    | none => rw [hd] at h; cases h
    | some cd =>
      obtain ⟨c, d⟩ := cd
      rw [hd] at h
      obtain ⟨⟨s1, sig1, st1⟩, h1, h2⟩ := Option.map_eq_some_iff.mp h
      cases h2
      exact ⟨c, d, st1, (blockDefs_iff _).mp hd, ⟨f, h1⟩, rfl⟩
  · rintro ⟨c, d, st1, h1, ⟨f, h2⟩, rfl⟩
    refine ⟨f, ?_⟩
    unfold runBlock
    rw [(blockDefs_iff _).mpr h1]
    dsimp only [Place.inBlock] at h2
    dsimp only
    rw [h2]
    rfl

theorem makes_block {p : Place U} {ws1 ws2 : Ws} {name : Str} {nodes : List Node} {s : Str} {sig : Sig} {st' : Store U} :
    Makes W I p [.blockDef ws1 name nodes ws2] s sig st' ↔ BlockMakes W I p name 0 s sig st' := by
  rw [makes_one]
  exact runBlock_iff

theorem makes_super {p : Place U} {ws : Ws} {scope : Option Str} {args : List Expr} {s : Str} {sig : Sig}
    {st' : Store U} :
    Makes W I p [.call ws scope c!"super" args] s sig st'
      ↔ ∃ name k, p.sup = some (name, k) ∧ BlockMakes W I p name (k + 1) s sig st' := by
  rw [makes_one]
  simp only [runNode, if_true]
  cases hp : p.sup with
  | none => simp
  | some nk =>
    obtain ⟨name, k⟩ := nk
    simp only [Option.some.injEq, Prod.mk.injEq]
    rw [runBlock_iff]
    constructor
    · exact fun h => ⟨name, k, ⟨rfl, rfl⟩, h⟩
    · rintro ⟨_, _, ⟨rfl, rfl⟩, h⟩; exact h

theorem makes_include {p : Place U} {ws : Ws} {path : Str} {s : Str} {sig : Sig} {st' : Store U} :
    Makes W I p [.include ws path] s sig st' ↔ IncludeMakes W I p path s sig st' := by
  rw [makes_one]
  unfold IncludeMakes
  constructor
  · rintro ⟨f, h⟩
    simp only [runNode, runInclude, Option.bind_eq_some_iff] at h
    obtain ⟨q, h1, c, h2, chain, h3, h4⟩ := h
    obtain ⟨⟨s1, sig1, st1⟩, h5, h6⟩ := Option.map_eq_some_iff.mp h4
    cases h6
    exact ⟨q, c, chain, st1, h1, h2, h3, ⟨f, h5⟩, rfl⟩
  · rintro ⟨q, c, chain, st1, h1, h2, h3, ⟨f, h4⟩, rfl⟩
    refine ⟨f, ?_⟩
    simp only [runNode, runInclude, Option.bind_eq_some_iff]
    refine ⟨q, h1, c, h2, chain, h3, ?_⟩
    dsimp only at h4
    rw [h4]
    rfl

theorem argValues_iff {st : Store U} {args : List Expr} : (params : List Str) → {i : Nat} → {ps : List (Str × Option (Val U))} →
    (argValues W I st args params i = some ps ↔ ps.map (·.1) = params ∧
      ∀ (j : Nat) (p : Str) (v : Option (Val U)), ps[j]? = some (p, v) →
        ∃ e, argFor args p (i + j) = some e ∧ v = evalE W I st none e ∧ (v = none → lazyArg e = true))
  | [], i, ps => by
    simp only [argValues, Option.some.injEq, List.map_eq_nil_iff]
    constructor
    · rintro rfl; exact ⟨rfl, by simp⟩
    · rintro ⟨rfl, -⟩; rfl
  | q :: params, i, ps => by
    simp only [argValues, Option.bind_eq_some_iff]
    constructor
    · rintro ⟨e, he, h⟩
      split at h
      · cases h
      · rename_i hn
        obtain ⟨ps', h1, rfl⟩ := Option.map_eq_some_iff.mp h
        obtain ⟨h2, h3⟩ := (argValues_iff params).mp h1
        refine ⟨by simp [h2], ?_⟩
        intro j p v hj
        cases j with
        | zero =>
          simp only [List.getElem?_cons_zero, Option.some.injEq, Prod.mk.injEq] at hj
          obtain ⟨rfl, rfl⟩ := hj
          refine ⟨e, he, rfl, fun hv => ?_⟩
          simpa [hv] using hn
        | succ j =>
          rw [List.getElem?_cons_succ] at hj
          obtain ⟨e', h4, h5⟩ := h3 j p v hj
          exact ⟨e', by rw [show i + (j + 1) = i + 1 + j by omega]; exact h4, h5⟩
    · rintro ⟨h1, h2⟩
      cases ps with
      | nil => simp at h1
      | cons x ps =>
        obtain ⟨p, v⟩ := x
        simp only [List.map_cons, List.cons.injEq] at h1
        obtain ⟨rfl, h1⟩ := h1
        obtain ⟨e, he, rfl, hl⟩ := h2 0 p v rfl
        refine ⟨e, he, ?_⟩
        rw [if_neg]
        · rw [(argValues_iff params (ps := ps)).mpr ⟨h1, fun j p v hj => by
            obtain ⟨e', h4, h5⟩ := h2 (j + 1) p v (by rw [List.getElem?_cons_succ]; exact hj)
            exact ⟨e', by rw [show i + 1 + j = i + (j + 1) by omega]; exact h4, h5⟩⟩]
          rfl
        · intro h
          simp only [Bool.and_eq_true, Option.isNone_iff_eq_none, Bool.not_eq_true'] at h
          rw [hl h.1] at h
          cases h.2

theorem binds_iff {st : Store U} {args : List Expr} {params : List Str} {ps : List (Str × Option (Val U))} :
    argValues W I st args params 0 = some ps ↔ Binds W I st args params ps := by
  rw [argValues_iff]
  simp only [Nat.zero_add]
  exact Iff.rfl

theorem makes_call {p : Place U} {ws : Ws} {scope : Option Str} {name : Str} (hn : name ≠ c!"super") {args : List Expr}
    {s : Str} {sig : Sig} {st' : Store U} :
    Makes W I p [.call ws scope name args] s sig st' ↔ CallMakes W I p scope name args s sig st' := by
  rw [makes_one]
  unfold CallMakes
  simp only [runNode, hn, if_false]
  constructor
  · rintro ⟨f, h⟩
    simp only [runCall, Option.bind_eq_some_iff] at h
    obtain ⟨⟨d, own⟩, h1, ps, h2, h3⟩ := h
    obtain ⟨⟨s1, sig1, st1⟩, h5, h6⟩ := Option.map_eq_some_iff.mp h3
    cases h6
    exact ⟨d, own, ps, st1, h1, binds_iff.mp h2, ⟨f, h5⟩, rfl⟩
  · rintro ⟨d, own, ps, st1, h1, h2, ⟨f, h4⟩, rfl⟩
    rw [← binds_iff] at h2
    refine ⟨f, ?_⟩
    simp only [runCall, Option.bind_eq_some_iff]
    refine ⟨(d, own), h1, ps, h2, ?_⟩
    dsimp only [withParams] at h4
    dsimp only
    rw [h4]
    rfl

theorem makes_filter {p : Place U} {ws1 ws2 : Ws} {f : FilterApp} {nodes : List Node} {s : Str} {sig : Sig}
    {st' : Store U} :
    Makes W I p [.filterBlock ws1 f nodes ws2] s sig st' ↔ FilterMakes W I p ws1 f nodes ws2 s sig st' := by
  rw [makes_one]
  unfold FilterMakes
  simp only [runNode, runFilter]
  constructor
  · rintro ⟨n, h⟩
    obtain ⟨⟨s1, sig1, st1⟩, h1, h2⟩ := Option.map_eq_some_iff.mp h
    simp only [Prod.mk.injEq] at h2
    obtain ⟨h2, rfl, rfl⟩ := h2
    obtain ⟨x, rfl, h3⟩ := Option.bind_eq_some_iff.mp h2
    exact ⟨x, ⟨n, h1⟩, h3⟩
  · rintro ⟨x, ⟨n, h1⟩, h2⟩
    refine ⟨n, ?_⟩
    dsimp only [Place.inside] at h1
    rw [h1]
    simp [h2]

theorem makes_lit {p : Place U} {l : Lit} {s : Str} {sig : Sig} {st' : Store U} :
    Makes W I p [.lit l] s sig st' ↔ s = litText p.before l p.after ∧ sig = .next ∧ st' = p.store := by
  rw [makes_one]
  simp only [runNode, exists_const, Option.some.injEq, Prod.mk.injEq]
  constructor
  · rintro ⟨rfl, rfl, rfl⟩; exact ⟨rfl, rfl, rfl⟩
  · rintro ⟨rfl, rfl, rfl⟩; exact ⟨rfl, rfl, rfl⟩

theorem makes_raw {p : Place U} {ws1 ws2 : Ws} {l : Lit} {s : Str} {sig : Sig} {st' : Store U} :
    Makes W I p [.raw ws1 l ws2] s sig st'
      ↔ s = litText (sideOf I ws1.r) l (some (sideOf I ws2.l)) ∧ sig = .next ∧ st' = p.store := by
  rw [makes_one]
  simp only [runNode, exists_const, Option.some.injEq, Prod.mk.injEq]
  constructor
  · rintro ⟨rfl, rfl, rfl⟩; exact ⟨rfl, rfl, rfl⟩
  · rintro ⟨rfl, rfl, rfl⟩; exact ⟨rfl, rfl, rfl⟩

theorem makes_comment {p : Place U} {ws : Ws} {c : Str} {s : Str} {sig : Sig} {st' : Store U} :
    Makes W I p [.comment ws c] s sig st' ↔ s = [] ∧ sig = .next ∧ st' = p.store := by
  rw [makes_one]
  simp only [runNode, silent, exists_const, Option.some.injEq, Prod.mk.injEq]
  constructor
  · rintro ⟨rfl, rfl, rfl⟩; exact ⟨rfl, rfl, rfl⟩
  · rintro ⟨rfl, rfl, rfl⟩; exact ⟨rfl, rfl, rfl⟩

theorem makes_expr {p : Place U} {ws : Ws} {e : Expr} {s : Str} {sig : Sig} {st' : Store U} :
    Makes W I p [.expr ws e] s sig st' ↔ showE W I p.store none e = some s ∧ sig = .next ∧ st' = p.store := by
  rw [makes_one]
  simp only [runNode, exists_const, Option.some.injEq, Prod.mk.injEq]
  constructor
  · rintro ⟨h, rfl, rfl⟩; exact ⟨h, rfl, rfl⟩
  · rintro ⟨h, rfl, rfl⟩; exact ⟨h, rfl, rfl⟩

theorem makes_let {p : Place U} {ws : Ws} {t : Target} {v : Option Expr} {s : Str} {sig : Sig} {st' : Store U} :
    Makes W I p [.let_ ws t v] s sig st' ↔ runLet W I p.store t v = some (some s, sig, st') := by
  rw [makes_one]
  simp only [runNode, exists_const]

theorem runLet_iff {st : Store U} {t : Target} {v : Option Expr} {s : Str} {sig : Sig} {st' : Store U} :
    runLet W I st t v = some (some s, sig, st') ↔ s = [] ∧ sig = .next ∧ LetBinds W I st t v st' := by
  unfold runLet LetBinds silent
  cases v with
  | none =>
    simp only [Option.some.injEq, Prod.mk.injEq]
    constructor
    · rintro ⟨rfl, rfl, rfl⟩; exact ⟨rfl, rfl, rfl⟩
    · rintro ⟨rfl, rfl, rfl⟩; exact ⟨rfl, rfl, rfl⟩
  | some e =>
    simp only [Option.bind_eq_some_iff]
    have other : ∀ v, (∀ n, t = .name n → st.status (rawIdent n) ≠ some false) →
        ((patMatch W t v).bind (fun vs => some (some ([] : Str), Sig.next, st.declare (t.bound W) vs true))
            = some (some s, sig, st')
          ↔ s = [] ∧ sig = .next ∧ ∃ vs, patMatch W t v = some vs ∧ st' = st.declare (t.bound W) vs true) := by
      intro v _
      simp only [Option.bind_eq_some_iff, Option.some.injEq, Prod.mk.injEq]
      constructor
      · rintro ⟨vs, h, rfl, rfl, rfl⟩; exact ⟨rfl, rfl, vs, h, rfl⟩
      · rintro ⟨rfl, rfl, vs, h, rfl⟩; exact ⟨vs, h, rfl, rfl, rfl⟩
    have main : ∀ v, ((match t with
          | .name n =>
            if st.status (rawIdent n) = some false then
              (assignVar (rawIdent n) v st.vars).bind fun vars =>
                some (some ([] : Str), Sig.next, { st with vars := vars, known := (rawIdent n, true) :: st.known })
            else (patMatch W t v).bind fun vs => some (some [], Sig.next, st.declare (t.bound W) vs true)
          | t => (patMatch W t v).bind fun vs => some (some [], Sig.next, st.declare (t.bound W) vs true))
          = some (some s, sig, st')) ↔ s = [] ∧ sig = .next ∧
        ((∃ n vars, t = .name n ∧ st.status (rawIdent n) = some false ∧ assignVar (rawIdent n) v st.vars = some vars
          ∧ st' = { st with vars := vars, known := (rawIdent n, true) :: st.known })
        ∨ ((∀ n, t = .name n → st.status (rawIdent n) ≠ some false)
          ∧ ∃ vs, patMatch W t v = some vs ∧ st' = st.declare (t.bound W) vs true)) := by
      intro v
      split
      · rename_i n
        split
        · rename_i hst
          simp only [Option.bind_eq_some_iff, Option.some.injEq, Prod.mk.injEq]
          constructor
          · rintro ⟨vars, h, rfl, rfl, rfl⟩
            exact ⟨rfl, rfl, .inl ⟨n, vars, rfl, hst, h, rfl⟩⟩
          · rintro ⟨rfl, rfl, ⟨m, vars, hm, -, h, rfl⟩ | ⟨h, -⟩⟩
            · cases hm; exact ⟨vars, h, rfl, rfl, rfl⟩
            · exact absurd hst (h n rfl)
        · rename_i hst
          rw [other v (fun m hm => by cases hm; exact hst)]
          constructor
          · rintro ⟨h1, h2, h3⟩
            exact ⟨h1, h2, .inr ⟨fun m hm => by cases hm; exact hst, h3⟩⟩
          · rintro ⟨h1, h2, ⟨m, vars, hm, h, -⟩ | ⟨-, h⟩⟩
            · cases hm; exact absurd h hst
            · exact ⟨h1, h2, h⟩
      · rename_i hne
        have hne : ∀ n, t ≠ .name n := fun n hn => hne n hn
        rw [other v (fun m hm => absurd hm (hne m))]
        constructor
        · rintro ⟨h1, h2, h3⟩
          exact ⟨h1, h2, .inr ⟨fun m hm => absurd hm (hne m), h3⟩⟩
        · rintro ⟨h1, h2, ⟨m, vars, hm, h, -⟩ | ⟨-, h⟩⟩
          · exact absurd hm (hne m)
          · exact ⟨h1, h2, h⟩
    constructor
    · rintro ⟨v, hv, h⟩
      obtain ⟨h1, h2, h3⟩ := (main v).mp h
      exact ⟨h1, h2, v, hv, h3⟩
    · rintro ⟨h1, h2, v, hv, h3⟩
      exact ⟨v, hv, (main v).mpr ⟨h1, h2, h3⟩⟩

theorem lineage_ancestry {contexts : List (Str × Ctx)} : (fuel : Nat) → {ctx : Ctx} → {l : List Ctx} →
    lineage contexts fuel ctx = some l → Ancestry contexts ctx l
  | 0, _, _, h => by cases h
  | fuel + 1, ctx, l, h => by
    unfold lineage at h
    cases he : ctx.extends_ with
    | none =>
      rw [he] at h
      cases h
      exact .root he
    | some path =>
      rw [he] at h
      obtain ⟨q, h1, h⟩ := Option.bind_eq_some_iff.mp h
      obtain ⟨rest, h2, h⟩ := Option.map_eq_some_iff.mp h
      cases h
      exact .child he h1 (lineage_ancestry fuel h2)

theorem chainOf_ancestry {contexts : List (Str × Ctx)} {ctx : Ctx} {l : List Ctx} (h : chainOf contexts ctx = some l) :
    ∃ a, Ancestry contexts ctx a ∧ l.getLastD ctx = a.getLastD ctx
      ∧ ∀ name k c d, Defines l name k c d ↔ Defines a name k c d := by
  unfold chainOf at h
  split at h
  · rename_i hc
    cases h
    simp only [Bool.and_eq_true, List.isEmpty_iff, Option.isNone_iff_eq_none] at hc
    refine ⟨[ctx], .root hc.2, rfl, fun name k c d => ?_⟩
    constructor
    · rintro ⟨nearer, farther, h, -⟩
      simp at h
    · rintro ⟨nearer, farther, h, -, h3⟩
      cases nearer with
      | nil => cases h; rw [hc.1] at h3; cases h3
      | cons x nearer => simp at h
  · exact ⟨l, lineage_ancestry _ h, rfl, fun _ _ _ _ => Iff.rfl⟩

end Askama
