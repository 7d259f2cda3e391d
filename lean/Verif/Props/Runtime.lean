import Verif.Model.Runtime
import Verif.Spec.Runtime
import Verif.Lemmas.Base

/-!
# Properties C17–C21: loops, rendering entry points, web responses
-/

namespace Askama.Props

open Spec

variable {σ α : Type}

/-! ## C17 -/

/-- What the loop object looks like when `count` items have been read, the source is in state `s`, and the item `x`
has been peeked. -/
theorem forLoop_peeked (it : Iter σ α) (xs : List α) (s : σ) (k n : Nat) (x : α) (h : Yields it s xs)
    (hn : xs.length + 1 < n) :
    ∃ t, TLoop.forLoop it n ⟨s, k + 1, some (some (k, x))⟩ =
      ((x :: xs).mapIdx (fun i y => (y, (⟨k + i, k + i == 0, decide (i + 1 = xs.length + 1)⟩ : LoopItem))), true, t) := by
  induction xs generalizing s k n x with
  | nil =>
    cases h with
    | stop hs =>
      match n, hn with
      | n + 2, _ => simp [TLoop.forLoop, TLoop.next, TLoop.peekNext, TLoop.peek, TLoop.enumNext, hs]
  | cons y ys ih =>
    cases h with
    | item hs hy =>
      match n, hn with
      | n + 1, hn =>
        obtain ⟨t, ht⟩ := ih _ (k + 1) n y hy (by simp only [List.length_cons] at hn; omega)
        refine ⟨t, ?_⟩
        simp only [TLoop.forLoop, TLoop.next, TLoop.peekNext, TLoop.peek, TLoop.enumNext, hs, ht]
        simp only [Prod.mk.injEq, and_true, Option.isNone_some]
        apply List.ext_getElem
        · simp
        · intro i h1 h2
          cases i with
          | zero => simp
          | succ i =>
            have e : k + 1 + i = k + (i + 1) := by omega
            simp only [List.getElem_cons_succ, List.getElem_mapIdx, e, List.length_cons, Nat.add_right_cancel_iff]

theorem forLoop_yields (it : Iter σ α) (xs : List α) (s : σ) (n : Nat) (h : Yields it s xs) (hn : xs.length < n) :
    ∃ t, TLoop.forLoop it n (TLoop.new s) =
      (xs.mapIdx (fun i y => (y, (⟨i, i == 0, decide (i + 1 = xs.length)⟩ : LoopItem))), true, t) := by
  cases h with
  | stop hs =>
    match n, hn with
    | n + 1, _ => simp [TLoop.forLoop, TLoop.next, TLoop.peekNext, TLoop.enumNext, TLoop.new, hs]
  | item hs hy =>
    rename_i s' x ys
    have key : TLoop.forLoop it n (TLoop.new s) = TLoop.forLoop it n ⟨s', 1, some (some (0, x))⟩ := by
      match n, hn with
      | n + 1, _ => simp [TLoop.forLoop, TLoop.next, TLoop.peekNext, TLoop.enumNext, TLoop.new, hs]
    match n, hn with
    | n + 1, hn =>
      simp only [List.length_cons] at hn
      by_cases h2 : ys.length + 1 < n + 1
      · obtain ⟨t, ht⟩ := forLoop_peeked it ys s' 0 (n + 1) x hy h2
        refine ⟨t, ?_⟩
        rw [key, ht]
        simp
      · omega

/-- C17. A `for` loop over any source that yields `xs` and then ends visits exactly the items of `xs` in order, the
`i`-th with index `i`, `first` exactly at 0 and `last` exactly at the end, and then ends. -/
theorem C17_loop_items (it : Iter σ α) (s : σ) (xs : List α) (h : Yields it s xs) (n : Nat) (hn : xs.length < n) :
    ∃ t, TLoop.forLoop it n (TLoop.new s) = (loopItems xs, true, t) := by
  obtain ⟨t, ht⟩ := forLoop_yields it xs s n h hn
  refine ⟨t, ?_⟩
  rw [ht]
  congr 1
  unfold loopItems
  have : ∀ (m : Nat), m ≤ xs.length → (List.range m).filterMap (fun i =>
      xs[i]?.map fun x => (x, ({ index := i, first := decide (i = 0), last := decide (i + 1 = xs.length) } : LoopItem))) =
      (xs.mapIdx (fun i y => (y, (⟨i, i == 0, decide (i + 1 = xs.length)⟩ : LoopItem)))).take m := by
    intro m hm
    induction m with
    | zero => simp
    | succ m ih =>
      rw [List.range_succ, List.filterMap_append, ih (by omega), List.take_add_one]
      congr 1
      have : m < xs.length := hm
      simp [this]
      by_cases h0 : m = 0 <;> simp [h0]
  rw [this xs.length (Nat.le_refl _), List.take_of_length_le (by simp)]

/-- C17, also for sources that never end: after the first `k + 1` items have been delivered, the source has been read
exactly one item further, or has reported its end. -/
theorem C17_reads_one_ahead (it : Iter σ α) (s s' : σ) (xs : List α) (h : Reads it s xs s') (hx : xs ≠ []) :
    ∃ items, TLoop.forLoop it xs.length (TLoop.new s) =
      (items, false, ⟨(it.step s').2, xs.length + (if (it.step s').1.isSome then 1 else 0),
        some ((it.step s').1.map (fun a => (xs.length, a)))⟩) ∧ items.map Prod.fst = xs := by
  have key : ∀ (xs : List α) (s s' : σ) (k : Nat) (x : α), Reads it s xs s' →
      ∃ items, TLoop.forLoop it (xs.length + 1) ⟨s, k + 1, some (some (k, x))⟩ =
      (items, false, ⟨(it.step s').2, k + 1 + xs.length + (if (it.step s').1.isSome then 1 else 0),
        some ((it.step s').1.map (fun a => (k + 1 + xs.length, a)))⟩) ∧ items.map Prod.fst = x :: xs := by
    intro xs
    induction xs with
    | nil =>
      intro s s' k x h
      cases h
      rcases hst : it.step s with ⟨_ | a, s2⟩ <;>
        simp [TLoop.forLoop, TLoop.next, TLoop.peekNext, TLoop.peek, TLoop.enumNext, hst]
    | cons y ys ih =>
      intro s s' k x h
      cases h with
      | more hs hy =>
        obtain ⟨items, hi, hm⟩ := ih _ _ (k + 1) y hy
        rw [List.length_cons, TLoop.forLoop]
        simp only [TLoop.next, TLoop.peekNext, TLoop.peek, TLoop.enumNext, hs, hi]
        rw [show k + 1 + (ys.length + 1) = k + 1 + 1 + ys.length by omega]
        exact ⟨_, rfl, by simp [hm]⟩
  cases h with
  | zero => exact absurd rfl hx
  | more hs hy =>
    rename_i s1 x ys
    obtain ⟨items, hi, hm⟩ := key ys s1 s' 0 x hy
    refine ⟨items, ?_, hm⟩
    have e : TLoop.forLoop it (ys.length + 1) (TLoop.new s) =
        TLoop.forLoop it (ys.length + 1) ⟨s1, 0 + 1, some (some (0, x))⟩ := by
      simp [TLoop.forLoop, TLoop.next, TLoop.peekNext, TLoop.enumNext, TLoop.new, hs]
    rw [List.length_cons, e, hi]
    simp only [Nat.zero_add]
    rw [show 1 + ys.length = ys.length + 1 by omega]

/-- A source that would start again after its end. -/
def restarting : Iter (Nat × List Nat) Nat where
  step := fun (pos, xs) => match xs[pos]? with
    | some x => (some x, (pos + 1, xs))
    | none => (none, (0, xs))

example : Yields restarting (0, [7, 8]) [7, 8] :=
  .item (by rfl) (.item (by rfl) (.stop (s' := (0, [7, 8])) (by rfl)))
example : (TLoop.forLoop restarting 10 (TLoop.new (0, [7, 8]))).1 =
    [(7, ⟨0, true, false⟩), (8, ⟨1, false, true⟩)] := by rfl

/-! ## C18 -/

/-- C18. `loop.cycle(xs)` is the element at `index` modulo the length; it never indexes out of range, and it is an
error exactly for an empty sequence. -/
theorem C18_cycle (xs : List α) (item : LoopItem) :
    (xs = [] → loopCycle xs item = none) ∧
    (xs ≠ [] → ∃ (h : item.index % xs.length < xs.length), loopCycle xs item = some (some xs[item.index % xs.length])) := by
  constructor
  · rintro rfl; rfl
  · intro h
    have hpos : 0 < xs.length := List.length_pos_iff.2 h
    refine ⟨Nat.mod_lt _ hpos, ?_⟩
    simp only [loopCycle]
    rw [if_neg (by omega)]
    simp [Nat.mod_lt _ hpos]

/-- C18. Consecutive iterations step through the sequence and wrap around: shifting the index by the length changes
nothing, and within one period position `i` gives element `i`. -/
theorem C18_periodic (xs : List α) (i : Nat) (a b c d : Bool) :
    loopCycle xs ⟨i + xs.length, a, b⟩ = loopCycle xs ⟨i, c, d⟩ ∧
    ∀ (h : i < xs.length), loopCycle xs ⟨i, c, d⟩ = some (some xs[i]) := by
  constructor
  · simp [loopCycle]
  · intro h
    simp only [loopCycle]
    rw [if_neg (by omega), Nat.mod_eq_of_lt h]
    simp [h]

example : loopCycle [10, 20, 30] ⟨4, false, false⟩ = some (some 20) := by decide

/-! ## C19 -/

theorem runChunks_total (cs acc : List Str) : runChunks Sink.total cs acc = .ok (acc ++ cs) := by
  induction cs generalizing acc with
  | nil => simp [runChunks]
  | cons c cs ih => simp [runChunks, Sink.total] at ih ⊢; rw [ih]; simp

/-- C19. A template value that renders without error produces the same text by every route. -/
theorem C19_routes_agree (p : TProg) (text : Str) (h : p.render = .ok text) :
    (∃ acc, p.renderInto Sink.total = .ok acc ∧ acc.flatten = text) ∧
    p.toStr = some text ∧
    (p.writeInto Sink.total).1 = some (Str.bytes text) ∧
    p.viaRef.render = .ok text ∧
    p.toDyn.dynRender = .ok text ∧
    (p.toDyn.dynWriteInto Sink.total).1 = some (Str.bytes text) ∧
    (∃ acc, p.toDyn.display Sink.total = .ok acc ∧ acc.flatten = text) := by
  unfold TProg.render at h
  cases hr : p.renderInto Sink.total with
  | ok acc =>
    rw [hr] at h
    simp only [Except.ok.injEq] at h
    subst h
    simp [TProg.toStr, TProg.display, TProg.writeInto, TProg.viaRef, TProg.toDyn, TProg.render, DynT.display, hr]
  | err e acc => rw [hr] at h; cases h

/-- C19. If one route fails (for a destination that accepts everything) they all fail. -/
theorem C19_failures_agree (p : TProg) (e : TErr) (h : p.render = .error e) :
    (∃ acc, p.renderInto Sink.total = .err e acc) ∧ p.toStr = none ∧ (p.writeInto Sink.total).1 = none ∧
    p.viaRef.render = .error e ∧ p.toDyn.dynRender = .error e ∧ (p.toDyn.dynWriteInto Sink.total).1 = none := by
  unfold TProg.render at h
  cases hr : p.renderInto Sink.total with
  | ok acc => rw [hr] at h; cases h
  | err e' acc =>
    rw [hr] at h
    cases h
    simp [TProg.toStr, TProg.display, TProg.writeInto, TProg.viaRef, TProg.toDyn, TProg.render, hr]

/-- C19. Whatever the destination: it receives the chunks of the complete rendering in order, all of them on success
and a prefix otherwise. -/
theorem C19_any_writer (p : TProg) (sink : Sink) :
    (∀ acc, p.renderInto sink = .ok acc → acc = p.chunks ∧ p.error = none) ∧
    (∀ e acc, p.renderInto sink = .err e acc → acc <+: p.chunks ∧ (acc ≠ p.chunks ∧ e = .fmt ∨ p.error = some e)) := by
  have key : ∀ cs acc, (∀ out, runChunks sink cs acc = .ok out → out = acc ++ cs) ∧
      (∀ out, runChunks sink cs acc = .error out → ∃ pre, out = acc ++ pre ∧ pre <+: cs ∧ pre ≠ cs) := by
    intro cs
    induction cs with
    | nil => intro acc; simp [runChunks]
    | cons c cs ih =>
      intro acc
      simp only [runChunks]
      split
      · obtain ⟨h1, h2⟩ := ih (acc ++ [c])
        constructor
        · intro out h; rw [h1 out h]; simp
        · intro out h
          obtain ⟨pre, hp, hpre, hne⟩ := h2 out h
          exact ⟨c :: pre, by rw [hp]; simp, by simpa using hpre, by simpa using hne⟩
      · constructor
        · intro out h; cases h
        · intro out h
          cases h
          exact ⟨[], by simp, List.nil_prefix, by simp⟩
  unfold TProg.renderInto
  obtain ⟨k1, k2⟩ := key p.chunks []
  cases hr : runChunks sink p.chunks [] with
  | ok out =>
    have := k1 out hr
    simp only [List.nil_append] at this
    subst this
    cases he : p.error with
    | none =>
      refine ⟨fun acc h => ?_, fun e acc h => ?_⟩
      · simp only [RRes.ok.injEq] at h; exact ⟨h.symm, rfl⟩
      · cases h
    | some e0 =>
      refine ⟨fun acc h => ?_, fun e acc h => ?_⟩
      · cases h
      · simp only [RRes.err.injEq] at h
        obtain ⟨rfl, rfl⟩ := h
        exact ⟨List.prefix_refl _, Or.inr rfl⟩
  | error out =>
    obtain ⟨pre, hp, hpre, hne⟩ := k2 out hr
    simp only [List.nil_append] at hp
    subst hp
    constructor
    · intro acc h; cases h
    · intro e acc h
      simp only [RRes.err.injEq] at h
      obtain ⟨rfl, rfl⟩ := h
      exact ⟨hpre, Or.inl ⟨hne, rfl⟩⟩

example : (⟨[c!"a", c!"b"], none, c!"text/html", none, 3⟩ : TProg).render = .ok c!"ab" := by rfl

/-! ## C21 -/

/-- C21. A successful rendering is answered with status 200, the template's MIME type and the complete rendered body,
by every integration. -/
theorem C21_success (f : Framework) (p : TProg) (text : Str) (h : p.render = .ok text) :
    intoResponse f p = ⟨200, p.mime, text⟩ ∧ rocketRespond p = .ok ⟨200, p.mime, text⟩ := by
  simp [intoResponse, rocketRespond, tryIntoResponse, h]

/-- C21. A failed rendering never sends any part of the page: the body is the error's description. -/
theorem C21_no_partial_page (f : Framework) (p : TProg) (e : TErr) (h : p.render = .error e) :
    (intoResponse f p).body = e.text ∧ rocketRespond p = .error 500 := by
  cases f <;> simp [intoResponse, rocketRespond, tryIntoResponse, h]

/-- C21. That description: a fixed text for an error of the destination, the message of an error of a filter or of the
user's code, and the message of a failed JSON conversion after its kind. -/
theorem C21_description (f : Framework) (p : TProg) :
    (p.render = .error .fmt → (intoResponse f p).body = c!"formatting error: an error occurred when formatting an argument") ∧
    (∀ m, p.render = .error (.custom m) → (intoResponse f p).body = m) ∧
    (∀ m, p.render = .error (.json m) → (intoResponse f p).body = c!"json conversion error: " ++ m) :=
  ⟨fun h => (C21_no_partial_page f p _ h).1, fun _ h => (C21_no_partial_page f p _ h).1, fun _ h => (C21_no_partial_page f p _ h).1⟩

/-- C21 (all but axum). A failed rendering is answered with a server error. Missing: axum, see `C21_axum_false`. -/
theorem C21_server_error_partial (f : Framework) (hf : f ≠ .axum) (p : TProg) (e : TErr) (h : p.render = .error e) :
    (intoResponse f p).status = 500 := by
  cases f <;> simp_all [intoResponse, tryIntoResponse]

/-- C21 is false for axum: a failed rendering is answered with status 200. -/
theorem C21_axum_false (p : TProg) (e : TErr) (h : p.render = .error e) : (intoResponse .axum p).status = 200 := by
  simp [intoResponse, tryIntoResponse, h]

example : (⟨[c!"<h1>"], some (.custom c!"no"), c!"text/html", none, 3⟩ : TProg).render = .error (.custom c!"no") := by rfl

end Askama.Props
