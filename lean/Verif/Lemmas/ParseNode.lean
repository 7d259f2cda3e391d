import Verif.Lemmas.ParseExpr
import Verif.Model.ParseNode

/-!
# The node parser returns well-formed nodes and restores the loop depth
-/

namespace Askama

open PT Spec

/-- Nesting level between `L` and the limit, loop depth `d`. -/
def Inv (L d : Nat) (s : PState) : Prop := L ≤ s.level ∧ s.level ≤ maxDepth ∧ s.loopDepth = d

theorem Inv.down {L M d : Nat} {s : PState} (h : Inv M d s) (hL : L ≤ M) : Inv L d s :=
  ⟨Nat.le_trans hL h.1, h.2⟩

/-- One `SatT.bind` step whose first parser is closed by `sat0`. -/
macro "sbind" : tactic => `(tactic| refine SatT.bind (by sat0) (fun _ => ?_))

section
variable {src : Str} {I : PState → Prop} (env : PEnv)

theorem exprHere_sat : Sat src I (exprHere env) Plain := by
  intro s i hi hs
  have h := exprP_sat env src (maxDepth - s.level) .parse () i hi trivial
  show Out src i I Plain ((exprP env (maxDepth - s.level) .parse () i).1, s)
  generalize exprP env (maxDepth - s.level) .parse () i = x at h ⊢
  match x, h with
  | (.ok r a, _), h => exact ⟨h.1, h.2.1, hs⟩
  | (.err _ _ _, _), h => exact ⟨h.1, hs⟩

theorem argsHere_sat (m : Bool) : Sat src I (argsHere env m) (NT.Post (.args m)) := by
  intro s i hi hs
  have h := exprP_sat env src (maxDepth - s.level) (.args m) () i hi trivial
  show Out src i I _ ((exprP env (maxDepth - s.level) (.args m) () i).1, s)
  generalize exprP env (maxDepth - s.level) (.args m) () i = x at h ⊢
  match x, h with
  | (.ok r a, _), h => exact ⟨h.1, h.2.1, hs⟩
  | (.err _ _ _, _), h => exact ⟨h.1, hs⟩

theorem filterHere_sat : Sat src I (filterHere env) (fun x => PlainL (x.2.getD [])) := by
  intro s i hi hs
  have h := filterP_sat (self := exprP env (maxDepth - s.level)) (src := src)
    (fun nt => exprP_sat env src _ nt) () i hi trivial
  show Out src i I _ ((filterP (exprP env (maxDepth - s.level)) () i).1, s)
  generalize filterP (exprP env (maxDepth - s.level)) () i = x at h ⊢
  match x, h with
  | (.ok r a, _), h => exact ⟨h.1, h.2.1, hs⟩
  | (.err _ _ _, _), h => exact ⟨h.1, hs⟩

theorem wsMark_sat : SatT src I wsMark := by unfold wsMark; sat0
macro_rules | `(tactic| sat_step) => `(tactic| with_reducible exact wsMark_sat)

theorem kw_sat {k : Str} : SatT src I (kw k) := by unfold kw; sat0
macro_rules | `(tactic| sat_step) => `(tactic| with_reducible exact kw_sat)

theorem ident_sat : SatT src I ident := by unfold ident; sat0
macro_rules | `(tactic| sat_step) => `(tactic| with_reducible exact ident_sat)

/-! ### Targets -/

/-- Neither `self` nor `writer` is bound by the pattern. -/
def TOk (t : Target) : Prop := c!"self" ∉ Target.binds t ∧ c!"writer" ∉ Target.binds t

theorem mem_bindsL {n : Str} {ts : List Target} : n ∈ Target.bindsL ts ↔ ∃ t ∈ ts, n ∈ Target.binds t := by
  induction ts with
  | nil => simp [Target.bindsL]
  | cons t ts ih => simp [Target.bindsL, ih]

theorem mem_bindsF {n : Str} {ts : List (Str × Target)} :
    n ∈ Target.bindsF ts ↔ ∃ t ∈ ts, n ∈ Target.binds t.2 := by
  induction ts with
  | nil => simp [Target.bindsF]
  | cons t ts ih => obtain ⟨a, t⟩ := t; simp [Target.bindsF, ih]

theorem tOk_tuple {p : List Str} {ts : List Target} (h : ∀ t ∈ ts, TOk t) : TOk (.tuple p ts) := by
  refine ⟨?_, ?_⟩ <;> simp only [Target.binds, mem_bindsL] <;> rintro ⟨t, ht, hn⟩
  · exact (h t ht).1 hn
  · exact (h t ht).2 hn

theorem tOk_orChain {ts : List Target} (h : ∀ t ∈ ts, TOk t) : TOk (.orChain ts) := by
  refine ⟨?_, ?_⟩ <;> simp only [Target.binds, mem_bindsL] <;> rintro ⟨t, ht, hn⟩
  · exact (h t ht).1 hn
  · exact (h t ht).2 hn

theorem tOk_struct {p : List Str} {ts : List (Str × Target)} (h : ∀ t ∈ ts, TOk t.2) : TOk (.struct p ts) := by
  refine ⟨?_, ?_⟩ <;> simp only [Target.binds, mem_bindsF] <;> rintro ⟨t, ht, hn⟩
  · exact (h t ht).1 hn
  · exact (h t ht).2 hn

theorem verifyName_sat {i n : Str} (hi : i <:+ src) : Sat src I (verifyName i n) TOk := by
  unfold verifyName
  split
  · exact sat_failAt hi
  · rename_i h
    refine sat_pure _ ?_
    simp only [not_or] at h
    refine ⟨?_, ?_⟩ <;> simp only [Target.binds, List.mem_singleton]
    · exact fun e => h.1 e.symm
    · exact fun e => h.2 e.symm

theorem targetLit_sat : Sat src I targetLit TOk := by
  unfold targetLit
  refine Sat.lift ?_
  refine Sat.alt (Sat.map (strLit_sat.mono fun _ _ => ?_)) (Sat.alt (Sat.map (charLit_sat.mono fun _ _ => ?_))
    (Sat.alt (Sat.map (numLit_sat.mono fun _ _ => ?_)) (Sat.map (boolLit_sat.mono fun _ _ => ?_)))) <;>
  simp [TOk, Target.binds]

theorem optChar_sat {c : Char} : SatT src I (optChar c) := by unfold optChar; sat0
macro_rules | `(tactic| sat_step) => `(tactic| with_reducible exact optChar_sat)

theorem targetPath_sat : SatT src I (targetPath env) := by
  unfold targetPath
  refine sat_pos fun i hi => ?_
  refine SatT.bind (by sat0) fun v => ?_
  split <;> sat0
macro_rules | `(tactic| sat_step) => `(tactic| with_reducible exact targetPath_sat _)

theorem targetNamed_sat {self : SP Target} (h : Sat src I self TOk) :
    Sat src I (targetNamed self) (fun x => TOk x.2) := by
  unfold targetNamed
  refine sat_pos fun i hi => ?_
  sbind
  have h1 : Sat src I (do let _ ← ws (char ':'); self) TOk := by sbind; exact h
  refine Sat.bind (Sat.opt h1) fun o ho => ?_
  split
  · exact sat_pure _ (ho _ rfl)
  · exact (verifyName_sat hi).bind fun t ht => sat_pure _ ht

/-- Going back to a remembered position inside the input. -/
theorem sat_mark {α β : Type} {f : Str → PT PState α} {g : Str → α → PT PState β} {R : β → Prop} {Q : Str → α → Prop}
    (hf : ∀ i, i <:+ src → ∀ s, I s → Out src i I (Q i) (f i s i))
    (hg : ∀ i a, i <:+ src → Q i a → ∀ s r, I s → r <:+ i → Out src i I R (g i a s r)) :
    Sat src I (pos >>= fun i => f i >>= g i) R := by
  intro s i hi hs
  show Out src i I R (PT.bind (f i) (g i) s i)
  unfold PT.bind
  have h := hf i hi s hs
  generalize f i s i = x at h
  match x, h with
  | (.ok r a, s'), h => exact hg i a hi h.2.1 s' r h.2.2 h.1
  | (.err _ _ _, s'), h => exact h

theorem targetOne_sat {self : SP Target} (h : Sat src I self TOk) : Sat src I (targetOne env self) TOk := by
  unfold targetOne
  refine Sat.bind (Sat.opt targetLit_sat) fun o ho => ?_
  split
  · exact sat_pure _ (ho _ rfl)
  refine SatT.bind (by sat0) fun paren => ?_
  split
  · refine SatT.bind (by sat0) fun close => ?_
    split
    · exact sat_pure _ (tOk_tuple (by simp))
    refine Sat.bind h fun first hfirst => ?_
    refine SatT.bind (by sat0) fun close => ?_
    split
    · exact sat_pure _ hfirst
    refine Sat.cut ?_
    have hc : Sat src I (do let _ ← ws (char ','); self) TOk := by sbind; exact h
    refine Sat.bind (Sat.many0 hc) fun ts hts => ?_
    sbind
    sbind
    refine sat_pure _ (tOk_tuple ?_)
    intro t ht
    rcases List.mem_cons.1 ht with rfl | ht
    · exact hfirst
    · exact hts t ht
  refine SatT.bind (by sat0) fun path => ?_
  split
  · rename_i path
    -- the position before `with` is restored at the end
    intro s before hb hs
    show Out src before I TOk (PT.bind (PT.opt (ws (kw c!"with"))) _ s before)
    have back : ∀ s r, I s → r <:+ before →
        Out src before I TOk ((do goto before; pure (.path path) : SP Target) s r) := by
      intro s r hs hr
      exact ⟨List.suffix_refl _, by simp [TOk, Target.binds], hs⟩
    have hw : SatT src I (PT.opt (ws (kw c!"with"))) := by sat0
    unfold PT.bind
    have h1 := hw s before hb hs
    generalize PT.opt (ws (kw c!"with")) s before = x at h1
    match x, h1 with
    | (.err _ _ _, s1), h1 => exact h1
    | (.ok r1 _, s1), h1 =>
      dsimp only
      show Out src before I TOk (PT.bind (optChar '(') _ s1 r1)
      unfold PT.bind
      have h2 := optChar_sat (c := '(') s1 r1 (h1.1.trans hb) h1.2.2
      generalize optChar '(' s1 r1 = x at h2
      match x, h2 with
      | (.err _ _ _, s2), h2 => exact h2
      | (.ok r2 true, s2), h2 =>
        have hsat : Sat src I (do
            let ts ← alt (do let _ ← char ')'; pure [])
              (do
                let ts ← cut (sepList1 (ws (char ',')) self)
                let _ ← opt (ws (char ','))
                let _ ← ws (cut (char ')'))
                pure ts)
            pure (.tuple path ts) : SP Target) TOk := by
          refine Sat.bind (Q := fun l => ∀ t ∈ l, TOk t) (Sat.alt ?_ ?_) fun ts hts => sat_pure _ (tOk_tuple hts)
          · sbind
            exact sat_pure _ (by simp)
          · refine Sat.bind (Sat.cut (Sat.sepList1 (by sat0 : SatT src I (ws (char ','))) h)) fun ts hts => ?_
            sbind
            sbind
            exact sat_pure _ hts
        exact (hsat s2 r2 (h2.1.trans (h1.1.trans hb)) h2.2.2).weaken (h2.1.trans h1.1)
      | (.ok r2 false, s2), h2 =>
        dsimp only
        show Out src before I TOk (PT.bind (optChar '{') _ s2 r2)
        unfold PT.bind
        have h3 := optChar_sat (c := '{') s2 r2 (h2.1.trans (h1.1.trans hb)) h2.2.2
        generalize optChar '{' s2 r2 = x at h3
        match x, h3 with
        | (.err _ _ _, s3), h3 => exact h3
        | (.ok r3 true, s3), h3 =>
          have hsat : Sat src I (do
              let ts ← alt (do let _ ← char '}'; pure [])
                (do
                  let ts ← cut (sepList1 (ws (char ',')) (targetNamed self))
                  let _ ← opt (ws (char ','))
                  let _ ← ws (cut (char '}'))
                  pure ts)
              pure (.struct path ts) : SP Target) TOk := by
            refine Sat.bind (Q := fun l => ∀ t ∈ l, TOk t.2) (Sat.alt ?_ ?_)
              fun ts hts => sat_pure _ (tOk_struct hts)
            · sbind
              exact sat_pure _ (by simp)
            · refine Sat.bind (Sat.cut (Sat.sepList1 (by sat0 : SatT src I (ws (char ','))) (targetNamed_sat h)))
                fun ts hts => ?_
              sbind
              sbind
              exact sat_pure _ hts
          exact (hsat s3 r3 (h3.1.trans (h2.1.trans (h1.1.trans hb))) h3.2.2).weaken
            (h3.1.trans (h2.1.trans h1.1))
        | (.ok r3 false, s3), h3 =>
          exact back s3 r3 h3.2.2 (h3.1.trans (h2.1.trans h1.1))
  · refine sat_pos fun i hi => ?_
    sbind
    exact verifyName_sat hi

end

section
variable {src : Str} (env : PEnv) {L d : Nat}

/-- `nest`, then a parser that lives one level deeper and does not give the level back on failure, then `leave`. -/
theorem targetElem_sat {self : SP Target} (h : Sat src (Inv (L + 1) d) self TOk) :
    Sat src (Inv L d) (targetElem env self) TOk := by
  intro s i hi hs
  show Out src i (Inv L d) TOk (PT.bind nest _ s i)
  unfold PT.bind nest
  by_cases hm : maxDepth ≤ s.level
  · rw [if_pos hm]; exact ⟨hi, hs⟩
  · rw [if_neg hm]
    dsimp only
    show Out src i (Inv L d) TOk (PT.bind (targetOne env self) _ _ i)
    unfold PT.bind
    have h1 := targetOne_sat env h { s with level := s.level + 1 } i hi
      ⟨by have := hs.1; simp; omega, by simp; omega, hs.2.2⟩
    generalize targetOne env self _ i = x at h1
    match x, h1 with
    | (.err _ _ _, s1), h1 => exact ⟨h1.1, h1.2.down (by omega)⟩
    | (.ok r t, s1), h1 =>
      refine ⟨h1.1, h1.2.1, ?_⟩
      have := h1.2.2
      exact ⟨by simp [leave]; have := this.1; omega, by simp [leave]; have := this.2.1; omega, this.2.2⟩

theorem target_sat : ∀ fuel L, maxDepth < fuel + L → Sat src (Inv L d) (target env fuel) TOk := by
  intro fuel
  induction fuel with
  | zero =>
    intro L hL s i hi hs
    have := hs.1; have := hs.2.1; omega
  | succ fuel ih =>
    intro L hL
    unfold target
    have h1 := targetElem_sat (L := L) (d := d) env (ih (L + 1) (by omega))
    refine Sat.bind (Sat.sepList1 (by sat0 : SatT src (Inv L d) (ws (tag c!"or"))) h1) fun ts hts => ?_
    split
    · exact sat_pure _ (hts _ (by simp))
    · exact sat_pure _ (tOk_orChain hts)

end

/-! ### Literals -/

theorem isWsp_iff {c : Char} : isWsp c = true ↔ isBlank c := by
  simp [isWsp, isBlank, or_assoc]

theorem dropWhile_head {f : Char → Bool} {s : Str} {c : Char} (h : (s.dropWhile f).head? = some c) : f c = false := by
  induction s with
  | nil => simp at h
  | cons a s ih =>
    rw [List.dropWhile_cons] at h
    split at h
    · exact ih h
    · rename_i hf
      simp at h
      rw [← h]
      simpa using hf

theorem mem_takeWhile_ch {f : Char → Bool} {s : Str} {c : Char} (h : c ∈ s.takeWhile f) : f c = true := by
  induction s with
  | nil => simp at h
  | cons a s ih =>
    rw [List.takeWhile_cons] at h
    split at h
    · rename_i hf
      rcases List.mem_cons.1 h with rfl | h
      · exact hf
      · exact ih h
    · simp at h

/-- Trimming at the end splits the text into the rest and white space. -/
theorem trimEndWs_spec (s : Str) : ∃ r, s = trimEndWs s ++ r ∧ (∀ c ∈ r, isWsp c = true) ∧
    ∀ c, (trimEndWs s).getLast? = some c → isWsp c = false := by
  refine ⟨(s.reverse.takeWhile isWsp).reverse, ?_, ?_, ?_⟩
  · have h : s.reverse.takeWhile isWsp ++ s.reverse.dropWhile isWsp = s.reverse := List.takeWhile_append_dropWhile
    have := congrArg List.reverse h
    simp only [List.reverse_append, List.reverse_reverse] at this
    exact this.symm
  · intro c hc
    exact mem_takeWhile_ch (List.mem_reverse.1 hc)
  · intro c hc
    unfold trimEndWs at hc
    rw [List.getLast?_reverse] at hc
    exact dropWhile_head hc

theorem take_eq {s a b : Str} (h : s = a ++ b) : s.take a.length = a := by subst h; simp

theorem drop_eq {s a b : Str} (h : s = a ++ b) : s.drop a.length = b := by subst h; simp

theorem splitWsParts_spec (s : Str) : LitOk (splitWsParts s) ∧ (splitWsParts s).text = s := by
  have e1 : s.take (s.length - (s.dropWhile isWsp).length) = s.takeWhile isWsp := by
    have h : s.takeWhile isWsp ++ s.dropWhile isWsp = s := List.takeWhile_append_dropWhile
    have hl := congrArg List.length h
    rw [List.length_append] at hl
    have h2 : s.length - (s.dropWhile isWsp).length = (s.takeWhile isWsp).length := by omega
    rw [h2]
    exact take_eq h.symm
  obtain ⟨r, hr, hb, hlast⟩ := trimEndWs_spec (s.dropWhile isWsp)
  have e2 : (s.dropWhile isWsp).drop (trimEndWs (s.dropWhile isWsp)).length = r := drop_eq hr
  refine ⟨⟨?_, ?_, ?_, ?_, ?_⟩, ?_⟩
  · intro c hc
    simp only [splitWsParts, e1] at hc
    exact isWsp_iff.1 (mem_takeWhile_ch hc)
  · intro c hc
    simp only [splitWsParts, e2] at hc
    exact isWsp_iff.1 (hb c hc)
  · intro c hc hbl
    simp only [splitWsParts] at hc
    have h3 : (s.dropWhile isWsp).head? = some c := by
      rw [hr]
      cases ht : trimEndWs (s.dropWhile isWsp) with
      | nil => rw [ht] at hc; simp at hc
      | cons a t => rw [ht] at hc; simpa using hc
    have := dropWhile_head h3
    rw [isWsp_iff.2 hbl] at this
    exact absurd this (by simp)
  · intro c hc hbl
    have := hlast c hc
    rw [isWsp_iff.2 hbl] at this
    exact absurd this (by simp)
  · intro hv
    simp only [splitWsParts] at hv ⊢
    rw [e2]
    rw [hv] at hr
    cases r with
    | nil => rfl
    | cons a r =>
      have h3 : (s.dropWhile isWsp).head? = some a := by rw [hr]; simp
      have := dropWhile_head h3
      rw [hb a (by simp)] at this
      exact absurd this (by simp)
  · simp only [Lit.text, splitWsParts, e1, e2]
    rw [List.append_assoc, ← hr]
    exact List.takeWhile_append_dropWhile

section
variable {src : Str} (env : PEnv)

theorem anyStart_sat : SatT src NoState (anyStart env.syn) := by unfold anyStart; sat0
macro_rules | `(tactic| sat_step) => `(tactic| with_reducible exact anyStart_sat _)

/-- Properties of a literal node. -/
def LitNodeOk (l : Lit) : Prop := LitOk l ∧ l.text ≠ []

theorem litP_sat : Sat src NoState (litP env) LitNodeOk := by
  unfold litP
  -- `not(eof)` leaves a non-empty input
  intro s i hi hs
  cases i with
  | nil => exact ⟨hi, trivial⟩
  | cons c cs =>
    have e : ∀ f : Unit → P Lit, (PT.not PT.eof >>= f) s (c :: cs) = f () s (c :: cs) := by
      intro f
      show PT.bind _ f s (c :: cs) = _
      simp [PT.bind, PT.not, PT.eof]
    rw [e]
    show Out src _ NoState LitNodeOk (PT.bind _ _ s (c :: cs))
    unfold PT.bind
    have hsat : SatT src NoState (PT.opt (PT.recognize (skipTill (anyStart env.syn)))) := by sat0
    have h1 := hsat s (c :: cs) hi trivial
    have h2 : ∀ r s', PT.opt (PT.recognize (skipTill (anyStart env.syn))) s (c :: cs) = (.ok r none, s') →
        r = c :: cs := by
      intro r s' h
      unfold PT.opt at h
      split at h <;> simp_all
    generalize PT.opt (PT.recognize (skipTill (anyStart env.syn))) s (c :: cs) = x at h1 h2
    match x, h1 with
    | (.err _ _ _, s'), h1 => exact h1
    | (.ok r (some []), s'), h1 => exact ⟨h1.1.trans hi, trivial⟩
    | (.ok r (some (a :: l)), s'), h1 =>
      refine ⟨h1.1, ⟨(splitWsParts_spec _).1, ?_⟩, trivial⟩
      rw [(splitWsParts_spec _).2]; simp
    | (.ok r none, s'), h1 =>
      obtain rfl := h2 r s' rfl
      refine ⟨List.nil_suffix, ⟨(splitWsParts_spec _).1, ?_⟩, trivial⟩
      rw [(splitWsParts_spec _).2]; simp

theorem commentTag_sat : SatT src NoState (commentTag env.syn) := by unfold commentTag; sat0
macro_rules | `(tactic| sat_step) => `(tactic| with_reducible exact commentTag_sat _)

end

/-- Position found by `skip_till` of a non-empty delimiter is strictly inside. -/
theorem skipTillGo_prog {src : Str} {α : Type} {e : P α} (he : Prog src NoState e) :
    ∀ i s, i <:+ src → ∀ r j a s', skipTillGo e s i = (.ok r (j, a), s') → j.length < i.length := by
  intro i
  induction i with
  | nil =>
    intro s hi r j a s' h
    have h1 := he s [] hi trivial
    unfold skipTillGo at h
    generalize e s [] = x at h h1
    match x with
    | (.ok j' a', s'') =>
      simp only [Prod.mk.injEq, PRes.ok.injEq] at h
      have := h1 j' a' s'' rfl
      simp at this
    | (.err false _ _, s'') => simp at h
    | (.err true _ _, s'') => simp at h
    | (.stuck, s'') => simp at h
  | cons c cs ih =>
    intro s hi r j a s' h
    have h1 := he s (c :: cs) hi trivial
    unfold skipTillGo at h
    generalize e s (c :: cs) = x at h h1
    match x with
    | (.ok j' a', s'') =>
      simp only [Prod.mk.injEq, PRes.ok.injEq] at h
      rw [← h.1.2.1]
      exact h1 j' a' s'' rfl
    | (.err false _ _, s'') =>
      have := ih s'' ((List.suffix_cons _ _).trans hi) r j a s' h
      simp; omega
    | (.err true _ _, s'') => simp at h
    | (.stuck, s'') => simp at h

theorem prog_tag {σ : Type} {src : Str} {I : σ → Prop} {t : Str} (ht : t ≠ []) :
    Prog src I (PT.tag t : PT σ Str) := by
  intro s i hi hs r a s' h
  unfold PT.tag at h
  split at h
  · rename_i hp
    simp only [Prod.mk.injEq, PRes.ok.injEq] at h
    rw [← h.1.1]
    have hlen : t.length ≤ i.length := (List.isPrefixOf_iff_prefix.1 hp).length_le
    have : 0 < t.length := List.length_pos_iff.2 ht
    simp; omega
  · simp at h

/-- The comment delimiters are not empty (guaranteed by the validation of syntax configurations, C55). -/
def Syntax.CommentOk (syn : Syntax) : Prop := syn.commentStart ≠ [] ∧ syn.commentEnd ≠ []

section
variable {src : Str} (env : PEnv)

theorem commentTag_prog (h : env.syn.CommentOk) : Prog src NoState (commentTag env.syn) := by
  unfold commentTag
  exact Prog.alt (Prog.map (prog_tag h.1)) (SatT.map sat_tag) (Prog.map (prog_tag h.2))

theorem commentContent_out (hc : env.syn.CommentOk) :
    ∀ fuel depth s i, i <:+ src → i.length < fuel →
      Out src i NoState (fun _ => True) (commentContent env.syn fuel depth s i) := by
  intro fuel
  induction fuel with
  | zero => intro depth s i _ h; omega
  | succ fuel ih =>
    intro depth s i hi hl
    unfold commentContent
    show Out src i NoState _ (PT.bind (PT.opt (skipTill (commentTag env.syn))) _ s i)
    unfold PT.bind PT.opt skipTill
    have h1 := satR_skipTill (commentTag_sat (src := src) env) s i hi trivial
    have h2 := skipTillGo_prog (commentTag_prog (src := src) env hc) i s hi
    unfold skipTill at h1
    generalize skipTillGo (commentTag env.syn) s i = x at h1 h2
    match x, h1 with
    | (.err false _ _, s'), h1 => exact ⟨hi, trivial⟩
    | (.err true _ _, s'), h1 => exact h1
    | (.ok r (j, true), s'), h1 =>
      have hlt := h2 r j true s' rfl
      have hj : j <:+ i := h1.2.1.1.trans h1.1
      exact (ih (depth + 1) s' j (hj.trans hi) (by omega)).weaken hj
    | (.ok r (j, false), s'), h1 =>
      have hlt := h2 r j false s' rfl
      have hj : j <:+ i := h1.2.1.1.trans h1.1
      cases depth with
      | zero => exact ⟨hj, trivial, trivial⟩
      | succ depth => exact (ih depth s' j (hj.trans hi) (by omega)).weaken hj

theorem commentP_sat {I : PState → Prop} (hc : env.syn.CommentOk) : SatT src I (commentP env) := by
  unfold commentP
  sbind
  sbind
  intro s i hi hs
  have h1 : Sat src I (PT.cut (PT.lift (commentContent env.syn (i.length + 1) 0)) : SP Unit)
      (fun _ => True) ∨ True := .inr trivial
  have h2 := commentContent_out env hc (i.length + 1) 0 () i hi (by omega)
  show Out src i I _ (PT.bind (PT.recognize (PT.cut (PT.lift (commentContent env.syn (i.length + 1) 0)))) _ s i)
  simp only [PT.bind, PT.recognize, PT.map, PT.consumed, PT.cut, PT.lift, PT.pure]
  generalize commentContent env.syn (i.length + 1) 0 () i = x at h2
  match x, h2 with
  | (.ok r a, s'), h2 => exact ⟨h2.1, trivial, hs⟩
  | (.err _ _ _, s'), h2 => exact ⟨h2.1, hs⟩

end

/-! ### Nodes -/

/-- Post-condition of a list of nodes parsed at level at least `L` and loop depth `d`. -/
def NsOk (T : List Node → Prop) (L d : Nat) (ns : List Node) : Prop :=
  AllNs (nodeOk T) (decide (0 < d)) ns ∧ depthNs ns + L ≤ maxDepth ∧ T ns

/-- Post-condition of one node. -/
def NOk (T : List Node → Prop) (L d : Nat) (n : Node) : Prop :=
  AllN (nodeOk T) (decide (0 < d)) n ∧ depthN n + L ≤ maxDepth

theorem nsOk_of {T : List Node → Prop} {L d : Nat} {ns : List Node} (hL : L ≤ maxDepth) (hT : T ns)
    (h : ∀ n ∈ ns, NOk T L d n) : NsOk T L d ns := by
  suffices AllNs (nodeOk T) (decide (0 < d)) ns ∧ depthNs ns + L ≤ maxDepth from ⟨this.1, this.2, hT⟩
  clear hT
  induction ns with
  | nil => exact ⟨trivial, by simp [depthNs]; exact hL⟩
  | cons n ns ih =>
    have h1 := h n (by simp)
    have h2 := ih fun m hm => h m (by simp [hm])
    refine ⟨⟨h1.1, h2.1⟩, ?_⟩
    have := h1.2; have := h2.2
    simp only [depthNs]; omega

section
variable {src : Str} (env : PEnv) {L d : Nat} {T : List Node → Prop}

/-- A node without inner nodes is fine if it is fine itself. -/
macro "leaf" : tactic => `(tactic| (refine ⟨?_, ?_⟩ <;> simp [AllN, nodeOk, loopsOk, bindsOk, nodeBinds, callsOk,
  exprsOk, shapeOk, innerOk, depthN, Plain, PlainO, PlainL, *]))

theorem closing_sat {I : PState → Prop} {t : Str} : SatT src I (closing t) := by unfold closing; sat0
macro_rules | `(tactic| sat_step) => `(tactic| with_reducible exact closing_sat)

theorem exprNode_sat (hL : L ≤ maxDepth) : Sat src (Inv L d) (exprNode env) (NOk T L d) := by
  unfold exprNode
  sbind
  refine Sat.bind (Q := fun x => Plain x.2) (Sat.cut ?_) fun x hx => ?_
  · sbind
    exact Sat.bind (Sat.ws (exprHere_sat env)) fun e he => sat_pure _ he
  obtain ⟨pws, e⟩ := x
  have hx : Plain e := hx
  dsimp only
  refine SatT.bind (by sat0) fun x => ?_
  obtain ⟨nws, closed⟩ := x
  dsimp only
  split
  · refine sat_pure _ ?_
    leaf
  · exact sat_pos fun i hi => sat_failAt hi

variable {tgt : SP Target} {many : SP (List Node)}

theorem letP_sat (hL : L + 1 ≤ maxDepth) (ht : Sat src (Inv (L + 1) d) tgt TOk) :
    Sat src (Inv (L + 1) d) (letP env tgt) (NOk T L d) := by
  unfold letP
  sbind
  sbind
  refine Sat.cut ?_
  refine Sat.bind (Sat.ws ht) fun var hv => ?_
  have h1 : Sat src (Inv (L + 1) d) (do let _ ← ws (char '='); ws (exprHere env)) Plain := by
    sbind
    exact Sat.ws (exprHere_sat env)
  refine Sat.bind (Sat.opt h1) fun val hval => ?_
  sbind
  refine sat_pure _ ?_
  have := hv.1; have := hv.2; have := plainO_iff.2 hval
  refine ⟨?_, by simp [depthN]; omega⟩
  simp only [AllN, nodeOk, loopsOk, bindsOk, nodeBinds, callsOk, exprsOk, shapeOk, innerOk]
  exact ⟨trivial, hv, trivial, this, trivial, trivial⟩

theorem breakP_sat {word msg : Str} {mk : Ws → Node}
    (hmk : ∀ w, 0 < d → NOk T L d (mk w)) : Sat src (Inv (L + 1) d) (breakP word mk msg) (NOk T L d) := by
  unfold breakP
  refine sat_pos fun i hi => ?_
  sbind
  sbind
  sbind
  refine Sat.bind (sat_get (Q := fun s => s.loopDepth = d) fun s hs => hs.2.2) fun s hs => ?_
  split
  · exact sat_failAt hi
  · refine sat_pure _ (hmk _ (by omega))

theorem includeP_sat (hL : L + 1 ≤ maxDepth) : Sat src (Inv (L + 1) d) includeP (NOk T L d) := by
  unfold includeP
  sbind; sbind
  refine Sat.cut ?_
  sbind; sbind
  refine sat_pure _ ?_
  leaf
  omega

theorem extendsP_sat (hL : L + 1 ≤ maxDepth) : Sat src (Inv (L + 1) d) extendsP (NOk T L d) := by
  unfold extendsP
  refine sat_pos fun i hi => ?_
  sbind; sbind
  refine SatT.bind (by sat0) fun x => ?_
  obtain ⟨path, nws⟩ := x
  dsimp only
  split
  · refine sat_pure _ ?_
    leaf
    omega
  · exact sat_failAt hi

theorem importP_sat (hL : L + 1 ≤ maxDepth) : Sat src (Inv (L + 1) d) importP (NOk T L d) := by
  unfold importP
  sbind; sbind
  refine Sat.cut ?_
  sbind; sbind
  refine Sat.cut ?_
  sbind; sbind
  refine sat_pure _ ?_
  leaf
  omega

theorem callP_sat (hL : L + 1 ≤ maxDepth) : Sat src (Inv (L + 1) d) (callP env) (NOk T L d) := by
  unfold callP
  sbind; sbind
  refine Sat.cut ?_
  sbind; sbind
  refine Sat.bind (Sat.opt (Sat.ws (argsHere_sat env true))) fun args hargs => ?_
  sbind
  refine sat_pure _ ?_
  have ha : ArgList (args.getD []) := by
    cases args with
    | none => exact ⟨[], [], by simp [PlainL]⟩
    | some l => exact hargs l rfl
  refine ⟨?_, by simp [depthN]; omega⟩
  simp only [AllN, nodeOk, loopsOk, bindsOk, nodeBinds, callsOk, exprsOk, shapeOk, innerOk]
  exact ⟨trivial, by simp, ha, trivial, trivial, trivial⟩

theorem endraw_sat {I : PState → Prop} : SatT src I (endraw env) := by unfold endraw; sat0

theorem rawP_sat (hL : L + 1 ≤ maxDepth) : Sat src (Inv (L + 1) d) (rawP env) (NOk T L d) := by
  unfold rawP
  sbind; sbind
  have h1 : SatR src (Inv (L + 1) d) (PT.consumed (skipTill (endraw env))) (fun r x => x.2.1 <:+ r) :=
    ((satR_skipTill (endraw_sat env)).mono fun r x h => h.1).consumed
  refine SatR.goto (Q := fun r x => x.2.2.1 <:+ r) (SatR.cut ?_) ?_
  · refine SatR.bind (Q := fun _ => True) (by sat0) fun nws1 _ => ?_
    refine SatR.bind (Q := fun _ => True) (by sat0) fun _ _ => ?_
    exact SatR.map (f := fun (x : Str × Str × Option Wsp × Option Wsp) => (nws1, x.1, x.2.1, x.2.2.1, x.2.2.2)) h1
  · intro r x hr hx s hs
    obtain ⟨nws1, contents, j, pws2, nws2⟩ := x
    refine out_goto hr hx hs (sat_pure _ ?_)
    have := (splitWsParts_spec contents).1
    leaf
    omega

/-! ### Tags with a body -/

/-- Hypotheses on the parsers of patterns and of node lists, one level deeper. -/
structure Inner (T : List Node → Prop) (src : Str) (tgt : SP Target) (many : SP (List Node)) (L : Nat) : Prop where
  lt : L + 1 ≤ maxDepth
  nil : T []
  tgt : ∀ d, Sat src (Inv (L + 1) d) tgt TOk
  many : ∀ d, Sat src (Inv (L + 1) d) many (NsOk T (L + 1) d)

/-- Plain condition and harmless pattern. -/
def CtOk (c : CondTest) : Prop := Plain c.expr ∧ ∀ t, c.target = some t → TOk t

theorem parseCond_sat {I : PState → Prop} (ht : Sat src I tgt TOk) : Sat src I (parseCond env tgt) CtOk := by
  unfold parseCond
  have h1 : Sat src I (do
      let _ ← ws (alt (kw c!"let") (kw c!"set"))
      let t ← ws tgt
      let _ ← ws (char '=')
      pure t : SP Target) TOk := by
    sbind
    refine Sat.bind (Sat.ws ht) fun t ht => ?_
    sbind
    exact sat_pure _ ht
  refine Sat.bind (Sat.opt h1) fun o ho => ?_
  exact Sat.bind (Sat.ws (exprHere_sat env)) fun e he => sat_pure _ ⟨he, ho⟩

theorem condTest_sat {I : PState → Prop} (ht : Sat src I tgt TOk) : Sat src I (condTest env tgt) CtOk := by
  unfold condTest
  sbind
  exact Sat.cut (parseCond_sat env ht)

/-- A branch of an `if`. -/
def COk (T : List Node → Prop) (L d : Nat) : Cond → Prop
  | .mk _ c ns => (∀ t, c = some t → CtOk t) ∧ NsOk T (L + 1) d ns

theorem condP_sat (h : Inner T src tgt many L) : Sat src (Inv (L + 1) d) (condP env tgt many) (COk T L d) := by
  unfold condP
  sbind; sbind
  refine Sat.bind (Q := fun c => ∀ t, c = some t → CtOk t) (Sat.alt ?_ ?_) fun c hc => ?_
  · sbind
    exact Sat.opt (condTest_sat env (h.tgt d))
  · sbind
    refine Sat.cut (Sat.map ((parseCond_sat env (h.tgt d)).mono fun a ha t ht => ?_))
    cases ht; exact ha
  sbind; sbind
  exact Sat.bind (Sat.cut (h.many d)) fun ns hns => sat_pure _ ⟨hc, hns⟩

theorem endTag_sat {I : PState → Prop} {word : Str} : SatT src I (endTag env word) := by unfold endTag; sat0
macro_rules | `(tactic| sat_step) => `(tactic| with_reducible exact endTag_sat _)

theorem allC_of {cs : List Cond} (hL : L + 1 ≤ maxDepth) (h : ∀ c ∈ cs, COk T L d c) :
    AllC (nodeOk T) (decide (0 < d)) cs ∧ depthC cs + (L + 1) ≤ maxDepth := by
  induction cs with
  | nil => exact ⟨trivial, by simp [depthC]; omega⟩
  | cons c cs ih =>
    obtain ⟨w, t, ns⟩ := c
    have h1 := h _ List.mem_cons_self
    have h2 := ih fun m hm => h m (by simp [hm])
    refine ⟨⟨h1.2.1, h2.1⟩, ?_⟩
    have := h1.2.2; have := h2.2
    simp only [depthC]; omega

theorem cond_binds {cs : List Cond} (h : ∀ c ∈ cs, COk T L d c) (n : Str) (w : Ws)
    (hn : n = c!"self" ∨ n = c!"writer") : n ∉ nodeBinds (.if_ w cs) := by
  simp only [nodeBinds, List.mem_flatMap]
  rintro ⟨⟨w, c, ns⟩, hc, hn'⟩
  have h1 := (h _ hc).1
  cases c with
  | none => simp at hn'
  | some t =>
    cases htt : t.target with
    | none => simp [htt] at hn'
    | some tt =>
      have h2 := (h1 t rfl).2 tt htt
      simp [htt] at hn'
      rcases hn with rfl | rfl
      · exact h2.1 hn'
      · exact h2.2 hn'

theorem ifP_sat (h : Inner T src tgt many L) : Sat src (Inv (L + 1) d) (ifP env tgt many) (NOk T L d) := by
  unfold ifP
  sbind
  refine Sat.bind (condTest_sat env (h.tgt d)) fun c hc => ?_
  refine Sat.cut ?_
  sbind; sbind
  refine Sat.cut ?_
  refine Sat.bind (h.many d) fun ns hns => ?_
  refine Sat.bind (Sat.many0 (condP_sat env h)) fun elifs hel => ?_
  refine Sat.cut ?_
  sbind; sbind
  refine sat_pure _ ?_
  rename_i pws1 nws1 _ pws2 nws2
  have hall : ∀ x ∈ (Cond.mk ⟨pws1, nws1⟩ (some c) ns :: elifs), COk T L d x := by
    intro x hx
    rcases List.mem_cons.1 hx with rfl | hx
    · exact ⟨fun t ht => by cases ht; exact hc, hns⟩
    · exact hel x hx
  have h1 := allC_of h.lt hall
  refine ⟨⟨⟨trivial, ⟨cond_binds hall _ _ (.inl rfl), cond_binds hall _ _ (.inr rfl)⟩, trivial, ?_,
    ⟨_, _, _, _, rfl⟩, fun w c' ns' hm => (hall _ hm).2.2.2⟩, h1.1⟩, by simp only [depthN]; omega⟩
  intro w c' ns' hm t ht
  exact ((hall _ hm).1 t ht).1

theorem loopContent_sat (h : Inner T src tgt many L) :
    Sat src (Inv (L + 1) d) (loopContent many) (NsOk T (L + 1) (d + 1)) := by
  intro s i hi hs
  have h1 := h.many (d + 1) { s with loopDepth := s.loopDepth + 1 } i hi
    ⟨hs.1, hs.2.1, by simp [hs.2.2]⟩
  unfold loopContent
  dsimp only
  generalize many { s with loopDepth := s.loopDepth + 1 } i = x at h1
  match x, h1 with
  | (.ok r a, s'), h1 =>
    exact ⟨h1.1, h1.2.1, h1.2.2.1, h1.2.2.2.1, by simp [h1.2.2.2.2]⟩
  | (.err _ _ _, s'), h1 => exact ⟨h1.1, h1.2.1, h1.2.2.1, by simp [h1.2.2.2]⟩

theorem loopElse_sat (h : Inner T src tgt many L) :
    Sat src (Inv (L + 1) d) (loopElse env many) (fun x => NsOk T (L + 1) d x.2.1) := by
  unfold loopElse
  sbind
  refine Sat.cut ?_
  sbind; sbind
  refine Sat.bind (h.many d) fun ns hns => ?_
  sbind; sbind
  exact sat_pure _ hns

theorem loopP_sat (h : Inner T src tgt many L) : Sat src (Inv (L + 1) d) (loopP env tgt many) (NOk T L d) := by
  unfold loopP
  sbind; sbind
  refine Sat.cut ?_
  refine Sat.bind (Sat.ws (h.tgt d)) fun var hvar => ?_
  sbind
  refine Sat.cut ?_
  refine Sat.bind (Sat.ws (exprHere_sat env)) fun iter hiter => ?_
  have hc : Sat src (Inv (L + 1) d) (do let _ ← ws (kw c!"if"); cut (ws (exprHere env))) Plain := by
    sbind
    exact Sat.cut (Sat.ws (exprHere_sat env))
  refine Sat.bind (Sat.opt hc) fun cond hcond => ?_
  sbind; sbind
  refine Sat.cut ?_
  refine Sat.bind (loopContent_sat h) fun body hbody => ?_
  refine Sat.cut ?_
  sbind; sbind
  refine Sat.bind (Sat.opt (loopElse_sat env h)) fun els hels => ?_
  sbind; sbind
  refine sat_pure _ ?_
  have he : NsOk T (L + 1) d (els.getD (none, [], none)).2.1 := by
    cases els with
    | none => exact nsOk_of h.lt h.nil (by simp)
    | some x => exact hels x rfl
  have hb : AllNs (nodeOk T) true body := by
    have := hbody.1
    simpa using this
  refine ⟨⟨⟨trivial, hvar, trivial, ⟨hiter, plainO_iff.2 hcond⟩, trivial, hbody.2.2, he.2.2⟩, hb, he.1⟩, ?_⟩
  have := hbody.2; have := he.2
  unfold depthN
  have h3 : ∀ a b : Nat, a + (L + 1) ≤ maxDepth → b + (L + 1) ≤ maxDepth → max a b + 1 + L ≤ maxDepth := by omega
  exact h3 _ _ hbody.2.1 he.2.1

/-- An arm of a `match`. -/
def WOk (T : List Node → Prop) (L d : Nat) : When → Prop
  | .mk _ t ns => TOk t ∧ NsOk T (L + 1) d ns

theorem whenElse_sat (h : Inner T src tgt many L) : Sat src (Inv (L + 1) d) (whenElse env many) (WOk T L d) := by
  unfold whenElse
  sbind
  refine Sat.cut ?_
  sbind; sbind
  refine Sat.bind (Sat.cut (h.many d)) fun ns hns => sat_pure _ ⟨?_, hns⟩
  simp [TOk, Target.binds]

theorem whenP_sat (h : Inner T src tgt many L) : Sat src (Inv (L + 1) d) (whenP env tgt many) (WOk T L d) := by
  unfold whenP
  sbind
  refine Sat.cut ?_
  refine Sat.bind (Sat.ws (h.tgt d)) fun t ht => ?_
  sbind; sbind
  exact Sat.bind (Sat.cut (h.many d)) fun ns hns => sat_pure _ ⟨ht, hns⟩

theorem allW_of {cs : List When} (hL : L + 1 ≤ maxDepth) (h : ∀ c ∈ cs, WOk T L d c) :
    AllW (nodeOk T) (decide (0 < d)) cs ∧ depthW cs + (L + 1) ≤ maxDepth := by
  induction cs with
  | nil => exact ⟨trivial, by simp [depthW]; omega⟩
  | cons c cs ih =>
    obtain ⟨w, t, ns⟩ := c
    have h1 := h _ List.mem_cons_self
    have h2 := ih fun m hm => h m (by simp [hm])
    refine ⟨⟨h1.2.1, h2.1⟩, ?_⟩
    have := h1.2.2; have := h2.2
    simp only [depthW]; omega

theorem when_binds {cs : List When} (h : ∀ c ∈ cs, WOk T L d c) (n : Str) (w1 w2 : Ws) (e : Expr)
    (hn : n = c!"self" ∨ n = c!"writer") : n ∉ nodeBinds (.match_ w1 e cs w2) := by
  simp only [nodeBinds, List.mem_flatMap]
  rintro ⟨⟨w, t, ns⟩, hc, hn'⟩
  have h2 := (h _ hc).1
  rcases hn with rfl | rfl
  · exact h2.1 hn'
  · exact h2.2 hn'

theorem many1_ne {σ α : Type} {p : PT σ α} {I : σ → Prop} {Q : α → Prop} (hp : Sat src I p Q) :
    Sat src I (PT.many1 p) (fun l => l ≠ [] ∧ ∀ a ∈ l, Q a) := by
  refine Sat.bind' hp fun a ha => Sat.map ?_
  refine (Sat.many0 hp).mono fun l hl => ⟨by simp, fun b hb => ?_⟩
  rcases List.mem_cons.1 hb with rfl | hb
  · exact ha
  · exact hl b hb

theorem matchP_sat (hc : env.syn.CommentOk) (h : Inner T src tgt many L) :
    Sat src (Inv (L + 1) d) (matchP env tgt many) (NOk T L d) := by
  unfold matchP
  sbind; sbind
  refine Sat.cut ?_
  refine Sat.bind (Sat.ws (exprHere_sat env)) fun e he => ?_
  sbind; sbind
  refine Sat.cut ?_
  refine SatT.bind ?_ fun _ => ?_
  · have := commentP_sat (src := src) (I := Inv (L + 1) d) env hc
    sat0
  refine Sat.bind (many1_ne (whenP_sat env h)) fun arms harms => ?_
  refine Sat.cut ?_
  refine Sat.bind (Sat.opt (whenElse_sat env h)) fun els hels => ?_
  refine Sat.cut ?_
  sbind; sbind; sbind; sbind
  refine sat_pure _ ?_
  have hall : ∀ x ∈ arms ++ els.toList, WOk T L d x := by
    intro x hx
    rcases List.mem_append.1 hx with hx | hx
    · exact harms.2 x hx
    · exact hels x (by simpa using hx)
  have h1 := allW_of h.lt hall
  refine ⟨⟨⟨trivial, ⟨when_binds hall _ _ _ _ (.inl rfl), when_binds hall _ _ _ _ (.inr rfl)⟩, trivial, he, ?_,
    fun w t ns hm => (hall _ hm).2.2.2⟩, h1.1⟩, by simp only [depthN]; omega⟩
  intro he
  exact harms.1 (List.append_eq_nil_iff.1 he).1

theorem endName_sat {I : PState → Prop} {kind name : Str} : SatT src I (endName kind name) := by
  unfold endName
  refine SatT.opt ?_
  refine sat_pos fun i hi => ?_
  sbind
  split <;> sat0
macro_rules | `(tactic| sat_step) => `(tactic| with_reducible exact endName_sat)

theorem blockP_sat (h : Inner T src tgt many L) : Sat src (Inv (L + 1) d) (blockP env many) (NOk T L d) := by
  unfold blockP
  sbind; sbind
  refine SatT.bind (by sat0) fun x => ?_
  obtain ⟨name, nws1⟩ := x
  refine Sat.cut ?_
  refine Sat.bind (h.many d) fun ns hns => ?_
  refine Sat.cut ?_
  sbind
  refine Sat.cut ?_
  sbind; sbind
  refine sat_pure _ ?_
  refine ⟨⟨⟨trivial, by simp [bindsOk, nodeBinds], trivial, trivial, trivial, hns.2.2⟩, hns.1⟩, ?_⟩
  have := hns.2
  simp only [depthN]; omega

theorem parameters_sat {I : PState → Prop} : SatT src I parameters := by unfold parameters; sat0
macro_rules | `(tactic| sat_step) => `(tactic| with_reducible exact parameters_sat)

theorem macroP_sat (h : Inner T src tgt many L) : Sat src (Inv (L + 1) d) (macroP env many) (NOk T L d) := by
  unfold macroP
  refine sat_pos fun i hi => ?_
  sbind; sbind
  refine SatT.bind (by sat0) fun x => ?_
  obtain ⟨name, params, nws1⟩ := x
  dsimp only
  split
  · exact sat_failAt hi
  rename_i hname
  refine Sat.cut ?_
  refine Sat.bind (h.many d) fun ns hns => ?_
  refine Sat.cut ?_
  sbind
  refine Sat.cut ?_
  sbind; sbind
  refine sat_pure _ ?_
  refine ⟨⟨⟨trivial, by simp [bindsOk, nodeBinds], trivial, trivial, hname, hns.2.2⟩, hns.1⟩, ?_⟩
  have := hns.2
  simp only [depthN]; omega

mutual
theorem plain_firstArg : (e : Expr) → Plain e → FirstArg e
  | .filter _ es, h => by
    simp only [Plain] at h
    simp only [FirstArg]
    exact plainL_filterArgs es h.2
  | .boolLit _, h | .numLit _, h | .strLit _, h | .charLit _, h | .path _, h | .rustMacro _ _, h | .var _, h
  | .array _, h | .tuple _, h | .attr _ _, h | .unary _ _, h | .group _, h | .try_ _, h | .index _ _, h | .binop _ _ _, h
  | .range _ _ _, h | .call _ _, h | .namedArg _ _, h | .generated _, h => by simpa only [FirstArg] using h
theorem plainL_filterArgs : (es : List Expr) → PlainL es → FilterArgs es
  | [], _ => by simp [FilterArgs]
  | e :: es, h => by
    simp only [PlainL] at h
    simp only [FilterArgs]
    exact ⟨plain_firstArg e h.1, h.2⟩
end

theorem foldl_filterApp {l : List (Str × Option (List Expr))} {f : FilterApp} (hf : FilterArgs f.args)
    (hl : ∀ p ∈ l, PlainL (p.2.getD [])) :
    FilterArgs (l.foldl (fun (f : FilterApp) x => (⟨x.1, .filter f.name f.args :: x.2.getD []⟩ : FilterApp)) f).args := by
  induction l generalizing f with
  | nil => exact hf
  | cons p l ih =>
    refine ih (f := ⟨p.1, .filter f.name f.args :: p.2.getD []⟩) ?_ (fun q hq => hl q (by simp [hq]))
    exact ⟨by simpa only [FirstArg] using hf, hl p (by simp)⟩

theorem filterBlockP_sat (h : Inner T src tgt many L) :
    Sat src (Inv (L + 1) d) (filterBlockP env many) (NOk T L d) := by
  unfold filterBlockP
  sbind; sbind
  refine Sat.bind (Q := fun x => PlainL (x.2.1.getD []) ∧ ∀ p ∈ x.2.2.1, PlainL (p.2.getD []))
    (Sat.cut ?_) fun x hx => ?_
  · sbind
    refine Sat.bind (Sat.opt (argsHere_sat env false)) fun params hp => ?_
    refine Sat.bind (Sat.many0 (filterHere_sat env)) fun extra hex => ?_
    sbind; sbind; sbind
    exact sat_pure _ ⟨plainL_getD hp, hex⟩
  obtain ⟨name, params, extra, nws1⟩ := x
  dsimp only at hx ⊢
  refine Sat.cut ?_
  refine Sat.bind (h.many d) fun ns hns => ?_
  refine Sat.cut ?_
  sbind; sbind
  refine sat_pure _ ?_
  refine ⟨⟨⟨trivial, by simp [bindsOk, nodeBinds], trivial, ?_, trivial, hns.2.2⟩, hns.1⟩, ?_⟩
  · exact foldl_filterApp (f := ⟨name, params.getD []⟩) (plainL_filterArgs _ hx.1) hx.2
  have := hns.2
  simp only [depthN]; omega

theorem ite_some {α : Type} {c : Prop} [Decidable c] {x p : α} {o : Option α} {P : Prop}
    (h : (if c then some x else o) = some p) (h1 : x = p → P) (h2 : o = some p → P) : P := by
  split at h
  · exact h1 (Option.some.inj h)
  · exact h2 h

theorem tagParser_sat (hc : env.syn.CommentOk) (h : Inner T src tgt many L) {word : Str} {p : SP Node}
    (hp : tagParser env tgt many word = some p) : Sat src (Inv (L + 1) d) p (NOk T L d) := by
  have hL := h.lt
  unfold tagParser at hp
  refine ite_some hp (fun e => ?_) (fun hp => ?_); · exact e ▸ callP_sat env hL
  refine ite_some hp (fun e => ?_) (fun hp => ?_); · exact e ▸ letP_sat env hL (h.tgt d)
  refine ite_some hp (fun e => ?_) (fun hp => ?_); · exact e ▸ ifP_sat env h
  refine ite_some hp (fun e => ?_) (fun hp => ?_); · exact e ▸ loopP_sat env h
  refine ite_some hp (fun e => ?_) (fun hp => ?_); · exact e ▸ matchP_sat env hc h
  refine ite_some hp (fun e => ?_) (fun hp => ?_); · exact e ▸ extendsP_sat hL
  refine ite_some hp (fun e => ?_) (fun hp => ?_); · exact e ▸ includeP_sat hL
  refine ite_some hp (fun e => ?_) (fun hp => ?_); · exact e ▸ importP_sat hL
  refine ite_some hp (fun e => ?_) (fun hp => ?_); · exact e ▸ blockP_sat env h
  refine ite_some hp (fun e => ?_) (fun hp => ?_); · exact e ▸ macroP_sat env h
  refine ite_some hp (fun e => ?_) (fun hp => ?_); · exact e ▸ rawP_sat env hL
  refine ite_some hp (fun e => ?_) (fun hp => ?_); · exact e ▸ breakP_sat fun w hd => ⟨⟨by simp [loopsOk]; omega, by simp [bindsOk, nodeBinds], trivial, trivial, trivial, trivial⟩,
      by simp [depthN]; omega⟩
  refine ite_some hp (fun e => ?_) (fun hp => ?_); · exact e ▸ breakP_sat fun w hd => ⟨⟨by simp [loopsOk]; omega, by simp [bindsOk, nodeBinds], trivial, trivial, trivial, trivial⟩,
      by simp [depthN]; omega⟩
  refine ite_some hp (fun e => ?_) (fun hp => ?_); · exact e ▸ filterBlockP_sat env h
  cases hp

/-- `nest`, a tag parser, `leave`. -/
theorem nested_sat {p : SP Node}
    (hp : L + 1 ≤ maxDepth → Sat src (Inv (L + 1) d) p (NOk T L d)) : Sat src (Inv L d) (nested p) (NOk T L d) := by
  intro s i hi hs
  show Out src i (Inv L d) _ (PT.bind nest _ s i)
  unfold PT.bind nest
  by_cases hm : maxDepth ≤ s.level
  · rw [if_pos hm]; exact ⟨hi, hs⟩
  · rw [if_neg hm]
    dsimp only
    have := hs.1
    have h1 := hp (by omega) { s with level := s.level + 1 } i hi ⟨by simp; omega, by simp; omega, hs.2.2⟩
    generalize p { s with level := s.level + 1 } i = x at h1
    match x, h1 with
    | (.err _ _ _, s1), h1 =>
      have h2 := h1.2
      exact ⟨h1.1, by simp [leave]; have := h2.1; omega, by simp [leave]; have := h2.2.1; omega, h2.2.2⟩
    | (.ok r t, s1), h1 =>
      have h2 := h1.2.2
      exact ⟨h1.1, h1.2.1, by simp [leave]; have := h2.1; omega, by simp [leave]; have := h2.2.1; omega, h2.2.2⟩

theorem nodeP_sat (hc : env.syn.CommentOk) (h : L + 1 ≤ maxDepth → Inner T src tgt many L) :
    Sat src (Inv L d) (nodeP env tgt many) (NOk T L d) := by
  unfold nodeP
  refine sat_pos fun i hi => ?_
  sbind
  refine SatT.bind (by sat0) fun word => ?_
  split
  · exact sat_goto_error hi
  · rename_i p hp
    refine Sat.bind (nested_sat fun hL => tagParser_sat env hc (h hL) hp) fun node hn => ?_
    refine SatT.bind (by sat0) fun closed => ?_
    split
    · exact sat_pure _ hn
    · exact sat_pos fun j hj => sat_failAt hj

theorem nodeAlt_sat (hc : env.syn.CommentOk) (hL : L ≤ maxDepth) (h : L + 1 ≤ maxDepth → Inner T src tgt many L) :
    Sat src (Inv L d) (nodeAlt env tgt many) (NOk T L d) := by
  unfold nodeAlt
  refine Sat.alt (Sat.map ((Sat.lift (litP_sat env)).mono fun l hl => ?_)) ?_
  · refine ⟨⟨trivial, by simp [bindsOk, nodeBinds], trivial, trivial, hl, trivial⟩, by simpa [depthN] using hL⟩
  refine Sat.alt (Sat.map ((commentP_sat env hc).mono fun c _ => ?_)) ?_
  · refine ⟨⟨trivial, by simp [bindsOk, nodeBinds], trivial, trivial, trivial, trivial⟩, by simpa [depthN] using hL⟩
  exact Sat.alt (exprNode_sat env hL) (nodeP_sat env hc h)

/-! ### Tiling of the source -/

/-- The opening delimiters. -/
def _root_.Askama.Syntax.starts (syn : Syntax) : List Str := [syn.blockStart, syn.commentStart, syn.exprStart]

/-- Where a parser can succeed at all. -/
def Front {σ α : Type} (p : PT σ α) (F : Str → Prop) : Prop := ∀ s i r a s', p s i = (.ok r a, s') → F i

/-- Post-condition of success, nothing else. -/
def Post {σ α : Type} (p : PT σ α) (Q : α → Prop) : Prop := ∀ s i r a s', p s i = (.ok r a, s') → Q a

section post
variable {σ α β : Type}

theorem Post.bind {p : PT σ α} {f : α → PT σ β} {Q : β → Prop} (h : ∀ a, Post (f a) Q) : Post (p >>= f) Q := by
  intro s i r b s' hb
  change PT.bind p f s i = _ at hb
  unfold PT.bind at hb
  split at hb
  · exact h _ _ _ _ _ _ hb
  · simp at hb
  · simp at hb

theorem Post.pure {a : α} {Q : α → Prop} (h : Q a) : Post (pure a : PT σ α) Q := by
  intro s i r b s' hb
  change PT.pure a s i = _ at hb
  simp only [PT.pure, Prod.mk.injEq, PRes.ok.injEq] at hb
  rw [← hb.1.2]; exact h

theorem Post.cut {p : PT σ α} {Q : α → Prop} (h : Post p Q) : Post (PT.cut p) Q := by
  intro s i r b s' hb
  unfold PT.cut at hb
  split at hb
  · simp at hb
  · exact h s i r b s' hb

theorem Post.failAt {j : Str} {m : Option Msg} {Q : α → Prop} : Post (PT.failAt j m : PT σ α) Q := by
  intro s i r b s' hb
  simp [PT.failAt] at hb

theorem Post.error {Q : α → Prop} : Post (PT.error : PT σ α) Q := by
  intro s i r b s' hb
  simp [PT.error] at hb

theorem Post.ite {c : Prop} [Decidable c] {p q : PT σ α} {Q : α → Prop} (hp : Post p Q) (hq : Post q Q) :
    Post (if c then p else q) Q := by split <;> assumption

theorem Front.bind {p : PT σ α} {f : α → PT σ β} {F : Str → Prop} (h : Front p F) : Front (p >>= f) F := by
  intro s i r b s' hb
  change PT.bind p f s i = _ at hb
  unfold PT.bind at hb
  split at hb
  · rename_i heq
    exact h _ _ _ _ _ heq
  · simp at hb
  · simp at hb

theorem front_tag {t : Str} : Front (PT.tag t : PT σ Str) (fun i => t <+: i) := by
  intro s i r b s' hb
  unfold PT.tag at hb
  split at hb
  · rename_i h; exact List.isPrefixOf_iff_prefix.1 h
  · simp at hb

end post

/-- Not a literal. -/
abbrev NotLit (n : Node) : Prop := ∀ l, n ≠ .lit l

macro "post" : tactic => `(tactic| ((with_reducible (repeat' first
  | refine Post.pure ?_ | exact Post.failAt | exact Post.error | refine Post.cut ?_
  | refine Post.bind (fun _ => ?_) | refine Post.ite ?_ ?_ | dsimp only | split)) <;> (intro l h; cases h)))

theorem tagParser_notLit {word : Str} {p : SP Node} (hp : tagParser env tgt many word = some p) :
    Post p NotLit := by
  unfold tagParser at hp
  refine ite_some hp (fun e => ?_) (fun hp => ?_); · subst e; unfold callP; post
  refine ite_some hp (fun e => ?_) (fun hp => ?_); · subst e; unfold letP; post
  refine ite_some hp (fun e => ?_) (fun hp => ?_); · subst e; unfold ifP; post
  refine ite_some hp (fun e => ?_) (fun hp => ?_); · subst e; unfold loopP; post
  refine ite_some hp (fun e => ?_) (fun hp => ?_); · subst e; unfold matchP; post
  refine ite_some hp (fun e => ?_) (fun hp => ?_); · subst e; unfold extendsP; post
  refine ite_some hp (fun e => ?_) (fun hp => ?_); · subst e; unfold includeP; post
  refine ite_some hp (fun e => ?_) (fun hp => ?_); · subst e; unfold importP; post
  refine ite_some hp (fun e => ?_) (fun hp => ?_); · subst e; unfold blockP; post
  refine ite_some hp (fun e => ?_) (fun hp => ?_); · subst e; unfold macroP; post
  refine ite_some hp (fun e => ?_) (fun hp => ?_); · subst e; unfold rawP; post
  refine ite_some hp (fun e => ?_) (fun hp => ?_); · subst e; unfold breakP; post
  refine ite_some hp (fun e => ?_) (fun hp => ?_); · subst e; unfold breakP; post
  refine ite_some hp (fun e => ?_) (fun hp => ?_); · subst e; unfold filterBlockP; post
  cases hp

theorem nested_post {p : SP Node} {Q : Node → Prop} (h : Post p Q) : Post (nested p) Q := by
  refine Post.bind fun _ => ?_
  intro s i r b s' hb
  simp only [Prod.mk.injEq] at hb
  exact h s i r b (p s i).2 (Prod.ext hb.1 rfl)

theorem nodeP_notLit : Post (nodeP env tgt many) NotLit := by
  unfold nodeP
  refine Post.bind fun _ => Post.bind fun _ => Post.bind fun _ => ?_
  split
  · exact Post.bind fun _ => Post.error
  · rename_i p hp
    intro s i r b s' hb
    change PT.bind (nested p) _ s i = _ at hb
    unfold PT.bind at hb
    split at hb
    · rename_i n s1 heq
      have hn := nested_post (tagParser_notLit env hp) _ _ _ _ _ heq
      have hpost : Post (do
          if ← PT.cut (closing env.syn.blockEnd) then pure n
          else do
            let j ← pos
            failAt j (some (.unclosed c!"block" env.syn.blockEnd)) : SP Node) NotLit := by
        refine Post.bind fun _ => Post.ite (Post.pure hn) (Post.bind fun _ => Post.failAt)
      exact hpost _ _ _ _ _ hb
    · simp at hb
    · simp at hb

/-- A successful `exprNode` is at an expression delimiter and not a literal. -/
theorem exprNode_front : Front (exprNode env) (fun i => env.syn.exprStart <+: i) ∧ Post (exprNode env) NotLit := by
  constructor
  · unfold exprNode; exact Front.bind front_tag
  · unfold exprNode; post

theorem commentP_front : Front (commentP env) (fun i => env.syn.commentStart <+: i) := by
  unfold commentP; exact Front.bind front_tag

theorem nodeP_front : Front (nodeP env tgt many) (fun i => env.syn.blockStart <+: i) := by
  unfold nodeP
  intro s i r b s' hb
  change PT.bind _ _ s i = _ at hb
  have : Front (do
    let word ← do
      let _ ← tag env.syn.blockStart
      peek do
        let _ ← opt wsMark
        skipWs
        ident
    match tagParser env tgt many word with
    | none => do goto i; error
    | some p => do
      let node ← nested p
      if ← PT.cut (closing env.syn.blockEnd) then pure node
      else do
        let j ← pos
        failAt j (some (.unclosed c!"block" env.syn.blockEnd)) : SP Node) (fun i => env.syn.blockStart <+: i) :=
    Front.bind front_tag
  exact this s i r b s' hb

/-- What `p_start` accepts. -/
theorem anyStart_run (s : Unit) (i : Str) :
    (startsDelim env.syn.starts i ∧ ∃ r a, anyStart env.syn s i = (.ok r a, s)) ∨
    (¬ startsDelim env.syn.starts i ∧ anyStart env.syn s i = (.err false i none, s)) := by
  simp only [anyStart, PT.alt, PT.tag, startsDelim, Syntax.starts]
  by_cases h1 : env.syn.blockStart <+: i
  · left
    exact ⟨⟨_, by simp, h1⟩, by simp [h1]⟩
  by_cases h2 : env.syn.commentStart <+: i
  · left
    exact ⟨⟨_, by simp, h2⟩, by simp [h1, h2]⟩
  by_cases h3 : env.syn.exprStart <+: i
  · left
    exact ⟨⟨_, by simp, h3⟩, by simp [h1, h2, h3]⟩
  · right
    simp [h1, h2, h3]

/-- `skip_till(p_start)` stops at the next delimiter or fails. -/
theorem skipTill_anyStart (i : Str) :
    (∃ t r x, i = t ++ r ∧ skipTillGo (anyStart env.syn) () i = (.ok r x, ()) ∧ startsDelim env.syn.starts r ∧
      ∀ a b, t = a ++ b → b ≠ [] → ¬ startsDelim env.syn.starts (b ++ r)) ∨
    ((∃ j m, skipTillGo (anyStart env.syn) () i = (.err false j m, ())) ∧
      ∀ a b, i = a ++ b → ¬ startsDelim env.syn.starts b) := by
  induction i with
  | nil =>
    unfold skipTillGo
    rcases anyStart_run env () [] with ⟨h, r, a, he⟩ | ⟨h, he⟩
    · left
      refine ⟨[], [], (r, a), rfl, by rw [he], h, ?_⟩
      intro a b hab hb
      exact absurd (List.append_eq_nil_iff.1 hab.symm).2 hb
    · right
      refine ⟨⟨[], none, by rw [he]⟩, ?_⟩
      intro a b hab
      rw [(List.append_eq_nil_iff.1 hab.symm).2]
      exact h
  | cons c cs ih =>
    unfold skipTillGo
    rcases anyStart_run env () (c :: cs) with ⟨h, r, a, he⟩ | ⟨h, he⟩
    · left
      refine ⟨[], c :: cs, (r, a), rfl, by rw [he], h, ?_⟩
      intro a b hab hb
      exact absurd (List.append_eq_nil_iff.1 hab.symm).2 hb
    · rw [he]
      dsimp only
      rcases ih with ⟨t, r, x, ht, hr, hd, hn⟩ | ⟨⟨j, m, hj⟩, hn⟩
      · left
        refine ⟨c :: t, r, x, by simp [ht], hr, hd, ?_⟩
        intro a b hab hb
        cases a with
        | nil =>
          simp only [List.nil_append] at hab
          rw [← hab, List.cons_append, ← ht]; exact h
        | cons a0 a =>
          simp only [List.cons_append, List.cons.injEq] at hab
          exact hn a b hab.2 hb
      · right
        refine ⟨⟨j, m, hj⟩, ?_⟩
        intro a b hab
        cases a with
        | nil =>
          simp only [List.nil_append] at hab
          rw [← hab]; exact h
        | cons a0 a =>
          simp only [List.cons_append, List.cons.injEq] at hab
          exact hn a b hab.2

/-- A literal is the text up to the next delimiter. -/
theorem litP_tile (s : Unit) {i r : Str} {l : Lit} {s' : Unit} (h : litP env s i = (.ok r l, s')) :
    i = l.text ++ r ∧ TextUpTo env.syn.starts l.text r := by
  cases i with
  | nil => cases h
  | cons c cs =>
    have e : ∀ f : Unit → P Lit, (PT.not PT.eof >>= f) s (c :: cs) = f () s (c :: cs) := by
      intro f
      show PT.bind _ f s (c :: cs) = _
      simp [PT.bind, PT.not, PT.eof]
    unfold litP at h
    rw [e] at h
    rcases skipTill_anyStart env (c :: cs) with ⟨t, r1, x, ht, hr, hd, hn⟩ | ⟨⟨j, m, hj⟩, hn⟩
    · have hx : PT.opt (PT.recognize (skipTill (anyStart env.syn))) s (c :: cs) = (.ok r1 (some t), ()) := by
        simp only [PT.opt, PT.recognize, PT.map, PT.bind, PT.consumed, skipTill, PT.pure]
        rw [show s = () from rfl, hr]
        simp only [ht]
        simp
      change PT.bind _ _ s (c :: cs) = _ at h
      unfold PT.bind at h
      rw [hx] at h
      cases t with
      | nil => simp only [PT.error] at h; cases h
      | cons a t =>
        have h : (pure (splitWsParts (a :: t)) : P Lit) () r1 = (.ok r l, s') := h
        change PT.pure (splitWsParts (a :: t)) () r1 = _ at h
        simp only [PT.pure, Prod.mk.injEq, PRes.ok.injEq] at h
        obtain ⟨⟨rfl, rfl⟩, _⟩ := h
        rw [(splitWsParts_spec _).2]
        exact ⟨ht, by simp, .inr hd, hn⟩
    · have hx : PT.opt (PT.recognize (skipTill (anyStart env.syn))) s (c :: cs) = (.ok (c :: cs) none, ()) := by
        simp only [PT.opt, PT.recognize, PT.map, PT.bind, PT.consumed, skipTill, PT.pure]
        rw [show s = () from rfl, hj]
      change PT.bind _ _ s (c :: cs) = _ at h
      unfold PT.bind at h
      rw [hx] at h
      have h : (PRes.ok [] (splitWsParts (c :: cs)), ()) = (PRes.ok r l, s') := h
      simp only [Prod.mk.injEq, PRes.ok.injEq] at h
      obtain ⟨⟨rfl, rfl⟩, _⟩ := h
      rw [(splitWsParts_spec _).2]
      refine ⟨by simp, by simp, .inl rfl, ?_⟩
      intro a b hab _
      rw [List.append_nil]
      exact hn a b hab

/-- One round of `Node::many` covers the source as a tile. -/
theorem nodeAlt_tile {s s' : PState} {i r : Str} {n : Node} (h : nodeAlt env tgt many s i = (.ok r n, s')) :
    (∃ l, n = .lit l ∧ i = l.text ++ r ∧ TextUpTo env.syn.starts l.text r) ∨
    (startsDelim env.syn.starts i ∧ NotLit n) := by
  unfold nodeAlt PT.alt at h
  split at h
  · rename_i h1
    split at h
    · split at h
      · exact .inr ⟨⟨_, by simp [Syntax.starts], nodeP_front env _ _ _ _ _ h⟩, nodeP_notLit env _ _ _ _ _ h⟩
      · exact .inr ⟨⟨_, by simp [Syntax.starts], (exprNode_front env).1 _ _ _ _ _ h⟩,
          (exprNode_front env).2 _ _ _ _ _ h⟩
    · right
      unfold PT.map PT.bind at h
      split at h
      · rename_i heq
        refine ⟨⟨_, by simp [Syntax.starts], commentP_front env _ _ _ _ _ heq⟩, ?_⟩
        simp only [PT.pure, Prod.mk.injEq, PRes.ok.injEq] at h
        rw [← h.1.2]
        intro l hl; cases hl
      · simp at h
      · simp at h
  · left
    unfold PT.map PT.bind PT.lift at h
    generalize hx : litP env () i = x at h
    match x with
    | (.ok r1 l, s1) =>
      simp only [PT.pure, Prod.mk.injEq, PRes.ok.injEq] at h
      obtain ⟨⟨rfl, rfl⟩, _⟩ := h
      exact ⟨l, rfl, litP_tile env () hx⟩
    | (.err _ _ _, s1) => simp at h
    | (.stuck, s1) => simp at h

end

/-- Repetition tiles the source. -/
theorem many0F_tiled {src : Str} {I : PState → Prop} {p : SP Node} {Q : Node → Prop} {delims : List Str}
    (hp : Sat src I p Q)
    (ht : ∀ s i r n s', p s i = (.ok r n, s') → (∃ l, n = .lit l ∧ i = l.text ++ r ∧ TextUpTo delims l.text r) ∨
      (startsDelim delims i ∧ NotLit n)) :
    ∀ fuel s i, i <:+ src → I s → ∀ r ns s', many0F p fuel s i = (.ok r ns, s') → Tiled delims i r ns := by
  intro fuel
  induction fuel with
  | zero => intro s i hi hs r ns s' h; simp [many0F, PT.stuck] at h
  | succ fuel ih =>
    intro s i hi hs r ns s' h
    unfold many0F at h
    have h1 := hp s i hi hs
    have h2 := ht s i
    generalize p s i = x at h h1 h2
    match x, h1 with
    | (.ok r1 n, s1), h1 =>
      dsimp only at h
      split at h
      · simp at h
      · unfold PT.map PT.bind at h
        have h3 := ih s1 r1 (h1.1.trans hi) h1.2.2
        generalize many0F p fuel s1 r1 = y at h h3
        match y with
        | (.ok r2 l, s2) =>
          simp only [PT.pure, Prod.mk.injEq, PRes.ok.injEq] at h
          obtain ⟨⟨rfl, rfl⟩, _⟩ := h
          have h4 := h3 r2 l s2 rfl
          rcases h2 r1 n s1 rfl with ⟨l, rfl, rfl, htx⟩ | ⟨hd, hn⟩
          · exact .lit htx h4
          · exact .tag hd hn h1.1 h4
        | (.err _ _ _, s2) => simp at h
        | (.stuck, s2) => simp at h
    | (.err false _ _, s1), h1 =>
      simp only [Prod.mk.injEq, PRes.ok.injEq] at h
      obtain ⟨⟨rfl, rfl⟩, _⟩ := h
      exact .nil _
    | (.err true _ _, s1), h1 => simp at h

/-- The nodes tile a part of the source. -/
def TiledIn (env : PEnv) (src : Str) (ns : List Node) : Prop :=
  ∃ i e, i <:+ src ∧ e <:+ i ∧ Tiled env.syn.starts i e ns

/-- Strengthening a post-condition by what a success implies. -/
theorem Sat.strengthen {σ α : Type} {src : Str} {I : σ → Prop} {p : PT σ α} {Q R : α → Prop} (hp : Sat src I p Q)
    (h : ∀ s i r a s', i <:+ src → I s → r <:+ i → p s i = (.ok r a, s') → Q a → R a) : Sat src I p R := by
  intro s i hi hs
  have h1 := hp s i hi hs
  have h2 := h s i
  generalize p s i = x at h1 h2
  match x, h1 with
  | (.ok r a, s'), h1 => exact ⟨h1.1, h2 r a s' hi hs h1.1 rfl h1.2.1, h1.2.2⟩
  | (.err _ _ _, s'), h1 => exact h1

/-- `Node::many` at nesting level `L` with fuel for the remaining levels. -/
theorem nodesP_sat (env : PEnv) (hc : env.syn.CommentOk) (src : Str) :
    ∀ fuel L d, maxDepth < fuel + L → L ≤ maxDepth →
      Sat src (Inv L d) (nodesP env fuel) (NsOk (TiledIn env src) L d) := by
  intro fuel
  induction fuel with
  | zero => intro L d h1 h2; omega
  | succ fuel ih =>
    intro L d h1 h2
    unfold nodesP
    have hn : Sat src (Inv L d) (nodeAlt env (target env nestFuel) (nodesP env fuel)) (NOk (TiledIn env src) L d) := by
      refine nodeAlt_sat env hc h2 fun hL => ⟨hL, ⟨[], [], List.nil_suffix, List.nil_suffix, .nil _⟩, fun d => ?_, fun d => ?_⟩
      · exact target_sat env nestFuel (L + 1) (by simp [nestFuel]; omega)
      · exact ih (L + 1) d (by omega) hL
    refine Sat.strengthen (Sat.many0 hn) fun s i r ns s' hi hs hr hrun hl => nsOk_of h2 ⟨i, r, hi, hr, ?_⟩ hl
    exact many0F_tiled hn (fun s i r n s' h => nodeAlt_tile env h) _ s i hi hs r ns s' hrun

end Askama
