import Verif.Lemmas.DocRead
import Verif.Spec.Stray

/-!
# What must not follow in an open tag is refused (C69)
-/

namespace Askama

open Spec PT Props

/-! ### Refusing -/

/-- The parser gives up for good, with such a message. -/
def Refuses {α : Type} (q : Option Msg → Prop) (p : SP α) (s : PState) (i : Str) : Prop :=
  ∃ j m s', p s i = (.err true j m, s') ∧ q m

section

variable {α β : Type} {q : Option Msg → Prop} {p : SP α} {s s' : PState} {i r j : Str} {a : α} {m : Option Msg} {c : Bool}

theorem refuses_bind {f : α → SP β} (h : Refuses q p s i) : Refuses q (p >>= f) s i := by
  obtain ⟨j, m, s', h, hq⟩ := h
  exact ⟨j, m, s', bind_err h, hq⟩

theorem refuses_step {f : α → SP β} (h : p s i = (.ok r a, s')) (h2 : Refuses q (f a) s' r) : Refuses q (p >>= f) s i := by
  obtain ⟨j, m, s1, h2, hq⟩ := h2
  exact ⟨j, m, s1, by rw [bind_ok h]; exact h2, hq⟩

theorem refuses_cut (h : Refuses q p s i) : Refuses q (PT.cut p) s i := by
  obtain ⟨j, m, s', h, hq⟩ := h
  exact ⟨j, m, s', cut_err h, hq⟩

theorem refuses_soft (hq : ∀ m, q m) (h : p s i = (.err c j m, s')) : Refuses q (PT.cut p) s i :=
  ⟨j, m, s', cut_err h, hq m⟩

/-- The parser gives up, perhaps not for good. -/
def Fails {α : Type} (p : SP α) (s : PState) (i : Str) : Prop := ∃ c j m s', p s i = (.err c j m, s')

theorem fails_step {f : α → SP β} (h : p s i = (.ok r a, s')) (h2 : Fails (f a) s' r) : Fails (p >>= f) s i := by
  obtain ⟨c, j, m, s1, h2⟩ := h2
  exact ⟨c, j, m, s1, by rw [bind_ok h]; exact h2⟩

theorem fails_bind {f : α → SP β} (h : p s i = (.err c j m, s')) : Fails (p >>= f) s i := ⟨c, j, m, s', bind_err h⟩

theorem refuses_fails (hq : ∀ m, q m) (h : Fails p s i) : Refuses q (PT.cut p) s i := by
  obtain ⟨c, j, m, s1, h⟩ := h
  exact refuses_soft hq h

theorem refuses_opt (h : Refuses q p s i) : Refuses q (PT.opt p) s i := by
  obtain ⟨j, m, s', h, hq⟩ := h
  exact ⟨j, m, s', opt_fail h, hq⟩

theorem refuses_alt {p2 : SP α} (h : Refuses q p s i) : Refuses q (PT.alt p p2) s i := by
  obtain ⟨j, m, s', h, hq⟩ := h
  exact ⟨j, m, s', alt_fail h, hq⟩

theorem refuses_many0 (h : Refuses q p s i) : Refuses q (PT.many0 p) s i := by
  obtain ⟨j, m, s', h, hq⟩ := h
  exact ⟨j, m, s', many0F_fail h, hq⟩

theorem refuses_many0_cons (h : p s i = (.ok r a, s')) (hlt : r.length < i.length) (h2 : Refuses q (PT.many0 p) s' r) :
    Refuses q (PT.many0 p) s i := by
  obtain ⟨j, m, s1, h2, hq⟩ := h2
  exact ⟨j, m, s1, many0_cons_fail h hlt h2, hq⟩

end

variable {env : PEnv} {s : PState} {loop : Bool} {q : Option Msg → Prop}

/-- A block tag is refused if its own parser refuses it. -/
theorem node_refuses {tgt : SP Target} {many : SP (List Node)} (hs : Std env) {word R b : Str} {m : Option Wsp} {p : SP Node}
    (hb : Blank b) (hw : IsIdent word) (hR : NoIdent R) (hp : tagParser env tgt many word = some p) (hl : s.level < maxDepth)
    (h : Refuses q p { s with level := s.level + 1 } (mark m ++ (b ++ (word ++ R)))) :
    Refuses q (nodeAlt env tgt many) s (env.syn.blockStart ++ (mark m ++ (b ++ (word ++ R)))) := by
  obtain ⟨j, msg, s', h, hq⟩ := h
  refine ⟨j, msg, leave s', ?_, hq⟩
  rw [nodeAlt_block (List.prefix_append _ _) block_not.1 block_not.2]
  have hn := nodeP_word (m1 := m) hw hb hR hp hl
  rw [h] at hn
  exact hn

/-- What follows is not one of these words in a tag. -/
def StrayTo (syn : Syntax) (closers : List Str) (r : Str) : Prop :=
  r = [] ∨ ∃ word, TagOf syn word r ∧ IsIdent word ∧ word ∉ tagWords ∧ word ∉ closers

theorem StrayTo.stops {cl : List Str} {r : Str} (h : StrayTo env.syn cl r) : Stops env.syn r := by
  rcases h with rfl | ⟨word, h1, h2, h3, -⟩
  · exact .inl rfl
  · exact h1.stops h2 h3

theorem StrayTo.endTag {cl : List Str} {r word : Str} (hs : Std env) (h : StrayTo env.syn cl r) (hw : word ∈ cl) :
    ∃ j m, Askama.endTag env word s r = (.err false j m, s) := by
  rcases h with rfl | ⟨word', h1, h2, -, h4⟩
  · refine ⟨[], none, ?_⟩
    unfold Askama.endTag
    exact bind_err (tag_err (by simp [start_ne (syn := env.syn)]))
  · exact endTag_no hs h1 h2 (fun e => h4 (e ▸ hw))

/-- The parser refuses what follows, or ends where none of these tags is. -/
def Astray {α : Type} (syn : Syntax) (q : Option Msg → Prop) (cl : List Str) (p : SP α) (s : PState) (i bad : Str) : Prop :=
  Refuses q p s i ∨ ((∀ m, q m) ∧ (∃ a, p s i = (.ok bad a, s)) ∧ StrayTo syn cl bad ∧ bad.length ≤ i.length)

section

variable {α β : Type} {p : SP α} {i r bad : Str} {cl : List Str} {a : α} {f : α → SP β}

/-- After it, nothing more is read. -/
theorem Astray.seq (h : Astray env.syn q cl p s i bad) (hf : ∀ a, (∀ m, q m) → StrayTo env.syn cl bad → Refuses q (f a) s bad) :
    Refuses q (p >>= f) s i := by
  rcases h with h | ⟨h1, ⟨a, h2⟩, h3, -⟩
  · exact refuses_bind h
  · exact refuses_step h2 (hf a h1 h3)

theorem Astray.step (h : p s i = (.ok r a, s)) (h2 : Astray env.syn q cl (f a) s r bad) (hl : r.length ≤ i.length) : Astray env.syn q cl (p >>= f) s i bad := by
  rcases h2 with h2 | ⟨h1, ⟨b, h2⟩, h3, h4⟩
  · exact .inl (refuses_step h h2)
  · exact .inr ⟨h1, ⟨b, by rw [bind_ok h]; exact h2⟩, h3, by omega⟩

theorem Astray.cut (h : Astray env.syn q cl p s i bad) : Astray env.syn q cl (PT.cut p) s i bad := by
  rcases h with h | ⟨h1, ⟨b, h2⟩, h3, h4⟩
  · exact .inl (refuses_cut h)
  · exact .inr ⟨h1, ⟨b, cut_ok h2⟩, h3, h4⟩

theorem Astray.last (h : Astray env.syn q cl p s i bad) {g : α → β} : Astray env.syn q cl (p >>= fun a => (pure (g a) : SP β)) s i bad := by
  rcases h with h | ⟨h1, ⟨b, h2⟩, h3, h4⟩
  · exact .inl (refuses_bind h)
  · exact .inr ⟨h1, ⟨g b, by rw [bind_ok h2]; rfl⟩, h3, h4⟩

theorem Astray.map (h : Astray env.syn q cl p s i bad) {g : α → β} : Astray env.syn q cl (PT.map g p) s i bad := by
  rcases h with h | ⟨h1, ⟨b, h2⟩, h3, h4⟩
  · exact .inl (by
      obtain ⟨j, m, s', h, hq⟩ := h
      exact ⟨j, m, s', map_err h, hq⟩)
  · exact .inr ⟨h1, ⟨g b, map_ok h2⟩, h3, h4⟩

theorem Astray.many0 (h : Astray env.syn q cl p s i bad) (hlt : bad.length < i.length) (hp : StrayTo env.syn cl bad → ∃ j m, p s bad = (.err false j m, s)) :
    Astray env.syn q cl (PT.many0 p) s i bad := by
  rcases h with h | ⟨h1, ⟨b, h2⟩, h3, h4⟩
  · exact .inl (refuses_many0 h)
  · obtain ⟨j, m, hj⟩ := hp h3
    exact .inr ⟨h1, ⟨[b], many0_cons h2 hlt (many0_stop hj)⟩, h3, h4⟩

theorem Astray.many0_cons (h : p s i = (.ok r a, s)) (hlt : r.length < i.length) (h2 : Astray env.syn q cl (PT.many0 p) s r bad) :
    Astray env.syn q cl (PT.many0 p) s i bad := by
  rcases h2 with h2 | ⟨h1, ⟨b, h2⟩, h3, h4⟩
  · exact .inl (refuses_many0_cons h hlt h2)
  · exact .inr ⟨h1, ⟨a :: b, Askama.many0_cons h hlt h2⟩, h3, by omega⟩

end

theorem condP_stray {cl : List Str} {many : SP (List Node)} {r : Str} (hs : Std env) (h : StrayTo env.syn cl r) (h1 : c!"else" ∈ cl)
    (h2 : c!"elif" ∈ cl) : ∃ j m, condP env (target env nestFuel) many s r = (.err false j m, s) := by
  rcases h with rfl | ⟨word, ⟨mk, b, i, rfl, hb, hi⟩, hw, -, hn⟩
  · refine ⟨[], none, ?_⟩
    unfold condP
    exact bind_err (tag_err (by simp [start_ne (syn := env.syn)]))
  · obtain ⟨j1, m1, e1⟩ := kwOther (s := s) (k := c!"else") hb hw hi (fun e => hn (e ▸ h1))
    obtain ⟨j2, m2, e2⟩ := kwOther (s := s) (k := c!"elif") hb hw hi (fun e => hn (e ▸ h2))
    refine ⟨j2, m2, ?_⟩
    unfold condP
    rw [bind_ok tag_ok, bind_ok (markStart hb hw)]
    exact bind_err ((alt_err (bind_err e1)).trans (bind_err e2))

theorem whenP_stray {cl : List Str} {many : SP (List Node)} {r : Str} (hs : Std env) (h : StrayTo env.syn cl r) (h1 : c!"when" ∈ cl) :
    ∃ j m, whenP env (target env nestFuel) many s r = (.err false j m, s) := by
  obtain ⟨j, m, hj⟩ := h.endTag (s := s) hs h1
  exact ⟨j, m, by unfold whenP; exact bind_err hj⟩

/-! ### `if` -/

/-- After the condition of an `if`. -/
theorem if_open {w : Lay} {c : DocTest} {R : Str} {fuel : Nat} (hs : Std env) (h1 : c.Ok env.isLower)
    (hl : s.level + (c.need + 1) ≤ maxDepth)
    (h : Refuses q (do
      let nodes ← nodesP env fuel
      let elifs ← PT.many0 (condP env (target env nestFuel) (nodesP env fuel))
      PT.cut do
        let pws2 ← endTag env c!"endif"
        let nws2 ← opt wsMark
        pure (Node.if_ ⟨pws2, nws2⟩ (.mk ⟨w.l, w.r⟩ (some c.tree) nodes :: elifs))) { s with level := s.level + 1 } R) :
    Refuses q (nodeAlt env (target env nestFuel) (nodesP env fuel)) s (tagText env.syn w (c!"if" ++ (sep (w.g.gap 5) ++ c.write (w.g.sub 0))) ++ R) := by
  have hsrc : tagText env.syn w (c!"if" ++ (sep (w.g.gap 5) ++ c.write (w.g.sub 0))) ++ R = env.syn.blockStart ++ (mark w.l ++ (w.g.gap 1 ++ (c!"if" ++ (sep (w.g.gap 5) ++ (c.write (w.g.sub 0) ++
      tagEnd env.syn w R))))) := by
    rw [tagText_eq]
    simp
  rw [hsrc]
  refine node_refuses hs gapB ident_if sp_noIdent rfl (by omega) ?_
  generalize hs' : ({ s with level := s.level + 1 } : PState) = s' at h
  have hlev : s'.level = s.level + 1 := by rw [← hs']
  unfold ifP
  refine refuses_step (markStart gapB ident_if) (refuses_step (condTest_read gapB h1 (by omega)) (refuses_cut ?_))
  exact refuses_step markClose (refuses_step tag_ok (refuses_cut h))

theorem branch_sem (hs : Std env) {b : DocBranch} : b.Ok env.syn env.isLower loop → match b with
    | .elseIf _ _ c body => c.Ok env.isLower ∧ DocsSem env loop body
    | .else_ _ body => DocsSem env loop body := by
  intro h
  cases b with
  | elseIf short w c body => exact ⟨h.1, sem_docs hs loop body h.2⟩
  | else_ w body => exact sem_docs hs loop body h

/-- Branches that are read, and one that is bad. -/
theorem branches_then (hs : Std env) {fuel : Nat} {R bad : Str} {cl : List Str} (hR : Stops env.syn R)
    (h : Astray env.syn q cl (PT.many0 (condP env (target env nestFuel) (nodesP env fuel))) s R bad) : ∀ bs : List DocBranch,
    DocBranch.Oks env.syn env.isLower loop bs → DocBranch.needs bs + 1 ≤ fuel → s.level + DocBranch.needs bs ≤ maxDepth →
    (loop = true → s.loopDepth ≠ 0) →
    Stops env.syn (DocBranch.texts env.syn bs ++ R) ∧
    Astray env.syn q cl (PT.many0 (condP env (target env nestFuel) (nodesP env fuel))) s (DocBranch.texts env.syn bs ++ R) bad
  | [], _, _, _, _ => ⟨hR, h⟩
  | b :: bs, hok, hn, hl, hloop => by
    simp only [DocBranch.needs] at hn hl
    obtain ⟨h1, h2⟩ := branches_then hs hR h bs hok.2 (by omega) (by omega) hloop
    have hlen : 0 < (b.text env.syn).length := by
      have := List.length_pos_iff.2 (start_ne (syn := env.syn)).1
      cases b <;> simp only [DocBranch.text, tagText, List.length_append, List.length_cons] <;> omega
    rw [DocBranch.texts, List.append_assoc]
    refine ⟨?_, Astray.many0_cons (branch_read hs (branch_sem hs hok.1) (by omega) (by omega) hloop h1)
      (by simp only [List.length_append]; omega) h2⟩
    cases b with
    | elseIf short w c body =>
      rw [DocBranch.text, List.append_assoc]
      cases short with
      | true => exact stops_tag (i := sep (w.g.gap 5) ++ c.write (w.g.sub 0)) ident_elif.1 ident_elif.2 (by rw [List.append_assoc]; exact sp_noIdent)
      | false =>
        have := stops_tag (syn := env.syn) (w := w) (word := c!"else") (i := sep (w.g.gap 7) ++ (c!"if" ++ (sep (w.g.gap 5) ++ c.write (w.g.sub 0))))
          (rest := Doc.texts env.syn body ++ (DocBranch.texts env.syn bs ++ R)) ident_else.1 ident_else.2
          (by rw [List.append_assoc]; exact sp_noIdent (g := w.g))
        simpa only [Bool.false_eq_true, if_false, List.append_assoc] using this
    | else_ w body =>
      rw [DocBranch.text, List.append_assoc]
      exact stops_word ident_else.1 ident_else.2

/-- The text of the start of a branch. -/
def branchHead (syn : Syntax) (short : Bool) (w : Lay) : Option DocTest → Str
  | some t => tagText syn w ((if short then c!"elif" else c!"else" ++ (sep (w.g.gap 7) ++ c!"if")) ++ (sep (w.g.gap 5) ++ t.write (w.g.sub 0)))
  | none => tagText syn w c!"else"

/-- The start of a branch: its text, and what is read of it. -/
theorem branch_open {w : Lay} {B : Str} {many : SP (List Node)} (hs : Std env) (short : Bool) (c : Option DocTest)
    (h1 : ∀ t, c = some t → t.Ok env.isLower ∧ s.level + t.need ≤ maxDepth) :
    ∃ hd, hd = branchHead env.syn short w c ∧ Stops env.syn (hd ++ B) ∧ 0 < hd.length ∧
      condP env (target env nestFuel) many s (hd ++ B) =
        ((PT.cut many : SP (List Node)) >>= fun nodes => (pure (Cond.mk ⟨w.l, w.r⟩ (c.map DocTest.tree) nodes) : SP Cond)) s B := by
  refine ⟨_, rfl, ?_, ?_, ?_⟩
  · cases c with
    | some c =>
      cases short with
      | true => exact stops_tag (i := sep (w.g.gap 5) ++ c.write (w.g.sub 0)) ident_elif.1 ident_elif.2 (by rw [List.append_assoc]; exact sp_noIdent)
      | false =>
        have := stops_tag (syn := env.syn) (w := w) (word := c!"else") (i := sep (w.g.gap 7) ++ (c!"if" ++ (sep (w.g.gap 5) ++ c.write (w.g.sub 0))))
          (rest := B) ident_else.1 ident_else.2 (by rw [List.append_assoc]; exact sp_noIdent (g := w.g))
        simpa only [branchHead, Bool.false_eq_true, if_false, List.append_assoc] using this
    | none => exact stops_word ident_else.1 ident_else.2
  · have := List.length_pos_iff.2 (start_ne (syn := env.syn)).1
    cases c <;> simp only [branchHead, tagText, List.length_append, List.length_cons] <;> omega
  unfold condP branchHead
  cases c with
  | some c =>
    obtain ⟨h1, hl⟩ := h1 c rfl
    cases short with
    | false =>
      have hsrc : tagText env.syn w ((if false = true then c!"elif" else c!"else" ++ (sep (w.g.gap 7) ++ c!"if")) ++ (sep (w.g.gap 5) ++ c.write (w.g.sub 0))) ++ B = env.syn.blockStart ++ (mark w.l ++ (w.g.gap 1 ++
          (c!"else" ++ (sep (w.g.gap 7) ++ (c!"if" ++ (sep (w.g.gap 5) ++ (c.write (w.g.sub 0) ++ tagEnd env.syn w B))))))) := by
        rw [tagText_eq]
        simp
      dsimp only
      rw [hsrc, bind_ok tag_ok, bind_ok (markStart gapB ident_else.1)]
      have halt : (PT.alt
          (do let _ ← ws (kw c!"else"); opt (condTest env (target env nestFuel)))
          (do let _ ← ws (kw c!"elif"); PT.cut ((parseCond env (target env nestFuel)).map some)) : SP (Option CondTest)) s
          (w.g.gap 1 ++ (c!"else" ++ (sep (w.g.gap 7) ++ (c!"if" ++ (sep (w.g.gap 5) ++ (c.write (w.g.sub 0) ++ tagEnd env.syn w B)))))) =
          (.ok (mark w.r ++ (env.syn.blockEnd ++ B)) (some c.tree), s) := by
        refine alt_ok ?_
        rw [bind_ok (kwSp gapB ident_else.1 (noWs_ident ident_if))]
        exact opt_ok (condTest_read (b := []) blank_nil h1 (by omega))
      rw [bind_ok halt, bind_ok markClose, bind_ok (cut_ok tag_ok)]
      rfl
    | true =>
      have hsrc : tagText env.syn w ((if true = true then c!"elif" else c!"else" ++ (sep (w.g.gap 7) ++ c!"if")) ++ (sep (w.g.gap 5) ++ c.write (w.g.sub 0))) ++ B = env.syn.blockStart ++ (mark w.l ++ (w.g.gap 1 ++
          (c!"elif" ++ (sep (w.g.gap 5) ++ (c.write (w.g.sub 0) ++ tagEnd env.syn w B))))) := by
        rw [tagText_eq]
        simp
      dsimp only
      rw [hsrc, bind_ok tag_ok, bind_ok (markStart gapB ident_elif.1)]
      obtain ⟨j, m, hj⟩ := kwOther (s := s) (k := c!"else") (r := sep (w.g.gap 5) ++ (c.write (w.g.sub 0) ++ tagEnd env.syn w B))
        (gapB (g := w.g) (k := 1)) ident_elif.1 sp_noIdent (by decide)
      have halt : (PT.alt
          (do let _ ← ws (kw c!"else"); opt (condTest env (target env nestFuel)))
          (do let _ ← ws (kw c!"elif"); PT.cut ((parseCond env (target env nestFuel)).map some)) : SP (Option CondTest)) s
          (w.g.gap 1 ++ (c!"elif" ++ (sep (w.g.gap 5) ++ (c.write (w.g.sub 0) ++ tagEnd env.syn w B)))) =
          (.ok (mark w.r ++ (env.syn.blockEnd ++ B)) (some c.tree), s) := by
        rw [alt_err (bind_err hj), bind_ok (kwSp gapB ident_elif.1 (test_noWs h1 _))]
        exact cut_ok (map_ok (cond_read h1 (by omega)))
      rw [bind_ok halt, bind_ok markClose, bind_ok (cut_ok tag_ok)]
      rfl
  | none =>
    dsimp only
    rw [tagText_eq, bind_ok tag_ok, bind_ok (markStart gapB ident_else.1)]
    obtain ⟨j, m, hj⟩ := kwClose (syn := env.syn) (s := s) (k := c!"if") (m := w.r) (r := B) (by simp)
    have halt : (PT.alt
        (do let _ ← ws (kw c!"else"); opt (condTest env (target env nestFuel)))
        (do let _ ← ws (kw c!"elif"); PT.cut ((parseCond env (target env nestFuel)).map some)) : SP (Option CondTest)) s
        (w.g.gap 1 ++ (c!"else" ++ tagEnd env.syn w B)) = (.ok (mark w.r ++ (env.syn.blockEnd ++ B)) none, s) := by
      refine alt_ok ?_
      rw [bind_ok (kwEnd gapB ident_else.1)]
      exact opt_err (bind_err hj)
    rw [bind_ok halt, bind_ok markClose, bind_ok (cut_ok tag_ok)]
    rfl

/-- The closing words of an `if`. -/
def ifClosers : List Str := [c!"else", c!"elif", c!"endif"]

/-- After the last branch. -/
theorem if_end {w : Lay} {c : DocTest} {ns : List Node} {elifs : List Cond} {bad : Str} (hs : Std env) (hq : ∀ m, q m)
    (h : StrayTo env.syn ifClosers bad) : Refuses q (PT.cut do
        let pws2 ← endTag env c!"endif"
        let nws2 ← opt wsMark
        pure (Node.if_ ⟨pws2, nws2⟩ (.mk ⟨w.l, w.r⟩ (some c.tree) ns :: elifs))) s bad := by
  obtain ⟨j, m, hj⟩ := h.endTag (s := s) hs (word := c!"endif") (by simp [ifClosers])
  exact refuses_soft hq (bind_err hj)

/-- `{% if … %}` with a body that is bad. -/
theorem if_astray {w : Lay} {c : DocTest} {B bad : Str} {fuel : Nat} (hs : Std env) (h1 : c.Ok env.isLower)
    (hl : s.level + (c.need + 1) ≤ maxDepth)
    (h : Astray env.syn q ifClosers (nodesP env fuel) { s with level := s.level + 1 } B bad) :
    Refuses q (nodeAlt env (target env nestFuel) (nodesP env fuel)) s (tagText env.syn w (c!"if" ++ (sep (w.g.gap 5) ++ c.write (w.g.sub 0))) ++ B) := by
  refine if_open hs h1 hl ?_
  refine h.seq fun ns hq hst => ?_
  obtain ⟨j, m, hj⟩ := condP_stray (s := { s with level := s.level + 1 }) (many := nodesP env fuel) hs hst (by simp [ifClosers])
    (by simp [ifClosers])
  exact refuses_step (many0_stop hj) (if_end hs hq hst)

/-- `{% if … %}` with branches, the last of which has a body that is bad. -/
theorem branch_astray {w w' : Lay} {c : DocTest} {body : List Doc} {more : List DocBranch} {short : Bool} {c' : Option DocTest}
    {B bad : Str} {fuel : Nat} (hs : Std env)
    (h1 : c.Ok env.isLower) (h2 : Doc.Oks env.syn env.isLower loop body) (h3 : DocBranch.Oks env.syn env.isLower loop more)
    (h4 : ∀ t, c' = some t → t.Ok env.isLower ∧ s.level + (t.need + 1) ≤ maxDepth)
    (hn : max (Doc.needs body) (DocBranch.needs more) + 1 ≤ fuel)
    (hl : s.level + (max c.need (max (Doc.needs body) (DocBranch.needs more)) + 1) ≤ maxDepth)
    (hloop : loop = true → s.loopDepth ≠ 0)
    (h : Astray env.syn q ifClosers (nodesP env fuel) { s with level := s.level + 1 } B bad) :
    Refuses q (nodeAlt env (target env nestFuel) (nodesP env fuel)) s
      (tagText env.syn w (c!"if" ++ (sep (w.g.gap 5) ++ c.write (w.g.sub 0))) ++ (Doc.texts env.syn body ++ (DocBranch.texts env.syn more ++
        (branchHead env.syn short w' c' ++ B)))) := by
  refine if_open hs h1 (by omega) ?_
  generalize hs' : ({ s with level := s.level + 1 } : PState) = s' at h
  have hlev : s'.level = s.level + 1 := by rw [← hs']
  have hlp : loop = true → s'.loopDepth ≠ 0 := by rw [← hs']; exact hloop
  obtain ⟨hd, hhd, hst, hpos, hrun⟩ := branch_open (s := s') (w := w') (B := B) (many := nodesP env fuel) hs short c'
    (fun t ht => ⟨(h4 t ht).1, by have := (h4 t ht).2; omega⟩)
  rw [← hhd]
  have hb : Astray env.syn q ifClosers (condP env (target env nestFuel) (nodesP env fuel)) s' (hd ++ B) bad := by
    rcases h with ⟨j, m, s1, h, hq⟩ | ⟨hq, ⟨ns, h⟩, h5, h6⟩
    · exact .inl ⟨j, m, s1, by rw [hrun]; exact bind_err (cut_err h), hq⟩
    · exact .inr ⟨hq, ⟨_, by rw [hrun, bind_ok (cut_ok h)]; rfl⟩, h5, by rw [List.length_append]; omega⟩
  have hm : Astray env.syn q ifClosers (PT.many0 (condP env (target env nestFuel) (nodesP env fuel))) s' (hd ++ B) bad := by
    rcases h with ⟨j, m, s1, h, hq⟩ | ⟨hq, ⟨ns, h⟩, h5, h6⟩
    · exact .inl (refuses_many0 ⟨j, m, s1, by rw [hrun]; exact bind_err (cut_err h), hq⟩)
    · exact hb.many0 (by rw [List.length_append]; omega) fun hst => condP_stray hs hst (by simp [ifClosers]) (by simp [ifClosers])
  obtain ⟨h5, h6⟩ := branches_then hs hst hm more h3 (by omega) (by omega) hlp
  refine refuses_step (sem_docs hs loop body h2 fuel s' _ (by omega) (by omega) hlp h5) ?_
  exact h6.seq fun elifs hq hst => if_end hs hq hst

/-! ### `for` -/

/-- After the start of a loop. -/
theorem for_open {w : Lay} {p : Pt} {iter : Tm} {cond : Option Tm} {R : Str} {fuel : Nat} (hs : Std env)
    (h1 : ForOk env.isLower p iter cond) (hl : s.level + (forNeed p iter cond + 1) ≤ maxDepth)
    (h : Refuses q (do
        let body ← loopContent (nodesP env fuel)
        PT.cut do
          let _ ← tag env.syn.blockStart
          let pws2 ← opt wsMark
          let els ← opt (loopElse env (nodesP env fuel))
          let _ ← ws (kw c!"endfor")
          let nws2 ← opt wsMark
          let (nws3, elseNodes, pws3) := els.getD (none, [], none)
          pure (Node.loop ⟨w.l, w.r⟩ p.tree iter.tree (cond.map Tm.tree) body ⟨pws2, nws3⟩ elseNodes ⟨pws3, nws2⟩))
      { s with level := s.level + 1 } R) :
    Refuses q (nodeAlt env (target env nestFuel) (nodesP env fuel)) s (tagText env.syn w (forText w.g p iter cond) ++ R) := by
  obtain ⟨h1, h2, h3⟩ := h1
  unfold forNeed at hl
  have hsrc : tagText env.syn w (forText w.g p iter cond) ++ R = env.syn.blockStart ++ (mark w.l ++ (w.g.gap 1 ++ (c!"for" ++ (sep (w.g.gap 5) ++ (p.write (w.g.sub 0) ++
      (sep (w.g.gap 7) ++ (c!"in" ++ (sep (w.g.gap 9) ++ (iter.write (w.g.sub 1) ++ (condSrc w.g cond ++ tagEnd env.syn w R)))))))))) := by
    cases cond <;> simp [forText, tagText, tagEnd, condSrc]
  rw [hsrc]
  refine node_refuses hs gapB ident_for sp_noIdent rfl (by omega) ?_
  generalize hs' : ({ s with level := s.level + 1 } : PState) = s' at h
  have hlev : s'.level = s.level + 1 := by rw [← hs']
  unfold loopP
  refine refuses_step (markStart gapB ident_for) (refuses_step (kwSp gapB ident_for (pt_noWs h1 _)) (refuses_cut ?_))
  refine refuses_step (wsTarget h1 (by omega) in_ptEnd in_drop) (refuses_step (kwSp' ident_in (tm_noWs h2 _)) (refuses_cut ?_))
  have hcond : ∃ r1, ws (exprHere env) s' (iter.write (w.g.sub 1) ++ (condSrc w.g cond ++ tagEnd env.syn w R)) = (.ok r1 iter.tree, s') ∧
      (PT.opt (do let _ ← ws (kw c!"if"); PT.cut (ws (exprHere env))) : SP (Option Expr)) s' r1 =
        (.ok (mark w.r ++ (env.syn.blockEnd ++ R)) (cond.map Tm.tree), s') := by
    cases cond with
    | none =>
      obtain ⟨j, m, hj⟩ := kwClose (syn := env.syn) (s := s') (k := c!"if") (m := w.r) (r := R) (by simp)
      exact ⟨_, wsExpr h2 (by omega) (r := [] ++ tagEnd env.syn w R) tagEnd_ending tagEnd_drop, opt_err (bind_err hj)⟩
    | some e =>
      obtain ⟨h3, ho⟩ := h3 e rfl
      simp only [optNeed] at hl
      have he : condSrc w.g (some e) ++ tagEnd env.syn w R =
          sep (w.g.gap 11) ++ (c!"if" ++ (sep (w.g.gap 13) ++ (e.write (w.g.sub 2) ++ tagEnd env.syn w R))) := by simp [condSrc]
      rw [he]
      refine ⟨c!"if" ++ (sep (w.g.gap 13) ++ (e.write (w.g.sub 2) ++ tagEnd env.syn w R)), ?_, opt_ok ?_⟩
      · exact wsExpr_word h2 ho (by omega) ⟨sep (w.g.gap 11), 'i', _, rfl, sepB, (sep_blank gapB).2, by decide⟩
          (gap_drop sepB (noWs_cons (by decide)))
      · rw [bind_ok (kwSp' ident_if (tm_noWs h3 _))]
        exact cut_ok (wsExpr h3 (by omega) tagEnd_ending tagEnd_drop)
  obtain ⟨r1, hi1, hi2⟩ := hcond
  refine refuses_step hi1 (refuses_step hi2 ?_)
  exact refuses_step markClose (refuses_step tag_ok (refuses_cut h))

/-- Reading the body of a loop. -/
theorem loopContent_astray {cl : List Str} {many : SP (List Node)} {i bad : Str}
    (h : Astray env.syn q cl many { s with loopDepth := s.loopDepth + 1 } i bad) : Astray env.syn q cl (loopContent many) s i bad := by
  unfold loopContent
  rcases h with ⟨j, m, s1, h, hq⟩ | ⟨h1, ⟨a, h2⟩, h3, h4⟩
  · exact .inl ⟨j, m, { s1 with loopDepth := s1.loopDepth - 1 }, by dsimp only; rw [h], hq⟩
  · exact .inr ⟨h1, ⟨a, by dsimp only; rw [h2]; rfl⟩, h3, h4⟩

/-- `{% for … %}` with a body that is bad. -/
theorem for_astray {w : Lay} {p : Pt} {iter : Tm} {cond : Option Tm} {B bad : Str} {fuel : Nat} (hs : Std env)
    (h1 : ForOk env.isLower p iter cond) (hl : s.level + (forNeed p iter cond + 1) ≤ maxDepth)
    (h : Astray env.syn q [c!"else", c!"endfor"] (nodesP env fuel) { s with level := s.level + 1, loopDepth := s.loopDepth + 1 } B bad) :
    Refuses q (nodeAlt env (target env nestFuel) (nodesP env fuel)) s (tagText env.syn w (forText w.g p iter cond) ++ B) := by
  refine for_open hs h1 hl ?_
  generalize hs' : ({ s with level := s.level + 1 } : PState) = s'
  have h' : Astray env.syn q [c!"else", c!"endfor"] (nodesP env fuel) { s' with loopDepth := s'.loopDepth + 1 } B bad := by
    rw [← hs']; exact h
  refine (loopContent_astray h').seq fun ns hq hst => ?_
  rcases hst with rfl | ⟨word, ⟨mk, b, i, rfl, hb, hi⟩, hw, -, hn⟩
  · exact refuses_soft hq (bind_err (tag_err (by simp [start_ne (syn := env.syn)])))
  · refine refuses_fails hq ?_
    obtain ⟨j1, m1, e1⟩ := kwOther (s := s') (k := c!"else") hb hw hi (fun e => hn (by simp [e]))
    obtain ⟨j2, m2, e2⟩ := kwOther (s := s') (k := c!"endfor") hb hw hi (fun e => hn (by simp [e]))
    have e3 : PT.opt (loopElse env (nodesP env fuel)) s' (b ++ (word ++ i)) = (.ok (b ++ (word ++ i)) none, s') := by
      refine opt_err (j := j1) (m := m1) ?_
      unfold loopElse
      exact bind_err e1
    exact fails_step tag_ok (fails_step (markStart hb hw) (fails_step e3 (fails_bind e2)))

/-- A loop, and `{% else %}` with a body that is bad. -/
theorem forElse_astray {w w' : Lay} {p : Pt} {iter : Tm} {cond : Option Tm} {body : List Doc} {B bad : Str} {fuel : Nat} (hs : Std env)
    (h1 : ForOk env.isLower p iter cond) (h2 : Doc.Oks env.syn env.isLower true body) (hn : Doc.needs body + 1 ≤ fuel)
    (hl : s.level + (max (forNeed p iter cond) (Doc.needs body) + 1) ≤ maxDepth)
    (h : Astray env.syn q [c!"endfor"] (nodesP env fuel) { s with level := s.level + 1 } B bad) :
    Refuses q (nodeAlt env (target env nestFuel) (nodesP env fuel)) s
      (tagText env.syn w (forText w.g p iter cond) ++ (Doc.texts env.syn body ++ (tagText env.syn w' c!"else" ++ B))) := by
  refine for_open hs h1 (by omega) ?_
  generalize hs' : ({ s with level := s.level + 1 } : PState) = s' at h
  have hlev : s'.level = s.level + 1 := by rw [← hs']
  have hst : Stops env.syn (tagText env.syn w' c!"else" ++ B) := tagOf_word.stops ident_else.1 ident_else.2
  refine refuses_step (loopContent_read (sem_docs hs true body h2) (by omega) (by omega) hst) ?_
  rw [tagText_eq]
  -- the part for `else` is refused
  have hpart : (∃ j m s1, (do
        let nodes ← nodesP env fuel
        let _ ← tag env.syn.blockStart
        let nws ← opt wsMark
        pure (w'.r, nodes, nws) : SP (Option Wsp × List Node × Option Wsp)) s' B = (.err true j m, s1) ∧ q m) ∨
      ((∀ m, q m) ∧ ∃ c j m s1, (do
        let nodes ← nodesP env fuel
        let _ ← tag env.syn.blockStart
        let nws ← opt wsMark
        pure (w'.r, nodes, nws) : SP (Option Wsp × List Node × Option Wsp)) s' B = (.err c j m, s1)) →
      Refuses q (PT.opt (loopElse env (nodesP env fuel))) s' (w'.g.gap 1 ++ (c!"else" ++ tagEnd env.syn w' B)) := by
    intro hp
    refine refuses_opt ?_
    unfold loopElse
    refine refuses_step (kwEnd gapB ident_else.1) ?_
    rcases hp with ⟨j, m, s1, hp, hq⟩ | ⟨hq, c, j, m, s1, hp⟩
    · exact refuses_cut (refuses_step markClose (refuses_step tag_ok ⟨j, m, s1, hp, hq⟩))
    · exact refuses_fails hq (fails_step markClose (fails_step tag_ok ⟨c, j, m, s1, hp⟩))
  rcases h with ⟨j, m, s1, h, hq⟩ | ⟨hq, ⟨ns, h⟩, rfl | ⟨word, ⟨mk, b, i, rfl, hb, hi⟩, hw, -, hn'⟩, -⟩
  · exact refuses_cut (refuses_step tag_ok (refuses_step (markStart gapB ident_else.1) (refuses_bind (hpart (.inl ⟨j, m, s1, bind_err h, hq⟩)))))
  · refine refuses_cut (refuses_step tag_ok (refuses_step (markStart gapB ident_else.1) (refuses_bind (hpart (.inr ⟨hq, ?_⟩)))))
    exact fails_step h (fails_bind (tag_err (by simp [start_ne (syn := env.syn)])))
  · refine refuses_fails hq (fails_step tag_ok (fails_step (markStart gapB ident_else.1) ?_))
    have he : PT.opt (loopElse env (nodesP env fuel)) s' (w'.g.gap 1 ++ (c!"else" ++ tagEnd env.syn w' B)) =
        (.ok (b ++ (word ++ i)) (some (w'.r, ns, mk)), s') := by
      refine opt_ok ?_
      unfold loopElse
      rw [bind_ok (kwEnd gapB ident_else.1)]
      refine cut_ok ?_
      rw [bind_ok markClose, bind_ok tag_ok, bind_ok h, bind_ok tag_ok, bind_ok (markStart hb hw)]
      rfl
    obtain ⟨j2, m2, e2⟩ := kwOther (s := s') (k := c!"endfor") hb hw hi (fun e => hn' (by simp [e]))
    exact fails_step he (fails_bind e2)

/-! ### `match` -/

/-- After the start of a `match`. -/
theorem match_open {w : Lay} {e : Tm} {gap r0 : Str} {fuel : Nat} (hs : Std env) (h1 : e.Ok env.isLower) (h2 : Blank gap)
    (hl : s.level + (e.need + 13) ≤ maxDepth)
    (h : Refuses q (do
      let arms ← PT.many1 (whenP env (target env nestFuel) (nodesP env fuel))
      PT.cut do
        let els ← PT.opt (whenElse env (nodesP env fuel))
        PT.cut do
          let _ ← ws (tag env.syn.blockStart)
          let pws2 ← PT.opt wsMark
          let _ ← ws (kw c!"endmatch")
          let nws2 ← PT.opt wsMark
          pure (Node.match_ ⟨w.l, w.r⟩ e.tree (arms ++ els.toList) ⟨pws2, nws2⟩)) { s with level := s.level + 1 } (env.syn.blockStart ++ r0)) :
    Refuses q (nodeAlt env (target env nestFuel) (nodesP env fuel)) s (tagText env.syn w (c!"match" ++ (sep (w.g.gap 5) ++ e.write (w.g.sub 0))) ++ (gap ++ (env.syn.blockStart ++ r0))) := by
  have hsrc : tagText env.syn w (c!"match" ++ (sep (w.g.gap 5) ++ e.write (w.g.sub 0))) ++ (gap ++ (env.syn.blockStart ++ r0)) = env.syn.blockStart ++ (mark w.l ++ (w.g.gap 1 ++ (c!"match" ++ (sep (w.g.gap 5) ++
      (e.write (w.g.sub 0) ++ tagEnd env.syn w (gap ++ (env.syn.blockStart ++ r0))))))) := by
    simp [tagText, tagEnd]
  have hk : IsIdent c!"match" := ⟨by simp, by decide, by decide⟩
  rw [hsrc]
  refine node_refuses hs gapB hk sp_noIdent rfl (by omega) ?_
  generalize hs' : ({ s with level := s.level + 1 } : PState) = s' at h
  have hlev : s'.level = s.level + 1 := by rw [← hs']
  unfold matchP
  refine refuses_step (markStart gapB hk) (refuses_step (kwSp gapB hk (tm_noWs h1 _)) (refuses_cut ?_))
  refine refuses_step (wsExpr h1 (by omega) tagEnd_ending tagEnd_drop) (refuses_step markClose (refuses_step tag_ok (refuses_cut ?_)))
  have hgap : (ws (PT.many0 (ws ((commentP env).map fun _ => ()))) : SP (List Unit)) s' (gap ++ (env.syn.blockStart ++ r0)) =
      (.ok (env.syn.blockStart ++ r0) [], s') := by
    obtain ⟨j, m, hj⟩ := commentP_no (s := s') (r := r0) hs
    have h0 : NoWs (env.syn.blockStart ++ r0) := blockStart_noWs
    refine ws_run (w2 := []) (allWs_iff.2 h2) h0 (many0_stop (j := j) (m := m) (ws_err ?_)) (by intro c hc; simp at hc) h0
    rw [noWs_drop h0]
    exact map_err hj
  exact refuses_step hgap h

/-- At the end of a `match`. -/
theorem match_end {w : Lay} {e : Tm} {as : List When} {bad : Str} {cl : List Str} (hs : Std env) (hq : ∀ m, q m)
    (h : StrayTo env.syn cl bad) (hc : c!"endmatch" ∈ cl) : Refuses q (PT.cut do
          let _ ← ws (tag env.syn.blockStart)
          let pws2 ← PT.opt wsMark
          let _ ← ws (kw c!"endmatch")
          let nws2 ← PT.opt wsMark
          pure (Node.match_ ⟨w.l, w.r⟩ e.tree as ⟨pws2, nws2⟩)) s bad := by
  refine refuses_fails hq ?_
  rcases h with rfl | ⟨word, ⟨mk, b, i, rfl, hb, hi⟩, hw, -, hn⟩
  · exact fails_bind (ws_err (tag_err (by simp [start_ne (syn := env.syn)])))
  · cases mk with
    | none =>
      have h6 : (ws (tag env.syn.blockStart) : SP Str) s (env.syn.blockStart ++ (mark none ++ (b ++ (word ++ i)))) = (.ok (word ++ i) env.syn.blockStart, s) :=
        ws_run (w := []) (w2 := b) (by intro c hc; simp at hc) blockStart_noWs tag_ok (allWs_iff.2 hb)
          (noWs_ident hw)
      obtain ⟨j2, m2, e2⟩ : ∃ j m, (ws (kw c!"endmatch") : SP Str) s (word ++ i) = (.err false j m, s) := by
        refine wsKw_no (.inl rfl) ?_
        rw [noWs_drop (noWs_ident hw), (takeWhile_ident hw.2.2 hi).1]
        exact fun e => hn (e ▸ hc)
      exact fails_step h6 (fails_step (optMark_none (noMark_ident hw)) (fails_bind e2))
    | some v =>
      have h6 : (ws (tag env.syn.blockStart) : SP Str) s (env.syn.blockStart ++ (mark (some v) ++ (b ++ (word ++ i)))) =
          (.ok (mark (some v) ++ (b ++ (word ++ i))) env.syn.blockStart, s) :=
        ws_run (w := []) (w2 := []) (by intro c hc; simp at hc) blockStart_noWs tag_ok (by intro c hc; simp at hc)
          (by cases v <;> exact noWs_cons (by decide))
      obtain ⟨j2, m2, e2⟩ := kwOther (s := s) (k := c!"endmatch") hb hw hi (fun e => hn (e ▸ hc))
      exact fails_step h6 (fails_step (markStart hb hw) (fails_bind e2))

/-- The closing words of an arm. -/
def armClosers : List Str := [c!"when", c!"else", c!"endmatch"]

/-- Arms that are read, and one that is bad. -/
theorem arms_then (hs : Std env) {fuel : Nat} {R bad : Str} {cl : List Str} (hR : Stops env.syn R)
    (h : Astray env.syn q cl (PT.many1 (whenP env (target env nestFuel) (nodesP env fuel))) s R bad)
    (h0 : Astray env.syn q cl (PT.many0 (whenP env (target env nestFuel) (nodesP env fuel))) s R bad) : ∀ as : List DocArm,
    DocArm.Oks env.syn env.isLower loop as → DocArm.needs as + 1 ≤ fuel → s.level + DocArm.needs as ≤ maxDepth →
    (loop = true → s.loopDepth ≠ 0) →
    Stops env.syn (DocArm.texts env.syn as ++ R) ∧
    Astray env.syn q cl (PT.many1 (whenP env (target env nestFuel) (nodesP env fuel))) s (DocArm.texts env.syn as ++ R) bad ∧
    Astray env.syn q cl (PT.many0 (whenP env (target env nestFuel) (nodesP env fuel))) s (DocArm.texts env.syn as ++ R) bad
  | [], _, _, _, _ => ⟨hR, h, h0⟩
  | .mk w p body :: as, hok, hn, hl, hloop => by
    simp only [DocArm.needs] at hn hl
    obtain ⟨h1, -, h2⟩ := arms_then hs hR h h0 as hok.2 (by omega) (by omega) hloop
    have hlen : 0 < ((DocArm.mk w p body).text env.syn).length := by
      simp only [DocArm.text, tagText, List.length_append, List.length_cons]; omega
    have hread := arm_read (s := s) (w := w) (fuel := fuel) hs hok.1.1 (sem_docs hs loop body hok.1.2) (by omega) (by omega) hloop h1
    rw [DocArm.texts, List.append_assoc]
    have hlt : (DocArm.texts env.syn as ++ R).length < ((DocArm.mk w p body).text env.syn ++ (DocArm.texts env.syn as ++ R)).length := by
      simp only [List.length_append]; omega
    refine ⟨?_, ?_, Astray.many0_cons hread hlt h2⟩
    · rw [DocArm.text, List.append_assoc]
      exact stops_tag (i := sep (w.g.gap 5) ++ p.write (w.g.sub 0)) ident_when.1 ident_when.2 (by rw [List.append_assoc]; exact sp_noIdent)
    · exact Astray.step hread h2.map (by omega)

/-- The start of an arm. -/
theorem arm_open {w : Lay} {p : Pt} {B : Str} {many : SP (List Node)} (hs : Std env) (h1 : p.Ok env.isLower)
    (hl : s.level + p.need ≤ maxDepth) :
    whenP env (target env nestFuel) many s (tagText env.syn w (c!"when" ++ (sep (w.g.gap 5) ++ p.write (w.g.sub 0))) ++ B) =
      (PT.cut ((PT.cut many : SP (List Node)) >>= fun nodes => (pure (When.mk ⟨w.l, w.r⟩ p.tree nodes) : SP When))) s B := by
  have hsrc : tagText env.syn w (c!"when" ++ (sep (w.g.gap 5) ++ p.write (w.g.sub 0))) ++ B = env.syn.blockStart ++ (mark w.l ++ (w.g.gap 1 ++ (c!"when" ++ (sep (w.g.gap 5) ++ (p.write (w.g.sub 0) ++
      tagEnd env.syn w B))))) := by
    rw [tagText_eq]
    simp
  rw [hsrc]
  unfold whenP
  rw [bind_ok (endTag_more hs gapB ident_when.1 (pt_noWs h1 _))]
  unfold PT.cut
  rw [bind_ok (wsTarget h1 (by omega) tagEnd_ptEnd tagEnd_drop), bind_ok markClose, bind_ok tag_ok]

/-- A `match` with arms, the last of which has a body that is bad. -/
theorem when_astray {w w' : Lay} {e : Tm} {gap : Str} {arms : List DocArm} {p : Pt} {B bad : Str} {fuel : Nat} (hs : Std env)
    (h1 : e.Ok env.isLower) (h2 : Blank gap) (h3 : DocArm.Oks env.syn env.isLower loop arms) (h4 : p.Ok env.isLower)
    (hn : DocArm.needs arms + 1 ≤ fuel) (hl : s.level + (max (e.need + 12) (max (DocArm.needs arms) p.need) + 1) ≤ maxDepth)
    (hloop : loop = true → s.loopDepth ≠ 0)
    (h : Astray env.syn q armClosers (nodesP env fuel) { s with level := s.level + 1 } B bad) :
    Refuses q (nodeAlt env (target env nestFuel) (nodesP env fuel)) s
      (tagText env.syn w (c!"match" ++ (sep (w.g.gap 5) ++ e.write (w.g.sub 0))) ++ (gap ++ (DocArm.texts env.syn arms ++ (tagText env.syn w' (c!"when" ++ (sep (w'.g.gap 5) ++ p.write (w'.g.sub 0))) ++ B)))) := by
  obtain ⟨r0, hr0⟩ : ∃ r, DocArm.texts env.syn arms ++ (tagText env.syn w' (c!"when" ++ (sep (w'.g.gap 5) ++ p.write (w'.g.sub 0))) ++ B) = env.syn.blockStart ++ r := by
    cases arms with
    | nil => rw [DocArm.texts, List.nil_append, tagText_eq]; exact ⟨_, rfl⟩
    | cons a as =>
      cases a with
      | mk wa p body =>
        rw [DocArm.texts, DocArm.text, List.append_assoc, List.append_assoc, tagText_eq]
        exact ⟨_, rfl⟩
  rw [hr0]
  refine match_open hs h1 h2 (by omega) ?_
  rw [← hr0]
  generalize hs' : ({ s with level := s.level + 1 } : PState) = s' at h
  have hlev : s'.level = s.level + 1 := by rw [← hs']
  have hlp : loop = true → s'.loopDepth ≠ 0 := by rw [← hs']; exact hloop
  have hopen := arm_open (s := s') (w := w') (B := B) (many := nodesP env fuel) hs h4 (by omega)
  have hpos : 0 < (tagText env.syn w' (c!"when" ++ (sep (w'.g.gap 5) ++ p.write (w'.g.sub 0)))).length := by
    simp only [tagText, List.length_append, List.length_cons]; omega
  have hb : Astray env.syn q armClosers (whenP env (target env nestFuel) (nodesP env fuel)) s' (tagText env.syn w' (c!"when" ++ (sep (w'.g.gap 5) ++ p.write (w'.g.sub 0))) ++ B) bad := by
    rcases h with ⟨j, m, s1, h, hq⟩ | ⟨hq, ⟨ns, h⟩, h5, h6⟩
    · exact .inl ⟨j, m, s1, by rw [hopen]; exact cut_err (bind_err (cut_err h)), hq⟩
    · exact .inr ⟨hq, ⟨_, by rw [hopen]; exact cut_ok (by rw [bind_ok (cut_ok h)]; rfl)⟩, h5, by rw [List.length_append]; omega⟩
  have hm : Astray env.syn q armClosers (PT.many1 (whenP env (target env nestFuel) (nodesP env fuel))) s'
        (tagText env.syn w' (c!"when" ++ (sep (w'.g.gap 5) ++ p.write (w'.g.sub 0))) ++ B) bad ∧
      Astray env.syn q armClosers (PT.many0 (whenP env (target env nestFuel) (nodesP env fuel))) s'
        (tagText env.syn w' (c!"when" ++ (sep (w'.g.gap 5) ++ p.write (w'.g.sub 0))) ++ B) bad := by
    rcases hb with ⟨j, m, s1, h', hq⟩ | ⟨hq, ⟨a, h'⟩, h5, h6⟩
    · exact ⟨.inl (refuses_bind ⟨j, m, s1, h', hq⟩), .inl (refuses_many0 ⟨j, m, s1, h', hq⟩)⟩
    · obtain ⟨j, m, hj⟩ := whenP_stray (s := s') (many := nodesP env fuel) hs h5 (by simp [armClosers])
      have hlt : bad.length < (tagText env.syn w' (c!"when" ++ (sep (w'.g.gap 5) ++ p.write (w'.g.sub 0))) ++ B).length := by
        rcases h with ⟨j, m, s1, h, hq⟩ | ⟨hq, ⟨ns, h⟩, h5, h6⟩
        · rw [hopen, cut_err (bind_err (cut_err h))] at h'
          simp at h'
        · rw [List.length_append]; omega
      exact ⟨.inr ⟨hq, ⟨_, (bind_ok h').trans (map_ok (many0_stop hj))⟩, h5, h6⟩,
        .inr ⟨hq, ⟨_, many0_cons h' hlt (many0_stop hj)⟩, h5, h6⟩⟩
  have hst : Stops env.syn (tagText env.syn w' (c!"when" ++ (sep (w'.g.gap 5) ++ p.write (w'.g.sub 0))) ++ B) :=
    stops_tag (i := sep (w'.g.gap 5) ++ p.write (w'.g.sub 0)) ident_when.1 ident_when.2 (by rw [List.append_assoc]; exact sp_noIdent)
  obtain ⟨-, h6, -⟩ := arms_then hs hst hm.1 hm.2 arms h3 (by omega) (by omega) hlp
  refine h6.seq fun as hq hst => refuses_cut ?_
  obtain ⟨j, m, hj⟩ := hst.endTag (s := s') hs (word := c!"else") (by simp [armClosers])
  have helse : PT.opt (whenElse env (nodesP env fuel)) s' bad = (.ok bad none, s') :=
    opt_err (j := j) (m := m) (by unfold whenElse; exact bind_err hj)
  exact refuses_step helse (match_end hs hq hst (by simp [armClosers]))

/-- A `match` with arms, and `{% else %}` with a body that is bad. -/
theorem matchElse_astray {w w' : Lay} {e : Tm} {gap : Str} {arms : List DocArm} {B bad : Str} {fuel : Nat} (hs : Std env)
    (h1 : e.Ok env.isLower) (h2 : Blank gap) (h3 : arms ≠ []) (h4 : DocArm.Oks env.syn env.isLower loop arms)
    (hn : DocArm.needs arms + 1 ≤ fuel) (hl : s.level + (max (e.need + 12) (DocArm.needs arms) + 1) ≤ maxDepth)
    (hloop : loop = true → s.loopDepth ≠ 0)
    (h : Astray env.syn q [c!"endmatch"] (nodesP env fuel) { s with level := s.level + 1 } B bad) :
    Refuses q (nodeAlt env (target env nestFuel) (nodesP env fuel)) s
      (tagText env.syn w (c!"match" ++ (sep (w.g.gap 5) ++ e.write (w.g.sub 0))) ++ (gap ++ (DocArm.texts env.syn arms ++ (tagText env.syn w' c!"else" ++ B)))) := by
  obtain ⟨r0, hr0⟩ : ∃ r, DocArm.texts env.syn arms ++ (tagText env.syn w' c!"else" ++ B) = env.syn.blockStart ++ r := by
    cases arms with
    | nil => exact absurd rfl h3
    | cons a as =>
      cases a with
      | mk wa p body =>
        rw [DocArm.texts, DocArm.text, List.append_assoc, List.append_assoc, tagText_eq]
        exact ⟨_, rfl⟩
  rw [hr0]
  refine match_open hs h1 h2 (by omega) ?_
  rw [← hr0]
  generalize hs' : ({ s with level := s.level + 1 } : PState) = s' at h
  have hlev : s'.level = s.level + 1 := by rw [← hs']
  have hlp : loop = true → s'.loopDepth ≠ 0 := by rw [← hs']; exact hloop
  refine refuses_step ((sem_arms hs loop arms h4 fuel s' _ (by omega) (by omega) hlp (.inr tagOf_word)).2 h3) (refuses_cut ?_)
  rcases h with ⟨j, m, s1, h, hq⟩ | ⟨hq, ⟨ns, h⟩, h5, -⟩
  · refine refuses_bind (refuses_opt ?_)
    unfold whenElse
    exact refuses_step (endTag_ok hs ident_else.1) (refuses_cut (refuses_step markClose (refuses_step tag_ok
      (refuses_bind (refuses_cut ⟨j, m, s1, h, hq⟩)))))
  · have helse : PT.opt (whenElse env (nodesP env fuel)) s' (tagText env.syn w' c!"else" ++ B) =
        (.ok bad (some (.mk w'.ws (.name c!"_") ns)), s') := by
      refine opt_ok ?_
      unfold whenElse
      rw [bind_ok (endTag_ok hs ident_else.1)]
      refine cut_ok ?_
      rw [bind_ok markClose, bind_ok tag_ok, bind_ok (cut_ok h)]
      rfl
    exact refuses_step helse (match_end hs hq h5 (by simp))

/-! ### `block`, `macro` and `filter` -/

theorem block_astray {w : Lay} {name B bad : Str} {fuel : Nat} (hs : Std env) (h1 : Name name) (hl : s.level + 1 ≤ maxDepth)
    (h : Astray env.syn q [c!"endblock"] (nodesP env fuel) { s with level := s.level + 1 } B bad) :
    Refuses q (nodeAlt env (target env nestFuel) (nodesP env fuel)) s (tagText env.syn w (c!"block" ++ (sep (w.g.gap 5) ++ name)) ++ B) := by
  have hi := isIdent_of_name h1
  have hsrc : tagText env.syn w (c!"block" ++ (sep (w.g.gap 5) ++ name)) ++ B = env.syn.blockStart ++ (mark w.l ++ (w.g.gap 1 ++ (c!"block" ++ (sep (w.g.gap 5) ++ (name ++
      tagEnd env.syn w B))))) := by
    rw [tagText_eq]
    simp
  have hk : IsIdent c!"block" := ⟨by simp, by decide, by decide⟩
  rw [hsrc]
  refine node_refuses hs gapB hk sp_noIdent rfl (by omega) ?_
  generalize hs' : ({ s with level := s.level + 1 } : PState) = s' at h
  unfold blockP
  refine refuses_step (markStart gapB hk) (refuses_step (kwSp gapB hk (noWs_ident hi)) ?_)
  have hhead : (PT.cut (do
      let name ← ws ident
      let nws1 ← opt wsMark
      let _ ← tag env.syn.blockEnd
      pure (name, nws1)) : SP (Str × Option Wsp)) s' (name ++ tagEnd env.syn w B) = (.ok B (name, w.r), s') := by
    refine cut_ok ?_
    rw [bind_ok (wsIdentEnd hi), bind_ok markClose, bind_ok tag_ok]
    rfl
  refine refuses_step hhead (refuses_cut (h.seq fun ns hq hst => ?_))
  obtain ⟨j, m, hj⟩ := hst.endTag (s := s') hs (word := c!"endblock") (by simp)
  exact refuses_soft hq (bind_err hj)

theorem macro_astray {w : Lay} {name B bad : Str} {params : List Str} {fuel : Nat} (hs : Std env) (h1 : Name name)
    (h2 : name ≠ c!"super") (h3 : ∀ p ∈ params, Name p) (hl : s.level + 1 ≤ maxDepth)
    (h : Astray env.syn q [c!"endmacro"] (nodesP env fuel) { s with level := s.level + 1 } B bad) :
    Refuses q (nodeAlt env (target env nestFuel) (nodesP env fuel)) s
      (tagText env.syn w (c!"macro" ++ (sep (w.g.gap 5) ++ (name ++ (w.g.gap 4 ++ paramsSrc (w.g.sub 0) params)))) ++ B) := by
  have hi := isIdent_of_name h1
  have hsrc : tagText env.syn w (c!"macro" ++ (sep (w.g.gap 5) ++ (name ++ (w.g.gap 4 ++ paramsSrc (w.g.sub 0) params)))) ++ B =
      env.syn.blockStart ++ (mark w.l ++ (w.g.gap 1 ++ (c!"macro" ++ (sep (w.g.gap 5) ++ (name ++ (w.g.gap 4 ++ (paramsSrc (w.g.sub 0) params ++ tagEnd env.syn w B))))))) := by
    rw [tagText_eq]
    simp
  have hk : IsIdent c!"macro" := ⟨by simp, by decide, by decide⟩
  rw [hsrc]
  refine node_refuses hs gapB hk sp_noIdent rfl (by omega) ?_
  generalize hs' : ({ s with level := s.level + 1 } : PState) = s' at h
  unfold macroP
  have hhead : (PT.cut (do
      let name ← ws ident
      let params ← opt (ws parameters)
      let nws1 ← opt wsMark
      let _ ← tag env.syn.blockEnd
      pure (name, params, nws1)) : SP (Str × Option (List Str) × Option Wsp)) s'
        (name ++ (w.g.gap 4 ++ (paramsSrc (w.g.sub 0) params ++ tagEnd env.syn w B))) = (.ok B (name, some params, w.r), s') := by
    refine cut_ok ?_
    have hname : ws ident s' (name ++ (w.g.gap 4 ++ (paramsSrc (w.g.sub 0) params ++ tagEnd env.syn w B))) =
        (.ok (paramsSrc (w.g.sub 0) params ++ tagEnd env.syn w B) name, s') :=
      wsIdent hi (char_noIdent gapB (by decide)) gapB (noWs_cons (by decide))
    rw [bind_ok hname, bind_ok (opt_ok (parameters_read h3)), bind_ok markClose, bind_ok tag_ok]
    rfl
  refine refuses_step (p := pos) rfl (refuses_step (markStart gapB hk) (refuses_step (kwSp gapB hk (noWs_ident hi)) (refuses_step hhead ?_)))
  dsimp only
  rw [if_neg h2]
  refine refuses_cut (h.seq fun ns hq hst => ?_)
  obtain ⟨j, m, hj⟩ := hst.endTag (s := s') hs (word := c!"endmacro") (by simp)
  exact refuses_soft hq (bind_err hj)

theorem filter_astray {w : Lay} {f : Flt} {fs : List Flt} {B bad : Str} {fuel : Nat} (hs : Std env) (h1 : f.Ok env.isLower)
    (h2 : ∀ g ∈ fs, g.Ok env.isLower) (hl : s.level + (Flt.needs (f :: fs) + 1) ≤ maxDepth)
    (h : Astray env.syn q [c!"endfilter"] (nodesP env fuel) { s with level := s.level + 1 } B bad) :
    Refuses q (nodeAlt env (target env nestFuel) (nodesP env fuel)) s (tagText env.syn w (c!"filter" ++ (sep (w.g.gap 5) ++ Flt.texts (w.g.sub 0) f fs)) ++ B) := by
  simp only [Flt.needs] at hl
  have hi := isIdent_of_name h1.1
  have hsrc : tagText env.syn w (c!"filter" ++ (sep (w.g.gap 5) ++ Flt.texts (w.g.sub 0) f fs)) ++ B = env.syn.blockStart ++ (mark w.l ++ (w.g.gap 1 ++ (c!"filter" ++ (sep (w.g.gap 5) ++ (f.write ((w.g.sub 0).sub 0) ++
      (Flt.more ((w.g.sub 0).sub 1) fs ++ tagEnd env.syn w B)))))) := by
    rw [tagText_eq]
    simp [Flt.texts]
  have hk : IsIdent c!"filter" := ⟨by simp, by decide, by decide⟩
  rw [hsrc]
  refine node_refuses hs gapB hk sp_noIdent rfl (by omega) ?_
  generalize hs' : ({ s with level := s.level + 1 } : PState) = s' at h
  have hlev : s'.level = s.level + 1 := by rw [← hs']
  unfold filterBlockP
  refine refuses_step (markStart gapB hk) (refuses_step (kwSp gapB hk (by unfold Flt.write; rw [List.append_assoc]; exact noWs_ident hi)) ?_)
  have hhead : (PT.cut (do
      let name ← ws ident
      let params ← PT.opt (argsHere env false)
      let extra ← PT.many0 (filterHere env)
      ws (pure ())
      let nws1 ← PT.opt wsMark
      let _ ← tag env.syn.blockEnd
      pure (name, params, extra, nws1)) : SP (Str × Option (List Expr) × List (Str × Option (List Expr)) × Option Wsp)) s'
        (f.write ((w.g.sub 0).sub 0) ++ (Flt.more ((w.g.sub 0).sub 1) fs ++ tagEnd env.syn w B)) =
        (.ok B (f.name, fltParams f, fs.map (fun f => (f.name, fltParams f)), w.r), s') := by
    refine cut_ok ?_
    obtain ⟨r1, e1, y, hy, e2⟩ := flt_read (s := s') (g := (w.g.sub 0).sub 0) h1 (by simp only [Flt.needs]; omega)
      (fltEnd_of (env := env) (g := (w.g.sub 0).sub 1) (fs := fs) (w := w) (r := B))
    obtain ⟨z, hz, e3⟩ := flts_read (s := s') fs ((w.g.sub 0).sub 1) h2 (by omega) (by omega) y hy
    have e4 : (ws (pure ()) : SP Unit) s' z = (.ok (mark w.r ++ (env.syn.blockEnd ++ B)) (), s') := by
      have hz' : z.dropWhile isWsp = mark w.r ++ (env.syn.blockEnd ++ B) := by
        rcases hz with rfl | rfl
        · exact tagEnd_drop
        · exact noWs_drop close_noWs
      rw [← noWs_drop (close_noWs (m := w.r) (r := B)), ← hz']
      exact ws_ok rfl
    rw [bind_ok e1, bind_ok e2, bind_ok e3, bind_ok e4, bind_ok markClose, bind_ok tag_ok]
    rfl
  refine refuses_step hhead (refuses_cut (h.seq fun ns hq hst => ?_))
  obtain ⟨j, m, hj⟩ := hst.endTag (s := s') hs (word := c!"endfilter") (by simp)
  exact refuses_soft hq (bind_err hj)

/-! ### Everything that is open -/

/-- The state inside. -/
def Opening.inner (o : Opening) (s : PState) : PState :=
  match o with
  | .for_ _ _ _ _ => { s with level := s.level + 1, loopDepth := s.loopDepth + 1 }
  | _ => { s with level := s.level + 1 }

theorem opening_refuses (hs : Std env) {o : Opening} {B bad : Str} {fuel : Nat} (hok : o.Ok env.syn env.isLower loop)
    (hn : o.need + 1 ≤ fuel) (hl : s.level + (o.need + 1) ≤ maxDepth) (hloop : loop = true → s.loopDepth ≠ 0)
    (h : Astray env.syn q o.closers (nodesP env fuel) (Opening.inner o s) B bad) :
    Refuses q (nodeAlt env (target env nestFuel) (nodesP env fuel)) s (o.text env.syn ++ B) := by
  cases o with
  | if_ w c => exact if_astray hs hok hl h
  | elif w c body more short w' c' =>
    simp only [Opening.need] at hn hl
    have := branch_astray (w := w) (w' := w') (short := short) (c' := some c') hs hok.1 hok.2.1 hok.2.2.1
      (fun t ht => by cases ht; exact ⟨hok.2.2.2, by omega⟩) (by omega) (by omega) hloop h
    simpa [Opening.text, DocBranch.text, branchHead, List.append_assoc, Doc.texts] using this
  | else_ w c body more w' =>
    simp only [Opening.need] at hn hl
    have := branch_astray (w := w) (w' := w') (short := true) (c' := none) hs hok.1 hok.2.1 hok.2.2
      (fun t ht => by cases ht) (by omega) (by omega) hloop h
    simpa [Opening.text, branchHead, List.append_assoc] using this
  | for_ w p iter cond => exact for_astray hs hok hl h
  | forElse w p iter cond body w' =>
    simp only [Opening.need] at hn hl
    have := forElse_astray (w := w) (w' := w') hs hok.1 hok.2 (by omega) (by omega) h
    simpa only [Opening.text, List.append_assoc] using this
  | when w e gap arms w' p =>
    simp only [Opening.need] at hn hl
    have := when_astray (w := w) (w' := w') hs hok.1 hok.2.1 hok.2.2.1 hok.2.2.2 (by omega) (by omega) hloop h
    simpa only [Opening.text, List.append_assoc] using this
  | matchElse w e gap arms w' =>
    simp only [Opening.need] at hn hl
    have := matchElse_astray (w := w) (w' := w') hs hok.1 hok.2.1 hok.2.2.1 hok.2.2.2 (by omega) (by omega) hloop h
    simpa only [Opening.text, List.append_assoc] using this
  | block w name => exact block_astray hs hok (by omega) h
  | «macro» w name params => exact macro_astray hs hok.1 hok.2.1 hok.2.2 (by omega) h
  | filter w f fs => exact filter_astray hs hok.1 hok.2 hl h

theorem opening_delim (hs : Std env) (o : Opening) (B : Str) : startsDelim env.syn.starts (o.text env.syn ++ B) := by
  refine ⟨env.syn.blockStart, by rw [starts_std hs]; simp, ?_⟩
  cases o <;> simp only [Opening.text, tagText, List.append_assoc] <;> exact List.prefix_append _ _

/-- Pieces that are read, before one that is refused. -/
theorem docs_refuse (hs : Std env) {R : Str} {n : Nat} (hR : startsDelim env.syn.starts R)
    (h : Refuses q (nodeAlt env (target env nestFuel) (nodesP env n)) s R) : ∀ ds : List Doc, Doc.Oks env.syn env.isLower loop ds →
    Doc.needs ds ≤ n → s.level + Doc.needs ds ≤ maxDepth → (loop = true → s.loopDepth ≠ 0) →
    Refuses q (nodesP env (n + 1)) s (Doc.texts env.syn ds ++ R)
  | [], _, _, _, _ => refuses_many0 h
  | d :: ds, hok, hn, hl, hloop => by
    simp only [Doc.needs] at hn hl
    have ih := docs_refuse hs hR h ds hok.2.2 (by omega) (by omega) hloop
    have hnext : d.isText = true → Doc.texts env.syn ds ++ R = [] ∨ startsDelim env.syn.starts (Doc.texts env.syn ds ++ R) := by
      intro ht
      cases ds with
      | nil => exact .inr hR
      | cons e es =>
        rw [Doc.texts, List.append_assoc]
        exact .inr (src_delim hs (hok.2.1 ht e rfl) _).2
    have hne : d.src env.syn ≠ [] := by
      cases ht : d.isText with
      | false => exact (src_delim hs ht []).1
      | true =>
        cases d with
        | text t => exact hok.1.1
        | _ => simp [Doc.isText] at ht
    have hlen : 0 < (d.src env.syn).length := List.length_pos_iff.2 hne
    rw [Doc.texts, List.append_assoc]
    exact refuses_many0_cons (sem_doc hs loop d hok.1 n s _ (by omega) (by omega) hloop hnext)
      (by simp only [List.length_append]; omega) ih

/-- The text of the open tags. -/
def tagsText (syn : Syntax) (tags : List (List Doc × Opening)) : Str := (tags.map fun t => Doc.texts syn t.1 ++ t.2.text syn).flatten

/-- The words that continue or end the innermost. -/
def tagsClosers (cl : List Str) : List (List Doc × Opening) → List Str
  | [] => cl
  | (_, o) :: ts => tagsClosers o.closers ts

/-- Is the innermost in a loop? -/
def tagsLoop : Bool → List (List Doc × Opening) → Bool
  | loop, [] => loop
  | loop, (_, o) :: ts => tagsLoop (o.loop loop) ts

theorem tags_astray (hs : Std env) {last : List Doc} {r : Str} {extra : Nat} : ∀ (tags : List (List Doc × Opening)) (loop : Bool)
    (s : PState) (fuel : Nat) (cl : List Str), tagsOk env.syn env.isLower last loop tags → tagsNeed last tags + 1 ≤ fuel →
    s.level + (tagsNeed last tags + extra) ≤ maxDepth → (loop = true ↔ s.loopDepth ≠ 0) →
    (∀ s' fuel', Doc.Oks env.syn env.isLower (tagsLoop loop tags) last → Doc.needs last + 1 ≤ fuel' →
      s'.level + (Doc.needs last + extra) ≤ maxDepth → (tagsLoop loop tags = true ↔ s'.loopDepth ≠ 0) →
      Astray env.syn q (tagsClosers cl tags) (nodesP env fuel') s' (Doc.texts env.syn last ++ r) r) →
    Astray env.syn q (tagsClosers cl tags) (nodesP env fuel) s (tagsText env.syn tags ++ (Doc.texts env.syn last ++ r)) r ∧
    (tags ≠ [] → Refuses q (nodesP env fuel) s (tagsText env.syn tags ++ (Doc.texts env.syn last ++ r)))
  | [], loop, s, fuel, cl, hok, hn, hl, hloop, h => ⟨h s fuel hok hn hl hloop, fun h => absurd rfl h⟩
  | (ds, o) :: ts, loop, s, fuel, cl, hok, hn, hl, hloop, h => by
    simp only [tagsNeed] at hn hl
    obtain ⟨n, rfl⟩ : ∃ n, fuel = n + 1 := ⟨fuel - 1, by omega⟩
    have hin : (Opening.inner o s).level = s.level + 1 ∧ (o.loop loop = true ↔ (Opening.inner o s).loopDepth ≠ 0) := by
      cases o <;> simp [Opening.inner, Opening.loop, hloop]
    have ih := tags_astray hs ts (o.loop loop) (Opening.inner o s) n o.closers hok.2.2 (by omega)
      (by rw [hin.1]; omega) hin.2 h
    have hbody : Astray env.syn q o.closers (nodesP env n) (Opening.inner o s) (tagsText env.syn ts ++ (Doc.texts env.syn last ++ r)) r := by
      cases ts with
      | nil => exact ih.1
      | cons t ts => exact .inl (ih.2 (by simp))
    have href := opening_refuses hs hok.2.1 (by omega) (by omega) hloop.1 hbody
    have hall := docs_refuse hs (opening_delim hs o _) href ds hok.1 (by omega) (by omega) hloop.1
    have htext : tagsText env.syn ((ds, o) :: ts) ++ (Doc.texts env.syn last ++ r) =
        Doc.texts env.syn ds ++ (o.text env.syn ++ (tagsText env.syn ts ++ (Doc.texts env.syn last ++ r))) := by
      simp [tagsText]
    rw [htext]
    exact ⟨.inl hall, fun _ => hall⟩

theorem tagsClosers_eq (cl : List Str) (tags : List (List Doc × Opening)) :
    tagsClosers cl tags = (tags.getLast?.map fun t => t.2.closers).getD cl := by
  induction tags generalizing cl with
  | nil => rfl
  | cons t ts ih =>
    obtain ⟨ds, o⟩ := t
    rw [tagsClosers, ih]
    cases ts with
    | nil => rfl
    | cons t' ts => rw [List.getLast?_cons_cons]; simp [List.getLast?_cons]

theorem tagsLoop_eq (loop : Bool) (tags : List (List Doc × Opening)) : tagsLoop loop tags = tags.foldl (fun l t => t.2.loop l) loop := by
  induction tags generalizing loop with
  | nil => rfl
  | cons t ts ih =>
    obtain ⟨ds, o⟩ := t
    exact ih _

theorem start_text {syn : Syntax} (b : Start) (r : Str) : b.text syn ++ r = tagsText syn b.tags ++ (Doc.texts syn b.last ++ r) := by
  simp [Start.text, tagsText]

end Askama
