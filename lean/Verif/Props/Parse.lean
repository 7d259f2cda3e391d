import Verif.Lemmas.Parse
import Verif.Lemmas.Base

/-!
# Properties C22, C23, C26, C27, C29, C30, C32: what the parser accepts and reports
-/

namespace Askama.Props

open Spec PT Str

/-! ## The whole parser -/

/-- The nodes of an accepted template tile the source, and every node inside is as specified. -/
theorem parseTemplate_ok (env : PEnv) (hc : env.syn.CommentOk) (src : Str) :
    match parseTemplate env src with
    | .ok ns => Tiled env.syn.starts src [] ns ∧ NsOk (TiledIn env src) 0 0 ns
    | .err e => ∃ before after msg, src = before ++ after ∧ mkParseErr src after msg = .err e
    | .panic => False := by
  have h := nodesP_sat env hc src nestFuel 0 0 (by simp [nestFuel, maxDepth]) (by simp)
  have htile : ∀ s r ns s', s = (⟨0, 0⟩ : PState) → nodesP env nestFuel s src = (.ok r ns, s') →
      Tiled env.syn.starts src r ns := by
    intro s r ns s' hs hrun
    unfold nestFuel nodesP at hrun
    have hn : Sat src (Inv 0 0) (nodeAlt env (target env nestFuel) (nodesP env maxDepth))
        (NOk (TiledIn env src) 0 0) := by
      refine nodeAlt_sat env hc (by simp) fun hL =>
        ⟨hL, ⟨[], [], List.nil_suffix, List.nil_suffix, .nil _⟩, fun d => ?_, fun d => ?_⟩
      · exact target_sat env nestFuel 1 (by simp [nestFuel]; omega)
      · exact nodesP_sat env hc src maxDepth 1 d (by omega) (by simp [maxDepth])
    exact many0F_tiled hn (fun s i r n s' h => nodeAlt_tile env h) _ s src (List.suffix_refl _)
      (by subst hs; exact ⟨by simp, by simp, rfl⟩) r ns s' hrun
  have herr : ∀ (cut : Bool) j m, j <:+ src →
      ∃ e before after msg, mkParseErr src j m = .err e ∧ src = before ++ after ∧ mkParseErr src after msg = .err e := by
    intro cut j m ⟨b, hb⟩
    have h1 : Str.takeB src (Str.blen src - Str.blen j) = some b := by
      have : Str.blen src - Str.blen j = Str.blen b := by rw [← hb, blen_append]; omega
      rw [this, ← hb]
      exact takeB_append _ _
    have h2 : Str.dropB src (Str.blen src - Str.blen j) = some j := by
      have : Str.blen src - Str.blen j = Str.blen b := by rw [← hb, blen_append]; omega
      rw [this, ← hb]
      exact dropB_append _ _
    have h3 : ¬ Str.blen src < Str.blen j := by rw [← hb, blen_append]; omega
    have h4 : ∃ e, mkParseErr src j m = .err e := by
      unfold mkParseErr
      simp only [if_neg h3, h1, h2]
      exact ⟨_, rfl⟩
    obtain ⟨e, he⟩ := h4
    exact ⟨e, b, j, m, he, hb.symm, he⟩
  have h1 := h ⟨0, 0⟩ src (List.suffix_refl _) ⟨by simp, by simp, rfl⟩
  unfold parseTemplate
  change match (match PT.bind (nodesP env nestFuel) _ ⟨0, 0⟩ src with
    | (.ok [] nodes, _) => ParseOut.ok nodes
    | (.ok _ _, _) => .panic
    | (.err _ input msg, _) => mkParseErr src input msg
    | (.stuck, _) => .panic) with | .ok ns => _ | .err e => _ | .panic => _
  unfold PT.bind
  have h2 := htile ⟨0, 0⟩
  generalize nodesP env nestFuel ⟨0, 0⟩ src = x at h1 h2
  match x, h1 with
  | (.ok [] ns, s'), h1 => exact ⟨h2 [] ns s' rfl rfl, h1.2.1⟩
  | (.ok (c :: r) ns, s'), h1 =>
    obtain ⟨e, b, a, m, he, hs, hm⟩ := herr true (c :: r) none h1.1
    show match mkParseErr src (c :: r) none with | .ok ns => _ | .err e => _ | .panic => _
    rw [he]
    exact ⟨b, a, m, hs, hm⟩
  | (.err cut j msg, s'), h1 =>
    obtain ⟨e, b, a, m, he, hs, hm⟩ := herr cut j msg h1.1
    show match mkParseErr src j msg with | .ok ns => _ | .err e => _ | .panic => _
    rw [he]
    exact ⟨b, a, m, hs, hm⟩

/-! ## C22 -/

/-- Where an error is reported: a place in the source, with row and column computed from the text before it. -/
theorem error_report (env : PEnv) (hc : env.syn.CommentOk) (src : Str) (e : ParseErr)
    (h : parseTemplate env src = .err e) :
    ∃ before after, src = before ++ after ∧ e.row = (strLines before).length - 1 ∧
      e.column = ((strLines before).getLast?.getD []).length ∧
      e.sourceAfter = (after.take 40, decide (40 < after.length)) := by
  have h1 := parseTemplate_ok env hc src
  rw [h] at h1
  obtain ⟨b, a, m, hs, hm⟩ := h1
  refine ⟨b, a, hs, ?_⟩
  subst hs
  have h3 : ¬ Str.blen (b ++ a) < Str.blen a := by rw [blen_append]; omega
  have h4 : Str.blen (b ++ a) - Str.blen a = Str.blen b := by rw [blen_append]; omega
  simp only [mkParseErr, if_neg h3, h4, takeB_append, dropB_append, ParseOut.err.injEq] at hm
  rw [← hm]
  refine ⟨rfl, rfl, ?_⟩
  dsimp only
  split
  · rename_i hlt; simp [hlt]
  · rename_i hlt
    simp only [hlt, decide_false]
    rw [List.take_of_length_le (by omega)]

/-- C22. For every source text and every delimiter set with non-empty comment delimiters the parser returns: either
nodes, or an error whose position is a place in the source (no panic, no endless loop). -/
theorem C22_total (env : PEnv) (hc : env.syn.CommentOk) (src : Str) :
    (∃ ns, parseTemplate env src = .ok ns) ∨
    (∃ e before after, parseTemplate env src = .err e ∧ src = before ++ after ∧
      e.sourceAfter = (after.take 40, decide (40 < after.length))) := by
  match hx : parseTemplate env src with
  | .ok ns => exact .inl ⟨ns, rfl⟩
  | .err e =>
    obtain ⟨b, a, hs, _, _, h⟩ := error_report env hc src e hx
    exact .inr ⟨e, b, a, rfl, hs, h⟩
  | .panic =>
    have := parseTemplate_ok env hc src
    rw [hx] at this
    exact this.elim

example : Syntax.default.CommentOk := by simp [Syntax.CommentOk, Syntax.default]

/-- Without the hypothesis C22 fails: if the opening comment delimiter is empty the parser does not return (the
derive macro rejects such delimiters, C55, but a `Syntax` can be built without it). -/
theorem C22_empty_delimiter (env : PEnv) (h : env.syn.commentStart = []) (fuel depth : Nat) (s : Unit) (i : Str) :
    (commentContent env.syn fuel depth s i).1 = .stuck := by
  induction fuel generalizing depth s with
  | zero => rfl
  | succ fuel ih =>
    have : PT.opt (skipTill (commentTag env.syn)) s i = (.ok i (some (i, true)), s) := by
      unfold PT.opt skipTill skipTillGo
      cases i <;> simp [commentTag, PT.alt, PT.map, PT.bind, PT.tag, h, PT.pure]
    show (PT.bind (PT.opt (skipTill (commentTag env.syn))) _ s i).1 = .stuck
    unfold PT.bind
    rw [this]
    exact ih (depth + 1) s

/-! ## C26, C27, C29, C30 -/

/-- What holds of an accepted template, for all nodes inside it. -/
theorem accepted (env : PEnv) (hc : env.syn.CommentOk) (src : Str) (ns : List Node)
    (h : parseTemplate env src = .ok ns) : AllNs (nodeOk (TiledIn env src)) false ns ∧ depthNs ns ≤ 128 := by
  have h1 := parseTemplate_ok env hc src
  rw [h] at h1
  exact ⟨by simpa using h1.2.1, h1.2.2.1⟩

/-- C26. In an accepted template `break` and `continue` stand only inside the body of a loop, at any depth. -/
theorem C26_break_in_loop (env : PEnv) (hc : env.syn.CommentOk) (src : Str) (ns : List Node)
    (h : parseTemplate env src = .ok ns) : AllNs loopsOk false ns :=
  AllNs.mono (fun _ _ h => h.1) _ _ (accepted env hc src ns h).1

/-- C26. Whatever the parser reads and whether it succeeds or fails, the loop depth afterwards is the one before. -/
theorem C26_loop_depth_restored (env : PEnv) (hc : env.syn.CommentOk) (src : Str) (level depth : Nat)
    (hl : level ≤ maxDepth) : (nodesP env nestFuel ⟨level, depth⟩ src).2.loopDepth = depth := by
  have h := nodesP_sat env hc src nestFuel 0 depth (by simp [nestFuel, maxDepth]) (by simp) ⟨level, depth⟩ src
    (List.suffix_refl _) ⟨by simp, hl, rfl⟩
  generalize nodesP env nestFuel ⟨level, depth⟩ src = x at h
  match x, h with
  | (.ok _ _, s'), h => exact h.2.2.2.2
  | (.err _ _ _, s'), h => exact h.2.2.2

/-- C27 (bound). An accepted template nests tags at most 128 deep, and the parser itself never recurses deeper than
129 calls of `Node::many` (it is defined by recursion with that much fuel and C22 shows the fuel never runs out).
Missing: that rejection depends on nesting only, which is false, see `C27_false_siblings`. -/
theorem C27_depth_partial (env : PEnv) (hc : env.syn.CommentOk) (src : Str) (ns : List Node)
    (h : parseTemplate env src = .ok ns) : depthNs ns ≤ 128 := (accepted env hc src ns h).2

/-- Was the template accepted? -/
def isOk : ParseOut → Bool
  | .ok _ => true
  | _ => false

/-- `n` copies of `s`. -/
def copies : Nat → Str → Str
  | 0, _ => []
  | n + 1, s => s ++ copies n s

/-- C27 is false in its second half: no tag of this template is nested in another one, and 126 such tags are
accepted, but one more is rejected as too deeply nested: every tuple pattern with a trailing comma uses up one level
for the rest of the template. -/
theorem C27_false_siblings :
    isOk (parseTemplate ⟨Syntax.default, Char.isLower⟩ (copies 126 c!"{%let(a,)%}")) = true ∧
    isOk (parseTemplate ⟨Syntax.default, Char.isLower⟩ (copies 127 c!"{%let(a,)%}")) = false := by
  constructor <;> decide +kernel

/-- A template with a loop, a macro, a call and bindings, accepted: the hypotheses of the theorems here can be met. -/
example : isOk (parseTemplate ⟨Syntax.default, Char.isLower⟩
    c!"{% macro m(a, b) %}{{ a }}{% endmacro m %}{% for (x, y) in z if y %}{% call m(x, b = 1) %}{% if x %}{% break %}{% endif %}{% else %}none{% endfor %}{# c #}") = true := by
  decide +kernel

/-- Rejected: `break` outside a loop, a positional argument after a named one, a duplicate name, a reserved name. -/
example : isOk (parseTemplate ⟨Syntax.default, Char.isLower⟩ c!"{% for x in y %}{% endfor %}{% break %}") = false ∧
    isOk (parseTemplate ⟨Syntax.default, Char.isLower⟩ c!"{% call m(a = 1, 2) %}") = false ∧
    isOk (parseTemplate ⟨Syntax.default, Char.isLower⟩ c!"{% call m(a = 1, a = 2) %}") = false ∧
    isOk (parseTemplate ⟨Syntax.default, Char.isLower⟩ c!"{% let (a, self) = b %}") = false := by
  refine ⟨?_, ?_, ?_, ?_⟩ <;> decide +kernel

/-- C29. In an accepted template every macro call has its positional arguments first and the named ones last, with
pairwise distinct names; no other expression contains a named argument. -/
theorem C29_named_arguments (env : PEnv) (hc : env.syn.CommentOk) (src : Str) (ns : List Node)
    (h : parseTemplate env src = .ok ns) : AllNs callsOk false ns ∧ AllNs exprsOk false ns :=
  ⟨AllNs.mono (fun _ _ h => h.2.2.1) _ _ (accepted env hc src ns h).1,
   AllNs.mono (fun _ _ h => h.2.2.2.1) _ _ (accepted env hc src ns h).1⟩

/-- C30. In an accepted template no `let`, `for`, `if let` or `match` pattern binds `self` or `writer`. -/
theorem C30_reserved_names (env : PEnv) (hc : env.syn.CommentOk) (src : Str) (ns : List Node)
    (h : parseTemplate env src = .ok ns) : AllNs bindsOk false ns :=
  AllNs.mono (fun _ _ h => h.2.1) _ _ (accepted env hc src ns h).1

/-! ## C23 -/

/-- C23. The top-level nodes of an accepted template tile the source: each literal node is exactly the text up to the
next opening delimiter, every other node starts at an opening delimiter, there are no gaps; and the same holds for
the nodes in the bodies of tags, which tile a part of the source. -/
theorem C23_literals_tile (env : PEnv) (hc : env.syn.CommentOk) (src : Str) (ns : List Node)
    (h : parseTemplate env src = .ok ns) :
    Tiled env.syn.starts src [] ns ∧ AllNs (fun _ => innerOk (TiledIn env src)) false ns := by
  have h1 := parseTemplate_ok env hc src
  rw [h] at h1
  exact ⟨h1.1, AllNs.mono (fun _ _ h => h.2.2.2.2.2) _ _ (accepted env hc src ns h).1⟩

/-- C23. A source without opening delimiters is one literal with exactly that text (no node if it is empty). -/
theorem C23_plain_text (env : PEnv) (src : Str) (h : ∀ a b, src = a ++ b → ¬ startsDelim env.syn.starts b) :
    (src = [] ∧ parseTemplate env src = .ok []) ∨
    ∃ l, parseTemplate env src = .ok [.lit l] ∧ l.text = src := by
  have h0 : ¬ startsDelim env.syn.starts [] := h src [] (by simp)
  have hne : ∀ d ∈ env.syn.starts, d.isPrefixOf [] = false := by
    intro d hd
    rw [Bool.eq_false_iff]
    intro hp
    exact h0 ⟨d, hd, List.isPrefixOf_iff_prefix.1 hp⟩
  have hb := hne env.syn.blockStart (by simp [Syntax.starts])
  have hcm := hne env.syn.commentStart (by simp [Syntax.starts])
  have he := hne env.syn.exprStart (by simp [Syntax.starts])
  have hnil : ∀ (tgt : SP Target) (many : SP (List Node)) (s : PState),
      nodeAlt env tgt many s [] = (.err false [] none, s) := by
    intro tgt many s
    have h1 : PT.map Node.lit (PT.lift (litP env)) s [] = (.err false [] none, s) := rfl
    have h2 : PT.map (fun c : Ws × Str => Node.comment c.1 c.2) (commentP env) s [] = (.err false [] none, s) := by
      show PT.bind (PT.bind (PT.tag env.syn.commentStart) _) _ s [] = _
      simp [PT.bind, PT.tag, hcm]
    have h3 : exprNode env s [] = (.err false [] none, s) := by
      show PT.bind (PT.tag env.syn.exprStart) _ s [] = _
      simp [PT.bind, PT.tag, he]
    have h4 : nodeP env tgt many s [] = (.err false [] none, s) := by
      unfold nodeP
      change PT.bind (PT.tag env.syn.blockStart) _ s [] = _
      simp [PT.bind, PT.tag, hb]
    simp only [nodeAlt, PT.alt, h1, h2, h3, h4]
  cases src with
  | nil =>
    left
    refine ⟨rfl, ?_⟩
    have : nodesP env nestFuel ⟨0, 0⟩ [] = (.ok [] [], ⟨0, 0⟩) := by
      simp only [nestFuel, nodesP, PT.many0, many0F, hnil]
    unfold parseTemplate
    change (match PT.bind (nodesP env nestFuel) _ ⟨0, 0⟩ [] with
      | (.ok [] nodes, _) => ParseOut.ok nodes
      | (.ok _ _, _) => .panic
      | (.err _ input msg, _) => mkParseErr [] input msg
      | (.stuck, _) => .panic) = _
    unfold PT.bind
    rw [this]
    rfl
  | cons c cs =>
    right
    have hl : litP env () (c :: cs) = (.ok [] (splitWsParts (c :: cs)), ()) := by
      unfold litP
      rcases skipTill_anyStart env (c :: cs) with ⟨t, r1, x, ht, hr, hd, hn⟩ | ⟨⟨j, m, hj⟩, hn⟩
      · exact absurd hd (h t r1 ht)
      · have hx : PT.opt (PT.recognize (skipTill (anyStart env.syn))) () (c :: cs) = (.ok (c :: cs) none, ()) := by
          simp only [PT.opt, PT.recognize, PT.map, PT.bind, PT.consumed, skipTill, PT.pure]
          rw [hj]
        show PT.bind (PT.not PT.eof) (fun _ => PT.bind (PT.opt (PT.recognize (skipTill (anyStart env.syn)))) _) ()
          (c :: cs) = _
        simp only [PT.bind, PT.not, PT.eof, List.isEmpty_cons, Bool.false_eq_true, if_false, hx]
        rfl
    have hn : ∀ (tgt : SP Target) (many : SP (List Node)) (s : PState),
        nodeAlt env tgt many s (c :: cs) = (.ok [] (.lit (splitWsParts (c :: cs))), s) := by
      intro tgt many s
      simp only [nodeAlt, PT.alt, PT.map, PT.bind, PT.lift, hl, PT.pure]
    refine ⟨splitWsParts (c :: cs), ?_, (splitWsParts_spec _).2⟩
    have : nodesP env nestFuel ⟨0, 0⟩ (c :: cs) = (.ok [] [.lit (splitWsParts (c :: cs))], ⟨0, 0⟩) := by
      simp only [nestFuel, nodesP, PT.many0, List.length_cons, many0F, hn, List.length_nil, PT.map, PT.bind, hnil,
        PT.pure]
      simp
    unfold parseTemplate
    change (match PT.bind (nodesP env nestFuel) _ ⟨0, 0⟩ (c :: cs) with
      | (.ok [] nodes, _) => ParseOut.ok nodes
      | (.ok _ _, _) => .panic
      | (.err _ input msg, _) => mkParseErr (c :: cs) input msg
      | (.stuck, _) => .panic) = _
    unfold PT.bind
    rw [this]
    rfl

/-! ## C32 -/

/-- C32 (positions not directly after a newline). The reported row (counted from 0; the message prints it plus one)
is the number of newlines before the error, the column the number of characters since the last newline.
Missing: positions directly after a newline, see `C32_false`. -/
theorem C32_position_partial (env : PEnv) (hc : env.syn.CommentOk) (src : Str) (e : ParseErr)
    (h : parseTemplate env src = .err e) :
    ∃ before after, src = before ++ after ∧ e.sourceAfter.1 = after.take 40 ∧
      (before.getLast? ≠ some '\n' → e.row = before.count '\n' ∧
        e.column = (before.reverse.takeWhile (· != '\n')).length) := by
  obtain ⟨b, a, hs, hr, hcol, hsa⟩ := error_report env hc src e h
  refine ⟨b, a, hs, by rw [hsa], fun hb => ?_⟩
  cases b with
  | nil => exact ⟨by rw [hr]; rfl, by rw [hcol]; rfl⟩
  | cons c b =>
    have h1 := strLines_go (c :: b) [] (by simp) (by simp) hb
    obtain ⟨l, hl, hlen⟩ := h1.2
    have e1 : strLines (c :: b) = strLines.go (c :: b) [] := by unfold strLines; rfl
    rw [hr, hcol, e1, h1.1, hl]
    exact ⟨by omega, by simpa using hlen⟩

/-- C32 is false: an unknown tag at the beginning of the second line is reported in the first line (row 0), at the
column of its end. -/
theorem C32_false (isLower : Char → Bool) : ∃ e, parseTemplate ⟨Syntax.default, isLower⟩ c!"ab\n{% x %}" = .err e ∧
    e.sourceAfter = (c!"{% x %}", false) ∧ e.row = 0 ∧ e.column = 2 := ⟨_, rfl, rfl, rfl, rfl⟩

end Askama.Props
