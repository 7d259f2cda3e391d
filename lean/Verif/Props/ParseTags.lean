import Verif.Lemmas.Tags
import Verif.Props.Parse

/-!
# Properties C24, C25, C30, C31: raw blocks, comments, keywords, names of end tags

`nodeAlt env tgt many s i` is the parser reading the next node of a template at `i`; `tgt` and `many` are the pattern
parser and the parser for the bodies of tags, which play no role for raw blocks and comments.
-/

namespace Askama.Props

open Spec PT

/-- The parser at a tag: no literal, comment or expression starts there. -/
theorem nodeAlt_block {env : PEnv} {tgt : SP Target} {many : SP (List Node)} {s : PState} {i : Str}
    (hb : env.syn.blockStart <+: i) (hc : ¬ env.syn.commentStart <+: i) (he : ¬ env.syn.exprStart <+: i) :
    nodeAlt env tgt many s i = nodeP env tgt many s i := by
  have hl : ∃ m, PT.map Node.lit (PT.lift (litP env)) s i = (.err false i m, s) := by
    cases i with
    | nil => exact ⟨none, rfl⟩
    | cons c i =>
      refine ⟨none, map_err (lift_err (u := ()) ?_)⟩
      unfold litP
      have hne : (PT.not PT.eof : P Unit) () (c :: i) = (.ok (c :: i) (), ()) := rfl
      rw [bind_ok hne]
      obtain ⟨i', hi'⟩ := hb
      have h1 : anyStart env.syn () (c :: i) = (.ok i' env.syn.blockStart, ()) := by
        unfold anyStart
        rw [← hi']
        exact alt_ok tag_ok
      have h2 : skipTill (anyStart env.syn) () ([] ++ (c :: i)) = (.ok (c :: i) (i', env.syn.blockStart), ()) := by
        simp only [List.nil_append]
        unfold skipTill skipTillGo
        rw [h1]
      have h3 := opt_ok (recognize_ok h2)
      rw [List.nil_append] at h3
      rw [bind_ok h3]
      rfl
  obtain ⟨m, hl⟩ := hl
  unfold nodeAlt
  rw [alt_err hl]
  have hcm : PT.map (fun c : Ws × Str => Node.comment c.1 c.2) (commentP env) s i = (.err false i none, s) := by
    refine map_err ?_
    unfold commentP
    exact bind_err (tag_err hc)
  rw [alt_err hcm]
  have hex : exprNode env s i = (.err false i none, s) := by
    unfold exprNode
    exact bind_err (tag_err he)
  rw [alt_err hex]

/-- The parser at a comment. -/
theorem nodeAlt_comment {env : PEnv} {tgt : SP Target} {many : SP (List Node)} {s : PState} {i : Str}
    (hc : env.syn.commentStart <+: i) (hb : ¬ env.syn.blockStart <+: i) (hne : i ≠ []) :
    nodeAlt env tgt many s i =
      PT.alt (PT.map (fun c : Ws × Str => Node.comment c.1 c.2) (commentP env))
        (PT.alt (exprNode env) (nodeP env tgt many)) s i := by
  have hl : PT.map Node.lit (PT.lift (litP env)) s i = (.err false i none, s) := by
    cases i with
    | nil => exact absurd rfl hne
    | cons c i =>
      refine map_err (lift_err (u := ()) ?_)
      unfold litP
      have hne : (PT.not PT.eof : P Unit) () (c :: i) = (.ok (c :: i) (), ()) := rfl
      rw [bind_ok hne]
      obtain ⟨i', hi'⟩ := hc
      have h1 : anyStart env.syn () (c :: i) = (.ok i' env.syn.commentStart, ()) := by
        unfold anyStart
        rw [alt_err (tag_err hb), ← hi']
        exact alt_ok tag_ok
      have h2 : skipTill (anyStart env.syn) () ([] ++ (c :: i)) = (.ok (c :: i) (i', env.syn.commentStart), ()) := by
        simp only [List.nil_append]
        unfold skipTill skipTillGo
        rw [h1]
      have h3 := opt_ok (recognize_ok h2)
      rw [List.nil_append] at h3
      rw [bind_ok h3]
      rfl
  unfold nodeAlt
  rw [alt_err hl]

/-- A parser that reads the whole source as one node. -/
theorem parseTemplate_one {env : PEnv} {src : Str} {n : Node} {s' : PState} (hne : src ≠ [])
    (hst : env.syn.blockStart ≠ [] ∧ env.syn.commentStart ≠ [] ∧ env.syn.exprStart ≠ [])
    (h : nodeAlt env (target env nestFuel) (nodesP env maxDepth) ⟨0, 0⟩ src = (.ok [] n, s')) :
    parseTemplate env src = .ok [n] := by
  have hnil : nodeAlt env (target env nestFuel) (nodesP env maxDepth) s' [] = (.err false [] none, s') := by
    have hp : ∀ {d : Str}, d ≠ [] → ¬ d <+: [] := by
      intro d hd hp
      exact hd (List.prefix_nil.1 hp)
    have h1 : PT.map Node.lit (PT.lift (litP env)) s' [] = (.err false [] none, s') := rfl
    have h2 : PT.map (fun c : Ws × Str => Node.comment c.1 c.2) (commentP env) s' [] = (.err false [] none, s') := by
      refine map_err ?_
      unfold commentP
      exact bind_err (tag_err (hp hst.2.1))
    have h3 : exprNode env s' [] = (.err false [] none, s') := by
      unfold exprNode
      exact bind_err (tag_err (hp hst.2.2))
    have h4 : nodeP env (target env nestFuel) (nodesP env maxDepth) s' [] = (.err false [] none, s') := by
      unfold nodeP
      rw [pos_bind, bind_err (tag_err (hp hst.1))]
    unfold nodeAlt
    rw [alt_err h1, alt_err h2, alt_err h3, h4]
  have hm : nodesP env nestFuel ⟨0, 0⟩ src = (.ok [] [n], s') := by
    show PT.many0 _ _ _ = _
    refine many0_cons h ?_ (many0_stop hnil)
    cases src with
    | nil => exact absurd rfl hne
    | cons c t => simp
  unfold parseTemplate
  have : (do let ns ← nodesP env nestFuel; PT.eof; pure ns : SP (List Node)) ⟨0, 0⟩ src = (.ok [] [n], s') := by
    rw [bind_ok hm]; rfl
  first
  | rw [this]
  | (change (match PT.bind (nodesP env nestFuel) _ ⟨0, 0⟩ src with
      | (.ok [] nodes, _) => ParseOut.ok nodes
      | (.ok _ _, _) => .panic
      | (.err _ input msg, _) => mkParseErr src input msg
      | (.stuck, _) => .panic) = _
     unfold PT.bind
     rw [hm]
     rfl)

theorem mkParseErr_not_ok (src i : Str) (m : Option Msg) (ns : List Node) : .ok ns ≠ mkParseErr src i m := by
  unfold mkParseErr
  dsimp only
  intro h
  by_cases hlt : src.blen < i.blen
  · rw [if_pos hlt] at h; simp at h
  · rw [if_neg hlt] at h
    generalize Str.takeB src (src.blen - i.blen) = x at h
    generalize Str.dropB src (src.blen - i.blen) = y at h
    match x, y, h with
    | some _, some _, h => simp at h
    | none, some _, h => simp at h
    | some _, none, h => simp at h
    | none, none, h => simp at h

/-! ## C24 -/

/-- C24. Wherever the parser stands at a `raw` tag (not nested deeper than the limit), the node it reads is the text
up to the first `endraw` tag, whatever tags that text contains, and it goes on after the `endraw` tag. The tags may
carry whitespace markers and white space. -/
theorem C24_raw_verbatim (env : PEnv) (tgt : SP Target) (many : SP (List Node)) (s : PState)
    (hend : CleanEnd env.syn.blockEnd) (hlevel : s.level < 128)
    (m1 m2 m3 m4 : Option Wsp) (w1 w2 w3 w4 body rest : Str)
    (hw : Blank w1 ∧ Blank w2 ∧ Blank w3 ∧ Blank w4)
    (openTag endTag : Str) (hopen : openTag = wordTag env.syn.blockStart env.syn.blockEnd m1 w1 c!"raw" w2 m2)
    (hendT : endTag = wordTag env.syn.blockStart env.syn.blockEnd m3 w3 c!"endraw" w4 m4)
    (hc : ¬ env.syn.commentStart <+: openTag ++ body ++ endTag ++ rest)
    (he : ¬ env.syn.exprStart <+: openTag ++ body ++ endTag ++ rest)
    (hfirst : ∀ x y, body = x ++ y → y ≠ [] → ¬ EndRaw env.syn.blockStart env.syn.blockEnd (y ++ (endTag ++ rest))) :
    ∃ lit, lit.text = body ∧
      nodeAlt env tgt many s (openTag ++ body ++ endTag ++ rest) =
        (.ok rest (.raw ⟨m1, m2⟩ lit ⟨m3, m4⟩), s) := by
  refine ⟨splitWsParts body, (splitWsParts_spec _).2, ?_⟩
  rw [nodeAlt_block ?_ hc he]
  · rw [hopen, hendT]
    rw [hendT] at hfirst
    exact raw_run hend hlevel hw.1 hw.2.1 hw.2.2.1 hw.2.2.2 hfirst
  · rw [hopen]
    simp only [wordTag, List.append_assoc]
    exact List.prefix_append _ _

/-- C24, for a template with the default delimiters that consists of one raw block. -/
theorem C24_raw_template (isLower : Char → Bool) (body : Str)
    (hfirst : ∀ x y, body = x ++ y → y ≠ [] → ¬ EndRaw c!"{%" c!"%}" (y ++ c!"{% endraw %}")) :
    ∃ lit, lit.text = body ∧
      parseTemplate ⟨Syntax.default, isLower⟩ (c!"{% raw %}" ++ body ++ c!"{% endraw %}") =
        .ok [.raw ⟨none, none⟩ lit ⟨none, none⟩] := by
  have hbl : Blank c!" " := by intro c hc; simp at hc; subst hc; exact isWsp_iff.1 (by decide)
  obtain ⟨l, hl, h⟩ := C24_raw_verbatim ⟨Syntax.default, isLower⟩ (target ⟨Syntax.default, isLower⟩ nestFuel)
    (nodesP ⟨Syntax.default, isLower⟩ maxDepth) ⟨0, 0⟩
    ⟨'%', ['}'], rfl, by rintro (h | h | h | h) <;> exact absurd h (by decide),
      by rintro (h | h | h | h | h) <;> exact absurd h (by decide), by decide, by decide, by decide⟩
    (by decide) none none none none c!" " c!" " c!" " c!" " body [] ⟨hbl, hbl, hbl, hbl⟩
    c!"{% raw %}" c!"{% endraw %}" rfl rfl
    (by rintro ⟨t, ht⟩; simp [Syntax.default] at ht)
    (by rintro ⟨t, ht⟩; simp [Syntax.default] at ht)
    (by simpa [Syntax.default] using hfirst)
  refine ⟨l, hl, parseTemplate_one (by simp) (by simp [Syntax.default]) ?_ (s' := ⟨0, 0⟩)⟩
  rw [List.append_nil] at h
  exact h

example : ∃ lit, lit.text = c!"{{ a }}{% if %}{% endraw\n" ∧
    parseTemplate ⟨Syntax.default, Char.isLower⟩ (c!"{% raw %}" ++ c!"{{ a }}{% if %}{% endraw\n" ++ c!"{% endraw %}") =
        .ok [.raw ⟨none, none⟩ lit ⟨none, none⟩] := ⟨_, rfl, rfl⟩

/-! ## C25 -/

/-- C25. A comment is read exactly to the closing delimiter that matches its opening one, comments inside comments
nesting to any depth. -/
theorem C25_comments_nest (env : PEnv) (tgt : SP Target) (many : SP (List Node)) (s : PState)
    (hs : env.syn.commentStart ≠ []) (he : env.syn.commentEnd ≠ []) (m : Option Wsp) (i r : Str)
    (hm : m = none → i.head? ≠ some '+' ∧ i.head? ≠ some '-' ∧ i.head? ≠ some '~')
    (hb : ¬ env.syn.blockStart <+: env.syn.commentStart ++ (mark m ++ i))
    (h : CommentTo env.syn.commentStart env.syn.commentEnd i r) :
    ∃ w content, i = content ++ r ∧
      nodeAlt env tgt many s (env.syn.commentStart ++ (mark m ++ i)) = (.ok r (.comment ⟨m, w⟩ content), s) := by
  obtain ⟨c, hi, hrun⟩ := commentP_closed (s := s) (List.length_pos_iff.2 hs) (List.length_pos_iff.2 he) hm h
  refine ⟨commentNws env.syn c, c, hi, ?_⟩
  rw [nodeAlt_comment (List.prefix_append _ _) hb (by simp [hs])]
  exact alt_ok (map_ok hrun)

/-- C25. A comment without a matching closing delimiter makes the parser fail. -/
theorem C25_unclosed_comment (env : PEnv) (tgt : SP Target) (many : SP (List Node)) (s : PState)
    (hs : env.syn.commentStart ≠ []) (he : env.syn.commentEnd ≠ []) (m : Option Wsp) (i : Str)
    (hm : m = none → i.head? ≠ some '+' ∧ i.head? ≠ some '-' ∧ i.head? ≠ some '~')
    (hb : ¬ env.syn.blockStart <+: env.syn.commentStart ++ (mark m ++ i))
    (h : ∀ r, ¬ CommentTo env.syn.commentStart env.syn.commentEnd i r) :
    ∃ j msg, nodeAlt env tgt many s (env.syn.commentStart ++ (mark m ++ i)) = (.err true j msg, s) := by
  obtain ⟨j, msg, hrun⟩ := commentP_unclosed (s := s) (List.length_pos_iff.2 hs) (List.length_pos_iff.2 he) hm h
  refine ⟨j, msg, ?_⟩
  rw [nodeAlt_comment (List.prefix_append _ _) hb (by simp [hs])]
  exact alt_fail (map_err hrun)

/-- The matching delimiter is unique. -/
theorem C25_unique (o c i r r' : Str) (h : CommentTo o c i r) (h' : CommentTo o c i r') : r = r' := h.det h'

example : CommentTo c!"{#" c!"#}" c!" a {# b #} c #} d" c!" d" := by
  have free : ∀ t r : Str, (∀ k, k < t.length → ¬ startsDelim [c!"{#", c!"#}"] (t.drop k ++ r)) →
      Free [c!"{#", c!"#}"] t r := by
    intro t r h a b hab hb
    have := h a.length (by rw [hab]; simp; exact List.length_pos_iff.2 hb)
    rwa [hab, List.drop_left] at this
  have nod : ∀ x y : Char, ∀ r : Str, (x = '{' → y ≠ '#') → (x = '#' → y ≠ '}') →
      ¬ startsDelim [c!"{#", c!"#}"] (x :: y :: r) := by
    rintro x y r h1 h2 ⟨d, hd, t, ht⟩
    simp at hd
    rcases hd with rfl | rfl <;> simp at ht
    · exact h1 ht.1.symm ht.2.1.symm
    · exact h2 ht.1.symm ht.2.1.symm
  have close : ∀ t r : Str, Free [c!"{#", c!"#}"] t (c!"#}" ++ r) → CommentTo c!"{#" c!"#}" (t ++ c!"#}" ++ r) r :=
    fun t r h => .close h (by rintro ⟨x, hx⟩; simp at hx)
  refine CommentTo.nest (t := c!" a ") (i := c!" b #} c #} d") (k := c!" c #} d") ?_ (close c!" b " _ ?_) (close c!" c " _ ?_)
  all_goals
    refine free _ _ fun k hk => ?_
    match k, hk with
    | 0, _ => exact nod _ _ _ (by decide) (by decide)
    | 1, _ => exact nod _ _ _ (by decide) (by decide)
    | 2, _ => exact nod _ _ _ (by decide) (by decide)
    | k + 3, hk => exact absurd hk (by simp)

/-! ## C30 -/

/-- C30. `keyword(k)` accepts exactly the word `k` that is not followed by a further identifier character. -/
theorem C30_keyword (k i r v : Str) : keyword k () i = (.ok r v, ()) ↔
    v = k ∧ i = k ++ r ∧ k ≠ [] ∧ (∀ c, k.head? = some c → identStart c) ∧ (∀ c ∈ k, identChar c) ∧
      (∀ c, r.head? = some c → ¬ identChar c) := by
  constructor
  · intro h
    rw [keyword_run] at h
    by_cases hh : i.head?.any identStart = true ∧ i.takeWhile identCont = k
    · rw [if_pos hh] at h
      simp only [Prod.mk.injEq, PRes.ok.injEq, and_true] at h
      obtain ⟨h1, rfl⟩ := h
      have h3 := List.takeWhile_append_dropWhile (p := identCont) (l := i)
      rw [hh.2, h1] at h3
      have hk : ∃ c k', k = c :: k' ∧ identStart c = true := by
        cases i with
        | nil => simp at hh
        | cons c i =>
          have hc : identStart c = true := by simpa using hh.1
          rw [List.takeWhile_cons_of_pos (identStart_cont hc)] at hh
          exact ⟨c, _, hh.2.symm, hc⟩
      obtain ⟨c, k', hk, hc⟩ := hk
      refine ⟨rfl, h3.symm, by simp [hk], ?_, ?_, ?_⟩
      · intro c' hc'
        rw [hk] at hc'
        simp at hc'
        rwa [← hc']
      · intro c' hc'
        rw [← hh.2] at hc'
        exact identCont_iff.1 (mem_takeWhile_ch hc')
      · intro c' hc' hcon
        rw [← h1] at hc'
        have := dropWhile_head hc'
        rw [identCont_iff.2 hcon] at this
        simp at this
    · rw [if_neg hh] at h
      simp at h
  · rintro ⟨rfl, rfl, hne, hst, hall, hr⟩
    refine keyword_ok ⟨hne, ?_, fun c hc => identCont_iff.2 (hall c hc)⟩ ?_
    · cases v with
      | nil => exact absurd rfl hne
      | cons c v => simpa using hst c rfl
    · intro c hc
      rw [Bool.eq_false_iff]
      exact fun h => hr c hc (identCont_iff.1 h)

/-- C30. A block tag is accepted only if its first word, taken to its last identifier character, is one of the tag
names: a longer word with a tag name as its beginning is not taken for it. -/
theorem C30_tag_word (env : PEnv) (tgt : SP Target) (many : SP (List Node)) (s s' : PState) (i r : Str) (n : Node)
    (h : nodeP env tgt many s i = (.ok r n, s')) :
    ∃ m w word rest, i = env.syn.blockStart ++ mark m ++ w ++ word ++ rest ∧ Blank w ∧
      word ∈ [c!"call", c!"let", c!"set", c!"if", c!"for", c!"match", c!"extends", c!"include", c!"import", c!"block",
        c!"macro", c!"raw", c!"break", c!"continue", c!"filter"] ∧
      (∀ c, rest.head? = some c → ¬ identChar c) := by
  rcases nodeP_split env tgt many s i with ⟨j, m, hj⟩ | ⟨m, w, word, rest, p, hi, hw, hid, hno, hp⟩
  · rw [hj] at h; simp at h
  · refine ⟨m, w, word, rest, by simpa [List.append_assoc] using hi, hw, tagParser_word hp, ?_⟩
    intro c hc hcon
    have := hno c hc
    rw [identCont_iff.2 hcon] at this
    simp at this

/-- The separator `or` of pattern alternatives, in contrast, is not checked to be a whole word: `a orb` is read as
the two alternatives `a` and `b`. -/
theorem C30_or_is_not_a_keyword :
    ∃ ws, parseTemplate ⟨Syntax.default, Char.isLower⟩ c!"{% let a orb = c %}" =
      .ok [.let_ ws (.orChain [.name c!"a", .name c!"b"]) (some (.var c!"c"))] := ⟨_, rfl⟩

/-! ## C31 -/

/-- The text of a named end tag after its opening delimiter, up to its closing delimiter. -/
def EndOf (word name : Str) (blockStart blockEnd i r : Str) : Prop :=
  ∃ m1 w1 w2 nm w3 m2, i = blockStart ++ mark m1 ++ w1 ++ word ++ w2 ++ nm ++ w3 ++ mark m2 ++ blockEnd ++ r ∧
    Blank w1 ∧ Blank w2 ∧ Blank w3 ∧ (nm = [] ∨ nm = name)

theorem closing_inv {env : PEnv} {n n' : Node} {s s' : PState} {i r : Str}
    (h : (do
      if ← PT.cut (closing env.syn.blockEnd) then pure n
      else do
        let j ← pos
        failAt j (some (.unclosed c!"block" env.syn.blockEnd)) : SP Node) s i = (.ok r n', s')) :
    i = env.syn.blockEnd ++ r ∧ n' = n := by
  obtain ⟨b, s1, j, h1, h2⟩ := bind_inv h
  have h1 := cut_inv h1
  cases b with
  | false =>
    simp only [Bool.false_eq_true, if_false] at h2
    rw [pos_bind] at h2
    cases h2
  | true =>
    simp only [if_true] at h2
    rw [pure_run] at h2
    simp only [Prod.mk.injEq, PRes.ok.injEq] at h2
    obtain ⟨⟨rfl, rfl⟩, rfl⟩ := h2
    unfold closing at h1
    by_cases hp : env.syn.blockEnd <+: i
    · obtain ⟨i', rfl⟩ := hp
      rw [alt_ok (map_ok tag_ok)] at h1
      simp only [Prod.mk.injEq, PRes.ok.injEq] at h1
      exact ⟨by rw [h1.1.1], rfl⟩
    · rw [alt_err (map_err (tag_err hp))] at h1
      unfold PT.map at h1
      obtain ⟨a, s2, j2, _, h3⟩ := bind_inv h1
      cases h3

/-- C31. If the parser accepts a tag that begins with the word `block`, then the tag opens a block of some name and
the text read ends with an `endblock` tag that carries no name or that very name. -/
theorem C31_block_names (env : PEnv) (tgt : SP Target) (many : SP (List Node)) (s s' : PState) (m : Option Wsp)
    (w rest r : Str) (n : Node) (hw : Blank w) (hrest : ∀ c, rest.head? = some c → ¬ identChar c)
    (h : nodeP env tgt many s (env.syn.blockStart ++ (mark m ++ (w ++ (c!"block" ++ rest)))) = (.ok r n, s')) :
    ∃ name w1 w2 m2 body ns w3 s1 s2 e, n = .blockDef ⟨m, m2⟩ name ns w3 ∧ Blank w1 ∧ Blank w2 ∧
      rest = w1 ++ name ++ w2 ++ mark m2 ++ env.syn.blockEnd ++ body ∧
      many s1 body = (.ok e ns, s2) ∧ EndOf c!"endblock" name env.syn.blockStart env.syn.blockEnd e r := by
  have hk : IsIdent c!"block" := ⟨by simp, by decide, by decide⟩
  have hno : NoIdent rest := by
    intro c hc
    rw [Bool.eq_false_iff]
    exact fun hh => hrest c hc (identCont_iff.1 hh)
  rw [nodeP_disp hk hw hno (by rfl)] at h
  obtain ⟨n', s1, j1, h1, h2⟩ := bind_inv h
  obtain ⟨rfl, rfl⟩ := closing_inv h2
  obtain ⟨s2, s3, h3⟩ := nested_inv h1
  obtain ⟨name, w1, w2, m2, body, ns, w3, sa, sb, e, m3, w4, w5, nm, w6, m4, hn, hw1, hw2, _, hr, hm, he, hw4, hw5, hw6, hnm⟩ :=
    blockP_inv hw hno h3
  exact ⟨name, w1, w2, m2, body, ns, w3, sa, sb, e, hn, hw1, hw2, hr, hm, m3, w4, w5, nm, w6, m4,
    by simpa [List.append_assoc] using he, hw4, hw5, hw6, hnm⟩

/-- C31. Likewise for `macro` and `endmacro`. -/
theorem C31_macro_names (env : PEnv) (tgt : SP Target) (many : SP (List Node)) (s s' : PState) (m : Option Wsp)
    (w rest r : Str) (n : Node) (hw : Blank w) (hrest : ∀ c, rest.head? = some c → ¬ identChar c)
    (h : nodeP env tgt many s (env.syn.blockStart ++ (mark m ++ (w ++ (c!"macro" ++ rest)))) = (.ok r n, s')) :
    ∃ name ps w1 x m2 body ns w3 s1 s2 e, n = .macro ⟨m, m2⟩ name ps ns w3 ∧ Blank w1 ∧ name ≠ c!"super" ∧
      rest = w1 ++ name ++ x ∧
      many s1 body = (.ok e ns, s2) ∧ EndOf c!"endmacro" name env.syn.blockStart env.syn.blockEnd e r := by
  have hk : IsIdent c!"macro" := ⟨by simp, by decide, by decide⟩
  have hno : NoIdent rest := by
    intro c hc
    rw [Bool.eq_false_iff]
    exact fun hh => hrest c hc (identCont_iff.1 hh)
  rw [nodeP_disp hk hw hno (by rfl)] at h
  obtain ⟨n', s1, j1, h1, h2⟩ := bind_inv h
  obtain ⟨rfl, rfl⟩ := closing_inv h2
  obtain ⟨s2, s3, h3⟩ := nested_inv h1
  obtain ⟨name, ps, w1, x, m2, body, ns, w3, sa, sb, e, m3, w4, w5, nm, w6, m4, hn, hw1, _, hsup, hr, hm, he, hw4, hw5, hw6, hnm⟩ :=
    macroP_inv hw hno h3
  exact ⟨name, ps, w1, x, m2, body, ns, w3, sa, sb, e, hn, hw1, hsup, hr, hm, m3, w4, w5, nm, w6, m4,
    by simpa [List.append_assoc] using he, hw4, hw5, hw6, hnm⟩

/-- C31. `{% block a %}{% endblock b %}` is accepted exactly if the identifiers `a` and `b` are equal. -/
theorem C31_mismatch (isLower : Char → Bool) (a b : Str) (ha : IsIdent a) (hb : IsIdent b) :
    if a = b then
      parseTemplate ⟨Syntax.default, isLower⟩ (c!"{% block " ++ a ++ c!" %}{% endblock " ++ b ++ c!" %}") =
        .ok [.blockDef ⟨none, none⟩ a [] ⟨none, none⟩]
    else ∃ e,
      parseTemplate ⟨Syntax.default, isLower⟩ (c!"{% block " ++ a ++ c!" %}{% endblock " ++ b ++ c!" %}") = .err e := by
  generalize henv : (⟨Syntax.default, isLower⟩ : PEnv) = env
  have hBS : env.syn.blockStart = c!"{%" := by rw [← henv]; rfl
  have hBE : env.syn.blockEnd = c!"%}" := by rw [← henv]; rfl
  have hCS : env.syn.commentStart = c!"{#" := by rw [← henv]; rfl
  have hES : env.syn.exprStart = c!"{{" := by rw [← henv]; rfl
  have hbl : Blank c!" " := by intro c hc; simp at hc; subst hc; exact isWsp_iff.1 (by decide)
  have hk1 : IsIdent c!"block" := ⟨by simp, by decide, by decide⟩
  have hk2 : IsIdent c!"endblock" := ⟨by simp, by decide, by decide⟩
  have hsp : ∀ r : Str, NoIdent (' ' :: r) := by
    intro r c hc
    simp at hc
    subst hc
    decide
  have hwsI : ∀ (s : PState) (n r : Str), IsIdent n → NoWs r → ws ident s (n ++ (c!" " ++ r)) = (.ok r n, s) := by
    intro s n r hn hr
    exact ws_run (w := []) (w2 := c!" ") (allWs_iff.2 (by intro c hc; simp at hc)) (noWs_ident hn)
      (lift_ok (u := ()) (identifier_ok hn (hsp _))) (allWs_iff.2 hbl) hr
  have hpc : ∀ r : Str, NoWs ('%' :: r) ∧ NoMark ('%' :: r) := fun r =>
    ⟨fun c hc => by simp at hc; subst hc; decide, by simp [NoMark]⟩
  have htag : ∀ (s : PState) (r : Str), (PT.tag env.syn.blockEnd : SP Str) s ('%' :: '}' :: r) = (.ok r c!"%}", s) := by
    intro s r
    rw [hBE]
    exact tag_ok (t := c!"%}")
  -- the body is empty: the end tag is no node
  have hmany : ∀ (fuel : Nat) (s : PState) (r : Str), nodesP env (fuel + 1) s (c!"{% endblock " ++ r) =
      (.ok (c!"{% endblock " ++ r) [], s) := by
    intro fuel s r
    show PT.many0 _ s _ = _
    have hpk : (PT.peek (do let _ ← opt wsMark; skipWs; ident) : SP Str) s (c!" " ++ (c!"endblock" ++ (' ' :: r))) =
        (.ok (c!" " ++ (c!"endblock" ++ (' ' :: r))) c!"endblock", s) := by
      refine peek_ok (r := ' ' :: r) ?_
      rw [bind_ok (optMark_none (by simp [NoMark])), bind_ok skipWs_run,
        dropWhile_ws (allWs_iff.2 hbl) (noWs_ident hk2)]
      exact lift_ok (identifier_ok hk2 (hsp _))
    refine many0_stop (j := c!"{% endblock " ++ r) (m := none) ?_
    rw [nodeAlt_block (by rw [hBS]; exact ⟨c!" endblock " ++ r, rfl⟩)
      (by rw [hCS]; rintro ⟨t, ht⟩; simp at ht) (by rw [hES]; rintro ⟨t, ht⟩; simp at ht)]
    unfold nodeP
    have ht : (PT.tag env.syn.blockStart : SP Str) s (c!"{% endblock " ++ r) =
        (.ok (c!" " ++ (c!"endblock" ++ (' ' :: r))) c!"{%", s) := by
      rw [hBS]
      exact tag_ok (t := c!"{%")
    rw [pos_bind, bind_ok ht, bind_ok hpk]
    rfl
  -- the block
  have hblock : ∀ s : PState, blockP env (nodesP env maxDepth) s
      (c!" " ++ (c!"block" ++ (c!" " ++ (a ++ (c!" " ++ (c!"%}" ++ (c!"{% endblock " ++ (b ++ (c!" " ++ c!"%}"))))))))) =
      if a = b then (.ok c!"%}" (.blockDef ⟨none, none⟩ a [] ⟨none, none⟩), s)
      else (.err true (b ++ c!" %}") (some (.endName c!"block" a b)), s) := by
    intro s
    unfold blockP
    rw [bind_ok (optMark_none (by simp [NoMark])),
      bind_ok (ws_run (s' := s) (r := a ++ (c!" " ++ (c!"%}" ++ (c!"{% endblock " ++ (b ++ (c!" " ++ c!"%}"))))))
        (a := c!"block") (allWs_iff.2 hbl)
        (noWs_ident hk1) (kw_ok hk1 (hsp _)) (allWs_iff.2 hbl) (noWs_ident ha))]
    have h1 : (PT.cut do
        let name ← ws ident
        let nws1 ← opt wsMark
        let _ ← tag env.syn.blockEnd
        pure (name, nws1) : SP (Str × Option Wsp)) s (a ++ (c!" " ++ (c!"%}" ++ (c!"{% endblock " ++ (b ++ (c!" " ++ c!"%}")))))) =
        (.ok (c!"{% endblock " ++ (b ++ (c!" " ++ c!"%}"))) (a, none), s) := by
      refine cut_ok ?_
      refine (bind_ok (hwsI s a (c!"%}" ++ (c!"{% endblock " ++ (b ++ (c!" " ++ c!"%}")))) ha (hpc _).1)).trans ?_
      refine (bind_ok (optMark_none (hpc _).2)).trans ?_
      refine (bind_ok (htag s _)).trans ?_
      rfl
    rw [bind_ok h1]
    have hmb : nodesP env maxDepth s (c!"{% endblock " ++ (b ++ (c!" " ++ c!"%}"))) =
        (.ok (c!"{% endblock " ++ (b ++ (c!" " ++ c!"%}"))) [], s) := hmany 127 s _
    have h2 : endTag env c!"endblock" s (c!"{% endblock " ++ (b ++ (c!" " ++ c!"%}"))) =
        (.ok (b ++ (c!" " ++ c!"%}")) none, s) := by
      unfold Askama.endTag
      have ht : (PT.tag env.syn.blockStart : SP Str) s (c!"{% endblock " ++ (b ++ (c!" " ++ c!"%}"))) =
          (.ok (c!" " ++ (c!"endblock" ++ (c!" " ++ (b ++ (c!" " ++ c!"%}"))))) c!"{%", s) := by
        rw [hBS]
        exact tag_ok (t := c!"{%")
      rw [bind_ok ht, bind_ok (optMark_none (by simp [NoMark])),
        bind_ok (ws_run (s' := s) (r := b ++ (c!" " ++ c!"%}")) (a := c!"endblock") (allWs_iff.2 hbl)
          (noWs_ident hk2) (kw_ok hk2 (hsp _)) (allWs_iff.2 hbl) (noWs_ident hb))]
      rfl
    have hid := hwsI s b c!"%}" hb (hpc _).1
    by_cases hab : a = b
    · rw [if_pos hab]
      refine cut_ok ?_
      rw [bind_ok hmb]
      refine cut_ok ?_
      rw [bind_ok h2]
      refine cut_ok ?_
      have h3 : endName c!"block" a s (b ++ (c!" " ++ c!"%}")) = (.ok c!"%}" (some b), s) := by
        unfold endName
        refine opt_ok ?_
        rw [pos_bind, bind_ok hid, if_pos hab]
        rfl
      rw [bind_ok h3, bind_ok (optMark_none (hpc _).2)]
      rfl
    · rw [if_neg hab]
      refine cut_err (c := true) ?_
      rw [bind_ok hmb]
      refine cut_err (c := true) ?_
      rw [bind_ok h2]
      refine cut_err (c := true) ?_
      have h3 : endName c!"block" a s (b ++ (c!" " ++ c!"%}")) =
          (.err true (b ++ (c!" " ++ c!"%}")) (some (.endName c!"block" a b)), s) := by
        unfold endName
        refine opt_fail ?_
        rw [pos_bind, bind_ok hid, if_neg hab]
        rfl
      exact bind_err h3
  have hsrc : c!"{% block " ++ a ++ c!" %}{% endblock " ++ b ++ c!" %}" =
      env.syn.blockStart ++ (mark none ++ (c!" " ++ (c!"block" ++
        (c!" " ++ (a ++ (c!" " ++ (c!"%}" ++ (c!"{% endblock " ++ (b ++ (c!" " ++ c!"%}")))))))))) := by
    rw [hBS]
    simp [mark, List.append_assoc]
  have hnode := nodeP_word (env := env) (tgt := target env nestFuel) (many := nodesP env maxDepth) (s := ⟨0, 0⟩)
    (m1 := none) (w1 := c!" ") (word := c!"block")
    (r := c!" " ++ (a ++ (c!" " ++ (c!"%}" ++ (c!"{% endblock " ++ (b ++ (c!" " ++ c!"%}"))))))) hk1 hbl (hsp _)
    (p := blockP env (nodesP env maxDepth)) (by rfl) (by decide)
  rw [← hsrc] at hnode
  have hb0 := hblock ⟨0 + 1, 0⟩
  have hna : nodeAlt env (target env nestFuel) (nodesP env maxDepth) ⟨0, 0⟩
      (c!"{% block " ++ a ++ c!" %}{% endblock " ++ b ++ c!" %}") =
      if a = b then (.ok [] (.blockDef ⟨none, none⟩ a [] ⟨none, none⟩), ⟨0, 0⟩)
      else (.err true (b ++ c!" %}") (some (.endName c!"block" a b)), ⟨0, 0⟩) := by
    rw [nodeAlt_block (by rw [hBS]; exact ⟨c!" block " ++ a ++ c!" %}{% endblock " ++ b ++ c!" %}", by simp⟩)
      (by rw [hCS]; rintro ⟨t, ht⟩; simp at ht) (by rw [hES]; rintro ⟨t, ht⟩; simp at ht), hnode]
    simp only [mark, List.nil_append]
    rw [hb0]
    by_cases hab : a = b
    · rw [if_pos hab, if_pos hab]
      have hcl : PT.cut (closing env.syn.blockEnd) ⟨0, 0⟩ c!"%}" = (.ok [] true, (⟨0, 0⟩ : PState)) :=
        cut_ok (alt_ok (map_ok (htag _ [])))
      exact bind_ok hcl
    · rw [if_neg hab, if_neg hab]
      rfl
  by_cases hab : a = b
  · rw [if_pos hab] at hna ⊢
    exact parseTemplate_one (by simp) (by rw [hBS, hCS, hES]; simp) hna
  · rw [if_neg hab] at hna ⊢
    have hm : nodesP env nestFuel ⟨0, 0⟩ (c!"{% block " ++ a ++ c!" %}{% endblock " ++ b ++ c!" %}") =
        (.err true (b ++ c!" %}") (some (.endName c!"block" a b)), ⟨0, 0⟩) := many0F_fail hna
    have htot := C22_total env (by rw [← henv]; simp [Syntax.CommentOk, Syntax.default])
      (c!"{% block " ++ a ++ c!" %}{% endblock " ++ b ++ c!" %}")
    generalize c!"{% block " ++ a ++ c!" %}{% endblock " ++ b ++ c!" %}" = src at *
    have hp : parseTemplate env src = mkParseErr src (b ++ c!" %}") (some (.endName c!"block" a b)) := by
      unfold parseTemplate
      rw [bind_err hm]
    rcases htot with ⟨ns, hns⟩ | ⟨e, _, _, he, _⟩
    · rw [hns] at hp
      exact absurd hp (mkParseErr_not_ok _ _ _ _)
    · exact ⟨e, he⟩

end Askama.Props
