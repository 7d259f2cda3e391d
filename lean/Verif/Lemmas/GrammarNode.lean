import Verif.Lemmas.GrammarPat

/-!
# Accepted templates are templates of the grammar
-/

namespace Askama

open PT Spec

/-! ## Pieces of tags -/

theorem yields_mark : Yields (opt wsMark) fun t m => t = mark m := by
  intro s i r a s' h
  obtain ⟨m, r', h1, h2⟩ := optMark_run s i
  rw [h2] at h
  simp only [Prod.mk.injEq, PRes.ok.injEq] at h
  obtain ⟨⟨rfl, rfl⟩, _⟩ := h
  exact ⟨_, h1, rfl⟩

theorem yields_exprHere (env : PEnv) : Yields (exprHere env) (Spelt env.isLower 0) := by
  intro s i r a s' h
  simp only [exprHere, Prod.mk.injEq] at h
  exact (exprP_spelt env _ .parse).yields () i r a _ (Prod.ext h.1 rfl)

theorem yields_pexpr (env : PEnv) : Yields (ws (exprHere env)) (PaddedExpr env.isLower) := (yields_exprHere env).padded

theorem yields_argsHere (env : PEnv) (m : Bool) : Yields (argsHere env m) (SpeltArgs env.isLower m) := by
  intro s i r a s' h
  simp only [argsHere, Prod.mk.injEq] at h
  exact (exprP_spelt env _ (.args m)).yields () i r a _ (Prod.ext h.1 rfl)

/-- What a filter takes. -/
def FilterText (isLower : Char → Bool) (t : Str) (f : Str × Option (List Expr)) : Prop :=
  ∃ u a, t = '|' :: (u ++ a) ∧ Padded f.1 u ∧ Name f.1 ∧ SpeltOptArgs isLower false a (f.2.getD [])

theorem yields_optArgs {σ : Type} {p : PT σ (List Expr)} {isLower : Char → Bool} {m : Bool} (hp : Yields p (SpeltArgs isLower m)) :
    Yields p.opt fun t o => SpeltOptArgs isLower m t (o.getD []) :=
  hp.opt.mono fun t o h => by
    rcases h with ⟨rfl, rfl⟩ | ⟨es, rfl, h⟩
    · exact .none
    · exact .some h

theorem yields_filterHere (env : PEnv) : Yields (filterHere env) (FilterText env.isLower) := by
  intro s i r a s' h
  simp only [filterHere, Prod.mk.injEq] at h
  have : Yields (filterP (exprP env (maxDepth - s.level))) (FilterText env.isLower) := by
    refine yields_char.bind fun t _ ht => yields_name.padded.bind fun n nm hn =>
      (yields_optArgs (exprP_spelt env _ (.args false)).yields).bind fun b as ha => .pure ?_
    obtain ⟨x, hx, rfl, hn⟩ := hn
    exact ⟨n, b, by rw [ht]; simp, hx, hn, ha⟩
  exact this () i r a _ (Prod.ext h.1 rfl)

theorem yields_letWord : Yields (ws (alt (kw c!"let") (kw c!"set"))) fun t _ => Padded c!"let" t ∨ Padded c!"set" t := by
  refine (Yields.alt (yields_keyword.lift.mono fun t a h => ?_) (yields_keyword.lift.mono fun t a h => ?_)).padded.mono
    (Q := fun t a => ∃ x, Padded x t ∧ (x = c!"let" ∨ x = c!"set")) fun t a ⟨x, hx, h⟩ => ?_
  · exact .inl h.1
  · exact .inr h.1
  · rcases h with rfl | rfl
    · exact .inl hx
    · exact .inr hx

theorem yields_pstring : Yields (ws (lift strLit) : SP Str) fun t a => Padded ('"' :: (a ++ ['"'])) t ∧ StrBody a :=
  yields_string.lift.padded.mono fun _ _ ⟨_, h, h1, h2⟩ => ⟨h1 ▸ h, h2⟩

theorem yields_endTag {env : PEnv} {k : Str} : Yields (endTag env k) fun t p => ∃ z, Padded k z ∧
    t = env.syn.blockStart ++ (mark p ++ z) :=
  yields_tag.bind fun a _ ha => yields_mark.bind fun b p hb => yields_pkw.bind fun z _ hz => .pure
    ⟨z, hz, by rw [ha.1, hb]; simp⟩

theorem yields_endName {kind name : Str} : Yields (endName kind name) fun t _ => t = [] ∨ Padded name t := by
  refine (Yields.opt (Q := fun t _ => Padded name t) (yields_pos.bind fun _ _ h1 => yields_pname.bind fun t n hn => ?_)).mono
    fun t o h => ?_
  · subst h1
    dsimp only
    split
    · rename_i h
      subst h
      exact .pure (by simpa using hn.1)
    · exact yields_failAt
  · rcases h with ⟨_, h⟩ | ⟨_, _, h⟩
    · exact .inl h
    · exact .inr h

theorem yields_eof {σ : Type} : Yields (eof : PT σ Unit) fun t _ => t = [] := by
  intro s i r a s' h
  simp only [PT.eof] at h
  split at h
  · simp only [Prod.mk.injEq, PRes.ok.injEq] at h
    exact ⟨[], by simp [h.1.1], rfl⟩
  · simp at h

theorem yields_closing {t : Str} : Yields (closing t) fun x b => b = true → x = t :=
  .alt (yields_tag.map fun x a h _ => h.1) (yields_eof.ws.map fun _ _ _ h => nomatch h)

/-! ## Comments -/

theorem _root_.Askama.Spec.Free.less {ds : List Str} {t x r : Str} (h : Free ds t r) (hx : x <+: r) : Free ds t x := by
  intro a b hab hb ⟨d, hd, hp⟩
  refine h a b hab hb ⟨d, hd, ?_⟩
  obtain ⟨y, rfl⟩ := hx
  obtain ⟨z, hz⟩ := hp
  exact ⟨z ++ y, by rw [← List.append_assoc, hz]; simp⟩

theorem commentTo_text {o c i r : Str} (h : CommentTo o c i r) :
    ∃ b, i = b ++ (c ++ r) ∧ ∀ x, x <+: r → CommentTo o c (b ++ (c ++ x)) x := by
  induction h with
  | @close t r hf hn =>
    refine ⟨t, by simp, fun x hx => ?_⟩
    have hcx : c ++ x <+: c ++ r := by
      obtain ⟨y, rfl⟩ := hx
      exact ⟨y, by simp⟩
    have := CommentTo.close (o := o) (hf.less hcx) fun h => hn (h.trans hcx)
    simpa using this
  | @nest t i k r hf h1 h2 ih1 ih2 =>
    obtain ⟨b1, rfl, g1⟩ := ih1
    obtain ⟨b2, rfl, g2⟩ := ih2
    refine ⟨t ++ (o ++ (b1 ++ (c ++ b2))), by simp, fun x hx => ?_⟩
    have hk : b2 ++ (c ++ x) <+: b2 ++ (c ++ r) := by
      obtain ⟨y, rfl⟩ := hx
      exact ⟨y, by simp⟩
    have hk2 : o ++ (b1 ++ (c ++ (b2 ++ (c ++ x)))) <+: o ++ (b1 ++ (c ++ (b2 ++ (c ++ r)))) := by
      obtain ⟨y, hy⟩ := hk
      exact ⟨y, by rw [← hy]; simp⟩
    have := CommentTo.nest (hf.less hk2) (g1 _ hk) (g2 _ hx)
    simpa using this

theorem endMark_nws {syn : Syntax} (b : Str) : EndMark b (commentNws syn (b ++ syn.commentEnd)) := by
  have h1 : syn.commentEnd.isSuffixOf (b ++ syn.commentEnd) = true := by simp
  have h2 : (b ++ syn.commentEnd).take ((b ++ syn.commentEnd).length - syn.commentEnd.length) = b := by simp
  unfold commentNws
  rw [if_pos h1, h2]
  have last : ∀ c, b.getLast? = some c → ∃ a, b = a ++ [c] := fun c hc => ⟨_, (List.getLast?_eq_some_iff.mp hc).choose_spec⟩
  split
  · rename_i h; exact last _ h
  · rename_i h; exact last _ h
  · rename_i h; exact last _ h
  · rename_i h1 h2 h3
    intro c hc hm
    simp at hm
    rcases hm with rfl | rfl | rfl
    · exact h2 hc
    · exact h1 hc
    · exact h3 hc

section
variable {env : PEnv} (hs : 0 < env.syn.commentStart.length) (he : 0 < env.syn.commentEnd.length)
include hs he

theorem yields_commentP : Yields (commentP env) fun t c => SpeltComment env.syn t c.1 c.2 := by
  refine yields_tag.bind fun a _ ha => yields_mark.bind fun b p hb => ?_
  intro s i r c s' h
  obtain ⟨i', s1, j1, hp, h⟩ := bind_inv h
  simp only [PT.pos, Prod.mk.injEq, PRes.ok.injEq] at hp
  obtain ⟨⟨rfl, rfl⟩, rfl⟩ := hp
  obtain ⟨ct, s2, j2, hc, h⟩ := bind_inv h
  simp only [Pure.pure, PT.pure, Prod.mk.injEq, PRes.ok.injEq] at h
  obtain ⟨⟨rfl, rfl⟩, _⟩ := h
  rcases commentContent_run env.syn (i.length + 1) 0 i (Nat.lt_succ_self _) hs he with ⟨r', h1, h2⟩ | ⟨j, m, h1⟩
  · obtain ⟨t, ht, hx⟩ := commentTo_text h2
    have h3 : (cut (lift (commentContent env.syn (i.length + 1) 0)) : SP Unit) s ((t ++ env.syn.commentEnd) ++ r') = (.ok r' (), s) := by
      have : (t ++ env.syn.commentEnd) ++ r' = i := by rw [ht]; simp
      rw [this]
      simp only [PT.cut, PT.lift, h1]
    have h4 := recognize_ok h3
    have h5 : (t ++ env.syn.commentEnd) ++ r' = i := by rw [ht]; simp
    rw [h5, hc] at h4
    simp only [Prod.mk.injEq, PRes.ok.injEq] at h4
    obtain ⟨⟨rfl, rfl⟩, _⟩ := h4
    refine ⟨t ++ env.syn.commentEnd, h5.symm, ?_⟩
    rw [ha.1, hb]
    exact .mk (by simpa using hx [] (List.nil_prefix)) (endMark_nws t)
  · exfalso
    simp [PT.recognize, PT.map, PT.bind, PT.consumed, PT.cut, PT.lift, h1] at hc

theorem yields_gap : Yields (ws (many0 (ws ((commentP env).map fun _ => ())))) fun t _ => Gap env.syn t := by
  have pre : ∀ {w s}, Blank w → Gap env.syn s → Gap env.syn (w ++ s) := by
    intro w s hw h
    cases h with
    | blank h => exact .blank (blank_app hw h)
    | comment h1 h2 h3 =>
      have := Gap.comment (blank_app hw h1) h2 h3
      simpa using this
  have post : ∀ {s v}, Gap env.syn s → Blank v → Gap env.syn (s ++ v) := by
    intro s v h hv
    induction h with
    | blank h => exact .blank (blank_app h hv)
    | comment h1 h2 h3 ih =>
      have := Gap.comment h1 h2 ih
      simpa using this
  refine (Yields.many0L (L := fun t (_ : List Unit) => Gap env.syn t) (Q := fun t _ => ∃ x, Padded x t ∧ ∃ m c, SpeltComment env.syn x m c)
    (((yields_commentP hs he).map fun t c h => ⟨c.1, c.2, h⟩).padded) (.blank nofun) fun t _ u l ht hu => ?_).padded.mono
    fun t l ⟨x, ⟨w, v, hw, hv, ht⟩, hx⟩ => ?_
  · obtain ⟨x, ⟨w, v, hw, hv, rfl⟩, m, c, hc⟩ := ht
    have := Gap.comment hw hc (pre hv hu)
    simpa using this
  · rw [ht]
    exact pre hw (post hx hv)

end

/-! ## Tags without a body -/

/-- `skip_till` stops where the parser it looks for accepts. -/
theorem skipTill_stop {σ α : Type} {e : PT σ α} : ∀ (i : Str) (s : σ) (r j : Str) (a : α) (s' : σ),
    skipTill e s i = (.ok r (j, a), s') → ∃ t s1, i = t ++ r ∧ e s1 r = (.ok j a, s') := by
  intro i
  unfold skipTill
  induction i with
  | nil =>
    intro s r j a s' h
    unfold skipTillGo at h
    split at h
    · rename_i h1
      simp only [Prod.mk.injEq, PRes.ok.injEq] at h
      obtain ⟨⟨rfl, rfl, rfl⟩, rfl⟩ := h
      exact ⟨[], s, rfl, h1⟩
    · simp at h
    · simp at h
    · simp at h
  | cons c i ih =>
    intro s r j a s' h
    unfold skipTillGo at h
    split at h
    · rename_i h1
      simp only [Prod.mk.injEq, PRes.ok.injEq] at h
      obtain ⟨⟨rfl, rfl, rfl⟩, rfl⟩ := h
      exact ⟨[], s, rfl, h1⟩
    · obtain ⟨t, s1, h1, h2⟩ := ih _ _ _ _ _ h
      exact ⟨c :: t, s1, by rw [h1]; rfl, h2⟩
    · simp at h
    · simp at h

theorem yields_endraw (env : PEnv) : Yields (endraw env) fun t a => ∃ z, Padded c!"endraw" z ∧
    t = env.syn.blockStart ++ (mark a.1 ++ (z ++ mark a.2)) :=
  yields_tag.bind fun a _ ha => yields_mark.bind fun b p hb => yields_pkw.bind fun z _ hz => yields_mark.bind fun d q hd =>
    yields_peek.bind fun e _ h => .pure ⟨z, hz, by rw [ha.1, hb, hd, h]; simp⟩

section
variable {env : PEnv} {isLower : Char → Bool} {syn : Syntax} (hl : env.isLower = isLower) (hy : env.syn = syn)
include hl hy

omit hl in
theorem yields_rawP : Yields (rawP env) (SpeltTag isLower syn) := by
  subst hy
  refine yields_mark.bind fun a p1 ha => yields_pkw.bind fun k _ hk => ?_
  intro s i r n s' h
  obtain ⟨⟨n1, contents, j, p2, n2⟩, s1, j1, h1, h⟩ := bind_inv h
  obtain ⟨n1', s2, j2, h2, g1⟩ := bind_inv (cut_inv h1)
  obtain ⟨b, rfl, hb⟩ := yields_mark _ _ _ _ _ h2
  obtain ⟨e, s3, j3, h3, g2⟩ := bind_inv g1
  obtain ⟨c, rfl, hc⟩ := yields_tag _ _ _ _ _ h3
  obtain ⟨⟨contents', j', p2', n2'⟩, s4, j4, h4, g3⟩ := bind_inv g2
  simp only [Pure.pure, PT.pure, Prod.mk.injEq, PRes.ok.injEq] at g3
  obtain ⟨⟨rfl, rfl, rfl, rfl, rfl, rfl⟩, _⟩ := g3
  simp only [PT.consumed] at h4
  split at h4
  · rename_i x y z h5
    simp only [Prod.mk.injEq, PRes.ok.injEq] at h4
    obtain ⟨⟨rfl, h6, rfl⟩, _⟩ := h4
    obtain ⟨t, s6, rfl, h7⟩ := skipTill_stop _ _ _ _ _ _ h5
    obtain ⟨u, rfl, z, hz, hu⟩ := yields_endraw env _ _ _ _ _ h7
    have h8 : t = contents' := by rw [← h6]; simp
    subst h8
    simp only [Bind.bind, PT.bind, goto, Pure.pure, PT.pure, Prod.mk.injEq, PRes.ok.injEq] at h
    obtain ⟨⟨rfl, rfl⟩, _⟩ := h
    refine ⟨b ++ (c ++ (t ++ u)), by simp, ?_⟩
    rw [ha, hb, hc.1, hu]
    have := SpeltTag.raw (isLower := isLower) (syn := env.syn) (p1 := p1) (n1 := n1') (p2 := p2') (n2 := n2') hk
      (splitWsParts_spec t).1 hz
    rw [(splitWsParts_spec t).2] at this
    exact this
  · simp at h4
  · simp at h4

omit hl hy in
theorem yields_breakP {word msg : Str} {mk : Ws → Node} (hmk : ∀ p n k, Padded word k → SpeltTag isLower syn (mark p ++ (k ++ mark n)) (mk ⟨p, n⟩)) :
    Yields (breakP word mk msg) (SpeltTag isLower syn) := by
  refine yields_pos.bind fun _ _ h1 => yields_mark.bind fun a p ha => yields_pkw.bind fun k _ hk => yields_mark.bind fun b n hb =>
    yields_get.bind fun _ s h2 => ?_
  split
  · exact yields_failAt
  · refine .pure ?_
    subst h1 h2 ha hb
    simpa using hmk p n k hk

omit hy in
theorem yields_letP {tgt : SP Target} (ht : Yields tgt (SpeltPat isLower)) : Yields (letP env tgt) (SpeltTag isLower syn) := by
  subst hl
  refine yields_mark.bind fun a p ha => yields_letWord.bind fun k _ hk => Yields.cut (ht.padded.bind fun x v hv => Yields.bind
    (Yields.opt (Q := fun t e => ∃ q u, t = q ++ u ∧ Padded c!"=" q ∧ PaddedExpr env.isLower u e) (yields_pchar.bind fun q _ hq =>
      (yields_pexpr env).mono fun u e hu => ⟨q, u, rfl, hq, hu⟩)) fun y o ho => yields_mark.bind fun b n hb => .pure ?_)
  subst ha hb
  rcases ho with ⟨rfl, rfl⟩ | ⟨e, rfl, q, u, rfl, hq, hu⟩
  · simpa using SpeltTag.let_ (syn := syn) (p := p) (n := n) hk hv
  · simpa using SpeltTag.letValue (syn := syn) (p := p) (n := n) hk hv hq hu

omit hl hy in
theorem yields_includeP : Yields includeP (SpeltTag isLower syn) := by
  refine yields_mark.bind fun a p ha => yields_pkw.bind fun k _ hk => Yields.cut (yields_pstring.bind fun t x ht =>
    yields_mark.bind fun b n hb => .pure ?_)
  subst ha hb
  simpa using SpeltTag.include (isLower := isLower) (syn := syn) (p := p) (n := n) hk ht.1 ht.2

omit hl hy in
theorem yields_extendsP : Yields extendsP (SpeltTag isLower syn) := by
  refine yields_pos.bind fun _ _ h1 => yields_mark.bind fun a p ha => yields_pkw.bind fun k _ hk => Yields.bind
    (Q := fun t (x : Str × Option Wsp) => ∃ u, t = u ++ mark x.2 ∧ Padded ('"' :: (x.1 ++ ['"'])) u ∧ StrBody x.1)
    (Yields.cut (yields_pstring.bind fun t x ht => yields_mark.bind fun b n hb => .pure ⟨t, by simp [hb], ht.1, ht.2⟩))
    fun t x ht => ?_
  obtain ⟨path, n⟩ := x
  obtain ⟨u, rfl, hu, hb⟩ := ht
  subst h1 ha
  dsimp only
  split
  · refine .pure ?_
    simpa [mark] using SpeltTag.extends_ (isLower := isLower) (syn := syn) hk hu hb
  · exact yields_failAt

omit hl hy in
theorem yields_importP : Yields importP (SpeltTag isLower syn) := by
  refine yields_mark.bind fun a p ha => yields_pkw.bind fun k _ hk => Yields.cut (yields_pstring.bind fun t x ht =>
    yields_pkw.bind fun l _ hl => Yields.cut (yields_pname.bind fun u m hm => yields_mark.bind fun b n hb => .pure ?_))
  subst ha hb
  simpa using SpeltTag.import_ (isLower := isLower) (syn := syn) (p := p) (n := n) hk ht.1 ht.2 hl hm.1 hm.2

omit hy in
theorem yields_callP : Yields (callP env) (SpeltTag isLower syn) := by
  subst hl
  refine yields_mark.bind fun a p ha => yields_pkw.bind fun k _ hk => Yields.cut (Yields.bind
    (Yields.opt (Q := fun t s => ∃ u d, t = u ++ d ∧ Padded s u ∧ Name s ∧ Padded c!"::" d) (yields_pname.bind fun u s hs =>
      yields_ptag.bind fun d _ hd => .pure ⟨u, d, by simp, hs.1, hs.2, hd⟩)) fun t o ho =>
    yields_pname.bind fun u m hm => Yields.bind (Yields.opt (yields_argsHere env true).padded) fun x as has =>
    yields_mark.bind fun b n hb => .pure ?_)
  subst ha hb
  have hx : ∃ w y v, Blank w ∧ Blank v ∧ x = w ++ (y ++ v) ∧ SpeltOptArgs env.isLower true y (as.getD []) := by
    rcases has with ⟨rfl, rfl⟩ | ⟨es, rfl, y, ⟨w, v, hw, hv, rfl⟩, hes⟩
    · exact ⟨[], [], [], nofun, nofun, rfl, .none⟩
    · exact ⟨w, y, v, hw, hv, rfl, .some hes⟩
  obtain ⟨w, y, v, hw, hv, rfl, hes⟩ := hx
  rcases ho with ⟨rfl, rfl⟩ | ⟨s, rfl, u', d, rfl, h1, h2, h3⟩
  · simpa using SpeltTag.call (syn := syn) (p := p) (n := n) hk hm.1 hm.2 hw hes hv
  · simpa using SpeltTag.callScope (syn := syn) (p := p) (n := n) hk h1 h2 h3 hm.1 hm.2 hw hes hv

end

theorem ite_some_or {α : Type} {c : Prop} [Decidable c] {a b : α} {o : Option α} (h : (if c then some a else o) = some b) :
    a = b ∨ o = some b := by
  by_cases hc : c
  · rw [if_pos hc] at h
    exact .inl (Option.some.inj h)
  · rw [if_neg hc] at h
    exact .inr h

/-! ## Tags with a body -/

theorem yields_parameters : Yields (opt (ws parameters)) fun t o => SpeltParams t (o.getD []) := by
  have more : Yields (sepList0 (char ',') (ws ident)) NameList := by
    refine Yields.sepList0 (L := fun t l => l = [] ∧ t = [] ∨ ∃ u, t = ',' :: u ∧ l ≠ [] ∧ NameList u l)
      yields_char yields_pname (.inl ⟨rfl, rfl⟩) (fun x c t a u l hx ht hu => ?_) .nil fun t a u l ht hu => ?_
    · subst hx
      refine .inr ⟨t ++ u, by simp, by simp, ?_⟩
      rcases hu with ⟨rfl, rfl⟩ | ⟨v, rfl, h1, h2⟩
      · simpa using NameList.one ht.1 ht.2
      · cases l with
        | nil => exact absurd rfl h1
        | cons b l => exact .cons ht.1 ht.2 h2
    · rcases hu with ⟨rfl, rfl⟩ | ⟨v, rfl, h1, h2⟩
      · simpa using NameList.one ht.1 ht.2
      · cases l with
        | nil => exact absurd rfl h1
        | cons b l => exact .cons ht.1 ht.2 h2
  have one : Yields parameters fun t ns => ∃ a l c, t = a ++ (l ++ (c ++ [')'])) ∧ Padded c!"(" a ∧ NameList l ns ∧ OptComma c :=
    yields_pchar.bind fun a _ ha => more.bind fun l ns hl => yields_pcomma.bind fun c _ hc => yields_char.bind fun z _ hz =>
      .pure ⟨a, l, c, by rw [hz]; simp, ha, hl, hc⟩
  refine one.padded.opt.mono fun t o h => ?_
  rcases h with ⟨rfl, rfl⟩ | ⟨ns, rfl, x, ⟨w, v, hw, hv, rfl⟩, a, l, c, rfl, ha, hl, hc⟩
  · exact .none
  · simpa using SpeltParams.some hw ha hl hc hv

section
variable {env : PEnv} {isLower : Char → Bool} {syn : Syntax} (hl : env.isLower = isLower) (hy : env.syn = syn)
variable {tgt : SP Target} (ht : Yields tgt (SpeltPat isLower))
variable {many : SP (List Node)} (hm : Yields many (SpeltNodes isLower syn))

include hl ht in
theorem yields_parseCond : Yields (parseCond env tgt) (SpeltCond isLower) := by
  subst hl
  refine Yields.bind (Yields.opt (Q := fun t p => ∃ k a q, t = k ++ (a ++ q) ∧ (Padded c!"let" k ∨ Padded c!"set" k) ∧
      PaddedPat env.isLower a p ∧ Padded c!"=" q)
    (yields_letWord.bind fun k _ hk => ht.padded.bind fun a p ha => yields_pchar.bind fun q _ hq => .pure
      ⟨k, a, q, by simp, hk, ha, hq⟩)) fun t o ho => (yields_pexpr env).bind fun u e hu => .pure ?_
  rcases ho with ⟨rfl, rfl⟩ | ⟨p, rfl, k, a, q, rfl, hk, ha, hq⟩
  · simpa using SpeltCond.plain hu
  · simpa using SpeltCond.pat hk ha hq hu

include hl ht in
theorem yields_condTest : Yields (condTest env tgt) fun t c => ∃ k u, t = k ++ u ∧ Padded c!"if" k ∧ SpeltCond isLower u c :=
  yields_pkw.bind fun k _ hk => (yields_parseCond hl ht).cut.mono fun u c hu => ⟨k, u, rfl, hk, hu⟩

include hl ht in
theorem yields_elseWord : Yields (alt
    (do let _ ← ws (kw c!"else"); opt (condTest env tgt))
    (do let _ ← ws (kw c!"elif"); cut ((parseCond env tgt).map some))) (SpeltElse isLower) := by
  refine .alt (yields_pkw.bind fun k _ hk => (yields_condTest hl ht).opt.mono fun t o ho => ?_)
    (yields_pkw.bind fun k _ hk => ((yields_parseCond hl ht).map fun t c h => ?_).cut)
  · rcases ho with ⟨rfl, rfl⟩ | ⟨c, rfl, i, u, rfl, hi, hu⟩
    · simpa using SpeltElse.else_ hk
    · simpa using SpeltElse.elseIf hk hi hu
  · exact SpeltElse.elif hk h

include hl hy ht hm

theorem yields_conds : Yields (many0 (condP env tgt many)) (SpeltConds isLower syn) := by
  subst hy
  refine Yields.many0L (Q := fun t c => ∃ p n x b c' ns, t = env.syn.blockStart ++ (mark p ++ (x ++ (mark n ++ (env.syn.blockEnd ++ b)))) ∧
    c = .mk ⟨p, n⟩ c' ns ∧ SpeltElse isLower x c' ∧ SpeltNodes isLower env.syn b ns) ?_ .nil fun t c u l h hu => ?_
  · refine yields_tag.bind fun a _ ha => yields_mark.bind fun b p hb => (yields_elseWord hl ht).bind fun x c hx =>
      yields_mark.bind fun d n hd => yields_tag.cut.bind fun e _ he => hm.cut.bind fun f ns hf => .pure
      ⟨p, n, x, f, c, ns, ?_, rfl, hx, hf⟩
    rw [ha.1, hb, hd, he.1]
    simp
  · obtain ⟨p, n, x, b, c', ns, rfl, rfl, hx, hb⟩ := h
    simpa using SpeltConds.cons hx hb hu

theorem yields_ifP : Yields (ifP env tgt many) (SpeltTag isLower syn) := by
  subst hy
  refine yields_mark.bind fun a p1 ha => (yields_condTest hl ht).bind fun c ct hc => Yields.cut (yields_mark.bind fun b n1 hb =>
    yields_tag.bind fun d _ hd => Yields.cut (hm.bind fun e ns he => (yields_conds hl rfl ht hm).bind fun f bs hf =>
    Yields.cut (yields_endTag.bind fun g p2 hg => yields_mark.bind fun h n2 hh => .pure ?_)))
  obtain ⟨k, u, rfl, hk, hu⟩ := hc
  obtain ⟨z, hz, rfl⟩ := hg
  rw [ha, hb, hd.1, hh]
  simpa using SpeltTag.if_ (p1 := p1) (n1 := n1) (p2 := p2) (n2 := n2) hk hu he hf hz

omit hl hy ht in
theorem yields_loopContent : Yields (loopContent many) (SpeltNodes isLower syn) := by
  intro s i r a s' h
  simp only [loopContent, Prod.mk.injEq] at h
  exact hm _ i r a _ (Prod.ext h.1 rfl)

theorem yields_loopP : Yields (loopP env tgt many) (SpeltTag isLower syn) := by
  subst hy hl
  refine yields_mark.bind fun a p1 ha => yields_pkw.bind fun k _ hk => Yields.cut (ht.padded.bind fun v vt hv =>
    yields_pkw.bind fun i _ hi => Yields.cut ((yields_pexpr env).bind fun t e he => Yields.bind
      (Q := SpeltFilterCond env.isLower) ((Yields.opt (Q := fun t e => ∃ k u, t = k ++ u ∧ Padded c!"if" k ∧ PaddedExpr env.isLower u e)
        (yields_pkw.bind fun k _ hk => (yields_pexpr env).cut.mono fun u e hu => ⟨k, u, rfl, hk, hu⟩)).mono fun t o ho => ?_)
      fun c ce hc => yields_mark.bind fun b n1 hb => yields_tag.bind fun d _ hd => Yields.cut ((yields_loopContent hm).bind
      fun f ns hf => Yields.cut (yields_tag.bind fun g _ hg => yields_mark.bind fun h p2 hh => Yields.bind
      (Yields.opt (Q := fun t x => ∃ l d, t = l ++ (mark x.1 ++ (env.syn.blockEnd ++ (d ++ (env.syn.blockStart ++ mark x.2.2)))) ∧
        Padded c!"else" l ∧ SpeltNodes env.isLower env.syn d x.2.1) (yields_pkw.bind fun l _ hl => Yields.cut (yields_mark.bind
          fun m1 q hq => yields_tag.bind fun m2 _ h2 => hm.bind fun d ms hd => yields_tag.bind fun m3 _ h3 => yields_mark.bind
          fun m4 q2 h4 => .pure ⟨l, d, ?_, hl, hd⟩))) fun m x hx => yields_pkw.bind fun z _ hz => yields_mark.bind fun y n2 hn2 => ?_))))
  · rcases ho with ⟨rfl, rfl⟩ | ⟨e, rfl, k, u, rfl, hk, hu⟩
    · exact .none
    · exact .some hk hu
  · rw [hq, h2.1, h3.1, h4]
    simp
  · rw [ha, hb, hd.1, hg.1, hh, hn2]
    rcases hx with ⟨rfl, rfl⟩ | ⟨⟨n3, ms, p3⟩, rfl, l, d', rfl, hl, hd'⟩
    · refine .pure ?_
      simpa using SpeltTag.loop (p1 := p1) (n1 := n1) (p2 := p2) (n2 := n2) hk hv hi he hc hf hz
    · refine .pure ?_
      simpa using SpeltTag.loopElse (p1 := p1) (n1 := n1) (p2 := p2) (n2 := n3) (p3 := p3) (n3 := n2) hk hv hi he hc hf hl hd' hz

omit hl in
theorem yields_arms : Yields (many1 (whenP env tgt many)) fun t l => SpeltArms isLower syn t l ∧ l ≠ [] := by
  subst hy
  refine Yields.many1L (Q := fun t w => ∃ p n k a b v ns, t = env.syn.blockStart ++ (mark p ++ (k ++ (a ++ (mark n ++
    (env.syn.blockEnd ++ b))))) ∧ w = .mk ⟨p, n⟩ v ns ∧ Padded c!"when" k ∧ PaddedPat isLower a v ∧
    SpeltNodes isLower env.syn b ns) ?_ .nil fun t c u l h hu => ?_
  · refine yields_endTag.bind fun a p ha => Yields.cut (ht.padded.bind fun x v hx =>
      yields_mark.bind fun d n hd => yields_tag.bind fun e _ he => hm.cut.bind fun f ns hf => .pure ?_)
    obtain ⟨z, hz, rfl⟩ := ha
    refine ⟨p, n, z, x, f, v, ns, ?_, rfl, hz, hx, hf⟩
    rw [hd, he.1]
    simp
  · obtain ⟨p, n, k, a, b, v, ns, rfl, rfl, h1, h2, h3⟩ := h
    simpa using SpeltArms.cons h1 h2 h3 hu

omit hl ht in
theorem yields_elseArm : Yields (opt (whenElse env many)) fun t o => SpeltElseArm isLower syn t o.toList := by
  subst hy
  refine (Yields.opt (Q := fun t w => SpeltElseArm isLower env.syn t [w]) (yields_endTag.bind fun a p ha => Yields.cut
    (yields_mark.bind fun d n hd => yields_tag.bind fun e _ he => hm.cut.bind fun f ns hf => .pure ?_))).mono fun t o h => ?_
  · obtain ⟨z, hz, rfl⟩ := ha
    rw [hd, he.1]
    simpa using SpeltElseArm.some (p := p) (n := n) hz hf
  · rcases h with ⟨rfl, rfl⟩ | ⟨w, rfl, h⟩
    · exact .none
    · exact h

theorem yields_matchP (hcs : 0 < env.syn.commentStart.length) (hce : 0 < env.syn.commentEnd.length) :
    Yields (matchP env tgt many) (SpeltTag isLower syn) := by
  subst hy hl
  refine yields_mark.bind fun a p1 ha => yields_pkw.bind fun k _ hk => Yields.cut ((yields_pexpr env).bind fun t e he =>
    yields_mark.bind fun b n1 hb => yields_tag.bind fun d _ hd => Yields.cut ((yields_gap hcs hce).bind fun g _ hg =>
    (yields_arms rfl ht hm).bind fun f arms hf => Yields.cut ((yields_elseArm rfl hm).bind fun h els hh => Yields.cut
    (yields_ptag.bind fun l _ hl => yields_mark.bind fun m p2 hm2 => yields_pkw.bind fun z _ hz => yields_mark.bind fun y n2 hy =>
    .pure ?_))))
  obtain ⟨w, v, hw, hv, rfl⟩ := hl
  rw [ha, hb, hd.1, hm2, hy]
  simpa using SpeltTag.match_ (p1 := p1) (n1 := n1) (p2 := p2) (n2 := n2) hk he hg hf.1 hf.2 hh hw hv hz

omit hl ht in
theorem yields_blockP : Yields (blockP env many) (SpeltTag isLower syn) := by
  subst hy
  refine yields_mark.bind fun a p1 ha => yields_pkw.bind fun k _ hk => Yields.bind
    (Q := fun t (x : Str × Option Wsp) => ∃ u, t = u ++ (mark x.2 ++ env.syn.blockEnd) ∧ Padded x.1 u ∧ Name x.1)
    (Yields.cut (yields_pname.bind fun u m hn => yields_mark.bind fun b n hb => yields_tag.bind fun d _ hd => .pure
      ⟨u, by rw [hb, hd.1]; simp, hn.1, hn.2⟩)) fun t x hx => ?_
  obtain ⟨name, n1⟩ := x
  refine Yields.cut (hm.bind fun f ns hf => Yields.cut (yields_endTag.bind fun g p2 hg => Yields.cut (yields_endName.bind fun y _ hy =>
    yields_mark.bind fun h n2 hh => .pure ?_)))
  obtain ⟨u, rfl, hu, hn⟩ := hx
  obtain ⟨z, hz, rfl⟩ := hg
  rw [ha, hh]
  simpa using SpeltTag.block (p1 := p1) (n1 := n1) (p2 := p2) (n2 := n2) hk hu hn hf hz hy

omit hl ht in
theorem yields_macroP : Yields (macroP env many) (SpeltTag isLower syn) := by
  subst hy
  refine yields_pos.bind fun _ _ h1 => yields_mark.bind fun a p1 ha => yields_pkw.bind fun k _ hk => Yields.bind
    (Q := fun t (x : Str × Option (List Str) × Option Wsp) => ∃ u v, t = u ++ (v ++ (mark x.2.2 ++ env.syn.blockEnd)) ∧
      Padded x.1 u ∧ Name x.1 ∧ SpeltParams v (x.2.1.getD []))
    (Yields.cut (yields_pname.bind fun u m hn => yields_parameters.bind fun v ps hp => yields_mark.bind fun b n hb =>
      yields_tag.bind fun d _ hd => .pure ⟨u, v, by rw [hb, hd.1]; simp, hn.1, hn.2, hp⟩)) fun t x hx => ?_
  obtain ⟨name, params, n1⟩ := x
  dsimp only
  split
  · exact yields_failAt
  rename_i hsup
  refine Yields.cut (hm.bind fun f ns hf => Yields.cut (yields_endTag.bind fun g p2 hg => Yields.cut (yields_endName.bind fun y _ hy =>
    yields_mark.bind fun h n2 hh => .pure ?_)))
  obtain ⟨u, v, rfl, hu, hn, hp⟩ := hx
  obtain ⟨z, hz, rfl⟩ := hg
  subst h1
  rw [ha, hh]
  simpa using SpeltTag.macro (p1 := p1) (n1 := n1) (p2 := p2) (n2 := n2) hk hu hn hsup hp hf hz hy

omit ht in
theorem yields_filterBlockP : Yields (filterBlockP env many) (SpeltTag isLower syn) := by
  subst hy hl
  refine yields_mark.bind fun a p1 ha => yields_pkw.bind fun k _ hk => Yields.bind
    (Q := fun t (x : Str × Option (List Expr) × List (Str × Option (List Expr)) × Option Wsp) =>
      ∃ u w, t = u ++ (w ++ (mark x.2.2.2 ++ env.syn.blockEnd)) ∧ Blank w ∧ SpeltFilters env.isLower u (x.2.2.1.foldl
        (fun (f : FilterApp) x => ⟨x.1, .filter f.name f.args :: x.2.getD []⟩) ⟨x.1, x.2.1.getD []⟩))
    (Yields.cut (yields_pname.bind fun u m hn => (yields_optArgs (yields_argsHere env false)).bind fun v as has => Yields.bind
      (Yields.many0L (L := fun u fs => ∀ t f, SpeltFilters env.isLower t f → SpeltFilters env.isLower (t ++ u) (fs.foldl
        (fun (f : FilterApp) x => ⟨x.1, .filter f.name f.args :: x.2.getD []⟩) f)) (yields_filterHere env)
        (fun t f h => by simpa using h) fun t f u fs hf hfs x g hg => ?_) fun w fs hfs =>
      Yields.bind (Q := fun t _ => Blank t) ?_ fun y _ hb2 => yields_mark.bind fun b n hb => yields_tag.bind fun d _ hd => .pure
      ⟨u ++ (v ++ w), y, by rw [hb, hd.1]; simp, hb2, by simpa using hfs _ _ (.one hn.1 hn.2 has)⟩)) fun t x hx => ?_
  · obtain ⟨u', a, rfl, h1, h2, h3⟩ := hf
    simpa using hfs _ _ (.more hg h1 h2 h3)
  · refine (Yields.pure (Q := fun t _ => t = []) rfl).ws.mono fun t _ ⟨w, u, v, h1, hw, hv, h2⟩ => ?_
    rw [h1, h2]
    exact blank_app hw hv
  · obtain ⟨name, params, extra, n1⟩ := x
    refine Yields.cut (hm.bind fun f ns hf => Yields.cut (yields_endTag.bind fun g p2 hg =>
      yields_mark.bind fun h n2 hh => .pure ?_))
    obtain ⟨u, w, rfl, hw, hu⟩ := hx
    obtain ⟨z, hz, rfl⟩ := hg
    rw [ha, hh]
    simpa using SpeltTag.filterBlock (p1 := p1) (n1 := n1) (p2 := p2) (n2 := n2) hk hu hw hf hz

/-! ## Nodes -/

theorem yields_tagParser (hcs : 0 < env.syn.commentStart.length) (hce : 0 < env.syn.commentEnd.length) {word : Str} {p : SP Node}
    (h : tagParser env tgt many word = some p) : Yields p (SpeltTag isLower syn) := by
  unfold tagParser at h
  rcases ite_some_or h with rfl | h
  · exact yields_callP hl
  rcases ite_some_or h with rfl | h
  · exact yields_letP hl ht
  rcases ite_some_or h with rfl | h
  · exact yields_ifP hl hy ht hm
  rcases ite_some_or h with rfl | h
  · exact yields_loopP hl hy ht hm
  rcases ite_some_or h with rfl | h
  · exact yields_matchP hl hy ht hm hcs hce
  rcases ite_some_or h with rfl | h
  · exact yields_extendsP
  rcases ite_some_or h with rfl | h
  · exact yields_includeP
  rcases ite_some_or h with rfl | h
  · exact yields_importP
  rcases ite_some_or h with rfl | h
  · exact yields_blockP hy hm
  rcases ite_some_or h with rfl | h
  · exact yields_macroP hy hm
  rcases ite_some_or h with rfl | h
  · exact yields_rawP hy
  rcases ite_some_or h with rfl | h
  · exact yields_breakP fun p n k hk => .break_ hk
  rcases ite_some_or h with rfl | h
  · exact yields_breakP fun p n k hk => .continue_ hk
  rcases ite_some_or h with rfl | h
  · exact yields_filterBlockP hl hy hm
  cases h

theorem yields_nodeP (hcs : 0 < env.syn.commentStart.length) (hce : 0 < env.syn.commentEnd.length) :
    Yields (nodeP env tgt many) (SpeltNode isLower syn) := by
  refine yields_pos.bind fun _ _ h1 => yields_tag.bind fun a _ ha => yields_peek.bind fun b word hb => ?_
  subst h1 hb
  cases hp : tagParser env tgt many word with
  | none => exact yields_goto
  | some p =>
    have hn : Yields (nested p) (SpeltTag isLower syn) := fun s i r n s' h => by
      obtain ⟨s1, s2, h⟩ := nested_inv h
      exact yields_tagParser hl hy ht hm hcs hce hp _ _ _ _ _ h
    refine hn.bind fun t n hn => yields_closing.cut.bind fun d c hc => ?_
    cases c with
    | true =>
      refine .pure ?_
      rw [ha.1, hc rfl, hy]
      simpa using SpeltNode.tag hn
    | false => exact yields_pos.bind fun _ _ _ => yields_failAt

omit ht hm in
theorem yields_exprNode : Yields (exprNode env) (SpeltNode isLower syn) := by
  subst hy hl
  refine yields_tag.bind fun a _ ha => Yields.bind (Q := fun t (x : Option Wsp × Expr) => ∃ u, t = mark x.1 ++ u ∧
      PaddedExpr env.isLower u x.2) (Yields.cut (yields_mark.bind fun b p hb => (yields_pexpr env).bind fun u e hu => .pure
      ⟨u, by rw [hb]; simp, hu⟩)) fun t x hx => ?_
  obtain ⟨p, e⟩ := x
  refine Yields.bind (Q := fun t (x : Option Wsp × Bool) => ∃ u, t = mark x.1 ++ u ∧ (x.2 = true → u = env.syn.exprEnd))
    (Yields.cut (yields_mark.bind fun b n hb => yields_closing.bind fun u c hu => .pure ⟨u, by rw [hb]; simp, hu⟩)) fun t2 x hx2 => ?_
  obtain ⟨n, c⟩ := x
  obtain ⟨u, rfl, hu⟩ := hx
  obtain ⟨v, rfl, hv⟩ := hx2
  cases c with
  | true =>
    refine .pure ?_
    rw [ha.1, hv rfl]
    simpa using SpeltNode.expr (syn := env.syn) (p := p) (n := n) hu
  | false => exact yields_pos.bind fun _ _ _ => yields_failAt

omit hl ht hm in
theorem yields_litP : Yields (litP env) fun t l => SpeltNode isLower syn t (.lit l) := by
  subst hy
  intro s i r l s' h
  obtain ⟨h1, h2, h3, h4⟩ := litP_tile env s h
  have h5 := litP_sat (src := i) env s i (List.suffix_refl i) trivial
  rw [h] at h5
  exact ⟨l.text, h1, .lit h2 (Free.less h4 List.nil_prefix) h5.2.1.1⟩

end

/-- Accepted lists of nodes are spellings. -/
theorem nodesP_spelt (env : PEnv) (hcs : 0 < env.syn.commentStart.length) (hce : 0 < env.syn.commentEnd.length) :
    (n : Nat) → Yields (nodesP env n) (SpeltNodes env.isLower env.syn)
  | 0 => by
    intro s i r a s' h
    simp [nodesP, PT.stuck] at h
  | n + 1 => by
    refine Yields.many0L (Q := SpeltNode env.isLower env.syn) ?_ .nil fun t a u l ht hu => .cons ht hu
    exact .alt ((yields_litP rfl).lift.map fun _ _ h => h) <| .alt ((yields_commentP hcs hce).map fun _ _ h => .comment h) <|
      .alt (yields_exprNode rfl rfl) (yields_nodeP rfl rfl (target_spelt env _) (nodesP_spelt env hcs hce n) hcs hce)

end Askama
