import Verif.Lemmas.GenEval

/-!
How deep the generated code is nested: every call of `handle` inside of another adds at most two levels, so that for
templates that nest at most 30 deep the indentation does not overflow.
-/

namespace Askama

theorem fitsList_append {d : Nat} : {a b : List Stmt} → fitsList d (a ++ b) = true ↔ fitsList d a = true ∧ fitsList d b = true
  | [], b => by simp [fitsList]
  | s :: a, b => by simp [fitsList, fitsList_append (a := a) (b := b), and_assoc]

/-- The code fits wherever there are `n` levels left. -/
def FitsIn (n : Nat) (s : List Stmt) : Prop := ∀ d, d + n ≤ 64 → fitsList d s = true

theorem FitsIn.nil {n : Nat} : FitsIn n [] := fun _ _ => rfl

theorem FitsIn.append {n : Nat} {a b : List Stmt} (ha : FitsIn n a) (hb : FitsIn n b) : FitsIn n (a ++ b) :=
  fun d h => fitsList_append.mpr ⟨ha d h, hb d h⟩

theorem FitsIn.mono {n m : Nat} {a : List Stmt} (ha : FitsIn n a) (h : n ≤ m) : FitsIn m a :=
  fun d hd => ha d (by omega)

theorem FitsIn.emit {n : Nat} {g : Gen} {s : List Stmt} (h : FitsIn n s) : FitsIn n (g.emit s) := by
  unfold Gen.emit
  split
  · exact .nil
  · exact h

/-- A statement without others inside. -/
theorem FitsIn.flat {n : Nat} {s : Stmt} (hn : 3 ≤ n) (h : ∀ d, d + 2 < 64 → s.fits d = true) : FitsIn n [s] := by
  intro d hd
  simp only [fitsList, Bool.and_true]
  exact h d (by omega)

theorem FitsIn.wrap {n : Nat} {g : Gen} {f : List Stmt → Stmt} {b : List Stmt} (h : FitsIn n b)
    (hf : ∀ d, (f b).fits d = (decide (d < 64) && fitsList (d + 1) b)) : FitsIn (n + 1) (g.wrap f b) := by
  unfold Gen.wrap
  split
  · exact h.mono (by omega)
  · intro d hd
    simp only [fitsList, hf, Bool.and_true, Bool.and_eq_true, decide_eq_true_eq]
    exact ⟨by omega, h _ (by omega)⟩

namespace Gen

/-- The same for all code that the function writes. -/
def RecFits (n : Nat) (rec : Handler) : Prop :=
  ∀ H ctx nodes level g s g', rec H ctx nodes level g = .ok (s, g') → FitsIn n s

variable {I : GenInput} {rec : Handler} {n : Nat}

theorem writeBuf_fits (hn : 3 ≤ n) {g : Gen} {s : List Stmt} {g' : Gen} (h : writeBuf I g = .ok (s, g')) : FitsIn n s := by
  unfold writeBuf at h
  obtain ⟨⟨p, g1⟩, -, h⟩ := except_bind h
  cases p with
  | none => cases h; exact .nil
  | plain t => cases h; exact .emit (.flat hn fun d hd => by simp [Stmt.fits]; omega)
  | formatted f a => cases h; exact .emit (.flat hn fun d hd => by simp [Stmt.fits]; omega)

theorem flushIf_fits (hn : 3 ≤ n) {c : Bool} {g : Gen} {s : List Stmt} {g' : Gen} (h : flushIf I c g = .ok (s, g')) :
    FitsIn n s := by
  unfold flushIf at h
  split at h
  · exact writeBuf_fits hn h
  · cases h; exact .nil

theorem writeLet_fits (hn : 3 ≤ n) {g : Gen} {ws : Ws} {t : Target} {e : Option Expr} {s : List Stmt} {g' : Gen}
    (h : writeLet I g ws t e = .ok (s, g')) : FitsIn n s := by
  unfold writeLet at h
  cases e with
  | none =>
    obtain ⟨⟨s1, g1⟩, h1, h⟩ := except_bind h
    cases h
    exact (writeBuf_fits hn h1).append (.emit (.flat hn fun d hd => by simp [Stmt.fits]; omega))
  | some e =>
    obtain ⟨⟨r, w⟩, -, h⟩ := except_bind h
    obtain ⟨sh, -, h⟩ := except_bind h
    obtain ⟨⟨s1, g1⟩, h1, h⟩ := except_bind h
    cases h
    refine (flushIf_fits hn h1).append (.emit (.flat hn fun d hd => ?_))
    repeat' split
    all_goals (simp [Stmt.fits]; omega)

theorem ifBranches_fits (hn : 3 ≤ n) (hr : RecFits n rec) {H : Option Heritage} {ctx : Ctx} {wsEnd : Ws} :
    (bs : List Cond) → {first : Bool} → {g : Gen} → {out : List Branch} → {g' : Gen} →
    ifBranches rec I H ctx wsEnd first bs g = .ok (out, g') → ∀ d, d + n ≤ 64 → fitsBranches d out = true
      ∧ fitsList d (branchBodies out) = true
  | [], _, _, _, _, h, d, hd => by
    unfold ifBranches at h; cases h; exact ⟨rfl, rfl⟩
  | .mk ws cond nodes :: rest, first, g, out, g', h, d, hd => by
    unfold ifBranches at h
    obtain ⟨g1, -, h⟩ := except_bind h
    obtain ⟨⟨c, g2⟩, -, h⟩ := except_bind h
    obtain ⟨⟨body, g3⟩, h1, h⟩ := except_bind h
    have b1 := hr _ _ _ _ _ _ _ h1 d hd
    cases rest with
    | nil =>
      obtain ⟨⟨fl, g4⟩, h2, h⟩ := except_bind h
      cases h
      have b2 := writeBuf_fits hn h2 d hd
      have := fitsList_append.mpr ⟨b1, b2⟩
      exact ⟨by simp [fitsBranches, this], by simp [branchBodies, this]⟩
    | cons c2 rest =>
      obtain ⟨ws', c2c, c2n⟩ := c2
      obtain ⟨⟨fl, g4⟩, h2, h⟩ := except_bind h
      obtain ⟨⟨bs, g5⟩, h3, h⟩ := except_bind h
      cases h
      have b2 := writeBuf_fits hn h2 d hd
      have b3 := ifBranches_fits hn hr _ h3 d hd
      have := fitsList_append.mpr ⟨b1, b2⟩
      exact ⟨by simp [fitsBranches, this, b3.1], by simp only [branchBodies]; exact fitsList_append.mpr ⟨this, b3.2⟩⟩

theorem writeIf_fits (hn : 3 ≤ n) (hr : RecFits n rec) {H : Option Heritage} {ctx : Ctx} {g : Gen} {ws : Ws}
    {bs : List Cond} {s : List Stmt} {g' : Gen} (h : writeIf rec I H ctx g ws bs = .ok (s, g')) : FitsIn (n + 2) s := by
  unfold writeIf at h
  cases bs with
  | nil => cases h
  | cons b bs =>
    obtain ⟨ws1, c, ns⟩ := b
    obtain ⟨⟨pre, g1⟩, h1, h⟩ := except_bind h
    obtain ⟨⟨out, g2⟩, h2, h⟩ := except_bind h
    obtain ⟨g3, -, h⟩ := except_bind h
    cases h
    refine ((writeBuf_fits hn h1).mono (by omega)).append ?_
    split
    · exact fun d hd => (ifBranches_fits hn hr _ h2 d (by omega)).2
    · intro d hd
      have := (ifBranches_fits hn hr _ h2 (d + 1) (by omega)).1
      simp only [fitsList, Stmt.fits, this, Bool.and_true, decide_eq_true_eq]
      omega

theorem matchArms_fits (hn : 3 ≤ n) (hr : RecFits n rec) {H : Option Heritage} {ctx : Ctx} {ws2 : Ws} :
    (as : List When) → {g : Gen} → {out : List Arm} → {g' : Gen} →
    matchArms rec I H ctx ws2 as g = .ok (out, g') →
    (∀ d, d + 1 + n ≤ 64 → fitsArms d out = true) ∧ FitsIn n (armBodies out)
  | [], _, _, _, h => by
    unfold matchArms at h; cases h; exact ⟨fun _ _ => rfl, .nil⟩
  | .mk ws t nodes :: rest, g, out, g', h => by
    unfold matchArms at h
    obtain ⟨⟨body, g3⟩, h1, h⟩ := except_bind h
    obtain ⟨⟨fl, g4⟩, h2, h⟩ := except_bind h
    obtain ⟨g5, -, h⟩ := except_bind h
    obtain ⟨⟨arms, g6⟩, h3, h⟩ := except_bind h
    cases h
    have b3 := matchArms_fits hn hr _ h3
    have b1 := (hr _ _ _ _ _ _ _ h1).append (writeBuf_fits hn h2)
    refine ⟨fun d hd => ?_, ?_⟩
    · simp only [fitsArms, Bool.and_eq_true, decide_eq_true_eq]
      exact ⟨⟨by omega, b1 _ (by omega)⟩, b3.1 d hd⟩
    · simp only [armBodies]
      exact b1.append b3.2

theorem writeMatch_fits (hn : 3 ≤ n) (hr : RecFits n rec) {H : Option Heritage} {ctx : Ctx} {g : Gen} {ws1 ws2 : Ws}
    {e : Expr} {as : List When} {s : List Stmt} {g' : Gen} (h : writeMatch rec I H ctx g ws1 e as ws2 = .ok (s, g')) :
    FitsIn (n + 2) s := by
  unfold writeMatch at h
  cases as with
  | nil => cases h
  | cons a as =>
    obtain ⟨ws, t, ns⟩ := a
    obtain ⟨⟨pre, g1⟩, h1, h⟩ := except_bind h
    obtain ⟨⟨r, w⟩, -, h⟩ := except_bind h
    obtain ⟨⟨out, g2⟩, h2, h⟩ := except_bind h
    obtain ⟨g3, -, h⟩ := except_bind h
    cases h
    refine ((writeBuf_fits hn h1).mono (by omega)).append ?_
    have := matchArms_fits hn hr _ h2
    split
    · exact this.2.mono (by omega)
    · intro d hd
      simp only [fitsList, Stmt.fits, this.1 (d + 1) (by omega), Bool.and_true, decide_eq_true_eq]
      omega

theorem loopFilter_fits (hn : 3 ≤ n) {g : Gen} {t : Target} {c : Option Expr} {s : List Stmt}
    (h : loopFilter I g t c = .ok s) : FitsIn n s := by
  unfold loopFilter at h
  cases c with
  | none => cases h; exact .nil
  | some c =>
    obtain ⟨⟨r, w⟩, -, h⟩ := except_bind h
    cases h
    exact .emit (.flat hn fun d hd => by simp [Stmt.fits]; omega)

theorem writeLoop_fits (hn : 3 ≤ n) (hr : RecFits n rec) {H : Option Heritage} {ctx : Ctx} {g : Gen} {ws1 ws2 ws3 : Ws}
    {t : Target} {it : Expr} {c : Option Expr} {body els : List Node} {s : List Stmt} {g' : Gen}
    (h : writeLoop rec I H ctx g ws1 t it c body ws2 els ws3 = .ok (s, g')) : FitsIn (n + 2) s := by
  unfold writeLoop at h
  obtain ⟨⟨r, w⟩, -, h⟩ := except_bind h
  obtain ⟨⟨pre, g1⟩, h1, h⟩ := except_bind h
  obtain ⟨filt, h2, h⟩ := except_bind h
  obtain ⟨⟨b, g2⟩, h3, h⟩ := except_bind h
  obtain ⟨⟨fl, g3⟩, h4, h⟩ := except_bind h
  obtain ⟨g4, -, h⟩ := except_bind h
  have hset : ∀ g : Gen, ∀ b : Bool, FitsIn n (g.emit (if b then [.setDid] else [])) := by
    intro g b
    refine .emit ?_
    cases b with
    | false => exact .nil
    | true => exact .flat hn fun d hd => by simp [Stmt.fits]; omega
  have hhead : ∀ g : Gen, ∀ b : Bool, FitsIn n (g.emit ((if b then [.letDid] else []) ++ [.letIter r])) := by
    intro g b
    refine .emit (.append ?_ (.flat hn fun d hd => by simp [Stmt.fits]; omega))
    cases b with
    | false => exact .nil
    | true => exact .flat hn fun d hd => by simp [Stmt.fits]; omega
  have hb : ∀ x, FitsIn n x → FitsIn (n + 1) (g4.wrap (.forIter t) (x ++ b ++ fl)) := fun x hx =>
    ((hx.append (hr _ _ _ _ _ _ _ h3)).append (writeBuf_fits hn h4)).wrap fun d => by simp [Stmt.fits]
  have hh : ∀ x, FitsIn n x → FitsIn (n + 1) (x ++ filt) := fun x hx =>
    (hx.append (loopFilter_fits hn h2)).mono (by omega)
  split at h
  · obtain ⟨⟨eb, g5⟩, h5, h⟩ := except_bind h
    obtain ⟨⟨fl2, g6⟩, h6, h⟩ := except_bind h
    obtain ⟨g7, -, h⟩ := except_bind h
    obtain ⟨g8, -, h⟩ := except_bind h
    cases h
    refine ((writeBuf_fits hn h1).mono (by omega)).append ?_
    refine FitsIn.wrap (.append (.append (hh _ (hhead _ true)) (hb _ (hset _ true))) ?_) fun d => by simp [Stmt.fits]
    exact ((hr _ _ _ _ _ _ _ h5).append (writeBuf_fits hn h6)).wrap fun d => by simp [Stmt.fits]
  · obtain ⟨⟨fl2, g6⟩, h6, h⟩ := except_bind h
    obtain ⟨g8, -, h⟩ := except_bind h
    cases h
    refine ((writeBuf_fits hn h1).mono (by omega)).append ?_
    refine FitsIn.wrap (.append (.append (hh _ (hhead _ false)) (hb _ (hset _ false))) ?_) fun d => by simp [Stmt.fits]
    exact (writeBuf_fits hn h6).mono (by omega)

theorem writeCall_fits (hn : 3 ≤ n) (hr : RecFits n rec) {H : Option Heritage} {ctx : Ctx} {g : Gen} {ws : Ws}
    {scope : Option Str} {name : Str} {args : List Expr} {s : List Stmt} {g' : Gen}
    (h : writeCall rec I H ctx g ws scope name args = .ok (s, g')) : FitsIn (n + 2) s := by
  unfold writeCall at h
  obtain ⟨⟨d, oc⟩, -, h⟩ := except_bind h
  obtain ⟨⟨pre, g1⟩, h1, h⟩ := except_bind h
  dsimp only at h
  split at h
  · cases h
  · obtain ⟨named, -, h⟩ := except_bind h
    obtain ⟨⟨ns, rs, L⟩, -, h⟩ := except_bind h
    obtain ⟨⟨b, g2⟩, h2, h⟩ := except_bind h
    obtain ⟨⟨fl, g3⟩, h3, h⟩ := except_bind h
    obtain ⟨g4, -, h⟩ := except_bind h
    cases h
    refine ((writeBuf_fits hn h1).mono (by omega)).append ?_
    refine (FitsIn.wrap (.append (.append (.emit ?_) (hr _ _ _ _ _ _ _ h2)) (writeBuf_fits hn h3)) fun d => by
      simp [Stmt.fits]).mono (by omega)
    split
    · exact .nil
    · exact .flat hn fun d hd => by simp [Stmt.fits]; omega

theorem writeFilterBlock_fits (hn : 3 ≤ n) (hr : RecFits n rec) {H : Option Heritage} {ctx : Ctx} {g : Gen} {ws1 ws2 : Ws}
    {f : FilterApp} {nodes : List Node} {s : List Stmt} {g' : Gen}
    (h : writeFilterBlock rec I H ctx g ws1 f nodes ws2 = .ok (s, g')) : FitsIn n s := by
  unfold writeFilterBlock at h
  obtain ⟨⟨b, g1⟩, h1, h⟩ := except_bind h
  obtain ⟨⟨p, g2⟩, -, h⟩ := except_bind h
  have b1 := hr _ _ _ _ _ _ _ h1
  cases p with
  | none => cases h; exact b1
  | plain t =>
    obtain ⟨⟨r, w⟩, -, h⟩ := except_bind h
    cases h
    exact b1.append (.emit (.flat hn fun d hd => by simp [Stmt.fits]; omega))
  | formatted t a =>
    obtain ⟨⟨r, w⟩, -, h⟩ := except_bind h
    cases h
    exact b1.append (.emit (.flat hn fun d hd => by simp [Stmt.fits]; omega))

theorem writeBlock_fits (hn : 3 ≤ n) (hr : RecFits n rec) {H : Option Heritage} {ctx : Ctx} {g : Gen}
    {name : Option Str} {outer : Ws} {s : List Stmt} {g' : Gen}
    (h : writeBlock rec I H ctx g name outer = .ok (s, g')) : FitsIn n s := by
  unfold writeBlock at h
  obtain ⟨cur, -, h⟩ := except_bind h
  obtain ⟨⟨pre, g1⟩, h1, h⟩ := except_bind h
  cases H with
  | none => cases h
  | some hh =>
    dsimp only at h
    split at h
    · cases h
    · split at h
      · cases h
      · obtain ⟨⟨b, g2⟩, h2, h⟩ := except_bind h
        obtain ⟨⟨fl, g3⟩, h3, h⟩ := except_bind h
        cases h
        exact ((writeBuf_fits hn h1).append (hr _ _ _ _ _ _ _ h2)).append (flushIf_fits hn h3)

theorem handleInclude_fits (hn : 3 ≤ n) (hr : RecFits n rec) {ctx : Ctx} {g : Gen} {ws : Ws} {path : Str}
    {s : List Stmt} {g' : Gen} (h : handleInclude rec I ctx g ws path = .ok (s, g')) : FitsIn n s := by
  unfold handleInclude at h
  obtain ⟨⟨pre, g1⟩, h1, h⟩ := except_bind h
  dsimp only at h
  split at h
  · cases h
  · split at h
    · cases h
    · obtain ⟨H, -, h⟩ := except_bind h
      obtain ⟨⟨b, g2⟩, h2, h⟩ := except_bind h
      obtain ⟨⟨fl, g3⟩, h3, h⟩ := except_bind h
      cases h
      exact (((writeBuf_fits hn h1).append (.emit (.flat hn fun d hd => by simp [Stmt.fits]; omega))).append
        (hr _ _ _ _ _ _ _ h2)).append (writeBuf_fits hn h3)

theorem handleNode_fits (hn : 3 ≤ n) (hr : RecFits n rec) {H : Option Heritage} {ctx : Ctx} {level : Level} {g : Gen}
    {x : Node} {s : List Stmt} {g' : Gen} (h : handleNode rec I H ctx level g x = .ok (s, g')) : FitsIn (n + 2) s := by
  cases x with
  | lit l =>
    unfold handleNode at h
    obtain ⟨g1, -, h⟩ := except_bind h
    cases h; exact .nil
  | comment ws t => unfold handleNode at h; cases h; exact .nil
  | expr ws e => unfold handleNode at h; cases h; exact .nil
  | let_ ws t e => unfold handleNode at h; exact (writeLet_fits hn h).mono (by omega)
  | if_ ws bs => unfold handleNode at h; exact writeIf_fits hn hr h
  | match_ ws1 e as ws2 => unfold handleNode at h; exact writeMatch_fits hn hr h
  | loop ws1 t it c body ws2 els ws3 => unfold handleNode at h; exact writeLoop_fits hn hr h
  | blockDef ws1 name ns ws2 => unfold handleNode at h; exact (writeBlock_fits hn hr h).mono (by omega)
  | «include» ws p => unfold handleNode at h; exact (handleInclude_fits hn hr h).mono (by omega)
  | call ws sc name args =>
    unfold handleNode at h
    dsimp only at h
    split at h
    · exact (writeBlock_fits hn hr h).mono (by omega)
    · exact writeCall_fits hn hr h
  | filterBlock ws1 f ns ws2 => unfold handleNode at h; exact (writeFilterBlock_fits hn hr h).mono (by omega)
  | «macro» ws1 name as ns ws2 =>
    unfold handleNode at h
    dsimp only at h
    split at h
    · cases h; exact .nil
    · cases h
  | raw ws1 l ws2 =>
    unfold handleNode at h
    obtain ⟨g1, -, h⟩ := except_bind h
    cases h; exact .nil
  | import_ ws p sc =>
    unfold handleNode at h
    dsimp only at h
    split at h
    · cases h; exact .nil
    · cases h
  | extends_ p =>
    unfold handleNode at h
    dsimp only at h
    split at h
    · cases h; exact .nil
    · cases h
  | break_ ws =>
    unfold handleNode at h
    obtain ⟨⟨s1, g1⟩, h1, h⟩ := except_bind h
    cases h
    exact ((writeBuf_fits hn h1).append (.emit (.flat hn fun d hd => by simp [Stmt.fits]; omega))).mono (by omega)
  | continue_ ws =>
    unfold handleNode at h
    obtain ⟨⟨s1, g1⟩, h1, h⟩ := except_bind h
    cases h
    exact ((writeBuf_fits hn h1).append (.emit (.flat hn fun d hd => by simp [Stmt.fits]; omega))).mono (by omega)

theorem handleNodes_fits (hn : 3 ≤ n) (hr : RecFits n rec) {H : Option Heritage} {ctx : Ctx} {level : Level} :
    (ns : List Node) → {g : Gen} → {s : List Stmt} → {g' : Gen} →
    handleNodes rec I H ctx level ns g = .ok (s, g') → FitsIn (n + 2) s
  | [], _, _, _, h => by unfold handleNodes at h; cases h; exact .nil
  | x :: ns, g, s, g', h => by
    unfold handleNodes at h
    obtain ⟨⟨s1, g1⟩, h1, h⟩ := except_bind h
    obtain ⟨⟨s2, g2⟩, h2, h⟩ := except_bind h
    cases h
    exact (handleNode_fits hn hr h1).append (handleNodes_fits hn hr ns h2)

theorem handle_fits (I : GenInput) : (fuel : Nat) → RecFits (2 * fuel + 3) (handle I fuel)
  | 0 => fun _ _ _ _ _ _ _ h => by unfold handle at h; cases h
  | fuel + 1 => fun H ctx nodes level g s g' h => by
    unfold handle at h
    obtain ⟨⟨s1, g1⟩, h1, h⟩ := except_bind h
    obtain ⟨⟨s2, g2⟩, h2, h⟩ := except_bind h
    cases h
    refine .append ((handleNodes_fits (by omega) (handle_fits I fuel) _ h1).mono (by omega)) ?_
    unfold handleEnd at h2
    split at h2
    · exact writeBuf_fits (by omega) h2
    · cases h2; exact .nil

/-- Templates nested at most 29 deep do not overflow the indentation. -/
theorem handle_shallow {I : GenInput} {fuel : Nat} (hf : fuel ≤ 29) {H : Option Heritage} {ctx : Ctx} {nodes : List Node}
    {level : Level} {g : Gen} {s : List Stmt} {g' : Gen} (h : handle I fuel H ctx nodes level g = .ok (s, g')) :
    fitsList 2 s = true := handle_fits I fuel _ _ _ _ _ _ _ h 2 (by omega)

end Gen

end Askama
