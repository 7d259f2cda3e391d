import Verif.Lemmas.SpaceGen
import Verif.Lemmas.Comments

/-! The generated code of a template without its white space: nodes, blocks and inheritance. -/

namespace Askama

open Askama.Spec Gen

/-! ## Contexts -/

/-- A definition of a block without white space. -/
def BlockDefn.bare (d : BlockDefn) : BlockDefn := ⟨noWs, bareL d.nodes, noWs⟩

/-- A macro without white space. -/
def MacroDef.bare (d : MacroDef) : MacroDef := ⟨noWs, d.args, bareL d.nodes, noWs⟩

/-- A context without white space. -/
def Ctx.bare (c : Ctx) : Ctx :=
  { c with nodes := bareL c.nodes, blocks := onSnd BlockDefn.bare c.blocks, macros := onSnd MacroDef.bare c.macros }

/-- The block map of a heritage without white space. -/
def bareDefs (m : List (Str × List (Ctx × BlockDefn))) : List (Str × List (Ctx × BlockDefn)) :=
  onSnd (List.map fun e => (e.1.bare, e.2.bare)) m

/-- A heritage without white space. -/
def Heritage.bare (h : Heritage) : Heritage := ⟨h.root.bare, bareDefs h.blocks⟩

/-- The templates `cs` are these templates without white space. -/
structure BareCs (contexts cs : List (Str × Ctx)) : Prop where
  length : cs.length = contexts.length
  assoc : ∀ p, assoc cs p = (assoc contexts p).map Ctx.bare

/-- No filter block, and white space around texts is white space. -/
structure SpaceOk (n : Node) : Prop where
  text : ∀ l, IsText n l → squeeze l.lws = [] ∧ squeeze l.rws = []
  block : noFilterBlock n = true

section
variable {I : GenInput} {cs : List (Str × Ctx)}

theorem findMacro_bare (hcs : BareCs I.contexts cs) (ctx : Ctx) (scope : Option Str) (name : Str) :
    findMacro (bareI I cs) ctx.bare scope name = (findMacro I ctx scope name).map fun d => (d.1.bare, d.2.bare) := by
  unfold findMacro
  cases scope with
  | none =>
    show (match assoc (onSnd MacroDef.bare ctx.macros) name with | none => _ | some d => _) = _
    rw [assoc_onSnd]
    cases assoc ctx.macros name <;> rfl
  | some s =>
    have hi : ctx.bare.imports = ctx.imports := rfl
    have hx : (bareI I cs).contexts = cs := rfl
    dsimp only
    rw [hi, hx]
    cases assoc ctx.imports s with
    | none => rfl
    | some path =>
      dsimp only
      rw [hcs.assoc]
      cases assoc I.contexts path with
      | none => rfl
      | some mctx =>
        dsimp only [Option.map]
        rw [show mctx.bare.macros = onSnd MacroDef.bare mctx.macros from rfl, assoc_onSnd]
        cases assoc mctx.macros name <;> rfl

theorem mergeCtx_bare (child ctx : Ctx) : mergeCtx child.bare ctx.bare = (mergeCtx child ctx).bare := by
  unfold mergeCtx
  simp only [Ctx.bare, onSnd_append]

theorem heritageChain_bare {contexts : List (Str × Ctx)} (hcs : BareCs contexts cs) : (fuel : Nat) → (ctx : Ctx) →
    heritageChain cs fuel ctx.bare = (heritageChain contexts fuel ctx).map (List.map Ctx.bare)
  | 0, _ => rfl
  | fuel + 1, ctx => by
    unfold heritageChain
    show (match ctx.extends_ with | none => _ | some path => _) = _
    cases ctx.extends_ with
    | none => rfl
    | some path =>
      dsimp only
      rw [hcs.assoc]
      cases assoc contexts path with
      | none => rfl
      | some parent =>
        dsimp only [Option.map]
        rw [heritageChain_bare hcs fuel parent]
        cases heritageChain contexts fuel parent <;> rfl

theorem addBlock_bare (ctx : Ctx) (m : List (Str × List (Ctx × BlockDefn))) (nd : Str × BlockDefn) :
    (match assoc (bareDefs m) nd.1 with
      | none => bareDefs m ++ [(nd.1, [(ctx.bare, nd.2.bare)])]
      | some _ => (bareDefs m).map fun e => if e.1 = nd.1 then (e.1, e.2 ++ [(ctx.bare, nd.2.bare)]) else e) =
    bareDefs (match assoc m nd.1 with
      | none => m ++ [(nd.1, [(ctx, nd.2)])]
      | some _ => m.map fun e => if e.1 = nd.1 then (e.1, e.2 ++ [(ctx, nd.2)]) else e) := by
  unfold bareDefs
  rw [assoc_onSnd]
  cases assoc m nd.1 with
  | none => simp only [Option.map]; rw [onSnd_append]; rfl
  | some d =>
    simp only [Option.map, onSnd, List.map_map]
    refine List.map_congr_left fun e _ => ?_
    simp only [Function.comp]
    split <;> simp

theorem addBlocks_bare (ctx : Ctx) (m : List (Str × List (Ctx × BlockDefn))) :
    addBlocks ctx.bare (bareDefs m) = bareDefs (addBlocks ctx m) := by
  unfold addBlocks
  rw [show ctx.bare.blocks = onSnd BlockDefn.bare ctx.blocks from rfl]
  unfold onSnd
  rw [List.foldl_map]
  generalize ctx.blocks = bs
  induction bs generalizing m with
  | nil => rfl
  | cons b bs ih =>
    simp only [List.foldl_cons]
    exact (congrArg (fun x => List.foldl _ x bs) (addBlock_bare ctx m b)).trans (ih _)

theorem foldBlocks_bare : (chain : List Ctx) → (m : List (Str × List (Ctx × BlockDefn))) →
    (chain.map Ctx.bare).foldl (fun m c => addBlocks c m) (bareDefs m) =
      bareDefs (chain.foldl (fun m c => addBlocks c m) m)
  | [], _ => rfl
  | c :: chain, m => by
    simp only [List.map_cons, List.foldl_cons]
    rw [addBlocks_bare, foldBlocks_bare chain]

theorem heritageNew_bare {contexts : List (Str × Ctx)} (hcs : BareCs contexts cs) (ctx : Ctx) :
    heritageNew cs ctx.bare = (heritageNew contexts ctx).map Heritage.bare := by
  unfold heritageNew
  rw [hcs.length, heritageChain_bare hcs]
  cases heritageChain contexts (contexts.length + 2) ctx with
  | error e => rfl
  | ok chain =>
    show Except.ok _ = Except.ok _
    congr 1
    show Heritage.mk _ _ = Heritage.mk _ _
    congr 1
    · rw [List.getLastD_eq_getLast?, List.getLastD_eq_getLast?, List.getLast?_map]
      cases chain.getLast? <;> rfl
    · exact foldBlocks_bare chain []

theorem hasBlocks_bare (ctx : Ctx) : (!ctx.bare.blocks.isEmpty || ctx.bare.extends_.isSome) = (!ctx.blocks.isEmpty || ctx.extends_.isSome) := by
  show (!(onSnd BlockDefn.bare ctx.blocks).isEmpty || _) = _
  rw [onSnd_isEmpty]
  rfl

theorem includeHeritage_bare (hcs : BareCs I.contexts cs) (ctx : Ctx) :
    includeHeritage (bareI I cs) ctx.bare = (includeHeritage I ctx).map (Option.map Heritage.bare) := by
  unfold includeHeritage
  rw [hasBlocks_bare]
  split
  · show (heritageNew cs ctx.bare).map some = _
    rw [heritageNew_bare hcs]
    cases heritageNew I.contexts ctx <;> rfl
  · rfl

/-! ## Nodes -/

/-- The recursive calls, of which the second gets everything without white space. -/
def RecBare (rec rec' : Handler) : Prop :=
  ∀ H ctx nodes level g code g', rec H ctx nodes level g = .ok (code, g') → (∀ h, H = some h → HOk SpaceOk h) →
    CtxOk SpaceOk ctx → Every SpaceOk nodes → StOk g →
    Step (rec' (H.map Heritage.bare) ctx.bare (bareL nodes) level (bareG g)) code g'

theorem openLine_bare (g : Gen) : (bareG g).openLine = bareG g.openLine := by
  unfold openLine
  show (if g.discard = true then _ else _) = _
  split <;> rfl

theorem dedent_bare {g g' : Gen} (h : g.dedent = .ok g') : (bareG g).dedent = .ok (bareG g') ∧ g'.nextWs = g.nextWs := by
  unfold dedent at h ⊢
  show (if g.indent = 0 then _ else _) = _ ∧ _
  split at h
  · cases h
  · rename_i hi; rw [if_neg hi]; cases h; exact ⟨rfl, rfl⟩

theorem closeLine_bare {g g' : Gen} (h : g.closeLine = .ok g') : (bareG g).closeLine = .ok (bareG g') ∧ g'.nextWs = g.nextWs := by
  unfold closeLine at h ⊢
  show (if g.discard = true then _ else _) = _ ∧ _
  split at h
  · rename_i hi; rw [if_pos hi]; cases h; exact ⟨rfl, rfl⟩
  · rename_i hi; rw [if_neg hi]; exact dedent_bare h

theorem dedentUnless_bare {b : Bool} {g g' : Gen} (h : dedentUnless b g = .ok g') :
    dedentUnless b (bareG g) = .ok (bareG g') ∧ g'.nextWs = g.nextWs := by
  unfold dedentUnless at h ⊢
  cases b with
  | true => cases h; exact ⟨rfl, rfl⟩
  | false => exact dedent_bare h

theorem openLine_nextWs (g : Gen) : g.openLine.nextWs = g.nextWs := by
  unfold openLine; split <;> rfl

theorem emit_bare (g : Gen) (s : List Stmt) : bareS (g.emit s) = (bareG g).emit (bareS s) := by
  unfold emit
  show _ = if g.discard = true then _ else _
  split <;> rfl

theorem emit_fine {g : Gen} {s : List Stmt} (h : FineS s) : FineS (g.emit s) := by
  unfold emit
  split
  · trivial
  · exact h

theorem wrap_bare (g : Gen) {f : List Stmt → Stmt} (hf : ∀ b, bareStmt (f b) = [f (bareS b)]) (b : List Stmt) :
    bareS (g.wrap f b) = (bareG g).wrap f (bareS b) := by
  unfold wrap
  show _ = if g.discard = true then _ else _
  split
  · rfl
  · simp [bareS, hf]

theorem wrap_fine {g : Gen} {f : List Stmt → Stmt} (hf : ∀ b, FineStmt (f b) = FineS b) {b : List Stmt} (h : FineS b) :
    FineS (g.wrap f b) := by
  unfold wrap
  split
  · exact h
  · exact ⟨by rw [hf]; exact h, trivial⟩

variable {rec rec' : Handler} {H : Option Heritage} {ctx : Ctx}

theorem ifBranches_bare (hr : RecBare rec rec') (hH : ∀ h, H = some h → HOk SpaceOk h) (hc : CtxOk SpaceOk ctx) {wsEnd : Ws} :
    (bs : List Cond) → {first : Bool} → {g g' : Gen} → {brs : List Branch} → (∀ n ∈ partsC bs, SpaceOk n) → StOk g →
    ifBranches rec I H ctx wsEnd first bs g = .ok (brs, g') →
    ifBranches rec' (bareI I cs) (H.map Heritage.bare) ctx.bare noWs first (bareC bs) (bareG g) = .ok (bareBranches brs, bareG g')
      ∧ FineBranches brs ∧ StOk g'
  | [], _, _, _, _, _, hg, h => by cases h; exact ⟨rfl, trivial, hg⟩
  | .mk w c nodes :: rest, first, g, g', brs, hp, hg, h => by
    have hn : Every SpaceOk nodes := fun n hn => hp n (by simp [partsC, hn])
    have hrest : ∀ n ∈ partsC rest, SpaceOk n := fun n hn => hp n (by simp [partsC, hn])
    unfold ifBranches at h
    obtain ⟨g1, h1, h⟩ := except_bind h
    obtain ⟨⟨r, g2⟩, h2, h⟩ := except_bind h
    obtain ⟨⟨body, g3⟩, h3, h⟩ := except_bind h
    obtain ⟨a1, b1⟩ := dedentUnless_bare h1
    obtain ⟨a2, b2⟩ := branchCond_bare (cs := cs) h2
    have s2 : StOk g2.openLine := hg.of ((openLine_nextWs g2).trans (b2.trans b1))
    obtain ⟨a3, f3, s3⟩ := hr _ _ _ _ _ _ _ h3 hH hc hn s2
    have a1 : dedentUnless first { bareG g with locals := (bareG g).locals.push } = .ok (bareG g1) := a1
    rw [← openLine_bare] at a3
    cases rest with
    | nil =>
      dsimp only at h
      obtain ⟨⟨fl, g4⟩, h4, h⟩ := except_bind h
      cases h
      obtain ⟨a4, f4, s4⟩ := writeBuf_bare (cs := cs) h4 (handleWs_stOk _ _)
      rw [handleWs_bare s3] at a4
      refine ⟨?_, ⟨fineS_append.2 ⟨f3, f4⟩, trivial⟩, s4⟩
      simp only [bareC, ifBranches, a1, a2, a3, bind, Except.bind, handleWs_of_bare, a4, bareBranches, bareS_append]
      rfl
    | cons b rest =>
      obtain ⟨w', c', nodes'⟩ := b
      dsimp only at h
      obtain ⟨⟨fl, g4⟩, h4, h⟩ := except_bind h
      obtain ⟨⟨bs, g5⟩, h5, h⟩ := except_bind h
      cases h
      obtain ⟨a4, f4, s4⟩ := writeBuf_bare (cs := cs) h4 (handleWs_stOk _ _)
      rw [handleWs_bare s3] at a4
      obtain ⟨a5, f5, s5⟩ := ifBranches_bare hr hH hc (.mk w' c' nodes' :: rest) hrest (g := { g4 with locals := g4.locals.pop }) (s4.of rfl) h5
      refine ⟨?_, ⟨fineS_append.2 ⟨f3, f4⟩, f5⟩, s5⟩
      rw [show bareC (.mk w c nodes :: .mk w' c' nodes' :: rest) = .mk noWs c (bareL nodes) :: .mk noWs c' (bareL nodes') :: bareC rest from rfl]
      have a5 : ifBranches rec' (bareI I cs) (H.map Heritage.bare) ctx.bare noWs false (.mk noWs c' (bareL nodes') :: bareC rest)
        { bareG g4 with locals := (bareG g4).locals.pop } = .ok (bareBranches bs, bareG g5) := a5
      unfold ifBranches
      simp only [a1, a2, a3, bind, Except.bind, handleWs_of_bare, a4, a5, bareBranches, bareS_append]
      rfl

theorem writeIf_bare (hr : RecBare rec rec') (hH : ∀ h, H = some h → HOk SpaceOk h) (hc : CtxOk SpaceOk ctx) {g g' : Gen} {ws : Ws}
    {bs : List Cond} {code : List Stmt} (hp : ∀ n ∈ partsC bs, SpaceOk n) (hg : StOk g)
    (h : writeIf rec I H ctx g ws bs = .ok (code, g')) :
    Step (writeIf rec' (bareI I cs) (H.map Heritage.bare) ctx.bare (bareG g) noWs (bareC bs)) code g' := by
  cases bs with
  | nil => cases h
  | cons b rest =>
    obtain ⟨w, c, nodes⟩ := b
    unfold writeIf at h
    obtain ⟨⟨pre, g1⟩, h1, h⟩ := except_bind h
    obtain ⟨⟨brs, g2⟩, h2, h⟩ := except_bind h
    obtain ⟨g3, h3, h⟩ := except_bind h
    cases h
    obtain ⟨a1, f1, s1⟩ := writeBuf_bare (cs := cs) h1 (handleWs_stOk _ _)
    rw [handleWs_bare hg] at a1
    obtain ⟨a2, f2, s2⟩ := ifBranches_bare (cs := cs) hr hH hc _ hp s1 h2
    obtain ⟨a3, b3⟩ := closeLine_bare h3
    refine ⟨?_, ?_, s2.of b3⟩
    · rw [show bareC (.mk w c nodes :: rest) = .mk noWs c (bareL nodes) :: bareC rest from rfl] at a2 ⊢
      unfold writeIf
      simp only [handleWs_of_bare, a1, a2, a3, bind, Except.bind, bareS_append]
      show Except.ok (bareS pre ++ (if g3.discard = true then _ else _), _) = _
      congr 3
      split
      · exact (bare_branchBodies brs).symm
      · rfl
    · refine fineS_append.2 ⟨f1, ?_⟩
      split
      · exact fine_branchBodies f2
      · exact ⟨f2, trivial⟩

theorem matchArms_bare (hr : RecBare rec rec') (hH : ∀ h, H = some h → HOk SpaceOk h) (hc : CtxOk SpaceOk ctx) {wsEnd : Ws} :
    (arms : List When) → {g g' : Gen} → {as : List Arm} → (∀ n ∈ partsW arms, SpaceOk n) → StOk g →
    matchArms rec I H ctx wsEnd arms g = .ok (as, g') →
    matchArms rec' (bareI I cs) (H.map Heritage.bare) ctx.bare noWs (bareW arms) (bareG g) = .ok (bareArms as, bareG g')
      ∧ FineArms as ∧ StOk g'
  | [], _, _, _, _, hg, h => by cases h; exact ⟨rfl, trivial, hg⟩
  | .mk w t nodes :: rest, g, g', as, hp, hg, h => by
    have hn : Every SpaceOk nodes := fun n hn => hp n (by simp [partsW, hn])
    have hrest : ∀ n ∈ partsW rest, SpaceOk n := fun n hn => hp n (by simp [partsW, hn])
    unfold matchArms at h
    obtain ⟨⟨body, g1⟩, h1, h⟩ := except_bind h
    obtain ⟨⟨fl, g2⟩, h2, h⟩ := except_bind h
    obtain ⟨g3, h3, h⟩ := except_bind h
    obtain ⟨⟨as', g4⟩, h4, h⟩ := except_bind h
    cases h
    obtain ⟨a1, f1, s1⟩ := hr _ _ _ _ _ _ _ h1 hH hc hn (hg.of (openLine_nextWs _))
    rw [← openLine_bare] at a1
    have a1 : rec' (H.map Heritage.bare) ctx.bare (bareL nodes) .nested
        (openLine (declare { bareG g with locals := (bareG g).locals.push } t true)) = .ok (bareS body, bareG g1) := a1
    obtain ⟨a2, f2, s2⟩ := writeBuf_bare (cs := cs) h2 (handleWs_stOk _ _)
    rw [handleWs_bare s1] at a2
    obtain ⟨a3, b3⟩ := closeLine_bare h3
    obtain ⟨a4, f4, s4⟩ := matchArms_bare hr hH hc rest hrest (g := { g3 with locals := g3.locals.pop }) ((s2.of b3).of rfl) h4
    have a4 : matchArms rec' (bareI I cs) (H.map Heritage.bare) ctx.bare noWs (bareW rest)
        { bareG g3 with locals := (bareG g3).locals.pop } = .ok (bareArms as', bareG g') := a4
    refine ⟨?_, ⟨fineS_append.2 ⟨f1, f2⟩, f4⟩, s4⟩
    rw [show bareW (.mk w t nodes :: rest) = .mk noWs t (bareL nodes) :: bareW rest from rfl]
    unfold matchArms
    simp only [a1, bind, Except.bind]
    cases rest with
    | nil =>
      simp only [bareW] at a4 ⊢
      simp only [handleWs_of_bare, a2, a3, a4, bareArms, bareS_append]
      rfl
    | cons b rest =>
      obtain ⟨w', c', nodes'⟩ := b
      simp only [bareW] at a4 ⊢
      simp only [handleWs_of_bare, a2, a3, a4, bareArms, bareS_append]
      rfl

theorem writeMatch_bare (hr : RecBare rec rec') (hH : ∀ h, H = some h → HOk SpaceOk h) (hc : CtxOk SpaceOk ctx) {g g' : Gen}
    {ws1 ws2 : Ws} {e : Expr} {arms : List When} {code : List Stmt} (hp : ∀ n ∈ partsW arms, SpaceOk n) (hg : StOk g)
    (h : writeMatch rec I H ctx g ws1 e arms ws2 = .ok (code, g')) :
    Step (writeMatch rec' (bareI I cs) (H.map Heritage.bare) ctx.bare (bareG g) noWs e (bareW arms) noWs) code g' := by
  cases arms with
  | nil => cases h
  | cons b rest =>
    obtain ⟨w, c, nodes⟩ := b
    unfold writeMatch at h
    obtain ⟨⟨pre, g1⟩, h1, h⟩ := except_bind h
    obtain ⟨⟨r, wr⟩, h2, h⟩ := except_bind h
    obtain ⟨⟨as, g2⟩, h3, h⟩ := except_bind h
    obtain ⟨g3, h4, h⟩ := except_bind h
    cases h
    obtain ⟨a1, f1, s1⟩ := writeBuf_bare (cs := cs) h1 (flushWs_stOk _ _)
    rw [flushWs_bare hg] at a1
    obtain ⟨a3, f3, s3⟩ := matchArms_bare (cs := cs) hr hH hc _ hp (handleWs_stOk _ _) h3
    rw [handleWs_bare (s1.of (openLine_nextWs _)), ← openLine_bare] at a3
    obtain ⟨a4, b4⟩ := closeLine_bare h4
    have h2 : visitExpr I (bareG g1).locals e = .ok (r, wr) := h2
    refine ⟨?_, ?_, s3.of b4⟩
    · rw [show bareW (.mk w c nodes :: rest) = .mk noWs c (bareL nodes) :: bareW rest from rfl] at a3 ⊢
      unfold writeMatch
      simp only [flushWs_of_bare, a1, visitExpr_bareI, h2, bind, Except.bind]
      rw [openLine_bare] at a3 ⊢
      simp only [handleWs_of_bare, a3, a4, bareS_append]
      show Except.ok (bareS pre ++ (if g'.discard = true then _ else _), _) = _
      congr 3
      split
      · exact (bare_armBodies as).symm
      · rfl
    · refine fineS_append.2 ⟨f1, ?_⟩
      split
      · exact fine_armBodies f3
      · exact ⟨f3, trivial⟩

/-- An empty literal in front changes nothing. -/
def RecMark (rec' : Handler) : Prop :=
  ∀ H ctx nodes level g, rec' H ctx (.lit ⟨[], [], []⟩ :: nodes) level (bareG g) = rec' H ctx nodes level (bareG g)

theorem emit_same (g : Gen) (s : List Stmt) : (bareG g).emit s = g.emit s := rfl
theorem wrap_same (g : Gen) (f : List Stmt → Stmt) (b : List Stmt) : (bareG g).wrap f b = g.wrap f b := rfl

theorem loopFilter_still {g : Gen} {var : Target} {c : Option Expr} {s : List Stmt} (h : loopFilter I g var c = .ok s) :
    bareS s = s ∧ FineS s := by
  unfold loopFilter at h
  cases c with
  | none => cases h; exact ⟨rfl, trivial⟩
  | some e =>
    obtain ⟨⟨r, w⟩, h1, h⟩ := except_bind h
    cases h
    unfold emit
    split
    · exact ⟨rfl, trivial⟩
    · exact ⟨rfl, trivial, trivial⟩

theorem head_still (g : Gen) (b : Bool) (r : RExpr) : bareS (g.emit ((if b then [.letDid] else []) ++ [.letIter r])) =
    g.emit ((if b then [.letDid] else []) ++ [.letIter r]) ∧ FineS (g.emit ((if b then [.letDid] else []) ++ [.letIter r])) := by
  unfold emit
  split
  · exact ⟨rfl, trivial⟩
  · cases b
    · exact ⟨rfl, trivial, trivial⟩
    · exact ⟨rfl, trivial, trivial, trivial⟩

theorem set_still (g : Gen) (b : Bool) : bareS (g.emit (if b then [.setDid] else [])) = g.emit (if b then [.setDid] else [])
    ∧ FineS (g.emit (if b then [.setDid] else [])) := by
  unfold emit
  split
  · exact ⟨rfl, trivial⟩
  · cases b
    · exact ⟨rfl, trivial⟩
    · exact ⟨rfl, trivial, trivial⟩

theorem writeLoop_bare (hr : RecBare rec rec') (hm : RecMark rec') (hH : ∀ h, H = some h → HOk SpaceOk h) (hc : CtxOk SpaceOk ctx)
    {g g' : Gen} {ws1 ws2 ws3 : Ws} {var : Target} {iter : Expr} {cond : Option Expr} {body els : List Node} {code : List Stmt}
    (hb : Every SpaceOk body) (he : Every SpaceOk els) (hg : StOk g)
    (h : writeLoop rec I H ctx g ws1 var iter cond body ws2 els ws3 = .ok (code, g')) :
    Step (writeLoop rec' (bareI I cs) (H.map Heritage.bare) ctx.bare (bareG g) noWs var iter cond (bareL body) noWs
      (if els.isEmpty then [] else .lit ⟨[], [], []⟩ :: bareL els) noWs) code g' := by
  unfold writeLoop at h
  obtain ⟨⟨r, wr⟩, h1, h⟩ := except_bind h
  obtain ⟨⟨pre, g1⟩, h2, h⟩ := except_bind h
  obtain ⟨filt, h3, h⟩ := except_bind h
  obtain ⟨⟨b, g2⟩, h4, h⟩ := except_bind h
  obtain ⟨⟨fl, g3⟩, h5, h⟩ := except_bind h
  obtain ⟨g4, h6, h⟩ := except_bind h
  have e0 : bareG (handleWs I g ws1) = bareG g := handleWs_bare hg ws1
  have hl : (bareG (handleWs I g ws1)).locals = (bareG g).locals := by rw [e0]
  have h1 : visitExpr I (bareG g).locals.push iter = .ok (r, wr) := by rw [← hl]; exact h1
  obtain ⟨a2, f2, s2⟩ := writeBuf_bare (cs := cs) h2 ((handleWs_stOk g ws1).of rfl)
  have a2 : writeBuf (bareI I cs) { bareG (handleWs I g ws1) with locals := (bareG (handleWs I g ws1)).locals.push }
    = .ok (bareS pre, bareG g1) := a2
  rw [e0] at a2
  have h3' : loopFilter (bareI I cs) (bareG g1.openLine) var cond = .ok filt := by rw [loopFilter_bare]; exact h3
  obtain ⟨e3, f3⟩ := loopFilter_still h3
  obtain ⟨a4, f4, s4⟩ := hr _ _ _ _ _ _ _ h4 hH hc hb (s2.of (by rw [openLine_nextWs]; exact openLine_nextWs g1))
  rw [← openLine_bare] at a4
  have a4 : rec' (H.map Heritage.bare) ctx.bare (bareL body) .nested
      (openLine (declare { bareG g1.openLine with locals := (bareG g1.openLine).locals.push } var true)) = .ok (bareS b, bareG g2) := a4
  obtain ⟨a5, f5, s5⟩ := writeBuf_bare (cs := cs) h5 (handleWs_stOk _ _)
  rw [handleWs_bare s4] at a5
  obtain ⟨a6, b6⟩ := closeLine_bare h6
  have a6 : closeLine { bareG g3 with locals := (bareG g3).locals.pop } = .ok (bareG g4) := a6
  have s6 : StOk g4 := s5.of b6
  obtain ⟨e7, f7⟩ := head_still g1.openLine (!els.isEmpty) r
  obtain ⟨e8, f8⟩ := set_still (openLine (declare { g1.openLine with locals := g1.openLine.locals.push } var true)) (!els.isEmpty)
  have hfi : ∀ b, bareStmt (Stmt.forIter var b) = [Stmt.forIter var (bareS b)] := fun b => by simp [bareStmt]
  have hff : ∀ b, FineStmt (Stmt.forIter var b) = FineS b := fun b => by simp [FineStmt]
  have hbi : ∀ b, bareStmt (Stmt.block b) = [Stmt.block (bareS b)] := fun b => by simp [bareStmt]
  have hbf : ∀ b, FineStmt (Stmt.block b) = FineS b := fun b => by simp [FineStmt]
  have hni : ∀ b, bareStmt (Stmt.ifNotDid b) = [Stmt.ifNotDid (bareS b)] := fun b => by simp [bareStmt]
  have hnf : ∀ b, FineStmt (Stmt.ifNotDid b) = FineS b := fun b => by simp [FineStmt]
  have e8' : bareS (emit (openLine (declare { g1.openLine with locals := g1.openLine.locals.push } var true))
      (if (!els.isEmpty) = true then [Stmt.setDid] else [])) =
    emit (openLine (declare { bareG g1.openLine with locals := (bareG g1.openLine).locals.push } var true))
      (if (!els.isEmpty) = true then [Stmt.setDid] else []) := by
    rw [e8]
    exact congrFun (congrArg emit (openLine_bare (declare { g1.openLine with locals := g1.openLine.locals.push } var true))) _ |>.symm ▸ rfl
  cases hE : els.isEmpty with
  | true =>
    rw [hE] at h e7 e8' f7 f8
    simp only [Bool.not_true, Bool.false_eq_true, if_false] at h
    obtain ⟨⟨fl2, g5⟩, h7, h⟩ := except_bind h
    obtain ⟨g6, h8, h⟩ := except_bind h
    cases h
    obtain ⟨a7, f9, s7⟩ := writeBuf_bare (cs := cs) h7 (handleWs_stOk _ _)
    rw [handleWs_bare s6] at a7
    obtain ⟨a8, b8⟩ := closeLine_bare h8
    refine ⟨?_, ?_, s7.of b8⟩
    · rw [if_pos rfl]
      unfold writeLoop
      simp only [handleWs_of_bare, visitExpr_bareI, h1, bind, Except.bind, a2, openLine_bare, h3', List.isEmpty_nil, Bool.not_true,
        Bool.false_eq_true, if_false]
      simp only [a4, handleWs_of_bare, a5, a6, a7, a8]
      simp only [Bool.not_true, Bool.false_eq_true, if_false] at e7 e8'
      simp only [bareS_append, wrap_bare _ hbi, wrap_bare _ hfi, e7, e3, e8']
      rfl
    · simp only [Bool.not_true, Bool.false_eq_true, if_false] at f7 f8
      refine fineS_append.2 ⟨f2, wrap_fine hbf (fineS_append.2 ⟨fineS_append.2 ⟨fineS_append.2 ⟨f7, f3⟩, ?_⟩, f9⟩)⟩
      exact wrap_fine hff (fineS_append.2 ⟨fineS_append.2 ⟨f8, f4⟩, f5⟩)
  | false =>
    rw [hE] at h e7 e8' f7 f8
    simp only [Bool.not_false, if_true] at h
    obtain ⟨⟨eb, g5⟩, h7, h⟩ := except_bind h
    obtain ⟨⟨fl2, g6⟩, h8, h⟩ := except_bind h
    obtain ⟨g7, h9, h⟩ := except_bind h
    obtain ⟨g8, h10, h⟩ := except_bind h
    cases h
    obtain ⟨a7, f9, s7⟩ := hr _ _ _ _ _ _ _ h7 hH hc he (s6.of (openLine_nextWs g4))
    rw [← hm] at a7
    have a7 : rec' (H.map Heritage.bare) ctx.bare (.lit ⟨[], [], []⟩ :: bareL els) .nested
      { bareG g4.openLine with locals := (bareG g4.openLine).locals.push } = .ok (bareS eb, bareG g5) := a7
    obtain ⟨a8, f10, s8⟩ := writeBuf_bare (cs := cs) h8 (handleWs_stOk _ _)
    rw [handleWs_bare s7] at a8
    obtain ⟨a9, b9⟩ := closeLine_bare h9
    have a9 : closeLine { bareG g6 with locals := (bareG g6).locals.pop } = .ok (bareG g7) := a9
    obtain ⟨a10, b10⟩ := closeLine_bare h10
    refine ⟨?_, ?_, s8.of (b10.trans b9)⟩
    · rw [if_neg (by simp)]
      unfold writeLoop
      simp only [handleWs_of_bare, visitExpr_bareI, h1, bind, Except.bind, a2, openLine_bare, h3', List.isEmpty_cons, Bool.not_false,
        if_true]
      simp only [a4, handleWs_of_bare, a5, a6]
      rw [openLine_bare]
      simp only [a7, handleWs_of_bare, a8, a9, a10]
      simp only [Bool.not_false, if_true] at e7 e8'
      simp only [bareS_append, wrap_bare _ hbi, wrap_bare _ hfi, wrap_bare _ hni, e7, e3, e8']
      rfl
    · simp only [Bool.not_false, if_true] at f7 f8
      refine fineS_append.2 ⟨f2, wrap_fine hbf (fineS_append.2 ⟨fineS_append.2 ⟨fineS_append.2 ⟨f7, f3⟩, ?_⟩, ?_⟩)⟩
      · exact wrap_fine hff (fineS_append.2 ⟨fineS_append.2 ⟨f8, f4⟩, f5⟩)
      · exact wrap_fine hnf (fineS_append.2 ⟨f9, f10⟩)

theorem writeCall_bare (hr : RecBare rec rec') (hcs : BareCs I.contexts cs) (hI : ∀ p c, assoc I.contexts p = some c → CtxOk SpaceOk c)
    (hH : ∀ h, H = some h → HOk SpaceOk h) (hc : CtxOk SpaceOk ctx) {g g' : Gen} {ws : Ws} {scope : Option Str} {name : Str}
    {args : List Expr} {code : List Stmt} (hg : StOk g) (h : writeCall rec I H ctx g ws scope name args = .ok (code, g')) :
    Step (writeCall rec' (bareI I cs) (H.map Heritage.bare) ctx.bare (bareG g) noWs scope name args) code g' := by
  unfold writeCall at h
  obtain ⟨⟨d, own⟩, h1, h⟩ := except_bind h
  obtain ⟨⟨pre, g1⟩, h2, h⟩ := except_bind h
  dsimp only at h
  split at h
  · cases h
  · rename_i hlen
    obtain ⟨named, h3, h⟩ := except_bind h
    obtain ⟨⟨ns, rs, L⟩, h4, h⟩ := except_bind h
    obtain ⟨⟨b, g2⟩, h5, h⟩ := except_bind h
    obtain ⟨⟨fl, g3⟩, h6, h⟩ := except_bind h
    obtain ⟨g4, h7, h⟩ := except_bind h
    cases h
    obtain ⟨hown, hd⟩ := findMacro_ok hI hc h1
    have a1 := findMacro_bare hcs ctx scope name
    rw [h1] at a1
    obtain ⟨a2, f2, s2⟩ := writeBuf_bare (cs := cs) h2 ((flushWs_stOk g ws).of rfl)
    have a2 : writeBuf (bareI I cs) { bareG (flushWs I g ws) with locals := (bareG (flushWs I g ws)).locals.push }
      = .ok (bareS pre, bareG g1) := a2
    rw [flushWs_bare hg] at a2
    have h4' : bindParams (bareI I cs) named args d.args 0 true (bareG g1.openLine).locals = .ok (ns, rs, L) := by
      rw [bindParams_bareI]; exact h4
    obtain ⟨a5, f5, s5⟩ := hr _ _ _ _ _ _ _ h5 hH hown hd (s2.of (openLine_nextWs g1))
    have a5 : rec' (H.map Heritage.bare) own.bare (bareL d.nodes) .nested { bareG g1.openLine with locals := L } = .ok (bareS b, bareG g2) := a5
    obtain ⟨a6, f6, s6⟩ := writeBuf_bare (cs := cs) h6 (flushWs_stOk _ _)
    rw [flushWs_bare s5] at a6
    obtain ⟨a7, b7⟩ := closeLine_bare h7
    have hl : ∀ g : Gen, bareS (g.emit (if ns.isEmpty then [] else [.letMany ns rs])) = g.emit (if ns.isEmpty then [] else [.letMany ns rs])
        ∧ FineS (g.emit (if ns.isEmpty then [] else [.letMany ns rs])) := by
      intro g
      unfold emit
      split
      · exact ⟨rfl, trivial⟩
      · split
        · exact ⟨rfl, trivial⟩
        · exact ⟨rfl, trivial, trivial⟩
    have hbi : ∀ b, bareStmt (Stmt.block b) = [Stmt.block (bareS b)] := fun b => by simp [bareStmt]
    have hbf : ∀ b, FineStmt (Stmt.block b) = FineS b := fun b => by simp [FineStmt]
    refine ⟨?_, ?_, (s6.of b7).of rfl⟩
    · unfold writeCall
      rw [a1]
      simp only [Except.map, bind, Except.bind, flushWs_of_bare, a2]
      rw [show d.bare.ws1 = noWs from rfl, show d.bare.ws2 = noWs from rfl, show d.bare.args = d.args from rfl,
        show d.bare.nodes = bareL d.nodes from rfl]
      simp only [openLine_bare, prepareWs_of_bare, if_neg hlen, h3, h4', a5, flushWs_of_bare, a6, a7]
      simp only [bareS_append, wrap_bare _ hbi, (hl _).1]
      rfl
    · exact fineS_append.2 ⟨f2, wrap_fine hbf (fineS_append.2 ⟨fineS_append.2 ⟨(hl _).2, f5⟩, f6⟩)⟩

theorem writeBlock_bare (hr : RecBare rec rec') (hH : ∀ h, H = some h → HOk SpaceOk h) (hc : CtxOk SpaceOk ctx) {g g' : Gen}
    {name : Option Str} {outer : Ws} {code : List Stmt} (hg : StOk g) (h : writeBlock rec I H ctx g name outer = .ok (code, g')) :
    Step (writeBlock rec' (bareI I cs) (H.map Heritage.bare) ctx.bare (bareG g) name noWs) code g' := by
  unfold writeBlock at h
  obtain ⟨cur, h1, h⟩ := except_bind h
  obtain ⟨⟨pre, g1⟩, h2, h⟩ := except_bind h
  obtain ⟨a2, f2, s2⟩ := writeBuf_bare (cs := cs) h2 (flushWs_stOk _ _)
  rw [flushWs_bare hg] at a2
  have hsb : (bareG (flushWs I g outer)).superBlock = (bareG g).superBlock := by rw [flushWs_bare hg]
  have h1 : currentBlock name (bareG g).superBlock = .ok cur := by rw [← hsb]; exact h1
  cases H with
  | none => cases h
  | some hh =>
    dsimp only at h
    cases hdefs : assoc hh.blocks cur.1 with
    | none => rw [hdefs] at h; cases h
    | some defs =>
      rw [hdefs] at h; dsimp only at h
      cases hcd : defs[cur.2]? with
      | none => rw [hcd] at h; cases h
      | some cd =>
        obtain ⟨cctx, d⟩ := cd
        rw [hcd] at h; dsimp only at h
        obtain ⟨⟨b, g2⟩, h3, h⟩ := except_bind h
        obtain ⟨⟨fl, g3⟩, h4, h⟩ := except_bind h
        cases h
        obtain ⟨k, hk⟩ := assoc_mem hdefs
        obtain ⟨hcc, hd⟩ := (hH hh rfl).blocks _ hk _ (List.mem_of_getElem? hcd)
        obtain ⟨a3, f3, s3⟩ := hr _ _ _ _ _ _ _ h3 hH (mergeCtx_ok hcc hc) hd (by intro s hs; cases hs)
        rw [← mergeCtx_bare] at a3
        obtain ⟨a4, f4, s4⟩ := flushIf_bare (cs := cs) h4 s3
        have a4 : flushIf (bareI I cs) (!(bareG g2).locals.isCurrentEmpty) (bareG g2) = .ok (bareS fl, bareG g3) := a4
        have e5 := flushWs_bare (I := I) s4 d.ws2
        refine ⟨?_, fineS_append.2 ⟨fineS_append.2 ⟨f2, f3⟩, f4⟩, ?_⟩
        · have hb1 : assoc hh.bare.blocks cur.1 = some (defs.map fun e => (e.1.bare, e.2.bare)) := by
            show assoc (bareDefs hh.blocks) cur.1 = _
            unfold bareDefs
            rw [assoc_onSnd, hdefs]; rfl
          have hb2 : (defs.map fun e => (e.1.bare, e.2.bare))[cur.2]? = some (cctx.bare, d.bare) := by
            rw [List.getElem?_map, hcd]; rfl
          unfold writeBlock
          simp only [flushWs_of_bare, h1, bind, Except.bind, a2, Option.map_some, hb1, hb2]
          rw [show d.bare.nodes = bareL d.nodes from rfl, show d.bare.ws1 = noWs from rfl, show d.bare.ws2 = noWs from rfl]
          erw [a3]
          simp only [a4, flushWs_of_bare]
          rw [← e5]
          simp only [bareS_append]
          rfl
        · exact s2.of rfl

theorem handleInclude_bare (hr : RecBare rec rec') (hcs : BareCs I.contexts cs)
    (hI : ∀ p c, assoc I.contexts p = some c → CtxOk SpaceOk c) (hc : CtxOk SpaceOk ctx) {g g' : Gen} {ws : Ws} {path : Str}
    {code : List Stmt} (hg : StOk g) (h : handleInclude rec I ctx g ws path = .ok (code, g')) :
    Step (handleInclude rec' (bareI I cs) ctx.bare (bareG g) noWs path) code g' := by
  unfold handleInclude at h
  obtain ⟨⟨pre, g1⟩, h1, h⟩ := except_bind h
  obtain ⟨a1, f1, s1⟩ := writeBuf_bare (cs := cs) h1 (flushWs_stOk _ _)
  rw [flushWs_bare hg] at a1
  dsimp only at h
  cases hf : I.find path with
  | none => rw [hf] at h; cases h
  | some p =>
    rw [hf] at h; dsimp only at h
    cases hp : assoc I.contexts p with
    | none => rw [hp] at h; cases h
    | some c =>
      rw [hp] at h; dsimp only at h
      obtain ⟨Hc, h2, h⟩ := except_bind h
      obtain ⟨⟨b, g2⟩, h3, h⟩ := except_bind h
      obtain ⟨⟨fl, g3⟩, h4, h⟩ := except_bind h
      cases h
      have hcc := mergeCtx_ok (hI _ _ hp) hc
      have hHc : ∀ h, Hc = some h → HOk SpaceOk h := by
        rintro h rfl
        unfold includeHeritage at h2
        split at h2
        · cases h7 : heritageNew I.contexts (mergeCtx c ctx) with
          | error e => rw [h7] at h2; cases h2
          | ok x => rw [h7] at h2; cases h2; exact heritageNew_ok hI hcc h7
        · cases h2
      have hroot : CtxOk SpaceOk (rootOf Hc (mergeCtx c ctx)) := by
        cases Hc with
        | none => exact hcc
        | some hh => exact (hHc hh rfl).root
      have h3 : rec Hc (rootOf Hc (mergeCtx c ctx)) (rootOf Hc (mergeCtx c ctx)).nodes .top
        { new I g1.locals.withParent g1.indent g1.discard with pdiscard := g1.pdiscard } = .ok (b, g2) := by
        cases Hc <;> exact h3
      obtain ⟨a3, f3, s3⟩ := hr _ _ _ _ _ _ _ h3 hHc hroot hroot.nodes (by intro s hs; cases hs)
      obtain ⟨a4, f4, s4⟩ := writeBuf_bare (cs := cs) h4 s3
      have a2 := includeHeritage_bare hcs (mergeCtx c ctx)
      rw [h2] at a2
      have e : ∀ g : Gen, bareS (g.emit [.includeBytes p]) = g.emit [.includeBytes p] ∧ FineS (g.emit [.includeBytes p]) := by
        intro g
        unfold emit
        split
        · exact ⟨rfl, trivial⟩
        · exact ⟨rfl, trivial, trivial⟩
      refine ⟨?_, fineS_append.2 ⟨fineS_append.2 ⟨fineS_append.2 ⟨f1, (e _).2⟩, f3⟩, f4⟩, s1.of rfl⟩
      have hcp := hcs.assoc p
      rw [hp] at hcp
      unfold handleInclude
      rw [show (bareI I cs).find path = some p from hf, show (bareI I cs).contexts = cs from rfl]
      simp only [flushWs_of_bare, a1, bind, Except.bind, hcp, Option.map_some]
      rw [mergeCtx_bare, a2]
      cases Hc with
      | none =>
        simp only [Except.map, Option.map_none]
        erw [a3]
        simp only [a4, bareS_append, (e _).1]
        rfl
      | some hh =>
        simp only [Except.map, Option.map_some]
        erw [a3]
        simp only [a4, bareS_append, (e _).1]
        rfl

theorem letStmt_still (st : Stmt) (h1 : bareStmt st = [st]) (h2 : FineStmt st) (g : Gen) :
    bareS (g.emit [st]) = g.emit [st] ∧ FineS (g.emit [st]) := by
  unfold emit
  split
  · exact ⟨rfl, trivial⟩
  · exact ⟨by simp [bareS, h1], h2, trivial⟩

theorem writeLet_bare {g g' : Gen} {ws : Ws} {var : Target} {val : Option Expr} {code : List Stmt} (hg : StOk g)
    (h : writeLet I g ws var val = .ok (code, g')) : Step (writeLet (bareI I cs) (bareG g) noWs var val) code g' := by
  have e0 := handleWs_bare (I := I) hg ws
  have hl : (handleWs I g ws).locals = (bareG g).locals := by
    have : (bareG (handleWs I g ws)).locals = (bareG g).locals := by rw [e0]
    exact this
  unfold writeLet at h
  cases val with
  | none =>
    obtain ⟨⟨s, g1⟩, h1, h⟩ := except_bind h
    cases h
    obtain ⟨a1, f1, s1⟩ := writeBuf_bare (cs := cs) h1 (handleWs_stOk _ _)
    rw [e0] at a1
    have e := letStmt_still (.letDecl var) rfl trivial g1
    refine ⟨?_, fineS_append.2 ⟨f1, e.2⟩, s1.of rfl⟩
    unfold writeLet
    simp only [handleWs_of_bare, a1, bind, Except.bind, bareS_append, e.1]
    rfl
  | some x =>
    obtain ⟨⟨r, w⟩, h1, h⟩ := except_bind h
    obtain ⟨sh, h2, h⟩ := except_bind h
    obtain ⟨⟨s, g1⟩, h3, h⟩ := except_bind h
    cases h
    obtain ⟨a3, f3, s3⟩ := flushIf_bare (cs := cs) h3 (handleWs_stOk _ _)
    rw [e0] at a3
    rw [hl] at h1 h2
    have e : ∀ st, (st = Stmt.letInit var r ∨ ∃ n, st = .assign n r) → bareS (g1.emit [st]) = g1.emit [st] ∧ FineS (g1.emit [st]) := by
      rintro st (rfl | ⟨n, rfl⟩)
      · exact letStmt_still (.letInit var r) rfl trivial g1
      · exact letStmt_still (.assign n r) rfl trivial g1
    refine ⟨?_, fineS_append.2 ⟨f3, ?_⟩, s3.of rfl⟩
    · unfold writeLet
      simp only [handleWs_of_bare, visitExpr_bareI, h1, h2, a3, bind, Except.bind, bareS_append]
      rw [(e _ ?_).1]
      · rfl
      · split
        · split
          · exact .inl rfl
          · exact .inr ⟨_, rfl⟩
        · exact .inl rfl
    · refine (e _ ?_).2
      split
      · split
        · exact .inl rfl
        · exact .inr ⟨_, rfl⟩
      · exact .inl rfl

theorem bareLit_handles (J : GenInput) (H' : Option Heritage) (ctx' : Ctx) (level : Level) {g g' : Gen} {l : Lit}
    (h : bareG g' = bareG (g.push (.lit l.val))) :
    handleNodes rec' J H' ctx' level (bareLit l) (bareG g) = .ok ([], bareG g') := by
  unfold bareLit
  by_cases hs : squeeze l.val = []
  · rw [if_pos hs, h, bareG_push_blank g hs]
    rfl
  · rw [if_neg hs, h, bareG_push]
    have hne : (squeeze l.val).isEmpty = false := by
      cases hq : squeeze l.val with
      | nil => exact absurd hq hs
      | cons _ _ => rfl
    simp only [handleNodes, handleNode, visitLit, visitLws, bind, Except.bind]
    rw [show (bareG g).nextWs = none from rfl]
    simp only [Option.isSome_none, Bool.false_eq_true, if_false, List.isEmpty_nil, if_true, hne, pure, Except.pure, List.nil_append]
    unfold push
    show Except.ok ([], if g.pdiscard = true then _ else _) = _
    split
    · rfl
    · have : bareP [.lit l.val] = [.lit (squeeze l.val)] := by simp [bareP, bareW1, hs]
      rw [this]; rfl

theorem bare_append_handles (J : GenInput) (H' : Option Heritage) (ctx' : Ctx) (level : Level) : (a b : List Node) → {g1 g2 g3 : Gen} →
    {c1 c2 : List Stmt} → handleNodes rec' J H' ctx' level a g1 = .ok (c1, g2) → handleNodes rec' J H' ctx' level b g2 = .ok (c2, g3) →
    handleNodes rec' J H' ctx' level (a ++ b) g1 = .ok (c1 ++ c2, g3)
  | [], b, _, _, _, _, _, h1, h2 => by cases h1; exact h2
  | n :: a, b, g1, g2, g3, c1, c2, h1, h2 => by
    unfold handleNodes at h1
    obtain ⟨⟨s, g4⟩, h3, h1⟩ := except_bind h1
    obtain ⟨⟨s', g5⟩, h4, h1⟩ := except_bind h1
    cases h1
    have ih := bare_append_handles J H' ctx' level a b h4 h2
    simp only [List.cons_append, handleNodes, h3, ih, bind, Except.bind, List.append_assoc]
    rfl

theorem handleNode_single {J : GenInput} {H' : Option Heritage} {ctx' : Ctx} {level : Level} {n : Node} {g : Gen} {code : List Stmt}
    {g' : Gen} (h : Step (handleNode rec' J H' ctx' level g n) code g') : Step (handleNodes rec' J H' ctx' level [n] g) code g' := by
  refine ⟨?_, h.fine, h.st⟩
  simp only [handleNodes, h.run, bind, Except.bind]
  show Except.ok (_ ++ [], _) = _
  rw [List.append_nil]

theorem handleNode_bare (hr : RecBare rec rec') (hm : RecMark rec') (hcs : BareCs I.contexts cs)
    (hI : ∀ p c, assoc I.contexts p = some c → CtxOk SpaceOk c) (hH : ∀ h, H = some h → HOk SpaceOk h) (hc : CtxOk SpaceOk ctx)
    {level : Level} {g g' : Gen} {n : Node} {code : List Stmt} (hp : ∀ m ∈ parts n, SpaceOk m) (hg : StOk g)
    (h : handleNode rec I H ctx level g n = .ok (code, g')) :
    Step (handleNodes rec' (bareI I cs) (H.map Heritage.bare) ctx.bare level (bare n) (bareG g)) code g' := by
  have hn : SpaceOk n := hp n (by cases n <;> simp [parts])
  cases n with
  | lit l =>
    unfold handleNode at h
    obtain ⟨g1, h1, h⟩ := except_bind h
    cases h
    obtain ⟨hl, hrr⟩ := hn.text l (.lit l)
    obtain ⟨a, s⟩ := visitLit_bare hl hrr h1
    exact ⟨bareLit_handles _ _ _ _ a, trivial, s⟩
  | raw ws1 l ws2 =>
    unfold handleNode at h
    obtain ⟨g1, h1, h⟩ := except_bind h
    cases h
    obtain ⟨hl, hrr⟩ := hn.text l (.raw ws1 l ws2)
    obtain ⟨a, s⟩ := visitLit_bare hl hrr h1
    refine ⟨?_, trivial, handleWs_stOk _ _⟩
    rw [handleWs_bare s, ← handleWs_bare (I := I) hg ws1]
    exact bareLit_handles _ _ _ _ a
  | comment ws c =>
    cases h
    refine ⟨?_, trivial, handleWs_stOk _ _⟩
    rw [handleWs_bare hg]
    rfl
  | expr ws e =>
    cases h
    refine handleNode_single ⟨?_, trivial, (handleWs_stOk g ws).of (push_nextWs ..)⟩
    show Except.ok ([], writeExpr _ _ _ _) = Except.ok ([], _)
    congr 2
    unfold writeExpr
    rw [handleWs_of_bare, bareG_push, handleWs_bare hg]
    unfold push
    have hd : (handleWs I g ws).pdiscard = (bareG g).pdiscard := by
      have : (bareG (handleWs I g ws)).pdiscard = (bareG g).pdiscard := by rw [handleWs_bare hg]
      exact this
    have hq : bareP (handleWs I g ws).pend = (bareG g).pend := by
      have : (bareG (handleWs I g ws)).pend = (bareG g).pend := by rw [handleWs_bare hg]
      exact this
    rw [hd, hq]
    rfl
  | let_ ws var val => exact handleNode_single (writeLet_bare hg h)
  | if_ ws bs => exact handleNode_single (writeIf_bare hr hH hc (fun n hn => hp n (by simp [parts, hn])) hg h)
  | match_ ws1 e arms ws2 => exact handleNode_single (writeMatch_bare hr hH hc (fun n hn => hp n (by simp [parts, hn])) hg h)
  | loop ws1 v i c body ws2 els ws3 =>
    exact handleNode_single (writeLoop_bare hr hm hH hc (fun n hn => hp n (by simp [parts, hn])) (fun n hn => hp n (by simp [parts, hn])) hg h)
  | blockDef ws1 name ns ws2 => exact handleNode_single (writeBlock_bare hr hH hc hg h)
  | «include» ws path => exact handleNode_single (handleInclude_bare hr hcs hI hc hg h)
  | call ws scope name args =>
    refine handleNode_single ?_
    simp only [handleNode] at h ⊢
    split at h
    · rename_i hs; rw [if_pos hs]; exact writeBlock_bare hr hH hc hg h
    · rename_i hs; rw [if_neg hs]; exact writeCall_bare hr hcs hI hH hc hg h
  | filterBlock ws1 f ns ws2 => cases hn.block
  | «macro» ws1 nm args ns ws2 =>
    refine handleNode_single ?_
    simp only [handleNode] at h ⊢
    split at h
    · rename_i hs
      rw [if_pos hs]; cases h
      refine ⟨?_, trivial, (flushWs_stOk g ws1).of rfl⟩
      rw [prepareWs_bare, flushWs_bare hg]; rfl
    · cases h
  | import_ ws p s =>
    refine handleNode_single ?_
    simp only [handleNode] at h ⊢
    split at h
    · rename_i hs
      rw [if_pos hs]; cases h
      refine ⟨?_, trivial, handleWs_stOk _ _⟩
      rw [handleWs_bare hg]; rfl
    · cases h
  | extends_ p =>
    refine handleNode_single ?_
    simp only [handleNode] at h ⊢
    split at h
    · rename_i hs
      rw [if_pos hs]; cases h
      exact ⟨rfl, trivial, hg⟩
    · cases h
  | break_ ws =>
    refine handleNode_single ?_
    unfold handleNode at h ⊢
    obtain ⟨⟨s, g1⟩, h1, h⟩ := except_bind h
    cases h
    obtain ⟨a1, f1, s1⟩ := writeBuf_bare (cs := cs) h1 (handleWs_stOk _ _)
    rw [handleWs_bare hg] at a1
    have e := letStmt_still .brk rfl trivial g'
    refine ⟨?_, fineS_append.2 ⟨f1, e.2⟩, s1⟩
    simp only [handleWs_of_bare, a1, bind, Except.bind, bareS_append, e.1]
    rfl
  | continue_ ws =>
    refine handleNode_single ?_
    unfold handleNode at h ⊢
    obtain ⟨⟨s, g1⟩, h1, h⟩ := except_bind h
    cases h
    obtain ⟨a1, f1, s1⟩ := writeBuf_bare (cs := cs) h1 (handleWs_stOk _ _)
    rw [handleWs_bare hg] at a1
    have e := letStmt_still .cont rfl trivial g'
    refine ⟨?_, fineS_append.2 ⟨f1, e.2⟩, s1⟩
    simp only [handleWs_of_bare, a1, bind, Except.bind, bareS_append, e.1]
    rfl

theorem handleNodes_bare (hr : RecBare rec rec') (hm : RecMark rec') (hcs : BareCs I.contexts cs)
    (hI : ∀ p c, assoc I.contexts p = some c → CtxOk SpaceOk c) (hH : ∀ h, H = some h → HOk SpaceOk h) (hc : CtxOk SpaceOk ctx)
    {level : Level} : (ns : List Node) → {g g' : Gen} → {code : List Stmt} → Every SpaceOk ns → StOk g →
    handleNodes rec I H ctx level ns g = .ok (code, g') →
    Step (handleNodes rec' (bareI I cs) (H.map Heritage.bare) ctx.bare level (bareL ns) (bareG g)) code g'
  | [], _, _, _, _, hg, h => by cases h; exact ⟨rfl, trivial, hg⟩
  | n :: ns, g, g', code, hp, hg, h => by
    unfold handleNodes at h
    obtain ⟨⟨s, g1⟩, h1, h⟩ := except_bind h
    obtain ⟨⟨s', g2⟩, h2, h⟩ := except_bind h
    cases h
    obtain ⟨a1, f1, s1⟩ := handleNode_bare (cs := cs) hr hm hcs hI hH hc hp.head hg h1
    obtain ⟨a2, f2, s2⟩ := handleNodes_bare hr hm hcs hI hH hc ns hp.tail s1 h2
    refine ⟨?_, fineS_append.2 ⟨f1, f2⟩, s2⟩
    rw [bareS_append]
    exact bare_append_handles _ _ _ _ _ _ a1 a2

end

theorem handle_mark (J : GenInput) (fuel : Nat) : RecMark (handle J fuel) := by
  intro H ctx nodes level g
  cases fuel with
  | zero => rfl
  | succ fuel =>
    have : ∀ ns, handleNodes (handle J fuel) J H ctx level (.lit ⟨[], [], []⟩ :: ns) (bareG g)
        = handleNodes (handle J fuel) J H ctx level ns (bareG g) := by
      intro ns
      show (do let (s', g) ← handleNodes (handle J fuel) J H ctx level ns (bareG g); return ([] ++ s', g)) = _
      cases handleNodes (handle J fuel) J H ctx level ns (bareG g) <;> rfl
    simp only [handle, this]

theorem handle_bare {I : GenInput} {cs : List (Str × Ctx)} (hcs : BareCs I.contexts cs)
    (hI : ∀ p c, assoc I.contexts p = some c → CtxOk SpaceOk c) : (fuel : Nat) → RecBare (handle I fuel) (handle (bareI I cs) fuel)
  | 0 => by intro _ _ _ _ _ _ _ h; cases h
  | fuel + 1 => by
    intro H ctx nodes level g code g' h hH hc hp hg
    unfold handle at h
    obtain ⟨⟨s, g1⟩, h1, h⟩ := except_bind h
    obtain ⟨⟨s', g2⟩, h2, h⟩ := except_bind h
    cases h
    obtain ⟨a1, f1, s1⟩ := handleNodes_bare (cs := cs) (handle_bare hcs hI fuel) (handle_mark _ fuel) hcs hI hH hc nodes hp hg h1
    have a2 : Step (handleEnd (bareI I cs) level (bareG g1)) s' g' := by
      unfold handleEnd at h2 ⊢
      split at h2
      · rename_i hl
        rw [if_pos hl]
        have e : bareG (if g1.nextWs.isSome then flushWs I g1 ⟨some (WH.toWsp g1.skipWs), none⟩ else g1) = bareG g1
            ∧ StOk (if g1.nextWs.isSome then flushWs I g1 ⟨some (WH.toWsp g1.skipWs), none⟩ else g1) := by
          split
          · exact ⟨flushWs_bare s1 _, flushWs_stOk _ _⟩
          · exact ⟨rfl, s1⟩
        have := writeBuf_bare (cs := cs) h2 e.2
        rw [e.1] at this
        exact this
      · rename_i hl
        rw [if_neg hl]
        cases h2
        exact ⟨rfl, trivial, s1⟩
    refine ⟨?_, fineS_append.2 ⟨f1, a2.fine⟩, a2.st⟩
    unfold handle
    simp only [a1, a2.run, bind, Except.bind, bareS_append]
    rfl

end Askama
