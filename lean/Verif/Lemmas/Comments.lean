import Verif.Spec.Comments

/-! What a comment says does not matter for the generated code. -/

namespace Askama

open Spec Gen

/-- A context without the text of the comments. -/
def Ctx.quiet (c : Ctx) : Ctx :=
  { c with nodes := silenceAll c.nodes
           blocks := c.blocks.map fun e => (e.1, { e.2 with nodes := silenceAll e.2.nodes })
           macros := c.macros.map fun e => (e.1, { e.2 with nodes := silenceAll e.2.nodes }) }

/-- A definition of a block without the text of the comments. -/
def BlockDefn.quiet (d : BlockDefn) : BlockDefn := { d with nodes := silenceAll d.nodes }

/-- A macro without the text of the comments. -/
def MacroDef.quiet (d : MacroDef) : MacroDef := { d with nodes := silenceAll d.nodes }

/-- Applying a function to the values of an association list. -/
def onSnd {α β : Type} (f : α → β) (l : List (Str × α)) : List (Str × β) := l.map fun e => (e.1, f e.2)

theorem assoc_onSnd {α β : Type} (f : α → β) (l : List (Str × α)) (k : Str) : assoc (onSnd f l) k = (assoc l k).map f := by
  unfold assoc onSnd
  rw [List.find?_map, Option.map_map, Option.map_map]
  rfl

theorem onSnd_append {α β : Type} (f : α → β) (l m : List (Str × α)) : onSnd f (l ++ m) = onSnd f l ++ onSnd f m :=
  List.map_append

theorem onSnd_isEmpty {α β : Type} (f : α → β) (l : List (Str × α)) : (onSnd f l).isEmpty = l.isEmpty := by
  cases l <;> rfl

theorem quiet_blocks (c : Ctx) : c.quiet.blocks = onSnd BlockDefn.quiet c.blocks := rfl

theorem quiet_macros (c : Ctx) : c.quiet.macros = onSnd MacroDef.quiet c.macros := rfl

/-- The block map of a heritage without the text of the comments. -/
def quietDefs (m : List (Str × List (Ctx × BlockDefn))) : List (Str × List (Ctx × BlockDefn)) :=
  onSnd (List.map fun e => (e.1.quiet, e.2.quiet)) m

/-- A heritage without the text of the comments. -/
def Heritage.quiet (h : Heritage) : Heritage := ⟨h.root.quiet, quietDefs h.blocks⟩

/-- The input of the generator without the text of the comments. -/
def GenInput.quiet (I : GenInput) : GenInput := { I with contexts := onSnd Ctx.quiet I.contexts }

/-! ## Functions that read no nodes -/

section
variable (I : GenInput)

theorem visitExpr_uncommented (L : Locals) (e : Expr) : visitExpr I.quiet L e = visitExpr I L e := by
  delta visitExpr; rfl

theorem formatLoop_uncommented (L : Locals) : (ws : List Writable) → (st : FmtSt) →
    formatLoop I.quiet L ws st = formatLoop I L ws st
  | [], _ => rfl
  | .lit s :: ws, st => by simp only [formatLoop, formatLoop_uncommented L ws]
  | .expr e :: ws, st => by
    simp only [formatLoop, visitExpr_uncommented, formatLoop_uncommented L ws]; rfl
  | .generated r w :: ws, st => by
    simp only [formatLoop, formatLoop_uncommented L ws]; rfl

theorem prepareFormat_uncommented (g : Gen) : prepareFormat I.quiet g = prepareFormat I g := by
  unfold prepareFormat; rw [formatLoop_uncommented]

theorem writeBuf_uncommented (g : Gen) : writeBuf I.quiet g = writeBuf I g := by
  unfold writeBuf; rw [prepareFormat_uncommented]

theorem flushIf_uncommented (c : Bool) (g : Gen) : flushIf I.quiet c g = flushIf I c g := by
  unfold flushIf; rw [writeBuf_uncommented]

theorem flushWs_uncommented (g : Gen) (ws : Ws) : flushWs I.quiet g ws = flushWs I g ws := rfl

theorem prepareWs_uncommented (g : Gen) (ws : Ws) : prepareWs I.quiet g ws = prepareWs I g ws := rfl

theorem handleWs_uncommented (g : Gen) (ws : Ws) : handleWs I.quiet g ws = handleWs I g ws := rfl

theorem writeExpr_uncommented (g : Gen) (ws : Ws) (e : Expr) : writeExpr I.quiet g ws e = writeExpr I g ws e := rfl

theorem writeLet_uncommented (g : Gen) (ws : Ws) (var : Target) (val : Option Expr) :
    writeLet I.quiet g ws var val = writeLet I g ws var val := by
  unfold writeLet
  simp only [handleWs_uncommented, writeBuf_uncommented, visitExpr_uncommented, flushIf_uncommented]

theorem branchCond_uncommented (g : Gen) (c : Option CondTest) : branchCond I.quiet g c = branchCond I g c := by
  unfold branchCond
  simp only [visitExpr_uncommented]

theorem loopFilter_uncommented (g : Gen) (var : Target) (c : Option Expr) :
    loopFilter I.quiet g var c = loopFilter I g var c := by
  unfold loopFilter
  simp only [visitExpr_uncommented]

theorem passArg_uncommented (L : Locals) (e : Expr) : passArg I.quiet L e = passArg I L e := by
  unfold passArg
  simp only [visitExpr_uncommented]

theorem bindParams_uncommented (named : List (Str × Expr)) (args : List Expr) : (ps : List Str) → (k : Nat) → (b : Bool) →
    (L : Locals) → bindParams I.quiet named args ps k b L = bindParams I named args ps k b L
  | [], _, _, _ => rfl
  | p :: ps, k, b, L => by
    simp only [bindParams, passArg_uncommented, bindParams_uncommented named args ps]

/-! ## Macros, blocks and inheritance -/

theorem findMacro_uncommented (ctx : Ctx) (scope : Option Str) (name : Str) :
    findMacro I.quiet ctx.quiet scope name = (findMacro I ctx scope name).map fun d => (d.1.quiet, d.2.quiet) := by
  unfold findMacro
  cases scope with
  | none =>
    simp only [quiet_macros, assoc_onSnd]
    cases assoc ctx.macros name <;> rfl
  | some s =>
    have hi : ctx.quiet.imports = ctx.imports := rfl
    have hc : I.quiet.contexts = onSnd Ctx.quiet I.contexts := rfl
    dsimp only
    rw [hi, hc]
    cases assoc ctx.imports s with
    | none => rfl
    | some path =>
      dsimp only
      rw [assoc_onSnd]
      cases assoc I.contexts path with
      | none => rfl
      | some mctx =>
        dsimp only [Option.map]
        rw [quiet_macros, assoc_onSnd]
        cases assoc mctx.macros name <;> rfl

theorem mergeCtx_uncommented (child ctx : Ctx) : mergeCtx child.quiet ctx.quiet = (mergeCtx child ctx).quiet := by
  unfold mergeCtx
  simp only [Ctx.quiet, List.map_append]

theorem heritageChain_uncommented (contexts : List (Str × Ctx)) : (fuel : Nat) → (ctx : Ctx) →
    heritageChain (onSnd Ctx.quiet contexts) fuel ctx.quiet = (heritageChain contexts fuel ctx).map (List.map Ctx.quiet)
  | 0, _ => rfl
  | fuel + 1, ctx => by
    unfold heritageChain
    show (match ctx.extends_ with | none => _ | some path => _) = _
    cases ctx.extends_ with
    | none => rfl
    | some path =>
      dsimp only
      rw [assoc_onSnd]
      cases assoc contexts path with
      | none => rfl
      | some parent =>
        dsimp only [Option.map]
        rw [heritageChain_uncommented contexts fuel parent]
        cases heritageChain contexts fuel parent <;> rfl

theorem addBlock_uncommented (ctx : Ctx) (m : List (Str × List (Ctx × BlockDefn))) (nd : Str × BlockDefn) :
    (match assoc (quietDefs m) nd.1 with
      | none => quietDefs m ++ [(nd.1, [(ctx.quiet, nd.2.quiet)])]
      | some _ => (quietDefs m).map fun e => if e.1 = nd.1 then (e.1, e.2 ++ [(ctx.quiet, nd.2.quiet)]) else e) =
    quietDefs (match assoc m nd.1 with
      | none => m ++ [(nd.1, [(ctx, nd.2)])]
      | some _ => m.map fun e => if e.1 = nd.1 then (e.1, e.2 ++ [(ctx, nd.2)]) else e) := by
  unfold quietDefs
  rw [assoc_onSnd]
  cases assoc m nd.1 with
  | none => simp only [Option.map]; rw [onSnd_append]; rfl
  | some d =>
    simp only [Option.map, onSnd, List.map_map]
    refine List.map_congr_left fun e _ => ?_
    simp only [Function.comp]
    split <;> simp

theorem addBlocks_uncommented (ctx : Ctx) (m : List (Str × List (Ctx × BlockDefn))) :
    addBlocks ctx.quiet (quietDefs m) = quietDefs (addBlocks ctx m) := by
  unfold addBlocks
  rw [quiet_blocks]
  unfold onSnd
  rw [List.foldl_map]
  generalize ctx.blocks = bs
  induction bs generalizing m with
  | nil => rfl
  | cons b bs ih =>
    simp only [List.foldl_cons]
    exact (congrArg (fun x => List.foldl _ x bs) (addBlock_uncommented ctx m b)).trans (ih _)

theorem foldBlocks_uncommented : (chain : List Ctx) → (m : List (Str × List (Ctx × BlockDefn))) →
    (chain.map Ctx.quiet).foldl (fun m c => addBlocks c m) (quietDefs m) =
      quietDefs (chain.foldl (fun m c => addBlocks c m) m)
  | [], _ => rfl
  | c :: chain, m => by
    simp only [List.map_cons, List.foldl_cons]
    rw [addBlocks_uncommented, foldBlocks_uncommented chain]

theorem heritageNew_uncommented (contexts : List (Str × Ctx)) (ctx : Ctx) :
    heritageNew (onSnd Ctx.quiet contexts) ctx.quiet = (heritageNew contexts ctx).map Heritage.quiet := by
  unfold heritageNew
  have : (onSnd Ctx.quiet contexts).length = contexts.length := List.length_map ..
  rw [this, heritageChain_uncommented]
  cases heritageChain contexts (contexts.length + 2) ctx with
  | error e => rfl
  | ok chain =>
    show Except.ok _ = Except.ok _
    congr 1
    show Heritage.mk _ _ = Heritage.mk _ _
    congr 1
    · rw [List.getLastD_eq_getLast?, List.getLastD_eq_getLast?, List.getLast?_map]
      cases chain.getLast? <;> rfl
    · exact foldBlocks_uncommented chain []

theorem includeHeritage_uncommented (ctx : Ctx) :
    includeHeritage I.quiet ctx.quiet = (includeHeritage I ctx).map (Option.map Heritage.quiet) := by
  unfold includeHeritage
  have h1 : ctx.quiet.blocks.isEmpty = ctx.blocks.isEmpty := by rw [quiet_blocks, onSnd_isEmpty]
  have h2 : ctx.quiet.extends_ = ctx.extends_ := rfl
  rw [h1, h2]
  split
  · show (heritageNew (onSnd Ctx.quiet I.contexts) ctx.quiet).map some = _
    rw [heritageNew_uncommented]
    cases heritageNew I.contexts ctx <;> rfl
  · rfl

end

/-! ## Nodes -/

/-- Two handlers, of which the second gets everything without the text of the comments. -/
def Uncommented (rec rec' : Handler) : Prop :=
  ∀ H ctx nodes level g, rec' (H.map Heritage.quiet) ctx.quiet (silenceAll nodes) level g = rec H ctx nodes level g

section
variable {rec rec' : Handler} (hr : Uncommented rec rec') (I : GenInput) (H : Option Heritage) (ctx : Ctx)
include hr

theorem ifBranches_uncommented (wsEnd : Ws) : (first : Bool) → (bs : List Cond) → (g : Gen) →
    ifBranches rec' I.quiet (H.map Heritage.quiet) ctx.quiet wsEnd first (silenceConds bs) g =
      ifBranches rec I H ctx wsEnd first bs g
  | _, [], _ => rfl
  | first, .mk w c nodes :: rest, g => by
    cases rest with
    | nil =>
      simp only [silenceConds, ifBranches, branchCond_uncommented, writeBuf_uncommented, handleWs_uncommented, hr _ _ _ _ _]
    | cons b rest =>
      obtain ⟨w', c', nodes'⟩ := b
      have ih := ifBranches_uncommented wsEnd false (.mk w' c' nodes' :: rest)
      simp only [silenceConds] at ih ⊢
      unfold ifBranches
      simp only [branchCond_uncommented, writeBuf_uncommented, handleWs_uncommented, hr _ _ _ _ _, ih]

theorem writeIf_uncommented (g : Gen) (ws : Ws) (bs : List Cond) :
    writeIf rec' I.quiet (H.map Heritage.quiet) ctx.quiet g ws (silenceConds bs) = writeIf rec I H ctx g ws bs := by
  cases bs with
  | nil => rfl
  | cons b rest =>
    obtain ⟨w', c', nodes'⟩ := b
    have ih := ifBranches_uncommented hr I H ctx ws true (.mk w' c' nodes' :: rest)
    simp only [silenceConds] at ih ⊢
    unfold writeIf
    simp only [writeBuf_uncommented, handleWs_uncommented, ih]

theorem matchArms_uncommented (ws2 : Ws) : (arms : List When) → (g : Gen) →
    matchArms rec' I.quiet (H.map Heritage.quiet) ctx.quiet ws2 (silenceWhens arms) g =
      matchArms rec I H ctx ws2 arms g
  | [], _ => rfl
  | .mk w t nodes :: rest, g => by
    have ih := matchArms_uncommented ws2 rest
    simp only [silenceWhens]
    unfold matchArms
    simp only [writeBuf_uncommented, handleWs_uncommented, hr _ _ _ _ _, ih]
    cases rest with
    | nil => rfl
    | cons b rest => obtain ⟨w', c', nodes'⟩ := b; rfl

theorem writeMatch_uncommented (g : Gen) (ws1 : Ws) (e : Expr) (arms : List When) (ws2 : Ws) :
    writeMatch rec' I.quiet (H.map Heritage.quiet) ctx.quiet g ws1 e (silenceWhens arms) ws2 =
      writeMatch rec I H ctx g ws1 e arms ws2 := by
  cases arms with
  | nil => rfl
  | cons b rest =>
    obtain ⟨w', c', nodes'⟩ := b
    have ih := matchArms_uncommented hr I H ctx ws2 (.mk w' c' nodes' :: rest)
    simp only [silenceWhens] at ih ⊢
    unfold writeMatch
    simp only [writeBuf_uncommented, handleWs_uncommented, flushWs_uncommented, visitExpr_uncommented, ih]

omit hr in
theorem silenceAll_isEmpty (ns : List Node) : (silenceAll ns).isEmpty = ns.isEmpty := by
  cases ns <;> rfl

theorem writeLoop_uncommented (g : Gen) (ws1 : Ws) (var : Target) (iter : Expr) (cond : Option Expr) (body : List Node)
    (ws2 : Ws) (els : List Node) (ws3 : Ws) :
    writeLoop rec' I.quiet (H.map Heritage.quiet) ctx.quiet g ws1 var iter cond (silenceAll body) ws2 (silenceAll els) ws3 =
      writeLoop rec I H ctx g ws1 var iter cond body ws2 els ws3 := by
  unfold writeLoop
  simp only [writeBuf_uncommented, handleWs_uncommented, visitExpr_uncommented, loopFilter_uncommented, silenceAll_isEmpty, hr _ _ _ _ _]

theorem writeCall_uncommented (g : Gen) (ws : Ws) (scope : Option Str) (name : Str) (args : List Expr) :
    writeCall rec' I.quiet (H.map Heritage.quiet) ctx.quiet g ws scope name args =
      writeCall rec I H ctx g ws scope name args := by
  unfold writeCall
  rw [findMacro_uncommented]
  cases findMacro I ctx scope name with
  | error e => rfl
  | ok d =>
    obtain ⟨d, own⟩ := d
    simp only [Except.map, bind, Except.bind, MacroDef.quiet, writeBuf_uncommented, flushWs_uncommented, prepareWs_uncommented,
      bindParams_uncommented, hr _ _ _ _ _]

theorem writeFilterBlock_uncommented (g : Gen) (ws1 : Ws) (f : FilterApp) (nodes : List Node) (ws2 : Ws) :
    writeFilterBlock rec' I.quiet (H.map Heritage.quiet) ctx.quiet g ws1 f (silenceAll nodes) ws2 =
      writeFilterBlock rec I H ctx g ws1 f nodes ws2 := by
  unfold writeFilterBlock
  simp only [prepareFormat_uncommented, flushWs_uncommented, prepareWs_uncommented, visitExpr_uncommented, hr _ _ _ _ _]

theorem writeBlock_uncommented (g : Gen) (name : Option Str) (outer : Ws) :
    writeBlock rec' I.quiet (H.map Heritage.quiet) ctx.quiet g name outer = writeBlock rec I H ctx g name outer := by
  unfold writeBlock
  simp only [flushWs_uncommented, writeBuf_uncommented]
  cases currentBlock name (flushWs I g outer).superBlock with
  | error e => rfl
  | ok cur =>
    simp only [bind, Except.bind]
    cases writeBuf I (flushWs I g outer) with
    | error e => rfl
    | ok x =>
      cases H with
      | none => rfl
      | some h =>
        dsimp only [Option.map, Heritage.quiet, quietDefs]
        rw [assoc_onSnd]
        cases assoc h.blocks cur.1 with
        | none => rfl
        | some defs =>
          dsimp only [Option.map]
          rw [List.getElem?_map]
          cases defs[cur.2]? with
          | none => rfl
          | some d =>
            obtain ⟨cctx, d⟩ := d
            have hr' := hr (some h) (mergeCtx cctx ctx) d.nodes .block
            dsimp only [Option.map]
            rw [mergeCtx_uncommented]
            have hn : d.quiet.nodes = silenceAll d.nodes := rfl
            rw [hn]
            have hh : ∀ g, rec' (some ⟨h.root.quiet, onSnd (List.map fun e => (e.1.quiet, e.2.quiet)) h.blocks⟩)
                (mergeCtx cctx ctx).quiet (silenceAll d.nodes) .block g = rec (some h) (mergeCtx cctx ctx) d.nodes .block g :=
              fun g => hr' g
            rw [hh]
            simp only [flushIf_uncommented, flushWs_uncommented, prepareWs_uncommented]
            rfl

theorem handleInclude_uncommented (g : Gen) (ws : Ws) (path : Str) :
    handleInclude rec' I.quiet ctx.quiet g ws path = handleInclude rec I ctx g ws path := by
  unfold handleInclude
  simp only [flushWs_uncommented, writeBuf_uncommented]
  cases writeBuf I (flushWs I g ws) with
  | error e => rfl
  | ok x =>
    simp only [bind, Except.bind]
    show (match I.find path with | none => _ | some p => _) = _
    cases I.find path with
    | none => rfl
    | some p =>
      dsimp only [GenInput.quiet]
      rw [assoc_onSnd]
      cases assoc I.contexts p with
      | none => rfl
      | some c =>
        dsimp only [Option.map]
        rw [mergeCtx_uncommented]
        have := includeHeritage_uncommented I (mergeCtx c ctx)
        simp only [GenInput.quiet] at this
        rw [this]
        cases includeHeritage I (mergeCtx c ctx) with
        | error e => rfl
        | ok H =>
          have hr' := hr H
          cases H with
          | none =>
            simp only [Except.map, Option.map] at hr' ⊢
            have hn : (mergeCtx c ctx).quiet.nodes = silenceAll (mergeCtx c ctx).nodes := rfl
            rw [hn, hr']
            rfl
          | some h =>
            simp only [Except.map, Option.map] at hr' ⊢
            have hn : h.quiet.root.nodes = silenceAll h.root.nodes := rfl
            have hn' : h.quiet.root = h.root.quiet := rfl
            rw [hn, hn', hr']
            rfl

theorem handleNode_uncommented (level : Level) (g : Gen) (n : Node) :
    handleNode rec' I.quiet (H.map Heritage.quiet) ctx.quiet level g (silence n) = handleNode rec I H ctx level g n := by
  cases n with
  | if_ => simp only [silence, handleNode]; exact writeIf_uncommented hr ..
  | match_ => simp only [silence, handleNode]; exact writeMatch_uncommented hr ..
  | loop => simp only [silence, handleNode]; exact writeLoop_uncommented hr ..
  | blockDef => simp only [silence, handleNode]; exact writeBlock_uncommented hr ..
  | «include» => simp only [silence, handleNode]; exact handleInclude_uncommented hr ..
  | call =>
    simp only [silence, handleNode]
    rw [writeBlock_uncommented hr, writeCall_uncommented hr]
  | filterBlock => simp only [silence, handleNode]; exact writeFilterBlock_uncommented hr ..
  | let_ => simp only [silence, handleNode]; exact writeLet_uncommented ..
  | break_ => simp only [silence, handleNode, writeBuf_uncommented, handleWs_uncommented]
  | continue_ => simp only [silence, handleNode, writeBuf_uncommented, handleWs_uncommented]
  | _ => rfl

theorem handleNodes_uncommented (level : Level) : (ns : List Node) → (g : Gen) →
    handleNodes rec' I.quiet (H.map Heritage.quiet) ctx.quiet level (silenceAll ns) g = handleNodes rec I H ctx level ns g
  | [], _ => rfl
  | n :: ns, g => by
    have ih := handleNodes_uncommented level ns
    simp only [silenceAll, handleNodes, handleNode_uncommented hr, ih]

end

theorem handle_uncommented (I : GenInput) : (fuel : Nat) → Uncommented (handle I fuel) (handle I.quiet fuel)
  | 0 => fun _ _ _ _ _ => rfl
  | fuel + 1 => fun H ctx nodes level g => by
    have he : ∀ g, handleEnd I.quiet level g = handleEnd I level g := by
      intro g; unfold handleEnd; simp only [flushWs_uncommented, writeBuf_uncommented]
    simp only [handle, handleNodes_uncommented (handle_uncommented I fuel), he]

theorem generate_uncommented (I : GenInput) (fuel : Nat) (H : Option Heritage) (ctx : Ctx) :
    generate I.quiet fuel (H.map Heritage.quiet) ctx.quiet = generate I fuel H ctx := by
  unfold generate
  have hn : ∀ c : Ctx, c.quiet.nodes = silenceAll c.nodes := fun _ => rfl
  have hq := handle_uncommented I fuel H
  cases H with
  | none =>
    simp only [Option.map] at hq ⊢
    simp only [hn, hq]
    rfl
  | some h =>
    have hr : h.quiet.root = h.root.quiet := rfl
    simp only [Option.map] at hq ⊢
    simp only [hr, hn, hq]
    rfl

end Askama

namespace Askama

open Spec Gen

/-! ## Contexts -/

theorem silenceAll_eq : (ns : List Node) → silenceAll ns = ns.map silence
  | [] => rfl
  | n :: ns => by rw [silenceAll, silenceAll_eq ns]; rfl

mutual
theorem lists_silence : (n : Node) → (silence n).lists = n.lists
  | .if_ _ bs => by simp only [silence, Node.lists, listsL_silenceConds bs]
  | .match_ _ _ arms _ => by simp only [silence, Node.lists, listsL_silenceWhens arms]
  | .loop _ _ _ _ body _ els _ => by simp only [silence, Node.lists, listsL_silence body, listsL_silence els]
  | .blockDef _ _ nodes _ => by simp only [silence, Node.lists, listsL_silence nodes]
  | .macro _ _ _ nodes _ => by simp only [silence, Node.lists, listsL_silence nodes]
  | .filterBlock _ _ nodes _ => by simp only [silence, Node.lists, listsL_silence nodes]
  | .lit _ | .comment _ _ | .expr _ _ | .call _ _ _ _ | .let_ _ _ _ | .extends_ _ | .include _ _ | .import_ _ _ _
  | .raw _ _ _ | .break_ _ | .continue_ _ => by simp only [silence, Node.lists]
theorem listsL_silence : (ns : List Node) → Node.listsL (silenceAll ns) = Node.listsL ns
  | [] => rfl
  | n :: ns => by simp only [silenceAll, Node.listsL, lists_silence n, listsL_silence ns]
theorem listsL_silenceConds : (ns : List Cond) → Cond.listsL (silenceConds ns) = Cond.listsL ns
  | [] => rfl
  | .mk _ _ nodes :: ns => by simp only [silenceConds, Cond.listsL, listsL_silence nodes, listsL_silenceConds ns]
theorem listsL_silenceWhens : (ns : List When) → When.listsL (silenceWhens ns) = When.listsL ns
  | [] => rfl
  | .mk _ _ nodes :: ns => by simp only [silenceWhens, When.listsL, listsL_silence nodes, listsL_silenceWhens ns]
end

theorem silenceConds_nodes : (bs : List Cond) → (silenceConds bs).map Cond.nodes = (bs.map Cond.nodes).map silenceAll
  | [] => rfl
  | .mk _ _ nodes :: bs => by simp [silenceConds, Cond.nodes, silenceConds_nodes bs]

theorem silenceWhens_nodes : (bs : List When) → (silenceWhens bs).map When.nodes = (bs.map When.nodes).map silenceAll
  | [] => rfl
  | .mk _ _ nodes :: bs => by simp [silenceWhens, When.nodes, silenceWhens_nodes bs]

theorem ctxNested_silence (n : Node) : ctxNested (silence n) = (ctxNested n).map silenceAll := by
  cases n with
  | if_ ws bs => simp [silence, ctxNested, silenceConds_nodes]
  | match_ ws1 e arms ws2 => simp [silence, ctxNested, silenceWhens_nodes]
  | _ => simp [silence, ctxNested]

theorem useNested_silence (top : Bool) (n : Node) : useNested top (silence n) = (useNested top n).map silenceAll := by
  cases n with
  | «macro» => cases top <;> rfl
  | filterBlock => rfl
  | if_ ws bs => exact ctxNested_silence (.if_ ws bs)
  | match_ ws1 e arms ws2 => exact ctxNested_silence (.match_ ws1 e arms ws2)
  | _ => rfl

/-- The state of `Context::new` without the text of the comments. -/
def CtxSt.quiet (st : CtxSt) : CtxSt :=
  { st with blocks := onSnd BlockDefn.quiet st.blocks, macros := onSnd MacroDef.quiet st.macros
            nested := st.nested.map silenceAll }

theorem mapInsert_onSnd {α β : Type} (f : α → β) (m : List (Str × α)) (k : Str) (v : α) :
    mapInsert (onSnd f m) k (f v) = onSnd f (mapInsert m k v) := by
  unfold mapInsert onSnd
  rw [List.map_cons, List.filter_map]
  rfl

theorem ctxNode_uncommented (find : Str → Option Str) (top : Bool) (st : CtxSt) (n : Node) :
    ctxNode find top st.quiet (silence n) = (ctxNode find top st n).map CtxSt.quiet := by
  cases n with
  | extends_ p =>
    simp only [silence, ctxNode]
    cases top with
    | false => rfl
    | true =>
      have h : st.quiet.extends_ = st.extends_ := rfl
      rw [h]
      cases st.extends_ with
      | some _ => rfl
      | none => cases find p <;> rfl
  | «macro» ws1 name args nodes ws2 =>
    simp only [silence, ctxNode]
    cases top with
    | false => rfl
    | true =>
      have := mapInsert_onSnd MacroDef.quiet st.macros name ⟨ws1, args, nodes, ws2⟩
      show Except.ok { st.quiet with macros := mapInsert (onSnd MacroDef.quiet st.macros) name (MacroDef.quiet ⟨ws1, args, nodes, ws2⟩) } = _
      rw [this]; rfl
  | import_ ws p scope =>
    simp only [silence, ctxNode]
    cases top with
    | false => rfl
    | true => cases find p <;> rfl
  | blockDef ws1 name nodes ws2 =>
    simp only [silence, ctxNode]
    have e := mapInsert_onSnd BlockDefn.quiet st.blocks name ⟨ws1, nodes, ws2⟩
    exact congrArg (fun b => Except.ok ({ st.quiet with blocks := b, nested := [silenceAll nodes] ++ st.quiet.nested } : CtxSt)) e
  | if_ ws bs =>
    show Except.ok { st.quiet with nested := ctxNested (silence (.if_ ws bs)) ++ st.quiet.nested } = _
    rw [ctxNested_silence]
    simp [ctxNode, CtxSt.quiet, Except.map]
  | match_ ws1 e arms ws2 =>
    show Except.ok { st.quiet with nested := ctxNested (silence (.match_ ws1 e arms ws2)) ++ st.quiet.nested } = _
    rw [ctxNested_silence]
    simp [ctxNode, CtxSt.quiet, Except.map]
  | _ => rfl

theorem ctxNodes_uncommented (find : Str → Option Str) (top : Bool) : (ns : List Node) → (st : CtxSt) →
    ctxNodes find top (silenceAll ns) st.quiet = (ctxNodes find top ns st).map CtxSt.quiet
  | [], _ => rfl
  | n :: ns, st => by
    simp only [silenceAll, ctxNodes]
    rw [ctxNode_uncommented]
    cases ctxNode find top st n with
    | error e => rfl
    | ok st => exact ctxNodes_uncommented find top ns st

theorem ctxLoop_uncommented (find : Str → Option Str) : (fuel : Nat) → (top : Bool) → (st : CtxSt) →
    ctxLoop find fuel top st.quiet = (ctxLoop find fuel top st).map CtxSt.quiet
  | fuel, top, st => by
    unfold ctxLoop
    have h : st.quiet.nested = st.nested.map silenceAll := rfl
    rw [h]
    cases hn : st.nested with
    | nil => rfl
    | cons ns rest =>
      cases fuel with
      | zero => rfl
      | succ fuel =>
        have h2 := ctxNodes_uncommented find top ns { st with nested := rest }
        show (ctxNodes find top (silenceAll ns) (CtxSt.quiet { st with nested := rest })).bind
          (fun st => ctxLoop find fuel false st) = ((ctxNodes find top ns { st with nested := rest }).bind
            (fun st => ctxLoop find fuel false st)).map CtxSt.quiet
        rw [h2]
        cases ctxNodes find top ns { st with nested := rest } with
        | error e => rfl
        | ok st => exact ctxLoop_uncommented find fuel false st

theorem contextNew_uncommented (find : Str → Option Str) (nodes : List Node) :
    contextNew find (silenceAll nodes) = (contextNew find nodes).map Ctx.quiet := by
  unfold contextNew
  rw [listsL_silence]
  have h := ctxLoop_uncommented find (Node.listsL nodes + 1) true ⟨none, [], [], [], [nodes]⟩
  have h2 : (⟨none, [], [], [], [silenceAll nodes]⟩ : CtxSt) = CtxSt.quiet ⟨none, [], [], [], [nodes]⟩ := rfl
  rw [h2, h]
  cases ctxLoop find (Node.listsL nodes + 1) true ⟨none, [], [], [], [nodes]⟩ <;> rfl

theorem makeContexts_uncommented (find : Str → Str → Option Str) : (l : List (Str × List Node)) →
    makeContexts find (onSnd silenceAll l) = (makeContexts find l).map (onSnd Ctx.quiet)
  | [] => rfl
  | (p, ns) :: rest => by
    show makeContexts find ((p, silenceAll ns) :: onSnd silenceAll rest) = _
    simp only [makeContexts]
    rw [contextNew_uncommented, makeContexts_uncommented find rest]
    cases contextNew (find p) ns with
    | error e => rfl
    | ok c => cases makeContexts find rest <;> rfl

theorem dedupKeys_onSnd {α β : Type} (f : α → β) : (l : List (Str × α)) → (seen : List Str) →
    dedupKeys (onSnd f l) seen = onSnd f (dedupKeys l seen)
  | [], _ => rfl
  | (k, v) :: rest, seen => by
    show dedupKeys ((k, f v) :: onSnd f rest) seen = _
    simp only [dedupKeys]
    rw [dedupKeys_onSnd f rest, dedupKeys_onSnd f rest]
    split <;> rfl

/-! ## Collecting the templates -/

/-- What matters of the state of `find_used_templates`. -/
def UseSt.gist (parse : Str → Option (List Node)) (st : UseSt) :
    List (Str × List Node) × List (Str × Option (List Node)) × List (Str × Str) :=
  (onSnd silenceAll st.map, onSnd (fun src => (parse src).map silenceAll) st.check, st.deps)

/-- Two loaders that find the same templates, except for what the comments say. -/
structure SameLoader (ld ld' : Loader) : Prop where
  find : ld'.find = ld.find
  source : ∀ p, (ld'.source p).map (fun s => (ld'.parse s).map silenceAll) =
    (ld.source p).map (fun s => (ld.parse s).map silenceAll)

section
variable {ld ld' : Loader} (h : SameLoader ld ld')
include h

theorem addToCheck_same {st st' : UseSt} (hs : st'.gist ld'.parse = st.gist ld.parse) (p : Str) :
    (addToCheck ld' st' p).map (UseSt.gist ld'.parse) = (addToCheck ld st p).map (UseSt.gist ld.parse) := by
  unfold UseSt.gist at hs
  simp only [Prod.mk.injEq] at hs
  obtain ⟨h1, h2, h3⟩ := hs
  have h4 : (assoc st'.map p).isSome = (assoc st.map p).isSome := by
    have h := congrArg (fun m => (assoc m p).isSome) h1
    simpa only [assoc_onSnd, Option.isSome_map] using h
  unfold addToCheck
  rw [h4]
  split
  · simp [Except.map, UseSt.gist, h1, h2, h3]
  · have h5 := h.source p
    cases hb : ld.source p with
    | none =>
      rw [hb] at h5
      cases ha : ld'.source p with
      | none => rfl
      | some a => rw [ha] at h5; cases h5
    | some b =>
      rw [hb] at h5
      cases ha : ld'.source p with
      | none => rw [ha] at h5; cases h5
      | some a =>
        rw [ha] at h5
        simp only [Option.map_some, Option.some.injEq] at h5
        simp only [Except.map, UseSt.gist, Except.ok.injEq, Prod.mk.injEq]
        refine ⟨congrArg ((p, []) :: ·) h1, ?_, h3⟩
        unfold onSnd at h2 ⊢
        rw [List.map_cons, List.map_cons, h2]
        dsimp only
        rw [h5]

theorem useNode_same (path : Str) (top : Bool) {st st' : UseSt} (hs : st'.gist ld'.parse = st.gist ld.parse) (n : Node) :
    (useNode ld' path top st' (silence n)).map (UseSt.gist ld'.parse) =
      (useNode ld path top st n).map (UseSt.gist ld.parse) := by
  have hd : st'.deps = st.deps := congrArg (·.2.2) hs
  cases n with
  | extends_ p =>
    simp only [silence, useNode, h.find, hd]
    cases top with
    | false => simp [Except.map, hs]
    | true =>
      simp only [if_true]
      cases ld.find path p with
      | none => rfl
      | some q =>
        dsimp only
        split
        · rfl
        · split
          · rfl
          · refine addToCheck_same h ?_ q
            have e := hs
            unfold UseSt.gist at e ⊢
            simp only [Prod.mk.injEq] at e ⊢
            exact ⟨e.1, e.2.1, trivial⟩
  | import_ ws p scope =>
    simp only [silence, useNode, h.find]
    cases top with
    | false => simp [Except.map, hs]
    | true =>
      simp only [if_true]
      cases ld.find path p with
      | none => rfl
      | some q => exact addToCheck_same h hs q
  | «include» ws p =>
    simp only [silence, useNode, h.find]
    cases ld.find path p with
    | none => rfl
    | some q => exact addToCheck_same h hs q
  | _ => exact congrArg Except.ok hs

theorem useNodes_same (path : Str) (top : Bool) : (ns : List Node) → {st st' : UseSt} →
    (hs : st'.gist ld'.parse = st.gist ld.parse) → (nested : List (List Node)) →
    (useNodes ld' path top (silenceAll ns) st' (nested.map silenceAll)).map (fun r => (r.1.gist ld'.parse, r.2)) =
      (useNodes ld path top ns st nested).map (fun r => (r.1.gist ld.parse, r.2.map silenceAll))
  | [], st, st', hs, nested => by simp [silenceAll, useNodes, Except.map, hs]
  | n :: ns, st, st', hs, nested => by
    simp only [silenceAll, useNodes]
    have h1 := useNode_same h path top hs n
    cases ha : useNode ld' path top st' (silence n) with
    | error e =>
      rw [ha] at h1
      cases hb : useNode ld path top st n with
      | error e' => rw [hb] at h1; cases h1; rfl
      | ok y => rw [hb] at h1; cases h1
    | ok x =>
      rw [ha] at h1
      cases hb : useNode ld path top st n with
      | error e' => rw [hb] at h1; cases h1
      | ok y =>
        rw [hb] at h1
        have ih := useNodes_same path top ns (Except.ok.inj h1) (useNested top n ++ nested)
        rw [List.map_append, ← useNested_silence] at ih
        exact ih

theorem useLoop_same (path : Str) : (fuel : Nat) → (top : Bool) → (nested : List (List Node)) → {st st' : UseSt} →
    (hs : st'.gist ld'.parse = st.gist ld.parse) →
    (useLoop ld' path fuel top (nested.map silenceAll) st').map (UseSt.gist ld'.parse) =
      (useLoop ld path fuel top nested st).map (UseSt.gist ld.parse)
  | fuel, top, [], st, st', hs => by
    cases fuel <;> simp [useLoop, Except.map, hs]
  | 0, top, ns :: rest, st, st', hs => by simp [useLoop, Except.map]
  | fuel + 1, top, ns :: rest, st, st', hs => by
    show ((useNodes ld' path top (silenceAll ns) st' (rest.map silenceAll)).bind
        (fun r => useLoop ld' path fuel false r.2 r.1)).map _ =
      ((useNodes ld path top ns st rest).bind (fun r => useLoop ld path fuel false r.2 r.1)).map _
    have h1 := useNodes_same h path top ns hs rest
    cases ha : useNodes ld' path top (silenceAll ns) st' (rest.map silenceAll) with
    | error e =>
      rw [ha] at h1
      cases hb : useNodes ld path top ns st rest with
      | error e' => rw [hb] at h1; cases h1; rfl
      | ok y => rw [hb] at h1; cases h1
    | ok x =>
      rw [ha] at h1
      cases hb : useNodes ld path top ns st rest with
      | error e' => rw [hb] at h1; cases h1
      | ok y =>
        rw [hb] at h1
        obtain ⟨x1, x2⟩ := x
        obtain ⟨y1, y2⟩ := y
        simp only [Except.map, Except.ok.injEq, Prod.mk.injEq] at h1
        obtain ⟨h1, rfl⟩ := h1
        exact useLoop_same path fuel false y2 h1

theorem useTemplate_same (path : Str) {src src' : Str} (hsrc : (ld'.parse src').map silenceAll = (ld.parse src).map silenceAll)
    {st st' : UseSt} (hs : st'.gist ld'.parse = st.gist ld.parse) :
    (useTemplate ld' path src' st').map (UseSt.gist ld'.parse) = (useTemplate ld path src st).map (UseSt.gist ld.parse) := by
  unfold useTemplate
  cases ha : ld'.parse src' with
  | none =>
    rw [ha] at hsrc
    cases hb : ld.parse src with
    | none => rfl
    | some b => rw [hb] at hsrc; cases hsrc
  | some a =>
    rw [ha] at hsrc
    cases hb : ld.parse src with
    | none => rw [hb] at hsrc; cases hsrc
    | some b =>
      rw [hb] at hsrc
      simp only [Option.map_some, Option.some.injEq] at hsrc
      -- both are the same loop over the silent nodes
      have hl : Node.listsL a = Node.listsL b := by rw [← listsL_silence a, hsrc, listsL_silence]
      have e1 := useLoop_same h path (Node.listsL b + 1) true [b] hs
      have hld : SameLoader ld' ld' := ⟨rfl, fun _ => rfl⟩
      have e2 := useLoop_same (ld := ld') hld path (Node.listsL b + 1) true [a] (st := st') (st' := st') rfl
      simp only [List.map_cons, List.map_nil, hsrc] at e1 e2
      have e := e2.symm.trans e1
      dsimp only
      rw [hl]
      cases hx : useLoop ld' path (Node.listsL b + 1) true [a] st' with
      | error e' =>
        rw [hx] at e
        cases hy : useLoop ld path (Node.listsL b + 1) true [b] st with
        | error e' => rw [hy] at e; cases e; rfl
        | ok y => rw [hy] at e; cases e
      | ok x =>
        rw [hx] at e
        cases hy : useLoop ld path (Node.listsL b + 1) true [b] st with
        | error e' => rw [hy] at e; cases e
        | ok y =>
          rw [hy] at e
          have e := Except.ok.inj e
          unfold UseSt.gist at e
          simp only [Prod.mk.injEq] at e
          show Except.ok (UseSt.gist ld'.parse _) = Except.ok (UseSt.gist ld.parse _)
          simp only [UseSt.gist, Except.ok.injEq, Prod.mk.injEq]
          refine ⟨?_, e.2.1, e.2.2⟩
          show (path, silenceAll a) :: onSnd silenceAll x.map = (path, silenceAll b) :: onSnd silenceAll y.map
          rw [hsrc, e.1]

theorem checkLoop_same : (fuel : Nat) → {st st' : UseSt} → (hs : st'.gist ld'.parse = st.gist ld.parse) →
    (checkLoop ld' fuel st').map (onSnd silenceAll) = (checkLoop ld fuel st).map (onSnd silenceAll)
  | fuel, st, st', hs => by
    have hs0 := hs
    unfold UseSt.gist at hs
    simp only [Prod.mk.injEq] at hs
    obtain ⟨h1, h2, h3⟩ := hs
    unfold checkLoop
    cases ha : st.check with
    | nil =>
      rw [ha] at h2
      have : st'.check = [] := List.map_eq_nil_iff.mp h2
      rw [this]
      exact congrArg Except.ok h1
    | cons e rest =>
      rw [ha] at h2
      obtain ⟨p, src⟩ := e
      cases hb : st'.check with
      | nil => rw [hb] at h2; cases h2
      | cons e' rest' =>
        rw [hb] at h2
        obtain ⟨p', src'⟩ := e'
        unfold onSnd at h2
        rw [List.map_cons, List.map_cons] at h2
        simp only [List.cons.injEq, Prod.mk.injEq] at h2
        obtain ⟨⟨rfl, hsrc⟩, h2⟩ := h2
        cases fuel with
        | zero => rfl
        | succ fuel =>
          have hg : (UseSt.gist ld'.parse { st' with check := rest' }) = (UseSt.gist ld.parse { st with check := rest }) := by
            unfold UseSt.gist
            simp only [Prod.mk.injEq]
            exact ⟨h1, h2, h3⟩
          have e := useTemplate_same h p' hsrc hg
          dsimp only
          cases hx : useTemplate ld' p' src' { st' with check := rest' } with
          | error e' =>
            rw [hx] at e
            cases hy : useTemplate ld p' src { st with check := rest } with
            | error e' => rw [hy] at e; cases e; rfl
            | ok y => rw [hy] at e; cases e
          | ok x =>
            rw [hx] at e
            cases hy : useTemplate ld p' src { st with check := rest } with
            | error e' => rw [hy] at e; cases e
            | ok y =>
              rw [hy] at e
              exact checkLoop_same fuel (Except.ok.inj e)

theorem findUsedTemplates_same (fuel : Nat) (path : Str) {src src' : Str}
    (hsrc : (ld'.parse src').map silenceAll = (ld.parse src).map silenceAll) :
    (findUsedTemplates ld' fuel path src').map (onSnd silenceAll) =
      (findUsedTemplates ld fuel path src).map (onSnd silenceAll) := by
  unfold findUsedTemplates
  refine checkLoop_same h fuel ?_
  unfold UseSt.gist
  simp only [Prod.mk.injEq]
  refine ⟨trivial, ?_, trivial⟩
  unfold onSnd
  rw [List.map_cons, List.map_cons]
  dsimp only
  rw [hsrc]
  rfl

end

end Askama
