import Verif.Model.Config

/-!
# From the template attribute to generated code

Models `askama_derive/src/input.rs`, `askama_derive/src/heritage.rs` (`Context::new`) and `build_template` in
`askama_derive/src/lib.rs`. The loops over a stack of node lists get a bound on their number of rounds, since Lean asks
for a reason to terminate; `Verif.Lemmas.Input` shows that the bounds used are never reached where the code terminates.
-/

namespace Askama

/-! ## The stack of node lists -/

/-- The nodes of a branch (askama_parser/src/node.rs:364-368). -/
def Cond.nodes : Cond → List Node
  | .mk _ _ nodes => nodes

/-- The nodes of an arm (askama_parser/src/node.rs:309-313). -/
def When.nodes : When → List Node
  | .mk _ _ nodes => nodes

/-- The lists of nodes that `Context::new` pushes for a node (askama_derive/src/heritage.rs:81-98), the last one
pushed first. -/
def ctxNested : Node → List (List Node)
  | .blockDef _ _ nodes _ => [nodes]
  | .if_ _ branches => (branches.map Cond.nodes).reverse
  | .loop _ _ _ _ body _ elseNodes _ => [elseNodes, body]
  | .match_ _ _ arms _ => (arms.map When.nodes).reverse
  | _ => []

/-- The lists of nodes that `find_used_templates` pushes for a node (askama_derive/src/input.rs:157-187), the last one
pushed first. -/
def useNested (top : Bool) : Node → List (List Node)
  | .macro _ _ _ nodes _ => if top then [nodes] else []
  | .filterBlock _ _ nodes _ => [nodes]
  | n => ctxNested n

mutual
/-- The number of node lists in a node. -/
def Node.lists : Node → Nat
  | .if_ _ branches => Cond.listsL branches
  | .match_ _ _ arms _ => When.listsL arms
  | .loop _ _ _ _ body _ elseNodes _ => Node.listsL body + Node.listsL elseNodes + 2
  | .blockDef _ _ nodes _ => Node.listsL nodes + 1
  | .macro _ _ _ nodes _ => Node.listsL nodes + 1
  | .filterBlock _ _ nodes _ => Node.listsL nodes + 1
  | .lit _ | .comment _ _ | .expr _ _ | .call _ _ _ _ | .let_ _ _ _ | .extends_ _ | .include _ _ | .import_ _ _ _
  | .raw _ _ _ | .break_ _ | .continue_ _ => 0
/-- The number of node lists inside a list of nodes. -/
def Node.listsL : List Node → Nat
  | [] => 0
  | n :: ns => Node.lists n + Node.listsL ns
/-- The number of node lists in branches. -/
def Cond.listsL : List Cond → Nat
  | [] => 0
  | .mk _ _ nodes :: cs => Node.listsL nodes + 1 + Cond.listsL cs
/-- The number of node lists in arms. -/
def When.listsL : List When → Nat
  | [] => 0
  | .mk _ _ nodes :: ws => Node.listsL nodes + 1 + When.listsL ws
end

/-! ## `Context::new` -/

/-- The variables of `Context::new` (askama_derive/src/heritage.rs:54-59). The head of `nested` is the list that is
popped next; the `HashMap`s are association lists without duplicate keys, with the latest insertion in front. -/
structure CtxSt where
  extends_ : Option Str
  blocks : List (Str × BlockDefn)
  macros : List (Str × MacroDef)
  imports : List (Str × Str)
  nested : List (List Node)

/-- `HashMap::insert`: an older entry of the key is replaced. -/
def mapInsert {α : Type} (m : List (Str × α)) (k : Str) (v : α) : List (Str × α) := (k, v) :: m.filter fun e => e.1 ≠ k

/-- One node in `Context::new` (askama_derive/src/heritage.rs:62-101). `find` is
`config.find_template(_, Some(path))`. -/
def ctxNode (find : Str → Option Str) (top : Bool) (st : CtxSt) (n : Node) : Except GErr CtxSt :=
  match n with
  | .extends_ p =>
    if top then
      match st.extends_ with
      | some _ => .error .err
      | none =>
        match find p with
        | some q => .ok { st with extends_ := some q }
        | none => .error .err
    else .error .err
  | .macro ws1 name args nodes ws2 =>
    if top then .ok { st with macros := mapInsert st.macros name ⟨ws1, args, nodes, ws2⟩ } else .error .err
  | .import_ _ p scope =>
    if top then
      match find p with
      | some q => .ok { st with imports := mapInsert st.imports scope q }
      | none => .error .err
    else .error .err
  | .blockDef ws1 name nodes ws2 =>
    .ok { st with blocks := mapInsert st.blocks name ⟨ws1, nodes, ws2⟩, nested := [nodes] ++ st.nested }
  | n => .ok { st with nested := ctxNested n ++ st.nested }

/-- The nodes of one list. -/
def ctxNodes (find : Str → Option Str) (top : Bool) : List Node → CtxSt → Except GErr CtxSt
  | [], st => .ok st
  | n :: ns, st => do
    let st ← ctxNode find top st n
    ctxNodes find top ns st

/-- The `while` loop of `Context::new` (askama_derive/src/heritage.rs:61-104). -/
def ctxLoop (find : Str → Option Str) : Nat → Bool → CtxSt → Except GErr CtxSt
  | fuel, top, st =>
    match st.nested with
    | [] => .ok st
    | ns :: rest =>
      match fuel with
      | 0 => .error .diverge
      | fuel + 1 => do
        let st ← ctxNodes find top ns { st with nested := rest }
        ctxLoop find fuel false st

/-- `Context::new` (askama_derive/src/heritage.rs:49-113). -/
def contextNew (find : Str → Option Str) (nodes : List Node) : Except GErr Ctx := do
  let st ← ctxLoop find (Node.listsL nodes + 1) true ⟨none, [], [], [], [nodes]⟩
  return { nodes, extends_ := st.extends_, blocks := st.blocks, macros := st.macros, imports := st.imports }

/-! ## `find_used_templates` -/

/-- What the collection of templates works with: `find from path` is `config.find_template(path, Some(from))`, `source`
is `get_template_source`, and `parse` the parser. -/
structure Loader where
  find : Str → Str → Option Str
  source : Str → Option Str
  parse : Str → Option (List Node)

/-- The variables of `find_used_templates` (askama_derive/src/input.rs:109-122). The head of `check` is popped next. -/
structure UseSt where
  map : List (Str × List Node)
  check : List (Str × Str)
  deps : List (Str × Str)

/-- `add_to_check` (askama_derive/src/input.rs:131-140). -/
def addToCheck (ld : Loader) (st : UseSt) (path : Str) : Except GErr UseSt :=
  if (assoc st.map path).isSome then .ok st
  else
    match ld.source path with
    | none => .error .err
    | some src => .ok { st with map := (path, []) :: st.map, check := (path, src) :: st.check }

/-- One node in `find_used_templates` (askama_derive/src/input.rs:142-199), without the lists to visit later. -/
def useNode (ld : Loader) (path : Str) (top : Bool) (st : UseSt) (n : Node) : Except GErr UseSt :=
  match n with
  | .extends_ p =>
    if top then
      match ld.find path p with
      | none => .error .err
      | some q =>
        if path = q then .error .err
        else if st.deps.contains (path, q) then .error .err
        else addToCheck ld { st with deps := st.deps ++ [(path, q)] } q
    else .ok st
  | .import_ _ p _ =>
    if top then
      match ld.find path p with
      | none => .error .err
      | some q => addToCheck ld st q
    else .ok st
  | .include _ p =>
    match ld.find path p with
    | none => .error .err
    | some q => addToCheck ld st q
  | _ => .ok st

/-- The nodes of one list; the second result are the lists to visit, the last one pushed first. -/
def useNodes (ld : Loader) (path : Str) (top : Bool) :
    List Node → UseSt → List (List Node) → Except GErr (UseSt × List (List Node))
  | [], st, nested => .ok (st, nested)
  | n :: ns, st, nested => do
    let st ← useNode ld path top st n
    useNodes ld path top ns st (useNested top n ++ nested)

/-- The inner `while` loop (askama_derive/src/input.rs:128-201). -/
def useLoop (ld : Loader) (path : Str) : Nat → Bool → List (List Node) → UseSt → Except GErr UseSt
  | fuel, top, nested, st =>
    match nested with
    | [] => .ok st
    | ns :: rest =>
      match fuel with
      | 0 => .error .diverge
      | fuel + 1 => do
        let (st, nested) ← useNodes ld path top ns st rest
        useLoop ld path fuel false nested st

/-- One template of `check` (askama_derive/src/input.rs:124-202). -/
def useTemplate (ld : Loader) (path src : Str) (st : UseSt) : Except GErr UseSt :=
  match ld.parse src with
  | none => .error .err
  | some nodes => do
    let st ← useLoop ld path (Node.listsL nodes + 1) true [nodes] st
    return { st with map := (path, nodes) :: st.map }

/-- The outer `while` loop (askama_derive/src/input.rs:123-203). -/
def checkLoop (ld : Loader) : Nat → UseSt → Except GErr (List (Str × List Node))
  | fuel, st =>
    match st.check with
    | [] => .ok st.map
    | (path, src) :: rest =>
      match fuel with
      | 0 => .error .diverge
      | fuel + 1 => do
        let st ← useTemplate ld path src { st with check := rest }
        checkLoop ld fuel st

/-- `find_used_templates` (askama_derive/src/input.rs:109-204) for a template with this path and source. -/
def findUsedTemplates (ld : Loader) (fuel : Nat) (path src : Str) : Except GErr (List (Str × List Node)) :=
  checkLoop ld fuel ⟨[], [(path, src)], []⟩

/-! ## `TemplateInput::new` and `build_template` -/

/-- `Source` (askama_derive/src/input.rs:376-380). -/
inductive Source where
  | path (p : Str)
  | source (s : Str)

/-- `TemplateArgs` (askama_derive/src/input.rs:211-221), without `config`, `print` and `whitespace`; a derive without
source or path is a panic. -/
structure TemplateArgs where
  source : Option Source
  block : Option Str
  escaping : Option Str
  ext : Option Str
  syn : Option Str

/-- `TemplateInput` (askama_derive/src/input.rs:14-25). -/
structure TemplateInput where
  syn : Syntax
  source : Source
  block : Option Str
  escaper : Str
  ext : Option Str
  mime : Str
  path : Str

/-- `TemplateInput::extension` (askama_derive/src/input.rs:207-209). -/
def TemplateInput.extension (t : TemplateInput) : Option Str := extDefaultToPath t.ext t.path

/-- The search for an escaper (askama_derive/src/input.rs:77-87). -/
def selectEscaper : List (List Str × Str) → Str → Option Str
  | [], _ => none
  | (exts, path) :: rest, escaping => if exts.contains escaping then some path else selectEscaper rest escaping

/-- The path of the template (askama_derive/src/input.rs:46-60). -/
def templatePath (fs : Files) (c : Config) (ident : Str) (ext : Option Str) : Source → Except GErr Str
  | .path p =>
    match c.findTemplate fs p none with
    | some q => .ok q
    | none => .error .err
  | .source _ =>
    match ext with
    | some ext => .ok (ident ++ ['.'] ++ ext)
    | none => .error .err

/-- The syntax of the template (askama_derive/src/input.rs:62-71). -/
def templateSyntax (c : Config) : Option Str → Except GErr Syntax
  | none =>
    match assoc c.syntaxes c.defaultSyntax with
    | some s => .ok s
    | none => .error .panic
  | some name =>
    match assoc c.syntaxes name with
    | some s => .ok s
    | none => .error .err

/-- `TemplateInput::new` (askama_derive/src/input.rs:31-107); `ident` is the name of the type. -/
def TemplateInput.new (fs : Files) (guess : Str → Option Str) (c : Config) (ident : Str) (args : TemplateArgs) :
    Except GErr TemplateInput :=
  match args.source with
  | none => .error .panic
  | some source => do
    let path ← templatePath fs c ident args.ext source
    let syn ← templateSyntax c args.syn
    let escaping := args.escaping.getD ((Path.extension path).getD [])
    match selectEscaper c.escapers escaping with
    | none => .error .err
    | some escaper =>
      return { syn, source, block := args.block, escaper, ext := args.ext,
               mime := extensionToMime guess ((extDefaultToPath args.ext path).getD c!"txt"), path }

/-- Contexts of all templates (askama_derive/src/lib.rs:64-67). -/
def makeContexts (find : Str → Str → Option Str) : List (Str × List Node) → Except GErr (List (Str × Ctx))
  | [] => .ok []
  | (path, nodes) :: rest => do
    let c ← contextNew (find path) nodes
    let cs ← makeContexts find rest
    return (path, c) :: cs

/-- The entries of an association list that count. -/
def dedupKeys {α : Type} : List (Str × α) → List Str → List (Str × α)
  | [], _ => []
  | (k, v) :: rest, seen => if seen.contains k then dedupKeys rest seen else (k, v) :: dedupKeys rest (k :: seen)

/-- What is read from the outside when a template is compiled. -/
structure DeriveEnv where
  files : Files
  isLower : Char → Bool
  guess : Str → Option Str
  json : Bool

/-- The parser as used by `find_used_templates`: a parse error is a compile error. -/
def parseNodes (isLower : Char → Bool) (syn : Syntax) (src : Str) : Option (List Node) :=
  match parseTemplate ⟨syn, isLower⟩ src with
  | .ok nodes => some nodes
  | _ => none

/-- The `Loader` of a configuration. -/
def DeriveEnv.loader (env : DeriveEnv) (c : Config) (syn : Syntax) : Loader where
  find := fun frm p => c.findTemplate env.files p (some frm)
  source := getTemplateSource env.files
  parse := parseNodes env.isLower syn

/-- The heritage of a template, if it has blocks or extends another (askama_derive/src/lib.rs:70-82). -/
def heritageOf (contexts : List (Str × Ctx)) (block : Option Str) (ctx : Ctx) : Except GErr (Option Heritage) :=
  if !ctx.blocks.isEmpty || ctx.extends_.isSome then do
    let h ← Gen.heritageNew contexts ctx
    match block with
    | some b => if (assoc h.blocks b).isNone then .error .err else return some h
    | none => return some h
  else .ok none

/-- What the generator reads from the template's input. -/
def genInput (env : DeriveEnv) (c : Config) (t : TemplateInput) (contexts : List (Str × Ctx)) : GenInput :=
  { ws := c.whitespace, escaper := t.escaper, escapers := c.escapers, json := env.json, block := t.block,
    find := fun p => c.findTemplate env.files p (some t.path), contexts }

/-- The text of the template itself (askama_derive/src/input.rs:113-119). -/
def mainSource (env : DeriveEnv) (t : TemplateInput) : Except GErr Str :=
  match t.source with
  | .source s => .ok s
  | .path _ =>
    match getTemplateSource env.files t.path with
    | some s => .ok s
    | none => .error .err

/-- `build_template` (askama_derive/src/lib.rs:55-94) from the parsed attributes and configuration to the body of
`render_into`. The bound `fuel` is on the number of templates and on the depth of nested calls in the generator. -/
def buildTemplate (env : DeriveEnv) (c : Config) (ident : Str) (args : TemplateArgs) (fuel : Nat) :
    Except GErr (List Stmt) := do
  let t ← TemplateInput.new env.files env.guess c ident args
  let src ← mainSource env t
  let templates ← findUsedTemplates (env.loader c t.syn) fuel t.path src
  let contexts ← makeContexts (env.loader c t.syn).find (dedupKeys templates [])
  match assoc contexts t.path with
  | none => .error .panic
  | some ctx =>
    let h ← heritageOf contexts t.block ctx
    generate (genInput env c t contexts) fuel h ctx

end Askama
