import Verif.Model.Input

/-! The entry of the macro: the `template` attribute, the configuration file, and what `derive_template` returns
(askama_derive/src/lib.rs, input.rs, config.rs, generator.rs). What `syn` makes of the tokens is given: an attribute is
its path and the parsed list of its arguments. -/

namespace Askama

/-- `syn::Lit`: a string literal with its value, or another literal. -/
inductive AttrLit where
  | str (s : Str)
  | other

/-- `syn::Expr` as the value of an argument: a literal, a literal in an invisible group, another expression in such a
group, or another expression. -/
inductive AttrValue where
  | lit (l : AttrLit)
  | groupLit (l : AttrLit)
  | groupOther
  | other

/-- `syn::Meta`: `path = value`, or one of the other forms (`path` and `path(…)`). A path is the list of its names. -/
inductive AttrItem where
  | nameValue (path : List Str) (value : AttrValue)
  | other

/-- `syn::Attribute`: its path, and what `parse_args_with(Punctuated::<Meta, Token![,]>::parse_terminated)` gives; `none`
is a parse error. -/
structure Attr where
  path : List Str
  args : Option (List AttrItem)

/-- `Print` (askama_derive/src/input.rs:382-388). -/
inductive Print where
  | all
  | ast
  | code
  | none
  deriving DecidableEq

/-- `FromStr for Print` (askama_derive/src/input.rs:390-402). -/
def Print.parse (s : Str) : Except GErr Print :=
  if s = c!"all" then .ok .all
  else if s = c!"ast" then .ok .ast
  else if s = c!"code" then .ok .code
  else if s = c!"none" then .ok .none
  else .error .err

/-- All fields of `TemplateArgs` (askama_derive/src/input.rs:211-221); the model `TemplateArgs` has those that
`TemplateInput::new` reads. -/
structure DeriveArgs where
  source : Option Source
  block : Option Str
  print : Print
  escaping : Option Str
  ext : Option Str
  syn : Option Str
  config : Option Str
  whitespace : Option Str

/-- `TemplateArgs::default()` (askama_derive/src/input.rs:211, 404-408). -/
def DeriveArgs.default : DeriveArgs := ⟨none, none, .none, none, none, none, none, none⟩

/-- The fields read by `TemplateInput::new` (askama_derive/src/input.rs:36-44). -/
def DeriveArgs.toArgs (a : DeriveArgs) : TemplateArgs := ⟨a.source, a.block, a.escaping, a.ext, a.syn⟩

/-- `TemplateArgs::fallback` (askama_derive/src/input.rs:344-350). -/
def DeriveArgs.fallback : DeriveArgs := { DeriveArgs.default with source := some (.source []), ext := some c!"txt" }

/-- The loop over the attributes (askama_derive/src/input.rs:227-238); the second argument is the variable
`template_args`. -/
def findTemplateAttr : List Attr → Option (List AttrItem) → Except GErr (Option (List AttrItem))
  | [], found => .ok found
  | a :: as, found =>
    if a.path != [c!"template"] then findTemplateAttr as found
    else
      match a.args with
      | some items => if found.isNone then findTemplateAttr as (some items) else .error .err
      | none => .error .err

/-- The literal of an argument (askama_derive/src/input.rs:265-274). -/
def AttrValue.literal : AttrValue → Except GErr AttrLit
  | .lit l => .ok l
  | .groupLit l => .ok l
  | .groupOther => .error .err
  | .other => .error .err

/-- `if let syn::Lit::Str(s) = value.lit { … } else { return Err(…) }` (askama_derive/src/input.rs:276-339). -/
def AttrLit.string : AttrLit → Except GErr Str
  | .str s => .ok s
  | .other => .error .err

/-- The chain of comparisons with the known keys (askama_derive/src/input.rs:276-338). -/
def DeriveArgs.set (a : DeriveArgs) (key : Str) (l : AttrLit) : Except GErr DeriveArgs :=
  if key = c!"path" then do
    let s ← l.string
    if a.source.isSome then .error .err else return { a with source := some (.path s) }
  else if key = c!"source" then do
    let s ← l.string
    if a.source.isSome then .error .err else return { a with source := some (.source s) }
  else if key = c!"block" then do
    let s ← l.string
    return { a with block := some s }
  else if key = c!"print" then do
    let s ← l.string
    let p ← Print.parse s
    return { a with print := p }
  else if key = c!"escape" then do
    let s ← l.string
    return { a with escaping := some s }
  else if key = c!"ext" then do
    let s ← l.string
    return { a with ext := some s }
  else if key = c!"syntax" then do
    let s ← l.string
    return { a with syn := some s }
  else if key = c!"config" then do
    let s ← l.string
    return { a with config := some s }
  else if key = c!"whitespace" then do
    let s ← l.string
    return { a with whitespace := some s }
  else .error .err

/-- One turn of the loop over the arguments (askama_derive/src/input.rs:247-339). A path of several names reaches the
`unreachable!` of line 261. -/
def readItem (a : DeriveArgs) : AttrItem → Except GErr DeriveArgs
  | .other => .error .err
  | .nameValue path value =>
    match path with
    | [key] => do
      let l ← value.literal
      a.set key l
    | _ => .error .panic

/-- The loop over the arguments (askama_derive/src/input.rs:243-340). -/
def readItems : List AttrItem → DeriveArgs → Except GErr DeriveArgs
  | [], a => .ok a
  | i :: is, a => do
    let a ← readItem a i
    readItems is a

/-- `TemplateArgs::new` (askama_derive/src/input.rs:224-342). -/
def DeriveArgs.new (attrs : List Attr) : Except GErr DeriveArgs := do
  match ← findTemplateAttr attrs none with
  | none => .error .err
  | some items => readItems items .default

/-- What the macro reads from the outside, besides the template files: the directory of the crate
(`CARGO_MANIFEST_DIR`), the parser of the configuration text, `char::is_whitespace`, the name of the crate, and
`canonicalize` of existing paths. The configuration file is one of the files. -/
structure Project where
  env : DeriveEnv
  root : Str
  toml : Str → Option RawConfig
  isWs : Char → Bool
  krate : Str
  canon : Str → Option Str

/-- `CONFIG_FILE_NAME` (askama_derive/src/config.rs:304). -/
def configFileName : Str := c!"askama.toml"

/-- `read_config_file` (askama_derive/src/config.rs:264-281). -/
def readConfigFile (P : Project) (config : Option Str) : Except GErr Str :=
  let filename := Path.join P.root (config.getD configFileName)
  if P.env.files.exist filename then
    match P.env.files.read filename with
    | some s => .ok s
    | none => .error .err
  else if config.isSome then .error .err
  else .ok []

/-- `RawConfig::default()` (askama_derive/src/config.rs:190). -/
def RawConfig.default : RawConfig := ⟨none, none, none⟩

/-- The choice of the raw configuration in `Config::new` (askama_derive/src/config.rs:34-38). -/
def rawConfig (P : Project) (s : Str) : Except GErr RawConfig :=
  if s.isEmpty then .ok .default
  else
    match P.toml s with
    | some r => .ok r
    | none => .error .err

/-- `Config::new` (askama_derive/src/config.rs:24-108) from the text. -/
def configFromText (P : Project) (s : Str) (ws : Option Str) : Except GErr Config := do
  let raw ← rawConfig P s
  Config.new P.isWs P.krate P.root raw ws

/-- `path_is_valid` (askama_derive/src/generator.rs:93-96): the path is not the made-up one of an inline template. -/
def TemplateInput.isFile (t : TemplateInput) (p : Str) : Bool :=
  match t.source with
  | .path _ => true
  | .source _ => p != t.path

/-- The `include_bytes!` lines of `impl_template` (askama_derive/src/generator.rs:91-109), as the list of their paths. -/
def includeLines (canon : Str → Option Str) (t : TemplateInput) : List Str → Except GErr (List Str)
  | [] => .ok []
  | p :: ps => do
    let rest ← includeLines canon t ps
    if t.isFile p then
      match canon p with
      | some q => return q :: rest
      | none => .error .panic
    else return rest

/-- The parts of the generated implementation that depend on the template: the included files, the body of
`render_into`, and the constants `EXTENSION` and `MIME_TYPE` (askama_derive/src/generator.rs:86-138). `SIZE_HINT` and the
implementations of the other traits are left out. -/
structure Impl where
  includes : List Str
  body : List Stmt
  extension : Option Str
  mime : Str

/-- `Generator::build` (askama_derive/src/generator.rs:67-83). The code writes the `include_bytes!` lines before the
body, so that a panic in them comes before the errors of the body. -/
def buildImpl (P : Project) (c : Config) (t : TemplateInput) (contexts : List (Str × Ctx)) (h : Option Heritage)
    (ctx : Ctx) (fuel : Nat) : Except GErr Impl := do
  let includes ← includeLines P.canon t (contexts.map (·.1))
  let body ← generate (genInput P.env c t contexts) fuel h ctx
  return ⟨includes, body, t.extension, t.mime⟩

/-- `build_template` (askama_derive/src/lib.rs:55-94), without the printing. -/
def buildFromAttrs (P : Project) (ident : Str) (attrs : List Attr) (fuel : Nat) : Except GErr Impl := do
  let args ← DeriveArgs.new attrs
  let toml ← readConfigFile P args.config
  let c ← configFromText P toml args.whitespace
  let t ← TemplateInput.new P.env.files P.env.guess c ident args.toArgs
  let src ← mainSource P.env t
  let templates ← findUsedTemplates (P.env.loader c t.syn) fuel t.path src
  let contexts ← makeContexts (P.env.loader c t.syn).find (dedupKeys templates [])
  match assoc contexts t.path with
  | none => .error .panic
  | some ctx =>
    let h ← heritageOf contexts t.block ctx
    buildImpl P c t contexts h ctx fuel

/-- `Context::default()` (askama_derive/src/heritage.rs:41). -/
def Ctx.default : Ctx := { nodes := [], extends_ := none, blocks := [], macros := [], imports := [] }

/-- `build_skeleton` (askama_derive/src/lib.rs:39-46). -/
def buildSkeleton (P : Project) (ident : Str) (fuel : Nat) : Except GErr Impl := do
  let c ← configFromText P [] none
  let t ← TemplateInput.new P.env.files P.env.guess c ident DeriveArgs.fallback.toArgs
  buildImpl P c t [(t.path, .default)] none .default fuel

/-- What the compiler gets from the macro: an implementation, or a `compile_error!` and perhaps a stand-in. -/
inductive Derived where
  | impl (i : Impl)
  | compileError (standIn : Option Impl)

/-- `derive_template` (askama_derive/src/lib.rs:24-37); that the generated text is a sequence of tokens
(`source.parse().unwrap()`) is not modelled. -/
def derive (P : Project) (ident : Str) (attrs : List Attr) (fuel : Nat) : Except GErr Derived :=
  match buildFromAttrs P ident attrs fuel with
  | .ok i => .ok (.impl i)
  | .error .err =>
    match buildSkeleton P ident fuel with
    | .ok i => .ok (.compileError (some i))
    | .error .err => .ok (.compileError none)
    | .error e => .error e
  | .error e => .error e

end Askama
