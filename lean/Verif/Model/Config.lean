import Verif.Model.Gen
import Verif.Model.ParseNode

/-!
# Configuration and template files

Models `askama_derive/src/config.rs` and the file related parts of `askama_derive/src/input.rs`. TOML and attribute
parsing are not modelled: the model starts from the parsed values. Paths are strings in normal form with `/` as
separator, as on Unix; a `Path` that differs only in spelling (`a//b`) is a different string here.
-/

namespace Askama

/-! ## Paths -/

/-- `Path::file_name` of a path that does not end in `/` or `..`: what follows the last `/`. -/
def Path.fileName (p : Str) : Str := (p.reverse.takeWhile (· != '/')).reverse

/-- `Path::parent` of such a path: what precedes the last `/`; the root directory keeps its `/`. -/
def Path.parent (p : Str) : Str :=
  match p.reverse.dropWhile (· != '/') with
  | [] => []
  | ['/'] => ['/']
  | _ :: d => d.reverse

/-- `Path::join`. -/
def Path.join (d p : Str) : Str :=
  if p.head? = some '/' then p
  else if d = [] then p
  else if d.getLast? = some '/' then d ++ p
  else d ++ ['/'] ++ p

/-- `Path::with_file_name`. -/
def Path.withFileName (p name : Str) : Str := Path.join (Path.parent p) name

/-- The file name split at its last dot, as for `Path::file_stem` and `Path::extension`: there is no extension if the
name has no dot or only starts with one. -/
def Path.splitExt (name : Str) : Str × Option Str :=
  if name = ['.', '.'] then (name, none)
  else
    let ext := (name.reverse.takeWhile (· != '.')).reverse
    match name.reverse.dropWhile (· != '.') with
    | [] => (name, none)
    | _ :: stem => if stem = [] then (name, none) else (stem.reverse, some ext)

/-- `Path::extension`. -/
def Path.extension (p : Str) : Option Str := (Path.splitExt (Path.fileName p)).2

/-- `Path::file_stem`. -/
def Path.stem (p : Str) : Str := (Path.splitExt (Path.fileName p)).1

/-- `extension` (askama_derive/src/input.rs:362-374). -/
def templateExtension (path : Str) : Option Str :=
  match Path.extension path with
  | none => none
  | some ext =>
    if [c!"j2", c!"jinja", c!"jinja2"].contains ext then
      match Path.extension (Path.stem path) with
      | some e => some e
      | none => some ext
    else some ext

/-- `ext_default_to_path` (askama_derive/src/input.rs:357-360). -/
def extDefaultToPath (ext : Option Str) (path : Str) : Option Str :=
  match ext with
  | some e => some e
  | none => templateExtension path

/-- `TEXT_TYPES` (askama_derive/src/input.rs:420-434). -/
def textTypes : List (Str × Str) :=
  [(c!"text/plain", c!"text/plain; charset=utf-8"), (c!"text/html", c!"text/html; charset=utf-8"),
   (c!"text/css", c!"text/css; charset=utf-8"), (c!"text/csv", c!"text/csv; charset=utf-8"),
   (c!"text/tab-separated-values", c!"text/tab-separated-values; charset=utf-8"),
   (c!"application/javascript", c!"application/javascript; charset=utf-8"), (c!"image/svg+xml", c!"image/svg+xml")]

/-- `extension_to_mime_type` (askama_derive/src/input.rs:410-418). `guess` is `mime_guess::from_ext(ext).first()`. -/
def extensionToMime (guess : Str → Option Str) (ext : Str) : Str :=
  let basic := (guess ext).getD c!"application/octet-stream"
  match textTypes.find? (fun t => basic == t.1) with
  | some t => t.2
  | none => basic

/-! ## Configuration -/

/-- `RawSyntax` (askama_derive/src/config.rs:247-256). -/
structure RawSyntax where
  name : Str
  blockStart : Option Str
  blockEnd : Option Str
  exprStart : Option Str
  exprEnd : Option Str
  commentStart : Option Str
  commentEnd : Option Str

/-- `RawEscaper` (askama_derive/src/config.rs:258-262). -/
structure RawEscaper where
  path : Str
  extensions : List Str

/-- `General` (askama_derive/src/config.rs:238-245). -/
structure General where
  dirs : Option (List Str)
  defaultSyntax : Option Str
  whitespace : WH

/-- `RawConfig` (askama_derive/src/config.rs:189-196). -/
structure RawConfig where
  general : Option General
  syntaxes : Option (List RawSyntax)
  escapers : Option (List RawEscaper)

/-- `Config` (askama_derive/src/config.rs:14-21). The syntaxes are an association list. -/
structure Config where
  dirs : List Str
  syntaxes : List (Str × Syntax)
  defaultSyntax : Str
  escapers : List (List Str × Str)
  whitespace : WH

/-- `TWO_PLUS_CHAR_OPS` (askama_parser/src/expr.rs:435-436). -/
def twoPlusCharOps : List Str :=
  [c!"||", c!"&&", c!"==", c!"!=", c!">=", c!"<=", c!"<<", c!">>", c!"..", c!"..="]

/-- The check of one delimiter (askama_derive/src/config.rs:149-168). The length is in bytes; `isWs` is
`char::is_whitespace`. -/
def delimiterOk (isWs : Char → Bool) (s : Str) : Bool :=
  !(decide (Str.blen s < 2)) && !s.any isWs && !twoPlusCharOps.contains s

/-- The check of a pair of opening delimiters (askama_derive/src/config.rs:170-182). -/
def noPrefix (a b : Str) : Bool := !(b.isPrefixOf a || a.isPrefixOf b)

/-- `TryInto<Syntax> for RawSyntax` (askama_derive/src/config.rs:137-186). -/
def RawSyntax.toSyntax (isWs : Char → Bool) (r : RawSyntax) : Except GErr Syntax :=
  let d := Syntax.default
  let s : Syntax :=
    { blockStart := r.blockStart.getD d.blockStart, blockEnd := r.blockEnd.getD d.blockEnd,
      exprStart := r.exprStart.getD d.exprStart, exprEnd := r.exprEnd.getD d.exprEnd,
      commentStart := r.commentStart.getD d.commentStart, commentEnd := r.commentEnd.getD d.commentEnd }
  if [s.blockStart, s.blockEnd, s.exprStart, s.exprEnd, s.commentStart, s.commentEnd].all (delimiterOk isWs)
      && noPrefix s.blockStart s.exprStart && noPrefix s.blockStart s.commentStart
      && noPrefix s.exprStart s.commentStart
  then .ok s else .error .err

/-- `DEFAULT_SYNTAX_NAME` (askama_derive/src/config.rs:305). -/
def defaultSyntaxName : Str := c!"default"

/-- `DEFAULT_ESCAPERS` (askama_derive/src/config.rs:306-310) with the name of the crate in front of the types. -/
def defaultEscapers (krate : Str) : List (List Str × Str) :=
  [([c!"html", c!"htm", c!"svg", c!"xml"], krate ++ c!"::Html"),
   ([c!"md", c!"none", c!"txt", c!"typ", c!"yml", []], krate ++ c!"::Text"),
   ([c!"j2", c!"jinja", c!"jinja2"], krate ++ c!"::Html")]

/-- The loop over the configured syntaxes (askama_derive/src/config.rs:66-77). -/
def addSyntaxes (isWs : Char → Bool) : List RawSyntax → List (Str × Syntax) → Except GErr (List (Str × Syntax))
  | [], m => .ok m
  | r :: rs, m => do
    let s ← r.toSyntax isWs
    if (assoc m r.name).isSome then .error .err else addSyntaxes isWs rs ((r.name, s) :: m)

/-- The `whitespace` argument of the template (askama_derive/src/config.rs:56-63). -/
def whitespaceArg (general : WH) : Option Str → Except GErr WH
  | none => .ok general
  | some s =>
    if s = c!"suppress" then .ok .suppress
    else if s = c!"minimize" then .ok .minimize
    else if s = c!"preserve" then .ok .preserve
    else .error .err

/-- `Config::new` (askama_derive/src/config.rs:24-108) after the TOML text was read. -/
def Config.new (isWs : Char → Bool) (krate root : Str) (raw : RawConfig) (templateWs : Option Str) :
    Except GErr Config := do
  let defaultDirs := [Path.join root c!"templates"]
  let (dirs, defaultSyntax, whitespace) := match raw.general with
    | some g =>
      ((match g.dirs with | some ds => ds.map (Path.join root) | none => defaultDirs),
       g.defaultSyntax.getD defaultSyntaxName, g.whitespace)
    | none => (defaultDirs, defaultSyntaxName, .preserve)
  let whitespace ← whitespaceArg whitespace templateWs
  let syntaxes ← addSyntaxes isWs (raw.syntaxes.getD []) [(defaultSyntaxName, Syntax.default)]
  if (assoc syntaxes defaultSyntax).isNone then .error .err
  else return {
    dirs, syntaxes, defaultSyntax, whitespace,
    escapers := ((raw.escapers.getD []).map fun e => (e.extensions, e.path)) ++ defaultEscapers krate }

/-- The files: which paths exist, and their contents if they can be read as text. -/
structure Files where
  exist : Str → Bool
  read : Str → Option Str

/-- The search in the configured directories (askama_derive/src/config.rs:122-127). -/
def findInDirs (fs : Files) (path : Str) : List Str → Option Str
  | [] => none
  | d :: ds => if fs.exist (Path.join d path) then some (Path.join d path) else findInDirs fs path ds

/-- `Config::find_template` (askama_derive/src/config.rs:110-134); `none` is an error. -/
def Config.findTemplate (fs : Files) (c : Config) (path : Str) (startAt : Option Str) : Option Str :=
  match startAt with
  | some root =>
    if fs.exist (Path.withFileName root path) then some (Path.withFileName root path)
    else findInDirs fs path c.dirs
  | none => findInDirs fs path c.dirs

/-- `get_template_source` (askama_derive/src/config.rs:288-302); `none` is an error. -/
def getTemplateSource (fs : Files) (path : Str) : Option Str :=
  match fs.read path with
  | none => none
  | some source => if source.getLast? = some '\n' then some source.dropLast else some source

end Askama
