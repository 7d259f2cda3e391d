import Verif.Model.Input

/-! # Templates without the text of their comments -/

namespace Askama.Spec

mutual
/-- A node with the text of all comments in it removed. -/
def silence : Node → Node
  | .comment ws _ => .comment ws []
  | .if_ ws branches => .if_ ws (silenceConds branches)
  | .match_ ws1 e arms ws2 => .match_ ws1 e (silenceWhens arms) ws2
  | .loop ws1 var iter cond body ws2 elseNodes ws3 =>
    .loop ws1 var iter cond (silenceAll body) ws2 (silenceAll elseNodes) ws3
  | .blockDef ws1 name nodes ws2 => .blockDef ws1 name (silenceAll nodes) ws2
  | .macro ws1 name args nodes ws2 => .macro ws1 name args (silenceAll nodes) ws2
  | .filterBlock ws1 f nodes ws2 => .filterBlock ws1 f (silenceAll nodes) ws2
  | .lit l => .lit l
  | .expr ws e => .expr ws e
  | .call ws scope name args => .call ws scope name args
  | .let_ ws var val => .let_ ws var val
  | .extends_ path => .extends_ path
  | .include ws path => .include ws path
  | .import_ ws path scope => .import_ ws path scope
  | .raw ws1 l ws2 => .raw ws1 l ws2
  | .break_ ws => .break_ ws
  | .continue_ ws => .continue_ ws
/-- ... of a list of nodes. -/
def silenceAll : List Node → List Node
  | [] => []
  | n :: ns => silence n :: silenceAll ns
/-- ... of the branches of an `if`. -/
def silenceConds : List Cond → List Cond
  | [] => []
  | .mk ws cond nodes :: cs => .mk ws cond (silenceAll nodes) :: silenceConds cs
/-- ... of the arms of a `match`. -/
def silenceWhens : List When → List When
  | [] => []
  | .mk ws target nodes :: cs => .mk ws target (silenceAll nodes) :: silenceWhens cs
end

/-- Two sources, in two syntaxes, that the parser reads as the same template, except for what the comments say; or it reads
neither. -/
def SameButComments (isLower : Char → Bool) (syn syn' : Syntax) (a b : Str) : Prop :=
  (parseNodes isLower syn a).map silenceAll = (parseNodes isLower syn' b).map silenceAll

/-- The same for files that may be missing: then both are. -/
def SameFile (isLower : Char → Bool) (syn syn' : Syntax) : Option Str → Option Str → Prop
  | some a, some b => SameButComments isLower syn syn' a b
  | none, none => True
  | _, _ => False

/-- The same for the template named or given in the attribute. -/
def SameSource (isLower : Char → Bool) (syn syn' : Syntax) : Option Source → Option Source → Prop
  | some (.path p), some (.path q) => p = q
  | some (.source a), some (.source b) => SameButComments isLower syn syn' a b
  | none, none => True
  | _, _ => False

/-- Two programs that differ at most in the text of comments in templates, which are written in the syntaxes `s` and `s'`, and
in the settings for these. -/
structure DifferInSyntax (c c' : Config) (s s' : Syntax) (env env' : DeriveEnv) (args args' : TemplateArgs) : Prop where
  dirs : c'.dirs = c.dirs
  escapers : c'.escapers = c.escapers
  whitespace : c'.whitespace = c.whitespace
  exist : env'.files.exist = env.files.exist
  isLower : env'.isLower = env.isLower
  guess : env'.guess = env.guess
  json : env'.json = env.json
  block : args'.block = args.block
  escaping : args'.escaping = args.escaping
  ext : args'.ext = args.ext
  known : templateSyntax c args.syn = .ok s
  known' : templateSyntax c' args'.syn = .ok s'
  source : SameSource env.isLower s s' args.source args'.source
  files : ∀ p, SameFile env.isLower s s' (getTemplateSource env.files p) (getTemplateSource env'.files p)

/-- Two programs that differ at most in the text of comments in templates, which are written in the syntax `s`. -/
structure DifferInComments (c : Config) (s : Syntax) (env env' : DeriveEnv) (args args' : TemplateArgs) : Prop where
  exist : env'.files.exist = env.files.exist
  isLower : env'.isLower = env.isLower
  guess : env'.guess = env.guess
  json : env'.json = env.json
  block : args'.block = args.block
  escaping : args'.escaping = args.escaping
  ext : args'.ext = args.ext
  syn : args'.syn = args.syn
  known : templateSyntax c args.syn = .ok s
  source : SameSource env.isLower s s args.source args'.source
  files : ∀ p, SameFile env.isLower s s (getTemplateSource env.files p) (getTemplateSource env'.files p)

end Askama.Spec
