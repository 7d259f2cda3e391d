import Verif.Spec.Whole
import Verif.Spec.Parse
import Verif.Spec.Escaping

/-!
# White space, and all else

What remains of texts and templates when white space, the marks that control it, comments and the words `raw` and `endraw` are
left out. Used for C76.
-/

namespace Askama.Spec

open Askama

/-- Not one of the characters space, tab, carriage return, newline. -/
def black (c : Char) : Bool := !(c == ' ' || c == '\t' || c == '\r' || c == '\n')

/-- A text without its white space. -/
def squeeze (s : Str) : Str := s.filter black

/-- No marks. -/
def noWs : Ws := ⟨none, none⟩

/-- A text of a template without its white space, and nothing if that is all. -/
def bareLit (l : Lit) : List Node := if squeeze l.val = [] then [] else [.lit ⟨[], squeeze l.val, []⟩]

mutual
/-- A node without white space, marks and comments. -/
def bare : Node → List Node
  | .lit l => bareLit l
  | .raw _ l _ => bareLit l
  | .comment _ _ => []
  | .expr _ e => [.expr noWs e]
  | .call _ s n args => [.call noWs s n args]
  | .let_ _ v e => [.let_ noWs v e]
  | .if_ _ branches => [.if_ noWs (bareC branches)]
  | .match_ _ e arms _ => [.match_ noWs e (bareW arms) noWs]
  -- `{% else %}` with nothing after it is not the same as no `{% else %}`
  | .loop _ v i c body _ els _ =>
    [.loop noWs v i c (bareL body) noWs (if els.isEmpty then [] else .lit ⟨[], [], []⟩ :: bareL els) noWs]
  | .extends_ p => [.extends_ p]
  | .blockDef _ name nodes _ => [.blockDef noWs name (bareL nodes) noWs]
  | .include _ p => [.include noWs p]
  | .import_ _ p s => [.import_ noWs p s]
  | .macro _ name args nodes _ => [.macro noWs name args (bareL nodes) noWs]
  | .break_ _ => [.break_ noWs]
  | .continue_ _ => [.continue_ noWs]
  | .filterBlock _ f nodes _ => [.filterBlock noWs f (bareL nodes) noWs]
/-- All nodes of a list. -/
def bareL : List Node → List Node
  | [] => []
  | n :: ns => bare n ++ bareL ns
/-- The branches of an `if`. -/
def bareC : List Cond → List Cond
  | [] => []
  | .mk _ c nodes :: cs => .mk noWs c (bareL nodes) :: bareC cs
/-- The arms of a `match`. -/
def bareW : List When → List When
  | [] => []
  | .mk _ t nodes :: ws => .mk noWs t (bareL nodes) :: bareW ws
end

/-- Not a filter block, which hands its text to a filter, white space and all. -/
def noFilterBlock : Node → Bool
  | .filterBlock _ _ _ _ => false
  | _ => true

/-- Two templates, loaded with all that belong to them, are the same but for white space between their tags and within their
texts, white space control, comments and `raw`: the settings are the same but for the handling of white space, the templates have
the same names, and what remains of each without white space is the same. -/
structure SameButSpace (a b : Whole) : Prop where
  escaper : a.input.escaper = b.input.escaper
  escapers : a.input.escapers = b.input.escapers
  json : a.input.json = b.input.json
  block : a.input.block = b.input.block
  find : a.input.find = b.input.find
  templates : a.input.contexts.map (fun x => (x.1, bareL x.2.nodes)) = b.input.contexts.map (fun x => (x.1, bareL x.2.nodes))
  main : bareL a.ctx.nodes = bareL b.ctx.nodes

end Askama.Spec
