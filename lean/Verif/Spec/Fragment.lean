import Verif.Spec.Meaning
import Verif.Spec.Escaping

/-!
# Fragments

A template of which one block is asked for: `#[template(path = "…", block = "b")]`.
-/

namespace Askama.Spec

/-- The templates as they are if the whole text is asked for. -/
def Whole.full (w : Whole) : Whole := { w with input := { w.input with block := none } }

/-- `code` is the code of the block `b` of the template that was loaded as `w`, under some configuration that is accepted. -/
def Excerpt (code : List Stmt) (w : Whole) (b : Str) : Prop :=
  ∃ isWs krate root raw ws c env ident args, Config.new isWs krate root raw ws = .ok c
    ∧ args.block = some b ∧ Compiles env c ident args code ∧ Loads env c ident args w

/-- The generator is known to be faithful on the block `b`, whose tag is in nodes of `own`: the template has no `let` and
macro calls, or the block passes the check. -/
def Whole.FaithfulIn (w : Whole) (own : Ctx) (b : Str) : Prop :=
  w.core = true ∨ ∃ fuel, (goodBlock (Spec.good w.input fuel) w.chain own ⟨[], [], [], [], []⟩ b 0).isSome = true

/-- Is this the tag of block `b`? -/
def declares (b : Str) : Node → Bool
  | .blockDef _ name _ _ => name = b
  | _ => false

/-- There is no block `b` among the nodes and in them. -/
def Lacks (b : Str) (ns : List Node) : Prop := ∀ n ∈ partsL ns, declares b n = false

/-- The pattern binds only names that are variables for the generator. -/
def lowerNames (t : Target) : Bool := (Target.singles t).isEmpty && t.names.all fun n => !pathLike n

mutual
/-- There is no `let` in the node that would still be in effect after it. -/
def keeps : Node → Bool
  | .let_ _ _ _ => false
  | .filterBlock _ _ ns _ => keepsAll ns
  | _ => true
/-- The same for nodes in order. -/
def keepsAll : List Node → Bool
  | [] => true
  | n :: ns => keeps n && keepsAll ns
end

/-- Text, expressions, comments and definitions: nodes that do not make code of their own. -/
def inert : Node → Bool
  | .lit _ | .comment _ _ | .expr _ _ | .raw _ _ _ | .macro _ _ _ _ _ | .import_ _ _ _ | .extends_ _ => true
  | _ => false

/-- Nodes that start by writing the pending output: all that make code, except `let` and filter blocks. -/
def flushes : Node → Bool
  | .if_ _ _ | .match_ _ _ _ _ | .loop _ _ _ _ _ _ _ _ | .blockDef _ _ _ _ | .include _ _ | .call _ _ _ _
  | .break_ _ | .continue_ _ => true
  | _ => false

/-- The first of the nodes that makes code is not a `let` or filter block. -/
def settles : List Node → Bool
  | [] => true
  | n :: ns => if inert n then settles ns else flushes n

/-- There is none of the blocks among the nodes and in them. -/
def LacksAll (bs : List Str) (ns : List Node) : Prop := ∀ b ∈ bs, Lacks b ns

/-- The blocks of the names in `trail`, those that lead to a block and this block, are rendered in one place only: they are
not inside of a block of another name or a macro, and the layouts of included templates do not have them. Neither does a
`let` make a variable that is not one for the generator (a name that begins with `_` or an upper-case letter): the code of
the block would see it. -/
structure Whole.Alone (w : Whole) (trail : List Str) : Prop where
  blocks : ∀ p c, assoc w.input.contexts p = some c → ∀ ws1 name ns ws2, .blockDef ws1 name ns ws2 ∈ partsL c.nodes →
    name ∉ trail → LacksAll trail ns
  macros : ∀ p c, assoc w.input.contexts p = some c → ∀ ws1 name args ns ws2,
    .macro ws1 name args ns ws2 ∈ partsL c.nodes → LacksAll trail ns
  includes : ∀ p c, assoc w.input.contexts p = some c → ∀ ws path, .include ws path ∈ partsL c.nodes →
    ∀ q x a, w.input.find path = some q → assoc w.input.contexts q = some x → Ancestry w.input.contexts x a →
    LacksAll trail (a.getLastD x).nodes
  lets : ∀ p c, assoc w.input.contexts p = some c → ∀ ws t v, .let_ ws t v ∈ partsL c.nodes → lowerNames t = true

/-- The block `b` stands among the nodes of `ctx`, or inside of a block that does, and so on; the blocks around it are in
`trail`, and `own` is the template of the nodes among which it stands. Other definitions of the blocks around do not lead
to it. The nodes before it do not declare variables, and those after it only are text, expressions and comments. -/
inductive Inside (chain : List Ctx) (b : Str) (trail : List Str) : Ctx → List Node → Ctx → Prop where
  | here {ctx : Ctx} {pre ns post : List Node} {ws1 ws2 : Ws} : LacksAll trail pre → keepsAll pre = true →
      post.all inert = true → Inside chain b trail ctx (pre ++ .blockDef ws1 b ns ws2 :: post) ctx
  | under {ctx own c : Ctx} {pre ns post : List Node} {ws1 ws2 : Ws} {o : Str} {d : BlockDefn} : LacksAll trail pre →
      keepsAll pre = true → post.all inert = true → o ≠ b → Defines chain o 0 c d →
      (∀ k c' d', Defines chain o (k + 1) c' d' → LacksAll trail d'.nodes) →
      Inside chain b trail (withMacrosOf c ctx) d.nodes own →
      Inside chain b trail ctx (pre ++ .blockDef ws1 o ns ws2 :: post) own

/-- The block `o` of the layout is the block `b`, or `b` is inside of it. -/
inductive Whole.Leads (w : Whole) (b : Str) (trail : List Str) : Str → Ctx → Prop where
  | itself : w.Leads b trail b w.root
  | inside {o : Str} {c own : Ctx} {d : BlockDefn} : o ≠ b → Defines w.chain o 0 c d →
      (∀ k c' d', Defines w.chain o (k + 1) c' d' → LacksAll trail d'.nodes) →
      Inside w.chain b trail (withMacrosOf c w.root) d.nodes own → w.Leads b trail o own

/-- Where a block is rendered whose tag is in nodes of `own`, if no variables are visible. -/
def Whole.startIn {U : Type} (w : Whole) (own : Ctx) : Place U := { w.start with ctx := own }

/-- The text `s` of the nodes has a part for the block `b`, between the texts of the nodes before and after it, and this
part is as `part` says. The block may be inside of another one. -/
inductive HasPart {U : Type} (W : World U) (I : GenInput) (b : Str) (part : Str → Prop) : Place U → List Node → Str → Prop where
  | here {p : Place U} {pre ns post : List Node} {ws1 ws2 : Ws} {x m z : Str} {st1 st : Store U} :
      Makes W I (p.front I (.blockDef ws1 b ns ws2 :: post)) pre x .next st1 → part m →
      Makes W I (p.rear I (pre ++ [.blockDef ws1 b ns ws2]) st1) post z .next st →
      HasPart W I b part p (pre ++ .blockDef ws1 b ns ws2 :: post) (x ++ m ++ z)
  | under {p : Place U} {pre ns post : List Node} {ws1 ws2 : Ws} {x m z o : Str} {st1 st : Store U} {c : Ctx}
      {d : BlockDefn} : Makes W I (p.front I (.blockDef ws1 o ns ws2 :: post)) pre x .next st1 →
      Defines p.chain o 0 c d →
      HasPart W I b part (((p.rear I pre st1).front I post).inBlock I c d o 0) d.nodes m →
      Makes W I (p.rear I (pre ++ [.blockDef ws1 o ns ws2]) st1) post z .next st →
      HasPart W I b part p (pre ++ .blockDef ws1 o ns ws2 :: post) (x ++ m ++ z)

/-- Nodes that disappear from a fragment: text, expressions, comments, definitions and other blocks. -/
def vanishes : Node → Bool
  | .blockDef _ _ _ _ => true
  | n => inert n

end Askama.Spec
