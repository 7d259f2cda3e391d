import Verif.Model.Ast

/-!
# Specification vocabulary for the parser

Properties of syntax trees, stated without reference to the parser.
-/

namespace Askama.Spec

open Askama

/-! ### Expressions -/

mutual
/-- An expression without named arguments (and without the variant reserved for code generation) anywhere, whose filters
are applied to something. -/
def Plain : Expr → Prop
  | .boolLit _ | .numLit _ | .strLit _ | .charLit _ | .var _ | .path _ | .rustMacro _ _ => True
  | .array es | .tuple es => PlainL es
  | .filter _ es => es ≠ [] ∧ PlainL es
  | .attr e _ | .unary _ e | .group e | .try_ e => Plain e
  | .index a b | .binop _ a b => Plain a ∧ Plain b
  | .range _ a b => PlainO a ∧ PlainO b
  | .call e es => Plain e ∧ PlainL es
  | .namedArg _ _ | .generated _ => False
/-- All expressions of a list are plain. -/
def PlainL : List Expr → Prop
  | [] => True
  | e :: es => Plain e ∧ PlainL es
/-- An optional expression is plain. -/
def PlainO : Option Expr → Prop
  | none => True
  | some e => Plain e
end

mutual
/-- The arguments of a filter of a filter block: the first one may be a filter that is applied to the text of the block. -/
def FilterArgs : List Expr → Prop
  | [] => True
  | e :: es => FirstArg e ∧ PlainL es
/-- ... the first argument. -/
def FirstArg : Expr → Prop
  | .filter _ es => FilterArgs es
  | e => Plain e
end

/-- A well-formed argument list of a macro call: positional arguments first, then named ones with distinct
names. -/
def ArgList (args : List Expr) : Prop :=
  ∃ (positional : List Expr) (named : List (Str × Expr)),
    args = positional ++ named.map (fun x => Expr.namedArg x.1 x.2) ∧
    PlainL positional ∧ PlainL (named.map (·.2)) ∧ (named.map (·.1)).Nodup

/-! ### Patterns -/

mutual
/-- The names a pattern binds. -/
def Target.binds : Target → List Str
  | .name n => [n]
  | .tuple _ ts | .orChain ts => Target.bindsL ts
  | .struct _ ts => Target.bindsF ts
  | .numLit _ | .strLit _ | .charLit _ | .boolLit _ | .path _ => []
/-- The names bound by a list of patterns. -/
def Target.bindsL : List Target → List Str
  | [] => []
  | t :: ts => Target.binds t ++ Target.bindsL ts
/-- The names bound by the fields of a struct pattern. -/
def Target.bindsF : List (Str × Target) → List Str
  | [] => []
  | (_, t) :: ts => Target.binds t ++ Target.bindsF ts
end

/-! ### Nodes -/

mutual
/-- `chk inLoop n` holds for the node and for every node inside it; `inLoop` says whether the node is inside the
body of a `for` (the else part of a `for` is not its body). -/
def AllN (chk : Bool → Node → Prop) (b : Bool) : Node → Prop
  | .if_ w bs => chk b (.if_ w bs) ∧ AllC chk b bs
  | .match_ w1 e arms w2 => chk b (.match_ w1 e arms w2) ∧ AllW chk b arms
  | .loop w1 v it c body w2 els w3 =>
    chk b (.loop w1 v it c body w2 els w3) ∧ AllNs chk true body ∧ AllNs chk b els
  | .blockDef w1 n ns w2 => chk b (.blockDef w1 n ns w2) ∧ AllNs chk b ns
  | .macro w1 n as ns w2 => chk b (.macro w1 n as ns w2) ∧ AllNs chk b ns
  | .filterBlock w1 f ns w2 => chk b (.filterBlock w1 f ns w2) ∧ AllNs chk b ns
  | .lit l => chk b (.lit l)
  | .comment w c => chk b (.comment w c)
  | .expr w e => chk b (.expr w e)
  | .call w s n as => chk b (.call w s n as)
  | .let_ w v e => chk b (.let_ w v e)
  | .extends_ p => chk b (.extends_ p)
  | .include w p => chk b (.include w p)
  | .import_ w p s => chk b (.import_ w p s)
  | .raw w1 l w2 => chk b (.raw w1 l w2)
  | .break_ w => chk b (.break_ w)
  | .continue_ w => chk b (.continue_ w)
/-- ... for all nodes of a list. -/
def AllNs (chk : Bool → Node → Prop) (b : Bool) : List Node → Prop
  | [] => True
  | n :: ns => AllN chk b n ∧ AllNs chk b ns
/-- ... for all nodes in the branches of an `if`. -/
def AllC (chk : Bool → Node → Prop) (b : Bool) : List Cond → Prop
  | [] => True
  | .mk _ _ ns :: cs => AllNs chk b ns ∧ AllC chk b cs
/-- ... for all nodes in the arms of a `match`. -/
def AllW (chk : Bool → Node → Prop) (b : Bool) : List When → Prop
  | [] => True
  | .mk _ _ ns :: cs => AllNs chk b ns ∧ AllW chk b cs
end

/-- `break` and `continue` stand only inside the body of a loop. -/
def loopsOk (inLoop : Bool) : Node → Prop
  | .break_ _ | .continue_ _ => inLoop = true
  | _ => True

/-- The names bound by a node itself (not by nodes inside it): `let`, `for` and the patterns of `if let` and
`match`. -/
def nodeBinds : Node → List Str
  | .let_ _ v _ => Target.binds v
  | .loop _ v _ _ _ _ _ _ => Target.binds v
  | .if_ _ bs => bs.flatMap fun | .mk _ c _ => ((c.bind (·.target)).map Target.binds).getD []
  | .match_ _ _ arms _ => arms.flatMap fun | .mk _ t _ => Target.binds t
  | _ => []

/-- Neither `self` nor `writer` is bound. -/
def bindsOk (_ : Bool) (n : Node) : Prop := c!"self" ∉ nodeBinds n ∧ c!"writer" ∉ nodeBinds n

/-- The arguments of macro calls are well formed. -/
def callsOk (_ : Bool) : Node → Prop
  | .call _ _ _ args => ArgList args
  | _ => True

/-- The expressions of a node itself contain no named arguments (macro-call arguments aside), and no filters that are
applied to nothing. -/
def exprsOk (_ : Bool) : Node → Prop
  | .expr _ e => Plain e
  | .let_ _ _ v => PlainO v
  | .if_ _ bs => ∀ w c ns, Cond.mk w c ns ∈ bs → ∀ t, c = some t → Plain t.expr
  | .match_ _ e _ _ => Plain e
  | .loop _ _ it c _ _ _ _ => Plain it ∧ PlainO c
  | .filterBlock _ f _ _ => FilterArgs f.args
  | _ => True

/-- White space of the template language: space, tab, carriage return, newline. -/
def isBlank (c : Char) : Prop := c = ' ' ∨ c = '\t' ∨ c = '\r' ∨ c = '\n'

/-- A literal is split into leading white space, text that neither begins nor ends with white space, and trailing
white space; a literal of only white space has it all in front. -/
def LitOk (l : Lit) : Prop :=
  (∀ c ∈ l.lws, isBlank c) ∧ (∀ c ∈ l.rws, isBlank c) ∧
  (∀ c, l.val.head? = some c → ¬ isBlank c) ∧ (∀ c, l.val.getLast? = some c → ¬ isBlank c) ∧
  (l.val = [] → l.rws = [])

/-- Shape of parsed nodes: literals are split properly and not empty, an `if` starts with a condition, a `match` has
an arm, no macro is called `super`. -/
def shapeOk (_ : Bool) : Node → Prop
  | .lit l => LitOk l ∧ l.text ≠ []
  | .raw _ l _ => LitOk l
  | .if_ _ bs => ∃ w t ns rest, bs = Cond.mk w (some t) ns :: rest
  | .match_ _ _ arms _ => arms ≠ []
  | .macro _ n _ _ _ => n ≠ c!"super"
  | _ => True

/-- The lists of nodes directly inside a node satisfy `T`. -/
def innerOk (T : List Node → Prop) : Node → Prop
  | .if_ _ bs => ∀ w c ns, Cond.mk w c ns ∈ bs → T ns
  | .match_ _ _ arms _ => ∀ w t ns, When.mk w t ns ∈ arms → T ns
  | .loop _ _ _ _ body _ els _ => T body ∧ T els
  | .blockDef _ _ ns _ | .macro _ _ _ ns _ | .filterBlock _ _ ns _ => T ns
  | _ => True

/-- Everything a parsed node satisfies. -/
def nodeOk (T : List Node → Prop) (b : Bool) (n : Node) : Prop :=
  loopsOk b n ∧ bindsOk b n ∧ callsOk b n ∧ exprsOk b n ∧ shapeOk b n ∧ innerOk T n

mutual
/-- How deeply tags are nested: 0 for text, comments and expressions, for a tag one more than what is inside. -/
def depthN : Node → Nat
  | .lit _ | .comment _ _ | .expr _ _ => 0
  | .call .. | .let_ .. | .extends_ .. | .include .. | .import_ .. | .raw .. | .break_ .. | .continue_ .. => 1
  | .if_ _ bs => depthC bs + 1
  | .match_ _ _ arms _ => depthW arms + 1
  | .loop _ _ _ _ body _ els _ => max (depthNs body) (depthNs els) + 1
  | .blockDef _ _ ns _ => depthNs ns + 1
  | .macro _ _ _ ns _ => depthNs ns + 1
  | .filterBlock _ _ ns _ => depthNs ns + 1
/-- Depth of a list of nodes. -/
def depthNs : List Node → Nat
  | [] => 0
  | n :: ns => max (depthN n) (depthNs ns)
/-- Depth of the branches of an `if`. -/
def depthC : List Cond → Nat
  | [] => 0
  | .mk _ _ ns :: cs => max (depthNs ns) (depthC cs)
/-- Depth of the arms of a `match`. -/
def depthW : List When → Nat
  | [] => 0
  | .mk _ _ ns :: cs => max (depthNs ns) (depthW cs)
end

/-! ### Text between tags -/

/-- An opening delimiter starts here. -/
def startsDelim (delims : List Str) (s : Str) : Prop := ∃ d ∈ delims, d <+: s

/-- In the source `t ++ r`, the text `t` reaches exactly up to the next opening delimiter or the end. -/
def TextUpTo (delims : List Str) (t r : Str) : Prop :=
  t ≠ [] ∧ (r = [] ∨ startsDelim delims r) ∧ ∀ a b, t = a ++ b → b ≠ [] → ¬ startsDelim delims (b ++ r)

/-- `Tiled delims i e ns`: reading the source from `i` to `e`, the nodes `ns` follow each other without gaps; a
literal node is exactly the text up to the next opening delimiter, every other node starts with one. -/
inductive Tiled (delims : List Str) : Str → Str → List Node → Prop
  | nil (i : Str) : Tiled delims i i []
  | lit {l : Lit} {r e : Str} {ns : List Node} : TextUpTo delims l.text r → Tiled delims r e ns →
      Tiled delims (l.text ++ r) e (.lit l :: ns)
  | tag {n : Node} {i r e : Str} {ns : List Node} : startsDelim delims i → (∀ l, n ≠ .lit l) → r <:+ i →
      Tiled delims r e ns → Tiled delims i e (n :: ns)

/-! ### Raw blocks and comments -/

/-- A whitespace marker as written in a tag. -/
def mark : Option Wsp → Str
  | none => []
  | some .preserve => ['+']
  | some .suppress => ['-']
  | some .minimize => ['~']

/-- Only white space. -/
def Blank (w : Str) : Prop := ∀ c ∈ w, isBlank c

/-- The text of a tag that consists of a word only. -/
def wordTag (blockStart blockEnd : Str) (m1 : Option Wsp) (w1 word w2 : Str) (m2 : Option Wsp) : Str :=
  blockStart ++ mark m1 ++ w1 ++ word ++ w2 ++ mark m2 ++ blockEnd

/-- An `endraw` tag starts here. -/
def EndRaw (blockStart blockEnd i : Str) : Prop :=
  ∃ m1 w1 w2 m2 rest, Blank w1 ∧ Blank w2 ∧ i = wordTag blockStart blockEnd m1 w1 c!"endraw" w2 m2 ++ rest

/-- In `t ++ r`, none of the delimiters starts inside `t`. -/
def Free (delims : List Str) (t r : Str) : Prop := ∀ a b, t = a ++ b → b ≠ [] → ¬ startsDelim delims (b ++ r)

/-- `CommentTo o c i r`: the comment whose opening delimiter stands just before `i` ends just before `r`; comments
inside comments nest. (Where both delimiters match, the opening one counts.) -/
inductive CommentTo (o c : Str) : Str → Str → Prop
  | close {t r : Str} : Free [o, c] t (c ++ r) → ¬ o <+: c ++ r → CommentTo o c (t ++ c ++ r) r
  | nest {t i k r : Str} : Free [o, c] t (o ++ i) → CommentTo o c i k → CommentTo o c k r →
      CommentTo o c (t ++ o ++ i) r

/-- Characters of identifiers. -/
def identChar (c : Char) : Prop :=
  ('a' ≤ c ∧ c ≤ 'z') ∨ ('A' ≤ c ∧ c ≤ 'Z') ∨ ('0' ≤ c ∧ c ≤ '9') ∨ c = '_' ∨ 128 ≤ c.toNat

/-- A delimiter that cannot be confused with what may precede it in a tag. -/
def CleanEnd (d : Str) : Prop :=
  ∃ c r, d = c :: r ∧ ¬ isBlank c ∧ ¬ identChar c ∧ c ≠ '+' ∧ c ≠ '-' ∧ c ≠ '~'

end Askama.Spec
