import Verif.Spec.Escaping
import Verif.Spec.Render
import Verif.Spec.Good
import Verif.Spec.Meaning

/-!
# How the text of a template is laid out

The texts a template can render to, whatever the values of its variables are: literal text in its place with whitespace
as asked for by the tags next to it, nothing for comments, `let`, macros and imports, the display of a value for an
expression, one branch of an `if`, one arm of a `match`, any number of rounds of a loop, and the text of blocks, macro
calls and included templates where they stand. Which values are displayed, which branch is taken and how many rounds
there are is left open, so that this makes sense for every template, including those outside the checks of
`Verif.Spec.Good`.
-/

namespace Askama.Spec

section

variable {U : Type} (W : World U) (I : GenInput)

/-- The text can be displayed for the node: the display of a value of its expression, escaped unless the expression opts
out. -/
def Displayed (n : Node) (s : Str) : Prop :=
  ∃ e v t, Shows n e ∧ ValueOf W I e v ∧ W.show_ v 0 = some t
    ∧ ((OptsOut e ∧ s = t) ∨ (¬ OptsOut e ∧ s = W.escape I.escaper t))

mutual
/-- `Laid chain ctx sup before nodes after s sig`: the nodes can render to the text `s` and are left with `sig`
(`break` and `continue` leave them early). The other arguments are those of `Render`. -/
inductive Laid : List Ctx → Ctx → Option (Str × Nat) → WH → List Node → Option WH → Str → Sig → Prop where
  | nil (chain : List Ctx) (ctx : Ctx) (sup : Option (Str × Nat)) (before : WH) (after : Option WH) :
      Laid chain ctx sup before [] after [] .next
  | cons {chain : List Ctx} {ctx : Ctx} {sup : Option (Str × Nat)} {before : WH} {n : Node} {ns : List Node}
      {after : Option WH} {s t : Str} {sig : Sig} : LaidNode chain ctx sup before n (nextSide I ns after) s .next →
      Laid chain ctx sup (sideOf I (rightMark n)) ns after t sig → Laid chain ctx sup before (n :: ns) after (s ++ t) sig
  | stop {chain : List Ctx} {ctx : Ctx} {sup : Option (Str × Nat)} {before : WH} {n : Node} {ns : List Node}
      {after : Option WH} {s : Str} {sig : Sig} : LaidNode chain ctx sup before n (nextSide I ns after) s sig →
      sig ≠ .next → Laid chain ctx sup before (n :: ns) after s sig
/-- ... a single node. -/
inductive LaidNode : List Ctx → Ctx → Option (Str × Nat) → WH → Node → Option WH → Str → Sig → Prop where
  | lit {chain : List Ctx} {ctx : Ctx} {sup : Option (Str × Nat)} {before : WH} {after : Option WH} (l : Lit) :
      LaidNode chain ctx sup before (.lit l) after (litText before l after) .next
  | raw {chain : List Ctx} {ctx : Ctx} {sup : Option (Str × Nat)} {before : WH} {after : Option WH} (ws1 ws2 : Ws)
      (l : Lit) : LaidNode chain ctx sup before (.raw ws1 l ws2) after
        (litText (sideOf I ws1.r) l (some (sideOf I ws2.l))) .next
  | comment {chain : List Ctx} {ctx : Ctx} {sup : Option (Str × Nat)} {before : WH} {after : Option WH} (ws : Ws)
      (s : Str) : LaidNode chain ctx sup before (.comment ws s) after [] .next
  | let_ {chain : List Ctx} {ctx : Ctx} {sup : Option (Str × Nat)} {before : WH} {after : Option WH} (ws : Ws)
      (t : Target) (v : Option Expr) : LaidNode chain ctx sup before (.let_ ws t v) after [] .next
  | macro_ {chain : List Ctx} {ctx : Ctx} {sup : Option (Str × Nat)} {before : WH} {after : Option WH} (ws1 ws2 : Ws)
      (name : Str) (args : List Str) (nodes : List Node) :
      LaidNode chain ctx sup before (.macro ws1 name args nodes ws2) after [] .next
  | import_ {chain : List Ctx} {ctx : Ctx} {sup : Option (Str × Nat)} {before : WH} {after : Option WH} (ws : Ws)
      (path scope : Str) : LaidNode chain ctx sup before (.import_ ws path scope) after [] .next
  | shown {chain : List Ctx} {ctx : Ctx} {sup : Option (Str × Nat)} {before : WH} {after : Option WH} {n : Node}
      {s : Str} : Displayed W I n s → LaidNode chain ctx sup before n after s .next
  | branch {chain : List Ctx} {ctx : Ctx} {sup : Option (Str × Nat)} {before : WH} {after : Option WH} {ws w : Ws}
      {c : Option CondTest} {nodes : List Node} {s : Str} {sig : Sig} (pre rest : List Cond) :
      Laid chain ctx sup (sideOf I w.r) nodes (some (condAfter I rest ws)) s sig →
      LaidNode chain ctx sup before (.if_ ws (pre ++ .mk w c nodes :: rest)) after s sig
  | noBranch {chain : List Ctx} {ctx : Ctx} {sup : Option (Str × Nat)} {before : WH} {after : Option WH} (ws : Ws)
      {branches : List Cond} : (∀ w nodes, .mk w none nodes ∉ branches) →
      LaidNode chain ctx sup before (.if_ ws branches) after [] .next
  | arm {chain : List Ctx} {ctx : Ctx} {sup : Option (Str × Nat)} {before : WH} {after : Option WH} {ws1 ws2 w : Ws}
      {e : Expr} {t : Target} {nodes : List Node} {s : Str} {sig : Sig} (pre rest : List When) :
      Laid chain ctx sup (sideOf I w.r) nodes (some (whenAfter I rest ws2)) s sig →
      LaidNode chain ctx sup before (.match_ ws1 e (pre ++ .mk w t nodes :: rest) ws2) after s sig
  | rounds {chain : List Ctx} {ctx : Ctx} {sup : Option (Str × Nat)} {before : WH} {after : Option WH}
      {ws1 ws2 ws3 : Ws} {t : Target} {iter : Expr} {cond : Option Expr} {body els : List Node} {s : Str} :
      LaidRounds chain ctx sup (sideOf I ws1.r) body (some (sideOf I ws2.l)) s →
      LaidNode chain ctx sup before (.loop ws1 t iter cond body ws2 els ws3) after s .next
  | noRounds {chain : List Ctx} {ctx : Ctx} {sup : Option (Str × Nat)} {before : WH} {after : Option WH}
      {ws1 ws2 ws3 : Ws} {t : Target} {iter : Expr} {cond : Option Expr} {body els : List Node} {s : Str} {sig : Sig} :
      Laid chain ctx sup (sideOf I ws2.r) els (some (sideOf I ws3.l)) s sig →
      LaidNode chain ctx sup before (.loop ws1 t iter cond body ws2 els ws3) after s sig
  | block {chain : List Ctx} {ctx : Ctx} {sup : Option (Str × Nat)} {before : WH} {after : Option WH} {ws1 ws2 : Ws}
      {name : Str} {nodes : List Node} {c : Ctx} {d : BlockDefn} {s : Str} {sig : Sig} :
      (blockDefs chain name)[0]? = some (c, d) →
      Laid chain (withMacrosOf c ctx) (some (name, 0)) (sideOf I d.ws1.r) d.nodes (some (sideOf I d.ws2.l)) s sig →
      LaidNode chain ctx sup before (.blockDef ws1 name nodes ws2) after s sig
  | super {chain : List Ctx} {ctx : Ctx} {before : WH} {after : Option WH} {ws : Ws} {scope : Option Str}
      {args : List Expr} {name : Str} {k : Nat} {c : Ctx} {d : BlockDefn} {s : Str} {sig : Sig} :
      (blockDefs chain name)[k + 1]? = some (c, d) →
      Laid chain (withMacrosOf c ctx) (some (name, k + 1)) (sideOf I d.ws1.r) d.nodes (some (sideOf I d.ws2.l)) s sig →
      LaidNode chain ctx (some (name, k)) before (.call ws scope c!"super" args) after s sig
  | call {chain : List Ctx} {ctx own : Ctx} {sup : Option (Str × Nat)} {before : WH} {after : Option WH} {ws : Ws}
      {scope : Option Str} {name : Str} {args : List Expr} {d : MacroDef} {s : Str} {sig : Sig} : name ≠ c!"super" →
      macroOf I ctx scope name = some (d, own) →
      Laid chain own sup (sideOf I d.ws1.r) d.nodes (some (sideOf I d.ws2.l)) s sig →
      LaidNode chain ctx sup before (.call ws scope name args) after s sig
  | include_ {chain chain' : List Ctx} {ctx c : Ctx} {sup : Option (Str × Nat)} {before : WH} {after : Option WH}
      {ws : Ws} {path p : Str} {s : Str} {sig : Sig} : I.find path = some p → assoc I.contexts p = some c →
      (if c.blocks.isEmpty && c.extends_.isNone then some []
        else lineage I.contexts (I.contexts.length + 2) (withMacrosOf c ctx)) = some chain' →
      Laid chain' (chain'.getLastD (withMacrosOf c ctx)) none .preserve (chain'.getLastD (withMacrosOf c ctx)).nodes none
        s sig →
      LaidNode chain ctx sup before (.include ws path) after s sig
  | break_ {chain : List Ctx} {ctx : Ctx} {sup : Option (Str × Nat)} {before : WH} {after : Option WH} (ws : Ws) :
      LaidNode chain ctx sup before (.break_ ws) after [] .brk
  | continue_ {chain : List Ctx} {ctx : Ctx} {sup : Option (Str × Nat)} {before : WH} {after : Option WH} (ws : Ws) :
      LaidNode chain ctx sup before (.continue_ ws) after [] .cont
/-- ... one or more rounds of a loop. -/
inductive LaidRounds : List Ctx → Ctx → Option (Str × Nat) → WH → List Node → Option WH → Str → Prop where
  | last {chain : List Ctx} {ctx : Ctx} {sup : Option (Str × Nat)} {before : WH} {after : Option WH} {nodes : List Node}
      {s : Str} {sig : Sig} : Laid chain ctx sup before nodes after s sig → LaidRounds chain ctx sup before nodes after s
  | more {chain : List Ctx} {ctx : Ctx} {sup : Option (Str × Nat)} {before : WH} {after : Option WH} {nodes : List Node}
      {s t : Str} {sig : Sig} : Laid chain ctx sup before nodes after s sig → sig ≠ .brk →
      LaidRounds chain ctx sup before nodes after t → LaidRounds chain ctx sup before nodes after (s ++ t)
end

end

/-- A filter block displays something, and nothing in it writes to the output instead of to the text that is filtered.
(For other filter blocks, see `C48_false` and `C48_false_control`.) -/
def tidy : Node → Bool
  | .filterBlock _ _ nodes _ => quietList nodes && nodes.any visible
  | _ => true

/-- The filter blocks of all templates are like that. -/
def _root_.Askama.GenInput.tidy (I : GenInput) : Bool := I.contexts.all fun e => (partsL e.2.nodes).all Spec.tidy

variable {U : Type}

/-- `code` is the code of the template that was loaded as `w`, under some configuration that is accepted, and the filter
blocks of its templates are tidy. -/
structure Builds (code : List Stmt) (w : Whole) : Prop where
  made : ∃ isWs krate root raw ws c env ident args, Config.new isWs krate root raw ws = .ok c
    ∧ args.block = none ∧ Compiles env c ident args code ∧ Loads env c ident args w
  tidy : w.input.tidy = true

/-- The template can render to this text. -/
def Whole.Lays (w : Whole) (W : World U) (s : Str) : Prop :=
  Laid W w.input w.chain w.root none .preserve w.root.nodes none s .next

/-- The template can render to this text, and a node of its layout contributes a text with some property. The property
is given what the tags before and after the node ask for. -/
def Whole.LaysAround (w : Whole) (W : World U) (pre : List Node) (n : Node) (post : List Node)
    (part : WH → Option WH → Str → Prop) (s : Str) : Prop :=
  ∃ a m b, Laid W w.input w.chain w.root none .preserve pre (nextSide w.input (n :: post) none) a .next
    ∧ part (endSide w.input .preserve pre) (nextSide w.input post none) m
    ∧ Laid W w.input w.chain w.root none (endSide w.input .preserve (pre ++ [n])) post none b .next
    ∧ s = a ++ m ++ b

end Askama.Spec
