import Verif.Spec.Core

/-!
# Meaning without bounds

The interpreter of `Verif.Spec.Render`, the loader and the compiler have a bound on recursion. Here they are without it:
`Makes` says that rendering some nodes at some place of a template makes a text.
-/

namespace Askama.Spec

variable {U : Type}

/-- The template compiles, to this code. -/
def Compiles (env : DeriveEnv) (c : Config) (ident : Str) (args : TemplateArgs) (code : List Stmt) : Prop :=
  ∃ fuel, buildTemplate env c ident args fuel = .ok code

/-- The template can be loaded: it and everything that belongs to it. -/
def Loads (env : DeriveEnv) (c : Config) (ident : Str) (args : TemplateArgs) (w : Whole) : Prop :=
  ∃ fuel, load env c ident args fuel = some w

/-- A place where nodes are rendered. -/
structure Place (U : Type) where
  /-- the templates from the rendered one to the root of its inheritance chain -/
  chain : List Ctx
  /-- the template the nodes belong to -/
  ctx : Ctx
  /-- the block the nodes are part of, and which of its definitions -/
  sup : Option (Str × Nat)
  /-- what the tag before asks for -/
  before : WH
  /-- what the tag after asks for -/
  after : Option WH
  /-- the variables -/
  store : Store U

/-- Rendering the nodes makes the text `s`; `sig` says whether a `break` or `continue` was met and `st` are the variables
afterwards. -/
def Makes (W : World U) (I : GenInput) (p : Place U) (ns : List Node) (s : Str) (sig : Sig) (st : Store U) : Prop :=
  ∃ fuel, run W I fuel p.chain p.ctx p.sup p.before ns p.after p.store = some (some s, sig, st)

/-- The place of the nodes between two tags, with these variables. -/
def Place.inside (p : Place U) (before after : WH) (st : Store U) : Place U :=
  { p with before := before, after := some after, store := st }

/-- The root of the inheritance chain. -/
def Whole.root (w : Whole) : Ctx := w.chain.getLastD w.ctx

/-- Where the rendering of a template starts. -/
def Whole.start (w : Whole) : Place U := ⟨w.chain, w.root, none, .preserve, none, ⟨[], [], none⟩⟩

/-- The template renders to the text `s`. -/
def Whole.Means (w : Whole) (W : World U) (s : Str) : Prop :=
  ∃ st, Makes W w.input w.start w.root.nodes s .next st

/-- The generator is known to be faithful on the template: it has no `let` and macro calls, or passes the check. -/
def Whole.Faithful (w : Whole) : Prop := w.core = true ∨ ∃ fuel, w.good fuel = true

/-- `code` is the code of the template that was loaded as `w`, under some configuration that is accepted, and the
generator is known to be faithful on it. -/
structure Translates (code : List Stmt) (w : Whole) : Prop where
  made : ∃ isWs krate root raw ws c env ident args, Config.new isWs krate root raw ws = .ok c
    ∧ args.block = none ∧ Compiles env c ident args code ∧ Loads env c ident args w
  faithful : w.Faithful

/-! ## Running code -/

/-- Running a rendering function from the beginning writes `s` and reaches the end. -/
def Finishes (W : World U) (code : List Stmt) (s : Str) : Prop :=
  ∃ ρ, execList W ⟨[], none, false, []⟩ code = some (s, .next, ρ)

mutual
/-- Is there a `break` or `continue` outside of a loop? The Rust compiler rejects such code. -/
def strays : Stmt → Bool
  | .brk | .cont => true
  | .if_ bs => straysIf bs
  | .match_ _ arms => straysArms arms
  | .block b | .ifNotDid b => straysList b
  | _ => false
/-- The same for statements in order. -/
def straysList : List Stmt → Bool
  | [] => false
  | s :: ss => strays s || straysList ss
/-- The same for branches. -/
def straysIf : List Branch → Bool
  | [] => false
  | .mk _ b :: bs => straysList b || straysIf bs
/-- The same for arms. -/
def straysArms : List Arm → Bool
  | [] => false
  | .mk _ b :: arms => straysList b || straysArms arms
end

/-! ## Nodes in order -/

/-- What the end of some nodes asks for, for the whitespace after them. -/
def endSide (I : GenInput) (before : WH) (ns : List Node) : WH :=
  match ns.getLast? with
  | none => before
  | some n => sideOf I (rightMark n)

/-- The place of the first nodes, in front of `post`. -/
def Place.front (I : GenInput) (p : Place U) (post : List Node) : Place U := { p with after := nextSide I post p.after }

/-- The place of the last nodes, behind `pre`, after which the variables are `st`. -/
def Place.rear (I : GenInput) (p : Place U) (pre : List Node) (st : Store U) : Place U :=
  { p with before := endSide I p.before pre, store := st }

/-- The text `s` of the template has a part for the node `n`, between the texts of the nodes before and after it. The part
is as `part` says, at the place of the node. -/
def Whole.Around (w : Whole) (W : World U) (pre : List Node) (n : Node) (post : List Node)
    (part : Place U → Str → Store U → Prop) (s : Str) : Prop :=
  ∃ a m b st1 st2 st, Makes W w.input (w.start.front w.input (n :: post)) pre a .next st1
    ∧ part ((w.start.rear w.input pre st1).front w.input post) m st2
    ∧ Makes W w.input (w.start.rear w.input (pre ++ [n]) st2) post b .next st ∧ s = a ++ m ++ b

/-! ## Loops -/

/-- `kept` are the items that the `if` of a loop lets through, in order. -/
def Kept (W : World U) (I : GenInput) (st : Store U) (t : Target) (cond : Option Expr) (all kept : List (Val U)) : Prop :=
  match cond with
  | none => kept = all
  | some c => ∃ passes : Val U → Bool, kept = all.filter passes ∧
      ∀ v ∈ all, ∃ ws, patMatch W t v = some ws
        ∧ (evalE W I (st.declare (t.bound W) ws true) none c).bind W.truthy = some (passes v)

/-- A round of a loop: its item, the text it makes, how it ends, and the variables before and after it. -/
structure Round (U : Type) where
  item : Val U
  text : Str
  sig : Sig
  start : Store U
  stop : Store U

/-- The rounds of a loop over the items `kept`, of which the first has the number `i`. -/
structure Rounds (W : World U) (t : Target) (body : Store U → Str → Sig → Store U → Prop) (i : Nat)
    (kept : List (Val U)) (st : Store U) (rounds : List (Round U)) (st' : Store U) : Prop where
  /-- the items come in order -/
  items : rounds.map (·.item) <+: kept
  /-- each round renders the body with the variables of the loop bound to the item, and `loop` counting -/
  each : ∀ (j : Nat) (r : Round U), rounds[j]? = some r → ∃ ws st1, patMatch W t r.item = some ws
    ∧ body { r.start.declare (t.bound W) ws true with item := some ⟨i + j, i + j == 0, j + 1 == kept.length⟩ } r.text r.sig st1
    ∧ r.stop = r.start.leave st1
  /-- a `break` ends the loop -/
  stops : ∀ (j : Nat) (r : Round U), rounds[j]? = some r → r.sig = .brk → j + 1 = rounds.length
  /-- nothing else does -/
  goes : rounds.length < kept.length → ∃ r : Round U, rounds.getLast? = some r ∧ r.sig = .brk
  /-- variables are carried over -/
  first : (rounds.head?.map (·.start)).getD st' = st
  link : ∀ (j : Nat) (r r' : Round U), rounds[j]? = some r → rounds[j + 1]? = some r' → r'.start = r.stop
  last : (rounds.getLast?.map (·.stop)).getD st = st'

/-! ## Conditions -/

/-- The condition holds, with these variables. -/
def Holds (W : World U) (I : GenInput) (st : Store U) (c : Option CondTest) (st' : Store U) : Prop :=
  runCond W I st c = some (some st')

/-- The condition does not hold. -/
def HoldsNot (W : World U) (I : GenInput) (st : Store U) (c : Option CondTest) : Prop := runCond W I st c = some none

/-- The condition and the nodes of a branch, and its opening tag. -/
def _root_.Askama.Cond.test : Cond → Option CondTest
  | .mk _ c _ => c
/-- The nodes of a branch. -/
def _root_.Askama.Cond.body : Cond → List Node
  | .mk _ _ ns => ns
/-- The opening tag of a branch. -/
def _root_.Askama.Cond.tag : Cond → Ws
  | .mk w _ _ => w

/-- The pattern of an arm. -/
def _root_.Askama.When.pat : When → Target
  | .mk _ t _ => t
/-- The nodes of an arm. -/
def _root_.Askama.When.body : When → List Node
  | .mk _ _ ns => ns
/-- The opening tag of an arm. -/
def _root_.Askama.When.tag : When → Ws
  | .mk w _ _ => w

/-! ## What the constructs mean -/

/-- A loop. Its items are those of the iterator that pass the `if`. If there is none, the `else` part is rendered. Otherwise
the body is rendered once for each item in order, up to a `break`. -/
def LoopMakes (W : World U) (I : GenInput) (p : Place U) (ws1 : Ws) (t : Target) (iter : Expr) (cond : Option Expr)
    (body : List Node) (ws2 : Ws) (els : List Node) (ws3 : Ws) (s : Str) (sig : Sig) (st' : Store U) : Prop :=
  ∃ v all kept, evalE W I p.store none iter = some v ∧ W.iter v = some all ∧ Kept W I p.store t cond all kept
    ∧ (kept = [] ∧ (∃ st1, Makes W I (p.inside (sideOf I ws2.r) (sideOf I ws3.l) p.store) els s sig st1
          ∧ st' = p.store.leave st1)
      ∨ kept ≠ [] ∧ sig = .next ∧ ∃ rs,
          Rounds W t (fun st => Makes W I (p.inside (sideOf I ws1.r) (sideOf I ws2.l) st) body) 0 kept p.store rs st'
          ∧ s = (rs.map (·.text)).flatten)

/-- An `if`: the first branch whose condition holds is rendered, or nothing if there is none. -/
def IfMakes (W : World U) (I : GenInput) (p : Place U) (ws : Ws) (bs : List Cond) (s : Str) (sig : Sig) (st' : Store U) :
    Prop :=
  (∃ pre b post st1 st2, bs = pre ++ b :: post ∧ (∀ c ∈ pre, HoldsNot W I p.store c.test)
    ∧ Holds W I p.store b.test st1
    ∧ Makes W I (p.inside (sideOf I b.tag.r) (sideOf I ((post.head?.map Cond.tag).getD ws).l) st1) b.body s sig st2
    ∧ st' = p.store.leave st2)
  ∨ ((∀ c ∈ bs, HoldsNot W I p.store c.test) ∧ s = [] ∧ sig = .next ∧ st' = p.store)

/-- A `match`: the first arm whose pattern matches is rendered, with the variables of the pattern. There is one: the Rust
compiler rejects other templates. -/
def MatchMakes (W : World U) (I : GenInput) (p : Place U) (e : Expr) (arms : List When) (ws2 : Ws) (s : Str) (sig : Sig)
    (st' : Store U) : Prop :=
  ∃ v pre b post vs st2, evalE W I p.store none e = some v ∧ arms = pre ++ b :: post
    ∧ (∀ c ∈ pre, patMatch W c.pat v = none) ∧ patMatch W b.pat v = some vs
    ∧ Makes W I (p.inside (sideOf I b.tag.r) (sideOf I ((post.head?.map When.tag).getD ws2).l)
        (p.store.declare (b.pat.bound W) vs true)) b.body s sig st2
    ∧ st' = p.store.leave st2

/-- The templates from a template up to the root of its inheritance chain. -/
inductive Ancestry (contexts : List (Str × Ctx)) : Ctx → List Ctx → Prop where
  | root {ctx : Ctx} : ctx.extends_ = none → Ancestry contexts ctx [ctx]
  | child {ctx parent : Ctx} {path : Str} {rest : List Ctx} : ctx.extends_ = some path →
      assoc contexts path = some parent → Ancestry contexts parent rest → Ancestry contexts ctx (ctx :: rest)

/-- The template `c` of the chain defines the block as `d`, and `k` of the templates before it define the block as well. -/
def Defines (chain : List Ctx) (name : Str) (k : Nat) (c : Ctx) (d : BlockDefn) : Prop :=
  ∃ nearer farther, chain = nearer ++ c :: farther
    ∧ (nearer.filter fun x => (assoc x.blocks name).isSome).length = k ∧ assoc c.blocks name = some d

/-- The place of the nodes of a block: the variables around it are not visible. -/
def Place.inBlock (I : GenInput) (p : Place U) (c : Ctx) (d : BlockDefn) (name : Str) (k : Nat) : Place U :=
  ⟨p.chain, withMacrosOf c p.ctx, some (name, k), sideOf I d.ws1.r, some (sideOf I d.ws2.l), ⟨[], [], p.store.item⟩⟩

/-- A block, for `k = 0`: the most derived definition of it is rendered. It leaves the variables as they are. For `k + 1`
this is what `super()` renders in the definition number `k`. -/
def BlockMakes (W : World U) (I : GenInput) (p : Place U) (name : Str) (k : Nat) (s : Str) (sig : Sig) (st' : Store U) :
    Prop :=
  ∃ c d st1, Defines p.chain name k c d ∧ Makes W I (p.inBlock I c d name k) d.nodes s sig st1 ∧ st' = p.store

/-- The chain of an included template. -/
def includeChain (I : GenInput) (child : Ctx) : Option (List Ctx) := chainOf I.contexts child

/-- An included template is rendered with the variables of the place of inclusion, and does not change them except by
giving a value to a variable declared without one. -/
def IncludeMakes (W : World U) (I : GenInput) (p : Place U) (path : Str) (s : Str) (sig : Sig) (st' : Store U) : Prop :=
  ∃ q c chain st1, I.find path = some q ∧ assoc I.contexts q = some c
    ∧ includeChain I (withMacrosOf c p.ctx) = some chain
    ∧ Makes W I ⟨chain, chain.getLastD (withMacrosOf c p.ctx), none, .preserve, none, p.store⟩
        (chain.getLastD (withMacrosOf c p.ctx)).nodes s sig st1
    ∧ st' = p.store.leave st1

/-- The value of each parameter of a macro: that of the argument with its name, or else that of the one at its position,
where the call stands. A name or attribute may have no value as long as the parameter is not used. -/
def Binds (W : World U) (I : GenInput) (st : Store U) (args : List Expr) (params : List Str)
    (ps : List (Str × Option (Val U))) : Prop :=
  ps.map (·.1) = params ∧ ∀ (i : Nat) (p : Str) (v : Option (Val U)), ps[i]? = some (p, v) →
    ∃ e, argFor args p i = some e ∧ v = evalE W I st none e ∧ (v = none → lazyArg e = true)

/-- The variables inside a macro: its parameters, in front of those at the call. -/
def withParams (st : Store U) (ps : List (Str × Option (Val U))) : Store U :=
  { st with vars := ps.reverse ++ st.vars, known := (ps.map fun p => (p.1, true)).reverse ++ st.known }

/-- A macro call: the body of the macro with its parameters bound. -/
def CallMakes (W : World U) (I : GenInput) (p : Place U) (scope : Option Str) (name : Str) (args : List Expr) (s : Str)
    (sig : Sig) (st' : Store U) : Prop :=
  ∃ d own ps st1, macroOf I p.ctx scope name = some (d, own) ∧ Binds W I p.store args d.args ps
    ∧ Makes W I { p with ctx := own, before := sideOf I d.ws1.r, after := some (sideOf I d.ws2.l),
                         store := withParams p.store ps } d.nodes s sig st1
    ∧ st' = p.store.leave st1

/-- A filter block: its text is passed through the filters and displayed like the value of an expression. -/
def FilterMakes (W : World U) (I : GenInput) (p : Place U) (ws1 : Ws) (f : FilterApp) (nodes : List Node) (ws2 : Ws)
    (s : Str) (sig : Sig) (st' : Store U) : Prop :=
  ∃ x, Makes W I (p.inside (sideOf I ws1.r) (sideOf I ws2.l) p.store) nodes x sig st'
    ∧ showE W I st' (some (W.str x)) (.filter f.name (fillHole f.args)) = some s

/-- `let`: without a value the variables are declared. With a value, a variable that was declared without one gets it;
otherwise the pattern is matched and its variables are new, in front of others of these names. -/
def LetBinds (W : World U) (I : GenInput) (st : Store U) (t : Target) (val : Option Expr) (st' : Store U) : Prop :=
  match val with
  | none => st' = st.declare (t.bound W) [] false
  | some e => ∃ v, evalE W I st none e = some v ∧
      ((∃ n vars, t = .name n ∧ st.status (rawIdent n) = some false ∧ assignVar (rawIdent n) v st.vars = some vars
          ∧ st' = { st with vars := vars, known := (rawIdent n, true) :: st.known })
        ∨ ((∀ n, t = .name n → st.status (rawIdent n) ≠ some false)
          ∧ ∃ vs, patMatch W t v = some vs ∧ st' = st.declare (t.bound W) vs true))

end Askama.Spec
