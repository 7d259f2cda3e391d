import Verif.Spec.Meaning

/-!
# What runs, of generated code

Loops, conditionals and `match` in the code made for a template, in terms of the code made for their parts. There is no
condition on the template here.
-/

namespace Askama.Spec

variable {U : Type}

/-- The variables of running code. -/
abbrev Vars (U : Type) := List (Str × Option (Val U))

/-- A new scope with the variables of a pattern. -/
def scopeOf (L : Locals) (t : Target) : Locals := t.names.foldl (fun L n => L.insert n ⟨none, true⟩) L.push

/-- Output of the generator is being collected, in some scope. -/
def Going (g : Gen) : Prop := g.pdiscard = false ∧ g.discard = false ∧ g.locals.scopes ≠ []

/-- The generator is called for the nodes and makes this code for them. There may be text left over that is written with
the code after it. `sup` is the block around, and which definition of it. -/
def Handled (I : GenInput) (H : Option Heritage) (ctx : Ctx) (sup : Option (Str × Nat)) (nodes : List Node)
    (code : List Stmt) : Prop :=
  ∃ fuel level g g', Going g ∧ g.superBlock = sup ∧ Gen.handle I fuel H ctx nodes level g = .ok (code, g')

/-- The generator makes this code for the nodes up to a tag `ws`, when the variables in scope are `L`. -/
def CodeFor (I : GenInput) (H : Option Heritage) (ctx : Ctx) (sup : Option (Str × Nat)) (L : Locals)
    (nodes : List Node) (ws : Ws) (code : List Stmt) : Prop :=
  ∃ fuel g b g1 fl g2, Going g ∧ g.superBlock = sup ∧ g.locals = L
    ∧ Gen.handle I fuel H ctx nodes .nested g = .ok (b, g1)
    ∧ Gen.writeBuf I (Gen.handleWs I g1 ws) = .ok (fl, g2) ∧ code = b ++ fl

/-- The generator meets the node and makes this code for it and for the text before it, when the variables in scope are
`L`. -/
def NodeCode (I : GenInput) (H : Option Heritage) (ctx : Ctx) (sup : Option (Str × Nat)) (L : Locals) (n : Node)
    (code : List Stmt) : Prop :=
  ∃ fuel level g g', Going g ∧ g.superBlock = sup ∧ g.locals = L
    ∧ Gen.handleNode (Gen.handle I fuel) I H ctx level g n = .ok (code, g')

/-- The generator makes this code for the expression. -/
def ExprFor (I : GenInput) (L : Locals) (e : Expr) (r : RExpr) : Prop := ∃ w, visitExpr I L e = .ok (r, w)

/-- The same for an expression that may be absent. -/
def OptExprFor (I : GenInput) (L : Locals) : Option Expr → Option RExpr → Prop
  | none, none => True
  | some e, some r => ExprFor I L e r
  | _, _ => False

/-- `kept` are the items for which the condition holds, in order. -/
def KeptBy (W : World U) (ρ : REnv U) (t : Target) (cond : Option RExpr) (all kept : List (Val U)) : Prop :=
  match cond with
  | none => kept = all
  | some c => ∃ passes : Val U → Bool, kept = all.filter passes ∧
      ∀ v ∈ all, ∃ ws, patMatch W t v = some ws
        ∧ (c.eval W { ρ with vars := bindVars (t.bound W) ws ρ.vars }).bind W.truthy = some (passes v)

/-- Rounds of a loop: the body runs once for each item, with the variables of the loop bound to the item, until there is a
`break`. The texts are what the rounds write. -/
inductive CodeRounds (W : World U) (t : Target) (body : List Stmt) :
    Nat → List (Val U) → Vars U → List Str → Vars U → Prop where
  | done {i : Nat} {vars : Vars U} : CodeRounds W t body i [] vars [] vars
  | stop {i : Nat} {v : Val U} {vs ws : List (Val U)} {vars : Vars U} {e e' : REnv U} {s : Str} :
      patMatch W t v = some ws → e.vars = bindVars (t.bound W) ws vars → e.item = some ⟨i, i == 0, vs.isEmpty⟩ →
      execList W e body = some (s, .brk, e') →
      CodeRounds W t body i (v :: vs) vars [s] (leaveVars vars e'.vars)
  | next {i : Nat} {v : Val U} {vs ws : List (Val U)} {vars vars' : Vars U} {e e' : REnv U} {s : Str} {sig : Sig}
      {ss : List Str} :
      patMatch W t v = some ws → e.vars = bindVars (t.bound W) ws vars → e.item = some ⟨i, i == 0, vs.isEmpty⟩ →
      execList W e body = some (s, sig, e') → sig ≠ .brk →
      CodeRounds W t body (i + 1) vs (leaveVars vars e'.vars) ss vars' →
      CodeRounds W t body i (v :: vs) vars (s :: ss) vars'

/-- A loop ran: without items, the code of its `else` part ran; otherwise its body ran once for each item in order up to a
`break`. -/
def RanLoop (W : World U) (ρ : REnv U) (t : Target) (iter : RExpr) (cond : Option RExpr) (body els : List Stmt) (s : Str)
    (sig : Sig) (vars : Vars U) : Prop :=
  ∃ v all kept, iter.eval W ρ = some v ∧ W.iter v = some all ∧ KeptBy W ρ t cond all kept
    ∧ (kept = [] ∧ (∃ e e', e.vars = ρ.vars ∧ e.item = ρ.item ∧ execList W e els = some (s, sig, e')
          ∧ vars = leaveVars ρ.vars e'.vars)
      ∨ kept ≠ [] ∧ sig = .next ∧ ∃ ss vars1, CodeRounds W t body 0 kept ρ.vars ss vars1
          ∧ vars = leaveVars ρ.vars vars1 ∧ s = ss.flatten)

/-- Conditions of generated branches correspond to those of the template. -/
def CondFor (I : GenInput) (L : Locals) (c : Option CondTest) (r : RCond) (L' : Locals) : Prop :=
  ∃ g g', g.locals = L ∧ Gen.branchCond I g c = .ok (r, g') ∧ g'.locals = L'

/-- An `if` ran: the first branch whose condition holds, or nothing if there is none. -/
def RanIf (W : World U) (ρ : REnv U) (bs : List Branch) (s : Str) (sig : Sig) (vars : Vars U) : Prop :=
  (∃ pre c b post ρ1 ρ2, bs = pre ++ .mk c b :: post ∧ (∀ x ∈ pre, ∃ c' b', x = .mk c' b' ∧ c'.holds W ρ = some none)
    ∧ c.holds W ρ = some (some ρ1) ∧ execList W ρ1 b = some (s, sig, ρ2) ∧ vars = leaveVars ρ.vars ρ2.vars)
  ∨ ((∀ x ∈ bs, ∃ c' b', x = .mk c' b' ∧ c'.holds W ρ = some none) ∧ s = [] ∧ sig = .next ∧ vars = ρ.vars)

/-- A `match` ran: the first arm whose pattern matches. -/
def RanMatch (W : World U) (ρ : REnv U) (v : Val U) (arms : List Arm) (s : Str) (sig : Sig) (vars : Vars U) : Prop :=
  ∃ pre t b post ws ρ2, arms = pre ++ .mk t b :: post ∧ (∀ x ∈ pre, ∃ t' b', x = .mk t' b' ∧ patMatch W t' v = none)
    ∧ patMatch W t v = some ws ∧ execList W { ρ with vars := bindVars (t.bound W) ws ρ.vars } b = some (s, sig, ρ2)
    ∧ vars = leaveVars ρ.vars ρ2.vars

/-- Branches and their code, one for one. -/
inductive BranchesFor (I : GenInput) (H : Option Heritage) (ctx : Ctx) (sup : Option (Str × Nat))
    (L : Locals) (ws : Ws) : List Cond → List Branch → Prop where
  | nil : BranchesFor I H ctx sup L ws [] []
  | cons {w : Ws} {c : Option CondTest} {nodes : List Node} {rest : List Cond} {r : RCond} {L' : Locals}
      {b : List Stmt} {bs : List Branch} : CondFor I L.push c r L' →
      CodeFor I H ctx sup L' nodes ((rest.head?.map Cond.tag).getD ws) b → BranchesFor I H ctx sup L ws rest bs →
      BranchesFor I H ctx sup L ws (.mk w c nodes :: rest) (.mk r b :: bs)

/-- Arms and their code, one for one. -/
inductive ArmsFor (I : GenInput) (H : Option Heritage) (ctx : Ctx) (sup : Option (Str × Nat))
    (L : Locals) (ws : Ws) : List When → List Arm → Prop where
  | nil : ArmsFor I H ctx sup L ws [] []
  | cons {w : Ws} {t : Target} {nodes : List Node} {rest : List When} {b : List Stmt} {as : List Arm} :
      CodeFor I H ctx sup (scopeOf L t) nodes ((rest.head?.map When.tag).getD ws) b →
      ArmsFor I H ctx sup L ws rest as → ArmsFor I H ctx sup L ws (.mk w t nodes :: rest) (.mk t b :: as)

/-- The statement is the code of a loop: it evaluates the iterator, and runs the code of the parts as a loop does. -/
def LoopCode (I : GenInput) (H : Option Heritage) (ctx : Ctx) (sup : Option (Str × Nat)) (L : Locals)
    (t : Target) (iter : Expr) (cond : Option Expr) (body : List Node) (ws2 : Ws) (els : List Node) (ws3 : Ws) (stmt : Stmt) : Prop :=
  ∃ r rc b eb, ExprFor I L.push iter r ∧ OptExprFor I (scopeOf L.push t) cond rc
    ∧ CodeFor I H ctx sup (scopeOf L.push t) body ws2 b
    ∧ (els = [] ∧ eb = [] ∨ els ≠ [] ∧ CodeFor I H ctx sup L.push.push els ws3 eb)
    ∧ ∀ (U : Type) (W : World U) (ρ ρ' : REnv U) (s : Str) (sig : Sig), Stmt.exec W ρ stmt = some (s, sig, ρ') →
        RanLoop W ρ t r rc b eb s sig ρ'.vars

/-- The statement is the code of an `if`. -/
def IfCode (I : GenInput) (H : Option Heritage) (ctx : Ctx) (sup : Option (Str × Nat)) (L : Locals) (ws : Ws)
    (bs : List Cond) (stmt : Stmt) : Prop :=
  ∃ out, BranchesFor I H ctx sup L ws bs out
    ∧ ∀ (U : Type) (W : World U) (ρ ρ' : REnv U) (s : Str) (sig : Sig), Stmt.exec W ρ stmt = some (s, sig, ρ') →
        RanIf W ρ out s sig ρ'.vars

/-- The statement is the code of a `match`. -/
def MatchCode (I : GenInput) (H : Option Heritage) (ctx : Ctx) (sup : Option (Str × Nat)) (L : Locals) (e : Expr)
    (arms : List When) (ws2 : Ws) (stmt : Stmt) : Prop :=
  ∃ r out, ExprFor I L e r ∧ ArmsFor I H ctx sup L ws2 arms out
    ∧ ∀ (U : Type) (W : World U) (ρ ρ' : REnv U) (s : Str) (sig : Sig), Stmt.exec W ρ stmt = some (s, sig, ρ') →
        ∃ v, r.eval W ρ = some v ∧ RanMatch W ρ v out s sig ρ'.vars

end Askama.Spec
