import Verif.Model.Rust

/-!
# Running generated code against a writer

`Verif.Model.Rust` gives the text a rendering function writes. Here the same statements run against a `fmt::Write` that
may refuse a piece of text: `render_into` (askama_derive/src/generator.rs:88-130) writes with `write_str(…)?` (1010) and
`write!(…)?` (1017-1023), and `?` returns the error. The writer sees the text in pieces: a literal at once, a displayed
value in the pieces its `Display` makes.
-/

namespace Askama

/-- A `fmt::Write`: the new state, and whether the piece was accepted. -/
structure Writer (σ : Type) where
  put : σ → Str → σ × Bool

/-- Write pieces one after the other, up to the first that is refused. -/
def Writer.putAll {σ : Type} (k : Writer σ) : σ → List Str → σ × Bool
  | s, [] => (s, true)
  | s, c :: cs => if (k.put s c).2 then k.putAll (k.put s c).1 cs else ((k.put s c).1, false)

/-- A computation that writes: `none` is an error return. -/
abbrev Writes (σ α : Type) := σ → σ × Option α

namespace Writes

variable {σ α β : Type}

/-- No writing. -/
def pure (a : α) : Writes σ α := fun s => (s, some a)

/-- A result or an error, without writing. -/
def lift (o : Option α) : Writes σ α := fun s => (s, o)

/-- `?`: go on with the result, or return the error. -/
def bind (m : Writes σ α) (f : α → Writes σ β) : Writes σ β := fun s =>
  match (m s).2 with
  | some a => f a (m s).1
  | none => ((m s).1, none)

/-- Change the result. -/
def map (f : α → β) (m : Writes σ α) : Writes σ β := fun s => ((m s).1, (m s).2.map f)

/-- Write pieces. -/
def put (k : Writer σ) (cs : List Str) : Writes σ Unit := fun s =>
  ((k.putAll s cs).1, if (k.putAll s cs).2 then some () else none)

end Writes

variable {U σ : Type}

/-- The pieces in which a value displays itself the `k`-th time, escaped if an escaper is given (`MarkupDisplay`,
askama_escape/src/lib.rs). If displaying fails these are the pieces before the failure. -/
abbrev Display (U : Type) := Option Str → Val U → Nat → List Str

section

variable (W : World U) (D : Display U) (k : Writer σ)

/-- `showPieces`, written. -/
def showPiecesTo (args : List (Str × Option Str × Val U)) : List Str → List Piece → Writes σ Unit
  | _, [] => .pure ()
  | seen, .ch c :: ps => (Writes.put k [[c]]).bind fun _ => showPiecesTo args seen ps
  | seen, .arg n :: ps =>
    (Writes.lift (args.find? (fun a => a.1 == n))).bind fun a =>
      (Writes.put k (D a.2.1 a.2.2 (seen.count n))).bind fun _ =>
        (Writes.lift (showArg W a.2.1 a.2.2 (seen.count n))).bind fun _ => showPiecesTo args (n :: seen) ps

/-- `write!(writer, fmt, args)`. -/
def formatTo (ρ : REnv U) (fmt : Str) (args : List FmtArg) : Writes σ Unit :=
  (Writes.lift (parseFmt none fmt)).bind fun ps =>
    (Writes.lift (evalArgs W ρ args)).bind fun vs => showPiecesTo W D k vs [] ps

/-- `forItems`, written. -/
def forItemsTo (t : Target) (body : REnv U → Writes σ (Sig × REnv U)) :
    List (Val U) → Nat → REnv U → Writes σ (REnv U)
  | [], _, ρ => .pure ρ
  | v :: vs, i, ρ =>
    (Writes.lift (patMatch W t v)).bind fun ws =>
      (body { ρ with vars := bindVars (t.bound W) ws ρ.vars,
                     item := some { index := i, first := i == 0, last := vs.isEmpty } }).bind fun (sig, ρ') =>
        let ρ'' := { ρ' with vars := leaveVars ρ.vars ρ'.vars, item := ρ.item }
        match sig with
        | .brk => .pure ρ''
        | _ => forItemsTo t body vs (i + 1) ρ''

mutual
/-- Run a statement against a writer. -/
def Stmt.execTo (ρ : REnv U) : Stmt → Writes σ (Sig × REnv U)
  | .writeLit s => (Writes.put k [s]).map fun _ => (.next, ρ)
  | .writeFmt fmt args => (formatTo W D k ρ fmt args).map fun _ => (.next, ρ)
  | .letDecl t => .pure (.next, { ρ with vars := bindVars (t.bound W) [] ρ.vars })
  | .letInit t e =>
    .lift ((e.eval W ρ).bind fun v => (patMatch W t v).map fun vs =>
      (.next, { ρ with vars := bindVars (t.bound W) vs ρ.vars }))
  | .assign n e =>
    .lift ((e.eval W ρ).bind fun v => (assignVar n v ρ.vars).map fun vars => (.next, { ρ with vars := vars }))
  | .letMany names es =>
    .lift ((RExpr.evalList W ρ es).map fun vs => (.next, { ρ with vars := bindVars names vs ρ.vars }))
  | .letStr x s => .pure (.next, { ρ with vars := bindVars [x] [W.str s] ρ.vars })
  | .letFmt x fmt args =>
    .lift ((formatText W ρ fmt args).map fun s => (.next, { ρ with vars := bindVars [x] [W.str s] ρ.vars }))
  | .if_ bs => execIfTo ρ bs
  | .match_ e arms => (Writes.lift (e.eval W ρ)).bind fun v => execMatchTo ρ v arms
  | .block b => (execListTo ρ b).map fun (sig, ρ') =>
      (sig, { vars := leaveVars ρ.vars ρ'.vars, item := ρ.item, did := ρ.did, iter := ρ.iter })
  | .letDid => .pure (.next, { ρ with did := false })
  | .setDid => .pure (.next, { ρ with did := true })
  | .letIter e => .lift ((e.eval W ρ).bind fun v => (W.iter v).map fun vs => (.next, { ρ with iter := vs }))
  | .filterIter t c => .lift ((filterItems W ρ t c ρ.iter).map fun vs => (.next, { ρ with iter := vs }))
  | .forIter t b => (forItemsTo W t (fun ρ' => execListTo ρ' b) ρ.iter 0 ρ).map fun ρ' => (.next, ρ')
  | .ifNotDid b =>
    if ρ.did then .pure (.next, ρ)
    else (execListTo ρ b).map fun (sig, ρ') => (sig, { ρ' with vars := leaveVars ρ.vars ρ'.vars })
  | .brk => .pure (.brk, ρ)
  | .cont => .pure (.cont, ρ)
  | .includeBytes _ => .pure (.next, ρ)
/-- Run statements in order. -/
def execListTo (ρ : REnv U) : List Stmt → Writes σ (Sig × REnv U)
  | [] => .pure (.next, ρ)
  | st :: sts =>
    (Stmt.execTo ρ st).bind fun (sig, ρ') =>
      match sig with
      | .next => execListTo ρ' sts
      | sig => .pure (sig, ρ')
/-- Run the first branch whose condition holds. -/
def execIfTo (ρ : REnv U) : List Branch → Writes σ (Sig × REnv U)
  | [] => .pure (.next, ρ)
  | .mk c b :: bs =>
    (Writes.lift (c.holds W ρ)).bind fun
      | some ρ' => (execListTo ρ' b).map fun (sig, ρ'') => (sig, { ρ'' with vars := leaveVars ρ.vars ρ''.vars })
      | none => execIfTo ρ bs
/-- Run the first arm whose pattern matches. -/
def execMatchTo (ρ : REnv U) (v : Val U) : List Arm → Writes σ (Sig × REnv U)
  | [] => .lift none
  | .mk t b :: arms =>
    match patMatch W t v with
    | some vs => (execListTo { ρ with vars := bindVars (t.bound W) vs ρ.vars } b).map fun (sig, ρ') =>
        (sig, { ρ' with vars := leaveVars ρ.vars ρ'.vars })
    | none => execMatchTo ρ v arms
end

/-- `render_into` (askama_derive/src/generator.rs:88-130) run from the beginning on a writer: the writer afterwards, and
whether it returned `Ok`. -/
def renderTo (code : List Stmt) (s : σ) : σ × Bool :=
  let r := execListTo W D k ⟨[], none, false, []⟩ code s
  (r.1, r.2.isSome)

end

end Askama
