import Verif.Model.Input
import Verif.Spec.Render

/-!
# A small concrete world

Values, filters and files to run whole templates on, used for examples and counterexamples only. A field `x` of the
context has the text `x`; a filter `f` makes `f(text)` of a text; `join` makes a value that is used up by displaying it
once, as the one of the code is.
-/

namespace Askama.Spec

/-- Values. -/
inductive Toy where
  | text (s : Str)
  | flag (b : Bool)
  | list (l : List Toy)
  | once (s : Str)

/-- Display. -/
def Toy.disp : Toy → Nat → Option Str
  | .text s, _ => some s
  | .flag b, _ => some (if b then c!"true" else c!"false")
  | .list _, _ => none
  | .once s, k => if k = 0 then some s else some []

/-- The text of a value inside a `Val`. -/
def Toy.text? : Val Toy → Option Str
  | .user u => u.disp 0
  | .safe v | .esc _ v => Toy.text? v

/-- The items of a list. -/
def Toy.items : Val Toy → Option (List (Val Toy))
  | .user (.list l) => some (l.map .user)
  | _ => none

/-- The world of these values. Numbers and strings are their text; a literal pattern matches its text. -/
def toy : World Toy where
  lit := fun k s =>
    match k with
    | .bool => .user (.flag (s == c!"true"))
    | _ => .user (.text s)
  nat := fun n => .user (.text (Nat.toDigits 10 n))
  bool := fun b => .user (.flag b)
  str := fun s => .user (.text s)
  self_ := .user (.text c!"self")
  path := fun _ => none
  array := fun vs => some (.user (.list (vs.filterMap fun | .user u => some u | _ => none)))
  tuple := fun _ => none
  attr := fun _ n => some (.user (.text n))
  index := fun _ _ => none
  unop := fun _ v => some v
  binop := fun _ v w => (Toy.text? v).bind fun s => (Toy.text? w).map fun t => .user (.flag (s == t))
  truthy := fun | .user (.flag b) => some b | _ => none
  range := fun _ _ _ => none
  call := fun _ _ => none
  method := fun _ m _ => some (.user (.text (m ++ c!"()")))
  try_ := fun v => some v
  deref := fun v => some v
  format := fun f _ => some (.user (.text f))
  join := fun vs =>
    match vs with
    | v :: s :: _ => (Toy.items v).bind fun l => (Toy.text? s).bind fun sep =>
        (l.mapM Toy.text?).map fun ts => .user (.once (sep.intercalate ts))
    | _ => none
  filter := fun _ n vs =>
    match vs with
    | v :: _ => (Toy.text? v).map fun s => .user (.text (n ++ ['('] ++ s ++ [')']))
    | [] => none
  constant := fun _ => false
  rustMacro := fun _ _ => none
  pmatch := fun t v =>
    match t with
    | .numLit s | .strLit s | .charLit s | .boolLit s => if Toy.text? v = some s then some [] else none
    | .path p => if p = [c!"_"] then some [] else none
    | _ => none
  iter := Toy.items
  elems := Toy.items
  disp := Toy.disp
  escape := fun e s => if e = c!"::Html" then s.flatMap fun c => if c = '<' then c!"&lt;" else [c] else s

/-- Files with these contents. -/
def toyEnv (files : List (Str × Str)) : DeriveEnv where
  files := { exist := fun p => (assoc files p).isSome, read := assoc files }
  isLower := fun c => 'a' ≤ c && c ≤ 'z'
  guess := fun _ => none
  json := false

/-- The default configuration, with the templates in the directory `t`. -/
def toyConfig (ws : WH) : Config := ⟨[c!"t"], [(c!"default", Syntax.default)], c!"default", defaultEscapers [], ws⟩

/-- The attribute `#[template(path = "…", block = "…")]`. -/
def toyArgs (main : Str) (block : Option Str) : TemplateArgs := ⟨some (.path main), block, none, none, none⟩

/-- Compile a template and run the generated code: the outcome of compiling, and of running. -/
def compiled (files : List (Str × Str)) (main : Str) (block : Option Str := none) (ws : WH := .preserve) :
    Except GErr (Option Str) :=
  match buildTemplate (toyEnv files) (toyConfig ws) c!"T" (toyArgs main block) 50 with
  | .error e => .error e
  | .ok code => .ok ((execList toy ⟨[], none, false, []⟩ code).map (·.1))

/-- The contexts of the files in the directory `t`. -/
def toyContexts (files : List (Str × Str)) : List (Str × Ctx) :=
  files.filterMap fun f =>
    (getTemplateSource (toyEnv files).files f.1).bind fun src =>
      (parseNodes (toyEnv files).isLower Syntax.default src).bind fun nodes =>
        match contextNew (((toyEnv files).loader (toyConfig .preserve) Syntax.default).find f.1) nodes with
        | .ok c => some (f.1, c)
        | .error _ => none

/-- What the template says: the interpreter of `Verif.Spec.Render` on the same files. -/
def meant (files : List (Str × Str)) (main : Str) (ws : WH := .preserve) : Option Str :=
  match TemplateInput.new (toyEnv files).files (toyEnv files).guess (toyConfig ws) c!"T" (toyArgs main none) with
  | .error _ => none
  | .ok t =>
    (assoc (toyContexts files) t.path).bind fun ctx =>
      (if ctx.blocks.isEmpty && ctx.extends_.isNone then some []
       else lineage (toyContexts files) ((toyContexts files).length + 2) ctx).bind fun chain =>
        render toy (genInput (toyEnv files) (toyConfig ws) t (toyContexts files)) 50 chain ctx

instance instDecidableEqExcept {ε α : Type} [DecidableEq ε] [DecidableEq α] : DecidableEq (Except ε α)
  | .ok a, .ok b => if h : a = b then isTrue (by rw [h]) else isFalse (fun e => h (by cases e; rfl))
  | .error a, .error b => if h : a = b then isTrue (by rw [h]) else isFalse (fun e => h (by cases e; rfl))
  | .ok _, .error _ => isFalse (by intro e; cases e)
  | .error _, .ok _ => isFalse (by intro e; cases e)

end Askama.Spec
