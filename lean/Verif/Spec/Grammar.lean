import Verif.Spec.Prec

/-!
# The grammar of expressions

What the text of an expression may look like, and which trees a text can stand for. It is written down the usual way:
`Spelt q t e` says that `t` is a spelling of `e` where an expression of strength `q` is wanted (0: everything; 1 to 9: the
binary operators from `||` to `*`; 10: filters; 11: prefix operators; 12: names, literals, parentheses and what is appended
to them).
-/

namespace Askama.Spec

/-- Further segments of a path. -/
inductive SegSpelt : Str → List Str → Prop
  | nil : SegSpelt [] []
  | cons {w v n t : Str} {p : List Str} : Blank w → Blank v → Name n → SegSpelt t p →
      SegSpelt (w ++ (c!"::" ++ (v ++ (n ++ t)))) (n :: p)

/-- A path: `::a::b`, `a::b`, or a single name that is not lower case. White space may precede it. The first segment of
a path with leading `::` is empty. -/
inductive PathSpelt (isLower : Char → Bool) : Str → List Str → Prop
  | root {w v n t : Str} {p : List Str} : Blank w → Blank v → Name n → SegSpelt t p →
      PathSpelt isLower (w ++ (c!"::" ++ (v ++ (n ++ t)))) ([] :: n :: p)
  | long {w n t : Str} {p : List Str} : Blank w → Name n → SegSpelt t p → p ≠ [] →
      PathSpelt isLower (w ++ (n ++ t)) (n :: p)
  | one {w n : Str} : Blank w → Name n → (∀ c, n.head? = some c → isLower c = false) → PathSpelt isLower (w ++ n) [n]

/-- A name that starts with a lower-case letter. White space may precede it. -/
def WordSpelt (isLower : Char → Bool) (t n : Str) : Prop :=
  ∃ w, t = w ++ n ∧ Blank w ∧ Name n ∧ ∀ c, n.head? = some c → isLower c = true

/-- The text between the parentheses of the call of a Rust macro: parentheses outside of strings are closed. -/
inductive RustArgs : Str → Prop
  | nil : RustArgs []
  | char {s : Str} (c : Char) : c ∉ c!"()\"" → RustArgs s → RustArgs (c :: s)
  | paren {a s : Str} : RustArgs a → RustArgs s → RustArgs ('(' :: (a ++ ')' :: s))
  | str {b s : Str} : StrBody b → RustArgs s → RustArgs ('"' :: (b ++ '"' :: s))

/-- Numbers with or without a sign (the sign of a number in an expression is a prefix operator, but fields and patterns
have this). -/
def SignedNumber (s : Str) : Prop := Number s ∨ ∃ t, s = '-' :: t ∧ Number t

/-- The comma after the last element of a list. -/
def OptComma (c : Str) : Prop := c = [] ∨ ∃ w v, Blank w ∧ Blank v ∧ c = w ++ ',' :: v

section
variable (isLower : Char → Bool)

mutual
/-- Spellings of expressions. -/
inductive Spelt : Nat → Str → Expr → Prop
  | num {q : Nat} {s : Str} : Number s → Spelt q s (.numLit s)
  | str {q : Nat} {s : Str} : StrBody s → Spelt q ('"' :: (s ++ ['"'])) (.strLit s)
  | chr {q : Nat} {s : Str} : ChrBody s → Spelt q ('\'' :: (s ++ ['\''])) (.charLit s)
  | bool {q : Nat} {t n : Str} : WordSpelt isLower t n → n = c!"true" ∨ n = c!"false" → Spelt q t (.boolLit n)
  | var {q : Nat} {t n : Str} : WordSpelt isLower t n → n ≠ c!"true" → n ≠ c!"false" → Spelt q t (.var n)
  | path {q : Nat} {t : Str} {p : List Str} : PathSpelt isLower t p → Spelt q t (.path p)
  | array {q : Nat} {w v t c : Str} {es : List Expr} : Blank w → Blank v → SpeltList false t es → OptComma c →
      Spelt q (w ++ '[' :: (v ++ (t ++ (c ++ [']'])))) (.array es)
  | unit {q : Nat} {w v : Str} : Blank w → Blank v → Spelt q (w ++ '(' :: (v ++ [')'])) (.tuple [])
  | group {q : Nat} {w v u t : Str} {e : Expr} : Blank w → Blank v → Spelt 0 t e → Blank u →
      Spelt q (w ++ '(' :: (v ++ (t ++ (u ++ [')'])))) (.group e)
  | tuple {q : Nat} {w v u t c ts : Str} {e : Expr} {es : List Expr} : Blank w → Blank v → Spelt 0 t e → Blank u →
      SpeltMore false ts es → Blank c ∧ es ≠ [] ∨ (∃ x y, Blank x ∧ Blank y ∧ c = x ++ ',' :: y) →
      Spelt q (w ++ '(' :: (v ++ (t ++ (u ++ (ts ++ (c ++ [')'])))))) (.tuple (e :: es))
  | attr {q : Nat} {t w v n : Str} {e : Expr} : Spelt 12 t e → Blank w → Blank v → Name n ∨ SignedNumber n →
      Spelt q (t ++ (w ++ '.' :: (v ++ n))) (.attr e n)
  | index {q : Nat} {t w v u k : Str} {e i : Expr} : Spelt 12 t e → Blank w → Blank v → Spelt 0 k i → Blank u →
      Spelt q (t ++ (w ++ '[' :: (v ++ (k ++ (u ++ [']']))))) (.index e i)
  | call {q : Nat} {t a : Str} {e : Expr} {es : List Expr} : Spelt 12 t e → SpeltArgs false a es →
      Spelt q (t ++ a) (.call e es)
  | try_ {q : Nat} {t w : Str} {e : Expr} : Spelt 12 t e → Blank w → Spelt q (t ++ (w ++ ['?'])) (.try_ e)
  | mac {q : Nat} {t w v a : Str} {p : List Str} : PathSpelt isLower t p ∨ (∃ n, p = [n] ∧ WordSpelt isLower t n) →
      Blank w → Blank v → RustArgs a → Spelt q (t ++ (w ++ '!' :: (v ++ '(' :: (a ++ [')'])))) (.rustMacro p a)
  | unary {q : Nat} {w v t : Str} {o : UnOp} {e : Expr} : q ≤ 11 → Blank w → Blank v → Spelt 11 t e →
      Spelt q (w ++ (o.sym ++ (v ++ t))) (.unary o.sym e)
  /-- `e|f`; white space after the name belongs to it. -/
  | filter {q : Nat} {t w v n : Str} {e : Expr} : q ≤ 10 → Spelt 10 t e → Blank w → Name n → Blank v →
      Spelt q (t ++ '|' :: (w ++ (n ++ v))) (.filter n [e])
  /-- `e|f(a, b)` -/
  | filterArgs {q : Nat} {t w v n a : Str} {e : Expr} {es : List Expr} : q ≤ 10 → Spelt 10 t e → Blank w → Name n →
      Blank v → SpeltArgs false a es → Spelt q (t ++ '|' :: (w ++ (n ++ (v ++ a)))) (.filter n (e :: es))
  | bin {q : Nat} {a b w v : Str} {o : BinOp} {l r : Expr} : q ≤ o.prec + 1 → Spelt (o.prec + 1) a l → Blank w → Blank v →
      Spelt (o.prec + 2) b r → Spelt q (a ++ (w ++ (o.sym ++ (v ++ b)))) (.binop o.sym l r)
  | rangeFull {a b w v : Str} {i : Bool} {l r : Expr} : Spelt 1 a l → Blank w → Blank v → Spelt 1 b r →
      Spelt 0 (a ++ (w ++ (dots i ++ (v ++ b)))) (.range (dots i) (some l) (some r))
  | rangeFrom {a w v : Str} {i : Bool} {l : Expr} : Spelt 1 a l → Blank w → Blank v →
      Spelt 0 (a ++ (w ++ (dots i ++ v))) (.range (dots i) (some l) none)
  | rangeTo {b w v : Str} {i : Bool} {r : Expr} : Blank w → Blank v → Spelt 1 b r →
      Spelt 0 (w ++ (dots i ++ (v ++ b))) (.range (dots i) none (some r))
  | rangeAll {w v : Str} {i : Bool} : Blank w → Blank v → Spelt 0 (w ++ (dots i ++ v)) (.range (dots i) none none)
/-- Arguments in parentheses; with `m`, named ones are possible. -/
inductive SpeltArgs : Bool → Str → List Expr → Prop
  | mk {m : Bool} {w v t c : Str} {es : List Expr} : Blank w → Blank v → SpeltList m t es → OptComma c →
      SpeltArgs m (w ++ '(' :: (v ++ (t ++ (c ++ [')'])))) es
/-- An element of a list. -/
inductive SpeltArg : Bool → Str → Expr → Prop
  | plain {m : Bool} {t : Str} {e : Expr} : Spelt 0 t e → SpeltArg m t e
  | named {n w v t : Str} {e : Expr} : Name n → Blank w → Blank v → Spelt 0 t e →
      SpeltArg true (n ++ (w ++ '=' :: (v ++ t))) (.namedArg n e)
/-- Elements with commas in between. -/
inductive SpeltList : Bool → Str → List Expr → Prop
  | nil {m : Bool} : SpeltList m [] []
  | cons {m : Bool} {w v t u : Str} {e : Expr} {es : List Expr} : Blank w → SpeltArg m t e → Blank v → SpeltMore m u es →
      SpeltList m (w ++ (t ++ (v ++ u))) (e :: es)
/-- Further elements. -/
inductive SpeltMore : Bool → Str → List Expr → Prop
  | nil {m : Bool} : SpeltMore m [] []
  | cons {m : Bool} {w v t u : Str} {e : Expr} {es : List Expr} : Blank w → SpeltArg m t e → Blank v → SpeltMore m u es →
      SpeltMore m (',' :: (w ++ (t ++ (v ++ u)))) (e :: es)
end

end

end Askama.Spec
