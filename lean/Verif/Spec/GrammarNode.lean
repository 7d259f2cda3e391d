import Verif.Spec.Grammar
import Verif.Spec.Doc

/-!
# The grammar of templates

What a template may look like, and which nodes a text can stand for.
-/

namespace Askama.Spec

/-- White space before and after. -/
def Padded (x t : Str) : Prop := ∃ w v, Blank w ∧ Blank v ∧ t = w ++ (x ++ v)

section
variable (isLower : Char → Bool)

mutual
/-- Spellings of patterns. -/
inductive SpeltPat : Str → Target → Prop
  | one {t : Str} {p : Target} : SpeltOne t p → SpeltPat t p
  | chain {t u : Str} {p : Target} {ps : List Target} : SpeltOne t p → SpeltAlts u ps → ps ≠ [] →
      SpeltPat (t ++ u) (.orChain (p :: ps))
/-- Further alternatives. -/
inductive SpeltAlts : Str → List Target → Prop
  | nil : SpeltAlts [] []
  | cons {o t u : Str} {p : Target} {ps : List Target} : Padded c!"or" o → SpeltOne t p → SpeltAlts u ps →
      SpeltAlts (o ++ (t ++ u)) (p :: ps)
/-- Spellings of patterns without alternatives. -/
inductive SpeltOne : Str → Target → Prop
  | str {s : Str} : StrBody s → SpeltOne ('"' :: (s ++ ['"'])) (.strLit s)
  | chr {s : Str} : ChrBody s → SpeltOne ('\'' :: (s ++ ['\''])) (.charLit s)
  | num {s : Str} : SignedNumber s → SpeltOne s (.numLit s)
  | bool {s : Str} : s = c!"true" ∨ s = c!"false" → SpeltOne s (.boolLit s)
  | name {n : Str} : Name n → n ≠ c!"self" → n ≠ c!"writer" → SpeltOne n (.name n)
  | path {t : Str} {p : List Str} : PathSpelt isLower t p → SpeltOne t (.path p)
  | unit {a z : Str} : Padded c!"(" a → Padded c!")" z → SpeltOne (a ++ z) (.tuple [] [])
  | paren {a t z : Str} {p : Target} : Padded c!"(" a → SpeltPat t p → Padded c!")" z → SpeltOne (a ++ (t ++ z)) p
  | tuple {a t ts c z : Str} {p : Target} {ps : List Target} : Padded c!"(" a → SpeltPat t p → SpeltMorePats ts ps →
      OptComma c → Padded c!")" z → SpeltOne (a ++ (t ++ (ts ++ (c ++ z)))) (.tuple [] (p :: ps))
  | tuplePath {t w b : Str} {p : List Str} {ps : List Target} : PathSpelt isLower t p → w = [] ∨ Padded c!"with" w →
      SpeltPats b ps → SpeltOne (t ++ (w ++ b)) (.tuple p ps)
  | structPath {t w b : Str} {p : List Str} {fs : List (Str × Target)} : PathSpelt isLower t p →
      w = [] ∨ Padded c!"with" w → SpeltFields b fs → SpeltOne (t ++ (w ++ b)) (.struct p fs)
/-- Patterns in parentheses. -/
inductive SpeltPats : Str → List Target → Prop
  | none {a : Str} : Padded c!"(" a → SpeltPats (a ++ c!")") []
  | some {a t ts c z : Str} {p : Target} {ps : List Target} : Padded c!"(" a → SpeltPat t p → SpeltMorePats ts ps →
      OptComma c → Padded c!")" z → SpeltPats (a ++ (t ++ (ts ++ (c ++ z)))) (p :: ps)
/-- Further patterns. -/
inductive SpeltMorePats : Str → List Target → Prop
  | nil : SpeltMorePats [] []
  | cons {c t ts : Str} {p : Target} {ps : List Target} : Padded c!"," c → SpeltPat t p → SpeltMorePats ts ps →
      SpeltMorePats (c ++ (t ++ ts)) (p :: ps)
/-- Fields in braces. -/
inductive SpeltFields : Str → List (Str × Target) → Prop
  | none {a : Str} : Padded c!"{" a → SpeltFields (a ++ c!"}") []
  | some {a t ts c z : Str} {f : Str × Target} {fs : List (Str × Target)} : Padded c!"{" a → SpeltField t f →
      SpeltMoreFields ts fs → OptComma c → Padded c!"}" z → SpeltFields (a ++ (t ++ (ts ++ (c ++ z)))) (f :: fs)
/-- Further fields. -/
inductive SpeltMoreFields : Str → List (Str × Target) → Prop
  | nil : SpeltMoreFields [] []
  | cons {c t ts : Str} {f : Str × Target} {fs : List (Str × Target)} : Padded c!"," c → SpeltField t f →
      SpeltMoreFields ts fs → SpeltMoreFields (c ++ (t ++ ts)) (f :: fs)
/-- A field. -/
inductive SpeltField : Str → Str × Target → Prop
  | short {n : Str} : Name n → n ≠ c!"self" → n ≠ c!"writer" → SpeltField n (n, .name n)
  | long {n c t : Str} {p : Target} : Name n → Padded c!":" c → SpeltPat t p → SpeltField (n ++ (c ++ t)) (n, p)
end

/-- An expression with white space around it. -/
def PaddedExpr (t : Str) (e : Expr) : Prop := ∃ x, Padded x t ∧ Spelt isLower 0 x e

/-- A pattern with white space around it. -/
def PaddedPat (t : Str) (p : Target) : Prop := ∃ x, Padded x t ∧ SpeltPat isLower x p

/-- A condition: an expression, or a pattern and an expression. -/
inductive SpeltCond : Str → CondTest → Prop
  | plain {t : Str} {e : Expr} : PaddedExpr isLower t e → SpeltCond t ⟨none, e⟩
  | pat {k a q t : Str} {p : Target} {e : Expr} : Padded c!"let" k ∨ Padded c!"set" k → PaddedPat isLower a p →
      Padded c!"=" q → PaddedExpr isLower t e → SpeltCond (k ++ (a ++ (q ++ t))) ⟨some p, e⟩

/-- What follows `else` or `elif`. -/
inductive SpeltElse : Str → Option CondTest → Prop
  | else_ {k : Str} : Padded c!"else" k → SpeltElse k none
  | elseIf {k i t : Str} {c : CondTest} : Padded c!"else" k → Padded c!"if" i → SpeltCond isLower t c →
      SpeltElse (k ++ (i ++ t)) (some c)
  | elif {k t : Str} {c : CondTest} : Padded c!"elif" k → SpeltCond isLower t c → SpeltElse (k ++ t) (some c)

/-- `if` with a condition, or nothing. -/
inductive SpeltFilterCond : Str → Option Expr → Prop
  | none : SpeltFilterCond [] none
  | some {k t : Str} {e : Expr} : Padded c!"if" k → PaddedExpr isLower t e → SpeltFilterCond (k ++ t) (some e)

/-- Arguments in parentheses, or nothing. -/
inductive SpeltOptArgs (m : Bool) : Str → List Expr → Prop
  | none : SpeltOptArgs m [] []
  | some {t : Str} {es : List Expr} : SpeltArgs isLower m t es → SpeltOptArgs m t es

/-- The filters of a filter block, applied from left to right. -/
inductive SpeltFilters : Str → FilterApp → Prop
  | one {t n a : Str} {es : List Expr} : Padded n t → Name n → SpeltOptArgs isLower false a es →
      SpeltFilters (t ++ a) ⟨n, es⟩
  | more {t u n a : Str} {f : FilterApp} {es : List Expr} : SpeltFilters t f → Padded n u → Name n →
      SpeltOptArgs isLower false a es → SpeltFilters (t ++ '|' :: (u ++ a)) ⟨n, .filter f.name f.args :: es⟩

/-- Names with commas in between. -/
inductive NameList : Str → List Str → Prop
  | nil : NameList [] []
  | one {t n : Str} : Padded n t → Name n → NameList t [n]
  | cons {t u n m : Str} {ns : List Str} : Padded n t → Name n → NameList u (m :: ns) →
      NameList (t ++ ',' :: u) (n :: m :: ns)

/-- The parameters of a macro: names in parentheses, or nothing. -/
inductive SpeltParams : Str → List Str → Prop
  | none : SpeltParams [] []
  | some {w a t c v : Str} {ns : List Str} : Blank w → Padded c!"(" a → NameList t ns → OptComma c → Blank v →
      SpeltParams (w ++ (a ++ (t ++ (c ++ ')' :: v)))) ns

/-- The marker at the end of a comment. -/
def EndMark (b : Str) : Option Wsp → Prop
  | none => ∀ c, b.getLast? = some c → c ∉ c!"+-~"
  | some m => ∃ a, b = a ++ mark (some m)

variable (syn : Syntax)

/-- A comment, its markers, and the text it is kept with (which has the second marker and the closing delimiter). -/
inductive SpeltComment : Str → Ws → Str → Prop
  | mk {b : Str} {p n : Option Wsp} : CommentTo syn.commentStart syn.commentEnd (b ++ syn.commentEnd) [] → EndMark b n →
      SpeltComment (syn.commentStart ++ (mark p ++ (b ++ syn.commentEnd))) ⟨p, n⟩ (b ++ syn.commentEnd)

/-- White space and comments. -/
inductive Gap : Str → Prop
  | blank {w : Str} : Blank w → Gap w
  | comment {w t s c : Str} {m : Ws} : Blank w → SpeltComment syn t m c → Gap s → Gap (w ++ (t ++ s))

mutual
/-- Spellings of nodes. -/
inductive SpeltNode : Str → Node → Prop
  /-- Text has no opening delimiter in it. -/
  | lit {l : Lit} : l.text ≠ [] → Free [syn.blockStart, syn.commentStart, syn.exprStart] l.text [] → LitOk l → SpeltNode l.text (.lit l)
  | comment {t c : Str} {m : Ws} : SpeltComment syn t m c → SpeltNode t (.comment m c)
  | expr {p n : Option Wsp} {t : Str} {e : Expr} : PaddedExpr isLower t e →
      SpeltNode (syn.exprStart ++ (mark p ++ (t ++ (mark n ++ syn.exprEnd)))) (.expr ⟨p, n⟩ e)
  | tag {t : Str} {n : Node} : SpeltTag t n → SpeltNode (syn.blockStart ++ (t ++ syn.blockEnd)) n
/-- Spellings of lists of nodes. -/
inductive SpeltNodes : Str → List Node → Prop
  | nil : SpeltNodes [] []
  | cons {t u : Str} {n : Node} {ns : List Node} : SpeltNode t n → SpeltNodes u ns → SpeltNodes (t ++ u) (n :: ns)
/-- What stands between the first opening and the last closing delimiter of a tag, or of a block of tags. -/
inductive SpeltTag : Str → Node → Prop
  | let_ {p n : Option Wsp} {k a : Str} {v : Target} : Padded c!"let" k ∨ Padded c!"set" k → PaddedPat isLower a v →
      SpeltTag (mark p ++ (k ++ (a ++ mark n))) (.let_ ⟨p, n⟩ v none)
  | letValue {p n : Option Wsp} {k a q t : Str} {v : Target} {e : Expr} : Padded c!"let" k ∨ Padded c!"set" k →
      PaddedPat isLower a v → Padded c!"=" q → PaddedExpr isLower t e →
      SpeltTag (mark p ++ (k ++ (a ++ (q ++ (t ++ mark n))))) (.let_ ⟨p, n⟩ v (some e))
  | «include» {p n : Option Wsp} {k t s : Str} : Padded c!"include" k → Padded ('"' :: (s ++ ['"'])) t → StrBody s →
      SpeltTag (mark p ++ (k ++ (t ++ mark n))) (.include ⟨p, n⟩ s)
  | extends_ {k t s : Str} : Padded c!"extends" k → Padded ('"' :: (s ++ ['"'])) t → StrBody s →
      SpeltTag (k ++ t) (.extends_ s)
  | import_ {p n : Option Wsp} {k t s a u m : Str} : Padded c!"import" k → Padded ('"' :: (s ++ ['"'])) t → StrBody s →
      Padded c!"as" a → Padded m u → Name m → SpeltTag (mark p ++ (k ++ (t ++ (a ++ (u ++ mark n))))) (.import_ ⟨p, n⟩ s m)
  | call {p n : Option Wsp} {k t m w a v : Str} {es : List Expr} : Padded c!"call" k → Padded m t → Name m →
      Blank w → SpeltOptArgs isLower true a es → Blank v →
      SpeltTag (mark p ++ (k ++ (t ++ (w ++ (a ++ (v ++ mark n)))))) (.call ⟨p, n⟩ none m es)
  | callScope {p n : Option Wsp} {k u s d t m w a v : Str} {es : List Expr} : Padded c!"call" k → Padded s u → Name s →
      Padded c!"::" d → Padded m t → Name m → Blank w → SpeltOptArgs isLower true a es → Blank v →
      SpeltTag (mark p ++ (k ++ (u ++ (d ++ (t ++ (w ++ (a ++ (v ++ mark n)))))))) (.call ⟨p, n⟩ (some s) m es)
  | break_ {p n : Option Wsp} {k : Str} : Padded c!"break" k → SpeltTag (mark p ++ (k ++ mark n)) (.break_ ⟨p, n⟩)
  | continue_ {p n : Option Wsp} {k : Str} : Padded c!"continue" k → SpeltTag (mark p ++ (k ++ mark n)) (.continue_ ⟨p, n⟩)
  | raw {p1 n1 p2 n2 : Option Wsp} {k z : Str} {l : Lit} : Padded c!"raw" k → LitOk l → Padded c!"endraw" z →
      SpeltTag (mark p1 ++ (k ++ (mark n1 ++ (syn.blockEnd ++ (l.text ++ (syn.blockStart ++ (mark p2 ++ (z ++ mark n2))))))))
        (.raw ⟨p1, n1⟩ l ⟨p2, n2⟩)
  | if_ {p1 n1 p2 n2 : Option Wsp} {k c b cs z : Str} {ct : CondTest} {ns : List Node} {bs : List Cond} :
      Padded c!"if" k → SpeltCond isLower c ct → SpeltNodes b ns → SpeltConds cs bs → Padded c!"endif" z →
      SpeltTag (mark p1 ++ (k ++ (c ++ (mark n1 ++ (syn.blockEnd ++ (b ++ (cs ++
        (syn.blockStart ++ (mark p2 ++ (z ++ mark n2)))))))))) (.if_ ⟨p2, n2⟩ (.mk ⟨p1, n1⟩ (some ct) ns :: bs))
  | loop {p1 n1 p2 n2 : Option Wsp} {k a i t c b z : Str} {v : Target} {e : Expr} {ce : Option Expr} {ns : List Node} :
      Padded c!"for" k → PaddedPat isLower a v → Padded c!"in" i → PaddedExpr isLower t e → SpeltFilterCond isLower c ce →
      SpeltNodes b ns → Padded c!"endfor" z →
      SpeltTag (mark p1 ++ (k ++ (a ++ (i ++ (t ++ (c ++ (mark n1 ++ (syn.blockEnd ++ (b ++
        (syn.blockStart ++ (mark p2 ++ (z ++ mark n2)))))))))))) (.loop ⟨p1, n1⟩ v e ce ns ⟨p2, none⟩ [] ⟨none, n2⟩)
  | loopElse {p1 n1 p2 n2 p3 n3 : Option Wsp} {k a i t c b l d z : Str} {v : Target} {e : Expr} {ce : Option Expr}
      {ns ms : List Node} : Padded c!"for" k → PaddedPat isLower a v → Padded c!"in" i → PaddedExpr isLower t e →
      SpeltFilterCond isLower c ce → SpeltNodes b ns → Padded c!"else" l → SpeltNodes d ms → Padded c!"endfor" z →
      SpeltTag (mark p1 ++ (k ++ (a ++ (i ++ (t ++ (c ++ (mark n1 ++ (syn.blockEnd ++ (b ++
        (syn.blockStart ++ (mark p2 ++ (l ++ (mark n2 ++ (syn.blockEnd ++ (d ++
        (syn.blockStart ++ (mark p3 ++ (z ++ mark n3))))))))))))))))))
        (.loop ⟨p1, n1⟩ v e ce ns ⟨p2, n2⟩ ms ⟨p3, n3⟩)
  | match_ {p1 n1 p2 n2 : Option Wsp} {k t g a b z w v : Str} {e : Expr} {arms els : List When} : Padded c!"match" k →
      PaddedExpr isLower t e → Gap syn g → SpeltArms a arms → arms ≠ [] → SpeltElseArm b els → Blank w → Blank v →
      Padded c!"endmatch" z →
      SpeltTag (mark p1 ++ (k ++ (t ++ (mark n1 ++ (syn.blockEnd ++ (g ++ (a ++ (b ++
        (w ++ (syn.blockStart ++ (v ++ (mark p2 ++ (z ++ mark n2))))))))))))) (.match_ ⟨p1, n1⟩ e (arms ++ els) ⟨p2, n2⟩)
  | block {p1 n1 p2 n2 : Option Wsp} {k t m b z y : Str} {ns : List Node} : Padded c!"block" k → Padded m t → Name m →
      SpeltNodes b ns → Padded c!"endblock" z → y = [] ∨ Padded m y →
      SpeltTag (mark p1 ++ (k ++ (t ++ (mark n1 ++ (syn.blockEnd ++ (b ++
        (syn.blockStart ++ (mark p2 ++ (z ++ (y ++ mark n2)))))))))) (.blockDef ⟨p1, n1⟩ m ns ⟨p2, n2⟩)
  | «macro» {p1 n1 p2 n2 : Option Wsp} {k t m a b z y : Str} {ps : List Str} {ns : List Node} : Padded c!"macro" k →
      Padded m t → Name m → m ≠ c!"super" → SpeltParams a ps → SpeltNodes b ns → Padded c!"endmacro" z →
      y = [] ∨ Padded m y →
      SpeltTag (mark p1 ++ (k ++ (t ++ (a ++ (mark n1 ++ (syn.blockEnd ++ (b ++
        (syn.blockStart ++ (mark p2 ++ (z ++ (y ++ mark n2))))))))))) (.macro ⟨p1, n1⟩ m ps ns ⟨p2, n2⟩)
  | filterBlock {p1 n1 p2 n2 : Option Wsp} {k t w b z : Str} {f : FilterApp} {ns : List Node} : Padded c!"filter" k →
      SpeltFilters isLower t f → Blank w → SpeltNodes b ns → Padded c!"endfilter" z →
      SpeltTag (mark p1 ++ (k ++ (t ++ (w ++ (mark n1 ++ (syn.blockEnd ++ (b ++
        (syn.blockStart ++ (mark p2 ++ (z ++ mark n2)))))))))) (.filterBlock ⟨p1, n1⟩ f ns ⟨p2, n2⟩)
/-- Further branches of an `if`. -/
inductive SpeltConds : Str → List Cond → Prop
  | nil : SpeltConds [] []
  | cons {p n : Option Wsp} {x b cs : Str} {c : Option CondTest} {ns : List Node} {bs : List Cond} :
      SpeltElse isLower x c → SpeltNodes b ns → SpeltConds cs bs →
      SpeltConds (syn.blockStart ++ (mark p ++ (x ++ (mark n ++ (syn.blockEnd ++ (b ++ cs)))))) (.mk ⟨p, n⟩ c ns :: bs)
/-- `when` arms. -/
inductive SpeltArms : Str → List When → Prop
  | nil : SpeltArms [] []
  | cons {p n : Option Wsp} {k a b cs : Str} {v : Target} {ns : List Node} {ws : List When} : Padded c!"when" k →
      PaddedPat isLower a v → SpeltNodes b ns → SpeltArms cs ws →
      SpeltArms (syn.blockStart ++ (mark p ++ (k ++ (a ++ (mark n ++ (syn.blockEnd ++ (b ++ cs)))))))
        (.mk ⟨p, n⟩ v ns :: ws)
/-- The `else` arm of a `match`, or none. -/
inductive SpeltElseArm : Str → List When → Prop
  | none : SpeltElseArm [] []
  | some {p n : Option Wsp} {k b : Str} {ns : List Node} : Padded c!"else" k → SpeltNodes b ns →
      SpeltElseArm (syn.blockStart ++ (mark p ++ (k ++ (mark n ++ (syn.blockEnd ++ b))))) [.mk ⟨p, n⟩ (.name c!"_") ns]
end

end

end Askama.Spec
