import Verif.Spec.Doc

/-!
# Unfinished templates (C69)

The beginning of a template, up to a place inside tags that are still open, and what must not follow there.
-/

namespace Askama.Spec

/-- Tags that are open, together with their parts that are finished. -/
inductive Opening where
  /-- `{% if c %}` -/
  | if_ (w : Lay) (c : DocTest)
  /-- `{% if c %}`, its branches up to here, and `{% else if c' %}` or `{% elif c' %}` -/
  | elif (w : Lay) (c : DocTest) (body : List Doc) (more : List DocBranch) (short : Bool) (w' : Lay) (c' : DocTest)
  /-- `{% if c %}`, its branches up to here, and `{% else %}` -/
  | else_ (w : Lay) (c : DocTest) (body : List Doc) (more : List DocBranch) (w' : Lay)
  /-- `{% for p in iter if cond %}` -/
  | for_ (w : Lay) (p : Pt) (iter : Tm) (cond : Option Tm)
  /-- the loop with its body, and `{% else %}` -/
  | forElse (w : Lay) (p : Pt) (iter : Tm) (cond : Option Tm) (body : List Doc) (w' : Lay)
  /-- `{% match e %}`, its arms up to here, and `{% when p %}` -/
  | when (w : Lay) (e : Tm) (gap : Str) (arms : List DocArm) (w' : Lay) (p : Pt)
  /-- `{% match e %}`, its arms, and `{% else %}` -/
  | matchElse (w : Lay) (e : Tm) (gap : Str) (arms : List DocArm) (w' : Lay)
  /-- `{% block name %}` -/
  | block (w : Lay) (name : Str)
  /-- `{% macro name(params) %}` -/
  | macro (w : Lay) (name : Str) (params : List Str)
  /-- `{% filter f|… %}` -/
  | filter (w : Lay) (f : Flt) (fs : List Flt)

/-- The text of what is open. -/
def Opening.text (syn : Syntax) : Opening → Str
  | .if_ w c => tagText syn w (c!"if" ++ (sep (w.g.gap 5) ++ c.write (w.g.sub 0)))
  | .elif w c body more short w' c' => tagText syn w (c!"if" ++ (sep (w.g.gap 5) ++ c.write (w.g.sub 0))) ++ Doc.texts syn body ++ DocBranch.texts syn more ++
      (DocBranch.elseIf short w' c' []).text syn
  | .else_ w c body more w' => tagText syn w (c!"if" ++ (sep (w.g.gap 5) ++ c.write (w.g.sub 0))) ++ Doc.texts syn body ++ DocBranch.texts syn more ++
      tagText syn w' c!"else"
  | .for_ w p iter cond => tagText syn w (forText w.g p iter cond)
  | .forElse w p iter cond body w' => tagText syn w (forText w.g p iter cond) ++ Doc.texts syn body ++ tagText syn w' c!"else"
  | .when w e gap arms w' p => tagText syn w (c!"match" ++ (sep (w.g.gap 5) ++ e.write (w.g.sub 0))) ++ gap ++ DocArm.texts syn arms ++ tagText syn w' (c!"when" ++ (sep (w'.g.gap 5) ++ p.write (w'.g.sub 0)))
  | .matchElse w e gap arms w' => tagText syn w (c!"match" ++ (sep (w.g.gap 5) ++ e.write (w.g.sub 0))) ++ gap ++ DocArm.texts syn arms ++ tagText syn w' c!"else"
  | .block w name => tagText syn w (c!"block" ++ (sep (w.g.gap 5) ++ name))
  | .macro w name params => tagText syn w (c!"macro" ++ (sep (w.g.gap 5) ++ (name ++ (w.g.gap 4 ++ paramsSrc (w.g.sub 0) params))))
  | .filter w f fs => tagText syn w (c!"filter" ++ (sep (w.g.gap 5) ++ Flt.texts (w.g.sub 0) f fs))

/-- The words that continue or end what is open. -/
def Opening.closers : Opening → List Str
  | .if_ _ _ | .elif _ _ _ _ _ _ _ | .else_ _ _ _ _ _ => [c!"else", c!"elif", c!"endif"]
  | .for_ _ _ _ _ => [c!"else", c!"endfor"]
  | .forElse _ _ _ _ _ _ => [c!"endfor"]
  | .when _ _ _ _ _ _ => [c!"when", c!"else", c!"endmatch"]
  | .matchElse _ _ _ _ _ => [c!"endmatch"]
  | .block _ _ => [c!"endblock"]
  | .macro _ _ _ => [c!"endmacro"]
  | .filter _ _ _ => [c!"endfilter"]

/-- Is what follows in the body of a loop, given whether the tag is? -/
def Opening.loop (loop : Bool) : Opening → Bool
  | .for_ _ _ _ _ => true
  | _ => loop

/-- The words with which a tag can begin. -/
def knownTags : List Str :=
  [c!"call", c!"let", c!"set", c!"if", c!"for", c!"match", c!"extends", c!"include", c!"import", c!"block", c!"macro",
   c!"raw", c!"break", c!"continue", c!"filter"]

section

variable (syn : Syntax) (isLower : Char → Bool)

/-- A well-formed start of a loop. -/
def ForOk (p : Pt) (iter : Tm) (cond : Option Tm) : Prop :=
  p.Ok isLower ∧ iter.Ok isLower ∧ ∀ e, cond = some e → e.Ok isLower ∧ iter.endsOpen = false

/-- What is open is well-formed. -/
def Opening.Ok (loop : Bool) : Opening → Prop
  | .if_ _ c => c.Ok isLower
  | .elif _ c body more _ _ c' => c.Ok isLower ∧ Doc.Oks syn isLower loop body ∧ DocBranch.Oks syn isLower loop more ∧ c'.Ok isLower
  | .else_ _ c body more _ => c.Ok isLower ∧ Doc.Oks syn isLower loop body ∧ DocBranch.Oks syn isLower loop more
  | .for_ _ p iter cond => ForOk isLower p iter cond
  | .forElse _ p iter cond body _ => ForOk isLower p iter cond ∧ Doc.Oks syn isLower true body
  | .when _ e gap arms _ p => e.Ok isLower ∧ Blank gap ∧ DocArm.Oks syn isLower loop arms ∧ p.Ok isLower
  | .matchElse _ e gap arms _ => e.Ok isLower ∧ Blank gap ∧ arms ≠ [] ∧ DocArm.Oks syn isLower loop arms
  | .block _ name => Name name
  | .macro _ name params => Name name ∧ name ≠ c!"super" ∧ ∀ p ∈ params, Name p
  | .filter _ f fs => f.Ok isLower ∧ ∀ g ∈ fs, g.Ok isLower

end

/-- Nesting levels of the start of a loop. -/
def forNeed (p : Pt) (iter : Tm) (cond : Option Tm) : Nat := max p.need (max (iter.need + 12) (optNeed cond))

/-- Nesting levels of what is open, inside its own. -/
def Opening.need : Opening → Nat
  | .if_ _ c => c.need
  | .elif _ c body more _ _ c' => max c.need (max (Doc.needs body) (max (DocBranch.needs more) c'.need))
  | .else_ _ c body more _ => max c.need (max (Doc.needs body) (DocBranch.needs more))
  | .for_ _ p iter cond => forNeed p iter cond
  | .forElse _ p iter cond body _ => max (forNeed p iter cond) (Doc.needs body)
  | .when _ e _ arms _ p => max (e.need + 12) (max (DocArm.needs arms) p.need)
  | .matchElse _ e _ arms _ => max (e.need + 12) (DocArm.needs arms)
  | .block _ _ | .macro _ _ _ => 0
  | .filter _ f fs => Flt.needs (f :: fs)

/-- The beginning of a template: tags that are open, each after some finished pieces, and pieces in the innermost of them. -/
structure Start where
  tags : List (List Doc × Opening)
  last : List Doc

/-- Its text. -/
def Start.text (syn : Syntax) (b : Start) : Str := (b.tags.map fun t => Doc.texts syn t.1 ++ t.2.text syn).flatten ++ Doc.texts syn b.last

/-- Is its end in the body of a loop? -/
def Start.loop (b : Start) : Bool := b.tags.foldl (fun l t => t.2.loop l) false

/-- The words that continue or end the innermost tag that is open. -/
def Start.closers (b : Start) : List Str := (b.tags.getLast?.map fun t => t.2.closers).getD []

/-- The pieces along the way are well-formed. -/
def tagsOk (syn : Syntax) (isLower : Char → Bool) (last : List Doc) : Bool → List (List Doc × Opening) → Prop
  | loop, [] => Doc.Oks syn isLower loop last
  | loop, (ds, o) :: ts => Doc.Oks syn isLower loop ds ∧ o.Ok syn isLower loop ∧ tagsOk syn isLower last (o.loop loop) ts

/-- A well-formed beginning. -/
def Start.Ok (syn : Syntax) (isLower : Char → Bool) (b : Start) : Prop := tagsOk syn isLower b.last false b.tags

/-- Nesting levels along the way. -/
def tagsNeed (last : List Doc) : List (List Doc × Opening) → Nat
  | [] => Doc.needs last
  | (ds, o) :: ts => max (Doc.needs ds) (max o.need (tagsNeed last ts) + 1)

/-- Nesting levels of a beginning. -/
def Start.need (b : Start) : Nat := tagsNeed b.last b.tags

/-- A tag with this word follows. -/
def FollowsTag (syn : Syntax) (word r : Str) : Prop :=
  Name word ∧ ∃ m b i, r = syn.blockStart ++ mark m ++ b ++ (word ++ i) ∧ Blank b ∧ ∀ c, i.head? = some c → ¬ identChar c

/-- What must not follow: the end of the template while a tag is open, or a tag that does not begin a piece and does not
continue or end what is open. -/
def Stray (syn : Syntax) (b : Start) (r : Str) : Prop :=
  (r = [] ∧ b.tags ≠ []) ∨ ∃ word, FollowsTag syn word r ∧ word ∉ knownTags ∧ word ∉ b.closers

end Askama.Spec
