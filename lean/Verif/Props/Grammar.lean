import Verif.Lemmas.GrammarNode

/-!
# C71: nothing but expressions is accepted as an expression; C72: nothing but templates is accepted as a template

The grammar is `Verif/Spec/Grammar.lean` and `Verif/Spec/GrammarNode.lean`.
-/

namespace Askama.Props

open Spec

/-- Whatever the parser accepts as an expression is a spelling of the expression it takes it for: the accepted text `t` can
be derived, with that tree, in the grammar. Operators stand between (or before) operands of the strength they ask for,
brackets are closed, the elements of lists have commas between them, and there is nothing else in the text but white
space. This is so for every nesting limit `n`, and everything that follows. -/
theorem C71_expressions (env : PEnv) (n : Nat) (i r : Str) (e : Expr) (h : (exprP env n .parse () i).1 = .ok r e) :
    ∃ t, i = t ++ r ∧ Spelt env.isLower 0 t e :=
  (exprP_spelt env n .parse).yields () i r e _ (Prod.ext h rfl)

/-- The same for the arguments of a call. With `m` (arguments of template macros) they can be named. -/
theorem C71_arguments (env : PEnv) (n : Nat) (m : Bool) (i r : Str) (es : List Expr)
    (h : (exprP env n (.args m) () i).1 = .ok r es) : ∃ t, i = t ++ r ∧ SpeltArgs env.isLower m t es :=
  (exprP_spelt env n (.args m)).yields () i r es _ (Prod.ext h rfl)

/-- A concrete case. -/
example : (exprP ⟨⟨c!"{%", c!"%}", c!"{{", c!"}}", c!"{#", c!"#}"⟩, fun c => 'a' ≤ c ∧ c ≤ 'z'⟩ 60 .parse () c!"a + b*c.d(1, x) }}").1 =
    .ok c!" }}" (.binop c!"+" (.var c!"a") (.binop c!"*" (.var c!"b")
      (.call (.attr (.var c!"c") c!"d") [.numLit c!"1", .var c!"x"]))) := by rfl

example : (exprP ⟨⟨c!"{%", c!"%}", c!"{{", c!"}}", c!"{#", c!"#}"⟩, fun c => 'a' ≤ c ∧ c ≤ 'z'⟩ 60 (.args true) () c!"(a, b = 1) }}").1 =
    .ok c!" }}" [.var c!"a", .namedArg c!"b" (.numLit c!"1")] := by rfl

/-- The operands of an operator are at least as strong as it: `a + b * c` is not read as `(a + b) * c`, and `a - b - c`
not as `a - (b - c)`, because these trees have no spelling. -/
theorem C71_strength (isLower : Char → Bool) (q : Nat) (t : Str) (o p : BinOp) (a b c : Expr) :
    (p.prec < o.prec → ¬ Spelt isLower q t (.binop o.sym (.binop p.sym a b) c)) ∧
    (p.prec ≤ o.prec → ¬ Spelt isLower q t (.binop o.sym a (.binop p.sym b c))) := by
  have key : ∀ {k t e l r} {o : BinOp}, Spelt isLower k t e → e = .binop o.sym l r → k ≤ o.prec + 1 ∧
      (∃ x, Spelt isLower (o.prec + 1) x l) ∧ ∃ y, Spelt isLower (o.prec + 2) y r := by
    intro k t e l r o h he
    cases h <;> try cases he
    rename_i o' _ _ hl hw hv hr hq
    simp only [Expr.binop.injEq] at he
    obtain ⟨ho, rfl, rfl⟩ := he
    have : o' = o := by cases o <;> cases o' <;> first | rfl | (exact absurd ho (by decide))
    subst this
    exact ⟨hq, ⟨_, hl⟩, ⟨_, hr⟩⟩
  constructor
  · intro hp h
    obtain ⟨x, hx⟩ := (key h rfl).2.1
    have := (key hx rfl).1
    omega
  · intro hp h
    obtain ⟨x, hx⟩ := (key h rfl).2.2
    have := (key hx rfl).1
    omega

/-! ## C72 -/

/-- Whatever is accepted as a template is, from the first to the last character, a spelling of the nodes it is read as:
text between tags has no opening delimiter in it, comments are closed, every tag begins and ends with its delimiters and has
the parts its keyword asks for in the right order, every block is closed by its own end tag, with the branches it can have in
between, names at end tags are the ones at the beginning, and expressions and patterns are expressions and patterns of the
grammar. Nothing in the source is passed over. (Delimiters of comments are not empty: the configuration asks for two
characters.) -/
theorem C72_templates (env : PEnv) (src : Str) (ns : List Node) (hs : 0 < env.syn.commentStart.length)
    (he : 0 < env.syn.commentEnd.length) (h : parseTemplate env src = .ok ns) : SpeltNodes env.isLower env.syn src ns := by
  unfold parseTemplate at h
  split at h
  · rename_i ns' s' h1
    cases h
    obtain ⟨ns', s1, j, h2, h3⟩ := bind_inv h1
    obtain ⟨u, s2, j2, h4, h5⟩ := bind_inv h3
    obtain ⟨t, rfl, ht⟩ := nodesP_spelt env hs he _ _ _ _ _ _ h2
    obtain ⟨v, rfl, rfl⟩ := yields_eof.cut _ _ _ _ _ h4
    simp only [Pure.pure, PT.pure, Prod.mk.injEq, PRes.ok.injEq] at h5
    obtain ⟨⟨rfl, rfl⟩, _⟩ := h5
    simpa using ht
  · cases h
  · rename_i h1
    unfold mkParseErr at h
    dsimp only at h
    repeat' split at h
    all_goals cases h
  · cases h

/-- The same for a part of a template: the bodies of blocks are read this way. -/
theorem C72_parts (env : PEnv) (n : Nat) (s s' : PState) (i r : Str) (ns : List Node) (hs : 0 < env.syn.commentStart.length)
    (he : 0 < env.syn.commentEnd.length) (h : nodesP env n s i = (.ok r ns, s')) :
    ∃ t, i = t ++ r ∧ SpeltNodes env.isLower env.syn t ns := nodesP_spelt env hs he n s i r ns s' h

/-- A concrete case. -/
example : parseTemplate ⟨⟨c!"{%", c!"%}", c!"{{", c!"}}", c!"{#", c!"#}"⟩, fun c => 'a' ≤ c ∧ c ≤ 'z'⟩
    c!"a {% for x in y -%}{{ x }}{% endfor %}{# c #}" =
    .ok [.lit ⟨[], c!"a", c!" "⟩, .loop ⟨none, some .suppress⟩ (.name c!"x") (.var c!"y") none
      [.expr ⟨none, none⟩ (.var c!"x")] ⟨none, none⟩ [] ⟨none, none⟩, .comment ⟨none, none⟩ c!" c #}"] := by rfl

/-- Whatever is accepted as a pattern is a spelling of it. -/
theorem C72_patterns (env : PEnv) (n : Nat) (s s' : PState) (i r : Str) (p : Target)
    (h : target env n s i = (.ok r p, s')) : ∃ t, i = t ++ r ∧ SpeltPat env.isLower t p := target_spelt env n s i r p s' h

example : (target ⟨⟨c!"{%", c!"%}", c!"{{", c!"}}", c!"{#", c!"#}"⟩, fun c => 'a' ≤ c ∧ c ≤ 'z'⟩ 9 ⟨0, 0⟩
    c!"Some with (x, -1) or A::B {y, z: 'c'} %}").1 = .ok c!"%}" (.orChain [.tuple [c!"Some"] [.name c!"x", .numLit c!"-1"],
      .struct [c!"A", c!"B"] [(c!"y", .name c!"y"), (c!"z", .charLit c!"c")]]) := by rfl

end Askama.Props
