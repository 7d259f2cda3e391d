import Verif.Spec.Toy

/-!
Templates on which the promised behaviour fails. Each theorem runs the whole model — parser, template collection,
code generator, generated code — on concrete files (`compiled`) and, where that is the comparison, the interpreter of
`Verif.Spec.Render` on the same files (`meant`). In the world `toy` the context field `x` displays as `x` and a filter `f`
makes `f(text)` of a text.
-/

namespace Askama.Props

open Askama Askama.Spec

/-- A single template. -/
def one (s : Str) : List (Str × Str) := [(c!"t/a.html", s)]

/-- The two agree on an ordinary template. -/
example : compiled (one c!"{% for x in [1,2] %}{{ loop.index }}{{ x }}{% if x == 1 %}<{% else %}{{ x|foo }}{% endif %}{% endfor %}") c!"a.html"
      = .ok (some c!"11<22foo(2)")
    ∧ meant (one c!"{% for x in [1,2] %}{{ loop.index }}{{ x }}{% if x == 1 %}<{% else %}{{ x|foo }}{% endif %}{% endfor %}") c!"a.html"
      = some c!"11<22foo(2)" := by decide +kernel

/-- C37 is false for `join`: the second display of the shared value shows nothing. -/
theorem C37_false :
    compiled (one c!"{% let l = [1,2] %}{{ l|join(\",\") }}; {{ l|join(\",\") }}") c!"a.html" = .ok (some c!"1,2; ")
    ∧ meant (one c!"{% let l = [1,2] %}{{ l|join(\",\") }}; {{ l|join(\",\") }}") c!"a.html" = some c!"1,2; 1,2" := by
  decide +kernel

/-- C39 is false: a `let` changes output before it, if the name was a field of the context there. -/
theorem C39_false :
    compiled (one c!"{{ x }}{% let x = 1 %}{{ x }}") c!"a.html" = .ok (some c!"11")
    ∧ meant (one c!"{{ x }}{% let x = 1 %}{{ x }}") c!"a.html" = some c!"x1" := by decide +kernel

/-- C43 is false: an argument is not evaluated in the caller's scope if an earlier parameter has its name. -/
theorem C43_false :
    compiled (one c!"{% macro m(a, b) %}{{ a }}-{{ b }}{% endmacro %}{% let a = 1 %}{% let b = 2 %}{% call m(b, a) %}") c!"a.html"
      = .ok (some c!"2-2")
    ∧ meant (one c!"{% macro m(a, b) %}{{ a }}-{{ b }}{% endmacro %}{% let a = 1 %}{% let b = 2 %}{% call m(b, a) %}") c!"a.html"
      = some c!"2-1" := by decide +kernel

/-- C43 is false: a variable of the macro can capture the argument. -/
theorem C43_false_capture :
    compiled (one c!"{% macro m(p) %}{% let a = 5 %}{{ p }}{% endmacro %}{% let a = 1 %}{% call m(a) %}") c!"a.html"
      = .ok (some c!"5")
    ∧ meant (one c!"{% macro m(p) %}{% let a = 5 %}{{ p }}{% endmacro %}{% let a = 1 %}{% call m(a) %}") c!"a.html"
      = some c!"1" := by decide +kernel

/-- C43 is false for a parameter whose name is not that of a variable for the parser: an argument that is a variable
reaches the body by its text only, but the body looks for a Rust item `FOO`. -/
theorem C43_false_path :
    compiled (one c!"{% macro m(FOO) %}{{ FOO }}{% endmacro %}{% let a = 1 %}{% call m(a) %}") c!"a.html" = .ok none
    ∧ meant (one c!"{% macro m(FOO) %}{{ FOO }}{% endmacro %}{% let a = 1 %}{% call m(a) %}") c!"a.html" = some c!"1" := by
  decide +kernel

/-- C43: the same macro with a literal argument, which is bound by `let`. -/
example : compiled (one c!"{% macro m(FOO) %}{{ FOO }}{% endmacro %}{% let a = 1 %}{% call m(1) %}") c!"a.html" = .ok (some c!"1")
    ∧ meant (one c!"{% macro m(FOO) %}{{ FOO }}{% endmacro %}{% let a = 1 %}{% call m(1) %}") c!"a.html" = some c!"1" := by
  decide +kernel

/-- Files of the next theorem. -/
def leak : List (Str × Str) :=
  [(c!"t/a.html", c!"{% let x = 0 %}{% include \"b.html\" %}{{ x }}"), (c!"t/b.html", c!"{% let x = 1 %}{{ x }}")]

/-- C44 is false: a variable of the included template replaces the one of the including template. -/
theorem C44_false : compiled leak c!"a.html" = .ok (some c!"11") ∧ meant leak c!"a.html" = some c!"10" := by
  decide +kernel

/-- C46 is false: a variable of a block replaces the one around it. -/
theorem C46_false :
    compiled (one c!"{% let x = 1 %}{% block b %}{% let x = 2 %}{% endblock %}{{ x }}") c!"a.html" = .ok (some c!"2")
    ∧ meant (one c!"{% let x = 1 %}{% block b %}{% let x = 2 %}{% endblock %}{{ x }}") c!"a.html" = some c!"1" := by
  decide +kernel

/-- C46 is false in the other direction too: a block can see a variable around it. -/
theorem C46_false_visible :
    compiled (one c!"{% let x = 1 %}{% block b %}{{ x }}{% endblock %}{{ x }}") c!"a.html" = .ok (some c!"11")
    ∧ meant (one c!"{% let x = 1 %}{% block b %}{{ x }}{% endblock %}{{ x }}") c!"a.html" = some c!"x1" := by
  decide +kernel

/-- C46 is false for names that are paths for the parser: a block in a loop sees the variable `_x` of the loop. -/
theorem C46_false_path :
    compiled (one c!"{% for _x in [1] %}{% block b %}{{ _x }}.{% if true %}{% endif %}{% endblock %}{% endfor %}") c!"a.html"
      = .ok (some c!"1.")
    ∧ meant (one c!"{% for _x in [1] %}{% block b %}{{ _x }}.{% if true %}{% endif %}{% endblock %}{% endfor %}") c!"a.html"
      = none := by
  decide +kernel

/-- Template of the next theorem. -/
def fragment : List (Str × Str) :=
  one c!"{% block a %}1{% block b %}2{% endblock %}3{% if true %}4{% endif %}{% endblock %}"

/-- C47 is false: the fragment `b` renders to nothing, although block `b` contributes `2`. -/
theorem C47_false : compiled fragment c!"a.html" (some c!"b") = .ok (some [])
    ∧ compiled fragment c!"a.html" = .ok (some c!"1234") := by decide +kernel

/-- C47 is false: with an `else` in the part that is left out, the template does not even compile. -/
theorem C47_false_error :
    compiled (one c!"{% block a %}1{% block b %}2{% endblock %}3{% if true %}4{% else %}5{% endif %}{% endblock %}") c!"a.html"
      (some c!"b") = .error .err
    ∧ compiled (one c!"{% block a %}1{% block b %}2{% endblock %}3{% if true %}4{% else %}5{% endif %}{% endblock %}") c!"a.html"
      = .ok (some c!"1234") := by decide +kernel

/-- C47 is false: a filter block as the next that makes code after the block removes the text of the fragment. -/
theorem C47_false_filter :
    compiled (one c!"{% block b %}x{% endblock %}{% filter upper %}y{% endfilter %}") c!"a.html" (some c!"b") = .ok (some [])
    ∧ compiled (one c!"{% block b %}x{% endblock %}{% filter upper %}y{% endfilter %}") c!"a.html" = .ok (some c!"xupper(y)") := by
  decide +kernel

/-- C48 is false: an empty filter block removes the text before it, and its filter is not called. -/
theorem C48_false :
    compiled (one c!"a{% filter upper %}{% endfilter %}b") c!"a.html" = .ok (some c!"b")
    ∧ meant (one c!"a{% filter upper %}{% endfilter %}b") c!"a.html" = some c!"aupper()b" := by decide +kernel

/-- C48 is false: with control flow in it, a filter block filters only the end of its text and writes the rest before
the text in front of the block. -/
theorem C48_false_control :
    compiled (one c!"a{% filter upper %}b{% if true %}c{% endif %}d{% endfilter %}e") c!"a.html" = .ok (some c!"bcaupper(d)e")
    ∧ meant (one c!"a{% filter upper %}b{% if true %}c{% endif %}d{% endfilter %}e") c!"a.html" = some c!"aupper(bcd)e" := by
  decide +kernel

/-- Files of the next theorem. -/
def nestedDirs : List (Str × Str) :=
  [(c!"t/a.html", c!"{% include \"d/b.html\" %}"), (c!"t/d/b.html", c!"{% include \"c.html\" %}"), (c!"t/d/c.html", c!"c")]

/-- C52 is false: the generator looks for `c.html` next to the root template, not next to the one that includes it. -/
theorem C52_false : compiled nestedDirs c!"a.html" = .error .err
    ∧ compiled nestedDirs c!"d/b.html" = .ok (some c!"c") := by decide +kernel

/-- Files of the next theorem. -/
def shadowedDirs : List (Str × Str) := nestedDirs ++ [(c!"t/c.html", c!"other")]

/-- C52 is false: with a file of that name next to the root template, which was never loaded, the generator panics. -/
theorem C52_false_panic : compiled shadowedDirs c!"a.html" = .error .panic := by decide +kernel

/-- Files of the next theorem. -/
def extendsCycle : List (Str × Str) :=
  [(c!"t/a.html", c!"{% extends \"b.html\" %}"), (c!"t/b.html", c!"{% extends \"a.html\" %}")]

/-- C53 is false for two templates that extend each other: nothing stops the derive (see `C53_false_forever`). -/
theorem C53_false : compiled extendsCycle c!"a.html" = .error .diverge := by decide +kernel

/-- Files of the next theorem. -/
def selfImport : List (Str × Str) :=
  [(c!"t/a.html", c!"{% extends \"b.html\" %}{% import \"a.html\" as s %}{% macro m() %}{% endmacro %}"), (c!"t/b.html", c!"x")]

/-- C53 is false the other way round: there is no cycle of `extends`, but one is reported, because a template that is
imported by itself is visited twice. -/
theorem C53_false_spurious : compiled selfImport c!"a.html" = .error .err ∧ meant selfImport c!"a.html" = some c!"x" := by
  decide +kernel

/-- C60 is false: a block inside a filter block is an unknown block, which is a panic if the template has other
blocks. -/
theorem C60_false :
    compiled (one c!"{% block z %}q{% endblock %}{% filter upper %}{% block b %}c{% endblock %}{% endfilter %}") c!"a.html"
      = .error .panic := by decide +kernel

/-- C60: the same inside a macro. -/
theorem C60_false_macro :
    compiled (one c!"{% block z %}q{% endblock %}{% macro m() %}{% block b %}c{% endblock %}{% endmacro %}{% call m() %}") c!"a.html"
      = .error .panic := by decide +kernel

/-- Loops inside of each other. -/
def loops (n : Nat) : Str :=
  (List.replicate n c!"{% for i in x %}").flatten ++ c!"a" ++ (List.replicate n c!"{% endfor %}").flatten

/-- C60 is false: with 31 loops inside of each other the count of the spaces in front of a line overflows. With 30 there
is no error. -/
theorem C60_false_depth : compiled (one (loops 31)) c!"a.html" = .error .panic
    ∧ ∃ out, compiled (one (loops 30)) c!"a.html" = .ok out :=
  ⟨by decide +kernel, none, by decide +kernel⟩

/-- C34 is false: the tag before asks for `~` and the one after for `+`, but both spaces are kept. -/
theorem C34_false : compiled (one c!"{{ x ~}}  {{+ x }}") c!"a.html" = .ok (some c!"x  x")
    ∧ compiled (one c!"{{ x +}}  {{~ x }}") c!"a.html" = .ok (some c!"x x") := by decide +kernel

end Askama.Props
