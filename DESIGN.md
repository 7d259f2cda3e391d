# Formal model of djc/askama in Lean 4 — design

Source of truth: `/repo` (pinned commit). All citations are `file:lines` in `/repo`.
Lean 4.33.0, core library only unless a file imports one Mathlib module explicitly.

## 1. Technique

The model is a set of total, computable Lean functions that follow the Rust code function by function
(each definition cites the lines it models and states its simplifications). Properties are stated against
small separate specifications (`Verif/Spec/*`), proved by induction, invariants or refinement
for all inputs, and collected in `Verif/Props/*`. Helper lemmas live next to the model or in `*Lemmas` files.
Each property theorem has an `example` beside it showing that a non-trivial concrete case meets its hypotheses.

Conventions

* `Str = List Char`: Rust `&str`/`String` as the list of its Unicode scalar values. Where bytes matter
  (escaper, JSON writer, percent-encoding, `truncate`, `indent`, delimiter length) the UTF-8 encoding is modelled explicitly.
* `&mut self` / `Cell` state is threaded as a value; a method returns the new state. In the parser the
  state (`level`, `loop_depth`) is threaded through failures too, because the Rust cells are not rolled back.
* Panics (`assert!`, `unwrap`, slice indexing, `HashMap` indexing) are explicit error values.
* `HashMap` is an association list with "last insert wins"; iteration order is never observable in what is modelled
  (where the code iterates a map the result is again a map).
* Integers: `Nat` for `usize`. The `u8` arithmetic of the indentation of generated code is modelled by a check at the end of
  `generate`: a line indented by 64 or more is a panic, as with overflow checks (the default for derive macros); calls
  inside of arguments of calls, which indent further within an expression, are not counted.
* Generated Rust code is modelled as the statement tree that `rustc` reads from the emitted text, executed by a small
  interpreter of the Rust subset the generator emits. The `indent` counter and the `discard` flag of the text buffer, which
  decide whether the braces balance, are kept in the generator's state.
* User-supplied parts (Display impls, methods, user filters, operators, iterators) are parameters
  (`World`) of the theorems and quantified universally; nothing is assumed of them but what the theorem states.

## 2. Trusted base

* The Lean kernel and the axioms `propext`, `Classical.choice`, `Quot.sound` (no other axioms; no `sorry`,
  `native_decide`, `bv_decide`, `implemented_by`, `unsafe`).
* The reading of the Rust code into the model (no code was run), including the reading of
  external crates from their documented behaviour: `nom` 7 combinators (`many0`, `separated_list1`, `escaped`, `cut`, ...),
  `core::str` functions (`trim_*`, `replace`, `lines`, `split_whitespace`, `is_char_boundary`), `fmt` machinery
  (format strings, padding), `percent_encoding`, `Iterator::{enumerate, peekable}`, axum/actix/warp/rocket response builders.
* The semantics given to the emitted Rust subset (`let`, shadowing, blocks, `if`/`if let`, `match`, `for`, `break`,
  `continue`, `write!`): references are transparent, type checking and borrow checking are not modelled
  ("if rustc accepts the generated code, it behaves as follows").
* Unicode tables (`char::is_whitespace`, `char::is_lowercase`, case mapping) are parameters.
* Generator model: the emitted text is read back as the tree it was written from (string literals, names and operators are
  not re-lexed); the key of the expression cache is the tree instead of its text (`x` and `self.x` have the same tree, as they have the same text); the operations of the user's program (`World`)
  are pure functions that may fail (whether a name in a pattern, or a path of one name, is a constant is one of them), except that a value may be displayable once only; iterators are finite and a loop's filter
  closure is evaluated for all items before the body runs; arguments of Rust macros do not mention template variables or `self`; the
  variables that the generated code uses for itself (`_loop_item`, `_iter`, `_did_loop`, `writer`) are not found under these names; borrows
  and lifetimes are dropped; a `panic!` in user code is not distinguished from an error.
* Errors at run time (C19, C20): a write that fails ends the rendering with that error; a world in which more fails than in another
  (`FailsMore`) is used to compare destinations that fail at different points; a value is displayed as a list of pieces.
* Configuration model: paths are Unix path strings in normal form; TOML text and attributes are taken as parsed; the
  `mime_guess` table is a parameter; reading a file either gives its text or fails.

* Attributes (C62): what `syn` makes of the tokens is given (paths, literals with their values, parse errors); an argument value
  other than a literal is one case. The order of the `include_bytes!` lines (that of a `HashMap`) is fixed in the model.

Not modelled: the token parser of `proc_macro`/`syn`, TOML/serde parsing, file-system access (a parameter),
generics of the deriving struct, the `Print` debugging output, `filesizeformat`, `into_f64`/`into_isize`/`abs` (numeric casts),
the constant `SIZE_HINT` of the whole implementation (its parts are in C57), the text of the `impl` headers.

## 3. Plan per property

| Properties | Code | Model and proof |
|---|---|---|
| C01-C06 | `askama_escape` | `Verif/Model/Escape.lean`: `write_escaped` as the byte loop with `last`, over a writer that may fail at any call; `MarkupDisplay`. Spec: character map + entity grammar + decoder. Induction over the byte list with the loop invariant. |
| C07 | json writer | Same loop on bytes; spec: character map and a decoder of `\uXXXX`. |
| C08 | urlencode | Percent-encoding on UTF-8 bytes; spec: decoder and alphabet; homomorphism over chunks. |
| C09-C16 | text filters | `Verif/Model/Filters.lean`: each filter as a function of the sequence of chunks written by the value (stateful writers) or of its text. Specs: least boundary prefix, inserted spaces, maximal trim, intercalate, ... `join` twice and `paragraphbreaks`: negation + partial. |
| C17-C18 | TemplateLoop | Iterator as a step function `σ → Option α × σ` (not assumed fused); `Enumerate`, `Peekable`, `TemplateLoop` as state machines; spec: the trace of the source. `loop.cycle` arithmetic. |
| C19-C21 | Template trait, web crates | `render_into` as a writer program; agreement for all programs and writers; responses as records. |
| C22-C32 | askama_parser | `Verif/Model/Nom.lean` (combinators with Ok/Error/Failure and threaded cells), `Lex.lean`, `ParseExpr.lean`, `ParseNode.lean`. Closure lemmas per combinator (suffix property, state property), then induction on remaining nesting. Precedence by print–parse theorem. Level leak and error position: negation + partial. |
| C33-C34 | whitespace | The two-field state machine of the generator over the event sequence; spec: per-gap table. C34: negation + partial. |
| C35 | get_template_source | Direct. |
| C36-C37 | format strings, expression cache | Format-string writer and an independent format-string reader; induction over the run. Cache correctness for repeatable values; negation for `join`. |
| C38-C42 | code generation of control flow | `Verif/Model/Gen.lean` (generator), `Verif/Model/Rust.lean` (tree and interpreter of the emitted Rust), `Verif/Spec/Render.lean` (direct reading of the AST, independent of the generator), `Verif/Spec/Good.lean` and `Verif/Spec/Core.lean` (static checks). Simulation proof by induction, then laws of the language (`Verif/Spec/Meaning.lean`) transferred to running code. C39: negation + partial under the static check. |
| C43-C48, C60 | macros, includes, blocks, fragments, filter blocks | Same generator model; negations by executing the model on a concrete template; partial theorems under side conditions; argument-binding theorem for C43. |
| C49 | auto-escaping | From the generator model: every argument of every emitted write is wrapped; plus C01. |
| C50-C51, C55, C59 | config and input | Direct functional models with the file system as a parameter; decision-logic theorems. |
| C45, C52-C54 | heritage and template collection | Work-list algorithm model with parser results as a parameter; reachability theorem, termination measure; negations for cycles and directory-relative includes. |
| C61 | text of expressions | `Verif/Model/Text.lean`: the text that `visit_expr` writes, function by function. `Verif/Spec/RustRead.lean`: tokens and expression grammar of Rust as a reader. Read-back theorem: induction on the expression, with what may follow each piece of text; negations for `join` and for fields of numbers. |
| C62 | attribute arguments | `Verif/Model/Derive.lean`; exact characterisation against a list of key/value pairs, by induction over the arguments; negation for keys that are paths. |
| C63, C64 | the whole macro | `derive` from attributes, configuration file and files to the implementation or the error with stand-in. Dependency tracking: runs on two sets of contents compared step by step through the work list; three negations by execution. |
| C65 | text of statements | `Verif/Model/StmtText.lean`: the text of patterns, string literals and statements, as a relation between statements and texts made from the parts of the templates. `Verif/Spec/StmtRead.lean`: statements, patterns and macros of Rust as a reader; `Verif/Spec/SpellsStmt.lean`: what was read is what was meant. Existence of the text by induction over the generator, reading by induction over the text; five negations by evaluation. |
| C66 | template syntax | `Verif/Spec/Doc.lean`: a template as a list of pieces with the pieces inside them, its text and the tree it stands for. Read-back theorem through the parser model: patterns (`Lemmas/DocPat`), arguments (`DocArgs`), single tags (`DocTags`, `DocText`), tags with bodies (`DocBlocks`, `DocRead`), then mutual induction over pieces, branches, arms and lists. Every tag carries a layout (`Lay`): white space for each place where some may stand, and whether lists end in a comma; the text is written with it, and the tree does not depend on it (`C66_layout`). |
| C67 | acceptance | `Verif/Spec/Accept.lean`: the rules, by recursion on the template; calls of macros go down into the macro. Exactness for expressions (`visit_fits`), an invariant of the generator's state between nodes (`Ready`, `Poised`: indentation, buffer, pending whitespace), then induction over the nesting (`Lemmas/Accept`); the loader collects nothing else (`Lemmas/Alone`). Conversely, what compiles keeps the rules: pending expressions are visited before the end (`Lemmas/Needed`). `Spec/Tree`, `Lemmas/Tree`, `Lemmas/TreeNeeded` and `Props/Tree` are the same, in both directions, for templates that extend, include and import others: blocks are looked up along the inheritance chain as in `Spec/Render`, and included templates keep the rules where they are included. With C66 and C38 this gives the way from the text to the rendering. |
| C68 | asking for blocks | Invariant of the collection of blocks (every name is written in the template), the chain of templates as a relation; negation for templates without blocks. |
| C69 | tags out of place | `Verif/Spec/Stray.lean`: beginnings of templates as lists of open tags with finished pieces before them, and the words that may continue each. One lemma for every kind of open tag (`Lemmas/Stray`: if its body is refused, or ends where the tag cannot end, the tag is refused for good), then induction over the open tags; the pieces before are read by C66. `Props/BadExpr`: expression tags that are refused. |
| C70 | delimiters | Read-back (C66) is proved for all delimiters of `Verif/Spec/Delims.lean`: every lemma about the end of an expression only needs to know how the end of the tag starts. The nodes of a template depend on the delimiters only in the text of comments, which loading and generating ignore (`Lemmas/Comments`, for two loaders with two parsers). |
| C71 | grammar of expressions | `Spec/Grammar.lean` writes the grammar down with an inductive relation between texts and trees, by strength. Soundness of the parser (`exprP_spelt`): every combinator takes off a text with the wanted property (`Yields`), by induction on the nesting limit. |
| C72 | grammar of templates | `Spec/GrammarNode.lean`: an inductive relation between texts and nodes, with patterns, conditions, filters, comments. Soundness of `Node::many` (`nodesP_spelt`) in the same way as C71; positions the parser goes back to (`raw`, comments, patterns) are treated run by run. Left to C24, C26, C30: no `endraw` inside `raw`, `break` only inside loops, where a keyword ends. |
| C73 | writing again | From a derivation in the grammar of C71 a term of `Spec/Prec.lean` with the same tree is built (`tm_of`), by induction on the derivation; C28 says how every layout of that term is read. `Spec/Canon.lean` (`usual`) lists the oddities that have to be left out, `C73_false_odd` shows one. Whole templates: from a derivation in the grammar of C72 a template of `Spec/Doc.lean` with the same nodes is built (`docs_of`), and C66 says how every layout of it is read; that `break` is in loops, that no two texts are adjacent and that named arguments come last is taken from C26, C23 and C29, all other oddities are listed in `Spec/CanonNode.lean` (`usualNodes`). |
| C74 | what is read of the context | `Spec/Fields.lean` (`reads`) lists the names in expressions; `AlikeOn` says when two contexts are alike in a name. The emitted code is shown to read only those names (`generate_in`, an invariant over pending output and scopes of the generator, by induction along `handle`), and code that reads only those names to run alike (`execList_alike`, by induction on statements). Names of loop variables and macro parameters count as names. Methods that are called count by what they return. |
| C75 | what is used of the program | The same invariant (`generate_in`) with what an expression names of the program added (`Named`: filters, paths, macros of Rust), and worlds that differ in these (`Program`, `AlikeIn`). Which filters come with askama is a list of its own in the specification. C74 is the case of one program and two contexts. |
| C76 | what white space control can change | Nodes and code without white space, marks and comments (`bare`, `bareS`). The generator commutes with leaving these out (`handle_bare`: for every node, what is made of the bare node is the bare code), and so do contexts and inheritance (`contextNew_bare`, `heritageNew_bare`); running bare code makes the same text but for white space (`execList_bare`). So two templates with the same bare nodes have the same bare code. Adjacent texts are compared piece by piece: `a{% raw %}b{% endraw %}` is the same as `a{# #}b`, not as `ab`. `C76_false` shows that filter blocks have to be left out. |
| C77 | what stands outside of the blocks of templates that extend another | `idle` nodes define nothing, nor does anything in them; two versions of a template differ in idle nodes outside of all others (`SameInside`). `Context::new` makes the same definitions of both (`ctxLoop_same`: a simulation over the stack of lists to visit). The generator reads the nodes of a template only if it extends nothing: a simulation of the whole generator with contexts whose nodes are left out (`strip`, `handle_outer`), where the second run may have more templates (`MoreCs`), so that its bound on inheritance chains is larger. The other version must load: an include outside of blocks of a file that does not exist is an error. |
| C78 | definitions under names nobody uses | As C77, with more: `spare` nodes define nothing but new names. The maps of blocks, macros and imports of the two versions agree on all other names, and the first has none of the new ones (`MapPlus`); this survives `mergeCtx`, inheritance (`heritageNew_plus`) and all of the generator (`handle_plus`), which only looks names up: a lookup that succeeds in the first version is not one of a new name. Only templates that extend another are changed: elsewhere a macro or a block splits the text around it, or is rendered. |
| C79 | the setting `whitespace` and compiling | Two runs of the generator that differ in the setting are compared (`Like`): the scopes, the counters and the pending expressions are the same, only pending texts and white space differ (`dark`). Whenever the first run succeeds the second does so too or panics (`OkOr`), by induction on the depth of calls (`handle_like`). Filter blocks are left out (`C79_false`); the panics (`C79_false_panic`) are excluded by C60 for templates that are not deeply nested, whence the equivalence `C79_shallow_partial`. |
| C80 | the argument `escape` and compiling | Two runs of the generator that differ in the escaper are compared (`Alike`): the same variables are in scope, though they may stand for different expressions (`SameVars`), the same is pending, and the lines written so far are nested alike (`Shape`), so that the indentation overflows in both or in none. Visiting an expression ends in the same way whatever the scopes and the escaper (`visitExpr_even`). Induction on the depth of calls (`handle_alike`). |
| C56-C58 | identifiers, size hints, scope chains | Table model; sorting and median bounds; refinement to a stack of maps. |

## 4. Where the code disagrees with a property

Found while reading; each is established by a theorem that executes the model on a concrete witness, next to a `_partial` theorem
with the side condition under which the property holds.

1. `paragraphbreaks` produces `<p></p>` for empty/leading/trailing blank text and deletes a literal `<p></p>` (C14).
2. A `join` result displays only once; the generator's expression cache displays it several times, so the second
   `{{ xs|join(",") }}` in a run renders empty (C12, C37).
3. `{{ x }}{% let x = 1 %}`: the pending use of field `x` is resolved after the let (C39).
4. Block bodies: uses pending at the end of a block are resolved in the surrounding scope, and a `let` in a block or in an included
   template overwrites a same-named variable of the surrounding template, since no Rust scope is opened (C44, C46).
5. Macro arguments are resolved after earlier parameters were bound: `m(b, a)` for parameters `a, b` (C43). Parameters aliasing
   a caller variable are captured by a `let` in the macro body; keyword-named parameters are not found.
6. Block fragments: output pending after the fragment is dropped when flushed while the enclosing block is discarded; an `else`
   inside a discarded block unbalances the indentation counter and fails the derive; so does the text of the fragment get lost
   in front of a filter block (C47). For blocks of the layout, or inside of its blocks at any depth, that occur nowhere else,
   the fragment is shown to be the block's part of the whole text (`Spec/Fragment.lean` has the conditions).
7. Filter blocks: an empty body drops the text pending before it; control flow in the body is written unfiltered and
   before the pending text (C48). So raw blocks and literal text before such a filter block are lost or moved as well
   (C24, C33).
8. Cyclic `extends` of length two or more is not detected; heritage construction then does not terminate (C53).
9. `include` inside an included template of another directory is collected relative to that template but generated relative to
   the root template (C52).
10. Blocks inside filter blocks or macros are not registered; code generation indexes a missing map entry (C60).
11. Parse-error positions directly after a newline are attributed to the previous line (C32).
12. A failed pattern parse does not give back its nesting level, so many siblings such as `{% let (a,) = b %}` exhaust the
    nesting limit (C27). The same goes for conditions that start with a variable `let` or `set`, such as `{% if set.x %}`, since
    a pattern is tried first; `{% if set(a) == b %}` is rejected for this reason (C66).
13. `~` before and `+` (or default preserve) after a whitespace-only span keeps everything, against the documented preference (C34).
14. Delimiter length is checked in bytes (C55).
15. axum integration: the error page is built from a `String`, whose response has status 200 (C21).
16. Filters that take `impl ToString` panic if the value's `Display` fails; `write_into` panics on a template error with
    recent versions of the standard library (C20).
17. `center` is ignored by a `Display` that does not honour the width (C15).
18. The parser accepts `break` in a macro or block that is defined inside a loop (C26).
19. An empty opening comment delimiter makes the parser loop; the configuration check excludes it (C22, C55).
20. Parentheses are limited to about eight levels, because every level of an expression counts several times (C27).
21. `a|b` and `a| b` are filters, but `a | b` and `a |b` are bit-or; after a filter without arguments `a|f | b` is a filter
    again (C28). `a.0.1` is the field `0.1` of `a`, not the field `1` of the field `0` (rustc splits the token again, so the
    generated code still means the latter).
22. `{{ (x|safe) }}` is escaped, because only the outermost filter counts; the text of a filter block is escaped again
    unless its outermost filter is `safe` (C49).
23. `{% filter f(x|g) %}` and `{% filter g(x)|f %}` parse to the same tree (C48).
24. `loop.index` passed to a macro is evaluated inside the macro, hence in a loop of the macro (C43).
25. The size hint of an `if` adds up the text at the end of all its branches (C57).
26. A template that includes or imports itself is visited twice, and if it also extends another one a cycle of `extends` is
    reported that does not exist (C53, C54).
27. `foo.txt.j2` has extension `txt` and MIME type `text/plain`, but the HTML escaper (C50, C59).
28. `{% let type %}{% let type = 1 %}` declares a second variable, because the lookup
    uses the name without `r#` (C39).
29. `{% macro m(a, a) %}` is accepted; in `m(x, a=y)` the clash is not reported and `x` is dropped (C43).
30. Spellings of a path with `..` are different templates to the collector, which need not end (C54).
31. The count of spaces in front of a generated line is a `u8`: 31 loops (or 62 `if`s) inside of each other overflow it and
    the derive panics, if overflow checks are on (C60).
32. The arguments of `join` after the first are written behind `&` without parentheses: `x|join(a + b)` becomes
    `(&self.a) + self.b` (C61).
33. `1 .5` parses as field `5` of `1` and is written `1.5`, another number. `1.-1` parses as a field `-1` (C61).
34. Names of paths and filters are not made raw identifiers (`x|type`, `type::f`), nor is `super`; rustc rejects the code.
    The same goes for chained comparisons, `a == b == c` (C61).
35. `#[template(a::path = "…")]` reaches an `unreachable!` and panics; keys given twice are accepted, the last one counts (C62).
36. Generated code names the template files in `include_bytes!`, but neither the configuration file nor the places where
    a file would be found first; an inline template that refers to a file with its own made-up path (type name and
    extension, relative to the working directory) is replaced by that file, which is not named (C64).
37. The value of a `match` and of an `if let` is written behind `&` without parentheses: `{% match a + b %}` becomes
    `match &self.a + self.b`, where `&` belongs to `a` alone (C65).
38. `{% if let Some(x) = a || b %}` is accepted by askama but no Rust; `&&` after `if let` needs let chains, which older
    editions of Rust do not have. In a chain of several `&&` all but the last operand are evaluated without the variable, as
    `self.x` (C65, C44).
39. `{% else %}` before `{% else if %}` is accepted by askama, and gives text that is no Rust (C65).
40. Macro parameters are not made raw identifiers where they are declared: `{% macro m(type) %}` becomes `let (type) = …`,
    which is no Rust (C65).
41. `{% for a or b in x if c %}` writes the alternatives between the bars of a closure, where Rust allows them only in
    parentheses (C65).
42. Names that begin with `_` or an upper-case letter are paths for the parser, and the generator keeps no track of them: a
    block inside `{% for _x in … %}` sees `_x`; a macro parameter `FOO` whose argument is passed by its text does not exist in
    the body (C43, C46).
43. The names `self` and `writer` are refused in patterns but not as macro parameters: `{% macro m(writer) %}` writes the text of
    its body to the argument, and compiles only if that has `write_str` (C30).
44. `block = "x"` for a template that has no block and extends nothing is not refused: the template compiles and renders
    nothing (C68).
45. The configuration accepts closing delimiters that cannot be used: the first character of `-->` is taken for a whitespace
    marker, `x ?` in front of `?>` for an expression. Tags that end in an expression are then refused (C70).
46. The grammar (C71) has some surprises. `[,]` and `f(,)` are accepted as empty lists. A field may be any number, also a
    negative or fractional one: `a.-1` is read as a field `-1`. In the arguments of a Rust macro a `"` in a character literal
    is taken for the start of a string, so that `m!('"')` is refused.
47. `or` between alternatives of a pattern is not a whole word: `{% when a orb %}` is read as `a or b`.
48. Whether a template compiles can depend on the setting `whitespace`: the filter of `{% filter json %} {% endfilter %}` is
    looked at (and refused without the feature) only if the space is kept, and a space in 31 nested loops panics only if it is
    kept (`C79_false`, `C79_false_panic`).

## 5. Modules

* `Verif/Model/*` follow the code. `Base` (strings, UTF-8), `Escape`, `Filters`, `Runtime` (`Template`, `TemplateLoop`, web
  crates), `Writer` (`write!` into a failing destination), `Nom`, `Lex`, `ParseExpr`, `ParseNode` (askama_parser), `Ast`,
  `Names` (identifiers, scope chains), `Config`, `Input` (`TemplateInput`, `find_used_templates`, `build_template`), `Rust`
  (emitted statements and how they run), `Gen` (generator and heritage), `Hint` (size hints), `Text` and
  `StmtText` (the text of emitted expressions and statements).
* `Verif/Spec/*` say what is right, and are meant to be read without the proofs. `Render` is an interpreter of parsed
  templates; `Whole` puts the files of a template together (`load`); `Meaning` restates the interpreter as laws, one per kind
  of node, without recursion bounds (`Makes`); `Good` is a static check that excludes the disagreements of section 4 (for
  example, a `let` of a name that occurs in pending output); `Core` is the set of templates without `let`, macro calls and
  such, for which no check is needed; `Code` says what generated loops, conditionals and matches do when they run;
  `Flat` is the text of templates without tags that compute; `Refs` (references that can be followed), `Escaping`, `Collect`, `Errors`, `Prec`, `Names`, `Filters`,
  `Escape`, `Parse`, `Text`, `Config`, `Runtime` belong to single groups of properties; `Toy` is a small world of values for
  examples; `RustRead` reads the text of a Rust expression (tokens, then precedence), `NodeExprs` lists the expressions of a template, and `Spells` says when what was read is
  the modelled expression; `StmtRead` and `SpellsStmt` are the same for statements, and `NodeUses` lists the parts of a
  template with what they are used for; `Doc` and `Accept` write templates down as documents (C66, C67), `Tree` sets of
  templates that belong together, `Delims` and `Stray` delimiters and tags that do not belong where they are; `Grammar` and
  `GrammarNode` are the grammar of expressions and templates (C71, C72), `Canon`, `CanonNode` the oddities of what is accepted (C73), `Fields` what expressions name of the context and the program (C74, C75), `Space` what remains without white space (C76), `Outside` what can stand outside of blocks (C77), `Unused` definitions under new names (C78).
* `Verif/Lemmas/*` are proofs. `GenInv` (inversion of the generator), `GenStatic` (invariants of its state), `GenOut`, `GenFmt`,
  `GenEval`, `GenLet`, `GenLoop`, `GenNode`, `GenBlock`, `GenCall`, `GenFilter`, `GenMain` (simulation), `Cells`, `GenRel`
  (relation of scopes to stores), `Fuel` (results do not depend on the recursion bound), `Meaning`, `Code`, `Tame`,
  `Woven` (escaping), `Layout` (text of templates outside of the checks), `NoPanic`, `Fragment` and `Excerpt` (one block of a
  template), `RustRead`, `RustLex`, `TextParts`, `Text`, `TextRead` (reading back the text of expressions), `PatRead`,
  `StmtRead`, `StmtsRead`, `StmtThread`, `UsesFine` (the same for statements), `StmtEq`, `LexShape`, `ParseShape`, `NodeShape` (what the grammar guarantees of parsed expressions), `Errors`, `Flat`, `Params`, and the parser lemmas. `DocRead`,
  `Accept`, `Alone`, `Needed`, `Tree`, `TreeNeeded` (which templates compile), `VarNames`, `Comments`, `Grammar`,
  `GrammarExpr`, `GrammarPat`, `GrammarNode` (accepted texts are spellings), `Canon`, `CanonPat`, `CanonNode`, `CanonOk` (accepted expressions are terms, accepted templates are templates of `Spec/Doc.lean`), `FieldsEval`, `FieldsGen` (what the code reads of the context).
* `Verif/Props/*` are the properties. `Counter` has the negations that are proved by executing the model on a witness.

How the pieces fit for rendering: `Finishes W code s` says that the code of a template runs in world `W` and writes `s`;
`Translates code w` says that `code` was made by the whole model of the derive macro (configuration, loading, parsing,
collecting, generating) from the files that `w` holds, and that `w` passes one of the two checks; `Whole.Around` splits
the layout of `w` at a node. The theorems for single kinds of nodes (C24, C25, C33, C39-C46, C48) have two forms: one about
code (`Finishes ... ↔ ...`), and one about the language (`..._everywhere`), which applies at any depth.
For templates outside of the checks there is a weaker theorem, `layout_partial`: the text is laid out as the source says
(`Laid` in `Spec/Layout`), where the values that are displayed, the branches that are taken and the number of rounds of a
loop are left open. It needs only that filter blocks are not empty and have no control flow in them (`tidy`; for other
filter blocks it is false), and gives `C24_laid_partial`, `C25_laid_partial`, `C33_laid_partial` and `C45_laid`.
That the text of comments is irrelevant holds without any check: `Spec/Comments` removes the text of all comments, and
`Lemmas/Comments` shows that loading and generating do not notice (`C25_text_ignored`).
Assumptions of that group: `Stable W` (a value that is displayed again gives the same text, excluded by C12_false and
C37_false); a `break` outside of loops is rejected by rustc (`straysList`).

Panics of the derive macro (`unwrap`, indexing a map, `unreachable!`, `panic!`) are the error `.panic` of the model. The one
place where the author panics on purpose and that users see, a template without `path` and `source`, is a hypothesis of
`C60_no_panic_partial`; the other ways to panic are items 9, 10 and 31 of section 4. Stack overflow of the parser and of
the generator is not part of `.panic`: the former is C27, the latter is divergence of the model (C53).

For C61 the reader of `Spec/RustRead` is trusted to agree with rustc on the expressions that occur: its lexer takes the longest
operator, `&&` may be two references, a dot after a number belongs to it unless a word or another dot follows, and operators
bind as in the Rust reference. Left out of the text are the spaces in front of a line. The modelled expressions (`RExpr`) are
otherwise trusted to be what the text says; C61 is the proof of that.

For C65 the reader of `Spec/StmtRead` is trusted in the same way for statements, patterns and the arguments of `write!` and
`format!`; it rejects all forms that it does not know. The text of a statement is a relation (`StmtText`), because a modelled
statement does not say which template expression it comes from; the theorem holds for all texts that are made from parts of the
templates, and the text that the code writes is one of them. Which characters `{:#?}` leaves as they are (`plain`) is a
parameter, so nothing depends on the tables of Unicode; the literal in `include_bytes!` is written by `quote!` and taken to be
the one of `{:?}`. The cache of displayed expressions compares texts, that of the model compares modelled expressions; the field `x` and `self.x`, which have the same text, are the same modelled expression.
