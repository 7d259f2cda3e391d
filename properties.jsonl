{"id": "C01", "title": "HTML-escaped output is inert", "statement": "The text produced by HTML escaping any value contains no `<`, `>`, `\"` or `'`, and every `&` in it begins one of the five entities `&lt; &gt; &amp; &quot; &#x27;`.", "quantifier": "every input string, of any length and content", "why_tests_cant": "The claim is over all strings; tests sample a few markup snippets and cannot rule out an input whose special characters slip through the byte table or the slice bookkeeping.", "anchors": ["askama_escape/src/lib.rs: Html::write_escaped", "askama_escape/src/lib.rs: escape, Escaped"]}
{"id": "C02", "title": "HTML escaping loses no information", "statement": "Decoding the five entities in the escaped text gives back exactly the original text; so two different texts never escape to the same output.", "quantifier": "every input string", "why_tests_cant": "Injectivity compares all pairs of strings.", "anchors": ["askama_escape/src/lib.rs: Html::write_escaped"]}
{"id": "C03", "title": "Escaping does not depend on how a value writes itself", "statement": "Displaying an unsafe value through the HTML escaper yields the character-by-character escape of its complete text, regardless of into how many and which `write_str` pieces the value's Display splits that text.", "quantifier": "every value, every sequence of pieces it writes", "why_tests_cant": "There are exponentially many ways of splitting a text; a test uses one Display impl.", "anchors": ["askama_escape/src/lib.rs: EscapeWriter::write_str", "askama_escape/src/lib.rs: MarkupDisplay::fmt"]}
{"id": "C04", "title": "The escaper only cuts text at character boundaries", "statement": "Scanning the UTF-8 bytes of any text, every slice the escaper takes begins and ends on a character boundary and within the text, so it never panics and passes every non-special character (of any byte length) through unchanged.", "quantifier": "every string and every byte position scanned", "why_tests_cant": "Multi-byte characters in all positions and combinations cannot be enumerated.", "anchors": ["askama_escape/src/lib.rs: Html::write_escaped"]}
{"id": "C05", "title": "A failing sink is reported, and only a prefix has been written", "statement": "If the destination writer fails at some point, escaping reports the failure, writes nothing further, and what the destination had accepted is a prefix of the correct output.", "quantifier": "every input and every point at which the writer can fail", "why_tests_cant": "Needs all failure points for all inputs.", "anchors": ["askama_escape/src/lib.rs: Html::write_escaped", "askama_escape/src/lib.rs: EscapeWriter::write_str"]}
{"id": "C06", "title": "Safe values pass verbatim, unsafe values are escaped exactly once", "statement": "A value marked safe is written unchanged, a value marked unsafe is escaped once; marking safe is idempotent and marking an already safe value leaves its output unchanged; escaping with the Text escaper is the identity.", "quantifier": "every value, escaper and sequence of mark_safe calls", "why_tests_cant": "Quantifies over all values and wrappers.", "anchors": ["askama_escape/src/lib.rs: MarkupDisplay::new_unsafe, new_safe, mark_safe, fmt", "askama/src/filters/mod.rs: safe, escape, e"]}
{"id": "C07", "title": "JSON filter output is markup-safe and still the same JSON", "statement": "The output of the `json` filter contains no `&`, `'`, `<` or `>`; it does not depend on how the serializer chunks its output; and resolving the introduced `\\u00XX` escapes recovers the serializer's text exactly.", "quantifier": "every JSON text and every chunking of it", "why_tests_cant": "All documents and all chunkings.", "anchors": ["askama/src/filters/json.rs: json, JsonWriter::write"]}
{"id": "C08", "title": "URL-encoding is reversible and uses only the permitted alphabet", "statement": "`urlencode` output consists only of ASCII letters, digits, `-_.~`, `/` and `%XX` triples (`urlencode_strict` additionally has no `/`); percent-decoding gives back the UTF-8 bytes of the input; the two filters differ only on `/`; the result does not depend on the chunks the value writes.", "quantifier": "every value's text and chunking", "why_tests_cant": "All byte sequences and chunkings.", "anchors": ["askama/src/filters/mod.rs: urlencode, urlencode_strict, URLENCODE_SET"]}
{"id": "C09", "title": "truncate keeps the least whole-character prefix of at least n bytes and marks a cut", "statement": "`truncate(n)` outputs the value's whole text if its shortest prefix that ends on a character boundary and has at least n bytes is the whole text, otherwise that prefix followed by `...`; never splits a character; and the result is independent of the pieces the value writes.", "quantifier": "every text, n, and chunking", "why_tests_cant": "Character widths, n, and chunk splits interact in unboundedly many ways.", "anchors": ["askama/src/filters/mod.rs: truncate, TruncateFilter"]}
{"id": "C10", "title": "indent only adds spaces after interior newlines", "statement": "`indent(w)` output is the text with w spaces inserted after every newline except one that is the last character; deleting the inserted spaces gives back the text; texts or widths at or above the documented limit are unchanged.", "quantifier": "every text and width", "why_tests_cant": "All texts and widths.", "anchors": ["askama/src/filters/mod.rs: indent"]}
{"id": "C11", "title": "trim removes exactly the surrounding whitespace, whatever the chunking", "statement": "`trim` yields the value's complete text without its maximal leading and trailing whitespace, even if the value writes whitespace in separate pieces.", "quantifier": "every value and chunking", "why_tests_cant": "Chunking interacts with the early left-trim; tests use single-piece values.", "anchors": ["askama/src/filters/mod.rs: trim"]}
{"id": "C12", "title": "join writes the items in order with the separator between them", "statement": "`join(sep)` of an iterator displays as the items in order with `sep` between consecutive ones and nothing before the first or after the last; displaying the joined value again produces the same text.", "quantifier": "every item list and separator, every number of displays", "why_tests_cant": "All lengths; the display-again part needs histories. (The second half is false of the code: see the negation theorem.)", "anchors": ["askama/src/filters/mod.rs: join, JoinFilter"]}
{"id": "C13", "title": "linebreak filters remove newlines and only insert the documented tags", "statement": "`linebreaksbr` replaces each newline by `<br/>` and nothing else; `linebreaks` wraps in `<p>…</p>`, turns each pair of newlines (leftmost first) into a paragraph break and each remaining newline into `<br/>`; no newline survives either.", "quantifier": "every text", "why_tests_cant": "All texts, in particular odd runs of newlines.", "anchors": ["askama/src/filters/mod.rs: linebreaks, linebreaksbr"]}
{"id": "C14", "title": "paragraphbreaks never leaves an empty paragraph and never drops text", "statement": "As documented, `paragraphbreaks` wraps paragraphs in `<p>`, treats runs of blank lines as one break so no empty paragraph is produced, keeps single newlines, and preserves all other text.", "quantifier": "every text", "why_tests_cant": "All texts with arbitrary runs of newlines. (False of the code for leading, trailing and empty text, and for text that itself contains `<p></p>`.)", "anchors": ["askama/src/filters/mod.rs: paragraphbreaks"]}
{"id": "C15", "title": "center pads evenly and never truncates", "statement": "`center(w)` yields the text padded with spaces on both sides to w characters with the extra space on the right, the text itself unchanged if already that wide or w is at or above the limit.", "quantifier": "every text and width", "why_tests_cant": "All lengths and widths.", "anchors": ["askama/src/filters/mod.rs: center"]}
{"id": "C16", "title": "capitalize, title and wordcount", "statement": "`wordcount` is the number of maximal non-whitespace runs; `capitalize` changes only case and depends only on first-character/rest; `title` preserves the text up to case.", "quantifier": "every text", "why_tests_cant": "All texts.", "anchors": ["askama/src/filters/mod.rs: wordcount, capitalize, title"]}
{"id": "C17", "title": "Loop metadata is right for every iterator", "statement": "Inside a for loop the items appear in iterator order, the i-th has index0 = i, index = i+1, `first` exactly for i = 0 and `last` exactly for the final item, and the source iterator is read at most one item ahead.", "quantifier": "every iterator (any length, including infinite and non-fused ones) and every number of steps", "why_tests_cant": "The last flag depends on the future of the iterator, over all iterators and all prefixes.", "anchors": ["askama/src/helpers.rs: TemplateLoop::next", "askama_derive/src/generator.rs: visit_attr (loop.*)"]}
{"id": "C18", "title": "loop.cycle is periodic", "statement": "`loop.cycle(xs)` yields the element at position index0 modulo the length of xs; consecutive iterations step through xs in order and wrap around; an empty list makes rendering fail rather than panic.", "quantifier": "every list and iteration number", "why_tests_cant": "All indices and lengths.", "anchors": ["askama_derive/src/generator.rs: visit_call (loop.cycle)"]}
{"id": "C19", "title": "All ways of rendering agree", "statement": "`render`, `render_into`, `write_into`, `to_string`/Display, rendering through a reference and through a `dyn` template all produce the same bytes for the same template value, or all fail.", "quantifier": "every template implementation and writer", "why_tests_cant": "Over all templates, including failing ones and all writer behaviours.", "anchors": ["askama/src/lib.rs: Template, DynTemplate, Display for dyn DynTemplate", "askama_derive/src/generator.rs: impl_display"]}
{"id": "C20", "title": "Errors are never swallowed", "statement": "If evaluating any expression that the control flow reaches fails, or a write fails, rendering returns an error; if rendering succeeds every reached expression succeeded.", "quantifier": "every template, context and failure point", "why_tests_cant": "All failure points in all templates.", "anchors": ["askama_derive/src/generator.rs: visit_try, visit_filter, write_buf_writable", "askama/src/error.rs"]}
{"id": "C21", "title": "Web responses reflect rendering", "statement": "The framework integrations answer with the rendered body and the template's MIME type when rendering succeeds, and with a server error and no partial page otherwise.", "quantifier": "every template", "why_tests_cant": "All templates and failure outcomes.", "anchors": ["askama_axum/src/lib.rs: into_response", "askama_actix/src/lib.rs: into_response", "askama_warp/src/lib.rs: into_response", "askama_rocket/src/lib.rs: respond"]}
{"id": "C22", "title": "Parsing is total and its positions are valid", "statement": "For every source and syntax the parser terminates with an AST or an error, and the unconsumed input of every result is a suffix of the source, so the position arithmetic for error reporting never under-flows or cuts a character.", "quantifier": "every source text and delimiter set", "why_tests_cant": "All texts, including malformed ones and multi-byte text.", "anchors": ["askama_parser/src/lib.rs: Ast::from_str", "askama_parser/src/node.rs: Node::many, Node::parse"]}
{"id": "C23", "title": "Literal text is reproduced verbatim", "statement": "A source that contains none of the opening delimiters parses to at most one literal and renders to exactly itself; in general each literal node is the source text between two tags.", "quantifier": "every source text", "why_tests_cant": "All texts, braces, quotes, backslashes, whitespace.", "anchors": ["askama_parser/src/node.rs: Lit::parse, split_ws_parts", "askama_derive/src/generator.rs: visit_lit, prepare_format"]}
{"id": "C24", "title": "Raw blocks are reproduced verbatim", "statement": "Everything between `{% raw %}` and the first `{% endraw %}` appears unchanged in the output (up to whitespace control), whatever tags it contains.", "quantifier": "every raw body without an endraw tag", "why_tests_cant": "All bodies.", "anchors": ["askama_parser/src/node.rs: Raw::parse"]}
{"id": "C25", "title": "Comments nest and produce nothing", "statement": "A comment extends to the matching closing delimiter for every nesting depth, contributes no output, and an unclosed comment is an error.", "quantifier": "every comment text and nesting depth", "why_tests_cant": "Unbounded nesting.", "anchors": ["askama_parser/src/node.rs: Comment::parse"]}
{"id": "C26", "title": "break and continue only inside loops", "statement": "A template is rejected if `break` or `continue` occurs outside the body of a for loop (the else branch of a for is not its body), and accepted nodes never contain a stray one; the loop depth bookkeeping returns to its initial value.", "quantifier": "every source", "why_tests_cant": "All nestings.", "anchors": ["askama_parser/src/node.rs: Node::break_statement, continue_statement, Loop::parse", "askama_parser/src/lib.rs: State::is_in_loop"]}
{"id": "C27", "title": "The nesting limit bounds recursion and depends only on nesting", "statement": "The parser's recursion depth never exceeds the fixed limit, and whether a template is rejected as too deeply nested depends only on how deeply its constructs are nested, not on how many siblings precede them.", "quantifier": "every source", "why_tests_cant": "Unbounded numbers of siblings. (The second half is false of the code: failed pattern parses leak levels.)", "anchors": ["askama_parser/src/lib.rs: Level, State::nest", "askama_parser/src/node.rs: Target::parse"]}
{"id": "C28", "title": "Operators have Rust precedence and associativity", "statement": "An expression built from the binary operators, prefix operators, filters and suffixes, written without redundant parentheses, is parsed to the tree given by Rust's precedence table with left associativity; parentheses override it.", "quantifier": "every operator expression within the nesting limit, with any white space between its tokens and with or without trailing commas", "why_tests_cant": "All trees, all layouts.", "anchors": ["askama_parser/src/expr.rs: expr_prec_layer, Expr::parse, filtered, prefix"]}
{"id": "C29", "title": "Named arguments are distinct and last", "statement": "An argument list is accepted only if no positional argument follows a named one and no name is repeated.", "quantifier": "every argument list", "why_tests_cant": "All lengths and orders.", "anchors": ["askama_parser/src/expr.rs: Expr::arguments, named_argument"]}
{"id": "C30", "title": "Keywords are whole words and reserved names cannot be bound", "statement": "A tag keyword is recognised only if not followed by an identifier character, and no accepted pattern binds `self` or `writer`.", "quantifier": "every source", "why_tests_cant": "All identifiers.", "anchors": ["askama_parser/src/lib.rs: keyword, identifier", "askama_parser/src/node.rs: Target::verify_name"]}
{"id": "C31", "title": "Named end tags match", "statement": "`endblock`/`endmacro` with a name is accepted only if the name equals the opening name.", "quantifier": "every pair of names", "why_tests_cant": "All names.", "anchors": ["askama_parser/src/node.rs: check_end_name"]}
{"id": "C32", "title": "Parse errors point at the right line and column", "statement": "The reported row is one plus the number of newlines before the error position, the column the number of characters since the last newline.", "quantifier": "every source and error position", "why_tests_cant": "All positions. (False of the code for positions directly after a newline.)", "anchors": ["askama_parser/src/lib.rs: Ast::from_str, ParseError"]}
{"id": "C33", "title": "Whitespace control follows the per-gap rule", "statement": "The text emitted for each literal is determined by the marker (or default) of the tag before it and the tag after it: leading whitespace by the former, trailing by the latter, interior text never touched; where `-` drops all, `~` keeps one newline or space, `+` keeps everything.", "quantifier": "every template and every default mode", "why_tests_cant": "All sequences of tags and literals.", "anchors": ["askama_derive/src/generator.rs: flush_ws, prepare_ws, handle_ws, visit_lit, should_trim_ws"]}
{"id": "C34", "title": "Competing whitespace markers are resolved suppress over minimize over preserve", "statement": "When two markers apply to the same whitespace-only span, the documented preference Suppress, then Minimize, then Preserve decides.", "quantifier": "every whitespace-only span and pair of markers", "why_tests_cant": "All spans and pairs. (False of the code: Minimize before, Preserve after keeps everything.)", "anchors": ["askama_derive/src/generator.rs: visit_lit, flush_ws", "book/src/template_syntax.md: Whitespace control"]}
{"id": "C35", "title": "A single trailing newline of a template file is dropped", "statement": "Reading a template file removes exactly one final newline if present and changes nothing else.", "quantifier": "every file content", "why_tests_cant": "All contents.", "anchors": ["askama_derive/src/config.rs: get_template_source"]}
{"id": "C36", "title": "Literal text survives the generated format string", "statement": "The format string and argument list generated for a run of literal text and expressions formats to the concatenation of the literal texts and displayed expressions, for text containing any braces.", "quantifier": "every run of literals and expressions", "why_tests_cant": "All texts with braces in all positions, all run lengths.", "anchors": ["askama_derive/src/generator.rs: prepare_format, named_expression, write_buf_writable"]}
{"id": "C37", "title": "Sharing repeated expressions does not change the output", "statement": "Evaluating a repeated side-effect-free expression once per write and showing it several times gives the same output as evaluating it each time.", "quantifier": "every run of expressions", "why_tests_cant": "All runs. (False of the code for `join`, whose value can be displayed only once.)", "anchors": ["askama_derive/src/generator.rs: is_cacheable, named_expression", "askama/src/filters/mod.rs: JoinFilter"]}
{"id": "C38", "title": "Generated code renders what the template says", "statement": "For every template of literals, expressions, let, if, match, for, break, continue, comments and raw blocks, running the generated code produces the output of the direct reading of the template.", "quantifier": "every template, context value and environment", "why_tests_cant": "A compiler-correctness statement over all programs and inputs.", "anchors": ["askama_derive/src/generator.rs: handle, write_if, write_match, write_loop, write_let"]}
{"id": "C39", "title": "let binds from its position on", "statement": "A variable use refers to the latest preceding let in scope and otherwise to the field of the context; a later let never changes earlier output.", "quantifier": "every template", "why_tests_cant": "All placements. (False of the code when a let shadows a struct field still pending in the write buffer.)", "anchors": ["askama_derive/src/generator.rs: write_let, is_shadowing_variable"]}
{"id": "C40", "title": "for-else runs exactly when nothing was iterated", "statement": "The else part of a for renders exactly if no item (after the filter condition) was produced; otherwise the body renders once per item in order, up to a break.", "quantifier": "every iterator, filter condition and body", "why_tests_cant": "All lengths and filters.", "anchors": ["askama_derive/src/generator.rs: write_loop"]}
{"id": "C41", "title": "Exactly the first matching branch renders", "statement": "Of an if/else-if/else or match chain exactly the first branch whose condition or pattern holds is rendered, and none if there is none.", "quantifier": "every chain", "why_tests_cant": "All chain lengths.", "anchors": ["askama_derive/src/generator.rs: write_if, write_match"]}
{"id": "C42", "title": "Names resolve to locals first, then to the context", "statement": "In generated code a template name denotes the innermost local of that name if any, else the context's field, and Rust keywords used as names do not collide.", "quantifier": "every scope stack and name", "why_tests_cant": "All nestings of scopes.", "anchors": ["askama_derive/src/generator.rs: MapChain, resolve, resolve_or_self, visit_var, normalize_identifier"]}
{"id": "C43", "title": "Macro arguments bind like function arguments", "statement": "A macro call binds each parameter to the positional or named argument for it, evaluated in the caller's scope; wrong counts, unknown names and clashes are compile errors.", "quantifier": "every macro, call and scope", "why_tests_cant": "All parameter lists and argument orders. (The caller's-scope part is false of the code: m(b, a) for parameters a, b.)", "anchors": ["askama_derive/src/generator.rs: write_call"]}
{"id": "C44", "title": "Included templates see the caller's variables and do not change them", "statement": "An include renders as if its text were inlined with the caller's variables visible, and assignments in it do not affect the including template.", "quantifier": "every include", "why_tests_cant": "All templates. (The isolation part is false of the code.)", "anchors": ["askama_derive/src/generator.rs: handle_include"]}
{"id": "C45", "title": "Inheritance renders the root layout with the most derived blocks", "statement": "A template that extends others renders the root's top level; each block shows the definition from the most derived template that has one; super() shows the next one up the chain.", "quantifier": "every chain of templates and every block", "why_tests_cant": "All chain lengths and block sets.", "anchors": ["askama_derive/src/heritage.rs: Heritage::new, Context::new", "askama_derive/src/generator.rs: write_block"]}
{"id": "C46", "title": "Blocks are isolated from surrounding variables", "statement": "Inside a block the variables of the surrounding template are not visible and assignments in a block do not affect the surrounding template.", "quantifier": "every template with blocks", "why_tests_cant": "All placements. (False of the code in both directions.)", "anchors": ["askama_derive/src/generator.rs: write_block"]}
{"id": "C47", "title": "Block fragments render exactly that block", "statement": "With `block = \"b\"` the output is exactly what block b contributes to the full rendering.", "quantifier": "every template and block", "why_tests_cant": "All templates. (False of the code when pending output is flushed while discarding, and such templates may fail to compile.)", "anchors": ["askama_derive/src/generator.rs: write_block, WritableBuffer::push, Buffer::writeln"]}
{"id": "C48", "title": "Filter blocks filter exactly their content", "statement": "A filter block outputs the filter applied to what its body renders, at its place in the output, and leaves everything around it unchanged.", "quantifier": "every body and surrounding text", "why_tests_cant": "All bodies. (False of the code for empty bodies and bodies with control flow.)", "anchors": ["askama_derive/src/generator.rs: write_filter_block, insert_first_filter_argument"]}
{"id": "C49", "title": "Auto-escaping has no holes", "statement": "In a template with the HTML escaper, everything rendered from an expression is HTML-escaped unless the expression's outermost filter is `safe` or `escape`/`e`.", "quantifier": "every template and context", "why_tests_cant": "All templates and values.", "anchors": ["askama_derive/src/generator.rs: named_expression, visit_filter, _visit_safe_filter, _visit_escape_filter"]}
{"id": "C50", "title": "The escaper is chosen by the first matching extension", "statement": "The escaper used is the first configured one, then default one, whose extension list contains the template's escape mode or file extension; if none matches the derive fails.", "quantifier": "every configuration and template path", "why_tests_cant": "All configurations.", "anchors": ["askama_derive/src/input.rs: TemplateInput::new", "askama_derive/src/config.rs: Config::new, DEFAULT_ESCAPERS"]}
{"id": "C51", "title": "Templates are looked up next to the referring file first, then in the configured directories in order", "statement": "A lookup returns the sibling of the referring template if it exists, else the first configured directory containing it, else an error.", "quantifier": "every directory list and file system", "why_tests_cant": "All configurations and file sets.", "anchors": ["askama_derive/src/config.rs: find_template"]}
{"id": "C52", "title": "Every template the code generator refers to has been loaded", "statement": "Each include, import and extends that code generation follows was loaded when templates were collected, with the same path.", "quantifier": "every set of templates", "why_tests_cant": "All template graphs. (False of the code for includes inside included templates in other directories.)", "anchors": ["askama_derive/src/input.rs: find_used_templates", "askama_derive/src/generator.rs: handle_include"]}
{"id": "C53", "title": "Cyclic inheritance is rejected", "statement": "If following extends from the template leads to a cycle, deriving reports an error instead of looping.", "quantifier": "every extends graph", "why_tests_cant": "All graphs. (False of the code for cycles of length two or more.)", "anchors": ["askama_derive/src/input.rs: find_used_templates", "askama_derive/src/heritage.rs: Heritage::new"]}
{"id": "C54", "title": "Template collection terminates and loads exactly the reachable templates", "statement": "Collecting used templates terminates, parses each reachable template once and nothing else.", "quantifier": "every template graph, including cyclic ones", "why_tests_cant": "All graphs.", "anchors": ["askama_derive/src/input.rs: find_used_templates"]}
{"id": "C55", "title": "Accepted custom syntaxes are unambiguous", "statement": "If a syntax configuration is accepted then no opening delimiter is a prefix of another, all delimiters have at least two characters and contain no whitespace, so at most one kind of tag can start at any position.", "quantifier": "every syntax configuration", "why_tests_cant": "All delimiter strings. (The length is checked in bytes, not characters.)", "anchors": ["askama_derive/src/config.rs: RawSyntax::try_into"]}
{"id": "C56", "title": "Raw-identifier mapping is exact and collision-free", "statement": "Template identifiers that are Rust keywords become raw identifiers, all others stay, no two identifiers collide, and applying it twice is the same as once.", "quantifier": "every identifier", "why_tests_cant": "All identifiers.", "anchors": ["askama_derive/src/generator.rs: normalize_identifier"]}
{"id": "C57", "title": "Size hints are harmless and bounded", "statement": "The size hint of a conditional lies between the least and greatest of its branches, and hints never influence the rendered text.", "quantifier": "every list of branch sizes, every template", "why_tests_cant": "All lists.", "anchors": ["askama_derive/src/generator.rs: median, write_if, write_match", "askama/src/lib.rs: Template::render"]}
{"id": "C58", "title": "Scope chains behave like a stack of maps", "statement": "Entering and leaving scopes, inserting and looking up behave like the innermost-binding-wins stack of maps, with the parent chain consulted last; balanced push/pop restores lookups.", "quantifier": "every sequence of operations", "why_tests_cant": "All histories.", "anchors": ["askama_derive/src/generator.rs: MapChain"]}
{"id": "C59", "title": "Extension and MIME type inference", "statement": "The extension of a template is the last one, or the one before a jinja-type extension; the MIME type is a function of it.", "quantifier": "every path", "why_tests_cant": "All names.", "anchors": ["askama_derive/src/input.rs: extension, ext_default_to_path, extension_to_mime_type"]}
{"id": "C60", "title": "Bad references are compile errors, not panics", "statement": "Unknown blocks, macros, import scopes, escapers and malformed filters lead to an error result and never to a panic or to silently ignored content.", "quantifier": "every template", "why_tests_cant": "All templates. (False of the code for blocks inside filter blocks or macros, and for very deep nesting.)", "anchors": ["askama_derive/src/generator.rs: write_block, write_call, visit_filter", "askama_derive/src/heritage.rs: Context::new"]}
{"id": "C61", "title": "Generated expressions mean what the template says", "statement": "The text written into the generated code for a template expression is read by the Rust compiler as that expression: the same operators applied to the same operands, the same calls with the same arguments, whatever the nesting.", "quantifier": "every expression of a template, every scope it may stand in", "why_tests_cant": "All expressions; precedence errors show only for particular combinations of operators. (False of the code for operators in arguments of join and for fields of number literals.)", "anchors": ["askama_derive/src/generator.rs: visit_expr, visit_binop, visit_unary, visit_index, _visit_args, _visit_join_filter, visit_loop_cycle (Expr::Call), visit_path, visit_var"]}
{"id": "C62", "title": "The template attribute says what it is read as", "statement": "The arguments of #[template(...)] are accepted exactly if there is one such attribute, every argument is a string for a documented key, print has one of its values and there is at most one of path and source; each setting is then the string given for it, whatever the order of the arguments. Everything else is a compile error.", "quantifier": "every list of attributes of a type", "why_tests_cant": "All combinations and orders of arguments. (False of the code for keys that are paths of several names, which make the macro panic.)", "anchors": ["askama_derive/src/input.rs: TemplateArgs::new, Print::from_str"]}
{"id": "C63", "title": "A template that does not compile leaves a usable stand-in", "statement": "Whenever the derive reports a compile error it also gives an implementation of the template traits, which renders nothing, so that no further errors arise; it gives the error exactly if compiling failed.", "quantifier": "every type, attribute, configuration and set of files", "why_tests_cant": "All ways to fail.", "anchors": ["askama_derive/src/lib.rs: derive_template, build_skeleton", "askama_derive/src/input.rs: TemplateArgs::fallback"]}
{"id": "C64", "title": "Changing a file that matters recompiles the template", "statement": "The generated code names every file it was made from, so that the compiler runs the derive again when one of them changes: as long as the named files are unchanged, the derive would give the same code.", "quantifier": "every project and every change of the contents of its files", "why_tests_cant": "All sets of files and changes. (False of the code for the configuration file, for new files that shadow others, and for inline templates with the name of a file.)", "anchors": ["askama_derive/src/generator.rs: impl_template (include_bytes)", "askama_derive/src/input.rs: find_used_templates", "askama_derive/src/config.rs: read_config_file, find_template"]}
{"id": "C65", "title": "The generated Rust text says what was meant", "statement": "The text that the derive hands to the Rust compiler as the body of the rendering function is accepted by the grammar of Rust and has exactly one reading, which consists of the statements that the template stands for: the same literal text, values, patterns, conditions and loops, nested in the same way, whatever characters, names and operators the template has.", "quantifier": "every accepted template, with all templates it extends, includes and imports", "why_tests_cant": "All templates and all literal texts. (False of the code: values of match and if let are written behind & without parentheses, || after if let, else before else if, keywords as macro parameters and alternatives in loops with a condition give text that is no Rust.)", "anchors": ["askama_derive/src/generator.rs: handle, write_if, write_match, write_loop, write_call, write_filter_block, write_let, write_buf_writable, visit_target, Buffer"]}
{"id": "C66", "title": "Template tags are read as they are written", "statement": "The text of a template made of text, comments, expressions and tags, nested in any way, is accepted and read as exactly these pieces: text stays text, every tag keeps its whitespace markers, its expressions, patterns, names, arguments and parameters, every body is the one between the tag and its end tag, every else, else if and when belongs to the innermost open tag of its kind, and names after endblock and endmacro change nothing. White space between the words, names and signs of a tag, and commas at the end of a list of arguments or parameters, change nothing either. In particular no text can be read in two ways.", "quantifier": "every list of pieces within the nesting limit, with the default delimiters or others that are told apart and whose ends cannot be taken for a part of an expression, and with any white space wherever white space may stand in a tag, in a pattern or in an expression (none at all where two words do not meet); conditions that start with the reserved words let or set are patterns", "why_tests_cant": "All nestings of all tags, with all expressions and patterns inside; tests have particular templates.", "anchors": ["askama_parser/src/node.rs: Node::parse, Node::many, Target, If, Cond, CondTest, Loop, Match, When, BlockDef, Macro, FilterBlock, Call, Let, Include, Import, Extends, Raw, Comment, Lit, Whitespace", "askama_parser/src/lib.rs: Ast::from_str, State"]}
{"id": "C67", "title": "Templates that keep the rules compile", "statement": "A template that keeps the written rules, together with the templates it extends, includes and imports, is accepted by the derive macro, whatever the configuration; and the code renders what the text says. The rules: filters that look at their arguments get the ones they ask for; loop has only its attributes and cycle; assignments are to names; calls are of macros of the template or of an imported one, with arguments that fit the parameters; super() is inside of a block with another definition further up; a block is not inside of itself; included templates are there and keep the rules; tags, blocks, includes and calls of macros are nested at most 29 deep. What is accepted keeps the rules, except for a few constructs that are not checked in full.", "quantifier": "every template with everything that belongs to it that keeps the rules, every configuration", "why_tests_cant": "Acceptance of all well-formed templates: nothing that keeps the rules is refused or makes the macro panic.", "anchors": ["askama_derive/src/lib.rs: build_template", "askama_derive/src/input.rs: find_used_templates", "askama_derive/src/heritage.rs: Context::new", "askama_derive/src/generator.rs: Generator::build, handle, visit_expr, write_call, write_let"]}
{"id": "C68", "title": "Asking for a block that does not exist is refused", "statement": "If the derive attribute asks for one block by its name (block = \"b\") and the template compiles, then a block of this name is written in the template or in one of the templates that it extends.", "quantifier": "every template, chain of templates, configuration and block name", "why_tests_cant": "Every misspelt name in every chain of templates.", "anchors": ["askama_derive/src/lib.rs: build_template", "askama_derive/src/heritage.rs: Heritage::new, Context::new"]}
{"id": "C69", "title": "Tags that are out of place are refused, wherever they are", "statement": "After any well-formed beginning of a template, with any tags open in it: the template cannot end while a tag is open; a tag whose word begins no piece must be one that continues or ends the innermost open tag (no end tag of another tag, no else, elif or when that does not belong there, no unknown word); break and continue are refused where no loop is open around them (the else part of a loop is not in the loop); extends takes no whitespace control; no macro is called super; comments must be closed; an expression tag must be closed, takes no further word after its expression, and nothing in single quotes but a character. All of these are errors, some with a fixed message.", "quantifier": "all delimiters as in C66; every beginning of a template (any nesting of open if, for, match, block, macro and filter tags with any finished pieces before), and everything that may follow", "why_tests_cant": "Every place of every template: the tags that are open, and what stands before, are arbitrary.", "anchors": ["askama_parser/src/node.rs: Node::many, Node::parse, Node::break, Cond::parse, If::parse, Loop::parse, Match::parse, When, BlockDef::parse, Macro::parse, FilterBlock::parse, Extends::parse, Comment::parse, Node::expr", "askama_parser/src/lib.rs: Ast::from_str, char_lit"]}
{"id": "C70", "title": "Delimiters make no difference", "statement": "If a project is changed from one set of delimiters to another, in its configuration and in all of its templates, then the same code is generated for every template (or the same kind of error reported). What a template means does not depend on the delimiters it is written with.", "quantifier": "every two sets of delimiters that the configuration accepts and whose ends of blocks and expressions are made of characters that cannot go on with an expression (like %> ]] $$ @} but not ?> or -->), every template and every set of other templates that can be written with both", "why_tests_cant": "All delimiters, all templates; tests have a few custom syntaxes with a few templates.", "anchors": ["askama_derive/src/config.rs: RawSyntax::try_into, Config::new", "askama_parser/src/lib.rs: Syntax, State", "askama_parser/src/node.rs: Node::parse, Comment::parse, Lit::parse", "askama_derive/src/input.rs: TemplateInput::new, find_used_templates"]}
{"id": "C71", "title": "Nothing but expressions is accepted as an expression", "statement": "Whatever text is accepted as an expression (or as the arguments of a call) is a spelling of the tree it is taken for, in the documented grammar: operators have operands of the strength they ask for, brackets are closed, the elements of lists are separated by commas, numbers, strings, characters and names have the right form, and there is nothing else in the text but white space. No part of an accepted text is skipped or read as something it does not say.", "quantifier": "every text, every nesting limit, everything that may follow the expression", "why_tests_cant": "It is about everything that must be refused: tests name some malformed texts, but there are infinitely many, with mistakes at any place and depth.", "anchors": ["askama_parser/src/expr.rs: Expr::parse, Expr::arguments, expr_prec_layer, Expr::filtered, Expr::prefix, Expr::single, Expr::group, Expr::array, Suffix::parse, Suffix::r#macro", "askama_parser/src/lib.rs: num_lit, str_lit, char_lit, identifier, path_or_identifier, keyword, ws, filter"]}
{"id": "C72", "title": "Nothing but templates is accepted as a template", "statement": "Whatever source is accepted as a template is, from the first to the last character, a spelling of the nodes it is read as: text between tags has no opening delimiter in it, comments are closed, every tag begins and ends with its delimiters and has the parts its keyword asks for in the right order, every block is closed by its own end tag with only the branches it can have in between, a name at an end tag is the one at its beginning, macros are not called super and patterns do not bind self or writer. Nothing in the source is passed over.", "quantifier": "every source, every syntax whose comment delimiters are not empty, every depth of nesting", "why_tests_cant": "It is about everything that must be refused, at any place and depth; tests name a few malformed templates.", "anchors": ["askama_parser/src/node.rs: Node::many, Node::parse, Lit::parse, Comment::parse, Node::expr, Target::parse, If, Loop, Match, When, Cond, BlockDef, Macro, FilterBlock, Call, Let, Include, Import, Extends, Raw", "askama_parser/src/lib.rs: Ast::from_str"]}
{"id": "C73", "title": "Accepted expressions and templates can be written down again", "statement": "What has been accepted can be written again from its tree, and means the same: every accepted expression has a text with one blank around operators, none elsewhere and only the parentheses that were there, and that text, like every other layout of it, is read as the very same expression. In the same way every accepted template can be written again, tag by tag, from its nodes, in any layout of the tags and with any delimiters, and is read as the very same nodes. Exceptions are the oddities that can be read but not be written in the usual way: fields that are no names or decimal numbers, numbered fields of numbers, quotes that are no strings in the arguments of Rust macros, a single | after a filter without arguments, patterns that are tuples of one element or begin with a Boolean, text that ends with the beginning of a delimiter, and comments that begin with a marker.", "quantifier": "every source and every expression accepted in it, every accepted template, every layout of the same expression or template, all usable delimiters, every nesting limit that is high enough", "why_tests_cant": "It relates the reading of any two texts of the same expression, of which there are infinitely many.", "anchors": ["askama_parser/src/expr.rs: Expr::parse, Expr::arguments, Filter, Suffix", "askama_parser/src/node.rs: Node::many, Node::parse, Tag", "askama_parser/src/node.rs: Target::parse"]}
{"id": "C74", "title": "A template reads nothing of the context but what it names", "statement": "What a template renders, and whether rendering fails, depends on the value of the template struct only through the fields and methods whose names occur in the expressions of the template and of the templates that it extends, includes or imports: two values that agree in these fields and in the results of these methods render alike. Only a template that mentions self as a value of its own can depend on anything else; a template without names renders the same text for every value.", "quantifier": "every set of templates that compiles, every configuration, every two values of the template struct, every meaning of filters, operators and functions", "why_tests_cant": "It compares the renderings for all pairs of values that agree in some fields, for every template; a test sees one pair.", "anchors": ["askama_derive/src/generator.rs: Generator::visit_var, visit_attr, visit_call, write_call, handle_include, write_block", "askama_derive/src/generator.rs: MapChain::resolve_or_self"]}
{"id": "C75", "title": "A template uses nothing of the program but what it names", "statement": "What a template renders, and whether rendering fails, depends on the surrounding program only through the filters, functions, constants and Rust macros that are named in the expressions of the template and of the templates that it extends, includes or imports (and on the context as in C74). Adding, removing or changing anything else, such as another function in the module `filters`, changes no rendering. A function in `filters` that has the name of a filter that comes with askama is never called.", "quantifier": "every set of templates that compiles, every configuration, every two programs that agree in what the templates name", "why_tests_cant": "It compares the renderings in all pairs of programs, for every template; a test sees one pair.", "anchors": ["askama_derive/src/generator.rs: Generator::visit_filter, visit_path, visit_rust_macro, write_filter_block", "askama_derive/src/generator.rs: BUILT_IN_FILTERS"]}
{"id": "C76", "title": "White space control changes nothing but white space", "statement": "Let two sets of templates be the same but for white space within and around their texts, the marks `-`, `+` and `~`, the setting `whitespace` of the configuration, comments, and whether a text stands between `{% raw %}` and `{% endraw %}`; the delimiters of the tags may differ too. If both compile and contain no filter blocks, they render, in any context, texts that differ in spaces, tabs, carriage returns and newlines only, or both fail. (The text of a filter block is handed to a filter, which can see its white space.)", "quantifier": "every two sets of templates that compile and are the same but for white space and its control, every configuration, every context", "why_tests_cant": "It compares all layouts of all templates, under all settings; a test compares a few renderings with expected texts.", "anchors": ["askama_derive/src/generator.rs: Generator::handle_ws, flush_ws, prepare_ws, skip_ws, visit_lit, write_buf_writable", "askama_derive/src/config.rs: WhitespaceHandling", "askama_parser/src/node.rs: Ws, Whitespace, Lit::split_ws_parts"]}
{"id": "C77", "title": "What a child template has outside of its blocks is never rendered", "statement": "Let a template compile, and let one or more of the templates involved in it that extend another template be changed outside of their blocks, macros and imports: text, comments, expressions, macro calls, `let`s, includes, and conditions, matches, loops and filter blocks without blocks inside, are added, removed or changed there. If all templates are still found and can be parsed, the template still compiles, to exactly the same rendering code. So such content has no effect on the output, cannot make rendering fail, and need not even make sense: it is never compiled.", "quantifier": "every set of templates that compiles, every change outside of the blocks of templates that extend another, every configuration", "why_tests_cant": "It ranges over all content that can stand outside of blocks, in all templates of all inheritance chains, also those of included templates.", "anchors": ["askama_derive/src/generator.rs: Generator::impl_template, handle, write_block, handle_include", "askama_derive/src/heritage.rs: Context::new, Heritage::new", "askama_derive/src/input.rs: TemplateInput::find_used_templates"]}
{"id": "C78", "title": "Definitions nobody uses are never compiled", "statement": "Let a template compile, and let one or more of the templates involved in it that extend another template get more blocks, macros or imports, outside of what they contain so far, under names that none of the templates involved has for a block, a macro or an import. If all templates are still found and can be parsed, the template still compiles, to exactly the same rendering code. So a block that no ancestor has is silently left out, also with the setting `block`, and the content of unused definitions need not even make sense.", "quantifier": "every set of templates that compiles, every addition of definitions under new names to templates that extend another, every configuration", "why_tests_cant": "It ranges over all definitions that can be added, at all places, in all templates of all inheritance chains, also those of included and imported templates.", "anchors": ["askama_derive/src/generator.rs: Generator::write_block, write_call, handle_include", "askama_derive/src/heritage.rs: Context::new, Heritage::new"]}
{"id": "C79", "title": "The white space setting does not decide whether a template compiles", "statement": "If a template compiles with one setting of `whitespace` (in the configuration file or as argument of the attribute), it compiles with every other setting, all else being the same. This is so for templates without filter blocks that are not nested too deeply; it is false in general: a filter block with nothing but white space inside has its filter checked only if the white space is kept, and a kept space in 31 nested loops overflows the indentation of the generated code, which is a panic.", "quantifier": "every template with all that belong to it, every configuration, every pair of settings", "why_tests_cant": "It ranges over all templates and all states the generator can be in when white space is kept, shrunk or dropped, in all nestings of loops, conditions, macros, blocks and included templates.", "anchors": ["askama_derive/src/generator.rs: Generator::flush_ws, handle_ws, visit_lit, write_buf_writable, write_filter_block, Buffer::write", "askama_derive/src/config.rs: Config::new"]}
{"id": "C80", "title": "The escape mode does not decide whether a template compiles", "statement": "With any two values of the argument `escape` that the configuration knows, the derivation for the same template ends in the same way: either both give a rendering function, or both end in an error, or both panic. So switching escaping on or off never makes a template fail to compile.", "quantifier": "every template with all that belong to it, every configuration, every pair of known escape modes", "why_tests_cant": "It ranges over all templates: the escaper takes part in which expressions are formatted once and used twice, in what macro parameters and filter blocks stand for, and so in the state of the generator at every point.", "anchors": ["askama_derive/src/input.rs: TemplateInput::new", "askama_derive/src/generator.rs: Generator::_visit_escape_filter, named_expression, prepare_format, write_call, write_filter_block"]}
