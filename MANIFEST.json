{
 "claims": [
  {
   "property": "C01",
   "status": "proved",
   "theorems": [
    "Askama.Props.C01_html_output_inert",
    "Askama.Props.C01_markup_inert"
   ],
   "note": "any text, any destination, any chunking"
  },
  {
   "property": "C02",
   "status": "proved",
   "theorems": [
    "Askama.Props.C02_html_roundtrip",
    "Askama.Props.C02_html_injective"
   ],
   "note": ""
  },
  {
   "property": "C03",
   "status": "proved",
   "theorems": [
    "Askama.Props.C03_chunk_independent",
    "Askama.Props.C03_same_text_same_output"
   ],
   "note": ""
  },
  {
   "property": "C04",
   "status": "proved",
   "theorems": [
    "Askama.Props.C04_never_panics",
    "Askama.Props.C04_plain_unchanged"
   ],
   "note": "slicing is modelled with an explicit panic value"
  },
  {
   "property": "C05",
   "status": "proved",
   "theorems": [
    "Askama.Props.C05_failure_prefix",
    "Askama.Props.C05_success_complete"
   ],
   "note": ""
  },
  {
   "property": "C06",
   "status": "proved",
   "theorems": [
    "Askama.Props.C06_safe_verbatim",
    "Askama.Props.C06_mark_safe",
    "Askama.Props.C06_mark_safe_idempotent",
    "Askama.Props.C06_text_identity",
    "Askama.Props.C06_escaped_once"
   ],
   "note": ""
  },
  {
   "property": "C07",
   "status": "proved",
   "theorems": [
    "Askama.Props.C07_json_no_markup",
    "Askama.Props.C07_json_chunk_independent",
    "Askama.Props.C07_json_same_meaning"
   ],
   "note": "serde_json itself is outside the model: its output is an arbitrary sequence of chunks"
  },
  {
   "property": "C08",
   "status": "proved",
   "theorems": [
    "Askama.Props.C08_alphabet",
    "Askama.Props.C08_decodes",
    "Askama.Props.C08_unreserved_unchanged",
    "Askama.Props.C08_path_unchanged",
    "Askama.Props.C08_differ_on_slash",
    "Askama.Props.C08_chunk_independent"
   ],
   "note": "the percent_encoding crate is modelled byte by byte"
  },
  {
   "property": "C09",
   "status": "proved",
   "theorems": [
    "Askama.Props.C09_truncate",
    "Askama.Props.C09_never_panics",
    "Askama.Props.C09_chunk_independent",
    "Askama.Props.C09_short_unchanged"
   ],
   "note": ""
  },
  {
   "property": "C10",
   "status": "proved",
   "theorems": [
    "Askama.Props.C10_indent",
    "Askama.Props.C10_unindent",
    "Askama.Props.C10_unique"
   ],
   "note": ""
  },
  {
   "property": "C11",
   "status": "proved",
   "theorems": [
    "Askama.Props.C11_trim",
    "Askama.Props.C11_chunk_independent"
   ],
   "note": ""
  },
  {
   "property": "C12",
   "status": "partial",
   "theorems": [
    "Askama.Props.C12_join_partial",
    "Askama.Props.C12_join_succeeds",
    "Askama.Props.C12_second_display_empty",
    "Askama.Props.C12_false"
   ],
   "note": "first display proved; displaying the same joined value again writes nothing (negation proved)"
  },
  {
   "property": "C13",
   "status": "proved",
   "theorems": [
    "Askama.Props.C13_linebreaksbr",
    "Askama.Props.C13_linebreaks",
    "Askama.Props.C13_no_newline"
   ],
   "note": ""
  },
  {
   "property": "C14",
   "status": "partial",
   "theorems": [
    "Askama.Props.C14_paragraphbreaks_partial",
    "Askama.Props.C14_false_empty",
    "Askama.Props.C14_false_drops_text"
   ],
   "note": "holds for texts without < whose first and last paragraph are non-empty; otherwise empty paragraphs appear or text is dropped (negations proved)"
  },
  {
   "property": "C15",
   "status": "partial",
   "theorems": [
    "Askama.Props.C15_center_partial",
    "Askama.Props.C15_false"
   ],
   "note": "holds for values whose Display honours the width; false for others (negation proved)"
  },
  {
   "property": "C16",
   "status": "proved",
   "theorems": [
    "Askama.Props.C16_wordcount",
    "Askama.Props.C16_capitalize",
    "Askama.Props.C16_title",
    "Askama.Props.C16_title_fold",
    "Askama.Props.C16_capitalize_fold"
   ],
   "note": "Unicode case tables are parameters"
  },
  {
   "property": "C17",
   "status": "proved",
   "theorems": [
    "Askama.Props.C17_loop_items",
    "Askama.Props.C17_reads_one_ahead"
   ],
   "note": ""
  },
  {
   "property": "C18",
   "status": "proved",
   "theorems": [
    "Askama.Props.C18_cycle",
    "Askama.Props.C18_periodic"
   ],
   "note": ""
  },
  {
   "property": "C19",
   "status": "proved",
   "theorems": [
    "Askama.Props.C19_routes_agree",
    "Askama.Props.C19_failures_agree",
    "Askama.Props.C19_any_writer"
   ],
   "note": ""
  },
  {
   "property": "C20",
   "status": "proved",
   "theorems": [
    "Askama.Props.C20_errors_not_swallowed",
    "Askama.Props.C20_writer",
    "Askama.Props.C20_prefix"
   ],
   "note": "Any generated rendering function: where more operations fail it fails or renders the same (C20_errors_not_swallowed); against a writer that may refuse any piece it writes the pieces of the text up to the first refused one and returns Ok exactly if none was refused and nothing failed (C20_writer, C20_prefix). A failing operation is one of the World parameters returning none."
  },
  {
   "property": "C21",
   "status": "partial",
   "theorems": [
    "Askama.Props.C21_success",
    "Askama.Props.C21_no_partial_page",
    "Askama.Props.C21_server_error_partial",
    "Askama.Props.C21_axum_false",
    "Askama.Props.C21_description"
   ],
   "note": "axum answers a failed rendering with status 200 (negation proved); everything else proved"
  },
  {
   "property": "C22",
   "status": "proved",
   "theorems": [
    "Askama.Props.C22_total",
    "Askama.Props.C22_empty_delimiter"
   ],
   "note": "The parser model never runs out of fuel or gets stuck: every source is either accepted or gives an error whose reported rest is a suffix of the source. Needs non-empty comment delimiters (C22_empty_delimiter shows a loop otherwise; the configuration rejects them)."
  },
  {
   "property": "C23",
   "status": "proved",
   "theorems": [
    "Askama.Props.C23_literals_tile",
    "Askama.Props.C23_plain_text",
    "Askama.Props.C23_renders_itself"
   ],
   "note": "Parser: literals are exactly the source text between delimiters, and a source without delimiters is at most one literal. Rendering: such a source compiles in every configuration and renders to exactly itself in every world."
  },
  {
   "property": "C24",
   "status": "partial",
   "theorems": [
    "Askama.Props.C24_raw_verbatim",
    "Askama.Props.C24_raw_template",
    "Askama.Props.C24_renders_body",
    "Askama.Props.C24_rendered",
    "Askama.Props.C24_everywhere",
    "Askama.Props.C24_laid_partial",
    "Askama.Props.C24_false"
   ],
   "note": "Parsing: a raw block takes its body verbatim. Rendering: in templates on which the generator is known to be faithful a raw block renders its content with the whitespace that its own tags leave (C24_rendered), and the same in all templates whose filter blocks are not empty and have no control flow (C24_laid_partial). For the remaining templates it is false (C24_false): an empty filter block drops the text before it."
  },
  {
   "property": "C25",
   "status": "proved",
   "theorems": [
    "Askama.Props.C25_comments_nest",
    "Askama.Props.C25_unclosed_comment",
    "Askama.Props.C25_unique",
    "Askama.Props.C25_text_ignored",
    "Askama.Props.C25_writes_nothing",
    "Askama.Props.C25_rendered",
    "Askama.Props.C25_everywhere",
    "Askama.Props.plain_renders",
    "Askama.Props.C25_laid_partial"
   ],
   "note": "Comments nest and are unique; unclosed ones are errors. Changing the text of any comments in a template and in all templates it uses changes nothing of the generated code or of the error (C25_text_ignored); a comment makes no code and adds to the pending text at most the whitespace in front of it (C25_writes_nothing). In rendered texts its part is empty: in templates on which the generator is known to be faithful (C25_rendered), and in all templates whose filter blocks are not empty and have no control flow (C25_laid_partial)."
  },
  {
   "property": "C26",
   "status": "proved",
   "theorems": [
    "Askama.Props.C26_break_in_loop",
    "Askama.Props.C26_loop_depth_restored"
   ],
   "note": ""
  },
  {
   "property": "C27",
   "status": "partial",
   "theorems": [
    "Askama.Props.C27_depth_partial",
    "Askama.Props.C27_false_siblings"
   ],
   "note": "Accepted templates nest at most 128 deep. That sibling tags do not count is false of the code: C27_false_siblings."
  },
  {
   "property": "C28",
   "status": "partial",
   "theorems": [
    "Askama.Props.C28_layout_partial",
    "Askama.Props.C28_precedence_partial",
    "Askama.Props.C28_range",
    "Askama.Props.C28_unambiguous",
    "Askama.Props.C28_false_filter_bar",
    "Askama.Props.C28_false_tuple_field"
   ],
   "note": "Every expression (names, paths, numbers in all forms, strings, characters with all escapes, Booleans, arrays, tuples, redundant parentheses, fields, indices, calls, Rust macro calls, ?, prefix operators, filters with and without arguments, binary operators, ranges with or without either end), printed with at least the necessary parentheses, in any layout (any white space, or none, at every place between two tokens, each place on its own, with or without a comma after the last element of a list; bit-or alone needs white space before it, which tells it from a filter), parses to its own tree, up to the nesting limit. Missing, because the property is false there: bit-or directly after a filter without arguments (a|f | b, C28_false_filter_bar) and a numbered field directly after a number (a.0.1, C28_false_tuple_field)."
  },
  {
   "property": "C29",
   "status": "proved",
   "theorems": [
    "Askama.Props.C29_named_arguments"
   ],
   "note": ""
  },
  {
   "property": "C30",
   "status": "proved",
   "theorems": [
    "Askama.Props.C30_keyword",
    "Askama.Props.C30_tag_word",
    "Askama.Props.C30_reserved_names",
    "Askama.Props.C30_or_is_not_a_keyword",
    "Askama.Props.C30_writer_parameter"
   ],
   "note": "Patterns only, as stated: macro parameters may be called `writer` (C30_writer_parameter)."
  },
  {
   "property": "C31",
   "status": "proved",
   "theorems": [
    "Askama.Props.C31_block_names",
    "Askama.Props.C31_macro_names",
    "Askama.Props.C31_mismatch"
   ],
   "note": ""
  },
  {
   "property": "C32",
   "status": "partial",
   "theorems": [
    "Askama.Props.C32_position_partial",
    "Askama.Props.C32_false"
   ],
   "note": "True unless the error position directly follows a newline; false there: C32_false."
  },
  {
   "property": "C33",
   "status": "partial",
   "theorems": [
    "Askama.Props.C33_one_literal",
    "Askama.Props.C33_rendered",
    "Askama.Props.C33_everywhere",
    "Askama.Props.plain_renders",
    "Askama.Props.C33_laid_partial",
    "Askama.Props.C33_false"
   ],
   "note": "The text of a literal is what the tag before it and the tag after it leave of it: in templates on which the generator is known to be faithful (C33_rendered), in plain templates, and in all templates whose filter blocks are not empty and have no control flow (C33_laid_partial). For the remaining templates it is false (C33_false): an empty filter block drops the text before it."
  },
  {
   "property": "C34",
   "status": "partial",
   "theorems": [
    "Askama.Props.C34_preference_partial",
    "Askama.Props.C34_false"
   ],
   "note": "False as stated (C34_false: ~ before and + after keeps everything); all other pairs of markers follow the documented preference."
  },
  {
   "property": "C35",
   "status": "proved",
   "theorems": [
    "Askama.Props.C35_trailing_newline"
   ],
   "note": "Exactly one final newline is dropped."
  },
  {
   "property": "C36",
   "status": "proved",
   "theorems": [
    "Askama.Props.C36_run"
   ],
   "note": "Every run of literals and expressions, any braces, for values that can be displayed repeatedly (C37 treats the rest)."
  },
  {
   "property": "C37",
   "status": "partial",
   "theorems": [
    "Askama.Props.C37_sharing_partial",
    "Askama.Props.C37_false",
    "Askama.Props.C37_effects_not_shared"
   ],
   "note": "False for the value of join (C37_false); proved for values whose display is repeatable. Expressions with calls are never shared (C37_effects_not_shared)."
  },
  {
   "property": "C38",
   "status": "partial",
   "theorems": [
    "Askama.Props.C38_unbounded",
    "Askama.Props.C38_code_is_faithful",
    "Askama.Props.C38_code_is_faithful_partial",
    "Askama.Props.layout_partial"
   ],
   "note": "C38_unbounded: whole pipeline (config, load, parse, collect, generate, run) against the interpreter of Verif.Spec.Render without any bound on recursion, for every template that has no let and macro calls (Verif.Spec.Core) or passes the static check good, in worlds where displaying a value again gives the same text. C38_code_is_faithful and C38_code_is_faithful_partial: the same for a given bound. The check rules out the templates of the _false theorems, on which the code differs."
  },
  {
   "property": "C39",
   "status": "partial",
   "theorems": [
    "Askama.Props.C39_false",
    "Askama.Props.C39_let_partial",
    "Askama.Props.C39_everywhere",
    "Askama.Props.C39_value"
   ],
   "note": "False as stated (C39_false: a let may change output before it). In templates on which the generator is known to be faithful, a let has no text, does not change text before it, and afterwards its name is the value and other names mean what they did."
  },
  {
   "property": "C40",
   "status": "proved",
   "theorems": [
    "Askama.Props.C40_generated",
    "Askama.Props.C40_for_else",
    "Askama.Props.C40_everywhere",
    "Askama.Props.met_layout",
    "Askama.Props.met_node",
    "Askama.Props.met_part",
    "Askama.Props.met_include",
    "Askama.Props.met_call",
    "Askama.Props.met_filter"
   ],
   "note": "C40_generated: unconditionally, for the code generated for any for tag, in every world and state (RanLoop in Verif.Spec.Code); met_* say that every node is met. C40_for_else and C40_everywhere: in terms of rendered texts, for the templates of C38_unbounded."
  },
  {
   "property": "C41",
   "status": "proved",
   "theorems": [
    "Askama.Props.C41_generated_if",
    "Askama.Props.C41_generated_match",
    "Askama.Props.C41_if",
    "Askama.Props.C41_if_everywhere",
    "Askama.Props.C41_match",
    "Askama.Props.C41_match_everywhere"
   ],
   "note": "C41_generated_if/_match: unconditionally, for the code generated for any if or match tag, in every world and state. The others: in terms of rendered texts, for the templates of C38_unbounded."
  },
  {
   "property": "C42",
   "status": "proved",
   "theorems": [
    "Askama.Props.C42_resolution",
    "Askama.Props.C42_keywords",
    "Askama.Props.C42_declared",
    "Askama.Props.C42_field"
   ],
   "note": "C42_resolution: every stack of scopes and every name, in every world and state. C42_keywords: names do not collide. C42_declared, C42_field: the same for the meaning of templates. At which point of the code a pending expression is resolved is the subject of C39."
  },
  {
   "property": "C43",
   "status": "partial",
   "theorems": [
    "Askama.Props.C43_false",
    "Askama.Props.C43_false_capture",
    "Askama.Props.C43_false_duplicate",
    "Askama.Props.C43_false_path",
    "Askama.Props.C43_arguments",
    "Askama.Props.C43_call_partial",
    "Askama.Props.C43_everywhere"
   ],
   "note": "Evaluation in the caller's scope is false (C43_false, C43_false_capture, C43_false_path) and clashes are not reported when parameters repeat (C43_false_duplicate). Proved for every template: the macro exists, counts agree, and with distinct parameters positional and named arguments cover each parameter exactly once. In templates on which the generator is known to be faithful the body is rendered with each parameter bound to the value of its argument."
  },
  {
   "property": "C44",
   "status": "partial",
   "theorems": [
    "Askama.Props.C44_false",
    "Askama.Props.C44_include_partial",
    "Askama.Props.C44_everywhere",
    "Askama.Props.C44_inlined"
   ],
   "note": "The isolation part is false (C44_false). In templates on which the generator is known to be faithful, an include renders the included template with the variables at its place; a template without blocks and extends is rendered as if inlined."
  },
  {
   "property": "C45",
   "status": "proved",
   "theorems": [
    "Askama.Props.C45_generated_root",
    "Askama.Props.C45_generated_block",
    "Askama.Props.C45_generated_super",
    "Askama.Props.C45_root",
    "Askama.Props.C45_block",
    "Askama.Props.C45_block_everywhere",
    "Askama.Props.C45_super",
    "Askama.Props.C45_laid"
   ],
   "note": "C45_generated_*: for the code of every template that compiles. C45_root, C45_block, C45_block_everywhere, C45_super: in terms of rendered texts, for the templates of C38_unbounded."
  },
  {
   "property": "C46",
   "status": "partial",
   "theorems": [
    "Askama.Props.C46_false",
    "Askama.Props.C46_false_visible",
    "Askama.Props.C46_false_path",
    "Askama.Props.C46_isolated_partial",
    "Askama.Props.C46_everywhere"
   ],
   "note": "False in both directions (C46_false, C46_false_visible, C46_false_path). In templates on which the generator is known to be faithful, a block leaves the variables around it as they are and its text does not depend on them."
  },
  {
   "property": "C47",
   "status": "partial",
   "theorems": [
    "Askama.Props.C47_false",
    "Askama.Props.C47_false_error",
    "Askama.Props.C47_false_filter",
    "Askama.Props.C47_fragment_partial",
    "Askama.Props.C47_fragment_exact",
    "Askama.Props.C47_part_of_whole_partial",
    "Askama.Props.C47_part_exact"
   ],
   "note": "False of the code: a fragment that renders to nothing (C47_false, C47_false_filter) and one that does not compile (C47_false_error). Proved: if the block stands at the top level of the layout, or inside of one of its blocks at any depth, and in no other place, nothing before it declares variables, the next tag of the layout after it that makes code is not a let or filter block, and in the blocks around it only text, expressions and comments follow, then what the fragment renders is the text of the block and the part of the whole text between the texts of the other nodes. If the layout has only text, expressions, comments, definitions and blocks besides, the fragment renders exactly if the block does. Missing: blocks inside of control flow, and blocks on which the generator is not known to be faithful."
  },
  {
   "property": "C48",
   "status": "partial",
   "theorems": [
    "Askama.Props.C48_false",
    "Askama.Props.C48_false_control",
    "Askama.Props.C48_filter_partial",
    "Askama.Props.C48_everywhere"
   ],
   "note": "False for empty bodies and bodies with control flow (C48_false, C48_false_control). In templates on which the generator is known to be faithful, a filter block renders the filter applied to the text of its content, in its place."
  },
  {
   "property": "C49",
   "status": "proved",
   "theorems": [
    "Askama.Props.C49_no_holes",
    "Askama.Props.C49_html"
   ],
   "note": "For every derive that compiles and every world of values: the rendered text is woven from literal text of the template and the templates it uses (or the single space / newline that whitespace control leaves), escaped values, and values of expressions whose outermost filter is safe/escape/e. C49_html: with the HTML escaper and no opt-out, every piece is inert or literal text. The built-in filters' own output is covered by C02-C06."
  },
  {
   "property": "C50",
   "status": "proved",
   "theorems": [
    "Askama.Props.C50_first_escaper",
    "Askama.Props.C50_no_escaper"
   ],
   "note": "The escaper of an accepted template is the one of the first entry, configured ones first, that lists its escape mode or extension; without one the template is rejected."
  },
  {
   "property": "C51",
   "status": "proved",
   "theorems": [
    "Askama.Props.C51_lookup",
    "Askama.Props.C51_sibling",
    "Askama.Props.C51_sibling_here"
   ],
   "note": "Sibling first, then the configured directories in order, else failure."
  },
  {
   "property": "C52",
   "status": "partial",
   "theorems": [
    "Askama.Props.C52_loaded_partial",
    "Askama.Props.C52_heritage_no_panic",
    "Askama.Props.C52_false",
    "Askama.Props.C52_false_panic"
   ],
   "note": "Extends and imports, and includes looked up from their own template, are always loaded, and heritage does not panic. False for includes inside included templates of other directories: an error or a panic."
  },
  {
   "property": "C53",
   "status": "partial",
   "theorems": [
    "Askama.Props.C53_self_extends_partial",
    "Askama.Props.C53_endless",
    "Askama.Props.C53_accepted_ends",
    "Askama.Props.C53_false",
    "Askama.Props.C53_false_forever",
    "Askama.Props.C53_false_spurious"
   ],
   "note": "A template extending itself is rejected; accepted templates have a finite chain; the chain computation diverges exactly on endless chains. False for cycles of length two, where it never returns; also a cycle is reported where there is none."
  },
  {
   "property": "C54",
   "status": "partial",
   "theorems": [
    "Askama.Props.C54_terminates",
    "Askama.Props.C54_reachable",
    "Askama.Props.C54_false_twice",
    "Askama.Props.C54_false_spellings"
   ],
   "note": "Terminates if finitely many paths exist, with at most one parse more than there are paths; exactly the reachable templates are collected. False: the first template is parsed twice if it refers to itself (C54_false_twice); without a bound on paths, spellings with .. never end (C54_false_spellings)."
  },
  {
   "property": "C55",
   "status": "partial",
   "theorems": [
    "Askama.Props.C55_unambiguous_partial",
    "Askama.Props.C55_false",
    "Askama.Props.C55_accepted"
   ],
   "note": "All but the number of characters, which is counted in bytes (C55_false). C55_accepted: exactly which configurations are accepted, and what becomes of the others."
  },
  {
   "property": "C56",
   "status": "proved",
   "theorems": [
    "Askama.Props.C56_exact",
    "Askama.Props.C56_injective",
    "Askama.Props.C56_idempotent"
   ],
   "note": "normalize_identifier is exactly: prefix r# to the Rust keywords that may be raw identifiers; injective on identifiers and idempotent"
  },
  {
   "property": "C57",
   "status": "partial",
   "theorems": [
    "Askama.Props.C57_match_bounded",
    "Askama.Props.C57_if_bounded_partial",
    "Askama.Props.C57_false",
    "Askama.Props.C57_harmless"
   ],
   "note": "Match: bounded by its arms. If: bounded when no text is pending at the ends of branches, false otherwise (C57_false). Hints never influence the output."
  },
  {
   "property": "C58",
   "status": "proved",
   "theorems": [
    "Askama.Props.C58_stack_of_maps",
    "Askama.Props.C58_no_parent",
    "Askama.Props.C58_balanced_restores"
   ],
   "note": "the map chain refines a stack of finite maps; balanced histories restore lookups"
  },
  {
   "property": "C59",
   "status": "proved",
   "theorems": [
    "Askama.Props.C59_extension",
    "Askama.Props.C59_mime",
    "Askama.Props.C59_mime_charset",
    "Askama.Props.C59_escaper_disagrees"
   ],
   "note": "Extension of every path, MIME type as a function of it, charset rule."
  },
  {
   "property": "C60",
   "status": "partial",
   "theorems": [
    "Askama.Props.C60_false",
    "Askama.Props.C60_false_macro",
    "Askama.Props.C60_false_depth",
    "Askama.Props.C60_no_panic_partial",
    "Askama.Props.C60_no_panic_one_directory",
    "Askama.Props.C60_config_no_panic",
    "Askama.Props.C60_derive_no_panic_partial"
   ],
   "note": "False as stated: blocks inside filter blocks or macros panic, and so does deep nesting (31 loops inside of each other), by overflow. Proved otherwise: for every configuration, set of files and template, compiling never panics if no block is inside a macro or filter block, included templates have been loaded (which holds when references mean the same in all templates), and at most 29 tags, templates and calls are inside of each other. The nesting that is counted is that of statements: the lines that a call inside of call arguments, or the condition of a loop, indents for itself are left out, so that the bound on nesting of C60_no_panic_partial is for expressions without such calls."
  },
  {
   "property": "C61",
   "status": "partial",
   "theorems": [
    "Askama.Props.C61_expr_text_partial",
    "Askama.Props.C61_shaped",
    "Askama.Props.C61_false_join",
    "Askama.Props.C61_false_number"
   ],
   "note": "For every accepted template and every expression in it: the text is read back as the modelled expression, uniquely, provided names are no keywords in positions where Rust forbids them and the like (ordinary), which the grammar does not guarantee. Negations for join with operators in its arguments and for fields of number literals."
  },
  {
   "property": "C62",
   "status": "partial",
   "theorems": [
    "Askama.Props.C62_arguments",
    "Askama.Props.C62_order",
    "Askama.Props.C62_refused_partial",
    "Askama.Props.C62_false_panic",
    "Askama.Props.C62_twice",
    "Askama.Props.C62_config"
   ],
   "note": "Acceptance and meaning of the arguments are characterised exactly (C62_arguments) and do not depend on their order (C62_order). That everything else is a compile error is false for keys that are paths of several names, which panic (C62_false_panic); proved for plain keys (C62_refused_partial). C62_twice: a repeated key is accepted and the last one counts."
  },
  {
   "property": "C63",
   "status": "proved",
   "theorems": [
    "Askama.Props.C63_stand_in",
    "Askama.Props.C63_only_errors"
   ],
   "note": "For every project, type and attributes."
  },
  {
   "property": "C64",
   "status": "partial",
   "theorems": [
    "Askama.Props.C64_tracked_partial",
    "Askama.Props.C64_false_config",
    "Askama.Props.C64_false_new_file",
    "Askama.Props.C64_false_inline"
   ],
   "note": "Proved for changes of the contents of template files (C64_tracked_partial). False as stated: the configuration file is not named (C64_false_config), new files may shadow others (C64_false_new_file), an inline template may be replaced by an unnamed file (C64_false_inline)."
  },
  {
   "property": "C65",
   "status": "partial",
   "theorems": [
    "Askama.Props.C65_statements_text_partial",
    "Askama.Props.C65_false_match",
    "Askama.Props.C65_false_if_let",
    "Askama.Props.C65_false_else",
    "Askama.Props.C65_false_parameter",
    "Askama.Props.C65_false_filter"
   ],
   "note": "Whole pipeline, from the attribute to the body of render_into. Missing: parts of templates that are not plain (values of match, if let and for that need parentheses behind &, keywords that have no raw form, else before else if, alternatives in let and filtered loops, expressions excluded in C61); for most of these the property is false of the code, as the negations show."
  },
  {
   "property": "C66",
   "status": "proved",
   "theorems": [
    "Askama.Props.C66_tags_read",
    "Askama.Props.C66_one_reading",
    "Askama.Props.C66_layout",
    "Askama.Props.C66_set_reserved"
   ],
   "note": "Mutual induction over pieces, branches, arms and lists, through the whole node parser; text and tree of a template are defined separately in Spec/Doc. Every tag has its own layout (white space at each place, trailing commas in argument and parameter lists); C66_layout: templates that are the same in the usual spelling are read as the same. Delimiters: those of Spec/Delims (the default ones among them); let and set are reserved at the start of a condition (C66_set_reserved shows why)."
  },
  {
   "property": "C67",
   "status": "proved",
   "theorems": [
    "Askama.Props.C67_compiles",
    "Askama.Props.C67_rules_needed",
    "Askama.Props.C67_compiles_iff",
    "Askama.Props.C67_unchecked",
    "Askama.Props.C67_written_to_rendered",
    "Askama.Props.C67_tree_compiles",
    "Askama.Props.C67_tree_rules_needed",
    "Askama.Props.C67_tree_compiles_iff",
    "Askama.Props.C67_tree_renders"
   ],
   "note": "The C67_tree theorems are for templates with everything that belongs to them (extends, blocks, super(), include, import), the others for templates that stand alone. The theorems that the rules are needed are without filter blocks, assignments to more than names and macros with two parameters of one name: there, rules are not checked in full (C67_unchecked). The rendering part is for the constructs of Verif.Spec.Core, or for templates that pass the check of Verif.Spec.Good"
  },
  {
   "property": "C68",
   "status": "partial",
   "theorems": [
    "Askama.Props.C68_missing_block_partial",
    "Askama.Props.C68_false_without_blocks",
    "Askama.Props.C68_false"
   ],
   "note": "the property as stated is false of the code for templates that have no block and extend nothing (C68_false, C68_false_without_blocks); proved for all others"
  },
  {
   "property": "C69",
   "status": "proved",
   "theorems": [
    "Askama.Props.C69_stray",
    "Askama.Props.C69_break_outside",
    "Askama.Props.C69_extends_marked",
    "Askama.Props.C69_macro_super",
    "Askama.Props.C69_unclosed_comment",
    "Askama.Props.C69_bad_char",
    "Askama.Props.C69_word_after_expr",
    "Askama.Props.C69_unclosed_expr"
   ],
   "note": "Spec/Stray gives the beginnings; C69_stray: end of the template and tags out of place; break and continue outside of loops, whitespace control on extends, macros called super, comments that are not closed, expressions that are not closed, words after expressions, bad character literals. Delimiters: those of Spec/Delims."
  },
  {
   "property": "C70",
   "status": "proved",
   "theorems": [
    "Askama.Props.C70_usable",
    "Askama.Props.C70_same_reading",
    "Askama.Props.C70_same_nodes",
    "Askama.Props.C70_same_code",
    "Askama.Props.C70_delimiters",
    "Askama.Props.C70_false_marker",
    "Askama.Props.C70_false_try"
   ],
   "note": "C70_usable: which accepted syntaxes are meant (Spec/Delims); C70_delimiters: the whole way from configuration and files to the generated code, with C66 for reading; C70_false_marker and C70_false_try show that the restriction to such delimiters is needed: --> and ?> are accepted in the configuration but do not work."
  },
  {
   "property": "C71",
   "status": "proved",
   "theorems": [
    "Askama.Props.C71_expressions",
    "Askama.Props.C71_arguments",
    "Askama.Props.C71_strength"
   ],
   "note": "Grammar: Verif/Spec/Grammar.lean. The other direction (texts that must be accepted) is C28 and C66."
  },
  {
   "property": "C72",
   "status": "proved",
   "theorems": [
    "Askama.Props.C72_templates",
    "Askama.Props.C72_parts",
    "Askama.Props.C72_patterns"
   ],
   "note": "Grammar: Verif/Spec/GrammarNode.lean. The other direction (templates that must be accepted) is C66 and C67."
  },
  {
   "property": "C73",
   "status": "partial",
   "theorems": [
    "Askama.Props.C73_expressions_partial",
    "Askama.Props.C73_in_templates_partial",
    "Askama.Props.C73_templates_partial",
    "Askama.Props.C73_false_odd"
   ],
   "note": "For expressions and whole templates. Left out: the oddities listed in usual and usualNodes (C73_false_odd shows that such have to be left out); the parser's further rules (break in loops, no adjacent texts, order of named arguments) are not assumed but taken from C26, C23, C29."
  },
  {
   "property": "C74",
   "status": "proved",
   "theorems": [
    "Askama.Props.C74_reads_what_it_names",
    "Askama.Props.C74_closed"
   ],
   "note": "The world of values is a parameter; names of local variables count as names too, so that the hypothesis asks a little more than needed."
  },
  {
   "property": "C75",
   "status": "proved",
   "theorems": [
    "Askama.Props.C75_uses_what_it_names",
    "Askama.Props.C75_askamas_filters"
   ],
   "note": "The world of values is a parameter: operators, fields and methods of values, matching, iteration and display are the same in both programs, and so are format!, join and the escapers. Names of local variables count as names of fields."
  },
  {
   "property": "C76",
   "status": "proved",
   "theorems": [
    "Askama.Props.C76_only_white_space",
    "Askama.Props.C76_setting",
    "Askama.Props.C76_false"
   ],
   "note": "For templates without filter blocks, as the property says; C76_false is the witness that with filter blocks it does not hold. The texts are compared piece by piece: a comment between two texts keeps them two. C76_setting is the case that only the setting changes."
  },
  {
   "property": "C77",
   "status": "proved",
   "theorems": [
    "Askama.Props.C77_outside"
   ],
   "note": "The other version of the templates must load, which means that all templates it names are found and parsed; it is then proved to compile, and to the same code. The bound (fuel) of the second compilation may be any that is not smaller."
  },
  {
   "property": "C78",
   "status": "proved",
   "theorems": [
    "Askama.Props.C78_unused"
   ],
   "note": "The other version of the templates must load, which means that all templates it names are found and parsed; it is then proved to compile, and to the same code. That no template has the new names so far is a hypothesis of the theorem, as it is of the property."
  },
  {
   "property": "C79",
   "status": "partial",
   "theorems": [
    "Askama.Props.C79_setting_partial",
    "Askama.Props.C79_shallow_partial",
    "Askama.Props.C79_false",
    "Askama.Props.C79_false_panic"
   ],
   "note": "As stated it is false: filter blocks with only white space inside (C79_false), deep nesting (C79_false_panic). Proved: without filter blocks a template that compiles with one setting compiles with every other or panics; without the causes of panics named in C60 it compiles with one setting iff it does with another."
  },
  {
   "property": "C80",
   "status": "proved",
   "theorems": [
    "Askama.Props.C80_escape_argument"
   ],
   "note": "For all templates and configurations, every outcome; the text of expressions inside of calls, which has lines of its own, is not counted in the model of the indentation (see Stmt.fits)."
  }
 ]
}
