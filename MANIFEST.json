{"claims": [
 {"property": "C01", "status": "proved", "theorems": ["Pico.C01_intern_text"], "note": ""},
 {"property": "C02", "status": "proved", "theorems": ["Pico.C02_intern_sharing", "Pico.C02_intern_fresh"], "note": ""},
 {"property": "C03", "status": "proved", "theorems": ["Pico.C03_class_modifiers", "Pico.C03_member_modifiers", "Pico.C03_none", "Pico.C03_extensional_class", "Pico.C03_extensional_member"], "note": ""},
 {"property": "C04", "status": "proved", "theorems": ["Pico.C04_line_lookup"], "note": ""},
 {"property": "C05", "status": "proved", "theorems": ["Pico.C05_line_table", "Pico.C05_lookup"], "note": "invariant over every state of the tokenizer between calls of next_token; entries are at most the position reached so far, which after a heredoc is the end of the line break behind its closing label"},
 {"property": "C06", "status": "proved", "theorems": ["Pico.C06_text"], "note": "Every non-empty text without <? gives exactly one echo of the text; both spans cover the input."},
 {"property": "C07", "status": "partial", "theorems": ["Pico.C07_all_causes_partial", "Pico.C07_lexer_causes", "Pico.C07_causes_partial", "Pico.C07_all_causeless_partial", "Pico.C07_causeless_partial", "Pico.C07_laid_causes_partial", "Pico.C07_parser_causes", "Pico.C07_programs_partial", "Pico.C07_laid_partial", "Pico.C07_fails", "Pico.C07_fails_numbers", "Pico.C07_fails_point", "Pico.C07_fails_escape", "Pico.C07_fails_hexadecimal", "Pico.C07_fails_element", "Pico.C07_sources", "Pico.C07_cause_sources", "Pico.C07_lexer_sources"], "note": "False for the code: C07_fails refutes it, C07_sources lists aborting sources. For every source: if parse_str panics, then for one of the reasons of LexCause (Spec/LexPanics: a stray closing brace, a number that does not fit or is no octal number, a point at the end, unfinished or unknown escapes, $name[ or an unclosed ${ in a string, an unclosed string, a character beyond ASCII), or the source can be tokenized and the reason is one of Cause (Spec/Panics: nothing but tags, $$, (unset), yield as a name, use..as with a modifier, a parameter not followed by , or ), two instanceof, two else, a string in an unclosed argument list behind a quotation mark, a parenthesis that is never closed). Each reason occurs. C07_fails_numbers: every script with a number (decimal, octal, hexadecimal, binary) from 2^63 on, or with an 8 or 9 in a number that begins with 0, aborts, wherever the number is: what C07_lexer_causes says about numbers is sufficient, too. C07_fails_point: so does every script that ends with a point. C07_fails_escape, C07_fails_hexadecimal, C07_fails_element: so does every script with \\e, \\u, \\x before letters that are not hexadecimal digits (as in \"C:\\xampp\"), or $name[ in a string in double quotes, with no other special character before it in the string. No script of the grammar, and no text of pieces (C43) whose tokens form a program, makes parse_str abort. Missing: only the panics themselves; reasons for the tokenizer are necessary, not always sufficient, conditions."},
 {"property": "C08", "status": "partial", "theorems": ["Pico.C08_terminates_partial", "Pico.C08_fails", "Pico.C08_fails_class"], "note": "sources without {$ or ${, and sources in which these are followed by a simple closed expression, are tokenized (and parsed) in finitely many steps; false in general: the tokenizer does not stop on an unterminated block inside a string (C08_fails), and this for every script that ends in a string with an opened block, whatever the script, the text of the string and the name of the variable (C08_fails_class)"},
 {"property": "C09", "status": "proved", "theorems": ["Pico.C09_terminates", "Pico.C09_fuel"], "note": "termination of the recursive model: recursion depth at most 2 per token, loops at most tokens+2 rounds; the model's out-of-fuel outcome is never reached"},
 {"property": "C10", "status": "partial", "theorems": ["Pico.C10_identifiers_partial", "Pico.C10_yield_partial", "Pico.C10_fails", "Pico.C10_fails_class", "Pico.C10_fails_yieldfrom"], "note": "Every identifier at every place of a script is covered. It is read as claimed except yield before a blank, whose range takes in the blanks (C10_yield_partial), yield before blanks and the letters from, which are one token whatever follows them (C10_fails_class), and the name yieldfrom (C10_fails_yieldfrom). b directly before a quote or <<< is a string prefix, not an identifier."},
 {"property": "C11", "status": "partial", "theorems": ["Pico.C11_lower_partial", "Pico.C11_constants_partial", "Pico.C11_fails", "Pico.C11_fails_class", "Pico.C11_magic_fails"], "note": "Lower-case spelling of every reserved word, every spelling of true, false, null. False for the code otherwise: every other spelling of every reserved word is an ordinary name (C11_fails_class)."},
 {"property": "C12", "status": "proved", "theorems": ["Pico.C12_integers"], "note": "All four notations, every value below 2^63, after any blanks."},
 {"property": "C13", "status": "proved", "theorems": ["Pico.C13_single_quoted"], "note": "Every Unicode text, including the exact span."},
 {"property": "C14", "status": "partial", "theorems": ["Pico.C14_printed_string_partial", "Pico.C14_exact", "Pico.C14_fails"], "note": "All strings without two adjacent backslashes read back exactly; C14_exact: these and no others (a printed text with two backslashes in a row never reads back). C14_fails is one witness."},
 {"property": "C15", "status": "proved", "theorems": ["Pico.C15_invisible", "Pico.C15_insert"], "note": ""},
 {"property": "C16", "status": "partial", "theorems": ["Pico.C16_block_partial", "Pico.C16_line", "Pico.C16_fails", "Pico.C16_fails_class"], "note": "One-line comments and non-empty block comments are covered completely; false for the code for the empty comment /**/ (C16_fails): whatever follows it up to the next end of a comment is swallowed (C16_fails_class). For a body that begins with a star the delivered text lacks that star."},
 {"property": "C17", "status": "proved", "theorems": ["Pico.C17_printable"], "note": ""},
 {"property": "C18", "status": "proved", "theorems": ["Pico.C18_concat", "Pico.C18_text", "Pico.C18_indentation"], "note": ""},
 {"property": "C19", "status": "proved", "theorems": ["Pico.C19_source", "Pico.C19_sequence", "Pico.C19_exists", "Pico.C19_unique", "Pico.C19_precedence", "Pico.C19_parentheses", "Pico.C19_prefix", "Pico.program_parses"], "note": "Any number of operands and operators; the table is infixLevel in Spec/Grammar. From the source text, and for token sequences."},
 {"property": "C20", "status": "partial", "theorems": ["Pico.C20_round_trip_partial", "Pico.C20_accepted_partial", "Pico.C20_negative", "Pico.C20_fails", "Pico.C20_fails_class"], "note": "For every expression tree satisfying the decidable predicate rtExpr (Spec/RoundTrip.lean: all kinds of expressions the parser builds except the listed ones), the printed text, put behind return, parses back to the same tree up to positions. C20_accepted_partial: the same for every expression an accepted source returns if it satisfies clExpr (Spec/Clean.lean). C20_fails: !($a instanceof B) is read back differently; C20_fails_class: so is every sign in front of an instanceof, if its left side is not printed in parentheses. C20_negative: numbers the parser never produces."},
 {"property": "C21", "status": "partial", "theorems": ["Pico.C21_round_trip_partial", "Pico.C21_accepted_partial", "Pico.C21_fails", "Pico.C21_quirks"], "note": "C21_round_trip_partial: for every tree satisfying rtTops the rewritten file parses to the same statements up to positions. C21_accepted_partial: the same for every accepted source whose tree satisfies clTops (Spec/Clean.lean), which only lists constructs the printer does not print faithfully (and a few for which the proof is missing: ++1 and 1++, names of types in calls, doubles that begin with a dot, a double before a dot, identifiers outside ASCII). C21_quirks: 41 accepted sources, one for each excluded construct, whose rewriting is not read back."},
 {"property": "C22", "status": "partial", "theorems": ["Pico.C22_ints_partial", "Pico.C39_reading", "Pico.C22_misplaced_partial", "Pico.C22_fails", "Pico.C22_fails_call", "Pico.C22_fails_class", "Pico.C22_fails_calls", "Pico.C50_fails_class", "Pico.C49_source"], "note": "false for the code: 1+; is accepted as 1; (C22_fails_class: for every expression and every binary operator but instanceof), foo(1 2; as 2;, return f(..; as return; for every function and all arguments (C22_fails_calls), and unfinished indices, -> and :: behind a variable are dropped (C50_fails_class). The other half holds for every accepted source: the tree contains nothing that is not in the source, in the same order. C49_source lists the places where tokens can be dropped. C22_misplaced_partial: closing brackets, separators, case and default behind a program are rejected."},
 {"property": "C23", "status": "partial", "theorems": ["Pico.C23_source_partial", "Pico.C23_switch_partial", "Pico.C23_dropped", "Pico.C23_exact", "Pico.C23_fails"], "note": "All switches, from the source text. What is built are the cases of the switch without the default clauses that have no statements (C23_dropped); so a switch with at most one default is read as claimed if and only if its default has statements (C23_exact). C23_fails is one witness."},
 {"property": "C24", "status": "proved", "theorems": ["Pico.C24_source", "Pico.C24_chain"], "note": "Chains of any length with elseif or else if at each link, with or without else. From the source text, and for token sequences."},
 {"property": "C25", "status": "proved", "theorems": ["Pico.C25_interpolation", "Pico.C25_tokens"], "note": "C25_interpolation: from the source text, any sequence of text, escapes, $a and $a->b between double quotes. C25_tokens: the same on token sequences."},
 {"property": "C26", "status": "proved", "theorems": ["Pico.C26_source", "Pico.C26_name", "Pico.C26_print"], "note": "Any number of segments. From the source text, and for token sequences."},
 {"property": "C27", "status": "partial", "theorems": ["Pico.C27_range_partial", "Pico.C27_message_partial", "Pico.C27_aborts_partial", "Pico.C27_source_partial", "Pico.C27_fails", "Pico.C27_fails_class", "Pico.C27_fails_end", "Pico.C27_fails_string"], "note": "the range and line reported by the syntax stage are proved; for sources whose line breaks are counted (see C47) the message aborts exactly if the range is empty or has a line break in it, and otherwise shows the whole line with its number and marks the range; C27_fails*: formatting aborts for a hexadecimal literal, for every unexpected number with a dot (C27_fails_class), behind the last token of a line and for a string over two lines"},
 {"property": "C28", "status": "proved", "theorems": ["Pico.C28_restores", "Pico.C28_isolates", "Pico.C28_bisect", "Pico.C28_report_aborts"], "note": ""},
 {"property": "C29", "status": "partial", "theorems": ["Pico.C29_no_underflow_partial", "Pico.C29_balance", "Pico.C29_fails", "Pico.C29_fails_class"], "note": "in sources without {$ or ${ the bookkeeping never fails while a brace is open; false in general: a stray closing brace aborts instead of being reported (C29_fails), in every script, wherever it is and whatever follows (C29_fails_class)"},
 {"property": "C30", "status": "partial", "theorems": ["Pico.C30_inside_partial", "Pico.C30_ordered_partial", "Pico.C30_int_partial", "Pico.C30_fails", "Pico.C30_fails_class", "Pico.C30_overlap"], "note": "all tokens but number literals lie inside the source, and so do both ends of the ranges of integers (C30_int_partial); they are in order in sources without interpolated strings; false for hexadecimal literals (C30_fails), for every number with a dot in every source, whose range ends before it begins (C30_fails_class), and for the last part of an interpolated string (C30_overlap)"},
 {"property": "C31", "status": "proved", "theorems": ["Pico.C31_property_name", "Pico.C31_arrow"], "note": "Every ASCII identifier and every surrounding mode."},
 {"property": "C32", "status": "proved", "theorems": ["Pico.C32_source", "Pico.C32_arrays"], "note": "Any number of elements, with or without keys and trailing comma. From the source text, and for token sequences."},
 {"property": "C33", "status": "proved", "theorems": ["Pico.C33_class_source", "Pico.C33_member_source", "Pico.C33_class", "Pico.C33_member", "Pico.C33_print_member", "Pico.C33_print_class", "Pico.C33_read_back", "Pico.C33_read_back_class"], "note": "From the source text, and for token sequences."},
 {"property": "C34", "status": "partial", "theorems": ["Pico.C34_tokens_partial", "Pico.C34_tree_partial", "Pico.C34_outcome_partial", "Pico.C38_laid_partial", "Pico.C34_fails", "Pico.C34_fails_class"], "note": "Other blanks between the same lexemes (double-quoted strings with simple variables included) give the same tokens and the same outcome up to positions: the same tree, the same error or the same panic. C38_laid_partial: the same for all sources that consist of pieces, here documents and inline HTML included. Missing: interpolated expressions with double quotes, comments or braces in them; line ends inside casts, for which it is false (C34_fails), whatever the cast and the blanks (C34_fails_class)."},
 {"property": "C35", "status": "proved", "theorems": ["Pico.C35_sink"], "note": ""},
 {"property": "C36", "status": "proved", "theorems": ["Pico.C36_positions", "Pico.C36_rewrite"], "note": "Every sink, every pair of lists of statements."},
 {"property": "C37", "status": "partial", "theorems": ["Pico.C37_idempotent_partial", "Pico.C37_accepted_partial", "Pico.C37_layout_partial", "Pico.C37_fails"], "note": "For every accepted source whose tree satisfies clTops (or rtTops) the rewritten file is rewritten to itself; all scripts with the same tokens are rewritten to the same text. C37_fails: (include a) . $b . $c changes each time."},
 {"property": "C38", "status": "partial", "theorems": ["Pico.C38_script_partial", "Pico.C38_laid_partial", "Pico.C38_fails", "Pico.C38_fails_class"], "note": "C38_laid_partial: any two sources that consist of pieces (here documents, commands, inline HTML included) with the same tokens apart from comments and tags, accepted or not. Missing: interpolated expressions with double quotes, comments or braces in them. C38_fails: a comment between -> and a reserved word; C38_fails_class: any comment and any reserved word."},
 {"property": "C39", "status": "proved", "theorems": ["Pico.C39_reading", "Pico.C39_tokens"], "note": "every accepted source and every accepted token sequence, well-formed or not. Not counted as parts of the tree: brackets, separators, modifiers, echo, else, case, const, implicit concatenations."},
 {"property": "C40", "status": "proved", "theorems": ["Pico.C40_tokens"], "note": "for all pairs of sources; with both directions also: if one of them does not return, neither does the other"},
 {"property": "C41", "status": "partial", "theorems": ["Pico.C41_ranges_partial", "Pico.C41_moment_partial", "Pico.C41_int", "Pico.C41_double", "Pico.C41_fails", "Pico.C41_fails_class"], "note": "For all sources and all tokens but texts and marks of strings, and names that are not ASCII. False for the latter: the range of a name counts characters instead of bytes (C41_fails; C41_fails_class: every variable with such a name, behind any beginning of a script). Decimal and octal numbers have the right range, those with 0x or 0b the right begin only (C41_int), those with a dot never (C41_double)."},
 {"property": "C42", "status": "partial", "theorems": ["Pico.C42_partial", "Pico.C42_fails", "Pico.C42_fails_names", "Pico.C42_backquotes"], "note": "For all sources in which \"{$\" and \"${\" are followed by a simple closed expression (no double quotes, braces or comments in it), without non-ASCII names and without stray prefixes \"0x\", \"0b\". Violated by the code for the latter two (C42_fails, C42_fails_names)."},
 {"property": "C43", "status": "partial", "theorems": ["Pico.C43_unique", "Pico.C43_partial", "Pico.C43_complete_partial", "Pico.C43_iff_partial", "Pico.C43_fails_brace", "Pico.C43_fails_dot"], "note": "C43_unique for all texts. C43_iff_partial: tokens = tokens of the pieces, for all sources in which \"{$\", \"${\" are followed by a simple closed expression, without stray \"0x\"/\"0b\" and non-ASCII names, if no brace is closed that is not open and the source does not end with the symbol \".\" (both conditions needed: C43_fails_brace, C43_fails_dot). Missing: expressions between braces with double quotes, comments or braces in them."},
 {"property": "C44", "status": "partial", "theorems": ["Pico.C44_tokens_partial", "Pico.C44_source_partial", "Pico.C44_nested_partial", "Pico.C44_statements_partial", "Pico.C44_inside_partial", "Pico.C44_fails", "Pico.C44_fails_dollar", "Pico.C44_fails_foreach", "Pico.C44_fails_clone"], "note": "For all token lists and all accepted sources without clone and ${. The numeric form (ranges nest) needs tokens whose own ranges are in order (C30). The violations are proved: clone (C44_fails_clone for all names and blanks), ${, and &$v in foreach (C44_fails_foreach for all names and blanks)."},
 {"property": "C45", "status": "partial", "theorems": ["Pico.C45_tokenizer_partial", "Pico.C45_error_partial", "Pico.C45_parser", "Pico.C45_comment", "Pico.C45_fails", "Pico.C45_fails_class", "Pico.C45_fails_nowdoc", "Pico.C45_fails_nowdocs"], "note": "All errors of the tokenizer, for all sources. That the literal is really unfinished is proved for single-quoted strings, comments, escapes, and double-quoted strings without $. False for back quotes (C45_fails; C45_fails_class: every plain command if the source ends on its line, or a double quote or backslash follows on it) and for nowdocs with $ or { (C45_fails_nowdoc; C45_fails_nowdocs: all of them); the range for comments is behind the opening, and formatting the message always aborts (C45_comment)."},
 {"property": "C46", "status": "proved", "theorems": ["Pico.C46_tokens", "Pico.C46_source"], "note": "For every rejected token sequence and source text: the list of expected tokens is one of 21, the token at the position of the error is of none of the listed kinds, and the list is empty only behind the last token."},
 {"property": "C47", "status": "partial", "theorems": ["Pico.C47_table_partial", "Pico.C47_line_partial", "Pico.C47_tokenizer_partial", "Pico.C47_fails"], "note": "proved for all sources without heredocs and whose other line breaks are counted (none in block comments, outside of the tags, behind a backslash); C47_fails: for each of these four places a source whose error is put on another line"},
 {"property": "C48", "status": "proved", "theorems": ["Pico.C48_tokens", "Pico.C48_source"], "note": "shTops (Spec/Shape.lean) is a decidable predicate on trees alone. C48_tokens: any token list whose integers have 63 bits; C48_source: every accepted source."},
 {"property": "C49", "status": "proved", "theorems": ["Pico.C49_tokens", "Pico.C49_source", "Pico.C49_grammar", "Pico.C49_edges"], "note": "DerivesX true (Spec/Grammar.lean) is the grammar of the completeness theorems and a fixed list of additional rules x_.. describing every leniency. In most of these rules the dropped tokens are arbitrary, except that they close no bracket they have not opened: the theorem is an upper bound of what is accepted, not an exact description."},
 {"property": "C50", "status": "partial", "theorems": ["Pico.C50_tokens_partial", "Pico.C50_source_partial", "Pico.C50_grammar", "Pico.C50_fails", "Pico.C50_fails_class", "Pico.C22_fails_calls"], "note": "false for unclosed brackets: f([1, (2]); is accepted, return $a[i; for every variable $a and every index i is read as return $a; (C50_fails_class), and return f(..; for every function and all arguments as return; (C22_fails_calls). Proved that a closing bracket without an opening one is never accepted, for every source; and that the brackets match in whatever follows from the grammar without the leniencies of C49."},
 {"property": "C51", "status": "proved", "theorems": ["Pico.C51_tokens", "Pico.C51_source", "Pico.C51_rejected", "Pico.C51_unambiguous", "Pico.C51_unambiguous_expr"], "note": "for the grammar Derives of Spec/Grammar.lean (operators by a precedence table, all statements and declarations the parser knows) and all sources whose tokens form a non-empty program of it; the empty program makes parse_str panic (C07)"},
 {"property": "C52", "status": "partial", "theorems": ["Pico.C52_nearest", "Pico.C52_infinite", "Pico.C52_reads_back", "Pico.C52_same_value", "Pico.C52_shape", "Pico.C52_shortest", "Pico.C52_allowed", "Pico.C52_printed", "Pico.C52_accepted_partial", "Pico.C52_idempotent_partial", "Pico.C52_fails", "Pico.C52_fails_class", "Pico.C52_fails_infinite"], "note": "f64::from_str and the display of f64 are modelled by what they compute (Model/Float.lean). Reading, writing, shape and shortness are proved for all literals and numbers. Reading back rewritten sources is proved for finite doubles that are not integers, in sources without the constructs clTops excludes; false for integers and infinity (C52_fails: 1.0 becomes the integer 1, 99999999999999999999.0 a literal the parser panics on, 1e309 the name inf; C52_fails_class and C52_fails_infinite: every double that is an integer becomes one, every infinite double becomes the name inf)."},
 {"property": "C53", "status": "proved", "theorems": ["Pico.C53_tokens", "Pico.C53_tree", "Pico.C53_error", "Pico.C53_u32"], "note": "All tokens, all nodes of all trees, all errors."},
 {"property": "C54", "status": "proved", "theorems": ["Pico.C54_tokens", "Pico.C54_tree"], "note": "All tokens and all nodes of all trees."},
 {"property": "C55", "status": "partial", "theorems": ["Pico.C55_depth_partial", "Pico.C55_fails"], "note": "The linear bound on the depth holds for every source (C55_depth_partial); a fixed limit does not exist: for every k, an accepted source of k + 9 characters needs more than k nested calls (C55_fails). The size of a stack frame is not modelled."},
 {"property": "C56", "status": "partial", "theorems": ["Pico.C56_counter", "Pico.C56_doubling", "Pico.C56_doubling_accepted", "Pico.C56_fails"], "note": "The code violates the claim: calls double with every parenthesis that is opened in front of a mistake, in rejected and in accepted sources (C56_doubling, C56_doubling_accepted), so no polynomial bounds them (C56_fails). The calls are counted by a copy of the functions on the way to a parenthesis whose outcome is proved to be that of the parser (C56_counter); calls made elsewhere are not counted, so the numbers are lower bounds. Missing: an upper bound for sources without such parentheses."},
 {"property": "C57", "status": "partial", "theorems": ["Pico.C57_template_partial", "Pico.C57_page_partial", "Pico.C57_fails", "Pico.C57_fails_class"], "note": "All templates whose scripts consist of the items of Spec/Source (no here documents or interpolated expressions inside), with or without blocks over several pairs of tags, provided that statements end with a semicolon or brace in front of the close tag. False at the close tag (C57_fails): the line end behind it is echoed, `a<?= $x ?>b` is rejected (C57_fails_class: for all variables with their indices, members and calls, behind every program), a line comment swallows the close tag."},
 {"property": "C58", "status": "partial", "theorems": ["Pico.C58_here_partial", "Pico.C58_now_partial", "Pico.C58_now_exact", "Pico.C58_fails"], "note": "Proved for here documents of text, escapes, variables and properties that are not empty, and for now documents without $ and {, whose lines do not begin with the label: they denote their text exactly if no two backslashes and no backslash and quotation mark are adjacent (C58_now_exact gives the text in all cases). The conditions are necessary: escapes are decoded in now documents, \\\" in here documents, empty documents are rejected, and so are those with a line that begins with the label (C58_fails). Sources with HasStray, and for here documents HasWild, are excluded as in C42 and C43; blocks {$..} in documents are not treated here."},
 {"property": "C59", "status": "partial", "theorems": ["Pico.C59_text_partial", "Pico.C59_fails_octal", "Pico.C59_fails_octal_inside", "Pico.C59_fails_bytes", "Pico.C59_fails_abort", "Pico.C59_fails"], "note": "Proved from an independent reading of literals (Spec/Quoted) for all texts without \\e, octal numbers, \\u{..}, and \\x with less than two digits and another letter behind it. The code violates the claim for octal numbers, which are kept as they are written (C59_fails_octal, all of them; C59_fails_octal_inside, anywhere among plain characters), for bytes that are not UTF-8, which are rejected (C59_fails_bytes, all of them), and for \\e, \\u{..} and \\x4g, on which it aborts wherever they are (C59_fails_abort, C59_fails)."},
 {"property": "C60", "status": "partial", "theorems": ["Pico.C60_fails_class", "Pico.C60_braces_partial"], "note": "false for the code: the notation with a colon is rejected, for every head of a control structure behind every program of the grammar and whatever follows. The notation with braces is accepted."}
]}
