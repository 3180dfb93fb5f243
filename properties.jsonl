{"id": "C01", "title": "Interning returns the text that was asked for", "statement": "After any sequence of earlier intern calls, interning a string returns a handle whose text equals that string, and every handle returned earlier still has the text it had.", "quantifier": "every sequence of intern calls and every string", "why_tests_cant": "Depends on the whole history of the table, not on one call; a table bug shows only for particular interleavings.", "anchors": ["src/interner.rs: Interner::new, Interner::intern"]}
{"id": "C02", "title": "Interning shares storage exactly for equal strings", "statement": "Two handles obtained from the same interner at any two moments point to the same allocation if and only if the two strings are equal.", "quantifier": "every sequence of intern calls and every pair of calls in it", "why_tests_cant": "Unit test covers one string interned twice; the claim ranges over all histories and needs injectivity too.", "anchors": ["src/interner.rs: Interner::intern"]}
{"id": "C03", "title": "Modifier sets behave as sets", "statement": "ClassModifiers::new(ms).has(m) (and MemberModifiers likewise) is true exactly when m occurs in ms; order and duplicates do not matter; none() has no modifier.", "quantifier": "every list of modifiers (any length, with repetitions) and every modifier", "why_tests_cant": "Lists are unbounded; a wrong bit value is visible only for particular combinations.", "anchors": ["src/ast.rs: ClassModifiers, MemberModifiers"]}
{"id": "C04", "title": "Line lookup finds the line containing a byte position", "statement": "For a non-decreasing line table whose first entry is 0, line_from_position(pos) terminates, never indexes out of range, and returns the last line whose start is <= pos; line(that) gives a start <= pos, and pos is below the start of the next line if there is one.", "quantifier": "every non-decreasing table of any length and every position", "why_tests_cant": "Binary search boundary errors show only for particular table sizes and positions.", "anchors": ["src/tokenizer.rs: LineMap::line_from_position, LineMap::line"]}
{"id": "C05", "title": "The line table built while tokenizing is always usable for lookup", "statement": "At every moment of tokenizing any source text the line table starts with 0, is non-decreasing, and never points past the current scan position reached so far or past the end of the source, so that line lookup is meaningful.", "quantifier": "every source text and every prefix of the token sequence", "why_tests_cant": "The table is pushed from seven different scanners with back-tracking; only an invariant over all executions settles it.", "anchors": ["src/tokenizer.rs: TokenizerState::next_line, whitespace, newline, match_comments, match_here_now_doc, match_sq_string, match_dq_string"]}
{"id": "C06", "title": "Text without an open tag is echoed unchanged", "statement": "Parsing a non-empty text that contains no \"<?\" returns exactly one echo statement whose single argument is a string literal with exactly that text, spanning the whole input.", "quantifier": "every text (any Unicode) that does not contain the two characters <?", "why_tests_cant": "Ranges over all texts of all lengths and encodings.", "anchors": ["src/parser.rs: Parser::parse_str, parse_tokens", "src/tokenizer.rs: initial_token"]}
{"id": "C07", "title": "Parsing never aborts", "statement": "Parser::parse_str returns Ok or Err for every input; it never panics.", "quantifier": "every source text", "why_tests_cant": "Absence of panics over all inputs cannot be established by examples.", "anchors": ["src/parser.rs: Parser::parse_str", "src/tokenizer.rs", "src/parser.rs: parse_top_statement_list"]}
{"id": "C08", "title": "Parsing always terminates: token stage", "statement": "Tokenizing any source text reaches the end of input or a syntax error after finitely many steps.", "quantifier": "every source text", "why_tests_cant": "Non-termination is not observable by testing finitely many inputs.", "anchors": ["src/tokenizer.rs: Tokenizer::next_token, str_block"]}
{"id": "C09", "title": "Parsing always terminates: syntax stage", "statement": "For every sequence of tokens the parser returns statements, an error, or panics after finitely many steps; it never loops or recurses forever.", "quantifier": "every finite token sequence, including ones no source text produces", "why_tests_cant": "Recursive descent with backtracking over unbounded input; termination needs a measure.", "anchors": ["src/parser.rs: Parser::parse_tokens, parse_expression, parse_statement and everything they call"]}
{"id": "C10", "title": "Identifiers are matched whole", "statement": "An ASCII identifier in script code that is followed by a non-identifier character is delivered as one token covering exactly the identifier: the keyword token if the identifier is (in lower case spelling) a reserved word, and a name token with that exact text otherwise; in particular a reserved word that is only a prefix of the identifier is never split off.", "quantifier": "every ASCII identifier and every following text that does not continue it", "why_tests_cant": "There are infinitely many identifiers; any ordering mistake in the 100-entry keyword chain shows only for particular words.", "anchors": ["src/tokenizer.rs: in_scripting_token, in_scripting_other_token, _label"]}
{"id": "C11", "title": "Reserved words are recognised regardless of letter case", "statement": "PHP keywords, word operators and magic constants are case-insensitive: any upper/lower-case spelling of a reserved word yields its keyword token.", "quantifier": "every reserved word and every casing of it", "why_tests_cant": "2^n casings per word.", "anchors": ["src/tokenizer.rs: StrStartsWithCI::starts_with_ci, in_scripting_other_token", "src/tokens.rs: Token::repr"]}
{"id": "C12", "title": "Integer literals have their mathematical value", "statement": "A decimal, octal (leading 0), hexadecimal (0x) or binary (0b) literal whose value fits in a signed 64-bit integer is delivered as one integer token with exactly that value and consumes exactly the digits.", "quantifier": "every digit string in each base, and every following text that does not continue the number", "why_tests_cant": "Unbounded digit strings; each base has its own scanner with its own position arithmetic.", "anchors": ["src/tokenizer.rs: _onum_dnum_lnum, _hnum, _bnum"]}
{"id": "C13", "title": "Single-quoted literals decode to the intended text", "statement": "If a text is written as a single-quoted literal by escaping each backslash and each quote with a backslash, the tokenizer delivers one string token whose content is exactly the text and resumes right after the closing quote.", "quantifier": "every Unicode text and every following source", "why_tests_cant": "All strings over an infinite alphabet, including multi-line ones.", "anchors": ["src/tokenizer.rs: match_sq_string, str_escape"]}
{"id": "C14", "title": "Printed string literals read back unchanged", "statement": "Printing a string literal expression and tokenizing the output gives back exactly the same string.", "quantifier": "every Unicode string", "why_tests_cant": "Escaping bugs show only for particular combinations of backslashes and quotes.", "anchors": ["src/printer.rs: print_expression (String)", "src/tokenizer.rs: match_sq_string"]}
{"id": "C15", "title": "Comments and tags are invisible to the syntax stage", "statement": "Adding or removing comments, open tags and close tags anywhere in a token sequence does not change the outcome of parsing it.", "quantifier": "every token sequence and every way of inserting comment/tag tokens", "why_tests_cant": "All positions of all sequences.", "anchors": ["src/parser.rs: Parser::parse_tokens"]}
{"id": "C16", "title": "A block comment is skipped exactly", "statement": "In script code, /* text */ is one comment token with exactly that text, and scanning resumes right after the closing */; # and // comments extend to the end of the line.", "quantifier": "every comment text that does not contain the terminator, and every following source", "why_tests_cant": "All comment texts.", "anchors": ["src/tokenizer.rs: match_comments"]}
{"id": "C17", "title": "Everything the parser returns can be printed", "statement": "For every token sequence, if parsing succeeds then pretty printing the resulting statements does not panic.", "quantifier": "every token sequence on which the parser succeeds", "why_tests_cant": "The printer has unimplemented cases; one must know the shape of every reachable syntax tree.", "anchors": ["src/printer.rs: print_expression, print_statement", "src/parser.rs: parse_tokens"]}
{"id": "C18", "title": "Printing is compositional", "statement": "Printing a list of statements writes the concatenation of what printing each statement separately writes; indentation is restored after every statement.", "quantifier": "every pair of statement lists", "why_tests_cant": "Indentation is mutable state changed in many branches; a missing restore shows only for particular nestings.", "anchors": ["src/printer.rs: print_statements, print_statement, print_block, print_member_body"]}
{"id": "C19", "title": "Operator precedence and associativity", "statement": "A sequence of operands and binary operators parses to the tree prescribed by PHP's precedence and associativity table (or < xor < and < ?: < || < && < | < ^ < & < equality < comparison < shift < + - . < * / % < **, all left associative except **, parentheses override).", "quantifier": "every operator expression of any size and nesting", "why_tests_cant": "Unbounded nestings; a wrong comparison in precedence climbing shows only for particular operator pairs and depths.", "anchors": ["src/parser.rs: Precedence, Token::precedence, Token::associativity, parse_unary_expression, parse_binary_expression"]}
{"id": "C20", "title": "Printed expressions read back as the same expression", "statement": "Parsing the printed form of an expression tree obtained from the parser returns the same tree up to source positions.", "quantifier": "every expression tree the parser can return", "why_tests_cant": "Infinitely many trees; parenthesisation bugs depend on particular parent/child pairs.", "anchors": ["src/printer.rs: print_expression, print_expression_curly_parens", "src/parser.rs: parse_expression"]}
{"id": "C21", "title": "Printed programs read back as the same program", "statement": "For a file that parses, writing back \"<?php\\n\" + printed statements + \"\\n?>\" (what the rewrite tool does) yields a file that parses to the same statements up to source positions.", "quantifier": "every program that parses", "why_tests_cant": "The project's own CI tool samples this on real code bases; only a proof covers all programs.", "anchors": ["ci/tester/main.rs: parse_file", "src/printer.rs: print_statements", "src/parser.rs: parse_str"]}
{"id": "C22", "title": "Malformed input is rejected", "statement": "If the parser accepts, every token of the input is accounted for in the result: an operator without right operand, an unclosed bracket or a stray modifier is never silently dropped.", "quantifier": "every token sequence that is not a PHP program", "why_tests_cant": "Acceptance of wrong programs is a statement about all inputs outside the language.", "anchors": ["src/parser.rs: parse_unary_expression, parse_opt_expression, parse_array_pair_list, parse_variable, parse_statement"]}
{"id": "C23", "title": "Switch cases keep their labels and bodies", "statement": "For a switch statement the returned cases associate with each body exactly the labels that fall through to it, including default, in source order.", "quantifier": "every list of (label, body) groups", "why_tests_cant": "All interleavings of empty bodies, cases and default.", "anchors": ["src/parser.rs: parse_statement (switch)"]}
{"id": "C24", "title": "if / elseif / else chains nest correctly", "statement": "A chain if (c1) b1 elseif (c2) b2 ... else bn parses to nested conditionals in which each condition guards its own body and the remaining chain is its else branch.", "quantifier": "every chain of any length, with or without else", "why_tests_cant": "Chain length is unbounded; built by a fold with four cases.", "anchors": ["src/parser.rs: parse_statement (if)"]}
{"id": "C25", "title": "Interpolated strings keep all parts in order", "statement": "A double-quoted string made of literal fragments and simple variables parses to a concatenation whose leaves, read left to right, are exactly the fragments and variables in source order.", "quantifier": "every sequence of fragments and variables", "why_tests_cant": "Any number of parts in any arrangement.", "anchors": ["src/parser.rs: parse_encaps_list"]}
{"id": "C26", "title": "Qualified names split at the last separator", "statement": "A name with segments s1\\...\\sn parses to a path whose identifier is sn and whose namespace is s1\\...\\s(n-1) (none if n = 1), absolute exactly when a leading separator is present; printing the path gives the source spelling back.", "quantifier": "every non-empty list of segments", "why_tests_cant": "Any number of segments.", "anchors": ["src/parser.rs: parse_namespace_name, parse_name", "src/printer.rs: Display for Path"]}
{"id": "C27", "title": "Error reports point into the input", "statement": "When parsing fails, the reported byte range starts at a token of the input (or just behind the last one), and formatting the error message with the source text does not panic.", "quantifier": "every source text that fails to parse", "why_tests_cant": "All failing inputs.", "anchors": ["src/parser.rs: parse_tokens, SpannedParserError::error_message"]}
{"id": "C28", "title": "The bisecting tester isolates a failing file", "statement": "If rewriting the whole list of files breaks the check and failure is caused by single files, the binary search ends at a file index that fails while everything before it passes, and all files are restored to their original content.", "quantifier": "every number of files and every pass/fail behaviour of the check", "why_tests_cant": "All list lengths and failure patterns.", "anchors": ["ci/tester/main.rs: main (binary-search)"]}
{"id": "C29", "title": "Block structure of braces is tracked without underflow", "statement": "Scanner-state bookkeeping for { and } never fails on source text: a closing brace without an opening one is reported as an error.", "quantifier": "every source text", "why_tests_cant": "All nestings of braces, strings and property accesses.", "anchors": ["src/tokenizer.rs: pop_state, in_scripting_other_token, looking_for_property_token"]}
{"id": "C30", "title": "Token positions lie inside the source", "statement": "Every token's byte range satisfies 0 <= start <= end <= length of the source, and tokens of one scan do not overlap and appear in order.", "quantifier": "every source text and every token of it", "why_tests_cant": "All sources; each scanner computes its own range.", "anchors": ["src/tokenizer.rs: mk_span and every matcher"]}
{"id": "C31", "title": "Property names after -> may be any word", "statement": "After ->, any identifier (including reserved words) is delivered as a plain name with its exact text, and scanning then returns to the surrounding mode.", "quantifier": "every identifier and every surrounding scanner mode", "why_tests_cant": "All identifiers times all modes.", "anchors": ["src/tokenizer.rs: looking_for_property_token"]}
{"id": "C32", "title": "Both array notations mean the same", "statement": "array(...) and [...] around the same elements parse to the same array literal (up to positions), with keys, order and trailing comma handled alike.", "quantifier": "every element list", "why_tests_cant": "Unbounded element lists with arbitrary element expressions.", "anchors": ["src/parser.rs: parse_dereferencable_scalar, parse_array_pair_list"]}
{"id": "C33", "title": "Modifier order in declarations does not matter", "statement": "Parsing a member or class declaration with its modifiers permuted or repeated gives the same modifier set; printing writes each modifier once in canonical order, and reading that back gives the same set.", "quantifier": "every list of modifiers", "why_tests_cant": "Lists of unbounded length.", "anchors": ["src/parser.rs: parse_member_modifiers, parse_oo_declaration", "src/printer.rs: Display for MemberModifiers, ClassModifiers"]}
{"id": "C34", "title": "Parsing does not depend on layout", "statement": "Replacing the white space between tokens by any other non-empty white space does not change the parsed statements up to positions.", "quantifier": "every token sequence and every choice of separators", "why_tests_cant": "All layouts of all programs.", "anchors": ["src/tokenizer.rs: whitespace, in_scripting_token", "src/parser.rs: parse_str"]}
{"id": "C35", "title": "Output does not depend on the sink", "statement": "Printing a list of statements hands every output sink the same sequence of pieces of text; the first write the sink refuses ends printing at once with that error and nothing is written after it.", "quantifier": "every list of statements and every sink", "why_tests_cant": "The tests only print to in-memory buffers that never refuse a write.", "anchors": ["src/printer.rs: PrettyPrinter::print_statements, every use of try!(write!(..))"]}
{"id": "C36", "title": "Printing ignores source positions", "statement": "Two lists of statements that differ only in source positions are printed alike: every sink receives the same pieces of text with the same result.", "quantifier": "every pair of statement lists that are equal up to positions, every sink", "why_tests_cant": "Tests print a few trees with one set of positions each.", "anchors": ["src/printer.rs: PrettyPrinter::print_statements", "ci/tester/main.rs:180-185"]}
{"id": "C37", "title": "Rewriting is idempotent", "statement": "Rewriting a file (parse, print, wrap in open and close tag) and then rewriting the result gives the same text again; rewriting two files that differ only in white space gives the same text.", "quantifier": "every source that can be rewritten", "why_tests_cant": "It is a statement about the composition of tokenizer, parser and printer for all programs.", "anchors": ["ci/tester/main.rs:160-190", "src/printer.rs", "src/parser.rs"]}
{"id": "C38", "title": "Only the tokens of a script matter", "statement": "Two scripts that differ in white space, comments, the blanks inside of type casts, the spelling of integer and string literals, or the final close tag have the same outcome up to positions: the same statements, the same set of expected tokens, or the same panic.", "quantifier": "for all scripts with the same tokens, valid or not", "why_tests_cant": "the claim relates every pair of spellings of every program, including rejected ones, and depends on how byte positions flow through the whole parser", "anchors": ["src/parser.rs:1849-1927", "src/parser.rs:641-644", "src/tokenizer.rs:276-301"]}
{"id": "C39", "title": "The tree is a reading of the tokens", "statement": "The statements returned for an accepted source can be read off its tokens from left to right: every name, variable, literal, operator and keyword of the tree stands for tokens of its own, in the order of the source. Nothing is invented, duplicated or reordered.", "quantifier": "every accepted source, well-formed or not", "why_tests_cant": "The tests compare a few trees with expected ones; the claim covers every program, including malformed ones that are accepted after error recovery.", "anchors": ["src/parser.rs: all parse_* methods", "src/parser.rs:1849-1927"]}
{"id": "C40", "title": "The outcome is a function of the token sequence", "statement": "If the tokenizer gives two sources the same tokens, not counting comments and open and close tags, counting <?= as echo and text outside of tags as an echo of that text, then parse_str has the same outcome for both up to positions: the same statements, the same expected tokens or the same panic.", "quantifier": "for all pairs of sources, with text outside of tags, strings with interpolation, here documents and numbers of every kind, valid or not", "why_tests_cant": "the claim relates all pairs of sources; the parser takes decisions on byte positions (it tests whether an expression starts at byte 0), so it is about where tokens of every source can stand", "anchors": ["src/parser.rs:1849-1927", "src/parser.rs:641-644", "src/tokenizer.rs:1240-1300"]}
{"id": "C41", "title": "A token's range is the text it was read from", "statement": "The byte range of every token is a stretch of the source, cut at character boundaries, and this stretch is a way to write the token: a dollar sign and the name for a variable, the name itself, the reserved word, the operator, the comment with its marks, the cast with its parentheses and blanks, the tag, the text outside of tags.", "quantifier": "every source text, valid or not, and every token of it, inside of interpolated strings too", "why_tests_cant": "Each of some forty matchers computes its own range from saved positions; a test sees a few tokens, the claim is about every token of every source.", "anchors": ["src/tokenizer.rs: mk_span and every matcher", "src/tokenizer.rs:603-693", "src/tokenizer.rs:1066-1283"]}
{"id": "C42", "title": "The tokens are those of the pieces the source consists of", "statement": "Every source that can be tokenized consists, from its first character to its last, of blanks and of pieces (text outside of tags, tags, words, variables, numbers, symbols, casts, comments, quoted strings, here documents, names behind `->`), and its tokens are exactly the tokens of these pieces, in this order: no character is dropped or read twice, each literal has the value of its spelling, each escape sequence its meaning, each text in a string ends where a variable begins.", "quantifier": "every source text that can be tokenized", "why_tests_cant": "A test compares the tokens of one source. The claim covers every text, with every combination of pieces next to each other and every content of strings and comments.", "anchors": ["src/tokenizer.rs:276-1310", "src/tokenizer.rs:989-1058"]}
{"id": "C43", "title": "A source has one reading as tokens", "statement": "A source can be divided into blanks and pieces in the way of C42 with one list of tokens only, and if it can be divided so, the tokenizer gives this list: the tokens are determined by the lexical rules, not by the order in which the tokenizer tries its matchers.", "quantifier": "every source text and every way to divide it into pieces", "why_tests_cant": "The claim excludes every other way to divide a text; a test sees the one way the tokenizer took.", "anchors": ["src/tokenizer.rs:1240-1310", "src/tokenizer.rs:276-1240"]}
{"id": "C44", "title": "Ranges of nodes enclose what the nodes were read from", "statement": "In the tree of an accepted source the range of every expression and statement begins where a token begins and ends where a token ends; all tokens its pieces and its children were read from are between the two; the ranges of children are in the order of the source and do not overlap; the range of a node is around those of its children and inside of the source.", "quantifier": "every accepted source and every node of its tree", "why_tests_cant": "The tests of the parser compare trees of a few dozen sources, and most of them ignore the ranges. The claim ties every range in every tree to the tokens it was read from.", "anchors": ["src/parser.rs:560-660", "src/parser.rs:1170-1260", "src/parser.rs:1300-1850"]}
{"id": "C45", "title": "Lexical errors point at their cause", "statement": "When the tokenizer rejects a source, the error has a byte range. The range of an unknown character is at a character that begins no token. The range of an unterminated literal or comment begins at its opening, and what is reported as unterminated is not terminated. parse_str reports this range.", "quantifier": "every source text that the tokenizer rejects", "why_tests_cant": "No test looks at the position of a lexical error. The claim ties the range of every such error to the character or opening delimiter it is about, for every text.", "anchors": ["src/tokenizer.rs:553-601", "src/tokenizer.rs:696-870", "src/tokenizer.rs:317-370", "src/parser.rs:1901-1927"]}
{"id": "C46", "title": "Errors of the parser do not contradict the source", "statement": "When the parser rejects a source, the error lists tokens that were expected and points at a token of the source, or directly behind the last one. The list is one of 21 fixed lists (one to three kinds of tokens, or empty), the token the error points at is of none of the listed kinds, and the list is empty only behind the last token.", "quantifier": "every token sequence and every source text that the parser rejects", "why_tests_cant": "No test looks at the expected tokens of an error. Errors are stored, compared by position and handed through backtracking, and the claim is about every one of them.", "anchors": ["src/parser.rs:223-275", "src/parser.rs:413-424", "src/parser.rs:677-717", "src/parser.rs:1042-1135", "src/parser.rs:1270-1291", "src/parser.rs:1505-1523", "src/parser.rs:1849-1899"]}
{"id": "C47", "title": "Errors are reported on their line", "statement": "The line number and the line range reported with an error are those of a line of the source: for an error of the parser the line on which the reported range ends, for an error of the tokenizer the line on which it begins. The line table has exactly the offsets behind the line breaks of the text scanned so far.", "quantifier": "every source text that is rejected, every line break in it", "why_tests_cant": "No test looks at line numbers. The table is filled by a dozen functions that scan blanks, strings, comments and documents, undone on backtracking and searched by bisection; the claim covers every text and every error.", "anchors": ["src/tokenizer.rs:55-96", "src/tokenizer.rs:252-300", "src/tokenizer.rs:553-986", "src/parser.rs:1849-1927"]}
{"id": "C48", "title": "Only trees of programs are returned", "statement": "Every syntax tree parse_str returns is well-formed: lists that are never empty in a program are not empty, index and member accesses are collected into one node, spreads stand in arguments only, by-reference targets in foreach only, list() only left of an assignment, only closures capture variables, only methods lack a body, namespace and use stand at the top level only, and integers are in range.", "quantifier": "every token sequence, every source text that is accepted", "why_tests_cant": "The tests compare the trees of some sources. The syntax tree types have many values that no program has; that none is ever built, through every path of the parser including its fallbacks, is a claim about all inputs.", "anchors": ["src/ast.rs:163-420", "src/parser.rs:240-1850"]}
{"id": "C49", "title": "Nothing outside the grammar is accepted, but for listed leniencies", "statement": "If parse_tokens or parse_str accepts its input, then the tokens of the input (without tags and comments) follow from a context-free grammar of the language extended by a fixed list of leniencies, the syntax tree returned is the meaning of that derivation, and all tokens up to the end of the input are covered by it. In particular accepted input begins with a token that statements begin with and ends with a semicolon or a closing brace.", "quantifier": "every token sequence, every source text that is accepted", "why_tests_cant": "Tests try a handful of invalid programs. That no path of the recursive-descent parser, with its fallbacks that swallow errors, accepts tokens in any other way is a claim about all token sequences.", "anchors": ["src/parser.rs:240-1850", "src/parser.rs:1849-1927"]}
{"id": "C50", "title": "Brackets that do not match are reported", "statement": "If a source is accepted, its brackets match: up to every point of the token sequence at least as many brackets of each kind have been opened as closed, and at the end none is left open; a source with a bracket closed that has not been opened, or opened and never closed, is answered with an error.", "quantifier": "every token sequence, every source text that is accepted", "why_tests_cant": "The parser swallows errors in many places and goes on behind the tokens it has dropped; that a stray bracket survives on none of these paths is a claim about all inputs. (The converse, that an unclosed bracket is reported, turned out false.)", "anchors": ["src/parser.rs:240-1850"]}
{"id": "C51", "title": "Every program of the grammar is accepted, with its meaning", "statement": "If the tokens of a source (without tags and comments) form a non-empty program of the grammar, parse_str comes to an end and returns the syntax tree the grammar gives these tokens, up to positions; it returns no error and does not panic. A source that is rejected is not in the grammar. The grammar is unambiguous, for programs and for expressions: tokens have one meaning at most.", "quantifier": "every source text whose tokens form a program, every derivation", "why_tests_cant": "Programs are of unbounded size and combine all constructs; tests try some combinations. That backtracking and error swallowing never prevent a correct program from being read, or read it in another way, is a claim about all derivations.", "anchors": ["src/parser.rs:240-1850", "src/parser.rs:1849-1927"]}
{"id": "C52", "title": "Floating point numbers keep their value", "statement": "A literal of a double is read as the nearest f64, halfway cases as the even one, and as infinity from 2^1024-2^970 on. What the printer writes for a double is read as the same f64, has a point exactly if the number is not an integer, and is as short as possible: no literal with fewer digits behind the point denotes the same f64, none with as many is nearer. A source that is rewritten is read back to the same tree with the same doubles, and rewriting it again changes nothing.", "quantifier": "every literal, every f64 that is not negative, every accepted source", "why_tests_cant": "There are 2^63 non-negative doubles and infinitely many literals; rounding goes wrong at halfway points and at the ends of the range, which a handful of literals does not reach. No test prints a double. (The last sentence turned out false for doubles that are integers: 1.0 is rewritten to 1.)", "anchors": ["src/tokenizer.rs:382-422", "src/printer.rs:498", "src/ast.rs:163-215", "ci/tester/main.rs:150-190"]}
{"id": "C53", "title": "Positions stay within the source", "statement": "Both ends of the range of every token, and of every node of every returned syntax tree, are at most the length of the source in bytes; the range of a reported error begins at most there and ends at most one byte behind it, and the reported line lies in the source. So the unchecked conversions of positions to u32 change none of them if the source is shorter than 4 GiB.", "quantifier": "every source text, every token, every node of every tree, every error", "why_tests_cant": "Positions are copied, combined and moved back by hand in every function of the parser; tests compare trees without positions. The claim is about all nodes of trees of any size, and about inputs at the limit of u32 that no test feeds.", "anchors": ["src/tokenizer.rs:26-33", "src/tokenizer.rs:62-95", "src/parser.rs:240-1850", "src/parser.rs:1849-1927"]}
{"id": "C54", "title": "No documentation comment reaches a tree", "statement": "The doc_comment of a range is None or the empty string. The tokenizer sets it for comments and closing braces only, and no node of a returned syntax tree has one. (The comment in tokens.rs says the parser uses it to track the documentation of declarations; it does not.)", "quantifier": "every source text, every token, every node of every returned tree", "why_tests_cant": "No test looks at doc_comment. That no function of the parser lets the range of a closing brace into a node is a claim about all of its paths.", "anchors": ["src/tokens.rs:11-16", "src/tokenizer.rs:979-985", "src/tokenizer.rs:1265-1272", "src/parser.rs:724", "src/parser.rs:1854-1869"]}
{"id": "C55", "title": "The recursion of the parser is limited", "statement": "parse_expression and parse_statement call each other to a depth that is at most proportional to the number of tokens (six nested calls per token, and two more, suffice), and below a fixed limit, so that no source can exhaust the stack of the thread.", "quantifier": "every source text, every depth", "why_tests_cant": "A test parses sources of some depth; that no depth is too much, or that every depth is reached by some source, is a claim about all of them. Overflowing the stack aborts the process, so a test cannot even observe it.", "anchors": ["src/parser.rs:280-316", "src/parser.rs:641-644", "src/parser.rs:1399-1658"]}
{"id": "C56", "title": "The effort of parsing is bounded by a polynomial in the length of the source", "statement": "There are numbers a and b such that parsing a source of n characters makes at most a * n ^ b calls of parse_expression.", "quantifier": "every source text", "why_tests_cant": "The effort for the sources of a test suite says nothing about the worst case: the calls double with every parenthesis that is opened before a mistake, which shows only for sources nobody writes down as a test.", "anchors": ["src/parser.rs:490-508", "src/parser.rs:553-570", "src/parser.rs:956-1039", "src/parser.rs:318-411", "src/parser.rs:641-644"]}
{"id": "C57", "title": "Text outside of the tags is echoed in its place", "statement": "Parsing a template gives the statements between its tags in order, and for every text between a close tag and the next open tag an echo statement with exactly this text in the same place, except that a line end directly behind a close tag is dropped. <?= means echo, a close tag ends the statement and the comment in front of it, and blocks may extend over several pairs of tags.", "quantifier": "every template: every sequence of texts and scripts", "why_tests_cant": "Templates have unboundedly many parts and a text may contain anything but <?; tests try a few templates with one or two parts.", "anchors": ["src/tokenizer.rs:1018-1060", "src/tokenizer.rs:1112", "src/parser.rs:1629", "src/parser.rs:1845-1875"]}
{"id": "C58", "title": "Here documents and now documents denote the text between their labels", "statement": "A document between <<<LABEL and LABEL at the begin of a line denotes its lines without the last line end. In a now document all characters stand for themselves; in a here document variables and the escapes of PHP are replaced, and \\\" is kept. The document ends at the first line that consists of the label and perhaps a semicolon.", "quantifier": "every label, every text of a document, every sequence of text, escapes and variables in it", "why_tests_cant": "The text and its interplay with the label are unbounded; the tests in tokenizer.rs contain three documents of one line each, without a variable, a line that begins with the label, or an escaped quotation mark.", "anchors": ["src/tokenizer.rs:802-928", "src/tokenizer.rs:478-660", "src/parser.rs:1321-1326"]}
{"id": "C59", "title": "Literals between double quotes denote the text the language assigns to them", "statement": "For a double-quoted literal without variables, the tree returned by parse_str for `return \"...\";` holds exactly the bytes the language reference assigns to the text between the quotes: letters like \\n, octal numbers \\101, hexadecimal numbers \\x41, code points \\u{41}, other backslashes and everything else as they are.", "quantifier": "every text between double quotes without interpolated variables", "why_tests_cant": "All sequences of escapes, in particular those whose end depends on what follows.", "anchors": ["src/tokenizer.rs: str_escape, match_dq_string"]}
{"id": "C60", "title": "Both notations of control structures are accepted", "statement": "if, while, for, foreach and switch may be written with a body between braces or with a colon, statements and endif, endwhile, endfor, endforeach or endswitch. Both notations are accepted, and a source has the same tree in either of them.", "quantifier": "every source with control structures, whatever stands before, in and behind them", "why_tests_cant": "The tests contain one notation only, for a handful of bodies. The claim is about every head of a control structure in every program.", "anchors": ["src/parser.rs:1483-1605", "src/tokenizer.rs:1130-1200", "src/tokens.rs:95-125"]}
