# Formal model of pico-php-parser

Prover: Lean 4.33.0 (Lake project in `lean/`). No Mathlib module is imported.

## Layout

* `lean/Verif/Model/*`   the executable model, one Lean definition per Rust function, each with a citation `file:lines`.
* `lean/Verif/Spec/*`    specifications, written without the helpers of the model (grammar, lexemes, line lookup, ...).
* `lean/Verif/Lemmas/*`  helper lemmas.
* `lean/Verif/Props/*`   the property theorems listed in `MANIFEST.json`, each with an example that meets its hypotheses.
* `lean/Verif/Tests.lean` the 178 assertions of the repository's unit tests replayed on the model (`#guard`; tests, not proofs).
* `seeded/LOG.jsonl`     wrong programs tried against the theorems, one line per attempt.

## Trusted base

* The Lean kernel.
* Axioms: every theorem of `MANIFEST.json` depends on at most `propext`, `Classical.choice` and `Quot.sound`
  (`#print axioms`). No axiom is added, there is no `sorry`, `native_decide`, `bv_decide`, `implemented_by` or `unsafe`.
* The reading of the Rust code into the model. It is checked by the replayed unit tests only.

## What is modelled

| Rust | Lean | remarks |
|------|------|---------|
| `src/interner.rs` | `Model/Interner` | whole file; allocations are numbered, `Rc` clones keep the number |
| `src/tokens.rs` | `Model/Token` | tokens, `repr`, precedence and reserved word tables, `SyntaxError::span`; derived `Debug` is a parameter |
| `src/tokenizer.rs` | `Model/Tokenizer`, `Model/LineMap` | whole file |
| `src/parser.rs` | `Model/Parser`, `Model/Api` | whole file: all grammar functions, `parse_str`, `parse_tokens`, error formatting; `Model/Count` repeats a part of it with a counter of calls |
| `src/ast.rs` | `Model/Ast` | all types, modifier bit sets, `Display` of operators, types and paths |
| `src/printer.rs` | `Model/Printer` | whole file, over an arbitrary `fmt::Write` sink that may fail |
| `ci/tester/main.rs` | `Model/Bisect` | rewriting one file, the bisecting loop, restoring; directory walk, process start and terminal output are parameters |

Not modelled: the walk over directories and the start of the external check in the tester, `Cargo.toml`, the derived
`Debug`/`Clone`/`PartialEq` implementations (structural equality is used), memory exhaustion and stack overflow.

## How Rust is represented

* `&str` / `String` / `RcStr`: `List Char`. Byte offsets are kept exactly as in the code (`src_pos` is a byte
  offset; `dropBytes` returns nothing when the offset is not a character boundary, which is Rust's slicing panic).
* `Vec<u8>`: `List Byte`, where `Byte` is a `Nat`; `String::from_utf8`: an explicit UTF-8 decoder (`Spec`-checked: decoding
  what was encoded gives the text back).
* `usize`, `u32`, `isize`: `Nat`. A subtraction that would underflow is a panic (debug profile). Wrap-around of
  `u32` positions for inputs of 4 GiB and more is not modelled; that it cannot happen below is C53.
* `i64`: `Int` with the range check of `from_str_radix` made explicit.
* `f64`: in tokens and trees a double is the decimal text of its literal, and the text the printer writes for it is a
  parameter `dbl`; the theorems about printing hold for every `dbl`. `Model/Float.lean` models `f64::from_str` and the `Display`
  of `f64` by what the standard library promises (nearest number, ties to even; shortest digits that read back, no exponent),
  not by its algorithms; `showLit` is the resulting `dbl`, C52 is about it. Trees whose doubles differ in their text but not
  in their value are the same tree in Rust; C52 says so with `redblStmts`.
* `panic!`, `unreachable!`, `unimplemented!`, failed `assert`, `unwrap` on `None`/`Err`, out of range index: the
  result `panic`, an explicit outcome of every function that can abort.
* `Result<T, E>` with `&mut self`: a state-passing function whose result carries the state in the error case too
  (the code relies on positions being kept after errors).
* `loop`/`while` and recursion: fuel. Running out of fuel is the separate outcome `oof`. More fuel never changes another
  outcome (`parseStrN_le`), so `Ends src r` ("for some fuel the result is `r`, and `r` is not `oof`") is a function of the
  source (`Ends.unique`). Termination theorems say that enough fuel makes `oof` impossible; the divergence theorem says every
  amount of fuel gives `oof`.
* `Interner`: modelled and verified on its own (C01, C02); the tokenizer model uses the verified fact that `intern`
  returns the same text and works with texts directly.

## How the properties are stated

* Source level statements use `Ends src r`, `tokensOf n src` / `spansOf n src` (all tokens of a scan), and
  `Scanned src toks t` / `Moment src t` (`t` is a state the tokenizer reaches on `src`).
* Scripts are described by `Spec/Source.lean`: a list of `Item`s (lexemes, blanks, comments, double quoted strings) that can
  be told apart (`Script`). `script_tokens` proves that scanning the written script gives exactly its lexemes, `script_parses`
  that a script whose lexemes form a program of the grammar is parsed to the tree of the grammar.
* The grammar is `Derives` in `Spec/Grammar.lean`: an inductive relation between a category, a token list and a tree,
  written from the PHP grammar with the precedence table `infixLevel`. `program_parses` proves that whatever `Derives`
  accepts is parsed to exactly that tree (all statement, declaration and expression forms).
* What a tree is made of is described by `Spec/Reading.lean` (`marks`), without reference to the parser.
* Trees are compared up to positions and doc comments with `erase*` of `Spec/Erase.lean`.
* Where the code does not have a property, a theorem `*_fails` proves the negation or exhibits the source, and the theorem
  for the remaining inputs carries the suffix `_partial`.

## Status per property

| id | where | status |
|----|-------|--------|
| C01, C02 | `Props/Interner` | proved. Invariant over any call history. |
| C03 | `Props/Modifiers` | proved. Induction over the modifier list, bit facts. |
| C04 | `Props/LineMap` | proved. Loop invariant of the binary search, measure for termination. |
| C05 | `Props/Scan` | proved. Invariant over every tokenizer function (`Lemmas/Tok*`). |
| C06 | `Props/Lexing` | proved. Symbolic execution of the whole pipeline for an arbitrary text. |
| C07 | `Props/Panics`, `Props/LexPanics`, `Props/Violations`, `Props/Aborting` | false: `C07_fails`, twenty-two aborting sources in `C07_sources`. `C07_fails_numbers`: every script with a number (decimal, octal, hexadecimal, binary) that is too large, or that begins with 0 and has an 8 or 9 in it, aborts, wherever the number is and whatever follows. `C07_fails_point`: so does every script that ends with a point. `C07_fails_escape`, `C07_fails_hexadecimal`, `C07_fails_element`: so does every script with an escape `\e` or `\u`, with `\x` before letters that are not hexadecimal digits (as in `"C:\xampp"`) or with `$name[` in a string in double quotes, with no other special character before it in the string. `C07_causes_partial`: for every source that can be tokenized the parser panics for one of the reasons in `Spec/Panics` only (ten conditions on the tokens), each of which does occur (`C07_cause_sources`); proved by a judgement for parser functions that follows how many parentheses are open (`Lemmas/Panic*`). `C07_lexer_causes`: the tokenizer panics for one of the reasons in `Spec/LexPanics` only (eleven conditions on the text), each of which does occur (`C07_lexer_sources`). `C07_all_causes_partial` puts the two together for all sources. So `C07_causeless_partial` and `C07_all_causeless_partial`: without such a reason `parse_str` accepts or rejects, if it returns. `C07_programs_partial` and `C07_laid_partial`: no script of items, and no text of pieces, whose tokens form a program aborts. True for scripts of the grammar: `C07_programs_partial` (Props/Programs). |
| C08 | `Props/Scan`, `Props/Diverge`, `Props/Unending` | false: `C08_fails` (a source on which every amount of fuel runs out). `C08_terminates_partial`: every source without `{$` and `${`, and every source in which these are followed by a simple closed expression (`HasWild`, `Spec/Layout`; `next_ends`, `Lemmas/TameEnd`: the fuel needed is linear in the length, since every token of such a block moves on). `C08_fails_class`: no script that ends in a string with an opened block is ever finished. |
| C09 | `Props/Parser` | proved. Measure: remaining tokens; every function shown to need at most a linear amount of fuel. |
| C10 | `Props/Lexing`, `Props/Yield` | `C10_identifiers_partial`: all identifiers but `yieldfrom` and `yield` before a blank. These are settled by `C10_yield_partial` (the keyword, with the blanks in its range), `C10_fails_class` (before blanks and the letters `from`: one token, whatever follows) and `C10_fails_yieldfrom`. |
| C11 | `Props/Violations`, `Props/Programs`, `Props/Spelling` | false: `C11_fails`, `C11_magic_fails`; `C11_fails_class`: every spelling of a reserved word that is not in lower case throughout is an ordinary name. True for the lower-case spelling of every reserved word (`C11_lower_partial`) and for every spelling of `true`, `false`, `null` (`C11_constants_partial`), Props/Programs. |
| C12 | `Props/Lexing` | proved for the four notations. |
| C13, C14 | `Props/Lexing`, `Props/Literal` | C13 proved. C14: `C14_printed_string_partial` for strings without two adjacent backslashes, `C14_exact` (`Lemmas/LitBack`): these strings and no others read back; `C14_fails` is one witness. |
| C15 | `Props/Tokens` | proved on token sequences (positions of the remaining tokens unchanged). |
| C16 | `Props/Lexing`, `Props/Spelling` | `C16_line` complete, `C16_block_partial` for non-empty bodies, `C16_fails` for `/**/`, `C16_fails_class`: everything behind `/**/` up to the next `*/` is taken for the comment. The text of a comment whose body begins with `*` lacks that star. |
| C17 | `Props/Parser` | proved. Post-condition of all parser functions, printer safe on it. |
| C18, C35 | `Props/Printer` | proved. Structural induction over the tree, over an arbitrary sink. |
| C19 | `Props/Grammar`, `Props/Programs` | proved, from the source text. Operator sequences of any length; the table tree exists, is unique and is returned. |
| C20, C21 | `Props/RoundTrip` | `C20_round_trip_partial`, `C21_round_trip_partial` for the trees listed below; `C20_fails`, `C21_fails`. `Props/Parentheses`, `C20_fails_class`: every sign in front of an `instanceof` in parentheses, if the left side is not printed in parentheses, is read back as an `instanceof` of the signed value. `Props/Accepted`: every accepted source is read back if it has none of the constructs of `Spec/Clean` (`C20_accepted_partial`, `C21_accepted_partial`, by C48 and the above); `C21_quirks` has an accepted source for each of these constructs whose rewriting is not read back. |
| C22 | `Props/Violations` | false: `C22_fails`, `C22_fails_call`; `example_lax` (`Props/Sound`): a dropped operand can also change precedence. What can be dropped is bounded by C49. `C22_fails_class` (`Props/Dangling`): every binary operator but `instanceof` behind every expression that may be its left operand is dropped if `;` follows, and the tree is the one without it. `C22_misplaced_partial` (`Props/Heads`): a program with a closing bracket, a separator, `case` or `default` behind it is rejected, whatever follows. What holds is the converse (`C22_ints_partial`, `C39_reading`): nothing in the tree is missing in the source. |
| C23 | `Props/Grammar`, `Props/Programs`, `Props/Switch` | `C23_source_partial`, `C23_switch_partial` for switches whose default branch has statements; `C23_fails`: an empty default branch disappears. `C23_dropped`: this is all that happens, for every switch (`Clauses`); `C23_exact`: a switch with at most one `default` is read as written iff that has statements. |
| C24, C26, C32, C33 | `Props/Grammar`, `Props/Programs` | proved, from the source text. Induction on the listed structure, through `program_parses`. |
| C25 | `Props/Strings`, `Props/Grammar` | proved from the source text. Octal escapes are not known to the code and are taken literally, as the code does; `\e` and `\u` abort (see C07). |
| C27 | `Props/Tokens` | `C27_range_partial` (the range of the report), `C27_message_partial` (formatting a one-line range); `Props/Lines`: `C27_aborts_partial` (exactly when formatting with the source aborts), `C27_source_partial` (what the message is otherwise); `C27_fails`, `C27_fails_class` (`Props/NumRanges`: every unexpected number with a dot), `C27_fails_end`, `C27_fails_string`. |
| C28 | `Props/Bisect` | proved. Loop invariant; `C28_report_aborts` records that reporting aborts when the bad file is the last one. |
| C29 | `Props/Scan`, `Props/StrayBrace` | `C29_balance`, `C29_no_underflow_partial`; `C29_fails`: a stray closing brace aborts. `C29_fails_class`: in every script, whatever follows. |
| C30 | `Props/Scan` | `C30_inside_partial`, `C30_ordered_partial`; `C30_fails` (number literals), `C30_overlap` (interpolated strings). `Props/NumRanges`: `C30_int_partial` (integers), `C30_fails_class` (every number with a dot has a range that ends before it begins). |
| C31 | `Props/Lexing` | proved for every ASCII identifier and every surrounding mode. |
| C36, C37 | `Props/Rewrite` | C36 proved (structural induction). `C37_idempotent_partial`: programs of the round trip; `C37_accepted_partial` (`Props/Accepted`): accepted sources without the constructs of `Spec/Clean`; `C37_layout_partial`: all scripts with the same tokens; `C37_fails`: `(include 'a') . $b . $c` changes each time it is rewritten. |
| C34 | `Props/Source`, `Props/Agree` | `C34_tokens_partial`, `C34_tree_partial`, `C34_outcome_partial` (rejected sources and panics as well); `C34_fails_class` (`Props/Casts`; `C34_fails` is one case): every cast with a line end inside is no cast. `C38_laid_partial` below covers here documents, commands and inline HTML too. |
| C38 | `Props/Agree` | `C38_script_partial`. Relational proof: `PRel` (`Lemmas/RelBase`, `Lemmas/ParserRel*`) shows of every parser function that on two token lists with the same tokens at other positions it returns the same tree up to positions, the same error, or the same panic. `C38_fails_class` (`Props/Comments`; `C38_fails` is one case): any comment between `->` and any reserved word changes the outcome. `C38_laid_partial` (`Props/Complete`): any two texts that consist of pieces (C43) with the same tokens. |
| C39 | `Props/Reading` | `C39_tokens` and `C39_reading`. `Spec/Reading` lists the pieces of a tree in writing order (`Stmt.marks`) and says when they can be found in a token list from left to right (`ReadOff`). `Lemmas/Read*`: rules (`Tr`) that carry the marks read so far through every parser function, including the backtracking ones. |
| C41 | `Props/Ranges` | `C41_ranges_partial`, `C41_moment_partial`, for all sources. The weakest-precondition proofs of `Lemmas/Tok*` carry, for every token delivered or queued, the stretch of the source it stands on (`TokP.spelled`); `Spec/Spelling` says how tokens are written. `C41_int`: the range of a decimal or octal literal is that of the literal; that of a `0x`/`0b` literal begins with it but has the number of its digits for an end. `C41_double`: the range of a number with a dot is always wrong, and how. Both read off the raw texts carried in `TokP.numbered`. `Props/NameRanges`, `C41_fails_class`: every variable with a name that is not ASCII, behind any beginning of a script, has a range that ends too early. Missing: texts and marks of strings, names that are not ASCII (false, `C41_fails`: the range counts characters instead of bytes). |
| C42, C43 | `Props/Layout`, `Props/Complete` | `C42_partial` for all sources in which `{$` and `${` are followed by simple closed expressions (`HasWild`), without names that are not ASCII and without stray `0x`, `0b`. `Spec/Layout` gives the relation `Laid` between a text and its tokens; `Lemmas/Lay*` prove for every matcher which piece it reads and that no earlier matcher would have read another one (`StepM`, `StepL`, `MatchL`), `next_lay` and `lexAll_lay` put them together. `C43_unique` (`Lemmas/Unique*`): a text can be laid out in one way only, by the first characters of each piece; so `Laid` determines the tokens (`C43_partial`). Expressions between braces are read by a recursive call of the tokenizer; `Lemmas/TameStep`, `TameNext` show that it reads a simple one (names, numbers, operators, texts between single quotes, up to `}`) to its end (`BlkNext`), `Lemmas/GoBlk` that it does not fail there. Missing: expressions between braces that hold double quotes, comments or braces; stray `0x`, `0b` (false, `C42_fails`: `0b5` is read as `5`), names that are not ASCII (false, `C42_fails_names`: `éa` gives the tokens `éa` and `a`). `C43_complete_partial`: every text that can be laid out is tokenized to the tokens of its pieces (`Lemmas/Go*`: of every matcher that it reads the piece that stands there, and that the matchers before it decline; `lexAll_ends` gives the end), if no brace is closed that is not open (`C43_fails_brace`) and the source does not end with the symbol `.` (`C43_fails_dot`); `C43_iff_partial` puts both directions together. |
| C44 | `Props/TreeRanges`, `Props/Foreach` | `C44_tokens_partial`, `C44_source_partial`. `Spec/Ranges` lists the pieces of a tree together with the ends of the ranges of its nodes (`treeSpots`) and says what it means to find them in a list of tokens from left to right (`Located`). The proof follows that of C39: `Lemmas/Spot*` show of every parser function that what it returns is found in the tokens it consumed (`Yz`). `C44_nested_partial`: if the ranges of the tokens are in order, the ends of ranges never decrease on the way through the tree, so that ranges nest; `C44_statements_partial`, `C44_inside_partial`. Missing: `clone` and `${` (`C44_fails`, `C44_fails_dollar`), the range of `&$v` in `foreach` (the byte before `$v`). `Props/Foreach` shows the violations for all names and blanks: `C44_fails_foreach`, `C44_fails_clone`. |
| C45 | `Props/Errors` | `C45_tokenizer_partial`, `C45_error_partial`, `C45_parser`. `Spec/Errors` says where the ranges of the errors are with respect to the source (`Culprit`) and what it means that nothing closes a literal (`Unclosed`). The weakest-precondition proofs of `Lemmas/Tok*` carry this for every error; that the error without a range is not reached follows from the states the tokenizer can be in (`Awake`). Missing: that here documents, back quotes and double-quoted strings with `$` in them are really unfinished. False for back quotes (`C45_fails`: a command with a double quote in it is reported as unfinished). The range for comments is empty and behind the opening, so that the message cannot be formatted (`C45_comment`). `C45_fails_class`, `C45_fails_nowdocs` (`Props/Command`): finished commands and now documents, in any script, that are reported as unfinished. |
| C46 | `Props/Expected` | `C46_tokens`, `C46_source`. `Spec/Expected` lists every list of tokens an error of the parser can show and says which tokens an entry stands for. `Lemmas/ParserTruth` goes through all methods of the parser: an error is made directly after a test for the listed tokens at the same position has failed, errors that are kept as values and reported later (`deepest!`, parameter lists, statement lists) are passed on unchanged, and the errors with an empty list in the middle of a source are thrown away or lose against one that is at least as deep. |
| C47 | `Props/Lines` | `C47_table_partial`, `C47_line_partial`, `C47_tokenizer_partial`. `Spec/Lines` says on which line of a text an offset is and in which sources all line breaks are counted (`Counted`). `Lemmas/LineBase`, `LineStr` and `LineNext` go through the tokenizer: what is added to the table between two positions is what a scan of the text for line breaks finds there, also after backtracking and inside of blocks in strings, whose errors are dropped. Missing: heredocs, and line breaks outside of the tags, in block comments and behind a backslash; `C47_fails` has a source for each. |
| C48 | `Props/Shape` | `C48_tokens`, `C48_source`. `Spec/Shape` says which trees are well-formed, without mentioning tokens or the parser. `Lemmas/ShapeExpr` and `ShapeStmt` go through the parser function by function: if it returns a tree, the tree is well-formed for the place it stands in. |
| C49 | `Props/Sound` | `C49_tokens`, `C49_source`: what is accepted is derived by `DerivesX true` (`Spec/Grammar`): the grammar of the completeness theorems and the rules `x_..`. Together with completeness (C18, C19 ..): `Derives` ⊆ accepted ⊆ `DerivesX true` (`C49_grammar`). The tokens `j` that the rules `x_..` drop are arbitrary, except that they close no bracket they have not opened (`NoStray`, `Spec/Brackets`), so the upper bound is not exact: not everything it derives is accepted. `C49_edges`: how accepted sources begin and end (`Spec/Edges`). `Lemmas/SndBase` has the calculus (a run from position `p` to `q` takes the tokens between them, and these are derived), `SndName` .. `SndTop` go through the parser function by function, `SndEdge` through the grammar. |
| C50 | `Props/Brackets` | half of it is false: an opening bracket among dropped tokens goes unnoticed (`C50_fails`: `f([1, (2]);`; `C50_fails_class` in `Props/Unclosed`: behind every variable an index without closing bracket, an arrow without name and two colons without variable are dropped; `C22_fails_calls` in `Props/OpenCall`: `return` with a call whose parenthesis is not closed is read as `return` without a value, for every function and all arguments). Proved: a closing bracket without an opening one is never accepted (`C50_tokens_partial`, `C50_source_partial`), and in whatever follows from the grammar alone the brackets match (`C50_grammar`; `Balanced` in `Spec/Brackets` checks them with a stack). `Lemmas/Brackets` and `SndNn` count brackets, `Lemmas/Nest` matches them. |
| C51 | `Props/Grammatical` | `program_parses` (the completeness theorem for tokens, `Lemmas/Gram*`) and `source_parses` state it; `C51_source` adds that no other result is possible, `C51_rejected` is the contrapositive. Unambiguity follows because the parser is a function: `C51_unambiguous`, and for expressions by putting them behind `return`. Together with C49 this encloses the accepted sources between two grammars that differ in the rules `x_..` only. |
| C52 | `Props/Doubles` | `C52_nearest`, `C52_infinite`, `C52_reads_back`, `C52_shape`, `C52_shortest` about the model of `f64` (an `f64` is a multiple of `2^-1074`; `Lemmas/Float`: rounding is exact on `f64`, nearest, monotone, so that the numbers rounded to one `f64` are an interval and the search for the shortest digits is complete). `C52_accepted_partial` and `C52_idempotent_partial` transfer C21 and C37: `Lemmas/PrinterDoubles` shows that the printer does not distinguish literals of the same value, `Lemmas/ShapeDoubles` that normalising them keeps trees well-formed. `C52_allowed` says which doubles are excluded; `C52_fails` that they are rightly so, `Props/IntegralDoubles` shows it for all of them: every double that is an integer is rewritten to the digits of an integer (`C52_fails_class`), every one that is too large to the constant `inf` (`C52_fails_infinite`). |
| C53 | `Props/Positions` | `C53_tokens`, `C53_tree`, `C53_error`, `C53_u32`. `Spec/Spans` lists the ranges of all nodes of a tree; `Lemmas/SpanBase`, `SpanExpr`, `SpanStmt` run every function of the parser and show that each range it builds is made of ends of ranges of tokens. Numbers, `clone` and `${`, which C44 leaves out, are included (their ranges may be wrong, but not outside). |
| C54 | `Props/Positions` | `C54_tokens` (`Lemmas/DocTok` runs the tokenizer), `C54_tree` (the same pass over the parser as C53: no node takes the range of a closing brace). |
| C55 | `Props/Effort` | the fuel `n` of `parseTokensN` is the depth of the recursion. `C55_depth_partial`: linear in the number of tokens (from C09). A fixed limit does not exist: `C55_fails`, by a chain of prefix operators (`Lemmas/Sink`). How many bytes of stack a call takes is not modelled. |
| C56 | `Props/Effort` | false: `C56_fails`. The model is extensional and does not know effort, so `Model/Count` repeats the functions on the way from `parse_tokens` to a parenthesis with a counter of calls of `parse_expression`; `C56_counter` proves that the outcome is that of the parser, for all inputs. Calls made by functions that are not repeated are not counted, so the counter is a lower bound. `C56_doubling`: rejected sources `(((`; `C56_doubling_accepted`: accepted sources `1+(((1;`, whose second operand is dropped. `Lemmas/Count` and `CountOpen` have the calculus of lower bounds. |
| C57 | `Props/Template` | `C57_template_partial`, `C57_page_partial`. `Spec/Template` describes templates as alternating texts and scripts (`Template` with the tokens they stand for, `Page` with the statements). `Lemmas/Template` runs the tokenizer over them, with the lemma for items of `Lemmas/LexItem` between the tags. False at the close tag: `C57_fails`; `C57_fails_class` (`Props/CloseTag`): a variable written out with `<?=` and ended by the close tag is rejected in every template. |
| C58 | `Props/Document` | `C58_here_partial`, `C58_now_partial`, from the source to the tree, by C43 and C07 for texts made of pieces. The conditions that are not PHP's are shown to be necessary by `C58_fails` (`C45_fails_nowdoc` for `$` in a now document), apart from `HasWild` and `HasStray`, which C42 and C43 ask for. `C58_now_exact` (`Spec/NowText`, `Props/NowText`): which text a now document with backslashes is read as, and that it is its own text exactly if no backslash stands in front of another one or of a quotation mark. |
| C59 | `Spec/Quoted`, `Lemmas/LexMeans`, `Props/Quoted` | `C59_text_partial`: `DqMeans` reads the text between the quotes as the language reference says, independently of the tokenizer; without the flag `full` it leaves out the escapes the code does not treat as it should. `\\101` and all other octal numbers are kept as written, alone (`C59_fails_octal`) and anywhere among plain characters (`C59_fails_octal_inside`). `C59_fails_bytes`: all literals whose bytes are not UTF-8 are rejected. `C59_fails_abort`: in every script every literal with `\e`, `\u`, or `\x` with a letter in the place of a digit aborts (`C59_fails`: the language gives them a meaning). |
| C60 | `Spec/Heads`, `Props/Heads` | false for the notation with a colon: the tokenizer has tokens for `endif`, `endwhile` and the like, the parser does not use them. `C60_fails_class`: behind every program, every head of a control structure (`Head`, with conditions of the grammar) with a colon behind it makes the source rejected, whatever follows. The proof runs the parser on the program and the head by the lemmas of C51 (`derives_claim`) and shows that no statement begins with a colon. `C60_braces_partial`: with braces it is accepted. |
| C40 | `Props/Agree` | `C40_tokens`, without restriction on the sources. `PRel` again; what a parser function may ask of positions is that tokens do not start at byte 0 (or, for `{` after a variable in a string, byte 2). `Lemmas/Tok*` (`Late`) prove this of all tokens but numbers (whose positions are wrong), the leading text and open tags; `Lemmas/Front` treats the leading text: it becomes one statement, behind which the relation holds. |

## Disagreements between the code and the expected properties

Tokenizer:

* The line table is non-decreasing but inexact: line ends in inline HTML are not counted, a block comment records its end
  once per further line, a heredoc records the line behind its end label before stepping back, `\r` counts as a line end.
* Only lower-case spellings of reserved words and magic constants are recognised (C11).
* A label with a character from U+0080 to U+00FF leaves the scanner inside a character: abort.
* `08`, `09`, literals of 2^63 and more, `.` at the end of the source, `\e`, `\u`, `\xzz`, an unterminated
  backquote or binary string, `"$a[`, `"${a"`, a stray `}`: abort (C07, C29).
* A prefix `0x` or `0b` without a digit behind it is dropped: `0b5` is read as `5` (C42). The end of a name that is not ASCII is read twice: `éa` gives the tokens `éa` and `a` (C42). Back quotes end a command at the end of the source only: `` `a`.`b` `` is one command (`C42_backquotes`).
* The range of a name counts characters, not bytes (C41). The ranges of hexadecimal, binary and floating literals are wrong (C30); the last part of an interpolated string spans the
  whole string (`C30_overlap`).
* A double that is an integer is written without a point: `1.0` is rewritten to the integer `1`, `99999999999999999999.0` to a literal that aborts the parser, numbers from 2^1024 on to the name `inf` (C52).
* The message for every unfinished comment cannot be formatted: its range is empty (C45). A finished command in back quotes is reported as unfinished if the source ends on the same line, or if a double quote or a backslash follows on it (C45).
* Control structures with a colon and `endif`, `endwhile` and so on are rejected (C60).
* The range of `clone $a` is that of the keyword, the text behind `${a}` in a string has the begin of the text before it, the range of `&$v` in `foreach` is the byte before `$v` (C44).
* An unterminated `{$` block inside a string is scanned forever (C08).
* `/**/` is not an empty comment (C16). A `//` comment does not end at `?>`, a line end behind `?>` is echoed, `?>` does not end a statement, so that `<?= $x ?>` is rejected (C57).
* Here documents and now documents (C58): escapes are decoded in now documents, `\"` is decoded in here documents, octal escapes are not decoded, documents without text are rejected, a line that begins with the label makes the document be rejected, and a carriage return before the last line end stays in the text.
* `yield` followed by a word beginning with `from` is `yield from` (C10). `(\nint\n)` is not a cast but `( int )` is (C34). A
  comment between `->` and a reserved word makes the word a keyword again (C38).
* Nowdocs containing `$` or `{` are reported as unterminated (C45_fails_nowdoc). Octal escapes are not decoded.

Parser:

* Errors inside operands, indices, arguments, array elements and switch bodies are swallowed: `1+;` parses as `1;`, `foo(1 2;` as `2;` (the call vanishes), `$a = 1+(2;` is accepted,
  `return (1;` as `return;`, `$a[1;` as `$a;` (C22).
* The empty token list, unclosed parameter lists, a second `else`, chained `instanceof`, `$$a`, `(unset)`, aliases with
  modifiers: abort (C07). So does a string in an argument list that is not closed, behind a quotation mark:
  `{ $a = 1+"{$a ;}" name(1 'x'` (`unreachable!()` in `parse_encaps_list`).
* Every parenthesis in front of a mistake is parsed twice, so that the effort doubles with each one: forty characters `(` keep the parser busy for hours (C56). The depth of the recursion is not limited (C55).
* `A::die` is read as `A::exit`; `A::yield` aborts.
* An empty `default` is dropped (C23). `use A {}` in a class is dropped. The nullable mark of types is dropped.
* `??` and `|=` are not supported; `xor` becomes the bitwise operator; `&=` becomes `Op::And`.
* Error reports combine the start of one token with the line of another; formatting aborts for multi-line ranges and behind the last token of a line (C27).
* Line breaks outside of the tags and behind a backslash are not counted, those in a block comment are counted at its end and not all of them, the one behind the end of a heredoc is counted twice: errors are reported on wrong lines (C47).

Printer: see the list of the round trip below.

Tester: when the bad file is the last one, the report indexes behind the end of the list (`C28_report_aborts`).

## The trees of the round trip theorems (C20, C21)

`rtExpr`/`rtTops` of `Spec/RoundTrip.lean` are decidable predicates. Excluded are

1. trees whose printed form is read differently or not at all (each is a defect of the printer or the tokenizer):
   `exit` without argument (`exit()` is rejected); strings with two adjacent backslashes; `global $a` (prints `$$a`);
   `${..}` and `$$a`; `use` with several clauses (printed as several statements); `&&=` and `**=`; magic constants (printed in
   upper case, which the tokenizer does not know); a number directly left or right of `.` (`1.2`); type names directly in
   parentheses, `f(int)`, which the tokenizer takes for a cast; `clone`, `include`, `yield`, assignments and `instanceof`
   as operands of tighter operators (not parenthesised by the printer); nested prefix signs (`- -1`, `+ +1`); `yield from..`
   where the operand begins with `from`; a `switch`
   whose empty trailing cases have several labels; doubles that `Display` prints differently from the literal or without a
   dot; negative integers; aliases with modifiers in `use T { a as protected b; }` (aborts in the parser); binary strings and
   casts to a named type (never produced by the parser);
2. trees the parser never returns (empty index lists, nested `arrayIdx` that it would have merged, `list` outside the left
   side of an assignment, references outside `foreach`, names that are not identifiers, ...).
