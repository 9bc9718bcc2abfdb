{"id": "C01", "title": "The lexer alphabet partitions all code points", "statement": "For every set of token rules, the character ranges the lexer generator computes are sorted, contiguous and pairwise disjoint, start at code point 0 and end at char::MAX, so every Rust char lies in exactly one range; every character a pattern names (alone or as an end of a range) is a range on its own; and range 0 is exactly the NUL character.", "quantifier": "all lists of token rules; all chars", "why_tests_cant": "the set of token rules and the set of chars are unbounded/huge; a test fixes a few patterns", "anchors": ["lapex-lexer/src/alphabet.rs: generate_alphabet, get_chars_from_pattern, Alphabet"]}
{"id": "C02", "title": "Range lookup is total and correct", "statement": "For every alphabet the generator produces and every char, find_range neither panics nor answers None, and the range index it returns is the one index whose range contains the char; a char range written in a pattern therefore covers exactly the alphabet indices from its lower to its upper end.", "quantifier": "all token rules, all chars", "why_tests_cant": "binary search boundary cases depend on alphabet size and position", "anchors": ["lapex-lexer/src/alphabet.rs: Alphabet::find_range"]}
{"id": "C03", "title": "The NFA accepts exactly the strings the token patterns denote", "statement": "For every list of token rules on which the generator does not panic and whose patterns contain no empty sequence, and every string, the accepting node of a rule can be reached from the NFA start by that string if and only if the rule's pattern (read as an ordinary regular expression) matches the whole string.", "quantifier": "all token rules, all strings", "why_tests_cant": "Thompson constructions fail on interactions between nested operators; only induction on patterns covers all nestings", "anchors": ["lapex-lexer/src/nfa/mod.rs: generate_nfa, build_nfa_from_pattern, chain_pattern_iterator, chain_pattern_times"]}
{"id": "C04", "title": "Which token patterns make the lexer generator panic", "statement": "generate_nfa panics exactly when some pattern contains a counted repetition whose maximum does not exceed its minimum; every other list of token rules gives an NFA. In particular the legal regex a{3} makes the generator panic.", "quantifier": "all token rules", "why_tests_cant": "panic freedom ranges over all patterns", "anchors": ["lapex-lexer/src/nfa/mod.rs: chain_pattern_iterator, chain_pattern_times, build_nfa_from_pattern"]}
{"id": "C05", "title": "The subset construction terminates and preserves the language rule by rule", "statement": "For every NFA, powerset_construction terminates and returns a DFA such that for every word the DFA either has no run (then no NFA run exists) or ends in a state that lists exactly the rules whose NFA accepting nodes are reachable by that word.", "quantifier": "all NFAs, all words", "why_tests_cant": "termination and language equality range over all automata and all words", "anchors": ["lapex-automaton/src/lib.rs: powerset_construction, add_powerset_to_dfa, convert_powerset_to_dfa, epsilon_closure"]}
{"id": "C06", "title": "The DFA is deterministic, starts in state 0 and has only reachable, distinct states", "statement": "For every NFA the DFA returned has at most one outgoing transition per state and alphabet index, its start state has number 0 (the generated lexers hard-code this), state numbers are exactly 0..n-1, every state is reachable from the start, and distinct states stand for distinct sets of NFA nodes.", "quantifier": "all NFAs", "why_tests_cant": "renumbering bugs depend on graph shape", "anchors": ["lapex-automaton/src/lib.rs: convert_powerset_to_dfa, Dfa::add_transition"]}
{"id": "C07", "title": "Precedence resolution: one rule per accepting state or a reported tie", "statement": "apply_precedence_to_dfa returns a DFA with the same states and transitions in which every accepting state accepts exactly the one rule of strictly highest precedence among the rules it accepted, if such a rule exists for every accepting state; otherwise it returns an error naming, for some reachable accepting state, exactly the rules that tie for the highest precedence.", "quantifier": "all DFAs and rule sets", "why_tests_cant": "depends on all subsets of rules meeting in a state", "anchors": ["lapex-lexer/src/lib.rs: resolve_precedence, apply_precedence_to_dfa, PrecedenceError"]}
{"id": "C08", "title": "Default precedence is bounded by match length, so keywords beat identifiers", "statement": "If a pattern matches a string then the pattern's default precedence is at most the string's length; hence a literal token without explicit precedence always has strictly higher precedence than every regex token without explicit precedence that matches the same non-empty text, and two different literals never match the same text. So a rule set of distinct non-empty literals plus at most one regex rule per matched text never yields a precedence error between a literal and a regex.", "quantifier": "all patterns and strings", "why_tests_cant": "relates a numeric heuristic to an infinite language", "anchors": ["lapex-input/src/lib.rs: Pattern::precedence, TokenRule::precedence"]}
{"id": "C09", "title": "A token returned by the generated lexer is right and longest", "statement": "For every rule set without empty groups and every input, if the generated lexer's next() returns a token for rule r, then the slice is a prefix of the unread input that r's pattern matches, r has strictly the highest precedence among all rules that match this slice, and no longer prefix of the unread input that contains no NUL char is matched by any rule.", "quantifier": "all rule sets, all inputs, all positions", "why_tests_cant": "unbounded inputs", "anchors": ["lapex-rust-codegen/src/lexer/mod.rs: next, make_next_function cases", "lapex-cpp-codegen/src/lexer/lexer.cpp.tpl"]}
{"id": "C10", "title": "When the generated lexer reports an error", "statement": "Away from the end of the input, for rule sets without empty groups and without sub-patterns that can match nothing, next() reports an error exactly when the longest NUL-free prefix of the unread input that can still be extended to a match is not itself matched by any rule; the reported range contains the first unread char; next() never panics. Consequently the lexer is not maximal munch with backtracking: there are rule sets and inputs with a matching prefix for which next() errors (tokens 'a' and 'abc' on 'abd'). When every viable extension of a match is a match, next() returns a token whenever some prefix is matched.", "quantifier": "all rule sets, all inputs", "why_tests_cant": "the non-backtracking corner needs a universally quantified characterisation", "anchors": ["lapex-rust-codegen/src/lexer/mod.rs: next"]}
{"id": "C11", "title": "Lexer spans tile the input", "statement": "Successive calls of next() return spans that begin where the previous one ended; each span lies on char boundaries so slice() never panics; and when a run of calls ends with EndOfFile without errors the concatenation of all slices is the input up to that point.", "quantifier": "all rule sets, all inputs, all call sequences", "why_tests_cant": "call histories are unbounded", "anchors": ["lapex-rust-codegen/src/lexer/mod.rs: next, span, slice"]}
{"id": "C12", "title": "End of file is reported exactly at the end or at a NUL char, and then for ever", "statement": "next() returns EndOfFile exactly when the unread input is empty or starts with the NUL character (even when some token pattern matches NUL); after it has returned EndOfFile every later call returns EndOfFile too. Hence input after a NUL char is silently ignored.", "quantifier": "all rule sets, all inputs, all call histories", "why_tests_cant": "depends on history of calls", "anchors": ["lapex-rust-codegen/src/lexer/mod.rs: make_cases '(0, 0)', transition filter on 0"]}
{"id": "C13", "title": "Lexer progress", "statement": "If no token rule matches the empty string, every call of next() that returns a token consumes at least one char, so the number of tokens before EndOfFile or an error is at most the number of chars; if a rule matches the empty string there are inputs on which next() returns empty tokens for ever.", "quantifier": "all rule sets, all inputs, all call histories", "why_tests_cant": "liveness over unbounded histories", "anchors": ["lapex-rust-codegen/src/lexer/mod.rs: next"]}
{"id": "C14", "title": "The C++ lexer returns the same token stream as the Rust lexer", "statement": "On every valid UTF-8 encoded text, the generated C++ lexer returns the same sequence of token types as the generated Rust lexer, and its positions are the char counts of the Rust spans.", "quantifier": "all rule sets, all texts", "why_tests_cant": "two implementations over unbounded inputs", "anchors": ["lapex-cpp-codegen/src/lexer/mod.rs", "lapex-cpp-codegen/src/lexer/lexer.cpp.tpl: next, advance"]}
{"id": "C15", "title": "The C++ UTF-8 decoder is correct", "statement": "For every Unicode scalar value, decoding its UTF-8 encoding yields that value with no error flag and the right length; and every byte sequence of up to four bytes decoded without error flag is the encoding of the scalar value returned (so overlong forms, surrogates, stray continuation bytes and truncated sequences are flagged).", "quantifier": "all scalar values; all byte sequences", "why_tests_cant": "1.1 million scalar values and 2^32 byte sequences", "anchors": ["lapex-cpp-codegen/src/lexer/lexer.cpp.tpl: utf8_decode, advance"]}
{"id": "C16", "title": "Name resolution of the grammar builder", "statement": "Building a grammar from a rule set succeeds without conflict error exactly when token names are pairwise distinct and no production has the name of a token; several productions may share a name and then denote alternatives of one non-terminal; a name used in a production body or as entry that no token or production defines gives a missing-symbol error, and otherwise the build succeeds.", "quantifier": "all rule sets", "why_tests_cant": "ranges over all rule sets", "anchors": ["lapex-parser/src/grammar_builder.rs: GrammarBuilder::from_rule_set, get_symbol, transform_pattern", "lapex-parser/src/grammar.rs: Grammar::from_rule_set"]}
{"id": "C17", "title": "Anonymous non-terminals are fresh", "statement": "Every helper non-terminal the builder introduces is different from every other symbol of the grammar (named or helper), as long as there are fewer than 65536 symbols; with more than 65536 tokens two tokens silently get the same symbol.", "quantifier": "all rule sets", "why_tests_cant": "depends on sizes beyond test sizes", "anchors": ["lapex-parser/src/grammar_builder.rs: get_temp_symbol, from_rule_set"]}
{"id": "C18", "title": "Desugaring EBNF preserves the language", "statement": "For every rule set the builder accepts and every production name, the token strings derivable from that non-terminal in the plain context-free grammar are exactly the token strings the EBNF productions of that name denote (sequence, alternative, one-or-many, zero-or-many, optional, epsilon, named rules).", "quantifier": "all rule sets, all token strings", "why_tests_cant": "infinite languages and nested operators", "anchors": ["lapex-parser/src/grammar_builder.rs: transform_pattern, add_production_rule, build"]}
{"id": "C19", "title": "The grammar builder leaves the generated grammar well-formed", "statement": "In every grammar the builder returns every non-terminal used has at least one rule, the entry rule expands to the entry non-terminal, every terminal has a token name, no End symbol occurs in a rule, and every rule's left side is a declared non-terminal.", "quantifier": "all rule sets", "why_tests_cant": "ranges over all rule sets", "anchors": ["lapex-parser/src/grammar_builder.rs", "lapex-parser/src/grammar.rs"]}
{"id": "C20", "title": "FIRST sets are exact", "statement": "compute_first_sets terminates, never panics, and for every grammar without empty right-hand sides (epsilon is written explicitly) a terminal is in FIRST(A) iff some sentential form derived from A starts with it, and epsilon is in FIRST(A) iff A derives the empty string.", "quantifier": "all grammars", "why_tests_cant": "fixpoint over derivations of any length", "anchors": ["lapex-parser/src/util.rs: compute_first_sets, get_first_terminals_of_sequence"]}
{"id": "C21", "title": "FOLLOW sets are exact", "statement": "compute_follow_sets terminates, never panics, and a terminal or the end marker is in FOLLOW(A) iff it can directly follow A in some sentential form derived from the entry symbol followed by the end marker (for grammars without empty right-hand sides, all of whose non-terminals are reachable; in general, from any rule context).", "quantifier": "all grammars", "why_tests_cant": "fixpoint over derivations of any length", "anchors": ["lapex-parser/src/ll_parser/mod.rs: compute_follow_sets, get_follow_symbols_of_remainder"]}
{"id": "C22", "title": "The LL(1) table is produced exactly for LL(1) grammars", "statement": "generate_table returns Ok iff for every non-terminal the predict sets of its rules (FIRST, plus FOLLOW when nullable) are pairwise disjoint and no rule's own FIRST and FOLLOW overlap when it is nullable; on Ok the table entry for (A, t) is exactly the unique rule predicting t. A grammar with a table is unambiguous: every token string has at most one parse tree.", "quantifier": "all grammars", "why_tests_cant": "ranges over all grammars", "anchors": ["lapex-parser/src/ll_parser/mod.rs: generate_table, LLParserTable"]}
{"id": "C23", "title": "The LL driver accepts only sentences and reports a parse tree", "statement": "If an LL parser that dispatches by the generated table returns normally, the tokens consumed are exactly all tokens up to end of file, they form a sentence of the grammar, and the enter/exit/token callbacks are the pre/post-order traversal of a parse tree of it (plus a token callback for the end of file). The generated C++ dispatch has this property when non-terminal enum ordinals equal symbol numbers; otherwise it can accept strings that are not sentences.", "quantifier": "all grammars, all token streams", "why_tests_cant": "unbounded inputs", "anchors": ["lapex-cpp-codegen/src/ll_parser/parser_impl.h.tpl: parse", "lapex-cpp-codegen/src/ll_parser/mod.rs: write_table_switch"]}
{"id": "C24", "title": "The LL driver accepts every sentence", "statement": "For every grammar with an LL(1) table, a driver that dispatches by the table accepts every sentence and reports its tree. The generated C++ dispatch does not: it has no case for end of file, and it numbers non-terminals differently in its enum and its switch, so there are LL(1) grammars with sentences it rejects. Where the numbers agree it accepts exactly the sentences with a parse tree in which no node starts behind the last token, so all sentences if no rule is predicted at the end of the input.", "quantifier": "all LL(1) grammars, all sentences", "why_tests_cant": "unbounded inputs", "anchors": ["lapex-cpp-codegen/src/ll_parser/mod.rs: write_table_switch", "lapex-cpp-codegen/src/ll_parser/parser_impl.h.tpl"]}
{"id": "C25", "title": "The LL parser terminates on every token stream", "statement": "For every LL(1) table, the table-driven parse of every token stream that contains end of file or an error of the lexer ends after finitely many steps with acceptance or an error, and so does the generated C++ parser where its two numberings of non-terminals agree.", "quantifier": "all LL(1) grammars, all token streams", "why_tests_cant": "termination", "anchors": ["lapex-cpp-codegen/src/ll_parser/parser_impl.h.tpl: parse"]}
{"id": "C26", "title": "LR item closure is the least closed set", "statement": "expand_item terminates and returns exactly the items derivable from the given item by repeatedly adding, for an item with a non-terminal after the dot, that non-terminal's rules with every lookahead that can follow.", "quantifier": "all grammars, all items", "why_tests_cant": "fixpoint of unbounded depth", "anchors": ["lapex-parser/src/lr_parser/mod.rs: expand_item, determine_lookaheads_to_expand"]}
{"id": "C27", "title": "Parser table generation terminates without panic", "statement": "For LR(0), LR(1) and LALR, generation of the parser graph terminates for every grammar, and does not panic when right-hand sides have at most 255 symbols and epsilon occurs only at the front of a right-hand side. An epsilon after a non-terminal in the middle of a right-hand side makes the LR(1)/LALR generator panic.", "quantifier": "all grammars, all three algorithms", "why_tests_cant": "termination over all grammars", "anchors": ["lapex-parser/src/lr_parser/mod.rs: generate_parser_graph, merge_into_state", "lapex-parser/src/lr_parser/item.rs: advance_dot"]}
{"id": "C28", "title": "An LR parse that succeeds is a derivation of what was consumed", "statement": "For every grammar, algorithm (LR(0), LR(1), LALR) and token stream: if the generated parser returns Ok, the tokens it shifted form a sentence of the entry rule, and the shift and reduce callbacks, in order, are the post-order traversal of a parse tree with that yield.", "quantifier": "all grammars, all token streams", "why_tests_cant": "unbounded inputs", "anchors": ["lapex-rust-codegen/src/lr_parser/mod.rs: parse, reduce_stack_and_visit", "lapex-parser/src/lr_parser/mod.rs: build_table"]}
{"id": "C29", "title": "An LR parse that succeeds has consumed the whole input", "statement": "If the generated LR(1) parser returns Ok and the entry non-terminal is not left-recursive, the token after the shifted ones is end of file. This fails without the hypothesis (left-recursive entry) and fails for LALR and LR(0): there the parser can return Ok although tokens remain.", "quantifier": "all grammars, all token streams", "why_tests_cant": "unbounded inputs", "anchors": ["lapex-parser/src/lr_parser/mod.rs: build_table (insert_accept)", "lapex-rust-codegen/src/lr_parser/mod.rs: parse (Goto::Accept)"]}
{"id": "C30", "title": "A conflict-free LR(1) parser accepts every sentence", "statement": "For every grammar whose LR(1) table is reported free of conflicts, whose entry non-terminal is not left-recursive and whose rules have epsilon only in front, the generated parser returns Ok on every sentence followed by end of file, with the callbacks of its parse tree.", "quantifier": "all conflict-free grammars, all sentences", "why_tests_cant": "unbounded inputs", "anchors": ["lapex-parser/src/lr_parser/mod.rs: generate_table", "lapex-rust-codegen/src/lr_parser/mod.rs: parse"]}
{"id": "C31", "title": "A conflict-free LALR parser accepts every sentence", "statement": "The same for LALR: merging item sets loses no sentence.", "quantifier": "all conflict-free grammars, all sentences", "why_tests_cant": "unbounded inputs and merge orders", "anchors": ["lapex-parser/src/lr_parser/mod.rs: merge_into_state, generate_parser_graph"]}
{"id": "C32", "title": "No conflicts means unambiguous", "statement": "If table generation reports no conflicts (LR(1), LALR or LR(0), entry not left-recursive, epsilon only in front), every token string has at most one parse tree.", "quantifier": "all grammars, all token strings", "why_tests_cant": "ambiguity is undecidable; only a proof covers all strings", "anchors": ["lapex-parser/src/lr_parser/mod.rs: find_conflicts"]}
{"id": "C33", "title": "No conflicts means at most one entry per table cell", "statement": "If conflict search finds nothing for an LR(1) or LALR graph then every action/goto cell has exactly one entry, so the code generators' 'Multiple transitions' panic cannot happen. For LR(0) this fails: an entry rule deriving epsilon gives a conflict-free report and a cell with two entries.", "quantifier": "all grammars, states and symbols", "why_tests_cant": "ranges over all grammars", "anchors": ["lapex-parser/src/lr_parser/mod.rs: find_conflicts, build_table", "lapex-rust-codegen/src/lr_parser/mod.rs: make_actions, make_gotos"]}
{"id": "C34", "title": "The generated LR parser never panics", "statement": "For every grammar and algorithm for which code is generated and every token stream, the generated parser never hits unreachable!(), unwraps None or underflows its stack.", "quantifier": "all grammars, all token streams, every step", "why_tests_cant": "every reachable parser configuration", "anchors": ["lapex-rust-codegen/src/lr_parser/mod.rs: next_goto, reduce_stack_and_visit, parse"]}
{"id": "C35", "title": "LR parsers detect errors before shifting a bad token", "statement": "Whenever the generated LR parser (any algorithm) has shifted some tokens, these tokens are a prefix of some sentence, provided every non-terminal of the grammar is productive.", "quantifier": "all grammars, token streams and steps", "why_tests_cant": "every reachable configuration", "anchors": ["lapex-parser/src/lr_parser/mod.rs: generate_parser_graph", "lapex-rust-codegen/src/lr_parser/mod.rs: parse"]}
{"id": "C36", "title": "The expected-token list in an LR error is exact", "statement": "When the generated parser reports an unexpected token in a state, the reported 'expected' list contains exactly the tokens for which that state has a shift or reduce action; the offending token is not among them.", "quantifier": "all grammars, all states", "why_tests_cant": "ranges over all states", "anchors": ["lapex-rust-codegen/src/lr_parser/mod.rs: make_actions"]}
{"id": "C37", "title": "LALR without conflicts implies LR(1) without conflicts", "statement": "For every grammar, if the LALR table has no conflicts then the LR(1) table has none.", "quantifier": "all grammars", "why_tests_cant": "relates two unbounded constructions", "anchors": ["lapex-parser/src/lr_parser/mod.rs: merge_into_state, find_conflicts"]}
{"id": "C38", "title": "A GLR parse that succeeds reports one derivation", "statement": "If the generated GLR parser returns Ok, the callbacks it made are the post-order traversal of a parse tree whose yield is the tokens shifted; events of abandoned branches are never reported.", "quantifier": "all grammars, all token streams", "why_tests_cant": "all interleavings of stacks", "anchors": ["lapex-rust-codegen/src/glr_parser/mod.rs: parse, apply_reduces, apply_reduce, gss"]}
{"id": "C39", "title": "GLR agrees with LR on conflict-free grammars", "statement": "On a table with at most one entry per cell the generated GLR parser returns Ok exactly when the generated LR parser does, with the same callbacks.", "quantifier": "all grammars, all token streams", "why_tests_cant": "all executions", "anchors": ["lapex-rust-codegen/src/glr_parser/mod.rs", "lapex-rust-codegen/src/lr_parser/mod.rs"]}
{"id": "C40", "title": "GLR on ambiguous and cyclic grammars", "statement": "The generated GLR parser panics on inputs with two parses (its accept pops the shared bottom node twice) and does not terminate on cyclic grammars; so 'the GLR parser returns for every grammar and input' is false.", "quantifier": "existence of a grammar and input; all step counts for non-termination", "why_tests_cant": "non-termination is not testable", "anchors": ["lapex-rust-codegen/src/glr_parser/mod.rs: apply_reduce, gss::GraphNode::pop"]}
{"id": "C41", "title": "Names of reduce callbacks", "statement": "For grammars without tags and whose non-terminal names do not end in an underscore and digits, distinct rules get distinct reduce callback names; with tags this fails: an alternative inside a tagged production gives two callbacks of the same name.", "quantifier": "all grammars", "why_tests_cant": "name clashes range over all rule sets", "anchors": ["lapex-rust-codegen/src/lr_parser/mod.rs: rule names"]}
{"id": "C42", "title": "Enum names of tokens and non-terminals", "statement": "convert_snake_to_upper_camel panics exactly when the name has an empty segment between underscores (or at an end); names in lower snake case without digits-only segments map injectively; in general two different token names can map to one variant.", "quantifier": "all names", "why_tests_cant": "infinitely many names", "anchors": ["lapex-rust-codegen/src/lib.rs: convert_snake_to_upper_camel, get_token_enum_name"]}
{"id": "C43", "title": "Template substitution", "statement": "Writing a template outputs the template text with every marker replaced by what its substitution writes, and everything else unchanged, in order; it panics exactly when a marker has no substitution; a substituted text is not scanned again.", "quantifier": "all templates and substitutions", "why_tests_cant": "infinitely many texts", "anchors": ["lapex-codegen/src/templating.rs: Template, TemplateWriter, replace_all_streaming"]}
{"id": "C44", "title": "Source spans select the text they denote", "statement": "SourcePos::offset returns the byte offset of the char at that line and column, is injective and monotone in position order, and SourceSpan::substring of the span between two positions returns exactly the text between them.", "quantifier": "all texts, all positions", "why_tests_cant": "infinitely many texts", "anchors": ["lapex-input/src/lib.rs: SourcePos::offset, SourceSpan::substring"]}
{"id": "C45", "title": "Positions computed while parsing a lapex file", "statement": "For every ASCII lapex source in which a newline occurs only in tokens of the newline rule, the line/column span the input parser attaches to a token selects exactly the token's text; with non-ASCII chars on the same line, or a newline inside another token, this fails.", "quantifier": "all sources", "why_tests_cant": "infinitely many texts", "anchors": ["lapex-input-gen/src/lib.rs: parse_lapex token_fun"]}
{"id": "C46", "title": "What the lapex input parser makes of a file", "statement": "Given the tokens of a file, the input parser lapex generates for itself returns a rule set exactly if the tokens form a list of entry, token and production rules with exactly one entry rule, every regex and precedence number being valid; then the rule set is the one the rules stand for. Rules come out in reverse source order, each with the span from its first to its last token; sequences in source order, alternatives reversed, and every body matches the same token strings as its plain reading. The visitor never hits its 'Stack is broken' error.", "quantifier": "all token streams, all regex parsers", "why_tests_cant": "unbounded trees", "anchors": ["lapex-input-gen/src/lib.rs: LapexAstVisitor reduce_*"]}
{"id": "C47", "title": "Regex conversion preserves the language", "statement": "Whenever make_pattern_from_hir succeeds, the lapex pattern matches exactly the strings the regex HIR matches; it fails exactly for HIRs containing empty regexes, look-around, lazy repetition or byte classes.", "quantifier": "all HIRs, all strings", "why_tests_cant": "infinite languages", "anchors": ["lapex-input-gen/src/lib.rs: make_pattern_from_hir"]}
{"id": "C48", "title": "The two-way map keeps both directions consistent", "statement": "Under the operations table generation performs (insert of fresh pairs, replacement of an item set for a node), looking up by item set and by node stay inverse to each other; a general insert of an existing key breaks this.", "quantifier": "all operation histories", "why_tests_cant": "histories are unbounded", "anchors": ["lapex-parser/src/lr_parser/bidimap.rs"]}
{"id": "C49", "title": "The bootstrap input parser reads back what is printed", "statement": "Every list of rules with one entry rule that the bootstrap syntax can express (plain names, no tags or precedences), printed in that syntax, is parsed back by the bootstrap parser to the same rules, in order; likewise for every other spelling with different white space, parentheses and escapes. Conversely whatever it accepts is the text of such rules; a missing or second entry rule gets its own error, and left-over text is reported.", "quantifier": "all rule sets, all their spellings, all source texts", "why_tests_cant": "infinitely many rule sets", "anchors": ["lapex-input-bootstrap/src/lib.rs: parse_lapex_file, parse_rule, parse_token_rule, parse_production_rule, parse_entry_rule, parse_regex_*, parse_production_*"]}
{"id": "C50", "title": "Character escapes of the bootstrap parser", "statement": "Every char can be written in a regex of the bootstrap syntax: by itself or by an escape that the bootstrap parser reads back as this char; \\u{..} with four to six hexadecimal digits of every scalar value is read as it, of a non-scalar value or with another number of digits it is rejected, as are all other escapes. String literals have no escapes.", "quantifier": "all chars, all hexadecimal spellings, all source texts", "why_tests_cant": "1.1 million scalar values, all hex spellings", "anchors": ["lapex-input-bootstrap/src/lib.rs: parse_char_escaped, parse_char_unescaped"]}
{"id": "C51", "title": "LR(0) without conflicts implies LALR without conflicts", "statement": "For every grammar, if LR(0) table generation reports no conflicts then LALR generation reports none (and so neither does LR(1)).", "quantifier": "all grammars", "why_tests_cant": "relates two unbounded constructions", "anchors": ["lapex-parser/src/lr_parser/mod.rs: generate_parser_graph, merge_into_state, find_conflicts"]}
{"id": "C52", "title": "The parser graph is the canonical collection of item sets", "statement": "For LR(0) and LR(1) the states of the generated parser graph are exactly the canonical collection: state 0 is the closure of the entry item, each edge leads to the closure of the advanced items, every advanceable item has an edge, no two states have the same items, and every state is reachable. For LALR, every string of symbols for which there are LR(1) items leads to exactly one state, two strings lead to the same state exactly if their items agree up to lookaheads, and the items of a state are exactly the LR(1) items of the strings that lead to it.", "quantifier": "all grammars, all states", "why_tests_cant": "fixpoint of unbounded size over all grammars", "anchors": ["lapex-parser/src/lr_parser/mod.rs: generate_parser_graph"]}
{"id": "C53", "title": "GLR results count the parse trees", "statement": "For a grammar whose entry symbol occurs in no right side (or, with LR(1) tables, is not left-recursive), without duplicated rules, the generated GLR parser returns Ok only if the input has exactly one parse tree, and then reports it; it panics only if the input has at least two; it reports an error only if the input has none.", "quantifier": "all grammars, all token streams, all step counts", "why_tests_cant": "all interleavings of stacks over all inputs", "anchors": ["lapex-rust-codegen/src/glr_parser/mod.rs: parse, apply_reduces, gss"]}
{"id": "C54", "title": "Termination of the GLR parser", "statement": "For every grammar in which no non-terminal derives itself and no left recursion is hidden behind symbols that can become empty, the generated GLR parser returns on every input, so with C53 it decides whether an input has no, one or several parse trees. Without empty rules it returns within (n+1)(2r+5) rounds (n tokens, r rules).", "quantifier": "all such grammars, all token streams", "why_tests_cant": "termination on all inputs", "anchors": ["lapex-rust-codegen/src/glr_parser/mod.rs: parse, apply_reduces"]}
{"id": "C55", "title": "LR lookahead is respected", "statement": "Generated LR(1) and LALR parsers reduce by a rule only if the next token can follow the rule's left side in some sentential form; if the entry symbol occurs in no right side they return Ok only at the end of the input.", "quantifier": "all grammars, all reachable parser configurations", "why_tests_cant": "unboundedly many configurations", "anchors": ["lapex-parser/src/lr_parser/mod.rs: expand_item, generate_table", "lapex-rust-codegen/src/lr_parser/mod.rs: parse"]}
{"id": "C56", "title": "Syntax errors are reported at the first wrong token", "statement": "When a generated LR or GLR parser reports an unexpected token, the tokens before it are the beginning of a sentence and no sentence continues with the reported token (viable prefix property).", "quantifier": "all grammars with productive non-terminals and an entry symbol that is not left-recursive, all token streams", "why_tests_cant": "all inputs, and a statement about all sentences", "anchors": ["lapex-rust-codegen/src/lr_parser/mod.rs: parse", "lapex-rust-codegen/src/glr_parser/mod.rs: parse"]}
{"id": "C57", "title": "Termination of LR parsers", "statement": "For every grammar in which every non-terminal derives some tokens and the entry symbol is not left-recursive, every generated LR parser (LR(0), LALR, LR(1)) returns on every token stream that ends; cycles and hidden left recursion cannot make it loop, as they are conflicts. It returns Ok for a sentence, with the callbacks of its parse tree; otherwise an error, or (LR(0) and, if the entry symbol occurs in a right side, LALR) Ok for a proper prefix that is a sentence. The parser also returns if instead of these conditions no non-terminal derives itself and no left recursion is hidden behind symbols that can become empty.", "quantifier": "all such grammars, all algorithms, all token streams", "why_tests_cant": "termination on all inputs", "anchors": ["lapex-rust-codegen/src/lr_parser/mod.rs: parse"]}
{"id": "C58", "title": "lapex can generate its own input parser", "statement": "The grammar file of lapex describes a well-formed grammar for which LR(1) table generation reports no conflicts, for which code is generated, and which is not ambiguous; the hand-written visitor implements exactly the methods of the generated trait.", "quantifier": "all token strings (unambiguity), every step bound above some bound (generation)", "why_tests_cant": "unambiguity is about all token strings; that a conflict-free table is found whatever the order of work is not visible in one build", "anchors": ["lapex-input-gen/src/lapex.lapex", "lapex-input-gen/build.rs", "lapex-input-gen/src/lib.rs: LapexAstVisitor"]}
{"id": "C59", "title": "LR(1) parsers stop and name exactly the tokens that fit", "statement": "A generated LR(1) parser returns on every token stream that ends, also for grammars with empty rules: Ok for sentences and an error for everything else. When it reports an error, no reduction was made after the last token was shifted, and the expected tokens are exactly those that can come next in some sentence (the end of file is among them exactly if the tokens so far are a sentence).", "quantifier": "all grammars with productive non-terminals, an entry symbol that is not left-recursive and epsilon only at the beginning of a rule; all token streams", "why_tests_cant": "termination on all inputs; the expected tokens are compared with all sentences", "anchors": ["lapex-parser/src/lr_parser/mod.rs: expand_item, generate_table", "lapex-rust-codegen/src/lr_parser/mod.rs: parse, write_action_table"]}
{"id": "C60", "title": "The grammar file of lapex is read as the grammar the input parser is built for", "statement": "When lapex-input-gen is built, the bootstrap parser reads src/lapex.lapex without error, as exactly the entry rule, tokens and productions of the lapex language in their order, and the generator makes an LR(1) parser from them.", "quantifier": "the text of lapex.lapex; all step bounds of the generator", "why_tests_cant": "the answer for the whole file has to be connected to the statements about all input files of the generated parser", "anchors": ["lapex-input-gen/build.rs", "lapex-input-gen/src/lapex.lapex", "lapex-input-bootstrap/src/lib.rs"]}
{"id": "C61", "title": "The generated C++ LR parser does what the generated Rust LR parser does", "statement": "From the same table the C++ generator produces a source that compiles if names do not clash and numbers fit; the compiled parser makes the same shift and reduce calls on every token stream, returns exactly where the Rust parser returns Ok, and throws an exception whose message names the found and the expected tokens where the Rust parser returns an error. For LR(1) it returns exactly on the sentences of the grammar. This needs a shift in the start state, which is there if the language has a non-empty sentence; otherwise the C++ parser never returns.", "quantifier": "all rule sets whose grammar has a table and a Rust parser (LR(0), LR(1), LALR), all token streams, any number of steps", "why_tests_cant": "two programs in different languages have to agree for every grammar and every token stream", "anchors": ["lapex-cpp-codegen/src/lr_parser/mod.rs: generate_code", "lapex-cpp-codegen/src/lr_parser/action_goto.rs", "lapex-cpp-codegen/src/lr_parser/parser_impl.h.tpl", "lapex-cpp-codegen/src/lr_parser/parser.cpp.tpl", "lapex-parser/src/lr_parser/mod.rs: state_has_shift"]}
{"id": "C62", "title": "A generated lexer and a generated parser together accept exactly the texts the rules describe", "statement": "Let the token function of a generated LR(1) parser hand on the tokens of the generated lexer, leaving out some kinds (white space). For a text that splits into tokens by repeated longest match, the parser returns Ok exactly if the tokens that are not left out match the entry rule of the file; for a text that does not, it never returns Ok. Its callbacks are then those of a parse tree over these tokens and their texts. It stops on every text; an error comes at the first token that cannot continue any matching text, and names exactly the tokens that could. The C++ lexer and parser accept the same texts. With LALR the same holds if no production uses the entry rule; with any kind of table matching texts are accepted, the parser stops on every text, and an error is at the place of the text behind the longest run of tokens that can be continued. A GLR parser fed like this tells whether the tokens of the text have no parse tree, exactly one, or more.", "quantifier": "all token rules and productions without degenerate patterns for which a lexer and an LR(1) table are generated, all sets of token kinds to leave out, all texts", "why_tests_cant": "the whole chain (alphabet, automaton, precedence, lexer, grammar, item sets, table, generated driver) has to be right for every rule set and every text", "anchors": ["lapex-automaton/src/lib.rs", "lapex-rust-codegen/src/lexer/mod.rs", "lapex-parser/src/grammar.rs: Grammar::from_rule_set", "lapex-parser/src/lr_parser/mod.rs: generate_table", "lapex-rust-codegen/src/lr_parser/mod.rs", "lapex-cpp-codegen/src/lexer/lexer.h.tpl", "lapex-cpp-codegen/src/lr_parser/parser_impl.h.tpl", "lapex-input-gen/src/lib.rs: the token function"]}
{"id": "C63", "title": "The input parser reads a file's text as the syntax says, and its spans quote the rules", "statement": "Given the text of a file, the lapex input parser (its generated lexer, the token function that counts lines and columns, its generated LR(1) parser and the visitor) returns a rule set exactly if the text splits into lapex tokens that form a file with one entry rule, and then the rule set this file stands for; otherwise it panics. It always stops. In an ASCII text without a backslash before a newline, the span of each returned rule quotes from the text exactly this rule, from its keyword to its semicolon. With a non-ASCII char or a backslash-newline before the rule this fails: the span may not exist in the text.", "quantifier": "all texts shorter than 65535 bytes, all lexers and parsers generated for lapex.lapex, all regex syntaxes", "why_tests_cant": "it is about every text: any split into tokens, any nesting of rules, any layout over lines; tests see a few files", "anchors": ["lapex-input-gen/src/lib.rs: GeneratedLapexInputParser::parse_lapex", "lapex-input-gen/src/lapex.lapex", "lapex-input/src/lib.rs: SourceSpan::substring"]}
{"id": "C64", "title": "Conflicts are reported exactly when the grammar is not LR", "statement": "Generating an LR(1) parser reports no conflicts exactly if the grammar is LR(1) by Knuth's definition (which speaks of rightmost derivations only); generating an LR(0) parser reports none exactly if it is LR(0), for grammars without empty rules. LALR: no conflicts means that the grammar is LR(1), and a shift-reduce conflict means that it is not. Every reported conflict is real: it names completed rules, and there are symbols after which reducing the rule is right with the named symbol coming next, and shifting that symbol (or reducing the other rule) is right as well; every clash of the states is reported. With empty rules LR(0) conflicts are reported for LR(0) grammars too.", "quantifier": "all grammars in which every non-terminal derives some tokens and epsilons stand only in front; the reality of conflicts for all grammars", "why_tests_cant": "LR(k) is about all rightmost derivations of a grammar, and no test shows for all grammars that no conflict is missed or invented", "anchors": ["lapex-parser/src/lr_parser/mod.rs: generate_table, find_conflicts", "lapex-parser/src/lr_parser/mod.rs: Conflict, GenerationResult"]}
{"id": "C65", "title": "A run of lapex either writes code for the grammar of the file or reports what is wrong with it", "statement": "`lapex::generate` on a grammar file: if it returns Ok, it has written the token types, the lexer (if asked for), the table (if asked for and the algorithm is an LR or GLR one) and last the parser, each made from the rules of the file by the algorithm and in the language asked for; the lexer and parser written accept together exactly the texts whose tokens match the entry rule (LR(1), LALR; for GLR: that have exactly one parse tree). If it returns an error, no parser and no table have been written, and the error is: the file cannot be read; or the token rules that match the same text with equal precedence, each named and quoted from the file; or one report for each conflict of the LR table, quoting the productions the rules come from. For rule files that meet stated conditions (names that can be converted, ASCII, at most 254 symbols per right side, no epsilon in sequences) it neither panics nor runs forever with LR(1), LALR and Rust GLR: with LR(1) it returns Ok exactly if the grammar is LR(1) and the lexer has no ties. `unreachable!()` is never reached. With LL(1) a grammar that is not LL(1) makes the tool panic; Rust LL(1) and C++ GLR never succeed; outside ASCII a conflict report may panic.", "quantifier": "every grammar file (readable or not), every choice of algorithm, language, lexer and table options, every rule set the input parser delivers, every text given to the generated code", "why_tests_cant": "Tests run the tool on a few grammar files; the claim is about every file and every combination of options, about which files have been written in which outcome, and about the language of the written code.", "anchors": ["lapex/src/lib.rs: generate, ParsingAlgorithm, Language", "lapex/src/errors.rs: LapexError::conflicts, LapexError::precedence, Location::from_span", "lapex-parser/src/lr_parser/mod.rs: generate_table, GenerationResult", "lapex-parser/src/ll_parser/mod.rs: generate_table"]}
{"id": "C66", "title": "The table file shows the table the parser is generated from", "statement": "With the option to write the table, the file `table` can be written for every grammar whose table is generated, with or without conflicts, without a panic. Each rule stands with its number on a line of its own, the header names the symbols of the columns, each row starts with the number of its state, and in the row of a state and the column of a symbol stands exactly what the generated parser does: `s n` for a token that is shifted to state n and for a non-terminal after which it goes to state n, `r n` where it reduces rule number n, `a` where it accepts, and `c` where the table has a conflict. The names in the header tell the columns apart, but for a token and a production with the same name and the same number.", "quantifier": "all grammars, all kinds of LR table, all states and symbols of the table", "why_tests_cant": "Tables of the examples show a few cells of a few grammars; that text and generated parser agree in every cell has to be shown for every table.", "anchors": ["lapex-parser/src/lr_parser/mod.rs: output_table", "lapex-parser/src/grammar.rs: get_symbol_name, RuleDisplay", "lapex/src/lib.rs: generate_lexer_and_parser", "lapex-rust-codegen/src/lr_parser/mod.rs"]}
{"id": "C67", "title": "`lapex debug` says whether the source has exactly one parse tree, and prints it", "statement": "`lapex debug grammar source` (with GLR) prints \"Successfully parsed\" exactly if the source splits into tokens of the grammar, with none left out, and these tokens have exactly one parse tree; the lines printed before are the nodes of that tree in post-order (\"shift\" with the name of the token, or the rule). Otherwise it prints \"Failed to parse\". It always comes to an end. (The entry symbol occurs in no right side, no rule is listed twice, no cycle and no hidden left recursion, names give different identifiers.) With any other algorithm it never says \"Successfully parsed\", since the visitor it needs is generated only for GLR, and neither does it when two callbacks of the grammar have the same name.", "quantifier": "all grammar files, all sources, all algorithms", "why_tests_cant": "A test runs one grammar on a few sources; that the command accepts no source with zero or several trees and prints the right tree must hold for all of them.", "anchors": ["lapex-cli/src/main.rs: main, SubCommand::Debug", "lapex-rust-codegen/src/glr_parser/mod.rs: DebugVisitor", "lapex-rust-codegen/src/glr_parser/mod.rs: write_parser"]}
{"id": "C68", "title": "Error reports show the place, the text and the conflict", "statement": "When `lapex generate` or `lapex debug` ends with errors, what a terminal shows is, for each error, its kind on the first line, then for every rule concerned the file, line and column where the rule begins, the text of the rule as it stands in the file, underlined, and the state, the token and the rule with a dot at the end it is about; errors are separated by an empty line. This holds for every grammar file of at most 65534 bytes without escape characters. The underlining is exactly as long as the rule if it is ASCII text on one line (otherwise it is longer). The exit code is 0 with errors, too; it differs from 0 only after a panic.", "quantifier": "all grammar files up to the size limit, all algorithms and options, all errors a run can end with", "why_tests_cant": "A test compares the text of a few sample errors; the layout has to be right for texts of any number of lines, any number of conflicts and any names.", "anchors": ["lapex/src/errors.rs: Display for LapexError, write_section, LapexErrorType", "lapex-cli/src/main.rs: main"]}
{"id": "C69", "title": "Parsers take linear time", "statement": "For every generated LR parser (LR(0), LALR, LR(1); Rust and C++) and every generated LL(1) parser there is a constant, fixed by the parser, so that on every stream of n tokens the parser returns after at most constant * (n + 1) iterations of its loop, whether it accepts or reports an error. The number of callbacks and the size of the parse tree are bounded in the same way.", "quantifier": "all grammars for which the generator succeeds (every non-terminal derives something, entry not left recursive), all token streams, all token data", "why_tests_cant": "The number of reductions at one token is not bounded (right recursion), so no test of finitely many inputs shows that the total is linear; the constant has to work for all lengths.", "anchors": ["lapex-rust-codegen/src/lr_parser/mod.rs: parse", "lapex-cpp-codegen/src/lr_parser/parser_impl.h.tpl: parse", "lapex-cpp-codegen/src/ll_parser/parser_impl.h.tpl: parse", "lapex-parser/src/lr_parser/mod.rs: generate_table", "lapex-parser/src/ll_parser/mod.rs: generate_table"]}
{"id": "C70", "title": "Generation is reproducible", "statement": "Two runs of generate on the same grammar file with the same options write the same files and end in the same way, with the same error reports in the same order, although Rust seeds its hash maps and hash sets differently in every process and items are ordered by the addresses of their rules. Tables agree cell by cell, in the same order within the cells, and states have the same numbers. Conflicts are listed without repetitions, shift-reduce conflicts before reduce-reduce conflicts and by state. Remembering closures in a cache does not change the result.", "quantifier": "all grammar files, all options, all orders in which hash sets can be iterated (a different one every time), both possible places of the entry rule in memory, all orders in which states can be visited", "why_tests_cant": "Hash seeds and addresses change from run to run and cannot be set from a test; a test sees a few of the orders on a few grammars.", "anchors": ["lapex-parser/src/lr_parser/mod.rs: generate_parser_graph, expand_item, get_hash_lr0_core, build_rules_map, find_conflicts, build_table", "lapex-parser/src/lr_parser/item.rs: RuleRef", "lapex/src/lib.rs: generate"]}
{"id": "C71", "title": "Neither the order of the rules in a file nor their names matter", "statement": "Write the token rules and productions of a grammar file in another order, and give tokens and productions other (still different) names. Then a grammar is built for the new file exactly if one is for the old one; the two grammars differ only in the numbers of their symbols and the order of their rules. Every text has the same tokens. The grammars have the same sentences and the same parse trees, the one is LR(k) or LL(1) exactly if the other is, and the LR(0), LALR and LR(1) table generators find the same conflicts in corresponding states. The generated parsers accept the same texts, make corresponding callbacks, and the GLR parsers report an ambiguity for the same texts. With LR(1), LL(1) and GLR, lapex generate returns Ok for the one file exactly if it does for the other.", "quantifier": "all pairs of grammar files with the same rules up to order and names, all texts, all kinds of tables, all sets of token names to be left out", "why_tests_cant": "There are n! orders and infinitely many renamings of each of infinitely many files; the code numbers symbols by position, sorts by number and walks through maps in that order, so an accidental dependence shows only for some orders.", "anchors": ["lapex-parser/src/grammar.rs: GrammarBuilder::from_rule_set, get_temp_symbol, build", "lapex-lexer/src/lib.rs: apply_precedence_to_dfa", "lapex-parser/src/lr_parser/mod.rs: generate_table, find_conflicts", "lapex-parser/src/ll_parser/mod.rs: generate_table"]}
{"id": "C72", "title": "The generated C++ source text says what the tables say", "statement": "Read the generated file lexer.cpp as C++: split it into tokens (skipping comments), find the function Lexer::next, parse its statements, and execute them, where a switch jumps to the label of its value, cases fall through, and two equal labels are an error. On every input, every call of next returns the enumerator TK_<name of the rule> (or TK_EOF, TK_ERR) of the token that the automaton gives, and changes start, end, position and the unread input in the same way. The Debug text of a rule, which is written into a comment, does not matter.", "quantifier": "all sets of token rules for which a lexer is generated and whose names are words, all Debug texts of rules without newline and without trailing backslash, all inputs (also malformed UTF-8), all states of the lexer", "why_tests_cant": "The text is as large as the automaton and different for each set of rules; a test compiles a few of them. A wrong or repeated label, a missing break or a name in the wrong place shows only for some alphabets.", "anchors": ["lapex-cpp-codegen/src/lexer/mod.rs: write_alphabet_switch, write_state_machine_switch, write_impl", "lapex-cpp-codegen/src/lexer/lexer.cpp.tpl"]}
{"id": "C73", "title": "The text of the generated C++ LR parser is a correct parser", "statement": "Read the generated files tokens.h, tokens.cpp, parser.cpp and parser_impl.h as C++: split them into tokens, take the enumerators of TokenType and NonTerminalType in their order as numbers, find the functions get_token_name, throw_unexpected_token_error, determine_action, reduce_stack, retrieve_next_state, reduce_visitor and Parser::parse, parse their statements, and execute them. On every input the run of parse shifts the tokens and calls the visitor's reduce methods as the Rust parser for the same grammar does, returns where that one returns Ok, and throws an exception with a message naming the unexpected token and the expected ones where that one returns an error. In particular the text of an LR(1) parser returns exactly on the sentences.", "quantifier": "all grammar files whose names are words and for which tables without unresolved conflicts are built and the source compiles, all kinds of tables, all sequences of tokens, all numbers of rounds of the loop", "why_tests_cant": "The text grows with the table and is different for each grammar; a wrong label, a swapped number, a missing return or break, or a method name in the wrong place shows only for some grammars and inputs.", "anchors": ["lapex-cpp-codegen/src/lr_parser/mod.rs: write_impl, write_impl_header, write_stack_reduce_table, write_visitor_reduce_switch", "lapex-cpp-codegen/src/lr_parser/action_goto.rs: write_action_table, write_goto_table", "lapex-cpp-codegen/src/lr_parser/parser.cpp.tpl, parser_impl.h.tpl", "lapex-cpp-codegen/src/lexer/mod.rs: write_tokens_header, write_tokens_impl"]}
{"id": "C74", "title": "The text of the generated Rust lexer says what the tables say", "statement": "Read the generated files tokens.rs and lexer.rs as Rust: split them into tokens and groups, take the variants of TokenType, find the functions new, next, get_alphabet_index, get_alphabet_range, span and slice, parse their statements and match arms, and execute them, where a match takes the first arm whose pattern fits, and calls run the function in the same text. On every input, every call of next returns Ok with the variant at the place of the rule that the automaton gives (the first variant for the end of the input), or the error with the char or range, and changes start, position and the unread input in the same way; span and slice give the lexeme. Both files are written exactly if every name can be converted to camel case; otherwise the generator panics.", "quantifier": "all sets of token rules for which a lexer is generated and whose names are words, all inputs, all states of the lexer", "why_tests_cant": "The text is as large as the automaton and different for each set of rules; arms overlap and only their order makes the match right, which shows only for some automata and inputs.", "anchors": ["lapex-rust-codegen/src/lexer/mod.rs: write_token_enum, write_lexer", "lapex-rust-codegen/src/lib.rs: get_token_enum_name, convert_snake_to_upper_camel"]}
{"id": "C75", "title": "The text of the generated Rust LR parser is a correct parser", "statement": "Read the generated files tokens.rs and parser.rs as Rust: split them into tokens and groups, take the variants of TokenType, find the functions parse, next_action, next_goto and reduce_stack_and_visit in the impl of Parser, parse their statements and match arms, and execute them, where a match takes the first arm whose pattern fits, and calls run the function in the same text. On every input the run of parse calls the visitor, asks for tokens, and returns Ok or the error with the unexpected token and the expected ones as the program of the table does; a reduction calls the method that belongs to the rule. In particular the text of an LR(1) parser returns Ok exactly on the sentences. The trait Visitor declares shift and one method for each rule. The file is written if every name can be converted to camel case.", "quantifier": "all grammar files whose names and tags are words and for which the enums in the files have no variant twice, all kinds of tables without conflicts, all sequences of tokens with any data, all numbers of rounds of the loop", "why_tests_cant": "The text grows with the table and is different for each grammar. Arms overlap with the arm for unexpected tokens of the same state, so their order matters; a wrong number, name or order shows only for some grammars and inputs.", "anchors": ["lapex-rust-codegen/src/lr_parser/mod.rs: write_visitor, make_gotos, make_goto, make_actions, make_action, make_rule_reductions, make_rule_visits, write_parser", "lapex-rust-codegen/src/lib.rs: get_token_enum_name, convert_snake_to_upper_camel"]}
{"id": "C76", "title": "The functions in the text of the generated Rust GLR parser return what the table says", "statement": "Read the generated files tokens.rs and parser.rs (with a GLR parser, the default) as Rust and execute their functions. next_actions returns for every state and token the list of actions of the table cell, or the error with the token, its data and the tokens for which the state has actions; next_goto the next state, Accept or None; get_rule_reduction the number of symbols and the non-terminal of a rule; do_visit calls the method that belongs to the rule. The trait Visitor declares shift and one method for each rule, DebugVisitor defines exactly these, and its method for a rule prints the rule. The file is written if every name can be converted to camel case, and is not written if the name of a production cannot.", "quantifier": "all grammar files whose names and tags are words and for which the enums in the files have no variant twice, all tables with or without conflicts, all states, tokens, data, symbols and rules", "why_tests_cant": "The text grows with the table and is different for each grammar; with conflicts a cell has several actions. A wrong number, name or order of arms shows only for some grammars, states and tokens.", "anchors": ["lapex-rust-codegen/src/glr_parser/mod.rs: write_visitor, write_debug_visitor, make_gotos, make_goto, make_actions, make_action, make_rule_reductions, make_rule_visits, write_parser", "lapex-rust-codegen/src/lib.rs: get_token_enum_name, convert_snake_to_upper_camel"]}
{"id": "C77", "title": "The text of the generated Rust GLR parser, run, is the modelled GLR parser", "statement": "Read the generated files tokens.rs and parser.rs (with a GLR parser) as Rust and execute parse(). On every stream of tokens it makes the same calls of the visitor as the modelled GLR parser, calls the token function as often, and returns Ok, or UnexpectedToken with the token, its data and the expected tokens when there is one stack, or UnexpectedTokens with those of each stack, or panics. When the token function returns an error, parse stops right after that call and returns it as LexerError; the visitor has then been called with the first of the calls it would have got. So for grammars without cycles and hidden left recursion a run always ends: with Ok and the calls of the visitor of the parse tree if there is exactly one, with an error if there is none, with a panic if there are several. The methods of GraphNode in the text, executed on shared RefCell cells, do what the modelled stack does; no borrow fails.", "quantifier": "all grammar files whose names and tags are words and for which the enums in the files have no variant twice, all tables with or without conflicts, all streams of tokens with data, all positions at which the token function fails", "why_tests_cant": "The driver keeps several stacks that share nodes and records of visits, copied and merged at times that depend on the input. A lost or doubled record or a stack dropped too early shows only for some grammars and inputs.", "anchors": ["lapex-rust-codegen/src/glr_parser/mod.rs: write_parser, write_glr_parser", "lapex-rust-codegen/src/glr_parser/mod.rs: parse, apply_reduces, apply_reduce, combine_errors in the quoted text", "lapex-rust-codegen/src/glr_parser/mod.rs: module gss"]}
{"id": "C78", "title": "A program made of the generated Rust files accepts the texts of the grammar", "statement": "Take the generated files tokens.rs, lexer.rs and parser.rs, and a token function that calls the lexer of the text, leaves out some tokens and takes the text of a token with slice. Executed as Rust on a source text, parse returns Ok exactly if the text splits into tokens (the longest match, the earliest among rules of the same precedence) that, without those left out, match the entry rule as written in the grammar file; it then called shift and the methods of the rules for a parse tree of these tokens, with their text, bottom up from left to right. It always returns. With an LR(1) parser an error comes at the first token that cannot follow and names exactly the tokens that could. With a GLR parser and a grammar without cycles and hidden left recursion, parse returns Ok exactly if there is one parse tree, panics exactly if there are several, and returns an error otherwise, also when the text does not split into tokens.", "quantifier": "all grammar files whose names and tags are words, whose enums have no variant twice and whose token rules match no empty text, all choices of tokens to leave out, all source texts; LALR and LR(1) tables without conflicts, and with conflicts for GLR", "why_tests_cant": "It joins the lexer, the table and the parser for every grammar and every text; an error in the order of precedences, the tables, the writer of one of the files or in the way they fit together shows only for some grammars and texts.", "anchors": ["lapex-rust-codegen/src/lexer/mod.rs: write_token_enum, write_lexer", "lapex-rust-codegen/src/lr_parser/mod.rs: write_parser", "lapex-rust-codegen/src/glr_parser/mod.rs: write_parser", "lapex/src/lib.rs: generate", "lapex-input-gen/src/lib.rs: the token function"]}
{"id": "C79", "title": "A program made of the generated C++ files accepts the texts of the grammar", "statement": "Take the generated files lexer.cpp, tokens.h, parser.cpp and parser_impl.h, and a token function that calls next of the lexer made for the UTF-8 bytes of a source text, leaves out some tokens, and takes their start and end. Executed as C++, parse returns exactly if the text splits into tokens (the longest match, the earliest among rules of the same precedence) that, without those left out, match the entry rule as written in the grammar file; it then called shift, with the number of the token and the positions in chars between which its text stands, and the methods of the rules for a parse tree of these tokens, bottom up from left to right. It always returns or throws. With an LR(1) parser it throws at the first token that cannot follow, with a message that lists exactly the tokens that could. The files written by a successful run of generate are such files.", "quantifier": "all grammar files whose names are words and whose token rules match no empty text and are not shadowed, for which the generated C++ compiles; all choices of tokens to leave out (not the end and the error token), all source texts; LALR and LR(1) tables without conflicts", "why_tests_cant": "It joins the lexer, the enum of tokens, the tables and the parser for every grammar and every text; the numbering of tokens, the counting of chars against bytes, or the order of cases can be wrong for some grammars and texts only.", "anchors": ["lapex-cpp-codegen/src/lexer/mod.rs: write_lexer, write_token_enum", "lapex-cpp-codegen/src/lexer/lexer.cpp.tpl: next, start, end", "lapex-cpp-codegen/src/lr_parser/mod.rs: write_parser", "lapex-cpp-codegen/src/lr_parser/parser_impl.h.tpl: parse", "lapex/src/lib.rs: generate"]}
{"id": "C80", "title": "The class in visitor.h has a function for each rule, and these are the functions the C++ parser calls", "statement": "The file visitor.h is written for every grammar. Read as C++, its class Visitor has the function shift for tokens and one function without parameters for each rule of the grammar, with the name made for the rule, and no others. The functions called on the visitor in the text of the parser are exactly these, so that a class derived from it that defines them all is enough and nothing called is missing. Above each function stands, as a comment, the rule it is called for. If no production is called like a non-terminal without name and no name ends in an underscore and a number, the functions have different names.", "quantifier": "all grammars made from rule sets; for the reading of the text, those whose names of tokens and productions are words", "why_tests_cant": "The header and the switch in the parser are written by different functions that number the rules of a non-terminal separately; whether they agree, and whether the comment belongs to the function below it, depends on the grammar.", "anchors": ["lapex-cpp-codegen/src/lr_parser/mod.rs: write_visitor_methods, write_visitor_header, write_visitor_reduce_switch, get_non_terminal_name", "lapex-cpp-codegen/src/lr_parser/visitor.h.tpl", "lapex-parser/src/grammar.rs: RuleDisplay"]}
{"id": "C81", "title": "Messages of errors in generated Rust code show what went wrong, and different errors have different messages", "statement": "Read the Display implementations in the generated files lexer.rs and parser.rs (LR or GLR) as Rust and run them on an error. The message for a char outside the alphabet shows its code and, if there is one, the char. The message of a parser shows the token that was found and the expected tokens, all of them, in their order, by their names in TokenType; the GLR parser shows an error of the token function as that error shows itself, and when several stacks failed a headline and one line for each. The errors an LR parser returns on a stream of tokens of the grammar have such messages. Two errors about tokens with the same message report the same tokens with the same expected ones.", "quantifier": "all grammars whose names are words, all tables code is generated for, all errors", "why_tests_cant": "Formats are paired with arguments by position and fields are bound by patterns; whether each error reaches the right format with its own fields, and whether messages can be told apart, ranges over all errors and all names of tokens.", "anchors": ["lapex-rust-codegen/src/lexer/mod.rs: impl Display for LexerError", "lapex-rust-codegen/src/lr_parser/mod.rs: impl Display for ParserError", "lapex-rust-codegen/src/glr_parser/mod.rs: impl Display for ParserError"]}
{"id": "C82", "title": "The text of the generated C++ LL parser is the modelled LL parser, and its visitor class has the functions it calls", "statement": "Read the generated files tokens.h, tokens.cpp, parser.cpp, parser_impl.h and visitor.h of the C++ LL parser as C++: take the enumerators of TokenType and NonTerminalType in their order as numbers, find the functions get_token_name, push_production_from_table, throw_unexpected_token_error, enter_visitor, exit_visitor and Parser::parse, and execute their statements (with the entry symbol given, which the template leaves as an unfilled marker, C43). On every input the run asks for the same tokens and makes the same calls of the visitor, by name and in the same order, as the LL parser of C23 to C25 with the generated dispatch; it throws exactly where that one reports an error, and the message names either the token found and the expected one, or the production and exactly the tokens that have an entry. If the ordinals of the non-terminals are their numbers, a run that returns has read a sentence and reported its parse tree; without this condition the text can accept what is no sentence. The class Visitor has the function token and the functions enter_ and exit_ for each production, all of different names, and the parser calls exactly these.", "quantifier": "all grammar files whose names are words, whose grammar has an LL(1) table and whose enumerators are different, all sequences of tokens of the file, all numbers of rounds of the loop", "why_tests_cant": "The text grows with the table and is different for each grammar; a symbol pushed in the wrong order, a wrong label or a missing break shows only for some grammars and inputs.", "anchors": ["lapex-cpp-codegen/src/ll_parser/mod.rs: write_table_switch, write_push_symbol_sequence, write_parser_table_error, write_non_terminal_visitor_call, write_visitor_methods, write_impl, write_impl_header, write_visitor_header", "lapex-cpp-codegen/src/ll_parser/parser.cpp.tpl, parser_impl.h.tpl, visitor.h.tpl", "lapex-cpp-codegen/src/lexer/mod.rs: generate_tokens"]}
{"id": "C83", "title": "Lexers and parsers work on-line", "statement": "What a generated lexer or parser has reported does not depend on input it has not asked for. Two texts with a common prefix give the same tokens and spans as long as the lexer stands inside the prefix; without the one char beyond the token this fails. Results and callbacks of the LR, LL and GLR parsers are determined by the tokens asked for. Therefore a token function may look at the callbacks made before it is called: for every such function the run is that on one fixed stream, so an Ok still means that the callbacks are those of a parse tree, and LR parsers still do not panic. When the LR and LL parsers ask for a token, all tokens before it have been handed to the visitor; the GLR parser asks before it reports the token before, and a token function that works with the LR parser can make it fail.", "quantifier": "all lexer tables and texts; all parsing machines, token streams, token functions depending on the callbacks, step counts", "why_tests_cant": "all continuations of an input and all ways in which a token function can depend on the history", "anchors": ["lapex-rust-codegen/src/lexer/mod.rs: next", "lapex-rust-codegen/src/lr_parser/mod.rs: parse", "lapex-rust-codegen/src/glr_parser/mod.rs: parse", "lapex-cpp-codegen/src/ll_parser/parser_impl.h.tpl: parse", "lapex-cpp-codegen/src/lr_parser/parser_impl.h.tpl: parse"]}
{"id": "C84", "title": "A C++ program made of the generated lexer and LL parser parses the text", "statement": "When the texts of the generated C++ lexer, token and LL parser files are run together on the UTF-8 bytes of a text, through a token function that leaves out some tokens, then (with the right value of the entry symbol, and if the enumerators of the non-terminals have the numbers used in the switch) the program returns for exactly those texts whose tokens are those of a parse tree in which no node starts behind the last token; if no rule is predicted at the end of the input, for exactly those texts whose tokens match the entry rule. When it returns it has called the visitor for the nodes and tokens of a parse tree, with start and end of each token. For every text it returns or throws. If production names are different, the two numberings agree iff no rule has an operator or there are at least as many productions as tokens. The files a successful run of lapex with the LL algorithm writes for C++ are such files.", "quantifier": "all token rules and productions, all texts, all choices of tokens to be left out", "why_tests_cant": "ranges over all grammar files and all texts", "anchors": ["lapex-cpp-codegen/src/ll_parser/mod.rs", "lapex-cpp-codegen/src/ll_parser/parser_impl.h.tpl: parse", "lapex-cpp-codegen/src/lexer/mod.rs", "lapex-cpp-codegen/src/lexer/lexer.cpp.tpl: next", "lapex-parser/src/grammar_builder.rs: get_temp_symbol", "lapex/src/lib.rs: generate"]}
{"id": "C85", "title": "LL parsers report errors at the first wrong token", "statement": "When an LL parser reports an error, the tokens it has read and handed to the visitor are the beginning of a sentence, and no sentence goes on with the token at which it reports the error; with dispatch by the table it reports an error at the end of file only if the tokens are no sentence. The same holds, at tokens, for the generated C++ parser (run as text, too) where its two numberings of non-terminals agree. A single expected token in the message would have fit. But the tokens named in a message are not all that would have fit, and with a production not only such.", "quantifier": "all LL(1) grammars (with productive non-terminals for the first part), all token streams", "why_tests_cant": "all inputs, and a statement about all sentences", "anchors": ["lapex-cpp-codegen/src/ll_parser/parser_impl.h.tpl: parse, throw_unexpected_token_error", "lapex-cpp-codegen/src/ll_parser/mod.rs: write_table_switch", "lapex-parser/src/ll_parser/mod.rs: generate_table"]}
{"id": "C86", "title": "What a run leaves in the target directory, also after faults and kills", "statement": "GeneratedCodeWriter::generate_code writes to the target registered last for a key and then touches no file; without a target it replaces the file of that name and no other. On a disk that takes the files, a successful run of lapex generate leaves exactly the files of its language and options, each with exactly the output of its generator whatever it contained before, and all other files as they were. If files cannot be created, the disk becomes full, a generator panics, or the process is killed at any time, each file is as before or has the beginning of what should be in it, and a later run on a disk that takes the files leaves the same directory as if the failed one had not been. If generate_code returns Ok at most the last 8192 bytes of a file are missing; for smaller files a full disk is not noticed at all.", "quantifier": "all generators and ways to split their output into writes, all disks, all directories, all points at which a run is killed", "why_tests_cant": "all crash points and fault positions", "anchors": ["lapex-codegen/src/lib.rs: GeneratedCodeWriter, add_target, generate_code", "lapex/src/lib.rs: generate_lexer_and_parser", "lapex-cpp-codegen/src/lexer/mod.rs: generate_lexer, generate_tokens", "lapex-rust-codegen/src/lexer/mod.rs: generate_lexer, generate_tokens"]}
{"id": "C87", "title": "The files in the directory after lapex generate are a program for the grammar", "statement": "When lapex generate has returned Ok on a disk that takes its files, then whatever the target directory contained before (nothing, the output for another grammar, the remains of a killed run), the bytes now in the files, read as source code and run, accept exactly the texts the grammar file describes: those whose tokens (longest match, tokens to be left out removed) match the entry rule, for Rust and C++ with LR(1) and LALR and for C++ with LL(1); with GLR those with exactly one parse tree. Every text has exactly one token stream, and no other file of the directory is changed. (Conditions: names that give identifiers, no empty sequences, no token that matches the empty text, an entry rule that is not used in productions for LALR and GLR, and those of C78, C79 and C84.) For every text the program comes to an end, with acceptance or an error (LR: if every rule of the grammar matches something; GLR: with a panic where there are several parse trees).", "quantifier": "all grammar files, algorithms, directories, ways the generators divide their output into writes, texts and choices of tokens to be left out", "why_tests_cant": "infinitely many grammars and texts; all states of the directory", "anchors": ["lapex/src/lib.rs: generate_lexer_and_parser", "lapex-codegen/src/lib.rs: generate_code", "lapex-rust-codegen/src/lexer/mod.rs: generate_lexer, generate_tokens", "lapex-rust-codegen/src/lr_parser/mod.rs: generate_code", "lapex-rust-codegen/src/glr_parser/mod.rs: generate_code", "lapex-cpp-codegen/src/lexer/mod.rs: generate_lexer, generate_tokens", "lapex-cpp-codegen/src/lr_parser/mod.rs: generate_code", "lapex-cpp-codegen/src/ll_parser/mod.rs: generate_code"]}
{"id": "C88", "title": "Lexers take linear time", "statement": "However often next of a generated lexer is called, in Rust or C++, all the calls together take exactly one round of its loop for each character that is taken from the input and one round for each call; no character is taken twice. If no rule matches the empty text, a text of n characters (in C++ any n bytes, also bytes that are not UTF-8) is divided into tokens up to its end or an error in at most 2n+1 rounds.", "quantifier": "all rule sets a lexer is generated for, all inputs and all numbers of calls", "why_tests_cant": "a bound for all inputs of all lengths and all rule sets; tests measure single inputs", "anchors": ["lapex-rust-codegen/src/lexer/mod.rs: next", "lapex-cpp-codegen/src/lexer/lexer.cpp.tpl: Lexer::next, utf8_decode"]}
{"id": "C89", "title": "From the text of a grammar file to a program that accepts its language", "statement": "If the text of a grammar file (ASCII, less than 64 KiB, without the corner cases in which lapex is known to panic or to write a wrong parser) describes a grammar that the chosen parser generator can handle (LR(1) for the LR generator, LL(1) for the LL generator, anything without cycles and hidden left recursion for GLR) and its token rules never tie, then lapex generate on this file returns Ok, and on a disk that has room for the files it leaves in the target directory, whatever was there before, a lexer and a parser which together accept exactly the texts whose tokens, without those to be left out, are a sentence of the grammar in the file (with GLR: a sentence with exactly one parse tree). For every text the program comes to an end, with acceptance or an error (LR: if every rule of the grammar matches something; GLR: with a panic where there are several parse trees).", "quantifier": "all texts of grammar files, all directories, all ways the generators divide their output into writes, all input texts and choices of tokens to be left out", "why_tests_cant": "infinitely many grammar files and, for each, infinitely many inputs of the generated program", "anchors": ["lapex/src/lib.rs: generate, generate_lexer_and_parser", "lapex-input-gen/src/lib.rs: GeneratedLapexInputParser::parse_lapex", "lapex-codegen/src/lib.rs: generate_code", "lapex-rust-codegen/src/lexer/mod.rs: generate_lexer", "lapex-rust-codegen/src/lr_parser/mod.rs: generate_code", "lapex-rust-codegen/src/glr_parser/mod.rs: generate_code", "lapex-cpp-codegen/src/lr_parser/mod.rs: generate_code", "lapex-cpp-codegen/src/ll_parser/mod.rs: generate_code"]}
{"id": "C90", "title": "A run that fails leaves the parser of the last run, beside new tokens", "statement": "If lapex generate ends with a report, or panics while it reads the rules, makes the lexer's tables, the grammar or the parser table, then every file in the target directory except those of the tokens and the lexer is as before, on every disk and even if the process is killed: the parser and the table of an earlier run are neither changed nor removed. If the grammar file cannot be read or parsed, nothing is changed. But a run is not undone: after a report about the rules the token files are new, and the lexer files are new unless the report is about token rules with equal precedence, so the directory may hold the tokens of one grammar and the parser of another. If a code generator panics while it makes a file, the files before it are complete, its own file has lost what was in it before (with Rust it is empty), and no other file is changed: a token name like a_ empties the tokens.rs of the last run. If the writing of all files returns Ok, no generator has panicked, on any disk.", "quantifier": "all grammar files, options, directories, disks and kill times", "why_tests_cant": "all ways a run can fail, all disk faults and crash points", "anchors": ["lapex/src/lib.rs: generate, generate_lexer_and_parser", "lapex-codegen/src/lib.rs: GeneratedCodeWriter, generate_code"]}
{"id": "C91", "title": "The programs of a grammar file give the same answers in both languages and with all algorithms", "statement": "If a grammar file describes an LR(1) grammar (with the conditions of C89, and some text that is not empty is a sentence), then lapex generate returns Ok for Rust and for C++, and the two programs it leaves in the target directories, used with the same tokens left out, give the same answer for every text: either the Rust parser returns Ok and the C++ parser returns without an exception, or the Rust parser returns an UnexpectedToken error and the C++ parser throws an exception. Neither loops or panics. Also, for an LR(1) grammar the Rust program with GLR accepts the same texts as the one with LR(1) and does not panic (grammars without cycles and hidden left recursion), and for a grammar that is LL(1) and LR(1) the C++ program with LL(1) accepts the same texts as the one with LR(1).", "quantifier": "all grammar files, directories, input texts and choices of tokens to be left out", "why_tests_cant": "infinitely many grammar files and, for each, infinitely many input texts", "anchors": ["lapex-rust-codegen/src/lr_parser/mod.rs: generate_code", "lapex-rust-codegen/src/lexer/mod.rs: generate_lexer", "lapex-cpp-codegen/src/lr_parser/mod.rs: generate_code", "lapex-cpp-codegen/src/lexer/mod.rs: generate_lexer", "lapex/src/lib.rs: generate"]}
