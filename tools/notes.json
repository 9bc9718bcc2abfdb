{
 "C01": {
  "note": "All rule lists."
 },
 "C02": {
  "note": "All rule lists and chars; the panic of binary search's unwrap cannot occur."
 },
 "C03": {
  "note": "Iff for rules without empty sequences, soundness for all; a counterexample theorem shows the condition is needed."
 },
 "C04": {
  "note": "Exact characterisation of the panic (a{3} panics)."
 },
 "C05": {
  "note": "Termination from some fuel on; language equality for every well-formed NFA."
 },
 "C06": {
  "note": "Every well-formed NFA."
 },
 "C07": {
  "note": "DFA-level theorem for any subset automaton, and pipeline-level theorems (termination; success gives a unique best rule for each matched text; an error names a real tie). The error direction assumes no alphabet range consists only of surrogates."
 },
 "C08": {
  "note": "Default precedence <= match length, literal > regex on equal non-empty text, and no precedence error for distinct literals plus at most one regex per text."
 },
 "C09": {
  "note": "All rule sets without empty groups, all inputs and call histories; NUL-free prefixes (transitions on NUL are dropped by the generator)."
 },
 "C10": {
  "note": "Exact error condition, plus counterexamples to maximal munch and to dropping the empty-group condition."
 },
 "C11": {
  "note": "All call histories."
 },
 "C12": {
  "note": "All lexer states and call histories."
 },
 "C13": {
  "note": "All rule sets without empty matches; counterexample theorem for a*."
 },
 "C14": {
  "note": "All rule sets, all texts, all call histories; char positions compared with byte positions."
 },
 "C15": {
  "note": "All chars and all byte streams; finite byte tables checked exhaustively by the kernel."
 },
 "C16": {
  "note": "All rule sets; exact success condition when symbol numbers fit into 16 bits; the empty rule set panics (theorem)."
 },
 "C17": {
  "note": "Overflow of helper numbers is a panic in the model (debug build)."
 },
 "C18": {
  "note": "All rule sets with at most 65536 tokens and productions, all token strings."
 },
 "C19": {
  "note": "All rule sets; that every non-terminal has a rule needs that no alternative has zero branches."
 },
 "C20": {
  "note": "FIRST sets equal the sets defined by rewriting sentential forms; number of passes bounded by |NT|*(|T|+2)+1."
 },
 "C21": {
  "note": "General form: from the entry sequence or from any non-terminal; textbook form when all non-terminals are reachable."
 },
 "C22": {
  "note": "Ok iff LL(1) (rule positions, so duplicated identical rules conflict); entries exact; every error is a genuine conflict; Ok implies that the grammar is unambiguous (C22_unambiguous). Hypothesis TokensFit: with 65536 tokens the index + 1 overflows u16."
 },
 "C23": {
  "note": "Table dispatch for all LL(1) grammars; generated C++ dispatch when ordinals equal symbol numbers, and a counterexample (s = c (a|b) accepts c) otherwise."
 },
 "C24": {
  "note": "Table dispatch accepts exactly the sentences and reports their trees. Generated C++ dispatch: two counterexamples (no end-of-file case; ordinal/number mismatch), as the property states, and without a mismatch an exact description of what it accepts (C24_cpp_accepts_iff, C24_cpp_accepts_every_sentence)."
 },
 "C25": {
  "note": "Termination for every stream with an end of file or a lexer error, for the table dispatch and the gap-free C++ dispatch."
 },
 "C26": {
  "note": "Exact, least and total (no panic when right sides are short and epsilons stand first; an epsilon inside a right side makes LR(1)/LALR expansion panic)."
 },
 "C38": {
  "note": "All table kinds, all fuels; also the callbacks made before an error or a panic form a forest of a consumed prefix."
 },
 "C39": {
  "note": "Both directions, and for errors: same token, same expected set; the GLR parser drops the reductions recorded since the last shift. GLR requests one token more after accepting."
 },
 "C40": {
  "note": "Every input with two parse trees panics (grammars as in C54); non-termination for every fuel for a unit cycle and for hidden left recursion."
 },
 "C53": {
  "note": "Hypothesis DistinctRules: a duplicated rule gives two derivations with equal trees."
 },
 "C54": {
  "note": "C54_terminates/C54_decides: explicit bound, grammars without empty rules. C54_terminates_empty/C54_decides_empty: grammars with empty rules, without cycles and hidden left recursion; the bound exists (size of the stacks times size of the trees on them). C40 has a counterexample for each of the two conditions."
 },
 "C55": {
  "note": "Follow is defined by derivations of sentential forms."
 },
 "C56": {
  "note": "All table kinds, including LALR and LR(0)."
 },
 "C57": {
  "note": "C57_lr_terminates_productive needs only productive non-terminals, epsilon in front of right sides (C27) and an entry symbol that is not left-recursive (C30); an endless run of reductions would either be possible on an accepted input (the stack grows for ever) or give one sentence two trees of different size. C57_lr_answers says what is returned, C57_lalr_decides that LALR parsers decide the language if no right side contains the entry symbol. C57_lr_terminates and C57_lr_terminates_empty need no productive non-terminals."
 },
 "C27": {
  "note": "Explicit fuel bound; the table does not depend on the fuel; panic freedom under ShortRhs/EpsLeading."
 },
 "C28": {
  "note": "All table kinds, all token streams, all fuels."
 },
 "C29": {
  "note": "Holds for LR(1) with an entry symbol that is not left-recursive; counterexample theorems for left-recursive entry and for LALR/LR(0), as the property states. C55 adds LALR with a fresh entry symbol."
 },
 "C30": {
  "note": "Iff for LR(1); counterexample for left-recursive entry."
 },
 "C31": {
  "note": "LALR and LR(0)."
 },
 "C32": {
  "note": "All table kinds."
 },
 "C33": {
  "note": "Cells have one entry and code generation succeeds; counterexample for LR(0) with an empty entry rule."
 },
 "C51": {
  "note": "All grammars."
 },
 "C52": {
  "note": "C52_canonical_collection: LR(0) and LR(1); C52_lalr_collection: LALR."
 },
 "C43": {
  "note": "C43_ll_entry_counterexample: the C++ LL template has no marker for the entry symbol, so generated LL parsers contain the literal text ({grammar_entry_non_terminal}). Errors of the output writer itself are not modelled; a substitution is a text and a success flag."
 },
 "C44": {
  "note": "Columns and lines are u16 in the code; C44_fits states when they fit."
 },
 "C45": {
  "note": "The two counterexamples show that the ASCII and newline hypotheses are needed."
 },
 "C48": {
  "note": "Order of iteration is not modelled. Rc sharing is modelled by identities, so the panic of remove_by_b is visible; C48_table_generation is a refinement of the LR graph model."
 },
 "C41": {
  "note": "Restated: the C++ generator ignores tags; the Rust one also names anonymous rules after the tag of their production. The claim fails with tags (C41_tag_counterexample) and for names such as a_1 or anon2 (C41_name_counterexample); C41_distinct_tags gives the exact condition."
 },
 "C42": {
  "note": "C42_counterexample: AB and Ab, a_1 and a1 share a variant; a_ and a__b, which the input language admits, panic."
 },
 "C47": {
  "note": "The parser of the regex_syntax crate is not modelled; Hir is the type it returns. UTF-8 decoding is that of Lean's core library."
 },
 "C59": {
  "note": "Proofs/LR1Exact.lean. Every item of a reached state can be used with its lookahead (stack_usable); so a reduction means the next token fits, and an endless run of reductions would also happen on an accepted stream."
 },
 "C46": {
  "note": "C46_answer/C46_total: from the tokens on. The text level (lexer, token function) is C43/C44; regex_syntax::parse is a parameter."
 },
 "C49": {
  "note": "reads/round_trip are completeness for all strict texts and the printer, sound is the converse (texts may use a plain ( [ or . there); nom combinators modelled from their documentation"
 },
 "C50": {
  "note": "the escapes of regular expressions; literals have none, which is stated as C50_literals"
 },
 "C60": {
  "note": "the text of lapex.lapex is in Model/LapexFile.lean line by line"
 },
 "C61": {
  "note": "C61_same: same calls and end for any number of steps, with the text of the exception; C61_compiles: when the source compiles; C61_fits: in a source that compiles no number is cut off; C61_decides: LR(1) parsers return exactly on the sentences; C61_start: the condition on the start state holds if some sentence is not empty; C61_never_returns and C61_empty_counterexample: without it the C++ parser never returns (std::terminate for s = epsilon)."
 },
 "C62": {
  "note": "Conditions are on the rules alone: RuleSet.Fine (no empty sequence or alternative, no epsilon inside a sequence, entry not left recursive through first names, at most 65536 names) and token rules that match some non-empty text. FedBy describes a token function like lapex-input-gen/src/lib.rs:516-554 without spans. C62_lalr_accepts, C62_kinds, C62_kinds_total, C62_error_text, C62_glr_ok, C62_glr_decides: the other kinds of tables, and where in the text an error is."
 },
 "C63": {
  "note": "C63_answer: the answer for a text; C63_total: always an answer or a panic; C63_quotes: spans quote the rules; C63_lexemes: the token rules in plain words; C63_exists: lexer and parser exist. The two counterexamples show what C63_quotes needs. The regex parser of the regex-syntax crate is a parameter (syn)."
 },
 "C64": {
  "note": "C64_exact: reported = clashes of the item sets; C64_shift_reduce, C64_reduce_reduce: every reported conflict is real, in terms of derivations; C64_lr1(_decides), C64_lr0(_sound), C64_lalr: against Knuth's definition. Productive: a non-terminal that derives nothing may give conflicts that no sentence shows. The definition is taken without the added entry rule, since lapex never advances its entry item."
 },
 "C66": {
  "note": "C66_total: writing never fails for a generated table. C66_cells, C66_header, C66_rules: lines and fields of the text, for names without newline and bar (names of a .lapex file have neither). C66_parser: cells against nextAction and nextGoto of the generated Rust parser. C66_names: names of symbols are distinct up to a token and a production of the same name and number."
 },
 "C65": {
  "note": "Model of lapex::generate (Model/Generate.lean). The input parser is a parameter; in C65_good_rules, C65_accepts and C65_cpp_accepts it is the generated one of C63. C65_lr1 is an equivalence with Knuth's LR(1). C65_settled: the bound on the steps is no part of the result. Negative facts: C65_missing, third case of C65_ll1, C65_report_counterexample. Not covered: LR(0) runs (its table may give code the generator rejects, see C33), the text of the reports on the terminal (C68), file system errors while writing. C65_lalr_accepts, C65_glr_decides: LALR and GLR."
 },
 "C67": {
  "note": "C67_parsed: what is printed is the post-order of a parse tree of the tokens of the source. C67_decides: success iff exactly one tree, else failure, always an end. C67_reports: errors of the generation are reported, nothing else is. C67_only_glr, C67_clash: cases where the command never succeeds. rustc and cargo are modelled by the one condition that identifiers of the same kind are distinct."
 },
 "C34": {
  "note": "All table kinds, all token streams, any number of steps."
 },
 "C35": {
  "note": "All table kinds, at every moment of a run; productive grammars."
 },
 "C36": {
  "note": "Exactly the columns of the state that have a shift or reduce action (C59 says which tokens these are for LR(1))."
 },
 "C37": {
  "note": "For the tables of the same grammar; LALR without conflicts gives LR(1) without conflicts."
 },
 "C58": {
  "note": "The rules of lapex.lapex as data; existence of lexer and LR(1) parser, shown by a checker run in the kernel."
 },
 "C68": {
  "note": "Colour codes and str::lines are modelled as in owo-colors 3.5.0 and the standard library. Text of panics not modelled."
 },
 "C69": {
  "note": "Iterations of the driver loop are counted; the cost of one iteration (a table lookup, a few pushes and pops) is not. The constant exists, it is not computed. C++ LL for grammars without gaps in the numbering (see C24)."
 },
 "C70": {
  "note": "HashSet iteration is any permutation, chosen anew each time; state_map.iter() is any permutation of the states (its real order follows the item order). HashMap lookups are modelled as lookups. Template substitutions are looked up too (C43)."
 },
 "C71": {
  "note": "Size conditions: at most 65536 token rules and productions, and room for the helper symbols (the builder overflows otherwise, C17). C71_callbacks, C71_trees and C71_glr ask that no rule occurs twice. Which of several errors is reported first depends on the order and is not compared, except that clashes of names are reported for both files or for neither."
 },
 "C72": {
  "note": "The Debug text of a token rule is a parameter; it is written into a line comment."
 },
 "C73": {
  "note": "Spec/CppLRText gives the simple statements of each function their meaning; the rest of C++ needed (tokens, comments, switch, case, if, while, for, break, return) is in Spec/CppSource. Conditions: names are words, the source compiles (C61_compiles), the start state has a shift entry (C61_start)."
 },
 "C74": {
  "note": "Names are words; the tokens are printed with spaces between them. Fuel: any number of rounds above the number of unread chars."
 },
 "C75": {
  "note": "Names and tags are words, and no enum has two equal variants (else rustc rejects the file; C75_files derives it from conditions on names). The tokens are printed with spaces between them."
 },
 "C76": {
  "note": "Names and tags are words, and no enum has two equal variants (else rustc rejects the file; C76_files derives it from conditions on names). The driver in the text (parse, apply_reduces, apply_reduce, the module gss) is part of the modelled text."
 },
 "C77": {
  "note": "Names and tags are words, and no enum has two equal variants. The functions of module gss are read from the text and executed on numbered cells with borrows (C77_stack_text). C77_token_error is about runs in which the same stream without the failure returns."
 },
 "C78": {
  "note": "For LALR and LR(1) tables (and LALR/LR(1) with conflicts for GLR); LALR needs the entry rule unused on right sides (EntryUnused), as C62 does. For GLR the grammar must have no cycles and no hidden left recursion (C54), and 'match the entry rule' is said with parse trees of the grammar built from the file."
 },
 "C79": {
  "status": "proved",
  "note": "For LALR and LR(1); LALR needs the entry rule unused on right sides (EntryUnused), as C62 does. Needs that some non-empty text matches the entry rule (C61). What compilers do is not modelled; names of production rules must give compiling source (C61_compiles)."
 },
 "C80": {
  "note": "The text of visitor.h read as C++ (Spec/CppVisitor), against the names of C41 and the calls in the parser text of C73. C80_different needs the conditions on names of C41; without them two functions can get one name (C41_name_counterexample)."
 },
 "C81": {
  "note": "The Display implementations of the generated files, read as Rust and run (Spec/RustMessage). The text shown for a char by Debug is a parameter. C81_run joins it with C75: the errors returned on streams of tokens meet the hypotheses of C81_parser_determines."
 },
 "C82": {
  "note": "C82_parser_text is about the text of the files, with the value of the entry symbol as an argument because the template has no marker for it (C43). C82_gap_counterexample shows that C82_sentences needs its condition on ordinals."
 },
 "C83": {
  "note": "Lexer: for whatever tables, results and spans inside a common prefix of two texts agree; that one char beyond the token is needed is C83_lexer_counterexample. Parsers: results depend only on tokens asked for; token functions that see the callbacks amount to streams (C83_*_feedback), with soundness and absence of panics carried over (C83_*_tree). C83_glr_late_counterexample: the GLR parser asks for the next token before it reports the one before."
 },
 "C84": {
  "note": "The value of the entry symbol is an argument because the template has no marker for it (C43). NoGaps is a condition (without it see C23_cpp_gap_counterexample); C84_gaps says when it holds if no name has two productions."
 },
 "C85": {
  "note": "Proved for the parser with the table's dispatch, the generated C++ dispatch and the text of the C++ parser. That the tokens named in messages are neither complete nor only fitting ones is shown for one grammar; what is true of them is C85_expected_fits."
 },
 "C86": {
  "note": "generate_code is modelled with its BufWriter; a generator is any list of pieces. C86_generate takes what the generators write as a parameter; C87 fills in the modelled texts."
 },
 "C87": {
  "note": "The token function is that of C78/C79/C84 (tokens to be left out are chosen by the user). Conditions as in C78, C79 and C84; what rustc and C++ compilers do is the semantics of the texts in Spec/."
 },
 "C88": {
  "note": "Rounds of the loops of the functions read from the generated texts. The work inside a round (lookup in the tables) is not counted; it depends on the lexer, not on the input. With a rule that matches the empty text the number of tokens is not bounded (C13_empty_token_loops), but the count of rounds per char and call still holds."
 },
 "C89": {
  "note": "Conditions on the file are collected in GoodFile (Props/FromFile). C++ also needs that the generated source compiles (C61_compiles), LL parsers that the enumerators differ. What rustc and C++ compilers do is the semantics of the texts in Spec/."
 },
 "C90": {
  "note": "A panic of a code generator is modelled as coming before the first write of the file it is called for. That is so for Rust, where the whole text is built first; a C++ generator that panics while it fills a template leaves the beginning of the text (any prefix, C86_begun) instead of an empty file."
 },
 "C91": {
  "status": "proved",
  "note": "What leaving out the same tokens means is stated by the numbers of the token rules. Conditions as in C89 for both languages; the C++ source must compile (C61_compiles). The time the runs take (pf, fuel) is a bound chosen for both."
 }
}