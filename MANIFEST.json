{
 "claims": [
  {
   "property": "C01",
   "status": "proved",
   "theorems": [
    "Verif.C01_alphabet_partition"
   ],
   "note": "All rule lists."
  },
  {
   "property": "C02",
   "status": "proved",
   "theorems": [
    "Verif.C02_find_range",
    "Verif.C02_range_covers"
   ],
   "note": "All rule lists and chars; the panic of binary search's unwrap cannot occur."
  },
  {
   "property": "C03",
   "status": "proved",
   "theorems": [
    "Verif.C03_nfa_language",
    "Verif.C03_nfa_sound",
    "Verif.C03_empty_literal_unmatched"
   ],
   "note": "Iff for rules without empty sequences, soundness for all; a counterexample theorem shows the condition is needed."
  },
  {
   "property": "C04",
   "status": "proved",
   "theorems": [
    "Verif.C04_panic_iff"
   ],
   "note": "Exact characterisation of the panic (a{3} panics)."
  },
  {
   "property": "C05",
   "status": "proved",
   "theorems": [
    "Verif.C05_powerset_terminates",
    "Verif.C05_powerset_language"
   ],
   "note": "Termination from some fuel on; language equality for every well-formed NFA."
  },
  {
   "property": "C06",
   "status": "proved",
   "theorems": [
    "Verif.C06_dfa_shape"
   ],
   "note": "Every well-formed NFA."
  },
  {
   "property": "C07",
   "status": "proved",
   "theorems": [
    "Verif.C07_resolution",
    "Verif.C07_ok_iff",
    "Verif.C07_pipeline_terminates",
    "Verif.C07_pipeline_ok",
    "Verif.C07_pipeline_error"
   ],
   "note": "DFA-level theorem for any subset automaton, and pipeline-level theorems (termination; success gives a unique best rule for each matched text; an error names a real tie). The error direction assumes no alphabet range consists only of surrogates."
  },
  {
   "property": "C08",
   "status": "proved",
   "theorems": [
    "Verif.C08_precedence_le_length",
    "Verif.C08_literal_beats_regex",
    "Verif.C08_literals_distinct",
    "Verif.C08_no_precedence_error"
   ],
   "note": "Default precedence <= match length, literal > regex on equal non-empty text, and no precedence error for distinct literals plus at most one regex per text."
  },
  {
   "property": "C09",
   "status": "proved",
   "theorems": [
    "Verif.C09_token_right_and_longest"
   ],
   "note": "All rule sets without empty groups, all inputs and call histories; NUL-free prefixes (transitions on NUL are dropped by the generator)."
  },
  {
   "property": "C10",
   "status": "proved",
   "theorems": [
    "Verif.C10_next_total",
    "Verif.C10_error_iff",
    "Verif.C10_error_range",
    "Verif.C10_no_error",
    "Verif.C10_no_backtracking",
    "Verif.C10_empty_group"
   ],
   "note": "Exact error condition, plus counterexamples to maximal munch and to dropping the empty-group condition."
  },
  {
   "property": "C11",
   "status": "proved",
   "theorems": [
    "Verif.C11_spans_tile"
   ],
   "note": "All call histories."
  },
  {
   "property": "C12",
   "status": "proved",
   "theorems": [
    "Verif.C12_eof_iff",
    "Verif.C12_eof_sticky"
   ],
   "note": "All lexer states and call histories."
  },
  {
   "property": "C13",
   "status": "proved",
   "theorems": [
    "Verif.C13_token_consumes",
    "Verif.C13_token_bound",
    "Verif.C13_empty_token_loops"
   ],
   "note": "All rule sets without empty matches; counterexample theorem for a*."
  },
  {
   "property": "C14",
   "status": "proved",
   "theorems": [
    "Verif.C14_same_results",
    "Verif.C14_all_calls_return"
   ],
   "note": "All rule sets, all texts, all call histories; char positions compared with byte positions."
  },
  {
   "property": "C15",
   "status": "proved",
   "theorems": [
    "Verif.C15_decode_encode",
    "Verif.C15_decode_sound",
    "Verif.C15_decode_end",
    "Verif.C15_error_sticky"
   ],
   "note": "All chars and all byte streams; finite byte tables checked exhaustively by the kernel."
  },
  {
   "property": "C16",
   "status": "proved",
   "theorems": [
    "Verif.C16_conflict_iff",
    "Verif.C16_conflict_names",
    "Verif.C16_missing",
    "Verif.C16_ok_iff",
    "Verif.C16_ok_only_if",
    "Verif.C16_no_other_failure",
    "Verif.C16_empty_panics"
   ],
   "note": "All rule sets; exact success condition when symbol numbers fit into 16 bits; the empty rule set panics (theorem)."
  },
  {
   "property": "C17",
   "status": "proved",
   "theorems": [
    "Verif.C17_fresh",
    "Verif.C17_names",
    "Verif.C17_too_many_tokens"
   ],
   "note": "Overflow of helper numbers is a panic in the model (debug build)."
  },
  {
   "property": "C18",
   "status": "proved",
   "theorems": [
    "Verif.C18_language",
    "Verif.C18_entry_language"
   ],
   "note": "All rule sets with at most 65536 tokens and productions, all token strings."
  },
  {
   "property": "C19",
   "status": "proved",
   "theorems": [
    "Verif.C19_well_formed",
    "Verif.C19_every_nonterminal_has_a_rule",
    "Verif.C19_no_empty_right_side",
    "Verif.C19_epsilon_in_front",
    "Verif.C19_entry",
    "Verif.C19_origin",
    "Verif.C19_helper_origin"
   ],
   "note": "All rule sets; that every non-terminal has a rule needs that no alternative has zero branches."
  },
  {
   "property": "C20",
   "status": "proved",
   "theorems": [
    "Verif.C20_first_exact",
    "Verif.C20_first_of_sequence"
   ],
   "note": "FIRST sets equal the sets defined by rewriting sentential forms; number of passes bounded by |NT|*(|T|+2)+1."
  },
  {
   "property": "C21",
   "status": "proved",
   "theorems": [
    "Verif.C21_follow_exact",
    "Verif.C21_follow_exact_reachable"
   ],
   "note": "General form: from the entry sequence or from any non-terminal; textbook form when all non-terminals are reachable."
  },
  {
   "property": "C22",
   "status": "proved",
   "theorems": [
    "Verif.C22_ok_iff",
    "Verif.C22_entries",
    "Verif.C22_conflict",
    "Verif.C22_unambiguous"
   ],
   "note": "Ok iff LL(1) (rule positions, so duplicated identical rules conflict); entries exact; every error is a genuine conflict; Ok implies that the grammar is unambiguous (C22_unambiguous). Hypothesis TokensFit: with 65536 tokens the index + 1 overflows u16."
  },
  {
   "property": "C23",
   "status": "proved",
   "theorems": [
    "Verif.C23_accepts_only_sentences",
    "Verif.C23_cpp_without_gaps",
    "Verif.C23_cpp_gap_counterexample"
   ],
   "note": "Table dispatch for all LL(1) grammars; generated C++ dispatch when ordinals equal symbol numbers, and a counterexample (s = c (a|b) accepts c) otherwise."
  },
  {
   "property": "C24",
   "status": "proved",
   "theorems": [
    "Verif.C24_accepts_every_sentence",
    "Verif.C24_accepts_iff",
    "Verif.C24_cpp_eof_counterexample",
    "Verif.C24_cpp_gap_counterexample",
    "Verif.C24_reports_every_tree",
    "Verif.C24_cpp_accepts_iff",
    "Verif.C24_cpp_accepts_every_sentence"
   ],
   "note": "Table dispatch accepts exactly the sentences and reports their trees. Generated C++ dispatch: two counterexamples (no end-of-file case; ordinal/number mismatch), as the property states, and without a mismatch an exact description of what it accepts (C24_cpp_accepts_iff, C24_cpp_accepts_every_sentence)."
  },
  {
   "property": "C25",
   "status": "proved",
   "theorems": [
    "Verif.C25_terminates",
    "Verif.C25_cpp_terminates",
    "Verif.C25_stops",
    "Verif.C25_cpp_stops"
   ],
   "note": "Termination for every stream with an end of file or a lexer error, for the table dispatch and the gap-free C++ dispatch."
  },
  {
   "property": "C26",
   "status": "proved",
   "theorems": [
    "Verif.C26_closure_exact",
    "Verif.C26_closure_least",
    "Verif.C26_closure_total"
   ],
   "note": "Exact, least and total (no panic when right sides are short and epsilons stand first; an epsilon inside a right side makes LR(1)/LALR expansion panic)."
  },
  {
   "property": "C27",
   "status": "proved",
   "theorems": [
    "Verif.C27_terminates",
    "Verif.C27_no_panic",
    "Verif.C27_answer_fixed",
    "Verif.C27_epsilon_condition",
    "Verif.C27_epsilon_counterexample"
   ],
   "note": "Explicit fuel bound; the table does not depend on the fuel; panic freedom under ShortRhs/EpsLeading."
  },
  {
   "property": "C28",
   "status": "proved",
   "theorems": [
    "Verif.C28_sound",
    "Verif.C28_sentence"
   ],
   "note": "All table kinds, all token streams, all fuels."
  },
  {
   "property": "C29",
   "status": "proved",
   "theorems": [
    "Verif.C29_lr1_end",
    "Verif.C29_left_recursive_counterexample",
    "Verif.C29_lalr_lr0_counterexample"
   ],
   "note": "Holds for LR(1) with an entry symbol that is not left-recursive; counterexample theorems for left-recursive entry and for LALR/LR(0), as the property states. C55 adds LALR with a fresh entry symbol."
  },
  {
   "property": "C30",
   "status": "proved",
   "theorems": [
    "Verif.C30_left_recursive_counterexample",
    "Verif.C30_lr1_complete",
    "Verif.C30_lr1_decides"
   ],
   "note": "Iff for LR(1); counterexample for left-recursive entry."
  },
  {
   "property": "C31",
   "status": "proved",
   "theorems": [
    "Verif.C31_lalr_complete",
    "Verif.C31_lr0_complete",
    "Verif.C31_epsilon_counterexample"
   ],
   "note": "LALR and LR(0)."
  },
  {
   "property": "C32",
   "status": "proved",
   "theorems": [
    "Verif.C32_unambiguous"
   ],
   "note": "All table kinds."
  },
  {
   "property": "C33",
   "status": "proved",
   "theorems": [
    "Verif.C33_single_entry",
    "Verif.C33_codegen",
    "Verif.C33_codegen_lr0",
    "Verif.C33_lr0_counterexample"
   ],
   "note": "Cells have one entry and code generation succeeds; counterexample for LR(0) with an empty entry rule."
  },
  {
   "property": "C34",
   "status": "proved",
   "theorems": [
    "Verif.C34_no_panic"
   ],
   "note": "All table kinds, all token streams, any number of steps."
  },
  {
   "property": "C35",
   "status": "proved",
   "theorems": [
    "Verif.C35_viable_prefix"
   ],
   "note": "All table kinds, at every moment of a run; productive grammars."
  },
  {
   "property": "C36",
   "status": "proved",
   "theorems": [
    "Verif.C36_expected"
   ],
   "note": "Exactly the columns of the state that have a shift or reduce action (C59 says which tokens these are for LR(1))."
  },
  {
   "property": "C37",
   "status": "proved",
   "theorems": [
    "Verif.C37_lalr_lr1",
    "Verif.C37_lr1_answers"
   ],
   "note": "For the tables of the same grammar; LALR without conflicts gives LR(1) without conflicts."
  },
  {
   "property": "C38",
   "status": "proved",
   "theorems": [
    "Verif.C38_sound",
    "Verif.C38_reported"
   ],
   "note": "All table kinds, all fuels; also the callbacks made before an error or a panic form a forest of a consumed prefix."
  },
  {
   "property": "C39",
   "status": "proved",
   "theorems": [
    "Verif.C39_lr_ok",
    "Verif.C39_glr_ok",
    "Verif.C39_error",
    "Verif.C39_glr_error"
   ],
   "note": "Both directions, and for errors: same token, same expected set; the GLR parser drops the reductions recorded since the last shift. GLR requests one token more after accepting."
  },
  {
   "property": "C40",
   "status": "proved",
   "theorems": [
    "Verif.C40_ambiguous_panics",
    "Verif.C40_ambiguous_example",
    "Verif.C40_cyclic_counterexample",
    "Verif.C40_hidden_left_recursion_counterexample"
   ],
   "note": "Every input with two parse trees panics (grammars as in C54); non-termination for every fuel for a unit cycle and for hidden left recursion."
  },
  {
   "property": "C41",
   "status": "proved",
   "theorems": [
    "Verif.C41_visits",
    "Verif.C41_declared",
    "Verif.C41_distinct",
    "Verif.C41_distinct_tags",
    "Verif.C41_tag_clash",
    "Verif.C41_cpp",
    "Verif.C41_cpp_distinct",
    "Verif.C41_tag_counterexample",
    "Verif.C41_name_counterexample"
   ],
   "note": "Restated: the C++ generator ignores tags; the Rust one also names anonymous rules after the tag of their production. The claim fails with tags (C41_tag_counterexample) and for names such as a_1 or anon2 (C41_name_counterexample); C41_distinct_tags gives the exact condition."
  },
  {
   "property": "C42",
   "status": "proved",
   "theorems": [
    "Verif.C42_panics",
    "Verif.C42_same",
    "Verif.C42_injective",
    "Verif.C42_rust_tokens",
    "Verif.C42_cpp_tokens",
    "Verif.C42_non_terminals",
    "Verif.C42_counterexample"
   ],
   "note": "C42_counterexample: AB and Ab, a_1 and a1 share a variant; a_ and a__b, which the input language admits, panic."
  },
  {
   "property": "C43",
   "status": "proved",
   "theorems": [
    "Verif.C43_write",
    "Verif.C43_markers",
    "Verif.C43_status",
    "Verif.C43_pieces",
    "Verif.C43_substitute",
    "Verif.C43_cpp_templates",
    "Verif.C43_cpp_used",
    "Verif.C43_ll_entry_counterexample",
    "Verif.C43_open_counterexample"
   ],
   "note": "C43_ll_entry_counterexample: the C++ LL template has no marker for the entry symbol, so generated LL parsers contain the literal text ({grammar_entry_non_terminal}). Errors of the output writer itself are not modelled; a substitution is a text and a success flag."
  },
  {
   "property": "C44",
   "status": "proved",
   "theorems": [
    "Verif.C44_offset",
    "Verif.C44_order",
    "Verif.C44_substring",
    "Verif.C44_substring_cases",
    "Verif.C44_fits"
   ],
   "note": "Columns and lines are u16 in the code; C44_fits states when they fit."
  },
  {
   "property": "C45",
   "status": "proved",
   "theorems": [
    "Verif.C45_span",
    "Verif.C45_tokens",
    "Verif.C45_non_ascii_counterexample",
    "Verif.C45_newline_counterexample"
   ],
   "note": "The two counterexamples show that the ASCII and newline hypotheses are needed."
  },
  {
   "property": "C46",
   "status": "proved",
   "theorems": [
    "Verif.C46_answer",
    "Verif.C46_stable",
    "Verif.C46_total",
    "Verif.C46_unambiguous",
    "Verif.C46_no_broken_stack",
    "Verif.C46_body_language",
    "Verif.C46_body_language"
   ],
   "note": "C46_answer/C46_total: from the tokens on. The text level (lexer, token function) is C43/C44; regex_syntax::parse is a parameter."
  },
  {
   "property": "C47",
   "status": "proved",
   "theorems": [
    "Verif.C47_language",
    "Verif.C47_fails",
    "Verif.C47_lexable"
   ],
   "note": "The parser of the regex_syntax crate is not modelled; Hir is the type it returns. UTF-8 decoding is that of Lean's core library."
  },
  {
   "property": "C48",
   "status": "proved",
   "theorems": [
    "Verif.C48_consistent",
    "Verif.C48_inverse",
    "Verif.C48_remove",
    "Verif.C48_remove_none",
    "Verif.C48_table_generation",
    "Verif.C48_insert_counterexample"
   ],
   "note": "Order of iteration is not modelled. Rc sharing is modelled by identities, so the panic of remove_by_b is visible; C48_table_generation is a refinement of the LR graph model."
  },
  {
   "property": "C49",
   "status": "proved",
   "theorems": [
    "Verif.C49_reads",
    "Verif.C49_entry_rules",
    "Verif.C49_round_trip",
    "Verif.C49_sound",
    "Verif.C49_writable",
    "Verif.C49_incomplete",
    "Verif.C49_terminates"
   ],
   "note": "reads/round_trip are completeness for all strict texts and the printer, sound is the converse (texts may use a plain ( [ or . there); nom combinators modelled from their documentation"
  },
  {
   "property": "C50",
   "status": "proved",
   "theorems": [
    "Verif.C50_char",
    "Verif.C50_every_char",
    "Verif.C50_unicode",
    "Verif.C50_not_scalar",
    "Verif.C50_digits",
    "Verif.C50_no_other",
    "Verif.C50_literals"
   ],
   "note": "the escapes of regular expressions; literals have none, which is stated as C50_literals"
  },
  {
   "property": "C51",
   "status": "proved",
   "theorems": [
    "Verif.C51_lr0_lalr"
   ],
   "note": "All grammars."
  },
  {
   "property": "C52",
   "status": "proved",
   "theorems": [
    "Verif.C52_lalr_collection",
    "Verif.C52_canonical_collection"
   ],
   "note": "C52_canonical_collection: LR(0) and LR(1); C52_lalr_collection: LALR."
  },
  {
   "property": "C53",
   "status": "proved",
   "theorems": [
    "Verif.C53_counts",
    "Verif.C53_counts_lr1"
   ],
   "note": "Hypothesis DistinctRules: a duplicated rule gives two derivations with equal trees."
  },
  {
   "property": "C54",
   "status": "proved",
   "theorems": [
    "Verif.C54_terminates",
    "Verif.C54_decides",
    "Verif.C54_terminates_empty",
    "Verif.C54_decides_empty",
    "Verif.C54_without_empty_rules"
   ],
   "note": "C54_terminates/C54_decides: explicit bound, grammars without empty rules. C54_terminates_empty/C54_decides_empty: grammars with empty rules, without cycles and hidden left recursion; the bound exists (size of the stacks times size of the trees on them). C40 has a counterexample for each of the two conditions."
  },
  {
   "property": "C55",
   "status": "proved",
   "theorems": [
    "Verif.C55_lookahead",
    "Verif.C55_fresh_entry_end"
   ],
   "note": "Follow is defined by derivations of sentential forms."
  },
  {
   "property": "C56",
   "status": "proved",
   "theorems": [
    "Verif.C56_lr_error",
    "Verif.C56_glr_error"
   ],
   "note": "All table kinds, including LALR and LR(0)."
  },
  {
   "property": "C57",
   "status": "proved",
   "theorems": [
    "Verif.C57_lr_terminates",
    "Verif.C57_lr_terminates_empty",
    "Verif.C57_lr_terminates_productive",
    "Verif.C57_lr_answers",
    "Verif.C57_lalr_decides"
   ],
   "note": "C57_lr_terminates_productive needs only productive non-terminals, epsilon in front of right sides (C27) and an entry symbol that is not left-recursive (C30); an endless run of reductions would either be possible on an accepted input (the stack grows for ever) or give one sentence two trees of different size. C57_lr_answers says what is returned, C57_lalr_decides that LALR parsers decide the language if no right side contains the entry symbol. C57_lr_terminates and C57_lr_terminates_empty need no productive non-terminals."
  },
  {
   "property": "C58",
   "status": "proved",
   "theorems": [
    "Verif.C58_self_hosted",
    "Verif.C58_visitor",
    "Verif.C58_unambiguous"
   ],
   "note": "The rules of lapex.lapex as data; existence of lexer and LR(1) parser, shown by a checker run in the kernel."
  },
  {
   "property": "C59",
   "status": "proved",
   "theorems": [
    "Verif.C59_terminates",
    "Verif.C59_reduce",
    "Verif.C59_no_reduction",
    "Verif.C59_expected",
    "Verif.C59_reports"
   ],
   "note": "Proofs/LR1Exact.lean. Every item of a reached state can be used with its lookahead (stack_usable); so a reduction means the next token fits, and an endless run of reductions would also happen on an accepted stream."
  },
  {
   "property": "C60",
   "status": "proved",
   "theorems": [
    "Verif.C60_grammar_file",
    "Verif.C60_build"
   ],
   "note": "the text of lapex.lapex is in Model/LapexFile.lean line by line"
  },
  {
   "property": "C61",
   "status": "proved",
   "theorems": [
    "Verif.C61_generates",
    "Verif.C61_no_silent_choice",
    "Verif.C61_compiles",
    "Verif.C61_fits",
    "Verif.C61_same",
    "Verif.C61_start",
    "Verif.C61_decides",
    "Verif.C61_never_returns",
    "Verif.C61_empty_counterexample"
   ],
   "note": "C61_same: same calls and end for any number of steps, with the text of the exception; C61_compiles: when the source compiles; C61_fits: in a source that compiles no number is cut off; C61_decides: LR(1) parsers return exactly on the sentences; C61_start: the condition on the start state holds if some sentence is not empty; C61_never_returns and C61_empty_counterexample: without it the C++ parser never returns (std::terminate for s = epsilon)."
  },
  {
   "property": "C62",
   "status": "proved",
   "theorems": [
    "Verif.C62_stream",
    "Verif.C62_accepts",
    "Verif.C62_callbacks",
    "Verif.C62_total",
    "Verif.C62_error",
    "Verif.C62_token_function",
    "Verif.C62_tokens_unique",
    "Verif.C62_tokens_cover",
    "Verif.C62_cpp_accepts",
    "Verif.C62_lalr_accepts",
    "Verif.C62_kinds",
    "Verif.C62_kinds_total",
    "Verif.C62_error_text",
    "Verif.C62_glr_ok",
    "Verif.C62_glr_decides"
   ],
   "note": "Conditions are on the rules alone: RuleSet.Fine (no empty sequence or alternative, no epsilon inside a sequence, entry not left recursive through first names, at most 65536 names) and token rules that match some non-empty text. FedBy describes a token function like lapex-input-gen/src/lib.rs:516-554 without spans. C62_lalr_accepts, C62_kinds, C62_kinds_total, C62_error_text, C62_glr_ok, C62_glr_decides: the other kinds of tables, and where in the text an error is."
  },
  {
   "property": "C63",
   "status": "proved",
   "theorems": [
    "Verif.C63_exists",
    "Verif.C63_lexemes",
    "Verif.C63_answer",
    "Verif.C63_total",
    "Verif.C63_quotes",
    "Verif.C63_quotes_newline_counterexample",
    "Verif.C63_quotes_wide_counterexample"
   ],
   "note": "C63_answer: the answer for a text; C63_total: always an answer or a panic; C63_quotes: spans quote the rules; C63_lexemes: the token rules in plain words; C63_exists: lexer and parser exist. The two counterexamples show what C63_quotes needs. The regex parser of the regex-syntax crate is a parameter (syn)."
  },
  {
   "property": "C64",
   "status": "proved",
   "theorems": [
    "Verif.C64_exact",
    "Verif.C64_shift_reduce",
    "Verif.C64_reduce_reduce",
    "Verif.C64_lr1",
    "Verif.C64_lr1_decides",
    "Verif.C64_lr0",
    "Verif.C64_lr0_sound",
    "Verif.C64_lalr",
    "Verif.C64_lr0_epsilon_counterexample",
    "Verif.C64_lalr_counterexample"
   ],
   "note": "C64_exact: reported = clashes of the item sets; C64_shift_reduce, C64_reduce_reduce: every reported conflict is real, in terms of derivations; C64_lr1(_decides), C64_lr0(_sound), C64_lalr: against Knuth's definition. Productive: a non-terminal that derives nothing may give conflicts that no sentence shows. The definition is taken without the added entry rule, since lapex never advances its entry item."
  },
  {
   "property": "C65",
   "status": "proved",
   "theorems": [
    "Verif.C65_ok",
    "Verif.C65_err",
    "Verif.C65_unreachable",
    "Verif.C65_missing",
    "Verif.C65_settled",
    "Verif.C65_lr1",
    "Verif.C65_lalr",
    "Verif.C65_glr",
    "Verif.C65_ll1",
    "Verif.C65_good_rules",
    "Verif.C65_accepts",
    "Verif.C65_cpp_accepts",
    "Verif.C65_report_counterexample",
    "Verif.C65_lalr_accepts",
    "Verif.C65_glr_decides"
   ],
   "note": "Model of lapex::generate (Model/Generate.lean). The input parser is a parameter; in C65_good_rules, C65_accepts and C65_cpp_accepts it is the generated one of C63. C65_lr1 is an equivalence with Knuth's LR(1). C65_settled: the bound on the steps is no part of the result. Negative facts: C65_missing, third case of C65_ll1, C65_report_counterexample. Not covered: LR(0) runs (its table may give code the generator rejects, see C33), the text of the reports on the terminal (C68), file system errors while writing. C65_lalr_accepts, C65_glr_decides: LALR and GLR."
  },
  {
   "property": "C66",
   "status": "proved",
   "theorems": [
    "Verif.C66_total",
    "Verif.C66_cells",
    "Verif.C66_label",
    "Verif.C66_header",
    "Verif.C66_rules",
    "Verif.C66_parser",
    "Verif.C66_names"
   ],
   "note": "C66_total: writing never fails for a generated table. C66_cells, C66_header, C66_rules: lines and fields of the text, for names without newline and bar (names of a .lapex file have neither). C66_parser: cells against nextAction and nextGoto of the generated Rust parser. C66_names: names of symbols are distinct up to a token and a production of the same name and number."
  },
  {
   "property": "C67",
   "status": "proved",
   "theorems": [
    "Verif.C67_parsed",
    "Verif.C67_decides",
    "Verif.C67_reports",
    "Verif.C67_only_glr",
    "Verif.C67_clash"
   ],
   "note": "C67_parsed: what is printed is the post-order of a parse tree of the tokens of the source. C67_decides: success iff exactly one tree, else failure, always an end. C67_reports: errors of the generation are reported, nothing else is. C67_only_glr, C67_clash: cases where the command never succeeds. rustc and cargo are modelled by the one condition that identifiers of the same kind are distinct."
  },
  {
   "property": "C68",
   "status": "proved",
   "theorems": [
    "Verif.C68_report",
    "Verif.C68_prints",
    "Verif.C68_lines_unique",
    "Verif.C68_underline",
    "Verif.C68_underline_counterexample",
    "Verif.C68_printable",
    "Verif.C68_cli",
    "Verif.C68_exit_code"
   ],
   "note": "Colour codes and str::lines are modelled as in owo-colors 3.5.0 and the standard library. Text of panics not modelled."
  },
  {
   "property": "C69",
   "status": "proved",
   "theorems": [
    "Verif.C69_lr",
    "Verif.C69_tree_size",
    "Verif.C69_cpp_lr",
    "Verif.C69_ll",
    "Verif.C69_cpp_ll",
    "Verif.C69_lapex"
   ],
   "note": "Iterations of the driver loop are counted; the cost of one iteration (a table lookup, a few pushes and pops) is not. The constant exists, it is not computed. C++ LL for grammars without gaps in the numbering (see C24)."
  },
  {
   "property": "C70",
   "status": "proved",
   "theorems": [
    "Verif.C70_table",
    "Verif.C70_model",
    "Verif.C70_generate",
    "Verif.C70_generate_model",
    "Verif.C70_order"
   ],
   "note": "HashSet iteration is any permutation, chosen anew each time; state_map.iter() is any permutation of the states (its real order follows the item order). HashMap lookups are modelled as lookups. Template substitutions are looked up too (C43)."
  },
  {
   "property": "C71",
   "status": "proved",
   "theorems": [
    "Verif.C71_built",
    "Verif.C71_clash",
    "Verif.C71_maps",
    "Verif.C71_tokens",
    "Verif.C71_sentences",
    "Verif.C71_conflicts",
    "Verif.C71_ll1",
    "Verif.C71_lrk",
    "Verif.C71_trees",
    "Verif.C71_accepts",
    "Verif.C71_lalr_accepts",
    "Verif.C71_callbacks",
    "Verif.C71_glr",
    "Verif.C71_generate_lr1",
    "Verif.C71_generate_ll1",
    "Verif.C71_generate_glr"
   ],
   "note": "Size conditions: at most 65536 token rules and productions, and room for the helper symbols (the builder overflows otherwise, C17). C71_callbacks, C71_trees and C71_glr ask that no rule occurs twice. Which of several errors is reported first depends on the order and is not compared, except that clashes of names are reported for both files or for neither."
  },
  {
   "property": "C72",
   "status": "proved",
   "theorems": [
    "Verif.C72_lexer_text"
   ],
   "note": "The Debug text of a token rule is a parameter; it is written into a line comment."
  },
  {
   "property": "C73",
   "status": "proved",
   "theorems": [
    "Verif.C73_written",
    "Verif.C73_parser_text",
    "Verif.C73_calls",
    "Verif.C73_same",
    "Verif.C73_decides"
   ],
   "note": "Spec/CppLRText gives the simple statements of each function their meaning; the rest of C++ needed (tokens, comments, switch, case, if, while, for, break, return) is in Spec/CppSource. Conditions: names are words, the source compiles (C61_compiles), the start state has a shift entry (C61_start)."
  },
  {
   "property": "C74",
   "status": "proved",
   "theorems": [
    "Verif.C74_lexer_text",
    "Verif.C74_written"
   ],
   "note": "Names are words; the tokens are printed with spaces between them. Fuel: any number of rounds above the number of unread chars."
  },
  {
   "property": "C75",
   "status": "proved",
   "theorems": [
    "Verif.C75_parser_text",
    "Verif.C75_declared",
    "Verif.C75_calls",
    "Verif.C75_decides",
    "Verif.C75_written",
    "Verif.C75_files"
   ],
   "note": "Names and tags are words, and no enum has two equal variants (else rustc rejects the file; C75_files derives it from conditions on names). The tokens are printed with spaces between them."
  },
  {
   "property": "C76",
   "status": "proved",
   "theorems": [
    "Verif.C76_functions",
    "Verif.C76_calls",
    "Verif.C76_declared",
    "Verif.C76_debug",
    "Verif.C76_written",
    "Verif.C76_files"
   ],
   "note": "Names and tags are words, and no enum has two equal variants (else rustc rejects the file; C76_files derives it from conditions on names). The driver in the text (parse, apply_reduces, apply_reduce, the module gss) is part of the modelled text."
  },
  {
   "property": "C77",
   "status": "proved",
   "theorems": [
    "Verif.C77_stack_text",
    "Verif.C77_parser_text",
    "Verif.C77_token_error",
    "Verif.C77_decides"
   ],
   "note": "Names and tags are words, and no enum has two equal variants. The functions of module gss are read from the text and executed on numbered cells with borrows (C77_stack_text). C77_token_error is about runs in which the same stream without the failure returns."
  },
  {
   "property": "C78",
   "status": "proved",
   "theorems": [
    "Verif.C78_accepts",
    "Verif.C78_calls",
    "Verif.C78_total",
    "Verif.C78_error",
    "Verif.C78_glr_accepts",
    "Verif.C78_glr_calls",
    "Verif.C78_glr_panics",
    "Verif.C78_glr_total",
    "Verif.C78_token_function",
    "Verif.C78_generated",
    "Verif.C78_generated_glr"
   ],
   "note": "For LALR and LR(1) tables (and LALR/LR(1) with conflicts for GLR); LALR needs the entry rule unused on right sides (EntryUnused), as C62 does. For GLR the grammar must have no cycles and no hidden left recursion (C54), and 'match the entry rule' is said with parse trees of the grammar built from the file."
  },
  {
   "property": "C79",
   "status": "proved",
   "theorems": [
    "Verif.C79_accepts",
    "Verif.C79_calls",
    "Verif.C79_total",
    "Verif.C79_error",
    "Verif.C79_token_function",
    "Verif.C79_generated"
   ],
   "note": "For LALR and LR(1); LALR needs the entry rule unused on right sides (EntryUnused), as C62 does. Needs that some non-empty text matches the entry rule (C61). What compilers do is not modelled; names of production rules must give compiling source (C61_compiles)."
  },
  {
   "property": "C80",
   "status": "proved",
   "theorems": [
    "Verif.C80_written",
    "Verif.C80_methods",
    "Verif.C80_different",
    "Verif.C80_comment",
    "Verif.C80_calls"
   ],
   "note": "The text of visitor.h read as C++ (Spec/CppVisitor), against the names of C41 and the calls in the parser text of C73. C80_different needs the conditions on names of C41; without them two functions can get one name (C41_name_counterexample)."
  },
  {
   "property": "C81",
   "status": "proved",
   "theorems": [
    "Verif.C81_lexer",
    "Verif.C81_parser",
    "Verif.C81_run",
    "Verif.C81_parser_determines",
    "Verif.C81_glr",
    "Verif.C81_glr_determines"
   ],
   "note": "The Display implementations of the generated files, read as Rust and run (Spec/RustMessage). The text shown for a char by Debug is a parameter. C81_run joins it with C75: the errors returned on streams of tokens meet the hypotheses of C81_parser_determines."
  },
  {
   "property": "C82",
   "status": "proved",
   "theorems": [
    "Verif.C82_written",
    "Verif.C82_parser_text",
    "Verif.C82_sentences",
    "Verif.C82_visitor",
    "Verif.C82_gap_counterexample"
   ],
   "note": "C82_parser_text is about the text of the files, with the value of the entry symbol as an argument because the template has no marker for it (C43). C82_gap_counterexample shows that C82_sentences needs its condition on ordinals."
  },
  {
   "property": "C83",
   "status": "proved",
   "theorems": [
    "Verif.C83_lexer_online",
    "Verif.C83_lr_online",
    "Verif.C83_ll_online",
    "Verif.C83_glr_online",
    "Verif.C83_lr_feedback",
    "Verif.C83_ll_feedback",
    "Verif.C83_glr_feedback",
    "Verif.C83_streams",
    "Verif.C83_lr_calls",
    "Verif.C83_ll_calls",
    "Verif.C83_lr_tree",
    "Verif.C83_glr_tree",
    "Verif.C83_ll_tree",
    "Verif.C83_lexer_counterexample",
    "Verif.C83_glr_late_counterexample"
   ],
   "note": "Lexer: for whatever tables, results and spans inside a common prefix of two texts agree; that one char beyond the token is needed is C83_lexer_counterexample. Parsers: results depend only on tokens asked for; token functions that see the callbacks amount to streams (C83_*_feedback), with soundness and absence of panics carried over (C83_*_tree). C83_glr_late_counterexample: the GLR parser asks for the next token before it reports the one before."
  },
  {
   "property": "C84",
   "status": "proved",
   "theorems": [
    "Verif.C84_gaps",
    "Verif.C84_accepts",
    "Verif.C84_sentences",
    "Verif.C84_calls",
    "Verif.C84_total",
    "Verif.C84_token_function",
    "Verif.C84_generated"
   ],
   "note": "The value of the entry symbol is an argument because the template has no marker for it (C43). NoGaps is a condition (without it see C23_cpp_gap_counterexample); C84_gaps says when it holds if no name has two productions."
  },
  {
   "property": "C85",
   "status": "proved",
   "theorems": [
    "Verif.C85_viable_prefix",
    "Verif.C85_first_wrong",
    "Verif.C85_cpp_first_wrong",
    "Verif.C85_expected_fits",
    "Verif.C85_text",
    "Verif.C85_expected_incomplete",
    "Verif.C85_expected_excess"
   ],
   "note": "Proved for the parser with the table's dispatch, the generated C++ dispatch and the text of the C++ parser. That the tokens named in messages are neither complete nor only fitting ones is shown for one grammar; what is true of them is C85_expected_fits."
  },
  {
   "property": "C86",
   "status": "proved",
   "theorems": [
    "Verif.C86_others",
    "Verif.C86_target",
    "Verif.C86_add_target",
    "Verif.C86_complete",
    "Verif.C86_begun",
    "Verif.C86_ok",
    "Verif.C86_lost",
    "Verif.C86_run",
    "Verif.C86_faults",
    "Verif.C86_killed",
    "Verif.C86_again",
    "Verif.C86_names",
    "Verif.C86_generate"
   ],
   "note": "generate_code is modelled with its BufWriter; a generator is any list of pieces. C86_generate takes what the generators write as a parameter; C87 fills in the modelled texts."
  },
  {
   "property": "C87",
   "status": "proved",
   "theorems": [
    "Verif.C87_reads",
    "Verif.C87_rust",
    "Verif.C87_rust_glr",
    "Verif.C87_cpp",
    "Verif.C87_cpp_ll"
   ],
   "note": "The token function is that of C78/C79/C84 (tokens to be left out are chosen by the user). Conditions as in C78, C79 and C84; what rustc and C++ compilers do is the semantics of the texts in Spec/."
  },
  {
   "property": "C88",
   "status": "proved",
   "theorems": [
    "Verif.C88_rust",
    "Verif.C88_cpp"
   ],
   "note": "Rounds of the loops of the functions read from the generated texts. The work inside a round (lookup in the tables) is not counted; it depends on the lexer, not on the input. With a rule that matches the empty text the number of tokens is not bounded (C13_empty_token_loops), but the count of rounds per char and call still holds."
  },
  {
   "property": "C89",
   "status": "proved",
   "theorems": [
    "Verif.C89_rust",
    "Verif.C89_rust_glr",
    "Verif.C89_cpp",
    "Verif.C89_cpp_ll"
   ],
   "note": "Conditions on the file are collected in GoodFile (Props/FromFile). C++ also needs that the generated source compiles (C61_compiles), LL parsers that the enumerators differ. What rustc and C++ compilers do is the semantics of the texts in Spec/."
  },
  {
   "property": "C90",
   "status": "proved",
   "theorems": [
    "Verif.C90_parser",
    "Verif.C90_nothing",
    "Verif.C90_mixed",
    "Verif.C90_complete",
    "Verif.C90_panic",
    "Verif.C90_bad_token"
   ],
   "note": "A panic of a code generator is modelled as coming before the first write of the file it is called for. That is so for Rust, where the whole text is built first; a C++ generator that panics while it fills a template leaves the beginning of the text (any prefix, C86_begun) instead of an empty file."
  },
  {
   "property": "C91",
   "status": "proved",
   "theorems": [
    "Verif.C91_rust_cpp",
    "Verif.C91_lr_glr",
    "Verif.C91_lr_ll"
   ],
   "note": "What leaving out the same tokens means is stated by the numbers of the token rules. Conditions as in C89 for both languages; the C++ source must compile (C61_compiles). The time the runs take (pf, fuel) is a bound chosen for both."
  }
 ]
}