# Formal model of lapex: design

`/repo` holds lapex, a lexer and parser generator (Rust): it reads a `.lapex` file (tokens as
literals/regexes, EBNF productions), builds a lexer automaton and an LL(1)/LR(0)/LR(1)/LALR/GLR table,
and writes Rust or C++ code. The model is a set of total, computable Lean 4 functions that follow the Rust
functions one by one; the properties of `properties.jsonl` are theorems about these functions.

## Layout

* `lean/Verif/Model/*.lean`   the model: definitions only, each with a comment citing file and lines.
* `lean/Verif/Spec/*.lean`    small specifications, independent of the model's helpers (regular
  language of a pattern, denotation of EBNF, derivations and parse trees of a CFG, LL(1) condition, UTF-8 ...).
* `lean/Verif/Proofs/*.lean`  helper lemmas.
* `lean/Verif/Props/*.lean`   one file per group of properties, with the property theorems, non-vacuity
  `example`s beside them and, where the code violates a property, a theorem with the counterexample.

## Modelling conventions

* `&mut` arguments become returned values; `for`/`while` become folds, structural recursion or recursion on fuel.
  A fuel function returns a distinguished `fuel` error when it runs out; termination theorems show that
  from some amount of fuel on the result is never this error; partial-correctness theorems hold for any fuel.
* Panics (`panic!`, `unwrap` on `None`, `unreachable!`, checked arithmetic) are explicit error values.
* `BTreeSet`/`BTreeMap` are strictly sorted lists; petgraph graphs are a node list and an edge list in insertion order
  (`edges_directed` yields the newest edge first).
* Rust `char` is Lean `Char` (both: Unicode scalar values); `u16`/`u8` counters are `Nat` with
  the wrap-around or the overflow panic written out where it can be observed.
* Generated programs (Rust/C++ lexers, LR, LL and GLR drivers) are modelled as interpreters of the tables they
  are generated from, arm by arm.
* Rule references (`&Rule` compared by address) are rule indices. What hash seeds and addresses leave open is the subject of C70.

## Trusted base

* Lean's kernel (4.33.0), with `decide` and `decide +kernel` (kernel reduction) for closed terms; no `native_decide`, no `bv_decide`, no added axiom, no `sorry`.
* Axioms: `propext`, `Classical.choice` and `Quot.sound`, at most. Of the theorems named in MANIFEST.json, those that use fewer are listed at the end.
* The reading of the Rust and C++ sources as the Lean definitions. Every definition in `Model/` cites the file and lines it follows and says what is simplified.
* The behaviour of the crates used, as described in the comments: std collections and strings, petgraph (edge order), nom (combinators), quote/proc_macro2/syn (the text of generated code is the code
  given to `quote!`; for C74-C77: the tokens, printed with a space between them), regex-syntax (its parser is a parameter, its `Hir` type and its UTF-8 classes are modelled), elsa.
* The meaning given to generated programs: the interpreters in `Model/Lexer`, `Model/LRDriver`, `Model/Glr`, `Model/LL`, `Model/CppLexer`, `Model/CppLR`. For the C++ lexer and LR parser these are derived
  (C72, C73) from the text and a meaning of single C++ statements (`Spec/CppSource`, `Spec/CppLexText`, `Spec/CppLRText`), for the Rust lexer and LR parser (C74, C75) from the text
  and a meaning of single Rust statements (`Spec/RustSource`, `Spec/RustLexText`, `Spec/RustLRText`), and so are the tables and the driver of the GLR parser (C76, C77; `Spec/RustGlrText`,
  `Spec/RustGlrRun`) and the methods of `GraphNode` (`Spec/RustGss`: `Rc<RefCell<…>>` cells as numbered cells with borrows, where `borrow` and `borrow_mut` may panic).

### What is modelled

| code | model | properties |
|---|---|---|
| lapex-input/src/lib.rs (rule types, spans, positions) | Input, Source | C01-C08, C44 |
| lapex-lexer/src/alphabet.rs | Alphabet | C01, C02 |
| lapex-lexer/src/nfa/mod.rs | Nfa | C03, C04 |
| lapex-automaton/src/lib.rs (NFA, DFA, powerset construction) | Automaton | C05, C06 |
| lapex-lexer/src/lib.rs, lapex/src/lib.rs:29-60 (precedences) | Lexer | C07, C08 |
| lapex-rust-codegen/src/lexer/mod.rs and the lexer it writes | Lexer, Names, RustTokens, RustText | C09-C13, C42, C74, C88 |
| lapex-cpp-codegen/src/lexer/mod.rs, its template and the lexer it writes | CppLexer, CppTemplates, CppText | C14, C15, C43, C72, C88 |
| lapex-parser/src/grammar_builder.rs, grammar.rs | Grammar | C16-C19 |
| lapex-parser/src/util.rs (FIRST), ll_parser/mod.rs | First, LL | C20-C25 |
| lapex-cpp-codegen/src/ll_parser/mod.rs, its templates and the parser it writes | LL, CppTemplates, CppLLText | C23-C25, C43, C82, C84, C85 |
| lapex-parser/src/lr_parser/{item,mod}.rs | LR, Layout, Display | C26, C27, C51, C52, C64, C66, C70 |
| lapex-parser/src/lr_parser/bidimap.rs | BidiMap | C48 |
| lapex-rust-codegen/src/lr_parser/mod.rs and the parser it writes | LRDriver, Names, RustLRText | C28-C37, C41, C55-C57, C59, C75 |
| lapex-cpp-codegen/src/lr_parser/*.rs, its templates and the parser it writes | CppLR, Names, CppLRText | C61, C73 |
| lapex-rust-codegen/src/glr_parser/mod.rs and the parser it writes | Glr, Names, RustGlrText | C38-C40, C53, C54, C76, C77 |
| lapex-codegen/src/templating.rs | Template | C43 |
| lapex-codegen/src/lib.rs | Output, OnDisk | C86, C87, C89, C90, C91 |
| lapex-input-bootstrap/src/lib.rs | Bootstrap | C49, C50, C60 |
| lapex-input-gen/src/lib.rs, lapex.lapex | Source, Lapex, Hir, LapexFile, LapexInput | C44-C47, C58, C60, C63 |
| lapex/src/lib.rs (generate) | Generate, LaidGenerate | C65, C70 |
| lapex/src/errors.rs | Generate, Report | C65, C68 |
| lapex-cli/src/main.rs | Debug, Report | C67, C68 |

### What is not modelled

* Rust and C++ compilers. Generated programs have the meaning of the interpreters above; of the conditions under which the source compiles, those on names and on the shape of the tables are
  stated (C33, C41, C42, C61_compiles, C67).
* File system errors other than refused files and bytes (C86), memory exhaustion, stack overflow, `usize` overflow. 16-bit counters overflow as in a debug build (a panic), where a program can observe it.
* The regular expression parser of regex-syntax (a parameter), `clap`, `cargo`.
* The Graphviz/debug printing of automata, `Debug` implementations, the layout of generated source text except for the C++ templates (C43),
  the C++ lexer (C72), the C++ LR parser (C73, C79, C80), the C++ LL parser (C82, C84), the Rust lexer, LR and GLR parser (C74-C78, C81) and the table file (C66).
* `lapex-input-gen/build.rs`: that the checked-in build step runs `lapex::generate` on `lapex.lapex` is used as the meaning of "generated input parser" (C58, C60, C63).
* User code: visitors and token functions. Theorems quantify over the token function's results; callbacks are recorded as events.

## Plan per property

Lexer generation (Model: Input, Alphabet, Automaton, Nfa, Lexer; Spec: Regex)
* C01, C02  alphabet as list of ranges; induction over the sorted char list; binary search by invariant.
* C03, C04  `build_nfa_from_pattern` on an edge list; completeness by path building, soundness by assigning
  to each node the language of its residual words and showing all edges respect it (induction on patterns).
* C05, C06  epsilon closure, subset construction, renumbering as fuelled DFS; invariants on visited sets;
  termination by counting subsets.
* C07, C08  sort + filter; precedence bound by induction on patterns.
* C09-C13   the generated `next()` as structural recursion over the unread chars; lemma: DFA state after a prefix = set
  of NFA nodes; histories as iterated calls. Maximal munch fails (counterexample), the characterisation is proved.
* C14, C15  the C++ lexer loop and `utf8_decode` with bit operations on Nat.

Grammar (Model: Grammar, GrammarBuilder, First, Follow, LLTable; Spec: CFG, EBNF)
* C16-C19  builder as state-threading functions; C18 by induction on patterns/derivations in both directions.
* C20, C21 fixpoint loops with fuel; soundness by invariant, completeness by fixpoint + induction on derivations.
* C22-C25  table insertion; LL driver on a symbol stack; simulation of leftmost derivations. The generated C++ dispatch
  (no end-of-file case, enum/switch numbering) is modelled as it is, giving counterexamples.

LR (Model: Item, LRGraph, LRTable, LRDriver; Spec: parse trees)
* C26, C27 closure worklist and graph worklist with fuel; termination by counting item sets.
* C28, C34, C35 stack invariant from edge/item invariants of the graph.
* C29 item-lookahead invariant of LR(1); counterexamples for LALR, LR(0), left-recursive entry.
* C30-C33, C37 closure/goto completeness invariants, then the standard "parser follows the tree" induction;
  unambiguity from determinism.
* C36 reading off the action arms.

GLR (Model: GLRDriver)
* C38 invariant per stack; C39 simulation; C40 counterexamples, non-termination for every fuel.

Code generation and input
* C41, C42 string functions on char lists. C43 scanner for markers. C44, C45 positions by induction on text.
* C46 visitor as stack machine run on post-order events of a tree. C47 induction on HIR. C48 assoc lists.
* C49, C50 nom combinators as functions on char lists; print/parse round trip.

Whole-program properties, added while the model grew
* C51, C52 relation of LR(0), LALR and LR(1) automata: state sets as kernels; C52 by viable prefixes, in both directions.
* C53, C54 counting: accepted stacks of the GLR driver correspond one to one to parse trees; termination by a size of the stacks and of the trees on them.
* C55, C56, C59 lookahead and error positions: invariant that every item on the stack can be used with its lookahead.
* C57 endless reductions would give one sentence two trees of different size, or grow the stack for ever on an accepted input.
* C58, C60 the tokens and productions of lapex.lapex as data; the table is checked by a Boolean checker run by the kernel, the text by running the bootstrap parser model lemma by lemma.
* C61 C++ LR parser: simulation step by step.
* C62, C63 lexer and parser composed: `TextTokens` (the tokens of a text from the rules alone) and `FedBy` (token function). C63 also relates spans to the text.
* C64 conflicts against Knuth's definition (right sentential forms and their handles).
* C65 `generate`: cases over everything that can go wrong, in the order of the code. C66 the text of the table file, field by field. C67 `lapex debug`. C68 the text of the reports: colour codes are balanced, so removing
  them commutes with putting texts together; `str::lines` is undone line by line. The codes are those of owo-colors 3.5.0 (trusted).
* C69 the height of the stack is the potential. Reductions that stay above a state depend on the state and the token only, so their number has a common bound (they are moved onto a stack that
  occurs in an accepting run); a non-terminal that comes twice at one height would give one sentence trees of different size. For LL a non-terminal on top is erased or leads to a token in a number of
  steps that depends on the non-terminal and the token only.
* C70 table generation with hash order, address of the entry rule, cache and visiting order as parameters (`Model/Layout`); simulation by the model of `Model/LR`: the item sets of
  all states but the first are equal, in the first only the place of the entry item differs, and that item has no transition and is never completed.
* C71 what the builder adds for a production depends on the production and on the number of helpers before it only, so that a permutation of the productions permutes these blocks of rules; names
  and helpers give injective maps of symbols. Derivations, items, states (for LALR: cores), conflicts and trees are carried along these maps. Tags are not compared; names of callbacks without tags
  (`reduce_s_1`) do depend on the order, as do the numbers of symbols and states. Whole runs (`C71_generate_*`, Props/RenameGenerate) follow with C65.
* C72 the text that is written (Model/CppText) and, independently of it, a reader for a small part of C++ (Spec/CppSource: tokens, comments, `switch`, `case a ... b`, `if`, `while`, `for`) with an
  execution of statements; the meaning of the simple statements in `next` is given in Spec/CppLexText. Reading is compositional (Proofs/CppRead), so that the text of the whole automaton is read by
  induction; a `switch` over different labels without fall-through selects the case.
* C73 the same for the files `tokens.h`, `tokens.cpp`, `parser.cpp` and `parser_impl.h` (Model/CppLRText): enumerations are lists of words with their positions as values, functions are read by
  their heads, the simple statements have the meaning given in Spec/CppLRText. Each function is executed by a lemma, the loop of `parse` by induction on the rounds; the result is `cppLRParse` of C61.
* C74 the stream of tokens that `quote!` makes (Model/RustTokens: the macro `rs!` lists the tokens of a text, so that the code in `quote!` can be compared with /repo by eye), its printed form, and
  independently of it a reader for a small part of Rust (Spec/RustSource: tokens and groups, functions, patterns, `match`, `loop`, `while`, `for`) with an execution of statements. Printing and
  reading cancel (Proofs/RustRead, by induction on the stream); statements and arms are read by induction on the list of arms, the first arm that matches is `find?` on the arms of Model/Lexer.
* C75 the same for `parser.rs` (Model/RustLRText: methods of the visitor, arms, the code in `quote!`). Spec/RustLRText finds the functions in the `impl`, and gives the meaning of each statement of
  `parse`, `next_action`, `next_goto`, `reduce_stack_and_visit`; stack symbols are values that are matched against patterns. Arms of the text are related one to one to the arms of
  `genRust` (Proofs/RustLRFuns, RustLRReduce); a round of the loop in the text is a step of `lrParse` (Proofs/RustLRRun, by induction on the number of rounds). Needed: no `enum` with two equal
  variants; `C75_files` says that the conditions of C42 are enough for that.
* C76 the same for `parser.rs` with a GLR parser (Model/RustGlrText: the whole text, with the driver and the module `gss`). Spec/RustGlrText gives the meaning of the statements of `next_actions`,
  `next_goto`, `get_rule_reduction` and `do_visit`; arms are related one to one to those of `genGlr`.
* C77 runs that text: Spec/RustGlrRun reads the blocks of `parse`, `apply_reduces`, `apply_reduce` and `combine_errors` as statements (loops, `if`, `match`) and gives the meaning of each simple
  statement, with the functions of C76 and those of module `gss`. The latter are read from the text too (Spec/RustGss); `C77_stack_text` says they do what the
  operations of Model/Glr do, with no failing `borrow` (Proofs/RustGss; `unwind_stacks` by induction on the depth, where all borrowed cells are older than the cell `push` writes to). Each block is related to the function of Model/Glr by an invariant between the variables of the
  text and the arguments of the model (Proofs/RustGlrReduce, RustGlrReduces, RustGlrParse): the heap of the text is that of the model with symbols and records renamed. The loops by induction
  on the number of rounds. A token function that fails is handled by a second induction, where the outcome of the model bounds the number of calls.
* C78 puts C74, C75 and C77 together with C62: Spec/RustProgram defines a token function as the sequence of values of calls of the text's `next` and `slice` (`TextFed`); it exists and is unique
  (`C78_token_function`). The token function of an LR parser has no place for an error and panics in real programs; here it gives a name that is no variant, so that no theorem takes it for a token.
  `C78_generated` and `C78_generated_glr` say that a successful run of `generate` gives the tables these theorems ask for.
* C79 does the same for C++, from C72, C73 and C62: Spec/CppProgram defines the token function by the text's `Lexer::next` and the numbers in the text's `enum class TokenType`; it exists and is
  unique (`C79_token_function`). The C++ lexer counts positions in chars, so that `between src (start, end)` is the text of a token. `CppProgramFiles` collects how the files were made;
  `C79_generated` gets it from a successful run of `generate`. That the source compiles stays a condition; C61_compiles gives it from conditions on names and sizes.
* C80 models the text of `visitor.h` (Model/CppLRText, `cppVisitorFile`) and reads it with Spec/CppVisitor: `readVisitor` gives the functions of the class, `CppUnit.called` the names in calls on
  the visitor in the statements of `reduce_visitor` and `parse` that C73 reads. The names are those of C41; the comments are the rules as shown in C66.
* C81 reads `fmt` of the error types in `lexer.rs` and `parser.rs` (Spec/RustMessage: `rustMessage` finds the first `impl` of `Display`, reads its `match`, binds the fields of the error by the
  pattern of the arm and runs `write!`, with `{}` and `{:?}` filled by position). Trusted there: how `Debug` shows a variant (its name), a `Vec`, a `RangeInclusive` and an `Option`; how it shows a
  `char` is a parameter. `collectErrors` knows the one chain of iterators in the GLR parser; the body of its closure is read from the text.
* C82 models the texts of the C++ LL parser (Model/CppLLText) and reads and executes them with Spec/CppLLText, as C73 does for the LR parser. Under `LLGenerated` the source is given in closed form
  (`genCppLL_eq`); the functions are related to `cppDispatch` and `cppVisible` (Proofs/CppLLNames, `llFns_ok`), the loop of `parse` to `llRun` by induction on the number of rounds
  (Proofs/CppLLDriver). Since `{grammar_entry_non_terminal}` stays in the text (C43), the file does not compile as it is; the value that should stand there is an argument of `runCppLL`.
* C83 says that the lexer and the parsers decide with what they have read. Spec/Online has the loops of the three parsers with a token function that is given the callbacks made before the call (`TokenSource`), called where the code
  calls it (after `visitor.shift`/`visitor.token` in the LR and LL parsers, between `apply_reduces` and the callbacks in the GLR parser). In a run of such a loop the token in the queue changes only when the position grows, and rounds are
  deterministic, so the tokens seen are those of one stream (`stream_of_run`); for GLR the rounds do not depend on the bound of `apply_reduces` (`applyReduces_fuel_mono`). A token function with state of its own is covered: its answers in a run are
  a function of the number of the call. Errors of the GLR parser's token function (`LexerError`) end the run and are not in `glrFeed`.
* C84 is C79 for the LL parser, from C72, C82 and C62. What the C++ LL parser accepts is `C24_cpp_accepts_iff` (Proofs/LLTree): a run with the table's dispatch is also a run with the C++ dispatch
  iff no non-terminal is entered when the lookahead is the end of file (`Late`), and this is read off the callbacks of the tree (`PTree.EndsInToken`, Spec/LLEnd). Every tree is reported
  (`forest_acc`), and trees are unique because the lookahead determines the rule (`forest_unique`, which gives C22_unambiguous). Streams with a lexer error are compared with the stream cut off
  there (`err_ends`). When the two numberings of the non-terminals agree is `C84_gaps` (Proofs/Gaps), for rule sets in which no name has two productions.
* C85: what the symbols on the stack derive, put behind the tokens read, is a sentence (`LLInv`, an invariant of `llStep`); with productive non-terminals they derive something. If a sentence went on
  with the token found, the parser would accept it (C24), but the run depends on no later tokens (C83), so it ends with the same error. At a token the C++ parser reports an error only where the table
  has no entry (`cpp_error_tok`). The states are those of Spec/LLReach.
* C86 models `GeneratedCodeWriter` and the `BufWriter` around each file (Model/Output) with a disk that refuses files and bytes at arbitrary points. A generator is the list of pieces it writes and how
  it ends, so the theorems hold for every way in which a generator splits its output; what the output is says the property of the respective file (C43, C66, C72-C76, C82). The invariant: what is in
  the file and in the buffer is what was written so far (`BufInv`), or a beginning of it if a write failed (`BufFailed`). A kill leaves the files before complete and in the current one what has left
  the buffer (`Killed`). The `BufWriter` of the standard library (capacity 8192, `write_all`, errors in `drop` ignored) is modelled from its documentation and source, not from /repo.
* C87 joins C86 with C78, C79 and C84: Model/OnDisk says which of the modelled texts goes into which file; the generators may divide them into writes in any way. Proved by reading the texts back from
  the directory (UTF-8 is injective) and applying the theorems about programs. `debug` (comments in `lexer.cpp`) and `label` (the entry symbol of LL parsers, which the template does not use) are parameters.
* C88 counts the rounds with which the functions read back from the texts (C72, C74) return: `TakesRounds f k v` says that `k` rounds are enough and `k - 1` are not (Spec/Rounds). For C++ the measure is
  the bytes left and the char read ahead; at the end of the input the char is 0, on which no state advances.
* C89 is the whole way in one statement: C63 (the file is read), C65 (the run returns Ok), C86/C87 (the files are a program). Its conditions speak about the text of the grammar file and what it stands for
  only (`GoodFile`, Props/FromFile): the file is ASCII and small (C45), no `_` in a sequence, no rule with more than 254 parts, the entry rule does not begin with itself (C29), token rules
  with patterns that are sound (C65). For C++ one condition is left on the output: that the source compiles (C61_compiles), or that the enumerators differ (LL).
* C91 puts C89_rust and C89_cpp side by side: both programs are exact for the same language and come to an end (the last parts of `RustAccepts` and `CppAccepts`), so they agree. `SameAnswers`
  (Props/Agree) says what agreeing means. `C91_lr_glr` uses that a grammar without conflicts is unambiguous (C32), `C91_lr_ll` compares the two C++ programs.
* C90 takes what a run has written when it ends early (`Ending.EndsEarly`) from Model/Generate and applies C86. Panics of the code generators themselves are in Props/PanicRun: the
  file is created before its generator is called, so it is left empty (in C++ a template may be written up to the place of the panic; simplified) (`C90_panic`, `C90_bad_token`: a token called `a_` empties the old tokens.rs); `C90_complete` is the other direction. Finding: lapex writes tokens and lexer before it checks the grammar, so a failed run leaves a directory with files that do not fit together (`C90_mixed` and the example after it).


## Findings

Where the code does not do what a user would expect, there is a theorem with a concrete witness (names ending in `_counterexample`, or the negative part of a theorem), and the property is
stated with the condition that excludes it.

Lexer
* `a{3}` (exact repetition) panics, `max < min` underflows, an empty group matches nothing (C03, C04).
* No backtracking: after the longest viable prefix the lexer reports an error even if a shorter prefix is a token (C10). NUL is the end of the input (C12).
* A rule that matches the empty text makes no progress (C13).
* A class with only surrogates gives ties that no text shows (C07).

Grammar and LL
* The empty rule set panics (C16). Numbers of helper non-terminals may overflow (C17).
* The C++ LL parser: no end-of-file case; enumerators and switch labels are numbered differently, so some parsers accept wrong texts (C23, C24); the numbers agree iff no rule has an operator or there are at least as
  many productions as tokens (C84_gaps); its template contains a literal
  `({grammar_entry_non_terminal})` (C43).
* The expected tokens in a message of the C++ LL parser can lack tokens that fit and name tokens that do not (C85_expected_incomplete, C85_expected_excess).
* Rust LL and C++ GLR generators are `todo!()` (C65).

LR and GLR
* A left-recursive entry symbol accepts too early (C29, C30); LALR and LR(0) accept without looking at the end of the input when the entry symbol is used (C29).
* LR(0) reports a spurious conflict for rules with an empty right side (C64), and gives a cell with two actions for an empty entry rule, on which the Rust generator panics (C33).
* An epsilon inside a right side panics LR(1)/LALR generation, and is a dead end in LR(0) (C26, C27).
* The cyclic entry rule `s = s` is no conflict; a duplicated rule is one (C32, C53).
* The C++ LR goto table omits states without a shift: for an entry that is always empty `std::terminate` is called (C61).
* GLR: an input with two trees panics; cyclic grammars and hidden left recursion loop for ever (C40). After an error the reductions since the last shift are lost (C39). One token more than needed
  is requested after accepting (C39).

Names
* A tag on a production with an option or alternative gives duplicate callbacks; `a_1` and a second rule of `a` clash; a production can be called like a helper (C41).
* `AB`/`Ab`, `a_1`/`a1` give the same variant, `a_` and `a__b` panic; a C++ token `EOF` clashes with the end-of-file token (C42).

Input and command line
* Non-ASCII text before a token on the same line, and a backslash followed by a newline in a literal, make spans wrong (C45, C63), so that the report of a conflict panics (C65) or quotes another text.
* String literals have no escapes; numbers above 65535 in repetitions panic (C46, C50).
* A missing or wrong file, an unreadable text, an unknown name and an LL conflict are panics (`expect("TODO")`); other errors are printed but the exit code is 0 (C65, C68).
* The underlining of a quoted rule has as many tildes as the rule has bytes, also if the rule goes over several lines or has non-ASCII chars (C68).
* Output files are created before the code is generated: after a panic of the generator the parser file is empty (C65, C90_panic); a token called `a_` empties tokens.rs (C90_bad_token).
* `lapex debug` works with GLR only (C67).
* The files are never flushed explicitly, so errors of the last write are ignored: with a full disk `lapex generate` can succeed and leave empty or truncated files (C86_lost, C86_ok).

## Tests of the theorems against wrong programs

`seeded/LOG.jsonl`: each line is one edit of a definition in `Model/`, made in a copy outside this directory: the edit, the claim it breaks, the theorems that failed to build, and what was tightened
when none did.

## Theorems that use fewer than the three axioms

* propext, Quot.sound: C03_empty_literal_unmatched, C08_precedence_le_length, C08_literal_beats_regex, C13_empty_token_loops, C15_error_sticky, C43_substitute, C43_open_counterexample, C45_non_ascii_counterexample, C45_newline_counterexample, C46_body_language, C46_body_language, C48_remove_none, C50_char, C50_every_char, C50_unicode, C50_not_scalar, C50_digits, C50_no_other, C62_tokens_unique, C68_lines_unique, C71_tokens, C71_sentences, C83_lr_online, C83_ll_online, C83_glr_online, C83_lr_calls, C83_ll_calls, C86_target, C86_complete, C86_begun, C86_ok, C86_lost, C86_run, C86_faults, C86_killed, C86_again, C90_complete
* none: C08_literals_distinct
* propext: C15_decode_end, C16_empty_panics, C48_insert_counterexample, C62_tokens_cover, C83_streams, C86_others, C86_add_target

All other theorems of MANIFEST.json depend on `propext`, `Classical.choice` and `Quot.sound`.
