import Verif.Props.FromFile
import Verif.Props.Debug

/-!
# C91: the Rust and the C++ program of a grammar file agree

Someone who moves from one target language to the other relies on this: the two programs lapex writes for one grammar file accept the same texts, and both come to an end for the others too, with an error.
-/

set_option autoImplicit false

namespace Verif

/-- The two programs give the same answer for every text, if both leave out the tokens of the same token rules: the Rust parser returns `Ok` iff the C++ parser returns without an exception, and otherwise
one returns an error and the other throws an exception. The token functions are the ones made of the lexers, and there is one for each text. -/
def SameAnswers (toks lexer parser : List Char) (cppLexer : List Char) (files : CppFiles) (rules : List TokenRule) : Prop :=
  ∃ variants, rustEnum "TokenType".toList toks = some variants ∧ ∀ skip skip' : List Char → Bool, skip "EndOfFile".toList = false → skip' "TK_EOF".toList = false ∧ skip' "TK_ERR".toList = false →
    (∀ j < rules.length, skipped variants skip j = cppSkipped rules skip' j) → ∀ src, ∃ inp inp', (∀ i, TextFed lrToken lexer skip src i ↔ i = inp) ∧
      (∀ i, CppTextFed cppLexer files.tokensH skip' (utf8 src) i ↔ i = inp') ∧
      ((∃ n visits calls, runRustParser parser inp n = .ok (.ok, visits, calls)) ∧ (∃ n events pos, runCppParser files inp' n = some (.returned events pos)) ∨
       (∃ n got expected visits calls, runRustParser parser inp n = .ok (.unexpected got expected, visits, calls)) ∧ (∃ n events pos message, runCppParser files inp' n = some (.thrown events pos message)) ∧
       (¬ ∃ n visits calls, runRustParser parser inp n = .ok (.ok, visits, calls)) ∧ ¬ ∃ n events pos, runCppParser files inp' n = some (.returned events pos))

theorem kept_same {p q : Nat → Bool} {rules : List TokenRule} (h : ∀ j < rules.length, p j = q j) {ts : List (Nat × List Char)} (hts : ∀ x ∈ ts, x.1 < rules.length) : kept p ts = kept q ts := by
  unfold kept
  refine List.filter_congr fun x hx => ?_
  rw [h _ (hts x hx)]

theorem sameAnswers {toks lexer parser cppLexer : List Char} {files : CppFiles} {rules : List TokenRule} {L : List Nat → Prop} (h : RustAccepts toks lexer parser rules L True)
    (h' : CppAccepts cppLexer files rules L True) : SameAnswers toks lexer parser cppLexer files rules := by
  obtain ⟨variants, hv, h⟩ := h
  refine ⟨variants, hv, fun skip skip' hs hs' hsame src => ?_⟩
  obtain ⟨inp, a1, a2, a3, a4⟩ := h skip hs src
  obtain ⟨inp', b1, b2, b3, b4⟩ := h' skip' hs' src
  refine ⟨inp, inp', fun i => ⟨a2 i, fun e => e ▸ a1⟩, fun i => ⟨b2 i, fun e => e ▸ b1⟩, ?_⟩
  have key : (∃ n visits calls, runRustParser parser inp n = .ok (.ok, visits, calls)) ↔ ∃ n events pos, runCppParser files inp' n = some (.returned events pos) := by
    rw [a3, b3]
    constructor
    · rintro ⟨ts, k1, k2⟩
      exact ⟨ts, k1, by rw [← kept_same hsame (tokens_below k1)]; exact k2⟩
    · rintro ⟨ts, k1, k2⟩
      exact ⟨ts, k1, by rw [kept_same hsame (tokens_below k1)]; exact k2⟩
  by_cases hok : ∃ n visits calls, runRustParser parser inp n = .ok (.ok, visits, calls)
  · exact .inl ⟨hok, key.mp hok⟩
  · have hno : ¬ ∃ n events pos, runCppParser files inp' n = some (.returned events pos) := fun h => hok (key.mpr h)
    obtain ⟨n, ⟨r, visits, calls⟩, hr⟩ := a4 trivial
    obtain ⟨n', r', hr', hr''⟩ := b4 trivial
    refine .inr ⟨?_, ?_, hok, hno⟩
    · cases r with
      | ok => exact (hok ⟨n, visits, calls, hr n (Nat.le_refl _)⟩).elim
      | unexpected got expected => exact ⟨n, got, expected, visits, calls, hr n (Nat.le_refl _)⟩
    · rcases hr'' with ⟨events, pos, rfl⟩ | ⟨events, pos, message, rfl⟩
      · exact (hno ⟨n', events, pos, hr' n' (Nat.le_refl _)⟩).elim
      · exact ⟨n', events, pos, message, hr' n' (Nat.le_refl _)⟩

section
variable {lexFuel : Nat} {t0 : LexerTables} (hlex : generateLexer lexFuel lapexTokens = .ok (.ok t0)) {p0 : LRProg} (hp0 : LRParserFor lapexGrammar .lr1 p0)
variable {syn : List Char → Option Hir} {text : List Char} {ts : List (Nat × List Char)} (hts : TextTokens lapexTokens text ts) {rules : SpannedRules} (hrules : FileMeans syn (fileTokens ts) rules)
variable {g : Grammar} (hg : Grammar.fromRuleSet rules.ruleSet = .ok g) (hgood : GoodFile text rules) (hties : NoTies (rules.tokens.map (·.inner)))
variable (genTable : Bool) (path : List Char) (split : List UInt8 → List (List UInt8)) (hsplit : ∀ b, (split b).flatten = b) (debug : Nat → List Char) (label : List Char)
variable (hdebug : ∀ r, '\n' ∉ debug r ∧ (debug r).getLast? ≠ some '\\')

include hlex hp0 hts hrules hg hgood hties hsplit hdebug in
/-- **C91.** For every grammar file that describes an LR(1) grammar (with the conditions of C89): `lapex generate` returns Ok for Rust and for C++, and the programs the two runs leave in their directories
give the same answer for every text. -/
theorem C91_rust_cpp (hn : rules.ruleSet.RustNames) (hprod : Productive g) (hlr : IsLR g 1) (hsome : ∃ w, w ≠ [] ∧ Den rules.ruleSet (.rule rules.entry.inner) w) :
    ∃ pf pf' bound, parseLapex syn t0 p0.machine pf text = .ok rules ∧ parseLapex syn t0 p0.machine pf' text = .ok rules ∧ ∀ fuel, bound ≤ fuel → ∃ ws ws' src, generate (parseLapex syn t0 p0.machine pf) fuel true .lr1 genTable .rust path (some text) = (ws, .ok) ∧
      generate (parseLapex syn t0 p0.machine pf') fuel true .lr1 genTable .cpp path (some text) = (ws', .ok) ∧ Written.cppParser src ∈ ws' ∧ (src.compile.isSome →
        ∀ disk disk' : Disk, disk.Takes (outputFiles split .rust rules.ruleSet (rules.tokens.map (·.inner)) g debug label ws) →
          disk'.Takes (outputFiles split .cpp rules.ruleSet (rules.tokens.map (·.inner)) g debug label ws') → ∀ dir dir0, ∃ dir' dir1 toks lexer parser cppLexer files,
          writeFiles disk (outputFiles split .rust rules.ruleSet (rules.tokens.map (·.inner)) g debug label ws) dir = (dir', true) ∧
          dir'.Reads "tokens.rs" toks ∧ dir'.Reads "lexer.rs" lexer ∧ dir'.Reads "parser.rs" parser ∧
          writeFiles disk' (outputFiles split .cpp rules.ruleSet (rules.tokens.map (·.inner)) g debug label ws') dir0 = (dir1, true) ∧
          dir1.Reads "lexer.cpp" cppLexer ∧ dir1.Reads "tokens.h" files.tokensH ∧ dir1.Reads "tokens.cpp" files.tokensCpp ∧ dir1.Reads "parser.cpp" files.parserCpp ∧
          dir1.Reads "parser_impl.h" files.parserImplH ∧ SameAnswers toks lexer parser cppLexer files (rules.tokens.map (·.inner))) := by
  obtain ⟨pf, bound, e, h⟩ := C89_rust hlex hp0 hts hrules hg hgood hties genTable path split hsplit debug label hn hprod hlr
  obtain ⟨pf', bound', e', h'⟩ := C89_cpp hlex hp0 hts hrules hg hgood hties genTable path split hsplit debug label hdebug hn.words hprod hlr hsome
  refine ⟨pf, pf', max bound bound', e, e', fun fuel hf => ?_⟩
  obtain ⟨ws, h1, h2⟩ := h fuel (by omega)
  obtain ⟨ws', src, k1, k2, k3⟩ := h' fuel (by omega)
  refine ⟨ws, ws', src, h1, k1, k2, fun hc disk disk' hd hd' dir dir0 => ?_⟩
  obtain ⟨dir', toks, lexer, parser, a1, a2, a3, a4, a5⟩ := h2 disk hd dir
  obtain ⟨dir1, cppLexer, files, b1, b2, b3, b4, b5, b6, b7⟩ := k3 hc disk' hd' dir0
  exact ⟨dir', dir1, toks, lexer, parser, cppLexer, files, a1, a2, a3, a4, b1, b2, b3, b4, b5, b6, sameAnswers a5 b7⟩

end

/-! ## One language, two algorithms -/

/-- An LR and a GLR parser in Rust accept the same texts, if both leave out the tokens of the same token rules, and the GLR parser does not panic. -/
def SameAsGlr (toks lexer parser toks' lexer' parser' : List Char) (rules : List TokenRule) : Prop :=
  ∃ variants variants', rustEnum "TokenType".toList toks = some variants ∧ rustEnum "TokenType".toList toks' = some variants' ∧
    ∀ skip skip' : List Char → Bool, skip "EndOfFile".toList = false → skip' "EndOfFile".toList = false → (∀ j < rules.length, skipped variants skip j = skipped variants' skip' j) →
      ∀ src, ∃ inp inp', (∀ i, TextFed lrToken lexer skip src i ↔ i = inp) ∧ (∀ i, TextFed glrToken lexer' skip' src i ↔ i = inp') ∧
        ((∃ n visits calls, runRustParser parser inp n = .ok (.ok, visits, calls)) ↔ ∃ n visits calls, runGlrParser parser' inp' n = .ok (.ok, visits, calls)) ∧
        ∃ bound, ∀ n, bound ≤ n → ∃ r, runGlrParser parser' inp' n = .ok r

/-- An LR and an LL parser in C++ accept the same texts, if both leave out the same tokens. -/
def SameAsLL (lexer : List Char) (files : CppFiles) (lexer' : List Char) (files' : CppFiles) (E : Nat) : Prop :=
  ∀ skip : List Char → Bool, skip "TK_EOF".toList = false ∧ skip "TK_ERR".toList = false → ∀ src, ∃ inp inp', (∀ i, CppTextFed lexer files.tokensH skip (utf8 src) i ↔ i = inp) ∧
    (∀ i, CppTextFed lexer' files'.tokensH skip (utf8 src) i ↔ i = inp') ∧
    ((∃ n events pos, runCppParser files inp n = some (.returned events pos)) ↔ ∃ n events pos, runCppLL files' E inp' n = some (.returned events pos))

theorem sameAsLL {lexer lexer' : List Char} {files files' : CppFiles} {E : Nat} {rules : List TokenRule} {L : List Nat → Prop} {P : Prop} (h : CppAccepts lexer files rules L P)
    (h' : CppLLAccepts lexer' files' E rules L) : SameAsLL lexer files lexer' files' E := by
  intro skip hskip src
  obtain ⟨inp, a1, a2, a3, _⟩ := h skip hskip src
  obtain ⟨inp', b1, b2, b3, _⟩ := h' skip hskip src
  exact ⟨inp, inp', fun i => ⟨a2 i, fun e => e ▸ a1⟩, fun i => ⟨b2 i, fun e => e ▸ b1⟩, a3.trans b3.symm⟩

theorem sameAsGlr {toks lexer parser toks' lexer' parser' : List Char} {rules : SpannedRules} {g : Grammar} (hg : Grammar.fromRuleSet rules.ruleSet = .ok g) (hfine : rules.ruleSet.Fine)
    (hu : Unambiguous g) {P : Prop} (h : RustAccepts toks lexer parser (rules.tokens.map (·.inner)) (Den rules.ruleSet (.rule rules.entry.inner)) P)
    (h' : RustGlrAccepts toks' lexer' parser' (rules.tokens.map (·.inner)) g) : SameAsGlr toks lexer parser toks' lexer' parser' (rules.tokens.map (·.inner)) := by
  obtain ⟨variants, hv, h⟩ := h
  obtain ⟨variants', hv', h'⟩ := h'
  refine ⟨variants, variants', hv, hv', fun skip skip' hs hs' hsame src => ?_⟩
  obtain ⟨inp, a1, a2, a3, _⟩ := h skip hs src
  obtain ⟨inp', b1, b2, b3, b4, bound, b5⟩ := h' skip' hs' src
  refine ⟨inp, inp', fun i => ⟨a2 i, fun e => e ▸ a1⟩, fun i => ⟨b2 i, fun e => e ▸ b1⟩, ?_, bound, fun n hn => ?_⟩
  rotate_left
  · rcases b5 n hn with h | h
    · obtain ⟨ts, a, b, _, hab, ha, hb⟩ := b4.mp ⟨n, h⟩
      exact (hab (hu _ _ _ ha.1 hb.1 (ha.2.trans hb.2.symm))).elim
    · exact h
  rw [a3, b3]
  obtain ⟨A, hA, _⟩ := (C19_well_formed _ _ hg).entry_declared
  have hlang := C18_entry_language rules.ruleSet g hg hfine.tokens hfine.prods
  constructor
  · rintro ⟨ts, k1, k2⟩
    rw [kept_same hsame (tokens_below k1)] at k2
    have k3 := (hlang _).mpr k2
    rw [hA] at k3
    obtain ⟨tree, t1, t2⟩ := derives_tree k3
    rw [← hA] at t1
    exact ⟨ts, tree, k1, ⟨t1, t2⟩, fun tree' ht => hu _ _ _ ht.1 t1 (ht.2.trans t2.symm)⟩
  · rintro ⟨ts, tree, k1, k2, _⟩
    refine ⟨ts, k1, ?_⟩
    rw [kept_same hsame (tokens_below k1)]
    refine (hlang _).mp ?_
    have := isParseTree_derives k2.1
    rw [k2.2] at this
    exact this

section
variable {lexFuel : Nat} {t0 : LexerTables} (hlex : generateLexer lexFuel lapexTokens = .ok (.ok t0)) {p0 : LRProg} (hp0 : LRParserFor lapexGrammar .lr1 p0)
variable {syn : List Char → Option Hir} {text : List Char} {ts : List (Nat × List Char)} (hts : TextTokens lapexTokens text ts) {rules : SpannedRules} (hrules : FileMeans syn (fileTokens ts) rules)
variable {g : Grammar} (hg : Grammar.fromRuleSet rules.ruleSet = .ok g) (hgood : GoodFile text rules) (hties : NoTies (rules.tokens.map (·.inner)))
variable (genTable : Bool) (path : List Char) (split : List UInt8 → List (List UInt8)) (hsplit : ∀ b, (split b).flatten = b) (debug : Nat → List Char) (label : List Char)

include hlex hp0 hts hrules hg hgood hties hsplit in
/-- **C91.** GLR instead of LR(1): for every grammar file that describes an LR(1) grammar (without cycles and hidden left recursion, the entry rule not being used), `lapex generate` returns Ok with both
algorithms, the two programs accept the same texts, and the GLR parser does not panic. -/
theorem C91_lr_glr (hn : rules.ruleSet.RustNames) (hprod : Productive g) (hlr : IsLR g 1) (hent : rules.ruleSet.EntryUnused) (hdis : DistinctRules g) (hcyc : NoCycle g) (hhid : NoHiddenLeftRecursion g) :
    ∃ pf pf' bound, ∀ fuel, bound ≤ fuel → ∃ ws ws', generate (parseLapex syn t0 p0.machine pf) fuel true .lr1 genTable .rust path (some text) = (ws, .ok) ∧
      generate (parseLapex syn t0 p0.machine pf') fuel true .glr genTable .rust path (some text) = (ws', .ok) ∧
        ∀ disk disk' : Disk, disk.Takes (outputFiles split .rust rules.ruleSet (rules.tokens.map (·.inner)) g debug label ws) →
          disk'.Takes (outputFiles split .rust rules.ruleSet (rules.tokens.map (·.inner)) g debug label ws') → ∀ dir dir0, ∃ dir' dir1 toks lexer parser toks' lexer' parser',
          writeFiles disk (outputFiles split .rust rules.ruleSet (rules.tokens.map (·.inner)) g debug label ws) dir = (dir', true) ∧
          dir'.Reads "tokens.rs" toks ∧ dir'.Reads "lexer.rs" lexer ∧ dir'.Reads "parser.rs" parser ∧
          writeFiles disk' (outputFiles split .rust rules.ruleSet (rules.tokens.map (·.inner)) g debug label ws') dir0 = (dir1, true) ∧
          dir1.Reads "tokens.rs" toks' ∧ dir1.Reads "lexer.rs" lexer' ∧ dir1.Reads "parser.rs" parser' ∧ SameAsGlr toks lexer parser toks' lexer' parser' (rules.tokens.map (·.inner)) := by
  obtain ⟨_, _, hfine⟩ := file_parsed hlex hp0 hts hrules hgood
  obtain ⟨pf, bound, e, h⟩ := C89_rust hlex hp0 hts hrules hg hgood hties genTable path split hsplit debug label hn hprod hlr
  obtain ⟨pf', bound', _, h'⟩ := C89_rust_glr hlex hp0 hts hrules hg hgood hties genTable path split hsplit debug label hn hent hdis hcyc hhid
  refine ⟨pf, pf', max bound bound', fun fuel hf => ?_⟩
  obtain ⟨ws, h1, h2⟩ := h fuel (by omega)
  obtain ⟨ws', k1, k2⟩ := h' fuel (by omega)
  refine ⟨ws, ws', h1, k1, fun disk disk' hd hd' dir dir0 => ?_⟩
  obtain ⟨dir', toks, lexer, parser, a1, a2, a3, a4, a5⟩ := h2 disk hd dir
  obtain ⟨dir1, toks', lexer', parser', b1, b2, b3, b4, b5⟩ := k2 disk' hd' dir0
  have hu : Unambiguous g := by
    have wf := C19_well_formed _ _ hg
    have hne : NoEmptyRhs g := C19_no_empty_right_side _ g hg hfine.noEmptySequence
    have hel := C27_epsilon_condition _ g hg hfine.noEpsilonInSequence
    obtain ⟨text', rules', g', vs, lx, table, ps, tb, e1, e2, e3, _, h5, _⟩ := C65_ok _ _ _ _ _ _ _ _ _ h1
    cases e1
    rw [e] at e2
    cases e2
    rw [hg] at e3
    cases e3
    generalize hl : Language.rust = lang at h5
    generalize ha : Algorithm.lr1 = alg at h5
    cases h5 with
    | cpp => cases hl
    | glr => cases ha
    | ll => cases ha
    | @rust _ kind' n' tb p hk' hgen hp => exact C32_unambiguous g wf hne hel (entry_not_left_recursive hg hfine) false kind' n' tb hgen
  exact ⟨dir', dir1, toks, lexer, parser, toks', lexer', parser', a1, a2, a3, a4, b1, b2, b3, b4, sameAsGlr hg hfine hu a5 b5⟩

variable (hdebug : ∀ r, '\n' ∉ debug r ∧ (debug r).getLast? ≠ some '\\')

include hlex hp0 hts hrules hg hgood hties hsplit hdebug in
/-- **C91.** LL(1) instead of LR(1), in C++: for every grammar file that describes a grammar which is both (with the conditions of C89), `lapex generate` returns Ok with both algorithms, and the two programs
accept the same texts. -/
theorem C91_lr_ll (hn : rules.ruleSet.WordNames) (hprod : Productive g) (hlr : IsLR g 1) (hsome : ∃ w, w ≠ [] ∧ Den rules.ruleSet (.rule rules.entry.inner) w) (hll : g.LL1)
    (hnames : (cppTokenVariants (tokenNames rules.ruleSet)).Nodup) (hgap : NoGaps g) (hend : ∀ r ∈ g.rules, ¬ Predicts g r .eof) (E : Nat) (hE : g.entry = .nt E) (hT : rules.tokens.length < 65536) :
    ∃ pf pf' bound, parseLapex syn t0 p0.machine pf text = .ok rules ∧ parseLapex syn t0 p0.machine pf' text = .ok rules ∧ ∀ fuel, bound ≤ fuel → ∃ ws ws' src table src', generate (parseLapex syn t0 p0.machine pf) fuel true .lr1 genTable .cpp path (some text) = (ws, .ok) ∧ Written.cppParser src ∈ ws ∧
      generate (parseLapex syn t0 p0.machine pf') fuel true .ll1 genTable .cpp path (some text) = (ws', .ok) ∧ Written.cppLLParser table ∈ ws' ∧ genCppLL (tokenNames rules.ruleSet) g table = .ok src' ∧
      (src.compile.isSome → src'.nonTerminals.Nodup →
        ∀ disk disk' : Disk, disk.Takes (outputFiles split .cpp rules.ruleSet (rules.tokens.map (·.inner)) g debug label ws) →
          disk'.Takes (outputFiles split .cpp rules.ruleSet (rules.tokens.map (·.inner)) g debug label ws') → ∀ dir dir0, ∃ dir' dir1 lexer files lexer' files',
          writeFiles disk (outputFiles split .cpp rules.ruleSet (rules.tokens.map (·.inner)) g debug label ws) dir = (dir', true) ∧
          dir'.Reads "lexer.cpp" lexer ∧ dir'.Reads "tokens.h" files.tokensH ∧ dir'.Reads "tokens.cpp" files.tokensCpp ∧ dir'.Reads "parser.cpp" files.parserCpp ∧
          dir'.Reads "parser_impl.h" files.parserImplH ∧
          writeFiles disk' (outputFiles split .cpp rules.ruleSet (rules.tokens.map (·.inner)) g debug label ws') dir0 = (dir1, true) ∧
          dir1.Reads "lexer.cpp" lexer' ∧ dir1.Reads "tokens.h" files'.tokensH ∧ dir1.Reads "tokens.cpp" files'.tokensCpp ∧ dir1.Reads "parser.cpp" files'.parserCpp ∧
          dir1.Reads "parser_impl.h" files'.parserImplH ∧ SameAsLL lexer files lexer' files' E) := by
  obtain ⟨pf, bound, e, h⟩ := C89_cpp hlex hp0 hts hrules hg hgood hties genTable path split hsplit debug label hdebug hn hprod hlr hsome
  obtain ⟨pf', bound', e', h'⟩ := C89_cpp_ll hlex hp0 hts hrules hg hgood hties genTable path split hsplit debug label hdebug hn hll hnames hgap hend E hE hT
  refine ⟨pf, pf', max bound bound', e, e', fun fuel hf => ?_⟩
  obtain ⟨ws, src, h1, h2, h3⟩ := h fuel (by omega)
  obtain ⟨ws', table, src', k1, k2, k3, k4⟩ := h' fuel (by omega)
  refine ⟨ws, ws', src, table, src', h1, h2, k1, k2, k3, fun hc hnd disk disk' hd hd' dir dir0 => ?_⟩
  obtain ⟨dir', lexer, files, a1, a2, a3, a4, a5, a6, a7⟩ := h3 hc disk hd dir
  obtain ⟨dir1, lexer', files', b1, b2, b3, b4, b5, b6, b7⟩ := k4 hnd disk' hd' dir0
  exact ⟨dir', dir1, lexer, files, lexer', files', a1, a2, a3, a4, a5, a6, b1, b2, b3, b4, b5, b6, sameAsLL a7 b7⟩

end

/-! ## A case: the file `entry s; token A[7] = "a"; prod s = A A | A;`, nothing being left out -/

example : ∃ toks lexer parser cppLexer files variants, rustEnum "TokenType".toList toks = some variants ∧ ∀ src, ∃ inp inp', TextFed lrToken lexer (fun _ => false) src inp ∧
    CppTextFed cppLexer files.tokensH (fun _ => false) (utf8 src) inp' ∧
    ((∃ n visits calls, runRustParser parser inp n = .ok (.ok, visits, calls)) ↔ ∃ n events pos, runCppParser files inp' n = some (.returned events pos)) := by
  obtain ⟨⟨f, t, ht⟩, p, hp⟩ := C63_exists
  obtain ⟨ts, h1, h2⟩ := sampleText_file
  obtain ⟨pf, pf', bound, _, hparse, h⟩ := C91_rust_cpp ht hp h1 h2 sampleGrammar_built sample_good sample_lr1.2 false "x.lapex".toList (fun b => [b]) (by simp) (fun _ => "x".toList) [] (fun r => by decide)
    sample_rustNames sampleGrammar_productive sample_lr1.1 ⟨_, by simp, sampleDen⟩
  obtain ⟨ws, ws', src, _, h3, hm, h4⟩ := h (max 100 bound) (Nat.le_max_right ..)
  have hr : (generate (fun _ => .ok sampleOut) 100 true .lr1 false .cpp "x.lapex".toList (some sampleText)).2 = .ok ∧
      ((generate (fun _ => .ok sampleOut) 100 true .lr1 false .cpp "x.lapex".toList (some sampleText)).1.all fun w => match w with
        | .cppParser src => src.compile.isSome
        | _ => true) = true := by decide +kernel
  have hrun : generate (parseLapex (fun _ => none) t p.machine pf') 100 true .lr1 false .cpp "x.lapex".toList (some sampleText) = (_, .ok) :=
    (generate_of_parse hparse ..).trans (Prod.ext rfl hr.1)
  have hbig := C65_settled _ _ _ _ _ _ _ _ _ _ hrun (by simp) (max 100 bound) (Nat.le_max_left ..)
  have hws : ws' = (generate (fun _ => .ok sampleOut) 100 true .lr1 false .cpp "x.lapex".toList (some sampleText)).1 := by
    rw [hbig] at h3
    exact (congrArg Prod.fst h3).symm
  have hc : src.compile.isSome = true := by
    rw [hws] at hm
    exact List.all_eq_true.mp hr.2 _ hm
  obtain ⟨dir', dir1, toks, lexer, parser, cppLexer, files, _, _, _, _, _, _, _, _, _, _, variants, hv, hs⟩ := h4 hc _ _ (disk_takes _) (disk_takes _) (fun _ => none) (fun _ => none)
  refine ⟨toks, lexer, parser, cppLexer, files, variants, hv, fun src => ?_⟩
  obtain ⟨inp, inp', a1, a2, a3⟩ := hs (fun _ => false) (fun _ => false) rfl ⟨rfl, rfl⟩ (fun _ _ => rfl) src
  refine ⟨inp, inp', (a1 _).mpr rfl, (a2 _).mpr rfl, ?_⟩
  rcases a3 with ⟨b1, b2⟩ | ⟨_, _, b1, b2⟩
  · exact ⟨fun _ => b2, fun _ => b1⟩
  · exact ⟨fun h => (b1 h).elim, fun h => (b2 h).elim⟩

/-- GLR for this file -/
example : ∃ toks lexer parser toks' lexer' parser', SameAsGlr toks lexer parser toks' lexer' parser' (sampleOut.tokens.map (·.inner)) := by
  obtain ⟨⟨f, t, ht⟩, p, hp⟩ := C63_exists
  obtain ⟨ts, h1, h2⟩ := sampleText_file
  obtain ⟨pf, pf', bound, h⟩ := C91_lr_glr ht hp h1 h2 sampleGrammar_built sample_good sample_lr1.2 false "x.lapex".toList (fun b => [b]) (by simp) (fun _ => []) [] sample_rustNames sampleGrammar_productive
    sample_lr1.1 sample_unused (by unfold DistinctRules; decide) (C54_without_empty_rules _ sample_units.1 sample_units.2).1 (C54_without_empty_rules _ sample_units.1 sample_units.2).2
  obtain ⟨ws, ws', _, _, h3⟩ := h bound (Nat.le_refl _)
  obtain ⟨_, _, toks, lexer, parser, toks', lexer', parser', _, _, _, _, _, _, _, _, h4⟩ := h3 _ _ (disk_takes _) (disk_takes _) (fun _ => none) (fun _ => some [7])
  exact ⟨toks, lexer, parser, toks', lexer', parser', h4⟩

theorem tinyDen : Den tinyOut.ruleSet (.rule "s") [0] := .prod (r := ⟨"s", none, .rule "A"⟩) (by simp [tinyOut, wideOut, SpannedRules.ruleSet]) (.token rfl)

theorem tiny_makes : Productive tinyGrammar := productive_of_order [0] (by decide) (by decide)

theorem tiny_lr1 : IsLR tinyGrammar 1 := by
  obtain ⟨⟨f, t, ht⟩, p, hp⟩ := C63_exists
  obtain ⟨pf, h⟩ := (C63_answer ht hp (fun _ => none) tinyText (by decide +kernel) tinyOut).mpr tinyText_file
  have hr := C65_good_rules ht hp tiny_good.small tiny_good.ascii tiny_good.noBackslash h .cpp tiny_good.noEpsilonInSequence tiny_good.width (fun h => by cases h) (fun h => by cases h)
  obtain ⟨bound, hb⟩ := C65_lr1 (genLexer := true) (genTable := true) (path := "x.lapex".toList) h (fun _ => tinyTokens_good) hr tinyGrammar_built tiny_makes
  have hrun : generate (parseLapex (fun _ => none) t p.machine pf) 100 true .lr1 true .cpp "x.lapex".toList (some tinyText) =
      ((generate (fun _ => .ok tinyOut) 100 true .lr1 true .cpp "x.lapex".toList (some tinyText)).1, .ok) := by
    rw [generate_of_parse h]
    exact Prod.ext rfl (by decide +kernel)
  have hbig := C65_settled _ _ _ _ _ _ _ _ _ _ hrun (by simp) (max 100 bound) (Nat.le_max_left ..)
  obtain ⟨ws, ⟨_, h1, _⟩ | ⟨reports, h1, _⟩⟩ := hb (max 100 bound) (Nat.le_max_right ..)
  · exact h1
  · rw [hbig] at h1
    cases h1

/-- LL(1) for the file `entry s; token A = "a"; prod s = A;` -/
example : ∃ lexer files lexer' files', SameAsLL lexer files lexer' files' 0 := by
  obtain ⟨⟨f, t, ht⟩, p, hp⟩ := C63_exists
  obtain ⟨ts, h1, h2⟩ := tinyText_file
  obtain ⟨pf, pf', bound, hparse, hparse', h⟩ := C91_lr_ll ht hp h1 h2 tinyGrammar_built tiny_good tiny_ties false "x.lapex".toList (fun b => [b]) (by simp) (fun _ => "x".toList) [] (fun r => by decide)
    tiny_words tiny_makes tiny_lr1 ⟨_, by simp, tinyDen⟩ tiny_ll1 (by decide +kernel) tiny_gaps tiny_end 0 rfl (by decide)
  obtain ⟨ws, ws', src, table, src', h3, hm, h3', hm', hs, h4⟩ := h (max 100 bound) (Nat.le_max_right ..)
  have hr : (generate (fun _ => .ok tinyOut) 100 true .lr1 false .cpp "x.lapex".toList (some tinyText)).2 = .ok ∧
      ((generate (fun _ => .ok tinyOut) 100 true .lr1 false .cpp "x.lapex".toList (some tinyText)).1.all fun w => match w with
        | .cppParser src => src.compile.isSome
        | _ => true) = true := by decide +kernel
  have hr' : (generate (fun _ => .ok tinyOut) 100 true .ll1 false .cpp "x.lapex".toList (some tinyText)).2 = .ok ∧
      ((generate (fun _ => .ok tinyOut) 100 true .ll1 false .cpp "x.lapex".toList (some tinyText)).1.all fun w => match w with
        | .cppLLParser table => match genCppLL (tokenNames tinyOut.ruleSet) tinyGrammar table with
          | .ok src => decide src.nonTerminals.Nodup
          | .error _ => false
        | _ => true) = true := by decide +kernel
  have hrun : generate (parseLapex (fun _ => none) t p.machine pf) 100 true .lr1 false .cpp "x.lapex".toList (some tinyText) = (_, .ok) :=
    (generate_of_parse hparse ..).trans (Prod.ext rfl hr.1)
  have hbig := C65_settled _ _ _ _ _ _ _ _ _ _ hrun (by simp) (max 100 bound) (Nat.le_max_left ..)
  have hrun' : generate (parseLapex (fun _ => none) t p.machine pf') 100 true .ll1 false .cpp "x.lapex".toList (some tinyText) = (_, .ok) :=
    (generate_of_parse hparse' ..).trans (Prod.ext rfl hr'.1)
  have hbig' := C65_settled _ _ _ _ _ _ _ _ _ _ hrun' (by simp) (max 100 bound) (Nat.le_max_left ..)
  have hws : ws = (generate (fun _ => .ok tinyOut) 100 true .lr1 false .cpp "x.lapex".toList (some tinyText)).1 := by
    rw [hbig] at h3
    exact (congrArg Prod.fst h3).symm
  have hws' : ws' = (generate (fun _ => .ok tinyOut) 100 true .ll1 false .cpp "x.lapex".toList (some tinyText)).1 := by
    rw [hbig'] at h3'
    exact (congrArg Prod.fst h3').symm
  have hc : src.compile.isSome = true := by
    rw [hws] at hm
    exact List.all_eq_true.mp hr.2 _ hm
  have hc' : src'.nonTerminals.Nodup := by
    rw [hws'] at hm'
    have := List.all_eq_true.mp hr'.2 _ hm'
    simp only [hs] at this
    exact of_decide_eq_true this
  obtain ⟨_, _, lexer, files, lexer', files', _, _, _, _, _, _, _, _, _, _, _, _, h5⟩ := h4 hc hc' _ _ (disk_takes _) (disk_takes _) (fun _ => none) (fun _ => some [7])
  exact ⟨lexer, files, lexer', files', h5⟩

end Verif
