import Verif.Props.OnDisk
import Verif.Props.Generate

/-!
# C89: from the text of the grammar file to the program

The whole way in one statement, with conditions on the text of the grammar file and what it stands for only: lapex reads the file with its own lexer and parser (C63), generates code (C65), writes it into the
target directory (C86), and what is in the directory then is a program (C78, C79, C84) that accepts the language the file describes.
-/

set_option autoImplicit false

namespace Verif

/-- What is asked of a grammar file and of the rules it stands for. -/
structure GoodFile (text : List Char) (rules : SpannedRules) : Prop where
  /-- positions in the file fit in 16 bits -/
  small : bytes text < 65535
  /-- positions are right (C45) -/
  ascii : Ascii text
  noBackslash : ¬ ['\\', '\n'] <:+: text
  noEpsilonInSequence : rules.ruleSet.NoEpsilonInSequence
  width : ∀ r ∈ rules.prods, ∀ p, Occurs p r.inner.pattern → p.width ≤ 254
  entry : ¬ NameCorner rules.ruleSet rules.ruleSet.entry rules.ruleSet.entry
  tokens : GoodTokens (rules.tokens.map (·.inner))
  sound : SoundTokens (rules.tokens.map (·.inner))

section
variable {lexFuel : Nat} {t0 : LexerTables} (hlex : generateLexer lexFuel lapexTokens = .ok (.ok t0)) {p0 : LRProg} (hp0 : LRParserFor lapexGrammar .lr1 p0)
variable {syn : List Char → Option Hir} {text : List Char} {ts : List (Nat × List Char)} (hts : TextTokens lapexTokens text ts) {rules : SpannedRules} (hrules : FileMeans syn (fileTokens ts) rules)
variable {g : Grammar} (hg : Grammar.fromRuleSet rules.ruleSet = .ok g) (hgood : GoodFile text rules) (hties : NoTies (rules.tokens.map (·.inner)))
variable (genTable : Bool) (path : List Char) (split : List UInt8 → List (List UInt8)) (hsplit : ∀ b, (split b).flatten = b) (debug : Nat → List Char) (label : List Char)

include hlex hp0 hts hrules hgood in
theorem file_parsed : ∃ pf, parseLapex syn t0 p0.machine pf text = .ok rules ∧ rules.ruleSet.Fine := by
  obtain ⟨pf, h⟩ := (C63_answer hlex hp0 syn text hgood.small rules).mpr ⟨ts, hts, hrules⟩
  obtain ⟨f1, f2, f3, f4⟩ := parsed_fine hlex hp0 hgood.small h
  exact ⟨pf, h, ⟨by simpa [SpannedRules.ruleSet] using f1, by simpa [SpannedRules.ruleSet] using f2, f3, f4, hgood.noEpsilonInSequence, hgood.entry⟩⟩

theorem RustAccepts.given {toks lexer parser : List Char} {rules : List TokenRule} {L : List Nat → Prop} {P Q : Prop} (hpq : Q → P) (h : RustAccepts toks lexer parser rules L P) :
    RustAccepts toks lexer parser rules L Q := by
  obtain ⟨variants, hv, h⟩ := h
  refine ⟨variants, hv, fun skip heof src => ?_⟩
  obtain ⟨inp, h1, h2, h3, h4⟩ := h skip heof src
  exact ⟨inp, h1, h2, h3, fun q => h4 (hpq q)⟩

theorem CppAccepts.given {lexer : List Char} {files : CppFiles} {rules : List TokenRule} {L : List Nat → Prop} {P Q : Prop} (hpq : Q → P) (h : CppAccepts lexer files rules L P) :
    CppAccepts lexer files rules L Q := by
  intro skip hskip src
  obtain ⟨inp, h1, h2, h3, h4⟩ := h skip hskip src
  exact ⟨inp, h1, h2, h3, fun q => h4 (hpq q)⟩

/-- in a grammar each non-terminal of which derives something, each rule of the file matches something -/
theorem eachMatches {rs : RuleSet} {g : Grammar} (hg : Grammar.fromRuleSet rs = .ok g) (hfine : rs.Fine) (hprod : Productive g) : rs.EachMatches := by
  intro q hq
  obtain ⟨A, hA, _⟩ := (C17_names rs g hg hfine.tokens hfine.prods).2 q hq
  obtain ⟨w, hw⟩ := hprod A (List.mem_append_left _ (List.mem_map.mpr ⟨_, hA, rfl⟩))
  exact ⟨w, (C18_language rs g hg hfine.tokens hfine.prods A _ hA w).mp hw⟩

theorem rust_names_ok (hn : rules.ruleSet.RustNames) : (∀ r ∈ rules.tokens, ¬ BadSegment r.inner.name.toList) ∧ ∀ r ∈ rules.prods, ¬ BadSegment r.inner.name.toList :=
  ⟨fun r hr => goodName_not_bad (hn.tokens _ (List.mem_map.mpr ⟨r, hr, rfl⟩)), fun r hr => goodName_not_bad (hn.prods _ (List.mem_map.mpr ⟨r, hr, rfl⟩))⟩

include hlex hp0 hts hrules hg hgood hties hsplit in
/-- **C89**, Rust. For every grammar file that describes an LR(1) grammar, `lapex generate` returns Ok, and on a disk that takes the files leaves in the directory a program that accepts exactly the texts that
the grammar file describes. (`fuel` and `pf` stand for the time that the run takes.) -/
theorem C89_rust (hn : rules.ruleSet.RustNames) (hprod : Productive g) (hlr : IsLR g 1) :
    ∃ pf bound, parseLapex syn t0 p0.machine pf text = .ok rules ∧ ∀ fuel, bound ≤ fuel → ∃ ws, generate (parseLapex syn t0 p0.machine pf) fuel true .lr1 genTable .rust path (some text) = (ws, .ok) ∧
      ∀ disk : Disk, disk.Takes (outputFiles split .rust rules.ruleSet (rules.tokens.map (·.inner)) g debug label ws) → ∀ dir, ∃ dir' toks lexer parser,
        writeFiles disk (outputFiles split .rust rules.ruleSet (rules.tokens.map (·.inner)) g debug label ws) dir = (dir', true) ∧
        dir'.Reads "tokens.rs" toks ∧ dir'.Reads "lexer.rs" lexer ∧ dir'.Reads "parser.rs" parser ∧
        RustAccepts toks lexer parser (rules.tokens.map (·.inner)) (Den rules.ruleSet (.rule rules.entry.inner)) True := by
  obtain ⟨pf, hp, hfine⟩ := file_parsed hlex hp0 hts hrules hgood
  have hr := C65_good_rules hlex hp0 hgood.small hgood.ascii hgood.noBackslash hp .rust hgood.noEpsilonInSequence hgood.width (fun _ => (rust_names_ok hn).1) (fun _ => (rust_names_ok hn).2)
  obtain ⟨bound, hbound⟩ := C65_lr1 (genLexer := true) (genTable := genTable) (path := path) hp (fun _ => hgood.tokens) hr hg hprod
  refine ⟨pf, bound, hp, fun fuel hf => ?_⟩
  obtain ⟨ws, ⟨h, _⟩ | ⟨reports, _, hbad⟩⟩ := hbound fuel hf
  · refine ⟨ws, h, fun disk hd dir => ?_⟩
    obtain ⟨text', rules', g', e1, e2, e3, hrun⟩ := C87_rust _ _ _ _ _ _ split hsplit debug label .lr1 .lr1 rfl rfl h
    cases e1
    rw [hp] at e2
    cases e2
    rw [hg] at e3
    cases e3
    obtain ⟨dir', toks, lexer, parser, k1, k2, k3, k4, _, k5⟩ := hrun hn hfine hgood.sound (.inr rfl) disk hd dir
    exact ⟨dir', toks, lexer, parser, k1, k2, k3, k4, k5.given fun _ => eachMatches hg hfine hprod⟩
  · exact (hbad ⟨hlr, fun _ => hties⟩).elim

include hlex hp0 hts hrules hg hgood hties hsplit in
/-- **C89**, Rust with GLR: the same for every grammar file, also of ambiguous grammars (without cycles and hidden left recursion, C54); the texts accepted are those with exactly one parse tree. -/
theorem C89_rust_glr (hn : rules.ruleSet.RustNames) (hent : rules.ruleSet.EntryUnused) (hdis : DistinctRules g) (hcyc : NoCycle g) (hhid : NoHiddenLeftRecursion g) :
    ∃ pf bound, parseLapex syn t0 p0.machine pf text = .ok rules ∧ ∀ fuel, bound ≤ fuel → ∃ ws, generate (parseLapex syn t0 p0.machine pf) fuel true .glr genTable .rust path (some text) = (ws, .ok) ∧
      ∀ disk : Disk, disk.Takes (outputFiles split .rust rules.ruleSet (rules.tokens.map (·.inner)) g debug label ws) → ∀ dir, ∃ dir' toks lexer parser,
        writeFiles disk (outputFiles split .rust rules.ruleSet (rules.tokens.map (·.inner)) g debug label ws) dir = (dir', true) ∧
        dir'.Reads "tokens.rs" toks ∧ dir'.Reads "lexer.rs" lexer ∧ dir'.Reads "parser.rs" parser ∧
        RustGlrAccepts toks lexer parser (rules.tokens.map (·.inner)) g := by
  obtain ⟨pf, hp, hfine⟩ := file_parsed hlex hp0 hts hrules hgood
  have hr := C65_good_rules hlex hp0 hgood.small hgood.ascii hgood.noBackslash hp .rust hgood.noEpsilonInSequence hgood.width (fun _ => (rust_names_ok hn).1) (fun _ => (rust_names_ok hn).2)
  obtain ⟨bound, hbound⟩ := C65_glr (genLexer := true) (genTable := genTable) (path := path) hp (fun _ => hgood.tokens) hr hg rfl
  refine ⟨pf, bound, hp, fun fuel hf => ?_⟩
  obtain ⟨ws, ⟨h, _⟩ | ⟨reports, _, _, hbad⟩⟩ := hbound fuel hf
  · refine ⟨ws, h, fun disk hd dir => ?_⟩
    obtain ⟨text', rules', g', e1, e2, e3, hrun⟩ := C87_rust_glr _ _ _ _ _ _ split hsplit debug label h
    cases e1
    rw [hp] at e2
    cases e2
    rw [hg] at e3
    cases e3
    obtain ⟨dir', toks, lexer, parser, k1, k2, k3, k4, _, k5⟩ := hrun hn hfine hgood.sound hent hdis hcyc hhid disk hd dir
    exact ⟨dir', toks, lexer, parser, k1, k2, k3, k4, k5⟩
  · exact (hbad hties).elim

variable (hdebug : ∀ r, '\n' ∉ debug r ∧ (debug r).getLast? ≠ some '\\')

include hlex hp0 hts hrules hg hgood hties hsplit hdebug in
/-- **C89**, C++: the same for every grammar file that describes an LR(1) grammar, if the generated source compiles (C61_compiles says when) and some text that is not empty is to be accepted. -/
theorem C89_cpp (hn : rules.ruleSet.WordNames) (hprod : Productive g) (hlr : IsLR g 1) (hsome : ∃ w, w ≠ [] ∧ Den rules.ruleSet (.rule rules.entry.inner) w) :
    ∃ pf bound, parseLapex syn t0 p0.machine pf text = .ok rules ∧ ∀ fuel, bound ≤ fuel → ∃ ws src, generate (parseLapex syn t0 p0.machine pf) fuel true .lr1 genTable .cpp path (some text) = (ws, .ok) ∧ Written.cppParser src ∈ ws ∧
      (src.compile.isSome → ∀ disk : Disk, disk.Takes (outputFiles split .cpp rules.ruleSet (rules.tokens.map (·.inner)) g debug label ws) → ∀ dir, ∃ dir' lexer files,
        writeFiles disk (outputFiles split .cpp rules.ruleSet (rules.tokens.map (·.inner)) g debug label ws) dir = (dir', true) ∧
        dir'.Reads "lexer.cpp" lexer ∧ dir'.Reads "tokens.h" files.tokensH ∧ dir'.Reads "tokens.cpp" files.tokensCpp ∧ dir'.Reads "parser.cpp" files.parserCpp ∧
        dir'.Reads "parser_impl.h" files.parserImplH ∧ CppAccepts lexer files (rules.tokens.map (·.inner)) (Den rules.ruleSet (.rule rules.entry.inner)) True) := by
  obtain ⟨pf, hp, hfine⟩ := file_parsed hlex hp0 hts hrules hgood
  have hr := C65_good_rules hlex hp0 hgood.small hgood.ascii hgood.noBackslash hp .cpp hgood.noEpsilonInSequence hgood.width (fun h => by cases h) (fun h => by cases h)
  obtain ⟨bound, hbound⟩ := C65_lr1 (genLexer := true) (genTable := genTable) (path := path) hp (fun _ => hgood.tokens) hr hg hprod
  refine ⟨pf, bound, hp, fun fuel hf => ?_⟩
  obtain ⟨ws, ⟨h, _⟩ | ⟨reports, _, hbad⟩⟩ := hbound fuel hf
  · obtain ⟨text', rules', g', src, e1, e2, e3, hm, hrun⟩ := C87_cpp _ _ _ _ _ _ split hsplit debug hdebug label .lr1 .lr1 rfl rfl h
    cases e1
    rw [hp] at e2
    cases e2
    rw [hg] at e3
    cases e3
    refine ⟨ws, src, h, hm, fun hc disk hd dir => ?_⟩
    obtain ⟨dir', lexer, files, visitor, k1, k2, k3, k4, k5, k6, _, _, _, k7⟩ := hrun hn hc hfine hgood.sound (.inr rfl) hsome disk hd dir
    exact ⟨dir', lexer, files, k1, k2, k3, k4, k5, k6, k7.given fun _ => eachMatches hg hfine hprod⟩
  · exact (hbad ⟨hlr, fun _ => hties⟩).elim

include hlex hp0 hts hrules hg hgood hties hsplit hdebug in
/-- **C89**, C++ with LL(1): the same for every grammar file that describes an LL(1) grammar in which no rule is predicted at the end of the input and the numbers of the non-terminals have no gaps
(C84_gaps), the enumerators being different. -/
theorem C89_cpp_ll (hn : rules.ruleSet.WordNames) (hll : g.LL1) (hnames : (cppTokenVariants (tokenNames rules.ruleSet)).Nodup) (hgap : NoGaps g) (hend : ∀ r ∈ g.rules, ¬ Predicts g r .eof)
    (E : Nat) (hE : g.entry = .nt E) (hT : rules.tokens.length < 65536) :
    ∃ pf bound, parseLapex syn t0 p0.machine pf text = .ok rules ∧ ∀ fuel, bound ≤ fuel → ∃ ws table src, generate (parseLapex syn t0 p0.machine pf) fuel true .ll1 genTable .cpp path (some text) = (ws, .ok) ∧ Written.cppLLParser table ∈ ws ∧
      genCppLL (tokenNames rules.ruleSet) g table = .ok src ∧
      (src.nonTerminals.Nodup → ∀ disk : Disk, disk.Takes (outputFiles split .cpp rules.ruleSet (rules.tokens.map (·.inner)) g debug label ws) → ∀ dir, ∃ dir' lexer files,
        writeFiles disk (outputFiles split .cpp rules.ruleSet (rules.tokens.map (·.inner)) g debug label ws) dir = (dir', true) ∧
        dir'.Reads "lexer.cpp" lexer ∧ dir'.Reads "tokens.h" files.tokensH ∧ dir'.Reads "tokens.cpp" files.tokensCpp ∧ dir'.Reads "parser.cpp" files.parserCpp ∧
        dir'.Reads "parser_impl.h" files.parserImplH ∧ CppLLAccepts lexer files E (rules.tokens.map (·.inner)) (Den rules.ruleSet (.rule rules.entry.inner))) := by
  obtain ⟨pf, hp, hfine⟩ := file_parsed hlex hp0 hts hrules hgood
  have hr := C65_good_rules hlex hp0 hgood.small hgood.ascii hgood.noBackslash hp .cpp hgood.noEpsilonInSequence hgood.width (fun h => by cases h) (fun h => by cases h)
  obtain ⟨bound, hbound⟩ := C65_ll1 (genLexer := true) (genTable := genTable) (path := path) hp (fun _ => hgood.tokens) hr hg rfl hT
  refine ⟨pf, bound, hp, fun fuel hf => ?_⟩
  obtain ⟨ws, ⟨h, _⟩ | ⟨reports, _, _, hbad⟩ | ⟨_, hbad⟩⟩ := hbound fuel hf
  · obtain ⟨text', rules', g', table, e1, e2, e3, hm, hrun⟩ := C87_cpp_ll _ _ _ _ _ _ split hsplit debug hdebug label h
    cases e1
    rw [hp] at e2
    cases e2
    rw [hg] at e3
    cases e3
    obtain ⟨src, hs, hrun⟩ := hrun hn hfine.noEmptySequence (by simpa [SpannedRules.ruleSet] using hT) hfine.prods hgood.sound hnames hgap hend E hE
    refine ⟨ws, table, src, h, hm, hs, fun hnd disk hd dir => ?_⟩
    obtain ⟨dir', lexer, files, visitor, k1, k2, k3, k4, k5, k6, _, _, _, k7⟩ := hrun hnd disk hd dir
    exact ⟨dir', lexer, files, k1, k2, k3, k4, k5, k6, k7⟩
  · exact (hbad hties).elim
  · exact (hbad hll).elim

end

/-! ## Non-vacuity: the file `entry s; token A[7] = "a"; prod s = A A | A;` -/

theorem sampleTokens_good : GoodTokens (sampleOut.tokens.map (·.inner)) := by
  refine ⟨?_, ?_, ?_, ?_⟩
  · intro r hr
    simp [sampleOut] at hr
    subst hr
    exact ⟨_, rfl⟩
  · rintro ⟨r, hr, h⟩
    simp [sampleOut] at hr
    subst hr
    exact h
  · intro r hr
    simp [sampleOut] at hr
    subst hr
    simp [TokenRule.NoEmptySeq]
  · intro lo hi h
    have : (generateAlphabet (sampleOut.tokens.map (·.inner))).ranges = [(0, 0), (1, 96), (97, 97), (98, 1114110), (1114111, 1114111)] := by decide +kernel
    rw [this] at h
    simp at h
    rcases h with h | h | h | h | h <;> obtain ⟨rfl, rfl⟩ := h
    · exact ⟨Char.ofNat 0, by decide, by decide⟩
    · exact ⟨'A', by decide, by decide⟩
    · exact ⟨'a', by decide, by decide⟩
    · exact ⟨'b', by decide, by decide⟩
    · exact ⟨Char.ofNat 1114111, by decide, by decide⟩

theorem sample_prods {p : ProdRule} (hp : p ∈ sampleOut.ruleSet.prods) : p = ⟨"s", none, .alternative [.rule "A", .sequence [.rule "A", .rule "A"]]⟩ := by
  simpa [sampleOut, SpannedRules.ruleSet] using hp

theorem sample_good : GoodFile sampleText sampleOut := by
  have hocc : ∀ q, Occurs q (.alternative [.rule "A", .sequence [.rule "A", .rule "A"]]) → q = .rule "A" ∨ q = .sequence [.rule "A", .rule "A"] ∨
      q = .alternative [.rule "A", .sequence [.rule "A", .rule "A"]] := by
    intro q hq
    cases hq with
    | here => exact .inr (.inr rfl)
    | alternative hm ho =>
      simp at hm
      rcases hm with rfl | rfl
      · cases ho; exact .inl rfl
      · cases ho with
        | here => exact .inr (.inl rfl)
        | sequence hm ho =>
          simp at hm
          subst hm
          cases ho
          exact .inl rfl
  refine ⟨by decide +kernel, by unfold Ascii; decide +kernel, by decide +kernel, ?_, ?_, ?_, sampleTokens_good, ?_⟩
  · intro r hr ps ho
    rw [sample_prods hr] at ho
    rcases hocc _ ho with h | h | h <;> cases h
    simp
  · intro r hr q ho
    simp [sampleOut] at hr
    subst hr
    rcases hocc _ ho with rfl | rfl | rfl <;> decide
  · have one : ∀ p ∈ sampleOut.ruleSet.prods, ∀ b, BeginsWith p.pattern b → b = "A" := by
      intro p hp b hb
      rw [sample_prods hp] at hb
      cases hb with
      | alternative hm hb =>
        simp at hm
        rcases hm with rfl | rfl
        · cases hb; rfl
        · cases hb with
          | sequence hb => cases hb; rfl
    have key : ∀ a b, NameCorner sampleOut.ruleSet a b → b = "A" := by
      intro a b h
      cases h with
      | one hp hb => exact one _ hp _ hb
      | more _ hp hb => exact one _ hp _ hb
    exact fun h => absurd (key _ _ h) (by decide)
  · intro r hr
    simp [sampleOut] at hr
    subst hr
    exact ⟨⟨by simp [TokenRule.NoEmptySeq], trivial⟩, fun h => by cases h⟩

theorem sample_rustNames : sampleOut.ruleSet.RustNames where
  words := ⟨fun n hn => by
    simp [sampleOut, SpannedRules.ruleSet] at hn
    subst hn
    unfold IsWord; decide, fun x hx => by rw [sample_prods hx]; unfold IsWord; decide⟩
  tags := fun x hx t ht => by rw [sample_prods hx] at ht; cases ht
  tokens := fun n hn => by
    simp [sampleOut, SpannedRules.ruleSet] at hn
    subst hn
    exact goodName_of (by decide)
  tokensDiffer := by
    simp [sampleOut, SpannedRules.ruleSet]
  prods := fun x hx => by rw [sample_prods hx]; exact goodName_of (by decide)
  prodsDiffer := fun x hx y hy _ => by rw [sample_prods hx, sample_prods hy]
  notAnon := fun x hx n h => by
    rw [sample_prods hx] at h
    have := congrArg List.head? h
    exact absurd (show some 's' = some 'a' from this) (by decide)

theorem sampleGrammar_built : Grammar.fromRuleSet sampleOut.ruleSet = .ok sampleGrammar := GRes.of_same (by decide)
theorem sampleGrammar_productive : Productive sampleGrammar := productive_of_order [1, 0] (by decide) (by decide)

/-- the grammar is LR(1) and the lexer has no ties: by C65, since the run does not end with an error -/
theorem sample_lr1 : IsLR sampleGrammar 1 ∧ NoTies (sampleOut.tokens.map (·.inner)) := by
  obtain ⟨⟨f, t, ht⟩, p, hp⟩ := C63_exists
  obtain ⟨pf, h⟩ := (C63_answer ht hp (fun _ => none) sampleText (by decide +kernel) sampleOut).mpr sampleText_file
  have hr := C65_good_rules ht hp sample_good.small sample_good.ascii sample_good.noBackslash h .rust sample_good.noEpsilonInSequence sample_good.width
    (fun _ => (rust_names_ok sample_rustNames).1) (fun _ => (rust_names_ok sample_rustNames).2)
  obtain ⟨bound, hb⟩ := C65_lr1 (genLexer := true) (genTable := true) (path := "x.lapex".toList) h (fun _ => sampleTokens_good) hr sampleGrammar_built sampleGrammar_productive
  have hrun : generate (parseLapex (fun _ => none) t p.machine pf) 100 true .lr1 true .rust "x.lapex".toList (some sampleText) =
      ((generate (fun _ => .ok sampleOut) 100 true .lr1 true .rust "x.lapex".toList (some sampleText)).1, .ok) := by
    rw [generate_of_parse h]
    exact Prod.ext rfl (by decide +kernel)
  have hbig := C65_settled _ _ _ _ _ _ _ _ _ _ hrun (by simp) (max 100 bound) (Nat.le_max_left ..)
  obtain ⟨ws, ⟨_, h1, h2⟩ | ⟨reports, h1, _⟩⟩ := hb (max 100 bound) (Nat.le_max_right ..)
  · exact ⟨h1, h2 rfl⟩
  · rw [hbig] at h1
    cases h1

/-- from the text of this file to the program: it is written over whatever was in the directory -/
example : ∃ lexFuel t0 p0 pf fuel ws disk files, generateLexer lexFuel lapexTokens = .ok (.ok t0) ∧ LRParserFor lapexGrammar .lr1 p0 ∧
    generate (parseLapex (fun _ => none) t0 p0.machine pf) fuel true .lr1 false .rust "x.lapex".toList (some sampleText) = (ws, .ok) ∧
    ∀ dir, ∃ dir' toks lexer parser, writeFiles disk files dir = (dir', true) ∧ dir'.Reads "tokens.rs" toks ∧ dir'.Reads "lexer.rs" lexer ∧ dir'.Reads "parser.rs" parser ∧
      RustAccepts toks lexer parser (sampleOut.tokens.map (·.inner)) (Den sampleOut.ruleSet (.rule "s")) True := by
  obtain ⟨⟨f, t, ht⟩, p, hp⟩ := C63_exists
  obtain ⟨ts, h1, h2⟩ := sampleText_file
  obtain ⟨pf, bound, _, h⟩ := C89_rust ht hp h1 h2 sampleGrammar_built sample_good sample_lr1.2 false "x.lapex".toList (fun b => [b]) (by simp) (fun _ => []) [] sample_rustNames sampleGrammar_productive sample_lr1.1
  obtain ⟨ws, h3, h4⟩ := h bound (Nat.le_refl _)
  exact ⟨f, t, p, pf, bound, ws, _, _, ht, hp, h3, h4 _ (disk_takes _)⟩

theorem sample_units : EpsFree sampleGrammar ∧ NoUnitCycle sampleGrammar := by
  refine ⟨by unfold EpsFree; decide, fun A h => ?_⟩
  have hno : ∀ A B, UnitRule sampleGrammar A B → A = 0 ∧ B = 1 := by
    rintro A B ⟨r, hr, hl, h⟩
    simp [sampleGrammar] at hr
    rcases hr with rfl | rfl | rfl <;> simp [strip] at h hl
    exact ⟨hl.symm, h.symm⟩
  have all : ∀ A B, UnitChain sampleGrammar A B → A = 0 ∧ B = 1 := by
    intro A B h
    induction h with
    | one h => exact hno _ _ h
    | more h _ ih =>
      have := (hno _ _ h).2
      omega
  have := all A A h
  omega

theorem sample_unused : sampleOut.ruleSet.EntryUnused := by
  have key : ∀ n, Mentions (.rule n) "s" → n = "s" := by
    intro n h
    generalize hs : "s" = m at h
    cases h
    rfl
  intro p hp h
  rw [sample_prods hp] at h
  change Mentions (.alternative [.rule "A", .sequence [.rule "A", .rule "A"]]) "s" at h
  cases h with
  | alternative hm h =>
    simp at hm
    rcases hm with rfl | rfl
    · exact absurd (key _ h) (by decide)
    · cases h with
      | sequence hm h =>
        simp at hm
        subst hm
        exact absurd (key _ h) (by decide)

/-- the same with GLR -/
example : ∃ lexFuel t0 p0 pf fuel ws disk files, generateLexer lexFuel lapexTokens = .ok (.ok t0) ∧ LRParserFor lapexGrammar .lr1 p0 ∧
    generate (parseLapex (fun _ => none) t0 p0.machine pf) fuel true .glr false .rust "x.lapex".toList (some sampleText) = (ws, .ok) ∧
    ∀ dir, ∃ dir' toks lexer parser, writeFiles disk files dir = (dir', true) ∧ dir'.Reads "tokens.rs" toks ∧ dir'.Reads "lexer.rs" lexer ∧ dir'.Reads "parser.rs" parser ∧
      RustGlrAccepts toks lexer parser (sampleOut.tokens.map (·.inner)) sampleGrammar := by
  obtain ⟨⟨f, t, ht⟩, p, hp⟩ := C63_exists
  obtain ⟨ts, h1, h2⟩ := sampleText_file
  obtain ⟨pf, bound, _, h⟩ := C89_rust_glr ht hp h1 h2 sampleGrammar_built sample_good sample_lr1.2 false "x.lapex".toList (fun b => [b]) (by simp) (fun _ => []) [] sample_rustNames sample_unused
    (by unfold DistinctRules; decide) (C54_without_empty_rules _ sample_units.1 sample_units.2).1 (C54_without_empty_rules _ sample_units.1 sample_units.2).2
  obtain ⟨ws, h3, h4⟩ := h bound (Nat.le_refl _)
  exact ⟨f, t, p, pf, bound, ws, _, _, ht, hp, h3, h4 _ (disk_takes _)⟩

theorem sampleDen : Den sampleOut.ruleSet (.rule "s") [0] :=
  .prod (r := ⟨"s", none, .alternative [.rule "A", .sequence [.rule "A", .rule "A"]]⟩) (by simp [sampleOut, SpannedRules.ruleSet]) (.alt (p := .rule "A") (by simp) (.token rfl))

/-- the same in C++ -/
example : ∃ lexFuel t0 p0 pf fuel ws disk files, generateLexer lexFuel lapexTokens = .ok (.ok t0) ∧ LRParserFor lapexGrammar .lr1 p0 ∧
    generate (parseLapex (fun _ => none) t0 p0.machine pf) fuel true .lr1 false .cpp "x.lapex".toList (some sampleText) = (ws, .ok) ∧
    ∀ dir, ∃ dir' lexer fs, writeFiles disk files dir = (dir', true) ∧ dir'.Reads "lexer.cpp" lexer ∧ dir'.Reads "parser.cpp" fs.parserCpp ∧
      CppAccepts lexer fs (sampleOut.tokens.map (·.inner)) (Den sampleOut.ruleSet (.rule "s")) True := by
  obtain ⟨⟨f, t, ht⟩, p, hp⟩ := C63_exists
  obtain ⟨ts, h1, h2⟩ := sampleText_file
  obtain ⟨pf, bound, hparse, h⟩ := C89_cpp ht hp h1 h2 sampleGrammar_built sample_good sample_lr1.2 false "x.lapex".toList (fun b => [b]) (by simp) (fun _ => "x".toList) [] (fun r => by decide)
    sample_rustNames.words sampleGrammar_productive sample_lr1.1 ⟨_, by simp, sampleDen⟩
  obtain ⟨ws, src, h3, hm, h4⟩ := h (max 100 bound) (Nat.le_max_right ..)
  have hr : (generate (fun _ => .ok sampleOut) 100 true .lr1 false .cpp "x.lapex".toList (some sampleText)).2 = .ok ∧
      ((generate (fun _ => .ok sampleOut) 100 true .lr1 false .cpp "x.lapex".toList (some sampleText)).1.all fun w => match w with
        | .cppParser src => src.compile.isSome
        | _ => true) = true := by decide +kernel
  have hrun : generate (parseLapex (fun _ => none) t p.machine pf) 100 true .lr1 false .cpp "x.lapex".toList (some sampleText) = (_, .ok) :=
    (generate_of_parse hparse ..).trans (Prod.ext rfl hr.1)
  have hbig := C65_settled _ _ _ _ _ _ _ _ _ _ hrun (by simp) (max 100 bound) (Nat.le_max_left ..)
  have hws : ws = (generate (fun _ => .ok sampleOut) 100 true .lr1 false .cpp "x.lapex".toList (some sampleText)).1 := by
    rw [hbig] at h3
    exact (congrArg Prod.fst h3).symm
  have hc : src.compile.isSome = true := by
    rw [hws] at hm
    exact List.all_eq_true.mp hr.2 _ hm
  exact ⟨f, t, p, pf, _, ws, _, _, ht, hp, h3, fun dir =>
    let ⟨dir', lexer, fs, k1, k2, _, _, k5, _, k7⟩ := h4 hc _ (disk_takes _) dir
    ⟨dir', lexer, fs, k1, k2, k5, k7⟩⟩

/-! ### LL(1): the file `entry s; token A = "a"; prod s = A;` -/

def tinyText : List Char := "entry s; token A = \"a\"; prod s = A;".toList
def tinyOut : SpannedRules := wideOut ['a'] 3

theorem tinyText_file : ∃ ts, TextTokens lapexTokens tinyText ts ∧ FileMeans (fun _ => none) (fileTokens ts) tinyOut :=
  ⟨wideTokens "\"a\"".toList, checkTokens_spec (by decide +kernel), by
    rw [show fileTokens (wideTokens "\"a\"".toList) = wideFile ('"' :: ['a'] ++ ['"']) 3 by decide +kernel]
    exact wideFile_means _ _ _⟩

theorem tinyTokens_good : GoodTokens (tinyOut.tokens.map (·.inner)) := by
  have h := sampleTokens_good
  refine ⟨?_, ?_, ?_, ?_⟩
  · intro r hr
    simp [tinyOut, wideOut] at hr
    subst hr
    exact ⟨_, rfl⟩
  · rintro ⟨r, hr, h⟩
    simp [tinyOut, wideOut] at hr
    subst hr
    exact h
  · intro r hr
    simp [tinyOut, wideOut] at hr
    subst hr
    simp [TokenRule.NoEmptySeq]
  · exact h.4

theorem tiny_prods {p : ProdRule} (hp : p ∈ tinyOut.ruleSet.prods) : p = ⟨"s", none, .rule "A"⟩ := by
  simpa [tinyOut, wideOut, SpannedRules.ruleSet] using hp

theorem tiny_good : GoodFile tinyText tinyOut := by
  have hocc : ∀ q, Occurs q (.rule "A") → q = .rule "A" := by
    intro q hq
    cases hq
    rfl
  refine ⟨by decide +kernel, by unfold Ascii; decide +kernel, by decide +kernel, ?_, ?_, ?_, tinyTokens_good, ?_⟩
  · intro r hr ps ho
    rw [tiny_prods hr] at ho
    cases hocc _ ho
  · intro r hr q ho
    simp [tinyOut, wideOut] at hr
    subst hr
    rw [hocc _ ho]
    decide
  · have one : ∀ p ∈ tinyOut.ruleSet.prods, ∀ b, BeginsWith p.pattern b → b = "A" := by
      intro p hp b hb
      rw [tiny_prods hp] at hb
      cases hb
      rfl
    have key : ∀ a b, NameCorner tinyOut.ruleSet a b → b = "A" := by
      intro a b h
      cases h with
      | one hp hb => exact one _ hp _ hb
      | more _ hp hb => exact one _ hp _ hb
    exact fun h => absurd (key _ _ h) (by decide)
  · intro r hr
    simp [tinyOut, wideOut] at hr
    subst hr
    exact ⟨⟨by simp [TokenRule.NoEmptySeq], trivial⟩, fun h => by cases h⟩

def tinyGrammar : Grammar where
  rules := [⟨0, [.t 0], 0⟩]
  anon := []
  productions := [(.nt 0, "s")]
  tokens := [(.t 0, "A")]
  entry := .nt 0
  entryOrigin := 0

theorem tinyGrammar_built : Grammar.fromRuleSet tinyOut.ruleSet = .ok tinyGrammar := GRes.of_same (by decide)

theorem tiny_words : tinyOut.ruleSet.WordNames :=
  ⟨fun n hn => by
    simp [tinyOut, wideOut, SpannedRules.ruleSet] at hn
    subst hn
    unfold IsWord; decide, fun x hx => by rw [tiny_prods hx]; unfold IsWord; decide⟩

theorem tiny_rewrites {β : List Sym} (h : Rewrites tinyGrammar.rules [.t 0] β) : β = [.t 0] := by
  induction h with
  | refl => rfl
  | @step α β r _ _ ih =>
    match α, ih with
    | [], ih => cases ih
    | _ :: α, ih => simp at ih

theorem tiny_rule {r : Rule} (hr : r ∈ tinyGrammar.rules) : r = ⟨0, [.t 0], 0⟩ := by simpa [tinyGrammar] using hr

theorem tiny_follow : ∀ r ∈ tinyGrammar.rules, ∀ x, ¬ PredictsFollow tinyGrammar r x := by
  rintro r hr x ⟨h, _⟩
  rw [tiny_rule hr] at h
  cases tiny_rewrites h

theorem tiny_end : ∀ r ∈ tinyGrammar.rules, ¬ Predicts tinyGrammar r .eof := by
  rintro r hr (⟨β, h⟩ | h)
  · rw [tiny_rule hr] at h
    cases tiny_rewrites h
  · exact tiny_follow r hr _ h

theorem tiny_ll1 : tinyGrammar.LL1 := ⟨by simp [tinyGrammar], fun r hr x _ h => tiny_follow r hr x h.2⟩

theorem tiny_gaps : NoGaps tinyGrammar := by
  intro A hA
  simp [tinyGrammar, Grammar.nonTerminals] at hA
  subst hA
  decide

theorem tiny_ties : NoTies (tinyOut.tokens.map (·.inner)) := by
  obtain ⟨⟨f, t, ht⟩, p, hp⟩ := C63_exists
  obtain ⟨pf, h⟩ := (C63_answer ht hp (fun _ => none) tinyText (by decide +kernel) tinyOut).mpr tinyText_file
  have hr := C65_good_rules ht hp tiny_good.small tiny_good.ascii tiny_good.noBackslash h .cpp tiny_good.noEpsilonInSequence tiny_good.width (fun h => by cases h) (fun h => by cases h)
  obtain ⟨bound, hb⟩ := C65_ll1 (genLexer := true) (genTable := true) (path := "x.lapex".toList) h (fun _ => tinyTokens_good) hr tinyGrammar_built rfl (by decide)
  have hrun : generate (parseLapex (fun _ => none) t p.machine pf) 100 true .ll1 true .cpp "x.lapex".toList (some tinyText) =
      ((generate (fun _ => .ok tinyOut) 100 true .ll1 true .cpp "x.lapex".toList (some tinyText)).1, .ok) := by
    rw [generate_of_parse h]
    exact Prod.ext rfl (by decide +kernel)
  have hbig := C65_settled _ _ _ _ _ _ _ _ _ _ hrun (by simp) (max 100 bound) (Nat.le_max_left ..)
  obtain ⟨ws, ⟨_, _, h2⟩ | ⟨reports, h1, _⟩ | ⟨h1, _⟩⟩ := hb (max 100 bound) (Nat.le_max_right ..)
  · exact h2 rfl
  · rw [hbig] at h1
    cases h1
  · rw [hbig] at h1
    cases h1

/-- the same with an LL parser in C++ -/
example : ∃ lexFuel t0 p0 pf fuel ws disk files, generateLexer lexFuel lapexTokens = .ok (.ok t0) ∧ LRParserFor lapexGrammar .lr1 p0 ∧
    generate (parseLapex (fun _ => none) t0 p0.machine pf) fuel true .ll1 false .cpp "x.lapex".toList (some tinyText) = (ws, .ok) ∧
    ∀ dir, ∃ dir' lexer fs, writeFiles disk files dir = (dir', true) ∧ dir'.Reads "lexer.cpp" lexer ∧ dir'.Reads "parser.cpp" fs.parserCpp ∧
      CppLLAccepts lexer fs 0 (tinyOut.tokens.map (·.inner)) (Den tinyOut.ruleSet (.rule "s")) := by
  obtain ⟨⟨f, t, ht⟩, p, hp⟩ := C63_exists
  obtain ⟨ts, h1, h2⟩ := tinyText_file
  obtain ⟨pf, bound, hparse, h⟩ := C89_cpp_ll ht hp h1 h2 tinyGrammar_built tiny_good tiny_ties false "x.lapex".toList (fun b => [b]) (by simp) (fun _ => "x".toList) [] (fun r => by decide)
    tiny_words tiny_ll1 (by decide +kernel) tiny_gaps tiny_end 0 rfl (by decide)
  obtain ⟨ws, table, src, h3, hm, hs, h4⟩ := h (max 100 bound) (Nat.le_max_right ..)
  have hr : (generate (fun _ => .ok tinyOut) 100 true .ll1 false .cpp "x.lapex".toList (some tinyText)).2 = .ok ∧
      ((generate (fun _ => .ok tinyOut) 100 true .ll1 false .cpp "x.lapex".toList (some tinyText)).1.all fun w => match w with
        | .cppLLParser table => match genCppLL (tokenNames tinyOut.ruleSet) tinyGrammar table with
          | .ok src => decide src.nonTerminals.Nodup
          | .error _ => false
        | _ => true) = true := by decide +kernel
  have hrun : generate (parseLapex (fun _ => none) t p.machine pf) 100 true .ll1 false .cpp "x.lapex".toList (some tinyText) = (_, .ok) :=
    (generate_of_parse hparse ..).trans (Prod.ext rfl hr.1)
  have hbig := C65_settled _ _ _ _ _ _ _ _ _ _ hrun (by simp) (max 100 bound) (Nat.le_max_left ..)
  have hws : ws = (generate (fun _ => .ok tinyOut) 100 true .ll1 false .cpp "x.lapex".toList (some tinyText)).1 := by
    rw [hbig] at h3
    exact (congrArg Prod.fst h3).symm
  have hc : src.nonTerminals.Nodup := by
    rw [hws] at hm
    have := List.all_eq_true.mp hr.2 _ hm
    simp only [hs] at this
    exact of_decide_eq_true this
  exact ⟨f, t, p, pf, _, ws, _, _, ht, hp, h3, fun dir =>
    let ⟨dir', lexer, fs, k1, k2, _, _, k5, _, k7⟩ := h4 hc _ (disk_takes _) dir
    ⟨dir', lexer, fs, k1, k2, k5, k7⟩⟩

end Verif
