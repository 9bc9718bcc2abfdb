import Verif.Proofs.CppProgram
import Verif.Proofs.Gaps
import Verif.Props.CppLLText
import Verif.Props.CppProgram
import Verif.Props.LLTree

/-!
# C84: a program made of the generated C++ lexer and LL parser

As C79, with the LL parser: `tokens.h`, `tokens.cpp`, `lexer.cpp`, `parser.cpp` and `parser_impl.h` are read as C++ and run together on the UTF-8 bytes of a text. The value of the entry symbol, for
which the template has no marker (C43), is the right one, `E`.
-/

set_option autoImplicit false

namespace Verif

/-- the files lapex writes for C++ from the rules in a grammar file, with an LL parser. `debug` is the text of the comments in `lexer.cpp`, `label` what stands for the entry symbol. -/
structure CppLLProgramFiles (entry : String) (rules : List TokenRule) (prods : List ProdRule) (g : Grammar) (table : LLTable) (lexer : List Char) (files : CppFiles) : Prop where
  lexer_ : ∃ fuel t debug, generateLexer fuel rules = .ok (.ok t) ∧ (∀ r : Nat, '\n' ∉ debug r ∧ (debug r).getLast? ≠ some '\\') ∧ lexer = (cppLexerFile rules debug t).1
  generated : LLGenerated (ruleSet entry rules prods) g table
  parser : ∃ src label, genCppLL (tokenNames (ruleSet entry rules prods)) g table = .ok src ∧ (cppTokenVariants (tokenNames (ruleSet entry rules prods))).Nodup ∧ src.nonTerminals.Nodup ∧
    files = cppLLFiles (tokenNames (ruleSet entry rules prods)) src label

/-- The ordinals of the non-terminals in the generated `enum` are their numbers in the generated `switch` iff there are no operators in the rules or at least as many productions as tokens (if
no name has two productions). -/
theorem C84_gaps (rs : RuleSet) (g : Grammar) (hg : Grammar.fromRuleSet rs = .ok g) (ht : rs.tokens.length ≤ 65536) (hp : rs.prods.length ≤ 65536) (hnd : (rs.prods.map (·.name)).Nodup) :
    NoGaps g ↔ rs.operators = 0 ∨ rs.tokens.length ≤ rs.prods.length := by
  obtain ⟨base, pats, h⟩ := grammarOk hg
  exact noGaps_iff h hp ht hnd

section
variable {entry : String} {rules : List TokenRule} {prods : List ProdRule} {g : Grammar} {table : LLTable} {lexer : List Char} {files : CppFiles}
variable (hf : CppLLProgramFiles entry rules prods g table lexer files) (hne : ∀ r ∈ rules, r.NoEmptySeq ∧ r.Useful)
variable (skip : List Char → Bool) (hskip : skip "TK_EOF".toList = false ∧ skip "TK_ERR".toList = false) (src : List Char)

include hf in
theorem ll_lexer_reads : ∃ lexFuel t body, generateLexer lexFuel rules = .ok (.ok t) ∧ readFunction (phrase "TokenType Lexer::next() {") lexer = some body ∧
    ∀ n l, runNext body n l = (CppLexer.next t n l).map (fun x => (cppTokenName (ruleName rules) x.1, x.2)) := by
  obtain ⟨fuel, t, debug, h1, h2, h0⟩ := hf.lexer_
  obtain ⟨_, body, h3, h4⟩ := C72_lexer_text fuel rules t h1 debug (fun r hr => hf.generated.words.1 r.name (List.mem_map.mpr ⟨r, hr, rfl⟩)) h2
  rw [← h0] at h3
  exact ⟨fuel, t, body, h1, h3, h4⟩

theorem cppLLFiles_tokensH (names : List (List Char)) (src : CppLLSource) (label : List Char) : (cppLLFiles names src label).tokensH = (cppTokensHeaderFile names).1 := by
  simp only [cppLLFiles]

include hf in
theorem ll_tokens_read : (cppTokenVariants (rules.map (·.name.toList))).Nodup ∧
    readEnum (phrase "enum class TokenType : uint32_t {") files.tokensH = some (cppTokenVariants (rules.map (·.name.toList))).zipIdx := by
  obtain ⟨src, label, _, h1, _, h0⟩ := hf.parser
  have hw := hf.generated.tokenWords
  have e := tokens_enum _ hw h1
  rw [ruleSet_tokenNames] at h1
  refine ⟨h1, ?_⟩
  rw [h0, cppLLFiles_tokensH, e, ruleSet_tokenNames]

variable {inp : Nat → Nat × (Nat × Nat)} (hin : CppTextFed lexer files.tokensH skip (utf8 src) inp)

include hf hne hskip hin in
/-- the token function around the text, in terms of the modelled Rust lexer -/
theorem ll_fed : ∃ lexFuel t input, generateLexer lexFuel rules = .ok (.ok t) ∧ FedBy t (cppSkipped rules skip) (Lexer.new src) input ∧
    ∀ k, (inp k).1 = tokenCode (input k).1 ∧ ∀ a, (input k).1 = .tok a → (input k).2 = between src (inp k).2 := by
  obtain ⟨lexFuel, t, body, h1, h2, h3⟩ := ll_lexer_reads hf
  obtain ⟨h4, h5⟩ := ll_tokens_read hf
  obtain ⟨body', tokens, k1, k2, st, k3⟩ := hin
  rw [h2] at k1
  cases k1
  rw [h5] at k2
  cases k2
  obtain ⟨input, h6, h7⟩ := cppTextFed_fed h1 h3 hskip (fun r hr => (hne r hr).1) rfl h4 (inp := inp) (cst := st) k3
  exact ⟨lexFuel, t, input, h1, h6, h7⟩

include hf hne hskip hin in
/-- everything put together -/
theorem ll_program (E : Nat) : ∃ (lexFuel : Nat) (t : LexerTables) (input : Nat → Tok × List Char) (inp' : Nat → Tok × (Nat × Nat)), generateLexer lexFuel rules = .ok (.ok t) ∧
    FedBy t (cppSkipped rules skip) (Lexer.new src) input ∧ (∀ k, (inp' k).1 = (input k).1 ∧ (inp' k).2 = (inp k).2 ∧ ∀ a, (input k).1 = .tok a → (input k).2 = between src (inp k).2) ∧
    ∀ n, ∃ r, runCppLL files E inp n = some r ∧ LLSame (tokenNames (ruleSet entry rules prods)) g table inp' (llParse (cppDispatch g table) (cppVisible g) E inp' n) r := by
  obtain ⟨lexFuel, t, input, h1, h2, h3⟩ := ll_fed hf hne skip hskip src hin
  have hbelow := fedBy_below h1 (fun r hr => (hne r hr).1) (inv_new src) h2
  have e : inp = codeInput (fun k => ((input k).1, (inp k).2)) := by
    funext k
    exact Prod.ext (h3 k).1 rfl
  refine ⟨lexFuel, t, input, fun k => ((input k).1, (inp k).2), h1, h2, fun k => ⟨rfl, rfl, (h3 k).2⟩, ?_⟩
  intro n
  obtain ⟨csrc, label, k1, k2, k3, k0⟩ := hf.parser
  obtain ⟨r, k4, k5⟩ := C82_parser_text _ g table hf.generated csrc k1 k2 k3 label E (fun k => ((input k).1, (inp k).2)) (fun i a ha => by
    simpa [ruleSet] using hbelow i a ha) n
  rw [← e, ← k0] at k4
  exact ⟨r, k4, k5⟩

/-- the data do not matter -/
theorem llRun_accepts {T U : Type} {disp : Dispatch} {visible : Nat → Bool} {a : Nat → Tok × T} {b : Nat → Tok × U} (hab : ∀ i, (a i).1 = (b i).1) : ∀ fuel s pos ev ev',
    (∃ es p, llRun disp visible a fuel s pos ev = .ok es p) → ∃ es p, llRun disp visible b fuel s pos ev' = .ok es p := by
  intro fuel
  induction fuel with
  | zero => rintro s pos ev ev' ⟨es, p, h⟩; cases h
  | succ fuel ih =>
    rintro s pos ev ev' ⟨es, p, h⟩
    cases s with
    | nil => exact ⟨_, _, rfl⟩
    | cons x s =>
      rw [llRun] at h ⊢
      cases x with
      | exit A =>
        simp only [llStep] at h ⊢
        exact ih _ _ _ _ ⟨_, _, h⟩
      | terminal tk =>
        simp only [llStep, hab] at h ⊢
        by_cases ht : tk = (b pos).1
        · rw [if_pos ht] at h ⊢
          exact ih _ _ _ _ ⟨_, _, h⟩
        · rw [if_neg ht] at h
          cases h
      | nonTerminal A =>
        simp only [llStep, hab] at h ⊢
        cases hd : disp A (b pos).1 with
        | none => rw [hd] at h; cases h
        | some syms =>
          rw [hd] at h
          exact ih _ _ _ _ ⟨_, _, h⟩

variable (hgap : NoGaps g) {E : Nat} (hE : g.entry = .nt E)

include hf hne hskip hin in
theorem ll_program_accepts (E : Nat) : ∃ (lexFuel : Nat) (t : LexerTables) (input : Nat → Tok × List Char), generateLexer lexFuel rules = .ok (.ok t) ∧ FedBy t (cppSkipped rules skip) (Lexer.new src) input ∧
    ((∃ n events pos, runCppLL files E inp n = some (.returned events pos)) ↔ ∃ n events pos, llParse (cppDispatch g table) (cppVisible g) E input n = .ok events pos) := by
  obtain ⟨lexFuel, t, input, inp', h1, h2, h5, h7⟩ := ll_program hf hne skip hskip src hin E
  refine ⟨lexFuel, t, input, h1, h2, ?_⟩
  constructor
  · rintro ⟨n, events, pos, h⟩
    obtain ⟨r, k1, k2⟩ := h7 n
    rw [h] at k1
    cases k1
    cases hr : llParse (cppDispatch g table) (cppVisible g) E inp' n with
    | ok es ps => exact ⟨n, llRun_accepts (fun i => (h5 i).1) n _ _ _ _ ⟨es, ps, hr⟩⟩
    | error es ps => rw [hr] at k2; cases k2
    | fuel => rw [hr] at k2; cases k2
  · rintro ⟨n, events, pos, h⟩
    obtain ⟨r, k1, k2⟩ := h7 n
    obtain ⟨es, ps, hr⟩ : ∃ es ps, llParse (cppDispatch g table) (cppVisible g) E inp' n = .ok es ps := llRun_accepts (fun i => ((h5 i).1).symm) n _ _ _ _ ⟨events, pos, h⟩
    rw [hr] at k2
    cases k2
    exact ⟨n, _, _, k1⟩

include hf hne hskip hin hgap hE

/-- The program returns for exactly those texts whose tokens, those to be left out removed, are those of a parse tree in which no node starts behind the last token. -/
theorem C84_accepts : (∃ n events pos, runCppLL files E inp n = some (.returned events pos)) ↔
    ∃ ts tree, TextTokens rules src ts ∧ IsParseTree g.rules g.entry tree ∧ tree.tokens = kept (cppSkipped rules skip) ts ∧ tree.EndsInToken := by
  obtain ⟨lexFuel, t, input, h1, h2, h3⟩ := ll_program_accepts hf hne skip hskip src hin E
  have hg := hf.generated
  obtain ⟨fuel, hfu, ht⟩ := hg.table
  rw [h3, C24_cpp_accepts_iff g (C19_well_formed _ g hg.grammar) hg.noEmpty hg.fit hgap fuel hfu table ht E hE input]
  constructor
  · rintro ⟨tree, k1, k2, k3⟩
    obtain ⟨ts, k4, k5⟩ := (C62_stream h1 hne _ src h2 _).mp k2
    exact ⟨ts, tree, k4, k1, k5, k3⟩
  · rintro ⟨ts, tree, k4, k1, k5, k3⟩
    exact ⟨tree, k1, (C62_stream h1 hne _ src h2 _).mpr ⟨ts, k4, k5⟩, k3⟩

/-- So if no rule is predicted at the end of the input, it returns for exactly those texts whose tokens match the entry rule. -/
theorem C84_sentences (hend : ∀ r ∈ g.rules, ¬ Predicts g r .eof) : (∃ n events pos, runCppLL files E inp n = some (.returned events pos)) ↔
    ∃ ts, TextTokens rules src ts ∧ Den (ruleSet entry rules prods) (.rule entry) ((kept (cppSkipped rules skip) ts).map (·.1)) := by
  obtain ⟨lexFuel, t, input, h1, h2, h3⟩ := ll_program_accepts hf hne skip hskip src hin E
  have hg := hf.generated
  obtain ⟨fuel, hfu, ht⟩ := hg.table
  have wf := C19_well_formed _ g hg.grammar
  have hlang := C18_entry_language _ g hg.grammar (Nat.le_of_lt hg.tokens) hg.prods
  constructor
  · intro h
    obtain ⟨ts, tree, k1, k2, k3, _⟩ := (C84_accepts hf hne skip hskip src hin hgap hE).mp h
    refine ⟨ts, k1, ?_⟩
    rw [← k3]
    refine (hlang _).mp ?_
    have := forest_derives k2
    simpa [PTree.tokensList] using this
  · rintro ⟨ts, k1, k2⟩
    have k3 := (hlang _).mpr k2
    rw [hE] at k3
    obtain ⟨tree, k4, k5⟩ := derives_tree k3
    rw [← hE] at k4
    rw [h3]
    obtain ⟨n, k6⟩ := C24_cpp_accepts_every_sentence g wf hg.noEmpty hg.fit hgap fuel hfu table ht E hE hend input tree k4 ((C62_stream h1 hne _ src h2 _).mpr ⟨ts, k1, k5⟩)
    exact ⟨n, _, _, k6 n (Nat.le_refl _)⟩

/-- When it returns, it has called the visitor for the nodes and tokens of a parse tree of these tokens, from left to right and with start and end of each token, and for the end of file. -/
theorem C84_calls (n : Nat) (events : List (LLTextEvent (Nat × Nat))) (pos : Nat) (h : runCppLL files E inp n = some (.returned events pos)) :
    ∃ (ts : List (Nat × List Char)) (tree : PTree (Nat × Nat)), TextTokens rules src ts ∧ IsParseTree g.rules g.entry tree ∧
      tree.tokens.map (fun x => (x.1, between src x.2)) = kept (cppSkipped rules skip) ts ∧
      events = (tree.callbacks (cppVisible g)).map (llTextEvent g) ++ [.token 1 (inp tree.tokens.length).2] ∧ pos = tree.tokens.length + 1 := by
  obtain ⟨lexFuel, t, input, inp', h1, h2, h5, h7⟩ := ll_program hf hne skip hskip src hin E
  have hg := hf.generated
  obtain ⟨fuel, hfu, ht⟩ := hg.table
  obtain ⟨r, k1, k2⟩ := h7 n
  rw [h] at k1
  cases k1
  cases hr : llParse (cppDispatch g table) (cppVisible g) E inp' n with
  | error es ps => rw [hr] at k2; cases k2
  | fuel => rw [hr] at k2; cases k2
  | ok es ps =>
    rw [hr] at k2
    cases k2
    obtain ⟨tree, m1, m2, _, m3, m4⟩ := C23_cpp_without_gaps g (C19_well_formed _ g hg.grammar) hg.noEmpty hg.fit hgap fuel hfu table ht E hE inp' n es pos hr
    have hst : StreamIs input (tree.tokens.map (fun x => (x.1, between src x.2))) := by
      refine ⟨fun i x hx => ?_, ?_⟩
      · rw [List.getElem?_map] at hx
        cases hi : tree.tokens[i]? with
        | none => rw [hi] at hx; cases hx
        | some y =>
          rw [hi, Option.map_some, Option.some.injEq] at hx
          subst hx
          have e := m2.1 i y hi
          have e1 : (input i).1 = .tok y.1 := by rw [← (h5 i).1, e]
          have e2 : (inp i).2 = y.2 := by rw [← (h5 i).2.1, e]
          exact Prod.ext e1 (by rw [(h5 i).2.2 _ e1, e2])
      · rw [List.length_map, ← (h5 _).1]
        exact m2.2
    obtain ⟨ts, k5, k6⟩ := (C62_stream h1 hne _ src h2 _).mp hst
    refine ⟨ts, tree, k5, m1, k6, ?_, m3⟩
    rw [m4, List.map_append, (h5 _).2.1]
    rfl

/-- For every text the program comes to an end: it returns or throws an exception. -/
theorem C84_total (hε : ∀ r ∈ rules, ¬ r.Matches []) :
    ∃ bound, (∀ n, bound ≤ n → ∃ events pos, runCppLL files E inp n = some (.returned events pos)) ∨ ∀ n, bound ≤ n → ∃ events pos message, runCppLL files E inp n = some (.thrown events pos message) := by
  obtain ⟨lexFuel, t, input, inp', h1, h2, h5, h7⟩ := ll_program hf hne skip hskip src hin E
  have hg := hf.generated
  obtain ⟨fuel, hfu, ht⟩ := hg.table
  obtain ⟨N, hN⟩ := fedBy_ends h1 hε h2
  obtain ⟨bound, result, k1, k2⟩ := C25_cpp_stops g (C19_well_formed _ g hg.grammar) hg.noEmpty hg.fit hgap fuel hfu table ht E hE inp' N (fun a => by rw [(h5 N).1]; exact hN a)
  refine ⟨bound, ?_⟩
  cases result with
  | fuel => exact absurd rfl k1
  | ok es ps =>
    refine .inl fun n hn => ?_
    obtain ⟨r, m1, m2⟩ := h7 n
    rw [k2 n hn] at m2
    cases m2
    exact ⟨_, _, m1⟩
  | error es ps =>
    refine .inr fun n hn => ?_
    obtain ⟨r, m1, m2⟩ := h7 n
    rw [k2 n hn] at m2
    cases m2
    exact ⟨_, _, _, m1⟩

omit hin hgap hE in
/-- There is such a token function, and only one, if no token rule matches the empty text. -/
theorem C84_token_function (hε : ∀ r ∈ rules, ¬ r.Matches []) :
    ∃ inp, CppTextFed lexer files.tokensH skip (utf8 src) inp ∧ ∀ inp', CppTextFed lexer files.tokensH skip (utf8 src) inp' → inp' = inp := by
  obtain ⟨lexFuel, t, body, h1, h2, h3⟩ := ll_lexer_reads hf
  obtain ⟨h4, h5⟩ := ll_tokens_read hf
  obtain ⟨input, hfed, _⟩ := C62_token_function h1 hε (cppSkipped rules skip) src
  obtain ⟨inp, st, hin⟩ := cppTextFed_of h1 h3 hskip (fun r hr => (hne r hr).1) rfl h4 hfed
  refine ⟨inp, ⟨body, _, h2, h5, st, hin⟩, ?_⟩
  rintro inp' ⟨body', tokens, k1, k2, st', k3⟩
  rw [h2] at k1
  cases k1
  rw [h5] at k2
  cases k2
  exact cppTextFed_unique h1 h3 hskip h4 k3 hin

end

/-! ## Files written by `generate` -/

/-- When `generate` returns Ok for C++ and the LL algorithm, with a lexer, the files it has written are those C84 is about, for the rules of the file, if the names are words and give different
enumerators. -/
theorem C84_generated (parse : List Char → Res SpannedRules) (fuel : Nat) (genTable : Bool) (path : List Char) (contents : Option (List Char)) (ws : List Written)
    (h : generate parse fuel true .ll1 genTable .cpp path contents = (ws, .ok)) :
    ∃ text rules g t table, contents = some text ∧ parse text = .ok rules ∧ Written.lexer t ∈ ws ∧ Written.cppLLParser table ∈ ws ∧
      ∀ debug : Nat → List Char, (∀ r, '\n' ∉ debug r ∧ (debug r).getLast? ≠ some '\\') → rules.ruleSet.WordNames → rules.ruleSet.NoEmptySequence → rules.ruleSet.tokens.length < 65536 →
        rules.ruleSet.prods.length ≤ 65536 → ∃ src, genCppLL (tokenNames rules.ruleSet) g table = .ok src ∧
          ((cppTokenVariants (tokenNames rules.ruleSet)).Nodup → src.nonTerminals.Nodup → ∀ label,
            CppLLProgramFiles rules.entry.inner (rules.tokens.map (·.inner)) (rules.prods.map (·.inner)) g table (cppLexerFile (rules.tokens.map (·.inner)) debug t).1
              (cppLLFiles (tokenNames rules.ruleSet) src label)) := by
  obtain ⟨text, rules, g, vs, lexer, ttext, parser, tb, h1, h2, h3, h4, h5, h6, _, _⟩ := C65_ok _ _ _ _ _ _ _ _ _ h
  rw [if_pos rfl] at h6
  obtain ⟨t, n, rfl, h6⟩ := h6
  generalize hl : Language.cpp = lang at h5
  generalize ha : Algorithm.ll1 = alg at h5
  cases h5 with
  | rust hk => subst ha; cases hk
  | cpp hk => subst ha; cases hk
  | glr => cases ha
  | ll hg =>
    rename_i n' table _
    refine ⟨text, rules, g, t, table, h1, h2, by rw [h4]; simp, by rw [h4]; simp, ?_⟩
    intro debug hd hw hes ht hp
    have hgen : LLGenerated rules.ruleSet g table := ⟨h3, C19_no_empty_right_side _ g h3 hes, ht, hp, hw, n' + setsFuel g, by omega, llGenerateTable_mono g n' _ table (by omega) hg⟩
    have e := ruleSet_spanned rules
    refine ⟨_, hgen.source, fun hv hn label => ⟨⟨n, t, debug, h6, hd, rfl⟩, by rw [← e]; exact hgen, ⟨_, label, by rw [← e]; exact hgen.source, by rw [← e]; exact hv, hn, by rw [← e]⟩⟩⟩

/-! ## Cases -/

/-- token rules for `s = lp s rp | x` -/
def parenTokens : List TokenRule := [⟨"lp", none, .literal ['(']⟩, ⟨"rp", none, .literal [')']⟩, ⟨"x", none, .literal ['x']⟩]

theorem parenTokens_rules : ruleSet "s" parenTokens wordRules.prods = wordRules := rfl

theorem parenTokens_useful : ∀ r ∈ parenTokens, r.NoEmptySeq ∧ r.Useful := by
  intro r hr
  simp only [parenTokens, List.mem_cons, List.not_mem_nil, or_false] at hr
  rcases hr with rfl | rfl | rfl <;> exact ⟨by simp [TokenRule.NoEmptySeq], trivial⟩

theorem parenTokens_nonempty : ∀ r ∈ parenTokens, ¬ r.Matches [] := by
  intro r hr
  simp only [parenTokens, List.mem_cons, List.not_mem_nil, or_false] at hr
  rcases hr with rfl | rfl | rfl <;> simp [TokenRule.Matches]

/-- no rule of `s = lp s rp | x` is predicted at the end -/
theorem word_end : ∀ r ∈ wordGrammar.rules, ¬ Predicts wordGrammar r .eof := by
  intro r hr hp
  obtain ⟨fuel, hf, ht⟩ := wordGenerated.table
  have := (C22_entries wordGrammar (C19_well_formed _ _ wordGrammar_built) wordGenerated.noEmpty wordGenerated.fit fuel hf wordTable ht r.lhs .eof trivial r.rhs).mpr ⟨r, hr, rfl, rfl, hp⟩
  simp only [wordGrammar, List.mem_cons, List.not_mem_nil, or_false] at hr
  rcases hr with rfl | rfl <;> revert this <;> decide

theorem parenDen : Den wordRules (.rule "s") [0, 2, 1] := by
  refine .prod (r := wordRules.prods[0]) (by simp [wordRules]) ?_
  refine .seqCons (u := [0]) (v := [2, 1]) (.token rfl) (.seqCons (u := [2]) (v := [1]) ?_ (.seqCons (u := [1]) (v := []) (.token rfl) .seqNil))
  exact .prod (r := wordRules.prods[1]) (by simp [wordRules]) (.token rfl)

/-- all conditions hold for `s = lp s rp | x`, and the program returns for `(x)` -/
example : ∃ lexer files inp, CppLLProgramFiles "s" parenTokens wordRules.prods wordGrammar wordTable lexer files ∧ CppTextFed lexer files.tokensH (fun _ => false) (utf8 "(x)".toList) inp ∧
    NoGaps wordGrammar ∧ wordGrammar.entry = .nt 0 ∧ ∃ n events pos, runCppLL files 0 inp n = some (.returned events pos) := by
  obtain ⟨t, ht⟩ := Res.of_tables (r := generateLexer 20 parenTokens) (by decide +kernel)
  have hf : CppLLProgramFiles "s" parenTokens wordRules.prods wordGrammar wordTable (cppLexerFile parenTokens (fun _ => "x".toList) t).1
      (cppLLFiles (tokenNames wordRules) (llSourceOf (tokenNames wordRules) wordGrammar wordTable) "NT_S".toList) :=
    ⟨⟨20, t, _, ht, fun r => by decide, rfl⟩, wordGenerated, ⟨_, _, wordGenerated.source, word_variants, word_labels, rfl⟩⟩
  obtain ⟨inp, hin, _⟩ := C84_token_function hf parenTokens_useful (fun _ => false) ⟨rfl, rfl⟩ "(x)".toList parenTokens_nonempty
  refine ⟨_, _, inp, hf, hin, word_gaps, rfl, ?_⟩
  refine (C84_sentences hf parenTokens_useful (fun _ => false) ⟨rfl, rfl⟩ "(x)".toList hin word_gaps rfl word_end).mpr ?_
  obtain ⟨input, hfed, _⟩ := C62_token_function ht parenTokens_nonempty (cppSkipped parenTokens (fun _ => false)) "(x)".toList
  have e1 : (generateLexer 20 parenTokens).tables = some t := by rw [ht]; rfl
  have e2 : (generateLexer 20 parenTokens).tables.map (fun t => firstTokens t (cppSkipped parenTokens (fun _ => false)) 4 (Lexer.new "(x)".toList)) =
      some [(.tok 0, ['(']), (.tok 2, ['x']), (.tok 1, [')']), (.eof, [])] := by decide +kernel
  rw [e1, Option.map_some, Option.some.injEq] at e2
  have key := firstTokens_fed (t := t) (skip := cppSkipped parenTokens (fun _ => false)) (fun _ _ => rfl) 4 hfed
  rw [e2] at key
  have hst : StreamIs input [(0, ['(']), (2, ['x']), (1, [')'])] := by
    refine ⟨fun i x hx => ?_, by rw [show [(0, ['(']), (2, ['x']), (1, [')'])].length = 3 from rfl, key 3 _ rfl]⟩
    match i, hx with
    | 0, hx => cases hx; exact key 0 _ rfl
    | 1, hx => cases hx; exact key 1 _ rfl
    | 2, hx => cases hx; exact key 2 _ rfl
  obtain ⟨ts, k1, k2⟩ := (C62_stream ht parenTokens_useful _ _ hfed _).mp hst
  refine ⟨ts, k1, ?_⟩
  rw [← k2]
  exact parenDen

/-- `s = a?`: with one token and one production there is no gap -/
example : NoGaps optGrammar := (C84_gaps optRules optGrammar optGrammar_built (by decide) (by decide) (by decide)).mpr (.inr (by decide))

/-- `s = c (a | b)`: three tokens, one production -/
example : ¬ NoGaps gapGrammar := fun h => absurd ((C84_gaps gapRules gapGrammar gapGrammar_built (by decide) (by decide) (by decide)).mp h) (by decide)

/-- `s = a?` on `a`: the tree ends in a token, so the C++ parser accepts, though it rejects the empty sentence -/
example : ∃ steps events pos, llParse (cppDispatch optGrammar optTable) (cppVisible optGrammar) 0 (streamOf [0]) steps = .ok events pos := by
  have hw := C19_well_formed _ _ optGrammar_built
  refine (C24_cpp_accepts_iff optGrammar hw (by decide) ?_ ((C84_gaps optRules optGrammar optGrammar_built (by decide) (by decide) (by decide)).mpr (.inr (by decide))) _ (Nat.le_refl _) optTable
    optTable_ok 0 rfl (streamOf [0])).mpr ⟨.node ⟨0, [.nt 1], 0⟩ [.node ⟨1, [.t 0], 0⟩ [.leaf 0 ()]], ?_, ?_, ?_⟩
  · intro a ha
    simp [optGrammar, Grammar.terminals] at ha
    subst ha
    decide
  · exact .nonterm (r := ⟨0, [.nt 1], 0⟩) (by simp [optGrammar]) (.nonterm (r := ⟨1, [.t 0], 0⟩) (by simp [optGrammar]) (.term .nil) .nil) .nil
  · refine ⟨fun i p hp => ?_, rfl⟩
    match i, hp with
    | 0, hp => cases hp; rfl
  · intro pre A post he
    simp only [PTree.callbacks, PTree.callbacksList, if_true, List.cons_append, List.nil_append, List.append_nil] at he
    match pre, he with
    | [], he => cases he; exact ⟨.tok 0, (), by simp⟩
    | [_], he => cases he; exact ⟨.tok 0, (), by simp⟩
    | [_, _], he => cases he
    | [_, _, _], he => cases he
    | [_, _, _, _], he => cases he
    | _ :: _ :: _ :: _ :: _ :: l, he => simp at he

end Verif
