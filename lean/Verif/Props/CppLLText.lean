import Verif.Proofs.CppLLNames
import Verif.Props.CppLRText
import Verif.Props.LL

/-!
# C82: the text of the generated C++ LL parser is the modelled program

`CppFiles.readLL` finds the enumerations and functions in the text of the files, and `runCppLL` executes the statements of `Parser::parse` and of the functions it calls
(`Verif/Spec/CppLLText.lean`). The run is the run of the modelled parser `llParse (cppDispatch g table)`, which C23, C24 and C25 are about. The value of the entry symbol, for which the template
has no marker (C43), is an argument.
-/

set_option autoImplicit false

namespace Verif

variable {T : Type}

/-- the four files with the enumerations and functions of the parser; `entry` is the enumerator of the entry symbol -/
def cppLLFiles (names : List (List Char)) (src : CppLLSource) (entry : List Char) : CppFiles :=
  ⟨(cppTokensHeaderFile names).1, (cppTokensFile names).1, (cppLLParserFile src).1, (cppLLParserImplFile src entry).1⟩

/-- a rule file whose grammar has the LL table `table` -/
structure LLGenerated (rs : RuleSet) (g : Grammar) (table : LLTable) : Prop where
  grammar : Grammar.fromRuleSet rs = .ok g
  noEmpty : NoEmptyRhs g
  tokens : rs.tokens.length < 65536
  prods : rs.prods.length ≤ 65536
  words : rs.WordNames
  table : ∃ fuel, setsFuel g ≤ fuel ∧ llGenerateTable g fuel = .ok table

theorem LLGenerated.fit {rs : RuleSet} {g : Grammar} {table : LLTable} (h : LLGenerated rs g table) : TokensFit g := by
  intro a ha
  have := ((tokensOk h.grammar (Nat.le_of_lt h.tokens)).mem a).mp ha
  have h2 := h.tokens
  simp only [tokenNames, List.length_map] at this
  omega

theorem LLGenerated.fromRules {rs : RuleSet} {g : Grammar} {table : LLTable} (h : LLGenerated rs g table) : FromRules g table := by
  obtain ⟨fuel, hf, ht⟩ := h.table
  intro A a p hp
  obtain ⟨r, hr, _, e, _⟩ := (C22_entries g (C19_well_formed rs g h.grammar) h.noEmpty h.fit fuel hf table ht A (.t a) trivial p).mp hp
  exact ⟨r, hr, e⟩

theorem LLGenerated.source {rs : RuleSet} {g : Grammar} {table : LLTable} (h : LLGenerated rs g table) : genCppLL (tokenNames rs) g table = .ok (llSourceOf (tokenNames rs) g table) :=
  genCppLL_eq (C19_well_formed rs g h.grammar) h.fromRules _

theorem LLGenerated.tokenWords {rs : RuleSet} {g : Grammar} {table : LLTable} (h : LLGenerated rs g table) : ∀ n ∈ tokenNames rs, IsWord n := by
  intro m hm
  obtain ⟨t, h1, rfl⟩ := List.mem_map.mp hm
  exact h.words.1 t h1

/-- C82. The generator does not panic, and all files are written without an error. -/
theorem C82_written (rs : RuleSet) (g : Grammar) (table : LLTable) (h : LLGenerated rs g table) (entry : List Char) :
    ∃ src, genCppLL (tokenNames rs) g table = .ok src ∧ (cppTokensHeaderFile (tokenNames rs)).2 = .ok ∧ (cppTokensFile (tokenNames rs)).2 = .ok ∧ (cppLLParserFile src).2 = .ok ∧
      (cppLLParserImplFile src entry).2 = .ok ∧ (cppLLVisitorFile src).2 = .ok :=
  ⟨_, h.source, by rw [tokensH_file], by rw [tokensC_file], by rw [llParser_file], by rw [llImpl_file], by rw [llVisitor_file]⟩

/-- C82. If the enumerators are different (or else the file does not compile), the statements in the files, executed, do what the modelled parser does: same calls of the visitor in the same order, same
number of tokens asked for, and an exception exactly where the model reports an error, with a message that names what was expected. -/
theorem C82_parser_text (rs : RuleSet) (g : Grammar) (table : LLTable) (h : LLGenerated rs g table) (src : CppLLSource) (hsrc : genCppLL (tokenNames rs) g table = .ok src)
    (hv : (cppTokenVariants (tokenNames rs)).Nodup) (hn : src.nonTerminals.Nodup) (label : List Char) (entry : Nat) (input : Nat → Tok × T) (hin : TokensBelow rs.tokens.length input) (n : Nat) :
    ∃ r, runCppLL (cppLLFiles (tokenNames rs) src label) entry (codeInput input) n = some r ∧
      LLSame (tokenNames rs) g table input (llParse (cppDispatch g table) (cppVisible g) entry input n) r := by
  rw [h.source] at hsrc
  have e := (Except.ok.inj hsrc).symm
  rw [e] at hn ⊢
  refine ll_runs (C19_well_formed rs g h.grammar) (wordNames h.grammar (Nat.le_of_lt h.tokens) h.prods h.words) h.tokenWords (tokensOk h.grammar (Nat.le_of_lt h.tokens)) hv hn h.fromRules label entry
    input ?_ n
  intro i a e
  simp only [tokenNames, List.length_map]
  exact hin i a e

/-- C82. So if the ordinals of the non-terminals are their numbers, a program made of these files that returns has read a sentence and its end, and has called the visitor for the nodes and tokens of a
parse tree. -/
theorem C82_sentences (rs : RuleSet) (g : Grammar) (table : LLTable) (h : LLGenerated rs g table) (hgap : NoGaps g) (src : CppLLSource) (hsrc : genCppLL (tokenNames rs) g table = .ok src)
    (hv : (cppTokenVariants (tokenNames rs)).Nodup) (hn : src.nonTerminals.Nodup) (label : List Char) (E : Nat) (hE : g.entry = .nt E) (input : Nat → Tok × T)
    (hin : TokensBelow rs.tokens.length input) (n : Nat) (events : List (LLTextEvent T)) (pos : Nat)
    (hr : runCppLL (cppLLFiles (tokenNames rs) src label) E (codeInput input) n = some (.returned events pos)) :
    ∃ t : PTree T, IsParseTree g.rules g.entry t ∧ StreamIs input t.tokens ∧ Derives g.rules [g.entry] (t.tokens.map (·.1)) ∧ pos = t.tokens.length + 1 ∧
      events = (t.callbacks (cppVisible g)).map (llTextEvent g) ++ [.token 1 (input t.tokens.length).2] := by
  obtain ⟨r, h1, h2⟩ := C82_parser_text rs g table h src hsrc hv hn label E input hin n
  rw [h1] at hr
  have hr := Option.some.inj hr
  subst hr
  cases hm : llParse (cppDispatch g table) (cppVisible g) E input n with
  | ok evs ps =>
    rw [hm] at h2
    cases h2
    obtain ⟨fuel, hf, ht⟩ := h.table
    obtain ⟨t, h3, h4, h5, h6, h7⟩ := C23_cpp_without_gaps g (C19_well_formed rs g h.grammar) h.noEmpty h.fit hgap fuel hf table ht E hE input n evs pos hm
    exact ⟨t, h3, h4, h5, h6, by rw [h7, List.map_append]; rfl⟩
  | error evs ps => rw [hm] at h2; cases h2
  | fuel => rw [hm] at h2; cases h2

/-- C82. The class in `visitor.h` has the function `token` and for each production two functions without parameters, all with different names; the parser calls these and no others. -/
theorem C82_visitor (rs : RuleSet) (g : Grammar) (table : LLTable) (h : LLGenerated rs g table) (src : CppLLSource) (hsrc : genCppLL (tokenNames rs) g table = .ok src)
    (hv : (cppTokenVariants (tokenNames rs)).Nodup) (hn : src.nonTerminals.Nodup) (label : List Char) :
    ∃ (u : CppLLUnit) (methods : List (List Char)), (cppLLFiles (tokenNames rs) src label).readLL = some u ∧
      readVisitor (cppLLVisitorFile src).1 = some (⟨"token".toList, phrase "lexer::TokenType tk_type, T data"⟩ :: methods.map fun x => ⟨x, []⟩) ∧
      (∀ x, x ∈ methods ↔ ∃ p ∈ g.productions, x = "enter_".toList ++ p.2.toList ∨ x = "exit_".toList ++ p.2.toList) ∧
      ("token".toList :: methods).Nodup ∧ ∀ x, x ∈ u.called ↔ x ∈ "token".toList :: methods := by
  rw [h.source] at hsrc
  have e := (Except.ok.inj hsrc).symm
  rw [e] at hn ⊢
  have wf := C19_well_formed rs g h.grammar
  have hw := wordNames h.grammar (Nat.le_of_lt h.tokens) h.prods h.words
  have mem : ∀ x, x ∈ llMethods (llSourceOf (tokenNames rs) g table).named ↔ ∃ p ∈ g.productions, x = "enter_".toList ++ p.2.toList ∨ x = "exit_".toList ++ p.2.toList := by
    intro x
    unfold llMethods
    rw [List.mem_flatMap]
    constructor
    · rintro ⟨y, hy, hx⟩
      obtain ⟨p, hp, rfl⟩ := List.mem_map.mp hy
      exact ⟨p, hp, by simpa using hx⟩
    · rintro ⟨p, hp, hx⟩
      exact ⟨_, List.mem_map.mpr ⟨p, hp, rfl⟩, by simpa using hx⟩
  refine ⟨_, llMethods (llSourceOf (tokenNames rs) g table).named, ll_reads wf hw h.tokenWords hv hn label, llVisitor_reads _ (fun x hx => (named_ok wf hw x hx).2), mem, ?_, ?_⟩
  · rw [List.nodup_cons]
    constructor
    · intro hm
      obtain ⟨p, _, h1 | h1⟩ := (mem _).mp hm
      · exact absurd (congrArg List.head? h1) (by simp)
      · exact absurd (congrArg List.head? h1) (by simp)
    · have hnames : (g.productions.map fun x => x.2).Nodup := by
        have hl : (g.productions.map fun x => symLabel g x.1).Nodup := by
          have hn' : (g.nonTerminals.map (symLabel g)).Nodup := hn
          unfold Grammar.nonTerminals at hn'
          rw [List.map_append, List.map_map] at hn'
          exact (List.nodup_append.mp hn').1
        have : (g.productions.map fun x => symLabel g x.1) = (g.productions.map fun x => x.2).map fun n => "NT_".toList ++ n.toList.map asciiUpper := by
          rw [List.map_map]
          refine List.map_congr_left fun x hx => ?_
          obtain ⟨A, e⟩ := wf.nts x.1 (List.mem_append_left _ (List.mem_map.mpr ⟨x, hx, rfl⟩))
          have hp := production_name wf hx
          rw [e] at hp
          simp only [e, symLabel, ntLabel, hp, Function.comp_apply]
        rw [this] at hl
        exact List.Nodup.of_map _ hl
      have hnd : ∀ (l : List (Sym × String)), (l.map fun x => x.2).Nodup → (llMethods (l.map fun x => (symLabel g x.1, x.2.toList))).Nodup := by
        intro l
        induction l with
        | nil => intro _; exact List.nodup_nil
        | cons x l ih =>
          intro hl
          rw [List.map_cons, List.nodup_cons] at hl
          have hx : ∀ y ∈ llMethods (l.map fun x => (symLabel g x.1, x.2.toList)), y ≠ "enter_".toList ++ x.2.toList ∧ y ≠ "exit_".toList ++ x.2.toList := by
            intro y hy
            unfold llMethods at hy
            obtain ⟨z, hz, hy⟩ := List.mem_flatMap.mp hy
            obtain ⟨p, hp, rfl⟩ := List.mem_map.mp hz
            have hne : p.2.toList ≠ x.2.toList := fun e => hl.1 (List.mem_map.mpr ⟨p, hp, String.toList_inj.mp e⟩)
            simp only [List.mem_cons, List.not_mem_nil, or_false] at hy
            rcases hy with rfl | rfl
            · exact ⟨fun e => hne (List.append_cancel_left e), by simp⟩
            · exact ⟨by simp, fun e => hne (List.append_cancel_left e)⟩
          show (("enter_".toList ++ x.2.toList) :: ("exit_".toList ++ x.2.toList) :: llMethods (l.map fun x => (symLabel g x.1, x.2.toList))).Nodup
          rw [List.nodup_cons, List.nodup_cons]
          refine ⟨?_, fun hm => (hx _ hm).2 rfl, ih hl.2⟩
          intro hm
          rcases List.mem_cons.mp hm with e | hm
          · exact absurd e (by simp)
          · exact (hx _ hm).1 rfl
      exact hnd g.productions hnames
  · intro x
    unfold CppLLUnit.called llUnitOf
    simp only
    rw [simplesL_append, simplesL_append, List.flatMap_append, List.flatMap_append, called_llVisit, called_llVisit, called_llParse]
    unfold llMethods
    simp only [List.mem_append, List.mem_map, List.mem_cons, List.not_mem_nil, or_false, List.mem_flatMap]
    constructor
    · rintro ((⟨c, h1, rfl⟩ | ⟨c, h1, rfl⟩) | rfl)
      · exact .inr ⟨c, h1, .inr rfl⟩
      · exact .inr ⟨c, h1, .inl rfl⟩
      · exact .inl rfl
    · rintro (rfl | ⟨c, h1, rfl | rfl⟩)
      · exact .inr rfl
      · exact .inl (.inr ⟨c, h1, rfl⟩)
      · exact .inl (.inl ⟨c, h1, rfl⟩)

/-! ## Cases -/

/-- the table of `s = lp s rp | x` -/
def wordTable : LLTable := [(⟨0, some 1⟩, [.t 0, .nt 0, .t 1]), (⟨0, some 3⟩, [.t 2])]

theorem wordGenerated : LLGenerated wordRules wordGrammar wordTable :=
  ⟨wordGrammar_built, by decide, by decide, by decide, wordRules_words, _, Nat.le_refl _, of_sameTable (by decide +kernel)⟩

theorem word_gaps : NoGaps wordGrammar := by
  intro A hA
  simp [wordGrammar, Grammar.nonTerminals] at hA
  subst hA
  decide

theorem word_labels : ((llSourceOf (tokenNames wordRules) wordGrammar wordTable).nonTerminals).Nodup := by decide +kernel

theorem word_variants : (cppTokenVariants (tokenNames wordRules)).Nodup := by decide +kernel

/-- the text of the parser for `s = lp s rp | x` on `lp x rp` -/
example : ∃ src, genCppLL (tokenNames wordRules) wordGrammar wordTable = .ok src ∧ runCppLL (cppLLFiles (tokenNames wordRules) src "NT_S".toList) 0 (codeInput (streamOf [0, 2, 1])) 20 =
    some (.returned [.call "enter_s".toList, .token 2 (), .call "enter_s".toList, .token 4 (), .call "exit_s".toList, .token 3 (), .call "exit_s".toList, .token 1 ()] 4) := by
  refine ⟨_, wordGenerated.source, ?_⟩
  have hin : TokensBelow wordRules.tokens.length (streamOf [0, 2, 1]) := by
    intro i a h
    match i with
    | 0 => simp [streamOf] at h; subst h; decide
    | 1 => simp [streamOf] at h; subst h; decide
    | 2 => simp [streamOf] at h; subst h; decide
    | i + 3 => simp [streamOf] at h
  obtain ⟨r, h1, h2⟩ := C82_parser_text _ _ _ wordGenerated _ wordGenerated.source word_variants word_labels "NT_S".toList 0 (streamOf [0, 2, 1]) hin 20
  rw [h1]
  have hm : llParse (cppDispatch wordGrammar wordTable) (cppVisible wordGrammar) 0 (streamOf [0, 2, 1]) 20 =
      .ok [.enter 0, .token (.tok 0) (), .enter 0, .token (.tok 2) (), .exit 0, .token (.tok 1) (), .exit 0, .token .eof ()] 4 := by decide +kernel
  rw [hm] at h2
  cases h2
  rfl

/-- and on `lp x`: the message names the token and the expected one -/
example : ∃ src, genCppLL (tokenNames wordRules) wordGrammar wordTable = .ok src ∧ runCppLL (cppLLFiles (tokenNames wordRules) src "NT_S".toList) 0 (codeInput (streamOf [0, 2])) 20 =
    some (.thrown [.call "enter_s".toList, .token 2 (), .call "enter_s".toList, .token 4 (), .call "exit_s".toList] 2 "Unexpected token '<EOF>', expected token 'rp'".toList) := by
  refine ⟨_, wordGenerated.source, ?_⟩
  decide +kernel

-- the hypotheses of C82_sentences
example : NoGaps wordGrammar ∧ wordGrammar.entry = .nt 0 := ⟨word_gaps, rfl⟩

theorem gapRules_words : gapRules.WordNames :=
  ⟨by intro n hn; simp only [gapRules, List.mem_cons, List.not_mem_nil, or_false] at hn; rcases hn with rfl | rfl | rfl <;> (unfold IsWord; decide),
    by intro x hx; simp only [gapRules, List.mem_cons, List.not_mem_nil, or_false] at hx; subst hx; unfold IsWord; decide⟩

theorem gapGenerated : LLGenerated gapRules gapGrammar gapTable :=
  ⟨gapGrammar_built, by decide, by decide, by decide, gapRules_words, _, Nat.le_refl _, gapTable_ok⟩

/-- The condition on the ordinals is needed: the text of the parser for `s = c (a | b)`, run on `c`, returns, though `c` is no sentence. -/
theorem C82_gap_counterexample : ∃ src events pos, genCppLL (tokenNames gapRules) gapGrammar gapTable = .ok src ∧ (cppTokenVariants (tokenNames gapRules)).Nodup ∧ src.nonTerminals.Nodup ∧
    runCppLL (cppLLFiles (tokenNames gapRules) src "NT_S".toList) 0 (codeInput (streamOf [2])) 10 = some (.returned events pos) ∧ ¬ Derives gapGrammar.rules [gapGrammar.entry] [2] := by
  have hv : (cppTokenVariants (tokenNames gapRules)).Nodup := by decide +kernel
  have hn : (llSourceOf (tokenNames gapRules) gapGrammar gapTable).nonTerminals.Nodup := by decide +kernel
  have hin : TokensBelow gapRules.tokens.length (streamOf [2]) := by
    intro i a h
    match i with
    | 0 => simp [streamOf] at h; subst h; decide
    | i + 1 => simp [streamOf] at h
  obtain ⟨⟨evs, ps, hm⟩, hd⟩ := C23_cpp_gap_counterexample
  obtain ⟨r, h1, h2⟩ := C82_parser_text _ _ _ gapGenerated _ gapGenerated.source hv hn "NT_S".toList 0 (streamOf [2]) hin 10
  rw [hm] at h2
  cases h2
  exact ⟨_, _, _, gapGenerated.source, hv, hn, h1, hd⟩

end Verif
