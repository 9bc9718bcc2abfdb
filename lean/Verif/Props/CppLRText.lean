import Verif.Proofs.CppLRNames
import Verif.Props.CppLR

/-!
# C73: the text of the generated C++ LR parser is the modelled program

`CppFiles.read` finds the enumerations and functions in the text of the files, and `runCppParser` executes the statements of `Parser::parse` and of the functions it calls. The run is the run
of the modelled program (`cppLRParse`), of which C61 says that it behaves like the Rust parser; a reduction calls the method of the visitor that C41 gives it.
-/

set_option autoImplicit false

namespace Verif

variable {T : Type}

/-- the four files with the enumerations and functions of the parser -/
def cppLRFiles (names : List (List Char)) (src : CppLRSource) (calls : List (Nat × List Char)) : CppFiles :=
  ⟨(cppTokensHeaderFile names).1, (cppTokensFile names).1, (cppParserFile src).1, (cppParserImplFile src calls).1⟩

/-- all of them are written without an error -/
theorem C73_written (names : List (List Char)) (src : CppLRSource) (calls : List (Nat × List Char)) :
    (cppTokensHeaderFile names).2 = .ok ∧ (cppTokensFile names).2 = .ok ∧ (cppParserFile src).2 = .ok ∧ (cppParserImplFile src calls).2 = .ok :=
  ⟨by rw [tokensH_file], by rw [tokensC_file], by rw [parser_file], by rw [impl_file]⟩

/-- the statements in the files, executed, do what the modelled program does -/
theorem C73_parser_text (names : List (List Char)) (g : Grammar) (tb : LRTable) (src : CppLRSource) (h : genCpp names g tb = .ok src) (p : CppLRProg) (hp : src.compile = some p)
    (calls : List (Nat × List Char)) (hc : cppReduceSwitch g = .ok calls) (hn : ∀ n ∈ names, IsWord n) (hg : g.WordNames) (input : Nat → Nat × T) (n : Nat) :
    runCppParser (cppLRFiles names src calls) input n = some (textResult calls (cppLRParse p input n)) := parser_runs h hp hc hn hg input n

/-- names that are words in the file are words in the grammar -/
theorem wordNames {rs : RuleSet} {g : Grammar} (hg : Grammar.fromRuleSet rs = .ok g) (ht : rs.tokens.length ≤ 65536) (hpr : rs.prods.length ≤ 65536) (h : rs.WordNames) : g.WordNames := by
  obtain ⟨base, pats, ok⟩ := grammarOk hg
  constructor
  · intro x hx
    have h1 := mem_mget? ok.tokS (k := x.1) (v := x.2) hx
    obtain ⟨k, hk, e⟩ := (ok.tokK x.1).mp (by rw [h1]; rfl)
    rw [Nat.mod_eq_of_lt (by unfold u16Size; omega)] at e
    rw [e, ok.tokN ht k hk] at h1
    exact h.1 _ (List.mem_of_getElem? h1)
  · intro x hx
    have h1 := mem_mget? ok.prodS (k := x.1) (v := x.2) hx
    obtain ⟨A, e, _⟩ := ok.prodK x.1 (by rw [h1]; rfl)
    rw [e] at h1
    obtain ⟨_, y, hy, e2⟩ := named hg hpr h1
    rw [← e2]
    exact h.2 y hy

/-- The method called for a rule is the callback of that rule. -/
theorem C73_calls (g : Grammar) (calls : List (Nat × List Char)) (hc : cppReduceSwitch g = .ok calls) (i : Nat) (x : List Char) :
    textEvent (T := T) calls (.reduce i) = .call x ∧ i < g.rules.length ↔ IsCppCallback g i x := by
  obtain ⟨l, h1, h2, h3⟩ := cpp_switch g
  rw [hc] at h1
  cases h1
  have hnd : (calls.map (·.1)).Nodup := by rw [h2]; exact List.nodup_range
  rw [← h3]
  constructor
  · rintro ⟨h4, h5⟩
    have hm : i ∈ calls.map (·.1) := by rw [h2]; exact List.mem_range.mpr h5
    obtain ⟨c, hc1, rfl⟩ := List.mem_map.mp hm
    simp only [textEvent, cppSwitch_of_mem hnd hc1, Option.getD_some, TextEvent.call.injEq] at h4
    rw [← h4]
    exact hc1
  · intro h4
    refine ⟨by simp only [textEvent, cppSwitch_of_mem hnd h4, Option.getD_some], ?_⟩
    have : i ∈ calls.map (·.1) := List.mem_map.mpr ⟨_, h4, rfl⟩
    rw [h2] at this
    exact List.mem_range.mp this

/-- C73. The text of the files behaves like the Rust parser: same tokens shifted, the callbacks of the same rules called, and where the Rust parser returns an error an exception thrown with the
message that names the token and the expected ones. -/
theorem C73_same (rs : RuleSet) (g : Grammar) (hg : Grammar.fromRuleSet rs = .ok g) (hne : NoEmptyRhs g) (ht : rs.tokens.length ≤ 65536) (hpr : rs.prods.length ≤ 65536) (hw : rs.WordNames)
    (kind : LRKind) (tb : LRTable) (htb : LRTableFor g kind tb) (p : LRProg) (hp : genRust g tb = .ok p) (src : CppLRSource) (hsrc : genCpp (tokenNames rs) g tb = .ok src)
    (hcomp : src.compile.isSome) (calls : List (Nat × List Char)) (hc : cppReduceSwitch g = .ok calls) (hs : StartShifts tb)
    (input : Nat → Tok × T) (hin : TokensBelow rs.tokens.length input) (n : Nat) :
    runCppParser (cppLRFiles (tokenNames rs) src calls) (codeInput input) n = some (textResult calls (codeResult (tokenNames rs) input (lrParse p.machine input n))) := by
  obtain ⟨c, hcc⟩ := Option.isSome_iff_exists.mp hcomp
  rw [C73_parser_text _ g tb src hsrc c hcc calls hc ?_ (wordNames hg ht hpr hw), C61_same rs g hg hne ht kind tb htb p hp src hsrc c hcc hs input hin n]
  intro m hm
  obtain ⟨t, h1, rfl⟩ := List.mem_map.mp hm
  exact hw.1 t h1

/-- so the text of an LR(1) parser returns exactly on the sentences -/
theorem C73_decides (rs : RuleSet) (g : Grammar) (hg : Grammar.fromRuleSet rs = .ok g) (hne : NoEmptyRhs g) (hel : EpsLeading g) (hl : EntryNotLeftRecursive g)
    (ht : rs.tokens.length ≤ 65536) (hpr : rs.prods.length ≤ 65536) (hw : rs.WordNames) (tb : LRTable) (htb : LRTableFor g .lr1 tb) (p : LRProg) (hp : genRust g tb = .ok p)
    (src : CppLRSource) (hsrc : genCpp (tokenNames rs) g tb = .ok src) (hcomp : src.compile.isSome) (calls : List (Nat × List Char)) (hc : cppReduceSwitch g = .ok calls)
    (w0 : List Nat) (hw0 : w0 ≠ []) (hd : Derives g.rules [g.entry] w0) (w : List (Nat × T)) (input : Nat → Tok × T) (hin : TokensBelow rs.tokens.length input) (hst : StreamIs input w) :
    (∃ n events pos, runCppParser (cppLRFiles (tokenNames rs) src calls) (codeInput input) n = some (.returned events pos)) ↔ Derives g.rules [g.entry] (w.map (·.1)) := by
  obtain ⟨c, hcc⟩ := Option.isSome_iff_exists.mp hcomp
  rw [← C61_decides rs g hg hne hel hl ht tb htb p hp src hsrc c hcc w0 hw0 hd w input hin hst]
  have hn : ∀ m ∈ tokenNames rs, IsWord m := by
    intro m hm
    obtain ⟨t, h1, rfl⟩ := List.mem_map.mp hm
    exact hw.1 t h1
  have key := fun n => C73_parser_text _ g tb src hsrc c hcc calls hc hn (wordNames hg ht hpr hw) (codeInput input) n
  constructor
  · rintro ⟨n, events, pos, h⟩
    rw [key] at h
    cases hr : cppLRParse c (codeInput input) n with
    | returned es ps => exact ⟨n, es, ps, hr⟩
    | thrown es ps m => rw [hr] at h; cases h
    | aborted es ps => rw [hr] at h; cases h
    | running es ps => rw [hr] at h; cases h
  · rintro ⟨n, events, pos, h⟩
    exact ⟨n, _, _, by rw [key, h]; rfl⟩

/-! ## Cases -/

/-- `s = lp s rp | x` as two productions -/
def wordRules : RuleSet where
  entry := "s"
  tokens := ["lp", "rp", "x"]
  prods := [⟨"s", none, .sequence [.rule "lp", .rule "s", .rule "rp"]⟩, ⟨"s", none, .rule "x"⟩]

def wordGrammar : Grammar where
  rules := [⟨0, [.t 0, .nt 0, .t 1], 0⟩, ⟨0, [.t 2], 1⟩]
  anon := []
  productions := [(.nt 0, "s")]
  tokens := [(.t 0, "lp"), (.t 1, "rp"), (.t 2, "x")]
  entry := .nt 0
  entryOrigin := 0

theorem wordGrammar_built : Grammar.fromRuleSet wordRules = .ok wordGrammar := GRes.of_same (by decide)

theorem wordRules_words : wordRules.WordNames :=
  ⟨by intro n hn; simp only [wordRules, List.mem_cons, List.not_mem_nil, or_false] at hn; rcases hn with rfl | rfl | rfl <;> (unfold IsWord; decide),
    by intro x hx; simp only [wordRules, List.mem_cons, List.not_mem_nil, or_false] at hx; rcases hx with rfl | rfl <;> (unfold IsWord; decide)⟩

theorem wordGrammar_entry : EntryNotLeftRecursive wordGrammar := by
  intro A _ h
  have hno : ∀ A B, ¬ StartsRule wordGrammar A B := by
    rintro A B ⟨r, hr, _, h⟩
    simp [wordGrammar] at hr
    rcases hr with rfl | rfl <;> simp [leadingEps] at h
  cases h with
  | one h => exact hno _ _ h
  | more _ h => exact hno _ _ h

-- the hypotheses of C73_same and C73_decides
example : NoEmptyRhs wordGrammar ∧ EpsLeading wordGrammar ∧ EntryNotLeftRecursive wordGrammar ∧ Derives wordGrammar.rules [wordGrammar.entry] [2] :=
  ⟨by decide, by decide, wordGrammar_entry, .nonterm (r := ⟨0, [.t 2], 1⟩) (by decide) (.term .nil) .nil⟩

/-- what the program made of this grammar does on two inputs -/
def wordCpp : Bool :=
  match generateTable wordGrammar false .lr1 60 with
  | .ok (.noConflicts tb) =>
    match genRust wordGrammar tb, genCpp (tokenNames wordRules) wordGrammar tb, cppReduceSwitch wordGrammar with
    | .ok _, .ok src, .ok calls =>
      match src.compile with
      | some c => decide (textResult calls (cppLRParse c (codeInput (streamOf [0, 2, 1])) 20) =
            .returned [.shift 2 (), .shift 4 (), .call "reduce_s_2".toList, .shift 3 (), .call "reduce_s_1".toList] 3) &&
          decide (textResult calls (cppLRParse c (codeInput (streamOf [0, 2])) 20) =
            .thrown [.shift 2 (), .shift 4 ()] 2 "Unexpected token '<EOF>', expected one of: 'rp'".toList)
      | none => false
    | _, _, _ => false
  | _ => false

/-- the text of the files, run on a sentence and on an input that is none -/
example : ∃ tb p src calls, LRTableFor wordGrammar .lr1 tb ∧ genRust wordGrammar tb = .ok p ∧ genCpp (tokenNames wordRules) wordGrammar tb = .ok src ∧ src.compile.isSome ∧
    cppReduceSwitch wordGrammar = .ok calls ∧
    runCppParser (cppLRFiles (tokenNames wordRules) src calls) (codeInput (streamOf [0, 2, 1])) 20 =
      some (.returned [.shift 2 (), .shift 4 (), .call "reduce_s_2".toList, .shift 3 (), .call "reduce_s_1".toList] 3) ∧
    runCppParser (cppLRFiles (tokenNames wordRules) src calls) (codeInput (streamOf [0, 2])) 20 =
      some (.thrown [.shift 2 (), .shift 4 ()] 2 "Unexpected token '<EOF>', expected one of: 'rp'".toList) := by
  have h : wordCpp = true := by decide +kernel
  unfold wordCpp at h
  split at h
  · rename_i tb ht
    split at h
    · rename_i p src calls hp hsrc hc
      split at h
      · rename_i c hcc
        rw [Bool.and_eq_true, decide_eq_true_eq, decide_eq_true_eq] at h
        obtain ⟨h1, h2⟩ := h
        have hn : ∀ m ∈ tokenNames wordRules, IsWord m := by
          intro m hm
          obtain ⟨t, h1, rfl⟩ := List.mem_map.mp hm
          exact wordRules_words.1 t h1
        have key := C73_parser_text (T := Unit) _ _ _ src hsrc c hcc calls hc hn (wordNames wordGrammar_built (by decide) (by decide) wordRules_words)
        exact ⟨tb, p, src, calls, ⟨false, 60, .inl ht⟩, hp, hsrc, by rw [hcc]; rfl, hc, by rw [key, h1], by rw [key, h2]⟩
      · cases h
    · cases h
  · cases h

end Verif
