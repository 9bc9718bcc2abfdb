import Verif.Proofs.PipelineText
import Verif.Proofs.EbnfCond
import Verif.Proofs.GrammarCheck
import Verif.Props.Pipeline

/-!
# C62 for all kinds of tables, and where in the text an error is

`LRParserFor g kind p`: `p` is the Rust parser generated for `g` with this kind of table. `kind.hasLa`: LALR or LR(1). `FirstTokens rules text ts rest`: the text begins with these
tokens, and `rest` is behind them.
-/

set_option autoImplicit false

namespace Verif

section
variable {entry : String} {rules : List TokenRule} {prods : List ProdRule} {t : LexerTables} {lexFuel : Nat} {g : Grammar} {kind : LRKind} {p : LRProg}
variable (hlex : generateLexer lexFuel rules = .ok (.ok t)) (hne : ∀ r ∈ rules, r.NoEmptySeq ∧ r.Useful)
variable (hg : Grammar.fromRuleSet (ruleSet entry rules prods) = .ok g) (hf : (ruleSet entry rules prods).Fine) (hp : LRParserFor g kind p)
variable (skip : Nat → Bool) (src : List Char) {input : Nat → Tok × List Char} (hin : FedBy t skip (Lexer.new src) input)
include hlex hne hin hg hf hp

/-- LALR parsers, too, return Ok for exactly those texts whose tokens, those to be left out removed, match the entry rule, if no body uses the entry rule. -/
theorem C62_lalr_accepts (hk : kind.hasLa = true) (hu : (ruleSet entry rules prods).EntryUnused) : (∃ fuel events pos, lrParse p.machine input fuel = .ok events pos) ↔
    ∃ ts, TextTokens rules src ts ∧ Den (ruleSet entry rules prods) (.rule entry) ((kept skip ts).map (·.1)) := by
  have wf := C19_well_formed _ _ hg
  have hner : NoEmptyRhs g := C19_no_empty_right_side _ g hg hf.noEmptySequence
  have hel := C27_epsilon_condition _ g hg hf.noEpsilonInSequence
  have hl := entry_not_left_recursive hg hf
  have hfr := entryFresh_of_rules hg hf.prods hu
  have hlang := C18_entry_language _ g hg hf.tokens hf.prods
  constructor
  · rintro ⟨fuel, events, pos, h⟩
    obtain ⟨w, h1, h2⟩ := C28_sentence g wf hner kind p hp input fuel events pos h
    have h3 := lr_eof wf hner hp hk hfr h
    have hs : StreamIs input w := ⟨h1.2, by rw [h1.1]; exact h3⟩
    obtain ⟨ts, h4, rfl⟩ := (C62_stream hlex hne skip src hin w).mp hs
    exact ⟨ts, h4, (hlang _).mp h2⟩
  · rintro ⟨ts, h1, h2⟩
    have hs := (C62_stream hlex hne skip src hin _).mpr ⟨ts, h1, rfl⟩
    have hd := (hlang _).mpr h2
    obtain ⟨E, hE, _⟩ := wf.entry_declared
    rw [hE] at hd
    obtain ⟨tree, ht, he⟩ := derives_tree hd
    rw [← hE] at ht
    rw [← he] at hs
    obtain ⟨n, events, h1, _⟩ := lr_accepts g wf hner hel hl kind p hp tree ht input hs
    exact ⟨n, events, _, h1 n (Nat.le_refl _)⟩

/-- With any kind of table: Ok for every text whose tokens, those to be left out removed, match the entry rule, and only if at least the first ones do. -/
theorem C62_kinds : ((∃ ts, TextTokens rules src ts ∧ Den (ruleSet entry rules prods) (.rule entry) ((kept skip ts).map (·.1))) →
      ∃ fuel events pos, lrParse p.machine input fuel = .ok events pos) ∧
    ∀ fuel events pos, lrParse p.machine input fuel = .ok events pos → ∃ ts rest tree, FirstTokens rules src ts rest ∧ IsParseTree g.rules g.entry tree ∧ tree.tokens = kept skip ts ∧
      TraceIs g events tree.postorder ∧ Den (ruleSet entry rules prods) (.rule entry) ((kept skip ts).map (·.1)) := by
  have wf := C19_well_formed _ _ hg
  have hner : NoEmptyRhs g := C19_no_empty_right_side _ g hg hf.noEmptySequence
  have hel := C27_epsilon_condition _ g hg hf.noEpsilonInSequence
  have hl := entry_not_left_recursive hg hf
  have hlang := C18_entry_language _ g hg hf.tokens hf.prods
  constructor
  · rintro ⟨ts, h1, h2⟩
    have hs := (C62_stream hlex hne skip src hin _).mpr ⟨ts, h1, rfl⟩
    have hd := (hlang _).mpr h2
    obtain ⟨E, hE, _⟩ := wf.entry_declared
    rw [hE] at hd
    obtain ⟨tree, ht, he⟩ := derives_tree hd
    rw [← hE] at ht
    rw [← he] at hs
    obtain ⟨n, events, h1, _⟩ := lr_accepts g wf hner hel hl kind p hp tree ht input hs
    exact ⟨n, events, _, h1 n (Nat.le_refl _)⟩
  · intro fuel events pos h
    obtain ⟨tree, h1, h2, h3⟩ := C28_sound g wf hner kind p hp input fuel events pos h
    obtain ⟨ts, rest, f1, f2, _⟩ := fed_first hlex hne (inv_new src) hin pos h2.toks
    have he := h2.unique f2
    exact ⟨ts, rest, tree, f1, h1, he, h3, (hlang _).mp (by rw [← he]; exact isParseTree_derives h1)⟩

omit hne in
/-- With any kind of table the parser comes to an end for every text, with Ok or with an error. -/
theorem C62_kinds_total (hε : ∀ r ∈ rules, ¬ r.Matches []) (hprod : ∀ q ∈ prods, ∃ w, Den (ruleSet entry rules prods) (.rule q.name) w) :
    ∃ bound r, (∀ fuel, bound ≤ fuel → lrParse p.machine input fuel = r) ∧
      ((∃ events pos, r = .ok events pos) ∨ ∃ events pos expected, r = .unexpected events pos expected) := by
  have wf := C19_well_formed _ _ hg
  have hner : NoEmptyRhs g := C19_no_empty_right_side _ g hg hf.noEmptySequence
  have hel := C27_epsilon_condition _ g hg hf.noEpsilonInSequence
  have hl := entry_not_left_recursive hg hf
  obtain ⟨L, hL⟩ := fedBy_ends hlex hε hin
  obtain ⟨gr, hv, hj, hsp⟩ := parser_graph wf hner hp
  have hm := prog_follows wf hv.base hsp
  obtain ⟨n, hn⟩ := lr_stops_from (input := input) (L := L) wf hv hj hm (prog_obeys wf hv.base hsp) hel hl (productive_of_rules hg hf hprod) hL L 0 (by omega) [.state 0] [] [] .base
  have hn : ∀ e q, lrRun p.machine input n [.state p.machine.entry] 0 [] ≠ .running e q := by rw [hm.entry]; exact hn
  have hmono := lrRun_mono n [.state p.machine.entry] 0 [] hn
  refine ⟨n, lrParse p.machine input n, fun fuel hf => hmono fuel hf, ?_⟩
  cases hr : lrParse p.machine input n with
  | running e q => exact absurd hr (hn e q)
  | panic e q => exact absurd hr (C34_no_panic g wf hner kind p hp input n e q)
  | ok e q => exact .inl ⟨e, q, rfl⟩
  | unexpected e q x => exact .inr ⟨e, q, x, rfl⟩

/-- Where an error is in the text, with any kind of table: the text begins with tokens that, those to be left out removed, begin some token string that matches the entry rule; the
error is at what comes then: a token with which they do not begin such a string any more, the end of the text when they do not match the entry rule themselves, or a place where no
token begins. -/
theorem C62_error_text (hprod : ∀ q ∈ prods, ∃ w, Den (ruleSet entry rules prods) (.rule q.name) w) (fuel : Nat) (events : List (LREvent (List Char))) (pos : Nat)
    (expected : List Sym) (h : lrParse p.machine input fuel = .unexpected events pos expected) :
    ∃ ts rest, FirstTokens rules src ts rest ∧ Consumes input pos (kept skip ts) ∧ GetsNext rules skip rest (input pos) ∧
      (∃ v, Den (ruleSet entry rules prods) (.rule entry) ((kept skip ts).map (·.1) ++ v)) ∧
      (∀ a v, (input pos).1 = .tok a → ¬ Den (ruleSet entry rules prods) (.rule entry) ((kept skip ts).map (·.1) ++ a :: v)) ∧
      ((input pos).1 = .eof → ¬ Den (ruleSet entry rules prods) (.rule entry) ((kept skip ts).map (·.1))) := by
  have wf := C19_well_formed _ _ hg
  have hner : NoEmptyRhs g := C19_no_empty_right_side _ g hg hf.noEmptySequence
  have hel := C27_epsilon_condition _ g hg hf.noEpsilonInSequence
  have hl := entry_not_left_recursive hg hf
  have hlang := C18_entry_language _ g hg hf.tokens hf.prods
  obtain ⟨⟨w, v, h1, h2⟩, h3⟩ := C56_lr_error g wf hner hel hl (productive_of_rules hg hf hprod) kind p hp input fuel events pos expected h
  obtain ⟨ts, rest, f1, f2, f3⟩ := fed_first hlex hne (inv_new src) hin pos h1.toks
  obtain rfl := h1.unique f2
  exact ⟨ts, rest, f1, f2, f3, ⟨v, (hlang _).mp h2⟩, fun a v ha hd => h3 ⟨_, h1, .inl ⟨a, v, ha, (hlang _).mpr hd⟩⟩,
    fun he hd => h3 ⟨_, h1, .inr ⟨he, (hlang _).mpr hd⟩⟩⟩

end

section
variable {entry : String} {rules : List TokenRule} {prods : List ProdRule} {t : LexerTables} {lexFuel : Nat} {g : Grammar} {kind : LRKind} {p : GlrProg}
variable (hlex : generateLexer lexFuel rules = .ok (.ok t)) (hne : ∀ r ∈ rules, r.NoEmptySeq ∧ r.Useful)
variable (hg : Grammar.fromRuleSet (ruleSet entry rules prods) = .ok g) (hf : (ruleSet entry rules prods).Fine) (hu : (ruleSet entry rules prods).EntryUnused)
variable (hk : kind.hasLa = true) (hp : GlrParserFor g kind p)
variable (skip : Nat → Bool) (src : List Char) {input : Nat → Tok × List Char} (hin : FedBy t skip (Lexer.new src) input)
include hlex hne hin hg hf hu hk hp

/-- When a GLR parser returns Ok, the text consists of tokens, and the callbacks are those of a parse tree of them (those to be left out removed). -/
theorem C62_glr_ok (fuel : Nat) (events : List (LREvent (List Char))) (pos : Nat) (h : glrParse p.machine input fuel = .ok events pos) :
    ∃ ts tree, TextTokens rules src ts ∧ IsParseOf g (kept skip ts) tree ∧ TraceIs g events tree.postorder ∧
      Den (ruleSet entry rules prods) (.rule entry) ((kept skip ts).map (·.1)) := by
  have wf := C19_well_formed _ _ hg
  have hner : NoEmptyRhs g := C19_no_empty_right_side _ g hg hf.noEmptySequence
  obtain ⟨gr, hv, hm⟩ := glr_parser_inv wf hner hp
  have hspec := glrParse_spec hv hm input fuel
  rw [h] at hspec
  obtain ⟨k, rfl, hacc, _⟩ := hspec
  obtain ⟨tree, t1, t2, t3⟩ := acc_tree hv hm hacc
  have heof := acc_eof hv hm (acceptEof_fresh wf hv hk (entryFresh_of_rules hg hf.prods hu)) hacc
  have hs : StreamIs input tree.tokens := ⟨t2.2, by rw [t2.1]; exact heof⟩
  obtain ⟨ts, s1, s2⟩ := (C62_stream hlex hne skip src hin _).mp hs
  exact ⟨ts, tree, s1, ⟨t1, s2⟩, t3, (C18_entry_language _ g hg hf.tokens hf.prods _).mp (by rw [← s2]; exact isParseTree_derives t1)⟩

/-- For a text that consists of tokens it comes to an end and tells whether they have exactly one parse tree (Ok), none (an error), or more (a panic). (No rule twice, no cycles, no
hidden left recursion.) -/
theorem C62_glr_decides (hd : DistinctRules g) (hc : NoCycle g) (hh : NoHiddenLeftRecursion g) (ts : List (Nat × List Char)) (hts : TextTokens rules src ts) :
    ∃ bound, ∀ fuel, bound ≤ fuel →
      ((∃ events pos, glrParse p.machine input fuel = .ok events pos) ↔ ∃ tree, IsParseOf g (kept skip ts) tree ∧ ∀ tree', IsParseOf g (kept skip ts) tree' → tree' = tree) ∧
      ((∃ events pos errs, glrParse p.machine input fuel = .unexpected events pos errs) ↔ ¬ Den (ruleSet entry rules prods) (.rule entry) ((kept skip ts).map (·.1))) ∧
      ((∃ events pos, glrParse p.machine input fuel = .panic events pos) ↔
        ∃ tree tree', tree ≠ tree' ∧ IsParseOf g (kept skip ts) tree ∧ IsParseOf g (kept skip ts) tree') := by
  have wf := C19_well_formed _ _ hg
  have hner : NoEmptyRhs g := C19_no_empty_right_side _ g hg hf.noEmptySequence
  have hel := C27_epsilon_condition _ g hg hf.noEpsilonInSequence
  have hlang : ∀ w, Derives g.rules [g.entry] w ↔ Den (ruleSet entry rules prods) (.rule entry) w := C18_entry_language _ g hg hf.tokens hf.prods
  obtain ⟨bound, h⟩ := C54_decides_empty g wf hner hel hd (entryFresh_of_rules hg hf.prods hu) hc hh kind hk p hp (kept skip ts) input
    ((C62_stream hlex hne skip src hin _).mpr ⟨ts, hts, rfl⟩)
  refine ⟨bound, fun fuel hfu => ⟨(h fuel hfu).1, (h fuel hfu).2.1.trans ?_, (h fuel hfu).2.2⟩⟩
  rw [← hlang]
  constructor
  · intro hno hder
    obtain ⟨E, hE, _⟩ := wf.entry_declared
    rw [hE] at hder
    obtain ⟨tree, ht, he⟩ := derives_tree hder
    rw [← hE] at ht
    exact hno tree ⟨ht, he⟩
  · intro hno tree ht
    exact hno (by rw [← ht.2]; exact isParseTree_derives ht.1)

end

/-! ## Non-vacuity -/

theorem sum_unused : (ruleSet "sum" sumTokens sumProds).EntryUnused := by
  intro q hq hm
  simp only [ruleSet, sumProds, List.mem_singleton] at hq
  subst hq
  have key : ∀ n, Mentions (.sequence [.rule "n", .zeroOrMany (.sequence [.rule "plus", .rule "n"])]) n → n = "n" ∨ n = "plus" := by
    intro n h
    cases h with
    | sequence hm h =>
      simp only [List.mem_cons, List.not_mem_nil, or_false] at hm
      rcases hm with rfl | rfl
      · cases h; exact .inl rfl
      · cases h with
        | zeroOrMany h =>
          cases h with
          | sequence hm h =>
            simp only [List.mem_cons, List.not_mem_nil, or_false] at hm
            rcases hm with rfl | rfl <;> cases h
            · exact .inr rfl
            · exact .inl rfl
  rcases key _ hm with h | h <;> exact absurd h (by decide)

theorem sum_ranked : wellRanked sumGrammar [3] (fun A => if A = 0 then 1 else 0) = true := by decide

-- the hypotheses of the theorems above hold for every text
example (src : List Char) : ∃ t p p' input, generateLexer 20 sumTokens = .ok (.ok t) ∧ (∀ r ∈ sumTokens, r.NoEmptySeq ∧ r.Useful) ∧ (∀ r ∈ sumTokens, ¬ r.Matches []) ∧
    Grammar.fromRuleSet (ruleSet "sum" sumTokens sumProds) = .ok sumGrammar ∧ (ruleSet "sum" sumTokens sumProds).Fine ∧ (ruleSet "sum" sumTokens sumProds).EntryUnused ∧
    LRParserFor sumGrammar .lalr p ∧ GlrParserFor sumGrammar .lalr p' ∧ FedBy t (· == 2) (Lexer.new src) input ∧ DistinctRules sumGrammar ∧ NoCycle sumGrammar ∧
    NoHiddenLeftRecursion sumGrammar := by
  obtain ⟨t, ht⟩ := Res.of_tables (r := generateLexer 20 sumTokens) (by decide +kernel)
  obtain ⟨p, hp, _⟩ := lrTry_some (g := sumGrammar) (kind := .lalr) (fuel := 40) (w := []) (steps := 0) (r := .running [] 0) (by decide +kernel)
  obtain ⟨p', hp', _⟩ := glrTry_some (g := sumGrammar) (kind := .lalr) (fuel := 40) (w := []) (steps := 0) (r := .running [] 0) (by decide +kernel)
  obtain ⟨input, hin, _⟩ := C62_token_function ht sumTokens_nonempty (· == 2) src
  exact ⟨t, p, p', input, ht, sumTokens_useful, sumTokens_nonempty, sumGrammar_built, sum_fine, sum_unused, hp, hp', hin, by unfold DistinctRules; decide,
    (wellRanked_spec sum_ranked).1, (wellRanked_spec sum_ranked).2⟩

-- a text with an error behind its first token: there is a `+` instead of a number
example : FirstTokens sumTokens "++".toList [(1, ['+'])] ['+'] ∧ GetsNext sumTokens (· == 2) ['+'] (.tok 1, ['+']) := by
  have viable : ∀ p, Viable sumTokens ('+' :: p) → p = [] := by
    rintro p ⟨s, r, hr, hm⟩
    simp only [sumTokens, List.mem_cons, List.not_mem_nil, or_false] at hr
    rcases hr with rfl | rfl | rfl
    · obtain ⟨n, h1, _, h2⟩ := hm
      cases n with
      | zero => omega
      | succ n =>
        obtain ⟨a, b, h3, h4, _⟩ := h2
        obtain ⟨c, rfl, h4⟩ := h4
        simp only [List.cons_append, List.nil_append, List.cons.injEq] at h3
        rw [← h3.1] at h4
        exact absurd h4 (by simp [Characters.Has])
    · simp [TokenRule.Matches] at hm
      exact hm.1
    · simp [TokenRule.Matches] at hm
  have best : BestMatch sumTokens ['+'] 1 := by
    refine ⟨sumTokens[1], _, rfl, rfl, rfl, ?_⟩
    intro j r hj hm hne
    match j, hj with
    | 0, hj =>
      cases hj
      obtain ⟨n, h1, _, h2⟩ := hm
      cases n with
      | zero => omega
      | succ n =>
        obtain ⟨a, b, h3, h4, _⟩ := h2
        obtain ⟨c, rfl, h4⟩ := h4
        simp only [List.cons_append, List.nil_append, List.cons.injEq] at h3
        rw [← h3.1] at h4
        exact absurd h4 (by simp [Characters.Has])
    | 1, hj => exact absurd rfl hne
    | 2, hj =>
      cases hj
      simp [TokenRule.Matches] at hm
  have long : ∀ rest p suf, ['+'] ++ rest = p ++ suf → nul ∉ p → Viable sumTokens p → p.length ≤ ['+'].length := by
    intro rest p suf h _ hv
    cases p with
    | nil => simp
    | cons c p =>
      cases h
      rw [viable p hv]
  have ne : ∀ rest, ¬ AtEnd (['+'] ++ rest) := by
    intro rest h
    rcases h with h | ⟨r, h⟩
    · cases h
    · exact absurd (Option.some.inj (congrArg List.head? h)) (by decide)
  exact ⟨.token (m := ['+']) (rest := ['+']) (ne _) (by decide) best (long _) .none,
    .token (tail := []) (.token (m := ['+']) (rest := []) (ne _) (by decide) best (long _) .none) rfl⟩

end Verif
