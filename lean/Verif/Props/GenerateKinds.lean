import Verif.Props.Generate
import Verif.Props.PipelineKinds

/-! # C65 for LALR and GLR: from the text of the grammar file to the language of the generated code -/

set_option autoImplicit false

namespace Verif

theorem BeginsWith.mentions {p : ProdPattern} {n : String} (h : BeginsWith p n) : Mentions p n := by
  induction h with
  | rule n => exact .rule n
  | sequence _ ih => exact .sequence (by simp) ih
  | alternative hm _ ih => exact .alternative hm ih
  | oneOrMany _ ih => exact .oneOrMany ih
  | zeroOrMany _ ih => exact .zeroOrMany ih
  | optional _ ih => exact .optional ih

theorem RuleSet.EntryUnused.corner {rs : RuleSet} (h : rs.EntryUnused) (a : String) : ¬ NameCorner rs a rs.entry := by
  intro hc
  generalize hb : rs.entry = b at hc
  cases hc with
  | one hp hw => exact h _ hp (hb ▸ hw.mentions)
  | more _ hp hw => exact h _ hp (hb ▸ hw.mentions)

section
variable {lexFuel : Nat} {t0 : LexerTables} (hlex : generateLexer lexFuel lapexTokens = .ok (.ok t0)) {p0 : LRProg} (hp0 : LRParserFor lapexGrammar .lr1 p0)
variable {syn : List Char → Option Hir} {text : List Char} (hb : bytes text < 65535)
include hlex hp0 hb

/-- When `generate` returns Ok for an LALR or LR(1) parser in Rust and no body uses the entry rule, the lexer and the parser written accept together exactly the texts that split into
tokens of the token rules, those left out removed, which match the entry rule. -/
theorem C65_lalr_accepts {pf fuel : Nat} {alg : Algorithm} (ha : alg = .lalr ∨ alg = .lr1) {genTable : Bool} {path : List Char} {ws : List Written}
    (h : generate (parseLapex syn t0 p0.machine pf) fuel true alg genTable .rust path (some text) = (ws, .ok)) :
    ∃ ts rules lexer parser, TextTokens lapexTokens text ts ∧ FileMeans syn (fileTokens ts) rules ∧ Written.lexer lexer ∈ ws ∧ Written.rustParser parser ∈ ws ∧
      (rules.ruleSet.NoEpsilonInSequence → rules.ruleSet.EntryUnused → (∀ r ∈ rules.tokens, r.inner.NoEmptySeq ∧ r.inner.Useful) →
        ∀ (skip : Nat → Bool) (src : List Char) (input : Nat → Tok × List Char), FedBy lexer skip (Lexer.new src) input →
          ((∃ n events pos, lrParse parser.machine input n = .ok events pos) ↔
            ∃ us, TextTokens (rules.tokens.map (·.inner)) src us ∧ Den rules.ruleSet (.rule rules.entry.inner) ((kept skip us).map (·.1)))) := by
  obtain ⟨text', rules, g, vs, lexer, table, parser, tb, h1, h2, h3, h4, h5, h6, h7, h8⟩ := C65_ok _ _ _ _ _ _ _ _ _ h
  cases h1
  simp only [if_true] at h6
  obtain ⟨t, n, rfl, ht⟩ := h6
  obtain ⟨ts, m1, m2⟩ := (C63_answer hlex hp0 syn text hb rules).mp ⟨pf, h2⟩
  obtain ⟨f1, f2, f3, f4⟩ := parsed_fine hlex hp0 hb h2
  cases h5 with
  | glr => rcases ha with ha | ha <;> cases ha
  | @rust _ kind n' tb p hk htb hp =>
    have hla : kind.hasLa = true := by rcases ha with rfl | rfl <;> cases hk <;> rfl
    refine ⟨ts, rules, t, p, m1, m2, by rw [h4]; simp, by rw [h4]; simp, fun hE hl hu skip src input hin => ?_⟩
    rw [SpannedRules.ruleSet_eq] at h3 hE hl f3 f4 ⊢
    refine C62_lalr_accepts ht (fun r hm => ?_) h3 ⟨by simpa [ruleSet] using f1, by simpa [ruleSet] using f2, f3, f4, hE, hl.corner _⟩ ⟨false, n', tb, .inl htb, hp⟩ skip src hin hla hl
    obtain ⟨x, hx, rfl⟩ := List.mem_map.mp hm
    exact hu x hx

/-- When `generate` returns Ok for a GLR parser in Rust and no body uses the entry rule, the parser written, fed by the lexer written, returns Ok only for texts whose tokens match the
entry rule. If the grammar has no rule twice, no cycles and no hidden left recursion, it decides for every text that consists of tokens whether they have exactly one parse tree
(Ok), do not match the entry rule (an error), or have several trees (a panic). -/
theorem C65_glr_decides {pf fuel : Nat} {genTable : Bool} {path : List Char} {ws : List Written}
    (h : generate (parseLapex syn t0 p0.machine pf) fuel true .glr genTable .rust path (some text) = (ws, .ok)) :
    ∃ ts rules g lexer parser, TextTokens lapexTokens text ts ∧ FileMeans syn (fileTokens ts) rules ∧ Grammar.fromRuleSet rules.ruleSet = .ok g ∧ Written.lexer lexer ∈ ws ∧
      Written.rustGlrParser parser ∈ ws ∧
      (rules.ruleSet.NoEpsilonInSequence → rules.ruleSet.EntryUnused → (∀ r ∈ rules.tokens, r.inner.NoEmptySeq ∧ r.inner.Useful) →
        ∀ (skip : Nat → Bool) (src : List Char) (input : Nat → Tok × List Char), FedBy lexer skip (Lexer.new src) input →
          (∀ n events pos, glrParse parser.machine input n = .ok events pos →
            ∃ us, TextTokens (rules.tokens.map (·.inner)) src us ∧ Den rules.ruleSet (.rule rules.entry.inner) ((kept skip us).map (·.1))) ∧
          (DistinctRules g → NoCycle g → NoHiddenLeftRecursion g → ∀ us, TextTokens (rules.tokens.map (·.inner)) src us → ∃ bound, ∀ n, bound ≤ n →
            ((∃ events pos, glrParse parser.machine input n = .ok events pos) ↔ ∃ tree, IsParseOf g (kept skip us) tree ∧ ∀ tree', IsParseOf g (kept skip us) tree' → tree' = tree) ∧
            ((∃ events pos errs, glrParse parser.machine input n = .unexpected events pos errs) ↔ ¬ Den rules.ruleSet (.rule rules.entry.inner) ((kept skip us).map (·.1))) ∧
            ((∃ events pos, glrParse parser.machine input n = .panic events pos) ↔
              ∃ tree tree', tree ≠ tree' ∧ IsParseOf g (kept skip us) tree ∧ IsParseOf g (kept skip us) tree'))) := by
  obtain ⟨text', rules, g, vs, lexer, table, parser, tb, h1, h2, h3, h4, h5, h6, h7, h8⟩ := C65_ok _ _ _ _ _ _ _ _ _ h
  cases h1
  simp only [if_true] at h6
  obtain ⟨t, n, rfl, ht⟩ := h6
  obtain ⟨ts, m1, m2⟩ := (C63_answer hlex hp0 syn text hb rules).mp ⟨pf, h2⟩
  obtain ⟨f1, f2, f3, f4⟩ := parsed_fine hlex hp0 hb h2
  generalize ha : Algorithm.glr = a at h5
  cases h5 with
  | rust hk => subst ha; cases hk
  | @glr tb p htb hp =>
    refine ⟨ts, rules, g, t, p, m1, m2, h3, by rw [h4]; simp, by rw [h4]; simp, fun hE hl hu skip src input hin => ?_⟩
    rw [SpannedRules.ruleSet_eq] at h3 hE hl f3 f4 ⊢
    have hfine : (ruleSet rules.entry.inner (rules.tokens.map (·.inner)) (rules.prods.map (·.inner))).Fine :=
      ⟨by simpa [ruleSet] using f1, by simpa [ruleSet] using f2, f3, f4, hE, hl.corner _⟩
    have hu' : ∀ r ∈ rules.tokens.map (·.inner), r.NoEmptySeq ∧ r.Useful := fun r hm => by
      obtain ⟨x, hx, rfl⟩ := List.mem_map.mp hm
      exact hu x hx
    obtain ⟨allow, n', htb⟩ := htb
    have hp' : GlrParserFor g .lalr p := ⟨allow, n', tb, htb, hp⟩
    refine ⟨fun n events pos hr => ?_, fun hd hc hh us hus => C62_glr_decides ht hu' h3 hfine hl rfl hp' skip src hin hd hc hh us hus⟩
    obtain ⟨us, tree, u1, _, _, u2⟩ := C62_glr_ok ht hu' h3 hfine hl rfl hp' skip src hin n events pos hr
    exact ⟨us, u1, u2⟩

end

/-! ## Non-vacuity -/

-- `entry s; token A[7] = "a"; prod s = A A | A;`
example : ∃ lexFuel t p pf, generateLexer lexFuel lapexTokens = .ok (.ok t) ∧ LRParserFor lapexGrammar .lr1 p ∧ bytes sampleText < 65535 ∧
    (∃ ws, generate (parseLapex (fun _ => none) t p.machine pf) 100 true .lalr true .rust "x.lapex".toList (some sampleText) = (ws, .ok)) ∧
    ∃ ws, generate (parseLapex (fun _ => none) t p.machine pf) 100 true .glr true .rust "x.lapex".toList (some sampleText) = (ws, .ok) := by
  obtain ⟨⟨f, t, ht⟩, p, hp⟩ := C63_exists
  obtain ⟨pf, h⟩ := (C63_answer ht hp (fun _ => none) sampleText (by decide +kernel) sampleOut).mpr sampleText_file
  refine ⟨f, t, p, pf, ht, hp, by decide +kernel, ⟨(generate (fun _ => .ok sampleOut) 100 true .lalr true .rust "x.lapex".toList (some sampleText)).1, ?_⟩,
    (generate (fun _ => .ok sampleOut) 100 true .glr true .rust "x.lapex".toList (some sampleText)).1, ?_⟩
  all_goals
    rw [generate_of_parse h]
    exact Prod.ext rfl (by decide +kernel)

end Verif
