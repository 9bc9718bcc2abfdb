import Mathlib.Data.List.Dedup
import Verif.Proofs.GenerateFile
import Verif.Proofs.GenerateTotal
import Verif.Proofs.Settled
import Verif.Props.Pipeline
import Verif.Props.LR1

/-!
# C65 — `lapex::generate`

`generate parse fuel genLexer alg genTable lang path contents`: what is written and how the run ends, when the grammar file contains `contents` (`none`: it cannot be read).
`parse` is the input parser; the command line tool uses the one of C63.
-/

set_option autoImplicit false

namespace Verif

section
variable (parse : List Char → Res SpannedRules) (fuel : Nat) (genLexer : Bool) (alg : Algorithm) (genTable : Bool) (lang : Language) (path : List Char)
  (contents : Option (List Char)) (ws : List Written)

/-- When `generate` returns Ok, it has written the tokens, the lexer if it was asked for, the table if it was asked for and the algorithm uses one, and last the parser, made by
the algorithm asked for in the language asked for from the grammar of the file. The table file shows the table the parser is made from. -/
theorem C65_ok (h : generate parse fuel genLexer alg genTable lang path contents = (ws, .ok)) :
    ∃ text rules g vs lexer table parser tb, contents = some text ∧ parse text = .ok rules ∧ Grammar.fromRuleSet rules.ruleSet = .ok g ∧
      ws = [.tokens vs] ++ lexer ++ table ++ [parser] ∧ ParserFrom g (rules.tokens.map (·.inner.name.toList)) alg lang tb parser ∧
      (if genLexer = true then ∃ t n, lexer = [.lexer t] ∧ generateLexer n (rules.tokens.map (·.inner)) = .ok (.ok t) else lexer = []) ∧
      (if genTable = true ∧ alg ≠ .ll1 then ∃ tb' shown, tb = some tb' ∧ outputTable g tb' = .ok shown ∧ table = [.table shown] else table = []) ∧
      TokensFrom lang (rules.tokens.map (·.inner.name.toList)) vs := by
  unfold generate at h
  cases contents with
  | none => cases h
  | some text =>
    simp only at h
    cases hp : parse text with
    | error e => rw [hp] at h; cases e <;> simp [Ending.failed] at h
    | ok rules =>
      rw [hp] at h
      simp only at h
      cases ht : tokenFile lang (rules.tokens.map (·.inner)) with
      | error e => rw [ht] at h; cases e <;> simp [Ending.failed] at h
      | ok toks =>
        rw [ht] at h
        simp only at h
        have hv : ∃ vs, toks = .tokens vs ∧ TokensFrom lang (rules.tokens.map (·.inner.name.toList)) vs := by
          unfold tokenFile at ht
          cases lang with
          | rust =>
            obtain ⟨vs, h1, h2⟩ := res_bind_ok.mp ht
            cases h2
            rw [List.map_map] at h1
            exact ⟨vs, rfl, h1⟩
          | cpp =>
            cases ht
            exact ⟨_, rfl, by rw [TokensFrom, List.map_map]; rfl⟩
        obtain ⟨vs, rfl, hv⟩ := hv
        cases genLexer with
        | false =>
          obtain ⟨g, ws', h1, h2, tb, parser, table, h3, h4, h5⟩ := generateParser_ok h
          exact ⟨text, rules, g, vs, [], table, parser, tb, rfl, hp, h1, by rw [h2, h4]; simp, h3, rfl, h5, hv⟩
        | true =>
          simp only [if_true] at h
          cases hl : generateLexer fuel (rules.tokens.map (·.inner)) with
          | error e => rw [hl] at h; cases e <;> simp [Ending.failed] at h
          | ok r =>
            rw [hl] at h
            cases r with
            | error e =>
              simp only at h
              split at h
              · rename_i e' _; cases e' <;> simp [Ending.failed] at h
              · cases h
            | ok t =>
              obtain ⟨g, ws', h1, h2, tb, parser, table, h3, h4, h5⟩ := generateParser_ok h
              exact ⟨text, rules, g, vs, [.lexer t], table, parser, tb, rfl, hp, h1, by rw [h2, h4]; simp, h3, ⟨t, fuel, rfl, hl⟩, h5, hv⟩

/-- When `generate` returns an error, no parser and no table have been written. The error is one of three: the grammar file could not be read; token rules with equal precedence match
the same text (then no lexer has been written either), and the report names them and quotes them from the file; or the table of an LR algorithm has conflicts, and there is exactly one
report for each, which quotes the productions the rules of the conflict come from. -/
theorem C65_err (reports : List Report) (h : generate parse fuel genLexer alg genTable lang path contents = (ws, .err reports))
    (hE : ∀ text rules, contents = some text → parse text = .ok rules → rules.ruleSet.NoEmptySequence) :
    (∀ w ∈ ws, w.isParser = false ∧ ∀ shown, w ≠ .table shown) ∧
    ((contents = none ∧ ws = [] ∧ reports = [.io path]) ∨
     (∃ text rules e xs, contents = some text ∧ parse text = .ok rules ∧ genLexer = true ∧ (∀ w ∈ ws, w.isLexer = false) ∧
        generateLexer fuel (rules.tokens.map (·.inner)) = .ok (.error e) ∧ reports = [.precedence xs] ∧ List.Forall₂ (TellsToken path text rules.tokens) e.rules xs) ∨
     (∃ text rules g kind cs, contents = some text ∧ parse text = .ok rules ∧ Grammar.fromRuleSet rules.ruleSet = .ok g ∧ alg.kind = some kind ∧
        generateTable g false kind fuel = .ok (.badConflicts cs) ∧ cs ≠ [] ∧ reports ≠ [] ∧
        ∃ cs', cs'.Nodup ∧ (∀ c, c ∈ cs' ↔ c ∈ cs) ∧ List.Forall₂ (TellsConflict path text rules.prods g) cs' reports)) := by
  unfold generate at h
  cases contents with
  | none => cases h; exact ⟨by simp, .inl ⟨rfl, rfl, rfl⟩⟩
  | some text =>
    simp only at h
    cases hp : parse text with
    | error e => rw [hp] at h; cases e <;> simp [Ending.failed] at h
    | ok rules =>
      rw [hp] at h
      simp only at h
      cases ht : tokenFile lang (rules.tokens.map (·.inner)) with
      | error e => rw [ht] at h; cases e <;> simp [Ending.failed] at h
      | ok toks =>
        rw [ht] at h
        simp only at h
        obtain ⟨vs, rfl⟩ : ∃ vs, toks = .tokens vs := by
          unfold tokenFile at ht
          cases lang with
          | rust => obtain ⟨vs, _, h2⟩ := res_bind_ok.mp ht; cases h2; exact ⟨vs, rfl⟩
          | cpp => cases ht; exact ⟨_, rfl⟩
        have conflicts : ∀ written, generateParser fuel lang alg genTable path text rules written = (ws, .err reports) →
            ws = written ∧ ∃ g kind cs, Grammar.fromRuleSet rules.ruleSet = .ok g ∧ alg.kind = some kind ∧
              generateTable g false kind fuel = .ok (.badConflicts cs) ∧ cs ≠ [] ∧ reports ≠ [] ∧
              ∃ cs', cs'.Nodup ∧ (∀ c, c ∈ cs' ↔ c ∈ cs) ∧ List.Forall₂ (TellsConflict path text rules.prods g) cs' reports := by
          intro written h
          obtain ⟨h1, g, kind, cs, h2, h3, h4, h5⟩ := generateParser_err h
          have wf := C19_well_formed _ _ h2
          have hne : NoEmptyRhs g := C19_no_empty_right_side _ g h2 (hE text rules rfl hp)
          have hcs := (badConflicts_ne h4).1
          have hf := mapM_forall₂ (P := TellsConflict path text rules.prods g) h5 (by
            intro c hc rep hr
            have := conflict_items wf hne h4 (List.mem_dedup.mp hc)
            refine conflictReport_tells ?_ hr
            cases c with
            | shiftReduce => exact this.1
            | reduceReduce => exact this)
          refine ⟨h1, g, kind, cs, h2, h3, h4, hcs, ?_, cs.dedup, List.nodup_dedup _, fun c => List.mem_dedup, hf⟩
          rintro rfl
          have := hf.length_eq
          obtain ⟨c, hc⟩ := List.exists_mem_of_ne_nil _ hcs
          have := List.length_pos_of_mem (List.mem_dedup.mpr hc)
          simp_all
        cases genLexer with
        | false =>
          obtain ⟨h1, g, kind, cs, h2⟩ := conflicts _ h
          refine ⟨by rw [h1]; simp [Written.isParser], .inr (.inr ⟨text, rules, g, kind, cs, rfl, hp, h2⟩)⟩
        | true =>
          simp only [if_true] at h
          cases hl : generateLexer fuel (rules.tokens.map (·.inner)) with
          | error e => rw [hl] at h; cases e <;> simp [Ending.failed] at h
          | ok r =>
            rw [hl] at h
            cases r with
            | ok t =>
              obtain ⟨h1, g, kind, cs, h2⟩ := conflicts _ h
              refine ⟨by rw [h1]; simp [Written.isParser], .inr (.inr ⟨text, rules, g, kind, cs, rfl, hp, h2⟩)⟩
            | error e =>
              simp only at h
              split at h
              · rename_i e' _; cases e' <;> simp [Ending.failed] at h
              · rename_i report hr
                cases h
                refine ⟨by simp [Written.isParser], .inr (.inl ?_)⟩
                unfold precedenceReport at hr
                obtain ⟨xs, hx, hr⟩ := res_bind_ok.mp hr
                cases hr
                refine ⟨text, rules, e, xs, rfl, hp, rfl, by simp [Written.isLexer], hl, rfl, mapM_forall₂ hx fun j _ x hj => ?_⟩
                unfold precedenceEntry at hj
                split at hj
                · rename_i r hr
                  obtain ⟨l, h1, h2⟩ := res_bind_ok.mp hj
                  cases h2
                  exact ⟨r, hr, fromSpan_ok h1, rfl⟩
                · cases hj

/-- The calls of `unreachable!()` in `generate` are never reached. -/
theorem C65_unreachable : generate parse fuel genLexer alg genTable lang path contents ≠ (ws, .panic .unreachable) := by
  intro h
  unfold generate at h
  cases contents with
  | none => cases h
  | some text =>
    simp only at h
    cases hp : parse text with
    | error e => rw [hp] at h; cases e <;> simp [Ending.failed] at h
    | ok rules =>
      rw [hp] at h
      simp only at h
      cases ht : tokenFile lang (rules.tokens.map (·.inner)) with
      | error e => rw [ht] at h; cases e <;> simp [Ending.failed] at h
      | ok toks =>
        rw [ht] at h
        simp only at h
        cases genLexer with
        | false => exact generateParser_unreachable h
        | true =>
          simp only [if_true] at h
          cases hl : generateLexer fuel (rules.tokens.map (·.inner)) with
          | error e => rw [hl] at h; cases e <;> simp [Ending.failed] at h
          | ok r =>
            rw [hl] at h
            cases r with
            | ok t => exact generateParser_unreachable h
            | error e =>
              simp only at h
              split at h
              · rename_i e' _; cases e' <;> simp [Ending.failed] at h
              · cases h

/-- There are no Rust LL(1) parsers and no C++ GLR parsers: for them `generate` never returns Ok. -/
theorem C65_missing : generate parse fuel genLexer .ll1 genTable .rust path contents ≠ (ws, .ok) ∧ generate parse fuel genLexer .glr genTable .cpp path contents ≠ (ws, .ok) := by
  constructor
  · intro h
    obtain ⟨_, _, _, _, _, _, _, _, _, _, _, _, hp, _⟩ := C65_ok _ _ _ _ _ _ _ _ _ h
    generalize ha : Algorithm.ll1 = a at hp
    cases hp with
    | rust hk => subst ha; cases hk
    | glr => cases ha
  · intro h
    obtain ⟨_, _, _, _, _, _, _, _, _, _, _, _, hp, _⟩ := C65_ok _ _ _ _ _ _ _ _ _ h
    generalize ha : Algorithm.glr = a at hp
    cases hp with
    | cpp hk => subst ha; cases hk
    | ll => cases ha

/-- The bound on the number of steps is no part of the result: a run that has ended, with Ok, an error or a panic, ends in the same way with every larger bound. -/
theorem C65_settled (ending : Ending) (h : generate parse fuel genLexer alg genTable lang path contents = (ws, ending)) (he : ending ≠ .running) (fuel' : Nat) (hf : fuel ≤ fuel') :
    generate parse fuel' genLexer alg genTable lang path contents = (ws, ending) := by
  rw [← h]
  have h2 : (generate parse fuel genLexer alg genTable lang path contents).2 ≠ .running := by rw [h]; exact he
  clear h he
  unfold generate at h2 ⊢
  cases contents with
  | none => rfl
  | some text =>
    simp only at h2 ⊢
    cases hp : parse text with
    | error e => rfl
    | ok rules =>
      simp only [hp] at h2 ⊢
      cases ht : tokenFile lang (rules.tokens.map (·.inner)) with
      | error e => rfl
      | ok tokens =>
        simp only [ht] at h2 ⊢
        cases genLexer with
        | false =>
          simp only [Bool.false_eq_true, if_false] at h2 ⊢
          exact (generateParser_settled hf _ _ _ _ _ _ _).resolve_left h2
        | true =>
          simp only [if_true] at h2 ⊢
          rcases generateLexer_settled hf (rules.tokens.map (·.inner)) with hl | hl
          · rw [hl] at h2; exact (h2 rfl).elim
          · rw [hl]
            cases hl' : generateLexer fuel (rules.tokens.map (·.inner)) with
            | error e => rfl
            | ok r =>
              rw [hl'] at h2
              cases r with
              | error e => rfl
              | ok t => exact (generateParser_settled hf _ _ _ _ _ _ _).resolve_left h2

end

/-! ## Runs that come to an end

Conditions on the rules of the file: `GoodTokens`, `GoodRules`. -/

section
variable {parse : List Char → Res SpannedRules} {genLexer : Bool} {genTable : Bool} {lang : Language} {path text : List Char} {rules : SpannedRules} {g : Grammar}
variable (hp : parse text = .ok rules) (ht : genLexer = true → GoodTokens (rules.tokens.map (·.inner))) (hr : GoodRules lang text rules)
variable (hg : Grammar.fromRuleSet rules.ruleSet = .ok g)
include hp ht hr hg

/-- With LR(1), `generate` comes to an end without panic, in both languages. It returns Ok exactly if the grammar is LR(1) and, where a lexer is asked for, no text is matched by
several token rules of the same highest precedence; else it returns an error. (Every production must match some token string.) -/
theorem C65_lr1 (hprod : Productive g) : ∃ bound, ∀ fuel, bound ≤ fuel → ∃ ws,
    (generate parse fuel genLexer .lr1 genTable lang path (some text) = (ws, .ok) ∧ IsLR g 1 ∧ (genLexer = true → NoTies (rules.tokens.map (·.inner)))) ∨
    (∃ reports, generate parse fuel genLexer .lr1 genTable lang path (some text) = (ws, .err reports) ∧ ¬ (IsLR g 1 ∧ (genLexer = true → NoTies (rules.tokens.map (·.inner))))) := by
  have wf := C19_well_formed _ _ hg
  have hne : NoEmptyRhs g := C19_no_empty_right_side _ g hg hr.noEmptySequence
  have hel := C27_epsilon_condition _ g hg hr.noEpsilonInSequence
  obtain ⟨b1, h1⟩ := generate_lexer (path := path) hp ht hr .lr1 genTable
  obtain ⟨b2, r, h2⟩ := lrArm_total hr hg (kind := .lr1) rfl path genTable
  refine ⟨max b1 b2, fun fuel hf => ?_⟩
  obtain ⟨h3, h4⟩ := h2 fuel (by omega)
  have hlr := C64_lr1 g wf hne hel hprod false fuel r h3
  rcases h1 fuel (by omega) with ⟨h5, written, h6⟩ | ⟨⟨h5, h5'⟩, ws, reports, h6⟩
  · have h7 : generate parse fuel genLexer .lr1 genTable lang path (some text) = lrArm fuel lang .lr1 genTable path text rules g written := by
      rw [h6]; simp only [generateParser, hg]
    rcases h4 written with ⟨h8, ws, h9⟩ | ⟨⟨cs, h8⟩, reports, h9⟩
    · exact ⟨ws, .inl ⟨by rw [h7, h9], hlr.mp h8, h5⟩⟩
    · refine ⟨written, .inr ⟨reports, by rw [h7, h9], fun hn => ?_⟩⟩
      obtain ⟨tb, h10⟩ := hlr.mpr hn.1
      rw [h8] at h10
      cases h10
  · exact ⟨ws, .inr ⟨reports, h6, fun hn => h5' (hn.2 h5)⟩⟩

/-- With LALR the same holds, but it also returns an error for some LR(1) grammars. -/
theorem C65_lalr (hprod : Productive g) : ∃ bound, ∀ fuel, bound ≤ fuel → ∃ ws,
    (generate parse fuel genLexer .lalr genTable lang path (some text) = (ws, .ok) ∧ IsLR g 1 ∧ (genLexer = true → NoTies (rules.tokens.map (·.inner)))) ∨
    (∃ reports, generate parse fuel genLexer .lalr genTable lang path (some text) = (ws, .err reports)) := by
  have wf := C19_well_formed _ _ hg
  have hne : NoEmptyRhs g := C19_no_empty_right_side _ g hg hr.noEmptySequence
  have hel := C27_epsilon_condition _ g hg hr.noEpsilonInSequence
  obtain ⟨b1, h1⟩ := generate_lexer (path := path) hp ht hr .lalr genTable
  obtain ⟨b2, r, h2⟩ := lrArm_total hr hg (kind := .lalr) rfl path genTable
  refine ⟨max b1 b2, fun fuel hf => ?_⟩
  obtain ⟨h3, h4⟩ := h2 fuel (by omega)
  have hlr := (C64_lalr g wf hne hel hprod false fuel r h3).1
  rcases h1 fuel (by omega) with ⟨h5, written, h6⟩ | ⟨⟨h5, h5'⟩, ws, reports, h6⟩
  · have h7 : generate parse fuel genLexer .lalr genTable lang path (some text) = lrArm fuel lang .lalr genTable path text rules g written := by
      rw [h6]; simp only [generateParser, hg]
    rcases h4 written with ⟨h8, ws, h9⟩ | ⟨⟨cs, h8⟩, reports, h9⟩
    · exact ⟨ws, .inl ⟨by rw [h7, h9], hlr h8, h5⟩⟩
    · exact ⟨written, .inr ⟨reports, by rw [h7, h9]⟩⟩
  · exact ⟨ws, .inr ⟨reports, h6⟩⟩

/-- With GLR in Rust, `generate` returns Ok for every grammar, unless the lexer asked for has ties. -/
theorem C65_glr (hl : lang = .rust) : ∃ bound, ∀ fuel, bound ≤ fuel → ∃ ws,
    (generate parse fuel genLexer .glr genTable lang path (some text) = (ws, .ok) ∧ (genLexer = true → NoTies (rules.tokens.map (·.inner)))) ∨
    (∃ reports, generate parse fuel genLexer .glr genTable lang path (some text) = (ws, .err reports) ∧ genLexer = true ∧ ¬ NoTies (rules.tokens.map (·.inner))) := by
  obtain ⟨b1, h1⟩ := generate_lexer (path := path) hp ht hr .glr genTable
  obtain ⟨b2, h2⟩ := glrArm_total hr hg hl genTable
  refine ⟨max b1 b2, fun fuel hf => ?_⟩
  rcases h1 fuel (by omega) with ⟨h5, written, h6⟩ | ⟨h5, ws, reports, h6⟩
  · obtain ⟨ws, h3⟩ := h2 fuel (by omega) written
    exact ⟨ws, .inl ⟨by rw [h6]; simp only [generateParser, hg]; exact h3, h5⟩⟩
  · exact ⟨ws, .inr ⟨reports, h6, h5⟩⟩

/-- With LL(1) in C++, `generate` returns Ok exactly if the grammar is LL(1) and the lexer asked for has no ties. A lexer with ties is reported; but for a grammar that is not LL(1)
there is no report: the tool panics. -/
theorem C65_ll1 (hl : lang = .cpp) (hT : rules.tokens.length < 65536) : ∃ bound, ∀ fuel, bound ≤ fuel → ∃ ws,
    (generate parse fuel genLexer .ll1 genTable lang path (some text) = (ws, .ok) ∧ g.LL1 ∧ (genLexer = true → NoTies (rules.tokens.map (·.inner)))) ∨
    (∃ reports, generate parse fuel genLexer .ll1 genTable lang path (some text) = (ws, .err reports) ∧ genLexer = true ∧ ¬ NoTies (rules.tokens.map (·.inner))) ∨
    (generate parse fuel genLexer .ll1 genTable lang path (some text) = (ws, .panic .parserTable) ∧ ¬ g.LL1) := by
  have wf := C19_well_formed _ _ hg
  have hne : NoEmptyRhs g := C19_no_empty_right_side _ g hg hr.noEmptySequence
  have hfit : TokensFit g := by
    obtain ⟨base, pats, h⟩ := grammarOk hg
    intro a ha
    obtain ⟨⟨s, n⟩, hm, rfl⟩ := List.mem_map.mp ha
    obtain ⟨k, hk, he⟩ := (h.tokK _).mp (by rw [mem_mget? h.tokS hm]; rfl)
    simp only [SpannedRules.ruleSet, List.length_map] at hk
    have : k % u16Size = k := Nat.mod_eq_of_lt (show k < 65536 by omega)
    rw [this] at he
    cases he
    omega
  obtain ⟨b1, h1⟩ := generate_lexer (path := path) hp ht hr .ll1 genTable
  refine ⟨max b1 (setsFuel g), fun fuel hf => ?_⟩
  rcases h1 fuel (by omega) with ⟨h5, written, h6⟩ | ⟨h5, ws, reports, h6⟩
  · subst hl
    have h7 : generate parse fuel genLexer .ll1 genTable .cpp path (some text) = llArm fuel .cpp g written := by
      rw [h6]; simp only [generateParser, hg]
    have hiff := C22_ok_iff g wf hne hfit fuel (by omega)
    rw [h7]
    unfold llArm
    cases hll : llGenerateTable g fuel with
    | ok table => exact ⟨_, .inl ⟨rfl, hiff.mp ⟨table, hll⟩, h5⟩⟩
    | error e =>
      obtain ⟨A, x, q, prev, rfl, _⟩ := C22_conflict g wf hne hfit fuel (by omega) e hll
      refine ⟨_, .inr (.inr ⟨rfl, fun hn => ?_⟩)⟩
      obtain ⟨table, h8⟩ := hiff.mpr hn
      rw [hll] at h8
      cases h8
  · exact ⟨ws, .inr (.inl ⟨reports, h6, h5⟩)⟩

end

/-! ## From the text of the grammar file to the language of the generated code

The input parser is the one of C63: `t0` and `p0` are a lexer and an LR(1) parser generated for the grammar of lapex files. `syn` reads regular expressions. -/

section
variable {lexFuel : Nat} {t0 : LexerTables} (hlex : generateLexer lexFuel lapexTokens = .ok (.ok t0)) {p0 : LRProg} (hp0 : LRParserFor lapexGrammar .lr1 p0)
variable {syn : List Char → Option Hir} {text : List Char} (hb : bytes text < 65535)
include hlex hp0 hb

/-- Rules read from an ASCII file of at most 65534 bytes without a backslash before a newline can be quoted, so no report panics. What remains of `GoodRules` is: no ε in sequences,
right sides of at most 254 symbols and, for Rust, names that can be converted. -/
theorem C65_good_rules (ha : Ascii text) (hbs : ¬ ['\\', '\n'] <:+: text) {pf : Nat} {rules : SpannedRules} (h : parseLapex syn t0 p0.machine pf text = .ok rules) (lang : Language)
    (hE : rules.ruleSet.NoEpsilonInSequence) (hw : ∀ r ∈ rules.prods, ∀ p, Occurs p r.inner.pattern → p.width ≤ 254)
    (hn : lang = .rust → ∀ r ∈ rules.tokens, ¬ BadSegment r.inner.name.toList) (hn' : lang = .rust → ∀ r ∈ rules.prods, ¬ BadSegment r.inner.name.toList) :
    GoodRules lang text rules := by
  obtain ⟨_, h2, h3, _⟩ := parsed_fine hlex hp0 hb h
  have hq := C63_quotes hlex hp0 syn text hb ha hbs pf rules h
  exact ⟨h2, h3, hE, hw, hn, hn', fun r hm => by
    obtain ⟨q, _, _, h4, _⟩ := hq _ (.inr (.inl ⟨r, hm, rfl⟩))
    exact ⟨q, h4⟩, fun r hm => by
    obtain ⟨q, _, _, h4, _⟩ := hq _ (.inr (.inr ⟨r, hm, rfl⟩))
    exact ⟨q, h4⟩⟩

/-- When `generate` returns Ok for an LR(1) parser in Rust, the tokens of the grammar file stand for some rules, and the lexer and the parser written accept together exactly the
texts that split into tokens of the token rules, those left out removed, which match the entry rule. (Conditions on the rules: no ε in sequences, the entry rule not left-recursive,
token patterns without empty sequences that match something.) -/
theorem C65_accepts {pf fuel : Nat} {genTable : Bool} {path : List Char} {ws : List Written}
    (h : generate (parseLapex syn t0 p0.machine pf) fuel true .lr1 genTable .rust path (some text) = (ws, .ok)) :
    ∃ ts rules lexer parser, TextTokens lapexTokens text ts ∧ FileMeans syn (fileTokens ts) rules ∧ Written.lexer lexer ∈ ws ∧ Written.rustParser parser ∈ ws ∧
      (rules.ruleSet.NoEpsilonInSequence → ¬ NameCorner rules.ruleSet rules.entry.inner rules.entry.inner → (∀ r ∈ rules.tokens, r.inner.NoEmptySeq ∧ r.inner.Useful) →
        ∀ (skip : Nat → Bool) (src : List Char) (input : Nat → Tok × List Char), FedBy lexer skip (Lexer.new src) input →
          ((∃ n events pos, lrParse parser.machine input n = .ok events pos) ↔
            ∃ us, TextTokens (rules.tokens.map (·.inner)) src us ∧ Den rules.ruleSet (.rule rules.entry.inner) ((kept skip us).map (·.1)))) := by
  obtain ⟨text', rules, g, vs, lexer, table, parser, tb, h1, h2, h3, h4, h5, h6, h7, h8⟩ := C65_ok _ _ _ _ _ _ _ _ _ h
  cases h1
  simp only [if_true] at h6
  obtain ⟨t, n, rfl, ht⟩ := h6
  obtain ⟨ts, m1, m2⟩ := (C63_answer hlex hp0 syn text hb rules).mp ⟨pf, h2⟩
  obtain ⟨f1, f2, f3, f4⟩ := parsed_fine hlex hp0 hb h2
  generalize ha : Algorithm.lr1 = a at h5
  cases h5 with
  | glr => cases ha
  | @rust _ kind n' tb p hk htb hp =>
    subst ha
    cases hk
    refine ⟨ts, rules, t, p, m1, m2, by rw [h4]; simp, by rw [h4]; simp, fun hE hl hu skip src input hin => ?_⟩
    rw [SpannedRules.ruleSet_eq] at h3 hE hl f3 f4 ⊢
    refine C62_accepts ht (fun r hm => ?_) h3 ⟨by simpa [ruleSet] using f1, by simpa [ruleSet] using f2, f3, f4, hE, hl⟩ ⟨false, n', tb, .inl htb, hp⟩ skip src hin
    obtain ⟨x, hx, rfl⟩ := List.mem_map.mp hm
    exact hu x hx

/-- The same in C++, where the written code is also compiled (`compile`: the numbers of the enums and labels are resolved; see C61). (The entry rule must match some non-empty token
string, see C61.) -/
theorem C65_cpp_accepts {pf fuel : Nat} {genTable : Bool} {path : List Char} {ws : List Written}
    (h : generate (parseLapex syn t0 p0.machine pf) fuel true .lr1 genTable .cpp path (some text) = (ws, .ok)) :
    ∃ ts rules lexer source, TextTokens lapexTokens text ts ∧ FileMeans syn (fileTokens ts) rules ∧ Written.lexer lexer ∈ ws ∧ Written.cppParser source ∈ ws ∧
      (rules.ruleSet.NoEpsilonInSequence → ¬ NameCorner rules.ruleSet rules.entry.inner rules.entry.inner → (∀ r ∈ rules.tokens, r.inner.NoEmptySeq ∧ r.inner.Useful) →
        (∃ w, w ≠ [] ∧ Den rules.ruleSet (.rule rules.entry.inner) w) →
        ∀ (parser : CppLRProg), source.compile = some parser →
        ∀ (skip : Nat → Bool) (src : List Char) (budget : Nat), src.length < budget → ∀ (input : Nat → Nat × Unit), CppFedBy lexer budget skip (CppLexer.new (utf8 src)) input →
          ((∃ n events pos, cppLRParse parser input n = .returned events pos) ↔
            ∃ us, TextTokens (rules.tokens.map (·.inner)) src us ∧ Den rules.ruleSet (.rule rules.entry.inner) ((kept skip us).map (·.1)))) := by
  obtain ⟨text', rules, g, vs, lexer, table, parser, tb, h1, h2, h3, h4, h5, h6, h7, h8⟩ := C65_ok _ _ _ _ _ _ _ _ _ h
  cases h1
  simp only [if_true] at h6
  obtain ⟨t, n, rfl, ht⟩ := h6
  obtain ⟨ts, m1, m2⟩ := (C63_answer hlex hp0 syn text hb rules).mp ⟨pf, h2⟩
  obtain ⟨f1, f2, f3, f4⟩ := parsed_fine hlex hp0 hb h2
  generalize ha : Algorithm.lr1 = a at h5
  cases h5 with
  | ll => cases ha
  | @cpp _ kind n' tb source hk htb hsrc =>
    subst ha
    cases hk
    refine ⟨ts, rules, t, source, m1, m2, by rw [h4]; simp, by rw [h4]; simp, fun hE hl hu hw parser hc skip src budget hbud input hin => ?_⟩
    have wf := C19_well_formed _ _ h3
    have hne : NoEmptyRhs g := C19_no_empty_right_side _ g h3 f3
    obtain ⟨p, hp⟩ := C33_codegen g wf hne false .lr1 rfl n' tb htb
    rw [SpannedRules.ruleSet_eq] at h3 hE hl f3 f4 hw ⊢
    refine C62_cpp_accepts ht (fun r hm => ?_) h3 ⟨by simpa [ruleSet] using f1, by simpa [ruleSet] using f2, f3, f4, hE, hl⟩ tb ⟨false, n', .inl htb⟩ p hp source
      (by rw [← hsrc]; simp [tokenNames, ruleSet, Function.comp_def]) parser hc hw skip src budget hbud input hin
    obtain ⟨x, hx, rfl⟩ := List.mem_map.mp hm
    exact hu x hx

end

/-! ### examples -/

theorem generate_of_parse {parse : List Char → Res SpannedRules} {text : List Char} {rules : SpannedRules} (h : parse text = .ok rules) (fuel : Nat) (genLexer : Bool) (alg : Algorithm)
    (genTable : Bool) (lang : Language) (path : List Char) :
    generate parse fuel genLexer alg genTable lang path (some text) = generate (fun _ => .ok rules) fuel genLexer alg genTable lang path (some text) := by
  unfold generate
  simp only [h]

/-- `generate` for given rules -/
def runs (alg : Algorithm) (lang : Language) (text : String) (rules : SpannedRules) : Ending :=
  (generate (fun _ => .ok rules) 100 true alg true lang "x.lapex".toList (some text.toList)).2

-- `entry s; token A[7] = "a"; prod s = A A | A;`: the whole chain from the text of the file
example : ∃ lexFuel t p pf, generateLexer lexFuel lapexTokens = .ok (.ok t) ∧ LRParserFor lapexGrammar .lr1 p ∧ bytes sampleText < 65535 ∧
    ∃ ws, generate (parseLapex (fun _ => none) t p.machine pf) 100 true .lr1 true .rust "x.lapex".toList (some sampleText) = (ws, .ok) := by
  obtain ⟨⟨f, t, ht⟩, p, hp⟩ := C63_exists
  obtain ⟨pf, h⟩ := (C63_answer ht hp (fun _ => none) sampleText (by decide +kernel) sampleOut).mpr sampleText_file
  refine ⟨f, t, p, pf, ht, hp, by decide +kernel, (generate (fun _ => .ok sampleOut) 100 true .lr1 true .rust "x.lapex".toList (some sampleText)).1, ?_⟩
  rw [generate_of_parse h]
  exact Prod.ext rfl (by decide +kernel)

example : runs .lr1 .cpp "entry s; token A[7] = \"a\"; prod s = A A | A;" sampleOut = .ok := by decide +kernel
example : runs .glr .rust "entry s; token A[7] = \"a\"; prod s = A A | A;" sampleOut = .ok := by decide +kernel
example : runs .glr .cpp "entry s; token A[7] = \"a\"; prod s = A A | A;" sampleOut = .panic .codegen := by decide +kernel
-- the grammar is not LL(1)
example : runs .ll1 .cpp "entry s; token A[7] = \"a\"; prod s = A A | A;" sampleOut = .panic .parserTable := by decide +kernel

/-- `entry s; token A = "…"; prod s = A; prod s = A;` with a string that the token function takes to be `w` columns wide -/
def twiceOut (s : List Char) (w : Nat) : SpannedRules where
  entry := ⟨⟨⟨1, 1⟩, ⟨1, 9⟩⟩, "s"⟩
  tokens := [⟨⟨⟨1, 10⟩, ⟨1, 21 + w⟩⟩, ⟨"A", none, .literal s⟩⟩]
  prods := [⟨⟨⟨1, 34 + w⟩, ⟨1, 45 + w⟩⟩, ⟨"s", none, .rule "A"⟩⟩, ⟨⟨⟨1, 22 + w⟩, ⟨1, 33 + w⟩⟩, ⟨"s", none, .rule "A"⟩⟩]

-- a conflict is reported, with the two productions
example : runs .lr1 .rust "entry s; token A = \"a\"; prod s = A; prod s = A;" (twiceOut ['a'] 3) =
    .err [.reduceReduce 1 [(⟨⟨1, 37⟩, "x.lapex".toList, "prod s = A;".toList⟩, "s(0) -> A(0) • ".toList), (⟨⟨1, 25⟩, "x.lapex".toList, "prod s = A;".toList⟩, "s(0) -> A(0) • ".toList)]] := by decide +kernel

-- two token rules for the same text
example : runs .lr1 .rust "entry s; token A = \"a\"; token B = \"a\"; prod s = A;" ⟨⟨⟨⟨1, 1⟩, ⟨1, 9⟩⟩, "s"⟩, [⟨⟨⟨1, 25⟩, ⟨1, 39⟩⟩, ⟨"B", none, .literal ['a']⟩⟩,
    ⟨⟨⟨1, 10⟩, ⟨1, 24⟩⟩, ⟨"A", none, .literal ['a']⟩⟩], [⟨⟨⟨1, 40⟩, ⟨1, 51⟩⟩, ⟨"s", none, .rule "A"⟩⟩]⟩ =
    .err [.precedence [(⟨⟨1, 25⟩, "x.lapex".toList, "token B = \"a\";".toList⟩, "B".toList), (⟨⟨1, 10⟩, "x.lapex".toList, "token A = \"a\";".toList⟩, "A".toList)]] := by decide +kernel

-- a name that cannot be converted
example : runs .lr1 .rust "" ⟨⟨⟨⟨1, 1⟩, ⟨1, 1⟩⟩, "s"⟩, [⟨⟨⟨1, 1⟩, ⟨1, 1⟩⟩, ⟨"a_", none, .literal ['a']⟩⟩], [⟨⟨⟨1, 1⟩, ⟨1, 1⟩⟩, ⟨"s", none, .rule "a_"⟩⟩]⟩ = .panic .tokens := by decide +kernel
-- a name that is not defined
example : runs .lr1 .rust "" ⟨⟨⟨⟨1, 1⟩, ⟨1, 1⟩⟩, "s"⟩, [⟨⟨⟨1, 1⟩, ⟨1, 1⟩⟩, ⟨"a", none, .literal ['a']⟩⟩], [⟨⟨⟨1, 1⟩, ⟨1, 1⟩⟩, ⟨"s", none, .rule "b"⟩⟩]⟩ = .panic .grammar := by decide +kernel
-- a file that cannot be read
example : generate (fun _ => .error .panic) 0 true .lr1 true .rust "x.lapex".toList none = ([], .err [.io "x.lapex".toList]) := rfl

-- the conditions `GoodTokens` and `GoodRules`
example : GoodTokens (sampleOut.tokens.map (·.inner)) ∧ GoodRules .rust sampleText sampleOut := by
  refine ⟨⟨?_, ?_, ?_, ?_⟩, ?_⟩
  · intro r hr
    simp [sampleOut] at hr
    subst hr
    exact ⟨_, rfl⟩
  · rintro ⟨r, hr, h⟩
    simp [sampleOut] at hr
    subst hr
    exact h
  · intro r hr
    simp [sampleOut] at hr
    subst hr
    simp [TokenRule.NoEmptySeq]
  · intro lo hi h
    have : (generateAlphabet (sampleOut.tokens.map (·.inner))).ranges = [(0, 0), (1, 96), (97, 97), (98, 1114110), (1114111, 1114111)] := by decide +kernel
    rw [this] at h
    simp at h
    rcases h with h | h | h | h | h <;> obtain ⟨rfl, rfl⟩ := h
    · exact ⟨Char.ofNat 0, by decide, by decide⟩
    · exact ⟨'A', by decide, by decide⟩
    · exact ⟨'a', by decide, by decide⟩
    · exact ⟨'b', by decide, by decide⟩
    · exact ⟨Char.ofNat 1114111, by decide, by decide⟩
  · obtain ⟨⟨f, t, ht⟩, p, hp⟩ := C63_exists
    obtain ⟨pf, h⟩ := (C63_answer ht hp (fun _ => none) sampleText (by decide +kernel) sampleOut).mpr sampleText_file
    have hocc : ∀ q, Occurs q (.alternative [.rule "A", .sequence [.rule "A", .rule "A"]]) → q = .rule "A" ∨ q = .sequence [.rule "A", .rule "A"] ∨
        q = .alternative [.rule "A", .sequence [.rule "A", .rule "A"]] := by
      intro q hq
      cases hq with
      | here => exact .inr (.inr rfl)
      | alternative hm ho =>
        simp at hm
        rcases hm with rfl | rfl
        · cases ho; exact .inl rfl
        · cases ho with
          | here => exact .inr (.inl rfl)
          | sequence hm ho =>
            simp at hm
            subst hm
            cases ho
            exact .inl rfl
    refine C65_good_rules ht hp (by decide +kernel) (by unfold Ascii; decide +kernel) (by decide +kernel) h .rust ?_ ?_ ?_ ?_
    · intro r hr ps ho
      simp [sampleOut, SpannedRules.ruleSet] at hr
      subst hr
      rcases hocc _ ho with h | h | h <;> cases h
      simp
    · intro r hr q ho
      simp [sampleOut] at hr
      subst hr
      rcases hocc _ ho with rfl | rfl | rfl <;> decide
    all_goals
      intro _ r hr
      simp [sampleOut] at hr
      subst hr
      rw [← (C42_panics _).1]
      decide

/-- the grammar of `sampleText` -/
def sampleGrammar : Grammar where
  rules := [⟨1, [.t 0], 0⟩, ⟨1, [.t 0, .t 0], 0⟩, ⟨0, [.nt 1], 0⟩]
  anon := [.nt 1]
  productions := [(.nt 0, "s")]
  tokens := [(.t 0, "A")]
  entry := .nt 0
  entryOrigin := 0

example : Grammar.fromRuleSet sampleOut.ruleSet = .ok sampleGrammar := GRes.of_same (by decide)
example : Productive sampleGrammar := productive_of_order [1, 0] (by decide) (by decide)

/-! ### a report that panics -/

/-- the tokens of the file of `twiceOut` -/
def twiceFile (s : List Char) (w : Nat) : Tokens := [
  (Lx.kwEntry, sampleData "entry" 1), (Lx.ident, sampleData "s" 7), (Lx.semi, sampleData ";" 8),
  (Lx.kwToken, sampleData "token" 10), (Lx.ident, sampleData "A" 16), (Lx.equals, sampleData "=" 18), (Lx.string, ⟨s, ⟨⟨1, 20⟩, ⟨1, 20 + w⟩⟩⟩), (Lx.semi, sampleData ";" (20 + w)),
  (Lx.kwProd, sampleData "prod" (22 + w)), (Lx.ident, sampleData "s" (27 + w)), (Lx.equals, sampleData "=" (29 + w)), (Lx.ident, sampleData "A" (31 + w)), (Lx.semi, sampleData ";" (32 + w)),
  (Lx.kwProd, sampleData "prod" (34 + w)), (Lx.ident, sampleData "s" (39 + w)), (Lx.equals, sampleData "=" (41 + w)), (Lx.ident, sampleData "A" (43 + w)), (Lx.semi, sampleData ";" (44 + w))]

theorem twiceFile_means (syn : List Char → Option Hir) (s : List Char) (w : Nat) : FileMeans syn (twiceFile ('"' :: s ++ ['"']) w) (twiceOut s w) := by
  refine ⟨_, [⟨⟨⟨1, 1⟩, ⟨1, 9⟩⟩, .entry "s"⟩, ⟨⟨⟨1, 10⟩, ⟨1, 21 + w⟩⟩, .token ⟨"A", none, .literal s⟩⟩, ⟨⟨⟨1, 22 + w⟩, ⟨1, 33 + w⟩⟩, .prod ⟨"s", none, .rule "A"⟩⟩,
      ⟨⟨⟨1, 34 + w⟩, ⟨1, 45 + w⟩⟩, .prod ⟨"s", none, .rule "A"⟩⟩],
    .more (.entry _ _ _) (.more (.token (sampleData "token" 10) (sampleData "A" 16) (sampleData "=" 18) ⟨'"' :: s ++ ['"'], ⟨⟨1, 20⟩, ⟨1, 20 + w⟩⟩⟩ (sampleData ";" (20 + w)) .absent (.inl rfl))
      (.more (.prod (sampleData "prod" (22 + w)) (sampleData "s" (27 + w)) (sampleData "=" (29 + w)) (sampleData ";" (32 + w)) .absent
        (.alternative (.concatenation (.unary (.item (.name (sampleData "A" (31 + w))))))))
      (.one (.prod (sampleData "prod" (34 + w)) (sampleData "s" (39 + w)) (sampleData "=" (41 + w)) (sampleData ";" (44 + w)) .absent
        (.alternative (.concatenation (.unary (.item (.name (sampleData "A" (43 + w))))))))))),
    .cons ⟨rfl, .entry (sampleData "s" 7)⟩ (.cons ⟨?_, ?_⟩ (.cons ⟨?_, .prod (sampleData "s" (27 + w)) none _⟩ (.cons ⟨?_, .prod (sampleData "s" (39 + w)) none _⟩ .nil))), rfl, rfl, rfl⟩
  · simp only [sampleData, SourceSpan.mk.injEq, SourcePos.mk.injEq, true_and]
    simp [String.length]
    omega
  · have := Means.literal (syn := syn) (n := sampleData "A" 16) (d := ⟨'"' :: s ++ ['"'], ⟨⟨1, 20⟩, ⟨1, 20 + w⟩⟩⟩) .none (body := s ++ ['"']) rfl
    rwa [List.dropLast_concat] at this
  · simp only [sampleData, SourceSpan.mk.injEq, SourcePos.mk.injEq, true_and]
    simp [String.length]
    omega
  · simp only [sampleData, SourceSpan.mk.injEq, SourcePos.mk.injEq, true_and]
    simp [String.length]
    omega

def twiceTokens (s : List Char) : List (Nat × List Char) := wideTokens s ++ [(18, [' ']), (2, "prod".toList), (18, [' ']), (15, ['s']), (18, [' ']), (3, ['=']), (18, [' ']), (15, ['A']), (4, [';'])]

/-- Outside ASCII the reports go wrong: `entry s; token A = "é"; prod s = A; prod s = A;` has a conflict, but instead of reporting it the tool panics. -/
theorem C65_report_counterexample : ∃ text, bytes text < 65535 ∧ ¬ ['\\', '\n'] <:+: text ∧
    ∀ (lexFuel : Nat) (t : LexerTables) (p : LRProg), generateLexer lexFuel lapexTokens = .ok (.ok t) → LRParserFor lapexGrammar .lr1 p →
      ∃ pf, ∀ lang, ∃ ws, generate (parseLapex (fun _ => none) t p.machine pf) 100 false .lr1 false lang "x.lapex".toList (some text) = (ws, .panic .report) := by
  refine ⟨"entry s; token A = \"é\"; prod s = A; prod s = A;".toList, by decide +kernel, by decide +kernel, fun lexFuel t p ht hp => ?_⟩
  obtain ⟨pf, h⟩ := (C63_answer ht hp (fun _ => none) _ (by decide +kernel) (twiceOut ['é'] 4)).mpr
    ⟨twiceTokens "\"é\"".toList, checkTokens_spec (text := "entry s; token A = \"é\"; prod s = A; prod s = A;".toList) (by decide +kernel), by
      have : fileTokens (twiceTokens "\"é\"".toList) = twiceFile ('"' :: ['é'] ++ ['"']) 4 := by decide +kernel
      rw [this]
      exact twiceFile_means _ _ _⟩
  refine ⟨pf, fun lang => ⟨(generate (fun _ => .ok (twiceOut ['é'] 4)) 100 false .lr1 false lang "x.lapex".toList (some "entry s; token A = \"é\"; prod s = A; prod s = A;".toList)).1, ?_⟩⟩
  rw [generate_of_parse h]
  exact Prod.ext rfl (by cases lang <;> decide +kernel)

end Verif
