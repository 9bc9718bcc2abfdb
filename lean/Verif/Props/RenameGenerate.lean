import Verif.Props.Rename
import Verif.Props.FromFile

/-!
# C71 for whole runs: the order of rules and their names do not decide whether `lapex generate` succeeds
-/

set_option autoImplicit false

namespace Verif

section
variable {ρ : String → String} {parse : List Char → Res SpannedRules} {genLexer : Bool} {text text' : List Char} {rules rules' : SpannedRules} {lang lang' : Language} {g g' : Grammar}
variable (hp : parse text = .ok rules) (ht : genLexer = true → GoodTokens (rules.tokens.map (·.inner))) (hr : GoodRules lang text rules) (hT : rules.tokens.length ≤ 65536)
variable (hp' : parse text' = .ok rules') (ht' : genLexer = true → GoodTokens (rules'.tokens.map (·.inner))) (hr' : GoodRules lang' text' rules')
variable (hsame : SameFile ρ rules.entry.inner (rules.tokens.map (·.inner)) (rules.prods.map (·.inner)) rules'.entry.inner (rules'.tokens.map (·.inner)) (rules'.prods.map (·.inner)))
variable (hg : Grammar.fromRuleSet rules.ruleSet = .ok g) (hg' : Grammar.fromRuleSet rules'.ruleSet = .ok g')
variable (genTable genTable' : Bool) (path path' : List Char)

theorem spanned_ruleSet (rules : SpannedRules) : ruleSet rules.entry.inner (rules.tokens.map (·.inner)) (rules.prods.map (·.inner)) = rules.ruleSet := by
  simp [ruleSet, SpannedRules.ruleSet, Function.comp_def]

theorem SameTokens.noTies {τ : Nat → Nat} {ts ts' : List TokenRule} (h : SameTokens ρ τ ts ts') : NoTies ts' ↔ NoTies ts := by
  unfold NoTies
  refine forall_congr' fun w => ?_
  rw [h.someMatch]
  refine imp_congr Iff.rfl ⟨?_, ?_⟩
  · rintro ⟨j', hj⟩
    obtain ⟨j, _, hj⟩ := h.bestMatch.mp hj
    exact ⟨j, hj⟩
  · rintro ⟨j, hj⟩
    exact ⟨τ j, h.bestMatch.mpr ⟨j, rfl, hj⟩⟩

theorem SameGrammar.productive {φ τ : Nat → Nat} (h : SameGrammar φ τ g g') (wf : g.WF) (hown : ∀ A, Sym.nt A ∈ g'.nonTerminals → ∃ r ∈ g'.rules, r.lhs = A) (hprod : Productive g) : Productive g' := by
  intro A' hA
  obtain ⟨r', hr', rfl⟩ := hown A' hA
  obtain ⟨r, hr, e, _⟩ := h.rule_bwd hr'
  obtain ⟨w, hw⟩ := hprod r.lhs (wf.lhs_declared r hr)
  have := h.derives hw
  rw [e]
  exact ⟨_, this⟩

include hsame hg hg' hr hT in
theorem same_runs : ∃ φ τ, SameGrammar φ τ g g' ∧ SameTokens ρ τ (rules.tokens.map (·.inner)) (rules'.tokens.map (·.inner)) :=
  hsame.maps (by rw [spanned_ruleSet]; exact hg) (by rw [spanned_ruleSet]; exact hg') (by simpa using hT) (by simpa using hr.prods)

include hp ht hr hT hp' ht' hr' hsame hg hg' in
/-- With LR(1) the run for one file returns Ok exactly if the run for the other does, also if the languages, the paths or the options for the table file are different; else both end with reports. -/
theorem C71_generate_lr1 (hprod : Productive g) (hE' : rules'.ruleSet.NoEmptyAlternative) : ∃ bound, ∀ fuel, bound ≤ fuel →
    ((∃ ws', generate parse fuel genLexer .lr1 genTable' lang' path' (some text') = (ws', .ok)) ↔ ∃ ws, generate parse fuel genLexer .lr1 genTable lang path (some text) = (ws, .ok)) ∧
    ((∃ ws' reports', generate parse fuel genLexer .lr1 genTable' lang' path' (some text') = (ws', .err reports')) ↔
      ∃ ws reports, generate parse fuel genLexer .lr1 genTable lang path (some text) = (ws, .err reports)) := by
  obtain ⟨φ, τ, h1, h2⟩ := same_runs hr hT hsame hg hg'
  have hprod' := h1.productive (C19_well_formed _ _ hg) (C19_every_nonterminal_has_a_rule _ _ hg' (by simpa [SpannedRules.ruleSet] using hr'.prods) hE') hprod
  obtain ⟨b, hb⟩ := C65_lr1 (genLexer := genLexer) (genTable := genTable) (path := path) hp ht hr hg hprod
  obtain ⟨b', hb'⟩ := C65_lr1 (genLexer := genLexer) (genTable := genTable') (path := path') hp' ht' hr' hg' hprod'
  have key : (IsLR g' 1 ∧ (genLexer = true → NoTies (rules'.tokens.map (·.inner)))) ↔ (IsLR g 1 ∧ (genLexer = true → NoTies (rules.tokens.map (·.inner)))) := by
    rw [h1.isLR, h2.noTies]
  refine ⟨max b b', fun fuel hf => ?_⟩
  obtain ⟨ws, k⟩ := hb fuel (by omega)
  obtain ⟨ws', k'⟩ := hb' fuel (by omega)
  rcases k with ⟨e, h3⟩ | ⟨reports, e, h3⟩ <;> rcases k' with ⟨e', h4⟩ | ⟨reports', e', h4⟩ <;> rw [e, e']
  · exact ⟨⟨fun _ => ⟨_, rfl⟩, fun _ => ⟨_, rfl⟩⟩, ⟨fun ⟨_, _, h⟩ => (by cases h), fun ⟨_, _, h⟩ => (by cases h)⟩⟩
  · exact absurd (key.mpr h3) h4
  · exact absurd (key.mp h4) h3
  · exact ⟨⟨fun ⟨_, h⟩ => (by cases h), fun ⟨_, h⟩ => (by cases h)⟩, ⟨fun _ => ⟨_, _, rfl⟩, fun _ => ⟨_, _, rfl⟩⟩⟩

include hp ht hr hp' ht' hr' hsame hg hg' in
/-- With LL(1) in C++ one run returns Ok exactly if the other does. -/
theorem C71_generate_ll1 (hl : lang = .cpp) (hl' : lang' = .cpp) (hT : rules.tokens.length < 65536) : ∃ bound, ∀ fuel, bound ≤ fuel →
    ((∃ ws', generate parse fuel genLexer .ll1 genTable' lang' path' (some text') = (ws', .ok)) ↔ ∃ ws, generate parse fuel genLexer .ll1 genTable lang path (some text) = (ws, .ok)) := by
  obtain ⟨φ, τ, h1, h2⟩ := same_runs hr (Nat.le_of_lt hT) hsame hg hg'
  have hT' : rules'.tokens.length < 65536 := by
    have := hsame.tokens.length_eq
    simp only [List.length_map] at this
    omega
  obtain ⟨b, hb⟩ := C65_ll1 (genLexer := genLexer) (genTable := genTable) (path := path) hp ht hr hg hl hT
  obtain ⟨b', hb'⟩ := C65_ll1 (genLexer := genLexer) (genTable := genTable') (path := path') hp' ht' hr' hg' hl' hT'
  refine ⟨max b b', fun fuel hf => ?_⟩
  obtain ⟨ws, k⟩ := hb fuel (by omega)
  obtain ⟨ws', k'⟩ := hb' fuel (by omega)
  rcases k with ⟨e, h3, h3'⟩ | ⟨reports, e, hlex, h3⟩ | ⟨e, h3⟩ <;> rcases k' with ⟨e', h4, h4'⟩ | ⟨reports', e', hlex', h4⟩ | ⟨e', h4⟩ <;> rw [e, e']
  · exact ⟨fun _ => ⟨_, rfl⟩, fun _ => ⟨_, rfl⟩⟩
  · exact absurd (h2.noTies.mpr (h3' hlex')) h4
  · exact absurd (h1.ll1.mpr h3) h4
  · exact absurd (h2.noTies.mp (h4' hlex)) h3
  · exact ⟨fun ⟨_, h⟩ => (by cases h), fun ⟨_, h⟩ => (by cases h)⟩
  · exact ⟨fun ⟨_, h⟩ => (by cases h), fun ⟨_, h⟩ => (by cases h)⟩
  · exact absurd (h1.ll1.mp h4) h3
  · exact ⟨fun ⟨_, h⟩ => (by cases h), fun ⟨_, h⟩ => (by cases h)⟩
  · exact ⟨fun ⟨_, h⟩ => (by cases h), fun ⟨_, h⟩ => (by cases h)⟩

include hp ht hr hT hp' ht' hr' hsame hg hg' in
/-- With GLR in Rust: either both runs return Ok, or both end with a report (about token rules). -/
theorem C71_generate_glr (hl : lang = .rust) (hl' : lang' = .rust) : ∃ bound, ∀ fuel, bound ≤ fuel → ∃ ws ws' : List Written,
    generate parse fuel genLexer .glr genTable lang path (some text) = (ws, .ok) ∧ generate parse fuel genLexer .glr genTable' lang' path' (some text') = (ws', .ok) ∨
    ∃ reports reports', generate parse fuel genLexer .glr genTable lang path (some text) = (ws, .err reports) ∧
      generate parse fuel genLexer .glr genTable' lang' path' (some text') = (ws', .err reports') := by
  obtain ⟨φ, τ, h1, h2⟩ := same_runs hr hT hsame hg hg'
  obtain ⟨b, hb⟩ := C65_glr (genLexer := genLexer) (genTable := genTable) (path := path) hp ht hr hg hl
  obtain ⟨b', hb'⟩ := C65_glr (genLexer := genLexer) (genTable := genTable') (path := path') hp' ht' hr' hg' hl'
  refine ⟨max b b', fun fuel hf => ?_⟩
  obtain ⟨ws, k⟩ := hb fuel (by omega)
  obtain ⟨ws', k'⟩ := hb' fuel (by omega)
  refine ⟨ws, ws', ?_⟩
  rcases k with ⟨e, h3⟩ | ⟨reports, e, hl, h3⟩ <;> rcases k' with ⟨e', h4⟩ | ⟨reports', e', hl', h4⟩
  · exact .inl ⟨e, e'⟩
  · exact absurd (h2.noTies.mpr (h3 hl')) h4
  · exact absurd (h2.noTies.mp (h4 hl)) h3
  · exact .inr ⟨_, _, e, e'⟩

end

/-! ## Non-vacuity: `entry s; token A = "a"; prod s = A;` and the same with `x` for `s` and `B` for `A` -/

def tinyText' : List Char := "entry x; token B = \"a\"; prod x = B;".toList

def tinyOut' : SpannedRules where
  entry := ⟨⟨⟨1, 1⟩, ⟨1, 9⟩⟩, "x"⟩
  tokens := [⟨⟨⟨1, 10⟩, ⟨1, 24⟩⟩, ⟨"B", none, .literal ['a']⟩⟩]
  prods := [⟨⟨⟨1, 25⟩, ⟨1, 36⟩⟩, ⟨"x", none, .rule "B"⟩⟩]

def tinyGrammar' : Grammar := { tinyGrammar with productions := [(.nt 0, "x")], tokens := [(.t 0, "B")] }

/-- a parser that reads the two texts -/
def readTiny (text : List Char) : Res SpannedRules := if text = tinyText then .ok tinyOut else if text = tinyText' then .ok tinyOut' else .error .panic

def tinyName (n : String) : String := if n = "s" then "x" else if n = "A" then "B" else n

theorem tiny_same : SameFile tinyName tinyOut.entry.inner (tinyOut.tokens.map (·.inner)) (tinyOut.prods.map (·.inner)) tinyOut'.entry.inner (tinyOut'.tokens.map (·.inner))
    (tinyOut'.prods.map (·.inner)) where
  tokens := List.Perm.refl _
  productions := List.Perm.refl _
  entryName := rfl
  inj := by
    have key : ∀ m, Appears (ruleSet tinyOut.entry.inner (tinyOut.tokens.map (·.inner)) (tinyOut.prods.map (·.inner))) m → m = "s" ∨ m = "A" := by
      intro m hm
      rcases hm with (h | ⟨p, hp, e⟩) | ⟨p, hp, hm⟩ | e
      · simp [ruleSet, tinyOut, wideOut] at h
        exact .inr h
      · rw [spanned_ruleSet] at hp
        rw [tiny_prods hp] at e
        exact .inl e.symm
      · rw [spanned_ruleSet] at hp
        rw [tiny_prods hp] at hm
        cases hm
        exact .inr rfl
      · exact .inl e
    intro m n hm hn e
    rcases key m hm with rfl | rfl <;> rcases key n hn with rfl | rfl <;> first | rfl | exact absurd e (by decide)

theorem tinyTokens_good' : GoodTokens (tinyOut'.tokens.map (·.inner)) := by
  refine ⟨?_, ?_, ?_, sampleTokens_good.4⟩
  · intro r hr
    simp [tinyOut'] at hr
    subst hr
    exact ⟨_, rfl⟩
  · rintro ⟨r, hr, h⟩
    simp [tinyOut'] at hr
    subst hr
    exact h
  · intro r hr
    simp [tinyOut'] at hr
    subst hr
    simp [TokenRule.NoEmptySeq]

theorem tiny_goodRules (lang : Language) : GoodRules lang tinyText tinyOut := by
  have hocc : ∀ q, Occurs q (.rule "A") → q = .rule "A" := by
    intro q hq
    cases hq
    rfl
  refine ⟨by decide, ?_, tiny_good.noEpsilonInSequence, tiny_good.width, ?_, ?_, ?_, ?_⟩
  · intro p hp ho
    rw [tiny_prods hp] at ho
    cases hocc _ ho
  · intro _ r hr
    simp [tinyOut, wideOut] at hr
    subst hr
    exact goodName_not_bad (goodName_of (by decide))
  · intro _ r hr
    simp [tinyOut, wideOut] at hr
    subst hr
    exact goodName_not_bad (goodName_of (by decide))
  · intro r hr
    simp [tinyOut, wideOut] at hr
    subst hr
    exact ⟨"token A = \"a\";".toList, by decide +kernel⟩
  · intro r hr
    simp [tinyOut, wideOut] at hr
    subst hr
    exact ⟨"prod s = A;".toList, by decide +kernel⟩

theorem tiny_goodRules' (lang : Language) : GoodRules lang tinyText' tinyOut' := by
  have hocc : ∀ q, Occurs q (.rule "B") → q = .rule "B" := by
    intro q hq
    cases hq
    rfl
  have hprods : ∀ p ∈ tinyOut'.ruleSet.prods, p = ⟨"x", none, .rule "B"⟩ := by
    intro p hp
    simpa [tinyOut', SpannedRules.ruleSet] using hp
  refine ⟨by decide, ?_, ?_, ?_, ?_, ?_, ?_, ?_⟩
  · intro p hp ho
    rw [hprods p hp] at ho
    cases hocc _ ho
  · intro r hr ps ho
    rw [hprods r hr] at ho
    cases hocc _ ho
  · intro r hr q ho
    simp [tinyOut'] at hr
    subst hr
    rw [hocc _ ho]
    decide
  · intro _ r hr
    simp [tinyOut'] at hr
    subst hr
    exact goodName_not_bad (goodName_of (by decide))
  · intro _ r hr
    simp [tinyOut'] at hr
    subst hr
    exact goodName_not_bad (goodName_of (by decide))
  · intro r hr
    simp [tinyOut'] at hr
    subst hr
    exact ⟨"token B = \"a\";".toList, by decide +kernel⟩
  · intro r hr
    simp [tinyOut'] at hr
    subst hr
    exact ⟨"prod x = B;".toList, by decide +kernel⟩

theorem readTiny_one : readTiny tinyText = .ok tinyOut := if_pos rfl
theorem readTiny_other : readTiny tinyText' = .ok tinyOut' := by
  unfold readTiny
  rw [if_neg (by decide), if_pos rfl]
theorem tinyGrammar_built' : Grammar.fromRuleSet tinyOut'.ruleSet = .ok tinyGrammar' := GRes.of_same (by decide)
theorem tinyGrammar_productive : Productive tinyGrammar := productive_of_order [0] (by decide) (by decide)

example : ∃ bound, ∀ fuel, bound ≤ fuel →
    ((∃ ws', generate readTiny fuel true .lr1 false .cpp "y.lapex".toList (some tinyText') = (ws', .ok)) ↔ ∃ ws, generate readTiny fuel true .lr1 true .rust "x.lapex".toList (some tinyText) = (ws, .ok)) := by
  obtain ⟨b, h⟩ := C71_generate_lr1 readTiny_one (fun _ => tinyTokens_good) (tiny_goodRules .rust) (by decide) readTiny_other (fun _ => tinyTokens_good') (tiny_goodRules' .cpp) tiny_same tinyGrammar_built
    tinyGrammar_built' true false "x.lapex".toList "y.lapex".toList (genLexer := true) tinyGrammar_productive (by
      intro p hp ho
      simp [tinyOut', SpannedRules.ruleSet] at hp
      subst hp
      have key : ∀ q q', Occurs q' q → q = .rule "B" → q' = .rule "B" := by
        intro q q' ho hq
        cases ho <;> simp_all
      cases key _ _ ho rfl)
  exact ⟨b, fun fuel hf => (h fuel hf).1⟩

example : ∃ bound, ∀ fuel, bound ≤ fuel →
    ((∃ ws', generate readTiny fuel true .ll1 false .cpp "y.lapex".toList (some tinyText') = (ws', .ok)) ↔ ∃ ws, generate readTiny fuel true .ll1 false .cpp "x.lapex".toList (some tinyText) = (ws, .ok)) :=
  C71_generate_ll1 readTiny_one (fun _ => tinyTokens_good) (tiny_goodRules .cpp) readTiny_other (fun _ => tinyTokens_good') (tiny_goodRules' .cpp) tiny_same tinyGrammar_built
    tinyGrammar_built' false false "x.lapex".toList "y.lapex".toList (genLexer := true) rfl rfl (by decide)

end Verif
