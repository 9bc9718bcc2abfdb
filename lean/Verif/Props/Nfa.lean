import Verif.Props.Alphabet

/-! # Properties C03, C04: the NFA construction -/

set_option autoImplicit false

namespace Verif

/-- **C03**: for rules without empty sequences, the accepting node of rule `j` (there is exactly one) is reached by (the
alphabet indices of) a string iff the rule matches the string. -/
theorem C03_nfa_language {rules : List TokenRule} {start : Nat} {nfa : LexNfa}
    (h : generateNfa (generateAlphabet rules) rules = .ok (start, nfa))
    {j : Nat} {r : TokenRule} (hj : rules[j]? = some r) (hne : r.NoEmptySeq) :
    ∃ q, nfa.graph.nodes[q]? = some (.accepting j) ∧
      (∀ q' : Nat, nfa.graph.nodes[q']? = some (.accepting j) → q' = q) ∧
      ∀ w ws, Encodes (generateAlphabet rules).ranges w ws → (nfa.Path start ws q ↔ r.Matches w) := by
  obtain ⟨_, _, _, _, hs, hc, _⟩ := generateNfa_ok h
  obtain ⟨q, hq, hcomp⟩ := hc j r hj
  refine ⟨q, hq, fun q' hq' => generateNfa_unique h _ _ _ hq' hq, ?_⟩
  intro w ws henc
  rw [encodes_iff (generateAlphabet_good rules)] at henc
  subst henc
  constructor
  · intro hp
    obtain ⟨r', h1, h2⟩ := hs q j w hq hp
    rw [hj] at h1
    cases h1
    exact h2
  · intro hm
    exact hcomp w (by rw [TokenRule.live_eq hne]; exact hm)

/-- **C03**, soundness without any condition on the patterns: whatever reaches the accepting node of a rule is matched
by the rule. -/
theorem C03_nfa_sound {rules : List TokenRule} {start : Nat} {nfa : LexNfa}
    (h : generateNfa (generateAlphabet rules) rules = .ok (start, nfa))
    {j q : Nat} (hq : nfa.graph.nodes[q]? = some (.accepting j)) {w : List Char} {ws : List Nat}
    (henc : Encodes (generateAlphabet rules).ranges w ws) (hp : nfa.Path start ws q) :
    ∃ r, rules[j]? = some r ∧ r.Matches w := by
  obtain ⟨_, _, _, _, hs, _, _⟩ := generateNfa_ok h
  rw [encodes_iff (generateAlphabet_good rules)] at henc
  subst henc
  exact hs q j w hq hp

/-- the NFA generated for the single rule with the empty literal -/
def emptyLiteralNfa : LexNfa where
  graph := ⟨[.intermediate 0, .intermediate 1, .accepting 0], [⟨0, 1, .epsilon⟩]⟩
  intermediateCounter := 2

/-- The condition on empty sequences in C03 is needed: the empty literal matches the empty string, but the accepting
node of its rule is not reachable by any word. -/
theorem C03_empty_literal_unmatched :
    TokenRule.Matches ⟨"E", none, .literal []⟩ [] ∧
    generateNfa (generateAlphabet [⟨"E", none, .literal []⟩]) [⟨"E", none, .literal []⟩] = .ok (0, emptyLiteralNfa) ∧
    emptyLiteralNfa.graph.nodes[2]? = some (.accepting 0) ∧ ∀ ws, ¬ emptyLiteralNfa.Path 0 ws 2 := by
  refine ⟨rfl, by decide, rfl, ?_⟩
  have stuck : ∀ q ws q', emptyLiteralNfa.Path q ws q' → (q = 0 ∨ q = 1) → q' ≠ 2 := by
    intro q ws q' hp
    induction hp with
    | refl q => rintro (h | h) <;> omega
    | eps he _ ih => intro _; simp [emptyLiteralNfa] at he; exact ih (Or.inr he.2)
    | step he _ _ => simp [emptyLiteralNfa] at he
  intro ws hp
  exact stuck 0 ws 2 hp (Or.inl rfl) rfl

/-- **C04**: `generate_nfa` panics exactly when a pattern contains a counted repetition whose maximum does not
exceed its minimum, and otherwise succeeds. -/
theorem C04_panic_iff (rules : List TokenRule) :
    (generateNfa (generateAlphabet rules) rules = .error .panic ↔ ∃ r ∈ rules, r.HasTightCount) ∧
    ((∃ res, generateNfa (generateAlphabet rules) rules = .ok res) ↔ ¬ ∃ r ∈ rules, r.HasTightCount) := by
  have hg := generateAlphabet_good rules
  have h := generateNfaLoop_total hg 0 rules
  have hp : (∃ r ∈ rules, r.HasTightCount) → generateNfa (generateAlphabet rules) rules = .error .panic := by
    intro hr
    have := h.1 0 ({} : LexNfa).addIntermediateState.1 hr
    exact congrArg (· >>= fun n => Except.ok (0, n)) this
  have hs : (¬ ∃ r ∈ rules, r.HasTightCount) → ∃ res, generateNfa (generateAlphabet rules) rules = .ok res := by
    intro hr
    obtain ⟨n, hn⟩ := h.2 0 ({} : LexNfa).addIntermediateState.1 hr
    refine ⟨(0, n), ?_⟩
    exact congrArg (· >>= fun n => Except.ok (0, n)) hn
  constructor
  · constructor
    · intro he
      by_cases hr : ∃ r ∈ rules, r.HasTightCount
      · exact hr
      · obtain ⟨res, h1⟩ := hs hr
        rw [he] at h1; cases h1
    · exact hp
  · constructor
    · rintro ⟨res, h1⟩ hr
      rw [hp hr] at h1; cases h1
    · exact hs

/- a concrete rule set meets the hypotheses of C03 -/
example : ∃ nfa, generateNfa (generateAlphabet exampleRules) exampleRules = .ok (0, nfa) ∧
    ∀ r ∈ exampleRules, r.NoEmptySeq := by
  have hk : ¬ ∃ r ∈ exampleRules, r.HasTightCount := by
    simp [exampleRules, TokenRule.HasTightCount, Pattern.HasTightCount]
  obtain ⟨⟨s, nfa⟩, h⟩ := (C04_panic_iff exampleRules).2.mpr hk
  have := (generateNfa_ok h).1
  subst this
  exact ⟨nfa, h, by simp [exampleRules, TokenRule.NoEmptySeq, Pattern.NoEmptySeq]⟩

/- the legal regex `a{3}` makes the generator panic -/
example : generateNfa (generateAlphabet [⟨"T", none, .pattern (.repetition 3 (some 3) (.char (.single 'a')))⟩])
    [⟨"T", none, .pattern (.repetition 3 (some 3) (.char (.single 'a')))⟩] = .error .panic := by
  rw [(C04_panic_iff _).1]
  exact ⟨_, List.mem_cons_self .., Or.inl ⟨3, rfl, Nat.le_refl _⟩⟩

end Verif
