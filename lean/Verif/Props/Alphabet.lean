import Verif.Proofs.NfaAll

/-! # Properties C01, C02: the lexer alphabet -/

set_option autoImplicit false

namespace Verif

/-- **C01**: the ranges tile the code points `0 .. char::MAX`; every char lies in exactly one range; chars written in
a pattern are ranges on their own; range 0 is exactly NUL. -/
theorem C01_alphabet_partition (rules : List TokenRule) :
    Tiles 0 (generateAlphabet rules).ranges 0x110000 ∧
    (∀ c : Char, ∃ i, InRange (generateAlphabet rules).ranges c.toNat i ∧
      ∀ j, InRange (generateAlphabet rules).ranges c.toNat j → j = i) ∧
    (∀ r ∈ rules, ∀ c, r.Names c → (c.toNat, c.toNat) ∈ (generateAlphabet rules).ranges) ∧
    (generateAlphabet rules).ranges[0]? = some (0, 0) := by
  refine ⟨generateAlphabet_tiles rules, ?_, fun r hr c hc => generateAlphabet_named hr hc, ?_⟩
  · intro c
    exact ⟨classOf _ c, (inRange_iff (generateAlphabet_good rules) c _).mpr rfl,
      fun j hj => (inRange_iff (generateAlphabet_good rules) c _).mp hj⟩
  · obtain ⟨rest, _, h2, _⟩ := generateAlphabet_shape rules
    rw [h2]; rfl

/-- **C02**: `find_range` never panics, never answers `None`, and answers the one index whose range contains the char. -/
theorem C02_find_range (rules : List TokenRule) (c : Char) :
    ∃ i, (generateAlphabet rules).findRange c.toNat = .ok (some i) ∧
      ∀ j, InRange (generateAlphabet rules).ranges c.toNat j ↔ j = i :=
  ⟨_, (generateAlphabet_good rules).findRange c, fun j => inRange_iff (generateAlphabet_good rules) c j⟩

/-- **C02**, second half: a char range written in a pattern covers exactly the indices between those of its ends. -/
theorem C02_range_covers (rules : List TokenRule) {r : TokenRule} (hr : r ∈ rules) {c1 c2 d : Char}
    (h1 : r.Names c1) (h2 : r.Names c2) {i1 i2 i : Nat}
    (e1 : (generateAlphabet rules).findRange c1.toNat = .ok (some i1))
    (e2 : (generateAlphabet rules).findRange c2.toNat = .ok (some i2))
    (e : (generateAlphabet rules).findRange d.toNat = .ok (some i)) :
    (i1 ≤ i ∧ i ≤ i2) ↔ (c1.toNat ≤ d.toNat ∧ d.toNat ≤ c2.toNat) := by
  have hg := generateAlphabet_good rules
  rw [hg.findRange] at e1 e2 e
  cases e1; cases e2; cases e
  exact range_index hg (generateAlphabet_named hr h1) (generateAlphabet_named hr h2)

/-- a rule set with a literal, a char class and a range -/
def exampleRules : List TokenRule :=
  [⟨"KW", none, .literal ['i', 'f']⟩,
   ⟨"ID", none, .pattern (.repetition 1 none (.charSet [.range 'a' 'z'] false))⟩]

/- the ranges of a concrete rule set, and a lookup -/
example : (generateAlphabet exampleRules).ranges =
    [(0, 0), (1, 96), (97, 97), (98, 101), (102, 102), (103, 104), (105, 105), (106, 121), (122, 122), (123, 1114110), (1114111, 1114111)] := by
  decide
example : (generateAlphabet exampleRules).findRange 'k'.toNat = .ok (some 7) := by decide
/- the hypotheses of `C02_range_covers` are met -/
example : ∃ r ∈ exampleRules, r.Names 'a' ∧ r.Names 'z' :=
  ⟨_, List.mem_cons_of_mem _ (List.mem_cons_self ..), by simp [TokenRule.Names, Pattern.Names, Characters.Names]⟩

end Verif
