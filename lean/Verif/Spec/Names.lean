import Verif.Model.Names

/-! # Specification: names in generated code -/

set_option autoImplicit false

namespace Verif

/-- `b` is what remains of a name at the start of one of its segments -/
def SegmentStart (name b : List Char) : Prop := ∃ a, name = a ++ b ∧ (a = [] ∨ ∃ a', a = a' ++ ['_'])

/-- the name has an empty segment, or a segment that begins with a non-ASCII char -/
def BadSegment (name : List Char) : Prop := ∃ b, SegmentStart name b ∧ (b = [] ∨ (∃ b', b = '_' :: b') ∨ ∃ c b', b = c :: b' ∧ 128 ≤ c.toNat)

/-- an ASCII letter -/
def IsLetter (c : Char) : Prop := (65 ≤ c.toNat ∧ c.toNat ≤ 90) ∨ (97 ≤ c.toNat ∧ c.toNat ≤ 122)

/-- every segment begins with an ASCII letter -/
def GoodName (name : List Char) : Prop := ∀ b, SegmentStart name b → ∃ c b', b = c :: b' ∧ IsLetter c

/-- equal up to the case of ASCII letters -/
def SameName (a b : List Char) : Prop := a.map asciiLower = b.map asciiLower

/-- the number of rules of a non-terminal, and of those before rule `r` -/
def ruleCount (g : Grammar) (A : Nat) : Nat := (g.rules.filter (fun r => r.lhs = A)).length
def rulesBefore (g : Grammar) (A r : Nat) : Nat := ((g.rules.take r).filter (fun r => r.lhs = A)).length

/-- the callback for rule number `r`: the name of its non-terminal (`anon` and its number if it has none), followed, if the non-terminal has several rules, by the tag
of the production the rule comes from, or else by the position among the rules of the non-terminal, counted from 1 -/
def IsCallback (rs : RuleSet) (g : Grammar) (r : Nat) (name : List Char) : Prop :=
  ∃ rule, g.rules[r]? = some rule ∧
    ((ruleCount g rule.lhs = 1 ∧ name = "reduce_".toList ++ ntName g rule.lhs) ∨
     (ruleCount g rule.lhs ≠ 1 ∧ ∃ tag, tagOf rs g r = some tag ∧ name = "reduce_".toList ++ ntName g rule.lhs ++ ['_'] ++ tag) ∨
     (ruleCount g rule.lhs ≠ 1 ∧ tagOf rs g r = none ∧ name = "reduce_".toList ++ ntName g rule.lhs ++ ['_'] ++ decimal (rulesBefore g rule.lhs r + 1)))

/-- the callback for rule number `r` in C++, where tags are not used -/
def IsCppCallback (g : Grammar) (r : Nat) (name : List Char) : Prop :=
  ∃ rule, g.rules[r]? = some rule ∧
    ((ruleCount g rule.lhs = 1 ∧ name = "reduce_".toList ++ ntName g rule.lhs) ∨
     (ruleCount g rule.lhs ≠ 1 ∧ name = "reduce_".toList ++ ntName g rule.lhs ++ ['_'] ++ decimal (rulesBefore g rule.lhs r + 1)))

/-- the name ends in an underscore and a number -/
def EndsInNumber (name : List Char) : Prop := ∃ a n, name = a ++ ['_'] ++ decimal n

/-- the name is one given to non-terminals without name -/
def IsAnon (name : List Char) : Prop := ∃ n, name = "anon".toList ++ decimal n

end Verif
