import Verif.Model.Input

/-!
# Specification: the regular language of a token pattern

The usual meaning of regular expressions, independent of any automaton.
-/

namespace Verif

/-- a set of strings -/
abbrev Lang := List Char → Prop

/-- `n`-fold concatenation of a language with itself -/
def Lang.pow (L : Lang) : Nat → Lang
  | 0 => fun w => w = []
  | n + 1 => fun w => ∃ u v, w = u ++ v ∧ L u ∧ Lang.pow L n v

/-- a char belongs to a `Characters` item -/
def Characters.Has : Characters → Char → Prop
  | .single c, d => d = c
  | .range c1 c2, d => c1.toNat ≤ d.toNat ∧ d.toNat ≤ c2.toNat

mutual
/-- the strings a pattern matches -/
def Pattern.Matches : Pattern → Lang
  | .sequence ps => Pattern.SeqMatches ps
  | .alternative ps => Pattern.AltMatches ps
  | .repetition min max p => fun w =>
      ∃ n, min ≤ n ∧ (∀ m, max = some m → n ≤ m) ∧ Lang.pow (Pattern.Matches p) n w
  | .charSet cs false => fun w => ∃ c, w = [c] ∧ ∃ x ∈ cs, x.Has c
  | .charSet cs true => fun w => ∃ c, w = [c] ∧ ¬ ∃ x ∈ cs, x.Has c
  | .char x => fun w => ∃ c, w = [c] ∧ x.Has c
/-- concatenation of a list of patterns -/
def Pattern.SeqMatches : List Pattern → Lang
  | [] => fun w => w = []
  | p :: ps => fun w => ∃ u v, w = u ++ v ∧ Pattern.Matches p u ∧ Pattern.SeqMatches ps v
/-- union of a list of patterns -/
def Pattern.AltMatches : List Pattern → Lang
  | [] => fun _ => False
  | p :: ps => fun w => Pattern.Matches p w ∨ Pattern.AltMatches ps w
end

/-- the strings a token rule matches: a literal matches itself, a regex its language -/
def TokenRule.Matches (r : TokenRule) : Lang :=
  match r.pattern with
  | .literal cs => fun w => w = cs
  | .pattern p => p.Matches

end Verif

namespace Verif

mutual
/-- the pattern contains a counted repetition whose maximum does not exceed its minimum -/
def Pattern.HasTightCount : Pattern → Prop
  | .sequence ps => Pattern.SomeTightCount ps
  | .alternative ps => Pattern.SomeTightCount ps
  | .repetition min max p => (∃ m, max = some m ∧ m ≤ min) ∨ Pattern.HasTightCount p
  | .charSet _ _ => False
  | .char _ => False
/-- one of the patterns contains such a repetition -/
def Pattern.SomeTightCount : List Pattern → Prop
  | [] => False
  | p :: ps => Pattern.HasTightCount p ∨ Pattern.SomeTightCount ps
end

mutual
/-- the pattern contains no empty sequence -/
def Pattern.NoEmptySeq : Pattern → Prop
  | .sequence ps => ps ≠ [] ∧ Pattern.AllNoEmptySeq ps
  | .alternative ps => Pattern.AllNoEmptySeq ps
  | .repetition _ _ p => Pattern.NoEmptySeq p
  | .charSet _ _ => True
  | .char _ => True
/-- none of the patterns contains an empty sequence -/
def Pattern.AllNoEmptySeq : List Pattern → Prop
  | [] => True
  | p :: ps => Pattern.NoEmptySeq p ∧ Pattern.AllNoEmptySeq ps
end

/-- the rule's literal or pattern contains no empty sequence (the literal `""` counts as one) -/
def TokenRule.NoEmptySeq (r : TokenRule) : Prop :=
  match r.pattern with
  | .literal cs => cs ≠ []
  | .pattern p => p.NoEmptySeq

/-- the rule contains a counted repetition whose maximum does not exceed its minimum -/
def TokenRule.HasTightCount (r : TokenRule) : Prop :=
  match r.pattern with
  | .literal _ => False
  | .pattern p => p.HasTightCount

end Verif

namespace Verif

mutual
/-- the pattern and each of its sub-patterns match some string -/
def Pattern.Useful : Pattern → Prop
  | .sequence ps => (∃ w, Pattern.Matches (.sequence ps) w) ∧ Pattern.AllUseful ps
  | .alternative ps => (∃ w, Pattern.Matches (.alternative ps) w) ∧ Pattern.AllUseful ps
  | .repetition min max p => (∃ w, Pattern.Matches (.repetition min max p) w) ∧ Pattern.Useful p
  | .charSet cs neg => ∃ w, Pattern.Matches (.charSet cs neg) w
  | .char x => ∃ w, Pattern.Matches (.char x) w
/-- all patterns are useful -/
def Pattern.AllUseful : List Pattern → Prop
  | [] => True
  | p :: ps => Pattern.Useful p ∧ Pattern.AllUseful ps
end

/-- the rule's pattern and each of its sub-patterns match some string -/
def TokenRule.Useful (r : TokenRule) : Prop :=
  match r.pattern with
  | .literal _ => True
  | .pattern p => p.Useful

end Verif
