import Verif.Model.Input

/-! # Specification: partitions of the code points, chars a rule mentions -/

namespace Verif

/-- the inclusive ranges cover `lo, ..., hi - 1` without gap or overlap, in ascending order, none empty -/
def Tiles : Nat → List (Nat × Nat) → Nat → Prop
  | lo, [], hi => lo = hi
  | lo, (s, e) :: rs, hi => s = lo ∧ s ≤ e ∧ Tiles (e + 1) rs hi

/-- a char is written in a `Characters` item (alone or as an end of a range) -/
def Characters.Names : Characters → Char → Prop
  | .single c, d => d = c
  | .range c1 c2, d => d = c1 ∨ d = c2

mutual
/-- a char is written somewhere in a pattern -/
def Pattern.Names : Pattern → Char → Prop
  | .sequence ps => Pattern.SomeNames ps
  | .alternative ps => Pattern.SomeNames ps
  | .repetition _ _ p => Pattern.Names p
  | .charSet cs _ => fun d => ∃ x ∈ cs, x.Names d
  | .char x => x.Names
/-- a char is written in one of the patterns -/
def Pattern.SomeNames : List Pattern → Char → Prop
  | [] => fun _ => False
  | p :: ps => fun d => Pattern.Names p d ∨ Pattern.SomeNames ps d
end

/-- a char is written in a token rule -/
def TokenRule.Names (r : TokenRule) (d : Char) : Prop :=
  match r.pattern with
  | .literal cs => d ∈ cs
  | .pattern p => p.Names d

end Verif

namespace Verif

/-- index `i` is that of a range which contains the code point `c` -/
def InRange (ranges : List (Nat × Nat)) (c : Nat) (i : Nat) : Prop :=
  ∃ lo hi, ranges[i]? = some (lo, hi) ∧ lo ≤ c ∧ c ≤ hi

/-- `ws` are the alphabet indices of the chars of the string `w` -/
inductive Encodes (ranges : List (Nat × Nat)) : List Char → List Nat → Prop
  | nil : Encodes ranges [] []
  | cons {c : Char} {i : Nat} {w : List Char} {ws : List Nat} :
      InRange ranges c.toNat i → Encodes ranges w ws → Encodes ranges (c :: w) (i :: ws)

end Verif
