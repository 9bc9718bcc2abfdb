import Verif.Model.Hir
import Verif.Spec.Regex

/-! # Specification: regular expressions -/

set_option autoImplicit false

namespace Verif

mutual
/-- the strings a regular expression matches; greediness only matters for which of several matches is preferred. Byte classes and look-around, which lapex rejects,
match nothing here. -/
inductive Hir.Matches : Hir → List Char → Prop
  | empty : Hir.Matches .empty []
  | literal {bytes : ByteArray} {w : List Char} (h : w.utf8Encode = bytes) : Hir.Matches (.literal bytes) w
  | classUnicode {ranges : List (Char × Char)} {r : Char × Char} {c : Char} (hr : r ∈ ranges) (h1 : r.1.toNat ≤ c.toNat) (h2 : c.toNat ≤ r.2.toNat) :
      Hir.Matches (.classUnicode ranges) [c]
  | repetition {min : Nat} {max : Option Nat} {greedy : Bool} {sub : Hir} {n : Nat} {w : List Char} (h : Hir.Times sub n w) (h1 : min ≤ n)
      (h2 : ∀ m, max = some m → n ≤ m) : Hir.Matches (.repetition min max greedy sub) w
  | capture {sub : Hir} {w : List Char} (h : Hir.Matches sub w) : Hir.Matches (.capture sub) w
  | concat {subs : List Hir} {w : List Char} (h : Hir.InTurn subs w) : Hir.Matches (.concat subs) w
  | alternation {subs : List Hir} {h : Hir} {w : List Char} (hm : h ∈ subs) (hw : Hir.Matches h w) : Hir.Matches (.alternation subs) w
/-- a number of matches in turn -/
inductive Hir.Times : Hir → Nat → List Char → Prop
  | zero {sub : Hir} : Hir.Times sub 0 []
  | succ {sub : Hir} {n : Nat} {u v : List Char} (h1 : Hir.Matches sub u) (h2 : Hir.Times sub n v) : Hir.Times sub (n + 1) (u ++ v)
/-- a match of each in turn -/
inductive Hir.InTurn : List Hir → List Char → Prop
  | nil : Hir.InTurn [] []
  | cons {h : Hir} {hs : List Hir} {u v : List Char} (h1 : Hir.Matches h u) (h2 : Hir.InTurn hs v) : Hir.InTurn (h :: hs) (u ++ v)
end

/-- a part of a regular expression -/
inductive Hir.Part : Hir → Hir → Prop
  | self {h : Hir} : Hir.Part h h
  | repetition {h sub : Hir} {min : Nat} {max : Option Nat} {greedy : Bool} (hs : Hir.Part h sub) : Hir.Part h (.repetition min max greedy sub)
  | capture {h sub : Hir} (hs : Hir.Part h sub) : Hir.Part h (.capture sub)
  | concat {h sub : Hir} {subs : List Hir} (hm : sub ∈ subs) (hs : Hir.Part h sub) : Hir.Part h (.concat subs)
  | alternation {h sub : Hir} {subs : List Hir} (hm : sub ∈ subs) (hs : Hir.Part h sub) : Hir.Part h (.alternation subs)

/-- what lapex does not support, and the error for it -/
inductive Hir.Unsupported : Hir → RegexError → Prop
  | empty : Hir.Unsupported .empty .emptyRegex
  | utf8 {bytes : ByteArray} (h : ¬ ∃ w : List Char, w.utf8Encode = bytes) : Hir.Unsupported (.literal bytes) .utf8Conversion
  | bytes : Hir.Unsupported .classBytes .byteClass
  | look : Hir.Unsupported .look .lookaround
  | lazy {min : Nat} {max : Option Nat} {sub : Hir} : Hir.Unsupported (.repetition min max false sub) .lazyRepetition

/-- an expression without literals and concatenations of nothing, as the smart constructors of `regex_syntax` guarantee -/
def Hir.NoEmptyParts (h : Hir) : Prop := ∀ x, Hir.Part x h → x ≠ .literal ByteArray.empty ∧ x ≠ .concat []

end Verif
