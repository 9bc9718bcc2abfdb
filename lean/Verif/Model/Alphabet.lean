import Verif.Model.Input

/-! # The lexer alphabet: `lapex-lexer/src/alphabet.rs` -/

namespace Verif

/-- `struct Alphabet` — lapex-lexer/src/alphabet.rs:5-8: inclusive ranges of code points. -/
structure Alphabet where
  ranges : List (Nat × Nat)
deriving DecidableEq, Repr

/-- `slice::binary_search_by_key` as used in lapex-lexer/src/alphabet.rs:12-14. Its documented result on
a slice with strictly ascending keys (which `generate_alphabet` guarantees, property C01): `Ok(i)` if the key of
element `i` is the one searched, otherwise `Err(i)` with `i` the number of smaller keys. -/
def binarySearchStart (ranges : List (Nat × Nat)) (ch : Nat) : Nat ⊕ Nat :=
  match ranges.findIdx? (fun r => r.1 = ch) with
  | some i => .inl i
  | none => .inr (ranges.countP (fun r => r.1 < ch))

/-- `Alphabet::find_range` — lapex-lexer/src/alphabet.rs:11-25. The panic of `index - 1` at `index == 0`
is explicit. -/
def Alphabet.findRange (a : Alphabet) (ch : Nat) : Res (Option Nat) :=
  match binarySearchStart a.ranges ch with
  | .inl index => .ok (some index)
  | .inr 0 => .error .panic
  | .inr (index + 1) =>
    match a.ranges[index]? with
    | none => .error .panic
    | some r => if r.1 ≤ ch ∧ ch ≤ r.2 then .ok (some index) else .ok none

/-- the `match &ch` on `Characters` — lapex-lexer/src/alphabet.rs:58-66 and 69-77. -/
def getCharsFromCharacters (chars : List Char) : Characters → List Char
  | .single c => sinsert c chars
  | .range c1 c2 => sinsert c2 (sinsert c1 chars)

mutual
/-- `get_chars_from_pattern` — lapex-lexer/src/alphabet.rs:36-79. -/
def getCharsFromPattern (chars : List Char) : Pattern → List Char
  | .sequence elements => getCharsFromPatterns chars elements
  | .alternative elements => getCharsFromPatterns chars elements
  | .repetition _ _ inner => getCharsFromPattern chars inner
  | .charSet ch _ => ch.foldl getCharsFromCharacters chars
  | .char ch => getCharsFromCharacters chars ch
/-- the `for elem in elements` loops — lapex-lexer/src/alphabet.rs:39-41, 44-46. -/
def getCharsFromPatterns (chars : List Char) : List Pattern → List Char
  | [] => chars
  | p :: ps => getCharsFromPatterns (getCharsFromPattern chars p) ps
end

/-- `char::MAX`. -/
def charMax : Char := Char.ofNat 0x10FFFF

/-- the char set of lapex-lexer/src/alphabet.rs:82-92. -/
def alphabetChars (rules : List TokenRule) : List Char :=
  let chars := rules.foldl (fun cs r => getCharsFromPattern cs r.toPattern) []
  sinsert charMax (sinsert (Char.ofNat 0) chars)

/-- the loop of lapex-lexer/src/alphabet.rs:98-104. -/
def alphabetLoop (prev : Nat) : List Nat → List (Nat × Nat)
  | [] => []
  | ch :: rest =>
    (if ch - prev > 1 then [(prev + 1, ch - 1)] else []) ++ (ch, ch) :: alphabetLoop ch rest

/-- `generate_alphabet` — lapex-lexer/src/alphabet.rs:81-106. (The `unwrap` of line 96 cannot fail: two chars were
just inserted; the model gives no range in that impossible case.) -/
def generateAlphabet (rules : List TokenRule) : Alphabet :=
  match (alphabetChars rules).map Char.toNat with
  | [] => ⟨[]⟩
  | prev :: rest => ⟨(prev, prev) :: alphabetLoop prev rest⟩

end Verif
