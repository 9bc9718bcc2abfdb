import Verif.Model.Collections

/-!
# Rule sets: `lapex-input/src/lib.rs`

The data that the input parsers produce and every generator consumes.  Source spans (`Spanned<T>`) only
feed error messages and are left out of the rules here; they are modelled in `Verif.Model.Source`.
-/

namespace Verif

/-- `enum Characters` — lapex-input/src/lib.rs:85-89. -/
inductive Characters where
  | single (c : Char)
  | range (c1 c2 : Char)
deriving DecidableEq, Repr

/-- `enum Pattern` — lapex-input/src/lib.rs:91-111. `u32` bounds are `Nat`. -/
inductive Pattern where
  | sequence (elements : List Pattern)
  | alternative (elements : List Pattern)
  | repetition (min : Nat) (max : Option Nat) (inner : Pattern)
  | charSet (chars : List Characters) (negated : Bool)
  | char (chars : Characters)
deriving Repr

/-- `Pattern::from_chars` — lapex-input/src/lib.rs:114-123. -/
def Pattern.fromChars (chars : List Char) : Pattern :=
  .sequence (chars.map (fun c => .char (.single c)))

/-- `.iter().map(..).min().unwrap()` over numbers: `none` models the panic of `unwrap` on an empty iterator. -/
def minOpt : List Nat → Option Nat
  | [] => none
  | [a] => some a
  | a :: l => (minOpt l).map (fun b => if b < a then b else a)

mutual
/-- `Pattern::precedence` — lapex-input/src/lib.rs:125-138. `none` models the panic on an empty alternative;
`usize` arithmetic is unbounded here. -/
def Pattern.precedence : Pattern → Option Nat
  | .sequence elements => (Pattern.precedences elements).map List.sum
  | .alternative elements => (Pattern.precedences elements).bind minOpt
  | .repetition min _ inner => (Pattern.precedence inner).map (fun p => min * p)
  | .charSet _ _ => some 1
  | .char _ => some 1
/-- the `elements.iter().map(|p| p.precedence())` of `Pattern::precedence` (lines 127 and 129). -/
def Pattern.precedences : List Pattern → Option (List Nat)
  | [] => some []
  | p :: ps =>
    match Pattern.precedence p, Pattern.precedences ps with
    | some a, some as => some (a :: as)
    | _, _ => none
end

/-- `enum TokenPattern` — lapex-input/src/lib.rs:141-145. -/
inductive TokenPattern where
  | literal (characters : List Char)
  | pattern (pattern : Pattern)
deriving Repr

/-- `struct TokenRule` — lapex-input/src/lib.rs:147-152. -/
structure TokenRule where
  name : String
  precedence : Option Nat
  pattern : TokenPattern
deriving Repr

/-- The pattern the lexer generator works with: literals go through `Pattern::from_chars`
(lapex-lexer/src/alphabet.rs:84-89 and lapex-lexer/src/nfa/mod.rs:191-202). -/
def TokenRule.toPattern (r : TokenRule) : Pattern :=
  match r.pattern with
  | .literal characters => Pattern.fromChars characters
  | .pattern p => p

/-- `TokenRule::precedence` — lapex-input/src/lib.rs:155-164; `none` models a panic. -/
def TokenRule.prec (r : TokenRule) : Option Nat :=
  match r.precedence with
  | some p => some p
  | none =>
    match r.pattern with
    | .literal characters => some (characters.length * 2)
    | .pattern p => p.precedence

end Verif
