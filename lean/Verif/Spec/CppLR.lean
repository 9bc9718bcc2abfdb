import Verif.Model.CppLR
import Verif.Spec.LRTrace

/-!
# What the C++ LR parser should do

A token is a number in C++: 0 for an error, 1 for the end of the file, `i + 2` for the `i`-th token rule. The C++ parser should make the calls the Rust parser makes
and return when that one returns `Ok`; where the Rust parser returns an error it should throw an exception whose message names the token and the expected ones.
-/

set_option autoImplicit false

namespace Verif

variable {T : Type}

/-- the number of a token -/
def tokenCode : Tok → Nat
  | .err => 0
  | .eof => 1
  | .tok a => a + 2

/-- the same token function, for the C++ parser -/
def codeInput (input : Nat → Tok × T) : Nat → Nat × T := fun n => (tokenCode (input n).1, (input n).2)

/-- the same call -/
def codeEvent : LREvent T → CppEvent T
  | .shift t d => .shift (tokenCode t) d
  | .reduce i => .reduce i

/-- name of a token -/
def codeTokName (names : List (List Char)) : Tok → List Char
  | .err => "<ERR>".toList
  | .eof => "<EOF>".toList
  | .tok a => names.getD a []

/-- name of a symbol that may be expected -/
def codeSymName (names : List (List Char)) : Sym → List Char
  | .t a => names.getD a []
  | .eof => "<EOF>".toList
  | _ => []

/-- the message for token `t` where others are expected -/
def unexpectedMessage (names : List (List Char)) (t : Tok) (expected : List Sym) : List Char :=
  "Unexpected token '".toList ++ codeTokName names t ++ "', expected one of: ".toList ++
    List.intercalate ", ".toList (expected.map (fun s => ['\''] ++ codeSymName names s ++ ['\'']))

/-- the same result -/
def codeResult (names : List (List Char)) (input : Nat → Tok × T) : LRResult T → CppLRResult T
  | .ok events pos => .returned (events.map codeEvent) pos
  | .unexpected events pos expected => .thrown (events.map codeEvent) pos (unexpectedMessage names (input pos).1 expected)
  | .panic events pos => .aborted (events.map codeEvent) pos
  | .running events pos => .running (events.map codeEvent) pos

/-- the token function delivers tokens of the file only -/
def TokensBelow (n : Nat) (input : Nat → Tok × T) : Prop := ∀ i a, (input i).1 = .tok a → a < n

/-- names of the token rules -/
def tokenNames (rs : RuleSet) : List (List Char) := rs.tokens.map String.toList

/-- `tb` is a table lapex builds for `g` -/
def LRTableFor (g : Grammar) (kind : LRKind) (tb : LRTable) : Prop :=
  ∃ (allow : Bool) (fuel : Nat), generateTable g allow kind fuel = .ok (.noConflicts tb) ∨ ∃ cs, generateTable g allow kind fuel = .ok (.allowedConflicts tb cs)

/-- the table has a shift entry for the start state -/
def StartShifts (tb : LRTable) : Prop := ∃ s q es, tb.get tb.entryState s = some es ∧ TableEntry.shift q ∈ es

end Verif
