import Verif.Spec.Regex
import Verif.Model.Lexer

/-! # Specification: which token a text is -/

set_option autoImplicit false

namespace Verif

/-- some rule matches `w` -/
def SomeMatch (rules : List TokenRule) (w : List Char) : Prop := ∃ r ∈ rules, r.Matches w

/-- `w` can be extended to a text that some rule matches -/
def Viable (rules : List TokenRule) (w : List Char) : Prop := ∃ u, SomeMatch rules (w ++ u)

/-- rule number `j` matches `w`, and every other rule that matches `w` has strictly lower precedence -/
def BestMatch (rules : List TokenRule) (w : List Char) (j : Nat) : Prop :=
  ∃ r p, rules[j]? = some r ∧ r.Matches w ∧ r.prec = some p ∧
    ∀ (j' : Nat) (r' : TokenRule), rules[j']? = some r' → r'.Matches w → j' ≠ j → ∃ p', r'.prec = some p' ∧ p' < p

/-- the NUL char -/
def nul : Char := Char.ofNat 0

/-- nothing is left, or a NUL char comes next -/
def AtEnd (rest : List Char) : Prop := rest = [] ∨ ∃ r, rest = nul :: r

/-- the code point of the next unread char; 0 at the end of the input -/
def nextCode : List Char → Nat
  | [] => 0
  | c :: _ => c.toNat

/-- A history of calls of `next`: the results in order, each with the lexer state after the call. -/
inductive LexRun (t : LexerTables) : Lexer → List (LexResult × Lexer) → Lexer → Prop
  | nil (l : Lexer) : LexRun t l [] l
  | cons {l l1 l2 : Lexer} {r : LexResult} {hs : List (LexResult × Lexer)} :
      l.next t = .ok (r, l1) → LexRun t l1 hs l2 → LexRun t l ((r, l1) :: hs) l2

end Verif
