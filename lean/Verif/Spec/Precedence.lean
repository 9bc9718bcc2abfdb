import Verif.Model.Lexer

/-! # Specification: the rule of highest precedence -/

set_option autoImplicit false

namespace Verif

/-- rule number `j` exists and has precedence `p` -/
def HasPrec (rules : List TokenRule) (j p : Nat) : Prop := ∃ r, rules[j]? = some r ∧ r.prec = some p

/-- rule `j` has strictly higher precedence than all other rules of the list -/
def IsBest (rules : List TokenRule) (js : List Nat) (j : Nat) : Prop :=
  j ∈ js ∧ ∃ p, HasPrec rules j p ∧ ∀ j' ∈ js, j' ≠ j → ∃ p', HasPrec rules j' p' ∧ p' < p

/-- the error names exactly the rules of the list that tie for the highest precedence, and there are at least two -/
def IsTie (rules : List TokenRule) (js : List Nat) (e : PrecedenceError) : Prop :=
  (∀ j, j ∈ e.rules ↔ j ∈ js ∧ HasPrec rules j e.precedence) ∧
  (∀ j ∈ js, ∃ p, HasPrec rules j p ∧ p ≤ e.precedence) ∧
  e.rules.Nodup ∧ 2 ≤ e.rules.length

end Verif
