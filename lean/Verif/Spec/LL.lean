import Verif.Spec.Sentential

/-! # LL(1) -/

set_option autoImplicit false

namespace Verif

/-- some sentential form derived from the right side of `r` starts with `x` -/
def PredictsFirst (g : Grammar) (r : Rule) (x : Sym) : Prop := ∃ β, Rewrites g.rules (strip r.rhs) (x :: β)

/-- the right side of `r` derives the empty string and `x` can follow the left side -/
def PredictsFollow (g : Grammar) (r : Rule) (x : Sym) : Prop :=
  Rewrites g.rules (strip r.rhs) [] ∧ (CanFollow g r.lhs x ∨ CanFollowInside g r.lhs x)

/-- `x` is in the predict set of `r` -/
def Predicts (g : Grammar) (r : Rule) (x : Sym) : Prop := PredictsFirst g r x ∨ PredictsFollow g r x

/-- The predict sets of different rules (by position in the rule list) of the same non-terminal are disjoint, and no terminal is in the
predict set of a rule for both reasons. -/
structure Grammar.LL1 (g : Grammar) : Prop where
  disjoint : g.rules.Pairwise (fun r r' => r.lhs = r'.lhs → ∀ x : Sym, x.isTerm → ¬ (Predicts g r x ∧ Predicts g r' x))
  once : ∀ r ∈ g.rules, ∀ x : Sym, x.isTerm → ¬ (PredictsFirst g r x ∧ PredictsFollow g r x)

/-- the reported conflict is one: the earlier rule `A → existing` and the later `A → production` both predict `x`, or they are the same
rule that predicts `x` for two reasons -/
def GenuineConflict (g : Grammar) (A : Nat) (x : Sym) (production existing : List Sym) : Prop :=
  x.isTerm ∧ ∃ pre r post, g.rules = pre ++ r :: post ∧ r.lhs = A ∧ r.rhs = production ∧
    ((Predicts g r x ∧ ∃ r' ∈ pre, r'.lhs = A ∧ r'.rhs = existing ∧ Predicts g r' x) ∨
     (production = existing ∧ PredictsFirst g r x ∧ PredictsFollow g r x))

/-- the terminal numbers plus one fit into 16 bits -/
def TokensFit (g : Grammar) : Prop := ∀ a, Sym.t a ∈ g.terminals → a + 1 < 65536

end Verif
