import Verif.Spec.RustLexText
import Verif.Spec.CppLexText

/-!
# The number of rounds of a loop

The interpreters of the generated texts stop with `.error .fuel` when a loop has not ended after a given number of rounds. So the number of rounds that a call takes is the smallest number with which it
returns.
-/

set_option autoImplicit false

namespace Verif

/-- a call `f`, given the number of rounds allowed, returns `v` after exactly `k` rounds -/
def TakesRounds {α : Type} (f : Nat → Res α) (k : Nat) (v : α) : Prop := ∀ n, f n = if k ≤ n then .ok v else .error .fuel

/-- Calls of `next`, one after the other, with their results. `rounds` is the number of rounds of the loop in all the calls. -/
inductive Calls {L R : Type} (next : Nat → L → Res (R × L)) : L → Nat → List R → L → Prop
  | nil (l : L) : Calls next l 0 [] l
  | cons {l l1 l2 : L} {k rounds : Nat} {r : R} {rs : List R} :
      TakesRounds (fun n => next n l) k (r, l1) → Calls next l1 rounds rs l2 → Calls next l (k + rounds) (r :: rs) l2

end Verif
