import Verif.Model.LaidGenerate

/-! # Specification: runs that differ in hash seeds and addresses -/

set_option autoImplicit false

namespace Verif

/-- the layout can occur: iterating over a hash set gives every element once, and every state is visited once -/
structure Layout.Possible (lay : Layout) : Prop where
  iter : ∀ gr X s, (lay.iter gr X s).Perm s
  visit : ∀ gr : LRGraph, (lay.visit gr).Perm gr.sets.zipIdx

/-- the same files, and the same ending up to the order of the error reports -/
def SameOutcome (a b : List Written × Ending) : Prop :=
  a.1 = b.1 ∧ (a.2 = b.2 ∨ ∃ rs rs', a.2 = .err rs ∧ b.2 = .err rs' ∧ rs.Perm rs')

end Verif
