import Verif.Model.BidiMap

/-! # Specification: the two-way map as a one-to-one relation -/

set_option autoImplicit false

namespace Verif

variable {A B : Type} [DecidableEq A] [DecidableEq B]

/-- the relation after `insert` and after removing by `b` -/
def RelInsert (a : A) (b : B) (R : A → B → Prop) : A → B → Prop := fun x y => R x y ∨ (x = a ∧ y = b)
def RelRemove (b : B) (R : A → B → Prop) : A → B → Prop := fun x y => R x y ∧ y ≠ b

/-- the histories in which every inserted pair is new on both sides, and the relation they stand for -/
inductive FreshHistory : BidiMap A B → (A → B → Prop) → Prop
  | new : FreshHistory .new (fun _ _ => False)
  | insert {m : BidiMap A B} {R : A → B → Prop} (a : A) (b : B) : FreshHistory m R → (∀ y, ¬ R a y) → (∀ x, ¬ R x b) → FreshHistory (m.insert a b) (RelInsert a b R)
  | remove {m m' : BidiMap A B} {R : A → B → Prop} (b : B) (r : Option (A × B)) : FreshHistory m R → m.removeByB b = .ok (r, m') → FreshHistory m' (RelRemove b R)

/-- all histories -/
inductive AnyHistory : BidiMap A B → Prop
  | new : AnyHistory .new
  | insert {m : BidiMap A B} (a : A) (b : B) : AnyHistory m → AnyHistory (m.insert a b)
  | remove {m m' : BidiMap A B} (b : B) (r : Option (A × B)) : AnyHistory m → m.removeByB b = .ok (r, m') → AnyHistory m'

end Verif
