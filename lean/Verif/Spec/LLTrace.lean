import Verif.Spec.ParseTree
import Verif.Model.LL

/-! # The callbacks an LL parser should make -/

set_option autoImplicit false

namespace Verif

variable {T : Type}

mutual
/-- callbacks of a tree: enter before and exit after the callbacks of the children (only for visible non-terminals), token callbacks for
the leaves -/
def PTree.callbacks (visible : Nat → Bool) : PTree T → List (LLEvent T)
  | .leaf a d => [.token (.tok a) d]
  | .node r cs =>
    (if visible r.lhs then [.enter r.lhs] else []) ++ PTree.callbacksList visible cs ++ (if visible r.lhs then [.exit r.lhs] else [])
/-- callbacks of a list of trees -/
def PTree.callbacksList (visible : Nat → Bool) : List (PTree T) → List (LLEvent T)
  | [] => []
  | t :: ts => t.callbacks visible ++ PTree.callbacksList visible ts
end

/-- the token stream starts with the given tokens, followed by the end of file -/
def StreamIs (input : Nat → Tok × T) (w : List (Nat × T)) : Prop :=
  (∀ i p, w[i]? = some p → input i = (.tok p.1, p.2)) ∧ (input w.length).1 = .eof

end Verif
