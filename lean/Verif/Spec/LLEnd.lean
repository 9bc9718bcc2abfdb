import Verif.Spec.LLTrace

/-! # Trees whose nodes all start before the last token -/

set_option autoImplicit false

namespace Verif

variable {T : Type}

/-- after every non-terminal that is entered there is still a token: no node, empty or not, starts behind the last token -/
def PTree.EndsInToken (t : PTree T) : Prop :=
  ∀ pre A post, t.callbacks (fun _ => true) = pre ++ .enter A :: post → ∃ a d, LLEvent.token a d ∈ post

end Verif
