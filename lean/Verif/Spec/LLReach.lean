import Verif.Model.LL

/-!
# States of an LL parser
-/

set_option autoImplicit false

namespace Verif

/-- the states an LL parser goes through: stack, number of the current token, callbacks made so far -/
inductive LLReaches {T : Type} (disp : Dispatch) (visible : Nat → Bool) (input : Nat → Tok × T) (entry : Nat) : List LLSym → Nat → List (LLEvent T) → Prop
  | start : LLReaches disp visible input entry [.nonTerminal entry, .terminal .eof] 0 []
  | step {s s' : List LLSym} {pos pos' : Nat} {events : List (LLEvent T)} {e : Option (LLEvent T)} :
      LLReaches disp visible input entry s pos events → llStep disp visible input s pos = .next s' pos' e →
      LLReaches disp visible input entry s' pos' (events ++ e.toList)

end Verif
