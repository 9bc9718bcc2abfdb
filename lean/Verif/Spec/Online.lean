import Verif.Model.LRDriver
import Verif.Model.LL
import Verif.Model.Glr
import Verif.Spec.Lexing
import Verif.Spec.LRTrace

/-!
# Parsers whose token function looks at the callbacks made so far

A token function `F` is given the number of the call (from 0) and the callbacks made before the call. The loops are those of the models
(`lrRun`, `llRun`, `glrRun`), but they hold the token in the queue themselves and call `F` where the code calls the token function:
before the loop and, in the LR and LL parsers, after the visitor was told about the token; in the GLR parser after the token was taken
from the queue, before the callbacks of the round.
-/

set_option autoImplicit false

namespace Verif

variable {T : Type}

/-- a token function that sees the callbacks -/
abbrev TokenSource (Ev T : Type) := Nat → List Ev → Tok × T

/-- the loop of the LR parser — lapex-rust-codegen/src/lr_parser/mod.rs:440-481, lapex-cpp-codegen/src/lr_parser/parser_impl.h.tpl:63-108:
`token_function` is called after `visitor.shift`. -/
def lrFeedRun (m : LRMachine) (F : TokenSource (LREvent T) T) : Nat → List StackSym → Tok × T → Nat → List (LREvent T) → LRResult T
  | 0, _, _, pos, events => .running events pos
  | n + 1, stack, look, pos, events =>
    match lrStep m (fun _ => look) stack pos with
    | .done => .ok events pos
    | .unexpected expected => .unexpected events pos expected
    | .panic ev => .panic (events ++ ev.toList) pos
    | .next stack pos' ev => lrFeedRun m F n stack (if pos' = pos then look else F pos' (events ++ [ev])) pos' (events ++ [ev])

/-- `parse` of the LR parser -/
def lrFeed (m : LRMachine) (F : TokenSource (LREvent T) T) (n : Nat) : LRResult T := lrFeedRun m F n [.state m.entry] (F 0 []) 0 []

/-- the loop of the LL parser — lapex-cpp-codegen/src/ll_parser/parser_impl.h.tpl:48-88: `token_function` is called after `visitor.token`. -/
def llFeedRun (disp : Dispatch) (visible : Nat → Bool) (F : TokenSource (LLEvent T) T) : Nat → List LLSym → Tok × T → Nat → List (LLEvent T) → LLResult T
  | 0, _, _, _, _ => .fuel
  | n + 1, stack, look, pos, events =>
    match llStep disp visible (fun _ => look) stack pos with
    | .done => .ok events pos
    | .error => .error events pos
    | .next stack pos' ev => llFeedRun disp visible F n stack (if pos' = pos then look else F pos' (events ++ ev.toList)) pos' (events ++ ev.toList)

/-- `parse` of the LL parser -/
def llFeed (disp : Dispatch) (visible : Nat → Bool) (entry : Nat) (F : TokenSource (LLEvent T) T) (n : Nat) : LLResult T :=
  llFeedRun disp visible F n [.nonTerminal entry, .terminal .eof] (F 0 []) 0 []

/-- the loop of the GLR parser — lapex-rust-codegen/src/glr_parser/mod.rs:538-592: `token_function` is called between `apply_reduces` and
the callbacks. -/
def glrFeedRun (m : GlrMachine) (F : TokenSource (LREvent T) T) (rfuel : Nat) : Nat → GlrHeap T → List GNode → Tok × T → Nat → List (LREvent T) → GlrResult T
  | 0, _, _, _, pos, events => .running events pos
  | n + 1, h, stks, look, pos, events =>
    if stks.length = 1 ∧ stks.all (fun s => h.isRoot s) then .ok events pos
    else
      match applyReduces m look.1 rfuel h [] stks with
      | .error .fuel => .running events pos
      | .error .panic => .panic events pos
      | .ok (.unexpected errors) => .unexpected events pos errors
      | .ok (.ok h reduced) =>
        match shiftPhase m look.1 look.2 h reduced with
        | .error _ => .panic events pos
        | .ok (h, stks) =>
          let (h, recorded) := reportPhase h stks
          glrFeedRun m F rfuel n h stks (F (pos + 1) events) (pos + 1) (events ++ recorded)

/-- `parse` of the GLR parser -/
def glrFeed (m : GlrMachine) (F : TokenSource (LREvent T) T) (n : Nat) : GlrResult T :=
  let (h, root) := (⟨[], []⟩ : GlrHeap T).root
  let (h, stack) := h.push root (some m.entry) none
  glrFeedRun m F n n h [stack] (F 0 []) 0 []

/-- number of tokens a parser has asked for beyond the first -/
def LRResult.asked : LRResult T → Nat
  | .ok _ p => p
  | .unexpected _ p _ => p
  | .panic _ p => p
  | .running _ p => p

/-- number of tokens a parser has asked for beyond the first -/
def GlrResult.asked : GlrResult T → Nat
  | .ok _ p => p
  | .unexpected _ p _ => p
  | .panic _ p => p
  | .running _ p => p

/-- number of tokens an LL parser has asked for beyond the first, if it has ended -/
def LLResult.asked? : LLResult T → Option Nat
  | .ok _ p => some p
  | .error _ p => some p
  | .fuel => none

/-- the tokens handed over by the token callbacks -/
def tokensOf (events : List (LLEvent T)) : List (Tok × T) := events.filterMap fun | .token t d => some (t, d) | _ => none

/-- what a caller sees of a call of the lexer: the result and the span of the token -/
def seen (x : LexResult × Lexer) : LexResult × Nat × Nat := (x.1, x.2.start, x.2.position)

end Verif
