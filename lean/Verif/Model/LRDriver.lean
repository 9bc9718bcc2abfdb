import Verif.Model.LR
import Verif.Model.LL

/-!
# The generated Rust LR parser: `lapex-rust-codegen/src/lr_parser/mod.rs`

The code generator turns the table into two `match` expressions; their arms are modelled as lists searched from the front. Names of enum
variants (tokens, non-terminals, rules) are replaced by the numbers they stand for; that different numbers get different names is C42.
The driver loop is a function of the `match` expressions (`LRMachine`).
-/

set_option autoImplicit false

namespace Verif

/-- `enum Action` of the generated parser — lapex-rust-codegen/src/lr_parser/mod.rs:371-374. -/
inductive LRAction where
  | shift
  | reduce (rule : Nat)
deriving DecidableEq, Repr

/-- `enum Goto` of the generated parser — lapex-rust-codegen/src/lr_parser/mod.rs:376-379. -/
inductive LRGoto where
  | accept
  | state (q : Nat)
deriving DecidableEq, Repr

/-- the arms of `next_action` for one state, and the `expected` list of its last arm — lapex-rust-codegen/src/lr_parser/mod.rs:178-205
(one terminal: 179-190, `make_action` 210-250, `extract_expected_symbols` 252-270). -/
def actionArms (tb : LRTable) (q : Nat) : List Sym → List (Sym × LRAction) × List Sym → Res (List (Sym × LRAction) × List Sym)
  | [], acc => .ok acc
  | s :: ss, acc =>
    match tb.get q s with
    | none => actionArms tb q ss acc
    | some [.shift _] => actionArms tb q ss (acc.1 ++ [(s, .shift)], acc.2 ++ [s])
    | some [.reduce (some i)] => actionArms tb q ss (acc.1 ++ [(s, .reduce i)], acc.2 ++ [s])
    | some [.reduce none] => .error .panic
    | some [_] => actionArms tb q ss acc
    | some _ => .error .panic

/-- the arms of `next_goto` for one state — lapex-rust-codegen/src/lr_parser/mod.rs:108-125, `make_goto` 130-173. -/
def gotoArms (tb : LRTable) (q : Nat) : List Sym → List (Sym × LRGoto) → Res (List (Sym × LRGoto))
  | [], acc => .ok acc
  | s :: ss, acc =>
    match tb.get q s with
    | none => gotoArms tb q ss acc
    | some [.shift q'] => gotoArms tb q ss (if s = .eof then acc else acc ++ [(s, .state q')])
    | some [.accept] => gotoArms tb q ss (if s = .eof then acc else acc ++ [(s, .accept)])
    | some [_] => gotoArms tb q ss acc
    | some _ => .error .panic

/-- what the generated file contains — lapex-rust-codegen/src/lr_parser/mod.rs:327-348. -/
structure LRProg where
  entry : Nat
  actions : List (List (Sym × LRAction) × List Sym)
  gotos : List (List (Sym × LRGoto))
  /-- `make_rule_reductions` — 272-291: number of symbols that are not epsilon, and the left side, of every rule -/
  reductions : List (Nat × Nat)
deriving DecidableEq, Repr

/-- `write_parser` — lapex-rust-codegen/src/lr_parser/mod.rs:327-348 (`make_actions` 175-208, `make_gotos` 105-128). -/
def genRust (g : Grammar) (tb : LRTable) : Res LRProg := do
  let actions ← (List.range tb.stateCount).mapM fun q => actionArms tb q (g.terminals ++ [Sym.eof]) ([], [])
  let gotos ← (List.range tb.stateCount).mapM fun q => gotoArms tb q (g.terminals ++ [Sym.eof] ++ g.nonTerminals) []
  .ok { entry := tb.entryState, actions, gotos, reductions := g.rules.map fun r => ((r.rhs.filter (fun s => s ≠ .eps)).length, r.lhs) }

/-- `enum StackSymbol` — lapex-rust-codegen/src/lr_parser/mod.rs:359-364. -/
inductive StackSym where
  | terminal (t : Tok)
  | nonTerminal (A : Nat)
  | state (q : Nat)
deriving DecidableEq, Repr

/-- result of `next_action` -/
inductive ActResult where
  | act (a : LRAction)
  | unexpected (expected : List Sym)
  | panic
deriving DecidableEq, Repr

/-- the `match` expressions of a generated parser -/
structure LRMachine where
  entry : Nat
  nextAction : Nat → Tok → ActResult
  nextGoto : Nat → StackSym → Option LRGoto
  reduction : Nat → Option (Nat × Nat)

/-- first matching arm -/
def armLookup {α : Type} (s : Sym) : List (Sym × α) → Option α
  | [] => none
  | (s', a) :: l => if s' = s then some a else armLookup s l

/-- `next_action` — lapex-rust-codegen/src/lr_parser/mod.rs:411-416, with the arms of the state and its last arm (203-205). -/
def LRProg.nextAction (p : LRProg) (q : Nat) (tk : Tok) : ActResult :=
  match p.actions[q]? with
  | none => .panic
  | some (arms, expected) =>
    match tk.sym.bind (fun s => armLookup s arms) with
    | some a => .act a
    | none => .unexpected expected

/-- the grammar symbol of a stack entry -/
def StackSym.sym : StackSym → Option Sym
  | .terminal (.tok a) => some (.t a)
  | .nonTerminal A => some (.nt A)
  | _ => none

/-- `next_goto` — lapex-rust-codegen/src/lr_parser/mod.rs:418-423; `none` is `unreachable!()`. -/
def LRProg.nextGoto (p : LRProg) (q : Nat) (s : StackSym) : Option LRGoto :=
  match p.gotos[q]? with
  | none => none
  | some arms => s.sym.bind (fun s => armLookup s arms)

/-- the machine of a generated parser -/
def LRProg.machine (p : LRProg) : LRMachine := ⟨p.entry, p.nextAction, p.nextGoto, fun i => p.reductions[i]?⟩

/-- visitor callbacks -/
inductive LREvent (T : Type) where
  | shift (t : Tok) (data : T)
  | reduce (rule : Nat)
deriving DecidableEq, Repr

/-- how an iteration of the driver ends -/
inductive LRStep (T : Type) where
  | done
  | unexpected (expected : List Sym)
  | panic (event : Option (LREvent T))
  | next (stack : List StackSym) (pos : Nat) (event : LREvent T)

/-- the second half of an iteration: goto — lapex-rust-codegen/src/lr_parser/mod.rs:465-479. -/
def lrGoto {T : Type} (m : LRMachine) (stack : List StackSym) (pos : Nat) (ev : LREvent T) : LRStep T :=
  match stack with
  | s :: .state q :: rest =>
    match m.nextGoto q s with
    | none => .panic (some ev)
    | some .accept => .next rest pos ev
    | some (.state q') => .next (.state q' :: s :: .state q :: rest) pos ev
  | _ => .panic (some ev)

/-- one iteration of the `while` of `parse` — lapex-rust-codegen/src/lr_parser/mod.rs:446-480, `reduce_stack_and_visit` 425-437. `input`
is the token function; the token at `pos` is the one in `lookahead`. The top of the stack is the head of the list. -/
def lrStep {T : Type} (m : LRMachine) (input : Nat → Tok × T) (stack : List StackSym) (pos : Nat) : LRStep T :=
  match stack with
  | [] => .done
  | .state q :: _ =>
    match m.nextAction q (input pos).1 with
    | .panic => .panic none
    | .unexpected expected => .unexpected expected
    | .act .shift => lrGoto m (.terminal (input pos).1 :: stack) (pos + 1) (.shift (input pos).1 (input pos).2)
    | .act (.reduce i) =>
      match m.reduction i with
      | none => .panic none
      | some (k, A) =>
        if stack.length < 2 * k then .panic none
        else lrGoto m (.nonTerminal A :: stack.drop (2 * k)) pos (.reduce i)
  | _ => .panic none

/-- outcome of a run: callbacks made, number of tokens consumed, and how it ended -/
inductive LRResult (T : Type) where
  | ok (events : List (LREvent T)) (pos : Nat)
  | unexpected (events : List (LREvent T)) (pos : Nat) (expected : List Sym)
  | panic (events : List (LREvent T)) (pos : Nat)
  | running (events : List (LREvent T)) (pos : Nat)
deriving DecidableEq, Repr

/-- the `while` loop — lapex-rust-codegen/src/lr_parser/mod.rs:446-481. -/
def lrRun {T : Type} (m : LRMachine) (input : Nat → Tok × T) : Nat → List StackSym → Nat → List (LREvent T) → LRResult T
  | 0, _, pos, events => .running events pos
  | fuel + 1, stack, pos, events =>
    match lrStep m input stack pos with
    | .done => .ok events pos
    | .unexpected expected => .unexpected events pos expected
    | .panic ev => .panic (events ++ ev.toList) pos
    | .next stack pos ev => lrRun m input fuel stack pos (events ++ [ev])

/-- `parse` — lapex-rust-codegen/src/lr_parser/mod.rs:439-482. -/
def lrParse {T : Type} (m : LRMachine) (input : Nat → Tok × T) (fuel : Nat) : LRResult T := lrRun m input fuel [.state m.entry] 0 []

end Verif
