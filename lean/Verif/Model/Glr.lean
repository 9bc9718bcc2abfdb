import Verif.Model.LRDriver

/-!
# The generated Rust GLR parser: `lapex-rust-codegen/src/glr_parser/mod.rs`

The graph-structured stack of the generated file (module `gss`) uses `Rc<RefCell<…>>` cells that are shared and mutated. They are modelled
as cells of an explicit heap: a `GNode` (Rust: `GraphNode`) holds the addresses of its node cell and of its list of recorded visits.
Dropping values has no effect besides freeing memory and is not modelled; borrow errors of `RefCell` cannot occur (`C77_stack_text`).
As in the LR driver, names of enum variants are replaced by the numbers they stand for (C42), and an
error of the token function, which ends the parse at once, is not modelled.
-/

set_option autoImplicit false

namespace Verif

/-! ## The graph-structured stack -/

/-- `struct GraphNode` — lapex-rust-codegen/src/glr_parser/mod.rs:704-707: addresses of the two shared cells. -/
structure GNode where
  inner : Nat
  recd : Nat
deriving DecidableEq, Repr

/-- `struct GraphNodeInner` — lapex-rust-codegen/src/glr_parser/mod.rs:806-809. -/
structure GInner (N E : Type) where
  value : Option N
  neighbors : List (Option E × GNode)
deriving DecidableEq, Repr

/-- the cells allocated so far; addresses are positions -/
structure GHeap (N E R : Type) where
  inners : List (GInner N E)
  recs : List (List R)
deriving DecidableEq, Repr

section gss

variable {N E R : Type}

/-- `clone_and_fork_record` — lapex-rust-codegen/src/glr_parser/mod.rs:710-715: the node cell is shared, the record is copied. -/
def GHeap.fork (h : GHeap N E R) (n : GNode) : GHeap N E R × GNode :=
  ({ h with recs := h.recs ++ [(h.recs[n.recd]?).getD []] }, ⟨n.inner, h.recs.length⟩)

/-- `root` — lapex-rust-codegen/src/glr_parser/mod.rs:736-744. -/
def GHeap.root (h : GHeap N E R) : GHeap N E R × GNode :=
  (⟨h.inners ++ [⟨none, []⟩], h.recs ++ [[]]⟩, ⟨h.inners.length, h.recs.length⟩)

/-- `top` — lapex-rust-codegen/src/glr_parser/mod.rs:750-756. -/
def GHeap.top (h : GHeap N E R) (n : GNode) : Option N := (h.inners[n.inner]?).bind (·.value)

/-- `is_root` — lapex-rust-codegen/src/glr_parser/mod.rs:785-787. -/
def GHeap.isRoot (h : GHeap N E R) (n : GNode) : Bool := (h.top n).isNone

/-- `neighbors` — lapex-rust-codegen/src/glr_parser/mod.rs:758-760. -/
def GHeap.neighbors (h : GHeap N E R) (n : GNode) : List (Option E × GNode) := ((h.inners[n.inner]?).map (·.neighbors)).getD []

/-- `push`, `new_with_same_record`, `add_edge` — lapex-rust-codegen/src/glr_parser/mod.rs:746-748, 789-803. -/
def GHeap.push (h : GHeap N E R) (n : GNode) (value : Option N) (edge : Option E) : GHeap N E R × GNode :=
  ({ h with inners := h.inners ++ [⟨value, [(edge, n)]⟩] }, ⟨h.inners.length, n.recd⟩)

/-- `pop` — lapex-rust-codegen/src/glr_parser/mod.rs:762-775: panics unless there is exactly one predecessor, which is removed from the
shared cell and gets the record of the popped node. The removed edge label is never used and not returned. -/
def GHeap.pop (h : GHeap N E R) (n : GNode) : Res (GHeap N E R × GNode) :=
  match h.inners[n.inner]? with
  | some ⟨v, [(_, p)]⟩ => .ok ({ h with inners := h.inners.set n.inner ⟨v, []⟩ }, { p with recd := n.recd })
  | _ => .error .panic

/-- `record` — lapex-rust-codegen/src/glr_parser/mod.rs:781-783. -/
def GHeap.record (h : GHeap N E R) (n : GNode) (r : R) : GHeap N E R :=
  { h with recs := h.recs.set n.recd ((h.recs[n.recd]?).getD [] ++ [r]) }

/-- `pop_recorded` — lapex-rust-codegen/src/glr_parser/mod.rs:777-779. -/
def GHeap.popRecorded (h : GHeap N E R) (n : GNode) : GHeap N E R × List R :=
  ({ h with recs := h.recs.set n.recd [] }, (h.recs[n.recd]?).getD [])

/-- `unwind_stacks` — lapex-rust-codegen/src/glr_parser/mod.rs:717-732: copies of all paths of the given length, ending in shared cells. -/
def GHeap.unwind : Nat → GHeap N E R → GNode → GHeap N E R × List GNode
  | 0, h, n =>
    let (h, n') := h.fork n
    (h, [n'])
  | depth + 1, h, n =>
    let value := h.top n
    (h.neighbors n).foldl (fun (st : GHeap N E R × List GNode) e =>
      let (h, parents) := GHeap.unwind depth st.1 e.2
      parents.foldl (fun (st : GHeap N E R × List GNode) parent =>
        let (h, node) := st.1.push parent value e.1
        let (h, node) := h.fork { node with recd := n.recd }
        (h, st.2 ++ [node])) (h, st.2)) (h, [])

end gss

/-! ## Code generation -/

instance : Key (Option Nat) where
  key := fun | none => [] | some n => [n]
  inj := by
    intro a b h
    cases a <;> cases b <;> simp_all

/-- the element of the set of expected tokens for a symbol: `None` is the end of input —
lapex-rust-codegen/src/glr_parser/mod.rs:316-334. -/
def expectedOf : Sym → Option (Option Nat)
  | .t a => some (some a)
  | .eof => some none
  | _ => none

/-- `extract_expected_symbols` for all entries of a cell — lapex-rust-codegen/src/glr_parser/mod.rs:232-239, 316-334. -/
def glrExpected (s : Sym) (entries : List TableEntry) (exp : List (Option Nat)) : List (Option Nat) :=
  entries.foldl (fun exp e =>
    match e, expectedOf s with
    | .shift _, some x => sinsert x exp
    | .reduce _, some x => sinsert x exp
    | _, _ => exp) exp

/-- the actions of one cell — lapex-rust-codegen/src/glr_parser/mod.rs:287-307; panics for the entry rule, which has no number. -/
def glrActions : List TableEntry → Res (List LRAction)
  | [] => .ok []
  | .shift _ :: es => do
    let as ← glrActions es
    .ok (.shift :: as)
  | .reduce (some i) :: es => do
    let as ← glrActions es
    .ok (.reduce i :: as)
  | .reduce none :: _ => .error .panic
  | _ :: es => glrActions es

/-- the arms of `next_actions` for one state and the `expected` list of its last arm — lapex-rust-codegen/src/glr_parser/mod.rs:228-264,
`make_action` 266-314. -/
def glrActionArms (tb : LRTable) (q : Nat) : List Sym → List (Sym × List LRAction) × List (Option Nat) → Res (List (Sym × List LRAction) × List (Option Nat))
  | [], acc => .ok acc
  | s :: ss, acc =>
    match tb.get q s with
    | none => glrActionArms tb q ss acc
    | some entries => do
      let actions ← glrActions entries
      glrActionArms tb q ss (if actions = [] then acc.1 else acc.1 ++ [(s, actions)], glrExpected s entries acc.2)

/-- one entry of `make_goto` — lapex-rust-codegen/src/glr_parser/mod.rs:183-226. -/
def glrGotoArm (s : Sym) (arms : List (Sym × LRGoto)) (e : TableEntry) : List (Sym × LRGoto) :=
  if s = .eof then arms
  else
    match e with
    | .shift q' => arms ++ [(s, .state q')]
    | .accept => arms ++ [(s, .accept)]
    | _ => arms

/-- the arms of `next_goto` for one state — lapex-rust-codegen/src/glr_parser/mod.rs:156-181. -/
def glrGotoArms (tb : LRTable) (q : Nat) (ss : List Sym) : List (Sym × LRGoto) :=
  ss.foldl (fun arms s => ((tb.get q s).getD []).foldl (glrGotoArm s) arms) []

/-- what the generated file contains — lapex-rust-codegen/src/glr_parser/mod.rs:391-541. -/
structure GlrProg where
  entry : Nat
  actions : List (List (Sym × List LRAction) × List (Option Nat))
  gotos : List (List (Sym × LRGoto))
  reductions : List (Nat × Nat)
deriving DecidableEq, Repr

/-- `write_parser` — lapex-rust-codegen/src/glr_parser/mod.rs:391-415 (`make_actions` 228-264, `make_gotos` 156-181,
`make_rule_reductions` 336-355). -/
def genGlr (g : Grammar) (tb : LRTable) : Res GlrProg := do
  let actions ← (List.range tb.stateCount).mapM fun q => glrActionArms tb q (g.terminals ++ [Sym.eof]) ([], [])
  .ok { entry := tb.entryState
        actions
        gotos := (List.range tb.stateCount).map fun q => glrGotoArms tb q (g.terminals ++ [Sym.eof] ++ g.nonTerminals)
        reductions := g.rules.map fun r => ((r.rhs.filter (fun s => s ≠ .eps)).length, r.lhs) }

/-- result of `next_actions` -/
inductive GlrActs where
  | acts (l : List LRAction)
  | unexpected (expected : List (Option Nat))
  | panic
deriving DecidableEq, Repr

/-- the `match` expressions of a generated parser -/
structure GlrMachine where
  entry : Nat
  nextActions : Nat → Tok → GlrActs
  nextGoto : Nat → StackSym → Option LRGoto
  reduction : Nat → Option (Nat × Nat)

/-- `next_actions` — lapex-rust-codegen/src/glr_parser/mod.rs:512-517. -/
def GlrProg.nextActions (p : GlrProg) (q : Nat) (tk : Tok) : GlrActs :=
  match p.actions[q]? with
  | none => .panic
  | some (arms, expected) =>
    match tk.sym.bind (fun s => armLookup s arms) with
    | some l => .acts l
    | none => .unexpected expected

/-- `next_goto` — lapex-rust-codegen/src/glr_parser/mod.rs:519-524. -/
def GlrProg.nextGoto (p : GlrProg) (q : Nat) (s : StackSym) : Option LRGoto :=
  match p.gotos[q]? with
  | none => none
  | some arms => s.sym.bind (fun s => armLookup s arms)

/-- the machine of a generated parser -/
def GlrProg.machine (p : GlrProg) : GlrMachine := ⟨p.entry, p.nextActions, p.nextGoto, fun i => p.reductions[i]?⟩

/-! ## The driver -/

variable {T : Type}

/-- the heap of the driver: states on nodes, stack symbols on edges, recorded visits -/
abbrev GlrHeap (T : Type) := GHeap Nat StackSym (LREvent T)

/-- popping the symbols of a rule — lapex-rust-codegen/src/glr_parser/mod.rs:654-657. -/
def popTimes : Nat → GlrHeap T → GNode → Res (GlrHeap T × GNode)
  | 0, h, n => .ok (h, n)
  | k + 1, h, n => do
    let (h, n) ← h.pop n
    popTimes k h n

/-- heap, `accepted`, `new_to_reduce` -/
structure ReduceSt (T : Type) where
  heap : GlrHeap T
  accepted : List GNode
  newToReduce : List GNode

/-- one stack of the loop of `apply_reduce` — lapex-rust-codegen/src/glr_parser/mod.rs:649-671. -/
def applyReduceTo (m : GlrMachine) (i k A : Nat) (st : ReduceSt T) (stack : GNode) : Res (ReduceSt T) := do
  let (h, stack) ← popTimes k (st.heap.record stack (.reduce i)) stack
  match h.top stack with
  | none => .error .panic
  | some q =>
    match m.nextGoto q (.nonTerminal A) with
    | some (.state q') =>
      let (h, node) := h.push stack (some q') (some (.nonTerminal A))
      .ok { st with heap := h, newToReduce := st.newToReduce ++ [node] }
    | some .accept => do
      let (h, root) ← h.pop stack
      .ok { st with heap := h, accepted := st.accepted ++ [root] }
    | none => .ok { st with heap := h }

/-- `apply_reduce` — lapex-rust-codegen/src/glr_parser/mod.rs:640-673. -/
def applyReduce (m : GlrMachine) (i : Nat) (stack : GNode) (st : ReduceSt T) : Res (ReduceSt T) :=
  match m.reduction i with
  | none => .error .panic
  | some (k, A) =>
    let (h, stacks) := st.heap.unwind k stack
    stacks.foldlM (applyReduceTo m i k A) { st with heap := h }

/-- one action — lapex-rust-codegen/src/glr_parser/mod.rs:613-626. -/
def applyAction (m : GlrMachine) (stack : GNode) (st : ReduceSt T) : LRAction → Res (ReduceSt T)
  | .reduce i => applyReduce m i stack st
  | .shift =>
    let (h, node) := st.heap.fork stack
    .ok { st with heap := h, accepted := st.accepted ++ [node] }

/-- one stack of a round of `apply_reduces` — lapex-rust-codegen/src/glr_parser/mod.rs:608-631. -/
def reduceStack (m : GlrMachine) (tk : Tok) (st : ReduceSt T × List (List (Option Nat))) (stack : GNode) :
    Res (ReduceSt T × List (List (Option Nat))) :=
  match st.1.heap.top stack with
  | none => .error .panic
  | some q =>
    match m.nextActions q tk with
    | .panic => .error .panic
    | .unexpected expected => .ok (st.1, st.2 ++ [expected])
    | .acts l => do
      let st' ← l.foldlM (applyAction m stack) st.1
      .ok (st', st.2)

/-- result of `apply_reduces` -/
inductive Reduced (T : Type) where
  | ok (heap : GlrHeap T) (reduced : List GNode)
  | unexpected (errors : List (List (Option Nat)))

/-- `apply_reduces` — lapex-rust-codegen/src/glr_parser/mod.rs:594-638; `.error .fuel` when the loop has not ended. -/
def applyReduces (m : GlrMachine) (tk : Tok) : Nat → GlrHeap T → List GNode → List GNode → Res (Reduced T)
  | _, h, reduced, [] => .ok (.ok h reduced)
  | 0, _, _, _ :: _ => .error .fuel
  | fuel + 1, h, reduced, toReduce@(_ :: _) => do
    let (st, errors) ← toReduce.foldlM (reduceStack m tk) (⟨h, reduced, []⟩, [])
    if st.accepted = [] ∧ errors.length = toReduce.length then .ok (.unexpected errors)
    else applyReduces m tk fuel st.heap st.accepted st.newToReduce

/-- shifting one stack — lapex-rust-codegen/src/glr_parser/mod.rs:560-574. -/
def shiftStack (m : GlrMachine) (tk : Tok) (data : T) (st : GlrHeap T × List GNode) (stack : GNode) : Res (GlrHeap T × List GNode) :=
  match st.1.top stack with
  | none => .error .panic
  | some q =>
    match m.nextGoto q (.terminal tk) with
    | some (.state q') =>
      let h := st.1.record stack (.shift tk data)
      let (h, node) := h.push stack (some q') (some (.terminal tk))
      .ok (h, st.2 ++ [node])
    | some .accept => .error .panic
    | none => .ok st

/-- outcome of a run: callbacks made, number of tokens taken from the queue, and how it ended -/
inductive GlrResult (T : Type) where
  | ok (events : List (LREvent T)) (pos : Nat)
  | unexpected (events : List (LREvent T)) (pos : Nat) (errors : List (List (Option Nat)))
  | panic (events : List (LREvent T)) (pos : Nat)
  | running (events : List (LREvent T)) (pos : Nat)
deriving DecidableEq, Repr

/-- the second half of an iteration: shifting, unless some stack is finished — lapex-rust-codegen/src/glr_parser/mod.rs:553-577. -/
def shiftPhase (m : GlrMachine) (tk : Tok) (data : T) (h : GlrHeap T) (reduced : List GNode) : Res (GlrHeap T × List GNode) :=
  if reduced.any (fun s => h.isRoot s) then .ok (h, reduced) else reduced.foldlM (shiftStack m tk data) (h, [])

/-- reporting the recorded visits when only one stack is left — lapex-rust-codegen/src/glr_parser/mod.rs:578-590. -/
def reportPhase (h : GlrHeap T) : List GNode → GlrHeap T × List (LREvent T)
  | [stack] => h.popRecorded stack
  | _ => (h, [])

/-- the `while` loop of `parse` — lapex-rust-codegen/src/glr_parser/mod.rs:546-591. `input` is the token function; the token at `pos` is the
one in the queue. The queue always holds one token: the next one is requested right after the front is taken, also when the parse is
over. `rfuel` bounds the loops of `apply_reduces`. -/
def glrRun (m : GlrMachine) (input : Nat → Tok × T) (rfuel : Nat) : Nat → GlrHeap T → List GNode → Nat → List (LREvent T) → GlrResult T
  | 0, _, _, pos, events => .running events pos
  | fuel + 1, h, stacks, pos, events =>
    if stacks.length = 1 ∧ stacks.all (fun s => h.isRoot s) then .ok events pos
    else
      match applyReduces m (input pos).1 rfuel h [] stacks with
      | .error .fuel => .running events pos
      | .error .panic => .panic events pos
      | .ok (.unexpected errors) => .unexpected events pos errors
      | .ok (.ok h reduced) =>
        match shiftPhase m (input pos).1 (input pos).2 h reduced with
        | .error _ => .panic events pos
        | .ok (h, stacks) =>
          let (h, recorded) := reportPhase h stacks
          glrRun m input rfuel fuel h stacks (pos + 1) (events ++ recorded)

/-- `parse` — lapex-rust-codegen/src/glr_parser/mod.rs:538-592. -/
def glrParse (m : GlrMachine) (input : Nat → Tok × T) (fuel : Nat) : GlrResult T :=
  let (h, root) := (⟨[], []⟩ : GlrHeap T).root
  let (h, stack) := h.push root (some m.entry) none
  glrRun m input fuel fuel h [stack] 0 []

end Verif
