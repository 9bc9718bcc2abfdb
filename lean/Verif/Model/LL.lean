import Verif.Model.First

/-!
# The LL(1) table: `lapex-parser/src/ll_parser/mod.rs`, and the generated C++ LL parser: `lapex-cpp-codegen/src/ll_parser/`
-/

set_option autoImplicit false

namespace Verif

/-- `get_follow_symbols_of_remainder` — lapex-parser/src/ll_parser/mod.rs:12-33. `lhs` is `None` for the augmented entry rule. -/
def followOfRemainder (lhs : Option Nat) (remainder : List Sym) (fs follow : SymSets) : Res (List Sym) := do
  let first ← firstOfSeq remainder fs
  let res ← (if first.contains .eps ∨ remainder.isEmpty then
      match lhs with
      | none => .error .panic
      | some A =>
        match mget? (Sym.nt A) follow with
        | none => .error .panic
        | some set => .ok set
    else .ok [])
  .ok (insertNonEps res first)

/-- the loop over the positions of one sequence — lapex-parser/src/ll_parser/mod.rs:54-66; the argument is the part of the sequence from
position `i` on. -/
def followPositions (lhs : Option Nat) (fs : SymSets) : List Sym → SymSets × Bool → Res (SymSets × Bool)
  | [], st => .ok st
  | .nt A :: rest, st => do
    let f ← followOfRemainder lhs rest fs st.1
    match mget? (Sym.nt A) st.1 with
    | none => .error .panic
    | some set =>
      let (set, any) := insertTracked f (set, st.2)
      followPositions lhs fs rest (minsert (Sym.nt A) set st.1, any)
  | _ :: rest, st => followPositions lhs fs rest st

/-- the sequences looked at: the entry symbol with the end marker, then the rules — lapex-parser/src/ll_parser/mod.rs:45-51. -/
def followSequences (g : Grammar) : List (Option Nat × List Sym) :=
  (none, [g.entry, .eof]) :: g.rules.map (fun r => (some r.lhs, r.rhs))

/-- the `loop` of `compute_follow_sets` — lapex-parser/src/ll_parser/mod.rs:46-71. -/
def followSetsLoop (g : Grammar) (fs : SymSets) : Nat → SymSets → Res SymSets
  | 0, _ => .error .fuel
  | fuel + 1, follow => do
    let (follow, any) ← (followSequences g).foldlM (fun st s => followPositions s.1 fs s.2 st) (follow, false)
    if any then followSetsLoop g fs fuel follow else .ok follow

/-- `compute_follow_sets` — lapex-parser/src/ll_parser/mod.rs:35-74. -/
def computeFollowSets (g : Grammar) (fs : SymSets) (fuel : Nat) : Res SymSets := followSetsLoop g fs fuel (emptySets g)

/-- key of the table: non-terminal, and terminal number plus one or `None` for the end — lapex-parser/src/ll_parser/mod.rs:104. -/
structure LLKey where
  nt : Nat
  t : Option Nat
deriving DecidableEq, Repr

instance : Key LLKey where
  key k := [k.nt, match k.t with | none => 0 | some a => a + 1]
  inj := by
    intro a b h
    obtain ⟨a1, a2⟩ := a
    obtain ⟨b1, b2⟩ := b
    cases a2 <;> cases b2 <;> simp_all

/-- `LLParserTable` -/
abbrev LLTable := List (LLKey × List Sym)

/-- `enum LLParserError` — lapex-parser/src/ll_parser/mod.rs:77-86, panics, and exhausted fuel. -/
inductive LLError where
  | invalidParserTableEntry
  | conflict (nonTerminal : Nat) (terminal : Sym) (production existing : List Sym)
  | panic
  | fuel
deriving DecidableEq, Repr

/-- the `u16` addition `terminal_index + 1` panics on overflow (debug build). -/
def llTerminal : Sym → Except LLError (Option (Option Nat))
  | .t a => if a + 1 < u16Size then .ok (some (some (a + 1))) else .error .panic
  | .eof => .ok (some none)
  | _ => .ok none

/-- `get_production` — lapex-parser/src/ll_parser/mod.rs:114-129 (for a terminal number below 65535). -/
def LLTable.getProduction (table : LLTable) (A : Nat) (s : Sym) : Option (List Sym) :=
  match s with
  | .t a => mget? (⟨A, some (a + 1)⟩ : LLKey) table
  | .eof => mget? (⟨A, none⟩ : LLKey) table
  | _ => none

/-- `check_for_conflict_and_insert` — lapex-parser/src/ll_parser/mod.rs:131-152. -/
def LLTable.checkInsert (table : LLTable) (A : Nat) (t : Option Nat) (production : List Sym) : Except LLError LLTable :=
  match mget? (⟨A, t⟩ : LLKey) table with
  | some prev => .error (.conflict A (match t with | some a => .t (a - 1) | none => .eof) production prev)
  | none => .ok (minsert ⟨A, t⟩ production table)

/-- `insert` — lapex-parser/src/ll_parser/mod.rs:154-178. -/
def LLTable.insert (table : LLTable) (A : Nat) (s : Sym) (production : List Sym) : Except LLError LLTable := do
  match ← llTerminal s with
  | some t => table.checkInsert A t production
  | none => .error .invalidParserTableEntry

/-- the loops over a set of symbols — lapex-parser/src/ll_parser/mod.rs:187-194 and 197-204. -/
def llInsertAll (r : Rule) : List Sym → LLTable → Except LLError LLTable
  | [], table => .ok table
  | .eof :: ss, table => do llInsertAll r ss (← table.insert r.lhs .eof r.rhs)
  | .t a :: ss, table => do llInsertAll r ss (← table.insert r.lhs (.t a) r.rhs)
  | .eps :: ss, table => llInsertAll r ss table
  | .nt _ :: ss, table => llInsertAll r ss table

/-- a panic or exhausted fuel of the set computations -/
def liftRes {α : Type} : Res α → Except LLError α
  | .ok a => .ok a
  | .error .panic => .error .panic
  | .error .fuel => .error .fuel

/-- the loop body for one rule — lapex-parser/src/ll_parser/mod.rs:186-205. -/
def llRule (fs follow : SymSets) (table : LLTable) (r : Rule) : Except LLError LLTable := do
  let first ← liftRes (firstOfSeq r.rhs fs)
  let table ← llInsertAll r first table
  if first.contains .eps then
    match mget? (Sym.nt r.lhs) follow with
    | none => .error .panic
    | some set => llInsertAll r set table
  else .ok table

/-- `generate_table` — lapex-parser/src/ll_parser/mod.rs:181-208. -/
def llGenerateTable (g : Grammar) (fuel : Nat) : Except LLError LLTable := do
  let fs ← liftRes (computeFirstSets g fuel)
  let follow ← liftRes (computeFollowSets g fs fuel)
  g.rules.foldlM (llRule fs follow) []

/-! ## The generated C++ parser -/

/-- `lexer::TokenType` as far as the parser sees it: a token of the grammar, the end, or a lexer error — lapex-cpp-codegen/src/lexer/tokens.h.tpl. -/
inductive Tok where
  | tok (a : Nat)
  | eof
  | err
deriving DecidableEq, Repr

/-- `struct Symbol` of the driver — lapex-cpp-codegen/src/ll_parser/parser_impl.h.tpl:11-22. -/
inductive LLSym where
  | terminal (t : Tok)
  | nonTerminal (id : Nat)
  | exit (id : Nat)
deriving DecidableEq, Repr

/-- visitor callbacks -/
inductive LLEvent (T : Type) where
  | enter (id : Nat)
  | exit (id : Nat)
  | token (t : Tok) (data : T)
deriving DecidableEq, Repr

/-- how a step of the driver ends -/
inductive LLStep (T : Type) where
  | done
  | error
  | next (stack : List LLSym) (pos : Nat) (event : Option (LLEvent T))

/-- What `push_production_from_table` does for a non-terminal and a lookahead: `none` throws, otherwise the symbols pushed, first symbol
on top. -/
abbrev Dispatch := Nat → Tok → Option (List LLSym)

/-- one iteration of the `while` of `parse` — lapex-cpp-codegen/src/ll_parser/parser_impl.h.tpl:60-87. `input` is the token function
(token number `pos` is the current lookahead). The top of the stack is the head of the list. `enter`/`exit` callbacks are made only for
named non-terminals (`visible`; the visitor switch has no case for others). -/
def llStep {T : Type} (disp : Dispatch) (visible : Nat → Bool) (input : Nat → Tok × T) (stack : List LLSym) (pos : Nat) : LLStep T :=
  match stack with
  | [] => .done
  | .exit id :: stack => .next stack pos (if visible id then some (.exit id) else none)
  | .nonTerminal id :: stack =>
    match disp id (input pos).1 with
    | none => .error
    | some syms => .next (syms ++ .exit id :: stack) pos (if visible id then some (.enter id) else none)
  | .terminal t :: stack =>
    if t = (input pos).1 then .next stack (pos + 1) (some (.token t (input pos).2)) else .error

/-- outcome of a run: events so far, final position, and whether it returned, threw, or is still running -/
inductive LLResult (T : Type) where
  | ok (events : List (LLEvent T)) (pos : Nat)
  | error (events : List (LLEvent T)) (pos : Nat)
  | fuel
deriving DecidableEq, Repr

/-- the `while` loop — lapex-cpp-codegen/src/ll_parser/parser_impl.h.tpl:60-87. -/
def llRun {T : Type} (disp : Dispatch) (visible : Nat → Bool) (input : Nat → Tok × T) : Nat → List LLSym → Nat → List (LLEvent T) → LLResult T
  | 0, _, _, _ => .fuel
  | fuel + 1, stack, pos, events =>
    match llStep disp visible input stack pos with
    | .done => .ok events pos
    | .error => .error events pos
    | .next stack pos ev => llRun disp visible input fuel stack pos (events ++ ev.toList)

/-- `parse` — lapex-cpp-codegen/src/ll_parser/parser_impl.h.tpl:48-88. -/
def llParse {T : Type} (disp : Dispatch) (visible : Nat → Bool) (entry : Nat) (input : Nat → Tok × T) (fuel : Nat) : LLResult T :=
  llRun disp visible input fuel [.nonTerminal entry, .terminal .eof] 0 []

/-- The symbols of a right side as the driver pushes them (epsilon and the end marker push nothing) when non-terminal `A` is written as
the number `num A` — lapex-cpp-codegen/src/ll_parser/mod.rs:94-127. -/
def llPush (num : Nat → Nat) : List Sym → List LLSym
  | [] => []
  | .nt A :: ss => .nonTerminal (num A) :: llPush num ss
  | .t a :: ss => .terminal (.tok a) :: llPush num ss
  | .eps :: ss => llPush num ss
  | .eof :: ss => llPush num ss

/-- the grammar symbol of a lookahead -/
def Tok.sym : Tok → Option Sym
  | .tok a => some (.t a)
  | .eof => some .eof
  | .err => none

/-- dispatch exactly by the LL table, non-terminals identified by their symbol number: what the generated switch is meant to do. -/
def tableDispatch (table : LLTable) : Dispatch := fun A tk =>
  match tk.sym with
  | none => none
  | some s => (table.getProduction A s).map (llPush id)

/-- position of a non-terminal in `non_terminals()`: its value in the generated `enum class NonTerminalType` —
lapex-cpp-codegen/src/ll_parser/mod.rs:86-92. -/
def ordinal (g : Grammar) (A : Nat) : Nat := g.nonTerminals.idxOf (.nt A)

/-- `push_production_from_table` as generated — lapex-cpp-codegen/src/ll_parser/mod.rs:153-190: the outer `switch` compares the symbol's
identifier (an enum ordinal) with the non-terminals' symbol numbers and does nothing when no case matches; the inner `switch` has cases
for the grammar's tokens only, every other lookahead throws. -/
def cppDispatch (g : Grammar) (table : LLTable) : Dispatch := fun id tk =>
  if Sym.nt id ∈ g.nonTerminals then
    match tk with
    | .tok a =>
      if Sym.t a ∈ g.terminals then (table.getProduction id (.t a)).map (llPush (ordinal g)) else none
    | _ => none
  else some []

/-- which identifiers have a case in the visitor switches — lapex-cpp-codegen/src/ll_parser/mod.rs:47-67: the enum ordinals of named
non-terminals. -/
def cppVisible (g : Grammar) (id : Nat) : Bool := id < g.productions.length

end Verif
