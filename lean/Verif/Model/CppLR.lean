import Verif.Model.LRDriver
import Verif.Model.Names

/-!
# The generated C++ LR parser: `lapex-cpp-codegen/src/lr_parser/`

The generator writes `switch` statements whose labels are names of enumerators. The model has three stages: the generated source (`genCpp`, labels
are names), what the C++ compiler makes of it (`CppLRSource.compile`: names become numbers; `none` if the source does not compile), and the driver of
the template running on the numbers (`cppLRParse`). Qualifiers (`lexer::TokenType::`, `NonTerminalType::`) are left out of labels.
-/

set_option autoImplicit false

namespace Verif

/-- `Grammar::get_token_name` — lapex-parser/src/grammar.rs:187-192. -/
def Grammar.tokenName (g : Grammar) (a : Nat) : Res (List Char) :=
  match mget? (Sym.t a) g.tokens with
  | some name => .ok name.toList
  | none => .error .panic

/-- `write_non_terminal_enum_name` — lapex-cpp-codegen/src/lr_parser/mod.rs:62-77. `to_uppercase` is modelled for ASCII (names in lapex files are). -/
def cppNtEnumName (g : Grammar) : Sym → Res (List Char)
  | .nt A =>
    match g.productionName (.nt A) with
    | some name => .ok ("NT_".toList ++ name.toList.map asciiUpper)
    | none => .ok ("NT_ANON".toList ++ decimal A)
  | _ => .error .panic

/-- label of a case in the action table — `write_action_case_header`, lapex-cpp-codegen/src/lr_parser/action_goto.rs:143-174. -/
def cppActionLabel (g : Grammar) : Sym → Res (List Char)
  | .nt A => cppNtEnumName g (.nt A)
  | .t a => do
    let name ← g.tokenName a
    .ok ("TK_".toList ++ name)
  | .eof => .ok "TK_EOF".toList
  | .eps => .ok []

/-- label of a case in the goto table — `write_goto_case_header`, lapex-cpp-codegen/src/lr_parser/action_goto.rs:36-62: nothing is written for
the end symbol. -/
def cppGotoLabel (g : Grammar) : Sym → Res (List Char)
  | .nt A => cppNtEnumName g (.nt A)
  | .t a => do
    let name ← g.tokenName a
    .ok ("TK_".toList ++ name)
  | _ => .ok []

/-- `translate_vecs_to_elements` on one cell — lapex-cpp-codegen/src/lr_parser/action_goto.rs:176-186. -/
def cppCell (tb : LRTable) (q : Nat) (s : Sym) : Res (Option TableEntry) :=
  match tb.get q s with
  | none => .ok none
  | some [e] => .ok (some e)
  | some _ => .error .panic

/-- the name of a symbol in the list of expected symbols — lapex-cpp-codegen/src/lr_parser/action_goto.rs:97-101 and 106-114. -/
def cppExpectedName (g : Grammar) : Sym → Res (List (List Char))
  | .t a => do
    let name ← g.tokenName a
    .ok [name]
  | .eof => .ok ["<EOF>".toList]
  | _ => .ok []

/-- the cases of one state of the action table and the names of its expected symbols — `write_action_cases`,
lapex-cpp-codegen/src/lr_parser/action_goto.rs:81-119, `write_action_case_body` 121-141 (the entry rule has no number: `unwrap` panics). -/
def cppActionCases (g : Grammar) (tb : LRTable) (q : Nat) : List Sym → Res (List (List Char × LRAction) × List (List Char))
  | [] => .ok ([], [])
  | s :: ss => do
    let e ← cppCell tb q s
    match e with
    | some (.shift _) => do
      let l ← cppActionLabel g s
      let n ← cppExpectedName g s
      let r ← cppActionCases g tb q ss
      .ok ((l, .shift) :: r.1, n ++ r.2)
    | some (.reduce (some i)) => do
      let l ← cppActionLabel g s
      let n ← cppExpectedName g s
      let r ← cppActionCases g tb q ss
      .ok ((l, .reduce i) :: r.1, n ++ r.2)
    | some (.reduce none) => .error .panic
    | _ => cppActionCases g tb q ss

/-- the cases of one state of the goto table for a list of symbols — `write_goto_cases`, lapex-cpp-codegen/src/lr_parser/action_goto.rs:11-34,
`write_goto_case_body` 64-79. -/
def cppGotoCases (g : Grammar) (tb : LRTable) (q : Nat) : List Sym → Res (List (List Char × LRGoto))
  | [] => .ok []
  | s :: ss => do
    let e ← cppCell tb q s
    match e with
    | some (.shift q') => do
      let l ← cppGotoLabel g s
      let r ← cppGotoCases g tb q ss
      .ok ((l, .state q') :: r)
    | some .accept => do
      let l ← cppGotoLabel g s
      let r ← cppGotoCases g tb q ss
      .ok ((l, .accept) :: r)
    | _ => cppGotoCases g tb q ss

/-- `state_has_shift` — lapex-parser/src/lr_parser/mod.rs:433-445. -/
def stateHasShift (g : Grammar) (tb : LRTable) (q : Nat) : Bool :=
  (g.nonTerminals ++ (g.terminals ++ [Sym.eof])).any fun s =>
    match tb.get q s with
    | some es => es.any fun | .shift _ => true | _ => false
    | none => false

/-- `names.join(", ")` of the quoted names — lapex-cpp-codegen/src/lr_parser/action_goto.rs:115-119. -/
def joinNames : List (List Char) → List Char
  | [] => []
  | [n] => ['\''] ++ n ++ ['\'']
  | n :: ns => ['\''] ++ n ++ ['\''] ++ ", ".toList ++ joinNames ns

/-- the generated files as far as the parser is concerned -/
structure CppLRSource where
  /-- names of the token rules; `enum class TokenType` (tokens.h) and `get_token_name` (tokens.cpp) are written from them -/
  tokens : List (List Char)
  /-- `enum class NonTerminalType` -/
  nonTerminals : List (List Char)
  entry : Nat
  /-- `determine_action`: for each state the cases and the text of the `default` case -/
  actions : List (List (List Char × LRAction) × List Char)
  /-- `retrieve_next_state`: the states that have a case, their cases for terminals and for non-terminals -/
  gotos : List (Nat × List (List Char × LRGoto) × List (List Char × LRGoto))
  /-- `reduce_stack`: for each rule the number of symbols to reduce and the non-terminal pushed -/
  reductions : List (Nat × List Char)
deriving DecidableEq, Repr

/-- one state of `write_goto_table` — lapex-cpp-codegen/src/lr_parser/action_goto.rs:190-236. -/
def cppGotoState (g : Grammar) (tb : LRTable) (q : Nat) : Res (List (Nat × List (List Char × LRGoto) × List (List Char × LRGoto))) :=
  if stateHasShift g tb q then do
    let ts ← cppGotoCases g tb q (g.terminals ++ [Sym.eof])
    let ns ← cppGotoCases g tb q g.nonTerminals
    .ok [(q, ts, ns)]
  else .ok []

/-- `generate_code` — lapex-cpp-codegen/src/lr_parser/mod.rs:230-253 (`write_impl` 160-167, `write_impl_header` 203-217, `write_stack_reduce_table` 128-158,
`write_non_terminal_enum_variants` 79-85), `write_action_table` — action_goto.rs:244-264, and `generate_tokens` — lapex-cpp-codegen/src/lexer/mod.rs:175-181.
Rules are written in the order of their addresses, which is the order of their numbers. -/
def genCpp (tokens : List (List Char)) (g : Grammar) (tb : LRTable) : Res CppLRSource := do
  let nts ← g.nonTerminals.mapM (cppNtEnumName g)
  let actions ← (List.range tb.stateCount).mapM fun q => do
    let r ← cppActionCases g tb q (g.terminals ++ [Sym.eof])
    .ok (r.1, joinNames r.2)
  let gotos ← (List.range tb.stateCount).mapM (cppGotoState g tb)
  let reductions ← g.rules.mapM fun r => do
    let n ← cppNtEnumName g (.nt r.lhs)
    .ok ((r.rhs.filter (fun s => s ≠ .eps)).length, n)
  .ok { tokens, nonTerminals := nts, entry := tb.entryState, actions, gotos := gotos.flatten, reductions }

/-! ## Compilation -/

/-- value of an enumerator: its position (`TK_ERR = 0`, `TK_EOF = 1`, then one more each) — lapex-cpp-codegen/src/lexer/tokens.h.tpl:7-12,
lapex-cpp-codegen/src/lr_parser/parser_impl.h.tpl:24-27. `none`: not declared. -/
def enumValue (variants : List (List Char)) (name : List Char) : Option Nat := variants.findIdx? (fun v => v = name)

/-- the cases of a `switch`: labels must be declared and different -/
def compileCases {α : Type} (variants : List (List Char)) (cases : List (List Char × α)) : Option (List (Nat × α)) :=
  if (cases.map (·.1)).Nodup then cases.mapM fun c => (enumValue variants c.1).map (fun v => (v, c.2)) else none

/-- `Action act{ActionType::Reduce, i}`: a constant that does not fit into `uint16_t` is an error (parser_impl.h.tpl:35-39) -/
def actionFits : LRAction → Bool
  | .shift => true
  | .reduce i => i < 65536

/-- `Transition transition{q, false}`: a constant that does not fit into `uint32_t` is an error (parser_impl.h.tpl:41-45) -/
def gotoFits : LRGoto → Bool
  | .accept => true
  | .state q => q < 4294967296

/-- the compiled parser -/
structure CppLRProg where
  tokens : List (List Char)
  entry : Nat
  actions : List (List (Nat × LRAction) × List Char)
  gotos : List (Nat × List (Nat × LRGoto) × List (Nat × LRGoto))
  reductions : List (Nat × Nat)
deriving DecidableEq, Repr

/-- what a C++ compiler makes of the source. Enumerators must be different; everything else in the templates is taken to compile. -/
def CppLRSource.compile (s : CppLRSource) : Option CppLRProg :=
  if (cppTokenVariants s.tokens).Nodup ∧ s.nonTerminals.Nodup then do
    let actions ← s.actions.mapM fun a => do
      if a.1.all (fun c => actionFits c.2) then
        let cs ← compileCases (cppTokenVariants s.tokens) a.1
        some (cs, a.2)
      else none
    let gotos ← s.gotos.mapM fun a => do
      if a.2.1.all (fun c => gotoFits c.2) && a.2.2.all (fun c => gotoFits c.2) then
        let ts ← compileCases (cppTokenVariants s.tokens) a.2.1
        let ns ← compileCases s.nonTerminals a.2.2
        some (a.1, ts, ns)
      else none
    let reductions ← s.reductions.mapM fun r => (enumValue s.nonTerminals r.2).map (fun v => (r.1, v))
    some ⟨s.tokens, s.entry, actions, gotos, reductions⟩
  else none

/-! ## The driver -/

/-- `enum class SymbolKind` — lapex-cpp-codegen/src/lr_parser/parser_impl.h.tpl:11-16. -/
inductive CppKind where
  | terminal
  | nonTerminal
  | state
deriving DecidableEq, Repr

/-- `struct Symbol` — parser_impl.h.tpl:18-22. -/
structure CppSym where
  kind : CppKind
  id : Nat
deriving DecidableEq, Repr

/-- `switch`: the case with this label -/
def cppSwitch {α : Type} (v : Nat) : List (Nat × α) → Option α
  | [] => none
  | (l, a) :: cs => if l = v then some a else cppSwitch v cs

/-- result of `determine_action` -/
inductive CppAct where
  | act (a : LRAction)
  | throw (expected : List Char)
  | abort
deriving DecidableEq, Repr

/-- `determine_action` — lapex-cpp-codegen/src/lr_parser/parser.cpp.tpl:12-15, action_goto.rs:244-264. -/
def CppLRProg.determineAction (p : CppLRProg) (state tk : Nat) : CppAct :=
  match p.actions[state]? with
  | none => .abort
  | some (cases, expected) =>
    match cppSwitch tk cases with
    | some a => .act a
    | none => .throw expected

/-- `retrieve_next_state` — parser.cpp.tpl:22-25, action_goto.rs:188-242; `none` is `std::terminate()`. -/
def CppLRProg.nextState (p : CppLRProg) (state : Nat) (sym : CppSym) : Option LRGoto :=
  match cppSwitch state p.gotos with
  | none => none
  | some (ts, ns) =>
    match sym.kind with
    | .terminal => cppSwitch sym.id ts
    | .nonTerminal => cppSwitch sym.id ns
    | .state => none

/-- `get_token_name` — lapex-cpp-codegen/src/lexer/mod.rs:128-146; an unknown value gives `nullptr`, printing it is undefined (here: nothing). -/
def CppLRProg.tokenName (p : CppLRProg) (tk : Nat) : List Char := ((["<ERR>".toList, "<EOF>".toList] ++ p.tokens)[tk]?).getD []

/-- `throw_unexpected_token_error` — parser.cpp.tpl:7-11. -/
def CppLRProg.message (p : CppLRProg) (expected : List Char) (got : Nat) : List Char :=
  "Unexpected token '".toList ++ p.tokenName got ++ "', expected one of: ".toList ++ expected

/-- visitor callbacks -/
inductive CppEvent (T : Type) where
  | shift (tk : Nat) (data : T)
  | reduce (rule : Nat)
deriving DecidableEq, Repr

/-- how an iteration of the driver ends; `abort` is `std::terminate()`, an exception of `vector::at`, or undefined behaviour -/
inductive CppLRStep (T : Type) where
  | done
  | throw (message : List Char)
  | abort (event : Option (CppEvent T))
  | next (stack : List CppSym) (pos : Nat) (event : CppEvent T)

/-- second half of an iteration — parser_impl.h.tpl:94-106. -/
def cppGoto {T : Type} (p : CppLRProg) (stack : List CppSym) (pos : Nat) (ev : CppEvent T) : CppLRStep T :=
  match stack with
  | s :: below :: rest =>
    match p.nextState below.id s with
    | none => .abort (some ev)
    | some .accept => .next rest pos ev
    | some (.state q) => .next (⟨.state, q⟩ :: s :: below :: rest) pos ev
  | _ => .abort (some ev)

/-- one iteration of the `while` of `parse` — parser_impl.h.tpl:72-106; `reduce_stack` — parser.cpp.tpl:17-20, lapex-cpp-codegen/src/lr_parser/mod.rs:128-158;
`reduce_visitor` — parser_impl.h.tpl:53-57. `input` is the token function, the token at `pos` the one in `lookahead`. The top of the stack is
the head of the list. -/
def cppLRStep {T : Type} (p : CppLRProg) (input : Nat → Nat × T) (stack : List CppSym) (pos : Nat) : CppLRStep T :=
  match stack with
  | [] => .done
  | top :: _ =>
    match p.determineAction top.id (input pos).1 with
    | .abort => .abort none
    | .throw expected => .throw (p.message expected (input pos).1)
    | .act .shift => cppGoto p (⟨.terminal, (input pos).1⟩ :: stack) (pos + 1) (.shift (input pos).1 (input pos).2)
    | .act (.reduce i) =>
      match p.reductions[i]? with
      | none => .abort none
      | some (k, v) =>
        if stack.length < 2 * k then .abort none
        else cppGoto p (⟨.nonTerminal, v⟩ :: stack.drop (2 * k)) pos (.reduce i)

/-- outcome of a run -/
inductive CppLRResult (T : Type) where
  | returned (events : List (CppEvent T)) (pos : Nat)
  | thrown (events : List (CppEvent T)) (pos : Nat) (message : List Char)
  | aborted (events : List (CppEvent T)) (pos : Nat)
  | running (events : List (CppEvent T)) (pos : Nat)
deriving DecidableEq, Repr

/-- the `while` loop — parser_impl.h.tpl:72-107. -/
def cppLRRun {T : Type} (p : CppLRProg) (input : Nat → Nat × T) : Nat → List CppSym → Nat → List (CppEvent T) → CppLRResult T
  | 0, _, pos, events => .running events pos
  | fuel + 1, stack, pos, events =>
    match cppLRStep p input stack pos with
    | .done => .returned events pos
    | .throw m => .thrown events pos m
    | .abort ev => .aborted (events ++ ev.toList) pos
    | .next stack pos ev => cppLRRun p input fuel stack pos (events ++ [ev])

/-- `Parser::parse` — parser_impl.h.tpl:62-108. -/
def cppLRParse {T : Type} (p : CppLRProg) (input : Nat → Nat × T) (fuel : Nat) : CppLRResult T := cppLRRun p input fuel [⟨.state, p.entry⟩] 0 []

end Verif
