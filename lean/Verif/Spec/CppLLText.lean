import Verif.Spec.CppLR
import Verif.Spec.CppVisitor
import Verif.Model.LL

/-!
# What the statements in the C++ LL parser mean

`runCppLL` takes the texts of the generated files, reads the enumerations and functions in them, and runs `Parser::parse`. As for the LR parser, the variables of a function are the fields of
a structure, and constants carry their type: numbers are `3 * v`, values of `TokenType` are `3 * v + 1`, values of `NonTerminalType` are `3 * v + 2`. Statements without a meaning here, `top()`,
`front()` and `pop()` on something empty, and a variable that is declared twice give a panic. The text of `parse` names the entry symbol by `{grammar_entry_non_terminal}`, which is
declared nowhere (C43); the value it should have is an argument of `runCppLL`.
-/

set_option autoImplicit false

namespace Verif

/-- `enum class SymbolKind` -/
inductive LLKind where
  | terminal
  | nonTerminal
  | exit
deriving DecidableEq, Repr

/-- `struct Symbol` -/
structure LLCSym where
  kind : LLKind
  id : Nat
deriving DecidableEq, Repr

/-- how a function without result ends -/
inductive LLCall (σ : Type) where
  | returned (s : σ)
  | thrown (message : List Char)

/-- a call of a function without result -/
def callVoid {σ : Type} (m : CMachine σ (List Char)) (body : List CStmt) (s : σ) : Res (LLCall σ) :=
  match m.execs 0 0 body s with
  | .ok (.next s') => .ok (.returned s')
  | .ok (.exit _ x) => .ok (.thrown x)
  | .ok (.brk _) => .error .panic
  | .error e => .error e

/-! ## `throw_unexpected_token_error` -/

/-- what is written by `<< a << b ...`; `got` and `expected` are the names of the two tokens -/
def llStreamText (got expected : List Char) : Nat → List CTok → Option (List Char)
  | _, [] => some []
  | n + 1, .sym ['<'] :: .sym ['<'] :: .str x :: ts => (llStreamText got expected n ts).map (x ++ ·)
  | n + 1, .sym ['<'] :: .sym ['<'] :: ts =>
    if phrase "lexer::get_token_name(got)" <+: ts then (llStreamText got expected n (ts.drop (phrase "lexer::get_token_name(got)").length)).map (got ++ ·)
    else if phrase "lexer::get_token_name(expected)" <+: ts then (llStreamText got expected n (ts.drop (phrase "lexer::get_token_name(expected)").length)).map (expected ++ ·)
    else none
  | _, _ => none

/-- statements of `throw_unexpected_token_error` -/
def llThrowAct (got expected : List Char) (ts : List CTok) (os : List Char) : Option (COut (List Char) (List Char)) :=
  match ts with
  | .word a :: .sym ['<'] :: ts => if a = "os".toList then (llStreamText got expected (ts.length + 1) (.sym ['<'] :: ts)).map (fun x => .next (os ++ x)) else none
  | ts => doPhrase throwTable ts os

/-- `throw_unexpected_token_error(expected, got)`: the variable is the text in `os`; the result is the message -/
def llThrowMachine (got expected : List Char) : CMachine (List Char) (List Char) where
  const := fun _ => none
  value := fun _ _ => none
  test := fun _ _ => none
  act := llThrowAct got expected

/-! ## `push_production_from_table` -/

/-- the arguments and the variables declared so far; the top of the stack is the head of the list -/
structure PushVars where
  nonTerminal : LLCSym
  lookahead : Nat
  stack : List LLCSym
  vars : List (List Char × LLCSym)

/-- a declaration -/
def PushVars.declare (s : PushVars) (v : List Char) (x : LLCSym) : Option (COut PushVars (List Char)) :=
  if v ∈ s.vars.map (·.1) then none else some (.next { s with vars := (v, x) :: s.vars })

/-- expressions of `push_production_from_table` -/
def pushValue (x : List CTok) (s : PushVars) : Option Nat :=
  if x = phrase "non_terminal.identifier" then some (3 * s.nonTerminal.id) else if x = phrase "lookahead" then some (3 * s.lookahead + 1) else none

/-- statements of `push_production_from_table`; the result is the message of an exception -/
def pushAct (e : Enums) (ts : List CTok) (s : PushVars) : Option (COut PushVars (List Char)) :=
  match ts with
  | [.word a, .word v, .sym ['{'], .word k, .sym [':', ':'], .word k', .sym [','], .word c, .sym ['<'], .word ty, .sym ['>'], .sym ['('], .word n, .sym [':', ':'], .word x, .sym [')'], .sym ['}']] =>
    if a = "Symbol".toList ∧ k = "SymbolKind".toList ∧ k' = "NonTerminal".toList ∧ c = "static_cast".toList ∧ ty = "uint32_t".toList ∧ n = "NonTerminalType".toList then
      (enumConst e.nonTerminals x).bind fun i => s.declare v ⟨.nonTerminal, i⟩
    else none
  | [.word a, .word v, .sym ['{'], .word k, .sym [':', ':'], .word k', .sym [','], .word c, .sym ['<'], .word ty, .sym ['>'], .sym ['('], .word l, .sym [':', ':'], .word n, .sym [':', ':'], .word x,
      .sym [')'], .sym ['}']] =>
    if a = "Symbol".toList ∧ k = "SymbolKind".toList ∧ k' = "Terminal".toList ∧ c = "static_cast".toList ∧ ty = "uint32_t".toList ∧ l = "lexer".toList ∧ n = "TokenType".toList then
      (enumConst e.tokens x).bind fun i => s.declare v ⟨.terminal, i⟩
    else none
  | [.word p, .sym ['.'], .word q, .sym ['('], .word v, .sym [')']] =>
    if p = "parse_stack".toList ∧ q = "push".toList then (s.vars.find? fun y => y.1 = v).map fun y => .next { s with stack := y.2 :: s.stack } else none
  | [.word t, .word d, .sym [':', ':'], .word r, .sym ['('], .str x, .sym [')']] =>
    if t = "throw".toList ∧ d = "std".toList ∧ r = "runtime_error".toList then some (.exit s x) else none
  | ts => doPhrase [("break", fun s => some (.brk s))] ts s

/-- a call of `push_production_from_table(non_terminal, lookahead, parse_stack)` -/
def pushMachine (e : Enums) : CMachine PushVars (List Char) where
  const := lrConst e
  value := pushValue
  test := fun _ _ => none
  act := pushAct e

/-! ## `enter_visitor` and `exit_visitor` -/

/-- the argument and the functions called -/
structure LLVisitVars where
  nonTerminal : Nat
  called : List (List Char)

/-- statements of `enter_visitor` and `exit_visitor` -/
def llVisitAct (ts : List CTok) (s : LLVisitVars) : Option (COut LLVisitVars (List Char)) :=
  match ts with
  | [.word v, .sym ['.'], .word x, .sym ['('], .sym [')']] => if v = "visitor".toList then some (.next { s with called := s.called ++ [x] }) else none
  | ts => doPhrase [("break", fun s => some (.brk s))] ts s

/-- a call of `enter_visitor(visitor, non_terminal)` or `exit_visitor(visitor, non_terminal)` -/
def llVisitMachine (e : Enums) : CMachine LLVisitVars (List Char) where
  const := lrConst e
  value := fun x s => if x = phrase "non_terminal" then some (3 * s.nonTerminal + 2) else none
  test := fun _ _ => none
  act := llVisitAct

/-! ## `Parser::parse` -/

/-- calls of the visitor -/
inductive LLTextEvent (T : Type) where
  | token (tk : Nat) (data : T)
  | call (method : List Char)
deriving DecidableEq, Repr

/-- the functions that `parse` calls -/
structure LLFns where
  push : LLCSym → Nat → List LLCSym → Res (LLCall PushVars)
  enter : Nat → Res (LLCall LLVisitVars)
  exit : Nat → Res (LLCall LLVisitVars)
  message : Nat → Nat → Res (List Char)

/-- the variables of `parse`, the number of calls of the token function and the calls of the visitor -/
structure LLVars (T : Type) where
  lookahead : List (Nat × T)
  stack : List LLCSym
  endSymbol : LLCSym
  entrySymbol : LLCSym
  current : LLCSym
  next : Option (Nat × T)
  lookaheadTk : Nat
  exitSymbol : LLCSym
  calls : Nat
  events : List (LLTextEvent T)

/-- a call on the visitor -/
def llCalled {T : Type} (s : LLVars T) : Res (LLCall LLVisitVars) → Option (COut (LLVars T) (List Char))
  | .ok (.returned v) => some (.next { s with events := s.events ++ v.called.map .call })
  | .ok (.thrown m) => some (.exit s m)
  | .error _ => none

/-- the simple statements of `parse`; `input` is the token function, `eof` the value of `TK_EOF`, `entry` that of the entry symbol -/
def llParseTable {T : Type} (f : LLFns) (eof : Option Nat) (entry : Nat) (input : Nat → Nat × T) : List (String × (LLVars T → Option (COut (LLVars T) (List Char)))) := [
  ("std::queue<std::pair<lexer::TokenType, T>> lookahead", fun s => some (.next { s with lookahead := [] })),
  ("lookahead.push(this->token_function())", fun s => some (.next { s with lookahead := s.lookahead ++ [input s.calls], calls := s.calls + 1 })),
  ("std::stack<Symbol> parse_stack", fun s => some (.next { s with stack := [] })),
  ("Symbol end{SymbolKind::Terminal, static_cast<uint32_t>(lexer::TokenType::TK_EOF)}", fun s => eof.map fun v => .next { s with endSymbol := ⟨.terminal, v⟩ }),
  ("parse_stack.push(end)", fun s => some (.next { s with stack := s.endSymbol :: s.stack })),
  ("Symbol entry{SymbolKind::NonTerminal, static_cast<uint32_t>({grammar_entry_non_terminal})}", fun s => some (.next { s with entrySymbol := ⟨.nonTerminal, entry⟩ })),
  ("parse_stack.push(entry)", fun s => some (.next { s with stack := s.entrySymbol :: s.stack })),
  ("Symbol current = parse_stack.top()", fun s => s.stack.head?.map fun x => .next { s with current := x }),
  ("parse_stack.pop()", fun s => s.stack.tail?.map fun r => .next { s with stack := r }),
  ("auto lookahead_token_and_data = lookahead.front()", fun s => s.lookahead.head?.map fun x => .next { s with next := some x }),
  ("lexer::TokenType lookahead_tk = lookahead_token_and_data.first", fun s => s.next.map fun x => .next { s with lookaheadTk := x.1 }),
  ("exit_visitor(this->visitor, static_cast<NonTerminalType>(current.identifier))", fun s => llCalled s (f.exit s.current.id)),
  ("Symbol nt_exit_symbol{SymbolKind::ExitNonTerminal, current.identifier}", fun s => some (.next { s with exitSymbol := ⟨.exit, s.current.id⟩ })),
  ("parse_stack.push(nt_exit_symbol)", fun s => some (.next { s with stack := s.exitSymbol :: s.stack })),
  ("push_production_from_table(current, lookahead_tk, parse_stack)", fun s =>
    match f.push s.current s.lookaheadTk s.stack with
    | .ok (.returned v) => some (.next { s with stack := v.stack })
    | .ok (.thrown m) => some (.exit s m)
    | .error _ => none),
  ("enter_visitor(this->visitor, static_cast<NonTerminalType>(current.identifier))", fun s => llCalled s (f.enter s.current.id)),
  ("throw_unexpected_token_error(static_cast<lexer::TokenType>(current.identifier), lookahead_tk)", fun s =>
    match f.message s.current.id s.lookaheadTk with
    | .ok m => some (.exit s m)
    | .error _ => none),
  ("this->visitor.token(lookahead_tk, lookahead_token_and_data.second)", fun s => s.next.map fun x => .next { s with events := s.events ++ [.token s.lookaheadTk x.2] }),
  ("lookahead.pop()", fun s => s.lookahead.tail?.map fun r => .next { s with lookahead := r })]

/-- conditions of `parse` -/
def llParseTest {T : Type} (c : List CTok) (s : LLVars T) : Option Bool :=
  if c = phrase "parse_stack.size() > 0" then some (0 < s.stack.length)
  else if c = phrase "current.kind == SymbolKind::ExitNonTerminal" then some (s.current.kind = .exit)
  else if c = phrase "current.kind != SymbolKind::Terminal" then some (s.current.kind ≠ .terminal)
  else if c = phrase "current.identifier != static_cast<uint32_t>(lookahead_tk)" then some (s.current.id ≠ s.lookaheadTk)
  else none

/-- conditions and statements of `parse` -/
def llParseMachine {T : Type} (f : LLFns) (eof : Option Nat) (entry : Nat) (input : Nat → Nat × T) : CMachine (LLVars T) (List Char) where
  const := fun _ => none
  value := fun _ _ => none
  test := llParseTest
  act := doPhrase (llParseTable f eof entry input)

/-- outcome of a run of `parse` -/
inductive LLTextResult (T : Type) where
  | returned (events : List (LLTextEvent T)) (pos : Nat)
  | thrown (events : List (LLTextEvent T)) (pos : Nat) (message : List Char)
  | aborted
  | running
deriving DecidableEq, Repr

/-- how a run of the statements of `parse` ended; the position is the number of tokens asked for, less one -/
def llTextResult {T : Type} : Res (COut (LLVars T) (List Char)) → LLTextResult T
  | .ok (.next s) => .returned s.events (s.calls - 1)
  | .ok (.exit s m) => .thrown s.events (s.calls - 1) m
  | .ok (.brk _) => .aborted
  | .error .fuel => .running
  | .error .panic => .aborted

/-- a run of `parse`, given by its statements, with at most `n` rounds of the loop -/
def runLLParse {T : Type} (body : List CStmt) (f : LLFns) (eof : Option Nat) (entry : Nat) (input : Nat → Nat × T) (n : Nat) : LLTextResult T :=
  llTextResult ((llParseMachine f eof entry input).execs n 0 body ⟨[], [], ⟨.terminal, 0⟩, ⟨.terminal, 0⟩, ⟨.terminal, 0⟩, none, 0, ⟨.terminal, 0⟩, 0, []⟩)

/-- the functions and enumerations in the files -/
structure CppLLUnit where
  enums : Enums
  getTokenName : List CStmt
  pushProduction : List CStmt
  throwUnexpected : List CStmt
  exitVisitor : List CStmt
  enterVisitor : List CStmt
  parse : List CStmt

/-- reading the files -/
def CppFiles.readLL (f : CppFiles) : Option CppLLUnit := do
  let tokens ← readEnum (phrase "enum class TokenType : uint32_t {") f.tokensH
  let nonTerminals ← readEnum (phrase "enum class NonTerminalType : uint32_t {") f.parserImplH
  let getTokenName ← readFunction (phrase "const char *get_token_name(TokenType tk_type) {") f.tokensCpp
  let pushProduction ← readFunction (phrase "void push_production_from_table(Symbol non_terminal, lexer::TokenType lookahead, std::stack<Symbol>& parse_stack) {") f.parserCpp
  let throwUnexpected ← readFunction (phrase "void throw_unexpected_token_error(lexer::TokenType expected, lexer::TokenType got) {") f.parserCpp
  let exitVisitor ← readFunction (phrase "void exit_visitor(Visitor<T>& visitor, NonTerminalType non_terminal) {") f.parserImplH
  let enterVisitor ← readFunction (phrase "void enter_visitor(Visitor<T>& visitor, NonTerminalType non_terminal) {") f.parserImplH
  let parse ← readFunction (phrase "void Parser<T>::parse() {") f.parserImplH
  some ⟨⟨tokens, nonTerminals⟩, getTokenName, pushProduction, throwUnexpected, exitVisitor, enterVisitor, parse⟩

/-- the functions, by their statements; printing `nullptr` is undefined (here: nothing) -/
def CppLLUnit.fns (u : CppLLUnit) : LLFns where
  push := fun x tk stack => callVoid (pushMachine u.enums) u.pushProduction ⟨x, tk, stack, []⟩
  enter := fun i => callVoid (llVisitMachine u.enums) u.enterVisitor ⟨i, []⟩
  exit := fun i => callVoid (llVisitMachine u.enums) u.exitVisitor ⟨i, []⟩
  message := fun expected got => do
    let e ← callC (tokenNameMachine u.enums.tokens) u.getTokenName expected
    let g ← callC (tokenNameMachine u.enums.tokens) u.getTokenName got
    let r ← callC (llThrowMachine (g.2.getD []) (e.2.getD [])) u.throwUnexpected []
    .ok r.2

/-- `Parser::parse` of the program in these files, run with at most `n` rounds of its loop, when the entry symbol has the value `entry` -/
def runCppLL {T : Type} (files : CppFiles) (entry : Nat) (input : Nat → Nat × T) (n : Nat) : Option (LLTextResult T) :=
  files.readLL.map fun u => runLLParse u.parse u.fns (enumConst u.enums.tokens "TK_EOF".toList) entry input n

/-- the functions of the visitor that are called somewhere in the parser -/
def CppLLUnit.called (u : CppLLUnit) : List (List Char) := (CStmt.simplesL (u.exitVisitor ++ u.enterVisitor ++ u.parse)).flatMap calledOn

/-! ## What a run of the modelled parser looks like in the text -/

/-- calls of the visitor, by name: the productions come first in `NonTerminalType` -/
def llTextEvent {T : Type} (g : Grammar) : LLEvent T → LLTextEvent T
  | .enter i => .call ("enter_".toList ++ ((g.productions[i]?).map fun x => x.2.toList).getD [])
  | .exit i => .call ("exit_".toList ++ ((g.productions[i]?).map fun x => x.2.toList).getD [])
  | .token t data => .token (tokenCode t) data

/-- a message for a lookahead: either no production of the non-terminal `A` has an entry for it, and the message has the name of `A` and the names of the tokens with an entry, or another token
was expected, and the message has the names of both. -/
inductive LLMessage (names : List (List Char)) (g : Grammar) (table : LLTable) (tk : Tok) : List Char → Prop
  | named (A : Nat) (name : String) (expected : List (List Char)) : g.productionName (.nt A) = some name → (∀ a, tk = .tok a → table.getProduction A (.t a) = none) →
      (∀ x, x ∈ expected ↔ ∃ a, (table.getProduction A (.t a)).isSome ∧ names[a]? = some x) →
      LLMessage names g table tk ("Encountered unknown lookahead for production '".toList ++ name.toList ++ "'. Expected one of: ".toList ++ List.intercalate ", ".toList expected)
  | anonymous (A : Nat) (expected : List (List Char)) : Sym.nt A ∈ g.anon → (∀ a, tk = .tok a → table.getProduction A (.t a) = none) →
      (∀ x, x ∈ expected ↔ ∃ a, (table.getProduction A (.t a)).isSome ∧ names[a]? = some x) →
      LLMessage names g table tk ("Encountered unknown lookahead for anonymous production. Expected one of: ".toList ++ List.intercalate ", ".toList expected)
  | unexpected (t : Tok) : t ≠ tk → LLMessage names g table tk ("Unexpected token '".toList ++ codeTokName names tk ++ "', expected token '".toList ++ codeTokName names t ++ "'".toList)

/-- an outcome of the model, and the same of the text -/
inductive LLSame {T : Type} (names : List (List Char)) (g : Grammar) (table : LLTable) (input : Nat → Tok × T) : LLResult T → LLTextResult T → Prop
  | ok (events : List (LLEvent T)) (pos : Nat) : LLSame names g table input (.ok events pos) (.returned (events.map (llTextEvent g)) pos)
  | error (events : List (LLEvent T)) (pos : Nat) (message : List Char) : LLMessage names g table (input pos).1 message →
      LLSame names g table input (.error events pos) (.thrown (events.map (llTextEvent g)) pos message)
  | fuel : LLSame names g table input .fuel .running

end Verif
