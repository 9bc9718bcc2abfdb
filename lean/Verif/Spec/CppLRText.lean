import Verif.Spec.CppLexText
import Verif.Model.CppLR

/-!
# What the statements in the C++ LR parser mean

`runCppParser` takes the texts of the generated files, reads the enumerations and functions in them, and runs `Parser::parse`. The variables of a function are the
fields of a structure. Constants carry their type: numbers are `3 * v`, values of `TokenType` are `3 * v + 1`, values of `NonTerminalType` are `3 * v + 2`, so that a label of another
type never applies. Statements without a meaning here, `back()`, `front()` and `pop_back()` on something empty, and numbers that do not fit give a panic.
-/

set_option autoImplicit false

namespace Verif

/-- the enumerations in `tokens.h` and `parser_impl.h`: enumerators with their values -/
structure Enums where
  tokens : List (List Char × Nat)
  nonTerminals : List (List Char × Nat)

/-- value of an enumerator -/
def enumConst (es : List (List Char × Nat)) (w : List Char) : Option Nat := (es.find? (fun e => e.1 = w)).map (·.2)

/-- constants in `parser.cpp` -/
def lrConst (e : Enums) : List CTok → Option Nat
  | [.word a, .sym [':', ':'], .word b, .sym [':', ':'], .word w] =>
    if a = "lexer".toList ∧ b = "TokenType".toList then (enumConst e.tokens w).map (fun v => 3 * v + 1) else none
  | [.word b, .sym [':', ':'], .word w] => if b = "NonTerminalType".toList then (enumConst e.nonTerminals w).map (fun v => 3 * v + 2) else none
  | ts => (decimalConst ts).map (fun v => 3 * v)

/-! ## `get_token_name` -/

/-- constants in `tokens.cpp` -/
def tokenConst (tokens : List (List Char × Nat)) : List CTok → Option Nat
  | [.word b, .sym [':', ':'], .word w] => if b = "TokenType".toList then enumConst tokens w else none
  | _ => none

/-- statements of `get_token_name`; `nullptr` is `none` -/
def tokenNameAct (ts : List CTok) (tk : Nat) : Option (COut Nat (Option (List Char))) :=
  match ts with
  | [.word r, .str x] => if r = "return".toList then some (.exit tk (some x)) else none
  | ts => doPhrase [("return nullptr", fun tk => some (.exit tk none))] ts tk

/-- `get_token_name(tk_type)`: the only variable is the argument -/
def tokenNameMachine (tokens : List (List Char × Nat)) : CMachine Nat (Option (List Char)) where
  const := tokenConst tokens
  value := fun e tk => if e = phrase "tk_type" then some tk else none
  test := fun _ _ => none
  act := tokenNameAct

/-! ## `throw_unexpected_token_error` -/

/-- what is written by `<< a << b ...`; `name` is the name of the token, `expected` the argument -/
def streamText (name expected : List Char) : Nat → List CTok → Option (List Char)
  | _, [] => some []
  | n + 1, .sym ['<'] :: .sym ['<'] :: .str x :: ts => (streamText name expected n ts).map (x ++ ·)
  | n + 1, .sym ['<'] :: .sym ['<'] :: ts =>
    if phrase "lexer::get_token_name(got)" <+: ts then (streamText name expected n (ts.drop (phrase "lexer::get_token_name(got)").length)).map (name ++ ·)
    else if phrase "expected" <+: ts then (streamText name expected n (ts.drop (phrase "expected").length)).map (expected ++ ·)
    else none
  | _, _ => none

/-- statements that are always the same -/
def throwTable : List (String × (List Char → Option (COut (List Char) (List Char)))) := [
  ("std::ostringstream os", fun _ => some (.next [])),
  ("throw std::runtime_error(os.str())", fun os => some (.exit os os))]

/-- statements of `throw_unexpected_token_error` -/
def throwAct (name expected : List Char) (ts : List CTok) (os : List Char) : Option (COut (List Char) (List Char)) :=
  match ts with
  | .word a :: .sym ['<'] :: ts => if a = "os".toList then (streamText name expected (ts.length + 1) (.sym ['<'] :: ts)).map (fun x => .next (os ++ x)) else none
  | ts => doPhrase throwTable ts os

/-- `throw_unexpected_token_error(expected, got)`: the variable is the text in `os`; the result is the message -/
def throwMachine (name expected : List Char) : CMachine (List Char) (List Char) where
  const := fun _ => none
  value := fun _ _ => none
  test := fun _ _ => none
  act := throwAct name expected

/-! ## `determine_action` -/

/-- the arguments and the variable `act` -/
structure ActionVars where
  state : Nat
  tk : Nat
  act : Option LRAction

/-- expressions of `determine_action` -/
def actionValue (x : List CTok) (s : ActionVars) : Option Nat :=
  if x = phrase "state" then some (3 * s.state) else if x = phrase "lookahead_token" then some (3 * s.tk + 1) else none

/-- statements that are always the same -/
def actionTable : List (String × (ActionVars → Option (COut ActionVars CppAct))) := [
  ("return act", fun s => s.act.map fun a => .exit s (.act a)),
  ("std::terminate()", fun s => some (.exit s .abort)),
  ("break", fun s => some (.brk s))]

/-- statements of `determine_action` -/
def actionAct (ts : List CTok) (s : ActionVars) : Option (COut ActionVars CppAct) :=
  match ts with
  | [.word a, .word b, .sym ['{'], .word c, .sym [':', ':'], .word k, .sym [','], n, .sym ['}']] =>
    if a = "Action".toList ∧ b = "act".toList ∧ c = "ActionType".toList then
      (decimalConst [n]).bind fun i =>
        if 65536 ≤ i then none
        else if k = "Shift".toList then some (.next { s with act := some .shift })
        else if k = "Reduce".toList then some (.next { s with act := some (.reduce i) })
        else none
    else none
  | [.word f, .sym ['('], .str x, .sym [','], .word a, .sym [')']] =>
    if f = "throw_unexpected_token_error".toList ∧ a = "lookahead_token".toList then some (.exit s (.throw x)) else none
  | ts => doPhrase actionTable ts s

/-- a call of `determine_action(state, lookahead_token)` -/
def actionMachine (e : Enums) : CMachine ActionVars CppAct where
  const := lrConst e
  value := actionValue
  test := fun _ _ => none
  act := actionAct

/-! ## `retrieve_next_state` -/

/-- the arguments and the variable `transition` -/
structure GotoVars where
  state : Nat
  sym : CppSym
  transition : Option LRGoto

/-- expressions of `retrieve_next_state` -/
def gotoValue (x : List CTok) (s : GotoVars) : Option Nat :=
  if x = phrase "state" then some (3 * s.state)
  else if x = phrase "static_cast<lexer::TokenType>(current_symbol.identifier)" then some (3 * s.sym.id + 1)
  else if x = phrase "static_cast<parser::NonTerminalType>(current_symbol.identifier)" then some (3 * s.sym.id + 2)
  else none

/-- conditions of `retrieve_next_state` -/
def gotoTest (x : List CTok) (s : GotoVars) : Option Bool :=
  if x = phrase "current_symbol.kind == SymbolKind::Terminal" then some (s.sym.kind = .terminal)
  else if x = phrase "current_symbol.kind == SymbolKind::NonTerminal" then some (s.sym.kind = .nonTerminal)
  else none

/-- statements that are always the same; `none` is the end of the program -/
def gotoTable : List (String × (GotoVars → Option (COut GotoVars (Option LRGoto)))) := [
  ("return transition", fun s => s.transition.map fun t => .exit s (some t)),
  ("std::terminate()", fun s => some (.exit s none)),
  ("break", fun s => some (.brk s))]

/-- statements of `retrieve_next_state` -/
def gotoAct (ts : List CTok) (s : GotoVars) : Option (COut GotoVars (Option LRGoto)) :=
  match ts with
  | [.word a, .word b, .sym ['{'], n, .sym [','], .word acc, .sym ['}']] =>
    if a = "Transition".toList ∧ b = "transition".toList then
      (decimalConst [n]).bind fun q =>
        if 4294967296 ≤ q then none
        else if acc = "false".toList then some (.next { s with transition := some (.state q) })
        else if acc = "true".toList then some (.next { s with transition := some .accept })
        else none
    else none
  | ts => doPhrase gotoTable ts s

/-- a call of `retrieve_next_state(state, current_symbol)` -/
def gotoMachine (e : Enums) : CMachine GotoVars (Option LRGoto) where
  const := lrConst e
  value := gotoValue
  test := gotoTest
  act := gotoAct

/-! ## `reduce_stack` -/

/-- the arguments and the variables; the top of a stack is the head of the list -/
structure ReduceVars where
  rule : Nat
  stack : List CppSym
  reduced : List CppSym
  symbol : Option CppSym
  nonTerminal : Option CppSym

/-- statements that are always the same -/
def reduceTable : List (String × (ReduceVars → Option (COut ReduceVars Bool))) := [
  ("parse_stack.pop_back()", fun s => s.stack.tail?.map fun r => .next { s with stack := r }),
  ("Symbol reduced_symbol = parse_stack.back()", fun s => s.stack.head?.map fun x => .next { s with symbol := some x }),
  ("rev_reduced_symbols.push_back(reduced_symbol)", fun s => s.symbol.map fun x => .next { s with reduced := x :: s.reduced }),
  ("parse_stack.push_back(reduced_non_terminal)", fun s => s.nonTerminal.map fun x => .next { s with stack := x :: s.stack }),
  ("return", fun s => some (.exit s true)),
  ("std::terminate()", fun s => some (.exit s false))]

/-- statements of `reduce_stack` -/
def reduceAct (e : Enums) (ts : List CTok) (s : ReduceVars) : Option (COut ReduceVars Bool) :=
  match ts with
  | [.word a, .word b, .sym ['{'], .word k, .sym [':', ':'], .word k', .sym [','], .word c, .sym ['<'], .word ty, .sym ['>'], .sym ['('], .word n, .sym [':', ':'], .word x, .sym [')'], .sym ['}']] =>
    if a = "Symbol".toList ∧ b = "reduced_non_terminal".toList ∧ k = "SymbolKind".toList ∧ k' = "NonTerminal".toList ∧ c = "static_cast".toList ∧ ty = "uint32_t".toList ∧
        n = "NonTerminalType".toList then
      (enumConst e.nonTerminals x).map fun v => .next { s with nonTerminal := some ⟨.nonTerminal, v⟩ }
    else none
  | ts => doPhrase reduceTable ts s

/-- a call of `reduce_stack(rule, parse_stack, rev_reduced_symbols)`: does it return, or does the program end? -/
def reduceMachine (e : Enums) : CMachine ReduceVars Bool where
  const := lrConst e
  value := fun x s => if x = phrase "rule" then some (3 * s.rule) else none
  test := fun _ _ => none
  act := reduceAct e

/-! ## `reduce_visitor` -/

/-- the argument `rule` and the methods called -/
structure VisitVars where
  rule : Nat
  called : List (List Char)

/-- statements that are always the same -/
def visitTable : List (String × (VisitVars → Option (COut VisitVars Bool))) := [
  ("return", fun s => some (.exit s true)),
  ("std::terminate()", fun s => some (.exit s false))]

/-- statements of `reduce_visitor` -/
def visitAct (ts : List CTok) (s : VisitVars) : Option (COut VisitVars Bool) :=
  match ts with
  | [.word v, .sym ['.'], .word x, .sym ['('], .sym [')']] => if v = "visitor".toList then some (.next { s with called := s.called ++ [x] }) else none
  | ts => doPhrase visitTable ts s

/-- a call of `reduce_visitor(visitor, rev_reduced_symbols, rule)`: does it return, or does the program end? -/
def visitMachine : CMachine VisitVars Bool where
  const := decimalConst
  value := fun x s => if x = phrase "rule" then some s.rule else none
  test := fun _ _ => none
  act := visitAct

/-! ## `Parser::parse` -/

/-- calls of the visitor -/
inductive TextEvent (T : Type) where
  | shift (tk : Nat) (data : T)
  | call (method : List Char)
deriving DecidableEq, Repr

/-- how `parse` leaves -/
inductive ParseExit where
  | thrown (message : List Char)
  | terminated
deriving DecidableEq, Repr

/-- the variables of `parse`, the number of calls of the token function and the calls of the visitor -/
structure ParseVars (T : Type) where
  lookahead : List (Nat × T)
  stack : List CppSym
  entrySymbol : CppSym
  next : Option (Nat × T)
  nextTk : Nat
  nextSymbol : CppSym
  state : Nat
  action : LRAction
  reduced : List CppSym
  currentSymbol : CppSym
  stackState : Nat
  transition : LRGoto
  nextStateSymbol : CppSym
  calls : Nat
  events : List (TextEvent T)

/-- the functions that `parse` calls -/
structure ParseFns where
  determine : Nat → Nat → Res CppAct
  message : List Char → Nat → Res (List Char)
  reduce : Nat → List CppSym → List CppSym → Res (List CppSym × List CppSym × Bool)
  visit : Nat → Res (List (List Char) × Bool)
  goto : Nat → CppSym → Res (Option LRGoto)

/-- the simple statements of `parse`; `input` is the token function: the results of its calls -/
def parseTable {T : Type} (f : ParseFns) (input : Nat → Nat × T) : List (String × (ParseVars T → Option (COut (ParseVars T) ParseExit))) := [
  ("std::queue<std::pair<lexer::TokenType, T>> lookahead", fun s => some (.next { s with lookahead := [] })),
  ("lookahead.push(this->token_function())", fun s => some (.next { s with lookahead := s.lookahead ++ [input s.calls], calls := s.calls + 1 })),
  ("std::vector<Symbol> parse_stack", fun s => some (.next { s with stack := [] })),
  ("parse_stack.push_back(entry_symbol)", fun s => some (.next { s with stack := s.entrySymbol :: s.stack })),
  ("auto next_token_and_data = lookahead.front()", fun s => s.lookahead.head?.map fun x => .next { s with next := some x }),
  ("lexer::TokenType next_tk = next_token_and_data.first", fun s => s.next.map fun x => .next { s with nextTk := x.1 }),
  ("Symbol next_symbol{SymbolKind::Terminal, static_cast<uint32_t>(next_tk)}", fun s => some (.next { s with nextSymbol := ⟨.terminal, s.nextTk⟩ })),
  ("uint32_t state = parse_stack.back().identifier", fun s => s.stack.head?.map fun x => .next { s with state := x.id }),
  ("Action action = determine_action(state, next_tk)", fun s =>
    match f.determine s.state s.nextTk with
    | .ok (.act a) => some (.next { s with action := a })
    | .ok (.throw expected) =>
      match f.message expected s.nextTk with
      | .ok m => some (.exit s (.thrown m))
      | .error _ => none
    | .ok .abort => some (.exit s .terminated)
    | .error _ => none),
  ("parse_stack.push_back(next_symbol)", fun s => some (.next { s with stack := s.nextSymbol :: s.stack })),
  ("this->visitor.shift(next_tk, next_token_and_data.second)", fun s => s.next.map fun x => .next { s with events := s.events ++ [.shift s.nextTk x.2] }),
  ("lookahead.pop()", fun s => s.lookahead.tail?.map fun r => .next { s with lookahead := r }),
  ("std::vector<Symbol> rev_reduced_symbols", fun s => some (.next { s with reduced := [] })),
  ("reduce_stack(action.reduced_rule, parse_stack, rev_reduced_symbols)", fun s =>
    match s.action with
    | .shift => none
    | .reduce i =>
      match f.reduce i s.stack s.reduced with
      | .ok (stack, reduced, true) => some (.next { s with stack := stack, reduced := reduced })
      | .ok (_, _, false) => some (.exit s .terminated)
      | .error _ => none),
  ("reduce_visitor(this->visitor, rev_reduced_symbols, action.reduced_rule)", fun s =>
    match s.action with
    | .shift => none
    | .reduce i =>
      match f.visit i with
      | .ok (ms, true) => some (.next { s with events := s.events ++ ms.map .call })
      | .ok (_, false) => some (.exit s .terminated)
      | .error _ => none),
  ("Symbol current_symbol = parse_stack.back()", fun s => s.stack.head?.map fun x => .next { s with currentSymbol := x }),
  ("uint32_t stack_state = parse_stack.at(parse_stack.size() - 2).identifier", fun s => s.stack[1]?.map fun x => .next { s with stackState := x.id }),
  ("Transition transition = retrieve_next_state(stack_state, current_symbol)", fun s =>
    match f.goto s.stackState s.currentSymbol with
    | .ok (some t) => some (.next { s with transition := t })
    | .ok none => some (.exit s .terminated)
    | .error _ => none),
  ("parse_stack.pop_back()", fun s => s.stack.tail?.map fun r => .next { s with stack := r }),
  ("Symbol next_state_symbol{SymbolKind::State, transition.next_state}", fun s =>
    match s.transition with
    | .state q => some (.next { s with nextStateSymbol := ⟨.state, q⟩ })
    | .accept => some (.next { s with nextStateSymbol := ⟨.state, 0⟩ })),
  ("parse_stack.push_back(next_state_symbol)", fun s => some (.next { s with stack := s.nextStateSymbol :: s.stack }))]

/-- conditions of `parse` -/
def parseTest {T : Type} (c : List CTok) (s : ParseVars T) : Option Bool :=
  if c = phrase "parse_stack.size() > 0" then some (0 < s.stack.length)
  else if c = phrase "action.action_type == ActionType::Shift" then some (s.action = .shift)
  else if c = phrase "action.action_type == ActionType::Reduce" then some (s.action ≠ .shift)
  else if c = phrase "transition.is_accepting" then some (s.transition = .accept)
  else none

/-- statements of `parse` -/
def parseAct {T : Type} (f : ParseFns) (input : Nat → Nat × T) (ts : List CTok) (s : ParseVars T) : Option (COut (ParseVars T) ParseExit) :=
  match ts with
  | [.word a, .word b, .sym ['{'], .word k, .sym [':', ':'], .word k', .sym [','], .word c, .sym ['<'], .word ty, .sym ['>'], .sym ['('], n, .sym [')'], .sym ['}']] =>
    if a = "Symbol".toList ∧ b = "entry_symbol".toList ∧ k = "SymbolKind".toList ∧ k' = "State".toList ∧ c = "static_cast".toList ∧ ty = "uint32_t".toList then
      (decimalConst [n]).bind fun q => some (.next { s with entrySymbol := ⟨.state, q⟩ })
    else doPhrase (parseTable f input) ts s
  | ts => doPhrase (parseTable f input) ts s

/-- conditions and statements of `parse` -/
def parseMachine {T : Type} (f : ParseFns) (input : Nat → Nat × T) : CMachine (ParseVars T) ParseExit where
  const := fun _ => none
  value := fun _ _ => none
  test := parseTest
  act := parseAct f input

/-- outcome of a run of `parse` -/
inductive TextResult (T : Type) where
  | returned (events : List (TextEvent T)) (pos : Nat)
  | thrown (events : List (TextEvent T)) (pos : Nat) (message : List Char)
  | aborted
  | running
deriving DecidableEq, Repr

/-- a run of `parse`, given by its statements, with at most `n` rounds of the loop; the position is the number of tokens asked for, less one -/
def runParse {T : Type} (body : List CStmt) (f : ParseFns) (input : Nat → Nat × T) (n : Nat) : TextResult T :=
  match (parseMachine f input).execs n 0 body ⟨[], [], ⟨.state, 0⟩, none, 0, ⟨.state, 0⟩, 0, .shift, [], ⟨.state, 0⟩, 0, .accept, ⟨.state, 0⟩, 0, []⟩ with
  | .ok (.next s) => .returned s.events (s.calls - 1)
  | .ok (.exit s (.thrown m)) => .thrown s.events (s.calls - 1) m
  | .ok _ => .aborted
  | .error .fuel => .running
  | .error .panic => .aborted

/-- calls of the visitor, by name -/
def textEvent {T : Type} (calls : List (Nat × List Char)) : CppEvent T → TextEvent T
  | .shift tk data => .shift tk data
  | .reduce i => .call ((cppSwitch i calls).getD [])

/-- an outcome, with calls of the visitor by name -/
def textResult {T : Type} (calls : List (Nat × List Char)) : CppLRResult T → TextResult T
  | .returned events pos => .returned (events.map (textEvent calls)) pos
  | .thrown events pos m => .thrown (events.map (textEvent calls)) pos m
  | .aborted _ _ => .aborted
  | .running _ _ => .running

/-- the texts of the generated files -/
structure CppFiles where
  tokensH : List Char
  tokensCpp : List Char
  parserCpp : List Char
  parserImplH : List Char

/-- the functions and enumerations in the files -/
structure CppUnit where
  enums : Enums
  getTokenName : List CStmt
  throwUnexpected : List CStmt
  determineAction : List CStmt
  reduceStack : List CStmt
  retrieveNextState : List CStmt
  reduceVisitor : List CStmt
  parse : List CStmt

/-- reading the files -/
def CppFiles.read (f : CppFiles) : Option CppUnit := do
  let tokens ← readEnum (phrase "enum class TokenType : uint32_t {") f.tokensH
  let nonTerminals ← readEnum (phrase "enum class NonTerminalType : uint32_t {") f.parserImplH
  let getTokenName ← readFunction (phrase "const char *get_token_name(TokenType tk_type) {") f.tokensCpp
  let throwUnexpected ← readFunction (phrase "void throw_unexpected_token_error(const char* expected, lexer::TokenType got) {") f.parserCpp
  let determineAction ← readFunction (phrase "Action determine_action(uint32_t state, const lexer::TokenType &lookahead_token) {") f.parserCpp
  let reduceStack ← readFunction (phrase "void reduce_stack(uint32_t rule, std::vector<Symbol> &parse_stack, std::vector<Symbol> &rev_reduced_symbols) {") f.parserCpp
  let retrieveNextState ← readFunction (phrase "Transition retrieve_next_state(uint32_t state, const Symbol &current_symbol) {") f.parserCpp
  let reduceVisitor ← readFunction (phrase "void reduce_visitor(Visitor<T> &visitor, const std::vector<Symbol> &rev_reduced_symbols, uint32_t rule) {") f.parserImplH
  let parse ← readFunction (phrase "void Parser<T>::parse() {") f.parserImplH
  some ⟨⟨tokens, nonTerminals⟩, getTokenName, throwUnexpected, determineAction, reduceStack, retrieveNextState, reduceVisitor, parse⟩

/-- the functions, by their statements; printing `nullptr` is undefined (here: nothing) -/
def CppUnit.fns (u : CppUnit) : ParseFns where
  determine := fun q tk => (callC (actionMachine u.enums) u.determineAction ⟨q, tk, none⟩).map (·.2)
  message := fun expected tk => do
    let name ← callC (tokenNameMachine u.enums.tokens) u.getTokenName tk
    let r ← callC (throwMachine (name.2.getD []) expected) u.throwUnexpected []
    .ok r.2
  reduce := fun i stack reduced => (callC (reduceMachine u.enums) u.reduceStack ⟨i, stack, reduced, none, none⟩).map fun r => (r.1.stack, r.1.reduced, r.2)
  visit := fun i => (callC visitMachine u.reduceVisitor ⟨i, []⟩).map fun r => (r.1.called, r.2)
  goto := fun q x => (callC (gotoMachine u.enums) u.retrieveNextState ⟨q, x, none⟩).map (·.2)

/-- `Parser::parse` of the program in these files, run with at most `n` rounds of its loop -/
def runCppParser {T : Type} (files : CppFiles) (input : Nat → Nat × T) (n : Nat) : Option (TextResult T) := files.read.map fun u => runParse u.parse u.fns input n

/-- the names of tokens and productions are words: letters, digits and underscores -/
def RuleSet.WordNames (rs : RuleSet) : Prop := (∀ n ∈ rs.tokens, IsWord n.toList) ∧ ∀ x ∈ rs.prods, IsWord x.name.toList

/-- the same of a grammar -/
def Grammar.WordNames (g : Grammar) : Prop := (∀ x ∈ g.tokens, IsWord x.2.toList) ∧ ∀ x ∈ g.productions, IsWord x.2.toList

end Verif
