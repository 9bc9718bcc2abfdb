import Verif.Spec.CppLexText
import Verif.Spec.RustLexText
import Verif.Model.LRDriver
import Verif.Model.Names

/-!
# What the statements in `parser.rs` mean

Values are those of `RVal`; a token is the name of its variant in `TokenType`. The token function is a sequence of tokens with their data, `calls` counts how often it was called; calls of the visitor are
recorded in order. A function that is called is the one in the text.
-/

set_option autoImplicit false

namespace Verif

/-- the block of the first `impl` of a type (not one of a trait for the type); the mode says whether we are in the head of an `impl`, and whether the type was seen there -/
def findImpl (ty : List Char) : Option Bool → RForest → Option RForest
  | _, .nil => none
  | none, .word w f => findImpl ty (if w = "impl".toList then some false else none) f
  | some b, .word w f => findImpl ty (if w = "for".toList then none else some (b || w = ty)) f
  | some true, .group .brace i _ => some i
  | some false, .group .brace _ f => findImpl ty none f
  | m, .group _ _ f => findImpl ty m f
  | m, .life _ f => findImpl ty m f
  | m, .str _ f => findImpl ty m f
  | m, .sym _ f => findImpl ty m f

/-- the statements of a method of a type -/
def readRustMethod (ty name : List Char) (text : List Char) : Option (List RStmt) := do
  let f ← rRead text
  let i ← findImpl ty none f
  let b ← findFn name .look i
  readRStmts (2 * b.size) b

/-! ## Expressions -/

/-- the value of an expression without variables: a number, a variant without or with a field, a pair. The number bounds the depth. -/
def readValue : Nat → RForest → Option RVal
  | 0, _ => none
  | _ + 1, .word w .nil => (rNumber w).map .num
  | _ + 1, .word ty (.sym s (.word v .nil)) => if s = "::".toList then some (.variant ty v) else none
  | n + 1, .word ty (.sym s (.word v (.group .brace (.word f (.sym c e)) .nil))) => if s = "::".toList ∧ c = [':'] then (readValue n e).map (.field ty v f) else none
  | n + 1, .group .paren i .nil => do
    let (a, b) ← upToSym [','] i
    let x ← readValue n a
    let y ← readValue n b
    some (.pair x y)
  | _, _ => none

/-- variants of `TokenType` with a `,` between them -/
def readTokenList : RForest → Option (List (List Char))
  | .nil => some []
  | .word ty (.sym s (.word v r)) =>
    if ty = "TokenType".toList ∧ s = "::".toList then
      match r with
      | .nil => some [v]
      | .sym c (.word w f) => if c = [','] then (readTokenList (.word w f)).map (v :: ·) else none
      | _ => none
    else none
  | _ => none

/-! ## `next_action` -/

/-- what `next_action` returns: an action, or an error with the token and the expected tokens -/
inductive RActReturn where
  | ok (action : RVal)
  | unexpected (got : List Char) (expected : List (List Char))
deriving DecidableEq, Repr

/-- what is in the parentheses of `return Ok(e)` -/
def okPart : RForest → RForest
  | .word _ (.word _ (.group _ e _)) => e
  | _ => .nil

/-- what is in the brackets of the error -/
def vecPart : RForest → RForest
  | .word _ (.word _ (.group _ (.word _ (.sym _ (.word _ (.group _ (.word _ (.sym _ (.word _ (.sym _ (.word _ (.sym _ (.word _ (.sym _ (.group _ l _))))))))) _)))) _)) => l
  | _ => .nil

/-- statements of `next_action`; the variables are `state` and `next_token` -/
def rActionMachine : RMachine (Nat × List Char) RActReturn where
  value := fun e s => if e = rs! "(state, next_token)" then some (.pair (.num s.1) (.variant "TokenType".toList s.2)) else none
  test := fun _ _ => none
  rounds := fun _ _ => none
  bind := fun _ _ => none
  act := fun ts s =>
    let e := okPart ts
    let l := vecPart ts
    if ts = rs! "return Ok(#e)" then
      match readValue 5 e with
      | some a => .ok (.ret s (.ok a))
      | none => .error .panic
    else if ts = rs! "return Err(ParserError::UnexpectedToken { got: next_token, expected: vec![#l] })" then
      match readTokenList l with
      | some expected => .ok (.ret s (.unexpected s.2 expected))
      | none => .error .panic
    else .error .panic

/-- `self.next_action(state, token)` -/
def rustNextAction (text : List Char) (state : Nat) (token : List Char) : Res RActReturn :=
  match readRustMethod "Parser".toList "next_action".toList text with
  | none => .error .panic
  | some body => (callR rActionMachine 0 body (state, token)).map (·.2)

/-! ## `next_goto` -/

/-- statements of `next_goto`; the variables are `state` and `symbol` -/
def rGotoMachine : RMachine (Nat × RVal) RVal where
  value := fun e s => if e = rs! "(state, symbol)" then some (.pair (.num s.1) s.2) else none
  test := fun _ _ => none
  rounds := fun _ _ => none
  bind := fun _ _ => none
  act := fun ts s =>
    match ts with
    | .word r e =>
      if r = "return".toList then
        match readValue 5 e with
        | some v => .ok (.ret s v)
        | none => .error .panic
      else .error .panic
    | _ => .error .panic

/-- `self.next_goto(state, symbol)` -/
def rustNextGoto (text : List Char) (state : Nat) (symbol : RVal) : Res RVal :=
  match readRustMethod "Parser".toList "next_goto".toList text with
  | none => .error .panic
  | some body => (callR rGotoMachine 0 body (state, symbol)).map (·.2)

/-! ## `reduce_stack_and_visit` -/

/-- variables of `reduce_stack_and_visit`; the top of the stack is the head of the list -/
structure RReduceVars where
  rule : RVal
  stack : List RVal
  toPop : Option Nat
  reduced : Option RVal
deriving DecidableEq, Repr

/-- the name in `return self.visitor.name()` -/
def visitPart : RForest → List Char
  | .word _ (.word _ (.sym _ (.word _ (.sym _ (.word name _))))) => name
  | _ => []

/-- the value in `let (to_pop, reduced) = e` -/
def letPart : RForest → RForest
  | .word _ (.group _ _ (.sym _ e)) => e
  | _ => .nil

/-- statements of `reduce_stack_and_visit`; what it returns is the name of the method of the visitor that is called -/
def rReduceMachine : RMachine RReduceVars (List Char) where
  value := fun e s => if e = rs! "rule" then some s.rule else none
  test := fun _ _ => none
  rounds := fun c s => if c = rs! "_ in 0..to_pop" then s.toPop else none
  bind := fun _ _ => none
  act := fun ts s =>
    let e := letPart ts
    let function := RForest.word (visitPart ts) .nil
    if ts = rs! "let (to_pop, reduced) = #e" then
      match readValue 5 e with
      | some (.pair (.num k) v) => .ok (.next { s with toPop := some k, reduced := some v })
      | _ => .error .panic
    else if ts = rs! "stack.pop().unwrap()" then
      match s.stack with
      | [] => .error .panic
      | _ :: st => .ok (.next { s with stack := st })
    else if ts = rs! "stack.push(reduced)" then
      match s.reduced with
      | none => .error .panic
      | some v => .ok (.next { s with stack := v :: s.stack })
    else if ts = rs! "return self.visitor.#function()" then .ok (.ret s (visitPart ts))
    else .error .panic

/-- `self.reduce_stack_and_visit(rule, &mut stack)`: the stack then, and the method of the visitor that was called -/
def rustReduce (text : List Char) (rule : RVal) (stack : List RVal) : Res (List RVal × List Char) :=
  match readRustMethod "Parser".toList "reduce_stack_and_visit".toList text with
  | none => .error .panic
  | some body => (callR rReduceMachine 0 body ⟨rule, stack, none, none⟩).map fun r => (r.1.stack, r.2)

/-! ## `parse` -/

variable {T : Type}

/-- a call of the visitor -/
inductive RVisit (T : Type) where
  | shift (token : List Char) (data : T)
  | call (method : List Char)
deriving DecidableEq, Repr

/-- the variables of `parse`; `next_token` and `next_data` in an arm are `taken`. `calls` is the number of calls of the token function, `visits` are the calls of the visitor. -/
structure RParseVars (T : Type) where
  lookahead : Option (List (List Char × T))
  stack : Option (List RVal)
  nextToken : Option (List Char)
  state : Option Nat
  stateId : Option Nat
  action : Option RVal
  taken : Option (List Char × T)
  reducedRule : Option RVal
  currentSymbol : Option RVal
  goto : Option RVal
  calls : Nat
  visits : List (RVisit T)

/-- what `parse` returns -/
inductive RParseReturn where
  | ok
  | unexpected (got : List Char) (expected : List (List Char))
deriving DecidableEq, Repr

/-- the functions of the text that `parse` calls -/
structure RParseCalls where
  nextAction : Nat → List Char → Res RActReturn
  nextGoto : Nat → RVal → Res RVal
  reduce : RVal → List RVal → Res (List RVal × List Char)

/-- a statement that pushes on the stack a value without variables: the value -/
def pushPart : RForest → RForest
  | .word _ (.sym _ (.word _ (.group _ e _))) => e
  | _ => .nil

/-- `stack.push(e)` -/
def RParseVars.push (s : RParseVars T) (v : RVal) : Res (ROut (RParseVars T) RParseReturn) :=
  match s.stack with
  | none => .error .panic
  | some st => .ok (.next { s with stack := some (v :: st) })

/-- effect of a simple statement of `parse` -/
def rParseAct (f : RParseCalls) (input : Nat → List Char × T) (ts : RForest) (s : RParseVars T) : Res (ROut (RParseVars T) RParseReturn) :=
  let e := pushPart ts
  if ts = rs! "let mut lookahead = std::collections::VecDeque::new()" then .ok (.next { s with lookahead := some [] })
  else if ts = rs! "lookahead.push_back((self.token_function)())" then
    match s.lookahead with
    | none => .error .panic
    | some l => .ok (.next { s with lookahead := some (l ++ [input s.calls]), calls := s.calls + 1 })
  else if ts = rs! "let mut stack = Vec::new()" then .ok (.next { s with stack := some [] })
  else if ts = rs! "let (next_token, _) = lookahead.front().unwrap()" then
    match s.lookahead with
    | some (x :: _) => .ok (.next { s with nextToken := some x.1 })
    | _ => .error .panic
  else if ts = rs! "let state = *state_id" then
    match s.stateId with
    | none => .error .panic
    | some q => .ok (.next { s with state := some q })
  else if ts = rs! "let action = self.next_action(state, *next_token)?" then
    match s.state, s.nextToken with
    | some q, some t =>
      match f.nextAction q t with
      | .error e => .error e
      | .ok (.ok a) => .ok (.next { s with action := some a })
      | .ok (.unexpected got expected) => .ok (.ret s (.unexpected got expected))
    | _, _ => .error .panic
  else if ts = rs! "let (next_token, next_data) = lookahead.pop_front().unwrap()" then
    match s.lookahead with
    | some (x :: l) => .ok (.next { s with lookahead := some l, taken := some x })
    | _ => .error .panic
  else if ts = rs! "stack.push(StackSymbol::Terminal { token: next_token })" then
    match s.taken with
    | none => .error .panic
    | some x => s.push (.field "StackSymbol".toList "Terminal".toList "token".toList (.variant "TokenType".toList x.1))
  else if ts = rs! "self.visitor.shift(next_token, next_data)" then
    match s.taken with
    | none => .error .panic
    | some x => .ok (.next { s with visits := s.visits ++ [.shift x.1 x.2] })
  else if ts = rs! "self.reduce_stack_and_visit(reduced_rule, &mut stack)" then
    match s.reducedRule, s.stack with
    | some r, some st =>
      match f.reduce r st with
      | .error e => .error e
      | .ok (st, m) => .ok (.next { s with stack := some st, visits := s.visits ++ [.call m] })
    | _, _ => .error .panic
  else if ts = rs! "let current_symbol = stack.last().unwrap()" then
    match s.stack with
    | some (v :: _) => .ok (.next { s with currentSymbol := some v })
    | _ => .error .panic
  else if ts = rs! "let goto = self.next_goto(state, *current_symbol)" then
    match s.state, s.currentSymbol with
    | some q, some v =>
      match f.nextGoto q v with
      | .error e => .error e
      | .ok g => .ok (.next { s with goto := some g })
    | _, _ => .error .panic
  else if ts = rs! "stack.pop()" then
    match s.stack with
    | none => .error .panic
    | some st => .ok (.next { s with stack := some st.tail })
  else if ts = rs! "stack.push(StackSymbol::State { state_id })" then
    match s.stateId with
    | none => .error .panic
    | some q => s.push (.field "StackSymbol".toList "State".toList "state_id".toList (.num q))
  else if ts = rs! "return Ok(())" then .ok (.ret s .ok)
  else if ts = rs! "stack.push(#e)" then
    match readValue 5 e with
    | none => .error .panic
    | some v => s.push v
  else .error .panic

/-- expressions and statements of `parse` -/
def rParseMachine (f : RParseCalls) (input : Nat → List Char × T) : RMachine (RParseVars T) RParseReturn where
  value := fun e s =>
    if e = rs! "stack.last().unwrap()" then s.stack.bind (·[0]?)
    else if e = rs! "&stack[stack.len() - 2]" then s.stack.bind (·[1]?)
    else if e = rs! "action" then s.action
    else if e = rs! "goto" then s.goto
    else none
  test := fun c s => if c = rs! "!stack.is_empty()" then s.stack.map (fun st => !st.isEmpty) else none
  rounds := fun _ _ => none
  bind := fun b s =>
    if b.1 = "state_id".toList then
      match b.2 with
      | .num q => some { s with stateId := some q }
      | _ => none
    else if b.1 = "reduced_rule".toList then some { s with reducedRule := some b.2 }
    else none
  act := rParseAct f input

/-- a run of `parse`: what it returned, the calls of the visitor, and the number of calls of the token function. `n` bounds the number of rounds of the loop. -/
def runRustParser (text : List Char) (input : Nat → List Char × T) (n : Nat) : Res (RParseReturn × List (RVisit T) × Nat) :=
  match readRustMethod "Parser".toList "parse".toList text with
  | none => .error .panic
  | some body => (callR (rParseMachine ⟨rustNextAction text, rustNextGoto text, rustReduce text⟩ input) n body ⟨none, none, none, none, none, none, none, none, none, none, 0, []⟩).map
      fun r => (r.2, r.1.visits, r.1.calls)

/-! ## In terms of the modelled program -/

/-- the variant of a token, with the variants of `TokenType`: the first is the end of the input, then come the rules in order -/
def tokVariant (variants : List (List Char)) : Tok → List Char
  | .tok a => variants.getD (a + 1) []
  | .eof => variants.getD 0 []
  | .err => []

/-- the variant of a terminal or of the end of the input -/
def symVariant (variants : List (List Char)) : Sym → Option (List Char)
  | .t a => some (tokVariant variants (.tok a))
  | .eof => some (tokVariant variants .eof)
  | _ => none

/-- the variant of a non-terminal -/
def rNtV (g : Grammar) (A : Nat) : List Char :=
  match ntEnumName g A with
  | .ok w => w
  | .error _ => []

/-- value of an action -/
def rActVal : LRAction → RVal
  | .shift => .variant "Action".toList "Shift".toList
  | .reduce i => .field "Action".toList "Reduce".toList "rule".toList (.variant "ReducedRule".toList (['R', 'u', 'l', 'e'] ++ decimal i))

/-- value of a goto -/
def rGotoVal : LRGoto → RVal
  | .accept => .variant "Goto".toList "Accept".toList
  | .state q => .field "Goto".toList "State".toList "state_id".toList (.num q)

/-- value of an entry of the stack -/
def rStackVal (variants : List (List Char)) (g : Grammar) : StackSym → RVal
  | .terminal t => .field "StackSymbol".toList "Terminal".toList "token".toList (.variant "TokenType".toList (tokVariant variants t))
  | .nonTerminal A => .field "StackSymbol".toList "NonTerminal".toList "non_terminal".toList (.variant "NonTerminalType".toList (rNtV g A))
  | .state q => .field "StackSymbol".toList "State".toList "state_id".toList (.num q)

/-- value of a rule -/
def rRuleVal (i : Nat) : RVal := .variant "ReducedRule".toList (['R', 'u', 'l', 'e'] ++ decimal i)

/-- a callback of the modelled program as a call in the text; `visits` are the methods of the rules -/
def visitOf (variants : List (List Char)) (visits : List (Nat × List Char)) : LREvent T → RVisit T
  | .shift t data => .shift (tokVariant variants t) data
  | .reduce i => .call (((visits.find? (fun x => x.1 = i)).map (·.2)).getD [])

/-- the outcome of the modelled program as one of the text -/
def rustOutcome (variants : List (List Char)) (visits : List (Nat × List Char)) (input : Nat → Tok × T) : LRResult T → Res (RParseReturn × List (RVisit T) × Nat)
  | .ok events pos => .ok (.ok, events.map (visitOf variants visits), pos + 1)
  | .unexpected events pos expected => .ok (.unexpected (tokVariant variants (input pos).1) (expected.filterMap (symVariant variants)), events.map (visitOf variants visits), pos + 1)
  | .panic _ _ => .error .panic
  | .running _ _ => .error .fuel

/-- names of functions declared in a stream -/
def declaredFns : RForest → List (List Char)
  | .nil => []
  | .word w f =>
    match f with
    | .word n _ => if w = "fn".toList then n :: declaredFns f else declaredFns f
    | _ => declaredFns f
  | .life _ f => declaredFns f
  | .str _ f => declaredFns f
  | .sym _ f => declaredFns f
  | .group _ _ f => declaredFns f

/-- the block of the trait with this name -/
def findTrait (name : List Char) : RForest → Option RForest
  | .nil => none
  | .word w f =>
    match f with
    | .word n f' => if w = "trait".toList ∧ n = name then (upToBrace f').map (·.2.1) else findTrait name f
    | _ => findTrait name f
  | .life _ f => findTrait name f
  | .str _ f => findTrait name f
  | .sym _ f => findTrait name f
  | .group _ _ f => findTrait name f

/-- the methods declared in a trait in a text -/
def rustTrait (name : List Char) (text : List Char) : Option (List (List Char)) := ((rRead text).bind (findTrait name)).map declaredFns

/-- tags are words -/
def TagWords (rs : RuleSet) : Prop := ∀ x ∈ rs.prods, ∀ t, x.tag = some t → IsWord t.toList

end Verif
