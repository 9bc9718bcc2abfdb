import Verif.Spec.RustGss

/-!
# What the driver in the text of a generated Rust GLR parser means

`parse`, `apply_reduces`, `apply_reduce` and `combine_errors` of `parser.rs`, read as statements and executed. The functions they call are those in the same text (`Verif/Spec/RustGlrText.lean`). The
methods of `GraphNode` are the functions of module `gss` in the same text (`Verif/Spec/RustGss.lean`). A variable that is not set is `none`; reading it is a panic, which `rustc`
rules out.
-/

set_option autoImplicit false

namespace Verif

/-! ## Execution -/

/-- what expressions and simple statements mean -/
structure DMachine (σ ρ : Type) where
  /-- value of a condition -/
  test : RForest → σ → Option Bool
  /-- the rounds of a `for` loop: how the variable is set in each of them -/
  rounds : RForest → σ → Option (List (σ → σ))
  /-- does the value of an expression match a pattern? If so: the variables after that -/
  hit : RForest → RForest → σ → Res (Option σ)
  /-- effect of a simple statement; it may panic -/
  act : RForest → σ → Res (ROut σ ρ)

variable {σ ρ : Type}

/-- a `while` loop; the numbers bound how often the condition is tested and how often the body is run -/
def dLoop (test : σ → Option Bool) (body : σ → Res (ROut σ ρ)) : Nat → Nat → σ → Res (ROut σ ρ)
  | 0, _, _ => .error .fuel
  | t + 1, b, s =>
    match test s with
    | none => .error .panic
    | some false => .ok (.next s)
    | some true =>
      match b with
      | 0 => .error .fuel
      | b + 1 =>
        match body s with
        | .ok (.next s') => dLoop test body t b s'
        | r => r

mutual
/-- one statement; `n` bounds how often the condition of a `while` loop is tested and how often its body is run, `ctx` are the tokens before the value of the block (`return` in the block of a function, `let p =`, or none) -/
def DMachine.exec (m : DMachine σ ρ) (n : Nat × Nat) : RForest → DStmt → σ → Res (ROut σ ρ)
  | _, .simple ts, s => m.act ts s
  | ctx, .tail ts, s => m.act (ctx.append ts) s
  | _, .whileDo c b, s => dLoop (m.test c) (fun s => m.execs n .nil b s) n.1 n.2 s
  | _, .forDo c b, s =>
    match m.rounds c s with
    | none => .error .panic
    | some us => rEach (fun s => m.execs n .nil b s) us s
  | ctx, .ifDo before c t e, s =>
    match m.test c s with
    | none => .error .panic
    | some true => m.execs n (before.getD ctx) t s
    | some false => m.execs n (before.getD ctx) e s
  | ctx, .choice e arms, s => m.execArms n ctx e arms s
  | _, .arm _ _, _ => .error .panic
/-- the statements of a block; the last one gives its value -/
def DMachine.execs (m : DMachine σ ρ) (n : Nat × Nat) : RForest → List DStmt → σ → Res (ROut σ ρ)
  | _, [], s => .ok (.next s)
  | ctx, [a], s => m.exec n ctx a s
  | ctx, a :: b :: ss, s =>
    match m.exec n .nil a s with
    | .ok (.next s') => m.execs n ctx (b :: ss) s'
    | r => r
/-- the first arm that matches -/
def DMachine.execArms (m : DMachine σ ρ) (n : Nat × Nat) : RForest → RForest → List DStmt → σ → Res (ROut σ ρ)
  | _, _, [], _ => .error .panic
  | ctx, e, .arm p b :: as, s =>
    match m.hit e p s with
    | .error err => .error err
    | .ok none => m.execArms n ctx e as s
    | .ok (some s') => m.execs n ctx b s'
  | _, _, _ :: _, _ => .error .panic
end

/-- a call of a function that returns a value -/
def callD (m : DMachine σ ρ) (n : Nat × Nat) (body : List DStmt) (s : σ) : Res (σ × ρ) :=
  match m.execs n (rs! "return") body s with
  | .ok (.ret s' r) => .ok (s', r)
  | .ok (.next _) => .error .panic
  | .error e => .error e

/-- a call of a function that returns nothing -/
def callUnit (m : DMachine σ Empty) (n : Nat × Nat) (body : List DStmt) (s : σ) : Res σ :=
  match m.execs n .nil body s with
  | .ok (.next s') => .ok s'
  | .ok (.ret s' _) => .ok s'
  | .error e => .error e

/-- the statements of a method of the parser in a text -/
def readDriver (name : List Char) (text : List Char) : Option (List DStmt) := do
  let b ← rustBlock name text
  readD (2 * b.size) b

/-! ## Values -/

variable {T ε : Type}

/-- `RecordedVisit` -/
inductive RRecord (T : Type) where
  | reduce (rule : RVal)
  | shift (token : List Char) (data : T)
deriving DecidableEq, Repr

/-- the heap of the nodes: states, symbols on edges, recorded visits -/
abbrev RHeap (T : Type) := GHeap Nat RVal (RRecord T)

/-- the functions of module `gss` -/
abbrev RGss (T : Type) := Gss Nat RVal (RRecord T)

/-- an error of `next_actions`: the token, its data, the expected tokens -/
abbrev RUnexpected (T : Type) := List Char × T × List (List Char)

/-- the functions that depend on the grammar -/
structure RGlrCalls (T : Type) where
  nextActions : Nat → List Char → T → Res (RGlrReturn T)
  nextGoto : Nat → RVal → Res (Option RVal)
  reduction : RVal → Res RVal
  visit : RVal → Res (List Char)

/-- a value that is a `Goto::State` -/
def gotoState : RVal → Option Nat
  | .field ty v f (.num q) => if ty = "Goto".toList ∧ v = "State".toList ∧ f = "state_id".toList then some q else none
  | _ => none

/-- is a pattern for a `Goto` matched? -/
def gotoHit (r : Res (Option RVal)) (set : Nat → σ) (s : σ) (p : RForest) : Res (Option σ) :=
  match r with
  | .error e => .error e
  | .ok v =>
    if p = rs! "Some(Goto::State { state_id })" then .ok ((v.bind gotoState).map set)
    else if p = rs! "Some(Goto::Accept)" then .ok (if v = some (.variant "Goto".toList "Accept".toList) then some s else none)
    else if p = rs! "None" then .ok (if v = none then some s else none)
    else .error .panic

/-! ## `apply_reduce` -/

/-- variables of `apply_reduce` -/
structure RReduceOneVars (T : Type) where
  heap : RHeap T
  reducedRule : RVal
  stack : GNode
  accepted : List GNode
  newToReduce : List GNode
  toPop : Option Nat := none
  reducedSymbol : Option RVal := none
  stacksToPush : Option (List GNode) := none
  newStack : Option GNode := none
  state : Option Nat := none
  stateId : Option Nat := none
  newNode : Option GNode := none
  root : Option GNode := none

/-- statements of `apply_reduce` -/
def rReduceOneMachine (gss : RGss T) (f : RGlrCalls T) : DMachine (RReduceOneVars T) Empty where
  test := fun _ _ => none
  rounds := fun c s =>
    if c = rs! "mut stack in stacks_to_push" then s.stacksToPush.map fun l => l.map fun x s => { s with stack := x }
    else if c = rs! "_ in 0..to_pop" then s.toPop.map fun k => List.replicate k id
    else none
  hit := fun e p s =>
    if e = rs! "self.next_goto(&state, &reduced_symbol)" then
      match s.state, s.reducedSymbol with
      | some q, some v => gotoHit (f.nextGoto q v) (fun q' => { s with stateId := some q' }) s p
      | _, _ => .error .panic
    else .error .panic
  act := fun ts s =>
    if ts = rs! "let (to_pop, reduced_symbol) = self.get_rule_reduction(&reduced_rule)" then
      match f.reduction s.reducedRule with
      | .error e => .error e
      | .ok (.pair (.num k) v) => .ok (.next { s with toPop := some k, reducedSymbol := some v })
      | .ok _ => .error .panic
    else if ts = rs! "let stacks_to_push = stack.unwind_stacks(to_pop)" then
      match s.toPop with
      | none => .error .panic
      | some k =>
        match gss.unwind s.heap s.stack k with
        | .error e => .error e
        | .ok (h, l) => .ok (.next { s with heap := h, stacksToPush := some l })
    else if ts = rs! "stack.record(RecordedVisit::Reduce { rule: reduced_rule.clone(), })" then
      match gss.record s.heap s.stack (.reduce s.reducedRule) with
      | .error e => .error e
      | .ok h => .ok (.next { s with heap := h })
    else if ts = rs! "let (_edge, new_stack) = stack.pop()" then
      match gss.pop s.heap s.stack with
      | .error e => .error e
      | .ok (h, x) => .ok (.next { s with heap := h, newStack := some x })
    else if ts = rs! "stack = new_stack" then
      match s.newStack with
      | none => .error .panic
      | some x => .ok (.next { s with stack := x })
    else if ts = rs! "let state = *stack.top().unwrap()" then
      match gss.top s.heap s.stack with
      | .error e => .error e
      | .ok none => .error .panic
      | .ok (some q) => .ok (.next { s with state := some q })
    else if ts = rs! "let new_node = stack.push(Some(state_id), Some(reduced_symbol))" then
      match s.stateId, s.reducedSymbol with
      | some q, some v =>
        match gss.push s.heap s.stack (some q) (some v) with
        | .error e => .error e
        | .ok (h, x) => .ok (.next { s with heap := h, newNode := some x })
      | _, _ => .error .panic
    else if ts = rs! "new_to_reduce.push(new_node)" then
      match s.newNode with
      | none => .error .panic
      | some x => .ok (.next { s with newToReduce := s.newToReduce ++ [x] })
    else if ts = rs! "let (_edge, root) = stack.pop()" then
      match gss.pop s.heap s.stack with
      | .error e => .error e
      | .ok (h, x) => .ok (.next { s with heap := h, root := some x })
    else if ts = rs! "accepted.push(root)" then
      match s.root with
      | none => .error .panic
      | some x => .ok (.next { s with accepted := s.accepted ++ [x] })
    else if ts = rs! "()" then .ok (.next s)
    else .error .panic

/-- `self.apply_reduce(rule, &stack, &mut accepted, &mut new_to_reduce)`: the heap and the two lists then -/
def rustApplyReduce (text : List Char) (gss : RGss T) (f : RGlrCalls T) (heap : RHeap T) (rule : RVal) (stack : GNode) (accepted newToReduce : List GNode) : Res (RHeap T × List GNode × List GNode) :=
  match readDriver "apply_reduce".toList text with
  | none => .error .panic
  | some body => (callUnit (rReduceOneMachine gss f) (0, 0) body { heap := heap, reducedRule := rule, stack := stack, accepted := accepted, newToReduce := newToReduce }).map
      fun s => (s.heap, s.accepted, s.newToReduce)

/-! ## `apply_reduces` -/

/-- variables of `apply_reduces` -/
structure RReducesVars (T : Type) where
  heap : RHeap T
  active : List GNode
  nextToken : List Char
  nextData : T
  toReduce : Option (List GNode) := none
  reduced : Option (List GNode) := none
  errors : Option (List (RUnexpected T)) := none
  allErrorCount : Option Nat := none
  newToReduce : Option (List GNode) := none
  stack : Option GNode := none
  state : Option Nat := none
  actions : Option (List RVal) := none
  action : Option RVal := none
  reducedRule : Option RVal := none
  error : Option (RUnexpected T) := none

/-- a value that is an `Action::Reduce` -/
def actionRule : RVal → Option RVal
  | .field ty v f x => if ty = "Action".toList ∧ v = "Reduce".toList ∧ f = "rule".toList then some x else none
  | _ => none

/-- `apply_reduce`: heap, rule, stack and the two lists -/
abbrev RApply (T : Type) := RHeap T → RVal → GNode → List GNode → List GNode → Res (RHeap T × List GNode × List GNode)

/-- statements of `apply_reduces`; `reduce` is `apply_reduce` -/
def rReducesMachine (gss : RGss T) (f : RGlrCalls T) (reduce : RApply T) : DMachine (RReducesVars T) (Except (List (RUnexpected T)) (List GNode)) where
  test := fun c s =>
    if c = rs! "!to_reduce.is_empty()" then s.toReduce.map fun l => !l.isEmpty
    else if c = rs! "reduced.is_empty() && errors.len() == all_error_count" then
      match s.reduced, s.errors, s.allErrorCount with
      | some r, some es, some k => some (r.isEmpty && es.length == k)
      | _, _, _ => none
    else none
  rounds := fun c s =>
    if c = rs! "stack in to_reduce" then s.toReduce.map fun l => l.map fun x s => { s with stack := some x }
    else if c = rs! "action in actions" then s.actions.map fun l => l.map fun x s => { s with action := some x }
    else none
  hit := fun e p s =>
    if e = rs! "self.next_actions(state, next_token.clone(), next_data.clone())" then
      match s.state with
      | none => .error .panic
      | some q =>
        match f.nextActions q s.nextToken s.nextData with
        | .error e => .error e
        | .ok (.ok as) =>
          if p = rs! "Ok(actions)" then .ok (some { s with actions := some as })
          else if p = rs! "Err(e)" then .ok none
          else .error .panic
        | .ok (.unexpected got data expected) =>
          if p = rs! "Ok(actions)" then .ok none
          else if p = rs! "Err(e)" then .ok (some { s with error := some (got, data, expected) })
          else .error .panic
    else if e = rs! "action" then
      match s.action with
      | none => .error .panic
      | some a =>
        if p = rs! "Action::Reduce { rule: reduced_rule }" then .ok ((actionRule a).map fun r => { s with reducedRule := some r })
        else if p = rs! "Action::Shift" then .ok (if a = .variant "Action".toList "Shift".toList then some s else none)
        else .error .panic
    else .error .panic
  act := fun ts s =>
    if ts = rs! "let mut to_reduce = stacks" then .ok (.next { s with toReduce := some s.active })
    else if ts = rs! "let mut reduced = Vec::new()" then .ok (.next { s with reduced := some [] })
    else if ts = rs! "let mut errors = Vec::new()" then .ok (.next { s with errors := some [] })
    else if ts = rs! "let all_error_count = to_reduce.len()" then
      match s.toReduce with
      | none => .error .panic
      | some l => .ok (.next { s with allErrorCount := some l.length })
    else if ts = rs! "let mut new_to_reduce = Vec::new()" then .ok (.next { s with newToReduce := some [] })
    else if ts = rs! "let state = *stack.top().unwrap()" then
      match s.stack with
      | none => .error .panic
      | some x =>
        match gss.top s.heap x with
        | .error e => .error e
        | .ok none => .error .panic
        | .ok (some q) => .ok (.next { s with state := some q })
    else if ts = rs! "self.apply_reduce(reduced_rule, &stack, &mut reduced, &mut new_to_reduce,)" then
      match s.reducedRule, s.stack, s.reduced, s.newToReduce with
      | some r, some x, some l, some l' =>
        match reduce s.heap r x l l' with
        | .error e => .error e
        | .ok (h, l, l') => .ok (.next { s with heap := h, reduced := some l, newToReduce := some l' })
      | _, _, _, _ => .error .panic
    else if ts = rs! "reduced.push(stack.clone_and_fork_record())" then
      match s.stack, s.reduced with
      | some x, some l =>
        match gss.fork s.heap x with
        | .error e => .error e
        | .ok (h, y) => .ok (.next { s with heap := h, reduced := some (l ++ [y]) })
      | _, _ => .error .panic
    else if ts = rs! "errors.push(e)" then
      match s.error, s.errors with
      | some e, some l => .ok (.next { s with errors := some (l ++ [e]) })
      | _, _ => .error .panic
    else if ts = rs! "return Err(errors)" then
      match s.errors with
      | none => .error .panic
      | some l => .ok (.ret s (.error l))
    else if ts = rs! "to_reduce = new_to_reduce" then
      match s.newToReduce with
      | none => .error .panic
      | some l => .ok (.next { s with toReduce := some l })
    else if ts = rs! "return Ok(reduced)" then
      match s.reduced with
      | none => .error .panic
      | some l => .ok (.ret s (.ok l))
    else .error .panic

/-- `self.apply_reduces(stacks, &next_token, &next_data)`, where the body of the loop is run at most `n` times: the heap then, and what is returned -/
def rustApplyReduces (text : List Char) (gss : RGss T) (f : RGlrCalls T) (n : Nat) (heap : RHeap T) (active : List GNode) (token : List Char) (data : T) :
    Res (RHeap T × Except (List (RUnexpected T)) (List GNode)) :=
  match readDriver "apply_reduces".toList text with
  | none => .error .panic
  | some body => (callD (rReducesMachine gss f (rustApplyReduce text gss f)) (n + 1, n) body { heap := heap, active := active, nextToken := token, nextData := data }).map fun r => (r.1.heap, r.2)

/-! ## `combine_errors` -/

/-- how `parse` ends -/
inductive RGlrEnd (T ε : Type) where
  | ok
  | unexpected (e : RUnexpected T)
  | unexpecteds (got : List (List Char × T)) (expected : List (List (List Char)))
  | lexerError (e : ε)
deriving DecidableEq, Repr

/-- variables of `combine_errors` -/
structure RCombineVars (T : Type) where
  errors : List (RUnexpected T)
  got : Option (List (List Char × T)) := none
  expected : Option (List (List (List Char))) := none

/-- statements of `combine_errors` -/
def rCombineMachine : DMachine (RCombineVars T) (RGlrEnd T ε) where
  test := fun _ _ => none
  rounds := fun _ _ => none
  hit := fun e p s =>
    if e = rs! "errors.len()" then
      if p = rs! "1" then .ok (if s.errors.length = 1 then some s else none)
      else if p = rs! "0" then .ok (if s.errors.length = 0 then some s else none)
      else if p = rs! "_" then .ok (some s)
      else .error .panic
    else .error .panic
  act := fun ts s =>
    if ts = rs! "return errors.pop().unwrap()" then
      match s.errors.getLast? with
      | none => .error .panic
      | some e => .ok (.ret s (.unexpected e))
    else if ts = rs! "let (got, expected): (Vec<(TokenType, T)>, Vec<Vec<TokenType>>) = errors.into_iter().map(|e| match e { ParserError::UnexpectedToken { got, got_data, expected, } => ((got, got_data), expected), _ => unreachable!(), }).unzip()" then
      .ok (.next { s with got := some (s.errors.map fun e => (e.1, e.2.1)), expected := some (s.errors.map fun e => e.2.2) })
    else if ts = rs! "return ParserError::UnexpectedTokens { got, expected }" then
      match s.got, s.expected with
      | some a, some b => .ok (.ret s (.unexpecteds a b))
      | _, _ => .error .panic
    else .error .panic

/-- the body of the first function with this name that is not inside braces; the truth value says whether its head has begun -/
def topFn (name : List Char) : Bool → RForest → Option RForest
  | _, .nil => none
  | true, .group .brace b _ => some b
  | false, .word w f =>
    match f with
    | .word n _ => topFn name (decide (w = "fn".toList ∧ n = name)) f
    | _ => topFn name false f
  | h, .word _ f => topFn name h f
  | h, .life _ f => topFn name h f
  | h, .str _ f => topFn name h f
  | h, .sym _ f => topFn name h f
  | h, .group _ _ f => topFn name h f

/-- `combine_errors(errors)` -/
def rustCombine (text : List Char) (errors : List (RUnexpected T)) : Res (RGlrEnd T ε) :=
  match (do let f ← rRead text; let b ← topFn "combine_errors".toList false f; readD (2 * b.size) b : Option (List DStmt)) with
  | none => .error .panic
  | some body => (callD rCombineMachine (0, 0) body { errors := errors }).map (·.2)

/-! ## `parse` -/

/-- the variables of `parse`. `calls` is the number of calls of the token function, `visits` are the calls of the visitor. -/
structure RGlrVars (T : Type) where
  heap : RHeap T := ⟨[], []⟩
  calls : Nat := 0
  visits : List (RVisit T) := []
  lookahead : Option (List (List Char × T)) := none
  root : Option GNode := none
  stack : Option GNode := none
  active : Option (List GNode) := none
  next : Option (List Char × T) := none
  reduced : Option (List GNode) := none
  newSymbol : Option RVal := none
  newStacks : Option (List GNode) := none
  state : Option Nat := none
  stateId : Option Nat := none
  newNode : Option GNode := none
  recorded : Option (List (RRecord T)) := none
  record : Option (RRecord T) := none
  rule : Option RVal := none
  shifted : Option (List Char × T) := none

/-- the number in `let stack = root.push(Some(e), None)` -/
def rPushPart : RForest → RForest
  | .word _ (.word _ (.sym _ (.word _ (.sym _ (.word _ (.group _ (.word _ (.group _ e _)) _)))))) => e
  | _ => .nil

/-- `apply_reduces` -/
abbrev RApplyAll (T : Type) := RHeap T → List GNode → List Char → T → Res (RHeap T × Except (List (RUnexpected T)) (List GNode))

/-- statements of `parse`; `inp` is the token function, `reduces` is `apply_reduces`, `combine` is `combine_errors` -/
def rGlrMachine (gss : RGss T) (f : RGlrCalls T) (reduces : RApplyAll T) (combine : List (RUnexpected T) → Res (RGlrEnd T ε)) (inp : Nat → Except ε (List Char × T)) :
    DMachine (RGlrVars T) (RGlrEnd T ε) where
  test := fun c s =>
    if c = rs! "!(stacks.len() == 1 && stacks[0].is_root())" then
      match s.active with
      | none => none
      | some [x] => ((gss.isRoot s.heap x).map fun b => !b).toOption
      | some _ => some true
    else if c = rs! "reduced.iter().any(|s| s.top().is_none())" then
      match s.reduced with
      | none => none
      | some l => (l.anyM fun x => (gss.top s.heap x).map (·.isNone)).toOption
    else if c = rs! "new_stacks.len() == 1" then s.newStacks.map fun l => l.length == 1
    else none
  rounds := fun c s =>
    if c = rs! "stack in reduced" then s.reduced.map fun l => l.map fun x s => { s with stack := some x }
    else if c = rs! "record in recorded" then s.recorded.map fun l => l.map fun x s => { s with record := some x }
    else none
  hit := fun e p s =>
    if e = rs! "self.next_goto(&state, &new_symbol)" then
      match s.state, s.newSymbol with
      | some q, some v => gotoHit (f.nextGoto q v) (fun q' => { s with stateId := some q' }) s p
      | _, _ => .error .panic
    else if e = rs! "record" then
      match s.record with
      | none => .error .panic
      | some (.reduce r) =>
        if p = rs! "RecordedVisit::Reduce { rule }" then .ok (some { s with rule := some r })
        else if p = rs! "RecordedVisit::Shift { token, data }" then .ok none
        else .error .panic
      | some (.shift t d) =>
        if p = rs! "RecordedVisit::Reduce { rule }" then .ok none
        else if p = rs! "RecordedVisit::Shift { token, data }" then .ok (some { s with shifted := some (t, d) })
        else .error .panic
    else .error .panic
  act := fun ts s =>
    let e := rPushPart ts
    if ts = rs! "let mut lookahead = std::collections::VecDeque::new()" then .ok (.next { s with lookahead := some [] })
    else if ts = rs! "lookahead.push_back((self.token_function)().map_err(|e| ParserError::LexerError { inner: e })?)" then
      match s.lookahead with
      | none => .error .panic
      | some l =>
        match inp s.calls with
        | .error e => .ok (.ret { s with calls := s.calls + 1 } (.lexerError e))
        | .ok x => .ok (.next { s with lookahead := some (l ++ [x]), calls := s.calls + 1 })
    else if ts = rs! "let root = GraphNode::root()" then
      match gss.root s.heap with
      | .error e => .error e
      | .ok (h, x) => .ok (.next { s with heap := h, root := some x })
    else if ts = rs! "let mut stacks = vec![stack]" then
      match s.stack with
      | none => .error .panic
      | some x => .ok (.next { s with active := some [x] })
    else if ts = rs! "let (next_token, next_data) = lookahead.front().unwrap()" then
      match s.lookahead with
      | some (x :: _) => .ok (.next { s with next := some x })
      | _ => .error .panic
    else if ts = rs! "let reduced = self.apply_reduces(stacks, next_token, next_data).map_err(combine_errors)?" then
      match s.active, s.next with
      | some l, some x =>
        match reduces s.heap l x.1 x.2 with
        | .error e => .error e
        | .ok (h, .ok r) => .ok (.next { s with heap := h, reduced := some r })
        | .ok (h, .error es) =>
          match combine es with
          | .error e => .error e
          | .ok r => .ok (.ret { s with heap := h } r)
      | _, _ => .error .panic
    else if ts = rs! "let (next_token, next_data) = lookahead.pop_front().unwrap()" then
      match s.lookahead with
      | some (x :: l) => .ok (.next { s with lookahead := some l, next := some x })
      | _ => .error .panic
    else if ts = rs! "let new_symbol = StackSymbol::Terminal { token: next_token }" then
      match s.next with
      | none => .error .panic
      | some x => .ok (.next { s with newSymbol := some (.field "StackSymbol".toList "Terminal".toList "token".toList (.variant "TokenType".toList x.1)) })
    else if ts = rs! "let mut new_stacks = reduced" then
      match s.reduced with
      | none => .error .panic
      | some l => .ok (.next { s with newStacks := some l })
    else if ts = rs! "let mut new_stacks = Vec::new()" then .ok (.next { s with newStacks := some [] })
    else if ts = rs! "let mut new_stacks = new_stacks" then
      match s.newStacks with
      | none => .error .panic
      | some _ => .ok (.next s)
    else if ts = rs! "let state = *stack.top().unwrap()" then
      match s.stack with
      | none => .error .panic
      | some x =>
        match gss.top s.heap x with
        | .error e => .error e
        | .ok none => .error .panic
        | .ok (some q) => .ok (.next { s with state := some q })
    else if ts = rs! "stack.record(RecordedVisit::Shift { token: next_token, data: next_data.clone(), })" then
      match s.stack, s.next with
      | some x, some t =>
        match gss.record s.heap x (.shift t.1 t.2) with
        | .error e => .error e
        | .ok h => .ok (.next { s with heap := h })
      | _, _ => .error .panic
    else if ts = rs! "let new_node = stack.push(Some(state_id), Some(new_symbol))" then
      match s.stack, s.stateId, s.newSymbol with
      | some x, some q, some v =>
        match gss.push s.heap x (some q) (some v) with
        | .error e => .error e
        | .ok (h, y) => .ok (.next { s with heap := h, newNode := some y })
      | _, _, _ => .error .panic
    else if ts = rs! "new_stacks.push(new_node)" then
      match s.newStacks, s.newNode with
      | some l, some x => .ok (.next { s with newStacks := some (l ++ [x]) })
      | _, _ => .error .panic
    else if ts = rs! "()" then .ok (.next s)
    else if ts = rs! "unreachable!()" then .error .panic
    else if ts = rs! "let stack = new_stacks.pop().unwrap()" then
      match s.newStacks with
      | none => .error .panic
      | some l =>
        match l.getLast? with
        | none => .error .panic
        | some x => .ok (.next { s with newStacks := some l.dropLast, stack := some x })
    else if ts = rs! "let recorded = stack.pop_recorded()" then
      match s.stack with
      | none => .error .panic
      | some x =>
        match gss.popRecorded s.heap x with
        | .error e => .error e
        | .ok (h, l) => .ok (.next { s with heap := h, recorded := some l })
    else if ts = rs! "self.do_visit(&rule)" then
      match s.rule with
      | none => .error .panic
      | some r =>
        match f.visit r with
        | .error e => .error e
        | .ok m => .ok (.next { s with visits := s.visits ++ [.call m] })
    else if ts = rs! "self.visitor.shift(token, data)" then
      match s.shifted with
      | none => .error .panic
      | some x => .ok (.next { s with visits := s.visits ++ [.shift x.1 x.2] })
    else if ts = rs! "stacks = vec![stack]" then
      match s.stack with
      | none => .error .panic
      | some x => .ok (.next { s with active := some [x] })
    else if ts = rs! "stacks = new_stacks" then
      match s.newStacks with
      | none => .error .panic
      | some l => .ok (.next { s with active := some l })
    else if ts = rs! "return Ok(())" then .ok (.ret s .ok)
    else if ts = rs! "let stack = root.push(Some(#e), None)" then
      match readValue 5 e, s.root with
      | some (.num q), some r =>
        match gss.push s.heap r (some q) none with
        | .error e => .error e
        | .ok (h, x) => .ok (.next { s with heap := h, stack := some x })
      | _, _ => .error .panic
    else .error .panic

/-- the functions in a text that depend on the grammar -/
def rustGlrCalls (text : List Char) : RGlrCalls T := ⟨rustNextActions text, rustNextGotoOf text, rustRuleReduction text, rustDoVisit text⟩

/-- `parser.parse()` with given functions of module `gss` -/
def runGlrParserOn (gss : RGss T) (text : List Char) (inp : Nat → Except ε (List Char × T)) (n : Nat) : Res (RGlrEnd T ε × List (RVisit T) × Nat) :=
  match readDriver "parse".toList text with
  | none => .error .panic
  | some body =>
    (callD (rGlrMachine gss (rustGlrCalls text) (rustApplyReduces text gss (rustGlrCalls text) n) (rustCombine text) inp) (n, n) body {}).map fun r => (r.2, r.1.visits, r.1.calls)

/-- `parser.parse()`, where the bodies of the loops are run at most `n` times each time: how it ends, the calls of the visitor, and the number of calls of the token
function -/
def runGlrParser (text : List Char) (inp : Nat → Except ε (List Char × T)) (n : Nat) : Res (RGlrEnd T ε × List (RVisit T) × Nat) := runGlrParserOn (rustGss text) text inp n

/-! ## In terms of the modelled program -/

/-- the tokens of the modelled program as the text sees them -/
def glrInput (variants : List (List Char)) (input : Nat → Tok × T) : Nat → List Char × T := fun i => (tokVariant variants (input i).1, (input i).2)

/-- how `parse` ends when no stack can go on with a token: the expected tokens of each stack -/
def glrEnd (variants : List (List Char)) (x : Tok × T) : List (List (Option Nat)) → RGlrEnd T ε
  | [es] => .unexpected (tokVariant variants x.1, x.2, es.map (optVariant variants))
  | l => .unexpecteds (l.map fun _ => (tokVariant variants x.1, x.2)) (l.map fun es => es.map (optVariant variants))

/-- the outcome of the modelled program as one of the text; `visits` are the methods of the rules -/
def rustGlrOutcome (variants : List (List Char)) (visits : List (Nat × List Char)) (input : Nat → Tok × T) : GlrResult T → Res (RGlrEnd T ε × List (RVisit T) × Nat)
  | .ok events pos => .ok (.ok, events.map (visitOf variants visits), pos + 1)
  | .unexpected events pos errors => .ok (glrEnd variants (input pos) errors, events.map (visitOf variants visits), pos + 1)
  | .panic _ _ => .error .panic
  | .running _ _ => .error .fuel

end Verif
