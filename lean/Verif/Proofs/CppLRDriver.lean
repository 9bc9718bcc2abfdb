import Verif.Proofs.CppLRExec

/-! # The text of the C++ LR parser: the driver -/

set_option autoImplicit false

namespace Verif

/-- the statements of `parse` that are always the same -/
def parseNames : List String := [
  "std::queue<std::pair<lexer::TokenType, T>> lookahead",
  "lookahead.push(this->token_function())",
  "std::vector<Symbol> parse_stack",
  "parse_stack.push_back(entry_symbol)",
  "auto next_token_and_data = lookahead.front()",
  "lexer::TokenType next_tk = next_token_and_data.first",
  "Symbol next_symbol{SymbolKind::Terminal, static_cast<uint32_t>(next_tk)}",
  "uint32_t state = parse_stack.back().identifier",
  "Action action = determine_action(state, next_tk)",
  "parse_stack.push_back(next_symbol)",
  "this->visitor.shift(next_tk, next_token_and_data.second)",
  "lookahead.pop()",
  "std::vector<Symbol> rev_reduced_symbols",
  "reduce_stack(action.reduced_rule, parse_stack, rev_reduced_symbols)",
  "reduce_visitor(this->visitor, rev_reduced_symbols, action.reduced_rule)",
  "Symbol current_symbol = parse_stack.back()",
  "uint32_t stack_state = parse_stack.at(parse_stack.size() - 2).identifier",
  "Transition transition = retrieve_next_state(stack_state, current_symbol)",
  "parse_stack.pop_back()",
  "Symbol next_state_symbol{SymbolKind::State, transition.next_state}",
  "parse_stack.push_back(next_state_symbol)"]

theorem parseNames_ok : ∀ k < 21, parseNames.findIdx? (fun q => decide (phrase q = phrase (parseNames.getD k ""))) = some k ∧
    (phrase (parseNames.getD k ""))[1]? ≠ some (.word "entry_symbol".toList) := by decide +kernel

theorem parseAct_phrase {T : Type} (f : ParseFns) (input : Nat → Nat × T) (ts : List CTok) (s : ParseVars T) (h : ts[1]? ≠ some (.word "entry_symbol".toList)) :
    parseAct f input ts s = doPhrase (parseTable f input) ts s := by
  unfold parseAct
  split
  · rw [if_neg]
    rintro ⟨-, rfl, -⟩
    exact h rfl
  · rfl

section Driver

variable {T : Type} (f : ParseFns) (input : Nat → Nat × T) (n : Nat) (s : ParseVars T)

theorem parse_exec (k : Nat) (hk : k < 21) {x : String × (ParseVars T → Option (COut (ParseVars T) ParseExit))} (hx : (parseTable f input)[k]? = some x) :
    (parseMachine f input).exec n (.simple (phrase x.1)) s = actRes (x.2 s) := by
  have hn : (parseTable f input).map (·.1) = parseNames := rfl
  have h1 : parseNames.getD k "" = x.1 := by
    rw [List.getD_eq_getElem?_getD, ← hn, List.getElem?_map, hx]
    rfl
  obtain ⟨h2, h3⟩ := parseNames_ok k hk
  rw [h1] at h2 h3
  rw [exec_simple, show (parseMachine f input).act = parseAct f input from rfl, parseAct_phrase f input _ s h3, doPhrase_of hn h2 hx]

theorem entryToks_exec (q : Nat) : (parseMachine f input).exec n (.simple [.word "Symbol".toList, .word "entry_symbol".toList, .sym ['{'], .word "SymbolKind".toList, .sym [':', ':'], .word "State".toList,
    .sym [','], .word "static_cast".toList, .sym ['<'], .word "uint32_t".toList, .sym ['>'], .sym ['('], .word (decimal q), .sym [')'], .sym ['}']]) s = .ok (.next { s with entrySymbol := ⟨.state, q⟩ }) := by
  rw [exec_simple, show (parseMachine f input).act = parseAct f input from rfl]
  unfold parseAct
  simp only [and_self, if_true]
  rw [decimalConst_decimal]
  rfl

/-- `Symbol entry_symbol{SymbolKind::State, static_cast<uint32_t>(q)}` -/
def entryToks (q : Nat) : List CTok := [.word "Symbol".toList, .word "entry_symbol".toList, .sym ['{'], .word "SymbolKind".toList, .sym [':', ':'], .word "State".toList,
    .sym [','], .word "static_cast".toList, .sym ['<'], .word "uint32_t".toList, .sym ['>'], .sym ['('], .word (decimal q), .sym [')'], .sym ['}']]

/-- the statements of a shift -/
def shiftStmts : List CStmt := [.simple (phrase "parse_stack.push_back(next_symbol)"), .simple (phrase "this->visitor.shift(next_tk, next_token_and_data.second)"),
  .simple (phrase "lookahead.pop()"), .simple (phrase "lookahead.push(this->token_function())")]

/-- the statements of a reduction -/
def reductionStmts : List CStmt := [.simple (phrase "std::vector<Symbol> rev_reduced_symbols"), .simple (phrase "reduce_stack(action.reduced_rule, parse_stack, rev_reduced_symbols)"),
  .simple (phrase "reduce_visitor(this->visitor, rev_reduced_symbols, action.reduced_rule)")]

/-- the statements after that -/
def moveStmts : List CStmt := [.simple (phrase "Symbol current_symbol = parse_stack.back()"), .simple (phrase "uint32_t stack_state = parse_stack.at(parse_stack.size() - 2).identifier"),
  .simple (phrase "Transition transition = retrieve_next_state(stack_state, current_symbol)"),
  .cond (phrase "transition.is_accepting") (.block [.simple (phrase "parse_stack.pop_back()"), .simple (phrase "parse_stack.pop_back()")])
    (.block [.simple (phrase "Symbol next_state_symbol{SymbolKind::State, transition.next_state}"), .simple (phrase "parse_stack.push_back(next_state_symbol)")])]

/-- the statements of a round -/
def parseRound : List CStmt := [.simple (phrase "auto next_token_and_data = lookahead.front()"), .simple (phrase "lexer::TokenType next_tk = next_token_and_data.first"),
  .simple (phrase "Symbol next_symbol{SymbolKind::Terminal, static_cast<uint32_t>(next_tk)}"), .simple (phrase "uint32_t state = parse_stack.back().identifier"),
  .simple (phrase "Action action = determine_action(state, next_tk)"),
  .cond (phrase "action.action_type == ActionType::Shift") (.block shiftStmts) (.cond (phrase "action.action_type == ActionType::Reduce") (.block reductionStmts) (.block []))] ++ moveStmts

/-- the statements of `parse` -/
def parseStmts (entry : Nat) : List CStmt := [.simple (phrase "std::queue<std::pair<lexer::TokenType, T>> lookahead"), .simple (phrase "lookahead.push(this->token_function())"),
  .simple (phrase "std::vector<Symbol> parse_stack"), .simple (entryToks entry), .simple (phrase "parse_stack.push_back(entry_symbol)"),
  .loop (phrase "parse_stack.size() > 0") (.block parseRound)]

theorem parse_test_size : (parseMachine f input).test (phrase "parse_stack.size() > 0") s = some (decide (0 < s.stack.length)) := by
  rw [show (parseMachine f input).test = parseTest from rfl]
  unfold parseTest
  rw [if_pos rfl]

theorem parse_test_shift : (parseMachine f input).test (phrase "action.action_type == ActionType::Shift") s = some (decide (s.action = .shift)) := by
  rw [show (parseMachine f input).test = parseTest from rfl]
  unfold parseTest
  rw [if_neg (by decide +kernel), if_pos rfl]

theorem parse_test_reduce : (parseMachine f input).test (phrase "action.action_type == ActionType::Reduce") s = some (decide (s.action ≠ .shift)) := by
  rw [show (parseMachine f input).test = parseTest from rfl]
  unfold parseTest
  rw [if_neg (by decide +kernel), if_neg (by decide +kernel), if_pos rfl]

theorem parse_test_accept : (parseMachine f input).test (phrase "transition.is_accepting") s = some (decide (s.transition = .accept)) := by
  rw [show (parseMachine f input).test = parseTest from rfl]
  unfold parseTest
  rw [if_neg (by decide +kernel), if_neg (by decide +kernel), if_neg (by decide +kernel), if_pos rfl]

theorem parse_block (ss : List CStmt) : (parseMachine f input).exec n (.block ss) s = (parseMachine f input).execs n 0 ss s := by rw [CMachine.exec]

theorem parse_cond (c : List CTok) (x y : CStmt) : (parseMachine f input).exec n (.cond c x y) s = match (parseMachine f input).test c s with
    | none => .error .panic
    | some true => (parseMachine f input).exec n x s
    | some false => (parseMachine f input).exec n y s := by rw [CMachine.exec]; rfl

theorem parse_0 : (parseMachine f input).exec n (.simple (phrase "std::queue<std::pair<lexer::TokenType, T>> lookahead")) s = .ok (.next { s with lookahead := [] }) := by
  have := parse_exec f input n s 0 (by decide) rfl; exact this
theorem parse_1 : (parseMachine f input).exec n (.simple (phrase "lookahead.push(this->token_function())")) s =
    .ok (.next { s with lookahead := s.lookahead ++ [input s.calls], calls := s.calls + 1 }) := by
  have := parse_exec f input n s 1 (by decide) rfl; exact this
theorem parse_2 : (parseMachine f input).exec n (.simple (phrase "std::vector<Symbol> parse_stack")) s = .ok (.next { s with stack := [] }) := by
  have := parse_exec f input n s 2 (by decide) rfl; exact this
theorem parse_3 : (parseMachine f input).exec n (.simple (phrase "parse_stack.push_back(entry_symbol)")) s = .ok (.next { s with stack := s.entrySymbol :: s.stack }) := by
  have := parse_exec f input n s 3 (by decide) rfl; exact this
theorem parse_4 : (parseMachine f input).exec n (.simple (phrase "auto next_token_and_data = lookahead.front()")) s =
    actRes (s.lookahead.head?.map fun x => .next { s with next := some x }) := by
  have := parse_exec f input n s 4 (by decide) rfl; exact this
theorem parse_5 : (parseMachine f input).exec n (.simple (phrase "lexer::TokenType next_tk = next_token_and_data.first")) s =
    actRes (s.next.map fun x => .next { s with nextTk := x.1 }) := by
  have := parse_exec f input n s 5 (by decide) rfl; exact this
theorem parse_6 : (parseMachine f input).exec n (.simple (phrase "Symbol next_symbol{SymbolKind::Terminal, static_cast<uint32_t>(next_tk)}")) s =
    .ok (.next { s with nextSymbol := ⟨.terminal, s.nextTk⟩ }) := by
  have := parse_exec f input n s 6 (by decide) rfl; exact this
theorem parse_7 : (parseMachine f input).exec n (.simple (phrase "uint32_t state = parse_stack.back().identifier")) s =
    actRes (s.stack.head?.map fun x => .next { s with state := x.id }) := by
  have := parse_exec f input n s 7 (by decide) rfl; exact this
theorem parse_8 : (parseMachine f input).exec n (.simple (phrase "Action action = determine_action(state, next_tk)")) s =
    actRes (match f.determine s.state s.nextTk with
    | .ok (.act a) => some (.next { s with action := a })
    | .ok (.throw expected) =>
      match f.message expected s.nextTk with
      | .ok m => some (.exit s (.thrown m))
      | .error _ => none
    | .ok .abort => some (.exit s .terminated)
    | .error _ => none) := by
  have := parse_exec f input n s 8 (by decide) rfl; exact this
theorem parse_9 : (parseMachine f input).exec n (.simple (phrase "parse_stack.push_back(next_symbol)")) s = .ok (.next { s with stack := s.nextSymbol :: s.stack }) := by
  have := parse_exec f input n s 9 (by decide) rfl; exact this
theorem parse_10 : (parseMachine f input).exec n (.simple (phrase "this->visitor.shift(next_tk, next_token_and_data.second)")) s =
    actRes (s.next.map fun x => .next { s with events := s.events ++ [.shift s.nextTk x.2] }) := by
  have := parse_exec f input n s 10 (by decide) rfl; exact this
theorem parse_11 : (parseMachine f input).exec n (.simple (phrase "lookahead.pop()")) s = actRes (s.lookahead.tail?.map fun r => .next { s with lookahead := r }) := by
  have := parse_exec f input n s 11 (by decide) rfl; exact this
theorem parse_12 : (parseMachine f input).exec n (.simple (phrase "std::vector<Symbol> rev_reduced_symbols")) s = .ok (.next { s with reduced := [] }) := by
  have := parse_exec f input n s 12 (by decide) rfl; exact this
theorem parse_13 : (parseMachine f input).exec n (.simple (phrase "reduce_stack(action.reduced_rule, parse_stack, rev_reduced_symbols)")) s =
    actRes (match s.action with
    | .shift => none
    | .reduce i =>
      match f.reduce i s.stack s.reduced with
      | .ok (stack, reduced, true) => some (.next { s with stack := stack, reduced := reduced })
      | .ok (_, _, false) => some (.exit s .terminated)
      | .error _ => none) := by
  have := parse_exec f input n s 13 (by decide) rfl; exact this
theorem parse_14 : (parseMachine f input).exec n (.simple (phrase "reduce_visitor(this->visitor, rev_reduced_symbols, action.reduced_rule)")) s =
    actRes (match s.action with
    | .shift => none
    | .reduce i =>
      match f.visit i with
      | .ok (ms, true) => some (.next { s with events := s.events ++ ms.map .call })
      | .ok (_, false) => some (.exit s .terminated)
      | .error _ => none) := by
  have := parse_exec f input n s 14 (by decide) rfl; exact this
theorem parse_15 : (parseMachine f input).exec n (.simple (phrase "Symbol current_symbol = parse_stack.back()")) s =
    actRes (s.stack.head?.map fun x => .next { s with currentSymbol := x }) := by
  have := parse_exec f input n s 15 (by decide) rfl; exact this
theorem parse_16 : (parseMachine f input).exec n (.simple (phrase "uint32_t stack_state = parse_stack.at(parse_stack.size() - 2).identifier")) s =
    actRes (s.stack[1]?.map fun x => .next { s with stackState := x.id }) := by
  have := parse_exec f input n s 16 (by decide) rfl; exact this
theorem parse_17 : (parseMachine f input).exec n (.simple (phrase "Transition transition = retrieve_next_state(stack_state, current_symbol)")) s =
    actRes (match f.goto s.stackState s.currentSymbol with
    | .ok (some t) => some (.next { s with transition := t })
    | .ok none => some (.exit s .terminated)
    | .error _ => none) := by
  have := parse_exec f input n s 17 (by decide) rfl; exact this
theorem parse_18 : (parseMachine f input).exec n (.simple (phrase "parse_stack.pop_back()")) s = actRes (s.stack.tail?.map fun r => .next { s with stack := r }) := by
  have := parse_exec f input n s 18 (by decide) rfl; exact this
theorem parse_19 : (parseMachine f input).exec n (.simple (phrase "Symbol next_state_symbol{SymbolKind::State, transition.next_state}")) s =
    actRes (match s.transition with
    | .state q => some (.next { s with nextStateSymbol := ⟨.state, q⟩ })
    | .accept => some (.next { s with nextStateSymbol := ⟨.state, 0⟩ })) := by
  have := parse_exec f input n s 19 (by decide) rfl; exact this
theorem parse_20 : (parseMachine f input).exec n (.simple (phrase "parse_stack.push_back(next_state_symbol)")) s = .ok (.next { s with stack := s.nextStateSymbol :: s.stack }) := by
  have := parse_exec f input n s 20 (by decide) rfl; exact this

end Driver

/-- what the functions do, in terms of the compiled tables -/
structure FnsOk (f : ParseFns) (p : CppLRProg) (calls : List (Nat × List Char)) : Prop where
  determine : ∀ q tk, f.determine q tk = .ok (p.determineAction q tk)
  message : ∀ x tk, f.message x tk = .ok (p.message x tk)
  reduce : ∀ i stack reduced, ∃ r, f.reduce i stack reduced = match p.reductions[i]? with
      | none => .ok (stack, reduced, false)
      | some (k, v) => if stack.length < 2 * k then .error .panic else .ok (⟨.nonTerminal, v⟩ :: stack.drop (2 * k), r, true)
  visit : ∀ i, f.visit i = .ok (match cppSwitch i calls with | some x => ([x], true) | none => ([], false))
  goto : ∀ q x, f.goto q x = .ok (p.nextState q x)

/-- what the end of a round means -/
def roundOut {T : Type} (calls : List (Nat × List Char)) (input : Nat → Nat × T) (events : List (TextEvent T)) (pos : Nat) : CppLRStep T → Res (COut (ParseVars T) ParseExit) → Prop
  | .done, _ => False
  | .throw m, r => ∃ s, r = .ok (.exit s (.thrown m)) ∧ s.events = events ∧ s.calls = pos + 1
  | .abort _, r => r = .error .panic ∨ ∃ s, r = .ok (.exit s .terminated)
  | .next stack pos' ev, r => ∃ s, r = .ok (.next s) ∧ s.stack = stack ∧ s.lookahead = [input pos'] ∧ s.calls = pos' + 1 ∧ s.events = events ++ [textEvent calls ev]

theorem parse_move {T : Type} {f : ParseFns} {p : CppLRProg} {calls : List (Nat × List Char)} (ok : FnsOk f p calls) (input : Nat → Nat × T) (n : Nat) (s : ParseVars T)
    (events : List (TextEvent T)) (pos pos' : Nat) (ev : CppEvent T) (h1 : s.lookahead = [input pos']) (h2 : s.calls = pos' + 1) (h3 : s.events = events ++ [textEvent calls ev]) :
    roundOut calls input events pos (cppGoto p s.stack pos' ev) ((parseMachine f input).execs n 0 moveStmts s) := by
  unfold moveStmts cppGoto
  rw [CMachine.execs_cons, parse_15]
  match hs : s.stack with
  | [] => exact .inl rfl
  | [a] =>
    simp only [List.head?_cons, Option.map_some, actRes]
    rw [CMachine.execs_cons, parse_16]
    simp only [hs]
    exact .inl rfl
  | a :: below :: rest =>
    simp only [List.head?_cons, Option.map_some, actRes]
    rw [CMachine.execs_cons, parse_16]
    simp only [hs, List.getElem?_cons_succ, List.getElem?_cons_zero, Option.map_some, actRes]
    rw [CMachine.execs_cons, parse_17]
    simp only [ok.goto]
    cases hg : p.nextState below.id a with
    | none => exact .inr ⟨_, rfl⟩
    | some t =>
      simp only [actRes]
      rw [CMachine.execs_cons, parse_cond, parse_test_accept]
      cases t with
      | accept =>
        simp only [decide_true]
        rw [parse_block, CMachine.execs_cons, parse_18]
        simp only [hs, List.tail?_cons, Option.map_some, actRes]
        rw [CMachine.execs_cons, parse_18]
        simp only [List.tail?_cons, Option.map_some, actRes]
        rw [CMachine.execs_nil]
        simp only
        rw [CMachine.execs_nil]
        exact ⟨_, rfl, rfl, h1, h2, h3⟩
      | state q =>
        simp only [reduceCtorEq, decide_false]
        rw [parse_block, CMachine.execs_cons, parse_19]
        simp only [actRes]
        rw [CMachine.execs_cons, parse_20]
        simp only
        rw [CMachine.execs_nil]
        simp only
        rw [CMachine.execs_nil]
        exact ⟨_, rfl, by simp [hs], h1, h2, h3⟩

theorem parse_round {T : Type} {f : ParseFns} {p : CppLRProg} {calls : List (Nat × List Char)} (ok : FnsOk f p calls) (hc : ∀ i k, p.reductions[i]? = some k → ∃ x, cppSwitch i calls = some x)
    (input : Nat → Nat × T) (n : Nat) (s : ParseVars T) (pos : Nat) (h0 : s.stack ≠ []) (h1 : s.lookahead = [input pos]) (h2 : s.calls = pos + 1) :
    roundOut calls input s.events pos (cppLRStep p input s.stack pos) ((parseMachine f input).exec n (.block parseRound) s) := by
  obtain ⟨top, rest, hs⟩ := List.exists_cons_of_ne_nil h0
  rw [parse_block]
  unfold parseRound
  simp only [List.cons_append, List.nil_append]
  rw [CMachine.execs_cons, parse_4]
  simp only [h1, List.head?_cons, Option.map_some, actRes]
  rw [CMachine.execs_cons, parse_5]
  simp only [Option.map_some, actRes]
  rw [CMachine.execs_cons, parse_6]
  simp only
  rw [CMachine.execs_cons, parse_7]
  simp only [hs, List.head?_cons, Option.map_some, actRes]
  rw [CMachine.execs_cons, parse_8]
  simp only [ok.determine, cppLRStep]
  cases ha : p.determineAction top.id (input pos).1 with
  | abort => exact .inr ⟨_, rfl⟩
  | throw expected =>
    simp only [ok.message, actRes]
    exact ⟨_, rfl, rfl, h2⟩
  | act a =>
    simp only [actRes]
    rw [CMachine.execs_cons, parse_cond, parse_test_shift]
    cases a with
    | shift =>
      simp only [decide_true]
      rw [parse_block]
      unfold shiftStmts
      rw [CMachine.execs_cons, parse_9]
      simp only
      rw [CMachine.execs_cons, parse_10]
      simp only [Option.map_some, actRes]
      rw [CMachine.execs_cons, parse_11]
      simp only [List.tail?_cons, Option.map_some, actRes]
      rw [CMachine.execs_cons, parse_1]
      simp only
      rw [CMachine.execs_nil]
      simp only [List.nil_append]
      have := parse_move ok input n { s with lookahead := [input s.calls], next := some (input pos), nextTk := (input pos).1, nextSymbol := ⟨.terminal, (input pos).1⟩, state := top.id, action := .shift, stack := ⟨.terminal, (input pos).1⟩ :: top :: rest, events := s.events ++ [.shift (input pos).1 (input pos).2], calls := s.calls + 1 } s.events pos (pos + 1)
        (.shift (input pos).1 (input pos).2) (by simp [h2]) (by simp [h2]) rfl
      simp only at this
      exact this
    | reduce i =>
      simp only [reduceCtorEq, decide_false]
      rw [parse_cond, parse_test_reduce]
      simp only [ne_eq, reduceCtorEq, not_false_eq_true, decide_true]
      rw [parse_block]
      unfold reductionStmts
      rw [CMachine.execs_cons, parse_12]
      simp only
      rw [CMachine.execs_cons, parse_13]
      simp only
      obtain ⟨r, hr⟩ := ok.reduce i (top :: rest) []
      rw [hr]
      cases hk : p.reductions[i]? with
      | none => exact .inr ⟨_, rfl⟩
      | some kv =>
        obtain ⟨k, v⟩ := kv
        simp only
        by_cases hl : (top :: rest).length < 2 * k
        · rw [if_pos hl, if_pos hl]
          exact .inl rfl
        · rw [if_neg hl, if_neg hl]
          simp only [actRes]
          rw [CMachine.execs_cons, parse_14]
          obtain ⟨x, hx⟩ := hc i _ hk
          simp only [ok.visit, hx, actRes]
          rw [CMachine.execs_nil]
          simp only [List.map_cons, List.map_nil]
          have := parse_move ok input n { s with lookahead := [input pos], next := some (input pos), nextTk := (input pos).1, nextSymbol := ⟨.terminal, (input pos).1⟩, state := top.id, action := .reduce i, stack := ⟨.nonTerminal, v⟩ :: (top :: rest).drop (2 * k), reduced := r, events := s.events ++ [.call x] } s.events pos pos
            (.reduce i) rfl h2 (by simp [textEvent, hx])
          simp only at this
          exact this

theorem parse_loop {T : Type} {f : ParseFns} {p : CppLRProg} {calls : List (Nat × List Char)} (ok : FnsOk f p calls) (hc : ∀ i k, p.reductions[i]? = some k → ∃ x, cppSwitch i calls = some x)
    (input : Nat → Nat × T) (n k : Nat) (s : ParseVars T) (pos : Nat) (events : List (CppEvent T)) (h1 : s.lookahead = [input pos]) (h2 : s.calls = pos + 1)
    (h3 : s.events = events.map (textEvent calls)) :
    (match whileLoop ((parseMachine f input).test (phrase "parse_stack.size() > 0")) (fun s => (parseMachine f input).exec n (.block parseRound) s) k s with
    | .ok (.next s) => TextResult.returned s.events (s.calls - 1)
    | .ok (.exit s (.thrown m)) => .thrown s.events (s.calls - 1) m
    | .ok _ => .aborted
    | .error .fuel => .running
    | .error .panic => .aborted) = textResult calls (cppLRRun p input k s.stack pos events) := by
  induction k generalizing s pos events with
  | zero => rfl
  | succ k ih =>
    unfold whileLoop cppLRRun
    rw [parse_test_size]
    by_cases h0 : s.stack = []
    · simp [h0, cppLRStep, textResult, h2, h3]
    · have hl : 0 < s.stack.length := List.length_pos_iff.mpr h0
      simp only [hl, decide_true]
      have hr := parse_round ok hc input n s pos h0 h1 h2
      cases hst : cppLRStep p input s.stack pos with
      | done => rw [hst] at hr; exact hr.elim
      | throw m =>
        rw [hst] at hr
        obtain ⟨s', e1, e2, e3⟩ := hr
        rw [e1]
        simp [textResult, e2, e3, h3]
      | abort ev =>
        rw [hst] at hr
        rcases hr with e1 | ⟨s', e1⟩
        · rw [e1]; rfl
        · rw [e1]; rfl
      | next stack pos' ev =>
        rw [hst] at hr
        obtain ⟨s', e1, e2, e3, e4, e5⟩ := hr
        rw [e1]
        simp only
        rw [ih s' pos' (events ++ [ev]) e3 e4 (by rw [e5, h3]; simp), e2]

theorem parse_run {T : Type} {f : ParseFns} {p : CppLRProg} {calls : List (Nat × List Char)} (ok : FnsOk f p calls) (hc : ∀ i k, p.reductions[i]? = some k → ∃ x, cppSwitch i calls = some x)
    (input : Nat → Nat × T) (n : Nat) : runParse (parseStmts p.entry) f input n = textResult calls (cppLRParse p input n) := by
  unfold runParse parseStmts entryToks cppLRParse
  rw [CMachine.execs_cons, parse_0]
  simp only
  rw [CMachine.execs_cons, parse_1]
  simp only
  rw [CMachine.execs_cons, parse_2]
  simp only
  rw [CMachine.execs_cons, entryToks_exec]
  simp only
  rw [CMachine.execs_cons, parse_3]
  simp only
  rw [CMachine.execs_cons, show ∀ c a s, (parseMachine f input).exec n (.loop c a) s = whileLoop ((parseMachine f input).test c) (fun s => (parseMachine f input).exec n a s) n s from
    fun _ _ _ => by rw [CMachine.exec]]
  have := parse_loop ok hc input n n ⟨[input 0], [⟨.state, p.entry⟩], ⟨.state, p.entry⟩, none, 0, ⟨.state, 0⟩, 0, .shift, [], ⟨.state, 0⟩, 0, .accept, ⟨.state, 0⟩, 1, []⟩ 0 [] rfl rfl rfl
  rw [← this]
  simp only [List.nil_append]
  cases whileLoop ((parseMachine f input).test (phrase "parse_stack.size() > 0")) (fun s => (parseMachine f input).exec n (.block parseRound) s) n
    ⟨[input 0], [⟨.state, p.entry⟩], ⟨.state, p.entry⟩, none, 0, ⟨.state, 0⟩, 0, .shift, [], ⟨.state, 0⟩, 0, .accept, ⟨.state, 0⟩, 1, []⟩ with
  | error e => rfl
  | ok r =>
    cases r with
    | next s => simp only [CMachine.execs_nil]
    | brk s => rfl
    | exit s r => rfl

end Verif
