import Verif.Proofs.CppLLExec

/-! # The text of the C++ LL parser: the driver -/

set_option autoImplicit false

namespace Verif

/-- the statements of `parse` -/
def llParseNames : List String := [
  "std::queue<std::pair<lexer::TokenType, T>> lookahead",
  "lookahead.push(this->token_function())",
  "std::stack<Symbol> parse_stack",
  "Symbol end{SymbolKind::Terminal, static_cast<uint32_t>(lexer::TokenType::TK_EOF)}",
  "parse_stack.push(end)",
  "Symbol entry{SymbolKind::NonTerminal, static_cast<uint32_t>({grammar_entry_non_terminal})}",
  "parse_stack.push(entry)",
  "Symbol current = parse_stack.top()",
  "parse_stack.pop()",
  "auto lookahead_token_and_data = lookahead.front()",
  "lexer::TokenType lookahead_tk = lookahead_token_and_data.first",
  "exit_visitor(this->visitor, static_cast<NonTerminalType>(current.identifier))",
  "Symbol nt_exit_symbol{SymbolKind::ExitNonTerminal, current.identifier}",
  "parse_stack.push(nt_exit_symbol)",
  "push_production_from_table(current, lookahead_tk, parse_stack)",
  "enter_visitor(this->visitor, static_cast<NonTerminalType>(current.identifier))",
  "throw_unexpected_token_error(static_cast<lexer::TokenType>(current.identifier), lookahead_tk)",
  "this->visitor.token(lookahead_tk, lookahead_token_and_data.second)",
  "lookahead.pop()"]

theorem llParseNames_ok : ∀ k < 19, llParseNames.findIdx? (fun q => decide (phrase q = phrase (llParseNames.getD k ""))) = some k := by decide +kernel

section Driver

variable {T : Type} (f : LLFns) (eof : Option Nat) (entry : Nat) (input : Nat → Nat × T) (n : Nat) (s : LLVars T)

theorem ll_exec (k : Nat) (hk : k < 19) {x : String × (LLVars T → Option (COut (LLVars T) (List Char)))} (hx : (llParseTable f eof entry input)[k]? = some x) :
    (llParseMachine f eof entry input).exec n (.simple (phrase x.1)) s = actRes (x.2 s) := by
  have hn : (llParseTable f eof entry input).map (·.1) = llParseNames := rfl
  have h1 : llParseNames.getD k "" = x.1 := by
    rw [List.getD_eq_getElem?_getD, ← hn, List.getElem?_map, hx]
    rfl
  have h2 := llParseNames_ok k hk
  rw [h1] at h2
  rw [exec_simple, show (llParseMachine f eof entry input).act = doPhrase (llParseTable f eof entry input) from rfl, doPhrase_of hn h2 hx]

theorem ll_test_size : (llParseMachine f eof entry input).test (phrase "parse_stack.size() > 0") s = some (decide (0 < s.stack.length)) := by
  rw [show (llParseMachine f eof entry input).test = llParseTest from rfl]
  unfold llParseTest
  rw [if_pos rfl]

theorem ll_test_exit : (llParseMachine f eof entry input).test (phrase "current.kind == SymbolKind::ExitNonTerminal") s = some (decide (s.current.kind = .exit)) := by
  rw [show (llParseMachine f eof entry input).test = llParseTest from rfl]
  unfold llParseTest
  rw [if_neg (by decide +kernel), if_pos rfl]

theorem ll_test_terminal : (llParseMachine f eof entry input).test (phrase "current.kind != SymbolKind::Terminal") s = some (decide (s.current.kind ≠ .terminal)) := by
  rw [show (llParseMachine f eof entry input).test = llParseTest from rfl]
  unfold llParseTest
  rw [if_neg (by decide +kernel), if_neg (by decide +kernel), if_pos rfl]

theorem ll_test_token : (llParseMachine f eof entry input).test (phrase "current.identifier != static_cast<uint32_t>(lookahead_tk)") s = some (decide (s.current.id ≠ s.lookaheadTk)) := by
  rw [show (llParseMachine f eof entry input).test = llParseTest from rfl]
  unfold llParseTest
  rw [if_neg (by decide +kernel), if_neg (by decide +kernel), if_neg (by decide +kernel), if_pos rfl]

theorem ll_block (ss : List CStmt) : (llParseMachine f eof entry input).exec n (.block ss) s = (llParseMachine f eof entry input).execs n 0 ss s := by rw [CMachine.exec]

theorem ll_cond (c : List CTok) (x y : CStmt) : (llParseMachine f eof entry input).exec n (.cond c x y) s = match (llParseMachine f eof entry input).test c s with
    | none => .error .panic
    | some true => (llParseMachine f eof entry input).exec n x s
    | some false => (llParseMachine f eof entry input).exec n y s := by rw [CMachine.exec]; rfl

theorem ll_0 : (llParseMachine f eof entry input).exec n (.simple (phrase "std::queue<std::pair<lexer::TokenType, T>> lookahead")) s = .ok (.next { s with lookahead := [] }) := by
  have := ll_exec f eof entry input n s 0 (by decide) rfl; exact this
theorem ll_1 : (llParseMachine f eof entry input).exec n (.simple (phrase "lookahead.push(this->token_function())")) s =
    .ok (.next { s with lookahead := s.lookahead ++ [input s.calls], calls := s.calls + 1 }) := by
  have := ll_exec f eof entry input n s 1 (by decide) rfl; exact this
theorem ll_2 : (llParseMachine f eof entry input).exec n (.simple (phrase "std::stack<Symbol> parse_stack")) s = .ok (.next { s with stack := [] }) := by
  have := ll_exec f eof entry input n s 2 (by decide) rfl; exact this
theorem ll_3 : (llParseMachine f eof entry input).exec n (.simple (phrase "Symbol end{SymbolKind::Terminal, static_cast<uint32_t>(lexer::TokenType::TK_EOF)}")) s =
    actRes (eof.map fun v => .next { s with endSymbol := ⟨.terminal, v⟩ }) := by
  have := ll_exec f eof entry input n s 3 (by decide) rfl; exact this
theorem ll_4 : (llParseMachine f eof entry input).exec n (.simple (phrase "parse_stack.push(end)")) s = .ok (.next { s with stack := s.endSymbol :: s.stack }) := by
  have := ll_exec f eof entry input n s 4 (by decide) rfl; exact this
theorem ll_5 : (llParseMachine f eof entry input).exec n (.simple (phrase "Symbol entry{SymbolKind::NonTerminal, static_cast<uint32_t>({grammar_entry_non_terminal})}")) s =
    .ok (.next { s with entrySymbol := ⟨.nonTerminal, entry⟩ }) := by
  have := ll_exec f eof entry input n s 5 (by decide) rfl; exact this
theorem ll_6 : (llParseMachine f eof entry input).exec n (.simple (phrase "parse_stack.push(entry)")) s = .ok (.next { s with stack := s.entrySymbol :: s.stack }) := by
  have := ll_exec f eof entry input n s 6 (by decide) rfl; exact this
theorem ll_7 : (llParseMachine f eof entry input).exec n (.simple (phrase "Symbol current = parse_stack.top()")) s = actRes (s.stack.head?.map fun x => .next { s with current := x }) := by
  have := ll_exec f eof entry input n s 7 (by decide) rfl; exact this
theorem ll_8 : (llParseMachine f eof entry input).exec n (.simple (phrase "parse_stack.pop()")) s = actRes (s.stack.tail?.map fun r => .next { s with stack := r }) := by
  have := ll_exec f eof entry input n s 8 (by decide) rfl; exact this
theorem ll_9 : (llParseMachine f eof entry input).exec n (.simple (phrase "auto lookahead_token_and_data = lookahead.front()")) s =
    actRes (s.lookahead.head?.map fun x => .next { s with next := some x }) := by
  have := ll_exec f eof entry input n s 9 (by decide) rfl; exact this
theorem ll_10 : (llParseMachine f eof entry input).exec n (.simple (phrase "lexer::TokenType lookahead_tk = lookahead_token_and_data.first")) s =
    actRes (s.next.map fun x => .next { s with lookaheadTk := x.1 }) := by
  have := ll_exec f eof entry input n s 10 (by decide) rfl; exact this
theorem ll_11 : (llParseMachine f eof entry input).exec n (.simple (phrase "exit_visitor(this->visitor, static_cast<NonTerminalType>(current.identifier))")) s =
    actRes (llCalled s (f.exit s.current.id)) := by
  have := ll_exec f eof entry input n s 11 (by decide) rfl; exact this
theorem ll_12 : (llParseMachine f eof entry input).exec n (.simple (phrase "Symbol nt_exit_symbol{SymbolKind::ExitNonTerminal, current.identifier}")) s =
    .ok (.next { s with exitSymbol := ⟨.exit, s.current.id⟩ }) := by
  have := ll_exec f eof entry input n s 12 (by decide) rfl; exact this
theorem ll_13 : (llParseMachine f eof entry input).exec n (.simple (phrase "parse_stack.push(nt_exit_symbol)")) s = .ok (.next { s with stack := s.exitSymbol :: s.stack }) := by
  have := ll_exec f eof entry input n s 13 (by decide) rfl; exact this
theorem ll_14 : (llParseMachine f eof entry input).exec n (.simple (phrase "push_production_from_table(current, lookahead_tk, parse_stack)")) s =
    actRes (match f.push s.current s.lookaheadTk s.stack with
    | .ok (.returned v) => some (.next { s with stack := v.stack })
    | .ok (.thrown m) => some (.exit s m)
    | .error _ => none) := by
  have := ll_exec f eof entry input n s 14 (by decide) rfl; exact this
theorem ll_15 : (llParseMachine f eof entry input).exec n (.simple (phrase "enter_visitor(this->visitor, static_cast<NonTerminalType>(current.identifier))")) s =
    actRes (llCalled s (f.enter s.current.id)) := by
  have := ll_exec f eof entry input n s 15 (by decide) rfl; exact this
theorem ll_16 : (llParseMachine f eof entry input).exec n (.simple (phrase "throw_unexpected_token_error(static_cast<lexer::TokenType>(current.identifier), lookahead_tk)")) s =
    actRes (match f.message s.current.id s.lookaheadTk with
    | .ok m => some (.exit s m)
    | .error _ => none) := by
  have := ll_exec f eof entry input n s 16 (by decide) rfl; exact this
theorem ll_17 : (llParseMachine f eof entry input).exec n (.simple (phrase "this->visitor.token(lookahead_tk, lookahead_token_and_data.second)")) s =
    actRes (s.next.map fun x => .next { s with events := s.events ++ [.token s.lookaheadTk x.2] }) := by
  have := ll_exec f eof entry input n s 17 (by decide) rfl; exact this
theorem ll_18 : (llParseMachine f eof entry input).exec n (.simple (phrase "lookahead.pop()")) s = actRes (s.lookahead.tail?.map fun r => .next { s with lookahead := r }) := by
  have := ll_exec f eof entry input n s 18 (by decide) rfl; exact this

end Driver

/-- a symbol of the stack -/
def llcSym : LLSym → LLCSym
  | .terminal t => ⟨.terminal, tokenCode t⟩
  | .nonTerminal id => ⟨.nonTerminal, id⟩
  | .exit id => ⟨.exit, id⟩

theorem tokenCode_inj {a b : Tok} (h : tokenCode a = tokenCode b) : a = b := by
  cases a <;> cases b <;> simp [tokenCode] at h ⊢
  exact h

/-- what the functions do; `M` says what messages are possible for a lookahead -/
structure LLFnsOk {T : Type} (f : LLFns) (disp : Dispatch) (visible : Nat → Bool) (ev : LLEvent T → LLTextEvent T) (M : Tok → List Char → Prop) (P : Tok → Prop) : Prop where
  push : ∀ id t stack, P t → match disp id t with
    | some syms => ∃ v, f.push ⟨.nonTerminal, id⟩ (tokenCode t) stack = .ok (.returned v) ∧ v.stack = syms.map llcSym ++ stack
    | none => ∃ m, f.push ⟨.nonTerminal, id⟩ (tokenCode t) stack = .ok (.thrown m) ∧ M t m
  enter : ∀ id, ∃ v, f.enter id = .ok (.returned v) ∧ v.called.map LLTextEvent.call = if visible id then [ev (.enter id)] else []
  exit : ∀ id, ∃ v, f.exit id = .ok (.returned v) ∧ v.called.map LLTextEvent.call = if visible id then [ev (.exit id)] else []
  message : ∀ t t', P t' → t ≠ t' → ∃ m, f.message (tokenCode t) (tokenCode t') = .ok m ∧ M t' m
  token : ∀ t d, ev (.token t d) = .token (tokenCode t) d

/-- what the end of a round means -/
def llRoundOut {T : Type} (ev : LLEvent T → LLTextEvent T) (M : Tok → List Char → Prop) (input : Nat → Tok × T) (events : List (LLTextEvent T)) (pos : Nat) :
    LLStep T → Res (COut (LLVars T) (List Char)) → Prop
  | .done, _ => False
  | .error, r => ∃ s m, r = .ok (.exit s m) ∧ s.events = events ∧ s.calls = pos + 1 ∧ M (input pos).1 m
  | .next stack pos' e, r => ∃ s, r = .ok (.next s) ∧ s.stack = stack.map llcSym ∧ s.lookahead = [codeInput input pos'] ∧ s.calls = pos' + 1 ∧ s.events = events ++ e.toList.map ev

theorem ll_round {T : Type} {f : LLFns} {disp : Dispatch} {visible : Nat → Bool} {ev : LLEvent T → LLTextEvent T} {M : Tok → List Char → Prop} {P : Tok → Prop} (ok : LLFnsOk f disp visible ev M P)
    (eof : Option Nat) (entry : Nat) (input : Nat → Tok × T) (hP : ∀ i, P (input i).1) (n : Nat) (s : LLVars T) (st : List LLSym) (pos : Nat) (h0 : st ≠ []) (hs : s.stack = st.map llcSym)
    (h1 : s.lookahead = [codeInput input pos]) (h2 : s.calls = pos + 1) :
    llRoundOut ev M input s.events pos (llStep disp visible input st pos) ((llParseMachine f eof entry (codeInput input)).exec n (.block llRound) s) := by
  obtain ⟨top, rest, rfl⟩ := List.exists_cons_of_ne_nil h0
  rw [List.map_cons] at hs
  rw [ll_block]
  unfold llRound
  rw [CMachine.execs_cons, ll_7]
  simp only [hs, List.head?_cons, Option.map_some, actRes]
  rw [CMachine.execs_cons, ll_8]
  simp only [hs, List.tail?_cons, Option.map_some, actRes]
  rw [CMachine.execs_cons, ll_9]
  simp only [h1, List.head?_cons, Option.map_some, actRes]
  rw [CMachine.execs_cons, ll_10]
  simp only [Option.map_some, actRes]
  rw [execs_one, ll_cond, ll_test_exit]
  cases top with
  | exit id =>
    simp only [llcSym, decide_true]
    rw [ll_block, execs_one, ll_11]
    obtain ⟨v, e1, e2⟩ := ok.exit id
    simp only [e1, llCalled, actRes, llStep]
    refine ⟨_, rfl, rfl, rfl, h2, ?_⟩
    simp only [e2]
    cases visible id <;> rfl
  | nonTerminal id =>
    simp only [llcSym, reduceCtorEq, decide_false]
    rw [ll_cond, ll_test_terminal]
    simp only [ne_eq, reduceCtorEq, not_false_eq_true, decide_true]
    rw [ll_block]
    unfold llNtStmts
    rw [CMachine.execs_cons, ll_12]
    simp only
    rw [CMachine.execs_cons, ll_13]
    simp only
    rw [CMachine.execs_cons, ll_14]
    simp only [llStep]
    have hp := ok.push id (input pos).1 (⟨.exit, id⟩ :: rest.map llcSym) (hP pos)
    cases hd : disp id (input pos).1 with
    | none =>
      rw [hd] at hp
      obtain ⟨m, e1, e2⟩ := hp
      rw [show (codeInput input pos).1 = tokenCode (input pos).1 from rfl, e1]
      exact ⟨_, m, rfl, rfl, h2, e2⟩
    | some syms =>
      rw [hd] at hp
      obtain ⟨v, e1, e2⟩ := hp
      rw [show (codeInput input pos).1 = tokenCode (input pos).1 from rfl, e1]
      simp only [actRes]
      rw [execs_one, ll_15]
      obtain ⟨v', e3, e4⟩ := ok.enter id
      simp only [e3, llCalled, actRes]
      refine ⟨_, rfl, ?_, rfl, h2, ?_⟩
      · simp only [e2, List.map_append, List.map_cons, llcSym]
      · simp only [e4]
        cases visible id <;> rfl
  | terminal t =>
    simp only [llcSym, reduceCtorEq, decide_false]
    rw [ll_cond, ll_test_terminal]
    simp only [ne_eq, not_true_eq_false, decide_false]
    rw [ll_block]
    unfold llTokenStmts
    rw [CMachine.execs_cons, ll_cond, ll_test_token]
    simp only [llStep]
    rw [show (codeInput input pos).1 = tokenCode (input pos).1 from rfl]
    by_cases ht : t = (input pos).1
    · simp only [ht, if_true, ne_eq, not_true_eq_false, decide_false]
      rw [ll_block, CMachine.execs_nil]
      simp only
      rw [CMachine.execs_cons, ll_17]
      simp only [Option.map_some, actRes]
      rw [CMachine.execs_cons, ll_18]
      simp only [List.tail?_cons, Option.map_some, actRes]
      rw [execs_one, ll_1]
      refine ⟨_, rfl, rfl, ?_, ?_, ?_⟩
      · simp [h2]
      · simp [h2]
      · simp only [Option.toList_some, List.map_cons, List.map_nil, ok.token]
        rfl
    · have hne : tokenCode t ≠ tokenCode (input pos).1 := fun e => ht (tokenCode_inj e)
      simp only [ht, if_false, ne_eq, hne, not_false_eq_true, decide_true]
      rw [ll_block, execs_one, ll_16]
      obtain ⟨m, e1, e2⟩ := ok.message t (input pos).1 (hP pos) ht
      simp only [e1, actRes]
      exact ⟨_, m, rfl, rfl, h2, e2⟩

/-- an outcome of the model, and the same of the text -/
inductive LLMatch {T : Type} (ev : LLEvent T → LLTextEvent T) (M : Tok → List Char → Prop) (input : Nat → Tok × T) : LLResult T → LLTextResult T → Prop
  | ok (events : List (LLEvent T)) (pos : Nat) : LLMatch ev M input (.ok events pos) (.returned (events.map ev) pos)
  | error (events : List (LLEvent T)) (pos : Nat) (m : List Char) : M (input pos).1 m → LLMatch ev M input (.error events pos) (.thrown (events.map ev) pos m)
  | fuel : LLMatch ev M input .fuel .running

theorem ll_loop {T : Type} {f : LLFns} {disp : Dispatch} {visible : Nat → Bool} {ev : LLEvent T → LLTextEvent T} {M : Tok → List Char → Prop} {P : Tok → Prop} (ok : LLFnsOk f disp visible ev M P)
    (eof : Option Nat) (entry : Nat) (input : Nat → Tok × T) (hP : ∀ i, P (input i).1) (n k : Nat) (s : LLVars T) (st : List LLSym) (pos : Nat) (events : List (LLEvent T))
    (hs : s.stack = st.map llcSym) (h1 : s.lookahead = [codeInput input pos]) (h2 : s.calls = pos + 1) (h3 : s.events = events.map ev) :
    LLMatch ev M input (llRun disp visible input k st pos events) (llTextResult (whileLoop ((llParseMachine f eof entry (codeInput input)).test (phrase "parse_stack.size() > 0"))
      (fun s => (llParseMachine f eof entry (codeInput input)).exec n (.block llRound) s) k s)) := by
  induction k generalizing s st pos events with
  | zero => exact .fuel
  | succ k ih =>
    unfold whileLoop llRun
    rw [ll_test_size]
    by_cases h0 : st = []
    · subst h0
      simp only [hs, List.map_nil, List.length_nil, Nat.lt_irrefl, decide_false, llStep, llTextResult, h2, h3]
      exact .ok events pos
    · have hl : 0 < s.stack.length := by rw [hs, List.length_map]; exact List.length_pos_iff.mpr h0
      simp only [hl, decide_true]
      have hr := ll_round ok eof entry input hP n s st pos h0 hs h1 h2
      cases hst : llStep disp visible input st pos with
      | done => rw [hst] at hr; exact hr.elim
      | error =>
        rw [hst] at hr
        obtain ⟨s', m, e1, e2, e3, e4⟩ := hr
        rw [e1]
        simp only [llTextResult, e2, e3, h3]
        exact .error events pos m e4
      | next stack pos' e =>
        rw [hst] at hr
        obtain ⟨s', e1, e2, e3, e4, e5⟩ := hr
        rw [e1]
        exact ih s' stack pos' (events ++ e.toList) e2 e3 e4 (by rw [e5, h3]; simp)

theorem ll_run {T : Type} {f : LLFns} {disp : Dispatch} {visible : Nat → Bool} {ev : LLEvent T → LLTextEvent T} {M : Tok → List Char → Prop} {P : Tok → Prop} (ok : LLFnsOk f disp visible ev M P)
    (entry : Nat) (input : Nat → Tok × T) (hP : ∀ i, P (input i).1) (n : Nat) :
    LLMatch ev M input (llParse disp visible entry input n) (runLLParse llParseStmts f (some 1) entry (codeInput input) n) := by
  unfold runLLParse llParseStmts llParse
  rw [CMachine.execs_cons, ll_0]
  simp only
  rw [CMachine.execs_cons, ll_1]
  simp only
  rw [CMachine.execs_cons, ll_2]
  simp only
  rw [CMachine.execs_cons, ll_3]
  simp only [Option.map_some, actRes]
  rw [CMachine.execs_cons, ll_4]
  simp only
  rw [CMachine.execs_cons, ll_5]
  simp only
  rw [CMachine.execs_cons, ll_6]
  simp only
  rw [execs_one, show ∀ c a s, (llParseMachine f (some 1) entry (codeInput input)).exec n (.loop c a) s = whileLoop ((llParseMachine f (some 1) entry (codeInput input)).test c)
    (fun s => (llParseMachine f (some 1) entry (codeInput input)).exec n a s) n s from fun _ _ _ => by rw [CMachine.exec]]
  exact ll_loop ok (some 1) entry input hP n n _ [.nonTerminal entry, .terminal .eof] 0 [] rfl rfl rfl rfl

end Verif
