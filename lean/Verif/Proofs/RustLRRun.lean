import Verif.Proofs.RustLRReduce

/-! # The text of `parser.rs`: `parse` -/

set_option autoImplicit false

namespace Verif

theorem r_exec_matching_none {σ ρ : Type} (m : RMachine σ ρ) (n : Nat) (ctx : RForest) {before e : RForest} {arms : List RStmt} {s : σ} (h : m.value e s = none) :
    m.exec n ctx (.matching before e arms) s = .error .panic := by rw [RMachine.exec, h]

section
variable {T : Type} (f : RParseCalls) (inp : Nat → List Char × T)

theorem act_pNewLook (s : RParseVars T) : (rParseMachine f inp).act (rs! "let mut lookahead = std::collections::VecDeque::new()") s = .ok (.next { s with lookahead := some [] }) := rfl
theorem act_pPushLook (s : RParseVars T) : (rParseMachine f inp).act (rs! "lookahead.push_back((self.token_function)())") s = match s.lookahead with
    | none => .error .panic
    | some l => .ok (.next { s with lookahead := some (l ++ [inp s.calls]), calls := s.calls + 1 }) := rfl
theorem act_pNewStack (s : RParseVars T) : (rParseMachine f inp).act (rs! "let mut stack = Vec::new()") s = .ok (.next { s with stack := some [] }) := rfl
theorem act_pFront (s : RParseVars T) : (rParseMachine f inp).act (rs! "let (next_token, _) = lookahead.front().unwrap()") s = match s.lookahead with
    | some (x :: _) => .ok (.next { s with nextToken := some x.1 })
    | _ => .error .panic := rfl
theorem act_pState (s : RParseVars T) : (rParseMachine f inp).act ((rs! "let state =").append (rs! "*state_id")) s = match s.stateId with
    | none => .error .panic
    | some q => .ok (.next { s with state := some q }) := rfl
theorem act_pUnreachable (s : RParseVars T) : (rParseMachine f inp).act ((rs! "let state =").append (rs! "unreachable!()")) s = .error .panic := rfl
theorem act_pAction (s : RParseVars T) : (rParseMachine f inp).act (rs! "let action = self.next_action(state, *next_token)?") s = match s.state, s.nextToken with
    | some q, some t =>
      match f.nextAction q t with
      | .error e => .error e
      | .ok (.ok a) => .ok (.next { s with action := some a })
      | .ok (.unexpected got expected) => .ok (.ret s (.unexpected got expected))
    | _, _ => .error .panic := rfl
theorem act_pTake (s : RParseVars T) : (rParseMachine f inp).act (rs! "let (next_token, next_data) = lookahead.pop_front().unwrap()") s = match s.lookahead with
    | some (x :: l) => .ok (.next { s with lookahead := some l, taken := some x })
    | _ => .error .panic := rfl
theorem act_pPushTok (s : RParseVars T) : (rParseMachine f inp).act (rs! "stack.push(StackSymbol::Terminal { token: next_token })") s = match s.taken with
    | none => .error .panic
    | some x => s.push (.field "StackSymbol".toList "Terminal".toList "token".toList (.variant "TokenType".toList x.1)) := rfl
theorem act_pShift (s : RParseVars T) : (rParseMachine f inp).act (rs! "self.visitor.shift(next_token, next_data)") s = match s.taken with
    | none => .error .panic
    | some x => .ok (.next { s with visits := s.visits ++ [.shift x.1 x.2] }) := rfl
theorem act_pReduce (s : RParseVars T) : (rParseMachine f inp).act (rs! "self.reduce_stack_and_visit(reduced_rule, &mut stack)") s = match s.reducedRule, s.stack with
    | some r, some st =>
      match f.reduce r st with
      | .error e => .error e
      | .ok (st, m) => .ok (.next { s with stack := some st, visits := s.visits ++ [.call m] })
    | _, _ => .error .panic := rfl
theorem act_pCurrent (s : RParseVars T) : (rParseMachine f inp).act (rs! "let current_symbol = stack.last().unwrap()") s = match s.stack with
    | some (v :: _) => .ok (.next { s with currentSymbol := some v })
    | _ => .error .panic := rfl
theorem act_pGoto (s : RParseVars T) : (rParseMachine f inp).act (rs! "let goto = self.next_goto(state, *current_symbol)") s = match s.state, s.currentSymbol with
    | some q, some v =>
      match f.nextGoto q v with
      | .error e => .error e
      | .ok g => .ok (.next { s with goto := some g })
    | _, _ => .error .panic := rfl
theorem act_pPop (s : RParseVars T) : (rParseMachine f inp).act (rs! "stack.pop()") s = match s.stack with
    | none => .error .panic
    | some st => .ok (.next { s with stack := some st.tail }) := rfl
theorem act_pPushState (s : RParseVars T) : (rParseMachine f inp).act ((RForest.nil).append (rs! "stack.push(StackSymbol::State { state_id })")) s = match s.stateId with
    | none => .error .panic
    | some q => s.push (.field "StackSymbol".toList "State".toList "state_id".toList (.num q)) := rfl
theorem act_pOk (s : RParseVars T) : (rParseMachine f inp).act ((rs! "return").append (rs! "Ok(())")) s = .ok (.ret s .ok) := rfl
theorem act_pEntry (q : Nat) (s : RParseVars T) :
    let entry := rUsize q
    (rParseMachine f inp).act (rs! "stack.push(StackSymbol::State { state_id: #entry })") s = s.push (.field "StackSymbol".toList "State".toList "state_id".toList (.num q)) := by
  intro entry
  show (if (rs! "stack.push(StackSymbol::State { state_id: #entry })") = (rs! "stack.push(StackSymbol::State { state_id: #entry })") then
    (match (readValue 4 (rUsize q)).map (RVal.field "StackSymbol".toList "State".toList "state_id".toList) with
      | none => Except.error Err.panic
      | some v => s.push v) else Except.error Err.panic) = _
  rw [readValue_num, if_pos rfl]; rfl

/-- what the functions that are called do -/
structure CallsFit (variants : List (List Char)) (g : Grammar) (p : LRProg) (visits : List (Nat × List Char)) : Prop where
  action : ∀ q tk, f.nextAction q (tokVariant variants tk) = rActResult variants tk (p.nextAction q tk)
  goto : ∀ q s, (∀ A, s = .nonTerminal A → Sym.nt A ∈ g.nonTerminals) → f.nextGoto q (rStackVal variants g s) = match p.nextGoto q s with
    | some a => .ok (rGotoVal a)
    | none => .error .panic
  reduce : ∀ i stack, f.reduce (rRuleVal i) stack = match p.reductions[i]? with
    | none => .error .panic
    | some (k, A) =>
      if stack.length < 2 * k then .error .panic
      else .ok (rStackVal variants g (.nonTerminal A) :: stack.drop (2 * k), ((visits.find? (fun x => x.1 = i)).map (·.2)).getD [])
  lhs : ∀ x ∈ p.reductions, Sym.nt x.2 ∈ g.nonTerminals

variable {f inp} {variants : List (List Char)} {g : Grammar} {p : LRProg} {visits : List (Nat × List Char)} (hf : CallsFit f variants g p visits)

/-- the second half of a round -/
def rParseGoto : List RStmt :=
  [.simple (rs! "let current_symbol = stack.last().unwrap()"),
    .matching (rs! "let state =") (rs! "&stack[stack.len() - 2]") (rStateArms.map armOf),
    .simple (rs! "let goto = self.next_goto(state, *current_symbol)"),
    .tailMatch (rs! "goto") (rGotoArms.map armOf)]

/-- the entries for non-terminals -/
def StackNts (g : Grammar) (st : List StackSym) : Prop := ∀ A, StackSym.nonTerminal A ∈ st → Sym.nt A ∈ g.nonTerminals

theorem exec_state_arms (n : Nat) (s : RParseVars T) (x : StackSym) : (rParseMachine f inp).execArms n (rs! "let state =") (rStackVal variants g x) (rStateArms.map armOf) s =
    match x with
    | .state q => .ok (.next { s with stateId := some q, state := some q })
    | _ => .error .panic := by
  cases x with
  | state q =>
    rw [exec_armHit (s' := { s with stateId := some q }) _ _ _ (b := [.tail (rs! "*state_id")]) (bs := [("state_id".toList, .num q)]) rfl rfl, r_execs_one, r_exec_tail, act_pState]
  | terminal t => rw [exec_armHit (s' := s) _ _ _ (b := [.tail (rs! "unreachable!()")]) (bs := []) rfl rfl, r_execs_one, r_exec_tail, act_pUnreachable]
  | nonTerminal A => rw [exec_armHit (s' := s) _ _ _ (b := [.tail (rs! "unreachable!()")]) (bs := []) rfl rfl, r_execs_one, r_exec_tail, act_pUnreachable]

include hf in
theorem exec_rParseGoto (n : Nat) (s : RParseVars T) (st : List StackSym) (hst : s.stack = some (st.map (rStackVal variants g))) (hnt : StackNts g st) (pos : Nat) (ev : LREvent T) :
    match lrGoto p.machine st pos ev with
    | .next st' pos' ev' => pos' = pos ∧ ev' = ev ∧ StackNts g st' ∧ ∃ s', (rParseMachine f inp).execs n .nil rParseGoto s = .ok (.next s') ∧ s'.stack = some (st'.map (rStackVal variants g)) ∧
        s'.lookahead = s.lookahead ∧ s'.calls = s.calls ∧ s'.visits = s.visits
    | .panic _ => (rParseMachine f inp).execs n .nil rParseGoto s = .error .panic
    | _ => False := by
  obtain ⟨la, stk, ntok, state, sid, act, tk, rr, cs, go, calls, vis⟩ := s
  simp only at hst
  subst hst
  unfold rParseGoto
  match st with
  | [] => rw [r_execs_err (e := .panic) _ _ _ (by rw [r_exec_simple, act_pCurrent]; rfl)]; rfl
  | [x] =>
    rw [r_execs_next _ _ _ (s' := ⟨la, some ([x].map (rStackVal variants g)), ntok, state, sid, act, tk, rr, some (rStackVal variants g x), go, calls, vis⟩) (by rw [r_exec_simple, act_pCurrent]; rfl),
      r_execs_err (e := .panic) _ _ _ (r_exec_matching_none _ _ _ rfl)]
    rfl
  | x :: y :: rest =>
    rw [r_execs_next _ _ _ (s' := ⟨la, some ((x :: y :: rest).map (rStackVal variants g)), ntok, state, sid, act, tk, rr, some (rStackVal variants g x), go, calls, vis⟩)
      (by rw [r_exec_simple, act_pCurrent]; rfl)]
    have hm := fun s h => (r_exec_matching (rParseMachine f inp) n .nil (before := rs! "let state =") (e := rs! "&stack[stack.len() - 2]") (arms := rStateArms.map armOf) (s := s) (v := rStackVal variants g y) h).trans
      (exec_state_arms n s y)
    cases y with
    | terminal t => rw [r_execs_err (e := .panic) _ _ _ (hm _ rfl)]; rfl
    | nonTerminal A => rw [r_execs_err (e := .panic) _ _ _ (hm _ rfl)]; rfl
    | state q =>
      rw [r_execs_next _ _ _ (hm _ rfl)]
      have hx : ∀ A, x = .nonTerminal A → Sym.nt A ∈ g.nonTerminals := fun A e => hnt A (by rw [e]; simp)
      have hg := hf.goto q x hx
      show (match (match p.nextGoto q x with
        | none => LRStep.panic (some ev)
        | some .accept => LRStep.next rest pos ev
        | some (.state q') => LRStep.next (.state q' :: x :: .state q :: rest) pos ev : LRStep T) with
        | .next st' pos' ev' => _
        | .panic _ => _
        | _ => False)
      cases hp : p.nextGoto q x with
      | none =>
        rw [hp] at hg
        simp only
        rw [r_execs_err (e := .panic) _ _ _ (by rw [r_exec_simple, act_pGoto]; simp only [hg])]
      | some a =>
        rw [hp] at hg
        rw [r_execs_next _ _ _ (s' := ⟨la, some ((x :: .state q :: rest).map (rStackVal variants g)), ntok, some q, some q, act, tk, rr, some (rStackVal variants g x), some (rGotoVal a), calls, vis⟩)
          (by rw [r_exec_simple, act_pGoto]; simp only [hg]), r_execs_one, r_exec_tailMatch (v := rGotoVal a) _ _ _ rfl]
        cases a with
        | accept =>
          refine ⟨rfl, rfl, fun A h => hnt A (by simp [h]), ?_⟩
          rw [exec_armHit (s' := (⟨la, some ((x :: .state q :: rest).map (rStackVal variants g)), ntok, some q, some q, act, tk, rr, some (rStackVal variants g x), some (rGotoVal .accept), calls, vis⟩ : RParseVars T)) _ _ _
            (b := [.simple (rs! "stack.pop()"), .simple (rs! "stack.pop()")]) (bs := []) rfl rfl]
          rw [r_execs_next _ _ _ (by rw [r_exec_simple, act_pPop]), r_execs_one, r_exec_simple, act_pPop]
          exact ⟨_, rfl, rfl, rfl, rfl, rfl⟩
        | state q' =>
          refine ⟨rfl, rfl, fun A h => hnt A (by simpa using h), ?_⟩
          rw [exec_armHit (s' := (⟨la, some ((x :: .state q :: rest).map (rStackVal variants g)), ntok, some q, some q', act, tk, rr, some (rStackVal variants g x), some (rGotoVal (.state q')), calls, vis⟩ : RParseVars T)) _ _ _
            (b := [.tail (rs! "stack.push(StackSymbol::State { state_id })")]) (bs := [("state_id".toList, .num q')]) rfl rfl]
          rw [r_execs_one, r_exec_tail, act_pPushState]
          exact ⟨_, rfl, rfl, rfl, rfl, rfl⟩

/-- the variables at the start of a round -/
def RoundInv (inp : Nat → List Char × T) (variants : List (List Char)) (g : Grammar) (visits : List (Nat × List Char)) (s : RParseVars T) (st : List StackSym) (pos : Nat) (events : List (LREvent T)) : Prop :=
  s.lookahead = some [inp pos] ∧ s.stack = some (st.map (rStackVal variants g)) ∧ s.calls = pos + 1 ∧ s.visits = events.map (visitOf variants visits) ∧ StackNts g st

theorem rParseLoop_eq : rParseLoop = [.simple (rs! "let (next_token, _) = lookahead.front().unwrap()"),
    .matching (rs! "let state =") (rs! "stack.last().unwrap()") (rStateArms.map armOf),
    .simple (rs! "let action = self.next_action(state, *next_token)?"),
    .matching .nil (rs! "action") (rActArms.map armOf)] ++ rParseGoto := rfl

end

section
variable {T : Type} {f : RParseCalls} {variants : List (List Char)} {g : Grammar} {p : LRProg} {visits : List (Nat × List Char)} (hf : CallsFit f variants g p visits) (input : Nat → Tok × T)

/-- the tokens as the text sees them -/
def textInput (variants : List (List Char)) (input : Nat → Tok × T) : Nat → List Char × T := fun i => (tokVariant variants (input i).1, (input i).2)

include hf in
theorem exec_rRoundLR (n : Nat) (s : RParseVars T) (st : List StackSym) (pos : Nat) (events : List (LREvent T)) (hi : RoundInv (textInput variants input) variants g visits s st pos events) (hne : st ≠ []) :
    match lrStep p.machine input st pos with
    | .done => False
    | .unexpected es => ∃ s', (rParseMachine f (textInput variants input)).execs n .nil rParseLoop s =
        .ok (.ret s' (.unexpected (tokVariant variants (input pos).1) (es.filterMap (symVariant variants)))) ∧ s'.visits = events.map (visitOf variants visits) ∧ s'.calls = pos + 1
    | .panic _ => (rParseMachine f (textInput variants input)).execs n .nil rParseLoop s = .error .panic
    | .next st' pos' ev => ∃ s', (rParseMachine f (textInput variants input)).execs n .nil rParseLoop s = .ok (.next s') ∧
        RoundInv (textInput variants input) variants g visits s' st' pos' (events ++ [ev]) := by
  obtain ⟨la, stk, ntok, state, sid, act, tk, rr, cs, go, calls, vis⟩ := s
  obtain ⟨h1, h2, h3, h4, hnt⟩ := hi
  simp only at h1 h2 h3 h4
  subst h1 h2 h3 h4
  rw [rParseLoop_eq]
  simp only [List.cons_append, List.nil_append]
  rw [r_execs_next _ _ _ (by rw [r_exec_simple, act_pFront])]
  cases st with
  | nil => exact absurd rfl hne
  | cons x rest =>
    have hm := fun s h => (r_exec_matching (rParseMachine f (textInput variants input)) n .nil (before := rs! "let state =") (e := rs! "stack.last().unwrap()") (arms := rStateArms.map armOf) (s := s)
      (v := rStackVal variants g x) h).trans (exec_state_arms n s x)
    cases x with
    | terminal t => rw [r_execs_err (e := .panic) _ _ _ (hm _ rfl)]; rfl
    | nonTerminal A => rw [r_execs_err (e := .panic) _ _ _ (hm _ rfl)]; rfl
    | state q =>
      rw [r_execs_next _ _ _ (hm _ rfl)]
      have ha := hf.action q (input pos).1
      simp only [lrStep]
      rw [show p.machine.nextAction q (input pos).1 = p.nextAction q (input pos).1 from rfl]
      cases hp : p.nextAction q (input pos).1 with
      | panic =>
        rw [hp] at ha
        simp only
        rw [r_execs_err (e := .panic) _ _ _ (by rw [r_exec_simple, act_pAction]; simp only [textInput, ha, rActResult])]
      | unexpected es =>
        rw [hp] at ha
        simp only
        rw [r_execs_ret _ _ _ (by rw [r_exec_simple, act_pAction]; simp only [textInput, ha, rActResult]; rfl)]
        exact ⟨_, rfl, rfl, rfl⟩
      | act a =>
        rw [hp] at ha
        rw [r_execs_next _ _ _ (s' := ⟨some [textInput variants input pos], some ((.state q :: rest).map (rStackVal variants g)), some (textInput variants input pos).1, some q, some q, some (rActVal a), tk, rr, cs, go,
          pos + 1, events.map (visitOf variants visits)⟩) (by rw [r_exec_simple, act_pAction]; simp only [textInput, ha, rActResult])]
        have hma := fun (s : RParseVars T) h => (r_exec_matching (rParseMachine f (textInput variants input)) n .nil (before := .nil) (e := rs! "action") (arms := rActArms.map armOf) (s := s)
          (v := rActVal a) h)
        cases a with
        | shift =>
          simp only
          have hx : (rParseMachine f (textInput variants input)).exec n .nil (.matching .nil (rs! "action") (rActArms.map armOf)) ⟨some [textInput variants input pos],
              some ((.state q :: rest).map (rStackVal variants g)), some (textInput variants input pos).1, some q, some q, some (rActVal .shift), tk, rr, cs, go, pos + 1, events.map (visitOf variants visits)⟩ =
              .ok (.next ⟨some [textInput variants input (pos + 1)], some ((.terminal (input pos).1 :: .state q :: rest).map (rStackVal variants g)), some (textInput variants input pos).1, some q, some q,
                some (rActVal .shift), some (textInput variants input pos), rr, cs, go, pos + 1 + 1, (events ++ [LREvent.shift (input pos).1 (input pos).2]).map (visitOf variants visits)⟩) := by
            rw [hma _ rfl, exec_armHit (s' := (⟨some [textInput variants input pos],
              some ((.state q :: rest).map (rStackVal variants g)), some (textInput variants input pos).1, some q, some q, some (rActVal .shift), tk, rr, cs, go, pos + 1, events.map (visitOf variants visits)⟩ : RParseVars T)) _ _ _
              (b := [.simple (rs! "let (next_token, next_data) = lookahead.pop_front().unwrap()"), .simple (rs! "stack.push(StackSymbol::Terminal { token: next_token })"),
                .simple (rs! "self.visitor.shift(next_token, next_data)"), .simple (rs! "lookahead.push_back((self.token_function)())")]) (bs := []) rfl rfl]
            rw [r_execs_next _ _ _ (by rw [r_exec_simple, act_pTake]), r_execs_next _ _ _ (by rw [r_exec_simple, act_pPushTok]; rfl), r_execs_next _ _ _ (by rw [r_exec_simple, act_pShift]),
              r_execs_one, r_exec_simple, act_pPushLook, List.map_append]
            rfl
          rw [r_execs_next _ _ _ hx]
          have hnt' : StackNts g (.terminal (input pos).1 :: .state q :: rest) := fun A h => hnt A (by simpa using h)
          have key := exec_rParseGoto hf (inp := textInput variants input) n ⟨some [textInput variants input (pos + 1)], some ((.terminal (input pos).1 :: .state q :: rest).map (rStackVal variants g)), some (textInput variants input pos).1, some q, some q,
                some (rActVal .shift), some (textInput variants input pos), rr, cs, go, pos + 1 + 1, (events ++ [LREvent.shift (input pos).1 (input pos).2]).map (visitOf variants visits)⟩ _ rfl hnt' (pos + 1) (.shift (input pos).1 (input pos).2)
          cases hg : lrGoto p.machine (.terminal (input pos).1 :: .state q :: rest) (pos + 1) (.shift (input pos).1 (input pos).2) with
          | done => rw [hg] at key; exact key
          | unexpected es => rw [hg] at key; exact key.elim
          | panic e => rw [hg] at key; exact key
          | next st' pos' ev =>
            rw [hg] at key
            obtain ⟨rfl, rfl, k3, s', k4, k5, k6, k7, k8⟩ := key
            exact ⟨s', k4, k6, k5, k7, k8, k3⟩
        | reduce i =>
          simp only
          have hr := hf.reduce i ((.state q :: rest).map (rStackVal variants g))
          rw [show p.machine.reduction i = p.reductions[i]? from rfl]
          have hstep : ∀ r, f.reduce (rRuleVal i) ((.state q :: rest).map (rStackVal variants g)) = r → (rParseMachine f (textInput variants input)).exec n .nil (.matching .nil (rs! "action") (rActArms.map armOf))
              ⟨some [textInput variants input pos], some ((.state q :: rest).map (rStackVal variants g)), some (textInput variants input pos).1, some q, some q, some (rActVal (.reduce i)), tk, rr, cs, go, pos + 1,
                events.map (visitOf variants visits)⟩ = match r with
              | .error e => .error e
              | .ok (st, m) => .ok (.next ⟨some [textInput variants input pos], some st, some (textInput variants input pos).1, some q, some q, some (rActVal (.reduce i)), tk, some (rRuleVal i), cs, go, pos + 1,
                  events.map (visitOf variants visits) ++ [.call m]⟩) := by
            intro r h
            rw [hma _ rfl, exec_armHit (s' := (⟨some [textInput variants input pos], some ((.state q :: rest).map (rStackVal variants g)), some (textInput variants input pos).1, some q, some q,
                some (rActVal (.reduce i)), tk, some (rRuleVal i), cs, go, pos + 1, events.map (visitOf variants visits)⟩ : RParseVars T)) _ _ _
              (b := [.simple (rs! "self.reduce_stack_and_visit(reduced_rule, &mut stack)")]) (bs := [("reduced_rule".toList, rRuleVal i)]) rfl rfl, r_execs_one, r_exec_simple, act_pReduce]
            simp only [h]
          have hstep := hstep _ hr
          cases hrd : p.reductions[i]? with
          | none =>
            rw [hrd] at hstep
            rw [r_execs_err (e := .panic) _ _ _ hstep]
          | some x =>
            obtain ⟨k, A⟩ := x
            rw [hrd] at hstep
            simp only [List.length_map] at hstep ⊢
            by_cases hk : (StackSym.state q :: rest).length < 2 * k
            · rw [if_pos hk] at hstep
              rw [if_pos hk, r_execs_err (e := .panic) _ _ _ hstep]
            · rw [if_neg hk] at hstep
              rw [if_neg hk, r_execs_next _ _ _ hstep]
              have hA := hf.lhs _ (List.mem_of_getElem? hrd)
              have hnt' : StackNts g (.nonTerminal A :: (StackSym.state q :: rest).drop (2 * k)) := by
                intro B h
                rcases List.mem_cons.mp h with h | h
                · cases h; exact hA
                · exact hnt B (List.mem_of_mem_drop h)
              have key := exec_rParseGoto hf (inp := textInput variants input) n ⟨some [textInput variants input pos], some ((.nonTerminal A :: (StackSym.state q :: rest).drop (2 * k)).map (rStackVal variants g)), some (textInput variants input pos).1, some q, some q,
                some (rActVal (.reduce i)), tk, some (rRuleVal i), cs, go, pos + 1, (events ++ [LREvent.reduce i]).map (visitOf variants visits)⟩ _ rfl hnt' pos (.reduce i)
              rw [List.map_append, List.map_cons, List.map_drop] at key
              cases hg : lrGoto p.machine (.nonTerminal A :: (StackSym.state q :: rest).drop (2 * k)) pos (.reduce i : LREvent T) with
              | done => rw [hg] at key; exact key
              | unexpected es => rw [hg] at key; exact key.elim
              | panic e => rw [hg] at key; exact key
              | next st' pos' ev =>
                rw [hg] at key
                obtain ⟨rfl, rfl, k3, s', k4, k5, k6, k7, k8⟩ := key
                exact ⟨s', k4, k6, k5, k7, by rw [k8, List.map_append], k3⟩

/-- what the loop does -/
def loopOut (variants : List (List Char)) (visits : List (Nat × List Char)) (input : Nat → Tok × T) (r : Res (ROut (RParseVars T) RParseReturn)) : LRResult T → Prop
  | .ok events pos => ∃ s, r = .ok (.next s) ∧ s.visits = events.map (visitOf variants visits) ∧ s.calls = pos + 1
  | .unexpected events pos es => ∃ s, r = .ok (.ret s (.unexpected (tokVariant variants (input pos).1) (es.filterMap (symVariant variants)))) ∧ s.visits = events.map (visitOf variants visits) ∧ s.calls = pos + 1
  | .panic _ _ => r = .error .panic
  | .running _ _ => r = .error .fuel

include hf in
theorem exec_rParseLoop (n0 n : Nat) (s : RParseVars T) (st : List StackSym) (pos : Nat) (events : List (LREvent T)) (hi : RoundInv (textInput variants input) variants g visits s st pos events) :
    loopOut variants visits input (rLoop ((rParseMachine f (textInput variants input)).test (rs! "!stack.is_empty()")) (fun s => (rParseMachine f (textInput variants input)).execs n0 .nil rParseLoop s) n s)
      (lrRun p.machine input n st pos events) := by
  induction n generalizing s st pos events with
  | zero => rfl
  | succ n ih =>
    rw [rLoop, lrRun]
    have ht : (rParseMachine f (textInput variants input)).test (rs! "!stack.is_empty()") s = some (!(st.map (rStackVal variants g)).isEmpty) := by
      show s.stack.map (fun st => !st.isEmpty) = _
      rw [hi.2.1]; rfl
    rw [ht]
    by_cases hne : st = []
    · subst hne
      exact ⟨s, rfl, hi.2.2.2.1, hi.2.2.1⟩
    · have key := exec_rRoundLR hf input n0 s st pos events hi hne
      rw [show (!(st.map (rStackVal variants g)).isEmpty) = true by cases st with | nil => exact absurd rfl hne | cons => rfl]
      cases hs : lrStep p.machine input st pos with
      | done => rw [hs] at key; exact key.elim
      | unexpected es =>
        rw [hs] at key
        obtain ⟨s', k1, k2, k3⟩ := key
        simp only [k1]
        exact ⟨s', rfl, k2, k3⟩
      | panic e =>
        rw [hs] at key
        simp only at key
        simp only [key]
        rfl
      | next st' pos' ev =>
        rw [hs] at key
        obtain ⟨s', k1, k2⟩ := key
        simp only [k1]
        exact ih s' st' pos' _ k2

include hf in
theorem call_rParse (n : Nat) :
    (callR (rParseMachine f (textInput variants input)) n (rParseStmts (rUsize p.entry)) ⟨none, none, none, none, none, none, none, none, none, none, 0, []⟩).map (fun r => (r.2, r.1.visits, r.1.calls)) =
      rustOutcome variants visits input (lrParse p.machine input n) := by
  unfold callR rParseStmts
  rw [r_execs_next _ _ _ (by rw [r_exec_simple, act_pNewLook]), r_execs_next _ _ _ (by rw [r_exec_simple, act_pPushLook]), r_execs_next _ _ _ (by rw [r_exec_simple, act_pNewStack]),
    r_execs_next _ _ _ (by rw [r_exec_simple, act_pEntry]; rfl)]
  have key := exec_rParseLoop hf input n n ⟨some ([] ++ [textInput variants input 0]), some [.field "StackSymbol".toList "State".toList "state_id".toList (.num p.entry)], none, none, none, none, none, none, none, none, 0 + 1, []⟩
    [.state p.entry] 0 [] ⟨rfl, rfl, rfl, rfl, by intro A h; simp at h⟩
  unfold lrParse
  rw [show p.machine.entry = p.entry from rfl]
  cases hr : lrRun p.machine input n [.state p.entry] 0 [] with
  | ok events pos =>
    rw [hr] at key
    obtain ⟨s, k1, k2, k3⟩ := key
    rw [r_execs_next _ _ _ ((r_exec_while _ _ _ _ _ _).trans k1), r_execs_one, r_exec_tail, act_pOk]
    simp only [Except.map, k2, k3, rustOutcome]
  | unexpected events pos es =>
    rw [hr] at key
    obtain ⟨s, k1, k2, k3⟩ := key
    rw [r_execs_ret _ _ _ ((r_exec_while _ _ _ _ _ _).trans k1)]
    simp only [Except.map, k2, k3, rustOutcome]
  | panic events pos =>
    rw [hr] at key
    rw [r_execs_err _ _ _ ((r_exec_while _ _ _ _ _ _).trans key)]
    rfl
  | running events pos =>
    rw [hr] at key
    rw [r_execs_err _ _ _ ((r_exec_while _ _ _ _ _ _).trans key)]
    rfl

end

end Verif
