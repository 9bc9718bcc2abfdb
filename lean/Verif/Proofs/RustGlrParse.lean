import Verif.Proofs.RustGlrReduces
import Verif.Proofs.RustLRFuns

/-! # The text of the GLR parser: `combine_errors` and `parse` -/

set_option autoImplicit false

namespace Verif

variable {T ε : Type}

/-! ## `combine_errors` -/

/-- the body of `combine_errors` -/
def dCombine : List DStmt :=
  [.choice (rs! "errors.len()") [.arm (rs! "1") [.tail (rs! "errors.pop().unwrap()")], .arm (rs! "0") [.tail (rs! "unreachable!()")],
    .arm (rs! "_") [.simple (rs! "let (got, expected): (Vec<(TokenType, T)>, Vec<Vec<TokenType>>) = errors.into_iter().map(|e| match e { ParserError::UnexpectedToken { got, got_data, expected, } => ((got, got_data), expected), _ => unreachable!(), }).unzip()"),
      .tail (rs! "ParserError::UnexpectedTokens { got, expected }")]]]

theorem act_cOne (s : RCombineVars T) : (rCombineMachine : DMachine (RCombineVars T) (RGlrEnd T ε)).act ((rs! "return").append (rs! "errors.pop().unwrap()")) s = match s.errors.getLast? with
    | none => .error .panic
    | some e => .ok (.ret s (.unexpected e)) := rfl
theorem act_cUnzip (s : RCombineVars T) : (rCombineMachine : DMachine (RCombineVars T) (RGlrEnd T ε)).act (rs! "let (got, expected): (Vec<(TokenType, T)>, Vec<Vec<TokenType>>) = errors.into_iter().map(|e| match e { ParserError::UnexpectedToken { got, got_data, expected, } => ((got, got_data), expected), _ => unreachable!(), }).unzip()") s =
    .ok (.next { s with got := some (s.errors.map fun e => (e.1, e.2.1)), expected := some (s.errors.map fun e => e.2.2) }) := rfl
theorem act_cMany (s : RCombineVars T) : (rCombineMachine : DMachine (RCombineVars T) (RGlrEnd T ε)).act ((rs! "return").append (rs! "ParserError::UnexpectedTokens { got, expected }")) s = match s.got, s.expected with
    | some a, some b => .ok (.ret s (.unexpecteds a b))
    | _, _ => .error .panic := rfl

theorem call_combine (n : Nat × Nat) (variants : List (List Char)) (x : Tok × T) (errors : List (List (Option Nat))) (h : errors ≠ []) :
    (callD (rCombineMachine : DMachine (RCombineVars T) (RGlrEnd T ε)) n dCombine { errors := errors.map (rErrOf variants x.1 x.2) }).map (·.2) = .ok (glrEnd variants x errors) := by
  unfold callD dCombine
  rw [d_one, d_choice]
  match errors with
  | [] => exact absurd rfl h
  | [es] => rw [d_hit _ _ _ rfl, d_one, d_tail, act_cOne]; rfl
  | e1 :: e2 :: es =>
    rw [d_miss _ _ _ rfl, d_miss _ _ _ rfl, d_hit _ _ _ rfl, d_next _ _ _ (by rw [d_simple, act_cUnzip]), d_one, d_tail, act_cMany]
    simp only [List.map_map, Except.map, glrEnd]
    rfl

/-! ## Statements of `parse` -/

section
variable {f : RGlrCalls T} {reduces : RApplyAll T} {combine : List (RUnexpected T) → Res (RGlrEnd T ε)} {inp : Nat → Except ε (List Char × T)}

theorem act_gLook (s : RGlrVars T) : (rGlrMachine hGss f reduces combine inp).act (rs! "let mut lookahead = std::collections::VecDeque::new()") s = .ok (.next { s with lookahead := some [] }) := rfl
theorem act_gNext (s : RGlrVars T) : (rGlrMachine hGss f reduces combine inp).act (rs! "lookahead.push_back((self.token_function)().map_err(|e| ParserError::LexerError { inner: e })?)") s = match s.lookahead with
    | none => .error .panic
    | some l =>
      match inp s.calls with
      | .error e => .ok (.ret { s with calls := s.calls + 1 } (.lexerError e))
      | .ok x => .ok (.next { s with lookahead := some (l ++ [x]), calls := s.calls + 1 }) := rfl
theorem act_gRoot (s : RGlrVars T) : (rGlrMachine hGss f reduces combine inp).act (rs! "let root = GraphNode::root()") s = .ok (.next { s with heap := s.heap.root.1, root := some s.heap.root.2 }) := rfl
theorem act_gStacks (s : RGlrVars T) : (rGlrMachine hGss f reduces combine inp).act (rs! "let mut stacks = vec![stack]") s = match s.stack with
    | none => .error .panic
    | some x => .ok (.next { s with active := some [x] }) := rfl
theorem act_gFront (s : RGlrVars T) : (rGlrMachine hGss f reduces combine inp).act (rs! "let (next_token, next_data) = lookahead.front().unwrap()") s = match s.lookahead with
    | some (x :: _) => .ok (.next { s with next := some x })
    | _ => .error .panic := rfl
theorem act_gReduce (s : RGlrVars T) : (rGlrMachine hGss f reduces combine inp).act (rs! "let reduced = self.apply_reduces(stacks, next_token, next_data).map_err(combine_errors)?") s = match s.active, s.next with
    | some l, some x =>
      match reduces s.heap l x.1 x.2 with
      | .error e => .error e
      | .ok (h, .ok r) => .ok (.next { s with heap := h, reduced := some r })
      | .ok (h, .error es) =>
        match combine es with
        | .error e => .error e
        | .ok r => .ok (.ret { s with heap := h } r)
    | _, _ => .error .panic := rfl
theorem act_gTake (s : RGlrVars T) : (rGlrMachine hGss f reduces combine inp).act (rs! "let (next_token, next_data) = lookahead.pop_front().unwrap()") s = match s.lookahead with
    | some (x :: l) => .ok (.next { s with lookahead := some l, next := some x })
    | _ => .error .panic := rfl
theorem act_gSymbol (s : RGlrVars T) : (rGlrMachine hGss f reduces combine inp).act (rs! "let new_symbol = StackSymbol::Terminal { token: next_token }") s = match s.next with
    | none => .error .panic
    | some x => .ok (.next { s with newSymbol := some (.field "StackSymbol".toList "Terminal".toList "token".toList (.variant "TokenType".toList x.1)) }) := rfl
theorem act_gReduced (s : RGlrVars T) : (rGlrMachine hGss f reduces combine inp).act ((rs! "let mut new_stacks =").append (rs! "reduced")) s = match s.reduced with
    | none => .error .panic
    | some l => .ok (.next { s with newStacks := some l }) := rfl
theorem act_gNew (s : RGlrVars T) : (rGlrMachine hGss f reduces combine inp).act (rs! "let mut new_stacks = Vec::new()") s = .ok (.next { s with newStacks := some [] }) := rfl
theorem act_gSame (s : RGlrVars T) : (rGlrMachine hGss f reduces combine inp).act ((rs! "let mut new_stacks =").append (rs! "new_stacks")) s = match s.newStacks with
    | none => .error .panic
    | some _ => .ok (.next s) := rfl
theorem act_gState (s : RGlrVars T) : (rGlrMachine hGss f reduces combine inp).act (rs! "let state = *stack.top().unwrap()") s = match s.stack.bind s.heap.top with
    | none => .error .panic
    | some q => .ok (.next { s with state := some q }) := by
  show (match s.stack with | none => .error .panic | some x => (match (.ok (s.heap.top x) : Res (Option Nat)) with | .error e => .error e | .ok none => .error .panic | .ok (some q) => .ok (.next { s with state := some q })) : Res (ROut (RGlrVars T) (RGlrEnd T ε))) = _
  cases s.stack with
  | none => rfl
  | some x =>
    simp only [Option.bind_some]
    cases s.heap.top x <;> rfl
theorem act_gRecord (s : RGlrVars T) : (rGlrMachine hGss f reduces combine inp).act (rs! "stack.record(RecordedVisit::Shift { token: next_token, data: next_data.clone(), })") s = match s.stack, s.next with
    | some x, some t => .ok (.next { s with heap := s.heap.record x (.shift t.1 t.2) })
    | _, _ => .error .panic := rfl
theorem act_gPush (s : RGlrVars T) : (rGlrMachine hGss f reduces combine inp).act (rs! "let new_node = stack.push(Some(state_id), Some(new_symbol))") s = match s.stack, s.stateId, s.newSymbol with
    | some x, some q, some v => .ok (.next { s with heap := (s.heap.push x (some q) (some v)).1, newNode := some (s.heap.push x (some q) (some v)).2 })
    | _, _, _ => .error .panic := rfl
theorem act_gKeep (s : RGlrVars T) : (rGlrMachine hGss f reduces combine inp).act (rs! "new_stacks.push(new_node)") s = match s.newStacks, s.newNode with
    | some l, some x => .ok (.next { s with newStacks := some (l ++ [x]) })
    | _, _ => .error .panic := rfl
theorem act_gUnit (s : RGlrVars T) : (rGlrMachine hGss f reduces combine inp).act ((RForest.nil).append (rs! "()")) s = .ok (.next s) := rfl
theorem act_gUnreachable (s : RGlrVars T) : (rGlrMachine hGss f reduces combine inp).act ((RForest.nil).append (rs! "unreachable!()")) s = .error .panic := rfl
theorem act_gLast (s : RGlrVars T) : (rGlrMachine hGss f reduces combine inp).act (rs! "let stack = new_stacks.pop().unwrap()") s = match s.newStacks with
    | none => .error .panic
    | some l =>
      match l.getLast? with
      | none => .error .panic
      | some x => .ok (.next { s with newStacks := some l.dropLast, stack := some x }) := rfl
theorem act_gRecorded (s : RGlrVars T) : (rGlrMachine hGss f reduces combine inp).act (rs! "let recorded = stack.pop_recorded()") s = match s.stack with
    | none => .error .panic
    | some x => .ok (.next { s with heap := (s.heap.popRecorded x).1, recorded := some (s.heap.popRecorded x).2 }) := rfl
theorem act_gVisit (s : RGlrVars T) : (rGlrMachine hGss f reduces combine inp).act ((RForest.nil).append (rs! "self.do_visit(&rule)")) s = match s.rule with
    | none => .error .panic
    | some r =>
      match f.visit r with
      | .error e => .error e
      | .ok m => .ok (.next { s with visits := s.visits ++ [.call m] }) := rfl
theorem act_gShift (s : RGlrVars T) : (rGlrMachine hGss f reduces combine inp).act ((RForest.nil).append (rs! "self.visitor.shift(token, data)")) s = match s.shifted with
    | none => .error .panic
    | some x => .ok (.next { s with visits := s.visits ++ [.shift x.1 x.2] }) := rfl
theorem act_gOne (s : RGlrVars T) : (rGlrMachine hGss f reduces combine inp).act (rs! "stacks = vec![stack]") s = match s.stack with
    | none => .error .panic
    | some x => .ok (.next { s with active := some [x] }) := rfl
theorem act_gMany (s : RGlrVars T) : (rGlrMachine hGss f reduces combine inp).act (rs! "stacks = new_stacks") s = match s.newStacks with
    | none => .error .panic
    | some l => .ok (.next { s with active := some l }) := rfl
theorem act_gOk (s : RGlrVars T) : (rGlrMachine hGss f reduces combine inp).act ((rs! "return").append (rs! "Ok(())")) s = .ok (.ret s .ok) := rfl
theorem act_gEntry (q : Nat) (s : RGlrVars T) :
    let entry := rUsize q
    (rGlrMachine hGss f reduces combine inp).act (rs! "let stack = root.push(Some(#entry), None)") s = match s.root with
      | none => .error .panic
      | some r => .ok (.next { s with heap := (s.heap.push r (some q) none).1, stack := some (s.heap.push r (some q) none).2 }) := by
  intro entry
  show (if (rs! "let stack = root.push(Some(#entry), None)") = (rs! "let stack = root.push(Some(#entry), None)") then
    (match readValue 5 (rUsize q), s.root with
      | some (.num q), some r => Except.ok (ROut.next { s with heap := (s.heap.push r (some q) none).1, stack := some (s.heap.push r (some q) none).2 })
      | _, _ => Except.error Err.panic) else Except.error Err.panic) = _
  rw [if_pos rfl, readValue_num]
  cases s.root <;> rfl

/-- the arms of the first `match` -/
def dShiftArms : List DStmt :=
  [.arm (rs! "Some(Goto::State { state_id })") [.simple (rs! "stack.record(RecordedVisit::Shift { token: next_token, data: next_data.clone(), })"),
      .simple (rs! "let new_node = stack.push(Some(state_id), Some(new_symbol))"), .simple (rs! "new_stacks.push(new_node)")],
    .arm (rs! "Some(Goto::Accept)") [.tail (rs! "unreachable!()")], .arm (rs! "None") [.tail (rs! "()")]]

/-- shifting one stack -/
def dShiftRound : List DStmt := [.simple (rs! "let state = *stack.top().unwrap()"), .choice (rs! "self.next_goto(&state, &new_symbol)") dShiftArms]

/-- the arms of the second `match` -/
def dReportArms : List DStmt :=
  [.arm (rs! "RecordedVisit::Reduce { rule }") [.tail (rs! "self.do_visit(&rule)")], .arm (rs! "RecordedVisit::Shift { token, data }") [.tail (rs! "self.visitor.shift(token, data)")]]

/-- reporting -/
def dReport : List DStmt :=
  [.simple (rs! "let stack = new_stacks.pop().unwrap()"), .simple (rs! "let recorded = stack.pop_recorded()"), .forDo (rs! "record in recorded") [.choice (rs! "record") dReportArms],
    .simple (rs! "stacks = vec![stack]")]

/-- the last two statements of a round -/
def dRoundEnd : List DStmt :=
  [.ifDo (some (rs! "let mut new_stacks =")) (rs! "reduced.iter().any(|s| s.top().is_none())") [.tail (rs! "reduced")]
      [.simple (rs! "let mut new_stacks = Vec::new()"), .forDo (rs! "stack in reduced") dShiftRound, .tail (rs! "new_stacks")],
    .ifDo none (rs! "new_stacks.len() == 1") dReport [.simple (rs! "stacks = new_stacks")]]

/-- one round of the loop -/
def dRound : List DStmt :=
  [.simple (rs! "let (next_token, next_data) = lookahead.front().unwrap()"),
    .simple (rs! "let reduced = self.apply_reduces(stacks, next_token, next_data).map_err(combine_errors)?"),
    .simple (rs! "let (next_token, next_data) = lookahead.pop_front().unwrap()"),
    .simple (rs! "let new_symbol = StackSymbol::Terminal { token: next_token }"),
    .simple (rs! "lookahead.push_back((self.token_function)().map_err(|e| ParserError::LexerError { inner: e })?)")] ++ dRoundEnd

/-- the body of `parse` -/
def dParse (entry : RForest) : List DStmt :=
  [.simple (rs! "let mut lookahead = std::collections::VecDeque::new()"),
    .simple (rs! "lookahead.push_back((self.token_function)().map_err(|e| ParserError::LexerError { inner: e })?)"),
    .simple (rs! "let root = GraphNode::root()"), .simple (rs! "let stack = root.push(Some(#entry), None)"), .simple (rs! "let mut stacks = vec![stack]"),
    .whileDo (rs! "!(stacks.len() == 1 && stacks[0].is_root())") dRound, .tail (rs! "Ok(())")]

/-! ## Execution -/

/-- `apply_reduces` does what the model does -/
def ReducesFit (reduces : RApplyAll T) (variants : List (List Char)) (g : Grammar) (m : GlrMachine) (fuel : Nat) : Prop :=
  ∀ (x : Tok × T) (h : GlrHeap T) (xs : List GNode), h.RecsOk (EventOk m) → match applyReduces m x.1 fuel h [] xs with
    | .error e => reduces (textHeap variants g h) xs (tokVariant variants x.1) x.2 = .error e
    | .ok (.ok h' reduced) => h'.RecsOk (EventOk m) ∧ reduces (textHeap variants g h) xs (tokVariant variants x.1) x.2 = .ok (textHeap variants g h', .ok reduced)
    | .ok (.unexpected errors) => errors ≠ [] ∧ ∃ h', reduces (textHeap variants g h) xs (tokVariant variants x.1) x.2 = .ok (h', .error (errors.map (rErrOf variants x.1 x.2)))

variable {variants : List (List Char)} {g : Grammar} {m : GlrMachine} {visits : List (Nat × List Char)} (hf : DCallsFit f variants g m visits)

/-- the variables while stacks are shifted -/
def ShiftInv (variants : List (List Char)) (g : Grammar) (m : GlrMachine) (x : Tok × T) (c : Nat) (v : List (RVisit T)) (la : Option (List (List Char × T))) (s : RGlrVars T) (st : GlrHeap T × List GNode) : Prop :=
  s.heap = textHeap variants g st.1 ∧ s.newStacks = some st.2 ∧ s.newSymbol = some (rStackVal variants g (.terminal x.1)) ∧ s.next = some (tokVariant variants x.1, x.2) ∧ s.calls = c ∧ s.visits = v ∧
    s.lookahead = la ∧ st.1.RecsOk (EventOk m)

include hf in
theorem sim_shift (n : Nat × Nat) (t : Tok × T) (c : Nat) (v : List (RVisit T)) (la : Option (List (List Char × T))) (s : RGlrVars T) (st : GlrHeap T × List GNode) (x : GNode)
    (h : ShiftInv variants g m t c v la s st) :
    Sim (ShiftInv variants g m t c v la) ((rGlrMachine hGss f reduces combine inp).execs n .nil dShiftRound { s with stack := some x }) (shiftStack m t.1 t.2 st x) := by
  obtain ⟨heap, calls, vis, look, root, stk, act, nxt, red, nsy, nst, q0, sid, nn, rc, rcd, ru, shf⟩ := s
  obtain ⟨sh, sl⟩ := st
  obtain ⟨h1, h2, h3, h4, h5, h6, h7, h8⟩ := h
  simp only at h1 h2 h3 h4 h5 h6 h7 h8
  subst h1 h2 h3 h4 h5 h6 h7
  unfold dShiftRound shiftStack
  have htop := relabel_top (rStackVal variants g) (recOf variants) sh x
  simp only
  cases ht : sh.top x with
  | none =>
    rw [ht] at htop
    rw [d_err (e := .panic) _ _ _ (by rw [d_simple, act_gState]; simp only [Option.bind_some, htop])]
    rfl
  | some q =>
    rw [ht] at htop
    rw [d_next _ _ _ (s' := ⟨textHeap variants g sh, calls, vis, look, root, some x, act, some (tokVariant variants t.1, t.2), red, some (rStackVal variants g (.terminal t.1)), some sl, some q, sid, nn, rc, rcd, ru, shf⟩)
      (by rw [d_simple, act_gState]; simp only [Option.bind_some, htop]), d_one, d_choice]
    have hg := hf.goto q (.terminal t.1) (by intro B e; cases e)
    have hhit : ∀ p, (rGlrMachine hGss f reduces combine inp).hit (rs! "self.next_goto(&state, &new_symbol)") p
        ⟨textHeap variants g sh, calls, vis, look, root, some x, act, some (tokVariant variants t.1, t.2), red, some (rStackVal variants g (.terminal t.1)), some sl, some q, sid, nn, rc, rcd, ru, shf⟩ =
        gotoHit (.ok ((m.nextGoto q (.terminal t.1)).map rGotoVal)) (fun q' => ⟨textHeap variants g sh, calls, vis, look, root, some x, act, some (tokVariant variants t.1, t.2), red,
          some (rStackVal variants g (.terminal t.1)), some sl, some q, some q', nn, rc, rcd, ru, shf⟩)
          ⟨textHeap variants g sh, calls, vis, look, root, some x, act, some (tokVariant variants t.1, t.2), red, some (rStackVal variants g (.terminal t.1)), some sl, some q, sid, nn, rc, rcd, ru, shf⟩ p := by
      intro p
      rw [← hg]; rfl
    unfold dShiftArms
    simp only
    cases hm : m.nextGoto q (.terminal t.1) with
    | none =>
      rw [hm] at hhit
      rw [d_miss _ _ _ ((hhit _).trans rfl), d_miss _ _ _ ((hhit _).trans rfl), d_hit _ _ _ ((hhit _).trans rfl), d_one, d_tail, act_gUnit]
      exact ⟨_, rfl, rfl, rfl, rfl, rfl, rfl, rfl, rfl, h8⟩
    | some a =>
      cases a with
      | accept =>
        rw [hm] at hhit
        rw [d_miss _ _ _ ((hhit _).trans rfl), d_hit _ _ _ ((hhit _).trans rfl), d_one, d_tail, act_gUnreachable]
        rfl
      | state q' =>
        rw [hm] at hhit
        have hrec : (textHeap variants g sh).record x (.shift (tokVariant variants t.1) t.2) = textHeap variants g (sh.record x (.shift t.1 t.2)) :=
          relabel_record (rStackVal variants g) (recOf variants) sh x (.shift t.1 t.2)
        have hpush := relabel_push (rStackVal variants g) (recOf variants) (sh.record x (.shift t.1 t.2)) x (some q') (some (.terminal t.1))
        rw [d_hit _ _ _ ((hhit _).trans rfl), d_next _ _ _ (s' := ⟨textHeap variants g (sh.record x (.shift t.1 t.2)), calls, vis, look, root, some x, act, some (tokVariant variants t.1, t.2), red,
          some (rStackVal variants g (.terminal t.1)), some sl, some q, some q', nn, rc, rcd, ru, shf⟩) (by rw [d_simple, act_gRecord]; simp only [hrec]), d_next _ _ _ (by rw [d_simple, act_gPush]), d_one, d_simple, act_gKeep]
        refine ⟨_, rfl, ?_, ?_, rfl, rfl, rfl, rfl, rfl, recsOk_push (recsOk_record (x := LREvent.shift t.1 t.2) h8 x trivial) _ _ _⟩
        · exact congrArg Prod.fst hpush
        · exact congrArg (fun y => some (sl ++ [y.2])) hpush

/-- the variables that a report does not change -/
def SameVars (s s' : RGlrVars T) : Prop := s'.heap = s.heap ∧ s'.calls = s.calls ∧ s'.lookahead = s.lookahead ∧ s'.stack = s.stack

include hf in
theorem run_report (n : Nat × Nat) (evs : List (LREvent T)) (s : RGlrVars T) (h : ∀ e ∈ evs, EventOk m e) :
    ∃ s', rEach (fun s => (rGlrMachine hGss f reduces combine inp).execs n .nil [.choice (rs! "record") dReportArms] s) ((evs.map (recOf variants)).map fun x s => { s with record := some x }) s = .ok (.next s') ∧
      s'.visits = s.visits ++ evs.map (visitOf variants visits) ∧ SameVars s s' := by
  induction evs generalizing s with
  | nil => exact ⟨s, rfl, by simp, rfl, rfl, rfl, rfl⟩
  | cons e evs ih =>
    have h1 := h e (by simp)
    have h2 : ∀ e ∈ evs, EventOk m e := fun x hx => h x (by simp [hx])
    obtain ⟨heap, calls, vis, look, root, stk, act, nxt, red, nsy, nst, q0, sid, nn, rc, rcd, ru, shf⟩ := s
    simp only [List.map_cons]
    rw [rEach]
    unfold dReportArms at ih ⊢
    cases e with
    | shift t d =>
      rw [d_one, d_choice, d_miss _ _ _ rfl, d_hit (s' := (⟨heap, calls, vis, look, root, stk, act, nxt, red, nsy, nst, q0, sid, nn, rc, some (.shift (tokVariant variants t) d), ru, some (tokVariant variants t, d)⟩ : RGlrVars T)) _ _ _ rfl,
        d_one, d_tail, act_gShift]
      obtain ⟨s', k1, k2, k3⟩ := ih ⟨heap, calls, vis ++ [.shift (tokVariant variants t) d], look, root, stk, act, nxt, red, nsy, nst, q0, sid, nn, rc, some (.shift (tokVariant variants t) d), ru, some (tokVariant variants t, d)⟩ h2
      exact ⟨s', k1, by rw [k2, List.append_assoc]; rfl, k3⟩
    | reduce i =>
      have hv := hf.visit i h1
      rw [d_one, d_choice, d_hit (s' := (⟨heap, calls, vis, look, root, stk, act, nxt, red, nsy, nst, q0, sid, nn, rc, some (.reduce (rRuleVal i)), some (rRuleVal i), shf⟩ : RGlrVars T)) _ _ _ rfl, d_one, d_tail, act_gVisit]
      simp only [hv]
      obtain ⟨s', k1, k2, k3⟩ := ih ⟨heap, calls, vis ++ [.call (((visits.find? (fun x => x.1 = i)).map (·.2)).getD [])], look, root, stk, act, nxt, red, nsy, nst, q0, sid, nn, rc, some (.reduce (rRuleVal i)), some (rRuleVal i), shf⟩ h2
      exact ⟨s', k1, by rw [k2, List.append_assoc]; rfl, k3⟩

theorem shiftPhase_error {tk : Tok} {data : T} {h : GlrHeap T} {reduced : List GNode} {e : Err} (hx : shiftPhase m tk data h reduced = .error e) : e = .panic := by
  unfold shiftPhase at hx
  split at hx
  · cases hx
  · have : ∀ (l : List GNode) (st : GlrHeap T × List GNode), l.foldlM (shiftStack m tk data) st = .error e → e = .panic := by
      intro l
      induction l with
      | nil => intro st h; cases h
      | cons x l ih =>
        intro st h
        rw [List.foldlM_cons] at h
        cases hs : shiftStack m tk data st x with
        | ok st' => rw [hs] at h; exact ih st' h
        | error e' =>
          rw [hs] at h
          cases h
          unfold shiftStack at hs
          repeat' (split at hs)
          all_goals (first | (cases hs; rfl) | cases hs)
    exact this _ _ hx

/-- the variables at the start of a round -/
def GlrInv (variants : List (List Char)) (g : Grammar) (m : GlrMachine) (visits : List (Nat × List Char)) (x : List Char × T) (h : GlrHeap T) (xs : List GNode) (pos : Nat) (events : List (LREvent T)) (s : RGlrVars T) : Prop :=
  s.heap = textHeap variants g h ∧ s.active = some xs ∧ s.calls = pos + 1 ∧ s.lookahead = some [x] ∧ s.visits = events.map (visitOf variants visits) ∧ h.RecsOk (EventOk m)

include hf in
theorem run_roundEnd (n : Nat × Nat) (t : Tok × T) (y : List Char × T) (h : GlrHeap T) (reduced : List GNode) (pos : Nat) (events : List (LREvent T)) (s : RGlrVars T) (h1 : s.heap = textHeap variants g h)
    (h2 : s.reduced = some reduced) (h3 : s.calls = pos + 1 + 1) (h4 : s.lookahead = some [y]) (h5 : s.visits = events.map (visitOf variants visits)) (h6 : h.RecsOk (EventOk m))
    (h7 : s.next = some (tokVariant variants t.1, t.2)) (h8 : s.newSymbol = some (rStackVal variants g (.terminal t.1))) :
    match shiftPhase m t.1 t.2 h reduced with
    | .error e => (rGlrMachine hGss f reduces combine inp).execs n .nil dRoundEnd s = .error e
    | .ok (h', xs) => ∃ s', (rGlrMachine hGss f reduces combine inp).execs n .nil dRoundEnd s = .ok (.next s') ∧
        GlrInv variants g m visits y (reportPhase h' xs).1 xs (pos + 1) (events ++ (reportPhase h' xs).2) s' := by
  have first : match shiftPhase m t.1 t.2 h reduced with
      | .error e => (rGlrMachine hGss f reduces combine inp).exec n .nil (.ifDo (some (rs! "let mut new_stacks =")) (rs! "reduced.iter().any(|s| s.top().is_none())") [.tail (rs! "reduced")]
          [.simple (rs! "let mut new_stacks = Vec::new()"), .forDo (rs! "stack in reduced") dShiftRound, .tail (rs! "new_stacks")]) s = .error e
      | .ok (h', xs) => ∃ s', (rGlrMachine hGss f reduces combine inp).exec n .nil (.ifDo (some (rs! "let mut new_stacks =")) (rs! "reduced.iter().any(|s| s.top().is_none())") [.tail (rs! "reduced")]
          [.simple (rs! "let mut new_stacks = Vec::new()"), .forDo (rs! "stack in reduced") dShiftRound, .tail (rs! "new_stacks")]) s = .ok (.next s') ∧ s'.heap = textHeap variants g h' ∧ s'.newStacks = some xs ∧
          s'.calls = pos + 1 + 1 ∧ s'.lookahead = some [y] ∧ s'.visits = events.map (visitOf variants visits) ∧ h'.RecsOk (EventOk m) := by
    obtain ⟨heap, calls, vis, look, root, stk, act, nxt, red, nsy, nst, q0, sid, nn, rc, rcd, ru, shf⟩ := s
    simp only at h1 h2 h3 h4 h5 h7 h8
    subst h1 h2 h3 h4 h5 h7 h8
    have htest : (rGlrMachine hGss f reduces combine inp).test (rs! "reduced.iter().any(|s| s.top().is_none())") ⟨textHeap variants g h, pos + 1 + 1, events.map (visitOf variants visits), some [y], root, stk, act,
        some (tokVariant variants t.1, t.2), some reduced, some (rStackVal variants g (.terminal t.1)), nst, q0, sid, nn, rc, rcd, ru, shf⟩ = some (reduced.any fun x => h.isRoot x) := by
      show (reduced.anyM fun x => ((.ok ((textHeap variants g h).top x) : Res (Option Nat)).map (·.isNone))).toOption = _
      rw [show (fun x => ((.ok ((textHeap variants g h).top x) : Res (Option Nat)).map (·.isNone))) = fun x => (pure ((textHeap variants g h).top x).isNone : Res Bool) from rfl, List.anyM_pure]
      show some (reduced.any fun x => ((textHeap variants g h).top x).isNone) = _
      simp only [relabel_top]; rfl
    rw [d_if _ _ _ htest]
    unfold shiftPhase
    cases hany : reduced.any fun x => h.isRoot x with
    | true =>
      simp only [if_true]
      rw [d_one, d_tail]
      simp only [Option.getD_some]
      rw [act_gReduced]
      exact ⟨_, rfl, rfl, rfl, rfl, rfl, rfl, h6⟩
    | false =>
      simp only [Bool.false_eq_true, if_false]
      have key := sim_each (Inv := ShiftInv variants g m t (pos + 1 + 1) (events.map (visitOf variants visits)) (some [y])) (fun s => (rGlrMachine hGss f reduces combine inp).execs n .nil dShiftRound s)
        (shiftStack m t.1 t.2) (fun x s => { s with stack := some x }) (fun s st x h => sim_shift hf n t _ _ _ s st x h) reduced
        ⟨textHeap variants g h, pos + 1 + 1, events.map (visitOf variants visits), some [y], root, stk, act, some (tokVariant variants t.1, t.2), some reduced, some (rStackVal variants g (.terminal t.1)), some [], q0, sid, nn,
          rc, rcd, ru, shf⟩ (h, []) ⟨rfl, rfl, rfl, rfl, rfl, rfl, rfl, h6⟩
      rw [d_next _ _ _ (by rw [d_simple, act_gNew])]
      cases hF : reduced.foldlM (shiftStack m t.1 t.2) (h, []) with
      | error e =>
        rw [hF] at key
        simp only [Sim] at key
        simp only
        rw [d_err _ _ _ ((d_for _ _ _ rfl).trans key)]
      | ok st =>
        rw [hF] at key
        obtain ⟨s', k1, k2, k3, k4, k5, k6, k7, k8, k9⟩ := key
        rw [d_next _ _ _ ((d_for _ _ _ rfl).trans k1), d_one, d_tail]
        simp only [Option.getD_some]
        rw [act_gSame, k3]
        exact ⟨s', rfl, k2, k3, k6, k8, k7, k9⟩
  unfold dRoundEnd
  cases hs : shiftPhase m t.1 t.2 h reduced with
  | error e =>
    rw [hs] at first
    simp only at first ⊢
    rw [d_err _ _ _ first]
  | ok st =>
    obtain ⟨h', xs⟩ := st
    rw [hs] at first
    obtain ⟨s', k1, k2, k3, k4, k5, k6, k7⟩ := first
    simp only
    rw [d_next _ _ _ k1, d_one]
    obtain ⟨heap, calls, vis, look, root, stk, act, nxt, red, nsy, nst, q0, sid, nn, rc, rcd, ru, shf⟩ := s'
    simp only at k2 k3 k4 k5 k6
    subst k2 k3 k4 k5 k6
    have htest : (rGlrMachine hGss f reduces combine inp).test (rs! "new_stacks.len() == 1") ⟨textHeap variants g h', pos + 1 + 1, events.map (visitOf variants visits), some [y], root, stk, act,
        nxt, red, nsy, some xs, q0, sid, nn, rc, rcd, ru, shf⟩ = some (xs.length == 1) := rfl
    rw [d_if _ _ _ htest]
    have other : xs.length ≠ 1 → ∃ s', (rGlrMachine hGss f reduces combine inp).execs n .nil (if (xs.length == 1) = true then dReport else [.simple (rs! "stacks = new_stacks")]) ⟨textHeap variants g h', pos + 1 + 1,
        events.map (visitOf variants visits), some [y], root, stk, act, nxt, red, nsy, some xs, q0, sid, nn, rc, rcd, ru, shf⟩ = .ok (.next s') ∧
        GlrInv variants g m visits y h' xs (pos + 1) (events ++ []) s' := by
      intro hne
      rw [if_neg (by simpa using hne), d_one, d_simple, act_gMany]
      exact ⟨_, rfl, rfl, rfl, rfl, rfl, by rw [List.append_nil], k7⟩
    match xs with
    | [] => exact other (by simp)
    | x1 :: x2 :: xs' => exact other (by simp)
    | [x] =>
      simp only [reportPhase, List.length_singleton, beq_self_eq_true, if_true, Option.getD_none]
      unfold dReport
      obtain ⟨r1, r2⟩ := recsOk_popRecorded k7 x
      rw [d_next _ _ _ (by rw [d_simple, act_gLast]; rfl), d_next _ _ _ (s' := ⟨textHeap variants g (h'.popRecorded x).1, pos + 1 + 1, events.map (visitOf variants visits), some [y], root, some x, act, nxt, red, nsy, some [], q0, sid, nn,
        some ((h'.popRecorded x).2.map (recOf variants)), rcd, ru, shf⟩) (by
          rw [d_simple, act_gRecorded]
          simp only [relabel_popRecorded]
          rfl)]
      obtain ⟨s', j1, j2, j3, j4, j5, j6⟩ := run_report (reduces := reduces) (combine := combine) (inp := inp) hf n (h'.popRecorded x).2 ⟨textHeap variants g (h'.popRecorded x).1, pos + 1 + 1,
        events.map (visitOf variants visits), some [y], root, some x, act, nxt, red, nsy, some [], q0, sid, nn, some ((h'.popRecorded x).2.map (recOf variants)), rcd, ru, shf⟩ r2
      rw [d_next _ _ _ ((d_for _ _ _ rfl).trans j1), d_one, d_simple, act_gOne, j6]
      exact ⟨_, rfl, j3, rfl, j4, j5, by rw [List.map_append]; exact j2, r1⟩

/-- what a round does -/
def glrRoundOut (variants : List (List Char)) (g : Grammar) (m : GlrMachine) (visits : List (Nat × List Char)) (inp : Nat → Except ε (List Char × T)) (rfuel : Nat) (t : Tok × T) (h : GlrHeap T) (xs : List GNode)
    (pos : Nat) (events : List (LREvent T)) (r : Res (ROut (RGlrVars T) (RGlrEnd T ε))) : Prop :=
  match applyReduces m t.1 rfuel h [] xs with
  | .error e => r = .error e
  | .ok (.unexpected errors) => ∃ s', r = .ok (.ret s' (glrEnd variants t errors)) ∧ s'.visits = events.map (visitOf variants visits) ∧ s'.calls = pos + 1
  | .ok (.ok h' reduced) =>
    match inp (pos + 1) with
    | .error e => ∃ s', r = .ok (.ret s' (.lexerError e)) ∧ s'.visits = events.map (visitOf variants visits) ∧ s'.calls = pos + 1 + 1
    | .ok y =>
      match shiftPhase m t.1 t.2 h' reduced with
      | .error _ => r = .error .panic
      | .ok (h'', xs') => ∃ s', r = .ok (.next s') ∧ GlrInv variants g m visits y (reportPhase h'' xs').1 xs' (pos + 1) (events ++ (reportPhase h'' xs').2) s'

include hf in
theorem run_round (rfuel : Nat) (hr : ReducesFit reduces variants g m rfuel) (hc : ∀ (x : Tok × T) (errors : List (List (Option Nat))), errors ≠ [] → combine (errors.map (rErrOf variants x.1 x.2)) = .ok (glrEnd variants x errors))
    (n : Nat × Nat) (t : Tok × T) (h : GlrHeap T) (xs : List GNode) (pos : Nat) (events : List (LREvent T)) (s : RGlrVars T) (hs : GlrInv variants g m visits (tokVariant variants t.1, t.2) h xs pos events s) :
    glrRoundOut variants g m visits inp rfuel t h xs pos events ((rGlrMachine hGss f reduces combine inp).execs n .nil dRound s) := by
  obtain ⟨heap, calls, vis, look, root, stk, act, nxt, red, nsy, nst, q0, sid, nn, rc, rcd, ru, shf⟩ := s
  obtain ⟨h1, h2, h3, h4, h5, h6⟩ := hs
  simp only at h1 h2 h3 h4 h5
  subst h1 h2 h3 h4 h5
  have hrd := hr t h xs h6
  unfold glrRoundOut dRound
  simp only [List.cons_append, List.nil_append]
  rw [d_next _ _ _ (by rw [d_simple, act_gFront])]
  cases hA : applyReduces m t.1 rfuel h [] xs with
  | error e =>
    rw [hA] at hrd
    simp only at hrd ⊢
    rw [d_err _ _ _ (by rw [d_simple, act_gReduce]; simp only [hrd]; rfl)]
  | ok r =>
    cases r with
    | unexpected errors =>
      rw [hA] at hrd
      obtain ⟨k1, h', k2⟩ := hrd
      simp only
      rw [d_ret _ _ _ (by rw [d_simple, act_gReduce]; simp only [k2, hc t errors k1]; rfl)]
      exact ⟨_, rfl, rfl, rfl⟩
    | ok h' reduced =>
      rw [hA] at hrd
      obtain ⟨k1, k2⟩ := hrd
      simp only
      rw [d_next _ _ _ (by rw [d_simple, act_gReduce]; simp only [k2]; rfl), d_next _ _ _ (by rw [d_simple, act_gTake]), d_next _ _ _ (by rw [d_simple, act_gSymbol])]
      cases hi : inp (pos + 1) with
      | error e =>
        simp only
        rw [show dRoundEnd = _ :: _ from rfl, d_ret _ _ _ (by rw [d_simple, act_gNext]; simp only [hi]; rfl)]
        exact ⟨_, rfl, rfl, rfl⟩
      | ok y =>
        have key := run_roundEnd (reduces := reduces) (combine := combine) (inp := inp) hf n t y h' reduced pos events ⟨textHeap variants g h', pos + 1 + 1, events.map (visitOf variants visits), some ([] ++ [y]), root, stk, some xs,
          some (tokVariant variants t.1, t.2), some reduced, some (rStackVal variants g (.terminal t.1)), nst, q0, sid, nn, rc, rcd, ru, shf⟩ rfl rfl rfl rfl rfl k1 rfl rfl
        have hstep : (rGlrMachine hGss f reduces combine inp).execs n .nil (.simple (rs! "lookahead.push_back((self.token_function)().map_err(|e| ParserError::LexerError { inner: e })?)") :: dRoundEnd)
            ⟨textHeap variants g h', pos + 1, events.map (visitOf variants visits), some [], root, stk, some xs,
              some (tokVariant variants t.1, t.2), some reduced, some (rStackVal variants g (.terminal t.1)), nst, q0, sid, nn, rc, rcd, ru, shf⟩ =
            (rGlrMachine hGss f reduces combine inp).execs n .nil dRoundEnd ⟨textHeap variants g h', pos + 1 + 1, events.map (visitOf variants visits), some ([] ++ [y]), root, stk, some xs,
              some (tokVariant variants t.1, t.2), some reduced, some (rStackVal variants g (.terminal t.1)), nst, q0, sid, nn, rc, rcd, ru, shf⟩ := by
          rw [show dRoundEnd = _ :: _ from rfl, d_next _ _ _ (by rw [d_simple, act_gNext]; simp only [hi]; rfl)]
        simp only
        cases hS : shiftPhase m t.1 t.2 h' reduced with
        | error e =>
          rw [hS] at key
          cases shiftPhase_error hS
          exact hstep.trans key
        | ok st =>
          rw [hS] at key
          obtain ⟨s', j1, j2⟩ := key
          exact ⟨s', hstep.trans j1, j2⟩

/-! ## The loop -/

theorem test_loop (h : GlrHeap T) (xs : List GNode) (s : RGlrVars T) (h1 : s.heap = textHeap variants g h) (h2 : s.active = some xs) :
    (rGlrMachine hGss f reduces combine inp).test (rs! "!(stacks.len() == 1 && stacks[0].is_root())") s = some (!decide (xs.length = 1 ∧ xs.all (fun x => h.isRoot x))) := by
  show (match s.active with | none => none | some [x] => (((.ok (s.heap.isRoot x) : Res Bool)).map fun b => !b).toOption | some _ => some true : Option Bool) = _
  rw [h1, h2]
  match xs with
  | [] => rfl
  | [x] => simp [relabel_isRoot]; rfl
  | x :: y :: l => simp

/-- what the loop does when the token function does not fail -/
def glrLoopOut (variants : List (List Char)) (visits : List (Nat × List Char)) (input : Nat → Tok × T) (r : Res (ROut (RGlrVars T) (RGlrEnd T ε))) : GlrResult T → Prop
  | .ok events pos => ∃ s, r = .ok (.next s) ∧ s.visits = events.map (visitOf variants visits) ∧ s.calls = pos + 1
  | .unexpected events pos es => ∃ s, r = .ok (.ret s (glrEnd variants (input pos) es)) ∧ s.visits = events.map (visitOf variants visits) ∧ s.calls = pos + 1
  | .panic _ _ => r = .error .panic
  | .running _ _ => r = .error .fuel

variable (rfuel : Nat) (hr : ReducesFit reduces variants g m rfuel)
  (hc : ∀ (x : Tok × T) (errors : List (List (Option Nat))), errors ≠ [] → combine (errors.map (rErrOf variants x.1 x.2)) = .ok (glrEnd variants x errors)) (input : Nat → Tok × T) (n : Nat × Nat)

include hf hr hc in
theorem run_loop (hi : ∀ i, inp i = .ok (glrInput variants input i)) (fuel : Nat) (h : GlrHeap T) (xs : List GNode) (pos : Nat) (events : List (LREvent T)) (s : RGlrVars T)
    (hs : GlrInv variants g m visits (glrInput variants input pos) h xs pos events s) :
    glrLoopOut variants visits input (dLoop ((rGlrMachine hGss f reduces combine inp).test (rs! "!(stacks.len() == 1 && stacks[0].is_root())")) (fun s => (rGlrMachine hGss f reduces combine inp).execs n .nil dRound s) fuel fuel s)
      (glrRun m input rfuel fuel h xs pos events) := by
  induction fuel generalizing h xs pos events s with
  | zero => rfl
  | succ fuel ih =>
    rw [dLoop, glrRun, test_loop h xs s hs.1 hs.2.1]
    by_cases hx : xs.length = 1 ∧ xs.all (fun x => h.isRoot x)
    · rw [if_pos hx, decide_eq_true hx]
      exact ⟨s, rfl, hs.2.2.2.2.1, hs.2.2.1⟩
    · rw [if_neg hx, decide_eq_false hx]
      have key := run_round (inp := inp) hf rfuel hr hc n (input pos) h xs pos events s hs
      unfold glrRoundOut at key
      rw [hi (pos + 1)] at key
      simp only [Bool.not_false]
      cases hA : applyReduces m (input pos).1 rfuel h [] xs with
      | error e =>
        rw [hA] at key
        simp only at key
        rw [key]
        cases e <;> rfl
      | ok r =>
        cases r with
        | unexpected errors =>
          rw [hA] at key
          obtain ⟨s', k1, k2, k3⟩ := key
          rw [k1]
          exact ⟨s', rfl, k2, k3⟩
        | ok h' reduced =>
          rw [hA] at key
          simp only at key ⊢
          cases hS : shiftPhase m (input pos).1 (input pos).2 h' reduced with
          | error e =>
            rw [hS] at key
            simp only at key
            rw [key]
            rfl
          | ok st =>
            rw [hS] at key
            obtain ⟨s', k1, k2⟩ := key
            rw [k1]
            exact ih _ _ _ _ s' k2

/-- the visits and the position of a result -/
def resultAt : GlrResult T → List (LREvent T) × Nat
  | .ok events pos => (events, pos)
  | .unexpected events pos _ => (events, pos)
  | .panic events pos => (events, pos)
  | .running events pos => (events, pos)

theorem resultAt_le (fuel : Nat) (h : GlrHeap T) (xs : List GNode) (pos : Nat) (events : List (LREvent T)) :
    events <+: (resultAt (glrRun m input rfuel fuel h xs pos events)).1 ∧ pos ≤ (resultAt (glrRun m input rfuel fuel h xs pos events)).2 := by
  induction fuel generalizing h xs pos events with
  | zero => exact ⟨List.prefix_rfl, le_refl _⟩
  | succ fuel ih =>
    rw [glrRun]
    split
    · exact ⟨List.prefix_rfl, le_refl _⟩
    · split
      · exact ⟨List.prefix_rfl, le_refl _⟩
      · exact ⟨List.prefix_rfl, le_refl _⟩
      · exact ⟨List.prefix_rfl, le_refl _⟩
      · split
        · exact ⟨List.prefix_rfl, le_refl _⟩
        · obtain ⟨k1, k2⟩ := ih _ _ _ _
          exact ⟨(List.prefix_append _ _).trans k1, (Nat.le_succ _).trans k2⟩

include hf hr hc in
/-- the same when the token function fails at call `k` -/
theorem run_loopError (k : Nat) (e : ε) (hi : ∀ i < k, inp i = .ok (glrInput variants input i)) (he : inp k = .error e) (fuel : Nat) (h : GlrHeap T) (xs : List GNode) (pos : Nat) (events : List (LREvent T))
    (s : RGlrVars T) (hs : GlrInv variants g m visits (glrInput variants input pos) h xs pos events s) (hp : pos < k) (hn : ∀ a b, glrRun m input rfuel fuel h xs pos events ≠ .panic a b) :
    ((resultAt (glrRun m input rfuel fuel h xs pos events)).2 < k → glrLoopOut variants visits input (dLoop ((rGlrMachine hGss f reduces combine inp).test (rs! "!(stacks.len() == 1 && stacks[0].is_root())"))
      (fun s => (rGlrMachine hGss f reduces combine inp).execs n .nil dRound s) fuel fuel s) (glrRun m input rfuel fuel h xs pos events)) ∧
    (k ≤ (resultAt (glrRun m input rfuel fuel h xs pos events)).2 → ∃ s' pre, dLoop ((rGlrMachine hGss f reduces combine inp).test (rs! "!(stacks.len() == 1 && stacks[0].is_root())"))
      (fun s => (rGlrMachine hGss f reduces combine inp).execs n .nil dRound s) fuel fuel s = .ok (.ret s' (.lexerError e)) ∧ s'.calls = k + 1 ∧ s'.visits = pre.map (visitOf variants visits) ∧
      pre <+: (resultAt (glrRun m input rfuel fuel h xs pos events)).1) := by
  induction fuel generalizing h xs pos events s with
  | zero => exact ⟨fun _ => rfl, fun hk => absurd hp (not_lt.mpr hk)⟩
  | succ fuel ih =>
    rw [glrRun] at hn ⊢
    rw [dLoop, test_loop h xs s hs.1 hs.2.1]
    by_cases hx : xs.length = 1 ∧ xs.all (fun x => h.isRoot x)
    · rw [if_pos hx, decide_eq_true hx]
      exact ⟨fun _ => ⟨s, rfl, hs.2.2.2.2.1, hs.2.2.1⟩, fun hk => absurd hp (not_lt.mpr hk)⟩
    · rw [if_neg hx] at hn ⊢
      rw [decide_eq_false hx]
      have key := run_round (inp := inp) hf rfuel hr hc n (input pos) h xs pos events s hs
      unfold glrRoundOut at key
      simp only [Bool.not_false]
      cases hA : applyReduces m (input pos).1 rfuel h [] xs with
      | error e =>
        rw [hA] at key
        simp only at key
        rw [key]
        cases e
        · exact ⟨fun _ => rfl, fun hk => absurd hp (not_lt.mpr hk)⟩
        · exact ⟨fun _ => rfl, fun hk => absurd hp (not_lt.mpr hk)⟩
      | ok r =>
        cases r with
        | unexpected errors =>
          rw [hA] at key
          obtain ⟨s', k1, k2, k3⟩ := key
          rw [k1]
          exact ⟨fun _ => ⟨s', rfl, k2, k3⟩, fun hk => absurd hp (not_lt.mpr hk)⟩
        | ok h' reduced =>
          rw [hA] at key hn
          simp only at key hn ⊢
          cases hS : shiftPhase m (input pos).1 (input pos).2 h' reduced with
          | error e =>
            rw [hS] at hn
            exact absurd rfl (hn _ _)
          | ok st =>
            rw [hS] at key hn
            simp only at hn ⊢
            by_cases hk : pos + 1 < k
            · rw [hi (pos + 1) hk] at key
              obtain ⟨s', k1, k2⟩ := key
              rw [k1]
              exact ih _ _ _ _ s' k2 hk hn
            · have hk' : k = pos + 1 := by omega
              subst hk'
              rw [he] at key
              obtain ⟨s', k1, k2, k3⟩ := key
              rw [k1]
              obtain ⟨j1, j2⟩ := resultAt_le (m := m) rfuel input fuel (reportPhase st.1 st.2).1 st.2 (pos + 1) (events ++ (reportPhase st.1 st.2).2)
              exact ⟨fun hlt => absurd hlt (not_lt.mpr j2), fun _ => ⟨s', events, rfl, k3, k2, (List.prefix_append _ _).trans j1⟩⟩

theorem start_heap (q : Nat) : (textHeap variants g (⟨[], []⟩ : GlrHeap T)) = ⟨[], []⟩ ∧
    ((⟨[], []⟩ : RHeap T).root.1.push (⟨[], []⟩ : RHeap T).root.2 (some q) none) =
      (textHeap variants g ((⟨[], []⟩ : GlrHeap T).root.1.push (⟨[], []⟩ : GlrHeap T).root.2 (some q) none).1, ((⟨[], []⟩ : GlrHeap T).root.1.push (⟨[], []⟩ : GlrHeap T).root.2 (some q) none).2) := ⟨rfl, rfl⟩

include hf in
theorem start_inv (x : List Char × T) (s : RGlrVars T) (h1 : s.heap = ((⟨[], []⟩ : RHeap T).root.1.push (⟨[], []⟩ : RHeap T).root.2 (some m.entry) none).1)
    (h2 : s.active = some [((⟨[], []⟩ : RHeap T).root.1.push (⟨[], []⟩ : RHeap T).root.2 (some m.entry) none).2]) (h3 : s.calls = 1) (h4 : s.lookahead = some [x]) (h5 : s.visits = []) :
    GlrInv variants g m visits x ((⟨[], []⟩ : GlrHeap T).root.1.push (⟨[], []⟩ : GlrHeap T).root.2 (some m.entry) none).1
      [((⟨[], []⟩ : GlrHeap T).root.1.push (⟨[], []⟩ : GlrHeap T).root.2 (some m.entry) none).2] 0 [] s := by
  refine ⟨h1, h2, h3, h4, h5, ?_⟩
  intro l hl
  have : l = [] := by simpa [GHeap.push, GHeap.root] using hl
  rw [this]
  simp

end

end Verif
