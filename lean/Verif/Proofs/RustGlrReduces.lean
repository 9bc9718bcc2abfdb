import Verif.Proofs.RustGlrReduce

/-! # The text of the GLR parser: `apply_reduces` -/

set_option autoImplicit false

namespace Verif

variable {T : Type}

section
variable {f : RGlrCalls T} {reduce : RApply T}

/-! ## Statements -/

theorem act_aTodo (s : RReducesVars T) : (rReducesMachine hGss f reduce).act (rs! "let mut to_reduce = stacks") s = .ok (.next { s with toReduce := some s.active }) := rfl
theorem act_aReduced (s : RReducesVars T) : (rReducesMachine hGss f reduce).act (rs! "let mut reduced = Vec::new()") s = .ok (.next { s with reduced := some [] }) := rfl
theorem act_aErrors (s : RReducesVars T) : (rReducesMachine hGss f reduce).act (rs! "let mut errors = Vec::new()") s = .ok (.next { s with errors := some [] }) := rfl
theorem act_aCount (s : RReducesVars T) : (rReducesMachine hGss f reduce).act (rs! "let all_error_count = to_reduce.len()") s = match s.toReduce with
    | none => .error .panic
    | some l => .ok (.next { s with allErrorCount := some l.length }) := rfl
theorem act_aNew (s : RReducesVars T) : (rReducesMachine hGss f reduce).act (rs! "let mut new_to_reduce = Vec::new()") s = .ok (.next { s with newToReduce := some [] }) := rfl
theorem act_aState (s : RReducesVars T) : (rReducesMachine hGss f reduce).act (rs! "let state = *stack.top().unwrap()") s = match s.stack.bind s.heap.top with
    | none => .error .panic
    | some q => .ok (.next { s with state := some q }) := by
  show (match s.stack with | none => .error .panic | some x => (match (.ok (s.heap.top x) : Res (Option Nat)) with | .error e => .error e | .ok none => .error .panic | .ok (some q) => .ok (.next { s with state := some q })) : Res (ROut (RReducesVars T) (Except (List (RUnexpected T)) (List GNode)))) = _
  cases s.stack with
  | none => rfl
  | some x =>
    simp only [Option.bind_some]
    cases s.heap.top x <;> rfl
theorem act_aReduce (s : RReducesVars T) : (rReducesMachine hGss f reduce).act (rs! "self.apply_reduce(reduced_rule, &stack, &mut reduced, &mut new_to_reduce,)") s =
    match s.reducedRule, s.stack, s.reduced, s.newToReduce with
    | some r, some x, some l, some l' =>
      match reduce s.heap r x l l' with
      | .error e => .error e
      | .ok (h, l, l') => .ok (.next { s with heap := h, reduced := some l, newToReduce := some l' })
    | _, _, _, _ => .error .panic := rfl
theorem act_aShift (s : RReducesVars T) : (rReducesMachine hGss f reduce).act (rs! "reduced.push(stack.clone_and_fork_record())") s = match s.stack, s.reduced with
    | some x, some l => .ok (.next { s with heap := (s.heap.fork x).1, reduced := some (l ++ [(s.heap.fork x).2]) })
    | _, _ => .error .panic := rfl
theorem act_aError (s : RReducesVars T) : (rReducesMachine hGss f reduce).act (rs! "errors.push(e)") s = match s.error, s.errors with
    | some e, some l => .ok (.next { s with errors := some (l ++ [e]) })
    | _, _ => .error .panic := rfl
theorem act_aFail (s : RReducesVars T) : (rReducesMachine hGss f reduce).act (rs! "return Err(errors)") s = match s.errors with
    | none => .error .panic
    | some l => .ok (.ret s (.error l)) := rfl
theorem act_aAgain (s : RReducesVars T) : (rReducesMachine hGss f reduce).act (rs! "to_reduce = new_to_reduce") s = match s.newToReduce with
    | none => .error .panic
    | some l => .ok (.next { s with toReduce := some l }) := rfl
theorem act_aOk (s : RReducesVars T) : (rReducesMachine hGss f reduce).act ((rs! "return").append (rs! "Ok(reduced)")) s = match s.reduced with
    | none => .error .panic
    | some l => .ok (.ret s (.ok l)) := rfl

/-- the arms for actions -/
def dActArms : List DStmt :=
  [.arm (rs! "Action::Reduce { rule: reduced_rule }") [.simple (rs! "self.apply_reduce(reduced_rule, &stack, &mut reduced, &mut new_to_reduce,)")],
    .arm (rs! "Action::Shift") [.simple (rs! "reduced.push(stack.clone_and_fork_record())")]]

/-- the arms for what `next_actions` returns -/
def dNextArms : List DStmt :=
  [.arm (rs! "Ok(actions)") [.forDo (rs! "action in actions") [.choice (rs! "action") dActArms]], .arm (rs! "Err(e)") [.simple (rs! "errors.push(e)")]]

/-- one stack -/
def dStackRound : List DStmt :=
  [.simple (rs! "let state = *stack.top().unwrap()"), .choice (rs! "self.next_actions(state, next_token.clone(), next_data.clone())") dNextArms]

/-- one round of the loop -/
def dReducesRound : List DStmt :=
  [.simple (rs! "let mut errors = Vec::new()"), .simple (rs! "let all_error_count = to_reduce.len()"), .simple (rs! "let mut new_to_reduce = Vec::new()"),
    .forDo (rs! "stack in to_reduce") dStackRound,
    .ifDo none (rs! "reduced.is_empty() && errors.len() == all_error_count") [.simple (rs! "return Err(errors)")] [],
    .simple (rs! "to_reduce = new_to_reduce")]

/-- the body of `apply_reduces` -/
def dReduces : List DStmt :=
  [.simple (rs! "let mut to_reduce = stacks"), .simple (rs! "let mut reduced = Vec::new()"), .whileDo (rs! "!to_reduce.is_empty()") dReducesRound, .tail (rs! "Ok(reduced)")]

/-! ## Execution -/

/-- `apply_reduce` does what the model does -/
def ReduceFit (reduce : RApply T) (variants : List (List Char)) (g : Grammar) (m : GlrMachine) : Prop :=
  ∀ (i : Nat) (x : GNode) (st : ReduceSt T), st.heap.RecsOk (EventOk m) → match applyReduce m i x st with
    | .error e => reduce (textHeap variants g st.heap) (rRuleVal i) x st.accepted st.newToReduce = .error e
    | .ok st' => st'.heap.RecsOk (EventOk m) ∧ reduce (textHeap variants g st.heap) (rRuleVal i) x st.accepted st.newToReduce = .ok (textHeap variants g st'.heap, st'.accepted, st'.newToReduce)

variable {variants : List (List Char)} {g : Grammar} {m : GlrMachine} {visits : List (Nat × List Char)} (hf : DCallsFit f variants g m visits) (hr : ReduceFit reduce variants g m)
  (tk : Tok) (data : T)

/-- an error in the text -/
def rErrOf (variants : List (List Char)) (tk : Tok) (data : T) (es : List (Option Nat)) : RUnexpected T := (tokVariant variants tk, data, es.map (optVariant variants))

/-- the variables while one stack is treated -/
def ActInv (variants : List (List Char)) (g : Grammar) (m : GlrMachine) (tk : Tok) (data : T) (x : GNode) (es : List (RUnexpected T)) (c : Nat) (s : RReducesVars T) (st : ReduceSt T) : Prop :=
  s.heap = textHeap variants g st.heap ∧ s.reduced = some st.accepted ∧ s.newToReduce = some st.newToReduce ∧ s.stack = some x ∧ s.errors = some es ∧ s.allErrorCount = some c ∧
    s.nextToken = tokVariant variants tk ∧ s.nextData = data ∧ st.heap.RecsOk (EventOk m)

include hr in
theorem sim_action (n : Nat × Nat) (x : GNode) (es : List (RUnexpected T)) (c : Nat) (s : RReducesVars T) (st : ReduceSt T) (a : LRAction) (h : ActInv variants g m tk data x es c s st) :
    Sim (ActInv variants g m tk data x es c) ((rReducesMachine hGss f reduce).execs n .nil [.choice (rs! "action") dActArms] { s with action := some (rActVal a) }) (applyAction m x st a) := by
  obtain ⟨heap, ac, nt, nd, tr, red, er, cnt, ntr, stk, q, acts, act, rr, err⟩ := s
  obtain ⟨sh, sa, sn⟩ := st
  obtain ⟨h1, h2, h3, h4, h5, h6, h7, h8, h9⟩ := h
  simp only at h1 h2 h3 h4 h5 h6 h7 h8 h9
  subst h1 h2 h3 h4 h5 h6 h7 h8
  rw [d_one, d_choice]
  unfold dActArms
  cases a with
  | shift =>
    rw [d_miss _ _ _ rfl, d_hit _ _ _ (s' := ⟨textHeap variants g sh, ac, tokVariant variants tk, nd, tr, some sa, some es, some c, some sn, some x, q, acts, some (rActVal .shift), rr, err⟩) rfl, d_one, d_simple, act_aShift]
    simp only [applyAction, relabel_fork]
    exact ⟨_, rfl, rfl, rfl, rfl, rfl, rfl, rfl, rfl, rfl, recsOk_fork h9 _⟩
  | reduce i =>
    rw [d_hit _ _ _ (s' := ⟨textHeap variants g sh, ac, tokVariant variants tk, nd, tr, some sa, some es, some c, some sn, some x, q, acts, some (rActVal (.reduce i)), some (rRuleVal i), err⟩) rfl, d_one, d_simple, act_aReduce]
    have := hr i x ⟨sh, sa, sn⟩ h9
    simp only [applyAction]
    cases hx : applyReduce m i x ⟨sh, sa, sn⟩ with
    | error e =>
      rw [hx] at this
      simp only at this
      simp only [this]
      rfl
    | ok st' =>
      rw [hx] at this
      obtain ⟨k1, k2⟩ := this
      simp only at k2
      simp only [k2]
      exact ⟨_, rfl, rfl, rfl, rfl, rfl, rfl, rfl, rfl, rfl, k1⟩

/-- the variables between stacks -/
def TextStackInv (variants : List (List Char)) (g : Grammar) (m : GlrMachine) (tk : Tok) (data : T) (c : Nat) (s : RReducesVars T) (st : ReduceSt T × List (List (Option Nat))) : Prop :=
  s.heap = textHeap variants g st.1.heap ∧ s.reduced = some st.1.accepted ∧ s.newToReduce = some st.1.newToReduce ∧ s.errors = some (st.2.map (rErrOf variants tk data)) ∧ s.allErrorCount = some c ∧
    s.nextToken = tokVariant variants tk ∧ s.nextData = data ∧ st.1.heap.RecsOk (EventOk m)

include hf hr in
theorem sim_stack (n : Nat × Nat) (c : Nat) (s : RReducesVars T) (st : ReduceSt T × List (List (Option Nat))) (x : GNode) (h : TextStackInv variants g m tk data c s st) :
    Sim (TextStackInv variants g m tk data c) ((rReducesMachine hGss f reduce).execs n .nil dStackRound { s with stack := some x }) (reduceStack m tk st x) := by
  obtain ⟨heap, ac, nt, nd, tr, red, er, cnt, ntr, stk, q0, acts, act, rr, err⟩ := s
  obtain ⟨⟨sh, sa, sn⟩, es⟩ := st
  obtain ⟨h1, h2, h3, h5, h6, h7, h8, h9⟩ := h
  simp only at h1 h2 h3 h5 h6 h7 h8 h9
  subst h1 h2 h3 h5 h6 h7 h8
  unfold dStackRound reduceStack
  have htop := relabel_top (rStackVal variants g) (recOf variants) sh x
  simp only
  cases ht : sh.top x with
  | none =>
    rw [ht] at htop
    rw [d_err (e := .panic) _ _ _ (by rw [d_simple, act_aState]; simp only [Option.bind_some, htop])]
    rfl
  | some q =>
    rw [ht] at htop
    rw [d_next _ _ _ (s' := ⟨textHeap variants g sh, ac, tokVariant variants tk, nd, tr, some sa, some (es.map (rErrOf variants tk nd)), some c, some sn, some x, some q, acts, act, rr, err⟩)
      (by rw [d_simple, act_aState]; simp only [Option.bind_some, htop]), d_one, d_choice]
    have ha := hf.actions q tk nd
    unfold dNextArms
    have hhit : ∀ p, (rReducesMachine hGss f reduce).hit (rs! "self.next_actions(state, next_token.clone(), next_data.clone())") p
        ⟨textHeap variants g sh, ac, tokVariant variants tk, nd, tr, some sa, some (es.map (rErrOf variants tk nd)), some c, some sn, some x, some q, acts, act, rr, err⟩ =
        match f.nextActions q (tokVariant variants tk) nd with
        | .error e => .error e
        | .ok (.ok as) =>
          if p = rs! "Ok(actions)" then .ok (some ⟨textHeap variants g sh, ac, tokVariant variants tk, nd, tr, some sa, some (es.map (rErrOf variants tk nd)), some c, some sn, some x, some q, some as, act, rr, err⟩)
          else if p = rs! "Err(e)" then .ok none
          else .error .panic
        | .ok (.unexpected got data expected) =>
          if p = rs! "Ok(actions)" then .ok none
          else if p = rs! "Err(e)" then .ok (some ⟨textHeap variants g sh, ac, tokVariant variants tk, nd, tr, some sa, some (es.map (rErrOf variants tk nd)), some c, some sn, some x, some q, acts, act, rr, some (got, data, expected)⟩)
          else .error .panic := fun p => rfl
    rw [ha] at hhit
    simp only
    cases hm : m.nextActions q tk with
    | panic =>
      rw [hm] at hhit
      rw [d_stop (err := .panic) _ _ _ (hhit _)]
      rfl
    | unexpected l =>
      rw [hm] at hhit
      rw [d_miss _ _ _ ((hhit _).trans rfl), d_hit _ _ _ ((hhit _).trans rfl), d_one, d_simple, act_aError]
      refine ⟨_, rfl, rfl, rfl, rfl, ?_, rfl, rfl, rfl, h9⟩
      simp only [List.map_append]; rfl
    | acts l =>
      rw [hm] at hhit
      rw [d_hit _ _ _ ((hhit _).trans rfl), d_one, d_for _ _ _ rfl]
      simp only [List.map_map]
      have key := sim_each (Inv := ActInv variants g m tk nd x (es.map (rErrOf variants tk nd)) c) (fun s => (rReducesMachine hGss f reduce).execs n .nil [.choice (rs! "action") dActArms] s) (applyAction m x)
        (fun a s => { s with action := some (rActVal a) }) (fun s t a h => sim_action hr tk nd n x _ c s t a h) l
        ⟨textHeap variants g sh, ac, tokVariant variants tk, nd, tr, some sa, some (es.map (rErrOf variants tk nd)), some c, some sn, some x, some q, some (l.map rActVal), act, rr, err⟩
        ⟨sh, sa, sn⟩ ⟨rfl, rfl, rfl, rfl, rfl, rfl, rfl, rfl, h9⟩
      cases hF : l.foldlM (applyAction m x) ⟨sh, sa, sn⟩ with
      | error e =>
        rw [hF] at key
        exact key
      | ok st' =>
        rw [hF] at key
        obtain ⟨s', k1, k2, k3, k4, k5, k6, k7, k8, k9, k10⟩ := key
        exact ⟨s', k1, k2, k3, k4, k6, k7, k8, k9, k10⟩

include hf hr in
theorem sim_reducesLoop (n : Nat × Nat) (fuel : Nat) (h : GlrHeap T) (reduced toReduce : List GNode) (s : RReducesVars T) (h1 : s.heap = textHeap variants g h) (h2 : s.reduced = some reduced)
    (h3 : s.toReduce = some toReduce) (h4 : s.nextToken = tokVariant variants tk) (h5 : s.nextData = data) (h6 : h.RecsOk (EventOk m)) :
    match applyReduces m tk fuel h reduced toReduce with
    | .error e => dLoop ((rReducesMachine hGss f reduce).test (rs! "!to_reduce.is_empty()")) (fun s => (rReducesMachine hGss f reduce).execs n .nil dReducesRound s) (fuel + 1) fuel s = .error e
    | .ok (.ok h' reduced') => h'.RecsOk (EventOk m) ∧ ∃ s', dLoop ((rReducesMachine hGss f reduce).test (rs! "!to_reduce.is_empty()")) (fun s => (rReducesMachine hGss f reduce).execs n .nil dReducesRound s) (fuel + 1) fuel s =
        .ok (.next s') ∧ s'.heap = textHeap variants g h' ∧ s'.reduced = some reduced'
    | .ok (.unexpected errors) => errors ≠ [] ∧ ∃ s', dLoop ((rReducesMachine hGss f reduce).test (rs! "!to_reduce.is_empty()")) (fun s => (rReducesMachine hGss f reduce).execs n .nil dReducesRound s) (fuel + 1) fuel s =
        .ok (.ret s' (.error (errors.map (rErrOf variants tk data)))) := by
  induction fuel generalizing h reduced toReduce s with
  | zero =>
    obtain ⟨heap, ac, nt, nd, tr, red, er, cnt, ntr, stk, q0, acts, act, rr, err⟩ := s
    simp only at h1 h2 h3 h4 h5
    subst h1 h2 h3 h4 h5
    cases toReduce with
    | nil => exact ⟨h6, _, rfl, rfl, rfl⟩
    | cons x xs => rfl
  | succ fuel ih =>
    obtain ⟨heap, ac, nt, nd, tr, red, er, cnt, ntr, stk, q0, acts, act, rr, err⟩ := s
    simp only at h1 h2 h3 h4 h5
    subst h1 h2 h3 h4 h5
    cases toReduce with
    | nil => exact ⟨h6, _, rfl, rfl, rfl⟩
    | cons x xs =>
      rw [applyReduces, dLoop]
      have key := sim_each (Inv := TextStackInv variants g m tk nd (x :: xs).length) (fun s => (rReducesMachine hGss f reduce).execs n .nil dStackRound s) (reduceStack m tk)
        (fun x s => { s with stack := some x }) (fun s t a h => sim_stack hf hr tk nd n _ s t a h) (x :: xs)
        ⟨textHeap variants g h, ac, tokVariant variants tk, nd, some (x :: xs), some reduced, some [], some (x :: xs).length, some [], stk, q0, acts, act, rr, err⟩ (⟨h, reduced, []⟩, [])
        ⟨rfl, rfl, rfl, rfl, rfl, rfl, rfl, h6⟩
      rw [show (rReducesMachine hGss f reduce).test (rs! "!to_reduce.is_empty()") ⟨textHeap variants g h, ac, tokVariant variants tk, nd, some (x :: xs), some reduced, er, cnt, ntr, stk, q0, acts, act, rr, err⟩ = some true from rfl]
      simp only
      cases hF : (x :: xs).foldlM (reduceStack m tk) (⟨h, reduced, []⟩, []) with
      | error e =>
        rw [hF] at key
        simp only [Sim] at key
        rw [show (rReducesMachine hGss f reduce).execs n .nil dReducesRound ⟨textHeap variants g h, ac, tokVariant variants tk, nd, some (x :: xs), some reduced, er, cnt, ntr, stk, q0, acts, act, rr, err⟩ = .error e by
          unfold dReducesRound
          rw [d_next _ _ _ (by rw [d_simple, act_aErrors]), d_next _ _ _ (by rw [d_simple, act_aCount]), d_next _ _ _ (by rw [d_simple, act_aNew]), d_err _ _ _ ((d_for _ _ _ rfl).trans key)]]
        rfl
      | ok st =>
        obtain ⟨⟨sh, sa, sn⟩, es⟩ := st
        rw [hF] at key
        obtain ⟨s', k1, k2, k3, k4, k5, k6, k7, k8, k9⟩ := key
        obtain ⟨heap', ac', nt', nd', tr', red', er', cnt', ntr', stk', q0', acts', act', rr', err'⟩ := s'
        simp only at k2 k3 k4 k5 k6 k7 k8 k9
        subst k2 k3 k4 k5 k6 k7 k8
        have hfirst : ∀ b ss, (rReducesMachine hGss f reduce).execs n .nil (.simple (rs! "let mut errors = Vec::new()") :: .simple (rs! "let all_error_count = to_reduce.len()") ::
            .simple (rs! "let mut new_to_reduce = Vec::new()") :: .forDo (rs! "stack in to_reduce") dStackRound :: b :: ss)
            ⟨textHeap variants g h, ac, tokVariant variants tk, nd', some (x :: xs), some reduced, er, cnt, ntr, stk, q0, acts, act, rr, err⟩ = (rReducesMachine hGss f reduce).execs n .nil (b :: ss)
              ⟨textHeap variants g sh, ac', tokVariant variants tk, nd', tr', some sa, some (es.map (rErrOf variants tk nd')), some (x :: xs).length, some sn, stk', q0', acts', act', rr', err'⟩ := by
          intro b ss
          rw [d_next _ _ _ (by rw [d_simple, act_aErrors]), d_next _ _ _ (by rw [d_simple, act_aCount]), d_next _ _ _ (by rw [d_simple, act_aNew]), d_next _ _ _ ((d_for _ _ _ rfl).trans k1)]
        have hif : ∀ v, (sa.isEmpty && (es.map (rErrOf variants tk nd')).length == (x :: xs).length) = v → (rReducesMachine hGss f reduce).exec n .nil
            (.ifDo none (rs! "reduced.is_empty() && errors.len() == all_error_count") [.simple (rs! "return Err(errors)")] [])
            ⟨textHeap variants g sh, ac', tokVariant variants tk, nd', tr', some sa, some (es.map (rErrOf variants tk nd')), some (x :: xs).length, some sn, stk', q0', acts', act', rr', err'⟩ =
            if v then .ok (.ret ⟨textHeap variants g sh, ac', tokVariant variants tk, nd', tr', some sa, some (es.map (rErrOf variants tk nd')), some (x :: xs).length, some sn, stk', q0', acts', act', rr', err'⟩
              (.error (es.map (rErrOf variants tk nd'))))
            else .ok (.next ⟨textHeap variants g sh, ac', tokVariant variants tk, nd', tr', some sa, some (es.map (rErrOf variants tk nd')), some (x :: xs).length, some sn, stk', q0', acts', act', rr', err'⟩) := by
          intro v hv
          rw [d_if (v := v) _ _ _ (by rw [← hv]; rfl)]
          cases v with
          | true => rw [if_pos rfl, if_pos rfl, d_one, d_simple, act_aFail]
          | false => rw [if_neg (by simp), if_neg (by simp), d_nil]
        show (match (if sa = [] ∧ es.length = (x :: xs).length then (.ok (.unexpected es) : Res (Reduced T)) else applyReduces m tk fuel sh sa sn) with
          | .error e => _
          | .ok (.ok h' reduced') => _
          | .ok (.unexpected errors) => _)
        by_cases hc : sa = [] ∧ es.length = (x :: xs).length
        · rw [if_pos hc]
          have hv : (sa.isEmpty && (es.map (rErrOf variants tk nd')).length == (x :: xs).length) = true := by rw [hc.1, List.length_map, hc.2]; simp
          refine ⟨by intro e; rw [e] at hc; simp at hc, ?_⟩
          unfold dReducesRound
          rw [hfirst, d_ret _ _ _ ((hif _ hv).trans (if_pos rfl))]
          exact ⟨_, rfl⟩
        · rw [if_neg hc]
          have hv : (sa.isEmpty && (es.map (rErrOf variants tk nd')).length == (x :: xs).length) = false := by
            rw [List.length_map]
            cases sa with
            | cons => rfl
            | nil =>
              have : es.length ≠ (x :: xs).length := fun e => hc ⟨rfl, e⟩
              simpa using this
          unfold dReducesRound
          rw [hfirst, d_next _ _ _ ((hif _ hv).trans (if_neg (by simp))), d_one, d_simple, act_aAgain]
          exact ih sh sa sn ⟨textHeap variants g sh, ac', tokVariant variants tk, nd', some sn, some sa, some (es.map (rErrOf variants tk nd')), some (x :: xs).length, some sn, stk', q0', acts', act', rr', err'⟩
            rfl rfl rfl rfl rfl k9

include hf hr in
theorem sim_applyReduces (fuel : Nat) (h : GlrHeap T) (xs : List GNode) (h6 : h.RecsOk (EventOk m)) :
    match applyReduces m tk fuel h [] xs with
    | .error e => callD (rReducesMachine hGss f reduce) (fuel + 1, fuel) dReduces { heap := textHeap variants g h, active := xs, nextToken := tokVariant variants tk, nextData := data } = .error e
    | .ok (.ok h' reduced) => h'.RecsOk (EventOk m) ∧
        (callD (rReducesMachine hGss f reduce) (fuel + 1, fuel) dReduces { heap := textHeap variants g h, active := xs, nextToken := tokVariant variants tk, nextData := data }).map (fun r => (r.1.heap, r.2)) =
          .ok (textHeap variants g h', .ok reduced)
    | .ok (.unexpected errors) => errors ≠ [] ∧ ∃ h',
        (callD (rReducesMachine hGss f reduce) (fuel + 1, fuel) dReduces { heap := textHeap variants g h, active := xs, nextToken := tokVariant variants tk, nextData := data }).map (fun r => (r.1.heap, r.2)) =
          .ok (h', .error (errors.map (rErrOf variants tk data))) := by
  have key := sim_reducesLoop hf hr tk data (fuel + 1, fuel) fuel h [] xs
    { heap := textHeap variants g h, active := xs, nextToken := tokVariant variants tk, nextData := data, toReduce := some xs, reduced := some [] } rfl rfl rfl rfl rfl h6
  unfold callD dReduces
  rw [d_next _ _ _ (by rw [d_simple, act_aTodo]), d_next _ _ _ (by rw [d_simple, act_aReduced])]
  cases hA : applyReduces m tk fuel h [] xs with
  | error e =>
    rw [hA] at key
    simp only at key
    rw [d_err _ _ _ ((d_while _ _ _ _ _ _).trans key)]
  | ok r =>
    cases r with
    | ok h' red =>
      rw [hA] at key
      obtain ⟨k1, s', k2, k3, k4⟩ := key
      refine ⟨k1, ?_⟩
      rw [d_next _ _ _ ((d_while _ _ _ _ _ _).trans k2), d_one, d_tail, act_aOk]
      simp only [k4, Except.map, k3]
    | unexpected errors =>
      rw [hA] at key
      obtain ⟨k1, s', k2⟩ := key
      refine ⟨k1, ?_⟩
      rw [d_ret _ _ _ ((d_while _ _ _ _ _ _).trans k2)]
      exact ⟨_, rfl⟩

end

end Verif
