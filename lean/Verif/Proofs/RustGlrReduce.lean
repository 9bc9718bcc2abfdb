import Verif.Proofs.RustGlrExec

/-! # The text of the GLR parser: `apply_reduce` -/

set_option autoImplicit false

namespace Verif

variable {T : Type}

/-- a recorded visit in the text -/
def recOf (variants : List (List Char)) : LREvent T → RRecord T
  | .shift t data => .shift (tokVariant variants t) data
  | .reduce i => .reduce (rRuleVal i)

/-- a heap in the text -/
abbrev textHeap (variants : List (List Char)) (g : Grammar) (h : GlrHeap T) : RHeap T := h.relabel (rStackVal variants g) (recOf variants)

/-- a recorded rule is a rule -/
def EventOk (m : GlrMachine) : LREvent T → Prop
  | .shift _ _ => True
  | .reduce i => m.reduction i ≠ none

/-- what the functions that are called do -/
structure DCallsFit (f : RGlrCalls T) (variants : List (List Char)) (g : Grammar) (m : GlrMachine) (visits : List (Nat × List Char)) : Prop where
  actions : ∀ (q : Nat) (tk : Tok) (data : T), f.nextActions q (tokVariant variants tk) data = match m.nextActions q tk with
    | .acts l => .ok (.ok (l.map rActVal))
    | .unexpected es => .ok (.unexpected (tokVariant variants tk) data (es.map (optVariant variants)))
    | .panic => .error .panic
  goto : ∀ (q : Nat) (s : StackSym), (∀ A, s = .nonTerminal A → Sym.nt A ∈ g.nonTerminals) → f.nextGoto q (rStackVal variants g s) = .ok ((m.nextGoto q s).map rGotoVal)
  reduction : ∀ i, f.reduction (rRuleVal i) = match m.reduction i with
    | none => .error .panic
    | some (k, A) => .ok (.pair (.num k) (rStackVal variants g (.nonTerminal A)))
  visit : ∀ i, m.reduction i ≠ none → f.visit (rRuleVal i) = .ok (((visits.find? (fun x => x.1 = i)).map (·.2)).getD [])
  lhs : ∀ i k A, m.reduction i = some (k, A) → Sym.nt A ∈ g.nonTerminals

section
variable {f : RGlrCalls T}

/-! ## Statements -/

theorem act_oRule (s : RReduceOneVars T) : (rReduceOneMachine hGss f).act (rs! "let (to_pop, reduced_symbol) = self.get_rule_reduction(&reduced_rule)") s = match f.reduction s.reducedRule with
    | .error e => .error e
    | .ok (.pair (.num k) v) => .ok (.next { s with toPop := some k, reducedSymbol := some v })
    | .ok _ => .error .panic := rfl
theorem act_oUnwind (s : RReduceOneVars T) : (rReduceOneMachine hGss f).act (rs! "let stacks_to_push = stack.unwind_stacks(to_pop)") s = match s.toPop with
    | none => .error .panic
    | some k => .ok (.next { s with heap := (GHeap.unwind k s.heap s.stack).1, stacksToPush := some (GHeap.unwind k s.heap s.stack).2 }) := rfl
theorem act_oRecord (s : RReduceOneVars T) : (rReduceOneMachine hGss f).act (rs! "stack.record(RecordedVisit::Reduce { rule: reduced_rule.clone(), })") s =
    .ok (.next { s with heap := s.heap.record s.stack (.reduce s.reducedRule) }) := rfl
theorem act_oPop (s : RReduceOneVars T) : (rReduceOneMachine hGss f).act (rs! "let (_edge, new_stack) = stack.pop()") s = match s.heap.pop s.stack with
    | .error e => .error e
    | .ok (h, x) => .ok (.next { s with heap := h, newStack := some x }) := rfl
theorem act_oSet (s : RReduceOneVars T) : (rReduceOneMachine hGss f).act (rs! "stack = new_stack") s = match s.newStack with
    | none => .error .panic
    | some x => .ok (.next { s with stack := x }) := rfl
theorem act_oState (s : RReduceOneVars T) : (rReduceOneMachine hGss f).act (rs! "let state = *stack.top().unwrap()") s = match s.heap.top s.stack with
    | none => .error .panic
    | some q => .ok (.next { s with state := some q }) := by
  show (match (.ok (s.heap.top s.stack) : Res (Option Nat)) with | .error e => .error e | .ok none => .error .panic | .ok (some q) => .ok (.next { s with state := some q }) : Res (ROut (RReduceOneVars T) Empty)) = _
  cases s.heap.top s.stack <;> rfl
theorem act_oPush (s : RReduceOneVars T) : (rReduceOneMachine hGss f).act (rs! "let new_node = stack.push(Some(state_id), Some(reduced_symbol))") s = match s.stateId, s.reducedSymbol with
    | some q, some v => .ok (.next { s with heap := (s.heap.push s.stack (some q) (some v)).1, newNode := some (s.heap.push s.stack (some q) (some v)).2 })
    | _, _ => .error .panic := rfl
theorem act_oKeep (s : RReduceOneVars T) : (rReduceOneMachine hGss f).act (rs! "new_to_reduce.push(new_node)") s = match s.newNode with
    | none => .error .panic
    | some x => .ok (.next { s with newToReduce := s.newToReduce ++ [x] }) := rfl
theorem act_oRoot (s : RReduceOneVars T) : (rReduceOneMachine hGss f).act (rs! "let (_edge, root) = stack.pop()") s = match s.heap.pop s.stack with
    | .error e => .error e
    | .ok (h, x) => .ok (.next { s with heap := h, root := some x }) := rfl
theorem act_oAccept (s : RReduceOneVars T) : (rReduceOneMachine hGss f).act (rs! "accepted.push(root)") s = match s.root with
    | none => .error .panic
    | some x => .ok (.next { s with accepted := s.accepted ++ [x] }) := rfl
theorem act_oUnit (s : RReduceOneVars T) : (rReduceOneMachine hGss f).act ((RForest.nil).append (rs! "()")) s = .ok (.next s) := rfl

/-- the body of the inner loop -/
def dPops : List DStmt := [.simple (rs! "let (_edge, new_stack) = stack.pop()"), .simple (rs! "stack = new_stack")]

/-- the arms -/
def dReduceArms : List DStmt :=
  [.arm (rs! "Some(Goto::State { state_id })") [.simple (rs! "let new_node = stack.push(Some(state_id), Some(reduced_symbol))"), .simple (rs! "new_to_reduce.push(new_node)")],
    .arm (rs! "Some(Goto::Accept)") [.simple (rs! "let (_edge, root) = stack.pop()"), .simple (rs! "accepted.push(root)")],
    .arm (rs! "None") [.tail (rs! "()")]]

/-- the body of the outer loop -/
def dReduceRound : List DStmt :=
  [.simple (rs! "stack.record(RecordedVisit::Reduce { rule: reduced_rule.clone(), })"),
    .forDo (rs! "_ in 0..to_pop") dPops,
    .simple (rs! "let state = *stack.top().unwrap()"),
    .choice (rs! "self.next_goto(&state, &reduced_symbol)") dReduceArms]

/-- the body of `apply_reduce` -/
def dReduceOne : List DStmt :=
  [.simple (rs! "let (to_pop, reduced_symbol) = self.get_rule_reduction(&reduced_rule)"),
    .simple (rs! "let stacks_to_push = stack.unwind_stacks(to_pop)"),
    .forDo (rs! "mut stack in stacks_to_push") dReduceRound]

/-! ## Execution -/

variable {variants : List (List Char)} {g : Grammar} {m : GlrMachine} {visits : List (Nat × List Char)} (hf : DCallsFit f variants g m visits)

theorem sim_pops (n : Nat × Nat) (k : Nat) (s : RReduceOneVars T) (h : GlrHeap T) (hs : s.heap = textHeap variants g h) (hp : h.RecsOk (EventOk m)) :
    match popTimes k h s.stack with
    | .error e => rEach (fun s => (rReduceOneMachine hGss f).execs n .nil dPops s) (List.replicate k id) s = .error e
    | .ok (h', x) => h'.RecsOk (EventOk m) ∧ ∃ y, rEach (fun s => (rReduceOneMachine hGss f).execs n .nil dPops s) (List.replicate k id) s =
        .ok (.next { s with heap := textHeap variants g h', stack := x, newStack := y }) := by
  induction k generalizing s h with
  | zero =>
    obtain ⟨heap, rr, st, ac, ntr, tp, rsy, sp, ns, q, sid, nn, ro⟩ := s
    simp only at hs
    subst hs
    exact ⟨hp, ns, rfl⟩
  | succ k ih =>
    obtain ⟨heap, rr, st, ac, ntr, tp, rsy, sp, ns, q, sid, nn, ro⟩ := s
    simp only at hs
    subst hs
    have hr := relabel_pop (rStackVal variants g) (recOf variants) h st
    rw [List.replicate_succ, rEach, popTimes]
    cases hpop : h.pop st with
    | error e =>
      rw [hpop] at hr
      simp only [id]
      rw [show (rReduceOneMachine hGss f).execs n .nil dPops ⟨h.relabel (rStackVal variants g) (recOf variants), rr, st, ac, ntr, tp, rsy, sp, ns, q, sid, nn, ro⟩ = .error e from
        d_err _ _ _ (by rw [d_simple, act_oPop]; simp only [hr])]
      rfl
    | ok x =>
      obtain ⟨h', x⟩ := x
      rw [hpop] at hr
      simp only [id]
      rw [show (rReduceOneMachine hGss f).execs n .nil dPops ⟨h.relabel (rStackVal variants g) (recOf variants), rr, st, ac, ntr, tp, rsy, sp, ns, q, sid, nn, ro⟩ =
        .ok (.next ⟨h'.relabel (rStackVal variants g) (recOf variants), rr, x, ac, ntr, tp, rsy, sp, some x, q, sid, nn, ro⟩) by
          unfold dPops
          rw [d_next _ _ _ (by rw [d_simple, act_oPop]; simp only [hr]; rfl), d_one, d_simple, act_oSet]]
      exact ih ⟨h'.relabel (rStackVal variants g) (recOf variants), rr, x, ac, ntr, tp, rsy, sp, some x, q, sid, nn, ro⟩ h' rfl (recsOk_pop hp hpop)

/-- the variables in the outer loop -/
def OneInv (variants : List (List Char)) (g : Grammar) (m : GlrMachine) (i k A : Nat) (s : RReduceOneVars T) (st : ReduceSt T) : Prop :=
  s.heap = textHeap variants g st.heap ∧ s.accepted = st.accepted ∧ s.newToReduce = st.newToReduce ∧ s.toPop = some k ∧ s.reducedSymbol = some (rStackVal variants g (.nonTerminal A)) ∧
    s.reducedRule = rRuleVal i ∧ st.heap.RecsOk (EventOk m)

include hf in
theorem sim_round (n : Nat × Nat) (i k A : Nat) (hi : m.reduction i = some (k, A)) (s : RReduceOneVars T) (st : ReduceSt T) (x : GNode) (h : OneInv variants g m i k A s st) :
    Sim (OneInv variants g m i k A) ((rReduceOneMachine hGss f).execs n .nil dReduceRound { s with stack := x }) (applyReduceTo m i k A st x) := by
  obtain ⟨heap, rr, sk, ac, ntr, tp, rsy, sp, ns, q, sid, nn, ro⟩ := s
  obtain ⟨sh, sa, sn⟩ := st
  obtain ⟨h1, h2, h3, h4, h5, h6, h7⟩ := h
  simp only at h1 h2 h3 h4 h5 h6 h7
  subst h1 h2 h3 h4 h5 h6
  unfold dReduceRound applyReduceTo
  have hrec : (textHeap variants g sh).record x (.reduce (rRuleVal i)) = textHeap variants g (sh.record x (.reduce i)) := relabel_record (rStackVal variants g) (recOf variants) sh x (.reduce i)
  rw [d_next _ _ _ (s' := ⟨textHeap variants g (sh.record x (.reduce i)), rRuleVal i, x, ac, ntr, some k, some (rStackVal variants g (.nonTerminal A)), sp, ns, q, sid, nn, ro⟩)
    (by rw [d_simple, act_oRecord]; simp only [hrec])]
  have hr7 : (sh.record x (.reduce i)).RecsOk (EventOk m) := recsOk_record h7 x (by intro e; rw [hi] at e; cases e)
  have hpops := sim_pops (f := f) (variants := variants) (g := g) n k ⟨textHeap variants g (sh.record x (.reduce i)), rRuleVal i, x, ac, ntr, some k, some (rStackVal variants g (.nonTerminal A)), sp, ns, q, sid, nn, ro⟩
    (sh.record x (.reduce i)) rfl hr7
  simp only at hpops
  cases hpt : popTimes k (sh.record x (.reduce i)) x with
  | error e =>
    rw [hpt] at hpops
    simp only at hpops
    rw [d_err _ _ _ ((d_for _ _ _ rfl).trans hpops)]
    rfl
  | ok y =>
    obtain ⟨h', y⟩ := y
    rw [hpt] at hpops
    obtain ⟨hr8, z, hz⟩ := hpops
    rw [d_next _ _ _ ((d_for _ _ _ rfl).trans hz)]
    show Sim _ _ (match h'.top y with
      | none => _
      | some q => _)
    have htop := relabel_top (rStackVal variants g) (recOf variants) h' y
    cases ht : h'.top y with
    | none =>
      rw [ht] at htop
      rw [d_err (e := .panic) _ _ _ (by rw [d_simple, act_oState]; simp only [htop])]
      rfl
    | some q' =>
      rw [ht] at htop
      rw [d_next _ _ _ (s' := ⟨textHeap variants g h', rRuleVal i, y, ac, ntr, some k, some (rStackVal variants g (.nonTerminal A)), sp, z, some q', sid, nn, ro⟩)
        (by rw [d_simple, act_oState]; simp only [htop]), d_one, d_choice]
      have hg := hf.goto q' (.nonTerminal A) (by intro B e; cases e; exact hf.lhs i k A hi)
      simp only
      have hhit : ∀ p, (rReduceOneMachine hGss f).hit (rs! "self.next_goto(&state, &reduced_symbol)") p
          ⟨textHeap variants g h', rRuleVal i, y, ac, ntr, some k, some (rStackVal variants g (.nonTerminal A)), sp, z, some q', sid, nn, ro⟩ =
          gotoHit (.ok ((m.nextGoto q' (.nonTerminal A)).map rGotoVal)) (fun q'' => ⟨textHeap variants g h', rRuleVal i, y, ac, ntr, some k, some (rStackVal variants g (.nonTerminal A)), sp, z, some q', some q'', nn, ro⟩)
            ⟨textHeap variants g h', rRuleVal i, y, ac, ntr, some k, some (rStackVal variants g (.nonTerminal A)), sp, z, some q', sid, nn, ro⟩ p := by
        intro p
        rw [← hg]; rfl
      unfold dReduceArms
      cases hm : m.nextGoto q' (.nonTerminal A) with
      | none =>
        rw [hm] at hhit
        rw [d_miss _ _ _ ((hhit _).trans rfl), d_miss _ _ _ ((hhit _).trans rfl), d_hit _ _ _ ((hhit _).trans rfl), d_one, d_tail, act_oUnit]
        exact ⟨_, rfl, rfl, rfl, rfl, rfl, rfl, rfl, hr8⟩
      | some a =>
        cases a with
        | state q'' =>
          rw [hm] at hhit
          have hpush := relabel_push (rStackVal variants g) (recOf variants) h' y (some q'') (some (.nonTerminal A))
          rw [d_hit _ _ _ ((hhit _).trans rfl), d_next _ _ _ (by rw [d_simple, act_oPush]), d_one, d_simple, act_oKeep]
          refine ⟨_, rfl, ?_, rfl, ?_, rfl, rfl, rfl, recsOk_push hr8 _ _ _⟩
          · exact congrArg Prod.fst hpush
          · exact congrArg (fun x => ntr ++ [x.2]) hpush
        | accept =>
          rw [hm] at hhit
          have hpop := relabel_pop (rStackVal variants g) (recOf variants) h' y
          rw [d_miss _ _ _ ((hhit _).trans rfl), d_hit _ _ _ ((hhit _).trans rfl)]
          cases hp : h'.pop y with
          | error e =>
            rw [hp] at hpop
            rw [d_err (e := e) _ _ _ (by rw [d_simple, act_oRoot]; simp only [hpop])]
            rfl
          | ok w =>
            obtain ⟨h'', w⟩ := w
            rw [hp] at hpop
            rw [d_next _ _ _ (by rw [d_simple, act_oRoot]; simp only [hpop]; rfl), d_one, d_simple, act_oAccept]
            exact ⟨_, rfl, rfl, rfl, rfl, rfl, rfl, rfl, recsOk_pop hr8 hp⟩

include hf in
theorem sim_applyReduce (n : Nat × Nat) (i : Nat) (x : GNode) (st : ReduceSt T) (hp : st.heap.RecsOk (EventOk m)) :
    match applyReduce m i x st with
    | .error e => callUnit (rReduceOneMachine hGss f) n dReduceOne { heap := textHeap variants g st.heap, reducedRule := rRuleVal i, stack := x, accepted := st.accepted, newToReduce := st.newToReduce } = .error e
    | .ok st' => st'.heap.RecsOk (EventOk m) ∧
        (callUnit (rReduceOneMachine hGss f) n dReduceOne { heap := textHeap variants g st.heap, reducedRule := rRuleVal i, stack := x, accepted := st.accepted, newToReduce := st.newToReduce }).map
          (fun s => (s.heap, s.accepted, s.newToReduce)) = .ok (textHeap variants g st'.heap, st'.accepted, st'.newToReduce) := by
  obtain ⟨sh, sa, sn⟩ := st
  unfold applyReduce callUnit dReduceOne
  have hr := hf.reduction i
  cases hi : m.reduction i with
  | none =>
    rw [hi] at hr
    simp only
    rw [d_err (e := .panic) _ _ _ (by rw [d_simple, act_oRule]; simp only [hr])]
  | some y =>
    obtain ⟨k, A⟩ := y
    rw [hi] at hr
    have hu := relabel_unwind (rStackVal variants g) (recOf variants) k sh x
    rw [d_next _ _ _ (by rw [d_simple, act_oRule]; simp only [hr]; rfl), d_next _ _ _ (s' := (⟨textHeap variants g (GHeap.unwind k sh x).1, rRuleVal i, x, sa, sn, some k,
        some (rStackVal variants g (.nonTerminal A)), some (GHeap.unwind k sh x).2, none, none, none, none, none⟩ : RReduceOneVars T))
      (by rw [d_simple, act_oUnwind]; simp only [hu]), d_one, d_for _ _ _ rfl]
    have key := sim_each (Inv := OneInv variants g m i k A) (fun s => (rReduceOneMachine hGss f).execs n .nil dReduceRound s) (applyReduceTo m i k A) (fun x s => { s with stack := x })
      (fun s t x h => sim_round hf n i k A hi s t x h) (GHeap.unwind k sh x).2
      ⟨textHeap variants g (GHeap.unwind k sh x).1, rRuleVal i, x, sa, sn, some k, some (rStackVal variants g (.nonTerminal A)), some (GHeap.unwind k sh x).2, none, none, none, none, none⟩
      ⟨(GHeap.unwind k sh x).1, sa, sn⟩ ⟨rfl, rfl, rfl, rfl, rfl, rfl, recsOk_unwind k hp x⟩
    simp only
    cases hF : (GHeap.unwind k sh x).2.foldlM (applyReduceTo m i k A) ⟨(GHeap.unwind k sh x).1, sa, sn⟩ with
    | error e =>
      rw [hF] at key
      simp only [Sim] at key
      simp only [key]
    | ok st' =>
      rw [hF] at key
      obtain ⟨s, k1, k2, k3, k4, _, _, _, k5⟩ := key
      simp only [k1]
      refine ⟨k5, ?_⟩
      simp only [Except.map, k2, k3, k4]

end

end Verif
