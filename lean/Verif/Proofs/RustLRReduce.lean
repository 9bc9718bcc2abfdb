import Verif.Proofs.RustLRFuns
import Verif.Proofs.Names

/-! # The text of `parser.rs`: `reduce_stack_and_visit` -/

set_option autoImplicit false

namespace Verif

/-- the value in an arm -/
def rRedTokens (g : Grammar) (x : Nat × Nat) : RForest :=
  let symbols_to_reduce := rUsize x.1
  let non_terminal := RForest.word (rNtV g x.2) .nil
  rs! "(#symbols_to_reduce, StackSymbol::NonTerminal { non_terminal: NonTerminalType::#non_terminal })"

/-- an arm that says how many symbols are popped and what is pushed -/
def redPair (g : Grammar) (x : (Nat × Nat) × Nat) : RPat × List RStmt := (.variant "ReducedRule".toList (['R', 'u', 'l', 'e'] ++ decimal x.2), [.tail (rRedTokens g x.1)])

/-- the call in an arm -/
def rVisitTokens (name : List Char) : RForest :=
  let function := RForest.word name .nil
  rs! "self.visitor.#function()"

/-- an arm that calls the visitor -/
def visitPair (x : Nat × List Char) : RPat × List RStmt := (.variant "ReducedRule".toList (['R', 'u', 'l', 'e'] ++ decimal x.1), [.tail (rVisitTokens x.2)])

theorem reads_reduction {g : Grammar} (x : (Nat × Nat) × Nat) (f : RForest) (h : rustReduction g x = .ok f) : PairReads f (redPair g x) ∧ ∀ n, readArms (n + 10) f = some [armOf (redPair g x)] := by
  unfold rustReduction at h
  obtain ⟨w, h1, h2⟩ := res_bind_ok.mp h
  rw [ntIdent_eq h1] at h2
  cases h2
  exact ⟨fun n r as hr => rd_arm_expr (n := n + 10) rfl rfl rfl rfl hr, fun n => rd_arm_last (n := n + 9) rfl rfl rfl rfl⟩

theorem reads_visit (x : Nat × List Char) : PairReads (rustVisit x) (visitPair x) ∧ ∀ n, readArms (n + 10) (rustVisit x) = some [armOf (visitPair x)] :=
  ⟨fun n r as hr => rd_arm_expr (n := n + 10) rfl rfl rfl rfl hr, fun n => rd_arm_last (n := n + 9) rfl rfl rfl rfl⟩

theorem ruleVal_hit (i j : Nat) (b : List RStmt) : armHit (rRuleVal i) (.variant "ReducedRule".toList (['R', 'u', 'l', 'e'] ++ decimal j), b) = if j = i then some ([], b) else none := by
  by_cases h : j = i
  · subst h; simp [armHit, rRuleVal, RPat.matches]
  · have : ¬ decimal j = decimal i := fun e => h (decimal_inj e)
    simp [armHit, rRuleVal, RPat.matches, this, h]

theorem find_red (g : Grammar) (i : Nat) (l : List (Nat × Nat)) (k : Nat) :
    ((l.zipIdx k).map (redPair g)).findSome? (armHit (rRuleVal i)) = if k ≤ i then (l[i - k]?).map (fun x => ([], [.tail (rRedTokens g x)])) else none := by
  induction l generalizing k with
  | nil => simp
  | cons x l ih =>
    rw [List.zipIdx_cons, List.map_cons, List.findSome?_cons, ih, redPair, ruleVal_hit]
    by_cases h : k = i
    · subst h; simp
    · rw [if_neg h]
      by_cases h' : k ≤ i
      · rw [if_pos h', if_pos (by omega), show i - k = (i - (k + 1)) + 1 by omega, List.getElem?_cons_succ]
      · rw [if_neg h', if_neg (by omega)]

theorem find_visit (i : Nat) (l : List (Nat × List Char)) :
    (l.map visitPair).findSome? (armHit (rRuleVal i)) = (l.find? (fun x => x.1 = i)).map (fun x => ([], [.tail (rVisitTokens x.2)])) := by
  induction l with
  | nil => rfl
  | cons x l ih =>
    rw [List.map_cons, List.findSome?_cons, ih, visitPair, ruleVal_hit, List.find?_cons]
    by_cases h : x.1 = i <;> simp [h]

theorem act_rLet (g : Grammar) (x : Nat × Nat) (s : RReduceVars) (variants : List (List Char)) :
    rReduceMachine.act ((rs! "let (to_pop, reduced) =").append (rRedTokens g x)) s = .ok (.next { s with toPop := some x.1, reduced := some (rStackVal variants g (.nonTerminal x.2)) }) := by
  show (if (rs! "let (to_pop, reduced) =").append (rRedTokens g x) = (rs! "let (to_pop, reduced) =").append (rRedTokens g x) then
    (match readValue 5 (rRedTokens g x) with | some (.pair (.num k) v) => (Except.ok (ROut.next { s with toPop := some k, reduced := some v }) : Res (ROut RReduceVars (List Char))) | _ => Except.error Err.panic) else _) = _
  have : readValue 5 (rRedTokens g x) = some (.pair (.num x.1) (rStackVal variants g (.nonTerminal x.2))) := by
    show (readValue 4 (rUsize x.1)).bind (fun a => some (RVal.pair a (rStackVal variants g (.nonTerminal x.2)))) = _
    rw [readValue_num]; rfl
  rw [this, if_pos rfl]

theorem act_rVisit (name : List Char) (s : RReduceVars) : rReduceMachine.act ((rs! "return").append (rVisitTokens name)) s = .ok (.ret s name) := by
  show (if (rs! "return").append (rVisitTokens name) = (rs! "return").append (rVisitTokens name) then (Except.ok (ROut.ret s name) : Res (ROut RReduceVars (List Char))) else Except.error Err.panic) = _
  rw [if_pos rfl]

theorem act_rPop (s : RReduceVars) : rReduceMachine.act (rs! "stack.pop().unwrap()") s = match s.stack with
    | [] => .error .panic
    | _ :: st => .ok (.next { s with stack := st }) := rfl

theorem act_rPush (s : RReduceVars) : rReduceMachine.act (rs! "stack.push(reduced)") s = match s.reduced with
    | none => .error .panic
    | some v => .ok (.next { s with stack := v :: s.stack }) := rfl

theorem run_rPops (k : Nat) (s : RReduceVars) :
    rTimes (fun s => rReduceMachine.execs 0 .nil [.simple (rs! "stack.pop().unwrap()"), .simple (rs! "stack.pop().unwrap()")] s) k s =
      if s.stack.length < 2 * k then .error .panic else .ok (.next { s with stack := s.stack.drop (2 * k) }) := by
  induction k generalizing s with
  | zero => rw [rTimes, if_neg (by omega)]; rfl
  | succ k ih =>
    rw [rTimes]
    obtain ⟨rule, stack, tp, rd⟩ := s
    match stack with
    | [] => rw [r_execs_err (e := .panic) _ _ _ (by rw [r_exec_simple, act_rPop]), if_pos (by simp)]
    | [a] =>
      rw [r_execs_next _ _ _ (s' := ⟨rule, [], tp, rd⟩) (by rw [r_exec_simple, act_rPop]), r_execs_err (e := .panic) _ _ _ (by rw [r_exec_simple, act_rPop]), if_pos (by simp; omega)]
    | a :: b :: st =>
      rw [r_execs_next _ _ _ (s' := ⟨rule, b :: st, tp, rd⟩) (by rw [r_exec_simple, act_rPop]), r_execs_one, r_exec_simple, act_rPop]
      simp only
      rw [ih]
      simp only [List.length_cons]
      by_cases h : st.length < 2 * k
      · rw [if_pos h, if_pos (by omega)]
      · rw [if_neg h, if_neg (by omega)]
        rfl

/-- `reduce_stack_and_visit` -/
theorem call_rReduce (variants : List (List Char)) (g : Grammar) (reds : List (Nat × Nat)) (visits : List (Nat × List Char)) (hv : ∀ i < reds.length, ∃ name, (i, name) ∈ visits)
    (i : Nat) (stack : List RVal) :
    (callR rReduceMachine 0 (rReduceStmts ((reds.zipIdx.map (redPair g)).map armOf) ((visits.map visitPair).map armOf)) ⟨rRuleVal i, stack, none, none⟩).map (fun r => (r.1.stack, r.2)) =
      match reds[i]? with
      | none => .error .panic
      | some (k, A) =>
        if stack.length < 2 * k then .error .panic
        else .ok (rStackVal variants g (.nonTerminal A) :: stack.drop (2 * k), ((visits.find? (fun x => x.1 = i)).map (·.2)).getD []) := by
  unfold callR rReduceStmts
  cases hr : reds[i]? with
  | none =>
    rw [r_execs_err (e := .panic)]
    · rfl
    · rw [r_exec_matching (v := rRuleVal i) _ _ _ rfl, exec_armList, find_red, if_pos (Nat.zero_le _), Nat.sub_zero, hr]
      rfl
  | some x =>
    obtain ⟨k, A⟩ := x
    rw [r_execs_next (s' := ⟨rRuleVal i, stack, some k, some (rStackVal variants g (.nonTerminal A))⟩)]
    · by_cases h : stack.length < 2 * k
      · rw [r_execs_err (e := .panic)]
        · simp only [if_pos h]; rfl
        · rw [r_exec_for (k := k) _ _ _ rfl, run_rPops, if_pos h]
      · rw [r_execs_next (s' := ⟨rRuleVal i, stack.drop (2 * k), some k, some (rStackVal variants g (.nonTerminal A))⟩)]
        · rw [r_execs_next (s' := ⟨rRuleVal i, rStackVal variants g (.nonTerminal A) :: stack.drop (2 * k), some k, some (rStackVal variants g (.nonTerminal A))⟩)]
          · rw [r_execs_one, r_exec_tailMatch (v := rRuleVal i) _ _ _ rfl, exec_armList, find_visit]
            have hlt : i < reds.length := (List.getElem?_eq_some_iff.mp hr).1
            obtain ⟨name, hm⟩ := hv i hlt
            have : (visits.find? (fun x => decide (x.1 = i))).isSome := by rw [List.find?_isSome]; exact ⟨_, hm, by simp⟩
            obtain ⟨y, hy⟩ := Option.isSome_iff_exists.mp this
            rw [hy]
            simp only [Option.map_some, r_binds_nil, r_execs_one, r_exec_tail, act_rVisit, if_neg h]
            rfl
          · rw [r_exec_simple, act_rPush]
        · rw [r_exec_for (k := k) _ _ _ rfl, run_rPops, if_neg h]
    · rw [r_exec_matching (v := rRuleVal i) _ _ _ rfl, exec_armList, find_red, if_pos (Nat.zero_le _), Nat.sub_zero, hr]
      simp only [Option.map_some, r_binds_nil, r_execs_one, r_exec_tail, act_rLet g _ _ variants]

end Verif
