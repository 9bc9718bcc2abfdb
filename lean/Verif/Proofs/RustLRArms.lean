import Verif.Proofs.RustLRText

/-! # The text of `parser.rs`: functions and arms -/

set_option autoImplicit false

namespace Verif

/-! ## Arms as pairs -/

/-- an arm -/
def armOf (a : RPat × List RStmt) : RStmt := .arm a.1 a.2

/-- an arm that matches: the variables and the block -/
def armHit (v : RVal) (a : RPat × List RStmt) : Option (List (List Char × RVal) × List RStmt) := (a.1.matches v).map (·, a.2)

theorem exec_armList {σ ρ : Type} (m : RMachine σ ρ) (n : Nat) (ctx : RForest) (v : RVal) (l : List (RPat × List RStmt)) (s : σ) :
    m.execArms n ctx v (l.map armOf) s = match l.findSome? (armHit v) with
      | none => .error .panic
      | some x => match m.binds x.1 s with
        | .error e => .error e
        | .ok s' => m.execs n ctx x.2 s' := by
  induction l with
  | nil => rw [List.map_nil, RMachine.execArms]; rfl
  | cons a l ih =>
    rw [List.map_cons, armOf, RMachine.execArms, List.findSome?_cons]
    cases h : a.1.matches v with
    | none => simp only [armHit, h, Option.map_none]; exact ih
    | some bs => simp only [armHit, h, Option.map_some]; cases m.binds bs s <;> rfl

theorem exec_armHit {σ ρ : Type} (m : RMachine σ ρ) (n : Nat) (ctx : RForest) {v : RVal} {l : List (RPat × List RStmt)} {s s' : σ} {bs : List (List Char × RVal)} {b : List RStmt}
    (h : l.findSome? (armHit v) = some (bs, b)) (hb : m.binds bs s = .ok s') : m.execArms n ctx v (l.map armOf) s = m.execs n ctx b s' := by
  rw [exec_armList, h]; simp only [hb]

/-- an arm with its text -/
def PairReads (f : RForest) (a : RPat × List RStmt) : Prop := ArmReads f (armOf a)

theorem pairs_read {fs : List RForest} {l : List (RPat × List RStmt)} (h : List.Forall₂ PairReads fs l) : List.Forall₂ ArmReads fs (l.map armOf) := by
  induction h with
  | nil => exact .nil
  | cons h _ ih => exact .cons h ih

/-- arms with a `,` between them -/
theorem sep_read {fs : List RForest} {l : List (RPat × List RStmt)} (h : List.Forall₂ PairReads fs l) (hl : List.Forall₂ (fun f a => ∀ n, readArms (n + 10) f = some [armOf a]) fs l) :
    ∀ n, readArms (n + (fs.length + 10)) (.sepComma fs) = some (l.map armOf) := by
  induction fs generalizing l with
  | nil => intro n; cases h; rfl
  | cons f fs ih =>
    intro n
    cases h with
    | cons h1 h2 =>
      cases hl with
      | cons l1 l2 =>
        cases fs with
        | nil =>
          cases h2
          exact l1 (n + 1)
        | cons f' fs =>
          have := ih h2 l2 n
          rw [List.length_cons] at this ⊢
          exact h1 (n + (fs.length + 1)) _ _ this

theorem forall₂_flatten {α β γ : Type} {R : β → γ → Prop} {f : α → Res (List β)} {g : α → List γ} (h : ∀ x ys, f x = .ok ys → List.Forall₂ R ys (g x)) :
    ∀ (l : List α) {yss : List (List β)}, l.mapM f = .ok yss → List.Forall₂ R yss.flatten (l.flatMap g) := by
  intro l
  induction l with
  | nil => intro yss hl; cases hl; exact .nil
  | cons x l ih =>
    intro yss hl
    rw [List.mapM_cons] at hl
    obtain ⟨y, h1, hl⟩ := res_bind_ok.mp hl
    obtain ⟨ys', h2, hl⟩ := res_bind_ok.mp hl
    cases hl
    rw [List.flatten_cons, List.flatMap_cons]
    exact List.rel_append (h x y h1) (ih h2)

/-- arms of states: those of other states do not match -/
theorem find_state {α : Type} (F : α × Nat → List (RPat × List RStmt)) (v : RVal) (q : Nat) (hne : ∀ x, x.2 ≠ q → (F x).findSome? (armHit v) = none) (l : List α) (k : Nat) :
    ((l.zipIdx k).flatMap F).findSome? (armHit v) = if k ≤ q then (l[q - k]?).bind (fun a => (F (a, q)).findSome? (armHit v)) else none := by
  induction l generalizing k with
  | nil => simp
  | cons a l ih =>
    rw [List.zipIdx_cons, List.flatMap_cons, List.findSome?_append, ih]
    by_cases hk : k = q
    · subst hk
      rw [if_neg (by omega), if_pos (Nat.le_refl _), Nat.sub_self, Option.or_none]
      rfl
    · rw [hne (a, k) hk, Option.none_or]
      by_cases h : k ≤ q
      · rw [if_pos h, if_pos (by omega), show q - k = (q - (k + 1)) + 1 by omega, List.getElem?_cons_succ]
      · rw [if_neg h, if_neg (by omega)]

/-! ## Functions in the text -/

/-- the block of `next_action` -/
def rActionBody (actions : RForest) : RForest := rs! "match (state, next_token) { #actions (_, _) => unreachable!() }"

/-- the block of `next_goto` -/
def rGotoBody (gotos : RForest) : RForest := rs! "match (state, symbol) { #gotos (_, _) => unreachable!() }"

/-- the block of `reduce_stack_and_visit` -/
def rReduceBody (rule_reductions rule_visits : RForest) : RForest := rs! "
          let (to_pop, reduced) = match rule {
              #rule_reductions
          };
          for _ in 0..to_pop {
              stack.pop().unwrap();
              stack.pop().unwrap();
          }
          stack.push(reduced);
          match rule {
              #rule_visits
          }"

/-- the block of `parse` -/
def rParseBody (entry : RForest) : RForest := rs! "
          let mut lookahead = std::collections::VecDeque::new();
          lookahead.push_back((self.token_function)());

          let mut stack = Vec::new();
          stack.push(StackSymbol::State { state_id: #entry });

          while !stack.is_empty() {
              let (next_token, _) = lookahead.front().unwrap();
              let state = match stack.last().unwrap() {
                  StackSymbol::State { state_id } => *state_id,
                  _ => unreachable!()
              };
              let action = self.next_action(state, *next_token)?;
              match action {
                  Action::Shift => {
                      let (next_token, next_data) = lookahead.pop_front().unwrap();
                      stack.push(StackSymbol::Terminal { token: next_token });
                      self.visitor.shift(next_token, next_data);

                      lookahead.push_back((self.token_function)());
                  }
                  Action::Reduce { rule: reduced_rule } => {
                      self.reduce_stack_and_visit(reduced_rule, &mut stack);
                  }
              }
              let current_symbol = stack.last().unwrap();
              let state = match &stack[stack.len() - 2] {
                  StackSymbol::State { state_id } => *state_id,
                  _ => unreachable!()
              };
              let goto = self.next_goto(state, *current_symbol);
              match goto {
                  Goto::Accept => {
                      stack.pop();
                      stack.pop();
                  }
                  Goto::State { state_id } => {
                      stack.push(StackSymbol::State { state_id })
                  }
              }
          }
          Ok(())"

/-- the whole stream -/
def rParserStream (m entry nts rules actions gotos reds visits : RForest) : RForest :=
  (rs! "use super::tokens::TokenType;").append ((rustVisitorTokens m).append (rustParserTokens entry nts rules actions gotos reds visits))

section
variable (m entry nts rules actions gotos reds visits : RForest)

theorem find_action : (findImpl "Parser".toList none (rParserStream m entry nts rules actions gotos reds visits)).bind (findFn "next_action".toList .look) = some (rActionBody actions) := rfl
theorem find_goto : (findImpl "Parser".toList none (rParserStream m entry nts rules actions gotos reds visits)).bind (findFn "next_goto".toList .look) = some (rGotoBody gotos) := rfl
theorem find_reduce : (findImpl "Parser".toList none (rParserStream m entry nts rules actions gotos reds visits)).bind (findFn "reduce_stack_and_visit".toList .look) = some (rReduceBody reds visits) := rfl
theorem find_parse : (findImpl "Parser".toList none (rParserStream m entry nts rules actions gotos reds visits)).bind (findFn "parse".toList .look) = some (rParseBody entry) := rfl
theorem find_ntEnum : findEnum "NonTerminalType".toList (rParserStream m entry nts rules actions gotos reds visits) = readVariants nts := rfl
theorem find_ruleEnum : findEnum "ReducedRule".toList (rParserStream m entry nts rules actions gotos reds visits) = readVariants rules := rfl
theorem find_visitor : (findTrait "Visitor".toList (rParserStream m entry nts rules actions gotos reds visits)).map declaredFns = some ("shift".toList :: declaredFns m) := rfl

theorem parser_read (hm : m.Ok) (he : entry.Ok) (h1 : nts.Ok) (h2 : rules.Ok) (h3 : actions.Ok) (h4 : gotos.Ok) (h5 : reds.Ok) (h6 : visits.Ok) :
    rRead ((rs! "use super::tokens::TokenType;").print ++ (rustVisitorTokens m).print ++ (rustParserTokens entry nts rules actions gotos reds visits).print) =
      some (rParserStream m entry nts rules actions gotos reds visits) := by
  refine rRead_three (c2 := 'p') (c3 := 'p') ?_ ?_ ?_ ?_ rfl rfl rfl (by decide) (by decide)
  · rust_ok
  · unfold rustVisitorTokens; rust_ok
  · unfold rustParserTokens; rust_ok
  · intro ts st h
    rw [show rLexRun .base (rs! "use super::tokens::TokenType;").print = some ([.word "use".toList, .word "super".toList, .sym "::".toList, .word "tokens".toList, .sym "::".toList, .word "TokenType".toList], .sym [';']) by decide] at h
    cases h
    trivial
end

/-! ## Statements -/

/-- arms that give a state -/
def rStateArms : List (RPat × List RStmt) :=
  [(.field "StackSymbol".toList "State".toList "state_id".toList (.bind "state_id".toList), [.tail (rs! "*state_id")]), (.wild, [.tail (rs! "unreachable!()")])]

/-- arms for an action -/
def rActArms : List (RPat × List RStmt) :=
  [(.variant "Action".toList "Shift".toList,
      [.simple (rs! "let (next_token, next_data) = lookahead.pop_front().unwrap()"), .simple (rs! "stack.push(StackSymbol::Terminal { token: next_token })"),
        .simple (rs! "self.visitor.shift(next_token, next_data)"), .simple (rs! "lookahead.push_back((self.token_function)())")]),
    (.field "Action".toList "Reduce".toList "rule".toList (.bind "reduced_rule".toList), [.simple (rs! "self.reduce_stack_and_visit(reduced_rule, &mut stack)")])]

/-- arms for a goto -/
def rGotoArms : List (RPat × List RStmt) :=
  [(.variant "Goto".toList "Accept".toList, [.simple (rs! "stack.pop()"), .simple (rs! "stack.pop()")]),
    (.field "Goto".toList "State".toList "state_id".toList (.bind "state_id".toList), [.tail (rs! "stack.push(StackSymbol::State { state_id })")])]

/-- statements of the loop -/
def rParseLoop : List RStmt :=
  [.simple (rs! "let (next_token, _) = lookahead.front().unwrap()"),
    .matching (rs! "let state =") (rs! "stack.last().unwrap()") (rStateArms.map armOf),
    .simple (rs! "let action = self.next_action(state, *next_token)?"),
    .matching .nil (rs! "action") (rActArms.map armOf),
    .simple (rs! "let current_symbol = stack.last().unwrap()"),
    .matching (rs! "let state =") (rs! "&stack[stack.len() - 2]") (rStateArms.map armOf),
    .simple (rs! "let goto = self.next_goto(state, *current_symbol)"),
    .tailMatch (rs! "goto") (rGotoArms.map armOf)]

/-- statements of `parse` -/
def rParseStmts (entry : RForest) : List RStmt :=
  [.simple (rs! "let mut lookahead = std::collections::VecDeque::new()"), .simple (rs! "lookahead.push_back((self.token_function)())"), .simple (rs! "let mut stack = Vec::new()"),
    .simple (rs! "stack.push(StackSymbol::State { state_id: #entry })"), .whileDo (rs! "!stack.is_empty()") rParseLoop, .tail (rs! "Ok(())")]

theorem read_parse (entry : RForest) (n : Nat) : readRStmts (n + 60) (rParseBody entry) = some (rParseStmts entry) := by
  have hst : ∀ n, readArms (n + 5) (rs! "StackSymbol::State { state_id } => *state_id, _ => unreachable!()") = some (rStateArms.map armOf) := fun n =>
    rd_arm_expr (n := n + 4) rfl rfl rfl rfl (rd_arm_last (n := n + 3) rfl rfl rfl rfl)
  refine rd_simple (n := n + 58) rfl rfl rfl ?_
  refine rd_simple (n := n + 56) rfl rfl rfl ?_
  refine rd_simple (n := n + 54) rfl rfl rfl ?_
  refine rd_simple (n := n + 52) rfl rfl rfl ?_
  refine rd_while (n := n + 51) rfl ?_ (rd_tail (n := n + 49) rfl rfl)
  refine rd_simple (n := n + 49) rfl rfl rfl ?_
  refine rd_matching (n := n + 47) rfl rfl rfl rfl (hst _) ?_
  refine rd_simple (n := n + 45) rfl rfl rfl ?_
  refine rd_match (n := n + 44) rfl ?_ (by intro h; cases h) ?_
  · refine rd_arm_block (n := n + 43) rfl rfl ?_ ?_
    · exact rd_simple (n := n + 41) rfl rfl rfl (rd_simple (n := n + 39) rfl rfl rfl (rd_simple (n := n + 37) rfl rfl rfl (rd_simple (n := n + 35) rfl rfl rfl rfl)))
    · exact rd_arm_block (n := n + 42) rfl rfl (rd_simple (n := n + 40) rfl rfl rfl rfl) rfl
  refine rd_simple (n := n + 42) rfl rfl rfl ?_
  refine rd_matching (n := n + 40) rfl rfl rfl rfl (hst _) ?_
  refine rd_simple (n := n + 38) rfl rfl rfl ?_
  refine rd_tailMatch (n := n + 37) rfl ?_
  refine rd_arm_block (n := n + 36) rfl rfl ?_ ?_
  · exact rd_simple (n := n + 34) rfl rfl rfl (rd_simple (n := n + 32) rfl rfl rfl rfl)
  · exact rd_arm_block (n := n + 35) rfl rfl (rd_tail (n := n + 33) rfl rfl) rfl

/-- statements of `reduce_stack_and_visit` -/
def rReduceStmts (reds visits : List RStmt) : List RStmt :=
  [.matching (rs! "let (to_pop, reduced) =") (rs! "rule") reds, .forDo (rs! "_ in 0..to_pop") [.simple (rs! "stack.pop().unwrap()"), .simple (rs! "stack.pop().unwrap()")],
    .simple (rs! "stack.push(reduced)"), .tailMatch (rs! "rule") visits]

theorem read_reduce {reds visits : RForest} {n : Nat} {as bs : List RStmt} (h1 : readArms (n + 20) reds = some as) (h2 : readArms (n + 16) visits = some bs) :
    readRStmts (n + 22) (rReduceBody reds visits) = some (rReduceStmts as bs) := by
  refine rd_matching (n := n + 20) rfl rfl rfl rfl h1 ?_
  refine rd_for (n := n + 19) rfl (rd_simple (n := n + 17) rfl rfl rfl (rd_simple (n := n + 15) rfl rfl rfl rfl)) ?_
  refine rd_simple (n := n + 17) rfl rfl rfl ?_
  exact rd_tailMatch (n := n + 16) rfl h2

end Verif
