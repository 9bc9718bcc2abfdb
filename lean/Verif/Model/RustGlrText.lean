import Verif.Model.RustLRText
import Verif.Model.Glr

/-!
# The Rust source text of the GLR parser that is generated

`lapex-rust-codegen/src/glr_parser/mod.rs`: four token streams, printed one after another with nothing between them. The arms come from `genGlr`. As in `Verif/Model/RustLRText.lean`, the name of a
variant or function is one word.
-/

set_option autoImplicit false

namespace Verif

/-! ## The visitors -/

/-- a method of the debug visitor — lapex-rust-codegen/src/glr_parser/mod.rs:114-139. -/
def rustDebugMethod (rs : RuleSet) (g : Grammar) (A n i r : Nat) : Res RForest :=
  match g.rules[r]? with
  | none => .error .panic
  | some rule => do
    let text ← ruleText g rule
    let comment := RForest.str text .nil
    let function := RForest.word (callbackName rs g A n i r) .nil
    .ok (rs! "fn #function(&mut self) { println!(#comment); }")

/-- `reduce_functions` of the debug visitor — lapex-rust-codegen/src/glr_parser/mod.rs:110-140. -/
def rustDebugMethods (rs : RuleSet) (g : Grammar) : Res (List RForest) := do
  let fs ← (rulesByNt g).mapM fun e => e.2.zipIdx.mapM fun r => rustDebugMethod rs g e.1 e.2.length r.2 r.1
  .ok fs.flatten

/-- `write_debug_visitor` — lapex-rust-codegen/src/glr_parser/mod.rs:142-152. -/
def rustDebugTokens (reduce_functions : RForest) : RForest := rs! "
  pub struct DebugVisitor {}

  impl Visitor<()> for DebugVisitor {
      fn shift(&mut self, token: TokenType, _data: ()) {
          println!(\"shift {:?}\", token);
      }

      #reduce_functions
  }"

/-! ## Arms -/

/-- one of `actions_for_entry` — lapex-rust-codegen/src/glr_parser/mod.rs:289-307. -/
def rustGlrAction : LRAction → RForest
  | .shift => rs! "Action::Shift"
  | .reduce i =>
    let rule_name := rustRuleIdent i
    rs! "Action::Reduce { rule: ReducedRule::#rule_name }"

/-- the right side of an arm of `next_actions` — lapex-rust-codegen/src/glr_parser/mod.rs:308-312. -/
def rustGlrActions (as : List LRAction) : RForest :=
  let actions_for_entry := RForest.joinComma (as.map rustGlrAction)
  rs! "Ok(&[#actions_for_entry])"

/-- one of `actions` without its last comma — `make_action`, lapex-rust-codegen/src/glr_parser/mod.rs:266-314. -/
def rustGlrActionArm (g : Grammar) (q : Nat) (x : Sym × List LRAction) : Res (List RForest) :=
  let state := rUsize q
  let actions := rustGlrActions x.2
  match x.1 with
  | .t a => do
    let token ← rustTokenIdent g a
    .ok [rs! "(#state, TokenType::#token) => #actions"]
  | .eof => .ok [rs! "(#state, TokenType::EndOfFile) => #actions"]
  | _ => .ok []

/-- an expected token; none is the end of the input — lapex-rust-codegen/src/glr_parser/mod.rs:243-254, 259. -/
def rustGlrExpected (g : Grammar) : Option Nat → Res RForest
  | some a => do
    let expected ← rustTokenIdent g a
    .ok (rs! "TokenType::#expected")
  | none => .ok (rs! "TokenType::EndOfFile")

/-- the `actions` of a state — `make_actions`, lapex-rust-codegen/src/glr_parser/mod.rs:228-264. -/
def rustGlrStateActions (g : Grammar) (x : (List (Sym × List LRAction) × List (Option Nat)) × Nat) : Res (List RForest) := do
  let arms ← x.1.1.mapM (rustGlrActionArm g x.2)
  let es ← x.1.2.mapM (rustGlrExpected g)
  let expected := RForest.sepComma es
  let state := rUsize x.2
  .ok (arms.flatten ++ [rs! "(#state, _) => Err(ParserError::UnexpectedToken { got: next_token, got_data: next_data, expected: vec![#expected], })"])

/-- the right side of an arm of `next_goto` — lapex-rust-codegen/src/glr_parser/mod.rs:211-225. -/
def rustGlrGoto : LRGoto → RForest
  | .accept => rs! "Some(Goto::Accept)"
  | .state t =>
    let target := rUsize t
    rs! "Some(Goto::State { state_id: #target })"

/-- one of `gotos` without its last comma — `make_goto`, lapex-rust-codegen/src/glr_parser/mod.rs:183-226. -/
def rustGlrGotoArm (g : Grammar) (q : Nat) (x : Sym × LRGoto) : Res (List RForest) :=
  let state := rUsize q
  let goto := rustGlrGoto x.2
  match x.1 with
  | .t a => do
    let token ← rustTokenIdent g a
    .ok [rs! "(#state, StackSymbol::Terminal { token: TokenType::#token }) => #goto"]
  | .nt A => do
    let token ← rustNtIdent g A
    .ok [rs! "(#state, StackSymbol::NonTerminal { non_terminal: NonTerminalType::#token }) => #goto"]
  | _ => .ok []

/-- the `gotos` of a state — `make_gotos`, lapex-rust-codegen/src/glr_parser/mod.rs:156-181. -/
def rustGlrStateGotos (g : Grammar) (x : List (Sym × LRGoto) × Nat) : Res (List RForest) := do
  let arms ← x.1.mapM (rustGlrGotoArm g x.2)
  .ok arms.flatten

/-! ## The parser -/

/-- the tokens of the parser — `write_parser`, lapex-rust-codegen/src/glr_parser/mod.rs:412-811. `rule_reductions` (336-355) and `rule_visits` (357-389) are made as by the LR generator. -/
def rustGlrTokens (entry non_terminals rules actions gotos rule_reductions rule_visits : RForest) : RForest := rs! "
  pub struct Parser<T, E, F: FnMut() -> Result<(TokenType, T), E>, V: Visitor<T>> {
      token_function: F,
      visitor: V,
  }

  #[derive(Debug, Clone, Copy)]
  enum NonTerminalType {
      #non_terminals
  }

  #[derive(Debug, Clone, Copy)]
  enum StackSymbol {
      Terminal { token: TokenType },
      NonTerminal { non_terminal: NonTerminalType },
  }

  #[derive(Clone, Copy)]
  enum ReducedRule {
      #rules
  }

  enum Action {
      Shift,
      Reduce { rule: ReducedRule }
  }

  enum Goto {
      Accept,
      State { state_id: usize }
  }

  type StateId = usize;

  #[derive(Debug)]
  pub enum ParserError<T, E: std::error::Error> {
      UnexpectedToken {
          got: TokenType,
          got_data: T,
          expected: Vec<TokenType>,
      },
      LexerError {
          inner: E
      },
      UnexpectedTokens {
          got: Vec<(TokenType, T)>,
          expected: Vec<Vec<TokenType>>,
      },
  }

  impl<T: std::fmt::Debug, E: std::error::Error> std::error::Error for ParserError<T, E> {}

  impl<T, E: std::error::Error> std::fmt::Display for ParserError<T, E> {
      fn fmt(&self, f: &mut std::fmt::Formatter) -> std::fmt::Result {
          match self {
              ParserError::UnexpectedToken {
                  got,
                  got_data: _,
                  expected,
              } => write!(
                  f,
                  \"Unexpected token {:?}, expected one of: {:?}\",
                  got, expected
              ),
              ParserError::LexerError { inner } => write!(f, \"{}\", inner),
              ParserError::UnexpectedTokens { got, expected } => {
                  let errors: Vec<String> = got
                      .iter()
                      .zip(expected.iter())
                      .map(|((got, _got_data), expected)| {
                          format!(
                              \"Unexpected token {:?}, expected one of: {:?}\",
                              got, expected
                          )
                      })
                      .collect();
                  write!(
                      f,
                      \"Multiple diverging parse stacks reached unexpected ends:\\n{}\",
                      errors.join(\"\\n\")
                  )
              }
          }
      }
  }

  #[derive(Clone)]
  enum RecordedVisit<T> {
      Reduce { rule: ReducedRule },
      Shift { token: TokenType, data: T },
  }

  impl<T: Clone, E: std::error::Error, F: FnMut() -> Result<(TokenType, T), E>, V: Visitor<T>> Parser<T, E, F, V> {
      pub fn new(token_function: F, visitor: V) -> Self {
          Parser {
              token_function,
              visitor,
          }
      }

      fn next_actions(&self, state: usize, next_token: TokenType, next_data: T) -> Result<&'static [Action], ParserError<T, E>> {
          match (state, next_token) {
              #actions
              (_, _) => unreachable!()
          }
      }

      fn next_goto(&self, state: &usize, symbol: &StackSymbol) -> Option<Goto> {
          match (state, symbol) {
              #gotos
              (_, _) => None,
          }
      }

      fn get_rule_reduction(&self, rule: &ReducedRule) -> (usize, StackSymbol) {
          match rule {
              #rule_reductions
          }
      }

      fn do_visit(&mut self, rule: &ReducedRule) {
          match rule {
              #rule_visits
          }
      }

      pub fn parse(&mut self) -> Result<(), ParserError<T, E>> {
          let mut lookahead = std::collections::VecDeque::new();
          lookahead.push_back((self.token_function)().map_err(|e| ParserError::LexerError { inner: e })?);

          let root = GraphNode::root();
          let stack = root.push(Some(#entry), None);
          let mut stacks = vec![stack];

          while !(stacks.len() == 1 && stacks[0].is_root()) {
              let (next_token, next_data) = lookahead.front().unwrap();
              let reduced = self
                  .apply_reduces(stacks, next_token, next_data)
                  .map_err(combine_errors)?;

              let (next_token, next_data) = lookahead.pop_front().unwrap();
              let new_symbol = StackSymbol::Terminal { token: next_token };
              lookahead.push_back((self.token_function)().map_err(|e| ParserError::LexerError { inner: e })?);

              let mut new_stacks = if reduced.iter().any(|s| s.top().is_none()) {
                  reduced
              } else {
                  let mut new_stacks = Vec::new();
                  for stack in reduced {
                      let state = *stack.top().unwrap();
                      match self.next_goto(&state, &new_symbol) {
                          Some(Goto::State { state_id }) => {
                              stack.record(RecordedVisit::Shift {
                                  token: next_token,
                                  data: next_data.clone(),
                              });
                              let new_node = stack.push(Some(state_id), Some(new_symbol));
                              new_stacks.push(new_node);
                          }
                          Some(Goto::Accept) => unreachable!(),
                          None => (),
                      }
                  }
                  new_stacks
              };
              if new_stacks.len() == 1 {
                  let stack = new_stacks.pop().unwrap();
                  let recorded = stack.pop_recorded();
                  for record in recorded {
                      match record {
                          RecordedVisit::Reduce { rule } => self.do_visit(&rule),
                          RecordedVisit::Shift { token, data } => self.visitor.shift(token, data),
                      }
                  }
                  stacks = vec![stack];
              } else {
                  stacks = new_stacks;
              }
          }
          Ok(())
      }

      fn apply_reduces(
          &mut self,
          stacks: Vec<GraphNode<usize, StackSymbol, RecordedVisit<T>>>,
          next_token: &TokenType,
          next_data: &T
      ) -> Result<Vec<GraphNode<usize, StackSymbol, RecordedVisit<T>>>, Vec<ParserError<T, E>>> {
          let mut to_reduce = stacks;
          let mut reduced = Vec::new();
          while !to_reduce.is_empty() {
              let mut errors = Vec::new();
              let all_error_count = to_reduce.len();
              let mut new_to_reduce = Vec::new();
              for stack in to_reduce {
                  let state = *stack.top().unwrap();
                  match self.next_actions(state, next_token.clone(), next_data.clone()) {
                      Ok(actions) => {
                          for action in actions {
                              match action {
                                  Action::Reduce { rule: reduced_rule } => {
                                      self.apply_reduce(
                                          reduced_rule,
                                          &stack,
                                          &mut reduced,
                                          &mut new_to_reduce,
                                      );
                                  }
                                  Action::Shift => {
                                      reduced.push(stack.clone_and_fork_record());
                                  }
                              };
                          }
                      }
                      Err(e) => {
                          errors.push(e);
                      }
                  }
              }

              if reduced.is_empty() && errors.len() == all_error_count {
                  return Err(errors);
              }
              to_reduce = new_to_reduce;
          }
          Ok(reduced)
      }

      fn apply_reduce(
          &mut self,
          reduced_rule: &ReducedRule,
          stack: &GraphNode<usize, StackSymbol, RecordedVisit<T>>,
          accepted: &mut Vec<GraphNode<StateId, StackSymbol, RecordedVisit<T>>>,
          new_to_reduce: &mut Vec<GraphNode<usize, StackSymbol, RecordedVisit<T>>>,
      ) {
          let (to_pop, reduced_symbol) = self.get_rule_reduction(&reduced_rule);
          let stacks_to_push = stack.unwind_stacks(to_pop);
          for mut stack in stacks_to_push {
              stack.record(RecordedVisit::Reduce {
                  rule: reduced_rule.clone(),
              });

              for _ in 0..to_pop {
                  let (_edge, new_stack) = stack.pop();
                  stack = new_stack;
              }
              let state = *stack.top().unwrap();
              match self.next_goto(&state, &reduced_symbol) {
                  Some(Goto::State { state_id }) => {

                      let new_node = stack.push(Some(state_id), Some(reduced_symbol));
                      new_to_reduce.push(new_node);
                  }
                  Some(Goto::Accept) => {
                      let (_edge, root) = stack.pop();
                      accepted.push(root);
                  }
                  None => (),
              }
          }
      }
  }

  fn combine_errors<T, E: std::error::Error>(mut errors: Vec<ParserError<T, E>>) -> ParserError<T, E> {
      match errors.len() {
          1 => errors.pop().unwrap(),
          0 => unreachable!(),
          _ => {
              let (got, expected): (Vec<(TokenType, T)>, Vec<Vec<TokenType>>) = errors
                  .into_iter()
                  .map(|e| match e {
                      ParserError::UnexpectedToken {
                          got,
                          got_data,
                          expected,
                      } => ((got, got_data), expected),
                      _ => unreachable!(),
                  })
                  .unzip();
              ParserError::UnexpectedTokens { got, expected }
          }
      }
  }

  use gss::GraphNode;

  mod gss {
      use std::{
          cell::{Ref, RefCell},
          rc::Rc,
      };

      pub struct GraphNode<N, E, R> {
          inner: Rc<RefCell<GraphNodeInner<N, E, R>>>,
          recorded: Rc<RefCell<Vec<R>>>,
      }

      impl<N: Clone, E: Clone, R: Clone> GraphNode<N, E, R> {
          pub fn clone_and_fork_record(&self) -> Self {
              GraphNode {
                  inner: self.inner.clone(),
                  recorded: Rc::new(RefCell::new(self.recorded.borrow().clone())),
              }
          }

          pub fn unwind_stacks(&self, depth: usize) -> Vec<Self> {
              if depth == 0 {
                  return vec![self.clone_and_fork_record()];
              }
              let mut resulting_parents = Vec::new();
              let value = self.top().map(|r| r.clone());
              for (edge, neighbor) in self.neighbors().iter() {
                  let new_parents = neighbor.unwind_stacks(depth - 1);
                  for parent in new_parents {
                      let mut new_node = parent.push(value.clone(), edge.clone());
                      new_node.recorded = self.recorded.clone();
                      resulting_parents.push(new_node.clone_and_fork_record());
                  }
              }
              resulting_parents
          }
      }

      impl<N, E, R> GraphNode<N, E, R> {
          pub fn root() -> Self {
              GraphNode {
                  inner: Rc::new(RefCell::new(GraphNodeInner {
                      node_value: None,
                      neighbors: vec![],
                  })),
                  recorded: Rc::new(RefCell::new(Vec::new())),
              }
          }

          fn add_edge(&mut self, value: Option<E>, predecessor: GraphNode<N, E, R>) {
              self.inner.borrow_mut().neighbors.push((value, predecessor));
          }

          pub fn top(&self) -> Option<Ref<N>> {
              let opt = Ref::filter_map(self.inner.borrow(), |i| i.node_value.as_ref());
              match opt {
                  Ok(r) => Some(r),
                  Err(_) => None,
              }
          }

          fn neighbors(&self) -> Ref<[(Option<E>, GraphNode<N, E, R>)]> {
              Ref::map(self.inner.borrow(), |i| i.neighbors.as_slice())
          }

          pub fn pop(self) -> (Option<E>, Self) {
              let neighbors = &mut self.inner.borrow_mut().neighbors;
              assert_eq!(
                  neighbors.len(),
                  1,
                  \"Tried to pop from stack branch with more/less than one predecessor\"
              );
              if let Some((e, mut node)) = neighbors.pop() {
                  node.recorded = self.recorded;
                  (e, node)
              } else {
                  panic!(\"Tried to pop from stack branch with zero predecessors\");
              }
          }

          pub fn pop_recorded(&self) -> Vec<R> {
              return self.recorded.borrow_mut().split_off(0);
          }

          pub fn record(&self, record: R) {
              self.recorded.borrow_mut().push(record);
          }

          pub fn is_root(&self) -> bool {
              self.inner.borrow().node_value.is_none()
          }

          pub fn push(self, value: Option<N>, edge: Option<E>) -> GraphNode<N, E, R> {
              let mut new_node = self.new_with_same_record(value);
              new_node.add_edge(edge, self);
              new_node
          }

          fn new_with_same_record(&self, node_value: Option<N>) -> Self {
              GraphNode {
                  inner: Rc::new(RefCell::new(GraphNodeInner {
                      node_value,
                      neighbors: vec![],
                  })),
                  recorded: self.recorded.clone(),
              }
          }
      }

      struct GraphNodeInner<N, E, R> {
          node_value: Option<N>,
          neighbors: Vec<(Option<E>, GraphNode<N, E, R>)>,
      }
  }"

/-- the file `parser.rs` — `write_visitor_and_parser`, lapex-rust-codegen/src/glr_parser/mod.rs:815-827; `write_visitor` 65-107 (the methods are those of the LR generator), `write_parser` 391-410. -/
def rustGlrFile (rs : RuleSet) (g : Grammar) (p : GlrProg) : Res (List Char) := do
  let reduce_functions ← rustMethods rs g
  let debug_functions ← rustDebugMethods rs g
  let actions ← p.actions.zipIdx.mapM (rustGlrStateActions g)
  let gotos ← p.gotos.zipIdx.mapM (rustGlrStateGotos g)
  let non_terminals ← g.nonTerminals.mapM (rustNtVariant g)
  let rule_reductions ← p.reductions.zipIdx.mapM (rustReduction g)
  let rules := (List.range p.reductions.length).map rustRuleIdent
  let rule_visits := (ruleVisits rs g).map rustVisit
  .ok ((rs! "use super::tokens::TokenType;").print ++ (rustVisitorTokens (.join reduce_functions)).print ++ (rustDebugTokens (.join debug_functions)).print ++
    (rustGlrTokens (rUsize p.entry) (.sepComma non_terminals) (.sepComma rules) (.joinComma actions.flatten) (.joinComma gotos.flatten) (.sepComma rule_reductions)
      (.sepComma rule_visits)).print)

end Verif
