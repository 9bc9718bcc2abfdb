import Verif.Model.RustText
import Verif.Model.LRDriver
import Verif.Model.Display

/-!
# The Rust source text of the LR parser that is generated

`lapex-rust-codegen/src/lr_parser/mod.rs`: three token streams, printed one after another with nothing between them. The arms come from `genRust`. The name of a variant or function is parsed as
tokens before it is put into a stream; here it is one word (the theorems are about names of letters, digits and underscores, for which that is so). A doc comment `///x` parsed as tokens is
`#[doc = "x"]`.
-/

set_option autoImplicit false

namespace Verif

/-- `#( #xs ),*` -/
def RForest.sepComma : List RForest → RForest
  | [] => .nil
  | [f] => f
  | f :: g :: fs => f.append (.sym [','] (RForest.sepComma (g :: fs)))

/-- the variant of a terminal — lapex-rust-codegen/src/lr_parser/mod.rs:139-142, 219-222, 195-197. -/
def rustTokenIdent (g : Grammar) (a : Nat) : Res RForest := do
  let name ← g.tokenName a
  let w ← tokenEnumName name
  .ok (.word w .nil)

/-- the variant of a non-terminal — lapex-rust-codegen/src/lr_parser/mod.rs:148-151, 280-283, 339-344. -/
def rustNtIdent (g : Grammar) (A : Nat) : Res RForest := do
  let w ← ntEnumName g A
  .ok (.word w .nil)

/-- the name of a rule — lapex-rust-codegen/src/lr_parser/mod.rs:242, 284, 301, 316, 334. -/
def rustRuleIdent (i : Nat) : RForest := .word (['R', 'u', 'l', 'e'] ++ decimal i) .nil

/-! ## The visitor -/

/-- a method of the visitor — lapex-rust-codegen/src/lr_parser/mod.rs:66-90. -/
def rustMethod (rs : RuleSet) (g : Grammar) (A n i r : Nat) : Res RForest :=
  match g.rules[r]? with
  | none => .error .panic
  | some rule => do
    let text ← ruleText g rule
    let comment := RForest.sym ['#'] (.group .bracket (.word ['d', 'o', 'c'] (.sym ['='] (.str text .nil))) .nil)
    let function := RForest.word (callbackName rs g A n i r) .nil
    .ok (rs! "#comment fn #function (&mut self);")

/-- `reduce_functions` — lapex-rust-codegen/src/lr_parser/mod.rs:62-92. -/
def rustMethods (rs : RuleSet) (g : Grammar) : Res (List RForest) := do
  let fs ← (rulesByNt g).mapM fun e => e.2.zipIdx.mapM fun r => rustMethod rs g e.1 e.2.length r.2 r.1
  .ok fs.flatten

/-- `write_visitor` — lapex-rust-codegen/src/lr_parser/mod.rs:94-100. -/
def rustVisitorTokens (reduce_functions : RForest) : RForest := rs! "
  pub trait Visitor<T> {
      fn shift(&mut self, token: TokenType, data: T);
      #reduce_functions
  }"

/-! ## Arms -/

/-- the right side of an arm of `next_action` — lapex-rust-codegen/src/lr_parser/mod.rs:233-247. -/
def rustAction : LRAction → RForest
  | .shift => rs! "Ok(Action::Shift)"
  | .reduce i =>
    let rule_name := rustRuleIdent i
    rs! "Ok(Action::Reduce { rule: ReducedRule::#rule_name })"

/-- one of `actions` without its last comma — `make_action`, lapex-rust-codegen/src/lr_parser/mod.rs:210-250. -/
def rustActionArm (g : Grammar) (q : Nat) (x : Sym × LRAction) : Res (List RForest) :=
  let state := rUsize q
  let action := rustAction x.2
  match x.1 with
  | .t a => do
    let token ← rustTokenIdent g a
    .ok [rs! "(#state, TokenType::#token) => #action"]
  | .eof => .ok [rs! "(#state, TokenType::EndOfFile) => #action"]
  | _ => .ok []

/-- an expected symbol — lapex-rust-codegen/src/lr_parser/mod.rs:190-202, 252-270. -/
def rustExpected (g : Grammar) : Sym → Res (List RForest)
  | .t a => do
    let expected ← rustTokenIdent g a
    .ok [rs! "TokenType::#expected"]
  | .eof => .ok [rs! "TokenType::EndOfFile"]
  | _ => .ok []

/-- the `actions` of a state — `make_actions`, lapex-rust-codegen/src/lr_parser/mod.rs:177-207. -/
def rustStateActions (g : Grammar) (x : (List (Sym × LRAction) × List Sym) × Nat) : Res (List RForest) := do
  let arms ← x.1.1.mapM (rustActionArm g x.2)
  let es ← x.1.2.mapM (rustExpected g)
  let expected := RForest.sepComma es.flatten
  let state := rUsize x.2
  .ok (arms.flatten ++ [rs! "(#state, _) => Err(ParserError::UnexpectedToken { got: next_token, expected: vec![#expected] })"])

/-- the right side of an arm of `next_goto` — lapex-rust-codegen/src/lr_parser/mod.rs:159-171. -/
def rustGoto : LRGoto → RForest
  | .accept => rs! "Goto::Accept"
  | .state t =>
    let target := rUsize t
    rs! "Goto::State { state_id: #target }"

/-- one of `gotos` without its last comma — `make_goto`, lapex-rust-codegen/src/lr_parser/mod.rs:130-173. -/
def rustGotoArm (g : Grammar) (q : Nat) (x : Sym × LRGoto) : Res (List RForest) :=
  let state := rUsize q
  let goto := rustGoto x.2
  match x.1 with
  | .t a => do
    let token ← rustTokenIdent g a
    .ok [rs! "(#state, StackSymbol::Terminal { token: TokenType::#token }) => #goto"]
  | .nt A => do
    let token ← rustNtIdent g A
    .ok [rs! "(#state, StackSymbol::NonTerminal { non_terminal: NonTerminalType::#token }) => #goto"]
  | _ => .ok []

/-- the `gotos` of a state — `make_gotos`, lapex-rust-codegen/src/lr_parser/mod.rs:105-128. -/
def rustStateGotos (g : Grammar) (x : List (Sym × LRGoto) × Nat) : Res (List RForest) := do
  let arms ← x.1.mapM (rustGotoArm g x.2)
  .ok arms.flatten

/-- one of `rule_reductions` — `make_rule_reductions`, lapex-rust-codegen/src/lr_parser/mod.rs:272-291. The map is ordered by the addresses of the rules, which is the order of their numbers. -/
def rustReduction (g : Grammar) (x : (Nat × Nat) × Nat) : Res RForest := do
  let non_terminal ← rustNtIdent g x.1.2
  let rule_name := rustRuleIdent x.2
  let symbols_to_reduce := rUsize x.1.1
  .ok (rs! "ReducedRule::#rule_name => (#symbols_to_reduce, StackSymbol::NonTerminal { non_terminal: NonTerminalType::#non_terminal })")

/-- one of `rule_visits` — `make_rule_visits`, lapex-rust-codegen/src/lr_parser/mod.rs:293-325. -/
def rustVisit (x : Nat × List Char) : RForest :=
  let rule_name := rustRuleIdent x.1
  let function := RForest.word x.2 .nil
  rs! "ReducedRule::#rule_name => self.visitor.#function()"

/-! ## The parser -/

/-- the tokens of the parser — `write_parser`, lapex-rust-codegen/src/lr_parser/mod.rs:350-485. -/
def rustParserTokens (entry non_terminals rules actions gotos rule_reductions rule_visits : RForest) : RForest := rs! "
  pub struct Parser<T, F: FnMut() -> (TokenType, T), V: Visitor<T>> {
      token_function: F,
      visitor: V,
  }

  #[derive(Debug, Clone, Copy)]
  enum NonTerminalType {
      #non_terminals
  }

  #[derive(Debug, Clone, Copy)]
  enum StackSymbol {
      Terminal { token: TokenType },
      NonTerminal { non_terminal: NonTerminalType },
      State { state_id: usize },
  }

  #[derive(Clone, Copy)]
  enum ReducedRule {
      #rules
  }

  enum Action {
      Shift,
      Reduce { rule: ReducedRule }
  }

  enum Goto {
      Accept,
      State { state_id: usize }
  }

  #[derive(Debug)]
  pub enum ParserError {
      UnexpectedToken {
          got: TokenType,
          expected: Vec<TokenType>
      }
  }

  impl std::error::Error for ParserError {}

  impl std::fmt::Display for ParserError {
      fn fmt(&self, f: &mut std::fmt::Formatter) -> std::fmt::Result {
          match self {
              ParserError::UnexpectedToken { got, expected } => write!(
                  f,
                  \"Unexpected token {:?}, expected one of: {:?}\",
                  got, expected
              ),
          }
      }
  }

  impl<T, F: FnMut() -> (TokenType, T), V: Visitor<T>> Parser<T, F, V> {
      pub fn new(token_function: F, visitor: V) -> Self {
          Parser {
              token_function,
              visitor,
          }
      }

      fn next_action(&self, state: usize, next_token: TokenType) -> Result<Action, ParserError> {
          match (state, next_token) {
              #actions
              (_, _) => unreachable!()
          }
      }

      fn next_goto(&self, state: usize, symbol: StackSymbol) -> Goto {
          match (state, symbol) {
              #gotos
              (_, _) => unreachable!()
          }
      }

      fn reduce_stack_and_visit(&mut self, rule: ReducedRule, stack: &mut Vec<StackSymbol>) {
          let (to_pop, reduced) = match rule {
              #rule_reductions
          };
          for _ in 0..to_pop {
              stack.pop().unwrap();
              stack.pop().unwrap();
          }
          stack.push(reduced);
          match rule {
              #rule_visits
          }
      }

      pub fn parse(&mut self) -> Result<(), ParserError> {
          let mut lookahead = std::collections::VecDeque::new();
          lookahead.push_back((self.token_function)());

          let mut stack = Vec::new();
          stack.push(StackSymbol::State { state_id: #entry });

          while !stack.is_empty() {
              let (next_token, _) = lookahead.front().unwrap();
              let state = match stack.last().unwrap() {
                  StackSymbol::State { state_id } => *state_id,
                  _ => unreachable!()
              };
              let action = self.next_action(state, *next_token)?;
              match action {
                  Action::Shift => {
                      let (next_token, next_data) = lookahead.pop_front().unwrap();
                      stack.push(StackSymbol::Terminal { token: next_token });
                      self.visitor.shift(next_token, next_data);

                      lookahead.push_back((self.token_function)());
                  }
                  Action::Reduce { rule: reduced_rule } => {
                      self.reduce_stack_and_visit(reduced_rule, &mut stack);
                  }
              }
              let current_symbol = stack.last().unwrap();
              let state = match &stack[stack.len() - 2] {
                  StackSymbol::State { state_id } => *state_id,
                  _ => unreachable!()
              };
              let goto = self.next_goto(state, *current_symbol);
              match goto {
                  Goto::Accept => {
                      stack.pop();
                      stack.pop();
                  }
                  Goto::State { state_id } => {
                      stack.push(StackSymbol::State { state_id })
                  }
              }
          }
          Ok(())
      }
  }"

/-- the variants of `NonTerminalType` — lapex-rust-codegen/src/lr_parser/mod.rs:336-345. -/
def rustNtVariant (g : Grammar) : Sym → Res RForest
  | .nt A => rustNtIdent g A
  | _ => .error .panic

/-- the file `parser.rs` — `write_visitor_and_parser`, lapex-rust-codegen/src/lr_parser/mod.rs:487-498; `write_parser` 327-349. -/
def rustParserFile (rs : RuleSet) (g : Grammar) (p : LRProg) : Res (List Char) := do
  let reduce_functions ← rustMethods rs g
  let actions ← p.actions.zipIdx.mapM (rustStateActions g)
  let gotos ← p.gotos.zipIdx.mapM (rustStateGotos g)
  let non_terminals ← g.nonTerminals.mapM (rustNtVariant g)
  let rule_reductions ← p.reductions.zipIdx.mapM (rustReduction g)
  let rules := (List.range p.reductions.length).map rustRuleIdent
  let rule_visits := (ruleVisits rs g).map rustVisit
  .ok ((rs! "use super::tokens::TokenType;").print ++ (rustVisitorTokens (.join reduce_functions)).print ++
    (rustParserTokens (rUsize p.entry) (.sepComma non_terminals) (.sepComma rules) (.joinComma actions.flatten) (.joinComma gotos.flatten) (.sepComma rule_reductions)
      (.sepComma rule_visits)).print)

end Verif
