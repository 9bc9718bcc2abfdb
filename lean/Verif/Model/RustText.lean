import Verif.Model.RustTokens
import Verif.Model.CppText
import Verif.Model.Names

/-!
# The Rust source text of the lexer that is generated

`writeln!(output, "{}", tokens)` prints a token stream and a newline. The name of a variant is parsed as tokens before it is put into the stream; here it is one word (the theorems are about
names of letters, digits and underscores, for which that is so).
-/

set_option autoImplicit false

namespace Verif

/-- a number of type `usize` in `quote!` -/
def rUsize (n : Nat) : RForest := .word (decimal n ++ ['u', 's', 'i', 'z', 'e']) .nil

/-- a number of type `u32` in `quote!` -/
def rU32 (n : Nat) : RForest := .word (decimal n ++ ['u', '3', '2']) .nil

/-- `#( #xs, )*` -/
def RForest.joinComma (fs : List RForest) : RForest := .join (fs.map fun f => f.append (rs! ","))

/-! ## `lapex-rust-codegen/src/lexer/mod.rs` -/

/-- the file `tokens.rs` — `write_token_enum`, lapex-rust-codegen/src/lexer/mod.rs:17-35, `generate_tokens`, lines 204-208. -/
def rustTokensFile (rules : List TokenRule) : Res (List Char) := do
  let names ← rules.mapM (fun r => tokenEnumName r.name.toList)
  let other_tokens := RForest.joinComma (names.map fun w => .word w .nil)
  let tokens := rs! "
    #[derive(Clone, Copy, Debug)]
    pub enum TokenType {
      EndOfFile,
      #other_tokens
    }"
  .ok (tokens.print ++ ['\n'])

/-- one range in `alphabet_cases` — lapex-rust-codegen/src/lexer/mod.rs:47-55. -/
def rustAlphabetCase (r : (Nat × Nat) × Nat) : RForest :=
  let start := rU32 r.1.1
  let finish := rU32 r.1.2
  let i := rUsize r.2
  if r.1.1 = r.1.2 then rs! "#start => Some(#i)" else rs! "#start..=#finish => Some(#i)"

/-- one range in `alphabet_reverse_cases` — lapex-rust-codegen/src/lexer/mod.rs:50. -/
def rustReverseCase (r : (Nat × Nat) × Nat) : RForest :=
  let start := rU32 r.1.1
  let finish := rU32 r.1.2
  let i := rUsize r.2
  rs! "#i => Some(#start..=#finish)"

/-- one of `automaton_cases` — lapex-rust-codegen/src/lexer/mod.rs:58-93. -/
def rustArm (rules : List TokenRule) : LexArm → Res RForest
  | .eof s =>
    let state_id := rUsize s
    .ok (rs! "(#state_id, 0) => { return Ok(TokenType::EndOfFile); }")
  | .advance s t target =>
    let state_id := rUsize s
    let transition := rUsize t
    let target_index := rUsize target
    .ok (rs! "(#state_id, #transition) => {
      let next_ch = self.char_iter.next().unwrap();
      self.position += next_ch.len_utf8();
      state = #target_index;
    }")
  | .accept s r => do
    let w ← tokenEnumName (ruleName rules r)
    let state_id := rUsize s
    let name := RForest.word w .nil
    .ok (rs! "(#state_id, _) => {
      return Ok(TokenType::#name);
    }")
  | .reject s =>
    let state_id := rUsize s
    .ok (rs! "(#state_id, transition) => {
      return Err(LexerError::UnexpectedAlphabet {
        range: Lexer::get_alphabet_range(transition).unwrap()
      });
    }")

/-- the tokens of `lexer.rs` — lapex-rust-codegen/src/lexer/mod.rs:95-186, with the arms of the three `match`es. -/
def rustLexerTokens (alphabet_cases alphabet_reverse_cases automaton_cases : RForest) : RForest := rs! "
  use super::tokens::TokenType;

  #[derive(Debug)]
  pub enum LexerError {
      InvalidChar {
          bad_ch: u32
      },
      UnexpectedAlphabet {
          range: std::ops::RangeInclusive<u32>
      }
  }

  impl std::error::Error for LexerError {}
  impl std::fmt::Display for LexerError {
      fn fmt(&self, f: &mut std::fmt::Formatter) -> std::fmt::Result {
          match self {
              LexerError::InvalidChar { bad_ch } => write!(
                  f,
                  \"Lexer got strange codepoint {}, char value is '{:?}'\",
                  bad_ch,
                  std::char::from_u32(*bad_ch)
              ),
              LexerError::UnexpectedAlphabet { range } => write!(
                  f,
                  \"Lexer got char in unexpected range: {:?}\",
                  range
              )
          }
      }
  }

  pub struct Lexer<'src> {
      src: &'src str,
      char_iter: std::iter::Peekable<std::str::Chars<'src>>,
      start: usize,
      position: usize
  }

  impl<'src> Lexer<'src> {
      pub fn new(src: &'src str) -> Self {
          let char_iter = src.chars().peekable();
          Lexer {
              src,
              char_iter,
              start: 0,
              position: 0
          }
      }

      fn get_alphabet_index(c: u32) -> Option<usize> {
          match c {
              #alphabet_cases
              _ => None
          }
      }

      fn get_alphabet_range(c: usize) -> Option<std::ops::RangeInclusive<u32>> {
          match c {
              #alphabet_reverse_cases
              _ => None
          }
      }

      pub fn next(&mut self) -> Result<TokenType, LexerError> {
          let mut state: usize = 0;
          self.start = self.position;
          loop {
              let next_ch = self.char_iter.peek().copied().map(|c| c as u32).unwrap_or(0);
              let symbol = if let Some(symbol) = Lexer::get_alphabet_index(next_ch) {
                  symbol
              } else {
                  return Err(LexerError::InvalidChar {
                      bad_ch: next_ch
                  });
              };
              match (state, symbol) {
                  #automaton_cases
                  (_, _) => unreachable!()
              }
          }
      }

      pub fn span(&self) -> std::ops::Range<usize> {
          self.start..self.position
      }

      pub fn slice(&self) -> &'src str {
          &self.src[self.span()]
      }
  }"

/-- the file `lexer.rs` — `write_lexer`, lapex-rust-codegen/src/lexer/mod.rs:43-188. -/
def rustLexerFile (rules : List TokenRule) (t : LexerTables) : Res (List Char) := do
  let automaton_cases ← (lexArms t.dfa).mapM (rustArm rules)
  let tokens := rustLexerTokens (.joinComma (t.alphabet.ranges.zipIdx.map rustAlphabetCase)) (.joinComma (t.alphabet.ranges.zipIdx.map rustReverseCase)) (.joinComma automaton_cases)
  .ok (tokens.print ++ ['\n'])

end Verif
