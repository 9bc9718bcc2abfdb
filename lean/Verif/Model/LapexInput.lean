import Verif.Model.Lapex
import Verif.Model.LapexFile

/-!
# `GeneratedLapexInputParser::parse_lapex` on a text: `lapex-input-gen/src/lib.rs`

The lexer, the token function and the parser put together. The token function may panic, so the loop of the parser is stated once more with such a function.
-/

set_option autoImplicit false

namespace Verif

/-- what the parser gets for a result of the lexer -/
def LexResult.tok : LexResult → Tok
  | .token j => .tok j
  | .eof => .eof
  | .invalidChar _ => .err
  | .unexpectedAlphabet _ => .err

/-- the result of the `n`-th call of `token_fun`, counted from 0 — lapex-input-gen/src/lib.rs:521-553. -/
def TokenFun.nth (t : LexerTables) (nl ws fuel : Nat) : Nat → TokenFun → Res (Tok × TokenData)
  | 0, st => do
    let (tk, d, _) ← st.call t nl ws fuel
    .ok (tk.tok, d)
  | n + 1, st => do
    let (_, _, st) ← st.call t nl ws fuel
    TokenFun.nth t nl ws fuel n st

/-- the `while` loop of `parse` with a token function that may panic — lapex-rust-codegen/src/lr_parser/mod.rs:446-481 (the token function is called before the loop, 441,
and after each shift, 459; asking for the token at `pos` again stands for looking at `lookahead`). -/
def lrRunWith {T : Type} (m : LRMachine) (tokenFun : Nat → Res (Tok × T)) : Nat → List StackSym → Nat → List (LREvent T) → Res (LRResult T)
  | 0, _, pos, events => .ok (.running events pos)
  | fuel + 1, stack, pos, events => do
    let lookahead ← tokenFun pos
    match lrStep m (fun _ => lookahead) stack pos with
    | .done => .ok (.ok events pos)
    | .unexpected expected => .ok (.unexpected events pos expected)
    | .panic ev => .ok (.panic (events ++ ev.toList) pos)
    | .next stack pos ev => lrRunWith m tokenFun fuel stack pos (events ++ [ev])

/-- `parse().expect(...)` and what follows — lapex-input-gen/src/lib.rs:552-574. -/
def lapexResult (syn : List Char → Option Hir) : LRResult TokenData → Res SpannedRules
  | .running _ _ => .error .fuel
  | .ok events _ => do
    let s ← events.foldlM (lapexVisit syn) []
    lapexFinish s
  | _ => .error .panic

/-- `parse_lapex` — lapex-input-gen/src/lib.rs:509-574; `t` and `m` are the lexer and parser generated for lapex.lapex (19 and 18 are its NEWLINE and WHITESPACE).
The loop of the token function runs at most as often as there are chars left; the bound given here is enough (`C63_total`). -/
def parseLapex (syn : List Char → Option Hir) (t : LexerTables) (m : LRMachine) (fuel : Nat) (source : List Char) : Res SpannedRules := do
  let r ← lrRunWith m (fun i => (TokenFun.new source).nth t 19 18 (source.length + 2) i) fuel [.state m.entry] 0 []
  lapexResult syn r

end Verif
