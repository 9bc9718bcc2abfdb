import Verif.Model.Source
import Verif.Spec.Cpp
import Verif.Spec.Lexing

/-! # Specification: positions in a text -/

set_option autoImplicit false

namespace Verif

/-- the position right after a text: lines and columns count from 1, in chars -/
def posAfter (pre : List Char) : SourcePos := ⟨1 + pre.count '\n', 1 + (pre.reverse.takeWhile (· ≠ '\n')).length⟩

/-- order of positions: by line, then by column -/
def SourcePos.Before (p q : SourcePos) : Prop := p.line < q.line ∨ p.line = q.line ∧ p.col < q.col

/-- the text has fewer than 65535 newlines and no line of 65535 chars or more: line and column numbers fit into 16 bits everywhere -/
def FitsU16 (text : List Char) : Prop := ∀ pre, pre <+: text → (posAfter pre).line < 65536 ∧ (posAfter pre).col < 65536

/-- in this source, rule `nl` matches only single newlines, and no other rule matches a part of the source that contains a newline -/
def NewlineRule (rules : List TokenRule) (nl : Nat) (src : List Char) : Prop :=
  ∀ (j : Nat) (r : TokenRule) (m : List Char), rules[j]? = some r → r.Matches m → m <:+: src → if j = nl then m = ['\n'] else '\n' ∉ m

/-- all chars are ASCII -/
def Ascii (text : List Char) : Prop := ∀ c ∈ text, c.toNat < 128

/-- `tk` is the token of rule `nl` or `ws`, which the token function skips -/
def Skipped (nl ws : Nat) (tk : LexResult) : Prop := tk = .token nl ∨ tk = .token ws

/-- some later call of the lexer gives an error -/
def LexFails (t : LexerTables) (l : Lexer) : Prop :=
  ∃ hs l1 l2 r, LexRun t l hs l1 ∧ l1.next t = .ok (.unexpectedAlphabet r, l2)

/-- a history of calls of the token function -/
inductive TokenRun (t : LexerTables) (nl ws fuel : Nat) : TokenFun → List (LexResult × TokenData) → TokenFun → Prop
  | nil (st : TokenFun) : TokenRun t nl ws fuel st [] st
  | cons {st st1 st2 : TokenFun} {tk : LexResult} {d : TokenData} {l : List (LexResult × TokenData)} :
      st.call t nl ws fuel = .ok (tk, d, st1) → TokenRun t nl ws fuel st1 l st2 → TokenRun t nl ws fuel st ((tk, d) :: l) st2

end Verif
