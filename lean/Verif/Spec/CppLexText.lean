import Verif.Spec.CppSource
import Verif.Model.CppLexer

/-!
# What the statements in `lexer.cpp` mean

The variables of `Lexer::next` are the members of the class and the locals `state` and `i`. `utf8_decode` is the function of C15.
-/

set_option autoImplicit false

namespace Verif

/-- the variables of `Lexer::next` -/
structure NextVars where
  lexer : CppLexer
  state : Nat
  i : Nat
deriving DecidableEq, Repr

/-- `this->ch` as a number: `uint32_t` with -1 for "no char" -/
def NextVars.ch (s : NextVars) : Nat := s.lexer.ch.getD 4294967295

/-- effect of a simple statement that is always the same -/
def nextPhrase (ts : List CTok) (s : NextVars) : Option (COut NextVars (List Char)) :=
  if ts = phrase "uint32_t state = 0" then some (.next { s with state := 0 })
  else if ts = phrase "this->ch = -1" then some (.next { s with lexer := { s.lexer with ch := none } })
  else if ts = phrase "this->start_pos = position" then some (.next { s with lexer := { s.lexer with startPos := s.lexer.position } })
  else if ts = phrase "this->end_pos = this->position" then some (.next { s with lexer := { s.lexer with endPos := s.lexer.position } })
  else if ts = phrase "this->position += 1" then some (.next { s with lexer := { s.lexer with position := s.lexer.position + 1 } })
  else if ts = phrase "utf8_decode(this->in_chars, &this->ch, &this->err)" then
    let (c, e, rest) := utf8Decode s.lexer.input
    some (.next { s with lexer := { s.lexer with input := rest, ch := some c, err := e } })
  else none

/-- effect of a simple statement -/
def nextAct (ts : List CTok) (s : NextVars) : Option (COut NextVars (List Char)) :=
  match ts with
  | [.word w] => if w = "break".toList then some (.brk s) else none
  | [.word ty, .word x] => if ty = "uint32_t".toList ∧ x = ['i'] then some (.next s) else none
  | [.word x, .sym ['='], k] =>
    (decimalConst [k]).bind fun v =>
      if x = ['i'] then some (.next { s with i := v }) else if x = "state".toList then some (.next { s with state := v }) else none
  | [.word r, .word ty, .sym [':', ':'], .word x] => if r = "return".toList ∧ ty = "TokenType".toList then some (.exit s x) else none
  | ts => nextPhrase ts s

/-- expressions, conditions and statements of `Lexer::next` -/
def nextMachine : CMachine NextVars (List Char) where
  const := decimalConst
  value := fun e s =>
    if e = phrase "ch" then some s.ch else if e = phrase "state" then some s.state else if e = phrase "i" then some s.i else none
  test := fun c s =>
    if c = phrase "this->ch == -1" then some (s.lexer.ch = none)
    else if c = phrase "this->err" then some (s.lexer.err ≠ 0)
    else if c = phrase "1" then some true
    else none
  act := nextAct

/-- a call of `next`, given by its statements: the name of the value it returns, and the lexer after it. `n` bounds the number of rounds of the loop. -/
def runNext (body : List CStmt) (n : Nat) (l : CppLexer) : Res (List Char × CppLexer) :=
  match nextMachine.execs n 0 body ⟨l, 0, 0⟩ with
  | .ok (.exit s r) => .ok (r, s.lexer)
  | .ok _ => .error .panic
  | .error e => .error e

/-- the name of a token in C++ -/
def cppTokenName (names : Nat → List Char) : CppToken → List Char
  | .token r => "TK_".toList ++ names r
  | .eof => "TK_EOF".toList
  | .err => "TK_ERR".toList

/-- a name of letters, digits and underscores -/
def IsWord (w : List Char) : Prop := ∀ c ∈ w, isCWordChar c = true

end Verif
