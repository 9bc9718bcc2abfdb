import Verif.Model.CppLexer

/-! # Specification: comparing the two generated lexers -/

set_option autoImplicit false

namespace Verif

/-- UTF-8 encoding of a text (Lean's own encoder) -/
def utf8 (w : List Char) : List UInt8 := w.flatMap String.utf8EncodeChar

/-- number of bytes of the UTF-8 encoding -/
def bytes (w : List Char) : Nat := (w.map Char.utf8Size).sum

/-- the C++ result that corresponds to a result of the Rust lexer: the C++ lexer has only one error value -/
def LexResult.toCpp : LexResult → CppToken
  | .token j => .token j
  | .eof => .eof
  | .invalidChar _ => .err
  | .unexpectedAlphabet _ => .err

/-- A history of calls of the C++ `next` (with a loop budget per call). -/
inductive CppRun (t : LexerTables) (fuel : Nat) : CppLexer → List (CppToken × CppLexer) → CppLexer → Prop
  | nil (l : CppLexer) : CppRun t fuel l [] l
  | cons {l l1 l2 : CppLexer} {r : CppToken} {hs : List (CppToken × CppLexer)} :
      l.next t fuel = .ok (r, l1) → CppRun t fuel l1 hs l2 → CppRun t fuel l ((r, l1) :: hs) l2

end Verif
