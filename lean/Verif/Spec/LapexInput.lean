import Verif.Spec.Pipeline
import Verif.Spec.Lapex
import Verif.Spec.Source

/-! # Where the tokens of a text are -/

set_option autoImplicit false

namespace Verif

/-- the position after a token: a newline token (kind `nl`) begins the next line, every other token counts with its length in bytes -/
def stepPos (nl : Nat) (pos : SourcePos) (x : Nat × List Char) : SourcePos := if x.1 = nl then ⟨pos.line + 1, 1⟩ else ⟨pos.line, pos.col + bytes x.2⟩

/-- the tokens with their spans, the first one at `pos`; newlines (kind `nl`) and white space (kind `ws`) are left out -/
def located (nl ws : Nat) : SourcePos → List (Nat × List Char) → Tokens
  | _, [] => []
  | pos, x :: ts => if x.1 = nl ∨ x.1 = ws then located nl ws (stepPos nl pos x) ts else (x.1, ⟨x.2, ⟨pos, stepPos nl pos x⟩⟩) :: located nl ws (stepPos nl pos x) ts

/-- the tokens of a lapex file with their spans -/
def fileTokens (ts : List (Nat × List Char)) : Tokens := located 19 18 ⟨1, 1⟩ ts

end Verif
