import Verif.Spec.Pipeline
import Verif.Spec.CppLexText
import Verif.Spec.CppLRText
import Verif.Spec.Names

/-!
# A program made of the generated C++ files

A program that uses the generated C++ files makes a `Lexer` for a stream, and gives the parser a token function that calls `next` until it gets a token that is not to be left out, and asks for
`start` and `end`. The token function is the only part that is written by hand. Here `next` is the function in the text of `lexer.cpp`, and the numbers of the tokens are those of the `enum` in
`tokens.h`. `start` and `end` are the members `start_pos` and `end_pos` (lapex-cpp-codegen/src/lexer/lexer.cpp.tpl:44-51).
-/

set_option autoImplicit false

namespace Verif

/-- `next` of the text is called until it gives something that is not left out; `n` is a number of rounds of the loop within which it returns -/
inductive CppTextNext (body : List CStmt) (skip : List Char → Bool) : CppLexer → List Char → CppLexer → Prop
  | keep {l l' : CppLexer} {v : List Char} {n : Nat} : runNext body n l = .ok (v, l') → skip v = false → CppTextNext body skip l v l'
  | skip {l l1 l' : CppLexer} {w v : List Char} {n : Nat} : runNext body n l = .ok (w, l1) → skip w = true → CppTextNext body skip l1 v l' → CppTextNext body skip l v l'

/-- The values of the calls of a token function that gets its tokens from the lexer of the text, made for a stream with the given bytes: the number of the token, and its start and end. -/
def CppTextFed (lexerCpp tokensH : List Char) (skip : List Char → Bool) (stream : List UInt8) (inp : Nat → Nat × (Nat × Nat)) : Prop :=
  ∃ body tokens, readFunction (phrase "TokenType Lexer::next() {") lexerCpp = some body ∧ readEnum (phrase "enum class TokenType : uint32_t {") tokensH = some tokens ∧
    ∃ st : Nat → CppLexer, st 0 = CppLexer.new stream ∧
      ∀ k, ∃ v, CppTextNext body skip (st k) v (st (k + 1)) ∧ (v, (inp k).1) ∈ tokens ∧ (inp k).2 = ((st (k + 1)).startPos, (st (k + 1)).endPos)

/-- the token rules whose tokens are left out -/
def cppSkipped (rules : List TokenRule) (skip : List Char → Bool) (j : Nat) : Bool := skip ("TK_".toList ++ ((rules[j]?).map (·.name.toList)).getD [])

/-- the part of a text between two positions, counted in chars -/
def between (src : List Char) (x : Nat × Nat) : List Char := (src.take x.2).drop x.1

/-- the call of the visitor in C++ for one in Rust -/
inductive CppCallFor {T : Type} (g : Grammar) : LREvent T → TextEvent T → Prop
  | shift {tk : Tok} {data : T} : CppCallFor g (.shift tk data) (.shift (tokenCode tk) data)
  | call {i : Nat} {x : List Char} : IsCppCallback g i x → CppCallFor g (.reduce i) (.call x)

end Verif
