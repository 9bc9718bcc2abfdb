import Verif.Spec.Pipeline
import Verif.Spec.RustLexText
import Verif.Spec.RustGlrRun

/-!
# A program made of the generated Rust files

A program that uses the files `tokens.rs`, `lexer.rs` and `parser.rs` makes a lexer with `new`, and gives the parser a token function that calls `next` until it gets a token that is not to be
left out, and takes its text with `slice`. The token function is the only part that is written by hand; lapex-input-gen/src/lib.rs:520-554 is one. Here `next`, `new` and `slice` are functions in the
text of `lexer.rs`.
-/

set_option autoImplicit false

namespace Verif

/-- `next` of the text is called until it gives something that is not left out. (A round of the loop of `next` takes a char or is the last one, so a bound above the number of chars is none.) -/
inductive TextNext (lexer : List Char) (skip : List Char → Bool) : Lexer → RustLexResult → Lexer → Prop
  | keep {l l' : Lexer} {r : RustLexResult} {n : Nat} : l.rest.length < n → rustNext lexer n l = .ok (r, l') → (∀ v, r = .ok v → skip v = false) → TextNext lexer skip l r l'
  | skip {l l1 l' : Lexer} {v : List Char} {r : RustLexResult} {n : Nat} : l.rest.length < n → rustNext lexer n l = .ok (.ok v, l1) → skip v = true → TextNext lexer skip l1 r l' → TextNext lexer skip l r l'

/-- The values of the calls of a token function that gets its tokens from the lexer of the text, started with `new(src)`; `f` is what it makes of a result of `next` and the text of the token. -/
def TextFed {α : Type} (f : RustLexResult → List Char → α) (lexer : List Char) (skip : List Char → Bool) (src : List Char) (inp : Nat → α) : Prop :=
  ∃ st : Nat → Lexer, rustNew lexer src = .ok (st 0) ∧ ∀ k, ∃ r s, TextNext lexer skip (st k) r (st (k + 1)) ∧ rustSlice lexer (st (k + 1)) = .ok s ∧ inp k = f r s

/-- A token function for an LR parser. On an error it has to panic, since its type has no place for errors; this is written as a token that is no variant. -/
def lrToken : RustLexResult → List Char → List Char × List Char
  | .ok v, s => (v, s)
  | _, s => ([], s)

/-- A token function for a GLR parser. It hands on an error. -/
def glrToken : RustLexResult → List Char → Except RustLexResult (List Char × List Char)
  | .ok v, s => .ok (v, s)
  | e, _ => .error e

/-- the token rules whose variants are left out -/
def skipped (variants : List (List Char)) (skip : List Char → Bool) (j : Nat) : Bool := skip (variants.getD (j + 1) [])

end Verif
