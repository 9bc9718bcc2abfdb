import Verif.Model.LapexInput
import Verif.Spec.Cpp
import Verif.Spec.Lexing
import Verif.Spec.LLTrace
import Verif.Spec.CppLR

/-!
# What a generated lexer and a generated parser do together

`TextTokens` says what the tokens of a text are, from the token rules alone. `FedBy` says that a token function of a parser takes its tokens from a lexer: it calls
`next` until it gets a token that is not one of those to be left out (white space, comments). This function is written by the user of the generated code; the ones in
lapex-input-gen/src/lib.rs:520-554 and main.cpp are of this form. An error of the lexer is handed on as `err`, which no parser expects; a token function in Rust has no such value and
has to panic there, so that for Rust a parser's error at an `err` stands for this panic.
-/

set_option autoImplicit false

namespace Verif

/-- The tokens of a text: the first one is the longest prefix that can still become a match, which the rule named must be the best match for; then the tokens of the
rest. The text ends at its end or at a NUL char. -/
inductive TextTokens (rules : List TokenRule) : List Char → List (Nat × List Char) → Prop
  | done {text : List Char} : AtEnd text → TextTokens rules text []
  | token {m rest : List Char} {j : Nat} {ts : List (Nat × List Char)} : ¬ AtEnd (m ++ rest) → nul ∉ m → BestMatch rules m j →
      (∀ p suf, m ++ rest = p ++ suf → nul ∉ p → Viable rules p → p.length ≤ m.length) → TextTokens rules rest ts → TextTokens rules (m ++ rest) ((j, m) :: ts)

/-- `next` is called until it gives something that is not left out -/
inductive NextKept (t : LexerTables) (skip : Nat → Bool) : Lexer → LexResult → Lexer → Prop
  | keep {l l' : Lexer} {r : LexResult} : l.next t = .ok (r, l') → (∀ j, r = .token j → skip j = false) → NextKept t skip l r l'
  | skip {l l1 l' : Lexer} {j : Nat} {r : LexResult} : l.next t = .ok (.token j, l1) → skip j = true → NextKept t skip l1 r l' → NextKept t skip l r l'

/-- the parser's tokens, with their texts, come from the lexer started in `l` -/
def FedBy (t : LexerTables) (skip : Nat → Bool) (l : Lexer) (input : Nat → Tok × List Char) : Prop :=
  ∃ st : Nat → Lexer, st 0 = l ∧ ∀ n, ∃ r s, NextKept t skip (st n) r (st (n + 1)) ∧ (st (n + 1)).slice = .ok s ∧ input n = (r.tok, s)

/-- the tokens that are not left out -/
def kept (skip : Nat → Bool) (ts : List (Nat × List Char)) : List (Nat × List Char) := ts.filter (fun x => !skip x.1)

/-- the number of a result of the C++ lexer -/
def CppToken.code : CppToken → Nat
  | .err => 0
  | .eof => 1
  | .token j => j + 2

/-- the same for the C++ lexer -/
inductive CppNextKept (t : LexerTables) (budget : Nat) (skip : Nat → Bool) : CppLexer → CppToken → CppLexer → Prop
  | keep {l l' : CppLexer} {r : CppToken} : l.next t budget = .ok (r, l') → (∀ j, r = .token j → skip j = false) → CppNextKept t budget skip l r l'
  | skip {l l1 l' : CppLexer} {j : Nat} {r : CppToken} : l.next t budget = .ok (.token j, l1) → skip j = true → CppNextKept t budget skip l1 r l' →
      CppNextKept t budget skip l r l'

/-- the C++ parser's tokens come from the C++ lexer started in `l`; what is passed along with them does not matter -/
def CppFedBy {T : Type} (t : LexerTables) (budget : Nat) (skip : Nat → Bool) (l : CppLexer) (input : Nat → Nat × T) : Prop :=
  ∃ st : Nat → CppLexer, st 0 = l ∧ ∀ n, ∃ r, CppNextKept t budget skip (st n) r (st (n + 1)) ∧ (input n).1 = r.code

/-- a body may begin with a use of the name `n` -/
inductive BeginsWith : ProdPattern → String → Prop
  | rule (n : String) : BeginsWith (.rule n) n
  | sequence {p : ProdPattern} {ps : List ProdPattern} {n : String} : BeginsWith p n → BeginsWith (.sequence (p :: ps)) n
  | alternative {ps : List ProdPattern} {p : ProdPattern} {n : String} : p ∈ ps → BeginsWith p n → BeginsWith (.alternative ps) n
  | oneOrMany {p : ProdPattern} {n : String} : BeginsWith p n → BeginsWith (.oneOrMany p) n
  | zeroOrMany {p : ProdPattern} {n : String} : BeginsWith p n → BeginsWith (.zeroOrMany p) n
  | optional {p : ProdPattern} {n : String} : BeginsWith p n → BeginsWith (.optional p) n

/-- a body of `a` begins with `b`, or with a name a body of which begins with `b`, and so on -/
inductive NameCorner (rs : RuleSet) : String → String → Prop
  | one {p : ProdRule} {b : String} : p ∈ rs.prods → BeginsWith p.pattern b → NameCorner rs p.name b
  | more {a : String} {p : ProdRule} {b : String} : NameCorner rs a p.name → p ∈ rs.prods → BeginsWith p.pattern b → NameCorner rs a b

/-- the rule set is one the LR parsers of lapex are made for: at most 65536 rules of each kind, no empty sequences or alternatives (no syntax of lapex gives one), no
explicit epsilon inside a sequence, and the entry rule is not left-recursive -/
structure RuleSet.Fine (rs : RuleSet) : Prop where
  tokens : rs.tokens.length ≤ 65536
  prods : rs.prods.length ≤ 65536
  noEmptySequence : rs.NoEmptySequence
  noEmptyAlternative : rs.NoEmptyAlternative
  noEpsilonInSequence : rs.NoEpsilonInSequence
  entry : ¬ NameCorner rs rs.entry rs.entry

/-- no body uses the entry rule -/
def RuleSet.EntryUnused (rs : RuleSet) : Prop := ∀ p ∈ rs.prods, ¬ Mentions p.pattern rs.entry

/-- The tokens at the beginning of a text, as in `TextTokens`, and the text behind them. -/
inductive FirstTokens (rules : List TokenRule) : List Char → List (Nat × List Char) → List Char → Prop
  | none {text : List Char} : FirstTokens rules text [] text
  | token {m rest tail : List Char} {j : Nat} {ts : List (Nat × List Char)} : ¬ AtEnd (m ++ rest) → nul ∉ m → BestMatch rules m j →
      (∀ p suf, m ++ rest = p ++ suf → nul ∉ p → Viable rules p → p.length ≤ m.length) → FirstTokens rules rest ts tail → FirstTokens rules (m ++ rest) ((j, m) :: ts) tail

/-- what the parser gets when the text behind the tokens it has got already is `rest`: the next token that is not left out, the end, or an error, when `rest` does not begin with a
token -/
inductive GetsNext (rules : List TokenRule) (skip : Nat → Bool) (rest : List Char) : Tok × List Char → Prop
  | token {j : Nat} {m tail : List Char} : FirstTokens rules rest [(j, m)] tail → skip j = false → GetsNext rules skip rest (.tok j, m)
  | eof {s : List Char} : AtEnd rest → GetsNext rules skip rest (.eof, s)
  | error {s : List Char} : ¬ AtEnd rest → (∀ j m tail, ¬ FirstTokens rules rest [(j, m)] tail) → GetsNext rules skip rest (.err, s)

/-- the rules as the grammar builder gets them -/
def ruleSet (entry : String) (rules : List TokenRule) (prods : List ProdRule) : RuleSet := ⟨entry, rules.map (·.name), prods⟩

end Verif
