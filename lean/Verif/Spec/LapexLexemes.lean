import Mathlib.Data.List.Basic

/-!
# The tokens of lapex files in plain words

Keywords and signs stand for themselves. A number is `0` or does not begin with `0`. A name is a letter followed by letters, digits and `_`. Strings stand in double quotes, regular
expressions in slashes; in both, a backslash takes the next char, whatever it is, with it, and newlines may only stand after a backslash. White space are blanks and tabs.
-/

set_option autoImplicit false

namespace Verif

def isLower (c : Char) : Bool := decide (97 ≤ c.toNat ∧ c.toNat ≤ 122)
def isUpper (c : Char) : Bool := decide (65 ≤ c.toNat ∧ c.toNat ≤ 90)
def isDecimal (c : Char) : Bool := decide (48 ≤ c.toNat ∧ c.toNat ≤ 57)
def isLetter (c : Char) : Bool := isLower c || isUpper c
def isWordChar (c : Char) : Bool := isLetter c || isDecimal c || c == '_'

def isNumber : List Char → Bool
  | [] => false
  | c :: cs => isDecimal c && if c = '0' then cs.isEmpty else cs.all isDecimal

def isName : List Char → Bool
  | [] => false
  | c :: cs => isLetter c && cs.all isWordChar

/-- the quote `q` closes exactly at the end -/
def closes (q : Char) : List Char → Bool
  | [] => false
  | [c] => c == q
  | c :: d :: cs => if c = '\\' then closes q cs else c != q && c != '\n' && closes q (d :: cs)

def isQuoted (q : Char) : List Char → Bool
  | [] => false
  | c :: cs => c == q && closes q cs

def isBlank (m : List Char) : Bool := !m.isEmpty && m.all fun c => c == ' ' || c == '\t'

/-- keywords and signs -/
def fixedLexeme : Nat → Option String
  | 0 => some "token"
  | 1 => some "entry"
  | 2 => some "prod"
  | 3 => some "="
  | 4 => some ";"
  | 5 => some "("
  | 6 => some ")"
  | 7 => some "["
  | 8 => some "]"
  | 10 => some "?"
  | 11 => some "!"
  | 12 => some "*"
  | 13 => some "+"
  | 14 => some "|"
  | 19 => some "\n"
  | _ => none

/-- `m` is a token of kind `j` -/
def isLexeme (j : Nat) (m : List Char) : Bool :=
  match fixedLexeme j with
  | some s => m == s.toList
  | none =>
    match j with
    | 9 => isNumber m
    | 15 => isName m
    | 16 => isQuoted '"' m
    | 17 => isQuoted '/' m
    | 18 => isBlank m
    | _ => false

end Verif
