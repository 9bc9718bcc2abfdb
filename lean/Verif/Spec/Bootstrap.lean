import Verif.Model.Input
import Verif.Spec.Lapex

/-!
# The texts the bootstrap parser is for

Which text stands for which rule. With `strict = true` the texts leave no choice: `(`, `[` and `.` are not used as plain chars in a regular expression (they can be written `\u{0028}`,
`\u{005B}`, `\u{002E}`), and in a set a `-` follows a plain char only in a range and `^` comes first only for negation.
-/

set_option autoImplicit false

namespace Verif

/-- the value of a hexadecimal digit -/
def hexDigits : List (Char × Nat) := [('0', 0), ('1', 1), ('2', 2), ('3', 3), ('4', 4), ('5', 5), ('6', 6), ('7', 7), ('8', 8), ('9', 9),
  ('a', 10), ('b', 11), ('c', 12), ('d', 13), ('e', 14), ('f', 15), ('A', 10), ('B', 11), ('C', 12), ('D', 13), ('E', 14), ('F', 15)]

/-- the digits `ds` denote the number `n` -/
inductive HexIs : List Char → Nat → Prop
  | nil : HexIs [] 0
  | snoc {ds : List Char} {n : Nat} {d : Char} {v : Nat} : HexIs ds n → (d, v) ∈ hexDigits → HexIs (ds ++ [d]) (16 * n + v)

/-- chars that stand for themselves -/
def PlainChar (c : Char) : Prop := c.toNat < 128 ∧ c ∉ [']', '/', '\\', ')', '|', '+', '*', '?', '\t', '\r', '\n']

/-- a text for a char -/
inductive CharText : List Char → Char → Prop
  | plain {c : Char} : PlainChar c → CharText [c] c
  | newline : CharText ['\\', 'n'] '\n'
  | carriageReturn : CharText ['\\', 'r'] '\r'
  | tab : CharText ['\\', 't'] '\t'
  | backslash : CharText ['\\', '\\'] '\\'
  | slash : CharText ['\\', '/'] '/'
  | unicode {ds : List Char} {c : Char} : 4 ≤ ds.length → ds.length ≤ 6 → HexIs ds c.toNat → CharText (['\\', 'u', '{'] ++ ds ++ ['}']) c

/-- a text for one item of a set -/
inductive SetItem : List Char → Characters → Prop
  | single {w : List Char} {c : Char} : CharText w c → SetItem w (.single c)
  | range {w v : List Char} {c d : Char} : CharText w c → CharText v d → SetItem (w ++ '-' :: v) (.range c d)

/-- a text for the items of a set -/
inductive SetText (strict : Bool) : List Char → List Characters → Prop
  | one {w : List Char} {x : Characters} : SetItem w x → SetText strict w [x]
  | more {w v : List Char} {x : Characters} {xs : List Characters} : SetItem w x → SetText strict v xs →
      (strict = true → (∃ c d, x = .range c d) ∨ v.head? ≠ some '-') → SetText strict (w ++ v) (x :: xs)

/-- parts of a regular expression -/
inductive RegexLevel where
  | element | repetition | sequence | alternatives
deriving DecidableEq

/-- a text for a part of a regular expression -/
inductive RegexText (strict : Bool) : RegexLevel → List Char → List Pattern → Prop
  | char {w : List Char} {c : Char} : CharText w c → (strict = true → w ≠ ['('] ∧ w ≠ ['['] ∧ w ≠ ['.']) → RegexText strict .element w [.char (.single c)]
  | any : RegexText strict .element ['.'] [.charSet [] true]
  | set {w : List Char} {xs : List Characters} : SetText strict w xs → (strict = true → w.head? ≠ some '^') → RegexText strict .element ('[' :: w ++ [']']) [.charSet xs false]
  | negated {w : List Char} {xs : List Characters} : SetText strict w xs → RegexText strict .element ('[' :: '^' :: w ++ [']']) [.charSet xs true]
  | group {w : List Char} {p : Pattern} : RegexText strict .alternatives w [p] → RegexText strict .element ('(' :: w ++ [')']) [p]
  | choice {w : List Char} {ps : List Pattern} : RegexText strict .alternatives w ps → 2 ≤ ps.length → RegexText strict .element ('(' :: w ++ [')']) [.alternative ps]
  | once {w : List Char} {p : Pattern} : RegexText strict .element w [p] → RegexText strict .repetition w [p]
  | zeroOrMore {w : List Char} {p : Pattern} : RegexText strict .element w [p] → RegexText strict .repetition (w ++ ['*']) [.repetition 0 none p]
  | oneOrMore {w : List Char} {p : Pattern} : RegexText strict .element w [p] → RegexText strict .repetition (w ++ ['+']) [.repetition 1 none p]
  | optional {w : List Char} {p : Pattern} : RegexText strict .element w [p] → RegexText strict .repetition (w ++ ['?']) [.repetition 0 (some 1) p]
  | last {w : List Char} {p : Pattern} : RegexText strict .repetition w [p] → RegexText strict .sequence w [p]
  | more {w v : List Char} {p : Pattern} {ps : List Pattern} : RegexText strict .repetition w [p] → RegexText strict .sequence v ps → RegexText strict .sequence (w ++ v) (p :: ps)
  | lastChoice {w : List Char} {ps : List Pattern} : RegexText strict .sequence w ps → RegexText strict .alternatives w [.sequence ps]
  | moreChoices {w v : List Char} {ps qs : List Pattern} : RegexText strict .sequence w ps → RegexText strict .alternatives v qs →
      RegexText strict .alternatives (w ++ '|' :: v) (.sequence ps :: qs)

/-- names: ASCII letters and underscores -/
def PlainName (n : List Char) : Prop := n ≠ [] ∧ ∀ c ∈ n, c.isAlpha = true ∨ c = '_'

/-- one or more blanks or tabs -/
def Spaces (s : List Char) : Prop := s ≠ [] ∧ ∀ c ∈ s, c = ' ' ∨ c = '\t'

/-- white space between rules -/
def Blank (s : List Char) : Prop := ∀ c ∈ s, c = ' ' ∨ c = '\t' ∨ c = '\r' ∨ c = '\n'

/-- a text for a part of the right side of a production -/
inductive ProdText : RegexLevel → List Char → List ProdPattern → Prop
  | name {n : List Char} : PlainName n → ProdText .element n [.rule (String.ofList n)]
  | group {w : List Char} {p : ProdPattern} : ProdText .alternatives w [p] → ProdText .element ('(' :: w ++ [')']) [p]
  | choice {w : List Char} {ps : List ProdPattern} : ProdText .alternatives w ps → 2 ≤ ps.length → ProdText .element ('(' :: w ++ [')']) [.alternative ps]
  | once {w : List Char} {p : ProdPattern} : ProdText .element w [p] → ProdText .repetition w [p]
  | zeroOrMore {w : List Char} {p : ProdPattern} : ProdText .element w [p] → ProdText .repetition (w ++ ['*']) [.zeroOrMany p]
  | oneOrMore {w : List Char} {p : ProdPattern} : ProdText .element w [p] → ProdText .repetition (w ++ ['+']) [.oneOrMany p]
  | optional {w : List Char} {p : ProdPattern} : ProdText .element w [p] → ProdText .repetition (w ++ ['?']) [.optional p]
  | last {w : List Char} {p : ProdPattern} : ProdText .repetition w [p] → ProdText .sequence w [p]
  | more {w s v : List Char} {p : ProdPattern} {ps : List ProdPattern} : ProdText .repetition w [p] → Spaces s → ProdText .sequence v ps →
      ProdText .sequence (w ++ s ++ v) (p :: ps)
  | lastChoice {w : List Char} {ps : List ProdPattern} : ProdText .sequence w ps → ProdText .alternatives w [.sequence ps]
  | moreChoices {w v : List Char} {ps qs : List ProdPattern} : ProdText .sequence w ps → ProdText .alternatives v qs →
      ProdText .alternatives (w ++ [' ', '|', ' '] ++ v) (.sequence ps :: qs)

/-- a text for the pattern of a token -/
inductive TokenText (strict : Bool) : List Char → TokenPattern → Prop
  | literal {cs : List Char} : cs ≠ [] → (∀ c ∈ cs, c ≠ '"' ∧ c.toNat < 128) → TokenText strict ('"' :: cs ++ ['"']) (.literal cs)
  | regex {w : List Char} {ps : List Pattern} : RegexText strict .sequence w ps → TokenText strict ('/' :: w ++ ['/']) (.pattern (.sequence ps))

/-- a text for a rule -/
inductive BootRuleText (strict : Bool) : List Char → LapexRule → Prop
  | token {s1 n s2 s3 w : List Char} {p : TokenPattern} : Spaces s1 → PlainName n → Spaces s2 → Spaces s3 → TokenText strict w p →
      BootRuleText strict ("token".toList ++ s1 ++ n ++ s2 ++ ['='] ++ s3 ++ w ++ [';']) (.token ⟨String.ofList n, none, p⟩)
  | prod {s1 n s2 s3 w : List Char} {ps : List ProdPattern} : Spaces s1 → PlainName n → Spaces s2 → Spaces s3 → ProdText .sequence w ps →
      BootRuleText strict ("prod".toList ++ s1 ++ n ++ s2 ++ ['='] ++ s3 ++ w ++ [';']) (.prod ⟨String.ofList n, none, .sequence ps⟩)
  | entry {s1 n : List Char} : Spaces s1 → PlainName n → BootRuleText strict ("entry".toList ++ s1 ++ n ++ [';']) (.entry (String.ofList n))

/-- a text for a list of rules -/
inductive BootRulesText (strict : Bool) : List Char → List LapexRule → Prop
  | one {w : List Char} {r : LapexRule} : BootRuleText strict w r → BootRulesText strict w [r]
  | more {w s v : List Char} {r : LapexRule} {rs : List LapexRule} : BootRuleText strict w r → s ≠ [] → Blank s → BootRulesText strict v rs → BootRulesText strict (w ++ s ++ v) (r :: rs)

/-- a text for a file -/
def BootFileText (strict : Bool) (src : List Char) (rs : List LapexRule) : Prop :=
  ∃ s1 w s2, src = s1 ++ w ++ s2 ∧ Blank s1 ∧ BootRulesText strict w rs ∧ Blank s2

/-- a rule without a source position: the bootstrap parser gives every rule the span 0:0–0:0 -/
def noPos {α : Type} (a : α) : Spanned α := ⟨⟨⟨0, 0⟩, ⟨0, 0⟩⟩, a⟩

/-- the rule set of a list of rules with one entry rule -/
def RuleSetOf (rs : List LapexRule) (out : SpannedRules) : Prop :=
  entryRulesOf (rs.map noPos) = [out.entry] ∧ tokenRulesOf (rs.map noPos) = out.tokens ∧ prodRulesOf (rs.map noPos) = out.prods

/-! ## A printer -/

/-- the hexadecimal digit of a number below 16 -/
def digitOf (n : Nat) : Char := ['0', '1', '2', '3', '4', '5', '6', '7', '8', '9', 'a', 'b', 'c', 'd', 'e', 'f'].getD n '0'

/-- six hexadecimal digits -/
def hexSix (n : Nat) : List Char := [digitOf (n / 1048576 % 16), digitOf (n / 65536 % 16), digitOf (n / 4096 % 16), digitOf (n / 256 % 16), digitOf (n / 16 % 16), digitOf (n % 16)]

/-- letters and digits stand for themselves, all other chars are written as `\u{...}` -/
def printChar (c : Char) : List Char := if c.isAlphanum then [c] else ['\\', 'u', '{'] ++ hexSix c.toNat ++ ['}']

def printItem : Characters → List Char
  | .single c => printChar c
  | .range c d => printChar c ++ '-' :: printChar d

mutual
/-- a pattern in a regular expression -/
def printPattern : Pattern → List Char
  | .char x => printItem x
  | .charSet [] _ => ['.']
  | .charSet xs negated => '[' :: (if negated then ['^'] else []) ++ xs.flatMap printItem ++ [']']
  | .sequence ps => '(' :: printPatterns ps ++ [')']
  | .alternative ps => '(' :: printChoices ps ++ [')']
  | .repetition 0 none p => printPattern p ++ ['*']
  | .repetition 0 (some _) p => printPattern p ++ ['?']
  | .repetition (_ + 1) _ p => printPattern p ++ ['+']
/-- patterns one after the other -/
def printPatterns : List Pattern → List Char
  | [] => []
  | p :: ps => printPattern p ++ printPatterns ps
/-- patterns with `|` between them; a sequence needs no parentheses there -/
def printChoices : List Pattern → List Char
  | [] => []
  | [.sequence ps] => printPatterns ps
  | [p] => printPattern p
  | .sequence ps :: qs => printPatterns ps ++ '|' :: printChoices qs
  | p :: qs => printPattern p ++ '|' :: printChoices qs
end

mutual
/-- a pattern of a production -/
def printProd : ProdPattern → List Char
  | .rule n => n.toList
  | .epsilon => []
  | .sequence ps => '(' :: printProds ps ++ [')']
  | .alternative ps => '(' :: printProdChoices ps ++ [')']
  | .optional p => printProd p ++ ['?']
  | .oneOrMany p => printProd p ++ ['+']
  | .zeroOrMany p => printProd p ++ ['*']
/-- patterns with a blank between them -/
def printProds : List ProdPattern → List Char
  | [] => []
  | [p] => printProd p
  | p :: ps => printProd p ++ [' '] ++ printProds ps
/-- patterns with ` | ` between them; a sequence needs no parentheses there -/
def printProdChoices : List ProdPattern → List Char
  | [] => []
  | [.sequence ps] => printProds ps
  | [p] => printProd p
  | .sequence ps :: qs => printProds ps ++ [' ', '|', ' '] ++ printProdChoices qs
  | p :: qs => printProd p ++ [' ', '|', ' '] ++ printProdChoices qs
end

def printTokenPattern : TokenPattern → List Char
  | .literal cs => '"' :: cs ++ ['"']
  | .pattern (.sequence ps) => '/' :: printPatterns ps ++ ['/']
  | .pattern p => '/' :: printPattern p ++ ['/']

def printRight : ProdPattern → List Char
  | .sequence ps => printProds ps
  | p => printProd p

/-- a rule on one line -/
def printRule : LapexRule → List Char
  | .token r => "token".toList ++ [' '] ++ r.name.toList ++ [' '] ++ ['='] ++ [' '] ++ printTokenPattern r.pattern ++ [';']
  | .prod r => "prod".toList ++ [' '] ++ r.name.toList ++ [' '] ++ ['='] ++ [' '] ++ printRight r.pattern ++ [';']
  | .entry n => "entry".toList ++ [' '] ++ n.toList ++ [';']

/-- the rules, one per line -/
def printRules : List LapexRule → List Char
  | [] => []
  | [r] => printRule r
  | r :: rs => printRule r ++ ['\n'] ++ printRules rs

/-- the patterns that the syntax of the bootstrap parser can express; `Writable false` excludes a repetition sign at the end, so that another one can follow -/
inductive Writable : Bool → Pattern → Prop
  | char {rep : Bool} (c : Char) : Writable rep (.char (.single c))
  | any {rep : Bool} : Writable rep (.charSet [] true)
  | set {rep negated : Bool} {xs : List Characters} : xs ≠ [] → Writable rep (.charSet xs negated)
  | sequence {rep : Bool} {ps : List Pattern} : ps ≠ [] → (∀ p ∈ ps, Writable true p) → Writable rep (.sequence ps)
  | alternative {rep : Bool} {qs : List Pattern} : 2 ≤ qs.length → (∀ q ∈ qs, ∃ ps, q = .sequence ps) → (∀ q ∈ qs, Writable false q) → Writable rep (.alternative qs)
  | zeroOrMore {p : Pattern} : Writable false p → Writable true (.repetition 0 none p)
  | oneOrMore {p : Pattern} : Writable false p → Writable true (.repetition 1 none p)
  | optional {p : Pattern} : Writable false p → Writable true (.repetition 0 (some 1) p)

/-- the same for productions -/
inductive WritableProd : Bool → ProdPattern → Prop
  | rule {rep : Bool} {n : String} : PlainName n.toList → WritableProd rep (.rule n)
  | sequence {rep : Bool} {ps : List ProdPattern} : ps ≠ [] → (∀ p ∈ ps, WritableProd true p) → WritableProd rep (.sequence ps)
  | alternative {rep : Bool} {qs : List ProdPattern} : 2 ≤ qs.length → (∀ q ∈ qs, ∃ ps, q = .sequence ps) → (∀ q ∈ qs, WritableProd false q) → WritableProd rep (.alternative qs)
  | zeroOrMore {p : ProdPattern} : WritableProd false p → WritableProd true (.zeroOrMany p)
  | oneOrMore {p : ProdPattern} : WritableProd false p → WritableProd true (.oneOrMany p)
  | optional {p : ProdPattern} : WritableProd false p → WritableProd true (.optional p)

/-- the rules that the syntax of the bootstrap parser can express: no precedences, no tags, literals without `"` and in ASCII -/
inductive WritableRule : LapexRule → Prop
  | literal {n : String} {cs : List Char} : PlainName n.toList → cs ≠ [] → (∀ c ∈ cs, c ≠ '"' ∧ c.toNat < 128) → WritableRule (.token ⟨n, none, .literal cs⟩)
  | regex {n : String} {ps : List Pattern} : PlainName n.toList → ps ≠ [] → (∀ p ∈ ps, Writable true p) → WritableRule (.token ⟨n, none, .pattern (.sequence ps)⟩)
  | prod {n : String} {ps : List ProdPattern} : PlainName n.toList → ps ≠ [] → (∀ p ∈ ps, WritableProd true p) → WritableRule (.prod ⟨n, none, .sequence ps⟩)
  | entry {n : String} : PlainName n.toList → WritableRule (.entry n)

end Verif
