import Verif.Model.Lapex

/-!
# The syntax of lapex files

A file is a list of tokens (number of the token rule, text and span). The relations say how the tokens are read; they do not mention the grammar or the parser.
-/

set_option autoImplicit false

namespace Verif

/-! numbers of the token rules of lapex-input-gen/src/lapex.lapex -/
namespace Lx
abbrev kwToken : Nat := 0
abbrev kwEntry : Nat := 1
abbrev kwProd : Nat := 2
abbrev equals : Nat := 3
abbrev semi : Nat := 4
abbrev lpar : Nat := 5
abbrev rpar : Nat := 6
abbrev lbrack : Nat := 7
abbrev rbrack : Nat := 8
abbrev digit : Nat := 9
abbrev question : Nat := 10
abbrev nothing : Nat := 11
abbrev asterisk : Nat := 12
abbrev plus : Nat := 13
abbrev pipe : Nat := 14
abbrev ident : Nat := 15
abbrev string : Nat := 16
abbrev regex : Nat := 17
end Lx

/-- tokens with their data -/
abbrev Tokens := List (Nat × TokenData)

/-- a token's text as a name -/
def TokenData.name (d : TokenData) : String := String.ofList d.text

/-- how tightly the parts of a production body bind -/
inductive Level where
  | item
  | unary
  | concatenation
  | alternative
  | pattern

/-- `Body seq alt l w p`: the tokens `w` are a production body of level `l`, read as `p`; `seq` and `alt` put two parts together. Sequence and alternative group to the
right; `?`, `*`, `+` bind tightest, then juxtaposition, then `|`. -/
inductive Body (seq alt : ProdPattern → ProdPattern → ProdPattern) : Level → Tokens → ProdPattern → Prop
  | name (n : TokenData) : Body seq alt .item [(Lx.ident, n)] (.rule n.name)
  | paren {w : Tokens} {p : ProdPattern} (l r : TokenData) : Body seq alt .pattern w p → Body seq alt .item ((Lx.lpar, l) :: w ++ [(Lx.rpar, r)]) p
  | optional {w : Tokens} {p : ProdPattern} (o : TokenData) : Body seq alt .item w p → Body seq alt .unary (w ++ [(Lx.question, o)]) (.optional p)
  | star {w : Tokens} {p : ProdPattern} (o : TokenData) : Body seq alt .item w p → Body seq alt .unary (w ++ [(Lx.asterisk, o)]) (.zeroOrMany p)
  | plus {w : Tokens} {p : ProdPattern} (o : TokenData) : Body seq alt .item w p → Body seq alt .unary (w ++ [(Lx.plus, o)]) (.oneOrMany p)
  | item {w : Tokens} {p : ProdPattern} : Body seq alt .item w p → Body seq alt .unary w p
  | sequence {u v : Tokens} {p q : ProdPattern} : Body seq alt .unary u p → Body seq alt .concatenation v q → Body seq alt .concatenation (u ++ v) (seq p q)
  | unary {w : Tokens} {p : ProdPattern} : Body seq alt .unary w p → Body seq alt .concatenation w p
  | choice {u v : Tokens} {p q : ProdPattern} (b : TokenData) : Body seq alt .concatenation u p → Body seq alt .alternative v q →
      Body seq alt .alternative (u ++ (Lx.pipe, b) :: v) (alt p q)
  | concatenation {w : Tokens} {p : ProdPattern} : Body seq alt .concatenation w p → Body seq alt .alternative w p
  | alternative {w : Tokens} {p : ProdPattern} : Body seq alt .alternative w p → Body seq alt .pattern w p
  | nothing (n : TokenData) : Body seq alt .pattern [(Lx.nothing, n)] .epsilon

/-- the plain reading: two parts in source order -/
def plainSeq (p q : ProdPattern) : ProdPattern := .sequence [p, q]
def plainAlt (p q : ProdPattern) : ProdPattern := .alternative [p, q]

/-- what the input parser delivers: a sequence on the right is continued at its front -/
def joinSeq (p : ProdPattern) : ProdPattern → ProdPattern
  | .sequence ps => .sequence (p :: ps)
  | q => .sequence [p, q]

/-- an alternative on the right is continued at its end: branches come in reverse order -/
def joinAlt (p : ProdPattern) : ProdPattern → ProdPattern
  | .alternative ps => .alternative (ps ++ [p])
  | q => .alternative [q, p]

/-- a rule as written -/
inductive RawRule where
  | entry (name : TokenData)
  | prod (name : TokenData) (tag : Option TokenData) (body : ProdPattern)
  | token (name : TokenData) (precedence : Option TokenData) (text : TokenData)

/-- an optional token of the given kind in square brackets -/
inductive Bracketed (kind : Nat) : Tokens → Option TokenData → Prop
  | absent : Bracketed kind [] none
  | present (l d r : TokenData) : Bracketed kind [(Lx.lbrack, l), (kind, d), (Lx.rbrack, r)] (some d)

/-- the tokens `w` are a rule; its span goes from its first to its last token -/
inductive RuleText (seq alt : ProdPattern → ProdPattern → ProdPattern) : Tokens → Spanned RawRule → Prop
  | entry (k n s : TokenData) : RuleText seq alt [(Lx.kwEntry, k), (Lx.ident, n), (Lx.semi, s)] ⟨⟨k.span.start, s.span.stop⟩, .entry n⟩
  | prod {u v : Tokens} {tag : Option TokenData} {p : ProdPattern} (k n e s : TokenData) : Bracketed Lx.ident u tag → Body seq alt .pattern v p →
      RuleText seq alt ([(Lx.kwProd, k), (Lx.ident, n)] ++ u ++ [(Lx.equals, e)] ++ v ++ [(Lx.semi, s)]) ⟨⟨k.span.start, s.span.stop⟩, .prod n tag p⟩
  | token {u : Tokens} {prec : Option TokenData} {kind : Nat} (k n e d s : TokenData) : Bracketed Lx.digit u prec → kind = Lx.string ∨ kind = Lx.regex →
      RuleText seq alt ([(Lx.kwToken, k), (Lx.ident, n)] ++ u ++ [(Lx.equals, e), (kind, d), (Lx.semi, s)]) ⟨⟨k.span.start, s.span.stop⟩, .token n prec d⟩

/-- the tokens are one or more rules -/
inductive FileText (seq alt : ProdPattern → ProdPattern → ProdPattern) : Tokens → List (Spanned RawRule) → Prop
  | one {w : Tokens} {r : Spanned RawRule} : RuleText seq alt w r → FileText seq alt w [r]
  | more {u v : Tokens} {r : Spanned RawRule} {rs : List (Spanned RawRule)} : RuleText seq alt u r → FileText seq alt v rs → FileText seq alt (u ++ v) (r :: rs)

/-- value of a string of decimal digits -/
def decimalValue (digits : List Char) : Nat := digits.foldl (fun n c => 10 * n + (c.toNat - 48)) 0

/-- the text is a number that fits into 16 bits -/
def NumberText (text : List Char) (n : Nat) : Prop :=
  ∃ digits, (text = digits ∨ text = '+' :: digits) ∧ digits ≠ [] ∧ (∀ c ∈ digits, c.isDigit = true) ∧ decimalValue digits = n ∧ n < 65536

/-- an optional precedence -/
inductive PrecedenceIs : Option TokenData → Option Nat → Prop
  | none : PrecedenceIs none none
  | some {d : TokenData} {n : Nat} : NumberText d.text n → PrecedenceIs (some d) (some n)

/-- `Means syn r x`: the rule `r` as written stands for `x`. A string token's pattern are the chars between the quotes, as written; a regex token's pattern is the converted
expression. -/
inductive Means (syn : List Char → Option Hir) : RawRule → LapexRule → Prop
  | entry (n : TokenData) : Means syn (.entry n) (.entry n.name)
  | prod (n : TokenData) (tag : Option TokenData) (p : ProdPattern) : Means syn (.prod n tag p) (.prod ⟨n.name, tag.map TokenData.name, p⟩)
  | literal {n d : TokenData} {prec : Option TokenData} {k : Option Nat} {body : List Char} : PrecedenceIs prec k → d.text = '"' :: body →
      Means syn (.token n prec d) (.token ⟨n.name, k, .literal body.dropLast⟩)
  | regex {n d : TokenData} {prec : Option TokenData} {k : Option Nat} {body : List Char} {c : Char} {h : Hir} {p : Pattern} : PrecedenceIs prec k →
      d.text = '/' :: body ++ [c] → c.utf8Size = 1 → syn body = some h → makePattern h = .ok p → Means syn (.token n prec d) (.token ⟨n.name, k, .pattern p⟩)

/-- the rules, with their spans, stand for these -/
def MeansAll (syn : List Char → Option Hir) (rs : List (Spanned RawRule)) (xs : List (Spanned LapexRule)) : Prop :=
  List.Forall₂ (fun r x => x.span = r.span ∧ Means syn r.inner x.inner) rs xs

/-- the rules of one kind, in order -/
def tokenRulesOf (xs : List (Spanned LapexRule)) : List (Spanned TokenRule) := xs.filterMap fun x => match x.inner with | .token r => some ⟨x.span, r⟩ | _ => none
def prodRulesOf (xs : List (Spanned LapexRule)) : List (Spanned ProdRule) := xs.filterMap fun x => match x.inner with | .prod r => some ⟨x.span, r⟩ | _ => none
def entryRulesOf (xs : List (Spanned LapexRule)) : List (Spanned String) := xs.filterMap fun x => match x.inner with | .entry n => some ⟨x.span, n⟩ | _ => none

/-- `FileMeans syn w out`: the tokens `w` are a file with exactly one entry rule, and the input parser's answer for it is `out`: the rules of each kind in reverse order -/
def FileMeans (syn : List Char → Option Hir) (w : Tokens) (out : SpannedRules) : Prop :=
  ∃ rs xs, FileText joinSeq joinAlt w rs ∧ MeansAll syn rs xs ∧ entryRulesOf xs = [out.entry] ∧ out.tokens = (tokenRulesOf xs).reverse ∧ out.prods = (prodRulesOf xs).reverse

end Verif
