import Verif.Model.Generate
import Verif.Spec.LRTrace
import Verif.Spec.GlrTrace
import Verif.Spec.CppLR
import Verif.Spec.Table
import Verif.Spec.Lexing
import Verif.Spec.Names

/-! # What a run of `generate` should do -/

set_option autoImplicit false

namespace Verif

/-- the LR tables of the algorithms -/
def Algorithm.kind : Algorithm → Option LRKind
  | .ll1 => none
  | .lr0 => some .lr0
  | .lr1 => some .lr1
  | .lalr => some .lalr
  | .glr => none

/-- `ParserFrom g names alg lang tb w`: `w` is a parser for the grammar, made by the algorithm in the language; `tb` is the LR table it is made from, if it is made from one. GLR
parsers are made from LALR tables. -/
inductive ParserFrom (g : Grammar) (names : List (List Char)) : Algorithm → Language → Option LRTable → Written → Prop
  | rust {alg : Algorithm} {kind : LRKind} {fuel : Nat} {tb : LRTable} {p : LRProg} : alg.kind = some kind → generateTable g false kind fuel = .ok (.noConflicts tb) →
      genRust g tb = .ok p → ParserFrom g names alg .rust (some tb) (.rustParser p)
  | cpp {alg : Algorithm} {kind : LRKind} {fuel : Nat} {tb : LRTable} {src : CppLRSource} : alg.kind = some kind → generateTable g false kind fuel = .ok (.noConflicts tb) →
      genCpp names g tb = .ok src → ParserFrom g names alg .cpp (some tb) (.cppParser src)
  | glr {tb : LRTable} {p : GlrProg} : LRTableFor g .lalr tb → genGlr g tb = .ok p → ParserFrom g names .glr .rust (some tb) (.rustGlrParser p)
  | ll {fuel : Nat} {table : LLTable} : llGenerateTable g fuel = .ok table → ParserFrom g names .ll1 .cpp none (.cppLLParser table)

/-- the variants of the token type (C42): in Rust `EndOfFile`, and `Tk` with the name in upper camel case; in C++ `TK_ERR`, `TK_EOF`, and `TK_` with the name -/
def TokensFrom (lang : Language) (names vs : List (List Char)) : Prop :=
  match lang with
  | .rust => rustTokenVariants names = .ok vs
  | .cpp => cppTokenVariants names = vs

/-- the location says where in the file the span begins, and quotes it -/
structure LocatedAt (file contents : List Char) (span : SourceSpan) (l : Location) : Prop where
  file : l.file = file
  pos : l.pos = span.start
  text : span.substring contents = .ok (some l.text)

/-- the entry of a report for a completed rule: where the production it comes from is, and the rule with a dot at its end -/
def TellsItem (file contents : List Char) (prods : List (Spanned ProdRule)) (g : Grammar) (it : Item) (x : Location × List Char) : Prop :=
  ∃ i r p, it.rule = some i ∧ g.rules[i]? = some r ∧ prods[r.origin]? = some p ∧ LocatedAt file contents p.span x.1 ∧ it.dot = r.rhs.length ∧ ShowsItem g r it.dot x.2

/-- the report describes the conflict -/
inductive TellsConflict (file contents : List Char) (prods : List (Spanned ProdRule)) (g : Grammar) : Conflict → Report → Prop
  | shiftToken {q : Nat} {it : Item} {a : Nat} {name : String} {l : Location} {text : List Char} : (Sym.t a, name) ∈ g.tokens → TellsItem file contents prods g it (l, text) →
      TellsConflict file contents prods g (.shiftReduce q it (.t a)) (.shiftReduce q name.toList l text)
  | shiftOther {q : Nat} {it : Item} {X : Sym} {name : List Char} {l : Location} {text : List Char} : (∀ a, X ≠ .t a) → NamesSymbol g X name →
      TellsItem file contents prods g it (l, text) → TellsConflict file contents prods g (.shiftReduce q it X) (.shiftReduce q name l text)
  | reduces {q : Nat} {its : List Item} {xs : List (Location × List Char)} : List.Forall₂ (TellsItem file contents prods g) its xs →
      TellsConflict file contents prods g (.reduceReduce q its) (.reduceReduce q xs)

/-- the entry of a report for a token rule -/
def TellsToken (file contents : List Char) (tokens : List (Spanned TokenRule)) (j : Nat) (x : Location × List Char) : Prop :=
  ∃ r, tokens[j]? = some r ∧ LocatedAt file contents r.span x.1 ∧ x.2 = r.inner.name.toList

/-- the text a span stands for exists -/
def Quotable (contents : List Char) (span : SourceSpan) : Prop := ∃ text, span.substring contents = .ok (some text)

mutual
/-- the number of symbols a pattern puts in the right side it occurs in -/
def ProdPattern.width : ProdPattern → Nat
  | .sequence ps => ProdPattern.widths ps
  | _ => 1
/-- the same for a list of patterns -/
def ProdPattern.widths : List ProdPattern → Nat
  | [] => 0
  | p :: ps => p.width + ProdPattern.widths ps
end

/-- for every text that some token rule matches there is one of strictly highest precedence -/
def NoTies (rules : List TokenRule) : Prop := ∀ w, SomeMatch rules w → ∃ j, BestMatch rules w j

/-- the token rules have precedences, their patterns have no `{n}` or `{n,m}` with `m ≤ n` and no empty sequence, and each range of chars the lexer tells apart has a char in it -/
structure GoodTokens (rules : List TokenRule) : Prop where
  prec : ∀ r ∈ rules, ∃ p, r.prec = some p
  counts : ¬ ∃ r ∈ rules, r.HasTightCount
  noEmptySeq : ∀ r ∈ rules, r.NoEmptySeq
  full : ∀ lo hi, (lo, hi) ∈ (generateAlphabet rules).ranges → ∃ c : Char, lo ≤ c.toNat ∧ c.toNat ≤ hi

/-- what the rules of a file must satisfy beyond making a grammar so that nothing panics when LR tables are made from them: at most 65536 productions, no empty sequence, ε not in
sequences, right sides of at most 254 symbols, names the Rust code generator can convert, and right positions -/
structure GoodRules (lang : Language) (contents : List Char) (rules : SpannedRules) : Prop where
  prods : rules.prods.length ≤ 65536
  noEmptySequence : rules.ruleSet.NoEmptySequence
  noEpsilonInSequence : rules.ruleSet.NoEpsilonInSequence
  width : ∀ r ∈ rules.prods, ∀ p, Occurs p r.inner.pattern → p.width ≤ 254
  tokenNames : lang = .rust → ∀ r ∈ rules.tokens, ¬ BadSegment r.inner.name.toList
  prodNames : lang = .rust → ∀ r ∈ rules.prods, ¬ BadSegment r.inner.name.toList
  tokensQuotable : ∀ r ∈ rules.tokens, Quotable contents r.span
  prodsQuotable : ∀ r ∈ rules.prods, Quotable contents r.span

end Verif
