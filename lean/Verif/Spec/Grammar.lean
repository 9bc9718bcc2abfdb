import Verif.Model.Grammar

/-!
# What rule sets and context-free grammars mean

Token strings are lists of token numbers (position of the token rule in the rule set). Nothing here refers to the grammar builder.
-/

set_option autoImplicit false

namespace Verif

/-- the name `n` occurs in a production body -/
inductive Mentions : ProdPattern → String → Prop
  | rule (n : String) : Mentions (.rule n) n
  | sequence {ps : List ProdPattern} {p : ProdPattern} {n : String} : p ∈ ps → Mentions p n → Mentions (.sequence ps) n
  | alternative {ps : List ProdPattern} {p : ProdPattern} {n : String} : p ∈ ps → Mentions p n → Mentions (.alternative ps) n
  | oneOrMany {p : ProdPattern} {n : String} : Mentions p n → Mentions (.oneOrMany p) n
  | zeroOrMany {p : ProdPattern} {n : String} : Mentions p n → Mentions (.zeroOrMany p) n
  | optional {p : ProdPattern} {n : String} : Mentions p n → Mentions (.optional p) n

/-- the pattern `q` is a part of a body (or all of it) -/
inductive Occurs (q : ProdPattern) : ProdPattern → Prop
  | here : Occurs q q
  | sequence {ps : List ProdPattern} {p : ProdPattern} : p ∈ ps → Occurs q p → Occurs q (.sequence ps)
  | alternative {ps : List ProdPattern} {p : ProdPattern} : p ∈ ps → Occurs q p → Occurs q (.alternative ps)
  | oneOrMany {p : ProdPattern} : Occurs q p → Occurs q (.oneOrMany p)
  | zeroOrMany {p : ProdPattern} : Occurs q p → Occurs q (.zeroOrMany p)
  | optional {p : ProdPattern} : Occurs q p → Occurs q (.optional p)

/-- no body contains an alternative without branches or a sequence without elements (no syntax of lapex produces one) -/
def RuleSet.NoEmptyAlternative (rs : RuleSet) : Prop := ∀ p ∈ rs.prods, ¬ Occurs (.alternative []) p.pattern
def RuleSet.NoEmptySequence (rs : RuleSet) : Prop := ∀ p ∈ rs.prods, ¬ Occurs (.sequence []) p.pattern

/-- no sequence has an explicit epsilon among its elements -/
def RuleSet.NoEpsilonInSequence (rs : RuleSet) : Prop := ∀ p ∈ rs.prods, ∀ ps, Occurs (.sequence ps) p.pattern → ProdPattern.epsilon ∉ ps

/-- some token or production has the name `n` -/
def Defined (rs : RuleSet) (n : String) : Prop := n ∈ rs.tokens ∨ ∃ p ∈ rs.prods, p.name = n

/-- token names are pairwise distinct and no production has the name of a token -/
def NoClash (rs : RuleSet) : Prop := rs.tokens.Nodup ∧ ∀ p ∈ rs.prods, p.name ∉ rs.tokens

mutual
/-- number of operators (alternative, `+`, `*`, `?`) in a production body; each needs a helper non-terminal -/
def ProdPattern.operators : ProdPattern → Nat
  | .sequence ps => ProdPattern.operatorsList ps
  | .alternative ps => ProdPattern.operatorsList ps + 1
  | .oneOrMany p => p.operators + 1
  | .zeroOrMany p => p.operators + 1
  | .optional p => p.operators + 1
  | .rule _ => 0
  | .epsilon => 0
/-- sum over a list -/
def ProdPattern.operatorsList : List ProdPattern → Nat
  | [] => 0
  | p :: ps => p.operators + ProdPattern.operatorsList ps
end

/-- number of operators in all production bodies -/
def RuleSet.operators (rs : RuleSet) : Nat := (rs.prods.map (fun p => p.pattern.operators)).sum

/-- symbol numbers fit into 16 bits: room for all helper non-terminals above the tokens and productions -/
def RuleSet.Fits (rs : RuleSet) : Prop :=
  rs.operators = 0 ∨ max rs.tokens.length rs.prods.length + rs.operators ≤ 65536

/-- The EBNF meaning of production bodies: `Den rs p w` — the token string `w` matches `p`. -/
inductive Den (rs : RuleSet) : ProdPattern → List Nat → Prop
  | token {i : Nat} {n : String} : rs.tokens[i]? = some n → Den rs (.rule n) [i]
  | prod {r : ProdRule} {w : List Nat} : r ∈ rs.prods → Den rs r.pattern w → Den rs (.rule r.name) w
  | epsilon : Den rs .epsilon []
  | seqNil : Den rs (.sequence []) []
  | seqCons {p : ProdPattern} {ps : List ProdPattern} {u v : List Nat} :
      Den rs p u → Den rs (.sequence ps) v → Den rs (.sequence (p :: ps)) (u ++ v)
  | alt {ps : List ProdPattern} {p : ProdPattern} {w : List Nat} : p ∈ ps → Den rs p w → Den rs (.alternative ps) w
  | plusOne {p : ProdPattern} {w : List Nat} : Den rs p w → Den rs (.oneOrMany p) w
  | plusMore {p : ProdPattern} {u v : List Nat} : Den rs p u → Den rs (.oneOrMany p) v → Den rs (.oneOrMany p) (u ++ v)
  | starNil {p : ProdPattern} : Den rs (.zeroOrMany p) []
  | starMore {p : ProdPattern} {u v : List Nat} : Den rs p u → Den rs (.zeroOrMany p) v → Den rs (.zeroOrMany p) (u ++ v)
  | optNone {p : ProdPattern} : Den rs (.optional p) []
  | optSome {p : ProdPattern} {w : List Nat} : Den rs p w → Den rs (.optional p) w

/-- The language of a plain context-free grammar: `Derives rules α w` — the symbol string `α` derives the token string `w`. -/
inductive Derives (rules : List Rule) : List Sym → List Nat → Prop
  | nil : Derives rules [] []
  | eps {ss : List Sym} {w : List Nat} : Derives rules ss w → Derives rules (.eps :: ss) w
  | term {a : Nat} {ss : List Sym} {w : List Nat} : Derives rules ss w → Derives rules (.t a :: ss) (a :: w)
  | nonterm {r : Rule} {ss : List Sym} {u v : List Nat} :
      r ∈ rules → Derives rules r.rhs u → Derives rules ss v → Derives rules (.nt r.lhs :: ss) (u ++ v)

/-- what a well-formed grammar is -/
structure Grammar.WF (g : Grammar) : Prop where
  /-- every left side is a declared non-terminal -/
  lhs_declared : ∀ r ∈ g.rules, Sym.nt r.lhs ∈ g.nonTerminals
  /-- every non-terminal in a right side is declared -/
  nt_declared : ∀ r ∈ g.rules, ∀ A, Sym.nt A ∈ r.rhs → Sym.nt A ∈ g.nonTerminals
  /-- every terminal in a right side has a token name -/
  t_declared : ∀ r ∈ g.rules, ∀ a, Sym.t a ∈ r.rhs → Sym.t a ∈ g.terminals
  /-- the end marker does not occur in rules -/
  no_eof : ∀ r ∈ g.rules, Sym.eof ∉ r.rhs
  /-- only non-terminals are declared as non-terminals, only terminals as terminals -/
  nts : ∀ s ∈ g.nonTerminals, ∃ A, s = .nt A
  ts : ∀ s ∈ g.terminals, ∃ a, s = .t a
  /-- the entry symbol is a declared non-terminal -/
  entry_declared : ∃ A, g.entry = .nt A ∧ Sym.nt A ∈ g.nonTerminals
  /-- no symbol is declared twice -/
  nodup : g.nonTerminals.Nodup
  nodup_t : g.terminals.Nodup

end Verif
