import Verif.Model.Collections

/-!
# Grammars: `lapex-parser/src/grammar.rs`, `lapex-parser/src/grammar_builder.rs` and the production part of `lapex-input/src/lib.rs`

References to source rules (`&Spanned<ProductionRule>`) are indices into the rule set's list of productions; source spans in errors are
replaced by the number of the rule they belong to.
-/

set_option autoImplicit false

namespace Verif

/-- `enum ProductionPattern` — lapex-input/src/lib.rs:179-200. -/
inductive ProdPattern where
  | sequence (elements : List ProdPattern)
  | alternative (elements : List ProdPattern)
  | oneOrMany (inner : ProdPattern)
  | zeroOrMany (inner : ProdPattern)
  | optional (inner : ProdPattern)
  | rule (name : String)
  | epsilon
deriving Repr

/-- `struct ProductionRule` — lapex-input/src/lib.rs:167-172. -/
structure ProdRule where
  name : String
  tag : Option String
  pattern : ProdPattern
deriving Repr

/-- `struct RuleSet` — lapex-input/src/lib.rs:202-206. Of the token rules only the names matter to the grammar. -/
structure RuleSet where
  entry : String
  tokens : List String
  prods : List ProdRule
deriving Repr

/-- `enum Symbol` — lapex-parser/src/grammar.rs:36-42. Indices are `u16` in Rust. -/
inductive Sym where
  | eps
  | eof
  | nt (i : Nat)
  | t (i : Nat)
deriving DecidableEq, Repr

/-- the derived `Ord` of `Symbol`: constructor first, then index. -/
def Sym.toKey : Sym → List Nat
  | .eps => [0]
  | .eof => [1]
  | .nt i => [2, i]
  | .t i => [3, i]

instance : Key Sym where
  key := Sym.toKey
  inj := by intro a b h; cases a <;> cases b <;> simp_all [Sym.toKey]

/-- `struct Rule` — lapex-parser/src/grammar.rs:44-49, for rules with a left side (the entry rule, whose `lhs` is `None`, is kept
separately, see `Grammar`). `origin` is the number of the source production. -/
structure Rule where
  lhs : Nat
  rhs : List Sym
  origin : Nat
deriving DecidableEq, Repr

/-- `struct Grammar` — lapex-parser/src/grammar.rs:131-139. The entry rule is `None → [entry]` (`Rule::entry`, 52-58). -/
structure Grammar where
  rules : List Rule
  anon : List Sym
  productions : List (Sym × String)
  tokens : List (Sym × String)
  entry : Sym
  entryOrigin : Nat
deriving DecidableEq, Repr

/-- `Grammar::non_terminals` — lapex-parser/src/grammar.rs:166-171. -/
def Grammar.nonTerminals (g : Grammar) : List Sym := g.productions.map (·.1) ++ g.anon

/-- `Grammar::terminals` — lapex-parser/src/grammar.rs:173-175. -/
def Grammar.terminals (g : Grammar) : List Sym := g.tokens.map (·.1)

/-- a rule of the rule set, standing for its source span -/
inductive RuleRef where
  | token (i : Nat)
  | prod (i : Nat)
deriving DecidableEq, Repr

/-- `enum GrammarError` — lapex-parser/src/grammar.rs:14-20, and panics. -/
inductive GrammarError where
  | missingSymbol (name : String)
  | conflictingRules (first second : RuleRef)
  | ruleWithTerminalLeftHandSide
  | panic
deriving DecidableEq, Repr

/-- result of building a grammar -/
abbrev GRes := Except GrammarError

/-- number of values of `u16` -/
def u16Size : Nat := 65536

/-- `struct GrammarBuilder` — lapex-parser/src/grammar_builder.rs:7-16. `symbols` is a name table; only lookups and the maximum of
its values matter, so its order (by name in Rust) is not modelled. -/
structure GrammarBuilder where
  tempCount : Nat
  symbols : List (String × Sym × RuleRef)
  maxSymbol : Nat
  anon : List Sym
  tokens : List (Sym × String)
  productions : List (Sym × String)
  rules : List Rule
deriving DecidableEq, Repr

/-- lookup in the name table -/
def symLookup (name : String) : List (String × Sym × RuleRef) → Option (Sym × RuleRef)
  | [] => none
  | (n, v) :: l => if n = name then some v else symLookup name l

/-- the token loop — lapex-parser/src/grammar_builder.rs:36-44, from token `i` on. -/
def addTokens : Nat → List String → List (String × Sym × RuleRef) → List (Sym × String) →
    GRes (List (String × Sym × RuleRef) × List (Sym × String))
  | _, [], symbols, tokens => .ok (symbols, tokens)
  | i, name :: names, symbols, tokens =>
    match symLookup name symbols with
    | some (_, prev) => .error (.conflictingRules prev (.token i))
    | none => addTokens (i + 1) names (symbols ++ [(name, .t (i % u16Size), .token i)]) (minsert (.t (i % u16Size)) name tokens)

/-- the production loop — lapex-parser/src/grammar_builder.rs:45-56, from production `i` on. -/
def addProds (tokens : List (Sym × String)) : Nat → List ProdRule → List (String × Sym × RuleRef) → List (Sym × String) →
    GRes (List (String × Sym × RuleRef) × List (Sym × String))
  | _, [], symbols, prods => .ok (symbols, prods)
  | i, r :: rs, symbols, prods =>
    match symLookup r.name symbols with
    | some (existing, ref) =>
      if (mget? existing tokens).isSome then .error (.conflictingRules ref (.prod i))
      else addProds tokens (i + 1) rs symbols prods
    | none =>
      addProds tokens (i + 1) rs (symbols ++ [(r.name, .nt (i % u16Size), .prod i)]) (minsert (.nt (i % u16Size)) r.name prods)

/-- the index inside a symbol — lapex-parser/src/grammar_builder.rs:64-69. -/
def Sym.index : Sym → Nat
  | .eps => 0
  | .eof => 0
  | .nt i => i
  | .t i => i

/-- `Iterator::max` on numbers -/
def maxOpt : List Nat → Option Nat
  | [] => none
  | a :: l => some (l.foldl max a)

/-- `GrammarBuilder::from_rule_set` — lapex-parser/src/grammar_builder.rs:19-80. `i as SymbolIdx` truncates to 16 bits. The
`unwrap` of line 71 is an explicit panic. -/
def GrammarBuilder.fromRuleSet (rs : RuleSet) : GRes GrammarBuilder := do
  let (symbols, tokens) ← addTokens 0 rs.tokens [] []
  let (symbols, productions) ← addProds tokens 0 rs.prods symbols []
  match maxOpt (symbols.map (fun s => s.2.1.index)) with
  | none => .error .panic
  | some maxSymbol =>
    .ok { tempCount := 0, symbols := symbols, maxSymbol := maxSymbol, anon := [], tokens := tokens, productions := productions, rules := [] }

/-- `get_temp_symbol` — lapex-parser/src/grammar_builder.rs:82-87. `u16` overflow of `temp_count + max_symbol + 1` panics (debug; a
release build would wrap around), as does `checked_add(1).unwrap()`. Returns the symbol's index. -/
def GrammarBuilder.getTempSymbol (b : GrammarBuilder) : GRes (Nat × GrammarBuilder) :=
  let i := b.tempCount + b.maxSymbol + 1
  if i < u16Size ∧ b.tempCount + 1 < u16Size then
    .ok (i, { b with anon := b.anon ++ [.nt i], tempCount := b.tempCount + 1 })
  else .error .panic

/-- `get_symbol_by_name` — lapex-parser/src/grammar_builder.rs:89-96. -/
def GrammarBuilder.getSymbolByName (b : GrammarBuilder) (name : String) : GRes Sym :=
  match symLookup name b.symbols with
  | some (s, _) => .ok s
  | none => .error (.missingSymbol name)

/-- `self.rules.push(Rule::new(NonTerminal(lhs), rhs, parent)?)` for a left side that is a non-terminal — lapex-parser/src/grammar.rs:71-89. -/
def GrammarBuilder.pushRule (b : GrammarBuilder) (lhs : Nat) (rhs : List Sym) (origin : Nat) : GrammarBuilder :=
  { b with rules := b.rules ++ [⟨lhs, rhs, origin⟩] }

mutual
/-- `transform_pattern` — lapex-parser/src/grammar_builder.rs:134-189. Returns the symbols and the new builder state. -/
def transformPattern (origin : Nat) : ProdPattern → GrammarBuilder → GRes (List Sym × GrammarBuilder)
  | .sequence elements, b => transformSeq origin elements b
  | .alternative elements, b => do
    let (alt, b) ← b.getTempSymbol
    let b ← transformAlts origin alt elements b
    .ok ([.nt alt], b)
  | .oneOrMany inner, b => do
    let (rep, b) ← b.getTempSymbol
    let (innerProduces, b) ← transformPattern origin inner b
    let b := b.pushRule rep innerProduces origin
    let b := b.pushRule rep (innerProduces ++ [.nt rep]) origin
    .ok ([.nt rep], b)
  | .zeroOrMany inner, b => do
    let (rep, b) ← b.getTempSymbol
    let (innerProduces, b) ← transformPattern origin inner b
    let b := b.pushRule rep [.eps] origin
    let b := b.pushRule rep (innerProduces ++ [.nt rep]) origin
    .ok ([.nt rep], b)
  | .optional inner, b => do
    let (symbol, b) ← b.getTempSymbol
    let (innerProduces, b) ← transformPattern origin inner b
    let b := b.pushRule symbol innerProduces origin
    let b := b.pushRule symbol [.eps] origin
    .ok ([.nt symbol], b)
  | .rule name, b => do
    let s ← b.getSymbolByName name
    .ok ([s], b)
  | .epsilon, b => .ok ([.eps], b)
/-- the `map ... collect` and `flat_map` of lapex-parser/src/grammar_builder.rs:141-146. -/
def transformSeq (origin : Nat) : List ProdPattern → GrammarBuilder → GRes (List Sym × GrammarBuilder)
  | [], b => .ok ([], b)
  | p :: ps, b => do
    let (s1, b) ← transformPattern origin p b
    let (s2, b) ← transformSeq origin ps b
    .ok (s1 ++ s2, b)
/-- the loop of lapex-parser/src/grammar_builder.rs:150-154. -/
def transformAlts (origin : Nat) (alt : Nat) : List ProdPattern → GrammarBuilder → GRes GrammarBuilder
  | [], b => .ok b
  | p :: ps, b => do
    let (s, b) ← transformPattern origin p b
    transformAlts origin alt ps (b.pushRule alt s origin)
end

/-- `add_production_rule` — lapex-parser/src/grammar_builder.rs:124-132 with `Rule::new` (lapex-parser/src/grammar.rs:71-89). -/
def GrammarBuilder.addProductionRule (b : GrammarBuilder) (origin : Nat) (r : ProdRule) : GRes GrammarBuilder := do
  let symbol ← b.getSymbolByName r.name
  let (produces, b) ← transformPattern origin r.pattern b
  match symbol with
  | .nt i => .ok (b.pushRule i produces origin)
  | _ => .error .ruleWithTerminalLeftHandSide

/-- the loop of `build` — lapex-parser/src/grammar_builder.rs:99-101, from production `i` on. -/
def GrammarBuilder.addProductionRules : Nat → List ProdRule → GrammarBuilder → GRes GrammarBuilder
  | _, [], b => .ok b
  | i, r :: rs, b => do
    let b ← b.addProductionRule i r
    addProductionRules (i + 1) rs b

/-- `build` — lapex-parser/src/grammar_builder.rs:98-120. -/
def GrammarBuilder.build (rs : RuleSet) (b : GrammarBuilder) : GRes Grammar := do
  let b ← GrammarBuilder.addProductionRules 0 rs.prods b
  let entrySymbol ← b.getSymbolByName rs.entry
  match rs.prods.findIdx? (fun r => r.name = rs.entry) with
  | none => .error (.missingSymbol rs.entry)
  | some i =>
    .ok { rules := b.rules, anon := b.anon, productions := b.productions, tokens := b.tokens, entry := entrySymbol, entryOrigin := i }

/-- `Grammar::from_rule_set` — lapex-parser/src/grammar.rs:162-164. -/
def Grammar.fromRuleSet (rs : RuleSet) : GRes Grammar := do
  let b ← GrammarBuilder.fromRuleSet rs
  b.build rs

end Verif
