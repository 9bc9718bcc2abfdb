import Verif.Spec.Pipeline

/-!
# The same rules, written in another order and with other names

`SameRules` compares two rule sets; tags are not compared. `SameGrammar` compares two grammars.
-/

set_option autoImplicit false

namespace Verif

mutual
/-- a production body with other names -/
def ProdPattern.rename (ρ : String → String) : ProdPattern → ProdPattern
  | .sequence ps => .sequence (ProdPattern.renameList ρ ps)
  | .alternative ps => .alternative (ProdPattern.renameList ρ ps)
  | .oneOrMany p => .oneOrMany (p.rename ρ)
  | .zeroOrMany p => .zeroOrMany (p.rename ρ)
  | .optional p => .optional (p.rename ρ)
  | .rule n => .rule (ρ n)
  | .epsilon => .epsilon
/-- the same for several bodies -/
def ProdPattern.renameList (ρ : String → String) : List ProdPattern → List ProdPattern
  | [] => []
  | p :: ps => p.rename ρ :: ProdPattern.renameList ρ ps
end

/-- the name `n` appears in the rule set: it is defined, used, or the entry -/
def Appears (rs : RuleSet) (n : String) : Prop := Defined rs n ∨ (∃ p ∈ rs.prods, Mentions p.pattern n) ∨ n = rs.entry

/-- `rs'` has the same rules as `rs`, in any order, when every name `n` is written `ρ n`; different names stay different -/
structure SameRules (ρ : String → String) (rs rs' : RuleSet) : Prop where
  tokens : (rs.tokens.map ρ).Perm rs'.tokens
  prods : (rs.prods.map (fun p => (ρ p.name, p.pattern.rename ρ))).Perm (rs'.prods.map (fun p => (p.name, p.pattern)))
  entry : rs'.entry = ρ rs.entry
  inj : ∀ m n, Appears rs m → Appears rs n → ρ m = ρ n → m = n

/-- other numbers for non-terminals and tokens -/
def Sym.rename (φ τ : Nat → Nat) : Sym → Sym
  | .eps => .eps
  | .eof => .eof
  | .nt A => .nt (φ A)
  | .t a => .t (τ a)

/-- `g'` has the same rules as `g`, in any order, with other numbers for the symbols -/
structure SameGrammar (φ τ : Nat → Nat) (g g' : Grammar) : Prop where
  nts : ∀ a b, φ a = φ b → a = b
  ts : ∀ a b, τ a = τ b → a = b
  rules : (g.rules.map (fun r => (φ r.lhs, r.rhs.map (Sym.rename φ τ)))).Perm (g'.rules.map (fun r => (r.lhs, r.rhs)))
  entry : g'.entry = g.entry.rename φ τ

/-- the same item -/
def Item.rename (φ τ π : Nat → Nat) (it : Item) : Item := ⟨it.rule.map π, it.dot, it.la.map (Sym.rename φ τ)⟩

/-- rule number `i` of `g` is rule number `π i` of `g'` -/
structure RuleMap (φ τ π : Nat → Nat) (g g' : Grammar) : Prop where
  fwd : ∀ (i : Nat) (r : Rule), g.rules[i]? = some r → ∃ r', g'.rules[π i]? = some r' ∧ r'.lhs = φ r.lhs ∧ r'.rhs = r.rhs.map (Sym.rename φ τ)
  bwd : ∀ (j : Nat) (r' : Rule), g'.rules[j]? = some r' → ∃ i r, g.rules[i]? = some r ∧ π i = j ∧ r'.lhs = φ r.lhs ∧ r'.rhs = r.rhs.map (Sym.rename φ τ)
  inj : ∀ i i', i < g.rules.length → i' < g.rules.length → π i = π i' → i = i'

/-- the rule `r` of `g` is the rule `R r` of `g'` -/
structure RuleBij (φ τ : Nat → Nat) (R : Rule → Rule) (g g' : Grammar) : Prop where
  mem : ∀ r ∈ g.rules, R r ∈ g'.rules ∧ (R r).lhs = φ r.lhs ∧ (R r).rhs = r.rhs.map (Sym.rename φ τ)
  surj : ∀ r' ∈ g'.rules, ∃ r ∈ g.rules, R r = r'
  inj : ∀ r ∈ g.rules, ∀ s ∈ g.rules, R r = R s → r = s

/-- the same conflict, in the state with the number `st q` -/
inductive SameConflict (φ τ π st : Nat → Nat) : Conflict → Conflict → Prop
  | shiftReduce {q : Nat} {it : Item} {X : Sym} : SameConflict φ τ π st (.shiftReduce q it X) (.shiftReduce (st q) (it.rename φ τ π) (X.rename φ τ))
  | reduceReduce {q : Nat} {its its' : List Item} : (its.map (Item.rename φ τ π)).Perm its' → SameConflict φ τ π st (.reduceReduce q its) (.reduceReduce (st q) its')

mutual
/-- the same tree, with other numbers for tokens and with the rules `R r` in place of `r` -/
def PTree.rename {T : Type} (τ : Nat → Nat) (R : Rule → Rule) : PTree T → PTree T
  | .leaf a d => .leaf (τ a) d
  | .node r cs => .node (R r) (PTree.renameList τ R cs)
/-- the same for several trees -/
def PTree.renameList {T : Type} (τ : Nat → Nat) (R : Rule → Rule) : List (PTree T) → List (PTree T)
  | [] => []
  | t :: ts => t.rename τ R :: PTree.renameList τ R ts
end

/-- other numbers for the tokens of a text -/
def retoken {T : Type} (τ : Nat → Nat) (ts : List (Nat × T)) : List (Nat × T) := ts.map fun x => (τ x.1, x.2)

/-- the same token rule under another name -/
def TokenRule.SameAs (ρ : String → String) (r r' : TokenRule) : Prop := r'.name = ρ r.name ∧ r'.precedence = r.precedence ∧ r'.pattern = r.pattern

/-- `rules'` has the same token rules as `rules`: rule number `j` is rule number `τ j` there -/
structure SameTokens (ρ : String → String) (τ : Nat → Nat) (rules rules' : List TokenRule) : Prop where
  inj : ∀ a b, τ a = τ b → a = b
  fwd : ∀ (j : Nat) (r : TokenRule), rules[j]? = some r → ∃ r', rules'[τ j]? = some r' ∧ TokenRule.SameAs ρ r r'
  bwd : ∀ (j' : Nat) (r' : TokenRule), rules'[j']? = some r' → ∃ j r, rules[j]? = some r ∧ τ j = j' ∧ TokenRule.SameAs ρ r r'

/-- The two files have the same token rules and the same productions, in any order, when every name `n` of the first is written `ρ n` in the second; different names stay
different. -/
structure SameFile (ρ : String → String) (entry : String) (rules : List TokenRule) (prods : List ProdRule) (entry' : String) (rules' : List TokenRule) (prods' : List ProdRule) : Prop where
  tokens : (rules.map (fun r => (ρ r.name, r.precedence, r.pattern))).Perm (rules'.map (fun r => (r.name, r.precedence, r.pattern)))
  productions : (prods.map (fun p => (ρ p.name, p.pattern.rename ρ))).Perm (prods'.map (fun p => (p.name, p.pattern)))
  entryName : entry' = ρ entry
  inj : ∀ m n, Appears (ruleSet entry rules prods) m → Appears (ruleSet entry rules prods) n → ρ m = ρ n → m = n

/-- the tokens with these names are left out -/
def skipNames (names : String → Bool) (rules : List TokenRule) (j : Nat) : Bool := (rules[j]?.map (fun r => names r.name)).getD false

end Verif
