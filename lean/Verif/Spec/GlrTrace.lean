import Mathlib.Logic.Relation
import Verif.Spec.LRTrace
import Verif.Model.Glr

/-! # Generated GLR parsers -/

set_option autoImplicit false

namespace Verif

/-- `p` is a GLR parser lapex generates for `g` with a table of the given kind (the command line tool uses LALR tables with conflicts allowed) -/
def GlrParserFor (g : Grammar) (kind : LRKind) (p : GlrProg) : Prop :=
  ∃ (allow : Bool) (fuel : Nat) (tb : LRTable), (generateTable g allow kind fuel = .ok (.noConflicts tb) ∨
    ∃ cs, generateTable g allow kind fuel = .ok (.allowedConflicts tb cs)) ∧ genGlr g tb = .ok p

/-- the entry symbol occurs in no right side -/
def EntryFresh (g : Grammar) : Prop := ∀ r ∈ g.rules, g.entry ∉ r.rhs

/-- no two rules are the same -/
def DistinctRules (g : Grammar) : Prop := g.rules.Nodup

/-- `A` has a rule whose right side is just the non-terminal `B` (explicit epsilons apart) -/
def UnitRule (g : Grammar) (A B : Nat) : Prop := ∃ r ∈ g.rules, r.lhs = A ∧ strip r.rhs = [.nt B]

/-- one or more such steps -/
inductive UnitChain (g : Grammar) : Nat → Nat → Prop
  | one {A B : Nat} : UnitRule g A B → UnitChain g A B
  | more {A B C : Nat} : UnitRule g A B → UnitChain g B C → UnitChain g A C

/-- no non-terminal leads back to itself by rules with a single non-terminal on the right -/
def NoUnitCycle (g : Grammar) : Prop := ∀ A, ¬ UnitChain g A A

/-- no rule derives the empty string at once -/
def EpsFree (g : Grammar) : Prop := ∀ r ∈ g.rules, strip r.rhs ≠ []

/-- `A` has a rule with `B` on the right side where all other symbols can become empty, so that `A` derives `B` -/
def SelfStep (g : Grammar) (A B : Nat) : Prop :=
  ∃ r ∈ g.rules, ∃ α β, r.lhs = A ∧ r.rhs = α ++ .nt B :: β ∧ Derives g.rules α [] ∧ Derives g.rules β []

/-- no non-terminal derives itself in one or more steps -/
def NoCycle (g : Grammar) : Prop := ∀ A, ¬ Relation.TransGen (SelfStep g) A A

/-- `A` has a rule where only symbols that can become empty come before `B` -/
def LeftStep (g : Grammar) (A B : Nat) : Prop := ∃ r ∈ g.rules, ∃ α β, r.lhs = A ∧ r.rhs = α ++ .nt B :: β ∧ Derives g.rules α []

/-- the same, and there are such symbols (other than explicit epsilons) -/
def HiddenStep (g : Grammar) (A B : Nat) : Prop :=
  ∃ r ∈ g.rules, ∃ α β, r.lhs = A ∧ r.rhs = α ++ .nt B :: β ∧ Derives g.rules α [] ∧ strip α ≠ []

/-- left recursion is nowhere hidden behind symbols that can become empty: no `A` leads back to itself at the left end by steps of which one is hidden -/
def NoHiddenLeftRecursion (g : Grammar) : Prop :=
  ∀ A B, HiddenStep g A B → ¬ Relation.ReflTransGen (LeftStep g) B A

/-- the trees of a token string -/
def IsParseOf {T : Type} (g : Grammar) (w : List (Nat × T)) (t : PTree T) : Prop := IsParseTree g.rules g.entry t ∧ t.tokens = w

/-- an LR parser and a GLR parser that lapex generates from the same table -/
def SameTable (g : Grammar) (kind : LRKind) (p : LRProg) (p' : GlrProg) : Prop :=
  ∃ (allow : Bool) (fuel : Nat) (tb : LRTable), (generateTable g allow kind fuel = .ok (.noConflicts tb) ∨
    ∃ cs, generateTable g allow kind fuel = .ok (.allowedConflicts tb cs)) ∧ genRust g tb = .ok p ∧ genGlr g tb = .ok p'

/-- a list of expected tokens of an LR parser and one of a GLR parser, which writes `none` for the end of input, have the same elements -/
def SameExpected (e : List Sym) (e' : List (Option Nat)) : Prop := ∀ x, x ∈ e' ↔ (∃ a, x = some a ∧ Sym.t a ∈ e) ∨ (x = none ∧ Sym.eof ∈ e)

/-- the first `n` tokens of the stream start some sentence -/
def PrefixViable {T : Type} (g : Grammar) (input : Nat → Tok × T) (n : Nat) : Prop :=
  ∃ w v, Consumes input n w ∧ Derives g.rules [g.entry] (w.map (·.1) ++ v)

/-- some sentence starts with the first `n` tokens and the token after them, or ends after them if the end of input comes next -/
def NextViable {T : Type} (g : Grammar) (input : Nat → Tok × T) (n : Nat) : Prop :=
  ∃ w, Consumes input n w ∧ ((∃ a v, (input n).1 = .tok a ∧ Derives g.rules [g.entry] (w.map (·.1) ++ a :: v)) ∨
    ((input n).1 = .eof ∧ Derives g.rules [g.entry] (w.map (·.1))))

/-- the terminal `x` can come after the tokens `w` in a sentence; the end marker: `w` is a sentence -/
def CanContinue (g : Grammar) (w : List Nat) : Sym → Prop
  | .t a => ∃ v, Derives g.rules [g.entry] (w ++ a :: v)
  | .eof => Derives g.rules [g.entry] w
  | _ => False

end Verif
