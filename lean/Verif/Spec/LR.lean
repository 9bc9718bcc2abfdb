import Verif.Spec.Sentential
import Verif.Model.LR

/-!
# LR(0)/LR(1) items, closures and automata, textbook style

Sets of items are predicates. Nothing here computes anything.
-/

set_option autoImplicit false

namespace Verif

/-- some sentential form derived from the symbol string `ss` starts with `x` -/
def FirstOf (g : Grammar) (ss : List Sym) (x : Sym) : Prop := ∃ β, Rewrites g.rules (strip ss) (x :: β)

/-- number of explicit epsilons a right side starts with -/
def leadingEps (rhs : List Sym) : Nat := (rhs.takeWhile (fun s => s = .eps)).length

/-- the lookaheads given to the rules of the non-terminal after the dot: without lookaheads none; otherwise every terminal (or the end
marker) that can start what follows the non-terminal, followed by the item's own lookahead -/
def ExpandsWith (g : Grammar) (it : Item) (x : Option Sym) : Prop :=
  match it.la with
  | none => x = none
  | some a => ∃ b : Sym, x = some b ∧ b.isTerm ∧ FirstOf g ((ruleRhs g it.rule).drop (it.dot + 1) ++ [a]) b

/-- one closure step: for an item with a non-terminal after the dot, that non-terminal's rules with the dot in front (explicit epsilons
in front are skipped) -/
def ClosureStep (g : Grammar) (it it' : Item) : Prop :=
  ∃ (A i : Nat) (r : Rule) (x : Option Sym), it.after g = some (.nt A) ∧ g.rules[i]? = some r ∧ r.lhs = A ∧ ExpandsWith g it x ∧
    it' = ⟨some i, leadingEps r.rhs, x⟩

/-- the closure of an item: reachable by closure steps -/
inductive Closure (g : Grammar) (it : Item) : Item → Prop
  | self : Closure g it it
  | step {a b : Item} : Closure g it a → ClosureStep g a b → Closure g it b

/-- epsilon occurs only at the front of right sides -/
def EpsLeading (g : Grammar) : Prop := ∀ r ∈ g.rules, Sym.eps ∉ r.rhs.drop (leadingEps r.rhs)

/-- right sides have at most 255 symbols -/
def ShortRhs (g : Grammar) : Prop := ∀ r ∈ g.rules, r.rhs.length ≤ 255

/-- the closure of the items of a set advanced over `X`; the entry item is never advanced -/
def GotoSet (g : Grammar) (S : List Item) (X : Sym) (it : Item) : Prop :=
  ∃ k ∈ S, k.after g = some X ∧ k.rule ≠ none ∧ Closure g { k with dot := k.dot + 1 } it

/-- lookaheads of items: none for LR(0), otherwise the end marker or a declared terminal -/
def LaOk (g : Grammar) (kind : LRKind) (la : Option Sym) : Prop :=
  if kind.hasLa then ∃ a : Sym, la = some a ∧ (a = .eof ∨ a ∈ g.terminals) else la = none

/-- items that can occur -/
structure ItemOk (g : Grammar) (kind : LRKind) (it : Item) : Prop where
  rule : ∀ i, it.rule = some i → i < g.rules.length
  dot : it.dot ≤ (ruleRhs g it.rule).length
  small : it.dot < u8Size
  la : LaOk g kind it.la

end Verif
