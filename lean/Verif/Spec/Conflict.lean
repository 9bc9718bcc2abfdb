import Verif.Spec.LR

/-!
# Conflicts

`Clash` says when the items of the states leave more than one thing to do. `ReduceFits` and `ShiftFits` say when reducing a rule, or shifting a symbol, is right in a
situation where the symbols `α` have been read: in terms of derivations from the entry symbol only. `IsLR` is Knuth's definition of LR(k) grammars: it speaks about
rightmost derivations only. `ItemAfter` says which items belong to a string of symbols.
-/

set_option autoImplicit false

namespace Verif

/-- the whole right side has been read -/
def Completed (g : Grammar) (it : Item) : Prop := it.after g = none

/-- some item of the state lets the symbol `X` be shifted -/
def LetsShift (g : Grammar) (s : List Item) (X : Sym) : Prop := ∃ k ∈ s, k.rule ≠ none ∧ k.after g = some X

/-- the completed items of the state for a lookahead -/
def completedFor (g : Grammar) (s : List Item) (la : Option Sym) : List Item := s.filter (fun it => it.after g = none ∧ it.la = la)

/-- the clashes in the states `sets`. Two or more completed items for one lookahead clash. Otherwise a completed item clashes with every symbol that could be shifted and
that its lookahead does not tell apart. Lookaheads are left out when a clash is reported. -/
inductive Clash (g : Grammar) (sets : List (List Item)) : Conflict → Prop
  | shiftReduce {q : Nat} {s : List Item} {it : Item} {X : Sym} : sets[q]? = some s → completedFor g s it.la = [it] → LetsShift g s X → (it.la = none ∨ it.la = some X) →
      Clash g sets (.shiftReduce q it.toLr0 X)
  | reduceReduce {q : Nat} {s : List Item} {la : Option Sym} : sets[q]? = some s → 2 ≤ (completedFor g s la).length →
      Clash g sets (.reduceReduce q ((completedFor g s la).map Item.toLr0))

/-- After `α` has been read, a part at its end may be taken for the right side of `r`, if the symbols `next` follow: what is then before the part and `next` around the left
side of `r` begins a sentential form of the grammar (with the end marker). -/
def ReduceFits (g : Grammar) (α : List Sym) (r : Rule) (next : List Sym) : Prop :=
  ∃ α' δ, α = α' ++ strip r.rhs ∧ Rewrites g.rules [g.entry, .eof] (α' ++ .nt r.lhs :: (next ++ δ))

/-- After `α` has been read, the symbol `X` may follow inside a right side part of which is at the end of `α`. -/
def ShiftFits (g : Grammar) (α : List Sym) (X : Sym) : Prop :=
  ∃ r ∈ g.rules, ∃ β γ α' δ, r.rhs = β ++ X :: γ ∧ α = α' ++ strip β ∧ Rewrites g.rules [g.entry, .eof] (α' ++ .nt r.lhs :: δ)

/-- the forms obtained from the entry symbol by always replacing the last non-terminal: after it there are tokens only -/
inductive RightForm (g : Grammar) : List Sym → Prop
  | start : RightForm g [g.entry]
  | step {α : List Sym} {r : Rule} {w : List Nat} : RightForm g (α ++ .nt r.lhs :: w.map Sym.t) → r ∈ g.rules → RightForm g (α ++ strip r.rhs ++ w.map Sym.t)

/-- LR(k), Knuth's definition: reading a form from the left up to the end of what was replaced last, `k` tokens further on tell which rule was used and where it began.
Rules are told apart by their numbers. -/
def IsLR (g : Grammar) (k : Nat) : Prop :=
  ∀ (α γ : List Sym) (i j : Nat) (r r' : Rule) (w x y : List Nat), g.rules[i]? = some r → g.rules[j]? = some r' →
    RightForm g (α ++ .nt r.lhs :: w.map Sym.t) → RightForm g (γ ++ .nt r'.lhs :: x.map Sym.t) →
    γ ++ strip r'.rhs ++ x.map Sym.t = α ++ strip r.rhs ++ y.map Sym.t → w.take k = y.take k → γ = α ∧ j = i

/-- the items for a string of symbols: the entry item at first; with an item, what a closure step leads to; after one more symbol, the items advanced over it -/
inductive ItemAfter (g : Grammar) (kind : LRKind) : List Sym → Item → Prop
  | start : ItemAfter g kind [] ⟨none, 0, kind.endLa⟩
  | closure {α : List Sym} {it it' : Item} : ItemAfter g kind α it → ClosureStep g it it' → ItemAfter g kind α it'
  | goto {α : List Sym} {it : Item} {X : Sym} : ItemAfter g kind α it → it.after g = some X → it.rule ≠ none → ItemAfter g kind (α ++ [X]) { it with dot := it.dot + 1 }

/-- edges lead from the first state to `q` along the symbols `α` -/
inductive Leads (edges : List (Nat × Sym × Nat)) : List Sym → Nat → Prop
  | nil : Leads edges [] 0
  | snoc {α : List Sym} {X : Sym} {q q' : Nat} : Leads edges α q → (q, X, q') ∈ edges → Leads edges (α ++ [X]) q'

end Verif
