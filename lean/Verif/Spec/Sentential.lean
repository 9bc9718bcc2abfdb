import Verif.Spec.Grammar

/-!
# Sentential forms, FIRST and FOLLOW

Textbook definitions by rewriting, independent of any set computation.
-/

set_option autoImplicit false

namespace Verif

/-- explicit epsilons stand for nothing -/
def strip (ss : List Sym) : List Sym := ss.filter (fun s => s ≠ .eps)

/-- `Rewrites rules x y`: the sentential form `y` is obtained from `x` by replacing non-terminals by right sides any number of times -/
inductive Rewrites (rules : List Rule) (x : List Sym) : List Sym → Prop
  | refl : Rewrites rules x x
  | step {α β : List Sym} {r : Rule} : Rewrites rules x (α ++ .nt r.lhs :: β) → r ∈ rules → Rewrites rules x (α ++ strip r.rhs ++ β)

/-- some sentential form derived from `A` starts with the symbol `x` -/
def StartsWith (g : Grammar) (A : Nat) (x : Sym) : Prop := ∃ β, Rewrites g.rules [.nt A] (x :: β)

/-- `A` derives the empty string -/
def DerivesEmpty (g : Grammar) (A : Nat) : Prop := Rewrites g.rules [.nt A] []

/-- the symbol `x` can directly follow `A` in some sentential form derived from the entry symbol followed by the end marker -/
def CanFollow (g : Grammar) (A : Nat) (x : Sym) : Prop := ∃ α β, Rewrites g.rules [g.entry, .eof] (α ++ .nt A :: x :: β)

/-- the symbol `x` can directly follow `A` in some sentential form derived from some non-terminal -/
def CanFollowInside (g : Grammar) (A : Nat) (x : Sym) : Prop := ∃ B α β, Rewrites g.rules [.nt B] (α ++ .nt A :: x :: β)

/-- `A` occurs in some sentential form derived from the entry symbol -/
def Reachable (g : Grammar) (A : Nat) : Prop := ∃ α β, Rewrites g.rules [g.entry] (α ++ .nt A :: β)

/-- terminals and the end marker -/
def Sym.isTerm : Sym → Prop
  | .eof => True
  | .t _ => True
  | _ => False

/-- right sides are never empty lists: "nothing" is written as an explicit epsilon -/
def NoEmptyRhs (g : Grammar) : Prop := ∀ r ∈ g.rules, r.rhs ≠ []

end Verif
