import Verif.Spec.ParseTree
import Verif.Model.LRDriver
import Verif.Spec.LR

/-! # The callbacks an LR parser should make -/

set_option autoImplicit false

namespace Verif

/-- a callback, by its meaning: a token handed over, or a rule reduced -/
inductive PEvent (T : Type) where
  | shift (a : Nat) (data : T)
  | reduce (r : Rule)

variable {T : Type}

mutual
/-- the nodes of a tree in post-order: children before their parent, leaves are shifts, inner nodes reductions -/
def PTree.postorder : PTree T → List (PEvent T)
  | .leaf a d => [.shift a d]
  | .node r cs => PTree.postorderList cs ++ [.reduce r]
/-- the nodes of a list of trees -/
def PTree.postorderList : List (PTree T) → List (PEvent T)
  | [] => []
  | t :: ts => t.postorder ++ PTree.postorderList ts
end

/-- what a callback of the generated parser means: reduce callbacks carry rule numbers -/
def LREvent.meaning (g : Grammar) : LREvent T → Option (PEvent T)
  | .shift (.tok a) d => some (.shift a d)
  | .shift _ _ => none
  | .reduce i => (g.rules[i]?).map .reduce

/-- the callbacks made are the given ones, in this order -/
def TraceIs (g : Grammar) (events : List (LREvent T)) (es : List (PEvent T)) : Prop := events.map (·.meaning g) = es.map some

/-- the first `n` tokens of the stream are the given ones -/
def Consumes (input : Nat → Tok × T) (n : Nat) (w : List (Nat × T)) : Prop :=
  w.length = n ∧ ∀ i p, w[i]? = some p → input i = (.tok p.1, p.2)

/-- the tokens handed over by the shift callbacks -/
def shiftsOf (events : List (LREvent T)) : List (Tok × T) :=
  events.filterMap fun | .shift t d => some (t, d) | .reduce _ => none

/-- `A` has a rule whose right side starts with the non-terminal `B` (explicit epsilons skipped) -/
def StartsRule (g : Grammar) (A B : Nat) : Prop := ∃ r ∈ g.rules, r.lhs = A ∧ r.rhs[leadingEps r.rhs]? = some (.nt B)

/-- one or more such steps -/
inductive LeftCorner (g : Grammar) : Nat → Nat → Prop
  | one {A B : Nat} : StartsRule g A B → LeftCorner g A B
  | more {A B C : Nat} : LeftCorner g A B → StartsRule g B C → LeftCorner g A C

/-- the entry symbol does not lead back to itself at the left edge of right sides -/
def EntryNotLeftRecursive (g : Grammar) : Prop := ∀ A, g.entry = .nt A → ¬ LeftCorner g A A

/-- every non-terminal derives some token string -/
def Productive (g : Grammar) : Prop := ∀ A, Sym.nt A ∈ g.nonTerminals → ∃ w, Derives g.rules [.nt A] w

/-- `p` is a parser lapex generates for `g` with the given algorithm: its table was built, with or without conflicts being allowed, and
the code generator accepted the table -/
def LRParserFor (g : Grammar) (kind : LRKind) (p : LRProg) : Prop :=
  ∃ (allow : Bool) (fuel : Nat) (tb : LRTable), (generateTable g allow kind fuel = .ok (.noConflicts tb) ∨
    ∃ cs, generateTable g allow kind fuel = .ok (.allowedConflicts tb cs)) ∧ genRust g tb = .ok p

/-- configurations (stack, number of consumed tokens, callbacks made) the parser goes through -/
inductive LRReaches (m : LRMachine) (input : Nat → Tok × T) : List StackSym → Nat → List (LREvent T) → Prop
  | start : LRReaches m input [.state m.entry] 0 []
  | step {stack stack' : List StackSym} {pos pos' : Nat} {events : List (LREvent T)} {ev : LREvent T} :
      LRReaches m input stack pos events → lrStep m input stack pos = .next stack' pos' ev → LRReaches m input stack' pos' (events ++ [ev])

/-- every token string has at most one parse tree -/
def Unambiguous (g : Grammar) : Prop :=
  ∀ (T : Type) (t t' : PTree T), IsParseTree g.rules g.entry t → IsParseTree g.rules g.entry t' → t.tokens = t'.tokens → t = t'

end Verif
