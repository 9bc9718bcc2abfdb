import Verif.Spec.Grammar

/-! # Parse trees -/

set_option autoImplicit false

namespace Verif

/-- A parse tree: leaves carry a token number and the token's data, inner nodes the rule applied and the subtrees. -/
inductive PTree (T : Type) where
  | leaf (a : Nat) (data : T)
  | node (r : Rule) (children : List (PTree T))

/-- `Forest rules ss ts`: the trees `ts` are parse trees, in order, of the symbols of `ss` (an explicit epsilon has no tree). -/
inductive Forest {T : Type} (rules : List Rule) : List Sym → List (PTree T) → Prop
  | nil : Forest rules [] []
  | eps {ss : List Sym} {ts : List (PTree T)} : Forest rules ss ts → Forest rules (.eps :: ss) ts
  | term {a : Nat} {d : T} {ss : List Sym} {ts : List (PTree T)} : Forest rules ss ts → Forest rules (.t a :: ss) (.leaf a d :: ts)
  | nonterm {r : Rule} {cs : List (PTree T)} {ss : List Sym} {ts : List (PTree T)} :
      r ∈ rules → Forest rules r.rhs cs → Forest rules ss ts → Forest rules (.nt r.lhs :: ss) (.node r cs :: ts)

/-- `t` is a parse tree of the symbol `s` -/
def IsParseTree {T : Type} (rules : List Rule) (s : Sym) (t : PTree T) : Prop := Forest rules [s] [t]

variable {T : Type}

mutual
/-- the tokens of a tree from left to right -/
def PTree.tokens : PTree T → List (Nat × T)
  | .leaf a d => [(a, d)]
  | .node _ cs => PTree.tokensList cs
/-- the tokens of a list of trees -/
def PTree.tokensList : List (PTree T) → List (Nat × T)
  | [] => []
  | t :: ts => t.tokens ++ PTree.tokensList ts
end

end Verif
