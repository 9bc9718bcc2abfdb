import Verif.Model.Automaton

/-! # Specification: runs of automata -/

namespace Verif

/-- `a.Path q w q'`: the NFA can go from node `q` to node `q'` reading `w` (epsilon edges read nothing) -/
inductive Nfa.Path {σ τ : Type} (a : Nfa σ τ) : Nat → List τ → Nat → Prop
  | refl (q : Nat) : Path a q [] q
  | eps {q q' q'' : Nat} {w : List τ} :
      (⟨q, q', .epsilon⟩ : Edge (NfaEdge τ)) ∈ a.graph.edges → Path a q' w q'' → Path a q w q''
  | step {q q' q'' : Nat} {t : τ} {w : List τ} :
      (⟨q, q', .transition t⟩ : Edge (NfaEdge τ)) ∈ a.graph.edges → Path a q' w q'' → Path a q (t :: w) q''

/-- all edges connect existing nodes (petgraph enforces this) -/
def Nfa.WF {σ τ : Type} (a : Nfa σ τ) : Prop :=
  ∀ e ∈ a.graph.edges, e.src < a.graph.nodes.length ∧ e.dst < a.graph.nodes.length

/-- `d.Path q w q'`: the DFA can go from `q` to `q'` reading `w` -/
inductive Dfa.Path {σ τ : Type} (d : Dfa σ τ) : Nat → List τ → Nat → Prop
  | refl (q : Nat) : Path d q [] q
  | step {q q' q'' : Nat} {t : τ} {w : List τ} :
      (⟨q, q', t⟩ : Edge τ) ∈ d.graph.edges → Path d q' w q'' → Path d q (t :: w) q''

end Verif
