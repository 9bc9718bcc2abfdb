import Verif.Model.Collections

/-!
# Automata: `lapex-automaton/src/lib.rs`

A petgraph `Graph` is a list of node weights (index = position) and a list of edges in insertion order;
`edges_directed(n, Outgoing)` walks petgraph's per-node linked list, i.e. yields the newest edge first.
-/

namespace Verif

/-- `enum AutomatonState` — lapex-automaton/src/lib.rs:17-21. -/
inductive AutomatonState (σ : Type) where
  | accepting (s : σ)
  | intermediate (n : Nat)
deriving DecidableEq, Repr

/-- `enum NfaEdge` — lapex-automaton/src/lib.rs:23-26. -/
inductive NfaEdge (τ : Type) where
  | epsilon
  | transition (t : τ)
deriving DecidableEq, Repr

/-- a directed edge of a petgraph graph -/
structure Edge (ω : Type) where
  src : Nat
  dst : Nat
  weight : ω
deriving DecidableEq, Repr

/-- petgraph `Graph<N, E>` restricted to adding nodes and edges. -/
structure Graph (ν ω : Type) where
  nodes : List ν := []
  edges : List (Edge ω) := []
deriving DecidableEq, Repr

namespace Graph
variable {ν ω : Type}

/-- `Graph::add_node`: the new index is the old node count. -/
def addNode (g : Graph ν ω) (w : ν) : Graph ν ω := { g with nodes := g.nodes ++ [w] }

/-- `Graph::add_edge` (petgraph panics if an endpoint does not exist; lapex only passes indices it got from
`add_node`, see the well-formedness lemmas). -/
def addEdge (g : Graph ν ω) (s d : Nat) (w : ω) : Graph ν ω := { g with edges := g.edges ++ [⟨s, d, w⟩] }

/-- `Graph::edges_directed(n, Outgoing)`. -/
def edgesFrom (g : Graph ν ω) (n : Nat) : List (Edge ω) := (g.edges.filter (fun e => e.src = n)).reverse

end Graph

/-- `struct Nfa` — lapex-automaton/src/lib.rs:46-50. -/
structure Nfa (σ τ : Type) where
  graph : Graph (AutomatonState σ) (NfaEdge τ) := {}
  intermediateCounter : Nat := 0
deriving DecidableEq, Repr

/-- `struct Dfa` — lapex-automaton/src/lib.rs:92-95. -/
structure Dfa (σ τ : Type) where
  graph : Graph (AutomatonState σ) τ := {}
  intermediateCounter : Nat := 0
deriving DecidableEq, Repr

namespace Nfa
variable {σ τ : Type}

/-- `Nfa::add_intermediate_state` — lapex-automaton/src/lib.rs:64-71; returns the graph and the new state. -/
def addIntermediateState (a : Nfa σ τ) : Nfa σ τ × Nat :=
  ({ graph := a.graph.addNode (.intermediate a.intermediateCounter),
     intermediateCounter := a.intermediateCounter + 1 }, a.graph.nodes.length)

/-- `Nfa::add_accepting_state` — lapex-automaton/src/lib.rs:73-75. -/
def addAcceptingState (a : Nfa σ τ) (s : σ) : Nfa σ τ × Nat :=
  ({ a with graph := a.graph.addNode (.accepting s) }, a.graph.nodes.length)

/-- `Nfa::add_epsilon_transition` — lapex-automaton/src/lib.rs:77-79. -/
def addEpsilonTransition (a : Nfa σ τ) (s d : Nat) : Nfa σ τ :=
  { a with graph := a.graph.addEdge s d .epsilon }

/-- `Nfa::add_transition` — lapex-automaton/src/lib.rs:81-89. -/
def addTransition (a : Nfa σ τ) (s d : Nat) (t : τ) : Nfa σ τ :=
  { a with graph := a.graph.addEdge s d (.transition t) }

end Nfa

namespace Dfa
variable {σ τ : Type}

/-- `Dfa::add_intermediate_state` — lapex-automaton/src/lib.rs:105-112. -/
def addIntermediateState (a : Dfa σ τ) : Dfa σ τ × Nat :=
  ({ graph := a.graph.addNode (.intermediate a.intermediateCounter),
     intermediateCounter := a.intermediateCounter + 1 }, a.graph.nodes.length)

/-- `Dfa::add_accepting_state` — lapex-automaton/src/lib.rs:114-116. -/
def addAcceptingState (a : Dfa σ τ) (s : σ) : Dfa σ τ × Nat :=
  ({ a with graph := a.graph.addNode (.accepting s) }, a.graph.nodes.length)

/-- `Dfa::add_transition` — lapex-automaton/src/lib.rs:118-125. -/
def addTransition (a : Dfa σ τ) (s d : Nat) (t : τ) : Dfa σ τ :=
  { a with graph := a.graph.addEdge s d t }

/-- `Dfa::transitions_from` — lapex-automaton/src/lib.rs:131-138. -/
def transitionsFrom (a : Dfa σ τ) (n : Nat) : List (τ × Nat) :=
  (a.graph.edgesFrom n).map (fun e => (e.weight, e.dst))

end Dfa

namespace Nfa
variable {σ τ : Type} [Key τ]

/-- `Nfa::epsilon_closure` — lapex-automaton/src/lib.rs:144-159. Recursion on fuel; `closure` is the accumulating
`BTreeSet`. -/
def epsilonClosure (a : Nfa σ τ) : Nat → List Nat → List Nat → Res (List Nat)
  | 0, _, _ => .error .fuel
  | fuel + 1, startNodes, closure =>
    startNodes.foldlM (fun closure startNode =>
      (a.graph.edgesFrom startNode).foldlM (fun closure edge =>
        match edge.weight with
        | .epsilon =>
          if edge.dst ∈ closure then .ok closure else epsilonClosure a fuel [edge.dst] closure
        | .transition _ => .ok closure)
        (sinsert startNode closure))
      closure

/-- the multimap of targets per transition — lapex-automaton/src/lib.rs:181-195. -/
def targetMultiMap (a : Nfa σ τ) (closure : List Nat) : List (τ × List Nat) :=
  closure.foldl (fun m node =>
    (a.graph.edgesFrom node).foldl (fun m edge =>
      match edge.weight with
      | .epsilon => m
      | .transition t => mpush t edge.dst m) m) []

/-- `Nfa::add_powerset_to_dfa` — lapex-automaton/src/lib.rs:161-202. Recursion on fuel; the closure is given fuel
`number of nodes + 1`, which always suffices (`epsilonClosure_total`). Returns the graph and the node. -/
def addPowersetToDfa (a : Nfa σ τ) :
    Nat → Graph (List Nat) τ → List Nat → Res (Graph (List Nat) τ × Nat)
  | 0, _, _ => .error .fuel
  | fuel + 1, dfa, nodes => do
    let closure ← a.epsilonClosure (a.graph.nodes.length + 1) nodes []
    match dfa.nodes.findIdx? (fun w => w = closure) with
    | some nodeDfa => .ok (dfa, nodeDfa)
    | none =>
      let nodeDfa := dfa.nodes.length
      let dfa ← (a.targetMultiMap closure).foldlM (fun dfa tt => do
        let (dfa, targetDfa) ← addPowersetToDfa a fuel dfa tt.2
        .ok (dfa.addEdge nodeDfa targetDfa tt.1)) (dfa.addNode closure)
      .ok (dfa, nodeDfa)

/-- the accepted rules of a set of NFA nodes — lapex-automaton/src/lib.rs:212-219. -/
def acceptsOf (a : Nfa σ τ) (powerset : List Nat) : List σ :=
  powerset.filterMap (fun (n : Nat) =>
    match a.graph.nodes[n]? with
    | some (AutomatonState.accepting s) => some s
    | _ => none)

/-- State threaded through `convert_powerset_to_dfa`: the DFA built so far and the `visited` map. -/
structure ConvState (σ τ : Type) where
  dfa : Dfa (List σ) τ := {}
  visited : List (Nat × Nat) := []

/-- `Nfa::convert_powerset_to_dfa` — lapex-automaton/src/lib.rs:204-236. Recursion on fuel. The unused `tmp_id`
is left out. -/
def convertPowersetToDfa (a : Nfa σ τ) (pdfa : Graph (List Nat) τ) :
    Nat → ConvState σ τ → Nat → Res (ConvState σ τ × Nat)
  | 0, _, _ => .error .fuel
  | fuel + 1, st, node =>
    match pdfa.nodes[node]? with
    | none => .error .panic
    | some powerset => do
      let accepts := a.acceptsOf powerset
      let (dfa, start) :=
        if !accepts.isEmpty then st.dfa.addAcceptingState accepts else st.dfa.addIntermediateState
      let st : ConvState σ τ := { dfa := dfa, visited := minsert node start st.visited }
      let st ← (pdfa.edgesFrom node).foldlM (fun (st : ConvState σ τ) edge => do
        let (st, end_) ← (match mget? edge.dst st.visited with
          | some e => .ok (st, e)
          | none => convertPowersetToDfa a pdfa fuel st edge.dst : Res (ConvState σ τ × Nat))
        .ok { st with dfa := st.dfa.addTransition start end_ edge.weight }) st
      .ok (st, start)

/-- `Nfa::powerset_construction` — lapex-automaton/src/lib.rs:238-259. The two recursive phases get the same
fuel. -/
def powersetConstruction (a : Nfa σ τ) (fuel : Nat) (entrypoint : Nat) : Res (Dfa (List σ) τ) := do
  let (pdfa, startDfa) ← a.addPowersetToDfa fuel {} [entrypoint]
  let (st, _) ← a.convertPowersetToDfa pdfa fuel {} startDfa
  .ok st.dfa

end Nfa
end Verif
