import Verif.Proofs.PowersetMain

/-! # Properties C05, C06: the subset construction -/

set_option autoImplicit false

namespace Verif

variable {σ τ : Type} [Key τ]

/-- **C05**, termination: with enough fuel the construction always returns a DFA (never a panic). -/
theorem C05_powerset_terminates (a : Nfa σ τ) (hw : a.WF) {entry : Nat} (he : entry < a.graph.nodes.length) :
    ∃ fuel0, ∀ fuel, fuel0 ≤ fuel → ∃ d, a.powersetConstruction fuel entry = .ok d :=
  powersetConstruction_total a hw he

/-- **C05**, language: for every word, the DFA has a run from state 0 iff the NFA has one, and the state reached lists exactly
the rules whose accepting NFA nodes are reachable by the word. -/
theorem C05_powerset_language (a : Nfa σ τ) (hw : a.WF) {fuel entry : Nat} {d : Dfa (List σ) τ}
    (h : a.powersetConstruction fuel entry = .ok d) (w : List τ) :
    ((∃ q, d.Path 0 w q) ↔ ∃ x, a.Path entry w x) ∧
    ∀ q, d.Path 0 w q →
      (∃ rs, d.graph.nodes[q]? = some (.accepting rs) ∧ rs ≠ [] ∧
        ∀ s, s ∈ rs ↔ ∃ x, a.graph.nodes[x]? = some (.accepting s) ∧ a.Path entry w x) ∨
      (∃ k, d.graph.nodes[q]? = some (.intermediate k) ∧
        ∀ s x, a.graph.nodes[x]? = some (.accepting s) → ¬ a.Path entry w x) := by
  obtain ⟨S, hS⟩ := powersetConstruction_ok a hw h
  have hrun : ∀ q, d.Path 0 w q → q < d.graph.nodes.length ∧ ∀ x, x ∈ S q ↔ a.Path entry w x := by
    intro q hq
    obtain ⟨h1, h2⟩ := hS.run hw hq hS.pos
    exact ⟨h1, fun x => by rw [h2, hS.start_mem hw]⟩
  constructor
  · constructor
    · rintro ⟨q, hq⟩
      obtain ⟨h1, h2⟩ := hrun q hq
      obtain ⟨x, hx⟩ : ∃ x, x ∈ S q := by
        have gen : ∀ m w q, d.Path m w q → m < d.graph.nodes.length → (∃ x, x ∈ S m) → ∃ x, x ∈ S q := by
          clear hq hrun h1 h2
          intro m w q hp
          induction hp with
          | refl q => exact fun _ h => h
          | @step q q' q'' t w he _ ih =>
            intro hm _
            refine ih (hS.wf _ he).2 ?_
            obtain ⟨p, hp, r1, r2, r3⟩ := forall2_mem_left (hS.edges q hm) (x := ⟨q, q', t⟩) (by simp [outs, he])
            obtain ⟨t1, t2, _⟩ := targetMultiMap_spec a (S q)
            have hne := t2 p (List.mem_reverse.mp hp)
            obtain ⟨y, ys, hy⟩ := List.exists_cons_of_ne_nil hne
            refine ⟨y, ?_⟩
            simp only at r3
            rw [r3, mem_clo a hw]
            exact ⟨y, by simp [hy], .refl y⟩
        refine gen 0 w q hq hS.pos ⟨entry, ?_⟩
        rw [hS.start, mem_clo a hw]
        exact ⟨entry, by simp, .refl _⟩
      exact ⟨x, (h2 x).mp hx⟩
    · rintro ⟨x, hx⟩
      obtain ⟨y, hy, hp⟩ := (hS.start_mem hw w x).mpr hx
      exact hS.run_exists hw hS.pos hy hp
  · intro q hq
    obtain ⟨h1, h2⟩ := hrun q hq
    obtain ⟨wt, hwt, hl⟩ := hS.label q h1
    rcases hl with ⟨hne, rfl⟩ | ⟨he, k, rfl⟩
    · left
      refine ⟨_, hwt, hne, ?_⟩
      intro s
      rw [mem_acceptsOf]
      constructor
      · rintro ⟨x, hx, hx'⟩; exact ⟨x, hx', (h2 x).mp hx⟩
      · rintro ⟨x, hx', hx⟩; exact ⟨x, (h2 x).mpr hx, hx'⟩
    · right
      refine ⟨k, hwt, ?_⟩
      intro s x hx hp
      have : s ∈ a.acceptsOf (S q) := mem_acceptsOf.mpr ⟨x, (h2 x).mpr hp, hx⟩
      rw [he] at this
      cases this

/-- **C06**: at most one transition per state and symbol; edges join existing states; state 0 exists; every state is
reached by some word; and words that lead to different states reach different sets of NFA nodes. -/
theorem C06_dfa_shape (a : Nfa σ τ) (hw : a.WF) {fuel entry : Nat} {d : Dfa (List σ) τ}
    (h : a.powersetConstruction fuel entry = .ok d) :
    0 < d.graph.nodes.length ∧
    (∀ e ∈ d.graph.edges, e.src < d.graph.nodes.length ∧ e.dst < d.graph.nodes.length) ∧
    (∀ q, ((d.transitionsFrom q).map (·.1)).Nodup) ∧
    (∀ q < d.graph.nodes.length, ∃ w, d.Path 0 w q) ∧
    (∀ q q' w w', d.Path 0 w q → d.Path 0 w' q' → (∀ x, a.Path entry w x ↔ a.Path entry w' x) → q = q') := by
  obtain ⟨S, hS⟩ := powersetConstruction_ok a hw h
  refine ⟨hS.pos, hS.wf, hS.weights_nodup, fun q hq => greach_path (hS.reach q hq), ?_⟩
  intro q q' w w' hp hp' heq
  obtain ⟨h1, h2⟩ := hS.run hw hp hS.pos
  obtain ⟨h1', h2'⟩ := hS.run hw hp' hS.pos
  apply hS.inj q h1 q' h1'
  obtain ⟨l, hl⟩ := hS.clos q h1
  obtain ⟨l', hl'⟩ := hS.clos q' h1'
  rw [hl, hl']
  apply SSorted.ext (clo_sorted a hw l) (clo_sorted a hw l')
  intro x
  rw [← hl, ← hl', h2, h2', hS.start_mem hw, hS.start_mem hw, heq]

/-- an NFA for `(a|b)*` with two accepting nodes, one for words ending in `a` -/
def exampleNfa : Nfa Nat Nat :=
  { graph := { nodes := [.intermediate 0, .accepting 1, .accepting 0],
               edges := [⟨0, 0, .transition 1⟩, ⟨0, 0, .transition 2⟩, ⟨0, 1, .transition 1⟩, ⟨0, 2, .epsilon⟩] },
    intermediateCounter := 1 }

example : exampleNfa.WF := by intro e he; simp [exampleNfa] at he ⊢; rcases he with rfl | rfl | rfl | rfl <;> simp
example : (exampleNfa.powersetConstruction 9 0).toOption.map (·.graph.nodes) =
    some [.accepting [0], .accepting [1, 0]] := by decide

end Verif
