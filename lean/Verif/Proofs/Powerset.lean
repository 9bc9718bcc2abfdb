import Verif.Proofs.Closure
import Mathlib.Data.List.Sublists

/-! The powerset graph. -/

set_option linter.unusedSectionVars false

namespace Verif

variable {σ τ : Type} [Key τ]

/-! ### the multimap of targets -/

theorem mem_mpush_ne_nil {k : τ} {v : Nat} {m : List (τ × List Nat)} (h : ∀ p ∈ m, p.2 ≠ []) : ∀ p ∈ mpush k v m, p.2 ≠ [] := by
  induction m with
  | nil => simp [mpush]
  | cons q m ih =>
    obtain ⟨k', vs⟩ := q
    intro p hp
    simp only [mpush] at hp
    split at hp
    · rcases List.mem_cons.mp hp with rfl | hp
      · simp
      · exact h p (List.mem_cons_of_mem _ hp)
    · split at hp
      · rcases List.mem_cons.mp hp with rfl | hp
        · simp
        · exact h p hp
      · rcases List.mem_cons.mp hp with rfl | hp
        · exact h _ (by simp)
        · exact ih (fun p hp => h p (List.mem_cons_of_mem _ hp)) p hp

theorem targetMultiMap_spec (a : Nfa σ τ) (cl : List Nat) :
    MSorted (a.targetMultiMap cl) ∧ (∀ p ∈ a.targetMultiMap cl, p.2 ≠ []) ∧
    ∀ t y, y ∈ (mget? t (a.targetMultiMap cl)).getD [] ↔
      ∃ x ∈ cl, (⟨x, y, .transition t⟩ : Edge (NfaEdge τ)) ∈ a.graph.edges := by
  have push : ∀ (t t' : τ) (y d : Nat) (m : List (τ × List Nat)), MSorted m →
      (y ∈ (mget? t (mpush t' d m)).getD [] ↔ y ∈ (mget? t m).getD [] ∨ (t = t' ∧ y = d)) := by
    intro t t' y d m hm
    by_cases h : t = t'
    · subst h
      rw [mget?_mpush_self _ _ _ hm]
      simp
    · rw [mget?_mpush_ne _ _ h]
      simp [h]
  have inner : ∀ (es : List (Edge (NfaEdge τ))) (m : List (τ × List Nat)), MSorted m → (∀ p ∈ m, p.2 ≠ []) →
      let m' := es.foldl (fun m edge => match edge.weight with
        | .epsilon => m
        | .transition t => mpush t edge.dst m) m
      MSorted m' ∧ (∀ p ∈ m', p.2 ≠ []) ∧ ∀ t y, y ∈ (mget? t m').getD [] ↔
        y ∈ (mget? t m).getD [] ∨ ∃ e ∈ es, e.weight = .transition t ∧ e.dst = y := by
    intro es
    induction es with
    | nil => intro m h1 h2; exact ⟨h1, h2, by simp⟩
    | cons e es ih =>
      intro m h1 h2
      obtain ⟨src, dst, wt⟩ := e
      cases wt with
      | epsilon =>
        obtain ⟨g1, g2, g3⟩ := ih m h1 h2
        refine ⟨g1, g2, ?_⟩
        intro t y
        rw [List.foldl_cons, g3]
        simp
      | transition t' =>
        obtain ⟨g1, g2, g3⟩ := ih (mpush t' dst m) (mpush_sorted h1) (mem_mpush_ne_nil h2)
        refine ⟨g1, g2, ?_⟩
        intro t y
        rw [List.foldl_cons, g3, push _ _ _ _ _ h1]
        simp only [List.mem_cons, exists_eq_or_imp, NfaEdge.transition.injEq]
        grind
  have outer : ∀ (cl : List Nat) (m : List (τ × List Nat)), MSorted m → (∀ p ∈ m, p.2 ≠ []) →
      let m' := cl.foldl (fun m node => (a.graph.edgesFrom node).foldl (fun m edge => match edge.weight with
        | .epsilon => m
        | .transition t => mpush t edge.dst m) m) m
      MSorted m' ∧ (∀ p ∈ m', p.2 ≠ []) ∧ ∀ t y, y ∈ (mget? t m').getD [] ↔
        y ∈ (mget? t m).getD [] ∨ ∃ x ∈ cl, (⟨x, y, .transition t⟩ : Edge (NfaEdge τ)) ∈ a.graph.edges := by
    intro cl
    induction cl with
    | nil => intro m h1 h2; exact ⟨h1, h2, by simp⟩
    | cons x cl ih =>
      intro m h1 h2
      obtain ⟨f1, f2, f3⟩ := inner (a.graph.edgesFrom x) m h1 h2
      obtain ⟨g1, g2, g3⟩ := ih _ f1 f2
      refine ⟨g1, g2, ?_⟩
      intro t y
      rw [List.foldl_cons, g3, f3]
      simp only [List.mem_cons, exists_eq_or_imp, or_assoc]
      have : (∃ e ∈ a.graph.edgesFrom x, e.weight = .transition t ∧ e.dst = y) ↔
          (⟨x, y, .transition t⟩ : Edge (NfaEdge τ)) ∈ a.graph.edges := by
        constructor
        · rintro ⟨⟨s, d, w⟩, he, h3, h4⟩
          obtain ⟨h5, h6⟩ := mem_edgesFrom.mp he
          simp only at h3 h4 h6
          subst h3 h4 h6
          exact h5
        · intro h
          exact ⟨_, mem_edgesFrom.mpr ⟨h, rfl⟩, rfl, rfl⟩
      rw [this]
  obtain ⟨h1, h2, h3⟩ := outer cl [] List.Pairwise.nil (by simp)
  refine ⟨h1, h2, ?_⟩
  intro t y
  have := h3 t y
  simp only [mget?, Option.getD_none, List.not_mem_nil, false_or] at this
  exact this

/-! ### the powerset graph -/

/-- edges leaving node `i`, in insertion order -/
def outs {ν ω : Type} (g : Graph ν ω) (i : Nat) : List (Edge ω) := g.edges.filter (fun e => e.src = i)

/-- node `i` has all its outgoing edges: one per symbol, to the node of the target set -/
def PDone (a : Nfa σ τ) (g : Graph (List Nat) τ) (i : Nat) : Prop :=
  ∃ set, g.nodes[i]? = some set ∧
    List.Forall₂ (fun (e : Edge τ) (p : τ × List Nat) => e.weight = p.1 ∧ g.nodes[e.dst]? = some (a.clo p.2))
      (outs g i) (a.targetMultiMap set)

/-- `g'` extends `g` without touching the edges of old nodes -/
structure GExt {ν ω : Type} (g g' : Graph ν ω) : Prop where
  nodes : ∃ ns, g'.nodes = g.nodes ++ ns
  edges : ∃ es, g'.edges = g.edges ++ es ∧ ∀ e ∈ es, g.nodes.length ≤ e.src

theorem GExt.refl {ν ω : Type} (g : Graph ν ω) : GExt g g := ⟨⟨[], by simp⟩, ⟨[], by simp⟩⟩

theorem GExt.len {ν ω : Type} {g g' : Graph ν ω} (h : GExt g g') : g.nodes.length ≤ g'.nodes.length := by
  obtain ⟨ns, e⟩ := h.nodes; simp [e]

theorem GExt.trans {ν ω : Type} {a b c : Graph ν ω} (h1 : GExt a b) (h2 : GExt b c) : GExt a c := by
  have hl := h1.len
  obtain ⟨ns1, e1⟩ := h1.nodes
  obtain ⟨ns2, e2⟩ := h2.nodes
  obtain ⟨es1, f1, g1⟩ := h1.edges
  obtain ⟨es2, f2, g2⟩ := h2.edges
  refine ⟨⟨ns1 ++ ns2, by simp [e2, e1]⟩, ⟨es1 ++ es2, by simp [f2, f1], ?_⟩⟩
  intro x hx
  rcases List.mem_append.mp hx with h | h
  · exact g1 x h
  · exact Nat.le_trans hl (g2 x h)

theorem GExt.get {ν ω : Type} {g g' : Graph ν ω} (h : GExt g g') {i : Nat} {s : ν} (hi : g.nodes[i]? = some s) :
    g'.nodes[i]? = some s := by
  obtain ⟨ns, e⟩ := h.nodes
  rw [e, List.getElem?_append_left (List.getElem?_eq_some_iff.mp hi).1, hi]

theorem GExt.outs {ν ω : Type} {g g' : Graph ν ω} (h : GExt g g') {i : Nat} (hi : i < g.nodes.length) :
    outs g' i = outs g i := by
  obtain ⟨es, e, hs⟩ := h.edges
  unfold Verif.outs
  rw [e, List.filter_append]
  have : es.filter (fun e => decide (e.src = i)) = [] := by
    rw [List.filter_eq_nil_iff]
    intro x hx
    have := hs x hx
    simp; omega
  simp [this]

theorem forall2_imp {α β : Type} {R S : α → β → Prop} (h : ∀ a b, R a b → S a b) {l1 : List α} {l2 : List β}
    (hf : List.Forall₂ R l1 l2) : List.Forall₂ S l1 l2 := hf.imp h

theorem PDone.ext {a : Nfa σ τ} {g g' : Graph (List Nat) τ} (h : GExt g g') {i : Nat} (hi : PDone a g i) : PDone a g' i := by
  obtain ⟨set, h1, h2⟩ := hi
  refine ⟨set, h.get h1, ?_⟩
  rw [h.outs (List.getElem?_eq_some_iff.mp h1).1]
  exact forall2_imp (fun e p hp => ⟨hp.1, h.get hp.2⟩) h2

theorem forall2_snoc {α β : Type} {R : α → β → Prop} {l1 : List α} {l2 : List β} {x : α} {y : β}
    (h : List.Forall₂ R l1 l2) (hxy : R x y) : List.Forall₂ R (l1 ++ [x]) (l2 ++ [y]) := by
  induction h with
  | nil => exact .cons hxy .nil
  | cons h _ ih => exact .cons h ih

/-- paths in the powerset graph -/
inductive GReach {ν ω : Type} (g : Graph ν ω) : Nat → Nat → Prop
  | refl (i : Nat) : GReach g i i
  | snoc {i j : Nat} {e : Edge ω} : GReach g i j → e ∈ g.edges → e.src = j → GReach g i e.dst

theorem GReach.trans {ν ω : Type} {g : Graph ν ω} {i j k : Nat} (h1 : GReach g i j) (h2 : GReach g j k) : GReach g i k := by
  induction h2 with
  | refl => exact h1
  | snoc _ he hs ih => exact .snoc ih he hs

theorem GReach.ext {ν ω : Type} {g g' : Graph ν ω} (h : GExt g g') {i j : Nat} (hr : GReach g i j) : GReach g' i j := by
  induction hr with
  | refl => exact .refl _
  | snoc _ he hs ih =>
    obtain ⟨es, e, _⟩ := h.edges
    exact .snoc ih (by rw [e]; simp [he]) hs

/-- what a call of `addPowersetToDfa` establishes -/
structure PAddOk (a : Nfa σ τ) (g g' : Graph (List Nat) τ) (starts : List Nat) (j : Nat) : Prop where
  ext : GExt g g'
  node : g'.nodes[j]? = some (a.clo starts)
  done : ∀ i, g.nodes.length ≤ i → i < g'.nodes.length → PDone a g' i
  nodup : g.nodes.Nodup → g'.nodes.Nodup
  clos : ∀ s ∈ g'.nodes, s ∈ g.nodes ∨ ∃ x, s = a.clo x
  reach : ∀ i, g.nodes.length ≤ i → i < g'.nodes.length → GReach g' j i
  edges : ∀ e ∈ g'.edges, e ∈ g.edges ∨ (e.src < g'.nodes.length ∧ e.dst < g'.nodes.length)

theorem findIdx?_some_get {α : Type} {p : α → Bool} {l : List α} {i : Nat} (h : l.findIdx? p = some i) :
    ∃ x, l[i]? = some x ∧ p x = true := by
  rw [List.findIdx?_eq_some_iff_getElem] at h
  obtain ⟨h1, h2, _⟩ := h
  exact ⟨l[i], by simp, h2⟩

/-- state of the loop over the target sets -/
structure PLoop (a : Nfa σ τ) (g g1 : Graph (List Nat) τ) (set : List Nat) (pre : List (τ × List Nat)) : Prop where
  nodes : ∃ ns, g1.nodes = g.nodes ++ set :: ns
  edges : ∃ es, g1.edges = g.edges ++ es ∧ ∀ e ∈ es, g.nodes.length ≤ e.src
  mine : List.Forall₂ (fun (e : Edge τ) (p : τ × List Nat) => e.weight = p.1 ∧ g1.nodes[e.dst]? = some (a.clo p.2))
      (outs g1 g.nodes.length) pre
  done : ∀ i, g.nodes.length < i → i < g1.nodes.length → PDone a g1 i
  nodup : (g.nodes ++ [set]).Nodup → g1.nodes.Nodup
  clos : ∀ s ∈ g1.nodes, s ∈ g.nodes ++ [set] ∨ ∃ x, s = a.clo x
  reach : ∀ i, g.nodes.length ≤ i → i < g1.nodes.length → GReach g1 g.nodes.length i
  wf : ∀ e ∈ g1.edges, e ∈ g.edges ∨ (e.src < g1.nodes.length ∧ e.dst < g1.nodes.length)

theorem addPowersetToDfa_ok (a : Nfa σ τ) (hw : a.WF) : ∀ fuel g starts g' j,
    (∀ e ∈ g.edges, e.src < g.nodes.length ∧ e.dst < g.nodes.length) →
    a.addPowersetToDfa fuel g starts = .ok (g', j) → PAddOk a g g' starts j := by
  intro fuel
  induction fuel with
  | zero => intro g starts g' j _ h; simp [Nfa.addPowersetToDfa] at h
  | succ fuel ih =>
    intro g starts g' j hgw h
    unfold Nfa.addPowersetToDfa at h
    rw [res_bind_eq (clo_eq a hw starts)] at h
    split at h
    · rename_i i hi
      cases h
      obtain ⟨x, h1, h2⟩ := findIdx?_some_get hi
      simp only [decide_eq_true_eq] at h2
      subst h2
      refine ⟨GExt.refl _, h1, ?_, id, fun s hs => Or.inl hs, ?_, fun e he => Or.inl he⟩
      · intro i h3 h4; omega
      · intro i h3 h4; omega
    · rename_i hnone
      have hnew : a.clo starts ∉ g.nodes := by
        intro hmem
        rw [List.findIdx?_eq_none_iff] at hnone
        have := hnone _ hmem
        simp at this
      · obtain ⟨g1, hr, h⟩ := res_bind_ok.mp h
        cases h
        have hN : ∀ {g1 : Graph (List Nat) τ} {ns}, g1.nodes = g.nodes ++ a.clo starts :: ns →
            g.nodes.length < g1.nodes.length ∧ g1.nodes[g.nodes.length]? = some (a.clo starts) := by
          intro g1 ns e
          rw [e]
          constructor
          · simp
          · simp
        have loop := foldlM_ok_inv (fun pre g1 => PLoop a g g1 (a.clo starts) pre) (by
          refine ⟨⟨[], rfl⟩, ⟨[], by simp [Graph.addNode]⟩, ?_, ?_, fun h => h, fun s hs => Or.inl hs, ?_, ?_⟩
          · have : outs (g.addNode (a.clo starts)) g.nodes.length = [] := by
              unfold outs
              rw [List.filter_eq_nil_iff]
              intro e he
              have := (hgw e he).1
              simp; omega
            rw [this]; exact .nil
          · intro i h1 h2
            simp [Graph.addNode] at h2; omega
          · intro i h1 h2
            simp [Graph.addNode] at h2
            have : i = g.nodes.length := by omega
            subst this; exact .refl _
          · intro e he; exact Or.inl he) (by
          intro pre tt g1 g2 _ hI hstep
          obtain ⟨⟨g3, k⟩, hrec, hstep⟩ := res_bind_ok.mp hstep
          · cases hstep
            obtain ⟨ns1, en1⟩ := hI.nodes
            obtain ⟨es1, ee1, hs1⟩ := hI.edges
            obtain ⟨hlt1, hget1⟩ := hN en1
            have hwf1 : ∀ e ∈ g1.edges, e.src < g1.nodes.length ∧ e.dst < g1.nodes.length := by
              intro e he
              rcases hI.wf e he with h1 | h1
              · have := hgw e h1; omega
              · exact h1
            have r := ih g1 tt.2 g3 k hwf1 hrec
            have hl := r.ext.len
            have hk : k < g3.nodes.length := (List.getElem?_eq_some_iff.mp r.node).1
            obtain ⟨ns3, en3⟩ := r.ext.nodes
            obtain ⟨es3, ee3, hs3⟩ := r.ext.edges
            have hwf3 : ∀ e ∈ g3.edges, e.src < g3.nodes.length ∧ e.dst < g3.nodes.length := by
              intro e he
              rcases r.edges e he with h1 | h1
              · have := hwf1 e h1; omega
              · exact h1
            -- the graph with the new edge
            have houts_ne : ∀ i, i ≠ g.nodes.length → outs (g3.addEdge g.nodes.length k tt.1) i = outs g3 i := by
              intro i hi
              simp only [outs, Graph.addEdge, List.filter_append]
              simp [List.filter, Ne.symm hi]
            have houts_eq : outs (g3.addEdge g.nodes.length k tt.1) g.nodes.length =
                outs g1 g.nodes.length ++ [⟨g.nodes.length, k, tt.1⟩] := by
              rw [← r.ext.outs hlt1]
              simp only [outs, Graph.addEdge, List.filter_append]
              simp [List.filter]
            have hreach3 : ∀ {i j}, GReach g3 i j → GReach (g3.addEdge g.nodes.length k tt.1) i j := by
              intro i j hij
              induction hij with
              | refl => exact .refl _
              | snoc _ he hs ih => exact .snoc ih (by simp [Graph.addEdge, he]) hs
            have hreach1 : ∀ {i j}, GReach g1 i j → GReach (g3.addEdge g.nodes.length k tt.1) i j :=
              fun hij => hreach3 (hij.ext r.ext)
            refine ⟨⟨ns1 ++ ns3, by simp [Graph.addEdge, en3, en1]⟩, ⟨es1 ++ es3 ++ [⟨g.nodes.length, k, tt.1⟩], ?_, ?_⟩, ?_, ?_,
              fun h => r.nodup (hI.nodup h), ?_, ?_, ?_⟩
            · simp [Graph.addEdge, ee3, ee1]
            · intro e he
              simp only [List.append_assoc, List.mem_append, List.mem_singleton] at he
              rcases he with h1 | h1 | h1
              · exact hs1 e h1
              · have := hs3 e h1; omega
              · subst h1; exact Nat.le_refl _
            · rw [houts_eq]
              refine forall2_snoc (forall2_imp (fun e p hp => ⟨hp.1, r.ext.get hp.2⟩) hI.mine) ⟨rfl, r.node⟩
            · intro i h1 h2
              have hd : PDone a g3 i := by
                rcases Nat.lt_or_ge i g1.nodes.length with h3 | h3
                · exact (hI.done i h1 h3).ext r.ext
                · exact r.done i h3 h2
              obtain ⟨set, d1, d2⟩ := hd
              refine ⟨set, d1, ?_⟩
              rw [houts_ne i (by omega)]
              exact d2
            · intro s hs
              rcases r.clos s hs with h1 | h1
              · exact hI.clos s h1
              · exact Or.inr h1
            · intro i h1 h2
              rcases Nat.lt_or_ge i g1.nodes.length with h3 | h3
              · exact hreach1 (hI.reach i h1 h3)
              · have hjk := r.reach i h3 h2
                have hedge : (⟨g.nodes.length, k, tt.1⟩ : Edge τ) ∈ (g3.addEdge g.nodes.length k tt.1).edges := by
                  simp [Graph.addEdge]
                exact (GReach.snoc (.refl g.nodes.length) hedge rfl).trans (hreach3 hjk)
            · intro e he
              simp only [Graph.addEdge, List.mem_append, List.mem_singleton] at he
              rcases he with h1 | h1
              · exact Or.inr (hwf3 e h1)
              · subst h1
                exact Or.inr ⟨by simp only [Graph.addEdge]; omega, hk⟩) hr
        obtain ⟨ns1, en1⟩ := loop.nodes
        obtain ⟨hlt1, hget1⟩ := hN en1
        refine ⟨⟨⟨a.clo starts :: ns1, en1⟩, loop.edges⟩, hget1, ?_, ?_, ?_, loop.reach, ?_⟩
        · intro i h1 h2
          rcases Nat.eq_or_lt_of_le h1 with rfl | h3
          · exact ⟨a.clo starts, hget1, loop.mine⟩
          · exact loop.done i h3 h2
        · intro hnd
          apply loop.nodup
          rw [List.nodup_append]
          refine ⟨hnd, by simp, ?_⟩
          intro x hx y hy hxy
          simp only [List.mem_singleton] at hy
          subst hxy hy
          exact hnew hx
        · intro s hs
          rcases loop.clos s hs with h1 | h1
          · rcases List.mem_append.mp h1 with h2 | h2
            · exact Or.inl h2
            · simp at h2; exact Or.inr ⟨starts, h2⟩
          · exact Or.inr h1
        · exact loop.wf

/-! ### termination -/

theorem sorted_sublist {n : Nat} {l : List Nat} (hs : SSorted l) (hl : ∀ x ∈ l, x < n) : l.Sublist (List.range n) := by
  have : l = (List.range n).filter (fun x => x ∈ l) := by
    apply SSorted.ext hs
    · apply List.Pairwise.filter
      have := List.pairwise_lt_range (n := n)
      refine this.imp ?_
      intro a b hab
      simp only [Key.key, List.cons_lt_cons_iff]
      exact Or.inl hab
    · intro x
      simp only [List.mem_filter, List.mem_range, decide_eq_true_eq]
      exact ⟨fun h => ⟨hl x h, h⟩, fun h => h.2⟩
  rw [this]
  exact List.filter_sublist

theorem powerset_bound {n : Nat} {ls : List (List Nat)} (hnd : ls.Nodup) (h : ∀ l ∈ ls, SSorted l ∧ ∀ x ∈ l, x < n) :
    ls.length ≤ 2 ^ n := by
  have hsub : ls ⊆ (List.range n).sublists := by
    intro l hl
    rw [List.mem_sublists]
    exact sorted_sublist (h l hl).1 (h l hl).2
  have := (hnd.subperm hsub).length_le
  simpa using this

/-- the sets in the powerset graph are closures of existing nodes -/
def SetsOk (a : Nfa σ τ) (g : Graph (List Nat) τ) : Prop :=
  g.nodes.Nodup ∧ (∀ s ∈ g.nodes, SSorted s ∧ ∀ x ∈ s, x < a.graph.nodes.length) ∧
  (∀ e ∈ g.edges, e.src < g.nodes.length ∧ e.dst < g.nodes.length)

theorem clo_bound (a : Nfa σ τ) (hw : a.WF) {starts : List Nat} (hs : ∀ x ∈ starts, x < a.graph.nodes.length) :
    SSorted (a.clo starts) ∧ ∀ x ∈ a.clo starts, x < a.graph.nodes.length := by
  refine ⟨clo_sorted a hw starts, ?_⟩
  intro x hx
  obtain ⟨s, h1, h2⟩ := (mem_clo a hw starts x).mp hx
  exact h2.lt hw (hs s h1)

theorem targets_bound (a : Nfa σ τ) (hw : a.WF) {cl : List Nat} {p : τ × List Nat} (hp : p ∈ a.targetMultiMap cl) :
    ∀ x ∈ p.2, x < a.graph.nodes.length := by
  obtain ⟨h1, _, h3⟩ := targetMultiMap_spec a cl
  intro x hx
  have := mem_mget? h1 (k := p.1) (v := p.2) hp
  obtain ⟨y, _, hy⟩ := (h3 p.1 x).mp (by rw [this]; exact hx)
  exact (hw _ hy).2

theorem addPowersetToDfa_total (a : Nfa σ τ) (hw : a.WF) : ∀ fuel g starts, SetsOk a g →
    (∀ x ∈ starts, x < a.graph.nodes.length) → 2 ^ a.graph.nodes.length - g.nodes.length < fuel →
    ∃ g' j, a.addPowersetToDfa fuel g starts = .ok (g', j) ∧ SetsOk a g' := by
  intro fuel
  induction fuel with
  | zero => intro g starts _ _ h; omega
  | succ fuel ih =>
    intro g starts hg hs hfuel
    unfold Nfa.addPowersetToDfa
    rw [res_bind_eq (clo_eq a hw starts)]
    split
    · rename_i i hi
      exact ⟨g, i, rfl, hg⟩
    · rename_i hnone
      have hnew : a.clo starts ∉ g.nodes := by
        intro hmem
        rw [List.findIdx?_eq_none_iff] at hnone
        have := hnone _ hmem
        simp at this
      have hg0 : SetsOk a (g.addNode (a.clo starts)) := by
        refine ⟨?_, ?_, ?_⟩
        · simp only [Graph.addNode]
          rw [List.nodup_append]
          refine ⟨hg.1, by simp, ?_⟩
          intro x hx y hy hxy
          simp only [List.mem_singleton] at hy
          subst hxy hy
          exact hnew hx
        · intro s hs'
          simp only [Graph.addNode, List.mem_append, List.mem_singleton] at hs'
          rcases hs' with h1 | rfl
          · exact hg.2.1 s h1
          · exact clo_bound a hw hs
        · intro e he
          have := hg.2.2 e he
          simp [Graph.addNode]; omega
      have hb := powerset_bound hg0.1 hg0.2.1
      simp only [Graph.addNode, List.length_append, List.length_singleton] at hb
      have hfold := foldlM_total (l := a.targetMultiMap (a.clo starts)) (b := g.addNode (a.clo starts))
        (f := fun dfa tt => (do
          let (dfa, targetDfa) ← a.addPowersetToDfa fuel dfa tt.2
          .ok (dfa.addEdge g.nodes.length targetDfa tt.1) : Res (Graph (List Nat) τ)))
        (fun g1 => SetsOk a g1 ∧ g.nodes.length < g1.nodes.length) ⟨hg0, by simp [Graph.addNode]⟩ (by
          intro tt g1 htt ⟨hg1, hlt⟩
          obtain ⟨g2, k, h1, h2⟩ := ih g1 tt.2 hg1 (targets_bound a hw htt) (by omega)
          have hk := addPowersetToDfa_ok a hw _ _ _ _ _ hg1.2.2 h1
          have hkl : k < g2.nodes.length := (List.getElem?_eq_some_iff.mp hk.node).1
          have hl := hk.ext.len
          refine ⟨g2.addEdge g.nodes.length k tt.1, by rw [res_bind_eq h1], ⟨h2.1, h2.2.1, ?_⟩, by simp only [Graph.addEdge]; omega⟩
          intro e he
          simp only [Graph.addEdge, List.mem_append, List.mem_singleton] at he ⊢
          rcases he with h3 | rfl
          · exact h2.2.2 e h3
          · exact ⟨by show g.nodes.length < _; omega, hkl⟩)
      obtain ⟨g', h1, h2, _⟩ := hfold
      refine ⟨g', g.nodes.length, ?_, h2⟩
      exact res_bind_eq h1

end Verif
