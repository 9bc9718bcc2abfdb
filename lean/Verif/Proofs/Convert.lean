import Verif.Proofs.Powerset

/-! The renumbering phase of the powerset construction. -/

set_option linter.unusedSectionVars false

namespace Verif

variable {σ τ : Type} [Key τ]

/-- the weight of a DFA node for a set of NFA nodes -/
def LabelOk (a : Nfa σ τ) (set : List Nat) (w : AutomatonState (List σ)) : Prop :=
  (a.acceptsOf set ≠ [] ∧ w = .accepting (a.acceptsOf set)) ∨ (a.acceptsOf set = [] ∧ ∃ k, w = .intermediate k)

/-- invariant of the conversion state -/
structure CInv (st : Nfa.ConvState σ τ) : Prop where
  sorted : MSorted st.visited
  bound : ∀ o m, mget? o st.visited = some m → m < st.dfa.graph.nodes.length
  surj : ∀ m < st.dfa.graph.nodes.length, ∃ o, mget? o st.visited = some m
  inj : ∀ o o' m, mget? o st.visited = some m → mget? o' st.visited = some m → o = o'
  wf : ∀ e ∈ st.dfa.graph.edges, e.src < st.dfa.graph.nodes.length ∧ e.dst < st.dfa.graph.nodes.length

/-- `st'` extends `st` without touching old nodes -/
structure CExt (st st' : Nfa.ConvState σ τ) : Prop where
  vis : ∀ o m, mget? o st.visited = some m → mget? o st'.visited = some m
  graph : GExt st.dfa.graph st'.dfa.graph

theorem CExt.refl (st : Nfa.ConvState σ τ) : CExt st st := ⟨fun _ _ h => h, GExt.refl _⟩

theorem CExt.trans {a b c : Nfa.ConvState σ τ} (h1 : CExt a b) (h2 : CExt b c) : CExt a c :=
  ⟨fun o m h => h2.vis o m (h1.vis o m h), h1.graph.trans h2.graph⟩

/-- powerset node `o` is completely translated to DFA node `m` -/
def CDone (a : Nfa σ τ) (pdfa : Graph (List Nat) τ) (st : Nfa.ConvState σ τ) (o m : Nat) : Prop :=
  ∃ set w, pdfa.nodes[o]? = some set ∧ st.dfa.graph.nodes[m]? = some w ∧ LabelOk a set w ∧
    List.Forall₂ (fun (e' e : Edge τ) => e'.weight = e.weight ∧ mget? e.dst st.visited = some e'.dst)
      (outs st.dfa.graph m) (pdfa.edgesFrom o)

theorem CDone.ext {a : Nfa σ τ} {pdfa : Graph (List Nat) τ} {st st' : Nfa.ConvState σ τ} (h : CExt st st') {o m : Nat}
    (hd : CDone a pdfa st o m) : CDone a pdfa st' o m := by
  obtain ⟨set, w, h1, h2, h3, h4⟩ := hd
  refine ⟨set, w, h1, h.graph.get h2, h3, ?_⟩
  rw [h.graph.outs (List.getElem?_eq_some_iff.mp h2).1]
  exact forall2_imp (fun e p hp => ⟨hp.1, h.vis _ _ hp.2⟩) h4

/-- what a call establishes -/
structure ConvOk (a : Nfa σ τ) (pdfa : Graph (List Nat) τ) (st st' : Nfa.ConvState σ τ) (node n : Nat) : Prop where
  inv : CInv st'
  ext : CExt st st'
  new : n = st.dfa.graph.nodes.length
  len : st.dfa.graph.nodes.length < st'.dfa.graph.nodes.length
  node : mget? node st'.visited = some n
  done : ∀ o m, mget? o st'.visited = some m → st.dfa.graph.nodes.length ≤ m → CDone a pdfa st' o m
  reach : ∀ m, st.dfa.graph.nodes.length ≤ m → m < st'.dfa.graph.nodes.length → GReach st'.dfa.graph n m

/-- state of the loop over outgoing edges -/
structure CLoop (a : Nfa σ τ) (pdfa : Graph (List Nat) τ) (st st1 : Nfa.ConvState σ τ) (node : Nat) (w : AutomatonState (List σ))
    (pre : List (Edge τ)) : Prop where
  inv : CInv st1
  ext : CExt st st1
  len : st.dfa.graph.nodes.length < st1.dfa.graph.nodes.length
  node : mget? node st1.visited = some st.dfa.graph.nodes.length
  label : st1.dfa.graph.nodes[st.dfa.graph.nodes.length]? = some w
  mine : List.Forall₂ (fun (e' e : Edge τ) => e'.weight = e.weight ∧ mget? e.dst st1.visited = some e'.dst)
      (outs st1.dfa.graph st.dfa.graph.nodes.length) pre
  done : ∀ o m, mget? o st1.visited = some m → st.dfa.graph.nodes.length < m → CDone a pdfa st1 o m
  reach : ∀ m, st.dfa.graph.nodes.length ≤ m → m < st1.dfa.graph.nodes.length →
    GReach st1.dfa.graph st.dfa.graph.nodes.length m

/-- the state after a node has been added -/
theorem conv_start (a : Nfa σ τ) (pdfa : Graph (List Nat) τ) {st : Nfa.ConvState σ τ} (hinv : CInv st) {node : Nat}
    (hnew : mget? node st.visited = none) {set : List Nat} :
    let p := if !(a.acceptsOf set).isEmpty then st.dfa.addAcceptingState (a.acceptsOf set) else st.dfa.addIntermediateState
    p.2 = st.dfa.graph.nodes.length ∧ ∃ w, LabelOk a set w ∧
      CLoop a pdfa st { dfa := p.1, visited := minsert node p.2 st.visited } node w [] := by
  have main : ∀ (d : Dfa (List σ) τ) (w : AutomatonState (List σ)), d.graph.nodes = st.dfa.graph.nodes ++ [w] →
      d.graph.edges = st.dfa.graph.edges → LabelOk a set w →
      CLoop a pdfa st { dfa := d, visited := minsert node st.dfa.graph.nodes.length st.visited } node w [] := by
    intro d w hn he hl
    have hlen : d.graph.nodes.length = st.dfa.graph.nodes.length + 1 := by simp [hn]
    have hget : ∀ o m, mget? o (minsert node st.dfa.graph.nodes.length st.visited) = some m ↔
        (o = node ∧ m = st.dfa.graph.nodes.length) ∨ (o ≠ node ∧ mget? o st.visited = some m) := by
      intro o m
      rw [mget?_minsert]
      split
      · rename_i h; simp [h, eq_comm]
      · rename_i h; simp [h]
    have hext : CExt st { dfa := d, visited := minsert node st.dfa.graph.nodes.length st.visited } := by
      refine ⟨?_, ⟨⟨[w], hn⟩, ⟨[], by simp [he]⟩⟩⟩
      intro o m h
      exact (hget o m).mpr (Or.inr ⟨(by rintro rfl; rw [hnew] at h; cases h), h⟩)
    refine ⟨⟨minsert_sorted hinv.sorted, ?_, ?_, ?_, ?_⟩, hext, by simp only [hlen]; omega, mget?_minsert_self _ _ _, ?_, ?_, ?_, ?_⟩
    · intro o m h
      simp only [hlen]
      rcases (hget o m).mp h with ⟨_, rfl⟩ | ⟨_, h1⟩
      · omega
      · have := hinv.bound o m h1; omega
    · intro m hm
      simp only [hlen] at hm
      rcases Nat.lt_or_ge m st.dfa.graph.nodes.length with h1 | h1
      · obtain ⟨o, ho⟩ := hinv.surj m h1
        exact ⟨o, hext.vis o m ho⟩
      · exact ⟨node, (hget node m).mpr (Or.inl ⟨rfl, by omega⟩)⟩
    · intro o o' m h1 h2
      rcases (hget o m).mp h1 with ⟨rfl, rfl⟩ | ⟨_, g1⟩
      · rcases (hget o' _).mp h2 with ⟨rfl, _⟩ | ⟨_, g2⟩
        · rfl
        · have := hinv.bound _ _ g2; omega
      · rcases (hget o' m).mp h2 with ⟨rfl, rfl⟩ | ⟨_, g2⟩
        · have := hinv.bound _ _ g1; omega
        · exact hinv.inj _ _ _ g1 g2
    · intro e h
      simp only [he] at h
      have := hinv.wf e h
      simp only [hlen]; omega
    · simp [hn]
    · have : outs d.graph st.dfa.graph.nodes.length = [] := by
        unfold outs
        rw [List.filter_eq_nil_iff]
        intro e h
        rw [he] at h
        have := (hinv.wf e h).1
        simp; omega
      rw [this]; exact .nil
    · intro o m h1 h2
      rcases (hget o m).mp h1 with ⟨_, rfl⟩ | ⟨_, g1⟩
      · omega
      · have := hinv.bound _ _ g1; omega
    · intro m h1 h2
      simp only [hlen] at h2
      have : m = st.dfa.graph.nodes.length := by omega
      subst this; exact .refl _
  by_cases h : a.acceptsOf set = []
  · have hl : LabelOk a set (.intermediate st.dfa.intermediateCounter) := Or.inr ⟨h, _, rfl⟩
    rw [h]
    exact ⟨rfl, _, hl, main _ _ rfl rfl hl⟩
  · have hl : LabelOk a set (.accepting (a.acceptsOf set)) := Or.inl ⟨h, rfl⟩
    have he : (!(a.acceptsOf set).isEmpty) = true := by
      cases hh : a.acceptsOf set with
      | nil => exact absurd hh h
      | cons => rfl
    simp only [he, if_true]
    exact ⟨rfl, _, hl, main _ _ rfl rfl hl⟩

/-- one loop step: the target is known in `st2`, the edge is added -/
theorem conv_step (a : Nfa σ τ) (pdfa : Graph (List Nat) τ) {st st1 st2 : Nfa.ConvState σ τ} {node end_ : Nat}
    {w : AutomatonState (List σ)} {pre : List (Edge τ)} {e : Edge τ} (hI : CLoop a pdfa st st1 node w pre)
    (hinv : CInv st2) (hx : CExt st1 st2) (hend : mget? e.dst st2.visited = some end_)
    (hdone : ∀ o m, mget? o st2.visited = some m → st1.dfa.graph.nodes.length ≤ m → CDone a pdfa st2 o m)
    (hreach : ∀ m, st1.dfa.graph.nodes.length ≤ m → m < st2.dfa.graph.nodes.length → GReach st2.dfa.graph end_ m) :
    CLoop a pdfa st { st2 with dfa := st2.dfa.addTransition st.dfa.graph.nodes.length end_ e.weight } node w (pre ++ [e]) := by
  have hl := hx.graph.len
  have hlen := hI.len
  generalize hN : st.dfa.graph.nodes.length = N at *
  have houts_ne : ∀ i, i ≠ N → outs (st2.dfa.addTransition N end_ e.weight).graph i = outs st2.dfa.graph i := by
    intro i hi
    simp only [outs, Dfa.addTransition, Graph.addEdge, List.filter_append]
    simp [List.filter, Ne.symm hi]
  have houts_eq : outs (st2.dfa.addTransition N end_ e.weight).graph N = outs st1.dfa.graph N ++ [⟨N, end_, e.weight⟩] := by
    rw [← hx.graph.outs hlen]
    simp only [outs, Dfa.addTransition, Graph.addEdge, List.filter_append]
    simp [List.filter]
  have hr2 : ∀ {i j}, GReach st2.dfa.graph i j → GReach (st2.dfa.addTransition N end_ e.weight).graph i j := by
    intro i j hij
    induction hij with
    | refl => exact .refl _
    | snoc _ he hs ih => exact .snoc ih (by simp [Dfa.addTransition, Graph.addEdge, he]) hs
  refine ⟨⟨hinv.sorted, hinv.bound, hinv.surj, hinv.inj, ?_⟩, ⟨?_, ?_⟩, ?_, ?_, ?_, ?_, ?_, ?_⟩
  · intro e' he'
    simp only [Dfa.addTransition, Graph.addEdge, List.mem_append, List.mem_singleton] at he' ⊢
    rcases he' with h1 | rfl
    · exact hinv.wf e' h1
    · exact ⟨by show N < _; omega, hinv.bound _ _ hend⟩
  · intro o m h; exact hx.vis o m (hI.ext.vis o m h)
  · have g := hI.ext.graph.trans hx.graph
    refine ⟨g.nodes, ?_⟩
    obtain ⟨es, h1, h2⟩ := g.edges
    refine ⟨es ++ [⟨N, end_, e.weight⟩], by simp [Dfa.addTransition, Graph.addEdge, h1], ?_⟩
    intro x hx
    rcases List.mem_append.mp hx with h3 | h3
    · exact h2 x h3
    · simp at h3; subst h3; exact Nat.le_of_eq hN
  · simp only [Dfa.addTransition, Graph.addEdge]; omega
  · rw [hN]; exact hx.vis _ _ (hN ▸ hI.node)
  · rw [hN]; exact hx.graph.get (hN ▸ hI.label)
  · simp only
    rw [hN, houts_eq]
    have hm := hI.mine
    rw [hN] at hm
    exact forall2_snoc (forall2_imp (fun e p hp => ⟨hp.1, hx.vis _ _ hp.2⟩) hm) ⟨rfl, hend⟩
  · intro o m h1 h2
    rw [hN] at h2
    simp only at h1
    have hd : CDone a pdfa st2 o m := by
      rcases Nat.lt_or_ge m st1.dfa.graph.nodes.length with h3 | h3
      · obtain ⟨o', ho'⟩ := hI.inv.surj m h3
        have := hinv.inj _ _ _ h1 (hx.vis _ _ ho')
        subst this
        exact (hI.done o m ho' (by omega)).ext hx
      · exact hdone o m h1 h3
    obtain ⟨set, w', d1, d2, d3, d4⟩ := hd
    refine ⟨set, w', d1, d2, d3, ?_⟩
    simp only
    rw [houts_ne m (by omega)]
    exact d4
  · intro m h1 h2
    rw [hN] at h1 ⊢
    rcases Nat.lt_or_ge m st1.dfa.graph.nodes.length with h3 | h3
    · have := hI.reach m (by omega) h3
      rw [hN] at this
      exact hr2 (this.ext hx.graph)
    · have hedge : (⟨N, end_, e.weight⟩ : Edge τ) ∈ (st2.dfa.addTransition N end_ e.weight).graph.edges := by
        simp [Dfa.addTransition, Graph.addEdge]
      exact (GReach.snoc (.refl N) hedge rfl).trans (hr2 (hreach m h3 h2))

theorem convert_ok (a : Nfa σ τ) (pdfa : Graph (List Nat) τ) : ∀ fuel st node st' n, CInv st → mget? node st.visited = none →
    a.convertPowersetToDfa pdfa fuel st node = .ok (st', n) → ConvOk a pdfa st st' node n := by
  intro fuel
  induction fuel with
  | zero => intro st node st' n _ _ h; simp [Nfa.convertPowersetToDfa] at h
  | succ fuel ih =>
    intro st node st' n hinv hnew h
    unfold Nfa.convertPowersetToDfa at h
    split at h
    · cases h
    · rename_i set hset
      obtain ⟨hs, w, hlab, hloop⟩ := conv_start a pdfa hinv hnew (set := set)
      dsimp only at h
      generalize hp : (if (!(a.acceptsOf set).isEmpty) = true then st.dfa.addAcceptingState (a.acceptsOf set)
        else st.dfa.addIntermediateState) = p at h hs hloop
      obtain ⟨dfa, start⟩ := p
      simp only at hs hloop
      subst hs
      obtain ⟨st1, hfold, h⟩ := res_bind_ok.mp h
      cases h
      have hend := foldlM_ok_inv (fun pre s => CLoop a pdfa st s node w pre) hloop (by
        intro pre e s1 s2 _ hI hstep
        obtain ⟨⟨s3, end_⟩, h1, h2⟩ := res_bind_ok.mp hstep
        cases h2
        split at h1
        · rename_i e' he'
          cases h1
          refine conv_step a pdfa hI hI.inv (CExt.refl _) he' ?_ ?_
          · intro o m h3 h4
            have := hI.inv.bound o m h3; omega
          · intro m h3 h4; simp only at h4; omega
        · rename_i hnone
          have r := ih _ _ _ _ hI.inv hnone h1
          exact conv_step a pdfa hI r.inv r.ext r.node r.done r.reach) hfold
      refine ⟨hend.inv, hend.ext, rfl, hend.len, hend.node, ?_, hend.reach⟩
      intro o m h1 h2
      rcases Nat.eq_or_lt_of_le h2 with h3 | h3
      · subst h3
        have := hend.inv.inj _ _ _ h1 hend.node
        subst this
        exact ⟨set, w, hset, hend.label, hlab, hend.mine⟩
      · exact hend.done o m h1 h3

theorem convert_total (a : Nfa σ τ) (pdfa : Graph (List Nat) τ)
    (hwf : ∀ e ∈ pdfa.edges, e.src < pdfa.nodes.length ∧ e.dst < pdfa.nodes.length) :
    ∀ fuel st node, CInv st → mget? node st.visited = none → node < pdfa.nodes.length →
      missing pdfa.nodes.length (st.visited.map (·.1)) ≤ fuel →
      ∃ st' n, a.convertPowersetToDfa pdfa fuel st node = .ok (st', n) := by
  have keys : ∀ {k : Nat} {m : List (Nat × Nat)}, k ∈ m.map (·.1) ↔ mget? k m ≠ none := by
    intro k m
    induction m with
    | nil => simp [mget?]
    | cons p m ih =>
      obtain ⟨k', v⟩ := p
      simp only [List.map_cons, List.mem_cons, ih, mget?, Key.key, List.cons.injEq, and_true]
      split
      · rename_i h; simp [h]
      · rename_i h; simp [h]
  intro fuel
  induction fuel with
  | zero =>
    intro st node hinv hnew hnode hm
    have hlt : missing pdfa.nodes.length (node :: st.visited.map (·.1)) < missing pdfa.nodes.length (st.visited.map (·.1)) :=
      missing_lt (fun y hy => List.mem_cons_of_mem _ hy) hnode (fun h => keys.mp h hnew) (by simp)
    omega
  | succ fuel ih =>
    intro st node hinv hnew hnode hm
    unfold Nfa.convertPowersetToDfa
    rw [List.getElem?_eq_getElem hnode]
    dsimp only
    obtain ⟨hs, w, hlab, hloop⟩ := conv_start a pdfa hinv hnew (set := pdfa.nodes[node])
    generalize hp : (if (!(a.acceptsOf pdfa.nodes[node]).isEmpty) = true then st.dfa.addAcceptingState (a.acceptsOf pdfa.nodes[node])
      else st.dfa.addIntermediateState) = p at hs hloop
    obtain ⟨dfa, start⟩ := p
    simp only at hs hloop
    subst hs
    have hm1 : missing pdfa.nodes.length ((minsert node st.dfa.graph.nodes.length st.visited).map (·.1)) ≤ fuel := by
      have : missing pdfa.nodes.length ((minsert node st.dfa.graph.nodes.length st.visited).map (·.1)) <
          missing pdfa.nodes.length (st.visited.map (·.1)) := by
        refine missing_lt (x := node) ?_ hnode (fun h => keys.mp h hnew) ?_
        · intro y hy
          rw [keys] at hy ⊢
          rw [mget?_minsert]
          split
          · simp
          · exact hy
        · rw [keys, mget?_minsert_self]; simp
      omega
    have hfold := foldlM_total (l := pdfa.edgesFrom node)
      (b := ({ dfa := dfa, visited := minsert node st.dfa.graph.nodes.length st.visited } : Nfa.ConvState σ τ))
      (f := fun (st1 : Nfa.ConvState σ τ) edge => (do
        let (st1, end_) ← (match mget? edge.dst st1.visited with
          | some e => .ok (st1, e)
          | none => a.convertPowersetToDfa pdfa fuel st1 edge.dst : Res (Nfa.ConvState σ τ × Nat))
        .ok { st1 with dfa := st1.dfa.addTransition st.dfa.graph.nodes.length end_ edge.weight } : Res (Nfa.ConvState σ τ)))
      (fun s => (∃ pre, CLoop a pdfa st s node w pre) ∧ missing pdfa.nodes.length (s.visited.map (·.1)) ≤ fuel)
      ⟨⟨[], hloop⟩, hm1⟩ (by
        rintro e s1 he ⟨⟨pre, hI⟩, hms⟩
        have hed := mem_edgesFrom.mp he
        rcases hg : mget? e.dst s1.visited with _ | e'
        · obtain ⟨s2, n2, h1⟩ := ih s1 e.dst hI.inv hg (hwf e hed.1).2 hms
          have r := convert_ok a pdfa _ _ _ _ _ hI.inv hg h1
          refine ⟨{ s2 with dfa := s2.dfa.addTransition st.dfa.graph.nodes.length n2 e.weight }, by simp only [hg]; rw [res_bind_eq h1], ⟨pre ++ [e], ?_⟩, ?_⟩
          · exact conv_step a pdfa hI r.inv r.ext r.node r.done r.reach
          · refine Nat.le_trans (missing_mono ?_) hms
            intro x hx
            rw [keys] at hx ⊢
            intro h
            rcases hh : mget? x s1.visited with _ | v
            · exact hx hh
            · have := r.ext.vis _ _ hh
              simp only at h
              rw [h] at this; cases this
        · refine ⟨{ s1 with dfa := s1.dfa.addTransition st.dfa.graph.nodes.length e' e.weight }, by simp only [hg]; rfl, ⟨pre ++ [e], ?_⟩, hms⟩
          refine conv_step a pdfa hI hI.inv (CExt.refl _) hg ?_ ?_
          · intro o m h3 h4
            have := hI.inv.bound o m h3; omega
          · intro m h3 h4; omega)
    obtain ⟨st', h1, _⟩ := hfold
    exact ⟨st', st.dfa.graph.nodes.length, res_bind_eq h1⟩

end Verif
