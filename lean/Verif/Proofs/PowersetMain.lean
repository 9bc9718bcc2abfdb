import Verif.Proofs.Convert

/-! The powerset construction as a whole. -/

set_option linter.unusedSectionVars false

namespace Verif

variable {σ τ : Type} [Key τ]

/-- everything the construction guarantees, in terms of the set of NFA nodes of each DFA node -/
structure PowOk (a : Nfa σ τ) (entry : Nat) (d : Dfa (List σ) τ) (S : Nat → List Nat) : Prop where
  pos : 0 < d.graph.nodes.length
  start : S 0 = a.clo [entry]
  label : ∀ m < d.graph.nodes.length, ∃ w, d.graph.nodes[m]? = some w ∧ LabelOk a (S m) w
  inj : ∀ m < d.graph.nodes.length, ∀ m' < d.graph.nodes.length, S m = S m' → m = m'
  clos : ∀ m < d.graph.nodes.length, ∃ x, S m = a.clo x
  edges : ∀ m < d.graph.nodes.length,
    List.Forall₂ (fun (e : Edge τ) (p : τ × List Nat) => e.weight = p.1 ∧ e.dst < d.graph.nodes.length ∧ S e.dst = a.clo p.2)
      (outs d.graph m) (a.targetMultiMap (S m)).reverse
  wf : ∀ e ∈ d.graph.edges, e.src < d.graph.nodes.length ∧ e.dst < d.graph.nodes.length
  reach : ∀ m < d.graph.nodes.length, GReach d.graph 0 m

theorem outs_reverse {ν ω : Type} (g : Graph ν ω) (n : Nat) : g.edgesFrom n = (outs g n).reverse := rfl

theorem forall2_reverse {α β : Type} {R : α → β → Prop} {l1 : List α} {l2 : List β} (h : List.Forall₂ R l1 l2) :
    List.Forall₂ R l1.reverse l2.reverse := by
  induction h with
  | nil => exact .nil
  | cons h _ ih => simp only [List.reverse_cons]; exact forall2_snoc ih h

theorem forall2_comp {α β γ : Type} {R : α → β → Prop} {S : β → γ → Prop} {T : α → γ → Prop}
    (h : ∀ a b c, R a b → S b c → T a c) {l1 : List α} {l2 : List β} {l3 : List γ}
    (h1 : List.Forall₂ R l1 l2) (h2 : List.Forall₂ S l2 l3) : List.Forall₂ T l1 l3 := by
  induction h1 generalizing l3 with
  | nil => cases h2; exact .nil
  | cons hab _ ih =>
    cases h2 with
    | cons hbc h2 => exact .cons (h _ _ _ hab hbc) (ih h2)

theorem forall2_mem_left {α β : Type} {R : α → β → Prop} {l1 : List α} {l2 : List β} (h : List.Forall₂ R l1 l2) {x : α} (hx : x ∈ l1) :
    ∃ y ∈ l2, R x y := by
  induction h with
  | nil => cases hx
  | cons hr _ ih =>
    rcases List.mem_cons.mp hx with rfl | hx
    · exact ⟨_, by simp, hr⟩
    · obtain ⟨y, h1, h2⟩ := ih hx
      exact ⟨y, List.mem_cons_of_mem _ h1, h2⟩

theorem forall2_mem_right {α β : Type} {R : α → β → Prop} {l1 : List α} {l2 : List β} (h : List.Forall₂ R l1 l2) {y : β} (hy : y ∈ l2) :
    ∃ x ∈ l1, R x y := by
  induction h with
  | nil => cases hy
  | cons hr _ ih =>
    rcases List.mem_cons.mp hy with rfl | hy
    · exact ⟨_, by simp, hr⟩
    · obtain ⟨x, h1, h2⟩ := ih hy
      exact ⟨x, List.mem_cons_of_mem _ h1, h2⟩

theorem CInv.init : CInv ({} : Nfa.ConvState σ τ) := by
  refine ⟨List.Pairwise.nil, ?_, ?_, ?_, ?_⟩
  · intro o m h; simp [mget?] at h
  · intro m hm; simp at hm
  · intro o o' m h; simp [mget?] at h
  · intro e he; simp at he

theorem powersetConstruction_ok (a : Nfa σ τ) (hw : a.WF) {fuel entry : Nat} {d : Dfa (List σ) τ}
    (h : a.powersetConstruction fuel entry = .ok d) : ∃ S, PowOk a entry d S := by
  unfold Nfa.powersetConstruction at h
  obtain ⟨⟨pdfa, start⟩, h1, h⟩ := res_bind_ok.mp h
  obtain ⟨⟨st, n⟩, h2, h⟩ := res_bind_ok.mp h
  cases h
  have p := addPowersetToDfa_ok a hw fuel {} [entry] pdfa start (by simp) h1
  have hwf : ∀ e ∈ pdfa.edges, e.src < pdfa.nodes.length ∧ e.dst < pdfa.nodes.length := by
    intro e he
    rcases p.edges e he with h3 | h3
    · simp at h3
    · exact h3
  have c := convert_ok a pdfa fuel {} start st n CInv.init rfl h2
  have hnd : pdfa.nodes.Nodup := p.nodup (by simp)
  have hn0 : n = 0 := c.new
  subst hn0
  -- the set of a DFA node
  let S : Nat → List Nat := fun m =>
    match st.visited.find? (fun p => p.2 = m) with
    | some p => (pdfa.nodes[p.1]?).getD []
    | none => []
  have hS : ∀ o m, mget? o st.visited = some m → pdfa.nodes[o]? = some (S m) := by
    intro o m hm
    obtain ⟨set, w, d1, _⟩ := c.done o m hm (Nat.zero_le _)
    have hmem := mget?_mem hm
    have : ∃ p, st.visited.find? (fun p => p.2 = m) = some p := by
      rcases hf : st.visited.find? (fun p => p.2 = m) with _ | p
      · rw [List.find?_eq_none] at hf
        have := hf _ hmem
        simp at this
      · exact ⟨p, hf⟩
    obtain ⟨q, hq⟩ := this
    have hq2 : q.2 = m := by simpa using List.find?_some hq
    have hqm : mget? q.1 st.visited = some m := by
      have := mem_mget? c.inv.sorted (k := q.1) (v := q.2) (List.mem_of_find?_eq_some hq)
      rw [this, hq2]
    have := c.inv.inj _ _ _ hm hqm
    subst this
    simp only [S, hq, d1, Option.getD_some]
  refine ⟨S, c.len, ?_, ?_, ?_, ?_, ?_, c.inv.wf, fun m hm => c.reach m (Nat.zero_le _) hm⟩
  · have h3 := hS start 0 c.node
    rw [p.node] at h3
    exact (Option.some.inj h3).symm
  · intro m hm
    obtain ⟨o, ho⟩ := c.inv.surj m hm
    obtain ⟨set, w, d1, d2, d3, _⟩ := c.done o m ho (Nat.zero_le _)
    rw [hS o m ho] at d1
    cases d1
    exact ⟨w, d2, d3⟩
  · intro m hm m' hm' hmm
    obtain ⟨o, ho⟩ := c.inv.surj m hm
    obtain ⟨o', ho'⟩ := c.inv.surj m' hm'
    have e1 := hS o m ho
    have e2 := hS o' m' ho'
    rw [← hmm] at e2
    have : o = o' := by
      have h1 := List.getElem?_eq_some_iff.mp e1
      have h2 := List.getElem?_eq_some_iff.mp e2
      obtain ⟨l1, g1⟩ := h1
      obtain ⟨l2, g2⟩ := h2
      exact (List.Nodup.getElem_inj_iff hnd).mp (g1.trans g2.symm)
    subst this
    rw [ho] at ho'
    exact Option.some.inj ho'
  · intro m hm
    obtain ⟨o, ho⟩ := c.inv.surj m hm
    have := hS o m ho
    have hmem := List.mem_of_getElem? this
    rcases p.clos _ hmem with h3 | h3
    · simp at h3
    · exact h3
  · intro m hm
    obtain ⟨o, ho⟩ := c.inv.surj m hm
    obtain ⟨set, w, d1, d2, d3, d4⟩ := c.done o m ho (Nat.zero_le _)
    rw [hS o m ho] at d1
    cases d1
    have hol := (List.getElem?_eq_some_iff.mp (hS o m ho)).1
    obtain ⟨set, p1, p2⟩ := p.done o (Nat.zero_le _) hol
    rw [hS o m ho] at p1
    cases p1
    rw [outs_reverse] at d4
    refine forall2_comp ?_ d4 (forall2_reverse p2)
    intro e' e p ⟨a1, a2⟩ ⟨b1, b2⟩
    refine ⟨a1.trans b1, c.inv.bound _ _ a2, ?_⟩
    have := hS _ _ a2
    rw [b2] at this
    exact (Option.some.inj this).symm

theorem powersetConstruction_total (a : Nfa σ τ) (hw : a.WF) {entry : Nat} (he : entry < a.graph.nodes.length) :
    ∃ fuel0, ∀ fuel, fuel0 ≤ fuel → ∃ d, a.powersetConstruction fuel entry = .ok d := by
  refine ⟨2 ^ a.graph.nodes.length + 1, ?_⟩
  intro fuel hf
  have hinit : SetsOk a ({} : Graph (List Nat) τ) := ⟨by simp, by simp, by simp⟩
  obtain ⟨pdfa, start, h1, hok⟩ := addPowersetToDfa_total a hw fuel {} [entry] hinit (by simpa using he) (by simp; omega)
  have p := addPowersetToDfa_ok a hw fuel {} [entry] pdfa start (by simp) h1
  have hb := powerset_bound hok.1 hok.2.1
  obtain ⟨st, n, h2⟩ := convert_total a pdfa hok.2.2 fuel {} start CInv.init rfl (List.getElem?_eq_some_iff.mp p.node).1 (by
    have := missing_le pdfa.nodes.length ([] : List Nat)
    simp only [List.map_nil]
    omega)
  refine ⟨st.dfa, ?_⟩
  unfold Nfa.powersetConstruction
  rw [res_bind_eq h1]
  show (_ >>= _) = _
  rw [res_bind_eq h2]

/-! ### consequences in terms of runs -/

theorem path_cons_inv {a : Nfa σ τ} {x z : Nat} {w : List τ} (h : a.Path x w z) :
    match w with
    | [] => a.EpsReach x z
    | t :: w' => ∃ y1 y2, a.EpsReach x y1 ∧ (⟨y1, y2, .transition t⟩ : Edge (NfaEdge τ)) ∈ a.graph.edges ∧ a.Path y2 w' z := by
  induction h with
  | refl q => exact .refl q
  | @eps q q' q'' w he hp ih =>
    cases w with
    | nil => exact .step he ih
    | cons t w =>
      obtain ⟨y1, y2, h1, h2, h3⟩ := ih
      exact ⟨y1, y2, .step he h1, h2, h3⟩
  | @step q q' q'' t w he hp ih => exact ⟨q, q', .refl q, he, hp⟩

namespace PowOk

variable {a : Nfa σ τ} {entry : Nat} {d : Dfa (List σ) τ} {S : Nat → List Nat}

theorem closed (hw : a.WF) (h : PowOk a entry d S) {m : Nat} (hm : m < d.graph.nodes.length) {x y : Nat} (hx : x ∈ S m)
    (hr : a.EpsReach x y) : y ∈ S m := by
  obtain ⟨l, hl⟩ := h.clos m hm
  rw [hl, mem_clo a hw] at hx ⊢
  obtain ⟨s, h1, h2⟩ := hx
  refine ⟨s, h1, ?_⟩
  clear h1 hl
  induction h2 with
  | refl => exact hr
  | step e _ ih => exact .step e (ih hr)

/-- the targets of an edge -/
theorem edge_mem (hw : a.WF) (h : PowOk a entry d S) {e : Edge τ} (he : e ∈ d.graph.edges) (x : Nat) :
    x ∈ S e.dst ↔ ∃ y ∈ S e.src, ∃ z, (⟨y, z, .transition e.weight⟩ : Edge (NfaEdge τ)) ∈ a.graph.edges ∧ a.EpsReach z x := by
  have hb := h.wf e he
  have hmem : e ∈ outs d.graph e.src := by simp [outs, he]
  obtain ⟨p, hp, hr1, hr2, hr3⟩ := forall2_mem_left (h.edges e.src hb.1) hmem
  rw [List.mem_reverse] at hp
  obtain ⟨t1, _, t3⟩ := targetMultiMap_spec a (S e.src)
  have hget := mem_mget? t1 (k := p.1) (v := p.2) hp
  rw [hr3, mem_clo a hw]
  constructor
  · rintro ⟨s, hs, hr⟩
    obtain ⟨y, hy1, hy2⟩ := (t3 p.1 s).mp (by rw [hget]; exact hs)
    exact ⟨y, hy1, s, by rw [hr1]; exact hy2, hr⟩
  · rintro ⟨y, hy, z, hz, hr⟩
    refine ⟨z, ?_, hr⟩
    have := (t3 p.1 z).mpr ⟨y, hy, by rw [← hr1]; exact hz⟩
    rw [hget] at this
    exact this

theorem edge_exists (_hw : a.WF) (h : PowOk a entry d S) {m : Nat} (hm : m < d.graph.nodes.length) {y z : Nat} {t : τ} (hy : y ∈ S m)
    (hz : (⟨y, z, .transition t⟩ : Edge (NfaEdge τ)) ∈ a.graph.edges) :
    ∃ m', (⟨m, m', t⟩ : Edge τ) ∈ d.graph.edges := by
  obtain ⟨t1, _, t3⟩ := targetMultiMap_spec a (S m)
  have hmem := (t3 t z).mpr ⟨y, hy, hz⟩
  rcases hg : mget? t (a.targetMultiMap (S m)) with _ | ts
  · rw [hg] at hmem; simp at hmem
  · have hp := mget?_mem hg
    obtain ⟨e, he, hr1, _⟩ := forall2_mem_right (h.edges m hm) (List.mem_reverse.mpr hp)
    simp only [outs, List.mem_filter, decide_eq_true_eq] at he
    refine ⟨e.dst, ?_⟩
    obtain ⟨s, dd, wt⟩ := e
    simp only at hr1 he ⊢
    obtain ⟨he1, rfl⟩ := he
    subst hr1
    exact he1

theorem det (h : PowOk a entry d S) {m m1 m2 : Nat} {t : τ} (h1 : (⟨m, m1, t⟩ : Edge τ) ∈ d.graph.edges)
    (h2 : (⟨m, m2, t⟩ : Edge τ) ∈ d.graph.edges) : m1 = m2 := by
  have hb := h.wf _ h1
  obtain ⟨p, hp, a1, a2, a3⟩ := forall2_mem_left (h.edges m hb.1) (x := ⟨m, m1, t⟩) (by simp [outs, h1])
  obtain ⟨q, hq, b1, b2, b3⟩ := forall2_mem_left (h.edges m hb.1) (x := ⟨m, m2, t⟩) (by simp [outs, h2])
  obtain ⟨t1, _, _⟩ := targetMultiMap_spec a (S m)
  have e1 := mem_mget? t1 (k := p.1) (v := p.2) (List.mem_reverse.mp hp)
  have e2 := mem_mget? t1 (k := q.1) (v := q.2) (List.mem_reverse.mp hq)
  simp only at a1 b1
  rw [← a1] at e1
  rw [← b1] at e2
  rw [e1] at e2
  have := Option.some.inj e2
  rw [this] at a3
  exact h.inj _ a2 _ b2 (a3.trans b3.symm)

theorem weights_nodup (h : PowOk a entry d S) (m : Nat) : ((d.transitionsFrom m).map (·.1)).Nodup := by
  rcases Nat.lt_or_ge m d.graph.nodes.length with hm | hm
  · obtain ⟨t1, _, _⟩ := targetMultiMap_spec a (S m)
    have hk := t1.keys_nodup
    have hf := h.edges m hm
    have : (outs d.graph m).map (fun e => e.weight) = (a.targetMultiMap (S m)).reverse.map (·.1) := by
      generalize (a.targetMultiMap (S m)).reverse = l2 at hf
      generalize outs d.graph m = l1 at hf
      induction hf with
      | nil => rfl
      | cons hr _ ih => simp [hr.1, ih]
    simp only [Dfa.transitionsFrom, Graph.edgesFrom, List.map_map]
    have h2 : (List.map ((fun x => x.1) ∘ fun e : Edge τ => (e.weight, e.dst)) (List.filter (fun e => decide (e.src = m)) d.graph.edges).reverse)
        = ((outs d.graph m).map (fun e => e.weight)).reverse := by
      rw [← List.map_reverse]; rfl
    rw [h2, this]
    simpa using hk
  · have : d.transitionsFrom m = [] := by
      simp only [Dfa.transitionsFrom, Graph.edgesFrom]
      have : d.graph.edges.filter (fun e => decide (e.src = m)) = [] := by
        rw [List.filter_eq_nil_iff]
        intro e he
        have := (h.wf e he).1
        simp; omega
      rw [this]; rfl
    simp [this]

theorem run (hw : a.WF) (h : PowOk a entry d S) {m q : Nat} {w : List τ} (hp : d.Path m w q) (hm : m < d.graph.nodes.length) :
    q < d.graph.nodes.length ∧ ∀ x, x ∈ S q ↔ ∃ y ∈ S m, a.Path y w x := by
  induction hp with
  | refl q =>
    refine ⟨hm, fun x => ⟨fun hx => ⟨x, hx, .refl x⟩, ?_⟩⟩
    rintro ⟨y, hy, hp⟩
    exact h.closed hw hm hy (path_cons_inv hp)
  | @step q q' q'' t w he hp ih =>
    obtain ⟨h1, h2⟩ := ih (h.wf _ he).2
    refine ⟨h1, fun x => ?_⟩
    rw [h2]
    constructor
    · rintro ⟨y, hy, hyp⟩
      obtain ⟨y0, hy0, z, hz, hr⟩ := (h.edge_mem hw he y).mp hy
      exact ⟨y0, hy0, .step hz (hr.path hyp)⟩
    · rintro ⟨y0, hy0, hyp⟩
      obtain ⟨y1, y2, r1, r2, r3⟩ := path_cons_inv hyp
      exact ⟨y2, (h.edge_mem hw he y2).mpr ⟨y1, h.closed hw hm hy0 r1, y2, r2, .refl _⟩, r3⟩

theorem run_exists (hw : a.WF) (h : PowOk a entry d S) {m : Nat} {w : List τ} (hm : m < d.graph.nodes.length) {y x : Nat}
    (hy : y ∈ S m) (hp : a.Path y w x) : ∃ q, d.Path m w q := by
  induction w generalizing m y with
  | nil => exact ⟨m, .refl m⟩
  | cons t w ih =>
    obtain ⟨y1, y2, r1, r2, r3⟩ := path_cons_inv hp
    obtain ⟨m', he⟩ := h.edge_exists hw hm (h.closed hw hm hy r1) r2
    have hy2 : y2 ∈ S m' := (h.edge_mem hw he y2).mpr ⟨y1, h.closed hw hm hy r1, y2, r2, .refl _⟩
    obtain ⟨q, hq⟩ := ih (h.wf _ he).2 hy2 r3
    exact ⟨q, .step he hq⟩

theorem start_mem (hw : a.WF) (h : PowOk a entry d S) (w : List τ) (x : Nat) :
    (∃ y ∈ S 0, a.Path y w x) ↔ a.Path entry w x := by
  rw [h.start]
  constructor
  · rintro ⟨y, hy, hp⟩
    obtain ⟨s, hs, hr⟩ := (mem_clo a hw _ _).mp hy
    simp only [List.mem_singleton] at hs
    subst hs
    exact hr.path hp
  · intro hp
    exact ⟨entry, (mem_clo a hw _ _).mpr ⟨entry, by simp, .refl _⟩, hp⟩

end PowOk

theorem greach_path {d : Dfa σ τ} {i j : Nat} (h : GReach d.graph i j) : ∃ w, d.Path i w j := by
  have snoc : ∀ {i j k t} {w : List τ}, d.Path i w j → (⟨j, k, t⟩ : Edge τ) ∈ d.graph.edges → d.Path i (w ++ [t]) k := by
    intro i j k t w hp he
    induction hp with
    | refl q => exact .step he (.refl k)
    | step he' _ ih => exact .step he' (ih he)
  induction h with
  | refl => exact ⟨[], .refl _⟩
  | @snoc j e hr he hs ih =>
    obtain ⟨w, hw⟩ := ih
    obtain ⟨s, dd, t⟩ := e
    simp only at hs
    subst hs
    exact ⟨w ++ [t], snoc hw he⟩

theorem mem_acceptsOf {a : Nfa σ τ} {set : List Nat} {s : σ} :
    s ∈ a.acceptsOf set ↔ ∃ x ∈ set, a.graph.nodes[x]? = some (.accepting s) := by
  simp only [Nfa.acceptsOf, List.mem_filterMap]
  constructor
  · rintro ⟨x, hx, h⟩
    refine ⟨x, hx, ?_⟩
    split at h
    · rename_i s' hs'; simp only [Option.some.injEq] at h; rw [← h]; exact hs'
    · cases h
  · rintro ⟨x, hx, h⟩
    exact ⟨x, hx, by simp [h]⟩

end Verif
