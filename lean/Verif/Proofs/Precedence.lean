import Verif.Spec.Precedence
import Verif.Proofs.PowersetMain
import Verif.Proofs.Trim

/-! Precedence resolution. -/

set_option autoImplicit false

namespace Verif

theorem HasPrec.unique {rules : List TokenRule} {j p p' : Nat} (h : HasPrec rules j p) (h' : HasPrec rules j p') : p = p' := by
  obtain ⟨r, h1, h2⟩ := h
  obtain ⟨r', h1', h2'⟩ := h'
  rw [h1] at h1'; cases h1'
  rw [h2] at h2'; cases h2'
  rfl

theorem withPrecedence_spec {rules : List TokenRule} {js : List Nat} (h : ∀ j ∈ js, ∃ p, HasPrec rules j p) :
    ∃ l, withPrecedence rules js = some l ∧ l.map (·.1) = js ∧ ∀ x ∈ l, HasPrec rules x.1 x.2 := by
  induction js with
  | nil => exact ⟨[], rfl, rfl, by simp⟩
  | cons j js ih =>
    obtain ⟨l, h1, h2, h3⟩ := ih (fun x hx => h x (List.mem_cons_of_mem _ hx))
    obtain ⟨p, r, hr, hp⟩ := h j (by simp)
    refine ⟨(j, p) :: l, ?_, by simp [h2], ?_⟩
    · simp [withPrecedence, h1, hr, hp]
    · intro x hx
      rcases List.mem_cons.mp hx with rfl | hx
      · exact ⟨r, hr, hp⟩
      · exact h3 x hx

theorem resolvePrecedence_spec {rules : List TokenRule} {js : List Nat} (h : ∀ j ∈ js, ∃ p, HasPrec rules j p) (hne : js ≠ [])
    (hnd : js.Nodup) :
    (∃ j, resolvePrecedence rules js = .ok (.ok j) ∧ IsBest rules js j) ∨
    (∃ e, resolvePrecedence rules js = .ok (.error e) ∧ IsTie rules js e) := by
  obtain ⟨l, h1, h2, h3⟩ := withPrecedence_spec h
  unfold resolvePrecedence
  rw [h1]
  simp only
  generalize hs : l.insertionSort (fun a b => b.2 ≤ a.2) = s
  have hperm : s.Perm l := hs ▸ List.perm_insertionSort _ l
  have hsorted : s.Pairwise (fun a b => b.2 ≤ a.2) := by
    rw [← hs]
    haveI : Std.Total (fun a b : Nat × Nat => b.2 ≤ a.2) := ⟨fun a b => by omega⟩
    haveI : IsTrans (Nat × Nat) (fun a b : Nat × Nat => b.2 ≤ a.2) := ⟨fun a b c h1 h2 => by omega⟩
    exact List.pairwise_insertionSort _ l
  have hmem : ∀ j, j ∈ js ↔ ∃ p, (j, p) ∈ s := by
    intro j
    rw [← h2]
    simp only [List.mem_map, hperm.mem_iff]
    constructor
    · rintro ⟨⟨a, b⟩, hx, rfl⟩; exact ⟨b, hx⟩
    · rintro ⟨p, hp⟩; exact ⟨(j, p), hp, rfl⟩
  have hprec : ∀ x ∈ s, HasPrec rules x.1 x.2 := fun x hx => h3 x (hperm.mem_iff.mp hx)
  have hnd' : (s.map (·.1)).Nodup := by
    have := hperm.map (·.1)
    rw [this.nodup_iff, h2]
    exact hnd
  cases s with
  | nil =>
    exfalso
    have hl := hperm.length_eq
    have : l = [] := List.eq_nil_of_length_eq_zero (by simpa using hl.symm)
    rw [this] at h2
    exact hne h2.symm
  | cons t ts =>
    obtain ⟨tr, tp⟩ := t
    simp only
    have hmax : ∀ x ∈ (tr, tp) :: ts, x.2 ≤ tp := by
      intro x hx
      rcases List.mem_cons.mp hx with rfl | hx
      · exact Nat.le_refl _
      · have := (List.pairwise_cons.mp hsorted).1 x hx
        simpa using this
    generalize hf : (((tr, tp) :: ts).filter (fun r => decide (r.2 = tp))).map (·.1) = f
    have hf1 : ∀ j, j ∈ f ↔ j ∈ js ∧ HasPrec rules j tp := by
      intro j
      rw [← hf, hmem]
      simp only [List.mem_map, List.mem_filter, decide_eq_true_eq]
      constructor
      · rintro ⟨⟨a, b⟩, ⟨hx, rfl⟩, rfl⟩
        exact ⟨⟨b, hx⟩, hprec _ hx⟩
      · rintro ⟨⟨p, hp⟩, hj⟩
        have := (hprec _ hp).unique hj
        simp only at this
        exact ⟨(j, p), ⟨hp, this⟩, rfl⟩
    have hfnd : f.Nodup := by
      rw [← hf]
      exact (hnd'.sublist (List.Sublist.map _ List.filter_sublist))
    have hall : ∀ j ∈ js, ∃ p, HasPrec rules j p ∧ p ≤ tp := by
      intro j hj
      obtain ⟨p, hp⟩ := (hmem j).mp hj
      exact ⟨p, hprec _ hp, hmax _ hp⟩
    by_cases hlen : f.length > 1
    · right
      rw [if_pos hlen]
      exact ⟨_, rfl, hf1, hall, hfnd, hlen⟩
    · left
      rw [if_neg hlen]
      have htr : tr ∈ f := (hf1 tr).mpr ⟨(hmem tr).mpr ⟨tp, by simp⟩, hprec (tr, tp) (by simp)⟩
      match f, hlen, htr, hf1 with
      | [x], _, htr, hf1 =>
        have htr : tr = x := by simpa using htr
        subst htr
        refine ⟨tr, rfl, ((hf1 tr).mp (by simp)).1, tp, ((hf1 tr).mp (by simp)).2, ?_⟩
        intro j' hj' hne'
        obtain ⟨p, hp, hle⟩ := hall j' hj'
        refine ⟨p, hp, ?_⟩
        rcases Nat.lt_or_ge p tp with h | h
        · exact h
        · have : p = tp := by omega
          subst this
          have := (hf1 j').mpr ⟨hj', hp⟩
          simp at this
          exact absurd this hne'
      | a :: b :: f, hlen, _, _ => simp at hlen

theorem IsTie.not_best {rules : List TokenRule} {js : List Nat} {e : PrecedenceError} (h : IsTie rules js e) :
    ¬ ∃ j, IsBest rules js j := by
  rintro ⟨j, hj, p, hp, hlt⟩
  obtain ⟨h1, h2, h3, h4⟩ := h
  match hr : e.rules, h4, h3 with
  | a :: b :: l, _, h3 =>
    have ha := (h1 a).mp (by rw [hr]; simp)
    have hb := (h1 b).mp (by rw [hr]; simp)
    have hab : a ≠ b := by
      rintro rfl
      simp at h3
    obtain ⟨p0, hp0, hle⟩ := h2 j hj
    have := hp0.unique hp
    subst this
    have key : ∀ x ∈ js, HasPrec rules x e.precedence → x = j := by
      intro x hx hpx
      by_cases hxj : x = j
      · exact hxj
      · obtain ⟨p', hp', hlt'⟩ := hlt x hx hxj
        have := hp'.unique hpx
        omega
    exact hab ((key a ha.1 ha.2).trans (key b hb.1 hb.2).symm)

/-- old label vs new label -/
def LabelRel (rules : List TokenRule) : AutomatonState (List Nat) → AutomatonState Nat → Prop
  | .accepting js, .accepting j => IsBest rules js j
  | .intermediate _, .intermediate _ => True
  | _, _ => False

/-- the identity map on `0 .. n-1` as an association list -/
def idMap (n : Nat) : List (Nat × Nat) := (List.range n).map (fun i => (i, i))

theorem minsert_last (k v : Nat) (m : List (Nat × Nat)) (h : ∀ x ∈ m, x.1 < k) : minsert k v m = m ++ [(k, v)] := by
  induction m with
  | nil => rfl
  | cons x m ih =>
    obtain ⟨a, b⟩ := x
    have hx : a < k := h (a, b) (by simp)
    have h1 : ¬ Key.key k = Key.key a := by
      simp [Key.key]; omega
    have h2 : ¬ Key.key k < Key.key a := by
      simp only [Key.key]
      intro hlt
      rw [List.cons_lt_cons_iff] at hlt
      rcases hlt with h | ⟨_, h⟩
      · omega
      · simp at h
    simp only [minsert, if_neg h1, if_neg h2]
    rw [ih (fun x hx => h x (List.mem_cons_of_mem _ hx))]
    rfl

theorem minsert_idMap (n : Nat) : minsert n n (idMap n) = idMap (n + 1) := by
  rw [minsert_last]
  · simp [idMap, List.range_succ]
  · intro x hx
    simp [idMap] at hx
    obtain ⟨a, ha, rfl⟩ := hx
    exact ha

theorem mget?_idMap {n k : Nat} (h : k < n) : mget? k (idMap n) = some k := by
  have key : ∀ l : List Nat, k ∈ l → mget? k (l.map (fun i => (i, i))) = some k := by
    intro l
    induction l with
    | nil => simp
    | cons a l ih =>
      intro hk
      simp only [List.map_cons, mget?]
      by_cases hka : Key.key k = Key.key a
      · rw [if_pos hka]; rw [Key.inj k a hka]
      · rw [if_neg hka]
        rcases List.mem_cons.mp hk with rfl | hk
        · exact absurd rfl hka
        · exact ih hk
  exact key _ (by simp [h])

/-- what is required of the accepting states -/
def AcceptOk (rules : List TokenRule) (st : AutomatonState (List Nat)) : Prop :=
  ∀ js, st = .accepting js → js ≠ [] ∧ js.Nodup ∧ ∀ j ∈ js, ∃ p, HasPrec rules j p

theorem applyPrecedenceStates_spec {rules : List TokenRule} (states : List (AutomatonState (List Nat))) (h : ∀ st ∈ states, AcceptOk rules st) :
    ∀ (dfa : Dfa Nat Nat), 
    (∃ dfa', applyPrecedenceStates rules dfa.graph.nodes.length states dfa (idMap dfa.graph.nodes.length) =
        .ok (.ok (dfa', idMap (dfa.graph.nodes.length + states.length))) ∧
      dfa'.graph.edges = dfa.graph.edges ∧
      ∃ ns, dfa'.graph.nodes = dfa.graph.nodes ++ ns ∧ List.Forall₂ (LabelRel rules) states ns) ∨
    (∃ e, applyPrecedenceStates rules dfa.graph.nodes.length states dfa (idMap dfa.graph.nodes.length) = .ok (.error e) ∧
      ∃ js, .accepting js ∈ states ∧ IsTie rules js e) := by
  induction states with
  | nil => intro dfa; left; exact ⟨dfa, rfl, rfl, [], by simp, .nil⟩
  | cons st states ih =>
    intro dfa
    have hst := h st (by simp)
    have ih := ih (fun x hx => h x (List.mem_cons_of_mem _ hx))
    cases st with
    | accepting js =>
      obtain ⟨h1, h2, h3⟩ := hst js rfl
      rcases resolvePrecedence_spec h3 h1 h2 with ⟨j, hj, hb⟩ | ⟨e, he, ht⟩
      · have hlen : (dfa.addAcceptingState j).1.graph.nodes.length = dfa.graph.nodes.length + 1 := by
          simp [Dfa.addAcceptingState, Graph.addNode]
        have step : applyPrecedenceStates rules dfa.graph.nodes.length (.accepting js :: states) dfa (idMap dfa.graph.nodes.length) =
            applyPrecedenceStates rules (dfa.graph.nodes.length + 1) states (dfa.addAcceptingState j).1 (idMap (dfa.graph.nodes.length + 1)) := by
          simp only [applyPrecedenceStates, hj]
          rw [← minsert_idMap]
          rfl
        rw [step, ← hlen]
        rcases ih (dfa.addAcceptingState j).1 with ⟨d', g1, g2, ns, g3, g4⟩ | ⟨e, g1, js', g2, g3⟩
        · left
          refine ⟨d', ?_, g2, .accepting j :: ns, ?_, .cons hb g4⟩
          · rw [g1, hlen, List.length_cons, Nat.add_assoc, Nat.add_comm 1]
          · rw [g3]; simp [Dfa.addAcceptingState, Graph.addNode]
        · right
          exact ⟨e, g1, js', List.mem_cons_of_mem _ g2, g3⟩
      · right
        refine ⟨e, ?_, js, by simp, ht⟩
        simp only [applyPrecedenceStates, he]
    | intermediate k =>
      have hlen : (dfa.addIntermediateState).1.graph.nodes.length = dfa.graph.nodes.length + 1 := by
        simp [Dfa.addIntermediateState, Graph.addNode]
      have step : applyPrecedenceStates rules dfa.graph.nodes.length (.intermediate k :: states) dfa (idMap dfa.graph.nodes.length) =
          applyPrecedenceStates rules (dfa.graph.nodes.length + 1) states (dfa.addIntermediateState).1 (idMap (dfa.graph.nodes.length + 1)) := by
        simp only [applyPrecedenceStates]
        rw [← minsert_idMap]
        rfl
      rw [step, ← hlen]
      rcases ih (dfa.addIntermediateState).1 with ⟨d', g1, g2, ns, g3, g4⟩ | ⟨e, g1, js', g2, g3⟩
      · left
        refine ⟨d', ?_, g2, .intermediate dfa.intermediateCounter :: ns, ?_, .cons trivial g4⟩
        · rw [g1, hlen, List.length_cons, Nat.add_assoc, Nat.add_comm 1]
        · rw [g3]; simp [Dfa.addIntermediateState, Graph.addNode]
      · right
        exact ⟨e, g1, js', List.mem_cons_of_mem _ g2, g3⟩

theorem applyPrecedenceTransitions_spec {d : Dfa (List Nat) Nat}
    (hwf : ∀ e ∈ d.graph.edges, e.src < d.graph.nodes.length ∧ e.dst < d.graph.nodes.length) (r0 : Dfa Nat Nat) :
    ∃ r, applyPrecedenceTransitions d (idMap d.graph.nodes.length) r0 = .ok r ∧ r.graph.nodes = r0.graph.nodes ∧
      r.graph.edges = r0.graph.edges ++ ((List.range d.graph.nodes.length).map (fun q => d.graph.edgesFrom q)).flatten := by
  have inner : ∀ (q : Nat) (l : List (Edge Nat)) (r : Dfa Nat Nat), (∀ e ∈ l, e.src = q ∧ e.dst < d.graph.nodes.length) →
      ∃ r', (l.map (fun e => (e.weight, e.dst))).foldlM (fun result (x : Nat × Nat) =>
        match mget? x.2 (idMap d.graph.nodes.length) with
        | none => .error .panic
        | some newTarget => .ok (result.addTransition q newTarget x.1)) r = (.ok r' : Res (Dfa Nat Nat)) ∧
        r'.graph.nodes = r.graph.nodes ∧ r'.graph.edges = r.graph.edges ++ l := by
    intro q l
    induction l with
    | nil => intro r _; exact ⟨r, rfl, rfl, by simp⟩
    | cons e l ih =>
      intro r h
      obtain ⟨h1, h2⟩ := h e (by simp)
      obtain ⟨r', g1, g2, g3⟩ := ih (r.addTransition q e.dst e.weight) (fun x hx => h x (List.mem_cons_of_mem _ hx))
      refine ⟨r', ?_, by rw [g2]; rfl, ?_⟩
      · rw [List.map_cons, List.foldlM_cons]
        simp only [mget?_idMap h2]
        exact g1
      · rw [g3]
        simp only [Dfa.addTransition, Graph.addEdge, List.append_assoc, List.cons_append, List.nil_append]
        rw [← h1]
  have outer : ∀ (qs : List Nat) (r : Dfa Nat Nat), 
      ∃ r', (qs.map (fun i => (i, i))).foldlM (fun result (x : Nat × Nat) =>
        (d.transitionsFrom x.1).foldlM (fun result (y : Nat × Nat) =>
          match mget? y.2 (idMap d.graph.nodes.length) with
          | none => .error .panic
          | some newTarget => .ok (result.addTransition x.2 newTarget y.1)) result) r = (.ok r' : Res (Dfa Nat Nat)) ∧
        r'.graph.nodes = r.graph.nodes ∧ r'.graph.edges = r.graph.edges ++ (qs.map (fun q => d.graph.edgesFrom q)).flatten := by
    intro qs
    induction qs with
    | nil => intro r; exact ⟨r, rfl, rfl, by simp⟩
    | cons q qs ih =>
      intro r
      obtain ⟨r1, g1, g2, g3⟩ := inner q (d.graph.edgesFrom q) r (by
        intro e he
        simp [Graph.edgesFrom] at he
        exact ⟨he.2, (hwf e he.1).2⟩)
      obtain ⟨r2, k1, k2, k3⟩ := ih r1
      refine ⟨r2, ?_, by rw [k2, g2], by rw [k3, g3]; simp⟩
      rw [List.map_cons, List.foldlM_cons]
      exact res_bind_ok.mpr ⟨r1, g1, k1⟩
  exact outer (List.range d.graph.nodes.length) r0

theorem applyPrecedence_spec {rules : List TokenRule} {d : Dfa (List Nat) Nat}
    (hwf : ∀ e ∈ d.graph.edges, e.src < d.graph.nodes.length ∧ e.dst < d.graph.nodes.length)
    (h : ∀ st ∈ d.graph.nodes, AcceptOk rules st) :
    (∃ d', applyPrecedenceToDfa rules d = .ok (.ok d') ∧
      List.Forall₂ (LabelRel rules) d.graph.nodes d'.graph.nodes ∧
      d'.graph.edges = ((List.range d.graph.nodes.length).map (fun q => d.graph.edgesFrom q)).flatten) ∨
    (∃ e, applyPrecedenceToDfa rules d = .ok (.error e) ∧ ∃ js, .accepting js ∈ d.graph.nodes ∧ IsTie rules js e) := by
  have := applyPrecedenceStates_spec d.graph.nodes h {}
  simp only [List.length_nil, Nat.zero_add, List.nil_append] at this
  rcases this with ⟨r0, h1, h2, ns, h3, h4⟩ | ⟨e, h1, h2⟩
  · left
    obtain ⟨r, g1, g2, g3⟩ := applyPrecedenceTransitions_spec hwf r0
    refine ⟨r, ?_, by rw [g2, h3]; exact h4, by rw [g3, h2]; simp⟩
    unfold applyPrecedenceToDfa
    have h1' : applyPrecedenceStates rules 0 d.graph.nodes {} [] = _ := h1
    rw [h1']
    simp only [g1]
  · right
    refine ⟨e, ?_, h2⟩
    unfold applyPrecedenceToDfa
    have h1' : applyPrecedenceStates rules 0 d.graph.nodes {} [] = _ := h1
    rw [h1']

theorem mem_flat_edges {d : Dfa (List Nat) Nat}
    (hwf : ∀ e ∈ d.graph.edges, e.src < d.graph.nodes.length ∧ e.dst < d.graph.nodes.length) (e : Edge Nat) :
    e ∈ ((List.range d.graph.nodes.length).map (fun q => d.graph.edgesFrom q)).flatten ↔ e ∈ d.graph.edges := by
  simp only [List.mem_flatten, List.mem_map, List.mem_range]
  constructor
  · rintro ⟨l, ⟨q, _, rfl⟩, he⟩
    simp [Graph.edgesFrom] at he
    exact he.1
  · intro he
    exact ⟨_, ⟨e.src, (hwf e he).1, rfl⟩, by simp [Graph.edgesFrom, he]⟩

theorem filter_flat_edges {d : Dfa (List Nat) Nat} {q : Nat} (hq : q < d.graph.nodes.length) :
    (((List.range d.graph.nodes.length).map (fun q => d.graph.edgesFrom q)).flatten).filter (fun e => e.src = q) = d.graph.edgesFrom q := by
  have self : (d.graph.edgesFrom q).filter (fun e => decide (e.src = q)) = d.graph.edgesFrom q := by
    rw [List.filter_eq_self]
    intro e he
    simp [Graph.edgesFrom] at he
    simp [he.2]
  have other : ∀ q', q' ≠ q → (d.graph.edgesFrom q').filter (fun e => decide (e.src = q)) = [] := by
    intro q' hne
    rw [List.filter_eq_nil_iff]
    intro e he
    simp [Graph.edgesFrom] at he
    simp only [decide_eq_true_eq]
    omega
  generalize d.graph.nodes.length = n at hq
  induction n with
  | zero => omega
  | succ n ih =>
    rw [List.range_succ, List.map_append, List.flatten_append, List.filter_append]
    simp only [List.map_cons, List.map_nil, List.flatten_cons, List.flatten_nil, List.append_nil]
    by_cases hqn : q = n
    · subst hqn
      rw [self]
      have : (((List.range q).map (fun q => d.graph.edgesFrom q)).flatten).filter (fun e => decide (e.src = q)) = [] := by
        rw [List.filter_eq_nil_iff]
        intro e he
        simp only [List.mem_flatten, List.mem_map, List.mem_range] at he
        obtain ⟨l, ⟨q', hq', rfl⟩, he⟩ := he
        simp [Graph.edgesFrom] at he
        simp only [decide_eq_true_eq]
        omega
      rw [this]; rfl
    · rw [ih (by omega), other n (fun h => hqn h.symm), List.append_nil]

end Verif
