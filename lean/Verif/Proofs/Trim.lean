import Verif.Proofs.NfaAll
import Verif.Proofs.Closure

/-! Every node of the generated NFA leads to an accepting node; nothing leads into the start node. -/

set_option autoImplicit false

namespace Verif

/-- new edges lead to the end node or to new nodes -/
def InOk (b : Builder) : Prop :=
  ∀ ⦃s e n n'⦄, b s e n = .ok n' → n.graph.nodes.length ≤ n'.graph.nodes.length ∧
    ∀ ed ∈ n'.graph.edges, ed ∈ n.graph.edges ∨ ed.dst = e ∨ n.graph.nodes.length ≤ ed.dst

/-- new nodes lead to the end node -/
def CoOk (al : Alphabet) (b : Builder) : Prop :=
  ∀ ⦃s e n n'⦄, b s e n = .ok n' → s < n.graph.nodes.length → e < n.graph.nodes.length →
    ∀ q, n.graph.nodes.length ≤ q → q < n'.graph.nodes.length → ∃ u : List Char, n'.Path q (u.map (classOf al)) e

theorem foldl_addTransition_nodes (is : List Nat) (n : LexNfa) (s e : Nat) :
    (is.foldl (fun nfa i => nfa.addTransition s e i) n).graph.nodes = n.graph.nodes := by
  induction is generalizing n with
  | nil => rfl
  | cons i is ih => simp only [List.foldl_cons]; rw [ih]; rfl

theorem foldl_addTransition_edges (is : List Nat) (n : LexNfa) (s e : Nat) :
    ∀ ed ∈ (is.foldl (fun nfa i => nfa.addTransition s e i) n).graph.edges, ed ∈ n.graph.edges ∨ ed.dst = e := by
  induction is generalizing n with
  | nil => exact fun ed h => Or.inl h
  | cons i is ih =>
    intro ed h
    rcases ih _ ed h with h | h
    · rcases List.mem_append.mp h with h | h
      · exact Or.inl h
      · simp at h; subst h; exact Or.inr rfl
    · exact Or.inr h

theorem buildCharSet_cases {al : Alphabet} {xs : List Characters} {neg : Bool} {s e : Nat} {n n' : LexNfa}
    (h : buildCharSet al xs neg s e n = .ok n') : ∃ is : List Nat, n' = is.foldl (fun nfa i => nfa.addTransition s e i) n := by
  unfold buildCharSet at h
  obtain ⟨o, _, h2⟩ := res_bind_ok.mp h
  cases o with
  | none => cases h2; exact ⟨[], rfl⟩
  | some is =>
    simp only at h2
    split at h2 <;> cases h2 <;> exact ⟨_, rfl⟩

theorem buildChar_cases {al : Alphabet} {x : Characters} {s e : Nat} {n n' : LexNfa}
    (h : buildChar al x s e n = .ok n') : ∃ is : List Nat, n' = is.foldl (fun nfa i => nfa.addTransition s e i) n := by
  unfold buildChar at h
  cases x with
  | single c =>
    obtain ⟨o, _, h2⟩ := res_bind_ok.mp h
    cases o with
    | none => cases h2; exact ⟨[], rfl⟩
    | some i => cases h2; exact ⟨[i], rfl⟩
  | range c1 c2 =>
    obtain ⟨o, _, h2⟩ := res_bind_ok.mp h
    cases o with
    | none => cases h2; exact ⟨[], rfl⟩
    | some i =>
      obtain ⟨o, _, h3⟩ := res_bind_ok.mp h2
      cases o with
      | none => cases h3; exact ⟨[], rfl⟩
      | some i => cases h3; exact ⟨_, rfl⟩

theorem inOk_fold {b : Builder} (h : ∀ {s e n n'}, b s e n = .ok n' →
    ∃ is : List Nat, n' = is.foldl (fun nfa i => nfa.addTransition s e i) n) : InOk b := by
  intro s e n n' hb
  obtain ⟨is, rfl⟩ := h hb
  refine ⟨Nat.le_of_eq (by rw [foldl_addTransition_nodes]), ?_⟩
  intro ed hed
  rcases foldl_addTransition_edges is n s e ed hed with h | h
  · exact Or.inl h
  · exact Or.inr (Or.inl h)

theorem coOk_fold {al : Alphabet} {b : Builder} (h : ∀ {s e n n'}, b s e n = .ok n' →
    ∃ is : List Nat, n' = is.foldl (fun nfa i => nfa.addTransition s e i) n) : CoOk al b := by
  intro s e n n' hb _ _ q h1 h2
  obtain ⟨is, rfl⟩ := h hb
  rw [foldl_addTransition_nodes] at h2
  omega

/-- the chain version of `InOk` -/
theorem inOk_chain {bs : List Builder} (h : ∀ b ∈ bs, InOk b) :
    ∀ {s e n n' is}, chainPatternIterator bs s e n = .ok (n', is) → n.graph.nodes.length ≤ n'.graph.nodes.length ∧
      (∀ ed ∈ n'.graph.edges, ed ∈ n.graph.edges ∨ ed.dst = e ∨ n.graph.nodes.length ≤ ed.dst) ∧
      ∀ i ∈ is, n.graph.nodes.length ≤ i := by
  induction bs with
  | nil => intro s e n n' is hc; cases hc
  | cons b bs ih =>
    intro s e n n' is hc
    cases bs with
    | nil =>
      unfold chainPatternIterator at hc
      obtain ⟨n1, h1, h2⟩ := res_bind_ok.mp hc
      cases h2
      have := h b (by simp) h1
      exact ⟨this.1, this.2, by simp⟩
    | cons b' bs' =>
      simp only [chainPatternIterator, addInter_snd] at hc
      obtain ⟨n1, h1, h2⟩ := res_bind_ok.mp hc
      obtain ⟨⟨n2, is2⟩, h3, h4⟩ := res_bind_ok.mp h2
      cases h4
      obtain ⟨a1, a2⟩ := h b (by simp) h1
      obtain ⟨c1, c2, c3⟩ := ih (fun x hx => h x (List.mem_cons_of_mem _ hx)) h3
      simp only [addInter_len, addInter_edges] at a1 a2
      refine ⟨by show _ ≤ n2.graph.nodes.length; omega, ?_, ?_⟩
      · intro ed hed
        rcases c2 ed hed with hh | hh | hh
        · rcases a2 ed hh with g | g | g
          · exact Or.inl g
          · right; right; omega
          · right; right; omega
        · exact Or.inr (Or.inl hh)
        · right; right; omega
      · intro i hi
        rcases List.mem_cons.mp hi with rfl | hi
        · exact Nat.le_refl _
        · have := c3 i hi; omega

/-- the chain version of `CoOk` -/
theorem coOk_chain {al : Alphabet} {bs : List Builder} {Ls Cs : List Lang} (hb : BuildsAll al bs Ls Cs)
    (hc : ∀ C ∈ Cs, ∃ w, C w) (h : ∀ b ∈ bs, CoOk al b) :
    ∀ {s e n n' is}, chainPatternIterator bs s e n = .ok (n', is) → s < n.graph.nodes.length → e < n.graph.nodes.length →
      ∀ q, n.graph.nodes.length ≤ q → q < n'.graph.nodes.length → ∃ u : List Char, n'.Path q (u.map (classOf al)) e := by
  induction hb with
  | nil => intro s e n n' is h; cases h
  | @cons b bs L Ls C Cs hb hbs ih =>
    intro s e n n' is hci hs he q hq1 hq2
    cases hbs with
    | nil =>
      unfold chainPatternIterator at hci
      obtain ⟨n1, h1, h2⟩ := res_bind_ok.mp hci
      cases h2
      exact h b (by simp) h1 hs he q hq1 hq2
    | @cons b' bs' L' Ls' C' Cs' hb' hbs' =>
      simp only [chainPatternIterator, addInter_snd] at hci
      obtain ⟨n1, h1, h2⟩ := res_bind_ok.mp hci
      obtain ⟨⟨n2, is2⟩, h3, h4⟩ := res_bind_ok.mp h2
      cases h4
      have hx1 := hb.ext h1 (by simp; omega) (by simp)
      have hl1 := hx1.len
      rw [addInter_len] at hl1
      obtain ⟨hx2, _, pc, _⟩ := chain_spec (.cons hb' hbs') h3 (by omega) (by omega)
      have ne : ∃ w, catAll (C' :: Cs') (fun v => v = []) w := by
        have hc' : ∀ D ∈ C' :: Cs', ∃ w, D w := fun D hD => hc D (List.mem_cons_of_mem _ hD)
        generalize C' :: Cs' = Ds at hc'
        induction Ds with
        | nil => exact ⟨[], rfl⟩
        | cons D Ds ihD =>
          obtain ⟨u, hu⟩ := hc' D (by simp)
          obtain ⟨v, hv⟩ := ihD (fun X hX => hc' X (List.mem_cons_of_mem _ hX))
          exact ⟨u ++ v, u, v, rfl, hu, hv⟩
      obtain ⟨w, hw⟩ := ne
      have tail := pc.run hw
      by_cases hqn : q < n1.graph.nodes.length
      · by_cases hq0 : q = n.graph.nodes.length
        · subst hq0; exact ⟨w, tail⟩
        · obtain ⟨u, hu⟩ := h b (by simp) h1 (by simp; omega) (by simp) q (by simp; omega) hqn
          refine ⟨u ++ w, ?_⟩
          rw [List.map_append]
          exact (hx2.path hu).trans tail
      · exact ih (fun D hD => hc D (List.mem_cons_of_mem _ hD)) (fun x hx => h x (List.mem_cons_of_mem _ hx)) h3
          (by omega) (by omega) q (by omega) hq2

theorem inOk_alternative {bs : List Builder} (h : ∀ b ∈ bs, InOk b) : InOk (buildAlternative bs) := by
  induction bs with
  | nil => intro s e n n' hb; cases hb; exact ⟨Nat.le_refl _, fun ed h => Or.inl h⟩
  | cons b bs ih =>
    intro s e n n' hb
    simp only [buildAlternative, addInter_snd, addInter_len] at hb
    obtain ⟨n1, h1, h2⟩ := res_bind_ok.mp hb
    obtain ⟨a1, a2⟩ := h b (by simp) h1
    obtain ⟨c1, c2⟩ := ih (fun x hx => h x (List.mem_cons_of_mem _ hx)) h2
    simp only [addInter_len, addInter_edges, addEps_nodes, addEps_edges] at a1 a2 c1 c2
    refine ⟨by omega, ?_⟩
    intro ed hed
    rcases c2 ed hed with hh | hh | hh
    · simp only [List.append_assoc, List.mem_append, List.mem_cons, List.not_mem_nil, or_false] at hh
      rcases hh with hh | rfl | rfl
      · rcases a2 ed hh with g | g | g
        · exact Or.inl g
        · right; right; omega
        · right; right; omega
      · right; right; exact Nat.le_refl _
      · exact Or.inr (Or.inl rfl)
    · exact Or.inr (Or.inl hh)
    · right; right; omega

theorem coOk_alternative {al : Alphabet} {bs : List Builder} {Ls Cs : List Lang} (hb : BuildsAll al bs Ls Cs)
    (hc : ∀ C ∈ Cs, ∃ w, C w) (h : ∀ b ∈ bs, CoOk al b) : CoOk al (buildAlternative bs) := by
  induction hb with
  | nil => intro s e n n' hb _ _ q h1 h2; cases hb; omega
  | @cons b bs L Ls C Cs hb hbs ih =>
    intro s e n n' hB hs he q hq1 hq2
    simp only [buildAlternative, addInter_snd, addInter_len] at hB
    obtain ⟨n1, h1, h2⟩ := res_bind_ok.mp hB
    have hx1 := hb.ext h1 (by simp) (by simp)
    have hl1 := hx1.len
    simp only [addInter_len] at hl1
    have hx2 : Ext n1 (n1.addEpsilonTransition s n.graph.nodes.length) := ext_addEdge n1 .epsilon (by omega) (by omega)
    have hx3 := ext_addEdge (n1.addEpsilonTransition s n.graph.nodes.length) (s := n.graph.nodes.length + 1) (d := e)
      .epsilon (by simp; omega) (by simp; omega)
    have hx4 : Ext _ n' := (builds_alternative hbs).ext h2 (by simp; omega) (by simp; omega)
    have e2 : (⟨n.graph.nodes.length + 1, e, .epsilon⟩ : Edge (NfaEdge Nat)) ∈ n'.graph.edges := hx4.mem (by simp)
    by_cases hqn : q < n1.graph.nodes.length
    · have toEnd : ∀ u : List Char, n1.Path q (u.map (classOf al)) (n.graph.nodes.length + 1) → ∃ u : List Char, n'.Path q (u.map (classOf al)) e := by
        intro u hu
        refine ⟨u, ?_⟩
        have := (((hx2.trans hx3).trans hx4).path hu).trans (.eps e2 (.refl e))
        simpa using this
      by_cases hq0 : q = n.graph.nodes.length
      · subst hq0
        obtain ⟨w, hw⟩ := hc C (by simp)
        exact toEnd w (hb.complete h1 (by simp) (by simp) w hw)
      · by_cases hq1' : q = n.graph.nodes.length + 1
        · subst hq1'
          exact toEnd [] (.refl _)
        · obtain ⟨u, hu⟩ := h b (by simp) h1 (by simp) (by simp) q (by simp; omega) hqn
          exact toEnd u hu
    · exact ih (fun D hD => hc D (List.mem_cons_of_mem _ hD)) (fun x hx => h x (List.mem_cons_of_mem _ hx)) h2
        (by simp; omega) (by simp; omega) q (by simp; omega) hq2

theorem foldl_eps_nodes (ms : List Nat) (n : LexNfa) (e : Nat) :
    (ms.foldl (fun nfa mi => nfa.addEpsilonTransition mi e) n).graph.nodes = n.graph.nodes := by
  induction ms generalizing n with
  | nil => rfl
  | cons i is ih => simp only [List.foldl_cons]; rw [ih]; rfl

theorem foldl_eps_edges (ms : List Nat) (n : LexNfa) (e : Nat) (ed : Edge (NfaEdge Nat)) :
    ed ∈ (ms.foldl (fun nfa mi => nfa.addEpsilonTransition mi e) n).graph.edges ↔
      ed ∈ n.graph.edges ∨ ∃ m ∈ ms, ed = ⟨m, e, .epsilon⟩ := by
  induction ms generalizing n with
  | nil => simp
  | cons i is ih =>
    simp only [List.foldl_cons]
    rw [ih]
    simp only [addEps_edges, List.mem_append, List.mem_cons, List.not_mem_nil, or_false, exists_eq_or_imp]
    grind

theorem inOk_mandatory {b : Builder} (h : InOk b) {k s e : Nat} {n n' : LexNfa} {is : List Nat}
    (hm : buildMandatory k b s e n = .ok (n', is)) : n.graph.nodes.length ≤ n'.graph.nodes.length ∧
      (∀ ed ∈ n'.graph.edges, ed ∈ n.graph.edges ∨ ed.dst = e ∨ n.graph.nodes.length ≤ ed.dst) ∧
      ∀ i ∈ is, n.graph.nodes.length ≤ i := by
  unfold buildMandatory at hm
  split at hm
  · cases hm
    refine ⟨Nat.le_refl _, ?_, by simp⟩
    intro ed hed
    simp only [addEps_edges, List.mem_append, List.mem_cons, List.not_mem_nil, or_false] at hed
    rcases hed with h | rfl
    · exact Or.inl h
    · exact Or.inr (Or.inl rfl)
  · exact inOk_chain (fun x hx => by rw [List.eq_of_mem_replicate hx]; exact h) hm

theorem inOk_repetition {b : Builder} (h : InOk b) (min : Nat) (max : Option Nat) : InOk (buildRepetition min max b) := by
  intro s e n n' hb
  unfold buildRepetition at hb
  simp only [addInter_snd, addInter_len] at hb
  generalize hn0 : (n.addIntermediateState.1.addIntermediateState.1.addEpsilonTransition s n.graph.nodes.length) = n0 at hb
  have hl0 : n0.graph.nodes.length = n.graph.nodes.length + 2 := by rw [← hn0]; simp
  have hed0 : n0.graph.edges = n.graph.edges ++ [⟨s, n.graph.nodes.length, .epsilon⟩] := by rw [← hn0]; simp
  have base : ∀ ed ∈ n0.graph.edges, ed ∈ n.graph.edges ∨ ed.dst = e ∨ n.graph.nodes.length ≤ ed.dst := by
    intro ed hed
    rw [hed0] at hed
    simp only [List.mem_append, List.mem_cons, List.not_mem_nil, or_false] at hed
    rcases hed with h | rfl
    · exact Or.inl h
    · exact Or.inr (Or.inr (Nat.le_refl _))
  have gen : ∀ {n1 : LexNfa}, n0.graph.nodes.length ≤ n1.graph.nodes.length →
      (∀ ed ∈ n1.graph.edges, ed ∈ n0.graph.edges ∨ ed.dst = n.graph.nodes.length + 1 ∨ n0.graph.nodes.length ≤ ed.dst) →
      ∀ ed ∈ n1.graph.edges, ed ∈ n.graph.edges ∨ ed.dst = e ∨ n.graph.nodes.length ≤ ed.dst := by
    intro n1 _ h2 ed hed
    rcases h2 ed hed with g | g | g
    · exact base ed g
    · right; right; omega
    · right; right; omega
  split at hb
  · obtain ⟨n1, h1, h2⟩ := res_bind_ok.mp hb
    obtain ⟨a1, a2⟩ := h h1
    cases h2
    refine ⟨by simp; omega, ?_⟩
    intro ed hed
    simp only [addEps_edges, List.append_assoc, List.mem_append, List.mem_cons, List.not_mem_nil, or_false] at hed
    rcases hed with g | rfl | rfl | rfl
    · exact gen a1 a2 ed g
    · exact Or.inr (Or.inl rfl)
    · exact Or.inr (Or.inr (Nat.le_refl _))
    · exact Or.inr (Or.inl rfl)
  · obtain ⟨⟨n1, is⟩, h1, h2⟩ := res_bind_ok.mp hb
    obtain ⟨a1, a2, a3⟩ := inOk_mandatory h h1
    simp only at h2
    split at h2
    · cases h2
      refine ⟨by simp; omega, ?_⟩
      intro ed hed
      simp only [addEps_edges, List.append_assoc, List.mem_append, List.mem_cons, List.not_mem_nil, or_false] at hed
      rcases hed with g | rfl | rfl
      · exact gen a1 a2 ed g
      · right; right
        simp only
        cases hl : is.getLast? with
        | none => simp
        | some i =>
          have := a3 i (List.mem_of_getLast? hl)
          simp; omega
      · exact Or.inr (Or.inl rfl)
    · split at h2
      · cases h2
      · simp only [addInter_snd, addInter_len, addEps_nodes] at h2
        obtain ⟨⟨n2, is2⟩, h3, h4⟩ := res_bind_ok.mp h2
        obtain ⟨c1, c2, c3⟩ := inOk_chain (fun x hx => by rw [List.eq_of_mem_replicate hx]; exact h) h3
        simp only at h4
        cases h4
        simp only [addInter_len, addEps_nodes, addInter_edges, addEps_edges] at c1 c2 c3
        refine ⟨by rw [foldl_eps_nodes]; omega, ?_⟩
        intro ed hed
        rcases (foldl_eps_edges _ _ _ _).mp hed with g | ⟨m, _, rfl⟩
        · rcases c2 ed g with g | g | g
          · rcases List.mem_append.mp g with g | g
            · exact gen a1 a2 ed g
            · simp only [List.mem_cons, List.not_mem_nil, or_false] at g
              subst g
              right; right; show _ ≤ n1.graph.nodes.length; omega
          · right; right; omega
          · right; right; omega
        · exact Or.inr (Or.inl rfl)

theorem coOk_mandatory {al : Alphabet} {b : Builder} {L C : Lang} (hb : Builds al b L C) (hc : ∃ w, C w) (h : CoOk al b)
    {k s e : Nat} {n n' : LexNfa} {is : List Nat} (hm : buildMandatory k b s e n = .ok (n', is)) (hs : s < n.graph.nodes.length)
    (he : e < n.graph.nodes.length) :
    Ext n n' ∧ (∃ u : List Char, n'.Path s (u.map (classOf al)) e) ∧
    ∀ q, n.graph.nodes.length ≤ q → q < n'.graph.nodes.length → ∃ u : List Char, n'.Path q (u.map (classOf al)) e := by
  unfold buildMandatory at hm
  split at hm
  · cases hm
    refine ⟨ext_addEdge n .epsilon hs he, ⟨[], .eps (by simp) (.refl e)⟩, ?_⟩
    intro q h1 h2
    simp at h2
    omega
  · unfold chainPatternTimes at hm
    obtain ⟨hx, _, pc, _⟩ := chain_spec (buildsAll_replicate hb k) hm hs he
    refine ⟨hx, ?_, ?_⟩
    · obtain ⟨w, hw⟩ := hc
      have : ∀ k, ∃ w, catAll (List.replicate k C) (fun v => v = []) w := by
        intro k
        induction k with
        | zero => exact ⟨[], rfl⟩
        | succ k ih =>
          obtain ⟨v, hv⟩ := ih
          exact ⟨w ++ v, w, v, rfl, hw, hv⟩
      obtain ⟨v, hv⟩ := this k
      exact ⟨v, pc.run hv⟩
    · exact coOk_chain (buildsAll_replicate hb k) (fun D hD => by rw [List.eq_of_mem_replicate hD]; exact hc)
        (fun x hx => by rw [List.eq_of_mem_replicate hx]; exact h) hm hs he

theorem coOk_repetition {al : Alphabet} {b : Builder} {L C : Lang} (hb : Builds al b L C) (hc : ∃ w, C w) (h : CoOk al b)
    (min : Nat) (max : Option Nat) : CoOk al (buildRepetition min max b) := by
  intro s e n n' hB hs he q hq1 hq2
  unfold buildRepetition at hB
  simp only [addInter_snd, addInter_len] at hB
  generalize hn0 : (n.addIntermediateState.1.addIntermediateState.1.addEpsilonTransition s n.graph.nodes.length) = n0 at hB
  have hl0 : n0.graph.nodes.length = n.graph.nodes.length + 2 := by rw [← hn0]; simp
  have toE : ∀ {n1 : LexNfa}, Ext n1 n' → (⟨n.graph.nodes.length + 1, e, .epsilon⟩ : Edge (NfaEdge Nat)) ∈ n'.graph.edges →
      (∃ u : List Char, n1.Path q (u.map (classOf al)) (n.graph.nodes.length + 1)) → ∃ u : List Char, n'.Path q (u.map (classOf al)) e := by
    rintro n1 hx he ⟨u, hu⟩
    refine ⟨u, ?_⟩
    have := (hx.path hu).trans (.eps he (.refl e))
    simpa using this
  -- paths of the nodes up to the end of the mandatory part
  have upto : ∀ {n1 : LexNfa}, (∃ u : List Char, n1.Path n.graph.nodes.length (u.map (classOf al)) (n.graph.nodes.length + 1)) →
      (∀ q, n0.graph.nodes.length ≤ q → q < n1.graph.nodes.length → ∃ u : List Char, n1.Path q (u.map (classOf al)) (n.graph.nodes.length + 1)) →
      q < n1.graph.nodes.length → ∃ u : List Char, n1.Path q (u.map (classOf al)) (n.graph.nodes.length + 1) := by
    intro n1 h1 h2 hq
    by_cases hq0 : q = n.graph.nodes.length
    · subst hq0; exact h1
    · by_cases hq1 : q = n.graph.nodes.length + 1
      · subst hq1; exact ⟨[], .refl _⟩
      · exact h2 q (by omega) hq
  split at hB
  · obtain ⟨n1, h1, h2⟩ := res_bind_ok.mp hB
    have hx1 := hb.ext h1 (by omega) (by omega)
    have hl1 := hx1.len
    have hx2 : Ext n1 (n1.addEpsilonTransition s e) := ext_addEdge n1 .epsilon (by omega) (by omega)
    have hx3 := ext_addEdge (n1.addEpsilonTransition s e) (s := n.graph.nodes.length + 1) (d := n.graph.nodes.length) .epsilon
      (by simp; omega) (by simp; omega)
    have hx4 := ext_addEdge ((n1.addEpsilonTransition s e).addEpsilonTransition (n.graph.nodes.length + 1) n.graph.nodes.length)
      (s := n.graph.nodes.length + 1) (d := e) .epsilon (by simp; omega) (by simp; omega)
    cases h2
    obtain ⟨w, hw⟩ := hc
    exact toE ((hx2.trans hx3).trans hx4) (by simp)
      (upto ⟨w, hb.complete h1 (by omega) (by omega) w hw⟩ (h h1 (by omega) (by omega)) (by simpa using hq2))
  · obtain ⟨⟨n1, is⟩, h1, h2⟩ := res_bind_ok.mp hB
    obtain ⟨hx1, hp1, hq1'⟩ := coOk_mandatory hb hc h h1 (by omega) (by omega)
    have hl1 := hx1.len
    have hprev : ∀ {p : Nat}, p < n1.graph.nodes.length → Ext n1 (n1.addEpsilonTransition (n.graph.nodes.length + 1) p) :=
      fun hp => ext_addEdge n1 .epsilon (by omega) hp
    simp only at h2
    split at h2
    · cases h2
      obtain ⟨u, hu⟩ := upto hp1 hq1' (by simpa using hq2)
      -- only edges were added
      have mono : ∀ {x y : Nat} {w : List Nat}, n1.Path x w y →
          ((n1.addEpsilonTransition (n.graph.nodes.length + 1) (is.getLast?.getD n.graph.nodes.length)).addEpsilonTransition
            (n.graph.nodes.length + 1) e).Path x w y := by
        intro x y w hp
        induction hp with
        | refl q => exact .refl q
        | eps he _ ih => exact .eps (by simp [he]) ih
        | step he _ ih => exact .step (by simp [he]) ih
      refine ⟨u, ?_⟩
      have := (mono hu).trans (.eps (by simp) (.refl e))
      simpa using this
    · split at h2
      · cases h2
      · simp only [addInter_snd, addInter_len, addEps_nodes] at h2
        obtain ⟨⟨n2, is2⟩, h3, h4⟩ := res_bind_ok.mp h2
        simp only at h4
        cases h4
        generalize hM : (n1.addIntermediateState.1.addEpsilonTransition (n.graph.nodes.length + 1) n1.graph.nodes.length).addIntermediateState.1 = nM at h3
        have hlM : nM.graph.nodes.length = n1.graph.nodes.length + 2 := by rw [← hM]; simp
        have hedM : nM.graph.edges = n1.graph.edges ++ [⟨n.graph.nodes.length + 1, n1.graph.nodes.length, .epsilon⟩] := by rw [← hM]; simp
        unfold chainPatternTimes at h3
        obtain ⟨hx3, _, _, _⟩ := chain_spec (buildsAll_replicate hb _) h3 (by omega) (by omega)
        have hl3 := hx3.len
        have mono : ∀ {x y : Nat} {w : List Nat}, n2.Path x w y →
            ((is2 ++ [n1.graph.nodes.length, n1.graph.nodes.length + 1]).foldl (fun nfa mi => nfa.addEpsilonTransition mi e) n2).Path x w y := by
          intro x y w hp
          induction hp with
          | refl q => exact .refl q
          | eps he _ ih => exact .eps ((foldl_eps_edges _ _ _ _).mpr (Or.inl he)) ih
          | step he _ ih => exact .step ((foldl_eps_edges _ _ _ _).mpr (Or.inl he)) ih
        have mono1 : ∀ {x y : Nat} {w : List Nat}, n1.Path x w y → n2.Path x w y := by
          intro x y w hp
          induction hp with
          | refl q => exact .refl q
          | eps he _ ih => exact .eps (hx3.mem (by rw [hedM]; simp [he])) ih
          | step he _ ih => exact .step (hx3.mem (by rw [hedM]; simp [he])) ih
        have fin1 : (⟨n1.graph.nodes.length, e, .epsilon⟩ : Edge (NfaEdge Nat)) ∈
            ((is2 ++ [n1.graph.nodes.length, n1.graph.nodes.length + 1]).foldl (fun nfa mi => nfa.addEpsilonTransition mi e) n2).graph.edges :=
          (foldl_eps_edges _ _ _ _).mpr (Or.inr ⟨n1.graph.nodes.length, by simp, rfl⟩)
        have fin2 : (⟨n1.graph.nodes.length + 1, e, .epsilon⟩ : Edge (NfaEdge Nat)) ∈
            ((is2 ++ [n1.graph.nodes.length, n1.graph.nodes.length + 1]).foldl (fun nfa mi => nfa.addEpsilonTransition mi e) n2).graph.edges :=
          (foldl_eps_edges _ _ _ _).mpr (Or.inr ⟨n1.graph.nodes.length + 1, by simp, rfl⟩)
        by_cases hqa : q < n1.graph.nodes.length
        · obtain ⟨u, hu⟩ := upto hp1 hq1' hqa
          refine ⟨u, ?_⟩
          have e5 : (⟨n.graph.nodes.length + 1, n1.graph.nodes.length, .epsilon⟩ : Edge (NfaEdge Nat)) ∈ n2.graph.edges :=
            hx3.mem (by rw [hedM]; simp)
          have p1 : n2.Path q (u.map (classOf al) ++ []) n1.graph.nodes.length := (mono1 hu).trans (.eps e5 (.refl _))
          have := (mono p1).trans (.eps fin1 (.refl e))
          simpa using this
        · by_cases hqb : q = n1.graph.nodes.length
          · subst hqb; exact ⟨[], .eps fin1 (.refl e)⟩
          · by_cases hqc : q = n1.graph.nodes.length + 1
            · subst hqc; exact ⟨[], .eps fin2 (.refl e)⟩
            · rw [foldl_eps_nodes] at hq2
              obtain ⟨u, hu⟩ := coOk_chain (buildsAll_replicate hb _) (fun D hD => by rw [List.eq_of_mem_replicate hD]; exact hc)
                (fun x hx => by rw [List.eq_of_mem_replicate hx]; exact h) h3 (by omega) (by omega) q (by omega) hq2
              refine ⟨u, ?_⟩
              have := (mono hu).trans (.eps fin2 (.refl e))
              simpa using this

mutual
theorem inOk_pattern (al : Alphabet) : (p : Pattern) → InOk (buildNfaFromPattern al p)
  | .sequence ps => by
    intro s e n n' h
    unfold buildNfaFromPattern at h
    split at h
    · cases h; exact ⟨Nat.le_refl _, fun ed h => Or.inl h⟩
    · obtain ⟨⟨n1, is⟩, h1, h2⟩ := res_bind_ok.mp h
      cases h2
      obtain ⟨a1, a2, _⟩ := inOk_chain (inOk_patterns al ps) h1
      exact ⟨a1, a2⟩
  | .alternative ps => by
    unfold buildNfaFromPattern
    exact inOk_alternative (inOk_patterns al ps)
  | .repetition min max p => by
    unfold buildNfaFromPattern
    exact inOk_repetition (inOk_pattern al p) min max
  | .charSet xs neg => by
    unfold buildNfaFromPattern
    exact inOk_fold buildCharSet_cases
  | .char x => by
    unfold buildNfaFromPattern
    exact inOk_fold buildChar_cases
theorem inOk_patterns (al : Alphabet) : (ps : List Pattern) → ∀ b ∈ buildNfaFromPatterns al ps, InOk b
  | [] => by simp [buildNfaFromPatterns]
  | p :: ps => by
    simp only [buildNfaFromPatterns, List.mem_cons, forall_eq_or_imp]
    exact ⟨inOk_pattern al p, inOk_patterns al ps⟩
end

theorem Pattern.Useful.matches {p : Pattern} (h : p.Useful) : ∃ w, p.Matches w := by
  cases p <;> simp only [Pattern.Useful] at h
  · exact h.1
  · exact h.1
  · exact h.1
  · exact h
  · exact h

theorem allUseful_mem {ps : List Pattern} (h : Pattern.AllUseful ps) : ∀ p ∈ ps, p.Useful := by
  induction ps with
  | nil => simp
  | cons p ps ih =>
    simp only [Pattern.AllUseful] at h
    intro x hx
    rcases List.mem_cons.mp hx with rfl | hx
    · exact h.1
    · exact ih h.2 x hx

mutual
theorem coOk_pattern {al : Alphabet} (hg : al.Good) : (p : Pattern) → NamedOk al p.Names → p.NoEmptySeq → p.Useful →
    CoOk al (buildNfaFromPattern al p)
  | .sequence ps, hn, hne, hu => by
    simp only [Pattern.NoEmptySeq] at hne
    simp only [Pattern.Useful] at hu
    have hn' : NamedOk al (Pattern.SomeNames ps) := by simpa only [Pattern.Names] using hn
    have hb := builds_patterns hg ps hn'
    intro s e n n' h
    unfold buildNfaFromPattern at h
    split at h
    · rename_i hem
      exact absurd (List.isEmpty_iff.mp hem) hne.1
    · obtain ⟨⟨n1, is⟩, h1, h2⟩ := res_bind_ok.mp h
      cases h2
      refine coOk_chain hb ?_ (coOk_patterns hg ps hn' hne.2 hu.2) h1
      rw [liveAll_eq ps hne.2]
      intro C hC
      obtain ⟨p, hp, rfl⟩ := List.mem_map.mp hC
      exact (allUseful_mem hu.2 p hp).matches
  | .alternative ps, hn, hne, hu => by
    simp only [Pattern.NoEmptySeq] at hne
    simp only [Pattern.Useful] at hu
    have hn' : NamedOk al (Pattern.SomeNames ps) := by simpa only [Pattern.Names] using hn
    have hb := builds_patterns hg ps hn'
    unfold buildNfaFromPattern
    refine coOk_alternative hb ?_ (coOk_patterns hg ps hn' hne hu.2)
    rw [liveAll_eq ps hne]
    intro C hC
    obtain ⟨p, hp, rfl⟩ := List.mem_map.mp hC
    exact (allUseful_mem hu.2 p hp).matches
  | .repetition min max p, hn, hne, hu => by
    simp only [Pattern.NoEmptySeq] at hne
    simp only [Pattern.Useful] at hu
    have hn' : NamedOk al p.Names := by simpa only [Pattern.Names] using hn
    unfold buildNfaFromPattern
    refine coOk_repetition (builds_pattern hg p hn') ?_ (coOk_pattern hg p hn' hne hu.2) min max
    rw [live_eq p hne]
    exact hu.2.matches
  | .charSet xs neg, _, _, _ => by
    unfold buildNfaFromPattern
    exact coOk_fold buildCharSet_cases
  | .char x, _, _, _ => by
    unfold buildNfaFromPattern
    exact coOk_fold buildChar_cases
theorem coOk_patterns {al : Alphabet} (hg : al.Good) : (ps : List Pattern) → NamedOk al (Pattern.SomeNames ps) → Pattern.AllNoEmptySeq ps →
    Pattern.AllUseful ps → ∀ b ∈ buildNfaFromPatterns al ps, CoOk al b
  | [], _, _, _ => by simp [buildNfaFromPatterns]
  | p :: ps, hn, hne, hu => by
    simp only [Pattern.AllNoEmptySeq] at hne
    simp only [Pattern.AllUseful] at hu
    simp only [buildNfaFromPatterns, List.mem_cons, forall_eq_or_imp]
    exact ⟨coOk_pattern hg p (fun c hc => hn c (by simp only [Pattern.SomeNames]; exact Or.inl hc)) hne.1 hu.1,
      coOk_patterns hg ps (fun c hc => hn c (by simp only [Pattern.SomeNames]; exact Or.inr hc)) hne.2 hu.2⟩
end

/-- the rule's pattern has no empty sequence and only useful parts -/
theorem TokenRule.toPattern_useful {r : TokenRule} (h : r.Useful) (hne : r.NoEmptySeq) : r.toPattern.Useful := by
  obtain ⟨nm, pr, pat⟩ := r
  cases pat with
  | literal cs =>
    simp only [TokenRule.toPattern, Pattern.fromChars, Pattern.Useful]
    constructor
    · refine ⟨cs, ?_⟩
      clear hne
      simp only [Pattern.Matches]
      induction cs with
      | nil => simp [Pattern.SeqMatches]
      | cons c cs ih => 
        simp only [List.map_cons, Pattern.SeqMatches]
        exact ⟨[c], cs, rfl, by simp [Pattern.Matches, Characters.Has], ih trivial⟩
    · clear hne
      induction cs with
      | nil => simp [Pattern.AllUseful]
      | cons c cs ih =>
        simp only [List.map_cons, Pattern.AllUseful, Pattern.Useful]
        exact ⟨⟨[c], by simp [Pattern.Matches, Characters.Has]⟩, ih trivial⟩
  | pattern p => exact h

/-- the nodes created for the rules lead to accepting nodes; no edge leads into an old non-start node or the start -/
theorem generateNfaLoop_trim {al : Alphabet} (hg : al.Good) (start : Nat) (rules : List TokenRule)
    (hn : ∀ r ∈ rules, NamedOk al r.toPattern.Names) :
    ∀ {i n n'}, generateNfaLoop al start i rules n = .ok n' → start < n.graph.nodes.length →
      Exists (fun ns => n'.graph.nodes = n.graph.nodes ++ ns) ∧
      (∀ {x w y}, n.Path x w y → n'.Path x w y) ∧
      (∀ ed ∈ n'.graph.edges, ed ∈ n.graph.edges ∨ n.graph.nodes.length ≤ ed.dst) ∧
      ((∀ r ∈ rules, r.NoEmptySeq ∧ r.Useful) → ∀ q, n.graph.nodes.length ≤ q → q < n'.graph.nodes.length →
        ∃ (u : List Char) (x j : Nat), n'.graph.nodes[x]? = some (.accepting j) ∧ n'.Path q (u.map (classOf al)) x) := by
  induction rules with
  | nil =>
    intro i n n' h _
    simp only [generateNfaLoop] at h
    cases h
    exact ⟨⟨[], by simp⟩, fun h => h, fun ed h => Or.inl h, fun _ q h1 h2 => by omega⟩
  | cons r rules ih =>
    intro i n n' h hs
    simp only [generateNfaLoop, addInter_snd, addAcc_snd, addInter_len] at h
    generalize hN : n.graph.nodes.length = N at *
    generalize hn0 : (n.addIntermediateState.1.addAcceptingState i).1.addEpsilonTransition start N = n0 at h
    have hl0 : n0.graph.nodes.length = N + 2 := by rw [← hn0]; simp [hN]
    have hnodes0 : n0.graph.nodes = n.graph.nodes ++ [.intermediate n.intermediateCounter, .accepting i] := by
      rw [← hn0]; simp
    have hed0 : n0.graph.edges = n.graph.edges ++ [⟨start, N, .epsilon⟩] := by
      rw [← hn0]; simp
    have hb := builds_pattern hg r.toPattern (hn r (by simp))
    obtain ⟨n1, hn1, h2⟩ := res_bind_ok.mp h
    have hx1 : Ext n0 n1 := hb.ext hn1 (by omega) (by omega)
    have hl1 := hx1.len
    obtain ⟨ns1, g1, _⟩ := hx1.nodes
    obtain ⟨⟨ns, c1⟩, c2, c3, c4⟩ := ih (fun x hx => hn x (List.mem_cons_of_mem _ hx)) h2 (by omega)
    obtain ⟨_, d2⟩ := inOk_pattern al r.toPattern hn1
    have p01 : ∀ {x w y}, n.Path x w y → n0.Path x w y := by
      intro x w y hp
      induction hp with
      | refl q => exact .refl q
      | eps he _ ih => exact .eps (by rw [hed0]; simp [he]) ih
      | step he _ ih => exact .step (by rw [hed0]; simp [he]) ih
    refine ⟨⟨_, by rw [c1, g1, hnodes0, List.append_assoc, List.append_assoc]⟩, fun hp => c2 (hx1.path (p01 hp)), ?_, ?_⟩
    · intro ed hed
      rcases c3 ed hed with g | g
      · rcases d2 ed g with g | g | g
        · rw [hed0] at g
          simp only [List.mem_append, List.mem_cons, List.not_mem_nil, or_false] at g
          rcases g with g | rfl
          · exact Or.inl g
          · exact Or.inr (Nat.le_refl _)
        · right; omega
        · right; omega
      · right; omega
    · intro hu q hq1 hq2
      obtain ⟨hne, huse⟩ := hu r (by simp)
      have hnode : n'.graph.nodes[N + 1]? = some (.accepting i) := by
        rw [c1, g1, hnodes0, List.append_assoc, List.append_assoc, List.getElem?_append_right (by omega), hN]
        simp
      by_cases hq : q < n1.graph.nodes.length
      · have : ∃ u : List Char, n1.Path q (u.map (classOf al)) (N + 1) := by
          by_cases hqN : q = N
          · obtain ⟨w, hw⟩ := (TokenRule.toPattern_useful huse hne).matches
            refine ⟨w, ?_⟩
            rw [hqN]
            refine hb.complete hn1 (by omega) (by omega) w ?_
            rw [live_eq _ (r.toPattern_noEmpty hne)]
            exact hw
          · by_cases hqN1 : q = N + 1
            · exact ⟨[], hqN1 ▸ .refl _⟩
            · exact coOk_pattern hg _ (hn r (by simp)) (r.toPattern_noEmpty hne) (TokenRule.toPattern_useful huse hne) hn1 (by omega) (by omega)
                q (by omega) hq
        obtain ⟨u, hp⟩ := this
        exact ⟨u, N + 1, i, hnode, c2 hp⟩
      · exact c4 (fun x hx => hu x (List.mem_cons_of_mem _ hx)) q (by omega) hq2

theorem generateNfa_trim {rules : List TokenRule} {start : Nat} {nfa : LexNfa}
    (h : generateNfa (generateAlphabet rules) rules = .ok (start, nfa)) :
    (∀ ed ∈ nfa.graph.edges, ed.dst ≠ 0) ∧
    ((∀ r ∈ rules, r.NoEmptySeq ∧ r.Useful) → ∀ q, 0 < q → q < nfa.graph.nodes.length →
        ∃ (u : List Char) (x j : Nat), nfa.graph.nodes[x]? = some (.accepting j) ∧ nfa.Path q (u.map (classOf (generateAlphabet rules))) x) := by
  unfold generateNfa at h
  obtain ⟨n1, h1, h2⟩ := res_bind_ok.mp h
  cases h2
  obtain ⟨_, _, c3, c4⟩ := generateNfaLoop_trim (generateAlphabet_good rules) _ rules
    (fun r hr c hc => generateAlphabet_named hr (r.toPattern_names c hc)) h1 Nat.zero_lt_one
  constructor
  · intro ed hed
    rcases c3 ed hed with g | g
    · cases g
    · exact Nat.ne_of_gt g
  · intro hu q hq hq2
    exact c4 hu q hq hq2

end Verif
