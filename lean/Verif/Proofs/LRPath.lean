import Verif.Proofs.LRArms

/-! # Walking back in the parser graph -/

set_option autoImplicit false

namespace Verif

variable {g : Grammar} {kind : LRKind} {gr : LRGraph}

theorem edge_src {q q' : Nat} {X : Sym} (hb : Base g kind gr) (h : (q, X, q') ∈ gr.edges) : ∃ s, gr.sets[q]? = some s := by
  obtain ⟨s, _, h1, _⟩ := hb.edge q X q' h; exact ⟨s, h1⟩

theorem edge_tgt {q q' : Nat} {X : Sym} (hb : Base g kind gr) (h : (q, X, q') ∈ gr.edges) : ∃ s, gr.sets[q']? = some s := by
  obtain ⟨_, s, _, h1, _⟩ := hb.edge q X q' h; exact ⟨s, h1⟩

/-- a state has at most one edge for each symbol -/
theorem edge_det (hb : Base g kind gr) {q p p' : Nat} {X : Sym} (h : (q, X, p) ∈ gr.edges) (h' : (q, X, p') ∈ gr.edges) : p = p' := by
  obtain ⟨s, t, h1, h2, h3, h4⟩ := hb.edge q X p h
  obtain ⟨s', t', h1', h2', h3', h4'⟩ := hb.edge q X p' h'
  rw [h1] at h1'
  simp at h1'; subst h1'
  refine hb.inj p p' t t' h2 h2' (fun _ c => (h3 c).trans (h3' c).symm) (fun hl => ?_)
  exact SSorted.ext (hb.sorted _ _ h2) (hb.sorted _ _ h2') (fun x => ((h4 hl) x).trans ((h4' hl) x).symm)

theorem edgeTarget_iff (hb : Base g kind gr) {q q' : Nat} {X : Sym} : edgeTarget gr q X = some q' ↔ (q, X, q') ∈ gr.edges := by
  unfold edgeTarget
  constructor
  · intro h
    obtain ⟨e, h1, h2⟩ := Option.map_eq_some_iff.mp h
    have h3 := List.find?_some h1
    have h4 := List.mem_of_find?_eq_some h1
    simp at h3
    obtain ⟨rfl, rfl⟩ := h3
    subst h2
    exact h4
  · intro h
    cases he : gr.edges.find? (fun x => x.1 = q ∧ x.2.1 = X) with
    | none =>
      have := List.find?_eq_none.mp he _ h
      simp at this
    | some e =>
      have h3 := List.find?_some he
      have h4 := List.mem_of_find?_eq_some he
      simp at h3
      obtain ⟨a, b, c⟩ := e
      simp at h3
      obtain ⟨rfl, rfl⟩ := h3
      simp [edge_det hb h4 h]

theorem edgeTarget_none (hb : Base g kind gr) {q : Nat} {X : Sym} : edgeTarget gr q X = none ↔ ∀ q', (q, X, q') ∉ gr.edges := by
  constructor
  · intro h q' he
    rw [(edgeTarget_iff hb).mpr he] at h
    simp at h
  · intro h
    cases he : edgeTarget gr q X with
    | none => rfl
    | some q' => exact absurd ((edgeTarget_iff hb).mp he) (h q')

theorem cclosure_cases {c c' : Core} (h : CClosure g kind c c') :
    c' = c ∨ ∃ (p : Core) (i : Nat) (r : Rule), CClosure g kind c p ∧ CStep g kind p c' ∧ Core.after g p = some (.nt r.lhs) ∧ g.rules[i]? = some r ∧ c' = (some i, leadingEps r.rhs) := by
  cases h with
  | self => exact .inl rfl
  | step h hs =>
    obtain ⟨A, i, r, h1, h2, h3, h4, h5⟩ := hs
    subst h3
    exact .inr ⟨_, i, r, h, ⟨_, i, r, h1, h2, rfl, h4, h5⟩, h1, h2, h5⟩

theorem closure_cases {c c' : Item} (h : Closure g c c') :
    c' = c ∨ ∃ (p : Item) (i : Nat) (r : Rule), Closure g c p ∧ p.after g = some (.nt r.lhs) ∧ g.rules[i]? = some r ∧
      c'.rule = some i ∧ c'.dot = leadingEps r.rhs ∧ ExpandsWith g p c'.la := by
  cases h with
  | self => exact .inl rfl
  | step h hs =>
    obtain ⟨A, i, r, x, h1, h2, h3, h4, h5⟩ := hs
    subst h3; subst h5
    exact .inr ⟨_, i, r, h, h1, h2, rfl, rfl, h4⟩

/-- dots are never inside the leading epsilons -/
theorem dot_ge (hb : Base g kind gr) {q : Nat} (hr : EReach gr.edges 0 q) :
    ∀ (s : List Item), gr.sets[q]? = some s → ∀ (i : Nat) (r : Rule) (d : Nat), g.rules[i]? = some r → InCore s (some i, d) → leadingEps r.rhs ≤ d := by
  induction hr with
  | refl =>
    rintro s hs i r d hi ⟨it, h1, h2, h3⟩
    obtain ⟨s', hs', hc⟩ := hb.start
    rw [hs] at hs'; simp at hs'; subst hs'
    rcases closure_cases ((hc it).mp h1) with h | ⟨p, j, r', _, _, h5, h6, h7, _⟩
    · subst h; simp [entryItem] at h2
    · simp only at h2 h3
      rw [h6] at h2; simp at h2; subst h2
      rw [hi] at h5; simp at h5; subst h5
      omega
  | step _ he ih =>
    intro s hs i r d hi hc
    obtain ⟨t, t', h1, h2, h3, _⟩ := hb.edge _ _ _ he
    rw [hs] at h2; simp at h2; subst h2
    obtain ⟨k, h4, h5, h6, h7⟩ := (h3 _).mp hc
    rcases cclosure_cases h7 with h | ⟨_, j, r', _, _, _, h8, h9⟩
    · obtain ⟨k1, k2⟩ := k
      simp only [Prod.mk.injEq] at h
      obtain ⟨rfl, rfl⟩ := h
      have := ih t h1 i r k2 hi h4
      omega
    · simp at h9
      obtain ⟨rfl, rfl⟩ := h9
      rw [hi] at h8; simp at h8; subst h8
      exact Nat.le_refl _

theorem LoopInv.lead (hv : LoopInv g kind gr []) {q : Nat} {s : List Item} (hs : gr.sets[q]? = some s) {i : Nat} {r : Rule} {d : Nat}
    (hi : g.rules[i]? = some r) (hc : InCore s (some i, d)) : leadingEps r.rhs ≤ d :=
  dot_ge hv.base (hv.reached q (getElem?_lt hs)) s hs i r d hi hc

/-- only the entry state has the entry item -/
theorem rule_none (hb : Base g kind gr) {p q : Nat} {X : Sym} (he : (p, X, q) ∈ gr.edges) {s : List Item} (hs : gr.sets[q]? = some s)
    {it : Item} (hi : it ∈ s) : it.rule ≠ none := by
  obtain ⟨t, t', h1, h2, h3, _⟩ := hb.edge _ _ _ he
  rw [hs] at h2; simp at h2; subst h2
  obtain ⟨k, h4, h5, h6, h7⟩ := (h3 (it.rule, it.dot)).mp ⟨it, hi, rfl, rfl⟩
  rcases cclosure_cases h7 with h | ⟨_, j, r', _, _, _, h8, h9⟩
  · simp at h; rw [h.1]; exact h6
  · simp at h9; rw [h9.1]; simp

theorem edge_ne_zero (hb : Base g kind gr) {p q : Nat} {X : Sym} (he : (p, X, q) ∈ gr.edges) : q ≠ 0 := by
  intro h0
  subst h0
  obtain ⟨s, hs, hc⟩ := hb.start
  exact rule_none hb he hs ((hc _).mpr .self) rfl

theorem rule_none_zero (hv : LoopInv g kind gr []) {q : Nat} {s : List Item} (hs : gr.sets[q]? = some s) {it : Item} (hi : it ∈ s)
    (hn : it.rule = none) : q = 0 ∧ it = entryItem kind := by
  have h := hv.reached q (getElem?_lt hs)
  cases h with
  | refl =>
    obtain ⟨s', hs', hc⟩ := hv.base.start
    rw [hs] at hs'; simp at hs'; subst hs'
    rcases closure_cases ((hc it).mp hi) with h | ⟨p, j, r', _, _, h5, h6, h7, _⟩
    · exact ⟨rfl, h⟩
    · rw [h6] at hn; simp at hn
  | step _ he => exact absurd hn (rule_none hv.base he hs hi)

/-- the predecessor of an item whose dot is not at the start -/
theorem core_back (hv : LoopInv g kind gr []) {p q : Nat} {X : Sym} (he : (p, X, q) ∈ gr.edges) {s t : List Item} (hs : gr.sets[q]? = some s)
    (ht : gr.sets[p]? = some t) {i : Nat} {r : Rule} {d : Nat} (hi : g.rules[i]? = some r) (hc : InCore s (some i, d)) (hd : leadingEps r.rhs < d) :
    InCore t (some i, d - 1) ∧ r.rhs[d - 1]? = some X := by
  obtain ⟨t0, t', h1, h2, h3, _⟩ := hv.base.edge _ _ _ he
  rw [hs] at h2; simp at h2; subst h2
  rw [ht] at h1; simp at h1; subst h1
  obtain ⟨k, h4, h5, h6, h7⟩ := (h3 _).mp hc
  rcases cclosure_cases h7 with h | ⟨_, j, r', _, _, _, h8, h9⟩
  · obtain ⟨k1, k2⟩ := k
    simp only [Prod.mk.injEq] at h
    obtain ⟨rfl, rfl⟩ := h
    refine ⟨by simpa using h4, ?_⟩
    simp only [Core.after, ruleRhs, hi, Option.map_some, Option.getD_some] at h5
    simpa using h5
  · simp at h9
    obtain ⟨rfl, rfl⟩ := h9
    rw [hi] at h8; simp at h8; subst h8
    omega

/-- the same with lookaheads, for LR(0) and LR(1) -/
theorem item_back (hv : LoopInv g kind gr []) (hk : kind.isLalr = false) {p q : Nat} {X : Sym} (he : (p, X, q) ∈ gr.edges) {s t : List Item}
    (hs : gr.sets[q]? = some s) (ht : gr.sets[p]? = some t) {i : Nat} {r : Rule} {d : Nat} {la : Option Sym} (hi : g.rules[i]? = some r)
    (hc : (⟨some i, d, la⟩ : Item) ∈ s) (hd : leadingEps r.rhs < d) : (⟨some i, d - 1, la⟩ : Item) ∈ t := by
  obtain ⟨t0, t', h1, h2, _, h3⟩ := hv.base.edge _ _ _ he
  rw [hs] at h2; simp at h2; subst h2
  rw [ht] at h1; simp at h1; subst h1
  obtain ⟨k, h4, h5, h6, h7⟩ := (h3 hk _).mp hc
  rcases closure_cases h7 with h | ⟨_, j, r', _, _, h8, h9, h10, _⟩
  · obtain ⟨k1, k2, k3⟩ := k
    simp only [Item.mk.injEq] at h
    obtain ⟨rfl, rfl, rfl⟩ := h
    simpa using h4
  · simp at h9 h10
    subst h9
    rw [hi] at h8; simp at h8; subst h8
    omega

/-- an item with the dot at the start was added for a non-terminal after the dot in the same state -/
theorem core_parent (hv : LoopInv g kind gr []) {q : Nat} {s : List Item} (hs : gr.sets[q]? = some s) {i : Nat} {r : Rule} (hi : g.rules[i]? = some r)
    (hc : InCore s (some i, leadingEps r.rhs)) : ∃ k ∈ s, k.after g = some (.nt r.lhs) := by
  have h := hv.reached q (getElem?_lt hs)
  cases h with
  | refl =>
    obtain ⟨s', hs', hcl⟩ := hv.base.start
    rw [hs] at hs'; simp at hs'; subst hs'
    obtain ⟨it, h1, h2, h3⟩ := hc
    rcases closure_cases ((hcl it).mp h1) with h | ⟨p, j, r', h4, h5, h6, h7, _, _⟩
    · subst h; simp [entryItem] at h2
    · simp only at h2
      rw [h7] at h2; simp at h2; subst h2
      rw [hi] at h6; simp at h6; subst h6
      exact ⟨p, (hcl p).mpr h4, h5⟩
  | step _ he =>
    obtain ⟨t, t', h1, h2, h3, _⟩ := hv.base.edge _ _ _ he
    rw [hs] at h2; simp at h2; subst h2
    obtain ⟨k, h4, h5, h6, h7⟩ := (h3 _).mp hc
    rcases cclosure_cases h7 with h | ⟨c, j, r', hcc, _, ha, h8, h9⟩
    · obtain ⟨k1, k2⟩ := k
      simp only [Prod.mk.injEq] at h
      obtain ⟨rfl, h⟩ := h
      have := hv.lead h1 hi h4
      omega
    · simp at h9
      obtain ⟨rfl, _⟩ := h9
      rw [hi] at h8; simp at h8; subst h8
      obtain ⟨k', hk', e1, e2⟩ := (h3 c).mpr ⟨k, h4, h5, h6, hcc⟩
      refine ⟨k', hk', ?_⟩
      rw [← ha]
      simp only [Item.after, Core.after, e1, e2]

/-- after a reduction in state `p` there is somewhere to go -/
theorem goto_exists (hv : LoopInv g kind gr []) {q : Nat} {s : List Item} (hs : gr.sets[q]? = some s) {i : Nat} {r : Rule} (hi : g.rules[i]? = some r)
    (hc : InCore s (some i, leadingEps r.rhs)) : (q = 0 ∧ g.entry = .nt r.lhs) ∨ ∃ q', (q, Sym.nt r.lhs, q') ∈ gr.edges := by
  obtain ⟨k, hk, ha⟩ := core_parent hv hs hi hc
  by_cases hr : k.rule = none
  · obtain ⟨h0, h1⟩ := rule_none_zero hv hs hk hr
    left
    subst h1
    simp [Item.after, entryItem, ruleRhs] at ha
    exact ⟨h0, ha⟩
  · obtain ⟨q', s', h1, _⟩ := hv.done q (getElem?_lt hs) (by simp) s hs k hk _ ha hr
    exact .inr ⟨q', h1⟩

/-- labels of edges occur in right sides -/
theorem edge_label (hb : Base g kind gr) (wf : g.WF) {q q' : Nat} {X : Sym} (he : (q, X, q') ∈ gr.edges) : X = .eps ∨ X ∈ g.symbols := by
  obtain ⟨t, t', h1, h2, h3, _⟩ := hb.edge _ _ _ he
  obtain ⟨it, hit⟩ := List.exists_mem_of_ne_nil _ (hb.nonempty _ _ h2)
  obtain ⟨k, h4, h5, h6, _⟩ := (h3 (it.rule, it.dot)).mp ⟨it, hit, rfl, rfl⟩
  obtain ⟨k1, k2⟩ := k
  cases k1 with
  | none => simp at h6
  | some i =>
    simp only [Core.after, ruleRhs] at h5
    cases hr : g.rules[i]? with
    | none => simp [hr] at h5
    | some r =>
      simp only [hr, Option.map_some, Option.getD_some] at h5
      have hm := List.mem_of_getElem? h5
      have hrm := List.mem_of_getElem? hr
      cases X with
      | eps => exact .inl rfl
      | eof => exact absurd hm (wf.no_eof r hrm)
      | t a => exact .inr (List.mem_append_left _ (wf.t_declared r hrm a hm))
      | nt A => exact .inr (List.mem_append_right _ (wf.nt_declared r hrm A hm))

end Verif
