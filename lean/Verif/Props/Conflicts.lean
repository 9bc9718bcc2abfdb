import Verif.Proofs.RightForms
import Verif.Props.GLR
import Verif.Props.LR1

/-! # C64 — conflicts are reported exactly when the grammar is not LR -/

set_option autoImplicit false

namespace Verif

/-! ## Exactly the clashes -/

/-- The conflicts reported are the clashes in the states of the parser graph (C52 says what these states are), and no conflicts are reported only if there are none.
They are an error exactly if they are not allowed. -/
theorem C64_exact (g : Grammar) (wf : g.WF) (hne : NoEmptyRhs g) (allow : Bool) (kind : LRKind) (fuel : Nat) (r : GenResult) (h : generateTable g allow kind fuel = .ok r) :
    ∃ fs gr, lrFirstSets g kind fuel = .ok fs ∧ generateGraph g fs kind fuel fuel = .ok gr ∧
      match r with
      | .noConflicts _ => ∀ c, ¬ Clash g gr.sets c
      | .allowedConflicts _ cs => allow = true ∧ cs ≠ [] ∧ ∀ c, c ∈ cs ↔ Clash g gr.sets c
      | .badConflicts cs => allow = false ∧ cs ≠ [] ∧ ∀ c, c ∈ cs ↔ Clash g gr.sets c := by
  obtain ⟨fs, gr, h1, h2, hv, _, ha⟩ := generateTable_graph wf hne h
  refine ⟨fs, gr, h1, h2, ?_⟩
  have hc := findConflicts_iff hv
  cases r with
  | noConflicts tb => intro c hcl; have := (hc c).mpr hcl; rw [ha.1] at this; simp at this
  | allowedConflicts tb cs => obtain ⟨a1, a2, _, rfl⟩ := ha; exact ⟨a1, a2, hc⟩
  | badConflicts cs => obtain ⟨a1, a2, rfl⟩ := ha; exact ⟨a1, a2, hc⟩

/-- the conflicts an answer reports -/
def GenResult.conflicts : GenResult → List Conflict
  | .noConflicts _ => []
  | .allowedConflicts _ cs => cs
  | .badConflicts cs => cs

/-- The item of a reported shift-reduce conflict is a completed rule. There are symbols after which both are right: to reduce the rule, with (LR(1), LALR) the symbol of
the conflict coming next, and to shift this symbol. -/
theorem C64_shift_reduce (g : Grammar) (wf : g.WF) (hne : NoEmptyRhs g) (allow : Bool) (kind : LRKind) (fuel : Nat) (res : GenResult)
    (h : generateTable g allow kind fuel = .ok res) (q : Nat) (it : Item) (X : Sym) (hc : .shiftReduce q it X ∈ res.conflicts) :
    ∃ i r α, it = ⟨some i, r.rhs.length, none⟩ ∧ g.rules[i]? = some r ∧ ReduceFits g α r (if kind.hasLa then [X] else []) ∧ ShiftFits g α X := by
  obtain ⟨fs, gr, _, _, hv, hj, ha⟩ := generateTable_graph wf hne h
  have hc : Conflict.shiftReduce q it X ∈ findConflicts g gr := by
    cases res with
    | noConflicts tb => simp [GenResult.conflicts] at hc
    | allowedConflicts tb cs => obtain ⟨_, _, _, rfl⟩ := ha; exact hc
    | badConflicts cs => obtain ⟨_, _, rfl⟩ := ha; exact hc
  rw [findConflicts_iff hv] at hc
  generalize hce : Conflict.shiftReduce q it X = c at hc
  cases hc with
  | reduceReduce => cases hce
  | @shiftReduce q' s it' X' hs h1 h2 h3 =>
    cases hce
    have hm : it' ∈ completedFor g s it'.la := by rw [h1]; simp
    simp only [completedFor, List.mem_filter, decide_eq_true_eq] at hm
    obtain ⟨hit, hco, _⟩ := hm
    obtain ⟨i, r, e, hr⟩ := completed_rule hv.base hj wf hs hit hco
    obtain ⟨α, hα, hα'⟩ := hj q s hs it' hit
    obtain ⟨k, hk1, hk2, hk3⟩ := h2
    obtain ⟨k', hk', e1, e2⟩ := (state_cores wf hv hα s hs (k.rule, k.dot)).mp ⟨k, hk1, rfl, rfl⟩
    refine ⟨i, r, strip α, by rw [e]; rfl, hr, ?_, ?_⟩
    · have hf := fits_of_after wf hα'
      rw [e] at hf
      have hf := FitsAt.reduce hf hr
      have hla := hα'.la wf
      unfold LaOk at hla
      split at hla
      · rename_i hh
        rw [if_pos hh]
        obtain ⟨a, ha, _⟩ := hla
        rcases h3 with h3 | h3
        · rw [ha] at h3; cases h3
        · rw [h3] at hf; exact hf
      · rename_i hh
        rw [if_neg hh]
        rw [hla] at hf
        exact hf
    · have hf := fits_of_after wf hk'
      rw [e1, e2] at hf
      simp only at hf
      cases hkr : k.rule with
      | none => exact absurd hkr hk2
      | some j =>
        rw [hkr] at hf
        refine FitsAt.shift hf ?_
        rw [← hkr]
        exact hk3

/-- The items of a reported reduce-reduce conflict are two or more different completed rules. LR(0), LR(1): there are symbols after which to reduce each of them is right,
with the same symbol coming next. LALR: there is a symbol such that each can be right if it comes next, after symbols after which the others can be right as well, but
possibly only if something else comes next. -/
theorem C64_reduce_reduce (g : Grammar) (wf : g.WF) (hne : NoEmptyRhs g) (allow : Bool) (kind : LRKind) (fuel : Nat) (res : GenResult)
    (h : generateTable g allow kind fuel = .ok res) (q : Nat) (its : List Item) (hc : .reduceReduce q its ∈ res.conflicts) :
    its.Nodup ∧ 2 ≤ its.length ∧ (∀ it ∈ its, ∃ i r, it = ⟨some i, r.rhs.length, none⟩ ∧ g.rules[i]? = some r) ∧
    ∃ next : List Sym, next.length = (if kind.hasLa then 1 else 0) ∧ ∀ i r, ⟨some i, r.rhs.length, none⟩ ∈ its → g.rules[i]? = some r →
      ∃ α, ReduceFits g α r next ∧ ∀ i' r', ⟨some i', r'.rhs.length, none⟩ ∈ its → g.rules[i']? = some r' →
        ReduceFits g α r' (if kind.isLalr then [] else next) := by
  obtain ⟨fs, gr, _, _, hv, hj, ha⟩ := generateTable_graph wf hne h
  have hc : Conflict.reduceReduce q its ∈ findConflicts g gr := by
    cases res with
    | noConflicts tb => simp [GenResult.conflicts] at hc
    | allowedConflicts tb cs => obtain ⟨_, _, _, rfl⟩ := ha; exact hc
    | badConflicts cs => obtain ⟨_, _, rfl⟩ := ha; exact hc
  rw [findConflicts_iff hv] at hc
  generalize hce : Conflict.reduceReduce q its = c at hc
  cases hc with
  | shiftReduce => cases hce
  | @reduceReduce q' s la hs h1 =>
    cases hce
    have hmem : ∀ it, it ∈ completedFor g s la ↔ it ∈ s ∧ it.after g = none ∧ it.la = la := by intro it; simp [completedFor]
    have hrule : ∀ it ∈ completedFor g s la, ∃ i r, it = ⟨some i, r.rhs.length, la⟩ ∧ g.rules[i]? = some r := by
      intro it hit
      obtain ⟨m1, m2, m3⟩ := (hmem it).mp hit
      obtain ⟨i, r, e, hr⟩ := completed_rule hv.base hj wf hs m1 m2
      exact ⟨i, r, by rw [e, m3], hr⟩
    have hback : ∀ i (r : Rule), ⟨some i, r.rhs.length, none⟩ ∈ (completedFor g s la).map Item.toLr0 → (⟨some i, r.rhs.length, la⟩ : Item) ∈ s := by
      intro i r hi
      obtain ⟨it, i1, i2⟩ := List.mem_map.mp hi
      obtain ⟨j, r', rfl, _⟩ := hrule it i1
      simp only [Item.toLr0, Item.mk.injEq, Option.some.injEq, and_true] at i2
      obtain ⟨rfl, i2⟩ := i2
      rw [← i2]
      exact ((hmem _).mp i1).1
    have hsn : (completedFor g s la).Nodup := (hv.base.sorted q s hs).nodup.filter _
    refine ⟨?_, by simpa using h1, ?_, la.toList, ?_, ?_⟩
    · refine hsn.map_on ?_
      intro a ha b hb hab
      obtain ⟨i, r, rfl, _⟩ := hrule a ha
      obtain ⟨i', r', rfl, _⟩ := hrule b hb
      simp only [Item.toLr0, Item.mk.injEq, and_true] at hab ⊢
      exact hab
    · intro it hit
      obtain ⟨k, i1, rfl⟩ := List.mem_map.mp hit
      obtain ⟨i, r, rfl, hr⟩ := hrule k i1
      exact ⟨i, r, rfl, hr⟩
    · obtain ⟨a, ha, _⟩ := two_of_length hsn h1
      obtain ⟨m1, _, m3⟩ := (hmem a).mp ha
      have hla := (hv.base.items q s hs a m1).la
      unfold LaOk at hla
      rw [m3] at hla
      split at hla
      · rename_i hh
        obtain ⟨x, rfl, _⟩ := hla
        rw [if_pos hh]; rfl
      · rename_i hh
        rw [hla, if_neg hh]; rfl
    · intro i r hi hr
      obtain ⟨α, hα, hα'⟩ := hj q s hs _ (hback i r hi)
      refine ⟨strip α, FitsAt.reduce (fits_of_after wf hα') hr, fun i' r' hi' hr' => ?_⟩
      split
      · obtain ⟨k', hk', e1, e2⟩ := (state_cores wf hv hα s hs (some i', r'.rhs.length)).mp ⟨_, hback i' r' hi', rfl, rfl⟩
        have hf := (fits_of_after wf hk').weak
        rw [e1, e2] at hf
        exact FitsAt.reduce hf hr'
      · rename_i hl
        have hl : kind.isLalr = false := by simpa using hl
        have := (state_items hl hv hα s hs _).mp (hback i' r' hi')
        exact FitsAt.reduce (fits_of_after wf this) hr'

/-! ## Knuth's definition -/

/-- LR(1): no conflicts are reported exactly for the LR(1) grammars. -/
theorem C64_lr1 (g : Grammar) (wf : g.WF) (hne : NoEmptyRhs g) (hel : EpsLeading g) (hprod : Productive g) (allow : Bool) (fuel : Nat) (r : GenResult)
    (h : generateTable g allow .lr1 fuel = .ok r) : (∃ tb, r = .noConflicts tb) ↔ IsLR g 1 := by
  obtain ⟨fs, gr, _, _, hv, _, ha⟩ := generateTable_graph wf hne h
  have hcs := findConflicts_iff hv
  have hno : (∃ tb, r = .noConflicts tb) ↔ ∀ c, ¬ Clash g gr.sets c := by
    cases r with
    | noConflicts tb => exact ⟨fun _ c hc => by have := (hcs c).mpr hc; rw [ha.1] at this; simp at this, fun _ => ⟨tb, rfl⟩⟩
    | allowedConflicts tb cs =>
      obtain ⟨c, hc⟩ := List.exists_mem_of_ne_nil _ ha.2.1
      exact ⟨(by rintro ⟨_, h⟩; cases h), fun h => absurd ((hcs c).mp hc) (h c)⟩
    | badConflicts cs =>
      obtain ⟨c, hc⟩ := List.exists_mem_of_ne_nil _ ha.2.1
      exact ⟨(by rintro ⟨_, h⟩; cases h), fun h => absurd ((hcs c).mp hc) (h c)⟩
  rw [hno]
  constructor
  · intro hn
    by_contra hlr
    obtain ⟨c, hc⟩ := clash_of_not_lr wf hel (fun _ => rfl) hv hlr
    exact hn c hc
  · intro hlr c hc
    cases hc with
    | @shiftReduce q s it X hs h1 h2 h3 =>
      have hm : it ∈ completedFor g s it.la := by rw [h1]; simp
      simp only [completedFor, List.mem_filter, decide_eq_true_eq] at hm
      obtain ⟨α, hα⟩ := leads_of_reach (hv.reached q (getElem?_lt hs))
      have hi := state_items rfl hv hα s hs
      obtain ⟨k, k1, k2, k3⟩ := h2
      exact not_lr_shift wf hprod hel (.inl ⟨rfl, rfl⟩) ((hi it).mp hm.1) ((hi k).mp k1) hm.2.1 k3 k2 h3 (by simp [LRKind.hasLa]) hlr
    | @reduceReduce q s la hs h1 =>
      obtain ⟨α, hα⟩ := leads_of_reach (hv.reached q (getElem?_lt hs))
      have hi := state_items rfl hv hα s hs
      obtain ⟨a, ha, b, hb, hab⟩ := two_of_length ((hv.base.sorted q s hs).nodup.filter _) h1
      simp only [List.mem_filter, decide_eq_true_eq] at ha hb
      exact not_lr_reduce wf hprod hel (.inl ⟨rfl, rfl⟩) ((hi a).mp ha.1) ((hi b).mp hb.1) ha.2.1 hb.2.1 (ha.2.2.trans hb.2.2.symm) hab hlr

/-- So for a grammar with short right sides there is a number of steps from which on the answer is "no conflicts", if it is LR(1), and a non-empty list of conflicts
otherwise. -/
theorem C64_lr1_decides (g : Grammar) (wf : g.WF) (hne : NoEmptyRhs g) (hel : EpsLeading g) (hprod : Productive g) (hs : ShortRhs g) :
    ∃ bound, (IsLR g 1 → ∃ tb, ∀ fuel, bound ≤ fuel → generateTable g false .lr1 fuel = .ok (.noConflicts tb)) ∧
      (¬ IsLR g 1 → ∃ cs, cs ≠ [] ∧ ∀ fuel, bound ≤ fuel → generateTable g false .lr1 fuel = .ok (.badConflicts cs)) := by
  obtain ⟨bound, r, h⟩ := C27_no_panic g wf hne false .lr1 hs (fun _ => hel)
  have hiff := C64_lr1 g wf hne hel hprod false bound r (h bound (Nat.le_refl _))
  obtain ⟨_, gr, _, _, _, _, ha⟩ := generateTable_graph wf hne (h bound (Nat.le_refl _))
  refine ⟨bound, fun hlr => ?_, fun hlr => ?_⟩
  · obtain ⟨tb, rfl⟩ := hiff.mpr hlr
    exact ⟨tb, h⟩
  · cases r with
    | noConflicts tb => exact absurd (hiff.mp ⟨tb, rfl⟩) hlr
    | allowedConflicts tb cs => exact absurd ha.1 (by simp)
    | badConflicts cs => exact ⟨cs, by rw [ha.2.2]; exact ha.2.1, h⟩

/-- LR(0), for grammars without empty right sides: no conflicts are reported exactly for the LR(0) grammars. -/
theorem C64_lr0 (g : Grammar) (wf : g.WF) (hne : NoEmptyRhs g) (hel : EpsLeading g) (hprod : Productive g) (hfree : ∀ r ∈ g.rules, strip r.rhs ≠ []) (allow : Bool)
    (fuel : Nat) (r : GenResult) (h : generateTable g allow .lr0 fuel = .ok r) : (∃ tb, r = .noConflicts tb) ↔ IsLR g 0 := by
  obtain ⟨fs, gr, _, _, hv, _, ha⟩ := generateTable_graph wf hne h
  have hcs := findConflicts_iff hv
  have hno : (∃ tb, r = .noConflicts tb) ↔ ∀ c, ¬ Clash g gr.sets c := by
    cases r with
    | noConflicts tb => exact ⟨fun _ c hc => by have := (hcs c).mpr hc; rw [ha.1] at this; simp at this, fun _ => ⟨tb, rfl⟩⟩
    | allowedConflicts tb cs =>
      obtain ⟨c, hc⟩ := List.exists_mem_of_ne_nil _ ha.2.1
      exact ⟨(by rintro ⟨_, h⟩; cases h), fun h => absurd ((hcs c).mp hc) (h c)⟩
    | badConflicts cs =>
      obtain ⟨c, hc⟩ := List.exists_mem_of_ne_nil _ ha.2.1
      exact ⟨(by rintro ⟨_, h⟩; cases h), fun h => absurd ((hcs c).mp hc) (h c)⟩
  rw [hno]
  constructor
  · intro hn
    by_contra hlr
    obtain ⟨c, hc⟩ := clash_of_not_lr wf hel (by simp [LRKind.hasLa]) hv hlr
    exact hn c hc
  · intro hlr c hc
    cases hc with
    | @shiftReduce q s it X hs h1 h2 h3 =>
      have hm : it ∈ completedFor g s it.la := by rw [h1]; simp
      simp only [completedFor, List.mem_filter, decide_eq_true_eq] at hm
      obtain ⟨α, hα⟩ := leads_of_reach (hv.reached q (getElem?_lt hs))
      have hi := state_items rfl hv hα s hs
      obtain ⟨k, k1, k2, k3⟩ := h2
      exact not_lr_shift wf hprod hel (.inr rfl) ((hi it).mp hm.1) ((hi k).mp k1) hm.2.1 k3 k2 h3 (fun _ => hfree) hlr
    | @reduceReduce q s la hs h1 =>
      obtain ⟨α, hα⟩ := leads_of_reach (hv.reached q (getElem?_lt hs))
      have hi := state_items rfl hv hα s hs
      obtain ⟨a, ha, b, hb, hab⟩ := two_of_length ((hv.base.sorted q s hs).nodup.filter _) h1
      simp only [List.mem_filter, decide_eq_true_eq] at ha hb
      exact not_lr_reduce wf hprod hel (.inr rfl) ((hi a).mp ha.1) ((hi b).mp hb.1) ha.2.1 hb.2.1 (ha.2.2.trans hb.2.2.symm) hab hlr

/-- In general no LR(0) conflicts means that the grammar is LR(0). -/
theorem C64_lr0_sound (g : Grammar) (wf : g.WF) (hne : NoEmptyRhs g) (hel : EpsLeading g) (allow : Bool) (fuel : Nat) (tb : LRTable)
    (h : generateTable g allow .lr0 fuel = .ok (.noConflicts tb)) : IsLR g 0 := by
  obtain ⟨fs, gr, _, _, hv, _, ha⟩ := generateTable_graph wf hne h
  by_contra hlr
  obtain ⟨c, hc⟩ := clash_of_not_lr wf hel (by simp [LRKind.hasLa]) hv hlr
  have := (findConflicts_iff hv c).mpr hc
  rw [ha.1] at this
  simp at this

/-- LALR: no conflicts means that the grammar is LR(1); a shift-reduce conflict means that it is not. So for an LR(1) grammar all conflicts are reduce-reduce conflicts. -/
theorem C64_lalr (g : Grammar) (wf : g.WF) (hne : NoEmptyRhs g) (hel : EpsLeading g) (hprod : Productive g) (allow : Bool) (fuel : Nat) (r : GenResult)
    (h : generateTable g allow .lalr fuel = .ok r) :
    ((∃ tb, r = .noConflicts tb) → IsLR g 1) ∧ ((∃ q it X, .shiftReduce q it X ∈ r.conflicts) → ¬ IsLR g 1) := by
  obtain ⟨fs, gr, _, _, hv, hj, ha⟩ := generateTable_graph wf hne h
  have hcs := findConflicts_iff hv
  refine ⟨?_, ?_⟩
  · rintro ⟨tb, rfl⟩
    by_contra hlr
    obtain ⟨c, hc⟩ := clash_of_not_lr wf hel (fun _ => rfl) hv hlr
    have := (hcs c).mpr hc
    rw [ha.1] at this
    simp at this
  · rintro ⟨q, it, X, hc⟩
    have hc : Conflict.shiftReduce q it X ∈ findConflicts g gr := by
      cases r with
      | noConflicts tb => simp [GenResult.conflicts] at hc
      | allowedConflicts tb cs => obtain ⟨_, _, _, rfl⟩ := ha; exact hc
      | badConflicts cs => obtain ⟨_, _, rfl⟩ := ha; exact hc
    rw [hcs] at hc
    generalize hce : Conflict.shiftReduce q it X = c at hc
    cases hc with
    | reduceReduce => cases hce
    | @shiftReduce q' s it' X' hs h1 h2 h3 =>
      cases hce
      have hm : it' ∈ completedFor g s it'.la := by rw [h1]; simp
      simp only [completedFor, List.mem_filter, decide_eq_true_eq] at hm
      obtain ⟨α, hα, hα'⟩ := hj q s hs it' hm.1
      obtain ⟨k, hk1, hk2, hk3⟩ := h2
      obtain ⟨k', hk', e1, e2⟩ := (state_cores wf hv hα s hs (k.rule, k.dot)).mp ⟨k, hk1, rfl, rfl⟩
      simp only at e1 e2
      refine not_lr_shift wf hprod hel (.inl ⟨rfl, rfl⟩) hα' hk' hm.2.1 (X := X) ?_ (by rw [e1]; exact hk2) h3 (by simp [LRKind.hasLa])
      unfold Item.after at hk3 ⊢
      rw [e1, e2]
      exact hk3

/-! ## C52 — the LALR states -/

/-- LALR: a string of symbols for which there are LR(1) items leads to exactly one state; the items of a state are all LR(1) items of all strings that lead to it; two
strings lead to the same state exactly if their LR(1) items are the same up to lookaheads. -/
theorem C52_lalr_collection (g : Grammar) (wf : g.WF) (hne : NoEmptyRhs g) (n : Nat) (fs : SymSets) (hfs : lrFirstSets g .lalr n = .ok fs) (c f : Nat) (gr : LRGraph)
    (h : generateGraph g fs .lalr c f = .ok gr) :
    (∀ α, (∃ it, ItemAfter g .lr1 α it) → ∃ q, q < gr.sets.length ∧ Leads gr.edges α q) ∧
    (∀ α q q', Leads gr.edges α q → Leads gr.edges α q' → q = q') ∧
    (∀ (q : Nat) (s : List Item), gr.sets[q]? = some s → ∀ it, it ∈ s ↔ ∃ α, Leads gr.edges α q ∧ ItemAfter g .lr1 α it) ∧
    (∀ α β q q', Leads gr.edges α q → Leads gr.edges β q' →
      (q = q' ↔ ∀ k, (∃ it, ItemAfter g .lr1 α it ∧ it.toLr0 = k) ↔ (∃ it, ItemAfter g .lr1 β it ∧ it.toLr0 = k))) := by
  have hsame : ∀ α it, ItemAfter g .lr1 α it ↔ ItemAfter g .lalr α it := by
    intro α it
    constructor
    · intro h
      induction h with
      | start => exact .start
      | closure _ hs ih => exact ih.closure hs
      | goto _ h1 h2 ih => exact ih.goto h1 h2
    · intro h
      induction h with
      | start => exact .start
      | closure _ hs ih => exact ih.closure hs
      | goto _ h1 h2 ih => exact ih.goto h1 h2
  simp only [hsame]
  obtain ⟨hv, hj⟩ := generateGraph_justified wf (fsOk_of wf hne hfs) h
  have hcore : ∀ (a b : Item), a.toLr0 = b.toLr0 ↔ a.rule = b.rule ∧ a.dot = b.dot := by intro a b; simp [Item.toLr0]
  refine ⟨?_, fun α q q' h1 h2 => leads_det hv.base h1 h2, ?_, ?_⟩
  · rintro α ⟨it, hit⟩
    obtain ⟨q, s, h1, h2, _⟩ := mem_of_itemAfter hv hit
    exact ⟨q, getElem?_lt h2, h1⟩
  · intro q s hs it
    constructor
    · exact hj q s hs it
    · rintro ⟨α, h1, h2⟩; exact mem_state hv h1 hs h2
  · intro α β q q' h1 h2
    have hset : ∀ {α : List Sym} {q : Nat}, Leads gr.edges α q → ∃ s, gr.sets[q]? = some s := by
      intro α q hl
      cases hl with
      | nil => obtain ⟨s, hs, _⟩ := hv.base.start; exact ⟨s, hs⟩
      | snoc _ he => obtain ⟨_, s, _, hs, _⟩ := hv.base.edge _ _ _ he; exact ⟨s, hs⟩
    obtain ⟨s, hs⟩ := hset h1
    obtain ⟨s', hs'⟩ := hset h2
    have c1 := state_cores wf hv h1 s hs
    have c2 := state_cores wf hv h2 s' hs'
    have conv : ∀ (γ : List Sym) (k : Item), (∃ it, ItemAfter g .lalr γ it ∧ it.toLr0 = k) ↔ k.la = none ∧ ∃ it, ItemAfter g .lalr γ it ∧ it.rule = k.rule ∧ it.dot = k.dot := by
      intro γ k
      constructor
      · rintro ⟨it, i1, rfl⟩; exact ⟨rfl, it, i1, rfl, rfl⟩
      · rintro ⟨h0, it, i1, i2, i3⟩
        refine ⟨it, i1, ?_⟩
        obtain ⟨r, d, l⟩ := k
        simp only at h0 i2 i3
        simp [Item.toLr0, h0, i2, i3]
    constructor
    · rintro rfl k
      rw [hs] at hs'; cases hs'
      rw [conv, conv, ← c1 (k.rule, k.dot), ← c2 (k.rule, k.dot)]
    · intro hk
      refine hv.base.inj q q' s s' hs hs' (fun _ cc => ?_) (by simp [LRKind.isLalr])
      rw [c1, c2]
      have := hk ⟨cc.1, cc.2, none⟩
      rw [conv, conv] at this
      simpa using this

/-! ## Examples -/

/-- the conflicts reported if they are not allowed -/
def lrConflicts (g : Grammar) (kind : LRKind) (fuel : Nat) : Option (List Conflict) :=
  match generateTable g false kind fuel with
  | .ok r => some r.conflicts
  | _ => none

theorem lrConflicts_some {g : Grammar} {kind : LRKind} {fuel : Nat} {c : Conflict} {cs : List Conflict} (h : lrConflicts g kind fuel = some (c :: cs)) :
    generateTable g false kind fuel = .ok (.badConflicts (c :: cs)) := by
  unfold lrConflicts at h
  cases hg : generateTable g false kind fuel with
  | error e => rw [hg] at h; simp at h
  | ok r =>
    rw [hg] at h
    cases r with
    | noConflicts tb => simp [GenResult.conflicts] at h
    | allowedConflicts tb cs' =>
      exfalso
      unfold generateTable at hg
      obtain ⟨_, _, hg⟩ := res_bind_ok.mp hg
      obtain ⟨_, _, hg⟩ := res_bind_ok.mp hg
      dsimp only at hg
      split at hg
      · cases hg
      · rename_i h1
        split at hg
        · cases hg
        · rename_i h2; simp [h2] at h1
    | badConflicts cs' => simp [GenResult.conflicts] at h; rw [h]

/-- `s = a b`, `a = ε` -/
def epsRules : RuleSet where
  entry := "s"
  tokens := ["b"]
  prods := [⟨"s", none, .sequence [.rule "a", .rule "b"]⟩, ⟨"a", none, .epsilon⟩]

def epsGrammar : Grammar where
  rules := [⟨0, [.nt 1, .t 0], 0⟩, ⟨1, [.eps], 1⟩]
  anon := []
  productions := [(.nt 0, "s"), (.nt 1, "a")]
  tokens := [(.t 0, "b")]
  entry := .nt 0
  entryOrigin := 0

theorem epsGrammar_built : Grammar.fromRuleSet epsRules = .ok epsGrammar := GRes.of_same (by decide)

theorem epsGrammar_forms {f : List Sym} (h : RightForm epsGrammar f) : f = [.nt 0] ∨ f = [.nt 1, .t 0] ∨ f = [.t 0] := by
  generalize hg : epsGrammar = g at h
  induction h with
  | start => subst hg; exact .inl rfl
  | @step α r w hf hr ih =>
    subst hg
    have hr' : r = ⟨0, [.nt 1, .t 0], 0⟩ ∨ r = ⟨1, [.eps], 1⟩ := by simpa [epsGrammar] using hr
    rcases hr' with rfl | rfl
    · match α, w, ih with
      | [], [], _ => exact .inr (.inl rfl)
      | [], _ :: _, ih => simp at ih
      | [_], w, ih => cases w <;> simp at ih
      | _ :: _ :: _, _, ih => simp at ih
    · match α, w, ih with
      | [], [], ih => simp at ih
      | [], [a], ih => simp at ih; subst ih; exact .inr (.inr rfl)
      | [], _ :: _ :: _, ih => simp at ih
      | [_], w, ih => cases w <;> simp at ih
      | _ :: _ :: _, _, ih => simp at ih

/-- With empty right sides LR(0) conflicts are reported for LR(0) grammars: reducing an empty rule is taken to be in conflict with going on after the reduction. -/
theorem C64_lr0_epsilon_counterexample : IsLR epsGrammar 0 ∧ generateTable epsGrammar false .lr0 60 = .ok (.badConflicts [.shiftReduce 0 ⟨some 1, 1, none⟩ (.nt 1)]) := by
  refine ⟨?_, lrConflicts_some (by decide +kernel)⟩
  intro α γ i j r r' w x y hi hj h1 h2 h3 _
  have key : ∀ (α : List Sym) (i : Nat) (r : Rule) (w : List Nat), epsGrammar.rules[i]? = some r → RightForm epsGrammar (α ++ .nt r.lhs :: w.map Sym.t) →
      α = [] ∧ ((i = 0 ∧ strip r.rhs = [.nt 1, .t 0] ∧ w = []) ∨ (i = 1 ∧ strip r.rhs = [] ∧ w = [0])) := by
    intro α i r w hi h
    have hf := epsGrammar_forms h
    have hr' : (i = 0 ∧ r = ⟨0, [.nt 1, .t 0], 0⟩) ∨ (i = 1 ∧ r = ⟨1, [.eps], 1⟩) := by
      match i with
      | 0 => simp [epsGrammar] at hi; exact .inl ⟨rfl, hi.symm⟩
      | 1 => simp [epsGrammar] at hi; exact .inr ⟨rfl, hi.symm⟩
      | n + 2 => simp [epsGrammar] at hi
    rcases hr' with ⟨rfl, rfl⟩ | ⟨rfl, rfl⟩
    · match α, w, hf with
      | [], [], _ => exact ⟨rfl, .inl ⟨rfl, rfl, rfl⟩⟩
      | [], _ :: _, hf => simp at hf
      | [_], w, hf => cases w <;> simp at hf
      | _ :: _ :: _, _, hf => simp at hf
    · match α, w, hf with
      | [], [], hf => simp at hf
      | [], [a], hf => simp at hf; subst hf; exact ⟨rfl, .inr ⟨rfl, rfl, rfl⟩⟩
      | [], _ :: _ :: _, hf => simp at hf
      | [_], w, hf => cases w <;> simp at hf
      | _ :: _ :: _, _, hf => simp at hf
  obtain ⟨rfl, k1⟩ := key α i r w hi h1
  obtain ⟨rfl, k2⟩ := key γ j r' x hj h2
  refine ⟨rfl, ?_⟩
  rcases k1 with ⟨rfl, e1, rfl⟩ | ⟨rfl, e1, rfl⟩ <;> rcases k2 with ⟨rfl, e2, rfl⟩ | ⟨rfl, e2, rfl⟩
  · rfl
  · rw [e1, e2] at h3; simp at h3
  · rw [e1, e2] at h3
    cases y with
    | nil => simp at h3
    | cons a y => simp at h3
  · rfl

/-- LALR reports a conflict for a grammar that is LR(1): two reductions. -/
theorem C64_lalr_counterexample : IsLR lr1Grammar 1 ∧ ∃ q, generateTable lr1Grammar false .lalr 60 = .ok (.badConflicts [.reduceReduce q [⟨some 4, 1, none⟩, ⟨some 5, 1, none⟩],
    .reduceReduce q [⟨some 4, 1, none⟩, ⟨some 5, 1, none⟩]]) := by
  refine ⟨?_, 5, lrConflicts_some (by decide +kernel)⟩
  obtain ⟨tb, h⟩ := lrClean_some (g := lr1Grammar) (kind := .lr1) (fuel := 60) (by decide +kernel)
  exact (C64_lr1 lr1Grammar (C19_well_formed _ _ lr1Grammar_built) (by decide) (by decide) (productive_of_order [4, 5, 0] (by decide) (by decide)) false 60 _ h).mp ⟨tb, rfl⟩

-- what C64_lr1, C64_lr1_decides, C64_lr0 and C64_lalr ask of a grammar
example : parenGrammar.WF ∧ NoEmptyRhs parenGrammar ∧ EpsLeading parenGrammar ∧ ShortRhs parenGrammar ∧ Productive parenGrammar ∧ (∀ r ∈ parenGrammar.rules, strip r.rhs ≠ []) :=
  ⟨C19_well_formed _ _ parenGrammar_built, by decide, by decide, by decide, productive_of_order [0] (by decide) (by decide), by decide⟩
example : plusGrammar.WF ∧ NoEmptyRhs plusGrammar ∧ EpsLeading plusGrammar ∧ ShortRhs plusGrammar ∧ Productive plusGrammar ∧ (∀ r ∈ plusGrammar.rules, strip r.rhs ≠ []) :=
  ⟨C19_well_formed _ _ plusGrammar_built, by decide, by decide, by decide, productive_of_order [1, 0] (by decide) (by decide), by decide⟩
-- it is LR(0)
example : IsLR parenGrammar 0 := by
  obtain ⟨tb, h⟩ := lrClean_some (g := parenGrammar) (kind := .lr0) (fuel := 60) (by decide +kernel)
  exact C64_lr0_sound parenGrammar (C19_well_formed _ _ parenGrammar_built) (by decide) (by decide) false 60 tb h
-- a shift-reduce conflict that is reported: after `e p e` with `p` coming next
example : lrConflicts plusGrammar .lr1 60 = some [.shiftReduce 4 ⟨some 1, 3, none⟩ (.t 0)] ∧ lrConflicts plusGrammar .lalr 60 = some [.shiftReduce 4 ⟨some 1, 3, none⟩ (.t 0)] := by
  decide +kernel
example : ¬ IsLR plusGrammar 1 := by
  have h := lrConflicts_some (g := plusGrammar) (kind := .lalr) (fuel := 60) (c := .shiftReduce 4 ⟨some 1, 3, none⟩ (.t 0)) (cs := []) (by decide +kernel)
  exact (C64_lalr plusGrammar (C19_well_formed _ _ plusGrammar_built) (by decide) (by decide) (productive_of_order [1, 0] (by decide) (by decide)) false 60 _ h).2
    ⟨_, _, _, List.mem_singleton.mpr rfl⟩
-- C52_lalr_collection applies
example : ∃ fs gr, lrFirstSets lr1Grammar .lalr 60 = .ok fs ∧ generateGraph lr1Grammar fs .lalr 60 60 = .ok gr ∧ lr1Grammar.WF ∧ NoEmptyRhs lr1Grammar := by
  obtain ⟨q, h⟩ := C64_lalr_counterexample.2
  obtain ⟨fs, gr, h1, h2, _⟩ := C64_exact lr1Grammar (C19_well_formed _ _ lr1Grammar_built) (by decide) _ _ _ _ h
  exact ⟨fs, gr, h1, h2, C19_well_formed _ _ lr1Grammar_built, by decide⟩

end Verif
