import Verif.Proofs.ConflictFits
import Verif.Proofs.LRPath
import Verif.Proofs.LRLink

/-! # The states and the items for strings of symbols -/

set_option autoImplicit false

namespace Verif

variable {g : Grammar} {kind : LRKind} {gr : LRGraph}

theorem Leads.mono {e e' : List (Nat × Sym × Nat)} (h : ∀ x ∈ e, x ∈ e') {α : List Sym} {q : Nat} (hr : Leads e α q) : Leads e' α q := by
  induction hr with
  | nil => exact .nil
  | snoc _ he ih => exact .snoc ih (h _ he)

theorem leads_of_reach {e : List (Nat × Sym × Nat)} {q : Nat} (h : EReach e 0 q) : ∃ α, Leads e α q := by
  induction h with
  | refl => exact ⟨[], .nil⟩
  | step _ he ih => obtain ⟨α, h⟩ := ih; exact ⟨_, h.snoc he⟩

theorem leads_nil {e : List (Nat × Sym × Nat)} {q : Nat} (h : Leads e [] q) : q = 0 := by
  generalize hα : ([] : List Sym) = α at h
  cases h with
  | nil => rfl
  | snoc => simp at hα

theorem leads_snoc {e : List (Nat × Sym × Nat)} {α : List Sym} {X : Sym} {q : Nat} (h : Leads e (α ++ [X]) q) : ∃ q0, Leads e α q0 ∧ (q0, X, q) ∈ e := by
  generalize hα : α ++ [X] = β at h
  cases h with
  | nil => simp at hα
  | snoc h he =>
    obtain ⟨rfl, h2⟩ := List.append_inj' hα rfl
    simp only [List.cons.injEq, and_true] at h2
    subst h2
    exact ⟨_, h, he⟩

theorem leads_det (hb : Base g kind gr) {α : List Sym} {q q' : Nat} (h : Leads gr.edges α q) (h' : Leads gr.edges α q') : q = q' := by
  induction h generalizing q' with
  | nil => exact (leads_nil h').symm
  | snoc _ he ih =>
    obtain ⟨q0, h1, h2⟩ := leads_snoc h'
    have := ih h1
    subst this
    exact edge_det hb he h2

/-! ## The items for a string -/

/-- every item of a state is one for some string leading there -/
def Justified (g : Grammar) (kind : LRKind) (gr : LRGraph) : Prop :=
  ∀ (q : Nat) (s : List Item), gr.sets[q]? = some s → ∀ it ∈ s, ∃ α, Leads gr.edges α q ∧ ItemAfter g kind α it

theorem ItemAfter.closures {α : List Sym} {it it' : Item} (h : ItemAfter g kind α it) (hc : Closure g it it') : ItemAfter g kind α it' := by
  induction hc with
  | self => exact h
  | step _ hs ih => exact ih.closure hs

theorem itemAfter_nil {it : Item} : ItemAfter g kind [] it ↔ Closure g (entryItem kind) it := by
  constructor
  · intro h
    generalize hα : ([] : List Sym) = α at h
    induction h with
    | start => exact .self
    | closure _ hs ih => exact .step (ih hα) hs
    | goto => simp at hα
  · exact fun h => ItemAfter.start.closures h

theorem itemAfter_snoc {α : List Sym} {X : Sym} {it : Item} : ItemAfter g kind (α ++ [X]) it ↔
    ∃ k, ItemAfter g kind α k ∧ k.after g = some X ∧ k.rule ≠ none ∧ Closure g { k with dot := k.dot + 1 } it := by
  constructor
  · intro h
    generalize hα : α ++ [X] = β at h
    induction h with
    | start => simp at hα
    | closure _ hs ih =>
      obtain ⟨k, h1, h2, h3, h4⟩ := ih hα
      exact ⟨k, h1, h2, h3, .step h4 hs⟩
    | @goto α' k Y h1 h2 h3 ih =>
      obtain ⟨rfl, h5⟩ := List.append_inj' hα rfl
      simp only [List.cons.injEq, and_true] at h5
      subst h5
      exact ⟨k, h1, h2, h3, .self⟩
  · rintro ⟨k, h1, h2, h3, h4⟩
    exact (h1.goto h2 h3).closures h4

theorem ItemAfter.la (wf : g.WF) {α : List Sym} {it : Item} (h : ItemAfter g kind α it) : LaOk g kind it.la := by
  induction h with
  | start => exact (entryItem_ok (g := g)).la
  | closure _ hs ih => exact closure_laOk wf ih (.step .self hs)
  | goto _ _ _ ih => exact ih

/-- inside a string every symbol was the one after the dot of some item -/
theorem itemAfter_prefix {β : List Sym} {it : Item} (h : ItemAfter g kind β it) : ∀ (φ ψ : List Sym) (X : Sym), β = φ ++ X :: ψ →
    ∃ k, ItemAfter g kind φ k ∧ k.rule ≠ none ∧ k.after g = some X := by
  induction h with
  | start => intro φ ψ X h; simp at h
  | closure _ _ ih => exact ih
  | @goto α it Y h1 h2 h3 ih =>
    intro φ ψ X h
    rcases List.eq_nil_or_concat ψ with rfl | ⟨ψ', Z, rfl⟩
    · obtain ⟨rfl, h5⟩ := List.append_inj' h rfl
      simp only [List.cons.injEq, and_true] at h5
      subst h5
      exact ⟨it, h1, h3, h2⟩
    · have : φ ++ X :: (ψ' ++ [Z]) = (φ ++ X :: ψ') ++ [Z] := by simp
      rw [List.concat_eq_append, this] at h
      exact ih φ ψ' X (List.append_inj' h rfl).1

/-- the items for a string fit after it -/
theorem fits_of_after (wf : g.WF) {α : List Sym} {it : Item} (h : ItemAfter g kind α it) : FitsAt g (strip α) it.rule it.dot it.la.toList := by
  induction h with
  | start => exact ⟨rfl, rfl, by cases kind <;> simp [LRKind.endLa]⟩
  | @closure α a b hcab hs ih =>
    have hla' := hcab.la wf
    obtain ⟨A, i, r, x, h1, h2, rfl, h4, rfl⟩ := hs
    refine ih.closure wf h1 h2 ?_
    unfold ExpandsWith at h4
    cases hx : a.la with
    | none => rw [hx] at h4; simp only at h4; subst h4; exact .inl rfl
    | some l =>
      rw [hx] at h4
      obtain ⟨b, rfl, hb, h5⟩ := h4
      refine .inr ⟨l, b, rfl, ?_, rfl, h5⟩
      unfold LaOk at hla'
      rw [hx] at hla'
      split at hla'
      · obtain ⟨a', h6, h7⟩ := hla'
        cases h6
        rcases h7 with rfl | h7
        · trivial
        · obtain ⟨t, rfl⟩ := wf.ts _ h7; trivial
      · cases hla'
  | @goto α it X h0 ha hr ih =>
    obtain ⟨rule, d, la⟩ := it
    cases rule with
    | none => exact absurd rfl hr
    | some i =>
      rw [strip_append]
      exact ih.advance ha

theorem FitsAt.weak {α : List Sym} {rule : RuleIdx} {dot : Nat} {ls : List Sym} (h : FitsAt g α rule dot ls) : FitsAt g α rule dot [] := by
  cases rule with
  | none => exact ⟨h.1, h.2.1, .inl rfl⟩
  | some i =>
    obtain ⟨r, α', δ, h1, h2, h3⟩ := h
    exact ⟨r, α', ls ++ δ, h1, h2, h3⟩

/-- a completed item belongs to a rule -/
theorem completed_rule (hb : Base g kind gr) (hj : Justified g kind gr) (wf : g.WF) {q : Nat} {s : List Item} (hs : gr.sets[q]? = some s) {it : Item} (hit : it ∈ s)
    (hc : it.after g = none) : ∃ i r, it = ⟨some i, r.rhs.length, it.la⟩ ∧ g.rules[i]? = some r := by
  have hok := hb.items q s hs it hit
  obtain ⟨rule, dot, la⟩ := it
  cases rule with
  | none =>
    obtain ⟨α, _, h2⟩ := hj q s hs _ hit
    have := (fits_of_after wf h2).1
    simp only at this
    subst this
    simp [Item.after, ruleRhs] at hc
  | some i =>
    have hlt := hok.rule i rfl
    refine ⟨i, g.rules[i], ?_, List.getElem?_eq_getElem hlt⟩
    have h1 := hok.dot
    unfold Item.after at hc
    simp only [ruleRhs, List.getElem?_eq_getElem hlt, Option.map_some, Option.getD_some] at hc h1
    rw [List.getElem?_eq_none_iff] at hc
    have : dot = (g.rules[i]).rhs.length := by omega
    rw [this]

/-! ## States -/

/-- all kinds: the items for a string belong to the state it leads to -/
theorem mem_of_itemAfter (hv : LoopInv g kind gr []) {α : List Sym} {it : Item} (h : ItemAfter g kind α it) : ∃ q s, Leads gr.edges α q ∧ gr.sets[q]? = some s ∧ it ∈ s := by
  induction h with
  | start =>
    obtain ⟨s, h1, h2⟩ := hv.base.start
    exact ⟨0, s, .nil, h1, (h2 _).mpr .self⟩
  | closure _ hs ih =>
    obtain ⟨q, s, h1, h2, h3⟩ := ih
    exact ⟨q, s, h1, h2, hv.base.closed q s h2 _ h3 _ hs⟩
  | goto _ ha hr ih =>
    obtain ⟨q, s, h1, h2, h3⟩ := ih
    obtain ⟨q', s', h4, h5, h6⟩ := hv.done q (getElem?_lt h2) (by simp) s h2 _ h3 _ ha hr
    exact ⟨q', s', h1.snoc h4, h5, h6⟩

theorem mem_state (hv : LoopInv g kind gr []) {α : List Sym} {q : Nat} {s : List Item} {it : Item} (hl : Leads gr.edges α q) (hs : gr.sets[q]? = some s)
    (h : ItemAfter g kind α it) : it ∈ s := by
  obtain ⟨q', s', h1, h2, h3⟩ := mem_of_itemAfter hv h
  have := leads_det hv.base hl h1
  subst this
  rw [hs] at h2; cases h2
  exact h3

/-- not LALR: the state for a string consists of exactly its items -/
theorem state_items (hk : kind.isLalr = false) (hv : LoopInv g kind gr []) {α : List Sym} {q : Nat} (hl : Leads gr.edges α q) :
    ∀ (s : List Item), gr.sets[q]? = some s → ∀ it, it ∈ s ↔ ItemAfter g kind α it := by
  induction hl with
  | nil =>
    intro s hs it
    obtain ⟨s', h1, h2⟩ := hv.base.start
    rw [hs] at h1; cases h1
    rw [h2, itemAfter_nil]
  | @snoc α X q q' _ he ih =>
    intro s' hs' it
    obtain ⟨s, s1, h1, h2, _, h3⟩ := hv.base.edge _ _ _ he
    rw [hs'] at h2; cases h2
    rw [h3 hk, itemAfter_snoc]
    constructor
    · rintro ⟨k, k1, k2, k3, k4⟩; exact ⟨k, (ih s h1 k).mp k1, k2, k3, k4⟩
    · rintro ⟨k, k1, k2, k3, k4⟩; exact ⟨k, (ih s h1 k).mpr k1, k2, k3, k4⟩

/-- all kinds: rules and dots of the state for a string -/
theorem state_cores (wf : g.WF) (hv : LoopInv g kind gr []) {α : List Sym} {q : Nat} (hl : Leads gr.edges α q) :
    ∀ (s : List Item), gr.sets[q]? = some s → ∀ c, InCore s c ↔ ∃ it, ItemAfter g kind α it ∧ it.rule = c.1 ∧ it.dot = c.2 := by
  induction hl with
  | nil =>
    intro s hs c
    obtain ⟨s', h1, h2⟩ := hv.base.start
    rw [hs] at h1; cases h1
    unfold InCore
    simp only [h2, itemAfter_nil]
  | @snoc α X q q' _ he ih =>
    intro s' hs' c
    obtain ⟨s, s1, h1, h2, h3, _⟩ := hv.base.edge _ _ _ he
    rw [hs'] at h2; cases h2
    rw [h3]
    constructor
    · rintro ⟨k, k1, k2, k3, k4⟩
      obtain ⟨it, i1, i2, i3⟩ := (ih s h1 k).mp k1
      obtain ⟨k', kd⟩ := k
      simp only at i2 i3
      subst i2 i3
      obtain ⟨it', j1, j2⟩ := (closure_core wf (it0 := { it with dot := it.dot + 1 }) (i1.la wf)).mpr k4
      exact ⟨it', itemAfter_snoc.mpr ⟨it, i1, k2, k3, j1⟩, j2⟩
    · rintro ⟨it, i1, i2⟩
      obtain ⟨k, k1, k2, k3, k4⟩ := itemAfter_snoc.mp i1
      exact ⟨(k.rule, k.dot), (ih s h1 _).mpr ⟨k, k1, rfl, rfl⟩, k2, k3, (closure_core wf (it0 := { k with dot := k.dot + 1 }) (k1.la wf)).mp ⟨it, k4, i2⟩⟩

/-! ## LALR: where the items come from -/

theorem justified_add {gr : LRGraph} (h : Justified g kind gr) {sets : List (List Item)} {cores : List (List Item × Nat)} {q q' : Nat} {X : Sym} {S s : List Item}
    (hq : gr.sets[q]? = some s) (hS : ∀ it ∈ S, GotoSet g s X it)
    (hsets : ∀ (p : Nat) (t : List Item), sets[p]? = some t → ∀ it ∈ t, (∃ t', gr.sets[p]? = some t' ∧ it ∈ t') ∨ (p = q' ∧ it ∈ S)) :
    Justified g kind (LRGraph.addTransition { gr with sets := sets, cores := cores } q X q') := by
  have mono : ∀ {α : List Sym} {p : Nat}, Leads gr.edges α p → Leads (LRGraph.addTransition { gr with sets := sets, cores := cores } q X q').edges α p :=
    fun h => h.mono (fun x hx => List.mem_append.mpr (.inl hx))
  intro p t hp it hit
  rcases hsets p t hp it hit with ⟨t', h1, h2⟩ | ⟨rfl, h1⟩
  · obtain ⟨α, h3, h4⟩ := h p t' h1 it h2
    exact ⟨α, mono h3, h4⟩
  · obtain ⟨k, k1, k2, k3, k4⟩ := hS it h1
    obtain ⟨α, h3, h4⟩ := h q s hq k k1
    exact ⟨α ++ [X], (mono h3).snoc mem_snoc_edges, itemAfter_snoc.mpr ⟨k, h4, k2, k3, k4⟩⟩

theorem linkStep_justified {st st' : LRGraph × List Nat} {lalr : Bool} {q : Nat} {X : Sym} {S s : List Item} (h : Justified g kind st.1)
    (hq : st.1.sets[q]? = some s) (hS : ∀ it ∈ S, GotoSet g s X it) (hr : linkStep lalr q st (X, S) = .ok st') :
    Justified g kind st'.1 ∧ ∀ (p : Nat) (t : List Item), st.1.sets[p]? = some t → ∃ t', st'.1.sets[p]? = some t' ∧ ∀ it ∈ t, it ∈ t' := by
  have hnew : ∀ cores, Justified g kind (LRGraph.addTransition { st.1 with sets := st.1.sets ++ [S], cores := cores } q X st.1.sets.length) := fun cores =>
    justified_add h hq hS (fun p t hp it hit => by
      rcases getElem?_snoc.mp hp with h1 | ⟨h1, rfl⟩
      · exact .inl ⟨t, h1, hit⟩
      · exact .inr ⟨h1, hit⟩)
  have hold : ∀ (p : Nat) (t : List Item), st.1.sets[p]? = some t → ∃ t', (st.1.sets ++ [S])[p]? = some t' ∧ ∀ it ∈ t, it ∈ t' :=
    fun p t hp => ⟨t, getElem?_snoc.mpr (.inl hp), fun _ h => h⟩
  unfold linkStep at hr
  split at hr
  · split at hr
    · rename_i q' _
      obtain ⟨⟨gr2, ch⟩, a1, a2⟩ := res_bind_ok.mp hr
      simp only [Except.ok.injEq] at a2
      subst a2
      simp only [LRGraph.merge] at a1
      split at a1
      · cases a1
      · rename_i old ho
        simp only [Except.ok.injEq, Prod.mk.injEq] at a1
        obtain ⟨rfl, rfl⟩ := a1
        have hmem : ∀ (its set : List Item) (ch : Bool) (it : Item), it ∈ (mergeItems its (set, ch)).1 ↔ it ∈ set ∨ it ∈ its := by
          intro its
          induction its with
          | nil => intro set ch it; simp [mergeItems]
          | cons x its ih => intro set ch it; simp only [mergeItems]; rw [ih, mem_sinsert, List.mem_cons]; tauto
        refine ⟨justified_add h hq hS (fun p t hp it hit => ?_), fun p t hp => ?_⟩
        · rcases (getElem?_set_iff (getElem?_lt ho)).mp hp with ⟨rfl, rfl⟩ | ⟨_, h1⟩
          · rcases (hmem _ _ _ _).mp hit with h1 | h1
            · exact .inl ⟨old, ho, h1⟩
            · exact .inr ⟨rfl, h1⟩
          · exact .inl ⟨t, h1, hit⟩
        · by_cases hpq : p = q'
          · subst hpq
            rw [ho] at hp; cases hp
            exact ⟨_, (getElem?_set_iff (getElem?_lt ho)).mpr (.inl ⟨rfl, rfl⟩), fun it hi => (hmem _ _ _ _).mpr (.inl hi)⟩
          · exact ⟨t, (getElem?_set_iff (getElem?_lt ho)).mpr (.inr ⟨hpq, hp⟩), fun _ h => h⟩
    · simp only [Except.ok.injEq] at hr
      subst hr
      exact ⟨hnew _, hold⟩
  · split at hr
    · rename_i q' hg
      simp only [Except.ok.injEq] at hr
      subst hr
      exact ⟨justified_add (sets := st.1.sets) (cores := st.1.cores) h hq hS (fun p t hp it hit => .inl ⟨t, hp, hit⟩), fun p t hp => ⟨t, hp, fun _ h => h⟩⟩
    · simp only [Except.ok.injEq] at hr
      subst hr
      exact ⟨hnew _, hold⟩

theorem processState_justified (wf : g.WF) {fs : SymSets} (hfs : FsOk g kind fs) {fuel : Nat} {lalr : Bool} {q : Nat} {st st' : LRGraph × List Nat} (h : Justified g kind st.1)
    (hok : ∀ (p : Nat) (s : List Item), st.1.sets[p]? = some s → ∀ it ∈ s, ItemOk g kind it) (hr : processState g fs fuel lalr q st = .ok st') : Justified g kind st'.1 := by
  unfold processState at hr
  cases hq : st.1.sets[q]? with
  | none => rw [hq] at hr; cases hr
  | some s =>
    rw [hq] at hr
    obtain ⟨m, h1, h2⟩ := res_bind_ok.mp hr
    have hm := (transitions_spec wf hfs (hok q s hq) fuel).ok h1
    have hms : ∀ e ∈ m, ∀ it ∈ e.2, GotoSet g s e.1 it := by
      rintro ⟨X, S⟩ he it hit
      rw [← hm.mem, mem_mget? hm.msorted he]
      exact ⟨S, rfl, hit⟩
    have gen : ∀ (l : List (Sym × List Item)) (a b : LRGraph × List Nat), (∀ e ∈ l, ∀ it ∈ e.2, GotoSet g s e.1 it) → Justified g kind a.1 →
        (∃ t, a.1.sets[q]? = some t ∧ ∀ it ∈ s, it ∈ t) → l.foldlM (linkStep lalr q) a = .ok b → Justified g kind b.1 := by
      intro l
      induction l with
      | nil => intro a b _ ha _ hab; simp only [List.foldlM_nil] at hab; cases hab; exact ha
      | cons e l ih =>
        rintro a b hl ha ⟨t, ht, hst⟩ hab
        rw [List.foldlM_cons] at hab
        obtain ⟨c, c1, c2⟩ := res_bind_ok.mp hab
        obtain ⟨X, S⟩ := e
        obtain ⟨d1, d2⟩ := linkStep_justified ha ht (S := S) (X := X) (fun it hi => by
          obtain ⟨k, k1, k2⟩ := hl (X, S) List.mem_cons_self it hi
          exact ⟨k, hst k k1, k2⟩) c1
        obtain ⟨t', e1, e2⟩ := d2 q t ht
        exact ih c b (fun e he => hl e (List.mem_cons_of_mem _ he)) d1 ⟨t', e1, fun it hi => e2 it (hst it hi)⟩ c2
    exact gen m st st' hms h ⟨s, hq, fun _ h => h⟩ h2

theorem graphLoop_justified (wf : g.WF) {fs : SymSets} (hfs : FsOk g kind fs) (cfuel : Nat) : ∀ (fuel : Nat) (gr gr' : LRGraph) (work : List Nat),
    LoopInv g kind gr work → Justified g kind gr → graphLoop g fs cfuel kind.isLalr fuel gr work = .ok gr' → Justified g kind gr' := by
  intro fuel
  induction fuel with
  | zero =>
    intro gr gr' work _ hj h
    cases work with
    | nil => simp only [graphLoop] at h; cases h; exact hj
    | cons q work => simp [graphLoop] at h
  | succ fuel ih =>
    intro gr gr' work hinv hj h
    cases work with
    | nil => simp only [graphLoop] at h; cases h; exact hj
    | cons q work =>
      unfold graphLoop at h
      obtain ⟨st, h1, h2⟩ := res_bind_ok.mp h
      have hp := (processState_spec wf hfs cfuel hinv (fun p hp => hinv.inRange p (List.mem_cons_of_mem _ hp))).ok h1
      exact ih st.1 gr' st.2 hp.1 (processState_justified wf hfs hj hinv.base.items h1) h2

theorem generateGraph_justified (wf : g.WF) {fs : SymSets} (hfs : FsOk g kind fs) {cfuel fuel : Nat} {gr : LRGraph} (h : generateGraph g fs kind cfuel fuel = .ok gr) :
    LoopInv g kind gr [] ∧ Justified g kind gr := by
  refine ⟨(generateGraph_spec wf hfs cfuel fuel).ok h, ?_⟩
  unfold generateGraph at h
  obtain ⟨S, h1, h2⟩ := res_bind_ok.mp h
  obtain ⟨s1, s2, s3⟩ := (expandItem_spec wf hfs entryItem_ok cfuel).ok h1
  refine graphLoop_justified wf hfs cfuel fuel _ gr [0] (startInv wf s1 s2 s3) ?_ h2
  intro q s hq it hit
  cases q with
  | zero =>
    simp only [LRGraph.addState, List.nil_append, List.getElem?_cons_zero, Option.some.injEq] at hq
    subst hq
    exact ⟨[], .nil, itemAfter_nil.mpr ((s3 it).mp hit)⟩
  | succ q => simp [LRGraph.addState] at hq

theorem generateTable_graph (wf : g.WF) (hne : NoEmptyRhs g) {allow : Bool} {fuel : Nat} {r : GenResult} (h : generateTable g allow kind fuel = .ok r) :
    ∃ fs gr, lrFirstSets g kind fuel = .ok fs ∧ generateGraph g fs kind fuel fuel = .ok gr ∧ LoopInv g kind gr [] ∧ Justified g kind gr ∧ AnswerFor g gr allow r := by
  unfold generateTable at h
  obtain ⟨fs, h1, h⟩ := res_bind_ok.mp h
  obtain ⟨gr, h2, h⟩ := res_bind_ok.mp h
  have hfs : FsOk g kind fs := by
    intro hk
    rw [lrFirstSets, if_pos hk] at h1
    exact computeFirstSets_exact wf hne h1
  obtain ⟨h3, h4⟩ := generateGraph_justified wf hfs h2
  refine ⟨fs, gr, h1, h2, h3, h4, ?_⟩
  simp only at h
  split at h
  · rename_i hc
    simp at h; subst h
    simp at hc
    exact ⟨hc.1, hc.2, rfl⟩
  · split at h
    · rename_i hc'
      simp at h; subst h
      exact ⟨by simpa using hc', rfl⟩
    · rename_i hc hc'
      simp at h; subst h
      refine ⟨?_, by simpa using hc', rfl, rfl⟩
      cases allow with
      | true => rfl
      | false => simp_all

end Verif
