import Verif.Proofs.LRComplete

/-! # What the absence of reported conflicts means -/

set_option autoImplicit false

namespace Verif

variable {T : Type} {g : Grammar} {kind : LRKind} {gr : LRGraph}

/-- no two completed items of a state share a lookahead, and no completed item's lookahead labels an edge -/
structure NoConf (g : Grammar) (gr : LRGraph) : Prop where
  uniq : ∀ (q : Nat) (s : List Item), gr.sets[q]? = some s → ∀ it ∈ s, ∀ it' ∈ s, it.after g = none → it'.after g = none → it.la = it'.la → it = it'
  noShift : ∀ (q : Nat) (s : List Item), gr.sets[q]? = some s → ∀ it ∈ s, it.after g = none → ∀ X q', (q, X, q') ∈ gr.edges → ∃ a, it.la = some a ∧ a ≠ X

theorem reducing_spec (items : List Item) : MSorted (reducing g items) ∧ (∀ la, mget? la (reducing g items) ≠ some []) ∧
    ∀ la, (mget? la (reducing g items)).getD [] = items.filter (fun it => it.after g = none ∧ it.la = la) := by
  have gen : ∀ (l : List Item) (m : List (Option Sym × List Item)), MSorted m → (∀ la, mget? la m ≠ some []) →
      let m' := l.foldl (fun m it => if it.after g = none then mpush it.la it m else m) m
      MSorted m' ∧ (∀ la, mget? la m' ≠ some []) ∧ ∀ la, (mget? la m').getD [] = (mget? la m).getD [] ++ l.filter (fun it => it.after g = none ∧ it.la = la) := by
    intro l
    induction l with
    | nil => intro m h h'; simpa using ⟨h, h'⟩
    | cons it l ih =>
      intro m h h'
      rw [List.foldl_cons]
      by_cases ha : it.after g = none
      · rw [if_pos ha]
        have hget : ∀ la, mget? la (mpush it.la it m) = if la = it.la then some ((mget? la m).getD [] ++ [it]) else mget? la m := by
          intro la
          split
          · rename_i e; subst e; exact mget?_mpush_self _ _ _ h
          · rename_i e; exact mget?_mpush_ne _ _ e
        obtain ⟨h1, h2, h3⟩ := ih (mpush it.la it m) (mpush_sorted h) (fun la => by rw [hget]; split; · simp
                                                                                    · exact h' la)
        refine ⟨h1, h2, fun la => ?_⟩
        rw [h3, hget]
        by_cases e : la = it.la
        · subst e; simp [ha]
        · simp [e, Ne.symm e]
      · rw [if_neg ha]
        obtain ⟨h1, h2, h3⟩ := ih m h h'
        refine ⟨h1, h2, fun la => ?_⟩
        rw [h3]
        simp [ha]
  have := gen items [] (by simp [MSorted]) (by simp [mget?])
  simpa [reducing, mget?] using this

theorem mem_reducing {items : List Item} {e : Option Sym × List Item} :
    e ∈ reducing g items ↔ e.2 = items.filter (fun it => it.after g = none ∧ it.la = e.1) ∧ e.2 ≠ [] := by
  obtain ⟨h1, h2, h3⟩ := reducing_spec (g := g) items
  obtain ⟨la, l⟩ := e
  constructor
  · intro h
    have hg := mem_mget? h1 h
    have := h3 la
    rw [hg] at this
    refine ⟨by simpa using this, fun h0 => h2 la (by rw [hg]; simp only at h0; rw [h0])⟩
  · rintro ⟨e1, e2⟩
    simp only at e1 e2
    have := h3 la
    rw [← e1] at this
    cases hg : mget? la (reducing g items) with
    | none => rw [hg] at this; simp at this; exact absurd this.symm (by simpa using e2)
    | some l' =>
      rw [hg] at this
      simp at this
      subst this
      exact mget?_mem hg

theorem conflictsFor_nil {q : Nat} {e : Option Sym × List Item} (he : e.2 ≠ []) :
    conflictsFor gr q e = [] ↔ ∃ it, e.2 = [it] ∧ ∀ X q', (q, X, q') ∈ gr.edges → ∃ a, e.1 = some a ∧ a ≠ X := by
  unfold conflictsFor
  split
  · exact absurd ‹_› he
  · rename_i it hit
    rw [hit]
    rw [List.filterMap_eq_nil_iff]
    constructor
    · intro h
      refine ⟨it, rfl, fun X q' hX => ?_⟩
      have := h (q, X, q') (by simp [hX])
      cases hla : e.1 with
      | none => rw [hla] at this; simp at this
      | some a =>
        rw [hla] at this
        refine ⟨a, rfl, ?_⟩
        intro hax
        simp [hax] at this
    · rintro ⟨_, _, h⟩ ⟨p, X, q'⟩ hx
      simp at hx
      obtain ⟨hx, rfl⟩ := hx
      obtain ⟨a, h1, h2⟩ := h X q' hx
      rw [h1]
      simp [h2]
  · rename_i its h1 h2
    simp
    intro x hx
    exact absurd hx (h2 x)

/-- the conflict search finds nothing exactly when there is no conflict -/
theorem findConflicts_nil (hb : Base g kind gr) : findConflicts g gr = [] ↔ NoConf g gr := by
  unfold findConflicts
  rw [List.flatMap_eq_nil_iff]
  constructor
  · intro h
    have key : ∀ (q : Nat) (s : List Item), gr.sets[q]? = some s → ∀ it ∈ s, it.after g = none →
        s.filter (fun i => i.after g = none ∧ i.la = it.la) = [it] ∧ ∀ X q', (q, X, q') ∈ gr.edges → ∃ a, it.la = some a ∧ a ≠ X := by
      intro q s hs it hit ha
      have h1 := h (s, q) (by rw [List.mem_zipIdx_iff_getElem?]; exact hs)
      rw [List.flatMap_eq_nil_iff] at h1
      have hmem : it ∈ s.filter (fun i => i.after g = none ∧ i.la = it.la) := by simp [hit, ha]
      have hne : s.filter (fun i => i.after g = none ∧ i.la = it.la) ≠ [] := List.ne_nil_of_mem hmem
      have h2 := h1 (it.la, s.filter (fun i => i.after g = none ∧ i.la = it.la)) (mem_reducing.mpr ⟨rfl, hne⟩)
      obtain ⟨it', h3, h4⟩ := (conflictsFor_nil hne).mp h2
      simp only at h3 h4
      rw [h3] at hmem
      simp at hmem
      subst hmem
      exact ⟨h3, h4⟩
    refine ⟨fun q s hs it hit it' hit' ha ha' hla => ?_, fun q s hs it hit ha => (key q s hs it hit ha).2⟩
    have h1 := (key q s hs it hit ha).1
    have : it' ∈ s.filter (fun i => i.after g = none ∧ i.la = it.la) := by simp [hit', ha', hla]
    rw [h1] at this
    simp at this
    exact this.symm
  · rintro h ⟨s, q⟩ hsq
    have hs : gr.sets[q]? = some s := by rw [List.mem_zipIdx_iff_getElem?] at hsq; exact hsq
    rw [List.flatMap_eq_nil_iff]
    intro e he
    obtain ⟨e1, e2⟩ := mem_reducing.mp he
    simp only at e1
    obtain ⟨it, hit⟩ := List.exists_mem_of_ne_nil _ e2
    have hit' := hit
    rw [e1] at hit'
    simp at hit'
    obtain ⟨h1, h2, h3⟩ := hit'
    refine (conflictsFor_nil e2).mpr ⟨it, ?_, fun X q' hX => ?_⟩
    · have hnd : e.2.Nodup := by rw [e1]; exact (hb.sorted q s hs).nodup.filter _
      have hall : ∀ x ∈ e.2, x = it := by
        intro x hx
        rw [e1] at hx
        simp at hx
        exact (h.uniq q s hs it h1 x hx.1 h2 hx.2.1 (by rw [h3, hx.2.2])).symm
      cases hl : e.2 with
      | nil => exact absurd hl e2
      | cons a l =>
        rw [hl] at hall hnd
        have ha := hall a (by simp)
        subst ha
        cases l with
        | nil => rfl
        | cons b l =>
          have := hall b (by simp)
          subst this
          simp at hnd
    · rw [← h3]
      exact h.noShift q s hs it h1 h2 X q' hX

/-! ## One entry per cell -/

theorem redEntries_le (hb : Base g kind gr) (hn : NoConf g gr) {q : Nat} {s : List Item} (hs : gr.sets[q]? = some s) (X : Sym) :
    redEntries g s X = [] ∨ ∃ it ∈ s, it.after g = none ∧ LaMatch g it.la X ∧ redEntries g s X = [.reduce it.rule] := by
  have huniq : ∀ it ∈ s, ∀ it' ∈ s, it.after g = none → LaMatch g it.la X → it'.after g = none → LaMatch g it'.la X → it = it' := by
    intro it h1 it' h1' h2 h3 h2' h3'
    refine hn.uniq q s hs it h1 it' h1' h2 h2' ?_
    have l1 := (hb.items q s hs it h1).la
    have l2 := (hb.items q s hs it' h1').la
    unfold LaOk at l1 l2
    split at l1
    · rename_i hk
      rw [if_pos hk] at l2
      obtain ⟨a, ha, _⟩ := l1
      obtain ⟨b, hb, _⟩ := l2
      rw [ha] at h3
      rw [hb] at h3'
      simp only [LaMatch] at h3 h3'
      rw [ha, hb, h3, h3']
    · rename_i hk
      rw [if_neg hk] at l2
      rw [l1, l2]
  have hnd := (hb.sorted q s hs).nodup
  have gen : ∀ (l : List Item), (∀ it ∈ l, it ∈ s) → l.Nodup → redEntries g l X = [] ∨ ∃ it ∈ l, it.after g = none ∧ LaMatch g it.la X ∧ redEntries g l X = [.reduce it.rule] := by
    intro l
    induction l with
    | nil => intro _ _; exact .inl rfl
    | cons a l ih =>
      intro hl hnd
      rw [List.nodup_cons] at hnd
      have hcons : redEntries g (a :: l) X = redItem g X a ++ redEntries g l X := by simp [redEntries]
      rw [hcons]
      by_cases ha : a.after g = none ∧ LaMatch g a.la X
      · have : redItem g X a = [.reduce a.rule] := by simp only [redItem, if_pos ha]
        rw [this]
        rcases ih (fun it h => hl it (List.mem_cons_of_mem _ h)) hnd.2 with h | ⟨it, h1, h2, h3, _⟩
        · exact .inr ⟨a, by simp, ha.1, ha.2, by rw [h]; rfl⟩
        · exfalso
          have := huniq a (hl a (by simp)) it (hl it (List.mem_cons_of_mem _ h1)) ha.1 ha.2 h2 h3
          subst this
          exact hnd.1 h1
      · have : redItem g X a = [] := by simp only [redItem, if_neg ha]
        rw [this, List.nil_append]
        rcases ih (fun it h => hl it (List.mem_cons_of_mem _ h)) hnd.2 with h | ⟨it, h1, h2⟩
        · exact .inl h
        · exact .inr ⟨it, List.mem_cons_of_mem _ h1, h2⟩
  exact gen s (fun _ h => h) hnd

/-- no completed item of a state has the entry symbol in its lookahead -/
def AcceptClear (g : Grammar) (gr : LRGraph) : Prop := ∀ s, gr.sets[0]? = some s → ∀ it ∈ s, it.after g = none → ¬ LaMatch g it.la g.entry

theorem acceptClear_la (wf : g.WF) (hb : Base g kind gr) (hk : kind.hasLa = true) : AcceptClear g gr := by
  intro s hs it hit _ hm
  have l1 := (hb.items 0 s hs it hit).la
  have ht : ∀ a, it.la = some a → a.isTerm := fun a ha => l1.isTerm wf ha
  unfold LaOk at l1
  rw [if_pos hk] at l1
  obtain ⟨a, ha, _⟩ := l1
  rw [ha] at hm
  simp only [LaMatch] at hm
  have := ht a ha
  obtain ⟨E, hE, _⟩ := wf.entry_declared
  rw [hm, hE] at this
  exact this

/-- cells of a conflict-free table -/
theorem cell_single (wf : g.WF) (hb : Base g kind gr) (hn : NoConf g gr) (hac : AcceptClear g gr) {q : Nat} {s : List Item} (hs : gr.sets[q]? = some s) (X : Sym) :
    (X ∈ g.symbols → ∃ e, cellContent g gr s q X = [e]) ∧ (X ∉ g.symbols → cellContent g gr s q X = [] ∨ ∃ e, cellContent g gr s q X = [e]) := by
  have hred := redEntries_le hb hn hs X
  constructor
  · intro hX
    unfold cellContent
    rw [if_pos hX]
    rcases hred with h | ⟨it, h1, h2, h3, h4⟩
    · rw [h, List.nil_append]
      unfold lastEntry
      split
      · exact ⟨_, rfl⟩
      · split
        · exact ⟨_, rfl⟩
        · exact ⟨_, by rw [if_pos rfl]⟩
    · rw [h4]
      unfold lastEntry
      split
      · rename_i hc
        obtain ⟨rfl, rfl⟩ := hc
        exact absurd h3 (hac s hs it h1 h2)
      · split
        · rename_i q' hq'
          have he := (edgeTarget_iff hb).mp hq'
          obtain ⟨a, ha, hne⟩ := hn.noShift q s hs it h1 h2 X q' he
          rw [ha] at h3
          exact absurd h3 hne
        · exact ⟨_, by rw [if_neg (by simp)]; rfl⟩
  · intro hX
    unfold cellContent
    rw [if_neg hX, List.append_nil]
    rcases hred with h | ⟨it, _, _, _, h⟩
    · exact .inl h
    · exact .inr ⟨_, h⟩

theorem cells_ok (wf : g.WF) (hv : LoopInv g kind gr []) (hn : NoConf g gr) (hac : AcceptClear g gr) :
    ∀ q, q < (buildTable g gr).stateCount → ∀ X, CellOk (buildTable g gr) q X ∧ (buildTable g gr).get q X ≠ some [.reduce none] := by
  intro q hq X
  obtain ⟨hi, _⟩ := buildTable_cell (gr := gr) wf
  rw [hi.count] at hq
  have hs : gr.sets[q]? = some gr.sets[q] := List.getElem?_eq_getElem hq
  obtain ⟨h1, h2⟩ := cell_single wf hv.base hn hac hs X
  have hcc : cellContent g gr gr.sets[q] q X = [] ∨ ∃ e, cellContent g gr gr.sets[q] q X = [e] := by
    by_cases hX : X ∈ g.symbols
    · exact .inr (h1 hX)
    · exact h2 hX
  have hget := cellOk_content (gr := gr) wf (X := X) hs
  constructor
  · rcases hcc with h | ⟨e, h⟩
    · rw [if_pos h] at hget; exact .inl hget
    · rw [if_neg (by rw [h]; simp), h] at hget; exact .inr ⟨e, hget⟩
  · intro h
    have hc := get_content wf hs h
    have hin : TableEntry.reduce none ∈ cellContent g gr gr.sets[q] q X := by rw [hc]; simp
    rcases mem_cell hin with ⟨it, a1, a2, _, a4⟩ | ⟨_, h⟩
    · simp at a4
      obtain ⟨rfl, rfl⟩ := rule_none_zero hv hs a1 a4.symm
      simp [Item.after, entryItem, ruleRhs] at a2
    · rcases mem_lastEntry h with ⟨h, _⟩ | ⟨q1, h, h1, _⟩ | h <;> cases h

/-! ## Unambiguity -/

open Classical in
/-- the machine that does what a conflict-free graph says -/
noncomputable def idealMachine (g : Grammar) (gr : LRGraph) : LRMachine where
  entry := 0
  nextAction q tk :=
    if ∃ a q', tk = .tok a ∧ (q, Sym.t a, q') ∈ gr.edges then .act .shift
    else if h : ∃ (i : Nat) (s : List Item) (it : Item) (x : Sym), gr.sets[q]? = some s ∧ it ∈ s ∧ it.rule = some i ∧ it.after g = none ∧ tk.sym = some x ∧ LaMatch g it.la x
    then .act (.reduce h.choose) else .unexpected []
  nextGoto q x := x.sym.bind fun X => if q = 0 ∧ g.entry = X then some .accept else (edgeTarget gr q X).map .state
  reduction i := (g.rules[i]?).map (fun r => ((strip r.rhs).length, r.lhs))

theorem idealMachine_obeys (wf : g.WF) (hb : Base g kind gr) (hn : NoConf g gr) : Obeys g gr (idealMachine g gr) := by
  obtain ⟨E, hE, _⟩ := wf.entry_declared
  refine ⟨rfl, fun q a q' he => ⟨?_, ?_⟩, fun q tk i s it x hs h1 h2 h3 h4 _ h6 => ?_, fun q A q' he hna => ?_, fun A hA => ?_, fun i => rfl⟩
  · simp only [idealMachine]
    rw [if_pos ⟨a, q', rfl, he⟩]
  · simp only [idealMachine, StackSym.sym, Option.bind_some]
    rw [if_neg (fun h => by rw [hE] at h; cases h.2), (edgeTarget_iff hb).mpr he]
    rfl
  · simp only [idealMachine]
    have hno : ¬ ∃ a q', tk = .tok a ∧ (q, Sym.t a, q') ∈ gr.edges := by
      rintro ⟨a, q', rfl, he⟩
      simp [Tok.sym] at h4
      subst h4
      obtain ⟨b, hb1, hb2⟩ := hn.noShift q s hs it h1 h3 _ _ he
      rw [hb1] at h6
      exact hb2 h6
    rw [if_neg hno]
    have hex : ∃ (i : Nat) (s : List Item) (it : Item) (x : Sym), gr.sets[q]? = some s ∧ it ∈ s ∧ it.rule = some i ∧ it.after g = none ∧ tk.sym = some x ∧ LaMatch g it.la x :=
      ⟨i, s, it, x, hs, h1, h2, h3, h4, h6⟩
    rw [dif_pos hex]
    obtain ⟨s', it', x', c1, c2, c3, c4, c5, c6⟩ := hex.choose_spec
    rw [hs] at c1; simp at c1; subst c1
    rw [h4] at c5; simp at c5; subst c5
    have hla : it.la = it'.la := by
      have l1 := (hb.items q s hs it h1).la
      have l2 := (hb.items q s hs it' c2).la
      unfold LaOk at l1 l2
      split at l1
      · rename_i hk
        rw [if_pos hk] at l2
        obtain ⟨a, ha, _⟩ := l1
        obtain ⟨b, hb', _⟩ := l2
        rw [ha] at h6
        rw [hb'] at c6
        simp only [LaMatch] at h6 c6
        rw [ha, hb', h6, c6]
      · rename_i hk
        rw [if_neg hk] at l2
        rw [l1, l2]
    have := hn.uniq q s hs it h1 it' c2 h3 c4 hla
    rw [← this, h2] at c3
    exact congrArg (fun j => ActResult.act (LRAction.reduce j)) (Option.some.inj c3).symm
  · simp only [idealMachine, StackSym.sym, Option.bind_some]
    rw [if_neg hna, (edgeTarget_iff hb).mpr he]
    rfl
  · simp only [idealMachine, StackSym.sym, Option.bind_some]
    rw [if_pos (by simpa using hA)]

/-- rebuilds the trees from their post-order -/
def rebuild : List (PTree T) → List (PEvent T) → List (PTree T)
  | stk, [] => stk
  | stk, .shift a d :: es => rebuild (.leaf a d :: stk) es
  | stk, .reduce r :: es => rebuild (.node r ((stk.take (strip r.rhs).length).reverse) :: stk.drop (strip r.rhs).length) es

theorem rebuild_append (a b : List (PEvent T)) : ∀ stk : List (PTree T), rebuild stk (a ++ b) = rebuild (rebuild stk a) b := by
  induction a with
  | nil => intro stk; rfl
  | cons e a ih => intro stk; cases e <;> simp [rebuild, ih]

theorem forest_length {rules : List Rule} {ss : List Sym} {ts : List (PTree T)} (h : Forest rules ss ts) : ts.length = (strip ss).length := by
  induction h with
  | nil => rfl
  | eps _ ih => simpa [strip] using ih
  | term _ ih => simpa [strip] using ih
  | nonterm _ _ _ _ ih => simpa [strip] using ih

theorem rebuild_forest {rules : List Rule} {ss : List Sym} {ts : List (PTree T)} (h : Forest rules ss ts) : ∀ stk, rebuild stk (PTree.postorderList ts) = ts.reverse ++ stk := by
  induction h with
  | nil => intro stk; simp [PTree.postorderList, rebuild]
  | eps _ ih => exact ih
  | @term a d ss ts _ ih => intro stk; simp [PTree.postorderList, PTree.postorder, rebuild, ih]
  | @nonterm r cs ss ts hr hf _ ih1 ih2 =>
    intro stk
    have e : PTree.postorderList (PTree.node r cs :: ts) = PTree.postorderList cs ++ ([.reduce r] ++ PTree.postorderList ts) := by simp [PTree.postorderList, PTree.postorder]
    rw [e, rebuild_append, ih1, rebuild_append]
    have hl := forest_length hf
    have h1 : (cs.reverse ++ stk).take (strip r.rhs).length = cs.reverse := by rw [← hl]; exact List.take_left' (by simp)
    have h2 : (cs.reverse ++ stk).drop (strip r.rhs).length = stk := by rw [← hl]; exact List.drop_left' (by simp)
    simp only [rebuild, h1, h2]
    rw [ih2]
    simp

theorem postorder_inj {rules : List Rule} {X Y : Sym} {t t' : PTree T} (h : IsParseTree rules X t) (h' : IsParseTree rules Y t') (he : t.postorder = t'.postorder) : t = t' := by
  have h1 := rebuild_forest h []
  have h2 := rebuild_forest h' []
  simp only [PTree.postorderList, List.append_nil, List.reverse_cons, List.reverse_nil, List.nil_append] at h1 h2
  rw [he, h2] at h1
  simpa using h1.symm

/-- the stream of a token string -/
def streamFrom [Inhabited T] (w : List (Nat × T)) (i : Nat) : Tok × T :=
  match w[i]? with
  | some p => (.tok p.1, p.2)
  | none => (.eof, default)

theorem streamFrom_is [Inhabited T] (w : List (Nat × T)) : StreamIs (streamFrom w) w := by
  refine ⟨fun i p h => by simp [streamFrom, h], by simp [streamFrom]⟩

theorem noConf_unambiguous [Inhabited T] (wf : g.WF) (hv : LoopInv g kind gr []) (hn : NoConf g gr) (hel : EpsLeading g) (hl : EntryNotLeftRecursive g) {t t' : PTree T}
    (ht : IsParseTree g.rules g.entry t) (ht' : IsParseTree g.rules g.entry t') (he : t.tokens = t'.tokens) : t = t' := by
  have hm := idealMachine_obeys wf hv.base hn
  obtain ⟨n1, e1, h1, h2⟩ := lrParse_complete (input := streamFrom t.tokens) wf hv hm hel hl ht (streamFrom_is _)
  obtain ⟨n2, e2, h3, h4⟩ := lrParse_complete (input := streamFrom t.tokens) wf hv hm hel hl ht' (by rw [he]; exact streamFrom_is _)
  have h5 := h1 (n1 + n2) (by omega)
  rw [h3 (n1 + n2) (by omega)] at h5
  simp at h5
  obtain ⟨rfl, _⟩ := h5
  unfold TraceIs at h2 h4
  rw [h4] at h2
  have := (List.map_injective_iff.mpr (fun _ _ h => Option.some.inj h)) h2
  exact postorder_inj ht ht' this.symm

/-! ## Comparing the three constructions -/

theorem closure_in {s : List Item} (hc : ∀ it ∈ s, ∀ it', ClosureStep g it it' → it' ∈ s) {a b : Item} (ha : a ∈ s) (h : Closure g a b) : b ∈ s := by
  induction h with
  | self => exact ha
  | step _ hs ih => exact hc _ ih _ hs

/-- every LR(1) state is contained in an LALR state with the same outgoing labels -/
theorem lr1_in_lalr {gr1 grL : LRGraph} (h1 : LoopInv g .lr1 gr1 []) (hL : LoopInv g .lalr grL []) {q : Nat} (hr : EReach gr1.edges 0 q) :
    ∃ (p : Nat) (s t : List Item), gr1.sets[q]? = some s ∧ grL.sets[p]? = some t ∧ ∀ it ∈ s, it ∈ t := by
  induction hr with
  | refl =>
    obtain ⟨s, hs, hc⟩ := h1.base.start
    obtain ⟨t, ht, hd⟩ := hL.base.start
    exact ⟨0, s, t, hs, ht, fun it h => (hd it).mpr ((hc it).mp h)⟩
  | @step q q' X _ he ih =>
    obtain ⟨p, s, t, hs, ht, hsub⟩ := ih
    obtain ⟨s0, s1, a1, a2, _, a3⟩ := h1.base.edge _ _ _ he
    rw [hs] at a1; simp at a1; subst a1
    obtain ⟨it, hit⟩ := List.exists_mem_of_ne_nil _ (h1.base.nonempty _ _ a2)
    obtain ⟨k, k1, k2, k3, _⟩ := (a3 rfl it).mp hit
    obtain ⟨p', t', e, ht', _⟩ := hL.done p (getElem?_lt ht) (by simp) t ht k (hsub k k1) X k2 k3
    refine ⟨p', s1, t', a2, ht', fun it hit => ?_⟩
    obtain ⟨k, k1, k2, k3, k4⟩ := (a3 rfl it).mp hit
    obtain ⟨p'', t'', e', ht'', hk⟩ := hL.done p (getElem?_lt ht) (by simp) t ht k (hsub k k1) X k2 k3
    have := edge_det hL.base e' e
    subst this
    rw [ht'] at ht''; simp at ht''; subst ht''
    exact closure_in (hL.base.closed _ _ ht') hk k4

theorem noConf_lr1_of_lalr {gr1 grL : LRGraph} (h1 : LoopInv g .lr1 gr1 []) (hL : LoopInv g .lalr grL []) (hn : NoConf g grL) : NoConf g gr1 := by
  refine ⟨fun q s hs it hit it' hit' ha ha' hla => ?_, fun q s hs it hit ha X q' he => ?_⟩
  · obtain ⟨p, s', t, hs', ht, hsub⟩ := lr1_in_lalr h1 hL (h1.reached q (getElem?_lt hs))
    rw [hs] at hs'; simp at hs'; subst hs'
    exact hn.uniq p t ht it (hsub it hit) it' (hsub it' hit') ha ha' hla
  · obtain ⟨p, s', t, hs', ht, hsub⟩ := lr1_in_lalr h1 hL (h1.reached q (getElem?_lt hs))
    rw [hs] at hs'; simp at hs'; subst hs'
    obtain ⟨s0, s1, a1, a2, _, a3⟩ := h1.base.edge _ _ _ he
    rw [hs] at a1; simp at a1; subst a1
    obtain ⟨it1, hit1⟩ := List.exists_mem_of_ne_nil _ (h1.base.nonempty _ _ a2)
    obtain ⟨k, k1, k2, k3, _⟩ := (a3 rfl it1).mp hit1
    obtain ⟨p', t', e, _, _⟩ := hL.done p (getElem?_lt ht) (by simp) t ht k (hsub k k1) X k2 k3
    exact hn.noShift p t ht it (hsub it hit) ha X p' e

/-- every state of the LALR graph, without lookaheads, is contained in an LR(0) state -/
theorem lalr_in_lr0 (wf : g.WF) {gr0 grL : LRGraph} (h0 : LoopInv g .lr0 gr0 []) (hL : LoopInv g .lalr grL []) {q : Nat} (hr : EReach grL.edges 0 q) :
    ∃ (p : Nat) (s t : List Item), grL.sets[q]? = some s ∧ gr0.sets[p]? = some t ∧ ∀ it ∈ s, it.toLr0 ∈ t := by
  have hclos : ∀ {t : List Item} (_ : ∀ it ∈ t, ∀ it', ClosureStep g it it' → it' ∈ t) {c d : Core}, CClosure g .lalr c d → (⟨c.1, c.2, none⟩ : Item) ∈ t → (⟨d.1, d.2, none⟩ : Item) ∈ t := by
    intro t hc c d h hin
    induction h with
    | self => exact hin
    | step _ hs ih =>
      obtain ⟨A, i, r, b1, b2, b3, _, rfl⟩ := hs
      exact hc _ ih _ ⟨A, i, r, none, b1, b2, b3, by simp [ExpandsWith], rfl⟩
  induction hr with
  | refl =>
    obtain ⟨s, hs, hc⟩ := hL.base.start
    obtain ⟨t, ht, hd⟩ := h0.base.start
    refine ⟨0, s, t, hs, ht, fun it h => ?_⟩
    have := (closure_core (kind := .lalr) wf (it0 := entryItem .lalr) (c := (it.rule, it.dot)) (entryItem_ok (g := g)).la).mp ⟨it, (hc it).mp h, rfl, rfl⟩
    exact hclos (h0.base.closed _ _ ht) this ((hd _).mpr .self)
  | @step q q' X _ he ih =>
    obtain ⟨p, s, t, hs, ht, hsub⟩ := ih
    obtain ⟨s0, s1, a1, a2, a3, _⟩ := hL.base.edge _ _ _ he
    rw [hs] at a1; simp at a1; subst a1
    obtain ⟨it, hit⟩ := List.exists_mem_of_ne_nil _ (hL.base.nonempty _ _ a2)
    have hk : ∀ it ∈ s1, ∃ k ∈ s, k.after g = some X ∧ k.rule ≠ none ∧ CClosure g .lalr (k.rule, k.dot + 1) (it.rule, it.dot) := by
      intro it hit
      obtain ⟨⟨kr, kd⟩, ⟨k, e1, e2, e3⟩, k2, k3, k4⟩ := (a3 (it.rule, it.dot)).mp ⟨it, hit, rfl, rfl⟩
      simp only at e2 e3
      subst e2; subst e3
      exact ⟨k, e1, k2, k3, k4⟩
    obtain ⟨k, k1, k2, k3, _⟩ := hk it hit
    obtain ⟨p', t', e, ht', _⟩ := h0.done p (getElem?_lt ht) (by simp) t ht k.toLr0 (hsub k k1) X k2 k3
    refine ⟨p', s1, t', a2, ht', fun it hit => ?_⟩
    obtain ⟨k, k1, k2, k3, k4⟩ := hk it hit
    obtain ⟨p'', t'', e', ht'', hk⟩ := h0.done p (getElem?_lt ht) (by simp) t ht k.toLr0 (hsub k k1) X k2 k3
    have := edge_det h0.base e' e
    subst this
    rw [ht'] at ht''; simp at ht''; subst ht''
    exact hclos (h0.base.closed _ _ ht') k4 hk

theorem noConf_lalr_of_lr0 (wf : g.WF) {gr0 grL : LRGraph} (h0 : LoopInv g .lr0 gr0 []) (hL : LoopInv g .lalr grL []) (hn : NoConf g gr0) : NoConf g grL := by
  refine ⟨fun q s hs it hit it' hit' ha ha' hla => ?_, fun q s hs it hit ha X q' he => ?_⟩
  · obtain ⟨p, s', t, hs', ht, hsub⟩ := lalr_in_lr0 wf h0 hL (hL.reached q (getElem?_lt hs))
    rw [hs] at hs'; simp at hs'; subst hs'
    have := hn.uniq p t ht _ (hsub it hit) _ (hsub it' hit') ha ha' rfl
    obtain ⟨r, d, la⟩ := it
    obtain ⟨r', d', la'⟩ := it'
    simp only [Item.toLr0, Item.mk.injEq] at this ⊢
    exact ⟨this.1, this.2.1, hla⟩
  · exfalso
    obtain ⟨p, s', t, hs', ht, hsub⟩ := lalr_in_lr0 wf h0 hL (hL.reached q (getElem?_lt hs))
    rw [hs] at hs'; simp at hs'; subst hs'
    obtain ⟨s0, s1, a1, a2, a3, _⟩ := hL.base.edge _ _ _ he
    rw [hs] at a1; simp at a1; subst a1
    obtain ⟨it1, hit1⟩ := List.exists_mem_of_ne_nil _ (hL.base.nonempty _ _ a2)
    obtain ⟨⟨kr, kd⟩, ⟨k, e1, e2, e3⟩, k2, k3, _⟩ := (a3 (it1.rule, it1.dot)).mp ⟨it1, hit1, rfl, rfl⟩
    simp only at e2 e3
    subst e2; subst e3
    obtain ⟨p', t', e, _, _⟩ := h0.done p (getElem?_lt ht) (by simp) t ht k.toLr0 (hsub k e1) X k2 k3
    obtain ⟨a, ha', _⟩ := hn.noShift p t ht _ (hsub it hit) ha X p' e
    simp [Item.toLr0] at ha'

end Verif
