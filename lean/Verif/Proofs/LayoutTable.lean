import Verif.Proofs.Layout
import Verif.Proofs.LRConflict
import Mathlib.Data.List.Perm.Basic

/-! # Proofs: the table and the conflicts do not depend on the order in which states are visited -/

set_option autoImplicit false

namespace Verif

variable {lay : Layout} {g : Grammar} {fs : SymSets}

/-- a sorted list is determined by its members -/
theorem keySorted_ext {α : Type} {key : α → List Nat} {l1 l2 : List α} (h1 : l1.Pairwise (fun a b => key a < key b)) (h2 : l2.Pairwise (fun a b => key a < key b))
    (h : ∀ x, x ∈ l1 ↔ x ∈ l2) : l1 = l2 := by
  have nd : ∀ l : List α, l.Pairwise (fun a b => key a < key b) → l.Nodup := by
    intro l hl
    refine List.Pairwise.imp ?_ hl
    intro a b hab e
    subst e
    exact List.lt_irrefl _ hab
  have hp : l1.Perm l2 := (List.perm_ext_iff_of_nodup (nd l1 h1) (nd l2 h2)).mpr h
  refine hp.eq_of_pairwise ?_ h1 h2
  intro a b _ _ hab hba
  exact absurd (List.lt_trans hab hba) (List.lt_irrefl _)

theorem MSorted.ext {α ν : Type} [Key α] {m1 m2 : List (α × ν)} (h1 : MSorted m1) (h2 : MSorted m2) (h : ∀ k, mget? k m1 = mget? k m2) : m1 = m2 := by
  refine keySorted_ext (key := fun e : α × ν => Key.key e.1) h1 h2 ?_
  rintro ⟨k, v⟩
  constructor
  · intro hm; exact mget?_mem ((h k).symm.trans (mem_mget? h1 hm))
  · intro hm; exact mget?_mem ((h k).trans (mem_mget? h2 hm))

theorem TabInv.ext {t1 t2 : LRTable} {n : Nat} (h1 : TabInv t1 n) (h2 : TabInv t2 n) (h : ∀ q s, t1.cell q s = t2.cell q s) : t1 = t2 := by
  have he : t1.entries = t2.entries := by
    refine MSorted.ext h1.sorted h2.sorted ?_
    rintro ⟨q, s⟩
    have e1 := h1.get q s
    have e2 := h2.get q s
    rw [h q s] at e1
    exact e1.trans e2.symm
  have h3 := h1.entry.trans h2.entry.symm
  have h4 := h1.count.trans h2.count.symm
  cases t1; cases t2
  simp only at he h3 h4
  subst he h3 h4
  rfl

/-- the states in any order -/
theorem visit_cell (wf : g.WF) {gr : LRGraph} {n : Nat} : ∀ (l : List (List Item × Nat)), (l.map (·.2)).Nodup → ∀ (tb : LRTable), TabInv tb n → (∀ q s, q ∈ l.map (·.2) → tb.cell q s = []) →
    TabInv (l.foldl (tableState g gr) tb) n ∧
    ∀ q s, (∀ items, (items, q) ∈ l → (l.foldl (tableState g gr) tb).cell q s = cellContent g gr items q s) ∧
      (q ∉ l.map (·.2) → (l.foldl (tableState g gr) tb).cell q s = tb.cell q s) := by
  intro l
  induction l with
  | nil => intro _ tb h _; exact ⟨h, by simp⟩
  | cons e l ih =>
    intro hnd tb h h0
    obtain ⟨items0, q0⟩ := e
    simp only [List.map_cons, List.nodup_cons] at hnd
    obtain ⟨h1, h2⟩ := tableState_cell wf (gr := gr) h items0 q0 (fun s => h0 q0 s (by simp))
    obtain ⟨h3, h4⟩ := ih hnd.2 _ h1 (fun q s hq => by
      rw [h2, if_neg (by rintro rfl; exact hnd.1 hq)]
      exact h0 q s (by simp only [List.map_cons, List.mem_cons]; exact .inr hq))
    refine ⟨h3, fun q s => ⟨?_, ?_⟩⟩
    · intro items hi
      rcases List.mem_cons.mp hi with e | hi
      · cases e
        rw [List.foldl_cons, (h4 q0 s).2 hnd.1, h2, if_pos rfl]
      · exact (h4 q s).1 items hi
    · intro hq
      simp only [List.map_cons, List.mem_cons, not_or] at hq
      rw [List.foldl_cons, (h4 q s).2 hq.2, h2, if_neg hq.1]

theorem zipIdx_snd_nodup {α : Type} (l : List α) : (l.zipIdx.map (·.2)).Nodup := by
  have : l.zipIdx.map (·.2) = List.range' 0 l.length := by
    simp [List.zipIdx_map_snd]
  rw [this]
  exact List.nodup_range'

theorem redEntries_filter {s : List Item} (hs : ∀ it ∈ s, it.rule = none → it.dot = 0) (X : Sym) :
    redEntries g s X = redEntries g (s.filter (fun x => x.rule.isSome)) X := by
  unfold redEntries
  induction s with
  | nil => rfl
  | cons it s ih =>
    have ih := ih (fun i hi => hs i (by simp [hi]))
    cases hr : it.rule with
    | some i => rw [List.filter_cons_of_pos (by simp [hr]), List.flatMap_cons, List.flatMap_cons, ih]
    | none =>
      rw [List.filter_cons_of_neg (by simp [hr]), List.flatMap_cons, ih]
      have : it.after g ≠ none := by
        unfold Item.after
        rw [hr, hs it (by simp) hr]
        simp [ruleRhs]
      simp [redItem, this]

/-- both graphs have the same cells -/
theorem GrRel.cell {x y : LRGraph} (h : GrRel lay x y) {q : Nat} {s s' : List Item} (hs : x.sets[q]? = some s) (hs' : y.sets[q]? = some s') (X : Sym) :
    cellContent g y s' q X = cellContent g x s q X := by
  have he : ∀ l, lastEntry g y q X l = lastEntry g x q X l := by
    intro l
    unfold lastEntry edgeTarget
    rw [h.edges]
  have hr : redEntries g s' X = redEntries g s X := by
    obtain ⟨s0, s0', rest, cs, c0, c0', h1, h2, h3, h4, h5, h6, h7, h8, h9, h10, h11⟩ := h.ex
    rw [h1] at hs
    rw [h2] at hs'
    cases q with
    | zero =>
      simp only [List.getElem?_cons_zero, Option.some.injEq] at hs hs'
      subst hs hs'
      rw [redEntries_filter h7, redEntries_filter (fun it hi hr => h7 it ((h5.mem it).mp hi) hr), h5.filter]
    | succ q =>
      simp only [List.getElem?_cons_succ] at hs hs'
      rw [hs] at hs'
      cases hs'
      rfl
  unfold cellContent
  rw [hr, he]

theorem laidBuild_eq (wf : g.WF) {x y : LRGraph} (h : GrRel lay x y) (hv : (lay.visit y).Perm y.sets.zipIdx) : laidBuild lay g y = buildTable g x := by
  obtain ⟨b1, b2⟩ := buildTable_cell wf (gr := x)
  obtain ⟨v1, v2⟩ := visit_cell wf (gr := y) (lay.visit y) (((hv.map (·.2)).nodup_iff).mpr (zipIdx_snd_nodup _)) ⟨[], y.sets.length, 0⟩
    (n := y.sets.length) ⟨by simp [MSorted], by simp [LRTable.get, mget?], rfl, rfl⟩ (by simp [LRTable.cell, LRTable.get, mget?])
  rw [h.length] at b1
  refine TabInv.ext v1 b1 ?_
  intro q X
  rw [b2]
  rcases h.set q with ⟨e1, e2⟩ | ⟨s, s', e1, e2, _⟩
  · rw [e1]
    refine ((v2 q X).2 ?_).trans (by simp [LRTable.cell, LRTable.get, mget?])
    intro hq
    obtain ⟨⟨it, q'⟩, hm, e⟩ := List.mem_map.mp hq
    simp only at e
    subst e
    have := List.mem_zipIdx_iff_getElem?.mp (hv.mem_iff.mp hm)
    simp only at this
    rw [e2] at this
    cases this
  · rw [e1]
    exact ((v2 q X).1 s' (hv.mem_iff.mpr (List.mem_zipIdx_iff_getElem?.mpr e2))).trans (h.cell e1 e2 X)

/-! ## conflicts -/

/-- the states with their completed items -/
theorem reducing_filter {s : List Item} (hs : ∀ it ∈ s, it.rule = none → it.dot = 0) : reducing g s = reducing g (s.filter (fun x => x.rule.isSome)) := by
  unfold reducing
  generalize ([] : List (Option Sym × List Item)) = m
  induction s generalizing m with
  | nil => rfl
  | cons it s ih =>
    have ih := ih (fun i hi => hs i (by simp [hi]))
    cases hr : it.rule with
    | some i => rw [List.filter_cons_of_pos (by simp [hr]), List.foldl_cons, List.foldl_cons, ih]
    | none =>
      rw [List.filter_cons_of_neg (by simp [hr]), List.foldl_cons]
      have : it.after g ≠ none := by
        unfold Item.after
        rw [hr, hs it (by simp) hr]
        simp [ruleRhs]
      rw [if_neg this, ih]

/-- an item of an ordinary rule without lookahead -/
def PlainItem (it : Item) : Prop := it.la = none ∧ it.rule.isSome

/-- conflicts between such items -/
def PlainConflict : Conflict → Prop
  | .shiftReduce _ it _ => PlainItem it
  | .reduceReduce _ its => ∀ it ∈ its, PlainItem it

/-- the order of the conflicts, as far as they occur, does not depend on the layout -/
theorem itemKey_plain {it : Item} (h : PlainItem it) : ∃ i d, it = ⟨some i, d, none⟩ ∧ lay.itemKey it = [1, i, d] := by
  obtain ⟨r, d, l⟩ := it
  obtain ⟨h1, h2⟩ := h
  simp only at h1 h2
  subst h1
  cases r with
  | none => cases h2
  | some i => exact ⟨i, d, rfl, rfl⟩

theorem flatKey_inj : ∀ (l l' : List Item), (∀ it ∈ l, PlainItem it) → (∀ it ∈ l', PlainItem it) → l.flatMap lay.itemKey = l'.flatMap lay.itemKey → l = l' := by
  intro l
  induction l with
  | nil =>
    intro l' _ h' h
    cases l' with
    | nil => rfl
    | cons b l' =>
      obtain ⟨i, d, e1, e2⟩ := itemKey_plain (lay := lay) (h' b (by simp))
      simp [List.flatMap_cons, e2] at h
  | cons a l ih =>
    intro l' ha h' h
    obtain ⟨i, d, e1, e2⟩ := itemKey_plain (lay := lay) (ha a (by simp))
    cases l' with
    | nil => simp [List.flatMap_cons, e2] at h
    | cons b l' =>
      obtain ⟨i', d', e1', e2'⟩ := itemKey_plain (lay := lay) (h' b (by simp))
      simp only [List.flatMap_cons, e2, e2', List.cons_append, List.nil_append, List.cons.injEq, true_and] at h
      obtain ⟨rfl, rfl, h⟩ := h
      rw [e1, e1', ih l' (fun it hi => ha it (by simp [hi])) (fun it hi => h' it (by simp [hi])) h]

theorem conflictKey_inj {c d : Conflict} (hc : PlainConflict c) (hd : PlainConflict d) (h : lay.conflictKey c = lay.conflictKey d) : c = d := by
  cases c with
  | shiftReduce q it s =>
    cases d with
    | shiftReduce q' it' s' =>
      obtain ⟨i, n, e1, e2⟩ := itemKey_plain (lay := lay) hc
      obtain ⟨i', n', e1', e2'⟩ := itemKey_plain (lay := lay) hd
      simp only [Layout.conflictKey, e2, e2', List.cons_append, List.nil_append, List.cons.injEq, true_and] at h
      obtain ⟨rfl, rfl, rfl, h⟩ := h
      rw [e1, e1', Key.inj (α := Sym) s s' h]
    | reduceReduce q' its' => simp [Layout.conflictKey] at h
  | reduceReduce q its =>
    cases d with
    | shiftReduce q' it' s' => simp [Layout.conflictKey] at h
    | reduceReduce q' its' =>
      simp only [Layout.conflictKey, List.cons.injEq, true_and] at h
      obtain ⟨rfl, h⟩ := h
      rw [flatKey_inj its its' hc hd h]

theorem conflictKey_same (lay lay' : Layout) {c : Conflict} (hc : PlainConflict c) : lay.conflictKey c = lay'.conflictKey c := by
  have hk : ∀ it, PlainItem it → lay.itemKey it = lay'.itemKey it := by
    intro it hi
    obtain ⟨i, d, e1, e2⟩ := itemKey_plain (lay := lay) hi
    obtain ⟨i', d', e1', e2'⟩ := itemKey_plain (lay := lay') hi
    rw [e1] at e1'
    cases e1'
    rw [e2, e2']
  cases c with
  | shiftReduce q it s => simp only [Layout.conflictKey, hk it hc]
  | reduceReduce q its =>
    simp only [Layout.conflictKey, List.cons.injEq, true_and]
    exact List.flatMap_congr fun it hi => hk it (hc it hi)

/-- the list is a set in this run -/
def ConflictSet (lay : Layout) (l : List Conflict) : Prop := l.Pairwise (fun a b => lay.conflictKey a < lay.conflictKey b)

theorem insertConflict_spec {c : Conflict} (hc : PlainConflict c) : ∀ (l : List Conflict), ConflictSet lay l → (∀ d ∈ l, PlainConflict d) →
    ConflictSet lay (lay.insertConflict c l) ∧ ∀ d, d ∈ lay.insertConflict c l ↔ d = c ∨ d ∈ l := by
  intro l
  induction l with
  | nil => intro _ _; simp [Layout.insertConflict, ConflictSet]
  | cons a l ih =>
    intro hs hp
    have ha := List.pairwise_cons.mp hs
    simp only [Layout.insertConflict]
    split
    · rename_i h
      have := conflictKey_inj hc (hp a (by simp)) h
      subst this
      exact ⟨hs, by simp⟩
    · rename_i hne
      split
      · rename_i hlt
        refine ⟨List.pairwise_cons.mpr ⟨?_, hs⟩, by simp⟩
        intro x hx
        rcases List.mem_cons.mp hx with rfl | hx
        · exact hlt
        · exact List.lt_trans hlt (ha.1 x hx)
      · rename_i hnlt
        obtain ⟨h1, h2⟩ := ih ha.2 (fun d hd => hp d (by simp [hd]))
        refine ⟨List.pairwise_cons.mpr ⟨?_, h1⟩, ?_⟩
        · intro x hx
          rcases (h2 x).mp hx with rfl | hx
          · exact listNat_trichotomy _ _ hne hnlt
          · exact ha.1 x hx
        · intro d
          rw [List.mem_cons, h2, List.mem_cons]
          tauto

theorem insertConflicts_spec : ∀ (l acc : List Conflict), (∀ c ∈ l, PlainConflict c) → ConflictSet lay acc → (∀ d ∈ acc, PlainConflict d) →
    ConflictSet lay (l.foldl (fun cs c => lay.insertConflict c cs) acc) ∧ ∀ d, d ∈ l.foldl (fun cs c => lay.insertConflict c cs) acc ↔ d ∈ acc ∨ d ∈ l := by
  intro l
  induction l with
  | nil => intro acc _ h _; exact ⟨h, by simp⟩
  | cons c l ih =>
    intro acc hl hs hp
    obtain ⟨h1, h2⟩ := insertConflict_spec (hl c (by simp)) acc hs hp
    obtain ⟨h3, h4⟩ := ih (lay.insertConflict c acc) (fun d hd => hl d (by simp [hd])) h1 (fun d hd => by
      rcases (h2 d).mp hd with rfl | hd
      · exact hl _ (by simp)
      · exact hp d hd)
    refine ⟨h3, fun d => ?_⟩
    rw [List.foldl_cons, h4, h2, List.mem_cons]
    tauto

theorem conflictsFor_plain {gr : LRGraph} {q : Nat} {e : Option Sym × List Item} (he : ∀ it ∈ e.2, it.rule.isSome) {c : Conflict} (hc : c ∈ conflictsFor gr q e) : PlainConflict c := by
  unfold conflictsFor at hc
  obtain ⟨la, its⟩ := e
  simp only at hc he
  split at hc
  · simp at hc
  · rename_i it
    obtain ⟨x, _, h2⟩ := List.mem_filterMap.mp hc
    have hp : PlainItem it.toLr0 := ⟨rfl, he it (by simp)⟩
    cases la with
    | none => simp only [Option.some.injEq] at h2; subst h2; exact hp
    | some a =>
      simp only at h2
      split at h2
      · simp only [Option.some.injEq] at h2; subst h2; exact hp
      · cases h2
  · simp only [List.mem_singleton] at hc
    subst hc
    intro it hi
    obtain ⟨k, h1, h2⟩ := List.mem_map.mp hi
    rw [← h2]
    exact ⟨rfl, he k h1⟩

theorem conflictsFor_edges {x y : LRGraph} (h : x.edges = y.edges) (q : Nat) (e : Option Sym × List Item) : conflictsFor y q e = conflictsFor x q e := by
  unfold conflictsFor
  rw [h]

/-- the completed items of a state are those of ordinary rules, the same in both graphs -/
theorem GrRel.reducing {x y : LRGraph} (h : GrRel lay x y) {q : Nat} {s s' : List Item} (hs : x.sets[q]? = some s) (hs' : y.sets[q]? = some s') :
    Verif.reducing g s' = Verif.reducing g s ∧ ∀ e ∈ Verif.reducing g s, ∀ it ∈ e.2, it.rule.isSome := by
  obtain ⟨s0, s0', rest, cs, c0, c0', h1, h2, h3, h4, h5, h6, h7, h8, h9, h10, h11⟩ := h.ex
  have hr : ∀ l : List Item, (∀ it ∈ l, it.rule = none → it.dot = 0) → ∀ e ∈ Verif.reducing g l, ∀ it ∈ e.2, it.rule.isSome := by
    intro l hl e he it hi
    rw [reducing_filter hl] at he
    have := (mem_reducing.mp he).1
    rw [this] at hi
    exact (List.mem_filter.mp (List.mem_filter.mp hi).1).2
  rw [h1] at hs
  rw [h2] at hs'
  cases q with
  | zero =>
    simp only [List.getElem?_cons_zero, Option.some.injEq] at hs hs'
    subst hs hs'
    refine ⟨?_, hr _ h7⟩
    rw [reducing_filter h7, reducing_filter (fun it hi hr => h7 it ((h5.mem it).mp hi) hr), h5.filter]
  | succ q =>
    simp only [List.getElem?_cons_succ] at hs hs'
    rw [hs] at hs'
    cases hs'
    refine ⟨rfl, hr _ ?_⟩
    intro it hi hn
    have := (h10 s (List.mem_of_getElem? hs)).2 it hi
    rw [hn] at this
    cases this

theorem laidConflicts_spec {x y : LRGraph} (h : GrRel lay x y) (hv : (lay.visit y).Perm y.sets.zipIdx) :
    ConflictSet lay (laidConflicts lay g y) ∧ (∀ c ∈ findConflicts g x, PlainConflict c) ∧ ∀ c, c ∈ laidConflicts lay g y ↔ c ∈ findConflicts g x := by
  have hraw : ∀ c, c ∈ ((lay.visit y).flatMap fun s => (reducing g s.1).flatMap (conflictsFor y s.2)) ↔ c ∈ findConflicts g x := by
    intro c
    unfold findConflicts
    simp only [List.mem_flatMap]
    constructor
    · rintro ⟨⟨s', q⟩, hm, e, he, hc⟩
      have hs' := List.mem_zipIdx_iff_getElem?.mp (hv.mem_iff.mp hm)
      simp only at hs' he hc
      rcases h.set q with ⟨_, e2⟩ | ⟨s, s2, e1, e2, _⟩
      · rw [hs'] at e2; cases e2
      · rw [(h.reducing e1 hs').1] at he
        refine ⟨(s, q), List.mem_zipIdx_iff_getElem?.mpr e1, e, he, ?_⟩
        rw [conflictsFor_edges h.edges] at hc
        exact hc
    · rintro ⟨⟨s, q⟩, hm, e, he, hc⟩
      have hs := List.mem_zipIdx_iff_getElem?.mp hm
      simp only at hs he hc
      rcases h.set q with ⟨e1, _⟩ | ⟨s1, s', e1, e2, _⟩
      · rw [hs] at e1; cases e1
      · rw [← (h.reducing hs e2).1] at he
        refine ⟨(s', q), hv.mem_iff.mpr (List.mem_zipIdx_iff_getElem?.mpr e2), e, he, ?_⟩
        rw [conflictsFor_edges h.edges]
        exact hc
  have hp : ∀ c ∈ findConflicts g x, PlainConflict c := by
    intro c hc
    unfold findConflicts at hc
    simp only [List.mem_flatMap] at hc
    obtain ⟨⟨s, q⟩, hm, e, he, hc⟩ := hc
    have hs := List.mem_zipIdx_iff_getElem?.mp hm
    simp only at hs he hc
    rcases h.set q with ⟨e1, _⟩ | ⟨s1, s', e1, e2, _⟩
    · rw [hs] at e1; cases e1
    · exact conflictsFor_plain ((h.reducing (g := g) hs e2).2 e he) hc
  obtain ⟨h1, h2⟩ := insertConflicts_spec (lay := lay) _ [] (fun c hc => hp c ((hraw c).mp hc)) (by simp [ConflictSet]) (by simp)
  refine ⟨h1, hp, fun c => ?_⟩
  have := h2 c
  simp only [List.not_mem_nil, false_or] at this
  exact this.trans (hraw c)

/-- results of table generation, up to the order and repetitions of the conflicts -/
def SameResult : GenResult → GenResult → Prop
  | .noConflicts tb, .noConflicts tb' => tb = tb'
  | .allowedConflicts tb cs, .allowedConflicts tb' cs' => tb = tb' ∧ ∀ c, c ∈ cs' ↔ c ∈ cs
  | .badConflicts cs, .badConflicts cs' => ∀ c, c ∈ cs' ↔ c ∈ cs
  | _, _ => False

/-- the conflicts are listed in order -/
def PlainResult (lay : Layout) : GenResult → Prop
  | .noConflicts _ => True
  | .allowedConflicts _ cs => ConflictSet lay cs ∧ ∀ c ∈ cs, PlainConflict c
  | .badConflicts cs => ConflictSet lay cs ∧ ∀ c ∈ cs, PlainConflict c

theorem laidTable_rel (wf : g.WF) (hi : ∀ gr X s, (lay.iter gr X s).Perm s) (hv : ∀ gr : LRGraph, (lay.visit gr).Perm gr.sets.zipIdx) (allow : Bool) (kind : LRKind) (fuel : Nat) :
    ResRel (fun a b => SameResult a b ∧ PlainResult lay b) (generateTable g allow kind fuel) (laidTable lay g allow kind fuel) := by
  unfold generateTable laidTable
  cases lrFirstSets g kind fuel with
  | error e => rfl
  | ok fs =>
    refine ResRel.bind (P := fun a b => a = fs ∧ b = fs) ⟨rfl, rfl⟩ ?_
    rintro _ _ ⟨rfl, rfl⟩
    refine ResRel.bind (laidGraph_rel hi kind fuel fuel) ?_
    intro x y h
    simp only
    obtain ⟨c1, c2, c3⟩ := laidConflicts_spec (g := g) h (hv y)
    have ht := laidBuild_eq wf h (hv y)
    have he : (laidConflicts lay g y).isEmpty = (findConflicts g x).isEmpty := by
      rw [Bool.eq_iff_iff, List.isEmpty_iff, List.isEmpty_iff, List.eq_nil_iff_forall_not_mem, List.eq_nil_iff_forall_not_mem]
      exact forall_congr' fun c => not_congr (c3 c)
    rw [he, ht]
    have hpl : ConflictSet lay (laidConflicts lay g y) ∧ ∀ c ∈ laidConflicts lay g y, PlainConflict c := ⟨c1, fun c hc => c2 c ((c3 c).mp hc)⟩
    split
    · exact ⟨c3, hpl⟩
    · split
      · exact ⟨rfl, trivial⟩
      · exact ⟨⟨rfl, c3⟩, hpl⟩

/-- two runs list the same conflicts in the same order -/
theorem ConflictSet.same {lay lay' : Layout} {l l' : List Conflict} (h : ConflictSet lay l) (h' : ConflictSet lay' l') (hp : ∀ c ∈ l, PlainConflict c) (hm : ∀ c, c ∈ l ↔ c ∈ l') : l = l' := by
  refine keySorted_ext (key := lay'.conflictKey) ?_ h' hm
  refine List.Pairwise.imp_of_mem ?_ h
  intro a b ha hb hab
  rw [← conflictKey_same lay lay' (hp a ha), ← conflictKey_same lay lay' (hp b hb)]
  exact hab

end Verif
