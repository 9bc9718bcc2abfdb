import Verif.Proofs.LRGraph
import Verif.Model.LRDriver

/-! # The cells of the action/goto table -/

set_option autoImplicit false

namespace Verif

/-- content of a cell -/
def LRTable.cell (tb : LRTable) (q : Nat) (s : Sym) : List TableEntry := (tb.get q s).getD []

/-- the table's map is sorted and has no empty cells -/
structure TabInv (tb : LRTable) (n : Nat) : Prop where
  sorted : MSorted tb.entries
  nonempty : ∀ q s, tb.get q s ≠ some []
  entry : tb.entryState = 0
  count : tb.stateCount = n

variable {g : Grammar} {gr : LRGraph} {n : Nat}

theorem TabInv.get {tb : LRTable} (h : TabInv tb n) (q : Nat) (s : Sym) : tb.get q s = if tb.cell q s = [] then none else some (tb.cell q s) := by
  unfold LRTable.cell
  cases e : tb.get q s with
  | none => simp
  | some c =>
    have : c ≠ [] := fun hc => h.nonempty q s (by rw [e, hc])
    simp [this]

theorem TabInv.push {tb : LRTable} (h : TabInv tb n) (q0 : Nat) (s0 : Sym) (e : TableEntry) :
    TabInv (tb.push q0 s0 e) n ∧ ∀ q s, (tb.push q0 s0 e).cell q s = if q = q0 ∧ s = s0 then tb.cell q s ++ [e] else tb.cell q s := by
  have hget : ∀ q s, (tb.push q0 s0 e).get q s = if q = q0 ∧ s = s0 then some (tb.cell q s ++ [e]) else tb.get q s := by
    intro q s
    unfold LRTable.push LRTable.get
    split
    · rename_i hc
      obtain ⟨rfl, rfl⟩ := hc
      exact mget?_mpush_self _ _ _ h.sorted
    · rename_i hc
      exact mget?_mpush_ne _ _ (by simpa [Prod.ext_iff] using hc)
  refine ⟨⟨mpush_sorted h.sorted, fun q s => ?_, h.entry, h.count⟩, fun q s => ?_⟩
  · rw [hget]
    split
    · simp
    · exact h.nonempty q s
  · rw [LRTable.cell, hget]
    split <;> rfl

/-- a symbol is matched by an item's lookahead -/
def LaMatch (g : Grammar) (la : Option Sym) (s : Sym) : Prop :=
  match la with
  | none => s ∈ g.symbols ++ [Sym.eof]
  | some a => a = s

instance (la : Option Sym) (s : Sym) : Decidable (LaMatch g la s) := by
  unfold LaMatch; cases la <;> infer_instance

/-- the reduce entries of an item in a column -/
def redItem (g : Grammar) (s : Sym) (it : Item) : List TableEntry :=
  if it.after g = none ∧ LaMatch g it.la s then [.reduce it.rule] else []

/-- the reduce entries of a state in a column -/
def redEntries (g : Grammar) (items : List Item) (s : Sym) : List TableEntry := items.flatMap (redItem g s)

/-- the entry pushed after the reduce entries -/
def lastEntry (g : Grammar) (gr : LRGraph) (q : Nat) (s : Sym) (reds : List TableEntry) : List TableEntry :=
  if s = g.entry ∧ q = 0 then [.accept]
  else
    match edgeTarget gr q s with
    | some q' => [.shift q']
    | none => if reds = [] then [.error] else []

theorem symbols_nodup (wf : g.WF) : (g.symbols ++ [Sym.eof]).Nodup := by
  unfold Grammar.symbols
  rw [List.nodup_append, List.nodup_append]
  refine ⟨⟨wf.nodup_t, wf.nodup, ?_⟩, by simp, ?_⟩
  · intro a ha b hb e
    subst e
    obtain ⟨x, rfl⟩ := wf.ts a ha
    obtain ⟨y, hy⟩ := wf.nts _ hb
    cases hy
  · intro a ha b hb e
    simp at hb
    subst hb; subst e
    rcases List.mem_append.mp ha with h | h
    · obtain ⟨x, hx⟩ := wf.ts _ h; cases hx
    · obtain ⟨x, hx⟩ := wf.nts _ h; cases hx

/-- a fold that appends at each symbol of a duplicate-free list something depending on the cell's content -/
theorem fold_cells {f : LRTable → Sym → LRTable} (q0 : Nat) (add : Sym → List TableEntry → List TableEntry)
    (hf : ∀ tb s, TabInv tb n → TabInv (f tb s) n ∧ ∀ q s', (f tb s).cell q s' = if q = q0 ∧ s' = s then tb.cell q s' ++ add s (tb.cell q s') else tb.cell q s') :
    ∀ (l : List Sym), l.Nodup → ∀ tb, TabInv tb n →
      TabInv (l.foldl f tb) n ∧ ∀ q s, (l.foldl f tb).cell q s = if q = q0 ∧ s ∈ l then tb.cell q s ++ add s (tb.cell q s) else tb.cell q s := by
  intro l
  induction l with
  | nil => intro _ tb h; exact ⟨h, fun q s => by simp⟩
  | cons x l ih =>
    intro hn tb h
    rw [List.nodup_cons] at hn
    obtain ⟨h1, h2⟩ := hf tb x h
    obtain ⟨h3, h4⟩ := ih hn.2 _ h1
    refine ⟨h3, fun q s => ?_⟩
    rw [List.foldl_cons, h4, h2]
    by_cases hq : q = q0
    · by_cases hs : s = x
      · subst hs; simp [hq, hn.1]
      · simp [hq, hs]
    · simp [hq]

theorem tableItem_cell (wf : g.WF) (q0 : Nat) {tb : LRTable} (h : TabInv tb n) (it : Item) :
    TabInv (tableItem g q0 tb it) n ∧ ∀ q s, (tableItem g q0 tb it).cell q s = if q = q0 then tb.cell q s ++ redItem g s it else tb.cell q s := by
  unfold tableItem redItem
  by_cases ha : it.after g = none
  · rw [if_pos ha]
    cases hla : it.la with
    | none =>
      simp only [LaMatch, ha, true_and]
      obtain ⟨h1, h2⟩ := fold_cells (n := n) q0 (fun _ _ => [.reduce it.rule]) (f := fun tb s => tb.push q0 s (.reduce it.rule))
        (fun tb s h => h.push q0 s _) _ (symbols_nodup wf) tb h
      refine ⟨h1, fun q s => ?_⟩
      rw [h2]
      by_cases hq : q = q0 <;> by_cases hs : s ∈ g.symbols ++ [Sym.eof] <;> simp only [hq, hs, true_and, false_and, if_true, if_false, List.append_nil, and_true, and_false]
    | some a =>
      obtain ⟨h1, h2⟩ := h.push q0 a (.reduce it.rule)
      refine ⟨h1, fun q s => ?_⟩
      rw [h2]
      by_cases hq : q = q0
      · by_cases hs : s = a
        · simp [hq, hs, LaMatch, ha]
        · simp [hq, hs, LaMatch, Ne.symm hs]
      · simp [hq]
  · simp only [ha, if_false, false_and]
    refine ⟨h, fun q s => ?_⟩
    simp

theorem tableItems_cell (wf : g.WF) (q0 : Nat) : ∀ (items : List Item) (tb : LRTable), TabInv tb n →
    TabInv (items.foldl (tableItem g q0) tb) n ∧
    ∀ q s, (items.foldl (tableItem g q0) tb).cell q s = if q = q0 then tb.cell q s ++ redEntries g items s else tb.cell q s := by
  intro items
  induction items with
  | nil => intro tb h; exact ⟨h, fun q s => by simp [redEntries]⟩
  | cons it items ih =>
    intro tb h
    obtain ⟨h1, h2⟩ := tableItem_cell wf q0 h it
    obtain ⟨h3, h4⟩ := ih _ h1
    refine ⟨h3, fun q s => ?_⟩
    rw [List.foldl_cons, h4, h2]
    by_cases hq : q = q0 <;> simp [hq, redEntries]

theorem tableSymbol_cell (q0 : Nat) (tb : LRTable) (s0 : Sym) (h : TabInv tb n) :
    TabInv (tableSymbol g gr q0 tb s0) n ∧ ∀ q s, (tableSymbol g gr q0 tb s0).cell q s =
      if q = q0 ∧ s = s0 then tb.cell q s ++ lastEntry g gr q0 s0 (tb.cell q s) else tb.cell q s := by
  unfold tableSymbol lastEntry
  rw [h.entry]
  by_cases hc : s0 = g.entry ∧ q0 = 0
  · rw [if_pos hc]
    simp only [if_pos hc]
    exact h.push _ _ _
  · rw [if_neg hc]
    simp only [if_neg hc]
    cases edgeTarget gr q0 s0 with
    | some q' => exact h.push _ _ _
    | none =>
      simp only
      have hg := h.get q0 s0
      by_cases hn : tb.cell q0 s0 = []
      · rw [if_pos hn] at hg
        rw [if_pos hg]
        obtain ⟨h1, h2⟩ := h.push q0 s0 .error
        refine ⟨h1, fun q s => ?_⟩
        rw [h2]
        split
        · rename_i hh
          obtain ⟨rfl, rfl⟩ := hh
          simp [hn]
        · rfl
      · rw [if_neg hn] at hg
        rw [if_neg (by rw [hg]; simp)]
        refine ⟨h, fun q s => ?_⟩
        split
        · rename_i hh
          obtain ⟨rfl, rfl⟩ := hh
          simp [hn]
        · rfl

/-- content of the cell of a state with the given items -/
def cellContent (g : Grammar) (gr : LRGraph) (items : List Item) (q : Nat) (s : Sym) : List TableEntry :=
  redEntries g items s ++ if s ∈ g.symbols then lastEntry g gr q s (redEntries g items s) else []

theorem tableState_cell (wf : g.WF) {tb : LRTable} (h : TabInv tb n) (items : List Item) (q0 : Nat) (h0 : ∀ s, tb.cell q0 s = []) :
    TabInv (tableState g gr tb (items, q0)) n ∧
    ∀ q s, (tableState g gr tb (items, q0)).cell q s = if q = q0 then cellContent g gr items q0 s else tb.cell q s := by
  unfold tableState
  obtain ⟨h1, h2⟩ := tableItems_cell wf q0 items tb h
  obtain ⟨h3, h4⟩ := fold_cells (n := n) q0 (fun s c => lastEntry g gr q0 s c) (f := tableSymbol g gr q0) (fun tb s h => tableSymbol_cell q0 tb s h) g.symbols
    (List.nodup_append.mp (symbols_nodup wf)).1 _ h1
  refine ⟨h3, fun q s => ?_⟩
  rw [h4, h2]
  by_cases hq : q = q0
  · subst hq
    by_cases hs : s ∈ g.symbols <;> simp [hs, h0, cellContent]
  · simp [hq]

theorem buildTable_cell (wf : g.WF) : TabInv (buildTable g gr) gr.sets.length ∧
    ∀ q s, (buildTable g gr).cell q s = match gr.sets[q]? with | some items => cellContent g gr items q s | none => [] := by
  have gen : ∀ (n : Nat) (suf pre : List (List Item)) (tb : LRTable), TabInv tb n →
      (∀ q s, tb.cell q s = match pre[q]? with | some items => cellContent g gr items q s | none => []) →
      TabInv ((suf.zipIdx pre.length).foldl (tableState g gr) tb) n ∧
      ∀ q s, ((suf.zipIdx pre.length).foldl (tableState g gr) tb).cell q s = match (pre ++ suf)[q]? with | some items => cellContent g gr items q s | none => [] := by
    intro n suf
    induction suf with
    | nil => intro pre tb h h0; simpa using ⟨h, h0⟩
    | cons x suf ih =>
      intro pre tb h h0
      obtain ⟨h1, h2⟩ := tableState_cell wf (gr := gr) h x pre.length (fun s => by rw [h0]; simp)
      have := ih (pre ++ [x]) (tableState g gr tb (x, pre.length)) h1 (fun q s => by
        rw [h2]
        by_cases hq : q = pre.length
        · subst hq; simp
        · rw [if_neg hq, h0]
          have : (pre ++ [x])[q]? = pre[q]? := by
            by_cases hl : q < pre.length
            · rw [List.getElem?_append_left hl]
            · rw [List.getElem?_eq_none (by simp; omega), List.getElem?_eq_none (by omega)]
          rw [this])
      simpa using this
  have := gen gr.sets.length gr.sets [] ⟨[], gr.sets.length, 0⟩ ⟨by simp [MSorted], by simp [LRTable.get, mget?], rfl, rfl⟩
    (by simp [LRTable.cell, LRTable.get, mget?])
  simpa [buildTable] using this

theorem mem_redEntries {items : List Item} {s : Sym} {e : TableEntry} :
    e ∈ redEntries g items s ↔ ∃ it ∈ items, it.after g = none ∧ LaMatch g it.la s ∧ e = .reduce it.rule := by
  unfold redEntries redItem
  rw [List.mem_flatMap]
  constructor
  · rintro ⟨it, h1, h2⟩
    split at h2
    · rename_i hc
      simp at h2
      exact ⟨it, h1, hc.1, hc.2, h2⟩
    · simp at h2
  · rintro ⟨it, h1, h2, h3, rfl⟩
    exact ⟨it, h1, by simp [h2, h3]⟩

end Verif
