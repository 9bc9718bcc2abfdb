import Verif.Proofs.LRPath
import Verif.Proofs.LLRun
import Verif.Spec.LRTrace

/-! # Soundness of the LR driver -/

set_option autoImplicit false

namespace Verif

variable {T : Type} {g : Grammar} {kind : LRKind} {gr : LRGraph}

/-- what a machine has to do with a graph to be sound -/
structure Follows (g : Grammar) (gr : LRGraph) (m : LRMachine) : Prop where
  entry : m.entry = 0
  shift : ∀ q tk, q < gr.sets.length → m.nextAction q tk = .act .shift →
    ∃ a q', tk = .tok a ∧ (q, Sym.t a, q') ∈ gr.edges ∧ m.nextGoto q (.terminal tk) = some (.state q')
  reduce : ∀ (q : Nat) tk i, q < gr.sets.length → m.nextAction q tk = .act (.reduce i) →
    ∃ (s : List Item) (it : Item) (x : Sym), gr.sets[q]? = some s ∧ it ∈ s ∧ it.rule = some i ∧ it.after g = none ∧ tk.sym = some x ∧ LaMatch g it.la x
  goto : ∀ q A q', (q, Sym.nt A, q') ∈ gr.edges → ¬ (q = 0 ∧ g.entry = .nt A) → m.nextGoto q (.nonTerminal A) = some (.state q')
  accept : ∀ A, g.entry = .nt A → m.nextGoto 0 (.nonTerminal A) = some .accept
  red : ∀ i, m.reduction i = (g.rules[i]?).map (fun r => ((strip r.rhs).length, r.lhs))
  noPanic : ∀ q tk, q < gr.sets.length → m.nextAction q tk ≠ .panic

theorem single_of_mem {α : Type} {l : List α} {x : α} (h : l = [] ∨ ∃ e, l = [e]) (hx : x ∈ l) : l = [x] := by
  rcases h with rfl | ⟨e, rfl⟩
  · simp at hx
  · simp at hx; rw [hx]

/-- content of the cells of a table that the code generator accepts -/
theorem cellOk_content (wf : g.WF) {q : Nat} {s : List Item} {X : Sym} (hs : gr.sets[q]? = some s) :
    (buildTable g gr).get q X = if cellContent g gr s q X = [] then none else some (cellContent g gr s q X) := by
  obtain ⟨h1, h2⟩ := buildTable_cell (gr := gr) wf
  rw [h1.get, h2, hs]

theorem cellOk_single (wf : g.WF) {q : Nat} {s : List Item} {X : Sym} (hs : gr.sets[q]? = some s) (h : CellOk (buildTable g gr) q X) {e : TableEntry}
    (he : e ∈ cellContent g gr s q X) : (buildTable g gr).get q X = some [e] := by
  have hc := cellOk_content wf (X := X) hs
  have hne : cellContent g gr s q X ≠ [] := fun h0 => by rw [h0] at he; simp at he
  rw [if_neg hne] at hc
  rcases h with h | ⟨e', h⟩
  · rw [h] at hc; simp at hc
  · rw [h] at hc
    simp at hc
    rw [← hc] at he
    simp at he
    rw [h, he]

theorem get_content (wf : g.WF) {q : Nat} {s : List Item} {X : Sym} {c : List TableEntry} (hs : gr.sets[q]? = some s) (h : (buildTable g gr).get q X = some c) :
    cellContent g gr s q X = c := by
  rw [cellOk_content wf hs] at h
  split at h
  · simp at h
  · simpa using h

theorem mem_lastEntry {q : Nat} {X : Sym} {reds : List TableEntry} {e : TableEntry} (h : e ∈ lastEntry g gr q X reds) :
    (e = .accept ∧ X = g.entry ∧ q = 0) ∨ (∃ q', e = .shift q' ∧ edgeTarget gr q X = some q' ∧ ¬ (X = g.entry ∧ q = 0)) ∨ e = .error := by
  unfold lastEntry at h
  split at h
  · rename_i hc; simp at h; exact .inl ⟨h, hc⟩
  · rename_i hc
    split at h
    · rename_i q' hq; simp at h; exact .inr (.inl ⟨q', h, hq, hc⟩)
    · split at h
      · simp at h; exact .inr (.inr h)
      · simp at h

theorem mem_cell {q : Nat} {s : List Item} {X : Sym} {e : TableEntry} (h : e ∈ cellContent g gr s q X) :
    (∃ it ∈ s, it.after g = none ∧ LaMatch g it.la X ∧ e = .reduce it.rule) ∨ (X ∈ g.symbols ∧ e ∈ lastEntry g gr q X (redEntries g s X)) := by
  unfold cellContent at h
  rcases List.mem_append.mp h with h | h
  · exact .inl (mem_redEntries.mp h)
  · split at h
    · exact .inr ⟨‹_›, h⟩
    · simp at h

/-- a generated parser follows its graph -/
theorem prog_follows (wf : g.WF) (hb : Base g kind gr) {p : LRProg} (hp : ProgSpec g (buildTable g gr) p) : Follows g gr p.machine := by
  obtain ⟨hi, hcell⟩ := buildTable_cell (gr := gr) wf
  have hct : (buildTable g gr).stateCount = gr.sets.length := hi.count
  refine ⟨by show p.entry = 0; rw [hp.entry, hi.entry], fun q tk hq h => ?_, fun q tk i hq h => ?_, fun q A q' he hn => ?_, fun A hA => ?_, fun i => ?_, fun q tk hq => ?_⟩
  · have hs : gr.sets[q]? = some gr.sets[q] := List.getElem?_eq_getElem hq
    change p.nextAction q tk = _ at h
    rw [hp.action q (hct ▸ hq)] at h
    split at h
    · rename_i a ha
      simp at h; subst h
      obtain ⟨X, hX, ha⟩ := Option.bind_eq_some_iff.mp ha
      split at ha
      · rename_i hmem
        unfold actOf at ha
        split at ha
        · rename_i q' hget
          have hc := get_content wf hs hget
          have hin : TableEntry.shift q' ∈ cellContent g gr gr.sets[q] q X := by rw [hc]; simp
          rcases mem_cell hin with ⟨_, _, _, _, h⟩ | ⟨hsym, h⟩
          · cases h
          · rcases mem_lastEntry h with ⟨h, _⟩ | ⟨q1, h, h1, _⟩ | h
            · cases h
            · simp at h; subst h
              cases tk with
              | err => simp [Tok.sym] at hX
              | eof =>
                simp [Tok.sym] at hX; subst hX
                rcases List.mem_append.mp hsym with h | h
                · obtain ⟨_, h⟩ := wf.ts _ h; cases h
                · obtain ⟨_, h⟩ := wf.nts _ h; cases h
              | tok a =>
                simp [Tok.sym] at hX; subst hX
                refine ⟨a, q', rfl, (edgeTarget_iff hb).mp h1, ?_⟩
                show p.nextGoto q _ = _
                rw [hp.goto q (hct ▸ hq)]
                simp [StackSym.sym, hsym, gotoOf, hget]
            · cases h
        · simp at ha
        · simp at ha
      · simp at ha
    · simp at h
  · have hs : gr.sets[q]? = some gr.sets[q] := List.getElem?_eq_getElem hq
    change p.nextAction q tk = _ at h
    rw [hp.action q (hct ▸ hq)] at h
    split at h
    · rename_i a ha
      simp at h; subst h
      obtain ⟨X, hX, ha⟩ := Option.bind_eq_some_iff.mp ha
      split at ha
      · unfold actOf at ha
        split at ha
        · simp at ha
        · rename_i j hget
          simp at ha; subst ha
          have hc := get_content wf hs hget
          have hin : TableEntry.reduce (some j) ∈ cellContent g gr gr.sets[q] q X := by rw [hc]; simp
          rcases mem_cell hin with ⟨it, h1, h2, h3, h4⟩ | ⟨hsym, h⟩
          · simp at h4
            exact ⟨_, it, X, hs, h1, h4.symm, h2, hX, h3⟩
          · rcases mem_lastEntry h with ⟨h, _⟩ | ⟨q1, h, h1, _⟩ | h <;> cases h
        · simp at ha
      · simp at ha
    · simp at h
  · obtain ⟨s, hs⟩ := edge_src hb he
    have hq := getElem?_lt hs
    have hsym : Sym.nt A ∈ g.symbols := by
      rcases edge_label hb wf he with h | h
      · cases h
      · exact h
    have hin : TableEntry.shift q' ∈ cellContent g gr s q (.nt A) := by
      unfold cellContent
      refine List.mem_append_right _ ?_
      rw [if_pos hsym]
      unfold lastEntry
      rw [if_neg (fun hc => hn ⟨hc.2, hc.1.symm⟩), (edgeTarget_iff hb).mpr he]
      simp
    have := cellOk_single wf hs (hp.cells q (hct ▸ hq) _ (List.mem_append_left _ hsym)) hin
    show p.nextGoto q _ = _
    rw [hp.goto q (hct ▸ hq)]
    simp [StackSym.sym, hsym, gotoOf, this]
  · obtain ⟨s, hs, _⟩ := hb.start
    have hq := getElem?_lt hs
    have hsym : Sym.nt A ∈ g.symbols := by
      obtain ⟨B, h1, h2⟩ := wf.entry_declared
      rw [hA] at h1
      rw [h1]; exact List.mem_append_right _ h2
    have hin : TableEntry.accept ∈ cellContent g gr s 0 (.nt A) := by
      unfold cellContent
      refine List.mem_append_right _ ?_
      rw [if_pos hsym]
      unfold lastEntry
      rw [if_pos ⟨hA.symm, rfl⟩]
      simp
    have := cellOk_single wf hs (hp.cells 0 (hct ▸ hq) _ (List.mem_append_left _ hsym)) hin
    show p.nextGoto 0 _ = _
    rw [hp.goto 0 (hct ▸ hq)]
    simp [StackSym.sym, hsym, gotoOf, this]
  · show p.reductions[i]? = _
    rw [hp.reductions, List.getElem?_map]
  · change p.nextAction q tk ≠ _
    rw [hp.action q (hct ▸ hq)]
    split <;> simp

/-- stacks of the driver: a path in the graph from the entry state, with a parse tree for every symbol; both lists have their top first -/
inductive StackOk (g : Grammar) (gr : LRGraph) : List StackSym → List (PTree T) → Prop
  | base : StackOk g gr [.state 0] []
  | push {q q' : Nat} {rest : List StackSym} {ts : List (PTree T)} {x : StackSym} {X : Sym} {t : PTree T} :
      StackOk g gr (.state q :: rest) ts → (q, X, q') ∈ gr.edges → x.sym = some X → IsParseTree g.rules X t →
      StackOk g gr (.state q' :: x :: .state q :: rest) (t :: ts)

theorem StackOk.range (hb : Base g kind gr) {q : Nat} {rest : List StackSym} {ts : List (PTree T)} (h : StackOk g gr (.state q :: rest) ts) :
    ∃ s, gr.sets[q]? = some s := by
  cases h with
  | base => obtain ⟨s, hs, _⟩ := hb.start; exact ⟨s, hs⟩
  | push _ he _ _ => exact edge_tgt hb he

theorem StackOk.head {stk : List StackSym} {ts : List (PTree T)} (h : StackOk g gr stk ts) : ∃ q rest, stk = .state q :: rest := by
  cases h <;> exact ⟨_, _, rfl⟩

theorem StackOk.bottom (hb : Base g kind gr) {rest : List StackSym} {ts : List (PTree T)} (h : StackOk g gr (.state 0 :: rest) ts) : rest = [] ∧ ts = [] := by
  cases h with
  | base => exact ⟨rfl, rfl⟩
  | push _ he _ _ => exact absurd rfl (edge_ne_zero hb he)

theorem forest_append {rules : List Rule} {a b : List Sym} {ts us : List (PTree T)} (h1 : Forest rules a ts) (h2 : Forest rules b us) :
    Forest rules (a ++ b) (ts ++ us) := by
  induction h1 with
  | nil => exact h2
  | eps _ ih => exact .eps ih
  | term _ ih => exact .term ih
  | nonterm hr hf _ _ ih => exact .nonterm hr hf ih

/-- the popped part of the stack -/
structure Popped (g : Grammar) (gr : LRGraph) (stk : List StackSym) (ts : List (PTree T)) (i : Nat) (r : Rule) (d : Nat) : Prop where
  ex : ∃ p rest s', stk.drop (2 * (d - leadingEps r.rhs)) = .state p :: rest ∧ StackOk g gr (.state p :: rest) (ts.drop (d - leadingEps r.rhs)) ∧
    gr.sets[p]? = some s' ∧ InCore s' (some i, leadingEps r.rhs)
  len : 2 * (d - leadingEps r.rhs) ≤ stk.length
  tlen : d - leadingEps r.rhs ≤ ts.length
  forest : Forest g.rules ((r.rhs.take d).drop (leadingEps r.rhs)) ((ts.take (d - leadingEps r.rhs)).reverse)
  noEps : Sym.eps ∉ (r.rhs.take d).drop (leadingEps r.rhs)

theorem popped_lead {stk : List StackSym} {ts : List (PTree T)} (h : StackOk g gr stk ts) {q : Nat} {rest : List StackSym} (hq : stk = .state q :: rest)
    {s : List Item} (hs : gr.sets[q]? = some s) {i : Nat} {r : Rule} (hc : InCore s (some i, leadingEps r.rhs)) :
    Popped g gr stk ts i r (leadingEps r.rhs) := by
  subst hq
  refine ⟨⟨q, rest, s, by simp, by simpa using h, hs, hc⟩, by simp, by simp, ?_, ?_⟩
  · simp only [Nat.sub_self, List.take_zero, List.reverse_nil]
    rw [List.drop_eq_nil_of_le (by simp; omega)]
    exact .nil
  · rw [List.drop_eq_nil_of_le (by simp; omega)]; simp

theorem stack_back (hv : LoopInv g kind gr []) {stk : List StackSym} {ts : List (PTree T)} (h : StackOk g gr stk ts) :
    ∀ (q : Nat) (rest : List StackSym) (s : List Item) (i : Nat) (r : Rule) (d : Nat), stk = .state q :: rest → gr.sets[q]? = some s →
      g.rules[i]? = some r → InCore s (some i, d) → Popped g gr stk ts i r d := by
  induction h with
  | base =>
    intro q rest s i r d hq hs hi hc
    simp at hq
    obtain ⟨rfl, rfl⟩ := hq
    have hd : d = leadingEps r.rhs := by
      obtain ⟨s', hs', hcl⟩ := hv.base.start
      rw [hs] at hs'; simp at hs'; subst hs'
      obtain ⟨it, h1, h2, h3⟩ := hc
      rcases closure_cases ((hcl it).mp h1) with h | ⟨p, j, r', h4, h5, h6, h7, h8, _⟩
      · subst h; simp [entryItem] at h2
      · simp only at h2 h3
        rw [h7] at h2; simp at h2; subst h2
        rw [hi] at h6; simp at h6; subst h6
        omega
    subst hd
    exact popped_lead .base rfl hs hc
  | @push q0 q' rest0 ts0 x X t hst he hx ht ih =>
    intro q rest s i r d hq hs hi hc
    simp at hq
    obtain ⟨rfl, rfl⟩ := hq
    have hge := hv.lead hs hi hc
    rcases Nat.eq_or_lt_of_le hge with hd | hd
    · subst hd
      exact popped_lead (.push hst he hx ht) rfl hs hc
    · obtain ⟨s0, hs0⟩ := edge_src hv.base he
      obtain ⟨hb1, hb2⟩ := core_back hv he hs hs0 hi hc hd
      have hP := ih q0 rest0 s0 i r (d - 1) rfl hs0 hi hb1
      have hk : d - leadingEps r.rhs = (d - 1 - leadingEps r.rhs) + 1 := by omega
      have htake : (r.rhs.take d).drop (leadingEps r.rhs) = (r.rhs.take (d - 1)).drop (leadingEps r.rhs) ++ [X] := by
        obtain ⟨d', rfl⟩ : ∃ d', d = d' + 1 := ⟨d - 1, by omega⟩
        simp only [Nat.add_sub_cancel] at hb2 ⊢
        rw [List.take_add_one, hb2]
        simp only [Option.toList]
        rw [List.drop_append_of_le_length]
        rw [List.length_take]
        have := getElem?_lt hb2
        omega
      have hXe : X ≠ .eps := by
        rintro rfl
        unfold StackSym.sym at hx
        split at hx <;> simp at hx
      refine ⟨?_, ?_, ?_, ?_, ?_⟩
      · obtain ⟨p, rest', s', h1, h2, h3, h4⟩ := hP.ex
        refine ⟨p, rest', s', ?_, ?_, h3, h4⟩
        · rw [hk, Nat.mul_add]; simpa using h1
        · rw [hk]; simpa using h2
      · have := hP.len; simp only [List.length_cons] at this ⊢; omega
      · have := hP.tlen; simp only [List.length_cons] at this ⊢; omega
      · rw [htake, hk, List.take_succ_cons, List.reverse_cons]
        exact forest_append hP.forest ht
      · rw [htake]
        simp only [List.mem_append, List.mem_singleton, not_or]
        exact ⟨hP.noEps, fun h => hXe h.symm⟩

theorem forest_lead {rules : List Rule} {rhs : List Sym} {ts : List (PTree T)} (h : Forest rules (rhs.drop (leadingEps rhs)) ts) : Forest rules rhs ts := by
  induction rhs with
  | nil => simpa [leadingEps] using h
  | cons a rhs ih =>
    by_cases ha : a = .eps
    · subst ha
      have : leadingEps (Sym.eps :: rhs) = leadingEps rhs + 1 := by simp [leadingEps]
      rw [this, List.drop_succ_cons] at h
      exact .eps (ih h)
    · have : leadingEps (a :: rhs) = 0 := by simp [leadingEps, ha]
      rw [this] at h
      exact h

theorem strip_lead (rhs : List Sym) : strip rhs = strip (rhs.drop (leadingEps rhs)) := by
  induction rhs with
  | nil => simp [leadingEps]
  | cons a rhs ih =>
    by_cases ha : a = .eps
    · subst ha
      have : leadingEps (Sym.eps :: rhs) = leadingEps rhs + 1 := by simp [leadingEps]
      rw [this, List.drop_succ_cons, ← ih]
      simp [strip]
    · have : leadingEps (a :: rhs) = 0 := by simp [leadingEps, ha]
      rw [this]; rfl

theorem strip_noEps {l : List Sym} (h : Sym.eps ∉ l) : strip l = l := by
  unfold strip
  rw [List.filter_eq_self]
  intro a ha
  simp only [ne_eq, decide_not, Bool.not_eq_eq_eq_not, Bool.not_true, decide_eq_false_iff_not]
  rintro rfl
  exact h ha

theorem after_none {it : Item} {i : Nat} {r : Rule} (hr : it.rule = some i) (hi : g.rules[i]? = some r) (h : it.after g = none) : r.rhs.length ≤ it.dot := by
  unfold Item.after at h
  simp only [hr, ruleRhs, hi, Option.map_some, Option.getD_some] at h
  exact List.getElem?_eq_none_iff.mp h

theorem PTree.tokensList_append (a b : List (PTree T)) : PTree.tokensList (a ++ b) = PTree.tokensList a ++ PTree.tokensList b := by
  induction a with
  | nil => simp [PTree.tokensList]
  | cons t a ih => simp [PTree.tokensList, ih]

theorem PTree.postorderList_append (a b : List (PTree T)) : PTree.postorderList (a ++ b) = PTree.postorderList a ++ PTree.postorderList b := by
  induction a with
  | nil => simp [PTree.postorderList]
  | cons t a ih => simp [PTree.postorderList, ih]

/-- configurations: callbacks made and tokens consumed are those of the trees on the stack -/
structure ConfOk (g : Grammar) (input : Nat → Tok × T) (trees : List (PTree T)) (pos : Nat) (events : List (LREvent T)) : Prop where
  consumed : Consumes input pos (PTree.tokensList trees)
  trace : TraceIs g events (PTree.postorderList trees)

/-- invariant of the loop -/
def RunInv (g : Grammar) (gr : LRGraph) (input : Nat → Tok × T) (stk : List StackSym) (pos : Nat) (events : List (LREvent T)) : Prop :=
  (∃ ts, StackOk g gr stk ts ∧ ConfOk g input ts.reverse pos events) ∨
  (stk = [] ∧ ∃ t, IsParseTree g.rules g.entry t ∧ ConfOk g input [t] pos events)

variable {m : LRMachine} {input : Nat → Tok × T}

theorem isParseTree_term (a : Nat) (d : T) {rules : List Rule} : IsParseTree rules (.t a) (.leaf a d) := .term .nil

/-- what a reduction does to a stack: the popped trees become the children of a new node -/
theorem reduce_stack (hv : LoopInv g kind gr []) {q : Nat} {rest : List StackSym} {ts : List (PTree T)} (h : StackOk g gr (.state q :: rest) ts)
    {s : List Item} (hs : gr.sets[q]? = some s) {it : Item} (hit : it ∈ s) {i : Nat} (hr : it.rule = some i) (ha : it.after g = none) :
    ∃ r, g.rules[i]? = some r ∧ r ∈ g.rules ∧ 2 * (strip r.rhs).length ≤ (StackSym.state q :: rest).length ∧ it.dot = r.rhs.length ∧
      (strip r.rhs).length = r.rhs.length - leadingEps r.rhs ∧
      ∃ p rest' cs ts' s', (StackSym.state q :: rest).drop (2 * (strip r.rhs).length) = .state p :: rest' ∧ ts = cs.reverse ++ ts' ∧
        StackOk g gr (.state p :: rest') ts' ∧ Forest g.rules r.rhs cs ∧ gr.sets[p]? = some s' ∧ InCore s' (some i, leadingEps r.rhs) := by
  have hok := hv.base.items q s hs it hit
  have hlt := hok.rule i hr
  obtain ⟨r, hi⟩ : ∃ r, g.rules[i]? = some r := ⟨_, List.getElem?_eq_getElem hlt⟩
  have hlen : it.dot = r.rhs.length := by
    have h1 := after_none hr hi ha
    have h2 := hok.dot
    simp only [hr, ruleRhs, hi, Option.map_some, Option.getD_some] at h2
    omega
  have hP := stack_back hv h q rest s i r it.dot rfl hs hi ⟨it, hit, hr, rfl⟩
  rw [hlen] at hP
  have hne := hP.noEps
  have hf := hP.forest
  rw [List.take_length] at hne hf
  have hk : (strip r.rhs).length = r.rhs.length - leadingEps r.rhs := by
    rw [strip_lead, strip_noEps hne, List.length_drop]
  refine ⟨r, hi, List.mem_of_getElem? hi, by rw [hk]; exact hP.len, hlen, hk, ?_⟩
  obtain ⟨p, rest', s', h1, h2, h3, h4⟩ := hP.ex
  refine ⟨p, rest', (ts.take (r.rhs.length - leadingEps r.rhs)).reverse, ts.drop (r.rhs.length - leadingEps r.rhs), s', by rw [hk]; exact h1, by simp, h2, forest_lead hf, h3, h4⟩

theorem ConfOk.shift {trees : List (PTree T)} {pos : Nat} {events : List (LREvent T)} (h : ConfOk g input trees pos events) {a : Nat}
    (ha : (input pos).1 = .tok a) : ConfOk g input (trees ++ [.leaf a (input pos).2]) (pos + 1) (events ++ [.shift (input pos).1 (input pos).2]) := by
  obtain ⟨⟨h1, h2⟩, h3⟩ := h
  have e : PTree.tokensList [PTree.leaf a (input pos).2] = [(a, (input pos).2)] := by simp [PTree.tokensList, PTree.tokens]
  refine ⟨⟨?_, fun i p hp => ?_⟩, ?_⟩
  · rw [PTree.tokensList_append, e]; simp [h1]
  · rw [PTree.tokensList_append, e] at hp
    rcases getElem?_snoc.mp hp with hp | ⟨rfl, rfl⟩
    · exact h2 i p hp
    · rw [h1, ← ha]
  · unfold TraceIs at h3 ⊢
    rw [PTree.postorderList_append, List.map_append, h3, List.map_append]
    simp [PTree.postorderList, PTree.postorder, LREvent.meaning, ha]

theorem ConfOk.reduce {trees cs : List (PTree T)} {pos i : Nat} {r : Rule} {events : List (LREvent T)} (h : ConfOk g input (trees ++ cs) pos events)
    (hi : g.rules[i]? = some r) : ConfOk g input (trees ++ [.node r cs]) pos (events ++ [.reduce i]) := by
  obtain ⟨h1, h3⟩ := h
  refine ⟨?_, ?_⟩
  · rw [PTree.tokensList_append] at h1 ⊢
    simpa [PTree.tokensList, PTree.tokens] using h1
  · unfold TraceIs at h3 ⊢
    rw [List.map_append, h3, PTree.postorderList_append, PTree.postorderList_append]
    simp [PTree.postorderList, PTree.postorder, LREvent.meaning, hi]

theorem lrStep_shift {q : Nat} {rest : List StackSym} {pos : Nat} (h : m.nextAction q (input pos).1 = .act .shift) :
    lrStep m input (.state q :: rest) pos = lrGoto m (.terminal (input pos).1 :: .state q :: rest) (pos + 1) (.shift (input pos).1 (input pos).2) := by
  simp only [lrStep, h]

theorem lrStep_unexpected {q : Nat} {rest : List StackSym} {pos : Nat} {exp : List Sym} (h : m.nextAction q (input pos).1 = .unexpected exp) :
    lrStep m input (.state q :: rest) pos = .unexpected exp := by
  simp only [lrStep, h]

theorem lrStep_reduce {q : Nat} {rest : List StackSym} {pos i k A : Nat} (h : m.nextAction q (input pos).1 = .act (.reduce i))
    (hr : m.reduction i = some (k, A)) (hk : 2 * k ≤ (StackSym.state q :: rest).length) :
    lrStep m input (.state q :: rest) pos = lrGoto m (.nonTerminal A :: (StackSym.state q :: rest).drop (2 * k)) pos (.reduce i) := by
  simp only [lrStep, h, hr]
  rw [if_neg (by omega)]

/-- one iteration -/
theorem lrStep_sound (hv : LoopInv g kind gr []) (hm : Follows g gr m) {q : Nat} {rest : List StackSym} {ts : List (PTree T)} {pos : Nat} {events : List (LREvent T)}
    (h : StackOk g gr (.state q :: rest) ts) (hc : ConfOk g input ts.reverse pos events) :
    (∃ exp, lrStep m input (.state q :: rest) pos = .unexpected exp ∧ m.nextAction q (input pos).1 = .unexpected exp) ∨
    ∃ stk' pos' ev, lrStep m input (.state q :: rest) pos = .next stk' pos' ev ∧ RunInv g gr input stk' pos' (events ++ [ev]) := by
  obtain ⟨s, hs⟩ := h.range hv.base
  have hq := getElem?_lt hs
  cases hact : m.nextAction q (input pos).1 with
  | panic => exact absurd hact (hm.noPanic q _ hq)
  | unexpected exp => exact .inl ⟨exp, lrStep_unexpected hact, rfl⟩
  | act a =>
    right
    cases a with
    | shift =>
      obtain ⟨a, q', h1, h2, h3⟩ := hm.shift q _ hq hact
      rw [lrStep_shift hact]
      simp only [lrGoto, h3]
      refine ⟨_, _, _, rfl, .inl ⟨.leaf a (input pos).2 :: ts, .push h h2 (by simp only [h1]; rfl) (isParseTree_term a _), ?_⟩⟩
      rw [List.reverse_cons]
      exact hc.shift h1
    | reduce i =>
      obtain ⟨s1, it, x, h1, h2, h3, h4, _, _⟩ := hm.reduce q _ i hq hact
      obtain ⟨r, hi, hrm, hlen, _, _, p, rest', cs, ts', s', hdrop, hts, hst, hf, hs', hcore⟩ := reduce_stack hv h h1 h2 h3 h4
      have hred : m.reduction i = some ((strip r.rhs).length, r.lhs) := by rw [hm.red, hi]; rfl
      rw [lrStep_reduce hact hred hlen, hdrop]
      have htree : IsParseTree g.rules (.nt r.lhs) (.node r cs) := .nonterm hrm hf .nil
      have hc' : ConfOk g input (ts'.reverse ++ [.node r cs]) pos (events ++ [.reduce i]) := by
        refine ConfOk.reduce (cs := cs) ?_ hi
        rw [hts] at hc
        simpa using hc
      by_cases he : p = 0 ∧ g.entry = .nt r.lhs
      · obtain ⟨rfl, hE⟩ := he
        simp only [lrGoto, hm.accept _ hE]
        obtain ⟨rfl, rfl⟩ := hst.bottom hv.base
        exact ⟨_, _, _, rfl, .inr ⟨rfl, .node r cs, by rw [hE]; exact htree, by simpa using hc'⟩⟩
      · rcases goto_exists hv hs' hi hcore with he' | ⟨q', he'⟩
        · exact absurd he' he
        · simp only [lrGoto, hm.goto p _ q' he' he]
          exact ⟨_, _, _, rfl, .inl ⟨.node r cs :: ts', .push hst he' rfl htree, by rw [List.reverse_cons]; exact hc'⟩⟩

/-- what a result tells -/
def ResultOk (g : Grammar) (gr : LRGraph) (m : LRMachine) (input : Nat → Tok × T) : LRResult T → Prop
  | .ok events pos => ∃ t, IsParseTree g.rules g.entry t ∧ ConfOk g input [t] pos events
  | .unexpected events pos exp => ∃ q rest ts, StackOk g gr (.state q :: rest) ts ∧ ConfOk g input ts.reverse pos events ∧ m.nextAction q (input pos).1 = .unexpected exp
  | .panic _ _ => False
  | .running events pos => ∃ stk, RunInv g gr input stk pos events

theorem lrRun_sound (hv : LoopInv g kind gr []) (hm : Follows g gr m) : ∀ (fuel : Nat) (stk : List StackSym) (pos : Nat) (events : List (LREvent T)),
    RunInv g gr input stk pos events → ResultOk g gr m input (lrRun m input fuel stk pos events) := by
  intro fuel
  induction fuel with
  | zero => intro stk pos events h; exact ⟨stk, h⟩
  | succ fuel ih =>
    intro stk pos events h
    unfold lrRun
    rcases h with ⟨ts, h1, h2⟩ | ⟨rfl, t, h1, h2⟩
    · obtain ⟨q, rest, rfl⟩ := h1.head
      rcases lrStep_sound hv hm h1 h2 with ⟨exp, h, h'⟩ | ⟨stk', pos', ev, h, hinv⟩
      · rw [h]; exact ⟨q, rest, ts, h1, h2, h'⟩
      · rw [h]; exact ih _ _ _ hinv
    · exact ⟨t, h1, h2⟩

theorem lrParse_sound (hv : LoopInv g kind gr []) (hm : Follows g gr m) (input : Nat → Tok × T) (fuel : Nat) : ResultOk g gr m input (lrParse m input fuel) := by
  unfold lrParse
  rw [hm.entry]
  refine lrRun_sound hv hm fuel _ _ _ (.inl ⟨[], .base, ⟨by simp [PTree.tokensList], fun i p h => ?_⟩, by simp [TraceIs, PTree.postorderList]⟩)
  simp [PTree.tokensList] at h

end Verif
