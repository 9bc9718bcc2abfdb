import Verif.Proofs.GlrArms
import Verif.Proofs.LRLink
import Verif.Spec.GlrTrace

/-! # The generated GLR parser and the parser graph -/

set_option autoImplicit false

namespace Verif

variable {T : Type} {g : Grammar} {kind : LRKind} {gr : LRGraph}

/-- a state can shift a token -/
def CanShift (gr : LRGraph) (q : Nat) (tk : Tok) : Prop := ∃ a q', tk = .tok a ∧ (q, Sym.t a, q') ∈ gr.edges

/-- a state can reduce a rule when a token comes next -/
def CanReduce (g : Grammar) (gr : LRGraph) (q : Nat) (tk : Tok) (i : Nat) : Prop :=
  ∃ (s : List Item) (it : Item) (x : Sym), gr.sets[q]? = some s ∧ it ∈ s ∧ it.rule = some i ∧ it.after g = none ∧ tk.sym = some x ∧
    x ∈ g.terminals ++ [Sym.eof] ∧ LaMatch g it.la x

/-- a machine does exactly what the graph says -/
structure GFollows (g : Grammar) (gr : LRGraph) (m : GlrMachine) : Prop where
  entry : m.entry = 0
  acts : ∀ q tk l, q < gr.sets.length → m.nextActions q tk = .acts l →
    l ≠ [] ∧ l.Nodup ∧ (.shift ∈ l ↔ CanShift gr q tk) ∧ ∀ i, .reduce i ∈ l ↔ CanReduce g gr q tk i
  unexpected : ∀ q tk e, q < gr.sets.length → m.nextActions q tk = .unexpected e → ¬ CanShift gr q tk ∧ ∀ i, ¬ CanReduce g gr q tk i
  shift : ∀ q a q', (q, Sym.t a, q') ∈ gr.edges → m.nextGoto q (.terminal (.tok a)) = some (.state q')
  goto : ∀ q A q', (q, Sym.nt A, q') ∈ gr.edges → ¬ (q = 0 ∧ g.entry = .nt A) → m.nextGoto q (.nonTerminal A) = some (.state q')
  accept : ∀ A, g.entry = .nt A → m.nextGoto 0 (.nonTerminal A) = some .accept
  red : ∀ i, m.reduction i = (g.rules[i]?).map (fun r => ((strip r.rhs).length, r.lhs))
  noPanic : ∀ q tk, q < gr.sets.length → m.nextActions q tk ≠ .panic

theorem redEntries_map (s : List Item) (X : Sym) :
    redEntries g s X = (s.filter (fun it => decide (it.after g = none ∧ LaMatch g it.la X))).map (fun it => TableEntry.reduce it.rule) := by
  unfold redEntries
  induction s with
  | nil => rfl
  | cons it s ih =>
    rw [List.flatMap_cons, ih, List.filter_cons]
    unfold redItem
    by_cases h : it.after g = none ∧ LaMatch g it.la X
    · rw [if_pos h, if_pos (by simpa using h)]; rfl
    · rw [if_neg h, if_neg (by simpa using h)]; rfl

/-- completed items with the same rule and a lookahead for the same symbol are equal -/
theorem completed_eq (hb : Base g kind gr) {q : Nat} {s : List Item} (hs : gr.sets[q]? = some s) {X : Sym} {a b : Item} (ha : a ∈ s) (hb' : b ∈ s)
    (ha1 : a.after g = none) (hb1 : b.after g = none) (ha2 : LaMatch g a.la X) (hb2 : LaMatch g b.la X) (hr : a.rule = b.rule) : a = b := by
  have oa := hb.items q s hs a ha
  have ob := hb.items q s hs b hb'
  have d1 : (ruleRhs g a.rule).length ≤ a.dot := by
    unfold Item.after at ha1; exact List.getElem?_eq_none_iff.mp ha1
  have d2 : (ruleRhs g b.rule).length ≤ b.dot := by
    unfold Item.after at hb1; exact List.getElem?_eq_none_iff.mp hb1
  have d3 := oa.dot
  have d4 := ob.dot
  have l1 := oa.la
  have l2 := ob.la
  obtain ⟨ar, ad, al⟩ := a
  obtain ⟨br, bd, bl⟩ := b
  simp only at *
  subst hr
  have : ad = bd := by omega
  subst this
  unfold LaOk at l1 l2
  split at l1
  · rename_i hk
    rw [if_pos hk] at l2
    obtain ⟨x, rfl, _⟩ := l1
    obtain ⟨y, rfl, _⟩ := l2
    simp only [LaMatch] at ha2 hb2
    subst ha2; subst hb2; rfl
  · rename_i hk
    rw [if_neg hk] at l2
    rw [l1, l2]

theorem redEntries_nodup (hb : Base g kind gr) {q : Nat} {s : List Item} (hs : gr.sets[q]? = some s) (X : Sym) : (redEntries g s X).Nodup := by
  rw [redEntries_map]
  refine List.Nodup.map_on ?_ ((hb.sorted q s hs).nodup.filter _)
  intro a ha b hb' he
  simp only [List.mem_filter, decide_eq_true_eq] at ha hb'
  simp only [TableEntry.reduce.injEq] at he
  exact completed_eq hb hs ha.1 hb'.1 ha.2.1 hb'.2.1 ha.2.2 hb'.2.2 he

theorem entryAct_reduce {e : TableEntry} {i : Nat} : entryAct e = some (.reduce i) ↔ e = .reduce (some i) := by
  constructor
  · intro he
    unfold entryAct at he
    split at he <;> simp at he
    subst he; rfl
  · rintro rfl; rfl

theorem entryAct_shift {e : TableEntry} : entryAct e = some .shift ↔ ∃ q, e = .shift q := by
  constructor
  · intro he
    unfold entryAct at he
    split at he <;> simp at he
    exact ⟨_, rfl⟩
  · rintro ⟨q, rfl⟩; rfl

theorem lastEntry_one (q : Nat) (X : Sym) (reds : List TableEntry) : lastEntry g gr q X reds = [] ∨ ∃ e, lastEntry g gr q X reds = [e] := by
  unfold lastEntry
  split
  · exact .inr ⟨_, rfl⟩
  · split
    · exact .inr ⟨_, rfl⟩
    · split
      · exact .inr ⟨_, rfl⟩
      · exact .inl rfl

theorem cellActs_nodup (hb : Base g kind gr) {q : Nat} {s : List Item} (hs : gr.sets[q]? = some s) (X : Sym) : ((cellContent g gr s q X).filterMap entryAct).Nodup := by
  have hred : ∀ e ∈ redEntries g s X, ∃ r, e = .reduce r := by
    intro e he
    obtain ⟨it, _, _, _, h⟩ := mem_redEntries.mp he
    exact ⟨_, h⟩
  unfold cellContent
  rw [List.filterMap_append, List.nodup_append]
  refine ⟨?_, ?_, ?_⟩
  · unfold List.Nodup
    rw [List.pairwise_filterMap]
    refine (redEntries_nodup hb hs X).imp_of_mem ?_
    intro a b ha hb' hne x hx y hy he
    subst he
    obtain ⟨r, rfl⟩ := hred a ha
    obtain ⟨r', rfl⟩ := hred b hb'
    cases x with
    | shift => obtain ⟨_, h⟩ := entryAct_shift.mp hx; cases h
    | reduce i => rw [entryAct_reduce.mp hx, entryAct_reduce.mp hy] at hne; exact hne rfl
  · split
    · rcases lastEntry_one (g := g) (gr := gr) q X (redEntries g s X) with h | ⟨e, h⟩
      · rw [h]; simp
      · rw [h]; cases h : entryAct e <;> simp [h]
    · simp
  · intro x hx y hy he
    subst he
    obtain ⟨e, h1, h2⟩ := List.mem_filterMap.mp hx
    obtain ⟨e', h3, h4⟩ := List.mem_filterMap.mp hy
    obtain ⟨r, rfl⟩ := hred e h1
    cases x with
    | shift => obtain ⟨_, h⟩ := entryAct_shift.mp h2; cases h
    | reduce i =>
      rw [entryAct_reduce] at h4
      subst h4
      split at h3
      · rcases mem_lastEntry h3 with ⟨h, _⟩ | ⟨_, h, _⟩ | h <;> cases h
      · simp at h3

theorem mem_shift (wf : g.WF) (hb : Base g kind gr) {q : Nat} {s : List Item} {tk : Tok} {X : Sym} (hX : tk.sym = some X) :
    LRAction.shift ∈ (cellContent g gr s q X).filterMap entryAct ↔ CanShift gr q tk := by
  rw [List.mem_filterMap]
  constructor
  · rintro ⟨e, h1, h2⟩
    obtain ⟨q', rfl⟩ := entryAct_shift.mp h2
    rcases mem_cell h1 with ⟨_, _, _, _, h⟩ | ⟨hsym, h⟩
    · cases h
    · rcases mem_lastEntry h with ⟨h, _⟩ | ⟨q1, h, h1, _⟩ | h
      · cases h
      · simp at h; subst h
        cases tk with
        | err => simp [Tok.sym] at hX
        | eof =>
          simp [Tok.sym] at hX; subst hX
          rcases List.mem_append.mp hsym with h | h
          · obtain ⟨_, h⟩ := wf.ts _ h; cases h
          · obtain ⟨_, h⟩ := wf.nts _ h; cases h
        | tok a =>
          simp [Tok.sym] at hX; subst hX
          exact ⟨a, q', rfl, (edgeTarget_iff hb).mp h1⟩
      · cases h
  · rintro ⟨a, q', rfl, he⟩
    simp [Tok.sym] at hX; subst hX
    refine ⟨.shift q', ?_, rfl⟩
    unfold cellContent
    refine List.mem_append_right _ ?_
    have hsym : Sym.t a ∈ g.symbols := by
      rcases edge_label hb wf he with h | h
      · cases h
      · exact h
    rw [if_pos hsym]
    unfold lastEntry
    obtain ⟨E, hE, _⟩ := wf.entry_declared
    rw [if_neg (fun hc => by rw [hE] at hc; cases hc.1), (edgeTarget_iff hb).mpr he]
    simp

theorem mem_reduce {q : Nat} {s : List Item} (hs : gr.sets[q]? = some s) {tk : Tok} {X : Sym} (hX : tk.sym = some X) (hXm : X ∈ g.terminals ++ [Sym.eof]) (i : Nat) :
    LRAction.reduce i ∈ (cellContent g gr s q X).filterMap entryAct ↔ CanReduce g gr q tk i := by
  rw [List.mem_filterMap]
  constructor
  · rintro ⟨e, h1, h2⟩
    rw [entryAct_reduce] at h2
    subst h2
    rcases mem_cell h1 with ⟨it, h1, h2, h3, h4⟩ | ⟨hsym, h⟩
    · simp at h4
      exact ⟨s, it, X, hs, h1, h4.symm, h2, hX, hXm, h3⟩
    · rcases mem_lastEntry h with ⟨h, _⟩ | ⟨_, h, _⟩ | h <;> cases h
  · rintro ⟨s', it, x, h1, h2, h3, h4, h5, h6, h7⟩
    rw [hs] at h1; simp at h1; subst h1
    rw [hX] at h5; simp at h5; subst h5
    exact ⟨.reduce (some i), List.mem_append_left _ (mem_redEntries.mpr ⟨it, h2, h4, h7, by rw [h3]⟩), rfl⟩

theorem glr_follows (wf : g.WF) (hb : Base g kind gr) {p : GlrProg} (hp : GlrSpec g (buildTable g gr) p) : GFollows g gr p.machine := by
  obtain ⟨hi, hcell⟩ := buildTable_cell (gr := gr) wf
  have hct : (buildTable g gr).stateCount = gr.sets.length := hi.count
  have hca : ∀ {q : Nat} {s : List Item}, gr.sets[q]? = some s → ∀ X, cellActs (buildTable g gr) q X = (cellContent g gr s q X).filterMap entryAct := by
    intro q s hs X; unfold cellActs; rw [hcell, hs]
  have hcg : ∀ {q : Nat} {s : List Item}, gr.sets[q]? = some s → ∀ X, cellGotos (buildTable g gr) q X = (cellContent g gr s q X).filterMap entryGoto := by
    intro q s hs X; unfold cellGotos; rw [hcell, hs]
  have hgot : ∀ {q : Nat} {s : List Item}, gr.sets[q]? = some s → ∀ X ∈ g.symbols, cellGotos (buildTable g gr) q X = (lastEntry g gr q X (redEntries g s X)).filterMap entryGoto := by
    intro q s hs X hX
    rw [hcg hs, cellContent, if_pos hX, List.filterMap_append]
    have : (redEntries g s X).filterMap entryGoto = [] := by
      rw [List.filterMap_eq_nil_iff]
      intro e he
      obtain ⟨it, _, _, _, rfl⟩ := mem_redEntries.mp he
      rfl
    rw [this]; rfl
  refine ⟨by show p.entry = 0; rw [hp.entry, hi.entry], fun q tk l hq h => ?_, fun q tk e hq h => ?_, fun q a q' he => ?_, fun q A q' he hn => ?_, fun A hA => ?_, fun i => ?_, fun q tk hq => ?_⟩
  · have hs : gr.sets[q]? = some gr.sets[q] := List.getElem?_eq_getElem hq
    change p.nextActions q tk = _ at h
    obtain ⟨exp, _, _, hact⟩ := hp.action q (hct ▸ hq)
    rw [hact] at h
    split at h
    · rename_i a ha
      simp at h; subst h
      obtain ⟨X, hX, ha⟩ := Option.bind_eq_some_iff.mp ha
      split at ha
      · rename_i hmem
        unfold cellActs? at ha
        split at ha
        · simp at ha
        · rename_i hne
          simp at ha
          subst ha
          rw [hca hs] at hne ⊢
          exact ⟨hne, cellActs_nodup hb hs X, mem_shift wf hb hX, mem_reduce hs hX hmem⟩
      · simp at ha
    · simp at h
  · have hs : gr.sets[q]? = some gr.sets[q] := List.getElem?_eq_getElem hq
    change p.nextActions q tk = _ at h
    obtain ⟨exp, _, _, hact⟩ := hp.action q (hct ▸ hq)
    rw [hact] at h
    have hno : ∀ X, tk.sym = some X → X ∈ g.terminals ++ [Sym.eof] → (cellContent g gr gr.sets[q] q X).filterMap entryAct = [] := by
      intro X hX hmem
      rw [hX] at h
      simp only [Option.bind_some, if_pos hmem, cellActs?, hca hs] at h
      by_contra hne
      rw [if_neg hne] at h
      simp at h
    constructor
    · rintro ⟨a, q', rfl, he⟩
      have hsym : Sym.t a ∈ g.terminals := by
        rcases edge_label hb wf he with h | h
        · cases h
        · rcases List.mem_append.mp h with h | h
          · exact h
          · obtain ⟨_, h⟩ := wf.nts _ h; cases h
      have h1 := (mem_shift (s := gr.sets[q]) wf hb (tk := .tok a) (X := .t a) rfl).mpr ⟨a, q', rfl, he⟩
      rw [hno (.t a) rfl (List.mem_append_left _ hsym)] at h1
      simp at h1
    · rintro i hc
      obtain ⟨s', it, x, h1, h2, h3, h4, h5, h6, h7⟩ := id hc
      have h1 := (mem_reduce hs h5 h6 i).mpr hc
      rw [hno x h5 h6] at h1
      simp at h1
  · obtain ⟨s, hs⟩ := edge_src hb he
    have hq := getElem?_lt hs
    have hsym : Sym.t a ∈ g.symbols := by
      rcases edge_label hb wf he with h | h
      · cases h
      · exact h
    obtain ⟨E, hE, _⟩ := wf.entry_declared
    show p.nextGoto q _ = _
    rw [hp.goto q (hct ▸ hq)]
    simp only [StackSym.sym, Option.bind_some, if_pos hsym, hgot hs _ hsym]
    unfold lastEntry
    rw [if_neg (fun hc => by rw [hE] at hc; cases hc.1), (edgeTarget_iff hb).mpr he]
    rfl
  · obtain ⟨s, hs⟩ := edge_src hb he
    have hq := getElem?_lt hs
    have hsym : Sym.nt A ∈ g.symbols := by
      rcases edge_label hb wf he with h | h
      · cases h
      · exact h
    show p.nextGoto q _ = _
    rw [hp.goto q (hct ▸ hq)]
    simp only [StackSym.sym, Option.bind_some, if_pos hsym, hgot hs _ hsym]
    unfold lastEntry
    rw [if_neg (fun hc => hn ⟨hc.2, hc.1.symm⟩), (edgeTarget_iff hb).mpr he]
    rfl
  · obtain ⟨s, hs, _⟩ := hb.start
    have hq := getElem?_lt hs
    have hsym : Sym.nt A ∈ g.symbols := by
      obtain ⟨B, h1, h2⟩ := wf.entry_declared
      rw [hA] at h1
      rw [h1]; exact List.mem_append_right _ h2
    show p.nextGoto 0 _ = _
    rw [hp.goto 0 (hct ▸ hq)]
    simp only [StackSym.sym, Option.bind_some, if_pos hsym, hgot hs _ hsym]
    unfold lastEntry
    rw [if_pos ⟨hA.symm, rfl⟩]
    rfl
  · show p.reductions[i]? = _
    rw [hp.reductions, List.getElem?_map]
  · change p.nextActions q tk ≠ _
    obtain ⟨exp, _, _, hact⟩ := hp.action q (hct ▸ hq)
    rw [hact]
    split <;> simp

/-- code is generated for every table -/
theorem genGlr_graph (wf : g.WF) (hv : LoopInv g kind gr []) : ∃ p, genGlr g (buildTable g gr) = .ok p := by
  obtain ⟨hi, hcell⟩ := buildTable_cell (gr := gr) wf
  refine genGlr_total fun q hq X hX hmem => ?_
  rw [hi.count] at hq
  have hs : gr.sets[q]? = some gr.sets[q] := List.getElem?_eq_getElem hq
  rw [hcell, hs] at hmem
  rcases mem_cell hmem with ⟨it, h1, h2, h3, h4⟩ | ⟨_, h⟩
  · simp at h4
    obtain ⟨_, he⟩ := rule_none_zero hv hs h1 h4.symm
    subst he
    simp [Item.after, entryItem, ruleRhs] at h2
  · rcases mem_lastEntry h with ⟨h, _⟩ | ⟨_, h, _⟩ | h <;> cases h

theorem glr_parser_inv (wf : g.WF) (hne : NoEmptyRhs g) {p : GlrProg} (h : GlrParserFor g kind p) :
    ∃ gr, LoopInv g kind gr [] ∧ GFollows g gr p.machine := by
  obtain ⟨allow, fuel, tb, h, hp⟩ := h
  rcases h with h | ⟨cs, h⟩
  · obtain ⟨gr, h1, _, rfl⟩ := generateTable_inv wf hne h
    exact ⟨gr, h1, glr_follows wf h1.base (genGlr_spec hp)⟩
  · obtain ⟨gr, h1, _, _, rfl, _⟩ := generateTable_inv wf hne h
    exact ⟨gr, h1, glr_follows wf h1.base (genGlr_spec hp)⟩

/-- how a reduction ends: trees and stack, or acceptance -/
theorem glr_reduce {m : GlrMachine} (hv : LoopInv g kind gr []) (hm : GFollows g gr m) {q : Nat} {rest : List StackSym} {ts : List (PTree T)}
    (h : StackOk g gr (.state q :: rest) ts) {tk : Tok} {i : Nat} (hc : CanReduce g gr q tk i) :
    ∃ r p rest' cs ts', g.rules[i]? = some r ∧ r ∈ g.rules ∧ m.reduction i = some ((strip r.rhs).length, r.lhs) ∧
      2 * (strip r.rhs).length < (StackSym.state q :: rest).length ∧
      (StackSym.state q :: rest).drop (2 * (strip r.rhs).length) = .state p :: rest' ∧ ts = cs.reverse ++ ts' ∧ StackOk g gr (.state p :: rest') ts' ∧
      Forest g.rules r.rhs cs ∧
      ((¬ (p = 0 ∧ g.entry = .nt r.lhs) ∧ ∃ q', (p, Sym.nt r.lhs, q') ∈ gr.edges ∧ m.nextGoto p (.nonTerminal r.lhs) = some (.state q') ∧
          StackOk g gr (.state q' :: .nonTerminal r.lhs :: .state p :: rest') (.node r cs :: ts')) ∨
        (g.entry = .nt r.lhs ∧ p = 0 ∧ m.nextGoto p (.nonTerminal r.lhs) = some .accept ∧ rest' = [] ∧ ts' = [])) := by
  obtain ⟨s, it, x, h1, h2, h3, h4, _, _, _⟩ := hc
  obtain ⟨r, hi, hrm, hlen, _, _, p, rest', cs, ts', s', hdrop, hts, hst, hf, hs', hcore⟩ := reduce_stack hv h h1 h2 h3 h4
  refine ⟨r, p, rest', cs, ts', hi, hrm, by rw [hm.red, hi]; rfl, ?_, hdrop, hts, hst, hf, ?_⟩
  · have := congrArg List.length hdrop
    rw [List.length_drop] at this
    simp only [List.length_cons] at this hlen ⊢
    omega
  · by_cases he : p = 0 ∧ g.entry = .nt r.lhs
    · obtain ⟨rfl, hE⟩ := he
      obtain ⟨rfl, rfl⟩ := hst.bottom hv.base
      exact .inr ⟨hE, rfl, hm.accept _ hE, rfl, rfl⟩
    · rcases goto_exists hv hs' hi hcore with he' | ⟨q', he'⟩
      · exact absurd he' he
      · exact .inl ⟨he, q', he', hm.goto p _ q' he' he, .push hst he' rfl (.nonterm hrm hf .nil)⟩

/-- stacks of generated parsers never underflow -/
theorem glr_stackInv [Inhabited T] {m : GlrMachine} (hv : LoopInv g kind gr []) (hm : GFollows g gr m) :
    StackInv m (fun stk => ∃ ts : List (PTree T), StackOk g gr stk ts) := by
  refine ⟨⟨[], by rw [hm.entry]; exact .base⟩, fun stk ⟨ts, h⟩ => h.head, fun q rest tk l i ⟨ts, h⟩ hl hi => ?_, fun q rest tk l ⟨ts, h⟩ hl hs => ?_⟩
  · obtain ⟨s, hs⟩ := h.range hv.base
    have hc := ((hm.acts q tk l (getElem?_lt hs) hl).2.2.2 i).mp hi
    obtain ⟨r, p, rest', cs, ts', h1, h2, h3, h4, h5, h6, h7, h8, h9⟩ := glr_reduce hv hm h hc
    refine ⟨_, _, p, rest', h3, h4, h5, ?_⟩
    rcases h9 with ⟨_, q', _, h10, h11⟩ | ⟨_, _, h10, h11, _⟩
    · exact .inl ⟨q', h10, _, h11⟩
    · exact .inr ⟨h10, h11⟩
  · obtain ⟨s, hs'⟩ := h.range hv.base
    obtain ⟨a, q', rfl, he⟩ := (hm.acts q tk l (getElem?_lt hs') hl).2.2.1.mp hs
    exact ⟨q', hm.shift q a q' he, _, .push (t := .leaf a default) h he rfl (isParseTree_term a _)⟩

end Verif
