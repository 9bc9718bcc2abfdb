import Verif.Proofs.Tables
import Verif.Spec.Cpp

/-! The generated Rust lexer's loop. -/

set_option autoImplicit false

namespace Verif

/-- the last arm of a state -/
def lastArm (q : Nat) : AutomatonState Nat → LexArm
  | .accepting j => .accept q j
  | .intermediate _ => .reject q

theorem find?_flatten_skip {α : Type} {p : α → Bool} {l1 l2 l3 : List (List α)} {x : List α} (hl : l1 = l2 ++ x :: l3)
    (h2 : ∀ y ∈ l2, ∀ a ∈ y, p a = false) (hx : (x.find? p).isSome) : l1.flatten.find? p = x.find? p := by
  subst hl
  induction l2 with
  | nil =>
    simp only [List.nil_append, List.flatten_cons, List.find?_append]
    obtain ⟨a, ha⟩ := Option.isSome_iff_exists.mp hx
    rw [ha]; rfl
  | cons y l2 ih =>
    simp only [List.cons_append, List.flatten_cons, List.find?_append]
    have : y.find? p = none := List.find?_eq_none.mpr (fun a ha => by simp [h2 y (by simp) a ha])
    rw [this, Option.none_or]
    exact ih (fun z hz => h2 z (List.mem_cons_of_mem _ hz))

theorem lexArmsOf_applies {d : Dfa Nat Nat} {q q' sym : Nat} {node : AutomatonState Nat} (h : q' ≠ q) :
    ∀ a ∈ lexArmsOf d q' node, LexArm.applies q sym a = false := by
  intro a ha
  simp only [lexArmsOf, List.mem_append, List.mem_filterMap, List.mem_cons, List.not_mem_nil, or_false] at ha
  rcases ha with (ha | ⟨⟨t, tgt⟩, _, ha⟩) | ha
  · split at ha
    · simp at ha; subst ha; simp [LexArm.applies, h]
    · cases ha
  · simp only at ha
    split at ha
    · cases ha; simp [LexArm.applies, h]
    · cases ha
  · cases node <;> (simp at ha; subst ha; simp [LexArm.applies, h])

theorem zipIdx_split {α : Type} {l : List α} {q : Nat} {x : α} (h : l[q]? = some x) :
    ∃ l2 l3, l.zipIdx = l2 ++ (x, q) :: l3 ∧ ∀ y ∈ l2, y.2 ≠ q := by
  have hq : q < l.length := (List.getElem?_eq_some_iff.mp h).1
  refine ⟨l.zipIdx.take q, l.zipIdx.drop (q + 1), ?_, ?_⟩
  · have hz : l.zipIdx[q]? = some (x, q) := by
      rw [List.getElem?_zipIdx, h]; simp
    have h1 : l.zipIdx.drop q = (x, q) :: l.zipIdx.drop (q + 1) := by
      have hl : q < l.zipIdx.length := by simpa using hq
      rw [List.drop_eq_getElem_cons hl]
      have := List.getElem?_eq_getElem hl
      rw [hz] at this
      rw [← Option.some.inj this]
    rw [← h1, List.take_append_drop]
  · intro y hy
    obtain ⟨i, hi, he⟩ := List.getElem_of_mem hy
    simp only [List.length_take, List.length_zipIdx] at hi
    rw [List.getElem_take, List.getElem_zipIdx] at he
    rw [← he]
    simp only
    omega

theorem lexArms_find {d : Dfa Nat Nat} {q sym : Nat} {node : AutomatonState Nat} (h : d.graph.nodes[q]? = some node) :
    (lexArms d).find? (LexArm.applies q sym) = (lexArmsOf d q node).find? (LexArm.applies q sym) := by
  obtain ⟨l2, l3, h1, h2⟩ := zipIdx_split h
  unfold lexArms
  apply find?_flatten_skip (l2 := l2.map (fun (node, i) => lexArmsOf d i node)) (l3 := l3.map (fun (node, i) => lexArmsOf d i node))
  · rw [h1]; simp
  · intro y hy a ha
    obtain ⟨z, hz, rfl⟩ := List.mem_map.mp hy
    exact lexArmsOf_applies (h2 z hz) a ha
  · rw [List.find?_isSome]
    refine ⟨lastArm q node, ?_, ?_⟩
    · unfold lexArmsOf lastArm
      cases node <;> simp
    · cases node <;> simp [LexArm.applies, lastArm]

theorem find?_filterMap_adv {q sym : Nat} (l : List (Nat × Nat)) :
    (l.filterMap (fun (x : Nat × Nat) => if x.1 ≠ 0 then some (LexArm.advance q x.1 x.2) else none)).find? (LexArm.applies q sym) =
      if sym = 0 then none else (l.find? (fun x => x.1 = sym)).map (fun x => LexArm.advance q x.1 x.2) := by
  induction l with
  | nil => simp
  | cons x l ih =>
    obtain ⟨w, tgt⟩ := x
    rw [List.filterMap_cons]
    by_cases hw : w = 0
    · subst hw
      simp only [ne_eq, not_true_eq_false, if_false]
      have ih' := ih
      simp only [ne_eq] at ih'
      rw [ih']
      split
      · rfl
      · rename_i hs
        rw [List.find?_cons_of_neg]
        simp; omega
    · simp only [ne_eq, hw, not_false_eq_true, if_true]
      simp only [ne_eq] at ih
      by_cases hws : sym = w
      · subst hws
        rw [List.find?_cons_of_pos (by simp [LexArm.applies])]
        rw [if_neg hw, List.find?_cons_of_pos (by simp)]
        rfl
      · rw [List.find?_cons_of_neg (by simp [LexArm.applies, hws]), ih]
        rw [List.find?_cons_of_neg (by simp; omega)]

/-- which arm is taken -/
theorem arm_cases {rules : List TokenRule} {t : LexerTables} (ht : TablesOk rules t) {q sym : Nat} {node : AutomatonState Nat}
    (h : t.dfa.graph.nodes[q]? = some node) :
    (q = 0 → sym = 0 → (lexArms t.dfa).find? (LexArm.applies q sym) = some (.eof q)) ∧
    (sym ≠ 0 → ∀ tgt, (⟨q, tgt, sym⟩ : Edge Nat) ∈ t.dfa.graph.edges →
      (lexArms t.dfa).find? (LexArm.applies q sym) = some (.advance q sym tgt)) ∧
    (¬ (q = 0 ∧ sym = 0) → (sym = 0 ∨ ∀ tgt, (⟨q, tgt, sym⟩ : Edge Nat) ∉ t.dfa.graph.edges) →
      (lexArms t.dfa).find? (LexArm.applies q sym) =
        some (lastArm q node)) := by
  rw [lexArms_find h]
  unfold lexArmsOf
  simp only [List.find?_append]
  have hlast : List.find? (LexArm.applies q sym) [lastArm q node] = some (lastArm q node) := by
    cases node <;> simp [LexArm.applies, lastArm]
  have hadv := find?_filterMap_adv (q := q) (sym := sym) (t.dfa.transitionsFrom q)
  have hmem : ∀ x : Nat × Nat, x ∈ t.dfa.transitionsFrom q ↔ (⟨q, x.2, x.1⟩ : Edge Nat) ∈ t.dfa.graph.edges := by
    intro x
    simp only [Dfa.transitionsFrom, Graph.edgesFrom, List.mem_map, List.mem_reverse, List.mem_filter, decide_eq_true_eq]
    constructor
    · rintro ⟨e, ⟨h1, rfl⟩, rfl⟩; exact h1
    · intro h1; exact ⟨_, ⟨h1, rfl⟩, rfl⟩
  refine ⟨?_, ?_, ?_⟩
  · rintro rfl rfl
    simp [LexArm.applies]
  · intro hs tgt he
    have h0 : List.find? (LexArm.applies q sym) (if q = 0 then [LexArm.eof q] else []) = none := by
      split <;> simp [LexArm.applies, hs]
    rw [h0, Option.none_or, hadv, if_neg hs]
    have : (t.dfa.transitionsFrom q).find? (fun x => decide (x.1 = sym)) = some (sym, tgt) := by
      have hm := (hmem (sym, tgt)).mpr he
      have hnd := ht.det q
      generalize t.dfa.transitionsFrom q = l at hm hnd
      induction l with
      | nil => cases hm
      | cons y l ih =>
        simp only [List.map_cons, List.nodup_cons] at hnd
        rcases List.mem_cons.mp hm with rfl | hm
        · simp
        · rw [List.find?_cons_of_neg, ih hm hnd.2]
          simp only [decide_eq_true_eq]
          intro hy
          exact hnd.1 (List.mem_map.mpr ⟨_, hm, hy.symm⟩)
    rw [this]
    rfl
  · intro h0 h1
    have h0' : List.find? (LexArm.applies q sym) (if q = 0 then [LexArm.eof q] else []) = none := by
      split
      · have : sym ≠ 0 := fun hs => h0 ⟨by assumption, hs⟩
        simp [LexArm.applies, this]
      · rfl
    rw [h0', Option.none_or, hadv]
    have : (if sym = 0 then none else ((t.dfa.transitionsFrom q).find? (fun x => decide (x.1 = sym))).map (fun x => LexArm.advance q x.1 x.2)) = none := by
      split
      · rfl
      · rename_i hs
        have : (t.dfa.transitionsFrom q).find? (fun x => decide (x.1 = sym)) = none := by
          rw [List.find?_eq_none]
          intro x hx
          simp only [decide_eq_true_eq]
          rintro rfl
          rcases h1 with h1 | h1
          · exact hs h1
          · exact h1 _ ((hmem x).mp hx)
        rw [this]; rfl
    rw [this, Option.none_or]
    refine Eq.trans ?_ hlast
    cases node <;> rfl

/-- the lexer cannot go on -/
def Stuck (t : LexerTables) (q : Nat) (rest : List Char) : Prop :=
  AtEnd rest ∨ ∃ c r, rest = c :: r ∧ ∀ q', (⟨q, q', classOf t.alphabet c⟩ : Edge Nat) ∉ t.dfa.graph.edges

open Classical in
/-- the result when the lexer stops in state `q` -/
def StopResult (t : LexerTables) (q : Nat) (rest : List Char) (res : LexResult) : Prop :=
  if q = 0 ∧ AtEnd rest then res = .eof
  else match t.dfa.graph.nodes[q]? with
    | some (.accepting j) => res = .token j
    | some (.intermediate _) => ∃ r, res = .unexpectedAlphabet r ∧ r.1 ≤ nextCode rest ∧ nextCode rest ≤ r.2
    | none => False

theorem TablesOk.good {rules : List TokenRule} {t : LexerTables} (ht : TablesOk rules t) : t.alphabet.Good := by
  rw [ht.alpha]; exact generateAlphabet_good rules

theorem TablesOk.classOf_zero {rules : List TokenRule} {t : LexerTables} (ht : TablesOk rules t) {c : Char} :
    classOf t.alphabet c = 0 ↔ c = nul := by
  rw [ht.alpha]; exact classOf_eq_zero

theorem TablesOk.index_zero {rules : List TokenRule} {t : LexerTables} (ht : TablesOk rules t) :
    getAlphabetIndex t.alphabet 0 = some 0 := by
  have h1 := ht.good.index nul
  have h2 : classOf t.alphabet nul = 0 := ht.classOf_zero.mpr rfl
  rw [h2] at h1
  exact h1

theorem lexLoop_spec {rules : List TokenRule} {t : LexerTables} (ht : TablesOk rules t) (rest : List Char) :
    ∀ q pos, q < t.dfa.graph.nodes.length →
      ∃ m rest' q' res, rest = m ++ rest' ∧ nul ∉ m ∧ t.dfa.Path q (m.map (classOf t.alphabet)) q' ∧ q' < t.dfa.graph.nodes.length ∧
        Stuck t q' rest' ∧ StopResult t q' rest' res ∧ lexLoop t q pos rest = .ok (res, rest', pos + bytes m) := by
  -- stopping at once
  have stop : ∀ q rest (sym : Nat), q < t.dfa.graph.nodes.length → sym < t.alphabet.ranges.length →
      (∀ r, t.alphabet.ranges[sym]? = some r → r.1 ≤ nextCode rest ∧ nextCode rest ≤ r.2) →
      (AtEnd rest ↔ sym = 0) → (sym = 0 ∨ ∀ q', (⟨q, q', sym⟩ : Edge Nat) ∉ t.dfa.graph.edges) →
      ∃ res, StopResult t q rest res ∧
        ((lexArms t.dfa).find? (LexArm.applies q sym) = some (.eof q) ∧ res = .eof ∨
         (∃ j, (lexArms t.dfa).find? (LexArm.applies q sym) = some (.accept q j) ∧ res = .token j) ∨
         (∃ r, (lexArms t.dfa).find? (LexArm.applies q sym) = some (.reject q) ∧ t.alphabet.ranges[sym]? = some r ∧ res = .unexpectedAlphabet r)) := by
    intro q rest sym hq hsym hcode hend hno
    obtain ⟨node, hnode⟩ : ∃ node, t.dfa.graph.nodes[q]? = some node := ⟨_, List.getElem?_eq_getElem hq⟩
    obtain ⟨a1, a2, a3⟩ := arm_cases ht (sym := sym) hnode
    by_cases h0 : q = 0 ∧ sym = 0
    · refine ⟨.eof, ?_, Or.inl ⟨a1 h0.1 h0.2, rfl⟩⟩
      unfold StopResult
      rw [if_pos ⟨h0.1, hend.mpr h0.2⟩]
    · have h0' : ¬ (q = 0 ∧ AtEnd rest) := fun h => h0 ⟨h.1, hend.mp h.2⟩
      have := a3 h0 hno
      cases node with
      | accepting j =>
        refine ⟨.token j, ?_, Or.inr (Or.inl ⟨j, this, rfl⟩)⟩
        unfold StopResult
        rw [if_neg h0', hnode]
      | intermediate k =>
        refine ⟨.unexpectedAlphabet t.alphabet.ranges[sym], ?_, Or.inr (Or.inr ⟨_, this, List.getElem?_eq_getElem hsym, rfl⟩)⟩
        unfold StopResult
        rw [if_neg h0', hnode]
        exact ⟨_, rfl, hcode _ (List.getElem?_eq_getElem hsym)⟩
  have hcodes : ∀ c : Char, ∀ r, t.alphabet.ranges[classOf t.alphabet c]? = some r → r.1 ≤ c.toNat ∧ c.toNat ≤ r.2 := by
    intro c r hr
    obtain ⟨s, e, h1, h2, h3⟩ := ht.good.range c
    rw [h1] at hr
    cases hr
    exact ⟨h2, h3⟩
  have h0lt : 0 < t.alphabet.ranges.length := by
    have := ht.good.classOf_lt nul
    omega
  induction rest with
  | nil =>
    intro q pos hq
    obtain ⟨res, h1, h2⟩ := stop q [] 0 hq h0lt (fun r hr => hcodes nul r (by rw [ht.classOf_zero.mpr rfl]; exact hr)) (by simp [AtEnd]) (Or.inl rfl)
    refine ⟨[], [], q, res, rfl, by simp, .refl q, hq, Or.inl (Or.inl rfl), h1, ?_⟩
    unfold lexLoop
    rw [ht.index_zero]
    simp only
    rcases h2 with ⟨h2, rfl⟩ | ⟨j, h2, rfl⟩ | ⟨r, h2, h3, rfl⟩
    · rw [h2]; rfl
    · rw [h2]; rfl
    · rw [h2]; simp only [h3]; rfl
  | cons c rest ih =>
    intro q pos hq
    by_cases hadv : c ≠ nul ∧ ∃ q', (⟨q, q', classOf t.alphabet c⟩ : Edge Nat) ∈ t.dfa.graph.edges
    · obtain ⟨hc, q1, he⟩ := hadv
      obtain ⟨m, rest', q', res, g1, g2, g3, g4, g5, g6, g7⟩ := ih q1 (pos + c.utf8Size) (ht.wf _ he).2
      refine ⟨c :: m, rest', q', res, by simp [g1], ?_, .step he g3, g4, g5, g6, ?_⟩
      · simp only [List.mem_cons, not_or]
        exact ⟨fun h => hc h.symm, g2⟩
      · obtain ⟨node, hnode⟩ : ∃ node, t.dfa.graph.nodes[q]? = some node := ⟨_, List.getElem?_eq_getElem hq⟩
        obtain ⟨a1, a2, a3⟩ := arm_cases ht (sym := classOf t.alphabet c) hnode
        have := a2 (fun h => hc (ht.classOf_zero.mp h)) q1 he
        unfold lexLoop
        rw [ht.good.index]
        simp only [this]
        rw [g7]
        simp [bytes, Nat.add_assoc]
    · have hno : classOf t.alphabet c = 0 ∨ ∀ q', (⟨q, q', classOf t.alphabet c⟩ : Edge Nat) ∉ t.dfa.graph.edges := by
        by_cases hc : c = nul
        · exact Or.inl (ht.classOf_zero.mpr hc)
        · exact Or.inr (fun q' he => hadv ⟨hc, q', he⟩)
      have hend : AtEnd (c :: rest) ↔ classOf t.alphabet c = 0 := by
        rw [ht.classOf_zero]
        simp [AtEnd]
      obtain ⟨res, h1, h2⟩ := stop q (c :: rest) (classOf t.alphabet c) hq (ht.good.classOf_lt c) (hcodes c) hend hno
      refine ⟨[], c :: rest, q, res, rfl, by simp, .refl q, hq, ?_, h1, ?_⟩
      · rcases hno with h | h
        · exact Or.inl (hend.mpr h)
        · exact Or.inr ⟨c, rest, rfl, h⟩
      · unfold lexLoop
        rw [ht.good.index]
        simp only
        rcases h2 with ⟨h2, rfl⟩ | ⟨j, h2, rfl⟩ | ⟨r, h2, h3, rfl⟩
        · rw [h2]; rfl
        · rw [h2]; rfl
        · rw [h2]; simp only [h3]; rfl

/-- `next` in one statement -/
theorem next_spec {rules : List TokenRule} {t : LexerTables} (ht : TablesOk rules t) (l : Lexer) :
    ∃ m rest' q res, l.rest = m ++ rest' ∧ nul ∉ m ∧ t.dfa.Path 0 (m.map (classOf t.alphabet)) q ∧ q < t.dfa.graph.nodes.length ∧
      Stuck t q rest' ∧ StopResult t q rest' res ∧
      l.next t = .ok (res, { src := l.src, rest := rest', start := l.position, position := l.position + bytes m }) := by
  obtain ⟨m, rest', q', res, g1, g2, g3, g4, g5, g6, g7⟩ := lexLoop_spec ht l.rest 0 l.position ht.pos
  refine ⟨m, rest', q', res, g1, g2, g3, g4, g5, g6, ?_⟩
  unfold Lexer.next
  rw [g7]
  rfl

theorem Dfa.Path.snoc_inv {σ τ : Type} {d : Dfa σ τ} {q q' : Nat} {w : List τ} (h : d.Path q w q') :
    ∀ {u : List τ} {x : τ} {v : List τ}, w = u ++ x :: v → ∃ m m', d.Path q u m ∧ (⟨m, m', x⟩ : Edge τ) ∈ d.graph.edges := by
  induction h with
  | refl q => intro u x v h; simp at h
  | @step q q1 q2 t w he hp ih =>
    intro u x v hw
    cases u with
    | nil =>
      simp only [List.nil_append, List.cons.injEq] at hw
      obtain ⟨rfl, _⟩ := hw
      exact ⟨q, q1, .refl q, he⟩
    | cons a u =>
      simp only [List.cons_append, List.cons.injEq] at hw
      obtain ⟨rfl, hw⟩ := hw
      obtain ⟨m, m', h1, h2⟩ := ih hw
      exact ⟨m, m', .step he h1, h2⟩

theorem path_det {rules : List TokenRule} {t : LexerTables} (ht : TablesOk rules t) {q : Nat} {w : List Nat} {q1 q2 : Nat}
    (h1 : t.dfa.Path q w q1) (h2 : t.dfa.Path q w q2) : q1 = q2 := by
  induction h1 with
  | refl q => cases h2; rfl
  | @step q q' q'' a w he _ ih =>
    cases h2 with
    | @step _ q3 _ _ _ he2 h2 =>
      have hm : ∀ x, (⟨q, x, a⟩ : Edge Nat) ∈ t.dfa.graph.edges → (a, x) ∈ t.dfa.transitionsFrom q := by
        intro x hx
        simp only [Dfa.transitionsFrom, Graph.edgesFrom, List.mem_map, List.mem_reverse, List.mem_filter, decide_eq_true_eq]
        exact ⟨_, ⟨hx, rfl⟩, rfl⟩
      have heq : q' = q3 := by
        have a1 := hm _ he
        have a2 := hm _ he2
        have hnd := ht.det q
        generalize t.dfa.transitionsFrom q = l at a1 a2 hnd
        induction l with
        | nil => cases a1
        | cons y l ihl =>
          simp only [List.map_cons, List.nodup_cons] at hnd
          rcases List.mem_cons.mp a1 with e1 | a1
          · rcases List.mem_cons.mp a2 with e2 | a2
            · rw [← e1] at e2; exact (Prod.mk.inj e2).2.symm
            · exact absurd (List.mem_map.mpr ⟨_, a2, by rw [← e1]⟩) hnd.1
          · rcases List.mem_cons.mp a2 with e2 | a2
            · exact absurd (List.mem_map.mpr ⟨_, a1, by rw [← e2]⟩) hnd.1
            · exact ihl a1 a2 hnd.2
      subst heq
      exact ih h2

/-- when the lexer is stuck after `m`, no longer prefix free of NUL can be continued to a (live) match -/
theorem stuck_longest {rules : List TokenRule} {t : LexerTables} (ht : TablesOk rules t) {m rest' : List Char} {q : Nat}
    (hp : t.dfa.Path 0 (m.map (classOf t.alphabet)) q) (hs : Stuck t q rest') {m' rest'' : List Char}
    (hm : m ++ rest' = m' ++ rest'') (hlen : m.length < m'.length) (hnul : nul ∉ m') :
    ¬ ∃ q', t.dfa.Path 0 (m'.map (classOf t.alphabet)) q' := by
  rintro ⟨q', hq'⟩
  obtain ⟨x, hx⟩ : ∃ x, m' = m ++ x ∧ x ++ rest'' = rest' := by
    rcases List.append_eq_append_iff.mp hm with ⟨a, h1, h2⟩ | ⟨a, h1, h2⟩
    · exact ⟨a, h1, h2.symm⟩
    · rw [h1, List.length_append] at hlen; omega
  obtain ⟨rfl, rfl⟩ := hx
  cases x with
  | nil => simp at hlen
  | cons c x =>
    have hc : c ≠ nul := by
      rintro rfl
      simp at hnul
    rw [List.map_append, List.map_cons] at hq'
    obtain ⟨a, b, h1, h2⟩ := hq'.snoc_inv rfl
    have := path_det ht hp h1
    subst this
    rcases hs with hs | ⟨c', r, h3, h4⟩
    · rcases hs with h | ⟨r, h⟩
      · simp at h
      · simp at h; exact hc h.1
    · simp only [List.cons_append, List.cons.injEq] at h3
      obtain ⟨rfl, _⟩ := h3
      exact h4 _ h2

end Verif
