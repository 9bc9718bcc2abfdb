import Verif.Proofs.LexHist
import Verif.Proofs.Utf8

/-! # The C++ lexer simulates the Rust lexer -/

set_option autoImplicit false

namespace Verif

/-- the `default:` of a state -/
def cppDefault : AutomatonState Nat → CppStep
  | .accepting rule => .ret (.token rule) true
  | .intermediate _ => .ret .err false

theorem cpp_cases {rules : List TokenRule} {t : LexerTables} (ht : TablesOk rules t) {q sym : Nat} {node : AutomatonState Nat}
    (h : t.dfa.graph.nodes[q]? = some node) :
    (q = 0 → sym = 0 → cppStateSwitch t.dfa q sym = .ret .eof false) ∧
    (sym ≠ 0 → ∀ tgt, (⟨q, tgt, sym⟩ : Edge Nat) ∈ t.dfa.graph.edges → cppStateSwitch t.dfa q sym = .advance tgt) ∧
    (¬ (q = 0 ∧ sym = 0) → (sym = 0 ∨ ∀ tgt, (⟨q, tgt, sym⟩ : Edge Nat) ∉ t.dfa.graph.edges) →
      cppStateSwitch t.dfa q sym = cppDefault node) := by
  have hm : ∀ x, (sym, x) ∈ t.dfa.transitionsFrom q ↔ (⟨q, x, sym⟩ : Edge Nat) ∈ t.dfa.graph.edges := by
    intro x
    simp only [Dfa.transitionsFrom, Graph.edgesFrom, List.mem_map, List.mem_reverse, List.mem_filter, decide_eq_true_eq, Prod.mk.injEq]
    constructor
    · rintro ⟨⟨a, b, c⟩, ⟨h1, rfl⟩, rfl, rfl⟩; exact h1
    · intro hx; exact ⟨_, ⟨hx, rfl⟩, rfl, rfl⟩
  refine ⟨?_, ?_, ?_⟩
  · intro h1 h2
    unfold cppStateSwitch
    rw [h]
    simp [h1, h2]
  · intro h1 tgt he
    have hf : ∃ y, (t.dfa.transitionsFrom q).find? (fun tt => tt.1 ≠ 0 ∧ tt.1 = sym) = some (sym, y) := by
      cases hf : (t.dfa.transitionsFrom q).find? (fun tt => tt.1 ≠ 0 ∧ tt.1 = sym) with
      | none =>
        have := List.find?_eq_none.mp hf _ ((hm tgt).mpr he)
        simp [h1] at this
      | some y =>
        have := List.find?_some hf
        simp at this
        obtain ⟨a, b⟩ := y
        simp only at this
        exact ⟨b, by rw [this.2]⟩
    obtain ⟨y, hy⟩ := hf
    have hy2 := (hm y).mp (List.mem_of_find?_eq_some hy)
    have : y = tgt := by
      have p1 : t.dfa.Path q [sym] y := .step hy2 (.refl _)
      have p2 : t.dfa.Path q [sym] tgt := .step he (.refl _)
      exact path_det ht p1 p2
    subst this
    unfold cppStateSwitch
    rw [h]
    simp only [h1, and_false, if_false, hy]
  · intro h1 h2
    have hf : (t.dfa.transitionsFrom q).find? (fun tt => tt.1 ≠ 0 ∧ tt.1 = sym) = none := by
      rw [List.find?_eq_none]
      rintro ⟨a, b⟩ hx
      simp only [decide_eq_true_eq]
      rintro ⟨h3, rfl⟩
      rcases h2 with h2 | h2
      · exact h3 h2
      · exact h2 b ((hm b).mp hx)
    unfold cppStateSwitch
    rw [h]
    simp only [h1, if_false, hf]
    cases node <;> rfl

/-- the C++ lexer has read the chars `done` of a text `done ++ rest` -/
def CppAt (done rest : List Char) (c : CppLexer) : Prop :=
  c.err = 0 ∧ c.position = done.length ∧
    ((c.ch = none ∧ c.input = utf8 rest) ∨ (c.ch = some (nextCode rest) ∧ c.input = utf8 rest.tail))

theorem utf8_cons (x : Char) (w : List Char) : utf8 (x :: w) = String.utf8EncodeChar x ++ utf8 w := rfl

/-- reading the next char if necessary -/
theorem cpp_read {done rest : List Char} {c : CppLexer} (h : CppAt done rest c) :
    ∃ c1, CppAt done rest c1 ∧ c1.ch = some (nextCode rest) ∧ c1.startPos = c.startPos ∧ c1.endPos = c.endPos ∧
      cppRead c = (nextCode rest, c1) := by
  obtain ⟨h1, h2, h3 | h3⟩ := h
  · have hd : utf8Decode c.input = (nextCode rest, 0, utf8 rest.tail) := by
      rw [h3.2]
      cases rest with
      | nil => exact utf8Decode_nil
      | cons x r => exact decode_encode x (utf8 r)
    refine ⟨{ c with input := utf8 rest.tail, ch := some (nextCode rest), err := 0 }, ⟨rfl, h2, Or.inr ⟨rfl, rfl⟩⟩, rfl, rfl, rfl, ?_⟩
    unfold cppRead
    rw [h3.1]
    simp only [hd]
  · refine ⟨c, ⟨h1, h2, Or.inr h3⟩, h3.1, rfl, rfl, ?_⟩
    unfold cppRead
    rw [h3.1]

theorem cppLoop_sim {rules : List TokenRule} {t : LexerTables} (ht : TablesOk rules t) (rest : List Char) :
    ∀ q pos done c fuel, q < t.dfa.graph.nodes.length → CppAt done rest c → rest.length < fuel →
      ∃ m rest' res c', rest = m ++ rest' ∧ lexLoop t q pos rest = .ok (res, rest', pos + bytes m) ∧
        cppLoop t fuel q c = .ok (res.toCpp, c') ∧ CppAt (done ++ m) rest' c' ∧ c'.startPos = c.startPos ∧
        (∀ j, res = .token j → c'.endPos = (done ++ m).length) := by
  -- stopping at once
  have stop : ∀ q rest (sym : Nat) done c fuel, q < t.dfa.graph.nodes.length → sym < t.alphabet.ranges.length →
      CppAt done rest c → getAlphabetIndex t.alphabet (nextCode rest) = some sym →
      (sym = 0 ∨ ∀ q', (⟨q, q', sym⟩ : Edge Nat) ∉ t.dfa.graph.edges) →
      ∃ (res : LexResult) (c' : CppLexer), cppLoop t (fuel + 1) q c = .ok (res.toCpp, c') ∧ CppAt done rest c' ∧ c'.startPos = c.startPos ∧
        (∀ j, res = .token j → c'.endPos = done.length) ∧
        ((lexArms t.dfa).find? (LexArm.applies q sym) = some (.eof q) ∧ res = .eof ∨
         (∃ j, (lexArms t.dfa).find? (LexArm.applies q sym) = some (.accept q j) ∧ res = .token j) ∨
         (∃ r, (lexArms t.dfa).find? (LexArm.applies q sym) = some (.reject q) ∧ t.alphabet.ranges[sym]? = some r ∧ res = .unexpectedAlphabet r)) := by
    intro q rest sym done c fuel hq hsym hc hidx hno
    obtain ⟨node, hnode⟩ : ∃ node, t.dfa.graph.nodes[q]? = some node := ⟨_, List.getElem?_eq_getElem hq⟩
    obtain ⟨a1, a2, a3⟩ := arm_cases ht (sym := sym) hnode
    obtain ⟨b1, b2, b3⟩ := cpp_cases ht (sym := sym) hnode
    obtain ⟨c1, k1, k2, k3, k4, k5⟩ := cpp_read hc
    have hloop : ∀ tok se, cppStateSwitch t.dfa q sym = .ret tok se →
        cppLoop t (fuel + 1) q c = .ok (tok, if se then { c1 with endPos := c1.position } else c1) := by
      intro tok se hs
      unfold cppLoop
      rw [k5]
      simp only [k1.1, ne_eq, not_true_eq_false, if_false, hidx, hs]
    by_cases h0 : q = 0 ∧ sym = 0
    · exact ⟨.eof, c1, hloop _ _ (b1 h0.1 h0.2), k1, k3, by simp, Or.inl ⟨a1 h0.1 h0.2, rfl⟩⟩
    · have h1 := a3 h0 hno
      have h2 := b3 h0 hno
      cases node with
      | accepting j =>
        exact ⟨.token j, { c1 with endPos := c1.position }, hloop _ _ h2, k1, k3, fun _ _ => k1.2.1, Or.inr (Or.inl ⟨j, h1, rfl⟩)⟩
      | intermediate k =>
        exact ⟨.unexpectedAlphabet t.alphabet.ranges[sym], c1, hloop _ _ h2, k1, k3, by simp,
          Or.inr (Or.inr ⟨_, h1, List.getElem?_eq_getElem hsym, rfl⟩)⟩
  have h0lt : 0 < t.alphabet.ranges.length := by
    have := ht.good.classOf_lt nul
    omega
  induction rest with
  | nil =>
    intro q pos done c fuel hq hc hf
    obtain ⟨fuel, rfl⟩ : ∃ f, fuel = f + 1 := ⟨fuel - 1, by simp at hf; omega⟩
    obtain ⟨res, c', g1, g2, g3, g4, g5⟩ := stop q [] 0 done c fuel hq h0lt hc ht.index_zero (Or.inl rfl)
    refine ⟨[], [], res, c', rfl, ?_, g1, by simpa using g2, g3, by simpa using g4⟩
    unfold lexLoop
    rw [ht.index_zero]
    simp only
    rcases g5 with ⟨h2, rfl⟩ | ⟨j, h2, rfl⟩ | ⟨r, h2, h3, rfl⟩
    · rw [h2]; rfl
    · rw [h2]; rfl
    · rw [h2]; simp only [h3]; rfl
  | cons x rest ih =>
    intro q pos done c fuel hq hc hf
    obtain ⟨fuel, rfl⟩ : ∃ f, fuel = f + 1 := ⟨fuel - 1, by simp at hf; omega⟩
    have hidx : getAlphabetIndex t.alphabet (nextCode (x :: rest)) = some (classOf t.alphabet x) := ht.good.index x
    by_cases hadv : x ≠ nul ∧ ∃ q', (⟨q, q', classOf t.alphabet x⟩ : Edge Nat) ∈ t.dfa.graph.edges
    · obtain ⟨hx, q1, he⟩ := hadv
      obtain ⟨node, hnode⟩ : ∃ node, t.dfa.graph.nodes[q]? = some node := ⟨_, List.getElem?_eq_getElem hq⟩
      have a2 := (arm_cases ht (sym := classOf t.alphabet x) hnode).2.1 (fun h => hx (ht.classOf_zero.mp h)) q1 he
      have b2 := (cpp_cases ht (sym := classOf t.alphabet x) hnode).2.1 (fun h => hx (ht.classOf_zero.mp h)) q1 he
      obtain ⟨c1, k1, k2, k3, k4, k5⟩ := cpp_read hc
      have hc2 : CppAt (done ++ [x]) rest { c1 with ch := none, position := c1.position + 1 } := by
        refine ⟨k1.1, ?_, Or.inl ⟨rfl, ?_⟩⟩
        · show c1.position + 1 = _
          rw [k1.2.1]; simp
        · rcases k1.2.2 with h | h
          · rw [k2] at h; cases h.1
          · exact h.2
      obtain ⟨m, rest', res, c', i1, i2, i3, i4, i5, i6⟩ := ih q1 (pos + x.utf8Size) (done ++ [x]) _ fuel (ht.wf _ he).2 hc2 (by simp at hf; omega)
      refine ⟨x :: m, rest', res, c', by rw [i1]; rfl, ?_, ?_, by simpa using i4, i5.trans k3, by simpa using i6⟩
      · unfold lexLoop
        rw [ht.good.index]
        simp only [a2]
        rw [i2]
        simp [bytes, Nat.add_assoc]
      · unfold cppLoop
        rw [k5]
        simp only [k1.1, ne_eq, not_true_eq_false, if_false, hidx, b2]
        rw [k1.1] at i3
        exact i3
    · have hno : classOf t.alphabet x = 0 ∨ ∀ q', (⟨q, q', classOf t.alphabet x⟩ : Edge Nat) ∉ t.dfa.graph.edges := by
        by_cases hx : x = nul
        · exact Or.inl (ht.classOf_zero.mpr hx)
        · exact Or.inr (fun q' he => hadv ⟨hx, q', he⟩)
      obtain ⟨res, c', g1, g2, g3, g4, g5⟩ := stop q (x :: rest) _ done c fuel hq (ht.good.classOf_lt x) hc hidx hno
      refine ⟨[], x :: rest, res, c', rfl, ?_, g1, by simpa using g2, g3, by simpa using g4⟩
      unfold lexLoop
      rw [ht.good.index]
      simp only
      rcases g5 with ⟨h2, rfl⟩ | ⟨j, h2, rfl⟩ | ⟨r, h2, h3, rfl⟩
      · rw [h2]; rfl
      · rw [h2]; rfl
      · rw [h2]; simp only [h3]; rfl

/-- one call of both lexers -/
theorem next_sim {rules : List TokenRule} {t : LexerTables} (ht : TablesOk rules t) {l : Lexer} {c : CppLexer} {done : List Char} {fuel : Nat}
    (hc : CppAt done l.rest c) (hp : l.position = bytes done) (hf : l.rest.length < fuel) :
    ∃ m res l' c', l.rest = m ++ l'.rest ∧ l.next t = .ok (res, l') ∧ c.next t fuel = .ok (res.toCpp, c') ∧
      CppAt (done ++ m) l'.rest c' ∧ l'.position = bytes (done ++ m) ∧ l'.start = bytes done ∧
      c'.startPos = done.length ∧ (∀ j, res = .token j → c'.endPos = (done ++ m).length) := by
  have hc' : CppAt done l.rest { c with startPos := c.position } := hc
  obtain ⟨m, rest', res, c', h1, h2, h3, h4, h5, h6⟩ := cppLoop_sim ht l.rest 0 l.position done _ fuel ht.pos hc' hf
  refine ⟨m, res, { l with rest := rest', start := l.position, position := l.position + bytes m }, c', h1, ?_, h3, h4, ?_, hp, ?_, h6⟩
  · unfold Lexer.next
    rw [h2]
    rfl
  · show l.position + bytes m = _
    rw [hp, bytes_append]
  · rw [h5]; exact hc.2.1

end Verif
