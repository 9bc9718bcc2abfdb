import Verif.Proofs.LexRun
import Verif.Proofs.Weights
import Verif.Props.Nfa

/-! # Properties C07, C08: precedence -/

set_option autoImplicit false

namespace Verif

/-- **C07**, for any subset automaton whose accepting states list distinct rules with known precedences:
`apply_precedence_to_dfa` either keeps all states and transitions and replaces each accept list by its rule of strictly highest
precedence, or reports a tie at one of the accepting states. -/
theorem C07_resolution (rules : List TokenRule) (d : Dfa (List Nat) Nat)
    (hwf : ∀ e ∈ d.graph.edges, e.src < d.graph.nodes.length ∧ e.dst < d.graph.nodes.length)
    (hacc : ∀ js, .accepting js ∈ d.graph.nodes → js ≠ [] ∧ js.Nodup ∧ ∀ j ∈ js, ∃ p, HasPrec rules j p) :
    (∃ d', applyPrecedenceToDfa rules d = .ok (.ok d') ∧
      d'.graph.nodes.length = d.graph.nodes.length ∧
      (∀ e, e ∈ d'.graph.edges ↔ e ∈ d.graph.edges) ∧
      (∀ (q : Nat) (js : List Nat), d.graph.nodes[q]? = some (.accepting js) → ∃ j, d'.graph.nodes[q]? = some (.accepting j) ∧ IsBest rules js j) ∧
      (∀ (q k : Nat), d.graph.nodes[q]? = some (.intermediate k) → ∃ k', d'.graph.nodes[q]? = some (.intermediate k'))) ∨
    (∃ e, applyPrecedenceToDfa rules d = .ok (.error e) ∧ ∃ js, .accepting js ∈ d.graph.nodes ∧ IsTie rules js e) := by
  rcases applyPrecedence_spec (rules := rules) hwf (fun st hst js hjs => hacc js (hjs ▸ hst)) with ⟨d', g1, g2, g3⟩ | h
  · left
    refine ⟨d', g1, g2.length_eq.symm, fun e => by rw [g3, mem_flat_edges hwf], ?_, ?_⟩
    · intro q js hq
      obtain ⟨y, h1, h2⟩ := forall2_get g2 hq
      cases y with
      | accepting j => exact ⟨j, h1, h2⟩
      | intermediate k => simp [LabelRel] at h2
    · intro q k hq
      obtain ⟨y, h1, h2⟩ := forall2_get g2 hq
      cases y with
      | accepting j => simp [LabelRel] at h2
      | intermediate k => exact ⟨k, h1⟩
  · exact Or.inr h

/-- **C07**: under the same conditions it succeeds iff every accept list has a rule of strictly highest precedence. -/
theorem C07_ok_iff (rules : List TokenRule) (d : Dfa (List Nat) Nat)
    (hwf : ∀ e ∈ d.graph.edges, e.src < d.graph.nodes.length ∧ e.dst < d.graph.nodes.length)
    (hacc : ∀ js, .accepting js ∈ d.graph.nodes → js ≠ [] ∧ js.Nodup ∧ ∀ j ∈ js, ∃ p, HasPrec rules j p) :
    (∃ d', applyPrecedenceToDfa rules d = .ok (.ok d')) ↔ ∀ js, .accepting js ∈ d.graph.nodes → ∃ j, IsBest rules js j := by
  rcases C07_resolution rules d hwf hacc with ⟨d', g1, _, _, g4, _⟩ | ⟨e, g1, js, g2, g3⟩
  · constructor
    · intro _ js hjs
      obtain ⟨q, hq⟩ := List.getElem?_of_mem hjs
      obtain ⟨j, _, hj⟩ := g4 q js hq
      exact ⟨j, hj⟩
    · intro _; exact ⟨d', g1⟩
  · constructor
    · rintro ⟨d', h⟩; rw [g1] at h; cases h
    · intro h; exact absurd (h js g2) g3.not_best

/-- **C07** for the whole pipeline: if every rule's pattern is accepted by the NFA construction and has a precedence, generation
terminates with tables or with a precedence error. -/
theorem C07_pipeline_terminates (rules : List TokenRule) (ht : ¬ ∃ r ∈ rules, r.HasTightCount) (hprec : ∀ r ∈ rules, ∃ p, r.prec = some p) :
    ∃ fuel0, ∀ fuel, fuel0 ≤ fuel → (∃ t, generateLexer fuel rules = .ok (.ok t)) ∨ (∃ e, generateLexer fuel rules = .ok (.error e)) := by
  obtain ⟨f0, h⟩ := generateLexer_total ht hprec
  refine ⟨f0, fun fuel hf => ?_⟩
  obtain ⟨x, hx⟩ := h fuel hf
  cases x with
  | ok t => exact Or.inl ⟨t, hx⟩
  | error e => exact Or.inr ⟨e, hx⟩

/-- **C07** for the whole pipeline: when tables are generated, every text that some rule matches has a rule of strictly
highest precedence among those that match it. -/
theorem C07_pipeline_ok {fuel : Nat} {rules : List TokenRule} {t : LexerTables} (h : generateLexer fuel rules = .ok (.ok t))
    (hne : ∀ r ∈ rules, r.NoEmptySeq) {w : List Char} (hw : SomeMatch rules w) : ∃ j, BestMatch rules w j := by
  have ht := generateLexer_ok h
  obtain ⟨r, hr, hm⟩ := hw
  have hlive : r.Live (w ++ []) := by rw [TokenRule.live_eq (hne r hr), List.append_nil]; exact hm
  obtain ⟨q, hq⟩ := ht.run hr hlive
  have hqn : q < t.dfa.graph.nodes.length := by
    cases w with
    | nil => cases hq; exact ht.pos
    | cons c w =>
      have : ∀ {x y : Nat} {ws : List Nat}, t.dfa.Path x ws y → x < t.dfa.graph.nodes.length → y < t.dfa.graph.nodes.length := by
        intro x y ws hp
        induction hp with
        | refl => exact id
        | step he _ ih => exact fun _ => ih (ht.wf _ he).2
      exact this hq ht.pos
  obtain ⟨node, hnode⟩ : ∃ node, t.dfa.graph.nodes[q]? = some node := ⟨_, List.getElem?_eq_getElem hqn⟩
  cases node with
  | accepting j =>
    obtain ⟨r', p, h1, h2, h3, h4⟩ := ht.accepting hq hnode
    refine ⟨j, r', p, h1, h2, h3, ?_⟩
    intro j' r'' hj' hm' hne'
    exact h4 j' r'' hj' (by rw [TokenRule.live_eq (hne r'' (List.mem_of_getElem? hj'))]; exact hm') hne'
  | intermediate k =>
    exact absurd (by rw [List.append_nil] at hlive; exact hlive) (ht.inter hq hnode r hr)

/-- **C07** for the whole pipeline: a precedence error names, for some text, exactly the rules of highest precedence among those
that match it, and there are at least two of them. (Condition: every alphabet range contains a char, i.e. U+D7FF and U+E000 are
not both written in patterns.) -/
theorem C07_pipeline_error {fuel : Nat} {rules : List TokenRule} {e : PrecedenceError} (h : generateLexer fuel rules = .ok (.error e))
    (hne : ∀ r ∈ rules, r.NoEmptySeq) (hprec : ∀ r ∈ rules, ∃ p, r.prec = some p)
    (hfull : ∀ lo hi, (lo, hi) ∈ (generateAlphabet rules).ranges → ∃ c : Char, lo ≤ c.toNat ∧ c.toNat ≤ hi) :
    ∃ w, (∀ j, j ∈ e.rules ↔ ∃ r, rules[j]? = some r ∧ r.Matches w ∧ r.prec = some e.precedence) ∧
      (∀ r ∈ rules, r.Matches w → ∃ p, r.prec = some p ∧ p ≤ e.precedence) ∧
      e.rules.Nodup ∧ 2 ≤ e.rules.length := by
  obtain ⟨nfa, js, ws, h1, h2, ⟨x, hx⟩, h4⟩ := generateLexer_error h hprec
  have hg := generateAlphabet_good rules
  have hc : ∀ i < (generateAlphabet rules).ranges.length, ∃ c : Char, classOf (generateAlphabet rules) c = i := by
    intro i hi
    obtain ⟨c, hc1, hc2⟩ := hfull _ _ (List.getElem_mem hi)
    refine ⟨c, ((inRange_iff hg c i).mp ⟨_, _, List.getElem?_eq_getElem hi, hc1, hc2⟩).symm⟩
  obtain ⟨w, rfl⟩ := path_decode hg hc (generateNfa_weights h1) hx
  obtain ⟨_, _, _, _, n5, n6, _⟩ := generateNfa_ok h1
  have hjs : ∀ j r, rules[j]? = some r → (j ∈ js ↔ r.Matches w) := by
    intro j r hr
    rw [h4]
    constructor
    · rintro ⟨x, hx1, hx2⟩
      obtain ⟨r', hr', hm⟩ := n5 x j w hx1 hx2
      rw [hr] at hr'; cases hr'
      exact hm
    · intro hm
      obtain ⟨q, hq1, hq2⟩ := n6 j r hr
      exact ⟨q, hq1, hq2 w (by rw [TokenRule.live_eq (hne r (List.mem_of_getElem? hr))]; exact hm)⟩
  obtain ⟨t1, t2, t3, t4⟩ := h2
  refine ⟨w, ?_, ?_, t3, t4⟩
  · intro j
    rw [t1]
    constructor
    · rintro ⟨hj, r, hr, hp⟩; exact ⟨r, hr, (hjs j r hr).mp hj, hp⟩
    · rintro ⟨r, hr, hm, hp⟩; exact ⟨(hjs j r hr).mpr hm, r, hr, hp⟩
  · intro r hr hm
    obtain ⟨j, hj⟩ := List.getElem?_of_mem hr
    obtain ⟨p, ⟨r', hr', hp⟩, hle⟩ := t2 j ((hjs j r hj).mpr hm)
    rw [hj] at hr'; cases hr'
    exact ⟨p, hp, hle⟩

theorem lang_pow_length {L : Lang} {k : Nat} (h : ∀ w, L w → k ≤ w.length) {n : Nat} {w : List Char} (hw : Lang.pow L n w) : n * k ≤ w.length := by
  induction n generalizing w with
  | zero => simp
  | succ n ih =>
    obtain ⟨u, v, rfl, hu, hv⟩ := hw
    have h1 := h u hu
    have h2 := ih hv
    rw [List.length_append, Nat.succ_mul]
    omega

theorem minOpt_le {l : List Nat} {k x : Nat} (h : minOpt l = some k) (hx : x ∈ l) : k ≤ x := by
  induction l generalizing k with
  | nil => cases hx
  | cons a l ih =>
    cases l with
    | nil =>
      simp only [minOpt] at h
      cases h
      simp at hx
      omega
    | cons b l =>
      simp only [minOpt] at h
      cases hm : minOpt (b :: l) with
      | none => rw [hm] at h; cases h
      | some m =>
        rw [hm] at h
        simp only [Option.map_some, Option.some.injEq] at h
        rcases List.mem_cons.mp hx with rfl | hx
        · split at h <;> omega
        · have := ih hm hx
          split at h <;> omega

mutual
/-- **C08**: a pattern's default precedence is at most the length of any text it matches. -/
theorem C08_precedence_le_length : (p : Pattern) → ∀ {k : Nat} {w : List Char}, p.precedence = some k → p.Matches w → k ≤ w.length
  | .sequence ps, k, w, hk, hm => by
    simp only [Pattern.precedence, Option.map_eq_some_iff] at hk
    obtain ⟨ks, h1, rfl⟩ := hk
    simp only [Pattern.Matches] at hm
    exact (precedences_le_length ps h1).1 hm
  | .alternative ps, k, w, hk, hm => by
    simp only [Pattern.precedence, Option.bind_eq_some_iff] at hk
    obtain ⟨ks, h1, h2⟩ := hk
    simp only [Pattern.Matches] at hm
    obtain ⟨x, hx, hle⟩ := (precedences_le_length ps h1).2 hm
    exact Nat.le_trans (minOpt_le h2 hx) hle
  | .repetition min max p, k, w, hk, hm => by
    simp only [Pattern.precedence, Option.map_eq_some_iff] at hk
    obtain ⟨k', h1, rfl⟩ := hk
    simp only [Pattern.Matches] at hm
    obtain ⟨n, hn, _, hp⟩ := hm
    have := lang_pow_length (fun w hw => C08_precedence_le_length p h1 hw) hp
    exact Nat.le_trans (Nat.mul_le_mul_right _ hn) this
  | .charSet xs neg, k, w, hk, hm => by
    simp only [Pattern.precedence, Option.some.injEq] at hk
    subst hk
    cases neg <;> (simp only [Pattern.Matches] at hm; obtain ⟨c, rfl, _⟩ := hm; simp)
  | .char x, k, w, hk, hm => by
    simp only [Pattern.precedence, Option.some.injEq] at hk
    subst hk
    simp only [Pattern.Matches] at hm
    obtain ⟨c, rfl, _⟩ := hm
    simp
theorem precedences_le_length : (ps : List Pattern) → ∀ {ks : List Nat}, Pattern.precedences ps = some ks →
    (∀ {w}, Pattern.SeqMatches ps w → ks.sum ≤ w.length) ∧ (∀ {w}, Pattern.AltMatches ps w → ∃ x ∈ ks, x ≤ w.length)
  | [], ks, h => by
    simp only [Pattern.precedences, Option.some.injEq] at h
    subst h
    simp [Pattern.SeqMatches, Pattern.AltMatches]
  | p :: ps, ks, h => by
    unfold Pattern.precedences at h
    split at h
    · rename_i a as h1 h2
      cases h
      obtain ⟨i1, i2⟩ := precedences_le_length ps h2
      constructor
      · intro w hw
        simp only [Pattern.SeqMatches] at hw
        obtain ⟨u, v, rfl, hu, hv⟩ := hw
        have := C08_precedence_le_length p h1 hu
        have := i1 hv
        simp; omega
      · intro w hw
        simp only [Pattern.AltMatches] at hw
        rcases hw with hw | hw
        · exact ⟨a, by simp, C08_precedence_le_length p h1 hw⟩
        · obtain ⟨x, hx, hle⟩ := i2 hw
          exact ⟨x, List.mem_cons_of_mem _ hx, hle⟩
    · cases h
end

/-- **C08**: without explicit precedences a literal token beats every regex token that matches the same non-empty text. -/
theorem C08_literal_beats_regex {n1 n2 : String} {cs : List Char} {p : Pattern} {w : List Char} {k1 k2 : Nat}
    (h1 : TokenRule.prec ⟨n1, none, .literal cs⟩ = some k1) (h2 : TokenRule.prec ⟨n2, none, .pattern p⟩ = some k2)
    (m1 : TokenRule.Matches ⟨n1, none, .literal cs⟩ w) (m2 : TokenRule.Matches ⟨n2, none, .pattern p⟩ w) (hw : w ≠ []) : k2 < k1 := by
  have e1 : w = cs := m1
  have e2 : cs.length * 2 = k1 := Option.some.inj h1
  have := C08_precedence_le_length p h2 m2
  have hpos : 0 < w.length := List.length_pos_of_ne_nil hw
  rw [e1] at this hpos
  omega

/-- **C08**: two literal tokens that match the same text have the same characters. -/
theorem C08_literals_distinct {n1 n2 : String} {p1 p2 : Option Nat} {cs1 cs2 w : List Char}
    (m1 : TokenRule.Matches ⟨n1, p1, .literal cs1⟩ w) (m2 : TokenRule.Matches ⟨n2, p2, .literal cs2⟩ w) : cs1 = cs2 :=
  (show w = cs1 from m1).symm.trans m2

/-- **C08**: distinct non-empty literals plus at most one regex rule per text, without explicit precedences, never give a
precedence error. -/
theorem C08_no_precedence_error {fuel : Nat} {rules : List TokenRule} {e : PrecedenceError}
    (hdef : ∀ r ∈ rules, r.precedence = none) (hne : ∀ r ∈ rules, r.NoEmptySeq) (hprec : ∀ r ∈ rules, ∃ p, r.prec = some p)
    (hfull : ∀ lo hi, (lo, hi) ∈ (generateAlphabet rules).ranges → ∃ c : Char, lo ≤ c.toNat ∧ c.toNat ≤ hi)
    (hlit : ∀ (i j : Nat) (r s : TokenRule) (cs : List Char), rules[i]? = some r → rules[j]? = some s → r.pattern = .literal cs → s.pattern = .literal cs → i = j)
    (hreg : ∀ (i j : Nat) (r s : TokenRule) (p q : Pattern) (w : List Char), rules[i]? = some r → rules[j]? = some s →
      r.pattern = .pattern p → s.pattern = .pattern q → p.Matches w → q.Matches w → i = j) :
    generateLexer fuel rules ≠ .ok (.error e) := by
  intro h
  obtain ⟨w, t1, t2, t3, t4⟩ := C07_pipeline_error h hne hprec hfull
  match hr : e.rules, t4, t3 with
  | a :: b :: l, _, t3 =>
    obtain ⟨ra, ha1, ha2, ha3⟩ := (t1 a).mp (by rw [hr]; simp)
    obtain ⟨rb, hb1, hb2, hb3⟩ := (t1 b).mp (by rw [hr]; simp)
    have hab : a ≠ b := by rintro rfl; simp at t3
    have da := hdef ra (List.mem_of_getElem? ha1)
    have db := hdef rb (List.mem_of_getElem? hb1)
    have na := hne ra (List.mem_of_getElem? ha1)
    have nb := hne rb (List.mem_of_getElem? hb1)
    obtain ⟨nma, pra, pata⟩ := ra
    obtain ⟨nmb, prb, patb⟩ := rb
    simp only at da db
    subst da
    subst db
    cases pata with
    | literal ca =>
      cases patb with
      | literal cb =>
        have := C08_literals_distinct ha2 hb2
        subst this
        exact hab (hlit a b _ _ ca ha1 hb1 rfl rfl)
      | pattern pb =>
        have hw : w ≠ [] := by rw [show w = ca from ha2]; exact na
        have := C08_literal_beats_regex ha3 hb3 ha2 hb2 hw
        omega
    | pattern pa =>
      cases patb with
      | literal cb =>
        have hw : w ≠ [] := by rw [show w = cb from hb2]; exact nb
        have := C08_literal_beats_regex hb3 ha3 hb2 ha2 hw
        omega
      | pattern pb => exact hab (hreg a b _ _ pa pb w ha1 hb1 rfl rfl ha2 hb2)

/-- a literal and a regex that both match `if`: the example rules satisfy the conditions of the pipeline theorems -/
example : (¬ ∃ r ∈ exampleRules, r.HasTightCount) ∧ (∀ r ∈ exampleRules, ∃ p, r.prec = some p) ∧ (∀ r ∈ exampleRules, r.NoEmptySeq) ∧
    (∀ r ∈ exampleRules, r.Matches ['i', 'f']) := by
  refine ⟨by simp [exampleRules, TokenRule.HasTightCount, Pattern.HasTightCount], ?_, by simp [exampleRules, TokenRule.NoEmptySeq, Pattern.NoEmptySeq], ?_⟩
  · intro r hr
    simp only [exampleRules, List.mem_cons, List.not_mem_nil, or_false] at hr
    rcases hr with rfl | rfl
    · exact ⟨4, rfl⟩
    · exact ⟨1, rfl⟩
  · intro r hr
    simp only [exampleRules, List.mem_cons, List.not_mem_nil, or_false] at hr
    rcases hr with rfl | rfl
    · rfl
    · simp only [TokenRule.Matches, Pattern.Matches]
      refine ⟨2, by omega, by simp, ['i'], ['f'], rfl, ⟨'i', rfl, _, List.mem_cons_self .., ?_⟩, ['f'], [], rfl, ⟨'f', rfl, _, List.mem_cons_self .., ?_⟩, rfl⟩
      · exact ⟨by decide, by decide⟩
      · exact ⟨by decide, by decide⟩

/-- and a set with a tie: two regexes for the same letter -/
def tieRules : List TokenRule := [⟨"A", none, .pattern (.char (.single 'x'))⟩, ⟨"B", none, .pattern (.char (.single 'x'))⟩]

example : generateLexer 20 tieRules = .ok (.error ⟨[0, 1], 1⟩) := by decide +kernel

/-- tables of a successful generation -/
def Res.tables (r : Res (Except PrecedenceError LexerTables)) : Option LexerTables :=
  match r with
  | .ok (.ok t) => some t
  | _ => none

theorem Res.of_tables {r : Res (Except PrecedenceError LexerTables)} (h : r.tables.isSome = true) : ∃ t, r = .ok (.ok t) := by
  match r, h with
  | .ok (.ok t), _ => exact ⟨t, rfl⟩

example : ∃ t, generateLexer 20 exampleRules = .ok (.ok t) := Res.of_tables (by decide +kernel)

end Verif
