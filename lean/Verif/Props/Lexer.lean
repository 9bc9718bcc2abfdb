import Verif.Proofs.LexHist
import Verif.Props.Precedence

/-! # Properties C09-C13: the generated (Rust) lexer

`LexRun t (Lexer.new src) hs l`: starting on the input `src`, the calls of `next` recorded in `hs` lead to the lexer state `l`. -/

set_option autoImplicit false

namespace Verif

/-! ## helpers -/

theorem stop_token {t : LexerTables} {q : Nat} {rest : List Char} {j : Nat} (h : StopResult t q rest (.token j)) :
    t.dfa.graph.nodes[q]? = some (.accepting j) := by
  unfold StopResult at h
  split at h
  · cases h
  · split at h
    · rename_i heq; cases h; exact heq
    · obtain ⟨r, h, _⟩ := h; cases h
    · cases h

theorem stop_eof {t : LexerTables} {q : Nat} {rest : List Char} (h : StopResult t q rest .eof) : q = 0 ∧ AtEnd rest := by
  unfold StopResult at h
  split at h
  · assumption
  · split at h
    · cases h
    · obtain ⟨r, h, _⟩ := h; cases h
    · cases h

theorem stop_unexpected {t : LexerTables} {q : Nat} {rest : List Char} {r : Nat × Nat} (h : StopResult t q rest (.unexpectedAlphabet r)) :
    (∃ k, t.dfa.graph.nodes[q]? = some (.intermediate k)) ∧ r.1 ≤ nextCode rest ∧ nextCode rest ≤ r.2 ∧ ¬ (q = 0 ∧ AtEnd rest) := by
  unfold StopResult at h
  split at h
  · cases h
  · rename_i hn
    split at h
    · cases h
    · rename_i k heq; obtain ⟨r, h, hr⟩ := h; cases h; exact ⟨⟨k, heq⟩, hr.1, hr.2, hn⟩
    · cases h

theorem stop_not_invalid {t : LexerTables} {q : Nat} {rest : List Char} {c : Nat} : ¬ StopResult t q rest (.invalidChar c) := by
  intro h
  unfold StopResult at h
  split at h
  · cases h
  · split at h
    · cases h
    · obtain ⟨r, h, _⟩ := h; cases h
    · cases h

theorem atEnd_no_prefix {rest m rest' : List Char} (h : AtEnd rest) (he : rest = m ++ rest') (hn : nul ∉ m) : m = [] := by
  cases m with
  | nil => rfl
  | cons c m =>
    rcases h with h | ⟨r, h⟩
    · rw [he] at h; cases h
    · rw [he] at h
      simp only [List.cons_append, List.cons.injEq] at h
      obtain ⟨rfl, _⟩ := h
      simp at hn

/-- longest prefix facts shared by C09 and C10 -/
theorem next_longest {rules : List TokenRule} {t : LexerTables} (ht : TablesOk rules t) (hne : ∀ r ∈ rules, r.NoEmptySeq)
    {m rest' : List Char} {q : Nat} (hp : t.dfa.Path 0 (m.map (classOf t.alphabet)) q) (hs : Stuck t q rest')
    {m' rest'' : List Char} (he : m ++ rest' = m' ++ rest'') (hn : nul ∉ m') (hv : Viable rules m') : m'.length ≤ m.length := by
  rcases Nat.lt_or_ge m.length m'.length with hlt | hge
  · obtain ⟨u, r, hr, hm⟩ := hv
    exact absurd (ht.run hr (by rw [TokenRule.live_eq (hne r hr)]; exact hm)) (stuck_longest ht hp hs he hlt hn)
  · exact hge

theorem SomeMatch.viable {rules : List TokenRule} {w : List Char} (h : SomeMatch rules w) : Viable rules w :=
  ⟨[], by rw [List.append_nil]; exact h⟩

/-! ## C09 -/

/-- **C09**: when `next` returns the token of rule `j`, the slice is a prefix of the unread input, `j` is the rule of strictly
highest precedence among the rules that match the slice, and no longer (NUL-free) prefix of the unread input is matched
by any rule. Rules with empty sub-sequences such as `a()` are excluded (see C03). -/
theorem C09_token_right_and_longest {fuel : Nat} {rules : List TokenRule} {t : LexerTables} (h : generateLexer fuel rules = .ok (.ok t))
    (hne : ∀ r ∈ rules, r.NoEmptySeq)
    {src : List Char} {l l' : Lexer} {hs : List (LexResult × Lexer)} (hl : LexRun t (Lexer.new src) hs l)
    {j : Nat} (hn : l.next t = .ok (.token j, l')) :
    ∃ m, l.rest = m ++ l'.rest ∧ l'.slice = .ok m ∧ BestMatch rules m j ∧
      ∀ m' rest', l.rest = m' ++ rest' → nul ∉ m' → SomeMatch rules m' → m'.length ≤ m.length := by
  have ht := generateLexer_ok h
  obtain ⟨m, rest', q, res, l2, g1, g2, g3, g4, g5, g6, g7, g8, g9, g10, g11, g12⟩ := next_slice ht (hl.inv ht (inv_new src))
  rw [hn] at g7
  cases g7
  subst g8
  refine ⟨m, g1, g11, ?_, ?_⟩
  · obtain ⟨r, p, a1, a2, a3, a4⟩ := ht.accepting g3 (stop_token g6)
    refine ⟨r, p, a1, a2, a3, ?_⟩
    intro j' r' hj' hm hne'
    exact a4 j' r' hj' (by rw [TokenRule.live_eq (hne r' (List.mem_of_getElem? hj'))]; exact hm) hne'
  · intro m' rest' he hn' hm
    exact next_longest ht hne g3 g5 (by rw [← g1, he]) hn' hm.viable

/-! ## C10 -/

/-- **C10**: `next` never panics and never returns the `InvalidChar` error. -/
theorem C10_next_total {fuel : Nat} {rules : List TokenRule} {t : LexerTables} (h : generateLexer fuel rules = .ok (.ok t)) (l : Lexer) :
    ∃ res l', l.next t = .ok (res, l') ∧ ∀ c, res ≠ .invalidChar c := by
  obtain ⟨m, rest', q, res, g1, g2, g3, g4, g5, g6, g7⟩ := next_spec (generateLexer_ok h) l
  refine ⟨res, _, g7, ?_⟩
  rintro c rfl
  exact stop_not_invalid g6

/-- **C10**: unless at the end of input, `next` reports an error exactly when the longest prefix of the unread input that can still be
extended to a match (or is empty) is itself matched by no rule. Rules must have no empty sub-sequences and no sub-pattern that
matches nothing at all. -/
theorem C10_error_iff {fuel : Nat} {rules : List TokenRule} {t : LexerTables} (h : generateLexer fuel rules = .ok (.ok t))
    (hne : ∀ r ∈ rules, r.NoEmptySeq ∧ r.Useful) (l : Lexer) (hend : ¬ AtEnd l.rest) :
    (∃ r l', l.next t = .ok (.unexpectedAlphabet r, l')) ↔
    ∃ p rest', l.rest = p ++ rest' ∧ nul ∉ p ∧ (p = [] ∨ Viable rules p) ∧
      (∀ p' rest'', l.rest = p' ++ rest'' → nul ∉ p' → Viable rules p' → p'.length ≤ p.length) ∧ ¬ SomeMatch rules p := by
  have ht := generateLexer_ok h
  obtain ⟨m, rest', q, res, g1, g2, g3, g4, g5, g6, g7⟩ := next_spec ht l
  have hmax : ∀ p' rest'', l.rest = p' ++ rest'' → nul ∉ p' → Viable rules p' → p'.length ≤ m.length := fun p' rest'' he hn hv =>
    next_longest ht (fun r hr => (hne r hr).1) g3 g5 (by rw [← g1, he]) hn hv
  constructor
  · rintro ⟨r, l', hn⟩
    rw [g7] at hn
    cases hn
    refine ⟨m, rest', g1, g2, ht.co hne g3, hmax, ?_⟩
    obtain ⟨⟨k, hk⟩, _⟩ := stop_unexpected g6
    rintro ⟨r, hr, hm⟩
    exact ht.inter g3 hk r hr (by rw [TokenRule.live_eq (hne r hr).1]; exact hm)
  · rintro ⟨p, rest'', h1, h2, h3, h4, h5⟩
    -- both are longest
    have hlen : p.length = m.length := by
      apply Nat.le_antisymm
      · rcases h3 with rfl | h3
        · simp
        · exact hmax _ _ h1 h2 h3
      · rcases ht.co hne g3 with rfl | hv
        · simp
        · exact h4 _ _ g1 g2 hv
    have hpm : p = m := by
      have := h1.symm.trans g1
      exact (List.append_inj this hlen).1
    subst hpm
    cases res with
    | token j =>
      obtain ⟨r, _, a1, a2, _⟩ := ht.accepting g3 (stop_token g6)
      exact absurd ⟨r, List.mem_of_getElem? a1, a2⟩ h5
    | eof =>
      obtain ⟨rfl, he⟩ := stop_eof g6
      have := ht.once g3
      simp only [List.map_eq_nil_iff] at this
      subst this
      simp only [List.nil_append] at g1
      rw [g1] at hend
      exact absurd he hend
    | invalidChar c => exact absurd g6 stop_not_invalid
    | unexpectedAlphabet r => exact ⟨r, _, g7⟩

/-- **C10**: the range in the error contains the first unread char (or NUL at the end of input). -/
theorem C10_error_range {fuel : Nat} {rules : List TokenRule} {t : LexerTables} (h : generateLexer fuel rules = .ok (.ok t))
    {l l' : Lexer} {r : Nat × Nat} (hn : l.next t = .ok (.unexpectedAlphabet r, l')) :
    r.1 ≤ nextCode l'.rest ∧ nextCode l'.rest ≤ r.2 := by
  obtain ⟨m, rest', q, res, g1, g2, g3, g4, g5, g6, g7⟩ := next_spec (generateLexer_ok h) l
  rw [g7] at hn
  cases hn
  obtain ⟨_, h1, h2, _⟩ := stop_unexpected g6
  exact ⟨h1, h2⟩

/-- **C10**: if every viable extension of a match is a match, `next` never errors as long as some prefix of the unread input
is matched. -/
theorem C10_no_error {fuel : Nat} {rules : List TokenRule} {t : LexerTables} (h : generateLexer fuel rules = .ok (.ok t))
    (hne : ∀ r ∈ rules, r.NoEmptySeq ∧ r.Useful)
    (hext : ∀ w u, SomeMatch rules w → Viable rules (w ++ u) → SomeMatch rules (w ++ u))
    (l : Lexer) (hend : ¬ AtEnd l.rest) {w rest' : List Char} (hw : l.rest = w ++ rest') (hnul : nul ∉ w) (hm : SomeMatch rules w) :
    ∃ j l', l.next t = .ok (.token j, l') := by
  obtain ⟨res, l', hn, hinv⟩ := C10_next_total h l
  have ht := generateLexer_ok h
  obtain ⟨m, rest'', q, res', g1, g2, g3, g4, g5, g6, g7⟩ := next_spec ht l
  have hlen := next_longest ht (fun r hr => (hne r hr).1) g3 g5 (by rw [← g1, hw]) hnul hm.viable
  obtain ⟨u, rfl⟩ : ∃ u, m = w ++ u := by
    have := hw.symm.trans g1
    rcases List.append_eq_append_iff.mp this with ⟨a, h1, _⟩ | ⟨a, h1, h2⟩
    · exact ⟨a, h1⟩
    · have : a = [] := by
        rw [h1, List.length_append] at hlen
        exact List.length_eq_zero_iff.mp (by omega)
      subst this
      exact ⟨[], by simpa using h1.symm⟩
  have hmm : SomeMatch rules (w ++ u) := by
    rcases ht.co hne g3 with he | hv
    · have : w = [] := (List.append_eq_nil_iff.mp he).1
      have hu : u = [] := (List.append_eq_nil_iff.mp he).2
      subst hu
      rw [List.append_nil]; exact hm
    · exact hext w u hm hv
  cases res' with
  | token j => exact ⟨j, _, g7⟩
  | eof =>
    obtain ⟨rfl, he⟩ := stop_eof g6
    have := ht.once g3
    simp only [List.map_eq_nil_iff] at this
    rw [this, List.nil_append] at g1
    rw [g1] at hend
    exact absurd he hend
  | invalidChar c => exact absurd g6 stop_not_invalid
  | unexpectedAlphabet r =>
    obtain ⟨⟨k, hk⟩, _⟩ := stop_unexpected g6
    obtain ⟨r, hr, hm⟩ := hmm
    exact absurd (by rw [TokenRule.live_eq (hne r hr).1]; exact hm) (ht.inter g3 hk r hr)

/-- two literals, one a prefix of the other -/
def abcRules : List TokenRule := [⟨"A", none, .literal ['a']⟩, ⟨"ABC", none, .literal ['a', 'b', 'c']⟩]

/-- **C10**: the lexer does not backtrack: `A = "a"` and `ABC = "abc"` on the input `abd` — the prefix `a` is a token, but `next` errors. -/
theorem C10_no_backtracking : SomeMatch abcRules ['a'] ∧
    ∃ t l', generateLexer 20 abcRules = .ok (.ok t) ∧ (Lexer.new ['a', 'b', 'd']).next t = .ok (.unexpectedAlphabet (100, 1114110), l') := by
  refine ⟨⟨_, List.mem_cons_self .., rfl⟩, ?_⟩
  obtain ⟨t, ht⟩ := Res.of_tables (r := generateLexer 20 abcRules) (by decide +kernel)
  obtain ⟨res, l', hn, _⟩ := C10_next_total ht (Lexer.new ['a', 'b', 'd'])
  have e1 : (generateLexer 20 abcRules).tables = some t := by rw [ht]; rfl
  have e2 : ((generateLexer 20 abcRules).tables.map (fun t => (((Lexer.new ['a', 'b', 'd']).next t).toOption.map (·.1)))) =
      some (some (.unexpectedAlphabet (100, 1114110))) := by decide +kernel
  rw [e1, Option.map_some, hn] at e2
  refine ⟨t, l', ht, ?_⟩
  rw [hn]
  simp [Except.toOption] at e2
  rw [e2]

/-- a token with an empty group -/
def groupRules : List TokenRule := [⟨"T", none, .pattern (.sequence [.char (.single 'a'), .sequence []])⟩]

/-- **C10**: with an empty group the lexer errors although a rule matches the whole input (`a()` on `a`): the condition on rules in
`C09` and `C10` cannot be dropped. -/
theorem C10_empty_group : SomeMatch groupRules ['a'] ∧
    ∃ t r l', generateLexer 20 groupRules = .ok (.ok t) ∧ (Lexer.new ['a']).next t = .ok (.unexpectedAlphabet r, l') := by
  refine ⟨⟨_, List.mem_cons_self .., ?_⟩, ?_⟩
  · simp only [TokenRule.Matches, Pattern.Matches, Pattern.SeqMatches]
    exact ⟨['a'], [], rfl, ⟨'a', rfl, rfl⟩, [], [], rfl, rfl, rfl⟩
  obtain ⟨t, ht⟩ := Res.of_tables (r := generateLexer 20 groupRules) (by decide +kernel)
  obtain ⟨res, l', hn, _⟩ := C10_next_total ht (Lexer.new ['a'])
  have e1 : (generateLexer 20 groupRules).tables = some t := by rw [ht]; rfl
  have e2 : ((generateLexer 20 groupRules).tables.map (fun t => (((Lexer.new ['a']).next t).toOption.map (·.1)))) =
      some (some (.unexpectedAlphabet (0, 0))) := by decide +kernel
  rw [e1, Option.map_some, hn] at e2
  refine ⟨t, (0, 0), l', ht, ?_⟩
  rw [hn]
  simp [Except.toOption] at e2
  rw [e2]

/-! ## C11 -/

/-- **C11**: in every history of calls the slices are readable (no panic), their concatenation followed by the unread input is the
input, the first span starts at 0 and each further span starts where the previous one ended. -/
theorem C11_spans_tile {fuel : Nat} {rules : List TokenRule} {t : LexerTables} (h : generateLexer fuel rules = .ok (.ok t))
    {src : List Char} {l : Lexer} {hs : List (LexResult × Lexer)} (hl : LexRun t (Lexer.new src) hs l) :
    (∃ slices : List (List Char), hs.map (fun x => x.2.slice) = slices.map .ok ∧ src = slices.flatten ++ l.rest) ∧
    (∀ x, hs[0]? = some x → x.2.start = 0) ∧
    (∀ (i : Nat) x y, hs[i]? = some x → hs[i + 1]? = some y → y.2.start = x.2.position) := by
  have ht := generateLexer_ok h
  have main : ∀ {l0 l : Lexer} {hs : List (LexResult × Lexer)}, LexRun t l0 hs l → l0.Inv src →
      (∃ slices : List (List Char), hs.map (fun x => x.2.slice) = slices.map .ok ∧ l0.rest = slices.flatten ++ l.rest) ∧
      (∀ x, hs[0]? = some x → x.2.start = l0.position) ∧
      (∀ (i : Nat) x y, hs[i]? = some x → hs[i + 1]? = some y → y.2.start = x.2.position) := by
    intro l0 l hs hl
    induction hl with
    | nil l => exact fun _ => ⟨⟨[], rfl, rfl⟩, by simp, by simp⟩
    | @cons l0 l1 l2 r hs hn _ ih =>
      intro hi
      obtain ⟨m, rest', q, res, l2, g1, g2, g3, g4, g5, g6, g7, g8, g9, g10, g11, g12⟩ := next_slice ht hi
      rw [hn] at g7
      cases g7
      obtain ⟨⟨slices, i1, i2⟩, i3, i4⟩ := ih g12
      refine ⟨⟨m :: slices, by simp [g11, i1], by rw [g1, ← g8, i2]; simp⟩, ?_, ?_⟩
      · intro x hx
        simp only [List.getElem?_cons_zero, Option.some.injEq] at hx
        subst hx
        exact g9
      · intro i x y hx hy
        cases i with
        | zero =>
          simp only [List.getElem?_cons_zero, Option.some.injEq] at hx
          subst hx
          exact i3 y (by simpa using hy)
        | succ i => exact i4 i x y (by simpa using hx) (by simpa using hy)
  exact main hl (inv_new src)

/-! ## C12 -/

/-- **C12**: `next` returns end-of-file exactly when the unread input is empty or starts with NUL. -/
theorem C12_eof_iff {fuel : Nat} {rules : List TokenRule} {t : LexerTables} (h : generateLexer fuel rules = .ok (.ok t)) (l : Lexer) :
    (∃ l', l.next t = .ok (.eof, l')) ↔ AtEnd l.rest := by
  have ht := generateLexer_ok h
  obtain ⟨m, rest', q, res, g1, g2, g3, g4, g5, g6, g7⟩ := next_spec ht l
  constructor
  · rintro ⟨l', hn⟩
    rw [g7] at hn
    cases hn
    obtain ⟨rfl, he⟩ := stop_eof g6
    have := ht.once g3
    simp only [List.map_eq_nil_iff] at this
    rw [g1, this]
    exact he
  · intro he
    have := atEnd_no_prefix he g1 g2
    subst this
    cases g3
    rw [List.nil_append] at g1
    rw [g1] at he
    unfold StopResult at g6
    rw [if_pos ⟨rfl, he⟩] at g6
    subst g6
    exact ⟨_, g7⟩

/-- **C12**: after end-of-file every later call returns end-of-file. -/
theorem C12_eof_sticky {fuel : Nat} {rules : List TokenRule} {t : LexerTables} (h : generateLexer fuel rules = .ok (.ok t))
    {l l1 l2 : Lexer} {hs : List (LexResult × Lexer)} (hn : l.next t = .ok (.eof, l1)) (hr : LexRun t l1 hs l2) :
    ∀ x ∈ hs, x.1 = .eof := by
  have hrest : ∀ {a b : Lexer} {r : LexResult}, a.next t = .ok (r, b) → AtEnd a.rest → r = .eof ∧ AtEnd b.rest := by
    intro a b r hab he
    obtain ⟨m, rest', q, res, g1, g2, g3, g4, g5, g6, g7⟩ := next_spec (generateLexer_ok h) a
    have := atEnd_no_prefix he g1 g2
    subst this
    cases g3
    rw [List.nil_append] at g1
    rw [g1] at he
    unfold StopResult at g6
    rw [if_pos ⟨rfl, he⟩] at g6
    rw [hab] at g7
    cases g7
    exact ⟨g6, he⟩
  have he : AtEnd l1.rest := (hrest hn ((C12_eof_iff h l).mp ⟨l1, hn⟩)).2
  clear hn
  induction hr with
  | nil => simp
  | cons hn _ ih =>
    obtain ⟨h1, h2⟩ := hrest hn he
    intro x hx
    rcases List.mem_cons.mp hx with rfl | hx
    · exact h1
    · exact ih h2 x hx

/-! ## C13 -/

/-- **C13**: if no rule matches the empty text, a call that returns a token consumes at least one char. -/
theorem C13_token_consumes {fuel : Nat} {rules : List TokenRule} {t : LexerTables} (h : generateLexer fuel rules = .ok (.ok t))
    (hε : ∀ r ∈ rules, ¬ r.Matches []) {l l' : Lexer} {j : Nat} (hn : l.next t = .ok (.token j, l')) :
    ∃ m, m ≠ [] ∧ l.rest = m ++ l'.rest := by
  have ht := generateLexer_ok h
  obtain ⟨m, rest', q, res, g1, g2, g3, g4, g5, g6, g7⟩ := next_spec ht l
  rw [hn] at g7
  cases g7
  refine ⟨m, ?_, g1⟩
  rintro rfl
  obtain ⟨r, _, a1, a2, _⟩ := ht.accepting g3 (stop_token g6)
  exact hε r (List.mem_of_getElem? a1) a2

/-- the results of a history that are tokens -/
def tokenCount (hs : List (LexResult × Lexer)) : Nat := (hs.filter (fun x => match x.1 with | .token _ => true | _ => false)).length

/-- **C13**: then any history contains at most as many tokens as the input has chars. -/
theorem C13_token_bound {fuel : Nat} {rules : List TokenRule} {t : LexerTables} (h : generateLexer fuel rules = .ok (.ok t))
    (hε : ∀ r ∈ rules, ¬ r.Matches []) {src : List Char} {l : Lexer} {hs : List (LexResult × Lexer)} (hl : LexRun t (Lexer.new src) hs l) :
    tokenCount hs ≤ src.length := by
  have main : ∀ {l0 l : Lexer} {hs : List (LexResult × Lexer)}, LexRun t l0 hs l → tokenCount hs + l.rest.length ≤ l0.rest.length := by
    intro l0 l hs hl
    induction hl with
    | nil => simp [tokenCount]
    | @cons l0 l1 l2 r hs hn _ ih =>
      obtain ⟨m, rest', q, res, g1, g2, g3, g4, g5, g6, g7⟩ := next_spec (generateLexer_ok h) l0
      have hle : l1.rest.length ≤ l0.rest.length := by
        rw [hn] at g7
        cases g7
        rw [g1]; simp
      cases r with
      | token j =>
        obtain ⟨m, hm, he⟩ := C13_token_consumes h hε hn
        have : 0 < m.length := List.length_pos_of_ne_nil hm
        simp only [tokenCount, List.filter_cons, if_true, List.length_cons] at ih ⊢
        rw [he, List.length_append]
        omega
      | _ =>
        simp only [tokenCount, List.filter_cons] at ih ⊢
        simp only [Bool.false_eq_true, if_false]
        omega
  have := main hl
  have e : (Lexer.new src).rest = src := rfl
  rw [e] at this
  omega

/-- a token that matches the empty text -/
def starRules : List TokenRule := [⟨"S", none, .pattern (.repetition 0 none (.char (.single 'a')))⟩]

/-- **C13**: with a token such as `a*` there is an input on which `next` returns (empty) tokens for ever. -/
theorem C13_empty_token_loops : ∃ t, generateLexer 20 starRules = .ok (.ok t) ∧
    ∀ n, ∃ hs l, LexRun t (Lexer.new ['b']) hs l ∧ hs.length = n ∧ tokenCount hs = n := by
  obtain ⟨t, ht⟩ := Res.of_tables (r := generateLexer 20 starRules) (by decide +kernel)
  refine ⟨t, ht, ?_⟩
  have e1 : (generateLexer 20 starRules).tables = some t := by rw [ht]; rfl
  have e2 : ((generateLexer 20 starRules).tables.map (fun t => (Lexer.new ['b']).next t)) =
      some (.ok (.token 0, Lexer.new ['b'])) := by decide +kernel
  rw [e1, Option.map_some, Option.some.injEq] at e2
  intro n
  induction n with
  | zero => exact ⟨[], _, .nil _, rfl, rfl⟩
  | succ n ih =>
    obtain ⟨hs, l, h1, h2, h3⟩ := ih
    exact ⟨_, l, .cons e2 h1, by simp [h2], by simpa [tokenCount] using h3⟩

/-! ## the conditions can be met -/

/-- a rule set that meets the conditions of C09, C10 and C13 -/
example : (∃ t, generateLexer 20 abcRules = .ok (.ok t)) ∧ (∀ r ∈ abcRules, r.NoEmptySeq ∧ r.Useful) ∧ (∀ r ∈ abcRules, ¬ r.Matches []) := by
  refine ⟨Res.of_tables (by decide +kernel), ?_, ?_⟩
  · intro r hr
    simp only [abcRules, List.mem_cons, List.not_mem_nil, or_false] at hr
    rcases hr with rfl | rfl <;> simp [TokenRule.NoEmptySeq, TokenRule.Useful]
  · intro r hr
    simp only [abcRules, List.mem_cons, List.not_mem_nil, or_false] at hr
    rcases hr with rfl | rfl <;> simp [TokenRule.Matches]

/-- and a run on `abca` that returns both tokens and then end-of-file -/
example : (generateLexer 20 abcRules).tables.map (fun t => do
    let (r1, l) ← (Lexer.new ['a', 'b', 'c', 'a']).next t
    let (r2, l) ← l.next t
    let (r3, _) ← l.next t
    return [r1, r2, r3]) = some (.ok [.token 1, .token 0, .eof]) := by decide +kernel

end Verif
