import Verif.Proofs.LexRounds
import Verif.Props.RustText
import Verif.Props.CppText

/-! # C88 — lexers take linear time: each char is taken once, and each call needs one round more than it takes chars -/

set_option autoImplicit false

namespace Verif

theorem Calls.any {L R : Type} {next : Nat → L → Res (R × L)} (h : ∀ l, ∃ k v, TakesRounds (fun n => next n l) k v) : ∀ (n : Nat) (l : L), ∃ rounds rs l', Calls next l rounds rs l' ∧ rs.length = n := by
  intro n
  induction n with
  | zero => exact fun l => ⟨0, [], l, .nil l, rfl⟩
  | succ n ih =>
    intro l
    obtain ⟨k, ⟨r, l1⟩, hk⟩ := h l
    obtain ⟨m, rs, l', h1, h2⟩ := ih l1
    exact ⟨k + m, r :: rs, l', .cons hk h1, by simp [h2]⟩

/-- **C88**, Rust. The function `next` in the text of `lexer.rs`, called any number of times: all the calls together take one round of the loop for each char that is taken, and one round for each call.
If no rule matches the empty text, there are at most as many calls that return tokens as there are chars; so a text of `n` chars has been divided into tokens, or an error has been found, after
`2 * n + 1` rounds. -/
theorem C88_rust (fuel : Nat) (rules : List TokenRule) (t : LexerTables) (h : generateLexer fuel rules = .ok (.ok t)) (hn : ∀ r ∈ rules, IsWord r.name.toList) (text : List Char)
    (ht : rustLexerFile rules t = .ok text) (src : List Char) :
    (∀ calls, ∃ rounds results l, Calls (rustNext text) (Lexer.new src) rounds results l ∧ results.length = calls) ∧
    ∀ rounds results l, Calls (rustNext text) (Lexer.new src) rounds results l →
      rounds + l.rest.length = src.length + results.length ∧
      ((∀ r ∈ rules, ¬ r.Matches []) → (∀ r ∈ results, ∃ v, r = .ok v ∧ v ≠ "EndOfFile".toList) → results.length ≤ src.length ∧
        ∃ k r l', TakesRounds (fun n => rustNext text n l) k (r, l') ∧ rounds + k ≤ 2 * src.length + 1) := by
  have hok := generateLexer_ok h
  have hname : ∀ r w, tokenEnumName (ruleName rules r) = .ok w → (match tokenEnumName (ruleName rules r) with | .ok w => w | .error _ => []) = w := by
    intro r w hw
    rw [hw]
  have step : ∀ l : Lexer, ∃ m r l', l.rest = m ++ l'.rest ∧ TakesRounds (fun n => rustNext text n l) (m.length + 1) (r, l') ∧
      ((∀ r ∈ rules, ¬ r.Matches []) → (∃ v, r = .ok v ∧ v ≠ "EndOfFile".toList) → m ≠ []) := by
    intro l
    obtain ⟨m, rest', q, res, g1, g2, g3, g4, g5, g6, g7⟩ := next_spec hok l
    have hk := run_rRounds (name := fun r => match tokenEnumName (ruleName rules r) with | .ok w => w | .error _ => []) hn ht hname g7 (by rw [g1]; simp)
    refine ⟨m, rustLexResult (fun r => match tokenEnumName (ruleName rules r) with | .ok w => w | .error _ => []) res, { src := l.src, rest := rest', start := l.position, position := l.position + bytes m }, g1, ?_, ?_⟩
    · rw [g1] at hk
      simpa using hk
    · rintro hε ⟨v, hv, hne⟩ rfl
      cases res with
      | token j =>
        cases g3
        obtain ⟨r, _, a1, a2, _⟩ := hok.accepting (w := []) (.refl 0) (stop_token g6)
        exact hε r (List.mem_of_getElem? a1) a2
      | eof => cases hv; exact hne rfl
      | invalidChar c => cases hv
      | unexpectedAlphabet c => cases hv
  have main : ∀ {l0 l : Lexer} {rounds : Nat} {results : List RustLexResult}, Calls (rustNext text) l0 rounds results l → rounds + l.rest.length = l0.rest.length + results.length ∧
      ((∀ r ∈ rules, ¬ r.Matches []) → (∀ r ∈ results, ∃ v, r = .ok v ∧ v ≠ "EndOfFile".toList) → results.length + l.rest.length ≤ l0.rest.length) := by
    intro l0 l rounds results hc
    induction hc with
    | nil => simp
    | @cons l0 l1 l2 k rounds r rs hk _ ih =>
      obtain ⟨m, r', l1', h1, h2, h3⟩ := step l0
      obtain ⟨rfl, hv⟩ := hk.unique h2
      cases hv
      rw [h1]
      simp only [List.length_append, List.length_cons]
      refine ⟨by have := ih.1; omega, fun hε hr => ?_⟩
      have := ih.2 hε (fun r hr' => hr r (by simp [hr']))
      have := List.length_pos_iff.mpr (h3 hε (hr r (by simp)))
      omega
  refine ⟨fun calls => Calls.any (fun l => ?_) calls _, fun rounds results l hc => ⟨(main hc).1, fun hε hr => ?_⟩⟩
  · obtain ⟨m, r, l', _, h2, _⟩ := step l
    exact ⟨_, _, h2⟩
  · obtain ⟨m1, m2⟩ := main hc
    have m2 := m2 hε hr
    simp only [Lexer.new] at m1 m2
    refine ⟨by omega, ?_⟩
    obtain ⟨m, r, l', h1, h2, _⟩ := step l
    refine ⟨_, r, l', h2, ?_⟩
    rw [h1] at m1 m2
    simp only [List.length_append] at m1 m2
    omega

/-- **C88**, C++. The same for the function `Lexer::next` in the text of `lexer.cpp`, on every input, also one that is not UTF-8. -/
theorem C88_cpp (fuel : Nat) (rules : List TokenRule) (t : LexerTables) (h : generateLexer fuel rules = .ok (.ok t)) (debug : Nat → List Char) (hn : ∀ r ∈ rules, IsWord r.name.toList)
    (hd : ∀ r, '\n' ∉ debug r ∧ (debug r).getLast? ≠ some '\\') (input : List UInt8) :
    ∃ body, readFunction (phrase "TokenType Lexer::next() {") (cppLexerFile rules debug t).1 = some body ∧
      (∀ calls, ∃ rounds results l, Calls (runNext body) (CppLexer.new input) rounds results l ∧ results.length = calls) ∧
      ∀ rounds results l, Calls (runNext body) (CppLexer.new input) rounds results l →
        rounds = l.position + results.length ∧ l.position ≤ input.length ∧
        ((∀ r ∈ rules, ¬ r.Matches []) → (∀ r ∈ results, r ≠ "TK_EOF".toList ∧ r ≠ "TK_ERR".toList) → results.length ≤ input.length ∧
          ∃ k r l', TakesRounds (fun n => runNext body n l) k (r, l') ∧ rounds + k ≤ 2 * input.length + 1) := by
  have hok := generateLexer_ok h
  obtain ⟨_, body, hb, hrun⟩ := C72_lexer_text fuel rules t h debug hn hd
  have step : ∀ l : CppLexer, ∃ k r l', TakesRounds (fun n => runNext body n l) (k + 1) (r, l') ∧ l'.position = l.position + k ∧ k + l'.ahead ≤ l.ahead ∧
      ((∀ r ∈ rules, ¬ r.Matches []) → r ≠ "TK_EOF".toList ∧ r ≠ "TK_ERR".toList → k ≠ 0) := by
    intro l
    obtain ⟨k, tok, l', h1, h2, h3, h4⟩ := cppNext_rounds hok l
    refine ⟨k, cppTokenName (ruleName rules) tok, l', ?_, h2, h3, ?_⟩
    · intro n
      have := h1 n
      simp only at this ⊢
      rw [hrun, this]
      split <;> rfl
    · rintro hε ⟨n1, n2⟩ hk
      cases tok with
      | token j =>
        obtain ⟨r, a1, a2⟩ := h4 hk j rfl
        exact hε r a1 a2
      | eof => exact n1 rfl
      | err => exact n2 rfl
  have main : ∀ {l0 l : CppLexer} {rounds : Nat} {results : List (List Char)}, Calls (runNext body) l0 rounds results l → rounds + l0.position = l.position + results.length ∧
      l.position + l.ahead ≤ l0.position + l0.ahead ∧
      ((∀ r ∈ rules, ¬ r.Matches []) → (∀ r ∈ results, r ≠ "TK_EOF".toList ∧ r ≠ "TK_ERR".toList) → results.length + l.ahead ≤ l0.ahead) := by
    intro l0 l rounds results hc
    induction hc with
    | nil => simp
    | @cons l0 l1 l2 k rounds r rs hk _ ih =>
      obtain ⟨k', r', l1', h1, h2, h3, h4⟩ := step l0
      obtain ⟨rfl, hv⟩ := hk.unique h1
      cases hv
      obtain ⟨i1, i2, i3⟩ := ih
      simp only [List.length_cons]
      refine ⟨by omega, by omega, fun hε hr => ?_⟩
      have := i3 hε (fun r hr' => hr r (by simp [hr']))
      have := Nat.pos_of_ne_zero (h4 hε (hr r (by simp)))
      omega
  refine ⟨body, hb, fun calls => Calls.any (fun l => ?_) calls _, fun rounds results l hc => ?_⟩
  · obtain ⟨k, r, l', h1, _⟩ := step l
    exact ⟨_, _, h1⟩
  · obtain ⟨m1, m2, m3⟩ := main hc
    have e : (CppLexer.new input).ahead = input.length := rfl
    have e' : (CppLexer.new input).position = 0 := rfl
    rw [e, e'] at m2
    rw [e'] at m1
    rw [e] at m3
    refine ⟨by omega, by omega, fun hε hr => ?_⟩
    have m3 := m3 hε hr
    refine ⟨by omega, ?_⟩
    obtain ⟨k, r, l', h1, h2, h3, _⟩ := step l
    exact ⟨_, r, l', h1, by omega⟩

/-! ## Non-vacuity -/

theorem abc_words : ∀ r ∈ abcRules, IsWord r.name.toList := by
  intro r hr
  simp only [abcRules, List.mem_cons, List.not_mem_nil, or_false] at hr
  rcases hr with rfl | rfl <;> (unfold IsWord; decide)

/-- rules that meet the conditions: `A = "a"` and `ABC = "abc"` -/
example : (∃ t text, generateLexer 20 abcRules = .ok (.ok t) ∧ rustLexerFile abcRules t = .ok text) ∧ (∀ r ∈ abcRules, IsWord r.name.toList) ∧ ∀ r ∈ abcRules, ¬ r.Matches [] := by
  refine ⟨?_, abc_words, ?_⟩
  · obtain ⟨t, ht⟩ := Res.of_tables (r := generateLexer 20 abcRules) (by decide +kernel)
    obtain ⟨text, toks, h1, _⟩ := (C74_written 20 abcRules t ht).1 (by
      intro r hr
      simp only [abcRules, List.mem_cons, List.not_mem_nil, or_false] at hr
      rcases hr with rfl | rfl <;> exact goodName_not_bad (goodName_of (by decide)))
    exact ⟨t, text, ht, h1⟩
  · intro r hr
    simp only [abcRules, List.mem_cons, List.not_mem_nil, or_false] at hr
    rcases hr with rfl | rfl <;> intro h <;> cases h

/-- the C++ lexer on `abca`, with the smallest numbers of rounds: four for `abc`, two for `a`, one for the end — `4 + 3` in three calls; with one round less each call is not over -/
example : (generateLexer 20 abcRules).tables.bind (fun t => (readFunction (phrase "TokenType Lexer::next() {") (cppLexerFile abcRules (ruleName abcRules) t).1).map (fun body => do
    let (r1, l1) ← runNext body 4 (CppLexer.new [97, 98, 99, 97])
    let (r2, l2) ← runNext body 2 l1
    let (r3, _) ← runNext body 1 l2
    return ([r1, r2, r3], (runNext body 3 (CppLexer.new [97, 98, 99, 97])).toOption.isNone, (runNext body 1 l1).toOption.isNone))) =
    some (.ok (["TK_ABC".toList, "TK_A".toList, "TK_EOF".toList], true, true)) := by decide +kernel

end Verif
