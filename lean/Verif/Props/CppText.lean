import Verif.Proofs.CppLexText
import Verif.Proofs.Tables
import Verif.Props.Lexer

/-!
# C72: the generated C++ source text says what the tables say
-/

set_option autoImplicit false

namespace Verif

theorem tiles_le {lo hi : Nat} {l : List (Nat × Nat)} (h : Tiles lo l hi) (i : Nat) (r : Nat × Nat) (hr : l[i]? = some r) : lo ≤ r.1 := by
  induction l generalizing lo i with
  | nil => simp at hr
  | cons x l ih =>
    obtain ⟨h1, h2, h3⟩ := h
    cases i with
    | zero => simp at hr; subst hr; omega
    | succ i => have := ih h3 i (by simpa using hr); omega

theorem tiles_apart {lo hi : Nat} {l : List (Nat × Nat)} (h : Tiles lo l hi) (v i j : Nat) (r r' : Nat × Nat) (hi' : l[i]? = some r) (hj : l[j]? = some r')
    (h1 : r.1 ≤ v) (h2 : v ≤ r.2) (h3 : r'.1 ≤ v) (h4 : v ≤ r'.2) : i = j := by
  induction l generalizing lo i j with
  | nil => simp at hi'
  | cons x l ih =>
    obtain ⟨a1, a2, a3⟩ := h
    cases i with
    | zero =>
      cases j with
      | zero => rfl
      | succ j =>
        simp at hi'; subst hi'
        have := tiles_le a3 j r' (by simpa using hj)
        omega
    | succ i =>
      cases j with
      | zero =>
        simp at hj; subst hj
        have := tiles_le a3 i r (by simpa using hi')
        omega
      | succ j => rw [ih a3 i j (by simpa using hi') (by simpa using hj)]

/-- C72. The file `lexer.cpp` that is generated contains a function `Lexer::next` whose statements, as C++ statements with gotos by `switch`, return on every input the token that the tables
give, and leave the lexer in the same state. -/
theorem C72_lexer_text (fuel : Nat) (rules : List TokenRule) (t : LexerTables) (h : generateLexer fuel rules = .ok (.ok t)) (debug : Nat → List Char)
    (hn : ∀ r ∈ rules, IsWord r.name.toList) (hd : ∀ r, '\n' ∉ debug r ∧ (debug r).getLast? ≠ some '\\') :
    (cppLexerFile rules debug t).2 = .ok ∧
    ∃ body, readFunction (phrase "TokenType Lexer::next() {") (cppLexerFile rules debug t).1 = some body ∧
      ∀ n l, runNext body n l = (CppLexer.next t n l).map (fun x => (cppTokenName (ruleName rules) x.1, x.2)) := by
  have ok := generateLexer_ok h
  refine ⟨by rw [lexer_file], _, lexer_reads rules debug t ?_ hd, run_next (ruleName rules) t ?_ ok.det⟩
  · intro r
    unfold ruleName
    cases hr : rules[r]? with
    | none => intro c hc; simp at hc
    | some x => exact hn x (List.mem_of_getElem? hr)
  · intro v i j r r' h1 h2 h3 h4 h5 h6
    rw [ok.alpha] at h1 h2
    exact tiles_apart (generateAlphabet_tiles rules) v i j r r' h1 h2 h3 h4 h5 h6

/-- the conditions can be met: two rules, with the names of the rules as their `Debug` texts -/
example : (∃ t, generateLexer 20 abcRules = .ok (.ok t)) ∧ (∀ r ∈ abcRules, IsWord r.name.toList) ∧
    ∀ r, '\n' ∉ ruleName abcRules r ∧ (ruleName abcRules r).getLast? ≠ some '\\' := by
  refine ⟨Res.of_tables (by decide +kernel), ?_, ?_⟩
  · intro r hr
    simp only [abcRules, List.mem_cons, List.not_mem_nil, or_false] at hr
    rcases hr with rfl | rfl <;> (unfold IsWord; decide)
  · intro r
    match r with
    | 0 => decide
    | 1 => decide
    | r + 2 => simp [ruleName, abcRules]

/-- The text of that file, read and run on `abca`: the names of two tokens and of the end of the input. -/
example : (generateLexer 20 abcRules).tables.bind (fun t => (readFunction (phrase "TokenType Lexer::next() {") (cppLexerFile abcRules (ruleName abcRules) t).1).map (fun body => do
    let (r1, l) ← runNext body 9 (CppLexer.new [97, 98, 99, 97])
    let (r2, l) ← runNext body 9 l
    let (r3, _) ← runNext body 9 l
    return [r1, r2, r3])) = some (.ok ["TK_ABC".toList, "TK_A".toList, "TK_EOF".toList]) := by decide +kernel

end Verif
