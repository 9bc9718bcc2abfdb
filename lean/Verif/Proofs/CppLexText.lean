import Verif.Proofs.CppRead
import Verif.Proofs.Display
import Verif.Proofs.Tables
import Verif.Spec.CppLexText
import Verif.Model.CppText

/-! # The text of `lexer.cpp`: lemmas -/

set_option autoImplicit false

namespace Verif

/-! ## Decimal numbers -/

theorem decimal_ne_nil (n : Nat) : decimal n ≠ [] := Nat.toDigits_ne_nil

theorem isDigit_word {c : Char} (h : c.isDigit = true) : isCWordChar c = true := by
  simp only [Char.isDigit, Bool.and_eq_true, decide_eq_true_eq] at h
  have h1 : 48 ≤ c.toNat := UInt32.le_iff_toNat_le.mp h.1
  have h2 : c.toNat ≤ 57 := UInt32.le_iff_toNat_le.mp h.2
  simp [isCWordChar, h1, h2]

theorem isDigit_range {c : Char} (h : c.isDigit = true) : 48 ≤ c.toNat ∧ c.toNat ≤ 57 := by
  simp only [Char.isDigit, Bool.and_eq_true, decide_eq_true_eq] at h
  exact ⟨UInt32.le_iff_toNat_le.mp h.1, UInt32.le_iff_toNat_le.mp h.2⟩

theorem decimal_word (n : Nat) : ∀ c ∈ decimal n, isCWordChar c = true := fun _ h => isDigit_word (decimal_digit h)

theorem decimal_head (n : Nat) : (decimal n).head? = some '0' → decimal n = ['0'] := by
  induction n using Nat.strongRecOn with
  | ind n ih =>
    by_cases h : n < 10
    · unfold decimal
      rw [Nat.toDigits_of_lt_base h]
      intro h'
      simpa using h'
    · have h1 : decimal n = decimal (n / 10) ++ [(n % 10).digitChar] := by
        unfold decimal
        exact Nat.toDigits_of_base_le (by omega) (by omega)
      have h2 := ih (n / 10) (by omega)
      intro h'
      rw [h1, List.head?_append_of_ne_nil _ (decimal_ne_nil _)] at h'
      have h3 := h2 h'
      have h4 : decimal (n / 10) = decimal 0 := by rw [h3]; rfl
      have := decimal_inj' h4
      omega
where
  decimal_inj' {n m : Nat} (h : decimal n = decimal m) : n = m := by
    unfold decimal at h
    have h1 := Nat.ofDigitChars_toDigits (b := 10) (n := n) (by omega) (by omega)
    have h2 := Nat.ofDigitChars_toDigits (b := 10) (n := m) (by omega) (by omega)
    rw [← h1, h, h2]

theorem decimalConst_decimal (n : Nat) : decimalConst [.word (decimal n)] = some n := by
  simp only [decimalConst]
  rw [if_pos ⟨decimal_ne_nil n, by
    rw [List.all_eq_true]
    intro c hc
    simpa using isDigit_range (decimal_digit hc), decimal_head n⟩]
  have := Nat.ofDigitChars_toDigits (b := 10) (n := n) (by omega) (by omega)
  rw [Nat.ofDigitChars_eq_foldl] at this
  exact congrArg some this

/-! ## Pieces of text -/

/-- a number between two pieces of text -/
theorem Lexes.num {a b : List Char} {x y : List CTok} (n : Nat) {c : Char} (ha : Lexes a x) (hc : isCWordChar c = false) (hb : Lexes (c :: b) y) :
    Lexes (a ++ (decimal n ++ c :: b)) (x ++ .word (decimal n) :: y) :=
  ha.append (Lexes.word (decimal_ne_nil n) (decimal_word n) hc hb)

theorem textBreak : TextReads "break;\n".toList [.simple [.word "break".toList]] :=
  .simple (t := .word "break".toList) (ts := []) (by unfold Lexes; decide +kernel) (by decide) (by decide)

theorem textDefault : TextReads "default:\n".toList [.dflt] := .dflt (by unfold Lexes; decide +kernel)

/-- `return TokenType::x` -/
def retStmt (x : List Char) : CStmt := .simple [.word "return".toList, .word "TokenType".toList, .sym [':', ':'], .word x]

theorem textErr : TextReads "return TokenType::TK_ERR;\n".toList [retStmt "TK_ERR".toList] :=
  .simple (by unfold Lexes; decide +kernel) (by decide) (by decide)

theorem textEof : TextReads "return TokenType::TK_EOF;\n".toList [retStmt "TK_EOF".toList] :=
  .simple (by unfold Lexes; decide +kernel) (by decide) (by decide)

theorem lexClose : Lexes "}\n".toList [.sym ['}']] := by unfold Lexes; decide +kernel

theorem textRet {w : List Char} (hw : IsWord w) :
    TextReads ("return TokenType::".toList ++ (("TK_".toList ++ w) ++ ";\n".toList)) [retStmt ("TK_".toList ++ w)] := by
  refine .simple (t := .word "return".toList) (ts := [.word "TokenType".toList, .sym [':', ':'], .word ("TK_".toList ++ w)]) ?_ (by decide) ?_
  · exact Lexes.append (x := [.word "return".toList, .word "TokenType".toList, .sym [':', ':']]) (by unfold Lexes; decide +kernel)
      (Lexes.word (by simp) (by
        intro d hd
        rcases List.mem_append.mp hd with hd | hd
        · exact (by decide : ∀ d ∈ "TK_".toList, isCWordChar d = true) d hd
        · exact hw d hd) (by decide) (a := ['\n']) (c := ';') (by unfold Lexes; decide +kernel))
  · simp

theorem sym_word_ne (s w : List Char) : CTok.sym s ≠ CTok.word w := by simp

/-! ## The alphabet switch -/

/-- the cases of the alphabet switch -/
def alphaCase (r : (Nat × Nat) × Nat) : CStmt × List CStmt :=
  (if r.1.1 = r.1.2 then .label [.word (decimal r.1.1)] else .range [.word (decimal r.1.1)] [.word (decimal r.1.2)],
    [.simple [.word ['i'], .sym ['='], .word (decimal r.2)], .simple [.word "break".toList]])

/-- the alphabet switch -/
def alphaStmts (a : Alphabet) : List CStmt :=
  [.simple [.word "uint32_t".toList, .word ['i']], .switch [.word "ch".toList] (swBody (a.ranges.zipIdx.map alphaCase) [retStmt "TK_ERR".toList])]

theorem alphaCase_text (r : (Nat × Nat) × Nat) : TextReads (cppAlphabetCaseText r) ((alphaCase r).1 :: (alphaCase r).2) := by
  unfold cppAlphabetCaseText alphaCase
  have h1 : TextReads ("i = ".toList ++ (decimal r.2 ++ ";\n".toList)) [.simple [.word ['i'], .sym ['='], .word (decimal r.2)]] :=
    .simple (t := .word ['i']) (ts := [.sym ['='], .word (decimal r.2)])
      (Lexes.num (x := [.word ['i'], .sym ['=']]) r.2 (by unfold Lexes; decide +kernel) (by decide) (c := ';') (b := ['\n']) (y := [.sym [';']]) (by unfold Lexes; decide +kernel))
      (by decide) (by simp)
  split
  · have h2 : TextReads ("case ".toList ++ (decimal r.1.1 ++ ":\n".toList)) [.label [.word (decimal r.1.1)]] :=
      .label (Lexes.num (x := [.word "case".toList]) r.1.1 (by unfold Lexes; decide +kernel) (by decide) (c := ':') (b := ['\n']) (y := [.sym [':']])
        (by unfold Lexes; decide +kernel)) (by simp) (by simp)
    exact (h2.append h1).append textBreak
  · have h2 : TextReads ("case ".toList ++ (decimal r.1.1 ++ " ... ".toList) ++ (decimal r.1.2 ++ ":\n".toList)) [.range [.word (decimal r.1.1)] [.word (decimal r.1.2)]] :=
      .range (l := [.word (decimal r.1.1)]) (m := [.word (decimal r.1.2)])
        (Lexes.num (x := [.word "case".toList, .word (decimal r.1.1), .sym ['.', '.', '.']]) r.1.2
          (Lexes.num (x := [.word "case".toList]) r.1.1 (by unfold Lexes; decide +kernel) (by decide) (c := ' ') (b := "... ".toList) (y := [.sym ['.', '.', '.']])
            (by unfold Lexes; decide +kernel)) (by decide) (c := ':') (b := ['\n']) (y := [.sym [':']]) (by unfold Lexes; decide +kernel))
        (by simp) (by simp) (by simp)
    exact (h2.append h1).append textBreak

theorem alphabet_text (a : Alphabet) : TextReads (cppAlphabetText a) (alphaStmts a) := by
  unfold cppAlphabetText alphaStmts swBody
  have h1 : TextReads "uint32_t i;\n".toList [.simple [.word "uint32_t".toList, .word ['i']]] :=
    .simple (by unfold Lexes; decide +kernel) (by decide) (by decide)
  refine h1.append (y := [_]) (.switch (by unfold Lexes; decide +kernel) (by decide) ?_ lexClose)
  rw [List.flatMap_map]
  have h2 := TextReads.flatMap (f := cppAlphabetCaseText) (g := fun r => (alphaCase r).1 :: (alphaCase r).2) a.ranges.zipIdx (fun r _ => alphaCase_text r)
  rw [show (CStmt.dflt :: [retStmt "TK_ERR".toList]) = [CStmt.dflt] ++ [retStmt "TK_ERR".toList] from rfl, ← List.append_assoc]
  exact (h2.append textDefault).append textErr

/-! ## The automaton switch -/

/-- the case of a transition -/
def transCase (t : Nat × Nat) : CStmt × List CStmt :=
  (.label [.word (decimal t.1)], [.simple (phrase "this->ch = -1"), .simple [.word "state".toList, .sym ['='], .word (decimal t.2)], .simple [.word "break".toList]])

/-- the cases of a state -/
def stateCases (dfa : Dfa Nat Nat) (q : Nat) : List (CStmt × List CStmt) :=
  (if q = 0 then [(.label [.word ['0']], [retStmt "TK_EOF".toList])] else []) ++ ((dfa.transitionsFrom q).filter (fun t => t.1 ≠ 0)).map transCase

/-- the default of a state -/
def stateDefault (names : Nat → List Char) : AutomatonState Nat → List CStmt
  | .accepting r => [.simple (phrase "this->end_pos = this->position"), retStmt ("TK_".toList ++ names r)]
  | .intermediate _ => [retStmt "TK_ERR".toList]

/-- the case of a state -/
def stateCase (names : Nat → List Char) (dfa : Dfa Nat Nat) (s : AutomatonState Nat × Nat) : CStmt × List CStmt :=
  (.label [.word (decimal s.2)], [.switch [.word ['i']] (swBody (stateCases dfa s.2) (stateDefault names s.1)), .simple [.word "break".toList]])

/-- the automaton switch -/
def autoStmts (names : Nat → List Char) (dfa : Dfa Nat Nat) : List CStmt :=
  [.switch [.word "state".toList] (swBody (dfa.graph.nodes.zipIdx.map (stateCase names dfa)) [retStmt "TK_ERR".toList])]

theorem phrase_ch : phrase "this->ch = -1" = [.word "this".toList, .sym ['-'], .sym ['>'], .word "ch".toList, .sym ['='], .sym ['-'], .word ['1']] := by decide +kernel

theorem phrase_end : phrase "this->end_pos = this->position" =
    [.word "this".toList, .sym ['-'], .sym ['>'], .word "end_pos".toList, .sym ['='], .word "this".toList, .sym ['-'], .sym ['>'], .word "position".toList] := by decide +kernel

theorem trans_text (t : Nat × Nat) : TextReads (cppTransitionText t) (if t.1 ≠ 0 then (transCase t).1 :: (transCase t).2 else []) := by
  unfold cppTransitionText transCase
  split
  · have h1 : TextReads ("case ".toList ++ (decimal t.1 ++ ": \n".toList)) [.label [.word (decimal t.1)]] :=
      .label (Lexes.num (x := [.word "case".toList]) t.1 (by unfold Lexes; decide +kernel) (by decide) (c := ':') (b := [' ', '\n']) (y := [.sym [':']])
        (by unfold Lexes; decide +kernel)) (by simp) (by simp)
    have h2 : TextReads "this->ch = -1;\n".toList [.simple (phrase "this->ch = -1")] := by
      rw [phrase_ch]
      exact .simple (by unfold Lexes; decide +kernel) (by decide) (by decide)
    have h3 : TextReads ("state = ".toList ++ (decimal t.2 ++ ";\n".toList)) [.simple [.word "state".toList, .sym ['='], .word (decimal t.2)]] :=
      .simple (t := .word "state".toList) (ts := [.sym ['='], .word (decimal t.2)])
        (Lexes.num (x := [.word "state".toList, .sym ['=']]) t.2 (by unfold Lexes; decide +kernel) (by decide) (c := ';') (b := ['\n']) (y := [.sym [';']])
          (by unfold Lexes; decide +kernel)) (by decide) (by simp)
    exact ((h1.append h2).append h3).append textBreak
  · exact .nil

theorem flatMap_filter {α β : Type} (p : α → Prop) [DecidablePred p] (f : α → List β) (l : List α) :
    l.flatMap (fun a => if p a then f a else []) = (l.filter (fun a => p a)).flatMap f := by
  induction l with
  | nil => rfl
  | cons a l ih =>
    by_cases h : p a <;> simp [h, ih]

theorem state_text (names debug : Nat → List Char) (hn : ∀ r, IsWord (names r)) (hd : ∀ r, '\n' ∉ debug r ∧ (debug r).getLast? ≠ some '\\') (dfa : Dfa Nat Nat)
    (s : AutomatonState Nat × Nat) : TextReads (cppStateText names debug dfa s) ((stateCase names dfa s).1 :: (stateCase names dfa s).2) := by
  unfold cppStateText stateCase
  have h1 : TextReads ("case ".toList ++ (decimal s.2 ++ ":\n".toList)) [.label [.word (decimal s.2)]] :=
    .label (Lexes.num (x := [.word "case".toList]) s.2 (by unfold Lexes; decide +kernel) (by decide) (c := ':') (b := ['\n']) (y := [.sym [':']])
      (by unfold Lexes; decide +kernel)) (by simp) (by simp)
  refine (h1.append (y := [_]) ?_).append textBreak
  refine .switch (by unfold Lexes; decide +kernel) (by decide) ?_ lexClose
  unfold swBody stateCases
  rw [show ∀ d : List CStmt, CStmt.dflt :: d = [CStmt.dflt] ++ d from fun _ => rfl, ← List.append_assoc, List.flatMap_append]
  refine ((TextReads.append ?_ ?_).append textDefault).append ?_
  · split
    · have : TextReads "case 0: \n".toList [.label [.word ['0']]] := .label (by unfold Lexes; decide +kernel) (by decide) (by decide)
      exact this.append textEof
    · exact .nil
  · rw [List.flatMap_map, ← flatMap_filter]
    exact .flatMap _ fun t _ => trans_text t
  · cases s.1 with
    | accepting r =>
      unfold stateDefault
      have h2 : TextReads ("//".toList ++ (" ACCEPT: ".toList ++ debug r ++ ['\n'])) [] := by
        refine .skip (Lexes.comment (s := " ACCEPT: ".toList ++ debug r) ?_ ?_)
        · intro h
          rcases List.mem_append.mp h with h | h
          · revert h; decide
          · exact (hd r).1 h
        · by_cases he : debug r = []
          · rw [he]; decide
          · rw [List.getLast?_append_of_ne_nil _ he]
            exact (hd r).2
      have h3 : TextReads "this->end_pos = this->position;\n".toList [.simple (phrase "this->end_pos = this->position")] := by
        rw [phrase_end]
        exact .simple (by unfold Lexes; decide +kernel) (by decide) (by decide)
      exact (h2.append h3).append (textRet (hn r))
    | intermediate k => exact textErr

theorem automaton_text (names debug : Nat → List Char) (hn : ∀ r, IsWord (names r)) (hd : ∀ r, '\n' ∉ debug r ∧ (debug r).getLast? ≠ some '\\') (dfa : Dfa Nat Nat) :
    TextReads (cppAutomatonText names debug dfa) (autoStmts names dfa) := by
  unfold cppAutomatonText autoStmts swBody
  refine .switch (by unfold Lexes; decide +kernel) (by decide) ?_ lexClose
  rw [List.flatMap_map, show (CStmt.dflt :: [retStmt "TK_ERR".toList]) = [CStmt.dflt] ++ [retStmt "TK_ERR".toList] from rfl, ← List.append_assoc]
  exact ((TextReads.flatMap _ fun s _ => state_text names debug hn hd dfa s).append textDefault).append textErr

/-! ## Execution -/

section Exec

variable (n : Nat) (s : NextVars)

theorem exec_ret (x : List Char) : nextMachine.exec n (retStmt x) s = .ok (.exit s x) := by
  simp [retStmt, CMachine.exec, nextMachine, nextAct]

theorem exec_break : nextMachine.exec n (.simple [.word "break".toList]) s = .ok (.brk s) := by
  simp [CMachine.exec, nextMachine, nextAct]

theorem exec_setI (k : Nat) : nextMachine.exec n (.simple [.word ['i'], .sym ['='], .word (decimal k)]) s = .ok (.next { s with i := k }) := by
  simp [CMachine.exec, nextMachine, nextAct, decimalConst_decimal]

theorem exec_setState (k : Nat) : nextMachine.exec n (.simple [.word "state".toList, .sym ['='], .word (decimal k)]) s = .ok (.next { s with state := k }) := by
  simp [CMachine.exec, nextMachine, nextAct, decimalConst_decimal]

theorem exec_declI : nextMachine.exec n (.simple [.word "uint32_t".toList, .word ['i']]) s = .ok (.next s) := by
  simp [CMachine.exec, nextMachine, nextAct]

theorem exec_phrase {p : String} {o : COut NextVars (List Char)} (h1 : nextAct (phrase p) s = nextPhrase (phrase p) s) (h2 : nextPhrase (phrase p) s = some o) :
    nextMachine.exec n (.simple (phrase p)) s = .ok o := by
  simp only [CMachine.exec, nextMachine, h1, h2]

theorem exec_noCh : nextMachine.exec n (.simple (phrase "this->ch = -1")) s = .ok (.next { s with lexer := { s.lexer with ch := none } }) := by
  refine exec_phrase n s (by rw [phrase_ch]; rfl) ?_
  unfold nextPhrase
  rw [if_neg (by decide +kernel), if_pos rfl]

theorem exec_endPos : nextMachine.exec n (.simple (phrase "this->end_pos = this->position")) s = .ok (.next { s with lexer := { s.lexer with endPos := s.lexer.position } }) := by
  refine exec_phrase n s (by rw [phrase_end]; rfl) ?_
  unfold nextPhrase
  rw [if_neg (by decide +kernel), if_neg (by decide +kernel), if_neg (by decide +kernel), if_pos rfl]

theorem phrase_state0 : phrase "uint32_t state = 0" = [.word "uint32_t".toList, .word "state".toList, .sym ['='], .word ['0']] := by decide +kernel

theorem exec_state0 : nextMachine.exec n (.simple (phrase "uint32_t state = 0")) s = .ok (.next { s with state := 0 }) := by
  refine exec_phrase n s (by rw [phrase_state0]; rfl) ?_
  unfold nextPhrase
  rw [if_pos rfl]

theorem phrase_start : phrase "this->start_pos = position" = [.word "this".toList, .sym ['-'], .sym ['>'], .word "start_pos".toList, .sym ['='], .word "position".toList] := by
  decide +kernel

theorem exec_startPos : nextMachine.exec n (.simple (phrase "this->start_pos = position")) s = .ok (.next { s with lexer := { s.lexer with startPos := s.lexer.position } }) := by
  refine exec_phrase n s (by rw [phrase_start]; rfl) ?_
  unfold nextPhrase
  rw [if_neg (by decide +kernel), if_neg (by decide +kernel), if_pos rfl]

theorem phrase_position : phrase "this->position += 1" = [.word "this".toList, .sym ['-'], .sym ['>'], .word "position".toList, .sym ['+'], .sym ['='], .word ['1']] := by
  decide +kernel

theorem exec_position : nextMachine.exec n (.simple (phrase "this->position += 1")) s = .ok (.next { s with lexer := { s.lexer with position := s.lexer.position + 1 } }) := by
  refine exec_phrase n s (by rw [phrase_position]; rfl) ?_
  unfold nextPhrase
  rw [if_neg (by decide +kernel), if_neg (by decide +kernel), if_neg (by decide +kernel), if_neg (by decide +kernel), if_pos rfl]

theorem phrase_decode : phrase "utf8_decode(this->in_chars, &this->ch, &this->err)" = [.word "utf8_decode".toList, .sym ['('], .word "this".toList, .sym ['-'], .sym ['>'],
    .word "in_chars".toList, .sym [','], .sym ['&'], .word "this".toList, .sym ['-'], .sym ['>'], .word "ch".toList, .sym [','], .sym ['&'], .word "this".toList, .sym ['-'],
    .sym ['>'], .word "err".toList, .sym [')']] := by
  decide +kernel

theorem exec_decode : nextMachine.exec n (.simple (phrase "utf8_decode(this->in_chars, &this->ch, &this->err)")) s =
    .ok (.next { s with lexer := { s.lexer with input := (utf8Decode s.lexer.input).2.2, ch := some (utf8Decode s.lexer.input).1, err := (utf8Decode s.lexer.input).2.1 } }) := by
  refine exec_phrase n s (by rw [phrase_decode]; rfl) ?_
  unfold nextPhrase
  rw [if_neg (by decide +kernel), if_neg (by decide +kernel), if_neg (by decide +kernel), if_neg (by decide +kernel), if_neg (by decide +kernel), if_pos rfl]

theorem value_ch : nextMachine.value [.word "ch".toList] s = some s.ch := by
  have : phrase "ch" = [.word "ch".toList] := by decide +kernel
  simp [nextMachine, this]

theorem value_state : nextMachine.value [.word "state".toList] s = some s.state := by
  have h : phrase "ch" = [.word "ch".toList] := by decide +kernel
  have h1 : phrase "state" = [.word "state".toList] := by decide +kernel
  simp [nextMachine, h, h1]

theorem value_i : nextMachine.value [.word ['i']] s = some s.i := by
  have h : phrase "ch" = [.word "ch".toList] := by decide +kernel
  have h1 : phrase "state" = [.word "state".toList] := by decide +kernel
  have h2 : phrase "i" = [.word "i".toList] := by decide +kernel
  simp [nextMachine, h, h1, h2]

theorem test_ch : nextMachine.test (phrase "this->ch == -1") s = some (decide (s.lexer.ch = none)) := by
  simp [nextMachine]

theorem test_err : nextMachine.test (phrase "this->err") s = some (decide (s.lexer.err ≠ 0)) := by
  have h : phrase "this->err" ≠ phrase "this->ch == -1" := by decide +kernel
  simp [nextMachine, h]

theorem test_one : nextMachine.test (phrase "1") s = some true := by
  have h : phrase "1" ≠ phrase "this->ch == -1" := by decide +kernel
  have h' : phrase "1" ≠ phrase "this->err" := by decide +kernel
  simp [nextMachine, h, h']

theorem applies_label (v k : Nat) : nextMachine.applies v (.label [.word (decimal k)]) = some (decide (k = v)) := by
  simp only [CMachine.applies, nextMachine, decimalConst_decimal]
  rfl

theorem applies_alpha (v : Nat) (r : (Nat × Nat) × Nat) : nextMachine.applies v (alphaCase r).1 = some (decide (r.1.1 ≤ v ∧ v ≤ r.1.2)) := by
  unfold alphaCase
  by_cases h : r.1.1 = r.1.2
  · simp only [if_pos h, applies_label]
    congr 1
    rw [decide_eq_decide]
    omega
  · simp only [if_neg h, CMachine.applies, nextMachine, decimalConst_decimal]
    simp

/-- at most one range contains each number -/
def Alphabet.Apart (a : Alphabet) : Prop := ∀ (v i j : Nat) (r r' : Nat × Nat), a.ranges[i]? = some r → a.ranges[j]? = some r' → r.1 ≤ v → v ≤ r.2 → r'.1 ≤ v → v ≤ r'.2 → i = j

theorem alphaPlain (r : (Nat × Nat) × Nat) : ∀ a ∈ (alphaCase r).2, a.plain = true := by
  simp [alphaCase, CStmt.plain]

theorem alphaNot (r : (Nat × Nat) × Nat) : (alphaCase r).1 ≠ .dflt := by
  unfold alphaCase
  split <;> simp

theorem exec_alpha (a : Alphabet) (ha : a.Apart) : nextMachine.execs n 0 (alphaStmts a) s =
    .ok (match getAlphabetIndex a s.ch with
    | some i => .next { s with i := i }
    | none => .exit s "TK_ERR".toList) := by
  unfold alphaStmts
  rw [CMachine.execs_cons, exec_declI]
  simp only
  rw [CMachine.execs_cons]
  unfold getAlphabetIndex
  cases hi : a.ranges.findIdx? (fun r => decide (r.1 ≤ s.ch ∧ s.ch ≤ r.2)) with
  | none =>
    rw [List.findIdx?_eq_none_iff] at hi
    rw [CMachine.exec_switch_miss n _ _ _ s _ (value_ch s) (by simp [retStmt, CStmt.plain]) ?_]
    · rw [CMachine.execs_cons, exec_ret]; rfl
    · intro c hc
      obtain ⟨r, hr, rfl⟩ := List.mem_map.mp hc
      refine ⟨alphaNot r, ?_, alphaPlain r⟩
      rw [applies_alpha]
      have : r.1 ∈ a.ranges := by
        have := List.mem_zipIdx hr
        rw [this.2.2]
        exact List.getElem_mem _
      have := hi r.1 this
      simpa using this
  | some i =>
    obtain ⟨hlt, h1, h2⟩ := List.findIdx?_eq_some_iff_getElem.mp hi
    have e : a.ranges.zipIdx.map alphaCase = ((a.ranges.zipIdx.take i).map alphaCase) ++ alphaCase (a.ranges[i], i) :: ((a.ranges.zipIdx.drop (i + 1)).map alphaCase) := by
      rw [← List.map_cons, ← List.map_append]
      congr 1
      have : (a.ranges[i], i) = a.ranges.zipIdx[i]'(by simpa using hlt) := by simp
      rw [this, ← List.drop_eq_getElem_cons, List.take_append_drop]
    simp only [decide_eq_true_eq] at h1
    have other : ∀ j, j ≠ i → ∀ r, a.ranges[j]? = some r → nextMachine.applies s.ch (alphaCase (r, j)).1 = some false := by
      intro j hj r hr
      rw [applies_alpha]
      simp only [Option.some.injEq, decide_eq_false_iff_not]
      intro h
      exact hj (ha s.ch j i r a.ranges[i] hr (by simp [hlt]) h.1 h.2 h1.1 h1.2)
    rw [e, CMachine.exec_switch_hit n _ _ _ _ _ s _ (.ok (.brk { s with i := i })) (value_ch s) ?_ (alphaNot _) ?_ ?_ ?_ ?_ (by simp)]
    · simp [afterSwitch, CMachine.execs_nil]
    · rw [applies_alpha]
      simpa using h1
    · intro x hx
      rcases List.mem_append.mp hx with hx | hx
      · exact alphaPlain _ x hx
      · simp at hx; subst hx; rfl
    · intro c hc
      obtain ⟨r, hr, rfl⟩ := List.mem_map.mp hc
      obtain ⟨k, hk, rfl⟩ := List.getElem_of_mem hr
      refine ⟨?_, alphaPlain _⟩
      simp only [List.length_take, List.length_zipIdx] at hk
      have := other k (by omega) (a.ranges[k]'(by omega)) (by simp)
      simpa using this
    · intro c hc
      obtain ⟨r, hr, rfl⟩ := List.mem_map.mp hc
      obtain ⟨k, hk, rfl⟩ := List.getElem_of_mem hr
      refine ⟨?_, alphaPlain _⟩
      simp only [List.length_drop, List.length_zipIdx] at hk
      have := other (i + 1 + k) (by omega) (a.ranges[i + 1 + k]'(by omega)) (by simp)
      simpa using this
    · unfold alphaCase
      simp only
      rw [CMachine.execs_cons, exec_setI]
      simp only
      rw [CMachine.execs_cons, exec_break]

/-- what a step of the automaton does to the variables -/
def stepOut (names : Nat → List Char) (s : NextVars) : CppStep → COut NextVars (List Char)
  | .ret tok setEnd => .exit { s with lexer := if setEnd then { s.lexer with endPos := s.lexer.position } else s.lexer } (cppTokenName names tok)
  | .advance q => .next { s with lexer := { s.lexer with ch := none }, state := q }

/-- cases of a state, by number -/
def stateKeys (dfa : Dfa Nat Nat) (q : Nat) : List (Nat × List CStmt) :=
  (if q = 0 then [(0, [retStmt "TK_EOF".toList])] else []) ++ ((dfa.transitionsFrom q).filter (fun t => t.1 ≠ 0)).map (fun t => (t.1, (transCase t).2))

/-- label with a number -/
def numLabel (k : Nat) : CStmt := .label [.word (decimal k)]

theorem stateCases_keys (dfa : Dfa Nat Nat) (q : Nat) : stateCases dfa q = (stateKeys dfa q).map (fun c => (numLabel c.1, c.2)) := by
  unfold stateCases stateKeys
  rw [List.map_append, List.map_map]
  congr 1
  split
  · simp only [List.map_cons, List.map_nil, numLabel]
    rw [show decimal 0 = ['0'] by decide +kernel]
  · rfl

theorem exec_trans (t : Nat × Nat) : nextMachine.execs n 0 (transCase t).2 s = .ok (.brk { s with lexer := { s.lexer with ch := none }, state := t.2 }) := by
  unfold transCase
  simp only
  rw [CMachine.execs_cons, exec_noCh]
  simp only
  rw [CMachine.execs_cons, exec_setState]
  simp only
  rw [CMachine.execs_cons, exec_break]

theorem exec_default (names : Nat → List Char) (node : AutomatonState Nat) : nextMachine.execs n 0 (stateDefault names node) s =
    .ok (stepOut names s (match node with | .accepting rule => .ret (.token rule) true | .intermediate _ => .ret .err false)) := by
  cases node with
  | accepting r =>
    unfold stateDefault
    rw [CMachine.execs_cons, exec_endPos]
    simp only
    rw [CMachine.execs_cons, exec_ret]
    rfl
  | intermediate r =>
    unfold stateDefault
    rw [CMachine.execs_cons, exec_ret]
    rfl

theorem exec_state (names : Nat → List Char) (dfa : Dfa Nat Nat) (hdet : ((dfa.transitionsFrom s.state).map (·.1)).Nodup) (node : AutomatonState Nat)
    (hnode : dfa.graph.nodes[s.state]? = some node) :
    nextMachine.exec n (.switch [.word ['i']] (swBody (stateCases dfa s.state) (stateDefault names node))) s = .ok (stepOut names s (cppStateSwitch dfa s.state s.i)) := by
  rw [stateCases_keys, nextMachine.exec_switch_find n numLabel id _ _ _ s s.i (value_i s) ?_ (by simp [numLabel]) (fun c _ => applies_label s.i c.1) ?_ ?_ ?_]
  · unfold cppStateSwitch
    simp only [hnode, stateKeys, List.find?_append, id_eq]
    by_cases h0 : s.state = 0 ∧ s.i = 0
    · simp only [h0, and_self, if_true]
      simp only [List.find?_cons, decide_true, Option.some_or]
      rw [CMachine.execs_cons, exec_ret]
      rfl
    · rw [if_neg h0]
      have h1 : List.find? (fun c : Nat × List CStmt => decide (c.1 = s.i)) (if s.state = 0 then [(0, [retStmt "TK_EOF".toList])] else []) = none := by
        split
        · rename_i h
          have : ¬ 0 = s.i := fun e => h0 ⟨h, e.symm⟩
          simp [this]
        · rfl
      rw [h1, Option.none_or, List.find?_map, List.find?_filter]
      have h2 : (fun a : Nat × Nat => decide (decide (a.1 ≠ 0) = true ∧ ((fun c : Nat × List CStmt => decide (c.1 = s.i)) ∘ fun t : Nat × Nat => (t.1, (transCase t).2)) a = true)) =
          fun tt => decide (tt.1 ≠ 0 ∧ tt.1 = s.i) := by
        funext a; simp
      rw [h2]
      cases hf : (dfa.transitionsFrom s.state).find? (fun tt => decide (tt.1 ≠ 0 ∧ tt.1 = s.i)) with
      | none =>
        simp only [Option.map_none]
        rw [exec_default]
        cases node <;> rfl
      | some t =>
        simp only [Option.map_some]
        rw [exec_trans]
        rfl
  · unfold stateKeys
    rw [List.map_append, List.map_map]
    have h1 : (((dfa.transitionsFrom s.state).filter (fun t => t.1 ≠ 0)).map ((fun c : Nat × List CStmt => id c.1) ∘ fun t => (t.1, (transCase t).2))).Nodup :=
      hdet.sublist (List.filter_sublist.map _)
    split
    · simp only [List.map_cons, List.map_nil, List.singleton_append, List.nodup_cons]
      refine ⟨?_, h1⟩
      intro h
      obtain ⟨t, ht, he⟩ := List.mem_map.mp h
      have := (List.mem_filter.mp ht).2
      simp only [Function.comp_def, id_eq] at he
      simp [he] at this
    · simpa using h1
  · intro c hc a ha
    unfold stateKeys at hc
    rcases List.mem_append.mp hc with hc | hc
    · split at hc
      · simp at hc; subst hc; simp at ha; subst ha; rfl
      · simp at hc
    · obtain ⟨t, -, rfl⟩ := List.mem_map.mp hc
      simp [transCase] at ha
      rcases ha with rfl | rfl | rfl <;> rfl
  · intro a ha
    cases node <;> simp [stateDefault] at ha
    · rcases ha with rfl | rfl <;> rfl
    · subst ha; rfl
  · intro c hc _ s'
    unfold stateKeys at hc
    rcases List.mem_append.mp hc with hc | hc
    · split at hc
      · simp at hc; subst hc
        simp only
        rw [CMachine.execs_cons, exec_ret]; simp
      · simp at hc
    · obtain ⟨t, -, rfl⟩ := List.mem_map.mp hc
      simp only
      rw [exec_trans]; simp

/-- states, by number -/
def autoKeys (names : Nat → List Char) (dfa : Dfa Nat Nat) : List (Nat × List CStmt) :=
  dfa.graph.nodes.zipIdx.map (fun x => (x.2, (stateCase names dfa x).2))

theorem find_zipIdx {α : Type} (l : List α) (v : Nat) : l.zipIdx.find? (fun x => decide (x.2 = v)) = l[v]?.map (fun a => (a, v)) := by
  cases h : l[v]? with
  | none =>
    rw [Option.map_none, List.find?_eq_none]
    intro x hx
    obtain ⟨h1, h2, h3⟩ := List.mem_zipIdx hx
    simp only [decide_eq_true_eq]
    rw [List.getElem?_eq_none_iff] at h
    omega
  | some a =>
    obtain ⟨hlt, rfl⟩ := List.getElem?_eq_some_iff.mp h
    rw [Option.map_some, List.find?_eq_some_iff_getElem]
    refine ⟨by simp, v, by simpa using hlt, by simp, ?_⟩
    intro j hj
    simp only [List.getElem_zipIdx]
    simp; omega

theorem exec_auto (names : Nat → List Char) (dfa : Dfa Nat Nat) (hdet : ∀ q, ((dfa.transitionsFrom q).map (·.1)).Nodup) :
    nextMachine.execs n 0 (autoStmts names dfa) s = .ok (stepOut names s (cppStateSwitch dfa s.state s.i)) := by
  unfold autoStmts
  have e : dfa.graph.nodes.zipIdx.map (stateCase names dfa) = (autoKeys names dfa).map (fun c => (numLabel c.1, c.2)) := by
    unfold autoKeys
    rw [List.map_map]
    rfl
  have body : ∀ x ∈ dfa.graph.nodes.zipIdx, x.2 = s.state → nextMachine.execs n 0 (stateCase names dfa x).2 s =
      .ok (match stepOut names s (cppStateSwitch dfa s.state s.i) with | .next s' => .brk s' | r => r) := by
    intro x hx he
    have hnode : dfa.graph.nodes[s.state]? = some x.1 := by
      obtain ⟨h1, h2, h3⟩ := List.mem_zipIdx hx
      rw [← he, List.getElem?_eq_some_iff]
      exact ⟨by omega, by rw [h3]; simp⟩
    unfold stateCase
    simp only
    rw [CMachine.execs_cons, he, exec_state n s names dfa (hdet _) x.1 hnode]
    cases hs : cppStateSwitch dfa s.state s.i with
    | ret tok se => simp [stepOut]
    | advance q =>
      simp only [stepOut]
      rw [CMachine.execs_cons, exec_break]
  rw [CMachine.execs_cons, e, nextMachine.exec_switch_find n numLabel id _ _ _ s s.state (value_state s) ?_ (by simp [numLabel]) (fun c _ => applies_label s.state c.1) ?_ ?_ ?_]
  · unfold autoKeys
    rw [List.find?_map]
    have := find_zipIdx dfa.graph.nodes s.state
    simp only [Function.comp_def, id_eq]
    rw [this]
    cases hn : dfa.graph.nodes[s.state]? with
    | none =>
      simp only [Option.map_none]
      rw [CMachine.execs_cons, exec_ret]
      simp only [cppStateSwitch, hn]
      rfl
    | some node =>
      simp only [Option.map_some]
      rw [body (node, s.state) (by
        obtain ⟨hlt, rfl⟩ := List.getElem?_eq_some_iff.mp hn
        rw [List.mem_iff_getElem]
        exact ⟨s.state, by simpa using hlt, by simp⟩) rfl]
      cases cppStateSwitch dfa s.state s.i with
      | ret tok se => simp [stepOut, afterSwitch]
      | advance q => simp [stepOut, afterSwitch, CMachine.execs_nil]
  · unfold autoKeys
    rw [List.map_map]
    simp only [Function.comp_def, id_eq]
    rw [List.zipIdx_map_snd]
    exact List.nodup_range'
  · intro c hc a ha
    obtain ⟨x, -, rfl⟩ := List.mem_map.mp hc
    simp [stateCase] at ha
    rcases ha with rfl | rfl <;> rfl
  · intro a ha; simp at ha; subst ha; rfl
  · intro c hc he s'
    obtain ⟨x, hx, rfl⟩ := List.mem_map.mp hc
    rw [body x hx he]
    cases stepOut names s (cppStateSwitch dfa s.state s.i) <;> simp

/-- the statements of the loop -/
def roundStmts (names : Nat → List Char) (t : LexerTables) : List CStmt :=
  [.cond (phrase "this->ch == -1") (.block [.simple (phrase "utf8_decode(this->in_chars, &this->ch, &this->err)")]) (.block []),
    .cond (phrase "this->err") (.block [retStmt "TK_ERR".toList]) (.block [])] ++ (alphaStmts t.alphabet ++ (autoStmts names t.dfa ++ [.simple (phrase "this->position += 1")]))

/-- the statements of `next` -/
def nextStmts (names : Nat → List Char) (t : LexerTables) : List CStmt :=
  [.simple (phrase "uint32_t state = 0"), .simple (phrase "this->start_pos = position"), .loop (phrase "1") (.block (roundStmts names t)), retStmt "TK_ERR".toList]

theorem exec_read : nextMachine.exec n (.cond (phrase "this->ch == -1") (.block [.simple (phrase "utf8_decode(this->in_chars, &this->ch, &this->err)")]) (.block [])) s =
    .ok (.next { s with lexer := (cppRead s.lexer).2 }) := by
  simp only [CMachine.exec]
  rw [test_ch]
  unfold cppRead
  cases h : s.lexer.ch with
  | some c =>
    simp [CMachine.exec, CMachine.execs_nil]
  | none =>
    simp only [decide_true, CMachine.exec]
    rw [CMachine.execs_cons, exec_decode]
    simp [CMachine.execs_nil]

theorem ch_read : (cppRead s.lexer).1 = ({ s with lexer := (cppRead s.lexer).2 } : NextVars).ch := by
  unfold cppRead NextVars.ch
  cases h : s.lexer.ch <;> simp [h]

theorem exec_err : nextMachine.exec n (.cond (phrase "this->err") (.block [retStmt "TK_ERR".toList]) (.block [])) s =
    .ok (if s.lexer.err ≠ 0 then .exit s "TK_ERR".toList else .next s) := by
  simp only [CMachine.exec]
  rw [test_err]
  by_cases h : s.lexer.err = 0
  · simp [h, CMachine.exec, CMachine.execs_nil]
  · simp only [ne_eq, h, not_false_eq_true, decide_true, if_true, CMachine.exec]
    rw [CMachine.execs_cons, exec_ret]

/-- one round of the loop -/
theorem exec_round (names : Nat → List Char) (t : LexerTables) (ha : t.alphabet.Apart) (hdet : ∀ q, ((t.dfa.transitionsFrom q).map (·.1)).Nodup) :
    nextMachine.exec n (.block (roundStmts names t)) s =
      .ok (let s' : NextVars := { s with lexer := (cppRead s.lexer).2 }
        if s'.lexer.err ≠ 0 then .exit s' "TK_ERR".toList
        else match getAlphabetIndex t.alphabet (cppRead s.lexer).1 with
          | none => .exit s' "TK_ERR".toList
          | some i =>
            match stepOut names { s' with i := i } (cppStateSwitch t.dfa s.state i) with
            | .next s'' => .next { s'' with lexer := { s''.lexer with position := s''.lexer.position + 1 } }
            | r => r) := by
  simp only [CMachine.exec]
  unfold roundStmts
  rw [List.cons_append, CMachine.execs_cons, exec_read]
  simp only
  rw [List.cons_append, CMachine.execs_cons, exec_err]
  simp only
  by_cases he : (cppRead s.lexer).2.err = 0
  · simp only [he, ne_eq, not_true_eq_false, if_false, List.nil_append]
    rw [CMachine.execs_append, exec_alpha _ _ _ ha, ← ch_read]
    cases getAlphabetIndex t.alphabet (cppRead s.lexer).1 with
    | none => rfl
    | some i =>
      simp only
      rw [CMachine.execs_append, exec_auto _ _ _ _ hdet]
      simp only
      cases cppStateSwitch t.dfa s.state i with
      | ret tok se => simp [stepOut]
      | advance q =>
        simp only [stepOut]
        rw [CMachine.execs_cons, exec_position]
        simp [CMachine.execs_nil]
  · simp [he]

end Exec

/-- the loop of `next` -/
theorem exec_loop (n : Nat) (names : Nat → List Char) (t : LexerTables) (ha : t.alphabet.Apart) (hdet : ∀ q, ((t.dfa.transitionsFrom q).map (·.1)).Nodup) (k : Nat) (s : NextVars) :
    match cppLoop t k s.state s.lexer with
    | .error e => whileLoop (nextMachine.test (phrase "1")) (fun s => nextMachine.exec n (.block (roundStmts names t)) s) k s = .error e
    | .ok (tok, l) => ∃ s', whileLoop (nextMachine.test (phrase "1")) (fun s => nextMachine.exec n (.block (roundStmts names t)) s) k s = .ok (.exit s' (cppTokenName names tok)) ∧
        s'.lexer = l := by
  induction k generalizing s with
  | zero => simp [cppLoop, whileLoop]
  | succ k ih =>
    unfold cppLoop whileLoop
    rw [test_one]
    simp only
    rw [exec_round n s names t ha hdet]
    simp only
    by_cases he : (cppRead s.lexer).2.err = 0
    · have he' : ¬ (cppRead s.lexer).2.err ≠ 0 := by simp [he]
      simp only [if_neg he']
      cases getAlphabetIndex t.alphabet (cppRead s.lexer).1 with
      | none => exact ⟨_, rfl, rfl⟩
      | some i =>
        simp only
        cases cppStateSwitch t.dfa s.state i with
        | ret tok se => exact ⟨_, rfl, rfl⟩
        | advance q =>
          simp only [stepOut]
          exact ih ⟨{ (cppRead s.lexer).2 with ch := none, position := (cppRead s.lexer).2.position + 1 }, q, i⟩
    · simp only [he, ne_eq, not_false_eq_true, if_true]
      exact ⟨_, rfl, rfl⟩

/-- calling `next` -/
theorem run_next (names : Nat → List Char) (t : LexerTables) (ha : t.alphabet.Apart) (hdet : ∀ q, ((t.dfa.transitionsFrom q).map (·.1)).Nodup) (n : Nat) (l : CppLexer) :
    runNext (nextStmts names t) n l = (CppLexer.next t n l).map (fun x => (cppTokenName names x.1, x.2)) := by
  unfold runNext nextStmts CppLexer.next
  rw [CMachine.execs_cons, exec_state0]
  simp only
  rw [CMachine.execs_cons, exec_startPos]
  simp only
  rw [CMachine.execs_cons, show ∀ c a s, nextMachine.exec n (.loop c a) s = whileLoop (nextMachine.test c) (fun s => nextMachine.exec n a s) n s from fun _ _ _ => by rw [CMachine.exec]]
  have := exec_loop n names t ha hdet n ⟨{ l with startPos := l.position }, 0, 0⟩
  simp only at this
  cases h : cppLoop t n 0 { l with startPos := l.position } with
  | error e =>
    rw [h] at this
    rw [this]
    rfl
  | ok x =>
    obtain ⟨tok, l'⟩ := x
    rw [h] at this
    obtain ⟨s', h1, h2⟩ := this
    rw [h1]
    subst h2
    rfl

/-! ## The file -/

/-- the template before the first marker -/
def lexTplA : List Char := ((nextMatch lexerImplTemplate.text).getD ([], [], [])).1
def lexTplA' : List Char := ((nextMatch lexerImplTemplate.text).getD ([], [], [])).2.2
/-- the template between the markers -/
def lexTplB : List Char := ((nextMatch lexTplA').getD ([], [], [])).1
/-- the template after the second marker -/
def lexTplC : List Char := ((nextMatch lexTplA').getD ([], [], [])).2.2

theorem lexTpl1 : nextMatch lexerImplTemplate.text = some (lexTplA, "alphabet_switch".toList, lexTplA') := by decide +kernel
theorem lexTpl2 : nextMatch lexTplA' = some (lexTplB, "automaton_switch".toList, lexTplC) := by decide +kernel
theorem lexTpl3 : nextMatch lexTplC = none := by decide +kernel
theorem lexTplLength : 2 ≤ lexerImplTemplate.text.length := by decide +kernel

theorem get_two (a b : List Char) (wa wb : List Char × Bool) (h : b ≠ a) :
    (substitute b wb (substitute a wa [])).get a = some wa ∧ (substitute b wb (substitute a wa [])).get b = some wb := by
  simp [Substitutions.get, substitute, h, Ne.symm h]

theorem lexer_file (rules : List TokenRule) (debug : Nat → List Char) (t : LexerTables) : cppLexerFile rules debug t =
    (lexTplA ++ (cppAlphabetText t.alphabet ++ (lexTplB ++ (cppAutomatonText (ruleName rules) debug t.dfa ++ lexTplC))), .ok) := by
  unfold cppLexerFile writeTemplate
  obtain ⟨m, hm⟩ := Nat.exists_eq_add_of_le lexTplLength
  rw [hm, show 2 + m = m + 1 + 1 by omega]
  have e1 : trim "alphabet_switch".toList = "alphabet_switch".toList := by decide +kernel
  have e2 : trim "automaton_switch".toList = "automaton_switch".toList := by decide +kernel
  have n : "automaton_switch".toList ≠ "alphabet_switch".toList := by decide +kernel
  rw [writeTemplate_next lexTpl1 (by rw [e1]; exact (get_two _ _ _ _ n).1)
    (writeTemplate_next lexTpl2 (by rw [e2]; exact (get_two _ _ _ _ n).2) (writeTemplate_last lexTpl3 m))]
  simp only [List.append_assoc]

/-- the tokens of the template before the first marker -/
def lexTokA : List CTok := ((cLexRun .base lexTplA).getD ([], .base)).1

theorem lexTokA_lexes : Lexes lexTplA lexTokA := by unfold Lexes; decide +kernel
theorem lexTplB_lexes : Lexes lexTplB [] := by unfold Lexes; decide +kernel
theorem lexTplC_lexes : Lexes lexTplC (phrase "this->position += 1" ++ [.sym [';']] ++ [.sym ['}']] ++ (([.word "return".toList, .word "TokenType".toList, .sym [':', ':'], .word "TK_ERR".toList] ++ [.sym [';']]) ++
    .sym ['}'] :: [.sym ['}']])) := by unfold Lexes; decide +kernel

theorem lexTokA_after : afterPhrase (phrase "TokenType Lexer::next() {") lexTokA = some
    (phrase "uint32_t state = 0" ++ [.sym [';']] ++ (phrase "this->start_pos = position" ++ [.sym [';']] ++ ([.word "while".toList, .sym ['(']] ++ (phrase "1" ++ ([.sym [')'], .sym ['{']] ++
      ([.word "if".toList, .sym ['(']] ++ (phrase "this->ch == -1" ++ ([.sym [')'], .sym ['{']] ++ (phrase "utf8_decode(this->in_chars, &this->ch, &this->err)" ++ [.sym [';']] ++ ([.sym ['}']] ++
      ([.word "if".toList, .sym ['(']] ++ (phrase "this->err" ++ ([.sym [')'], .sym ['{']] ++ ([.word "return".toList, .word "TokenType".toList, .sym [':', ':'], .word "TK_ERR".toList] ++ [.sym [';']] ++
      [.sym ['}']])))))))))))))) := by
  decide +kernel

theorem lexer_reads (rules : List TokenRule) (debug : Nat → List Char) (t : LexerTables) (hn : ∀ r, IsWord (ruleName rules r))
    (hd : ∀ r, '\n' ∉ debug r ∧ (debug r).getLast? ≠ some '\\') :
    readFunction (phrase "TokenType Lexer::next() {") (cppLexerFile rules debug t).1 = some (nextStmts (ruleName rules) t) := by
  rw [lexer_file]
  obtain ⟨xa, ha1, ha2⟩ := alphabet_text t.alphabet
  obtain ⟨xb, hb1, hb2⟩ := automaton_text (ruleName rules) debug hn hd t.dfa
  have lx := ha1.append (lexTplB_lexes.append (hb1.append lexTplC_lexes))
  refine readFunction_of (body := xa ++ (xb ++ (phrase "this->position += 1" ++ [.sym [';']] ++ [.sym ['}']] ++ ([.word "return".toList, .word "TokenType".toList, .sym [':', ':'], .word "TK_ERR".toList] ++ [.sym [';']]))))
    (tail := [.sym ['}']]) lexTokA_lexes lexTokA_after (by simpa using lx) ?_
  have r1 : Reads (phrase "uint32_t state = 0" ++ [.sym [';']]) (.simple (phrase "uint32_t state = 0")) := readsSimple (by decide +kernel)
  have r2 : Reads (phrase "this->start_pos = position" ++ [.sym [';']]) (.simple (phrase "this->start_pos = position")) := readsSimple (by decide +kernel)
  have r3 : Reads (phrase "utf8_decode(this->in_chars, &this->ch, &this->err)" ++ [.sym [';']]) (.simple (phrase "utf8_decode(this->in_chars, &this->ch, &this->err)")) :=
    readsSimple (by decide +kernel)
  have r4 : Reads ([.word "return".toList, .word "TokenType".toList, .sym [':', ':'], .word "TK_ERR".toList] ++ [.sym [';']]) (retStmt "TK_ERR".toList) := readsSimple (by decide +kernel)
  have r5 : Reads (phrase "this->position += 1" ++ [.sym [';']]) (.simple (phrase "this->position += 1")) := readsSimple (by decide +kernel)
  have c1 := Reads.cond (c := phrase "this->ch == -1") (by decide +kernel) (.block (.one r3))
  have c2 := Reads.cond (c := phrase "this->err") (by decide +kernel) (.block (.one r4))
  have body := ReadsL.append (.append (.one c1) (.one c2)) (ha2.append (hb2.append (.one r5)))
  have lp := Reads.loop (c := phrase "1") (by decide +kernel) (.block body)
  have all := ReadsL.append (.one r1) (.append (.one r2) (.append (.one lp) (.one r4)))
  have e : nextStmts (ruleName rules) t = [.simple (phrase "uint32_t state = 0")] ++ ([.simple (phrase "this->start_pos = position")] ++ ([.loop (phrase "1") (.block (roundStmts (ruleName rules) t))] ++
    [retStmt "TK_ERR".toList])) := rfl
  rw [e]
  convert all using 1
  · simp only [List.cons_append, List.append_assoc, List.nil_append]
  · rfl

end Verif
