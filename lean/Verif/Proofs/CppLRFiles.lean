import Verif.Proofs.CppLRDriver

/-! # The text of the C++ LR parser: the files -/

set_option autoImplicit false

namespace Verif

/-! ## Finding functions -/

/-- a phrase neither lies in a text nor begins there -/
def apart (p : List CTok) : List CTok → Bool
  | [] => true
  | x :: a => !p.isPrefixOf (x :: a) && !(x :: a).isPrefixOf p && apart p a

theorem afterPhrase_apart {p a b : List CTok} (h : apart p a = true) : afterPhrase p (a ++ b) = afterPhrase p b := by
  induction a with
  | nil => rfl
  | cons x a ih =>
    simp only [apart, Bool.and_eq_true, Bool.not_eq_true'] at h
    obtain ⟨⟨h1, h2⟩, h3⟩ := h
    rw [List.cons_append, afterPhrase, if_neg, ih h3]
    intro hp
    rw [← List.cons_append] at hp
    by_cases hl : p.length ≤ (x :: a).length
    · rw [isPrefixOf_append_long _ _ _ hl, h1] at hp
      exact Bool.false_ne_true hp
    · have h4 := List.prefix_of_prefix_length_le (List.prefix_append (x :: a) b) (List.isPrefixOf_iff_prefix.mp hp) (by omega)
      rw [List.isPrefixOf_iff_prefix.mpr h4] at h2
      exact Bool.false_ne_true h2.symm

theorem readFunction_toks {head body tail ts : List CTok} {file : List Char} {ss : List CStmt} (h1 : Lexes file ts) (h2 : afterPhrase head ts = some (body ++ .sym ['}'] :: tail))
    (h3 : ReadsL body ss) : readFunction head file = some ss := by
  unfold readFunction
  rw [cLex_of h1]
  simp only [Option.bind_eq_bind, Option.bind_some]
  rw [h2]
  simp only [Option.bind_some]
  rw [readStmts_of h3 _ (by simp; omega) (.sym ['}'] :: tail) rfl]
  simp [expect_self]

/-! ## Enumerations -/

/-- enumerators without values -/
def enumToks (ws : List (List Char)) : List CTok := ws.flatMap fun w => [.word w, .sym [',']]

theorem enumToks_length (ws : List (List Char)) : (enumToks ws).length = 2 * ws.length := by
  induction ws with
  | nil => rfl
  | cons w ws ih =>
    show (CTok.word w :: CTok.sym [','] :: enumToks ws).length = _
    simp only [List.length_cons, ih]
    omega

theorem readEnumerators_words (ws : List (List Char)) (fuel n : Nat) (hf : ws.length ≤ fuel) (tail : List CTok) :
    readEnumerators fuel n (enumToks ws ++ .sym ['}'] :: tail) = some (ws.zipIdx n) := by
  induction ws generalizing fuel n with
  | nil => cases fuel <;> rfl
  | cons w ws ih =>
    cases fuel with
    | zero => simp at hf
    | succ fuel =>
      have := ih fuel (n + 1) (by simpa using hf)
      show readEnumerators (fuel + 1) n (.word w :: .sym [','] :: (enumToks ws ++ .sym ['}'] :: tail)) = _
      rw [readEnumerators, this]
      rfl

theorem enumToks_lexes (ws : List (List Char)) (hw : ∀ w ∈ ws, IsWord w ∧ w ≠ []) : Lexes (ws.flatMap fun w => w ++ ",\n".toList) (enumToks ws) :=
  .flatMap ws fun w h => Lexes.word (hw w h).2 (hw w h).1 (c := ',') (by decide) (by unfold Lexes; decide +kernel)

/-! ## The templates -/

/-- a text with markers: what is before the first -/
def tplBefore (t : List Char) : List Char := ((nextMatch t).getD ([], [], [])).1
/-- what is after it -/
def tplAfter (t : List Char) : List Char := ((nextMatch t).getD ([], [], [])).2.2

theorem get_sub_self (k : List Char) (w : List Char × Bool) (s : Substitutions) : (substitute k w s).get k = some w := by simp [Substitutions.get, substitute]

theorem get_sub_ne {k k' : List Char} (w : List Char × Bool) (s : Substitutions) (h : k' ≠ k) : (substitute k' w s).get k = s.get k := by
  simp only [Substitutions.get, substitute, List.find?_cons, decide_eq_false h, List.find?_filter]
  congr 2
  funext a
  by_cases e : a.1 = k
  · simp [e, Ne.symm h]
  · simp [e]

theorem template_one (t : List Char) (k : List Char) (w : List Char) (h1 : nextMatch t = some (tplBefore t, k, tplAfter t)) (hk : trim k = k)
    (h2 : nextMatch (tplAfter t) = none) (hl : 1 ≤ t.length) : writeTemplate (substitute k (w, true) []) t = (tplBefore t ++ (w ++ tplAfter t), .ok) := by
  unfold writeTemplate
  obtain ⟨m, hm⟩ := Nat.exists_eq_add_of_le hl
  rw [hm, show 1 + m = m + 1 by omega]
  rw [writeTemplate_next (w := w) h1 (by rw [hk]; exact get_sub_self _ _ _) (writeTemplate_last h2 m)]
  simp only [List.append_assoc]

theorem template_three (t : List Char) (k1 k2 k3 : List Char) (w1 w2 w3 : List Char) (s : Substitutions)
    (g1 : s.get k1 = some (w1, true)) (g2 : s.get k2 = some (w2, true)) (g3 : s.get k3 = some (w3, true))
    (h1 : nextMatch t = some (tplBefore t, k1, tplAfter t)) (hk1 : trim k1 = k1)
    (h2 : nextMatch (tplAfter t) = some (tplBefore (tplAfter t), k2, tplAfter (tplAfter t))) (hk2 : trim k2 = k2)
    (h3 : nextMatch (tplAfter (tplAfter t)) = some (tplBefore (tplAfter (tplAfter t)), k3, tplAfter (tplAfter (tplAfter t)))) (hk3 : trim k3 = k3)
    (h4 : nextMatch (tplAfter (tplAfter (tplAfter t))) = none) (hl : 3 ≤ t.length) :
    writeTemplate s t = (tplBefore t ++ (w1 ++ (tplBefore (tplAfter t) ++ (w2 ++ (tplBefore (tplAfter (tplAfter t)) ++ (w3 ++ tplAfter (tplAfter (tplAfter t))))))), .ok) := by
  unfold writeTemplate
  obtain ⟨m, hm⟩ := Nat.exists_eq_add_of_le hl
  rw [hm, show 3 + m = m + 1 + 1 + 1 by omega]
  rw [writeTemplate_next h1 (by rw [hk1]; exact g1) (writeTemplate_next h2 (by rw [hk2]; exact g2) (writeTemplate_next h3 (by rw [hk3]; exact g3) (writeTemplate_last h4 m)))]
  simp only [List.append_assoc]

/-- tokens of a part of a template -/
def tplToks (t : List Char) : List CTok := ((cLexRun .base t).getD ([], .base)).1

/-! ### `tokens.h` -/

def tokHA : List Char := tplBefore tokensHeaderTemplate.text
def tokHB : List Char := tplAfter tokensHeaderTemplate.text

theorem tokensH_file (names : List (List Char)) : cppTokensHeaderFile names = (tokHA ++ (cppTokenEnumText names ++ tokHB), .ok) :=
  template_one _ _ _ (by decide +kernel) (by decide +kernel) (by decide +kernel) (by decide +kernel)

theorem tokHA_lexes : Lexes tokHA (tplToks tokHA) := by unfold Lexes; decide +kernel
theorem tokHB_lexes : Lexes tokHB (.sym ['}'] :: (tplToks tokHB).tail) := by unfold Lexes; decide +kernel
theorem tokHA_after : afterPhrase (phrase "enum class TokenType : uint32_t {") (tplToks tokHA) = some
    [.word "TK_ERR".toList, .sym ['='], .word ['0'], .sym [','], .word "TK_EOF".toList, .sym ['='], .word ['1'], .sym [',']] := by decide +kernel

theorem tokens_enum (names : List (List Char)) (hn : ∀ n ∈ names, IsWord n) (hd : (cppTokenVariants names).Nodup) :
    readEnum (phrase "enum class TokenType : uint32_t {") (cppTokensHeaderFile names).1 = some (cppTokenVariants names).zipIdx := by
  rw [tokensH_file]
  unfold readEnum
  have h1 : Lexes (cppTokenEnumText names) (enumToks (names.map ("TK_".toList ++ ·))) := by
    have := enumToks_lexes (names.map ("TK_".toList ++ ·)) (by
      intro w hw
      obtain ⟨n, h, rfl⟩ := List.mem_map.mp hw
      have := isLabel_tk (hn n h)
      exact ⟨this.1, this.ne⟩)
    rwa [List.flatMap_map] at this
  rw [cLex_of (tokHA_lexes.append (h1.append tokHB_lexes))]
  simp only [Option.bind_eq_bind, Option.bind_some]
  rw [afterPhrase_append _ tokHA_after]
  simp only [Option.bind_some]
  have h2 : ∀ fuel tail, names.length ≤ fuel → readEnumerators (fuel + 2) 0 ([.word "TK_ERR".toList, .sym ['='], .word ['0'], .sym [','], .word "TK_EOF".toList, .sym ['='], .word ['1'], .sym [',']] ++
      (enumToks (names.map ("TK_".toList ++ ·)) ++ .sym ['}'] :: tail)) = some (cppTokenVariants names).zipIdx := by
    intro fuel tail hf
    have h3 := readEnumerators_words (names.map ("TK_".toList ++ ·)) fuel 2 (by simpa using hf) tail
    simp only [List.cons_append, List.nil_append]
    rw [readEnumerators, show decimalConst [.word ['0']] = some 0 by decide +kernel]
    simp only [Option.bind_eq_bind, Option.bind_some]
    rw [readEnumerators, show decimalConst [.word ['1']] = some 1 by decide +kernel]
    simp only [Option.bind_eq_bind, Option.bind_some]
    rw [h3]
    rfl
  obtain ⟨m, hm⟩ : ∃ m, names.length ≤ m ∧ (([.word "TK_ERR".toList, .sym ['='], .word ['0'], .sym [','], .word "TK_EOF".toList, .sym ['='], .word ['1'], .sym [',']] : List CTok) ++
      (enumToks (names.map ("TK_".toList ++ ·)) ++ .sym ['}'] :: (tplToks tokHB).tail)).length = m + 2 := by
    refine ⟨6 + (2 * names.length + (1 + (tplToks tokHB).tail.length)), by omega, ?_⟩
    simp only [List.length_append, enumToks_length, List.length_cons, List.length_map, List.length_nil]
    omega
  rw [hm.2, h2 m _ hm.1]
  simp only [Option.bind_some]
  rw [if_pos]
  simpa using hd

/-! ### `tokens.cpp` -/

def tokCA : List Char := tplBefore tokensImplTemplate.text
def tokCB : List Char := tplAfter tokensImplTemplate.text

theorem tokensC_file (names : List (List Char)) : cppTokensFile names = (tokCA ++ (cppTokenNameText names ++ tokCB), .ok) :=
  template_one _ _ _ (by decide +kernel) (by decide +kernel) (by decide +kernel) (by decide +kernel)

theorem tokCA_lexes : Lexes tokCA (tplToks tokCA) := by unfold Lexes; decide +kernel
theorem tokCB_lexes : Lexes tokCB (.sym ['}'] :: (tplToks tokCB).tail) := by unfold Lexes; decide +kernel
theorem tokCA_after : afterPhrase (phrase "const char *get_token_name(TokenType tk_type) {") (tplToks tokCA) = some [] := by decide +kernel

theorem tokens_names (names : List (List Char)) (hn : ∀ n ∈ names, IsWord n) :
    readFunction (phrase "const char *get_token_name(TokenType tk_type) {") (cppTokensFile names).1 = some (nameStmts names) := by
  rw [tokensC_file]
  obtain ⟨ts, h1, h2⟩ := name_text names hn
  exact readFunction_toks (tokCA_lexes.append (h1.append tokCB_lexes)) (afterPhrase_append _ tokCA_after) h2

/-! ### `parser.cpp` -/

def parCA : List Char := tplBefore lrImplTemplate.text
def parCA' : List Char := tplAfter lrImplTemplate.text
def parCB : List Char := tplBefore parCA'
def parCB' : List Char := tplAfter parCA'
def parCC : List Char := tplBefore parCB'
def parCD : List Char := tplAfter parCB'

theorem parser_file (src : CppLRSource) : cppParserFile src =
    (parCA ++ (cppActionText src.actions ++ (parCB ++ (cppReduceText src.reductions ++ (parCC ++ (cppGotoText src.gotos ++ parCD))))), .ok) := by
  have n1 : "stack_reduce_table".toList ≠ "goto_table".toList := by decide +kernel
  have n2 : "stack_reduce_table".toList ≠ "action_table".toList := by decide +kernel
  have n3 : "goto_table".toList ≠ "action_table".toList := by decide +kernel
  refine template_three _ "action_table".toList "stack_reduce_table".toList "goto_table".toList _ _ _ _ ?_ ?_ ?_
    (by decide +kernel) (by decide +kernel) (by decide +kernel) (by decide +kernel) (by decide +kernel) (by decide +kernel) (by decide +kernel) (by decide +kernel)
  · rw [get_sub_ne _ _ n2, get_sub_ne _ _ n3, get_sub_self]
  · rw [get_sub_self]
  · rw [get_sub_ne _ _ n1, get_sub_self]

theorem parCA_lexes : Lexes parCA (tplToks parCA) := by unfold Lexes; decide +kernel
theorem parCB_lexes : Lexes parCB (.sym ['}'] :: (tplToks parCB).tail) := by unfold Lexes; decide +kernel
theorem parCC_lexes : Lexes parCC (.sym ['}'] :: (tplToks parCC).tail) := by unfold Lexes; decide +kernel
theorem parCD_lexes : Lexes parCD (.sym ['}'] :: (tplToks parCD).tail) := by unfold Lexes; decide +kernel

/-- the texts of the tables do not contain this word -/
def noWord (w : String) (t : CTok) : Bool := decide (t ≠ .word w.toList)

theorem plain_void : ∀ t ∈ plainToks, noWord "void" t = true := by decide +kernel
theorem plain_transition : ∀ t ∈ plainToks, noWord "Transition" t = true := by decide +kernel

theorem swBody_all {P : CTok → Bool} {cs : List (CStmt × List CStmt)} {d : List CStmt} (hc : ∀ c ∈ cs, c.1.all P = true ∧ CStmt.allL P c.2 = true) (hd : CStmt.allL P d = true) :
    CStmt.allL P (swBody cs d) = true := by
  unfold swBody
  rw [CStmt.allL_append, CStmt.allL_flatMap P _ _ (fun c h => by simp [CStmt.allL, hc c h])]
  simp [CStmt.allL, CStmt.all, hd]

theorem noWord_label {w : String} (hw : ¬ ("TK_".toList <+: w.toList ∨ "NT_".toList <+: w.toList)) {x : List Char} (hx : IsLabel x) : noWord w (.word x) = true := by
  unfold noWord
  simp only [ne_eq, CTok.word.injEq, decide_not, Bool.not_eq_true', decide_eq_false_iff_not]
  rintro rfl
  exact hw hx.2

theorem decimal_ne_word {w : String} (hw : ∀ c, w.toList.head? = some c → c.toNat < 48 ∨ 57 < c.toNat) (hne : w.toList ≠ []) (n : Nat) : noWord w (.word (decimal n)) = true := by
  unfold noWord
  simp only [ne_eq, CTok.word.injEq, decide_not, Bool.not_eq_true', decide_eq_false_iff_not]
  intro e
  obtain ⟨c, l, hcl⟩ := List.exists_cons_of_ne_nil hne
  have h1 := hw c (by simp [hcl])
  have h2 := decimal_digit (n := n) (c := c) (by rw [e, hcl]; simp)
  have h2 := isDigit_range h2
  omega

theorem numLabel_all {w : String} (hw : ∀ c, w.toList.head? = some c → c.toNat < 48 ∨ 57 < c.toNat) (hne : w.toList ≠ []) (n : Nat) : (numLabel n).all (noWord w) = true := by
  simp [numLabel, CStmt.all, decimal_ne_word hw hne]

/-- the words that are looked for -/
def sought : List String := ["void", "Transition"]

theorem sought_label {w : String} (h : w ∈ sought) : ¬ ("TK_".toList <+: w.toList ∨ "NT_".toList <+: w.toList) := by
  revert w; decide +kernel

theorem sought_digit {w : String} (h : w ∈ sought) : (∀ c, w.toList.head? = some c → c.toNat < 48 ∨ 57 < c.toNat) ∧ w.toList ≠ [] := by
  simp only [sought, List.mem_cons, List.not_mem_nil, or_false] at h
  rcases h with rfl | rfl <;> decide

theorem actStmts_all {w : String} (hs : w ∈ sought) (actions : List (List (List Char × LRAction) × List Char)) (hw : ∀ a ∈ actions, ∀ c ∈ a.1, IsLabel c.1) :
    CStmt.allL (noWord w) (actStmts actions) = true := by
  have k : ∀ w ∈ sought, (phrase "state").all (noWord w) = true ∧ (phrase "lookahead_token").all (noWord w) = true ∧ (phrase "std::terminate()").all (noWord w) = true ∧
    (phrase "return act").all (noWord w) = true ∧ (phrase "break").all (noWord w) = true ∧ noWord w (.word "lexer".toList) = true ∧ noWord w (.word "TokenType".toList) = true ∧
    noWord w (.word "Action".toList) = true ∧ noWord w (.word "act".toList) = true ∧ noWord w (.word "ActionType".toList) = true ∧ noWord w (.word "Shift".toList) = true ∧
    noWord w (.word "Reduce".toList) = true ∧ noWord w (.word "throw_unexpected_token_error".toList) = true ∧ noWord w (.word "lookahead_token".toList) = true := by decide +kernel
  obtain ⟨k1, k2, k3, k4, k5, k6, k7, k8, k9, k10, k11, k12, k13, k14⟩ := k w hs
  have d := sought_digit hs
  have hsym : ∀ s, noWord w (.sym s) = true := fun s => by simp [noWord]
  have hstr : ∀ s, noWord w (.str s) = true := fun s => by simp [noWord]
  have hb : ∀ a, CStmt.allL (noWord w) (actBody a) = true := by
    intro a
    cases a <;> simp only [actBody, CStmt.allL, CStmt.all, actToks, List.all_cons, List.all_nil, hsym, k4, k8, k9, k10, k11, k12, decimal_ne_word d.1 d.2, Bool.and_true]
  simp only [actStmts, CStmt.allL, CStmt.all, k1, Bool.true_and, Bool.and_true]
  refine swBody_all ?_ (by simp only [CStmt.allL, CStmt.all, k3, Bool.and_true])
  intro c hc
  obtain ⟨x, hx, rfl⟩ := List.mem_map.mp hc
  obtain ⟨y, hy, rfl⟩ := List.mem_map.mp hx
  refine ⟨numLabel_all d.1 d.2 _, ?_⟩
  simp only [actStateBody, CStmt.allL, CStmt.all, k2, k5, Bool.true_and, Bool.and_true]
  refine swBody_all ?_ (by simp only [CStmt.allL, CStmt.all, throwToks, List.all_cons, List.all_nil, hsym, hstr, k13, k14, Bool.and_true])
  intro c hc
  obtain ⟨z, hz, rfl⟩ := List.mem_map.mp hc
  refine ⟨?_, hb _⟩
  simp only [tkCase, CStmt.all, List.all_cons, List.all_nil, hsym, k6, k7, noWord_label (sought_label hs) (hw y.1 (List.fst_mem_of_mem_zipIdx hy) z hz), Bool.and_true]

theorem reduceStmts_all {w : String} (hs : w ∈ sought) (reductions : List (Nat × List Char)) (hw : ∀ x ∈ reductions, IsLabel x.2) :
    CStmt.allL (noWord w) (reduceStmts reductions) = true := by
  have k : ∀ w ∈ sought, (phrase "rule").all (noWord w) = true ∧ CStmt.allL (noWord w) popStmts = true ∧ (phrase "std::terminate()").all (noWord w) = true ∧
    (phrase "return").all (noWord w) = true ∧ (phrase "parse_stack.push_back(reduced_non_terminal)").all (noWord w) = true ∧ (phrase "size_t i = 0; i <").all (noWord w) = true ∧
    (phrase "; i++").all (noWord w) = true ∧ noWord w (.word "Symbol".toList) = true ∧ noWord w (.word "reduced_non_terminal".toList) = true ∧ noWord w (.word "SymbolKind".toList) = true ∧
    noWord w (.word "NonTerminal".toList) = true ∧ noWord w (.word "static_cast".toList) = true ∧ noWord w (.word "uint32_t".toList) = true ∧ noWord w (.word "NonTerminalType".toList) = true := by
    decide +kernel
  obtain ⟨k1, k2, k3, k4, k5, k6, k7, k8, k9, k10, k11, k12, k13, k14⟩ := k w hs
  have d := sought_digit hs
  have hsym : ∀ s, noWord w (.sym s) = true := fun s => by simp [noWord]
  simp only [reduceStmts, CStmt.allL, CStmt.all, k1, Bool.true_and, Bool.and_true]
  refine swBody_all ?_ (by simp only [CStmt.allL, CStmt.all, k3, Bool.and_true])
  intro c hc
  obtain ⟨x, hx, rfl⟩ := List.mem_map.mp hc
  obtain ⟨y, hy, rfl⟩ := List.mem_map.mp hx
  refine ⟨numLabel_all d.1 d.2 _, ?_⟩
  simp only [reduceBody, CStmt.allL, CStmt.all, CStmt.allL_append, Bool.and_true, k4, k5, ntToks, List.all_cons, List.all_nil, hsym, k8, k9, k10, k11, k12, k13, k14,
    noWord_label (sought_label hs) (hw y.1 (List.fst_mem_of_mem_zipIdx hy))]
  split
  · simp only [CStmt.allL, CStmt.all, k2, countToks, List.all_append, List.all_cons, k6, k7, decimal_ne_word d.1 d.2, Bool.and_true]
  · rfl

theorem visitStmts_all {w : String} (hs : w ∈ sought) (calls : List (Nat × List Char)) (hw : ∀ x ∈ calls, x.2 ≠ w.toList) : CStmt.allL (noWord w) (visitStmts calls) = true := by
  have k : ∀ w ∈ sought, (phrase "rule").all (noWord w) = true ∧ (phrase "std::terminate()").all (noWord w) = true ∧ (phrase "return").all (noWord w) = true ∧
    noWord w (.word "visitor".toList) = true := by decide +kernel
  obtain ⟨k1, k2, k3, k4⟩ := k w hs
  have d := sought_digit hs
  have hsym : ∀ s, noWord w (.sym s) = true := fun s => by simp [noWord]
  simp only [visitStmts, CStmt.allL, CStmt.all, k1, Bool.true_and, Bool.and_true]
  refine swBody_all ?_ (by simp only [CStmt.allL, CStmt.all, k2, Bool.and_true])
  intro c hc
  obtain ⟨x, hx, rfl⟩ := List.mem_map.mp hc
  refine ⟨numLabel_all d.1 d.2 _, ?_⟩
  have : noWord w (.word x.2) = true := by simp [noWord, hw x hx]
  simp only [visitBody, CStmt.allL, CStmt.all, List.all_cons, List.all_nil, hsym, k3, k4, this, Bool.and_true]

theorem not_mem_of_all {w : String} {ts : List CTok} (h : ts.all (noWord w) = true) : CTok.word w.toList ∉ ts := by
  intro hm
  have := List.all_eq_true.mp h _ hm
  simp [noWord] at this

theorem parC_throw : afterPhrase (phrase "void throw_unexpected_token_error(const char* expected, lexer::TokenType got) {") (tplToks parCA) = some
    (phrase "std::ostringstream os" ++ [.sym [';']] ++ (phrase "os << \"Unexpected token '\" << lexer::get_token_name(got) << \"', expected one of: \" << expected" ++ [.sym [';']] ++
      (phrase "throw std::runtime_error(os.str())" ++ [.sym [';']])) ++ .sym ['}'] :: phrase "Action determine_action(uint32_t state, const lexer::TokenType &lookahead_token) {") := by decide +kernel
theorem parC_determine : afterPhrase (phrase "Action determine_action(uint32_t state, const lexer::TokenType &lookahead_token) {") (tplToks parCA) = some [] := by decide +kernel

/-- head of `reduce_stack` -/
def reduceHead : List CTok := phrase "void reduce_stack(uint32_t rule, std::vector<Symbol> &parse_stack, std::vector<Symbol> &rev_reduced_symbols) {"
/-- head of `retrieve_next_state` -/
def retrieveHead : List CTok := phrase "Transition retrieve_next_state(uint32_t state, const Symbol &current_symbol) {"

theorem reduceHead_eq : reduceHead = .word "void".toList :: reduceHead.tail := by decide +kernel
theorem retrieveHead_eq : retrieveHead = .word "Transition".toList :: retrieveHead.tail := by decide +kernel
theorem reduceHead_A : apart reduceHead (tplToks parCA) = true := by decide +kernel
theorem reduceHead_B : afterPhrase reduceHead (.sym ['}'] :: (tplToks parCB).tail) = some [] := by decide +kernel
theorem retrieveHead_A : apart retrieveHead (tplToks parCA) = true := by decide +kernel
theorem retrieveHead_B : apart retrieveHead (.sym ['}'] :: (tplToks parCB).tail) = true := by decide +kernel
theorem retrieveHead_C : afterPhrase retrieveHead (.sym ['}'] :: (tplToks parCC).tail) = some [] := by decide +kernel

theorem afterPhrase_word {h ts b : List CTok} {w : String} (e : h = .word w.toList :: h.tail) (hn : CTok.word w.toList ∉ ts) : afterPhrase h (ts ++ b) = afterPhrase h b := by
  rw [e]
  exact afterPhrase_skip hn

theorem parser_functions (src : CppLRSource) (ha : ∀ a ∈ src.actions, (∀ c ∈ a.1, IsLabel c.1) ∧ StrOk a.2) (hg : ∀ x ∈ src.gotos, (∀ c ∈ x.2.1, IsLabel c.1) ∧ ∀ c ∈ x.2.2, IsLabel c.1)
    (hr : ∀ x ∈ src.reductions, IsLabel x.2) :
    readFunction (phrase "void throw_unexpected_token_error(const char* expected, lexer::TokenType got) {") (cppParserFile src).1 = some throwStmts ∧
    readFunction (phrase "Action determine_action(uint32_t state, const lexer::TokenType &lookahead_token) {") (cppParserFile src).1 = some (actStmts src.actions) ∧
    readFunction reduceHead (cppParserFile src).1 = some (reduceStmts src.reductions) ∧
    readFunction retrieveHead (cppParserFile src).1 = some (gotoStmts src.gotos) := by
  rw [parser_file]
  obtain ⟨xa, a1, a2⟩ := act_text src.actions ha
  obtain ⟨xr, r1, r2⟩ := reduce_text src.reductions hr
  obtain ⟨xg, g1, g2⟩ := goto_text src.gotos hg
  have lx := parCA_lexes.append (a1.append (parCB_lexes.append (r1.append (parCC_lexes.append (g1.append parCD_lexes)))))
  have av := not_mem_of_all (ReadsL.all plain_void a2 (actStmts_all (by decide) src.actions fun a h => (ha a h).1))
  have at' := not_mem_of_all (ReadsL.all plain_transition a2 (actStmts_all (by decide) src.actions fun a h => (ha a h).1))
  have rt := not_mem_of_all (ReadsL.all plain_transition r2 (reduceStmts_all (by decide) src.reductions hr))
  refine ⟨?_, ?_, ?_, ?_⟩
  · refine readFunction_toks (body := phrase "std::ostringstream os" ++ [.sym [';']] ++ (phrase "os << \"Unexpected token '\" << lexer::get_token_name(got) << \"', expected one of: \" << expected" ++ [.sym [';']] ++
        (phrase "throw std::runtime_error(os.str())" ++ [.sym [';']])))
      (tail := phrase "Action determine_action(uint32_t state, const lexer::TokenType &lookahead_token) {" ++ (xa ++ (.sym ['}'] :: (tplToks parCB).tail ++ (xr ++ (.sym ['}'] :: (tplToks parCC).tail ++
        (xg ++ .sym ['}'] :: (tplToks parCD).tail)))))) lx ?_ ?_
    · rw [afterPhrase_append _ parC_throw]
      simp only [List.append_assoc, List.cons_append]
    · exact .append (.one (readsSimple (by decide +kernel))) (.append (.one (readsSimple (by decide +kernel))) (.one (readsSimple (by decide +kernel))))
  · exact readFunction_toks lx (afterPhrase_append _ parC_determine) a2
  · refine readFunction_toks (tail := (tplToks parCC).tail ++ (xg ++ .sym ['}'] :: (tplToks parCD).tail)) lx ?_ r2
    rw [afterPhrase_apart reduceHead_A, afterPhrase_word reduceHead_eq av, afterPhrase_append _ reduceHead_B, List.nil_append]
    rfl
  · refine readFunction_toks (tail := (tplToks parCD).tail) lx ?_ g2
    rw [afterPhrase_apart retrieveHead_A, afterPhrase_word retrieveHead_eq at', afterPhrase_apart retrieveHead_B, afterPhrase_word retrieveHead_eq rt, afterPhrase_append _ retrieveHead_C, List.nil_append]

/-! ### `parser_impl.h` -/

def implA : List Char := tplBefore lrImplHeaderTemplate.text
def implA' : List Char := tplAfter lrImplHeaderTemplate.text
def implB : List Char := tplBefore implA'
def implB' : List Char := tplAfter implA'
def implC : List Char := tplBefore implB'
def implD : List Char := tplAfter implB'

theorem impl_file (src : CppLRSource) (calls : List (Nat × List Char)) : cppParserImplFile src calls =
    (implA ++ (cppNonTerminalEnumText src.nonTerminals ++ (implB ++ (cppVisitorText calls ++ (implC ++ (decimal src.entry ++ implD))))), .ok) := by
  have n1 : "visitor_reduce_switch".toList ≠ "non_terminal_enum_variants".toList := by decide +kernel
  have n2 : "entry_state".toList ≠ "non_terminal_enum_variants".toList := by decide +kernel
  have n3 : "entry_state".toList ≠ "visitor_reduce_switch".toList := by decide +kernel
  refine template_three _ "non_terminal_enum_variants".toList "visitor_reduce_switch".toList "entry_state".toList _ _ _ _ ?_ ?_ ?_
    (by decide +kernel) (by decide +kernel) (by decide +kernel) (by decide +kernel) (by decide +kernel) (by decide +kernel) (by decide +kernel) (by decide +kernel)
  · rw [get_sub_ne _ _ n2, get_sub_ne _ _ n1, get_sub_self]
  · rw [get_sub_ne _ _ n3, get_sub_self]
  · rw [get_sub_self]

theorem implA_lexes : Lexes implA (tplToks implA) := by unfold Lexes; decide +kernel
theorem implB_lexes : Lexes implB (.sym ['}'] :: (tplToks implB).tail) := by unfold Lexes; decide +kernel
theorem implC_lexes : Lexes implC (.sym ['}'] :: (tplToks implC).tail) := by unfold Lexes; decide +kernel
theorem implD_lexes : Lexes implD (tplToks implD) := by unfold Lexes; decide +kernel
theorem implD_head : implD = ')' :: implD.tail := by decide +kernel

/-- head of `reduce_visitor` -/
def visitHead : List CTok := phrase "void reduce_visitor(Visitor<T> &visitor, const std::vector<Symbol> &rev_reduced_symbols, uint32_t rule) {"
/-- head of `parse` -/
def parseHead : List CTok := phrase "void Parser<T>::parse() {"

theorem impl_enum : afterPhrase (phrase "enum class NonTerminalType : uint32_t {") (tplToks implA) = some [] := by decide +kernel
theorem visitHead_eq : visitHead = .word "void".toList :: visitHead.tail := by decide +kernel
theorem parseHead_eq : parseHead = .word "void".toList :: parseHead.tail := by decide +kernel
theorem visitHead_A : apart visitHead (tplToks implA) = true := by decide +kernel
theorem visitHead_B : afterPhrase visitHead (.sym ['}'] :: (tplToks implB).tail) = some [] := by decide +kernel
theorem parseHead_A : apart parseHead (tplToks implA) = true := by decide +kernel
theorem parseHead_B : apart parseHead (.sym ['}'] :: (tplToks implB).tail) = true := by decide +kernel
theorem parseHead_C : afterPhrase parseHead (.sym ['}'] :: (tplToks implC).tail) = some
    (phrase "std::queue<std::pair<lexer::TokenType, T>> lookahead" ++ [.sym [';']] ++ (phrase "lookahead.push(this->token_function())" ++ [.sym [';']] ++
      (phrase "std::vector<Symbol> parse_stack" ++ [.sym [';']] ++ (entryToks 0).take 12))) := by decide +kernel

/-- the tokens of the loop -/
def loopToks : List CTok := .word "while".toList :: .sym ['('] :: phrase "parse_stack.size() > 0" ++ .sym [')'] :: (.sym ['{'] ::
  (phrase "auto next_token_and_data = lookahead.front()" ++ [.sym [';']] ++ (phrase "lexer::TokenType next_tk = next_token_and_data.first" ++ [.sym [';']] ++
  (phrase "Symbol next_symbol{SymbolKind::Terminal, static_cast<uint32_t>(next_tk)}" ++ [.sym [';']] ++ (phrase "uint32_t state = parse_stack.back().identifier" ++ [.sym [';']] ++
  (phrase "Action action = determine_action(state, next_tk)" ++ [.sym [';']] ++
  ((.word "if".toList :: .sym ['('] :: phrase "action.action_type == ActionType::Shift" ++ .sym [')'] :: .sym ['{'] ::
    (phrase "parse_stack.push_back(next_symbol)" ++ [.sym [';']] ++ (phrase "this->visitor.shift(next_tk, next_token_and_data.second)" ++ [.sym [';']] ++
      (phrase "lookahead.pop()" ++ [.sym [';']] ++ (phrase "lookahead.push(this->token_function())" ++ [.sym [';']])))) ++ .sym ['}'] :: .word "else".toList ::
    (.word "if".toList :: .sym ['('] :: phrase "action.action_type == ActionType::Reduce" ++ .sym [')'] :: (.sym ['{'] ::
      (phrase "std::vector<Symbol> rev_reduced_symbols" ++ [.sym [';']] ++ (phrase "reduce_stack(action.reduced_rule, parse_stack, rev_reduced_symbols)" ++ [.sym [';']] ++
        (phrase "reduce_visitor(this->visitor, rev_reduced_symbols, action.reduced_rule)" ++ [.sym [';']]))) ++ [.sym ['}']]))) ++
  (phrase "Symbol current_symbol = parse_stack.back()" ++ [.sym [';']] ++ (phrase "uint32_t stack_state = parse_stack.at(parse_stack.size() - 2).identifier" ++ [.sym [';']] ++
  (phrase "Transition transition = retrieve_next_state(stack_state, current_symbol)" ++ [.sym [';']] ++
  (.word "if".toList :: .sym ['('] :: phrase "transition.is_accepting" ++ .sym [')'] :: .sym ['{'] ::
    (phrase "parse_stack.pop_back()" ++ [.sym [';']] ++ (phrase "parse_stack.pop_back()" ++ [.sym [';']])) ++ .sym ['}'] :: .word "else".toList ::
    (.sym ['{'] :: (phrase "Symbol next_state_symbol{SymbolKind::State, transition.next_state}" ++ [.sym [';']] ++ (phrase "parse_stack.push_back(next_state_symbol)" ++ [.sym [';']])) ++
      [.sym ['}']]))))))))))) ++ [.sym ['}']])

theorem loop_reads : Reads loopToks (.loop (phrase "parse_stack.size() > 0") (.block parseRound)) := by
  have s : ∀ p : String, simpleOk (phrase p) = true → ReadsL (phrase p ++ [.sym [';']]) [.simple (phrase p)] := fun p h => .one (readsSimple h)
  have h1 := ((s "parse_stack.push_back(next_symbol)" (by decide +kernel)).append ((s "this->visitor.shift(next_tk, next_token_and_data.second)" (by decide +kernel)).append
    ((s "lookahead.pop()" (by decide +kernel)).append (s "lookahead.push(this->token_function())" (by decide +kernel)))))
  have h2 := ((s "std::vector<Symbol> rev_reduced_symbols" (by decide +kernel)).append ((s "reduce_stack(action.reduced_rule, parse_stack, rev_reduced_symbols)" (by decide +kernel)).append
    (s "reduce_visitor(this->visitor, rev_reduced_symbols, action.reduced_rule)" (by decide +kernel))))
  have h3 := (s "parse_stack.pop_back()" (by decide +kernel)).append (s "parse_stack.pop_back()" (by decide +kernel))
  have h4 := (s "Symbol next_state_symbol{SymbolKind::State, transition.next_state}" (by decide +kernel)).append (s "parse_stack.push_back(next_state_symbol)" (by decide +kernel))
  have c1 := Reads.condElse (c := phrase "action.action_type == ActionType::Shift") (by decide +kernel) h1
    (.cond (c := phrase "action.action_type == ActionType::Reduce") (by decide +kernel) (.block h2))
  have c2 := Reads.condElse (c := phrase "transition.is_accepting") (by decide +kernel) h3 (.block h4)
  exact .loop (by decide +kernel) (.block ((s "auto next_token_and_data = lookahead.front()" (by decide +kernel)).append
    ((s "lexer::TokenType next_tk = next_token_and_data.first" (by decide +kernel)).append
    ((s "Symbol next_symbol{SymbolKind::Terminal, static_cast<uint32_t>(next_tk)}" (by decide +kernel)).append
    ((s "uint32_t state = parse_stack.back().identifier" (by decide +kernel)).append
    ((s "Action action = determine_action(state, next_tk)" (by decide +kernel)).append
    ((ReadsL.one c1).append
    ((s "Symbol current_symbol = parse_stack.back()" (by decide +kernel)).append
    ((s "uint32_t stack_state = parse_stack.at(parse_stack.size() - 2).identifier" (by decide +kernel)).append
    ((s "Transition transition = retrieve_next_state(stack_state, current_symbol)" (by decide +kernel)).append (ReadsL.one c2)))))))))))

theorem implD_toks : tplToks implD = [.sym [')'], .sym ['}'], .sym [';']] ++ (phrase "parse_stack.push_back(entry_symbol)" ++ [.sym [';']] ++ (loopToks ++ .sym ['}'] :: [.sym ['}']])) := by
  decide +kernel

theorem entryToks_split (q : Nat) : entryToks q = (entryToks 0).take 12 ++ .word (decimal q) :: [.sym [')'], .sym ['}']] := rfl

theorem impl_functions (src : CppLRSource) (calls : List (Nat × List Char)) (hn : ∀ w ∈ src.nonTerminals, IsLabel w) (hc : ∀ x ∈ calls, IsWord x.2 ∧ x.2 ≠ [] ∧ x.2 ≠ "void".toList)
    (hd : src.nonTerminals.Nodup) :
    readEnum (phrase "enum class NonTerminalType : uint32_t {") (cppParserImplFile src calls).1 = some src.nonTerminals.zipIdx ∧
    readFunction visitHead (cppParserImplFile src calls).1 = some (visitStmts calls) ∧
    readFunction parseHead (cppParserImplFile src calls).1 = some (parseStmts src.entry) := by
  rw [impl_file]
  have e1 : Lexes (cppNonTerminalEnumText src.nonTerminals) (enumToks src.nonTerminals) := enumToks_lexes _ fun w h => ⟨(hn w h).1, (hn w h).ne⟩
  obtain ⟨xv, v1, v2⟩ := visit_text calls fun x h => ⟨(hc x h).1, (hc x h).2.1⟩
  have n1 : Lexes (decimal src.entry ++ implD) (.word (decimal src.entry) :: tplToks implD) := by
    have := implD_lexes
    rw [implD_head] at this ⊢
    have h := Lexes.num (a := []) (x := []) src.entry .nil (c := ')') (by decide) this
    exact h
  have lx := implA_lexes.append (e1.append (implB_lexes.append (v1.append (implC_lexes.append n1))))
  have ev : CTok.word "void".toList ∉ enumToks src.nonTerminals := by
    intro hm
    obtain ⟨w, hw, h⟩ := List.mem_flatMap.mp hm
    simp only [List.mem_cons, CTok.word.injEq, reduceCtorEq, List.not_mem_nil, or_false] at h
    subst h
    exact absurd (hn _ hw).2 (by decide)
  have vv := not_mem_of_all (ReadsL.all plain_void v2 (visitStmts_all (by decide) calls fun x h => (hc x h).2.2))
  refine ⟨?_, ?_, ?_⟩
  · unfold readEnum
    rw [cLex_of lx]
    simp only [Option.bind_eq_bind, Option.bind_some]
    rw [afterPhrase_append _ impl_enum]
    simp only [Option.bind_some, List.nil_append]
    rw [show enumToks src.nonTerminals ++ (CTok.sym ['}'] :: (tplToks implB).tail ++ (xv ++ (CTok.sym ['}'] :: (tplToks implC).tail ++ CTok.word (decimal src.entry) :: tplToks implD))) =
      enumToks src.nonTerminals ++ CTok.sym ['}'] :: ((tplToks implB).tail ++ (xv ++ (CTok.sym ['}'] :: (tplToks implC).tail ++ CTok.word (decimal src.entry) :: tplToks implD))) from rfl]
    rw [readEnumerators_words _ _ _ (by simp only [List.length_append, enumToks_length]; omega)]
    simp only [Option.bind_some]
    rw [if_pos]
    simpa using hd
  · refine readFunction_toks (tail := (tplToks implC).tail ++ .word (decimal src.entry) :: tplToks implD) lx ?_ v2
    rw [afterPhrase_apart visitHead_A, afterPhrase_word visitHead_eq ev, afterPhrase_append _ visitHead_B, List.nil_append]
    rfl
  · have s : ∀ p : String, simpleOk (phrase p) = true → ReadsL (phrase p ++ [.sym [';']]) [.simple (phrase p)] := fun p h => .one (readsSimple h)
    have b := (s "std::queue<std::pair<lexer::TokenType, T>> lookahead" (by decide +kernel)).append ((s "lookahead.push(this->token_function())" (by decide +kernel)).append
      ((s "std::vector<Symbol> parse_stack" (by decide +kernel)).append ((ReadsL.one (readsSimple (ts := entryToks src.entry) (by simp [entryToks, simpleOk, stmtWords]))).append
      ((s "parse_stack.push_back(entry_symbol)" (by decide +kernel)).append (.one loop_reads)))))
    refine readFunction_toks (tail := [.sym ['}']]) lx ?_ b
    rw [afterPhrase_apart parseHead_A, afterPhrase_word parseHead_eq ev, afterPhrase_apart parseHead_B, afterPhrase_word parseHead_eq vv, afterPhrase_append _ parseHead_C, implD_toks,
      entryToks_split src.entry]
    simp only [List.append_assoc, List.cons_append, List.nil_append]

end Verif
