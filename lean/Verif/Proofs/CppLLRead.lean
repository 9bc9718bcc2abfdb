import Verif.Proofs.CppLRNames
import Verif.Spec.CppLLText
import Verif.Model.CppLLText

/-! # The text of the C++ LL parser: its statements -/

set_option autoImplicit false

namespace Verif

/-! ## The table -/

/-- `symi` -/
def symWord (i : Nat) : List Char := "sym".toList ++ decimal i

/-- `Symbol symi{SymbolKind::NonTerminal, static_cast<uint32_t>(NonTerminalType::w)}` -/
def declNtToks (i : Nat) (w : List Char) : List CTok := [.word "Symbol".toList, .word (symWord i), .sym ['{'], .word "SymbolKind".toList, .sym [':', ':'], .word "NonTerminal".toList, .sym [','],
  .word "static_cast".toList, .sym ['<'], .word "uint32_t".toList, .sym ['>'], .sym ['('], .word "NonTerminalType".toList, .sym [':', ':'], .word w, .sym [')'], .sym ['}']]

/-- `Symbol symi{SymbolKind::Terminal, static_cast<uint32_t>(lexer::TokenType::w)}` -/
def declTkToks (i : Nat) (w : List Char) : List CTok := [.word "Symbol".toList, .word (symWord i), .sym ['{'], .word "SymbolKind".toList, .sym [':', ':'], .word "Terminal".toList, .sym [','],
  .word "static_cast".toList, .sym ['<'], .word "uint32_t".toList, .sym ['>'], .sym ['('], .word "lexer".toList, .sym [':', ':'], .word "TokenType".toList, .sym [':', ':'], .word w, .sym [')'], .sym ['}']]

/-- `parse_stack.push(symi)` -/
def pushToks (i : Nat) : List CTok := [.word "parse_stack".toList, .sym ['.'], .word "push".toList, .sym ['('], .word (symWord i), .sym [')']]

/-- the statements for a symbol -/
def pushStmts (x : LLPushed × Nat) : List CStmt :=
  match x.1 with
  | .nt w => [.simple (declNtToks x.2 w), .simple (pushToks x.2)]
  | .tk w => [.simple (declTkToks x.2 w), .simple (pushToks x.2)]
  | .eps => []
  | .skip => []

/-- what a case for a token does -/
def llCaseBody (ps : List LLPushed) : List CStmt := [.block (ps.zipIdx.flatMap pushStmts ++ [.simple (phrase "break")])]

/-- `throw std::runtime_error("x")` -/
def llThrowToks (x : List Char) : List CTok := [.word "throw".toList, .word "std".toList, .sym [':', ':'], .word "runtime_error".toList, .sym ['('], .str x, .sym [')']]

/-- what a case for a non-terminal does -/
def llStateBody (x : List (List Char × List LLPushed) × List Char) : List CStmt :=
  [.block [.switch (phrase "lookahead") (swBody (x.1.map fun c => (tkCase c.1, llCaseBody c.2)) [.simple (llThrowToks x.2)]), .simple (phrase "break")]]

/-- `push_production_from_table` -/
def llTableStmts (table : List (Nat × List (List Char × List LLPushed) × List Char)) : List CStmt :=
  [.switch (phrase "non_terminal.identifier") ((table.map fun c => (numLabel c.1, llStateBody c.2)).flatMap fun c => c.1 :: c.2)]

theorem symWord_ok (i : Nat) : IsWord (symWord i) ∧ symWord i ≠ [] := ⟨isWord_append (by unfold IsWord; decide) (isWord_decimal i), by simp [symWord]⟩

theorem symWord_inj {i j : Nat} (h : symWord i = symWord j) : i = j := decimal_inj (List.append_cancel_left h)

/-- labels that end in `: ` -/
theorem tkCase_text' {w : List Char} (hw : IsLabel w) : TextReads ("case lexer::TokenType::".toList ++ (w ++ ": ".toList)) [tkCase w] :=
  .label (Lexes.wordIn (x := [.word "case".toList, .word "lexer".toList, .sym [':', ':'], .word "TokenType".toList, .sym [':', ':']]) (by unfold Lexes; decide +kernel) hw.ne hw.1 (by decide) (c := ':')
    (b := [' ']) (y := [.sym [':']]) (by unfold Lexes; decide +kernel)) (by simp) (by simp)

theorem pushToks_text (i : Nat) : TextReads ("parse_stack.push(".toList ++ (("sym".toList ++ decimal i) ++ ");\n".toList)) [.simple (pushToks i)] := by
  refine textSimple ?_ (by simp [pushToks, simpleOk, stmtWords])
  exact Lexes.wordIn (x := [.word "parse_stack".toList, .sym ['.'], .word "push".toList, .sym ['(']]) (by unfold Lexes; decide +kernel) (symWord_ok i).2 (symWord_ok i).1 (by decide)
    (c := ')') (b := ";\n".toList) (y := [.sym [')'], .sym [';']]) (by unfold Lexes; decide +kernel)

theorem declNt_text (i : Nat) (w : List Char) (hw : IsLabel w) :
    TextReads ("Symbol ".toList ++ (("sym".toList ++ decimal i) ++ ("{SymbolKind::NonTerminal, static_cast<uint32_t>(NonTerminalType::".toList ++ (w ++ ")};\n".toList)))) [.simple (declNtToks i w)] := by
  refine textSimple ?_ (by simp [declNtToks, simpleOk, stmtWords])
  have h := Lexes.wordIn (x := [.sym ['{'], .word "SymbolKind".toList, .sym [':', ':'], .word "NonTerminal".toList, .sym [','],
    .word "static_cast".toList, .sym ['<'], .word "uint32_t".toList, .sym ['>'], .sym ['('], .word "NonTerminalType".toList, .sym [':', ':']])
    (a := "{SymbolKind::NonTerminal, static_cast<uint32_t>(NonTerminalType::".toList) (by unfold Lexes; decide +kernel) hw.ne hw.1 (by decide)
    (c := ')') (b := "};\n".toList) (y := [.sym [')'], .sym ['}'], .sym [';']]) (by unfold Lexes; decide +kernel)
  exact Lexes.wordIn (x := [.word "Symbol".toList]) (by unfold Lexes; decide +kernel) (symWord_ok i).2 (symWord_ok i).1 (c := '{') (by decide) h

theorem declTk_text (i : Nat) (w : List Char) (hw : IsLabel w) :
    TextReads ("Symbol ".toList ++ (("sym".toList ++ decimal i) ++ ("{SymbolKind::Terminal, static_cast<uint32_t>(lexer::TokenType::".toList ++ (w ++ ")};\n".toList)))) [.simple (declTkToks i w)] := by
  refine textSimple ?_ (by simp [declTkToks, simpleOk, stmtWords])
  have h := Lexes.wordIn (x := [.sym ['{'], .word "SymbolKind".toList, .sym [':', ':'], .word "Terminal".toList, .sym [','],
    .word "static_cast".toList, .sym ['<'], .word "uint32_t".toList, .sym ['>'], .sym ['('], .word "lexer".toList, .sym [':', ':'], .word "TokenType".toList, .sym [':', ':']])
    (a := "{SymbolKind::Terminal, static_cast<uint32_t>(lexer::TokenType::".toList) (by unfold Lexes; decide +kernel) hw.ne hw.1 (by decide)
    (c := ')') (b := "};\n".toList) (y := [.sym [')'], .sym ['}'], .sym [';']]) (by unfold Lexes; decide +kernel)
  exact Lexes.wordIn (x := [.word "Symbol".toList]) (by unfold Lexes; decide +kernel) (symWord_ok i).2 (symWord_ok i).1 (c := '{') (by decide) h

/-- labels in what is written for a symbol -/
def PushedOk : LLPushed → Prop
  | .nt w => IsLabel w
  | .tk w => IsLabel w
  | _ => True

theorem push_text (x : LLPushed × Nat) (h : PushedOk x.1) : TextReads (llPushText x) (pushStmts x) := by
  obtain ⟨p, i⟩ := x
  cases p with
  | nt w => exact (declNt_text i w h).append (pushToks_text i)
  | tk w => exact (declTk_text i w h).append (pushToks_text i)
  | eps =>
    have h : Lexes ("// epsilon; push nothing to stack\n".toList) [] := by unfold Lexes; decide +kernel
    exact .skip h
  | skip => exact .nil

theorem llCase_text (c : List Char × List LLPushed) (hw : IsLabel c.1) (hp : ∀ p ∈ c.2, PushedOk p) : TextReads (llCaseText c) (tkCase c.1 :: llCaseBody c.2) := by
  unfold llCaseText llCaseBody
  exact (tkCase_text' hw).append (.block lexOpen ((TextReads.flatMap _ fun x hx => push_text x (hp x.1 (List.fst_mem_of_mem_zipIdx hx))).append text_break) lexClose)

theorem llThrow_text (x : List Char) (hx : StrOk x) : TextReads ("throw std::runtime_error(".toList ++ ('"' :: (x ++ ['"'])) ++ ");\n".toList) [.simple (llThrowToks x)] := by
  refine textSimple ?_ (by simp [llThrowToks, simpleOk, stmtWords])
  exact Lexes.append (x := [.word "throw".toList, .word "std".toList, .sym [':', ':'], .word "runtime_error".toList, .sym ['('], .str x]) (y := [.sym [')'], .sym [';']])
    (Lexes.append (x := [.word "throw".toList, .word "std".toList, .sym [':', ':'], .word "runtime_error".toList, .sym ['(']]) (by unfold Lexes; decide +kernel) (.str hx)) (by unfold Lexes; decide +kernel)

/-- labels and strings in a case for a non-terminal -/
def LLStateOk (x : Nat × List (List Char × List LLPushed) × List Char) : Prop := (∀ c ∈ x.2.1, IsLabel c.1 ∧ ∀ p ∈ c.2, PushedOk p) ∧ StrOk x.2.2

theorem llState_text (x : Nat × List (List Char × List LLPushed) × List Char) (h : LLStateOk x) : TextReads (llStateText x) (numLabel x.1 :: llStateBody x.2) := by
  unfold llStateText llStateBody
  refine (textNumLabel x.1).append (y := [_]) (.block lexOpen (.append (x := [_]) (.switch (by unfold Lexes; decide +kernel) (by decide +kernel) ?_ lexClose) text_break) lexClose)
  exact swBody_text x.2.1 (fun c hc => llCase_text c (h.1 c hc).1 (h.1 c hc).2) (llThrow_text _ h.2)

theorem llTable_text (table : List (Nat × List (List Char × List LLPushed) × List Char)) (h : ∀ x ∈ table, LLStateOk x) : TextReads (llTableText table) (llTableStmts table) := by
  unfold llTableText llTableStmts
  refine .switch (by unfold Lexes; decide +kernel) (by decide +kernel) ?_ lexClose
  rw [List.flatMap_map]
  exact TextReads.flatMap _ fun x hx => llState_text x (h x hx)

/-! ## The visitor -/

/-- what a case of `enter_visitor` or `exit_visitor` does -/
def llVisitBody (pre : List Char) (x : List Char) : List CStmt := [.simple [.word "visitor".toList, .sym ['.'], .word (pre ++ x), .sym ['('], .sym [')']], .simple (phrase "break")]

/-- `enter_visitor` or `exit_visitor` -/
def llVisitStmts (pre : List Char) (named : List (List Char × List Char)) : List CStmt :=
  [.switch (phrase "non_terminal") ((named.map fun c => (ntCase c.1, llVisitBody pre c.2)).flatMap fun c => c.1 :: c.2)]

theorem call_text (x : List Char) (hw : IsWord x ∧ x ≠ []) : TextReads ("visitor.".toList ++ (x ++ "();\n".toList)) [.simple [.word "visitor".toList, .sym ['.'], .word x, .sym ['('], .sym [')']]] := by
  refine textSimple ?_ (by simp [simpleOk, stmtWords])
  obtain ⟨c, w, hcw⟩ := List.exists_cons_of_ne_nil hw.2
  have hc : isCWordChar c = true := hw.1 c (by simp [hcw])
  have h2 : Lexes (x ++ '(' :: ");\n".toList) (.word x :: [.sym ['('], .sym [')'], .sym [';']]) := Lexes.word hw.2 hw.1 (by decide) (by unfold Lexes; decide +kernel)
  unfold Lexes at h2 ⊢
  rw [hcw] at h2 ⊢
  have h3 : cLexRun .base ("visitor.".toList) = some ([.word "visitor".toList], .dot) := by decide +kernel
  rw [show "visitor.".toList ++ (c :: w ++ "();\n".toList) = "visitor.".toList ++ (c :: (w ++ '(' :: ");\n".toList)) from rfl, cLexRun_append, h3]
  simp only [Option.bind_some]
  rw [show c :: w ++ '(' :: ");\n".toList = c :: (w ++ '(' :: ");\n".toList) from rfl] at h2
  have hd : c ≠ '.' := by rintro rfl; revert hc; decide
  simp only [cLexRun, cLexStep, cLexAfter, hd, if_false, cLexBase, hc, if_true, Option.map_some] at h2 ⊢
  cases h4 : cLexRun (.word [c]) (w ++ '(' :: ");\n".toList) with
  | none => rw [h4] at h2; simp at h2
  | some q =>
    rw [h4] at h2
    simp only [Option.some.injEq, Prod.mk.injEq, List.nil_append] at h2
    obtain ⟨h5, h6⟩ := h2
    simp [h5, h6]

theorem llVisit_text (isExit : Bool) (named : List (List Char × List Char)) (h : ∀ x ∈ named, IsLabel x.1 ∧ IsWord x.2) :
    TextReads (llVisitText isExit named) (llVisitStmts (if isExit then "exit_".toList else "enter_".toList) named) := by
  have hp : IsWord (if isExit then "exit_".toList else "enter_".toList) ∧ (if isExit then "exit_".toList else "enter_".toList) ≠ [] := by
    cases isExit <;> exact ⟨by unfold IsWord; decide, by decide⟩
  unfold llVisitText llVisitStmts
  refine .switch (by unfold Lexes; decide +kernel) (by decide +kernel) ?_ lexClose
  rw [List.flatMap_map]
  refine TextReads.flatMap _ fun x hx => ?_
  unfold llVisitCaseText llVisitBody
  exact ((ntCase_text (h x hx).1).append (call_text _ ⟨isWord_append hp.1 (h x hx).2, fun e => hp.2 (List.append_eq_nil_iff.mp e).1⟩)).append text_break

/-! ## `parser.cpp` -/

def llCA : List Char := tplBefore llImplTemplate.text
def llCB : List Char := tplAfter llImplTemplate.text

theorem llParser_file (src : CppLLSource) : cppLLParserFile src = (llCA ++ (llTableText src.table ++ llCB), .ok) :=
  template_one _ _ _ (by decide +kernel) (by decide +kernel) (by decide +kernel) (by decide +kernel)

/-- head of `push_production_from_table` -/
def pushHead : List CTok := phrase "void push_production_from_table(Symbol non_terminal, lexer::TokenType lookahead, std::stack<Symbol>& parse_stack) {"
/-- head of `throw_unexpected_token_error` -/
def llThrowHead : List CTok := phrase "void throw_unexpected_token_error(lexer::TokenType expected, lexer::TokenType got) {"

/-- the statements of `throw_unexpected_token_error` -/
def llThrowStmts : List CStmt := [.simple (phrase "std::ostringstream os"),
  .simple (phrase "os << \"Unexpected token '\" << lexer::get_token_name(got) << \"', expected token '\" << lexer::get_token_name(expected) << \"'\""), .simple (phrase "throw std::runtime_error(os.str())")]

theorem llCA_lexes : Lexes llCA (tplToks llCA) := by unfold Lexes; decide +kernel
theorem llCB_lexes : Lexes llCB (.sym ['}'] :: (tplToks llCB).tail) := by unfold Lexes; decide +kernel
theorem llCA_push : afterPhrase pushHead (tplToks llCA) = some [] := by decide +kernel
theorem llThrowHead_eq : llThrowHead = .word "void".toList :: llThrowHead.tail := by decide +kernel
theorem llThrowHead_A : apart llThrowHead (tplToks llCA) = true := by decide +kernel
theorem llThrowHead_B : afterPhrase llThrowHead (.sym ['}'] :: (tplToks llCB).tail) = some
    (phrase "std::ostringstream os" ++ [.sym [';']] ++
      (phrase "os << \"Unexpected token '\" << lexer::get_token_name(got) << \"', expected token '\" << lexer::get_token_name(expected) << \"'\"" ++ [.sym [';']] ++
      (phrase "throw std::runtime_error(os.str())" ++ [.sym [';']])) ++ .sym ['}'] :: [.sym ['}']]) := by decide +kernel

theorem allL_flatMap_cases {P : CTok → Bool} {cs : List (CStmt × List CStmt)} (hc : ∀ c ∈ cs, c.1.all P = true ∧ CStmt.allL P c.2 = true) :
    CStmt.allL P (cs.flatMap fun c => c.1 :: c.2) = true := CStmt.allL_flatMap P _ _ (fun c h => by simp [CStmt.allL, hc c h])

theorem noWord_sym (i : Nat) : noWord "void" (.word (symWord i)) = true := by
  unfold noWord symWord
  simp only [ne_eq, CTok.word.injEq, decide_not, Bool.not_eq_true', decide_eq_false_iff_not]
  intro e
  have := congrArg List.head? e
  simp at this

theorem llTableStmts_all (table : List (Nat × List (List Char × List LLPushed) × List Char)) (h : ∀ x ∈ table, LLStateOk x) : CStmt.allL (noWord "void") (llTableStmts table) = true := by
  have hs : "void" ∈ sought := by decide
  have d := sought_digit hs
  have hsym : ∀ s, noWord "void" (.sym s) = true := fun s => by simp [noWord]
  have hstr : ∀ s, noWord "void" (.str s) = true := fun s => by simp [noWord]
  have k1 : (phrase "non_terminal.identifier").all (noWord "void") = true := by decide +kernel
  have k2 : (phrase "lookahead").all (noWord "void") = true := by decide +kernel
  have k3 : (phrase "break").all (noWord "void") = true := by decide +kernel
  have k : ∀ w ∈ ["lexer", "TokenType", "Symbol", "SymbolKind", "NonTerminal", "Terminal", "static_cast", "uint32_t", "NonTerminalType", "parse_stack", "push", "throw", "std", "runtime_error"],
    noWord "void" (.word w.toList) = true := by decide +kernel
  simp only [List.mem_cons, List.not_mem_nil, or_false, forall_eq_or_imp, forall_eq] at k
  obtain ⟨w1, w2, w3, w4, w5, w6, w7, w8, w9, w10, w11, w12, w13, w14⟩ := k
  simp only [llTableStmts, CStmt.allL, CStmt.all, k1, Bool.true_and, Bool.and_true]
  refine allL_flatMap_cases fun c hc => ?_
  obtain ⟨x, hx, rfl⟩ := List.mem_map.mp hc
  refine ⟨numLabel_all d.1 d.2 _, ?_⟩
  simp only [llStateBody, CStmt.allL, CStmt.all, k2, k3, Bool.true_and, Bool.and_true]
  refine swBody_all ?_ (by simp only [CStmt.allL, CStmt.all, llThrowToks, List.all_cons, List.all_nil, hsym, hstr, w12, w13, w14, Bool.and_true])
  intro c hc
  obtain ⟨z, hz, rfl⟩ := List.mem_map.mp hc
  obtain ⟨z1, z2⟩ := (h x hx).1 z hz
  constructor
  · simp only [tkCase, CStmt.all, List.all_cons, List.all_nil, hsym, w1, w2, noWord_label (sought_label hs) z1, Bool.and_true]
  · simp only [llCaseBody, CStmt.allL, CStmt.all, CStmt.allL_append, k3, Bool.and_true]
    refine CStmt.allL_flatMap _ _ _ fun y hy => ?_
    have hp := z2 y.1 (List.fst_mem_of_mem_zipIdx hy)
    unfold pushStmts
    cases hy1 : y.1 with
    | nt w =>
      rw [hy1] at hp
      simp only [CStmt.allL, CStmt.all, declNtToks, pushToks, List.all_cons, List.all_nil, hsym, noWord_sym, w3, w4, w5, w7, w8, w9, w10, w11, noWord_label (sought_label hs) hp, Bool.and_true]
    | tk w =>
      rw [hy1] at hp
      simp only [CStmt.allL, CStmt.all, declTkToks, pushToks, List.all_cons, List.all_nil, hsym, noWord_sym, w1, w2, w3, w4, w6, w7, w8, w10, w11, noWord_label (sought_label hs) hp, Bool.and_true]
    | eps => rfl
    | skip => rfl

theorem llParser_functions (src : CppLLSource) (h : ∀ x ∈ src.table, LLStateOk x) :
    readFunction pushHead (cppLLParserFile src).1 = some (llTableStmts src.table) ∧ readFunction llThrowHead (cppLLParserFile src).1 = some llThrowStmts := by
  rw [llParser_file]
  obtain ⟨xt, t1, t2⟩ := llTable_text src.table h
  have lx := llCA_lexes.append (t1.append llCB_lexes)
  have tv := not_mem_of_all (ReadsL.all plain_void t2 (llTableStmts_all src.table h))
  refine ⟨readFunction_toks lx (afterPhrase_append _ llCA_push) t2, ?_⟩
  refine readFunction_toks (body := phrase "std::ostringstream os" ++ [.sym [';']] ++
      (phrase "os << \"Unexpected token '\" << lexer::get_token_name(got) << \"', expected token '\" << lexer::get_token_name(expected) << \"'\"" ++ [.sym [';']] ++
      (phrase "throw std::runtime_error(os.str())" ++ [.sym [';']]))) (tail := [.sym ['}']]) lx ?_ ?_
  · rw [afterPhrase_apart llThrowHead_A, afterPhrase_word llThrowHead_eq tv, llThrowHead_B]
  · exact .append (.one (readsSimple (by decide +kernel))) (.append (.one (readsSimple (by decide +kernel))) (.one (readsSimple (by decide +kernel))))

/-! ## `parser_impl.h` -/

def llIA : List Char := tplBefore llImplHeaderTemplate.text
def llIA' : List Char := tplAfter llImplHeaderTemplate.text
def llIB : List Char := tplBefore llIA'
def llIB' : List Char := tplAfter llIA'
def llIC : List Char := tplBefore llIB'
def llID : List Char := tplAfter llIB'

theorem llImpl_file (src : CppLLSource) (entry : List Char) : cppLLParserImplFile src entry =
    (llIA ++ (cppNonTerminalEnumText src.nonTerminals ++ (llIB ++ (llVisitText true src.named ++ (llIC ++ (llVisitText false src.named ++ llID))))), .ok) := by
  have n1 : "non_terminal_enum_variants".toList ≠ "visitor_exit_switch".toList := by decide +kernel
  have n2 : "non_terminal_enum_variants".toList ≠ "visitor_enter_switch".toList := by decide +kernel
  have n3 : "grammar_entry_non_terminal".toList ≠ "visitor_exit_switch".toList := by decide +kernel
  have n4 : "grammar_entry_non_terminal".toList ≠ "visitor_enter_switch".toList := by decide +kernel
  have n5 : "visitor_exit_switch".toList ≠ "visitor_enter_switch".toList := by decide +kernel
  refine template_three _ "non_terminal_enum_variants".toList "visitor_exit_switch".toList "visitor_enter_switch".toList _ _ _ _ ?_ ?_ ?_
    (by decide +kernel) (by decide +kernel) (by decide +kernel) (by decide +kernel) (by decide +kernel) (by decide +kernel) (by decide +kernel) (by decide +kernel)
  · rw [get_sub_self]
  · rw [get_sub_ne _ _ n1, get_sub_ne _ _ n3, get_sub_self]
  · rw [get_sub_ne _ _ n2, get_sub_ne _ _ n4, get_sub_ne _ _ n5, get_sub_self]

theorem llIA_lexes : Lexes llIA (tplToks llIA) := by unfold Lexes; decide +kernel
theorem llIB_lexes : Lexes llIB (.sym ['}'] :: (tplToks llIB).tail) := by unfold Lexes; decide +kernel
theorem llIC_lexes : Lexes llIC (.sym ['}'] :: (tplToks llIC).tail) := by unfold Lexes; decide +kernel
theorem llID_lexes : Lexes llID (.sym ['}'] :: (tplToks llID).tail) := by unfold Lexes; decide +kernel

/-- head of `exit_visitor` -/
def exitHead : List CTok := phrase "void exit_visitor(Visitor<T>& visitor, NonTerminalType non_terminal) {"
/-- head of `enter_visitor` -/
def enterHead : List CTok := phrase "void enter_visitor(Visitor<T>& visitor, NonTerminalType non_terminal) {"

theorem llIA_enum : afterPhrase (phrase "enum class NonTerminalType : uint32_t {") (tplToks llIA) = some [] := by decide +kernel
theorem exitHead_eq : exitHead = .word "void".toList :: exitHead.tail := by decide +kernel
theorem enterHead_eq : enterHead = .word "void".toList :: enterHead.tail := by decide +kernel
theorem exitHead_A : apart exitHead (tplToks llIA) = true := by decide +kernel
theorem exitHead_B : afterPhrase exitHead (.sym ['}'] :: (tplToks llIB).tail) = some [] := by decide +kernel
theorem enterHead_A : apart enterHead (tplToks llIA) = true := by decide +kernel
theorem enterHead_B : apart enterHead (.sym ['}'] :: (tplToks llIB).tail) = true := by decide +kernel
theorem enterHead_C : afterPhrase enterHead (.sym ['}'] :: (tplToks llIC).tail) = some [] := by decide +kernel
theorem llParseHead_A : apart parseHead (tplToks llIA) = true := by decide +kernel
theorem llParseHead_B : apart parseHead (.sym ['}'] :: (tplToks llIB).tail) = true := by decide +kernel
theorem llParseHead_C : apart parseHead (.sym ['}'] :: (tplToks llIC).tail) = true := by decide +kernel

/-- the statements for a token -/
def llTokenStmts : List CStmt := [.cond (phrase "current.identifier != static_cast<uint32_t>(lookahead_tk)")
    (.block [.simple (phrase "throw_unexpected_token_error(static_cast<lexer::TokenType>(current.identifier), lookahead_tk)")]) (.block []),
  .simple (phrase "this->visitor.token(lookahead_tk, lookahead_token_and_data.second)"), .simple (phrase "lookahead.pop()"), .simple (phrase "lookahead.push(this->token_function())")]

/-- the statements for a non-terminal -/
def llNtStmts : List CStmt := [.simple (phrase "Symbol nt_exit_symbol{SymbolKind::ExitNonTerminal, current.identifier}"), .simple (phrase "parse_stack.push(nt_exit_symbol)"),
  .simple (phrase "push_production_from_table(current, lookahead_tk, parse_stack)"), .simple (phrase "enter_visitor(this->visitor, static_cast<NonTerminalType>(current.identifier))")]

/-- the statements of a round -/
def llRound : List CStmt := [.simple (phrase "Symbol current = parse_stack.top()"), .simple (phrase "parse_stack.pop()"), .simple (phrase "auto lookahead_token_and_data = lookahead.front()"),
  .simple (phrase "lexer::TokenType lookahead_tk = lookahead_token_and_data.first"),
  .cond (phrase "current.kind == SymbolKind::ExitNonTerminal") (.block [.simple (phrase "exit_visitor(this->visitor, static_cast<NonTerminalType>(current.identifier))")])
    (.cond (phrase "current.kind != SymbolKind::Terminal") (.block llNtStmts) (.block llTokenStmts))]

/-- the statements of `parse` -/
def llParseStmts : List CStmt := [.simple (phrase "std::queue<std::pair<lexer::TokenType, T>> lookahead"), .simple (phrase "lookahead.push(this->token_function())"),
  .simple (phrase "std::stack<Symbol> parse_stack"), .simple (phrase "Symbol end{SymbolKind::Terminal, static_cast<uint32_t>(lexer::TokenType::TK_EOF)}"), .simple (phrase "parse_stack.push(end)"),
  .simple (phrase "Symbol entry{SymbolKind::NonTerminal, static_cast<uint32_t>({grammar_entry_non_terminal})}"), .simple (phrase "parse_stack.push(entry)"),
  .loop (phrase "parse_stack.size() > 0") (.block llRound)]

/-- the tokens of the loop -/
def llLoopToks : List CTok := .word "while".toList :: .sym ['('] :: phrase "parse_stack.size() > 0" ++ .sym [')'] :: (.sym ['{'] ::
  (phrase "Symbol current = parse_stack.top()" ++ [.sym [';']] ++ (phrase "parse_stack.pop()" ++ [.sym [';']] ++
  (phrase "auto lookahead_token_and_data = lookahead.front()" ++ [.sym [';']] ++ (phrase "lexer::TokenType lookahead_tk = lookahead_token_and_data.first" ++ [.sym [';']] ++
  (.word "if".toList :: .sym ['('] :: phrase "current.kind == SymbolKind::ExitNonTerminal" ++ .sym [')'] :: .sym ['{'] ::
    (phrase "exit_visitor(this->visitor, static_cast<NonTerminalType>(current.identifier))" ++ [.sym [';']]) ++ .sym ['}'] :: .word "else".toList ::
    (.word "if".toList :: .sym ['('] :: phrase "current.kind != SymbolKind::Terminal" ++ .sym [')'] :: .sym ['{'] ::
      (phrase "Symbol nt_exit_symbol{SymbolKind::ExitNonTerminal, current.identifier}" ++ [.sym [';']] ++ (phrase "parse_stack.push(nt_exit_symbol)" ++ [.sym [';']] ++
        (phrase "push_production_from_table(current, lookahead_tk, parse_stack)" ++ [.sym [';']] ++ (phrase "enter_visitor(this->visitor, static_cast<NonTerminalType>(current.identifier))" ++ [.sym [';']])))) ++
      .sym ['}'] :: .word "else".toList :: (.sym ['{'] ::
      (.word "if".toList :: .sym ['('] :: phrase "current.identifier != static_cast<uint32_t>(lookahead_tk)" ++ .sym [')'] :: (.sym ['{'] ::
        (phrase "throw_unexpected_token_error(static_cast<lexer::TokenType>(current.identifier), lookahead_tk)" ++ [.sym [';']]) ++ [.sym ['}']]) ++
      (phrase "this->visitor.token(lookahead_tk, lookahead_token_and_data.second)" ++ [.sym [';']] ++ (phrase "lookahead.pop()" ++ [.sym [';']] ++
        (phrase "lookahead.push(this->token_function())" ++ [.sym [';']])))) ++ [.sym ['}']]))))))) ++ [.sym ['}']])

theorem llLoop_reads : Reads llLoopToks (.loop (phrase "parse_stack.size() > 0") (.block llRound)) := by
  have s : ∀ p : String, simpleOk (phrase p) = true → ReadsL (phrase p ++ [.sym [';']]) [.simple (phrase p)] := fun p h => .one (readsSimple h)
  have h1 := s "exit_visitor(this->visitor, static_cast<NonTerminalType>(current.identifier))" (by decide +kernel)
  have h2 := ((s "Symbol nt_exit_symbol{SymbolKind::ExitNonTerminal, current.identifier}" (by decide +kernel)).append ((s "parse_stack.push(nt_exit_symbol)" (by decide +kernel)).append
    ((s "push_production_from_table(current, lookahead_tk, parse_stack)" (by decide +kernel)).append
    (s "enter_visitor(this->visitor, static_cast<NonTerminalType>(current.identifier))" (by decide +kernel)))))
  have c3 := Reads.cond (c := phrase "current.identifier != static_cast<uint32_t>(lookahead_tk)") (by decide +kernel)
    (.block (s "throw_unexpected_token_error(static_cast<lexer::TokenType>(current.identifier), lookahead_tk)" (by decide +kernel)))
  have h3 := (ReadsL.one c3).append ((s "this->visitor.token(lookahead_tk, lookahead_token_and_data.second)" (by decide +kernel)).append ((s "lookahead.pop()" (by decide +kernel)).append
    (s "lookahead.push(this->token_function())" (by decide +kernel))))
  have c1 := Reads.condElse (c := phrase "current.kind == SymbolKind::ExitNonTerminal") (by decide +kernel) h1
    (.condElse (c := phrase "current.kind != SymbolKind::Terminal") (by decide +kernel) h2 (.block h3))
  exact .loop (by decide +kernel) (.block ((s "Symbol current = parse_stack.top()" (by decide +kernel)).append
    ((s "parse_stack.pop()" (by decide +kernel)).append
    ((s "auto lookahead_token_and_data = lookahead.front()" (by decide +kernel)).append
    ((s "lexer::TokenType lookahead_tk = lookahead_token_and_data.first" (by decide +kernel)).append (ReadsL.one c1))))))

/-- the tokens of `parse` -/
def llParseToks : List CTok := phrase "std::queue<std::pair<lexer::TokenType, T>> lookahead" ++ [.sym [';']] ++ (phrase "lookahead.push(this->token_function())" ++ [.sym [';']] ++
  (phrase "std::stack<Symbol> parse_stack" ++ [.sym [';']] ++ (phrase "Symbol end{SymbolKind::Terminal, static_cast<uint32_t>(lexer::TokenType::TK_EOF)}" ++ [.sym [';']] ++
  (phrase "parse_stack.push(end)" ++ [.sym [';']] ++ (phrase "Symbol entry{SymbolKind::NonTerminal, static_cast<uint32_t>({grammar_entry_non_terminal})}" ++ [.sym [';']] ++
  (phrase "parse_stack.push(entry)" ++ [.sym [';']] ++ llLoopToks))))))

theorem llParse_reads : ReadsL llParseToks llParseStmts := by
  have s : ∀ p : String, simpleOk (phrase p) = true → ReadsL (phrase p ++ [.sym [';']]) [.simple (phrase p)] := fun p h => .one (readsSimple h)
  exact (s "std::queue<std::pair<lexer::TokenType, T>> lookahead" (by decide +kernel)).append ((s "lookahead.push(this->token_function())" (by decide +kernel)).append
    ((s "std::stack<Symbol> parse_stack" (by decide +kernel)).append ((s "Symbol end{SymbolKind::Terminal, static_cast<uint32_t>(lexer::TokenType::TK_EOF)}" (by decide +kernel)).append
    ((s "parse_stack.push(end)" (by decide +kernel)).append ((s "Symbol entry{SymbolKind::NonTerminal, static_cast<uint32_t>({grammar_entry_non_terminal})}" (by decide +kernel)).append
    ((s "parse_stack.push(entry)" (by decide +kernel)).append (.one llLoop_reads)))))))

theorem llParseHead_D : afterPhrase parseHead (.sym ['}'] :: (tplToks llID).tail) = some (llParseToks ++ .sym ['}'] :: [.sym ['}']]) := by decide +kernel

theorem llVisitStmts_all (pre : List Char) (named : List (List Char × List Char)) (hw : ∀ x ∈ named, IsLabel x.1) (hp : ∀ x, pre ++ x ≠ "void".toList) :
    CStmt.allL (noWord "void") (llVisitStmts pre named) = true := by
  have hs : "void" ∈ sought := by decide
  have k1 : (phrase "non_terminal").all (noWord "void") = true := by decide +kernel
  have k2 : (phrase "break").all (noWord "void") = true := by decide +kernel
  have k3 : noWord "void" (.word "visitor".toList) = true := by decide +kernel
  have k4 : noWord "void" (.word "NonTerminalType".toList) = true := by decide +kernel
  have hsym : ∀ s, noWord "void" (.sym s) = true := fun s => by simp [noWord]
  simp only [llVisitStmts, CStmt.allL, CStmt.all, k1, Bool.true_and, Bool.and_true]
  refine allL_flatMap_cases fun c hc => ?_
  obtain ⟨x, hx, rfl⟩ := List.mem_map.mp hc
  have h1 : noWord "void" (.word (pre ++ x.2)) = true := by simp only [noWord, ne_eq, CTok.word.injEq, hp, not_false_eq_true, decide_true]
  exact ⟨by simp only [ntCase, CStmt.all, List.all_cons, List.all_nil, hsym, k4, noWord_label (sought_label hs) (hw x hx), Bool.and_true],
    by simp only [llVisitBody, CStmt.allL, CStmt.all, List.all_cons, List.all_nil, hsym, k2, k3, h1, Bool.and_true]⟩

theorem llImpl_functions (src : CppLLSource) (entry : List Char) (hn : ∀ w ∈ src.nonTerminals, IsLabel w) (hc : ∀ x ∈ src.named, IsLabel x.1 ∧ IsWord x.2) (hd : src.nonTerminals.Nodup) :
    readEnum (phrase "enum class NonTerminalType : uint32_t {") (cppLLParserImplFile src entry).1 = some src.nonTerminals.zipIdx ∧
    readFunction exitHead (cppLLParserImplFile src entry).1 = some (llVisitStmts "exit_".toList src.named) ∧
    readFunction enterHead (cppLLParserImplFile src entry).1 = some (llVisitStmts "enter_".toList src.named) ∧
    readFunction parseHead (cppLLParserImplFile src entry).1 = some llParseStmts := by
  rw [llImpl_file]
  have e1 : Lexes (cppNonTerminalEnumText src.nonTerminals) (enumToks src.nonTerminals) := enumToks_lexes _ fun w h => ⟨(hn w h).1, (hn w h).ne⟩
  obtain ⟨xv, v1, v2⟩ := llVisit_text true src.named hc
  obtain ⟨xw, w1, w2⟩ := llVisit_text false src.named hc
  have lx := llIA_lexes.append (e1.append (llIB_lexes.append (v1.append (llIC_lexes.append (w1.append llID_lexes)))))
  have ev : CTok.word "void".toList ∉ enumToks src.nonTerminals := by
    intro hm
    obtain ⟨w, hw, h⟩ := List.mem_flatMap.mp hm
    simp only [List.mem_cons, CTok.word.injEq, reduceCtorEq, List.not_mem_nil, or_false] at h
    subst h
    exact absurd (hn _ hw).2 (by decide)
  have p1 : ∀ x, "exit_".toList ++ x ≠ "void".toList := fun x e => by simpa using congrArg List.head? e
  have p2 : ∀ x, "enter_".toList ++ x ≠ "void".toList := fun x e => by simpa using congrArg List.head? e
  have vv := not_mem_of_all (ReadsL.all plain_void v2 (llVisitStmts_all _ src.named (fun x h => (hc x h).1) p1))
  have ww := not_mem_of_all (ReadsL.all plain_void w2 (llVisitStmts_all _ src.named (fun x h => (hc x h).1) p2))
  refine ⟨?_, ?_, ?_, ?_⟩
  · unfold readEnum
    rw [cLex_of lx]
    simp only [Option.bind_eq_bind, Option.bind_some]
    rw [afterPhrase_append _ llIA_enum]
    simp only [Option.bind_some, List.nil_append]
    rw [List.cons_append]
    rw [readEnumerators_words _ _ _ (by simp only [List.length_append, enumToks_length]; omega)]
    simp only [Option.bind_some]
    rw [if_pos]
    simpa using hd
  · refine readFunction_toks (tail := (tplToks llIC).tail ++ (xw ++ .sym ['}'] :: (tplToks llID).tail)) lx ?_ v2
    rw [afterPhrase_apart exitHead_A, afterPhrase_word exitHead_eq ev, afterPhrase_append _ exitHead_B, List.nil_append, List.cons_append]
  · refine readFunction_toks (tail := (tplToks llID).tail) lx ?_ w2
    rw [afterPhrase_apart enterHead_A, afterPhrase_word enterHead_eq ev, afterPhrase_apart enterHead_B, afterPhrase_word enterHead_eq vv, afterPhrase_append _ enterHead_C, List.nil_append]
  · refine readFunction_toks (tail := [.sym ['}']]) lx ?_ llParse_reads
    rw [afterPhrase_apart llParseHead_A, afterPhrase_word parseHead_eq ev, afterPhrase_apart llParseHead_B, afterPhrase_word parseHead_eq vv, afterPhrase_apart llParseHead_C, afterPhrase_word parseHead_eq ww,
      llParseHead_D]

end Verif
