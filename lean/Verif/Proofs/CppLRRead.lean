import Verif.Proofs.CppLexText
import Verif.Spec.CppLRText
import Verif.Model.CppLRText

/-! # The text of the C++ LR parser: its statements -/

set_option autoImplicit false

namespace Verif

/-! ## Words -/

/-- names of enumerators -/
def IsLabel (w : List Char) : Prop := IsWord w ∧ ("TK_".toList <+: w ∨ "NT_".toList <+: w)

theorem IsLabel.ne {w : List Char} (h : IsLabel w) : w ≠ [] := by
  rintro rfl
  rcases h.2 with h | h <;> simp at h

theorem Lexes.wordIn {a b w : List Char} {x y : List CTok} {c : Char} (ha : Lexes a x) (hne : w ≠ []) (hw : IsWord w) (hc : isCWordChar c = false) (hb : Lexes (c :: b) y) :
    Lexes (a ++ (w ++ c :: b)) (x ++ .word w :: y) := ha.append (Lexes.word hne hw hc hb)

/-- simple statements as they stand -/
theorem textSimple {s : List Char} {ts : List CTok} (h : Lexes s (ts ++ [.sym [';']])) (ho : simpleOk ts = true) : TextReads s [.simple ts] := ⟨_, h, .one (readsSimple ho)⟩

theorem lexOpen : Lexes "{\n".toList [.sym ['{']] := by unfold Lexes; decide +kernel

theorem textTerminate : TextReads "std::terminate();\n".toList [.simple (phrase "std::terminate()")] := textSimple (by unfold Lexes; decide +kernel) (by decide +kernel)

theorem textNumLabel (n : Nat) : TextReads ("case ".toList ++ (decimal n ++ ": ".toList)) [numLabel n] :=
  .label (Lexes.num (x := [.word "case".toList]) n (by unfold Lexes; decide +kernel) (by decide) (c := ':') (b := [' ']) (y := [.sym [':']])
    (by unfold Lexes; decide +kernel)) (by simp) (by simp)

/-! ## The action table -/

/-- `lexer::TokenType::w` -/
def tkCase (w : List Char) : CStmt := .label [.word "lexer".toList, .sym [':', ':'], .word "TokenType".toList, .sym [':', ':'], .word w]

/-- `NonTerminalType::w` -/
def ntCase (w : List Char) : CStmt := .label [.word "NonTerminalType".toList, .sym [':', ':'], .word w]

/-- `Action act{ActionType::k, n}` -/
def actToks : LRAction → List CTok
  | .shift => [.word "Action".toList, .word "act".toList, .sym ['{'], .word "ActionType".toList, .sym [':', ':'], .word "Shift".toList, .sym [','], .word (decimal 0), .sym ['}']]
  | .reduce i => [.word "Action".toList, .word "act".toList, .sym ['{'], .word "ActionType".toList, .sym [':', ':'], .word "Reduce".toList, .sym [','], .word (decimal i), .sym ['}']]

/-- what a case of the action table does -/
def actBody (a : LRAction) : List CStmt := [.block [.simple (actToks a), .simple (phrase "return act")]]

/-- `throw_unexpected_token_error("x", lookahead_token)` -/
def throwToks (x : List Char) : List CTok := [.word "throw_unexpected_token_error".toList, .sym ['('], .str x, .sym [','], .word "lookahead_token".toList, .sym [')']]

/-- what a state of the action table does -/
def actStateBody (a : List (List Char × LRAction) × List Char) : List CStmt :=
  [.block [.switch (phrase "lookahead_token") (swBody (a.1.map fun c => (tkCase c.1, actBody c.2)) [.simple (throwToks a.2)])], .simple (phrase "break")]

/-- the action table -/
def actStmts (actions : List (List (List Char × LRAction) × List Char)) : List CStmt :=
  [.switch (phrase "state") (swBody ((actions.zipIdx.map fun x => (x.2, x.1)).map fun c => (numLabel c.1, actStateBody c.2)) [.simple (phrase "std::terminate()")])]

theorem decimal_zero : decimal 0 = ['0'] := by decide +kernel

theorem actToks_ok (a : LRAction) : simpleOk (actToks a) = true := by
  cases a <;> simp [actToks, simpleOk, stmtWords]

theorem text_break : TextReads "break;\n".toList [.simple (phrase "break")] := textSimple (by unfold Lexes; decide +kernel) (by decide +kernel)

theorem tkCase_text {w : List Char} (hw : IsLabel w) : TextReads ("case lexer::TokenType::".toList ++ (w ++ ":\n".toList)) [tkCase w] :=
  .label (Lexes.wordIn (x := [.word "case".toList, .word "lexer".toList, .sym [':', ':'], .word "TokenType".toList, .sym [':', ':']]) (by unfold Lexes; decide +kernel) hw.ne hw.1 (by decide) (c := ':')
    (b := ['\n']) (y := [.sym [':']]) (by unfold Lexes; decide +kernel)) (by simp) (by simp)

theorem ntCase_text {w : List Char} (hw : IsLabel w) : TextReads ("case NonTerminalType::".toList ++ (w ++ ":\n".toList)) [ntCase w] :=
  .label (Lexes.wordIn (x := [.word "case".toList, .word "NonTerminalType".toList, .sym [':', ':']]) (by unfold Lexes; decide +kernel) hw.ne hw.1 (by decide) (c := ':')
    (b := ['\n']) (y := [.sym [':']]) (by unfold Lexes; decide +kernel)) (by simp) (by simp)

theorem actToks_text (a : LRAction) : TextReads (match a with
    | .shift => "Action act{ActionType::Shift, 0};\n".toList
    | .reduce i => "Action act{ActionType::Reduce, ".toList ++ (decimal i ++ "};\n".toList)) [.simple (actToks a)] := by
  refine textSimple ?_ (actToks_ok a)
  cases a with
  | shift =>
    simp only [actToks]
    rw [decimal_zero]
    unfold Lexes; decide +kernel
  | reduce i =>
    exact Lexes.num (x := [.word "Action".toList, .word "act".toList, .sym ['{'], .word "ActionType".toList, .sym [':', ':'], .word "Reduce".toList, .sym [',']]) i
      (by unfold Lexes; decide +kernel) (by decide) (c := '}') (b := ";\n".toList) (y := [.sym ['}'], .sym [';']]) (by unfold Lexes; decide +kernel)

theorem actCase_text (c : List Char × LRAction) (hw : IsLabel c.1) : TextReads (cppActionCaseText c) (tkCase c.1 :: actBody c.2) := by
  unfold cppActionCaseText actBody
  exact (tkCase_text hw).append (.block lexOpen ((actToks_text c.2).append (textSimple (by unfold Lexes; decide +kernel) (by decide +kernel))) lexClose)

theorem throwToks_text (x : List Char) (hx : StrOk x) : TextReads ("throw_unexpected_token_error(".toList ++ ('"' :: (x ++ ['"'])) ++ ", lookahead_token);\n".toList) [.simple (throwToks x)] := by
  refine textSimple ?_ (by simp [throwToks, simpleOk, stmtWords])
  exact Lexes.append (x := [.word "throw_unexpected_token_error".toList, .sym ['('], .str x]) (y := [.sym [','], .word "lookahead_token".toList, .sym [')'], .sym [';']])
    (Lexes.append (x := [.word "throw_unexpected_token_error".toList, .sym ['(']]) (by unfold Lexes; decide +kernel) (.str hx)) (by unfold Lexes; decide +kernel)

theorem swBody_text {α : Type} {f : α → List Char} {g : α → CStmt × List CStmt} {d : List Char} {ds : List CStmt} (l : List α) (h : ∀ a ∈ l, TextReads (f a) ((g a).1 :: (g a).2))
    (hd : TextReads d ds) : TextReads (l.flatMap f ++ "default:\n".toList ++ d) (swBody (l.map g) ds) := by
  unfold swBody
  rw [List.flatMap_map, show CStmt.dflt :: ds = [CStmt.dflt] ++ ds from rfl, ← List.append_assoc]
  exact ((TextReads.flatMap l h).append textDefault).append hd

theorem actState_text (x : (List (List Char × LRAction) × List Char) × Nat) (hw : ∀ c ∈ x.1.1, IsLabel c.1) (hx : StrOk x.1.2) :
    TextReads (cppActionStateText x) (numLabel x.2 :: actStateBody x.1) := by
  unfold cppActionStateText actStateBody
  refine ((textNumLabel x.2).append (y := [_]) (.block lexOpen (.switch (by unfold Lexes; decide +kernel) (by decide +kernel) ?_ lexClose) lexClose)).append text_break
  exact swBody_text x.1.1 (fun c hc => actCase_text c (hw c hc)) (throwToks_text _ hx)

theorem text_comment1 : TextReads "// Encountered a parser state that does not exist.\n".toList [] := .skip (by unfold Lexes; decide +kernel)
theorem text_comment2 : TextReads "// Entered state where top of stack doesn't produce a valid transition.\n".toList [] := .skip (by unfold Lexes; decide +kernel)
theorem text_comment3 : TextReads "// There was a state atop the stack when there should have been a symbol.\n".toList [] := .skip (by unfold Lexes; decide +kernel)
theorem text_comment4 : TextReads "// Tried reducing non-existent rule.\n".toList [] := .skip (by unfold Lexes; decide +kernel)

theorem act_text (actions : List (List (List Char × LRAction) × List Char)) (hw : ∀ a ∈ actions, (∀ c ∈ a.1, IsLabel c.1) ∧ StrOk a.2) :
    TextReads (cppActionText actions) (actStmts actions) := by
  unfold cppActionText actStmts
  refine .switch (by unfold Lexes; decide +kernel) (by decide +kernel) ?_ lexClose
  rw [List.map_map, List.append_assoc _ _ "std::terminate();\n".toList]
  refine swBody_text actions.zipIdx (fun x hx => ?_) (text_comment1.append textTerminate)
  have := hw x.1 (List.fst_mem_of_mem_zipIdx hx)
  exact actState_text x this.1 this.2

/-! ## The goto table -/

/-- `Transition transition{q, b}` -/
def gotoToks : LRGoto → List CTok
  | .state q => [.word "Transition".toList, .word "transition".toList, .sym ['{'], .word (decimal q), .sym [','], .word "false".toList, .sym ['}']]
  | .accept => [.word "Transition".toList, .word "transition".toList, .sym ['{'], .word (decimal 0), .sym [','], .word "true".toList, .sym ['}']]

/-- what a case of the goto table does -/
def gotoBody (a : LRGoto) : List CStmt := [.block [.simple (gotoToks a), .simple (phrase "return transition")]]

/-- what a state of the goto table does -/
def gotoStateBody (a : List (List Char × LRGoto) × List (List Char × LRGoto)) : List CStmt :=
  [.block [.cond (phrase "current_symbol.kind == SymbolKind::Terminal")
    (.block [.switch (phrase "static_cast<lexer::TokenType>(current_symbol.identifier)") (swBody (a.1.map fun c => (tkCase c.1, gotoBody c.2)) [.simple (phrase "std::terminate()")])])
    (.cond (phrase "current_symbol.kind == SymbolKind::NonTerminal")
      (.block [.switch (phrase "static_cast<parser::NonTerminalType>(current_symbol.identifier)") (swBody (a.2.map fun c => (ntCase c.1, gotoBody c.2)) [.simple (phrase "std::terminate()")])])
      (.block [.simple (phrase "std::terminate()")]))], .simple (phrase "break")]

/-- the goto table -/
def gotoStmts (gotos : List (Nat × List (List Char × LRGoto) × List (List Char × LRGoto))) : List CStmt :=
  [.switch (phrase "state") (swBody (gotos.map fun c => (numLabel c.1, gotoStateBody c.2)) [.simple (phrase "std::terminate()")])]

theorem gotoToks_ok (a : LRGoto) : simpleOk (gotoToks a) = true := by
  cases a <;> simp [gotoToks, simpleOk, stmtWords]

theorem gotoToks_text (a : LRGoto) : TextReads (match a with
    | .state q => "Transition transition{".toList ++ (decimal q ++ ", false};\n".toList)
    | .accept => "Transition transition{0, true};\n".toList) [.simple (gotoToks a)] := by
  refine textSimple ?_ (gotoToks_ok a)
  cases a with
  | accept =>
    simp only [gotoToks]
    rw [decimal_zero]
    unfold Lexes; decide +kernel
  | state i =>
    exact Lexes.num (x := [.word "Transition".toList, .word "transition".toList, .sym ['{']]) i
      (by unfold Lexes; decide +kernel) (by decide) (c := ',') (b := " false};\n".toList) (y := [.sym [','], .word "false".toList, .sym ['}'], .sym [';']]) (by unfold Lexes; decide +kernel)

theorem gotoCase_text (qualifier : List Char) (lab : List Char → CStmt) (hq : ∀ w, IsLabel w → TextReads ("case ".toList ++ ((qualifier ++ w) ++ ":\n".toList)) [lab w])
    (c : List Char × LRGoto) (hw : IsLabel c.1) : TextReads (cppGotoCaseText qualifier c) (lab c.1 :: gotoBody c.2) := by
  unfold cppGotoCaseText gotoBody
  rw [if_neg hw.ne]
  exact (hq c.1 hw).append (.block lexOpen ((gotoToks_text c.2).append (textSimple (by unfold Lexes; decide +kernel) (by decide +kernel))) lexClose)

theorem gotoCases_text (qualifier : List Char) (lab : List Char → CStmt) (hq : ∀ w, IsLabel w → TextReads ("case ".toList ++ ((qualifier ++ w) ++ ":\n".toList)) [lab w])
    (cases : List (List Char × LRGoto)) (hw : ∀ c ∈ cases, IsLabel c.1) :
    TextReads (cppGotoCasesText qualifier cases) (swBody (cases.map fun c => (lab c.1, gotoBody c.2)) [.simple (phrase "std::terminate()")]) := by
  unfold cppGotoCasesText
  rw [List.append_assoc _ _ "std::terminate();\n".toList]
  exact swBody_text cases (fun c hc => gotoCase_text qualifier lab hq c (hw c hc)) (text_comment2.append textTerminate)

theorem tkQualified (w : List Char) (hw : IsLabel w) : TextReads ("case ".toList ++ (("lexer::TokenType::".toList ++ w) ++ ":\n".toList)) [tkCase w] := by
  have := tkCase_text hw
  rwa [show "case lexer::TokenType::".toList = "case ".toList ++ "lexer::TokenType::".toList by decide +kernel, List.append_assoc, ← List.append_assoc "lexer::TokenType::".toList] at this

theorem ntQualified (w : List Char) (hw : IsLabel w) : TextReads ("case ".toList ++ (("NonTerminalType::".toList ++ w) ++ ":\n".toList)) [ntCase w] := by
  have := ntCase_text hw
  rwa [show "case NonTerminalType::".toList = "case ".toList ++ "NonTerminalType::".toList by decide +kernel, List.append_assoc, ← List.append_assoc "NonTerminalType::".toList] at this

/-- `if (c) {` … `} else if (c') {` … `} else {` … `}` -/
theorem TextReads.condElse {a s b s' b' s'' e : List Char} {c c' : List CTok} {x x' x'' : List CStmt}
    (ha : Lexes a (.word "if".toList :: .sym ['('] :: c ++ [.sym [')'], .sym ['{']])) (hc : balanced 0 c = true) (hs : TextReads s x)
    (hb : Lexes b (.sym ['}'] :: .word "else".toList :: .word "if".toList :: .sym ['('] :: c' ++ [.sym [')'], .sym ['{']])) (hc' : balanced 0 c' = true) (hs' : TextReads s' x')
    (hb' : Lexes b' [.sym ['}'], .word "else".toList, .sym ['{']]) (hs'' : TextReads s'' x'') (he : Lexes e [.sym ['}']]) :
    TextReads (a ++ (s ++ (b ++ (s' ++ (b' ++ (s'' ++ e)))))) [.cond c (.block x) (.cond c' (.block x') (.block x''))] := by
  obtain ⟨t, h1, h2⟩ := hs
  obtain ⟨t', h1', h2'⟩ := hs'
  obtain ⟨t'', h1'', h2''⟩ := hs''
  refine ⟨_, ha.append (h1.append (hb.append (h1'.append (hb'.append (h1''.append he))))), .one ?_⟩
  have := Reads.condElse hc h2 (.condElse hc' h2' (.block h2''))
  simpa using this

theorem gotoState_text (x : Nat × List (List Char × LRGoto) × List (List Char × LRGoto)) (hw : (∀ c ∈ x.2.1, IsLabel c.1) ∧ ∀ c ∈ x.2.2, IsLabel c.1) :
    TextReads (cppGotoStateText x) (numLabel x.1 :: gotoStateBody x.2) := by
  unfold cppGotoStateText gotoStateBody
  refine ((textNumLabel x.1).append (y := [_]) (.block lexOpen ?_ lexClose)).append text_break
  have h := TextReads.condElse (a := "if (current_symbol.kind == SymbolKind::Terminal) {\n".toList) (b := "} else if (current_symbol.kind == SymbolKind::NonTerminal) {\n".toList)
    (b' := "} else {\n".toList) (e := "}\n".toList) (c := phrase "current_symbol.kind == SymbolKind::Terminal") (c' := phrase "current_symbol.kind == SymbolKind::NonTerminal")
    (by unfold Lexes; decide +kernel) (by decide +kernel)
    (.switch (e := phrase "static_cast<lexer::TokenType>(current_symbol.identifier)") (a := "switch (static_cast<lexer::TokenType>(current_symbol.identifier)) {\n".toList)
      (by unfold Lexes; decide +kernel) (by decide +kernel) (gotoCases_text _ _ tkQualified x.2.1 hw.1) lexClose)
    (by unfold Lexes; decide +kernel) (by decide +kernel)
    (.switch (e := phrase "static_cast<parser::NonTerminalType>(current_symbol.identifier)") (a := "switch (static_cast<parser::NonTerminalType>(current_symbol.identifier)) {\n".toList)
      (by unfold Lexes; decide +kernel) (by decide +kernel) (gotoCases_text _ _ ntQualified x.2.2 hw.2) lexClose)
    (by unfold Lexes; decide +kernel) (text_comment3.append textTerminate) lexClose
  simp only [List.append_assoc] at h ⊢
  exact h

theorem goto_text (gotos : List (Nat × List (List Char × LRGoto) × List (List Char × LRGoto))) (hw : ∀ x ∈ gotos, (∀ c ∈ x.2.1, IsLabel c.1) ∧ ∀ c ∈ x.2.2, IsLabel c.1) :
    TextReads (cppGotoText gotos) (gotoStmts gotos) := by
  unfold cppGotoText gotoStmts
  refine .switch (by unfold Lexes; decide +kernel) (by decide +kernel) ?_ lexClose
  rw [List.append_assoc _ _ "std::terminate();\n".toList]
  exact swBody_text gotos (fun x hx => gotoState_text x (hw x hx)) (text_comment1.append textTerminate)

/-! ## The stack reduce table -/

/-- the tokens in the head of the loop -/
def countToks (k : Nat) : List CTok := phrase "size_t i = 0; i <" ++ .word (decimal k) :: phrase "; i++"

/-- the body of the loop -/
def popStmts : List CStmt := [.simple (phrase "parse_stack.pop_back()"), .simple (phrase "Symbol reduced_symbol = parse_stack.back()"),
  .simple (phrase "rev_reduced_symbols.push_back(reduced_symbol)"), .simple (phrase "parse_stack.pop_back()")]

/-- `Symbol reduced_non_terminal{SymbolKind::NonTerminal, static_cast<uint32_t>(NonTerminalType::w)}` -/
def ntToks (w : List Char) : List CTok := [.word "Symbol".toList, .word "reduced_non_terminal".toList, .sym ['{'], .word "SymbolKind".toList, .sym [':', ':'], .word "NonTerminal".toList, .sym [','],
  .word "static_cast".toList, .sym ['<'], .word "uint32_t".toList, .sym ['>'], .sym ['('], .word "NonTerminalType".toList, .sym [':', ':'], .word w, .sym [')'], .sym ['}']]

/-- what a case of the stack reduce table does -/
def reduceBody (x : Nat × List Char) : List CStmt :=
  [.block ((if 0 < x.1 then [.count (countToks x.1) (.block popStmts)] else []) ++
    [.simple (ntToks x.2), .simple (phrase "parse_stack.push_back(reduced_non_terminal)"), .simple (phrase "return")])]

/-- the stack reduce table -/
def reduceStmts (reductions : List (Nat × List Char)) : List CStmt :=
  [.switch (phrase "rule") (swBody ((reductions.zipIdx.map fun x => (x.2, x.1)).map fun c => (numLabel c.1, reduceBody c.2)) [.simple (phrase "std::terminate()")])]

theorem TextReads.count {a s b : List Char} {c : List CTok} {ss : List CStmt} (h : Lexes a (.word "for".toList :: .sym ['('] :: c ++ [.sym [')'], .sym ['{']]))
    (hc : balanced 0 c = true) (hs : TextReads s ss) (hb : Lexes b [.sym ['}']]) : TextReads (a ++ s ++ b) [.count c (.block ss)] := by
  obtain ⟨ts, h1, h2⟩ := hs
  exact ⟨_, (h.append h1).append hb, .one (by simpa using Reads.count hc (.block h2))⟩

theorem countToks_eq (k : Nat) : countToks k = [.word "size_t".toList, .word ['i'], .sym ['='], .word ['0'], .sym [';'], .word ['i'], .sym ['<'], .word (decimal k), .sym [';'], .word ['i'], .sym ['+'], .sym ['+']] := by
  unfold countToks
  rw [show phrase "size_t i = 0; i <" = [.word "size_t".toList, .word ['i'], .sym ['='], .word ['0'], .sym [';'], .word ['i'], .sym ['<']] by decide +kernel,
    show phrase "; i++" = [.sym [';'], .word ['i'], .sym ['+'], .sym ['+']] by decide +kernel]
  rfl

theorem ntToks_text (w : List Char) (hw : IsLabel w) :
    TextReads ("Symbol reduced_non_terminal{SymbolKind::NonTerminal, static_cast<uint32_t>(NonTerminalType::".toList ++ (w ++ ")};\n".toList)) [.simple (ntToks w)] := by
  refine textSimple ?_ (by simp [ntToks, simpleOk, stmtWords])
  exact Lexes.wordIn (x := [.word "Symbol".toList, .word "reduced_non_terminal".toList, .sym ['{'], .word "SymbolKind".toList, .sym [':', ':'], .word "NonTerminal".toList, .sym [','],
    .word "static_cast".toList, .sym ['<'], .word "uint32_t".toList, .sym ['>'], .sym ['('], .word "NonTerminalType".toList, .sym [':', ':']]) (by unfold Lexes; decide +kernel) hw.ne hw.1 (by decide)
    (c := ')') (b := "};\n".toList) (y := [.sym [')'], .sym ['}'], .sym [';']]) (by unfold Lexes; decide +kernel)

theorem pop_text : TextReads ("parse_stack.pop_back();\n".toList ++ "Symbol reduced_symbol = parse_stack.back();\n".toList ++
    "rev_reduced_symbols.push_back(reduced_symbol);\n".toList ++ "parse_stack.pop_back();\n".toList) popStmts := by
  have h1 : TextReads "parse_stack.pop_back();\n".toList [.simple (phrase "parse_stack.pop_back()")] := textSimple (by unfold Lexes; decide +kernel) (by decide +kernel)
  have h2 : TextReads "Symbol reduced_symbol = parse_stack.back();\n".toList [.simple (phrase "Symbol reduced_symbol = parse_stack.back()")] :=
    textSimple (by unfold Lexes; decide +kernel) (by decide +kernel)
  have h3 : TextReads "rev_reduced_symbols.push_back(reduced_symbol);\n".toList [.simple (phrase "rev_reduced_symbols.push_back(reduced_symbol)")] :=
    textSimple (by unfold Lexes; decide +kernel) (by decide +kernel)
  exact ((h1.append h2).append h3).append h1

theorem reduceCase_text (x : (Nat × List Char) × Nat) (hw : IsLabel x.1.2) : TextReads (cppReduceCaseText x) (numLabel x.2 :: reduceBody x.1) := by
  unfold cppReduceCaseText reduceBody
  refine (textNumLabel x.2).append (.block lexOpen ?_ lexClose)
  have h1 : TextReads (if 0 < x.1.1 then
      "for (size_t i = 0; i < ".toList ++ (decimal x.1.1 ++ "; i++) {\n".toList) ++ ("parse_stack.pop_back();\n".toList ++ "Symbol reduced_symbol = parse_stack.back();\n".toList ++
        "rev_reduced_symbols.push_back(reduced_symbol);\n".toList ++ "parse_stack.pop_back();\n".toList) ++ "}\n".toList
    else []) (if 0 < x.1.1 then [.count (countToks x.1.1) (.block popStmts)] else []) := by
    split
    · refine .count ?_ ?_ pop_text lexClose
      · rw [countToks_eq]
        exact Lexes.num (x := [.word "for".toList, .sym ['('], .word "size_t".toList, .word ['i'], .sym ['='], .word ['0'], .sym [';'], .word ['i'], .sym ['<']]) x.1.1
          (by unfold Lexes; decide +kernel) (by decide) (c := ';') (b := " i++) {\n".toList) (y := [.sym [';'], .word ['i'], .sym ['+'], .sym ['+'], .sym [')'], .sym ['{']])
          (by unfold Lexes; decide +kernel)
      · rw [countToks_eq]
        simp [balanced]
    · exact .nil
  have h2 : TextReads "parse_stack.push_back(reduced_non_terminal);\n".toList [.simple (phrase "parse_stack.push_back(reduced_non_terminal)")] :=
    textSimple (by unfold Lexes; decide +kernel) (by decide +kernel)
  have h3 : TextReads "return;\n".toList [.simple (phrase "return")] := textSimple (by unfold Lexes; decide +kernel) (by decide +kernel)
  have := ((h1.append (ntToks_text x.1.2 hw)).append h2).append h3
  simp only [List.append_assoc] at this ⊢
  exact this

theorem reduce_text (reductions : List (Nat × List Char)) (hw : ∀ x ∈ reductions, IsLabel x.2) : TextReads (cppReduceText reductions) (reduceStmts reductions) := by
  unfold cppReduceText reduceStmts
  refine .switch (by unfold Lexes; decide +kernel) (by decide +kernel) ?_ lexClose
  rw [List.map_map, List.append_assoc _ _ "std::terminate();\n".toList]
  exact swBody_text reductions.zipIdx (fun x hx => reduceCase_text x (hw x.1 (List.fst_mem_of_mem_zipIdx hx))) (text_comment4.append textTerminate)

/-! ## The visitor -/

/-- what a case of `reduce_visitor` does -/
def visitBody (x : List Char) : List CStmt := [.block [.simple [.word "visitor".toList, .sym ['.'], .word x, .sym ['('], .sym [')']], .simple (phrase "return")]]

/-- `reduce_visitor` -/
def visitStmts (calls : List (Nat × List Char)) : List CStmt :=
  [.switch (phrase "rule") (swBody (calls.map fun c => (numLabel c.1, visitBody c.2)) [.simple (phrase "std::terminate()")])]

theorem visitCase_text (x : Nat × List Char) (hw : IsWord x.2 ∧ x.2 ≠ []) : TextReads (cppVisitorCaseText x) (numLabel x.1 :: visitBody x.2) := by
  unfold cppVisitorCaseText visitBody
  have h1 : TextReads ("visitor.".toList ++ (x.2 ++ "();\n".toList)) [.simple [.word "visitor".toList, .sym ['.'], .word x.2, .sym ['('], .sym [')']]] := by
    refine textSimple ?_ (by simp [simpleOk, stmtWords])
    obtain ⟨c, w, hcw⟩ := List.exists_cons_of_ne_nil hw.2
    have hc : isCWordChar c = true := hw.1 c (by simp [hcw])
    have h2 : Lexes (x.2 ++ '(' :: ");\n".toList) (.word x.2 :: [.sym ['('], .sym [')'], .sym [';']]) := Lexes.word hw.2 hw.1 (by decide) (by unfold Lexes; decide +kernel)
    unfold Lexes at h2 ⊢
    rw [hcw] at h2 ⊢
    have h3 : cLexRun .base ("visitor.".toList) = some ([.word "visitor".toList], .dot) := by decide +kernel
    rw [show "visitor.".toList ++ (c :: w ++ "();\n".toList) = "visitor.".toList ++ (c :: (w ++ '(' :: ");\n".toList)) from rfl, cLexRun_append, h3]
    simp only [Option.bind_some]
    rw [show c :: w ++ '(' :: ");\n".toList = c :: (w ++ '(' :: ");\n".toList) from rfl] at h2
    have hd : c ≠ '.' := by rintro rfl; revert hc; decide
    simp only [cLexRun, cLexStep, cLexAfter, hd, if_false, cLexBase, hc, if_true, Option.map_some] at h2 ⊢
    cases h4 : cLexRun (.word [c]) (w ++ '(' :: ");\n".toList) with
    | none => rw [h4] at h2; simp at h2
    | some q =>
      rw [h4] at h2
      simp only [Option.some.injEq, Prod.mk.injEq, List.nil_append] at h2
      obtain ⟨h5, h6⟩ := h2
      simp [h5, h6]
  have h2 : TextReads "return;\n".toList [.simple (phrase "return")] := textSimple (by unfold Lexes; decide +kernel) (by decide +kernel)
  exact (textNumLabel x.1).append (.block lexOpen (h1.append h2) lexClose)

theorem visit_text (calls : List (Nat × List Char)) (hw : ∀ x ∈ calls, IsWord x.2 ∧ x.2 ≠ []) : TextReads (cppVisitorText calls) (visitStmts calls) := by
  unfold cppVisitorText visitStmts
  refine .switch (by unfold Lexes; decide +kernel) (by decide +kernel) ?_ lexClose
  rw [List.append_assoc _ _ "std::terminate();\n".toList]
  exact swBody_text calls (fun x hx => visitCase_text x (hw x hx)) (text_comment4.append textTerminate)

/-! ## Names of tokens -/

/-- `TokenType::w` -/
def nameLabel (w : List Char) : CStmt := .label [.word "TokenType".toList, .sym [':', ':'], .word w]

/-- `return "x"` -/
def nameBody (x : List Char) : List CStmt := [.simple [.word "return".toList, .str x]]

/-- labels and names -/
def nameCases (names : List (List Char)) : List (List Char × List Char) :=
  [("TK_ERR".toList, "<ERR>".toList), ("TK_EOF".toList, "<EOF>".toList)] ++ names.map fun n => ("TK_".toList ++ n, n)

/-- `get_token_name` -/
def nameStmts (names : List (List Char)) : List CStmt :=
  [.switch (phrase "tk_type") (swBody ((nameCases names).map fun c => (nameLabel c.1, nameBody c.2)) [.simple (phrase "return nullptr")])]

theorem isWord_str {w : List Char} (h : IsWord w) : StrOk w := by
  intro c hc
  have := h c hc
  refine ⟨?_, ?_, ?_⟩ <;> rintro rfl <;> revert this <;> decide

theorem isLabel_tk {n : List Char} (h : IsWord n) : IsLabel ("TK_".toList ++ n) := by
  refine ⟨?_, .inl (List.prefix_append _ _)⟩
  intro c hc
  rcases List.mem_append.mp hc with hc | hc
  · exact (by decide : ∀ d ∈ "TK_".toList, isCWordChar d = true) c hc
  · exact h c hc

theorem nameCase_text (n : List Char) (hn : IsWord n) : TextReads (cppTokenNameCase n) (nameLabel ("TK_".toList ++ n) :: nameBody n) := by
  unfold cppTokenNameCase nameBody
  have hl := isLabel_tk hn
  have h1 : TextReads ("case TokenType::".toList ++ (("TK_".toList ++ n) ++ ":\n".toList)) [nameLabel ("TK_".toList ++ n)] :=
    .label (Lexes.wordIn (x := [.word "case".toList, .word "TokenType".toList, .sym [':', ':']]) (by unfold Lexes; decide +kernel) hl.ne hl.1 (by decide) (c := ':')
      (b := ['\n']) (y := [.sym [':']]) (by unfold Lexes; decide +kernel)) (by simp) (by simp)
  refine h1.append (textSimple ?_ (by simp [simpleOk, stmtWords]))
  exact Lexes.append (x := [.word "return".toList, .str n]) (y := [.sym [';']])
    (Lexes.append (x := [.word "return".toList]) (by unfold Lexes; decide +kernel) (.str (isWord_str hn))) (by unfold Lexes; decide +kernel)

theorem name_text (names : List (List Char)) (hn : ∀ n ∈ names, IsWord n) : TextReads (cppTokenNameText names) (nameStmts names) := by
  unfold cppTokenNameText nameStmts
  refine .switch (by unfold Lexes; decide +kernel) (by decide +kernel) ?_ lexClose
  have h1 : TextReads ("case TokenType::TK_ERR:\n".toList ++ "return \"<ERR>\";\n".toList ++ "case TokenType::TK_EOF:\n".toList ++ "return \"<EOF>\";\n".toList)
      ([nameLabel "TK_ERR".toList] ++ nameBody "<ERR>".toList ++ [nameLabel "TK_EOF".toList] ++ nameBody "<EOF>".toList) := by
    refine .append (.append (.append (.label ?_ ?_ ?_) (textSimple ?_ ?_)) (.label ?_ ?_ ?_)) (textSimple ?_ ?_) <;> first | (unfold Lexes; decide +kernel) | decide +kernel
  have h2 := swBody_text (g := fun n => (nameLabel ("TK_".toList ++ n), nameBody n)) names (fun n hn' => nameCase_text n (hn n hn'))
    (d := "return nullptr;\n".toList) (textSimple (ts := phrase "return nullptr") (by unfold Lexes; decide +kernel) (by decide +kernel))
  have h := h1.append h2
  unfold nameCases swBody at *
  simp only [List.map_append, List.map_cons, List.map_nil, List.map_map, List.flatMap_append, List.flatMap_cons, List.flatMap_nil, Function.comp_def, List.append_assoc, List.cons_append,
    List.nil_append, List.append_nil, List.flatMap_map, nameBody] at h ⊢
  exact h

end Verif
