import Verif.Model.CppText
import Verif.Model.Display

/-!
# The source text of the C++ LR parser

The functions here write the parts of `CppLRSource`, which `genCpp` takes from the table, as text, and put the texts into the templates.
-/

set_option autoImplicit false

namespace Verif

/-! ## `tokens.h` and `tokens.cpp` -/

/-- `write_token_enum_variants` — lapex-cpp-codegen/src/lexer/mod.rs:121-126. -/
def cppTokenEnumText (names : List (List Char)) : List Char := names.flatMap fun n => ("TK_".toList ++ n) ++ ",\n".toList

/-- one rule of `write_get_token_name_function` — lapex-cpp-codegen/src/lexer/mod.rs:137-140. -/
def cppTokenNameCase (n : List Char) : List Char :=
  ("case TokenType::".toList ++ (("TK_".toList ++ n) ++ ":\n".toList)) ++ ("return ".toList ++ ('"' :: (n ++ ['"'])) ++ ";\n".toList)

/-- `write_get_token_name_function` — lapex-cpp-codegen/src/lexer/mod.rs:128-144. -/
def cppTokenNameText (names : List (List Char)) : List Char :=
  "switch (tk_type) {\n".toList ++ ("case TokenType::TK_ERR:\n".toList ++ "return \"<ERR>\";\n".toList ++ "case TokenType::TK_EOF:\n".toList ++ "return \"<EOF>\";\n".toList ++
    names.flatMap cppTokenNameCase ++ "default:\n".toList ++ "return nullptr;\n".toList) ++ "}\n".toList

/-- the file `tokens.h` — `write_tokens_header`, lapex-cpp-codegen/src/lexer/mod.rs:154-158. -/
def cppTokensHeaderFile (names : List (List Char)) : List Char × WriteStatus :=
  writeTemplate (substitute "token_enum_variants".toList (cppTokenEnumText names, true) []) tokensHeaderTemplate.text

/-- the file `tokens.cpp` — `write_tokens_impl`, lapex-cpp-codegen/src/lexer/mod.rs:146-152. -/
def cppTokensFile (names : List (List Char)) : List Char × WriteStatus :=
  writeTemplate (substitute "get_token_name_function".toList (cppTokenNameText names, true) []) tokensImplTemplate.text

/-! ## `parser.cpp` -/

/-- one case of the action table — `write_action_case_header` and `write_action_case_body`, lapex-cpp-codegen/src/lr_parser/action_goto.rs:121-174; the columns are
those of the terminals and of the end. -/
def cppActionCaseText (c : List Char × LRAction) : List Char :=
  ("case lexer::TokenType::".toList ++ (c.1 ++ ":\n".toList)) ++ ("{\n".toList ++ ((match c.2 with
    | .shift => "Action act{ActionType::Shift, 0};\n".toList
    | .reduce i => "Action act{ActionType::Reduce, ".toList ++ (decimal i ++ "};\n".toList)) ++ "return act;\n".toList) ++ "}\n".toList)

/-- one state of `write_action_table` — lapex-cpp-codegen/src/lr_parser/action_goto.rs:246-257, `write_action_cases` 81-119. -/
def cppActionStateText (x : (List (List Char × LRAction) × List Char) × Nat) : List Char :=
  ("case ".toList ++ (decimal x.2 ++ ": ".toList)) ++ ("{\n".toList ++
    ("switch (lookahead_token) {\n".toList ++ (x.1.1.flatMap cppActionCaseText ++ "default:\n".toList ++
      ("throw_unexpected_token_error(".toList ++ ('"' :: (x.1.2 ++ ['"'])) ++ ", lookahead_token);\n".toList)) ++ "}\n".toList) ++
    "}\n".toList) ++ "break;\n".toList

/-- `write_action_table` — lapex-cpp-codegen/src/lr_parser/action_goto.rs:244-264. -/
def cppActionText (actions : List (List (List Char × LRAction) × List Char)) : List Char :=
  "switch (state) {\n".toList ++ (actions.zipIdx.flatMap cppActionStateText ++ "default:\n".toList ++ "// Encountered a parser state that does not exist.\n".toList ++
    "std::terminate();\n".toList) ++ "}\n".toList

/-- one case of the goto table — `write_goto_case_header` and `write_goto_case_body`, lapex-cpp-codegen/src/lr_parser/action_goto.rs:36-79. No label is written for
the end symbol. -/
def cppGotoCaseText (qualifier : List Char) (c : List Char × LRGoto) : List Char :=
  ("case ".toList ++ ((if c.1 = [] then [] else qualifier ++ c.1) ++ ":\n".toList)) ++ ("{\n".toList ++ ((match c.2 with
    | .state q => "Transition transition{".toList ++ (decimal q ++ ", false};\n".toList)
    | .accept => "Transition transition{0, true};\n".toList) ++ "return transition;\n".toList) ++ "}\n".toList)

/-- `write_goto_cases` — lapex-cpp-codegen/src/lr_parser/action_goto.rs:11-34. -/
def cppGotoCasesText (qualifier : List Char) (cases : List (List Char × LRGoto)) : List Char :=
  cases.flatMap (cppGotoCaseText qualifier) ++ "default:\n".toList ++ "// Entered state where top of stack doesn't produce a valid transition.\n".toList ++ "std::terminate();\n".toList

/-- one state of `write_goto_table` — lapex-cpp-codegen/src/lr_parser/action_goto.rs:190-236. -/
def cppGotoStateText (x : Nat × List (List Char × LRGoto) × List (List Char × LRGoto)) : List Char :=
  ("case ".toList ++ (decimal x.1 ++ ": ".toList)) ++ ("{\n".toList ++
    ("if (current_symbol.kind == SymbolKind::Terminal) {\n".toList ++
      ("switch (static_cast<lexer::TokenType>(current_symbol.identifier)) {\n".toList ++ cppGotoCasesText "lexer::TokenType::".toList x.2.1 ++ "}\n".toList) ++
    "} else if (current_symbol.kind == SymbolKind::NonTerminal) {\n".toList ++
      ("switch (static_cast<parser::NonTerminalType>(current_symbol.identifier)) {\n".toList ++ cppGotoCasesText "NonTerminalType::".toList x.2.2 ++ "}\n".toList) ++
    "} else {\n".toList ++ "// There was a state atop the stack when there should have been a symbol.\n".toList ++ "std::terminate();\n".toList ++ "}\n".toList) ++
    "}\n".toList) ++ "break;\n".toList

/-- `write_goto_table` — lapex-cpp-codegen/src/lr_parser/action_goto.rs:188-242. -/
def cppGotoText (gotos : List (Nat × List (List Char × LRGoto) × List (List Char × LRGoto))) : List Char :=
  "switch (state) {\n".toList ++ (gotos.flatMap cppGotoStateText ++ "default:\n".toList ++ "// Encountered a parser state that does not exist.\n".toList ++
    "std::terminate();\n".toList) ++ "}\n".toList

/-- one rule of `write_stack_reduce_table` — lapex-cpp-codegen/src/lr_parser/mod.rs:131-152. -/
def cppReduceCaseText (x : (Nat × List Char) × Nat) : List Char :=
  ("case ".toList ++ (decimal x.2 ++ ": ".toList)) ++ ("{\n".toList ++
    ((if 0 < x.1.1 then
      "for (size_t i = 0; i < ".toList ++ (decimal x.1.1 ++ "; i++) {\n".toList) ++ ("parse_stack.pop_back();\n".toList ++ "Symbol reduced_symbol = parse_stack.back();\n".toList ++
        "rev_reduced_symbols.push_back(reduced_symbol);\n".toList ++ "parse_stack.pop_back();\n".toList) ++ "}\n".toList
    else []) ++
    ("Symbol reduced_non_terminal{SymbolKind::NonTerminal, static_cast<uint32_t>(NonTerminalType::".toList ++ (x.1.2 ++ ")};\n".toList)) ++
    "parse_stack.push_back(reduced_non_terminal);\n".toList ++ "return;\n".toList) ++ "}\n".toList)

/-- `write_stack_reduce_table` — lapex-cpp-codegen/src/lr_parser/mod.rs:128-158. -/
def cppReduceText (reductions : List (Nat × List Char)) : List Char :=
  "switch(rule) {\n".toList ++ (reductions.zipIdx.flatMap cppReduceCaseText ++ "default:\n".toList ++ "// Tried reducing non-existent rule.\n".toList ++ "std::terminate();\n".toList) ++
    "}\n".toList

/-- the file `parser.cpp` — `write_impl`, lapex-cpp-codegen/src/lr_parser/mod.rs:160-166. -/
def cppParserFile (src : CppLRSource) : List Char × WriteStatus :=
  writeTemplate (substitute "stack_reduce_table".toList (cppReduceText src.reductions, true) (substitute "goto_table".toList (cppGotoText src.gotos, true)
    (substitute "action_table".toList (cppActionText src.actions, true) []))) lrImplTemplate.text

/-! ## `parser_impl.h` -/

/-- `write_non_terminal_enum_variants` — lapex-cpp-codegen/src/lr_parser/mod.rs:79-85. -/
def cppNonTerminalEnumText (names : List (List Char)) : List Char := names.flatMap fun n => n ++ ",\n".toList

/-- one rule of `write_visitor_reduce_switch` — lapex-cpp-codegen/src/lr_parser/mod.rs:170-194. -/
def cppVisitorCaseText (x : Nat × List Char) : List Char :=
  ("case ".toList ++ (decimal x.1 ++ ": ".toList)) ++ ("{\n".toList ++ (("visitor.".toList ++ (x.2 ++ "();\n".toList)) ++ "return;\n".toList) ++ "}\n".toList)

/-- `write_visitor_reduce_switch` — lapex-cpp-codegen/src/lr_parser/mod.rs:168-201. -/
def cppVisitorText (calls : List (Nat × List Char)) : List Char :=
  "switch(rule) {\n".toList ++ (calls.flatMap cppVisitorCaseText ++ "default:\n".toList ++ "// Tried reducing non-existent rule.\n".toList ++ "std::terminate();\n".toList) ++ "}\n".toList

/-- the file `parser_impl.h` — `write_impl_header`, lapex-cpp-codegen/src/lr_parser/mod.rs:203-217; `calls` is `cppReduceSwitch`. -/
def cppParserImplFile (src : CppLRSource) (calls : List (Nat × List Char)) : List Char × WriteStatus :=
  writeTemplate (substitute "entry_state".toList (decimal src.entry, true) (substitute "visitor_reduce_switch".toList (cppVisitorText calls, true)
    (substitute "non_terminal_enum_variants".toList (cppNonTerminalEnumText src.nonTerminals, true) []))) lrImplHeaderTemplate.text

/-! ## `visitor.h` -/

/-- a method of the visitor: the `i`-th of the `n` rules of non-terminal `A`, rule number `r` — lapex-cpp-codegen/src/lr_parser/mod.rs:94-107. -/
def cppMethodText (g : Grammar) (A n i r : Nat) : Res (List Char) :=
  match g.rules[r]? with
  | none => .error .panic
  | some rule => do
    let text ← ruleText g rule
    .ok (("// ".toList ++ (text ++ "\n".toList)) ++ ("virtual void ".toList ++ (cppCallbackName g A n i ++ "() = 0;\n".toList)))

/-- `write_visitor_methods` — lapex-cpp-codegen/src/lr_parser/mod.rs:90-110. -/
def cppMethodsText (g : Grammar) : Res (List (List Char)) := do
  let ms ← (rulesByNt g).mapM fun e => e.2.zipIdx.mapM fun r => cppMethodText g e.1 e.2.length r.2 r.1
  .ok ms.flatten

/-- the file `visitor.h` — `write_visitor_header`, lapex-cpp-codegen/src/lr_parser/mod.rs:219-223. -/
def cppVisitorFile (g : Grammar) : Res (List Char × WriteStatus) := do
  let ms ← cppMethodsText g
  .ok (writeTemplate (substitute "visitor_methods".toList (ms.flatten, true) []) lrVisitorHeaderTemplate.text)

end Verif
