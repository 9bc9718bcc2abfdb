import Verif.Model.CppLRText
import Verif.Model.LL

/-!
# The source text of the C++ LL parser: `lapex-cpp-codegen/src/ll_parser/mod.rs`

`genCppLL` takes names and labels from the grammar and the table; the functions after it write them as text and put the texts into the templates.
-/

set_option autoImplicit false

namespace Verif

/-- what is written for a symbol of a right side -/
inductive LLPushed where
  /-- a non-terminal, by its enumerator -/
  | nt (label : List Char)
  /-- a token, by its enumerator -/
  | tk (label : List Char)
  /-- a comment -/
  | eps
  /-- nothing -/
  | skip
deriving DecidableEq, Repr

/-- one symbol of `write_push_symbol_sequence` — lapex-cpp-codegen/src/ll_parser/mod.rs:99-124, `write_non_terminal_enum_name` 69-84 (the same text as that of the LR parser). -/
def llPushed (g : Grammar) : Sym → Res LLPushed
  | .nt A => do
    let n ← cppNtEnumName g (.nt A)
    .ok (.nt n)
  | .t a => do
    let n ← g.tokenName a
    .ok (.tk ("TK_".toList ++ n))
  | .eps => .ok .eps
  | .eof => .ok .skip

/-- the generated files as far as the parser is concerned -/
structure CppLLSource where
  /-- names of the token rules -/
  tokens : List (List Char)
  /-- `enum class NonTerminalType` -/
  nonTerminals : List (List Char)
  /-- enumerators of the non-terminals that have names, with the names -/
  named : List (List Char × List Char)
  /-- `push_production_from_table`: for each non-terminal its number, the cases and the message of the `default` case -/
  table : List (Nat × List (List Char × List LLPushed) × List Char)
deriving DecidableEq, Repr

/-- the message for a lookahead without entry — `write_parser_table_error`, lapex-cpp-codegen/src/ll_parser/mod.rs:129-151, called with the names of the tokens that have an entry (172-184). -/
def llTableMessage (g : Grammar) (table : LLTable) (A : Nat) : List Char :=
  (match g.productionName (.nt A) with
    | some name => "Encountered unknown lookahead for production '".toList ++ name.toList ++ "'. Expected one of: ".toList
    | none => "Encountered unknown lookahead for anonymous production. Expected one of: ".toList) ++
  List.intercalate ", ".toList ((g.tokens.filter fun x => (table.getProduction A x.1).isSome).map fun x => x.2.toList)

/-- a token in the cases of a non-terminal — lapex-cpp-codegen/src/ll_parser/mod.rs:163-170: symbols are written from the last to the first. -/
def llTableCase (g : Grammar) (table : LLTable) (A : Nat) (x : Sym × String) : Res (List (List Char × List LLPushed)) :=
  match table.getProduction A x.1 with
  | none => .ok []
  | some symbols => do
    let ps ← symbols.reverse.mapM (llPushed g)
    .ok [("TK_".toList ++ x.2.toList, ps)]

/-- a non-terminal of `write_table_switch` — lapex-cpp-codegen/src/ll_parser/mod.rs:155-188. -/
def llTableState (g : Grammar) (table : LLTable) : Sym → Res (Nat × List (List Char × List LLPushed) × List Char)
  | .nt A => do
    let cases ← g.tokens.mapM (llTableCase g table A)
    .ok (A, cases.flatten, llTableMessage g table A)
  | _ => .error .panic

/-- a non-terminal of `write_non_terminal_visitor_call` and `write_visitor_methods` — lapex-cpp-codegen/src/ll_parser/mod.rs:37-67: those without a name are left out. -/
def llNamed (g : Grammar) (s : Sym) : Res (List (List Char × List Char)) :=
  match g.productionName s with
  | none => .ok []
  | some name => do
    let n ← cppNtEnumName g s
    .ok [(n, name.toList)]

/-- `generate_code` — lapex-cpp-codegen/src/ll_parser/mod.rs:235-259 (`write_impl_header` 202-226 panics if the entry is no non-terminal; `write_non_terminal_enum_variants` 86-92), and `generate_tokens` —
lapex-cpp-codegen/src/lexer/mod.rs:175-181. -/
def genCppLL (tokens : List (List Char)) (g : Grammar) (table : LLTable) : Res CppLLSource :=
  match g.entry with
  | .nt _ => do
    let nts ← g.nonTerminals.mapM (cppNtEnumName g)
    let named ← g.nonTerminals.mapM (llNamed g)
    let states ← g.nonTerminals.mapM (llTableState g table)
    .ok { tokens, nonTerminals := nts, named := named.flatten, table := states }
  | _ => .error .panic

/-! ## `parser.cpp` -/

/-- `write_push_symbol_sequence`, the symbol number `i` from the end — lapex-cpp-codegen/src/ll_parser/mod.rs:99-124. -/
def llPushText (x : LLPushed × Nat) : List Char :=
  match x.1 with
  | .nt w => ("Symbol ".toList ++ (("sym".toList ++ decimal x.2) ++ ("{SymbolKind::NonTerminal, static_cast<uint32_t>(NonTerminalType::".toList ++ (w ++ ")};\n".toList)))) ++
    ("parse_stack.push(".toList ++ (("sym".toList ++ decimal x.2) ++ ");\n".toList))
  | .tk w => ("Symbol ".toList ++ (("sym".toList ++ decimal x.2) ++ ("{SymbolKind::Terminal, static_cast<uint32_t>(lexer::TokenType::".toList ++ (w ++ ")};\n".toList)))) ++
    ("parse_stack.push(".toList ++ (("sym".toList ++ decimal x.2) ++ ");\n".toList))
  | .eps => "// epsilon; push nothing to stack\n".toList
  | .skip => []

/-- a case for a token — lapex-cpp-codegen/src/ll_parser/mod.rs:165-169. -/
def llCaseText (c : List Char × List LLPushed) : List Char :=
  ("case lexer::TokenType::".toList ++ (c.1 ++ ": ".toList)) ++ ("{\n".toList ++ (c.2.zipIdx.flatMap llPushText ++ "break;\n".toList) ++ "}\n".toList)

/-- a case for a non-terminal — lapex-cpp-codegen/src/ll_parser/mod.rs:161-188. -/
def llStateText (x : Nat × List (List Char × List LLPushed) × List Char) : List Char :=
  ("case ".toList ++ (decimal x.1 ++ ": ".toList)) ++ ("{\n".toList ++
    (("switch (lookahead) {\n".toList ++ (x.2.1.flatMap llCaseText ++ "default:\n".toList ++
      ("throw std::runtime_error(".toList ++ ('"' :: (x.2.2 ++ ['"'])) ++ ");\n".toList)) ++ "}\n".toList) ++ "break;\n".toList) ++ "}\n".toList)

/-- `write_table_switch` — lapex-cpp-codegen/src/ll_parser/mod.rs:153-190. -/
def llTableText (table : List (Nat × List (List Char × List LLPushed) × List Char)) : List Char :=
  "switch(non_terminal.identifier) {\n".toList ++ table.flatMap llStateText ++ "}\n".toList

/-- the file `parser.cpp` — `write_impl`, lapex-cpp-codegen/src/ll_parser/mod.rs:228-232. -/
def cppLLParserFile (src : CppLLSource) : List Char × WriteStatus :=
  writeTemplate (substitute "parser_table_switch".toList (llTableText src.table, true) []) llImplTemplate.text

/-! ## `parser_impl.h` -/

/-- a case of `write_non_terminal_visitor_call` — lapex-cpp-codegen/src/ll_parser/mod.rs:54-64; the prefix is `exit_` or `enter_`. -/
def llVisitCaseText (pre : List Char) (x : List Char × List Char) : List Char :=
  ("case NonTerminalType::".toList ++ (x.1 ++ ":\n".toList)) ++ ("visitor.".toList ++ ((pre ++ x.2) ++ "();\n".toList)) ++ "break;\n".toList

/-- `write_non_terminal_visitor_call` — lapex-cpp-codegen/src/ll_parser/mod.rs:47-67. -/
def llVisitText (isExit : Bool) (named : List (List Char × List Char)) : List Char :=
  "switch (non_terminal) {\n".toList ++ named.flatMap (llVisitCaseText (if isExit then "exit_".toList else "enter_".toList)) ++ "}\n".toList

/-- the file `parser_impl.h` — `write_impl_header`, lapex-cpp-codegen/src/ll_parser/mod.rs:202-226; `entry` is the enumerator of the entry symbol, for which the template has no marker (C43). -/
def cppLLParserImplFile (src : CppLLSource) (entry : List Char) : List Char × WriteStatus :=
  writeTemplate (substitute "non_terminal_enum_variants".toList (cppNonTerminalEnumText src.nonTerminals, true)
    (substitute "grammar_entry_non_terminal".toList ("NonTerminalType::".toList ++ entry, true)
    (substitute "visitor_exit_switch".toList (llVisitText true src.named, true)
    (substitute "visitor_enter_switch".toList (llVisitText false src.named, true) [])))) llImplHeaderTemplate.text

/-! ## `visitor.h` -/

/-- `write_visitor_methods` — lapex-cpp-codegen/src/ll_parser/mod.rs:37-45. -/
def llMethodsText (named : List (List Char × List Char)) : List Char :=
  named.flatMap fun x => ("virtual void ".toList ++ (("enter_".toList ++ x.2) ++ "() = 0;\n".toList)) ++ ("virtual void ".toList ++ (("exit_".toList ++ x.2) ++ "() = 0;\n".toList))

/-- the file `visitor.h` — `write_visitor_header`, lapex-cpp-codegen/src/ll_parser/mod.rs:192-196. -/
def cppLLVisitorFile (src : CppLLSource) : List Char × WriteStatus :=
  writeTemplate (substitute "visitor_methods".toList (llMethodsText src.named, true) []) llVisitorHeaderTemplate.text

end Verif
