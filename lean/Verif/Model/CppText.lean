import Verif.Model.CppLR
import Verif.Model.CppLexer
import Verif.Model.CppTemplates

/-!
# The C++ source text that is generated

`writeln!` appends a newline. The `Debug` text of a token rule, which is written into a comment, is a parameter.
-/

set_option autoImplicit false

namespace Verif

/-! ## `lapex-cpp-codegen/src/lexer/mod.rs` -/

/-- one range of `write_alphabet_switch` — lapex-cpp-codegen/src/lexer/mod.rs:41-49. -/
def cppAlphabetCaseText (r : (Nat × Nat) × Nat) : List Char :=
  (if r.1.1 = r.1.2 then "case ".toList ++ (decimal r.1.1 ++ ":\n".toList)
    else "case ".toList ++ (decimal r.1.1 ++ " ... ".toList) ++ (decimal r.1.2 ++ ":\n".toList)) ++
  ("i = ".toList ++ (decimal r.2 ++ ";\n".toList)) ++ "break;\n".toList

/-- `write_alphabet_switch` — lapex-cpp-codegen/src/lexer/mod.rs:34-54. -/
def cppAlphabetText (a : Alphabet) : List Char :=
  "uint32_t i;\n".toList ++ ("switch (ch)\n{\n".toList ++ (a.ranges.zipIdx.flatMap cppAlphabetCaseText ++ "default:\n".toList ++ "return TokenType::TK_ERR;\n".toList) ++ "}\n".toList)

/-- one transition in `write_state_machine_switch` — lapex-cpp-codegen/src/lexer/mod.rs:66-73. -/
def cppTransitionText (t : Nat × Nat) : List Char :=
  if t.1 ≠ 0 then
    "case ".toList ++ (decimal t.1 ++ ": \n".toList) ++ "this->ch = -1;\n".toList ++ ("state = ".toList ++ (decimal t.2 ++ ";\n".toList)) ++ "break;\n".toList
  else []

/-- one state in `write_state_machine_switch` — lapex-cpp-codegen/src/lexer/mod.rs:59-84; `names` are the names of the rules, `debug` their `Debug` texts. -/
def cppStateText (names : Nat → List Char) (debug : Nat → List Char) (dfa : Dfa Nat Nat) (s : AutomatonState Nat × Nat) : List Char :=
  ("case ".toList ++ (decimal s.2 ++ ":\n".toList)) ++
  ("switch (i)\n{\n".toList ++
    ((if s.2 = 0 then "case 0: \n".toList ++ "return TokenType::TK_EOF;\n".toList else []) ++
    (dfa.transitionsFrom s.2).flatMap cppTransitionText ++
    "default:\n".toList ++
    (match s.1 with
    | .accepting r => ("//".toList ++ (" ACCEPT: ".toList ++ debug r ++ ['\n'])) ++ "this->end_pos = this->position;\n".toList ++
        ("return TokenType::".toList ++ (("TK_".toList ++ names r) ++ ";\n".toList))
    | .intermediate _ => "return TokenType::TK_ERR;\n".toList)) ++
  "}\n".toList) ++ "break;\n".toList

/-- `write_state_machine_switch` — lapex-cpp-codegen/src/lexer/mod.rs:56-90. -/
def cppAutomatonText (names : Nat → List Char) (debug : Nat → List Char) (dfa : Dfa Nat Nat) : List Char :=
  "switch (state)\n{\n".toList ++ (dfa.graph.nodes.zipIdx.flatMap (cppStateText names debug dfa) ++ "default:\n".toList ++ "return TokenType::TK_ERR;\n".toList) ++ "}\n".toList

/-- names of the token rules by index -/
def ruleName (rules : List TokenRule) (r : Nat) : List Char := ((rules[r]?).map (fun x => x.name.toList)).getD []

/-- the file `lexer.cpp` — `write_impl`, lapex-cpp-codegen/src/lexer/mod.rs:96-101. -/
def cppLexerFile (rules : List TokenRule) (debug : Nat → List Char) (t : LexerTables) : List Char × WriteStatus :=
  writeTemplate (substitute "automaton_switch".toList (cppAutomatonText (ruleName rules) debug t.dfa, true)
    (substitute "alphabet_switch".toList (cppAlphabetText t.alphabet, true) [])) lexerImplTemplate.text

end Verif
