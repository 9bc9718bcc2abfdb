import Verif.Model.Output
import Verif.Model.CppText
import Verif.Model.CppLRText
import Verif.Model.CppLLText
import Verif.Model.RustText
import Verif.Model.RustLRText
import Verif.Model.RustGlrText

/-!
# The contents of the output files

The texts of the files (`Model/RustText`, `Model/CppText` and so on) as what the generators hand to the writer of `Model/Output`. Not modelled: which calls of `write` a generator makes. Any division
of the text into pieces is allowed (`split`), and a generator that panics is taken to do so before it writes.
-/

set_option autoImplicit false

namespace Verif

/-- a generator that writes a text, in UTF-8 (`write!` of a `String`, of a `TokenStream`, of characters); errors other than those of the file are unwrapped by the callers — for instance
lapex-cpp-codegen/src/lr_parser/mod.rs:240-252.
Simplified: a generator that panics has written nothing. In Rust that is so; in C++ the part of the template before the place of the panic may have been written. -/
def textGenerator (split : List UInt8 → List (List UInt8)) : Res (List Char × WriteStatus) → Generator
  | .ok (text, status) => ⟨split (text.flatMap String.utf8EncodeChar), if status = .ok then .ok else .panic⟩
  | .error _ => ⟨[], .panic⟩

/-- a text that is written without a template -/
def noTemplate (text : Res (List Char)) : Res (List Char × WriteStatus) := text.map fun t => (t, .ok)

/-- names and texts of the files made of one part of the output, in the order in which they are written — lapex-rust-codegen/src/lexer/mod.rs:200-207, lapex-rust-codegen/src/lr_parser/mod.rs:517-519,
lapex-rust-codegen/src/glr_parser/mod.rs:845-847, lapex-cpp-codegen/src/lexer/mod.rs:165-181, lapex-cpp-codegen/src/lr_parser/mod.rs:233-253, lapex-cpp-codegen/src/ll_parser/mod.rs:236-256,
lapex/src/lib.rs:172-177. `debug` is the text of the comments in `lexer.cpp`, `label` what stands for the entry symbol of an LL parser (as in `cppLLParserImplFile`). -/
def Written.texts (lang : Language) (rs : RuleSet) (rules : List TokenRule) (g : Grammar) (debug : Nat → List Char) (label : List Char) : Written → List (FileName × Res (List Char × WriteStatus))
  | .tokens _ => match lang with
    | .rust => [("tokens.rs".toList, noTemplate (rustTokensFile rules))]
    | .cpp => [("tokens.h".toList, .ok (cppTokensHeaderFile (rs.tokens.map String.toList))), ("tokens.cpp".toList, .ok (cppTokensFile (rs.tokens.map String.toList)))]
  | .lexer t => match lang with
    | .rust => [("lexer.rs".toList, noTemplate (rustLexerFile rules t))]
    | .cpp => [("lexer.h".toList, .ok (writeTemplate [] lexerHeaderTemplate.text)), ("lexer.cpp".toList, .ok (cppLexerFile rules debug t))]
  | .table text => [("table".toList, .ok (text, .ok))]
  | .rustParser p => [("parser.rs".toList, noTemplate (rustParserFile rs g p))]
  | .rustGlrParser p => [("parser.rs".toList, noTemplate (rustGlrFile rs g p))]
  | .cppParser src => [("parser.h".toList, .ok (writeTemplate [] lrHeaderTemplate.text)), ("parser.cpp".toList, .ok (cppParserFile src)),
      ("parser_impl.h".toList, (cppReduceSwitch g).map (cppParserImplFile src)), ("visitor.h".toList, cppVisitorFile g)]
  | .cppLLParser tb => [("parser.h".toList, .ok (writeTemplate [] llHeaderTemplate.text)), ("parser.cpp".toList, (genCppLL (rs.tokens.map String.toList) g tb).map cppLLParserFile),
      ("parser_impl.h".toList, (genCppLL (rs.tokens.map String.toList) g tb).map (cppLLParserImplFile · label)),
      ("visitor.h".toList, (genCppLL (rs.tokens.map String.toList) g tb).map cppLLVisitorFile)]

/-- the files of a run -/
def outputFiles (split : List UInt8 → List (List UInt8)) (lang : Language) (rs : RuleSet) (rules : List TokenRule) (g : Grammar) (debug : Nat → List Char) (label : List Char) (ws : List Written) :
    List (FileName × Generator) :=
  (ws.flatMap (Written.texts lang rs rules g debug label)).map fun x => (x.1, textGenerator split x.2)

end Verif
