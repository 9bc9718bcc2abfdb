import Verif.Model.Display
import Verif.Model.LRDriver
import Verif.Model.Glr
import Verif.Model.LL
import Verif.Model.Lapex

/-!
# `lapex::generate`: `lapex/src/lib.rs` and `lapex/src/errors.rs`

What `generate` writes and how it ends. The parser for the input language (type parameter `I`) is a parameter; its errors and panics are the same here, since `generate`
calls `expect` on its result (lapex/src/lib.rs:133-135). Creating and writing a file is assumed to succeed. Of the generated files the model keeps what they are written
from; a file counts as written when its generator has come to an end.
-/

set_option autoImplicit false

namespace Verif

/-- `enum ParsingAlgorithm` — lapex/src/lib.rs:22-29. -/
inductive Algorithm where
  | ll1
  | lr0
  | lr1
  | lalr
  | glr
deriving DecidableEq, Repr

/-- `enum Language` — lapex/src/lib.rs:47-51. -/
inductive Language where
  | rust
  | cpp
deriving DecidableEq, Repr

/-- `struct Location` — lapex/src/errors.rs:28-33. -/
structure Location where
  pos : SourcePos
  file : List Char
  text : List Char
deriving DecidableEq, Repr

/-- `Location::from_span(..).unwrap()` — lapex/src/errors.rs:34-42, 95-100, 113-115, 141. -/
def Location.fromSpan (span : SourceSpan) (file contents : List Char) : Res Location := do
  match ← span.substring contents with
  | some text => .ok ⟨span.start, file, text⟩
  | none => .error .panic

/-- `enum LapexErrorType` — lapex/src/errors.rs:50-69 (severity is always `Error`, 15-18). The reason of a failed read is left out. -/
inductive Report where
  | shiftReduce (state : Nat) (symbolName : List Char) (location : Location) (itemText : List Char)
  | precedence (rules : List (Location × List Char))
  | reduceReduce (state : Nat) (items : List (Location × List Char))
  | io (file : List Char)
deriving DecidableEq, Repr

/-- number of the source rule of an item — `Item::production`, lapex-parser/src/lr_parser/item.rs:142-144. -/
def itemOrigin (g : Grammar) (it : Item) : Res Nat :=
  match it.rule with
  | none => .ok g.entryOrigin
  | some i =>
    match g.rules[i]? with
    | some r => .ok r.origin
    | none => .error .panic

/-- `Location::from_span(item.production().span, file, contents).unwrap()` — lapex/src/errors.rs:95-100, 113-115. -/
def itemLocation (file contents : List Char) (prods : List (Spanned ProdRule)) (g : Grammar) (it : Item) : Res Location := do
  let origin ← itemOrigin g it
  match prods[origin]? with
  | some p => Location.fromSpan p.span file contents
  | none => .error .panic

/-- the closure of `LapexError::conflicts` — lapex/src/errors.rs:80-121. -/
def conflictReport (file contents : List Char) (prods : List (Spanned ProdRule)) (g : Grammar) : Conflict → Res Report
  | .shiftReduce state item sym => do
    let symbolName ← (match sym with
      | .t a => g.tokenName a
      | s => g.symbolName s)
    let location ← itemLocation file contents prods g item
    let text ← itemText g item
    .ok (.shiftReduce state symbolName location text)
  | .reduceReduce state items => do
    let items ← items.mapM fun item => do
      let text ← itemText g item
      let location ← itemLocation file contents prods g item
      .ok (location, text)
    .ok (.reduceReduce state items)

/-- the closure of `LapexError::precedence` — lapex/src/errors.rs:138-144. -/
def precedenceEntry (file contents : List Char) (tokens : List (Spanned TokenRule)) (j : Nat) : Res (Location × List Char) :=
  match tokens[j]? with
  | some r => do
    let location ← Location.fromSpan r.span file contents
    .ok (location, r.inner.name.toList)
  | none => .error .panic

/-- `LapexError::precedence` — lapex/src/errors.rs:132-148. -/
def precedenceReport (file contents : List Char) (tokens : List (Spanned TokenRule)) (e : PrecedenceError) : Res Report := do
  let rules ← e.rules.mapM (precedenceEntry file contents tokens)
  .ok (.precedence rules)

/-- the files — `tokens.rs`; `tokens.h`, `tokens.cpp`; `lexer.rs`; `lexer.h`, `lexer.cpp`; `table`; `parser.rs`; `parser.h`, `parser.cpp`, `parser_impl.h`, `visitor.h` —
by what they are written from -/
inductive Written where
  | tokens (variants : List (List Char))
  | lexer (t : LexerTables)
  | table (text : List Char)
  | rustParser (p : LRProg)
  | cppParser (src : CppLRSource)
  | rustGlrParser (p : GlrProg)
  | cppLLParser (table : LLTable)
deriving Repr

/-- the file belongs to a parser -/
def Written.isParser : Written → Bool
  | .rustParser _ => true
  | .cppParser _ => true
  | .rustGlrParser _ => true
  | .cppLLParser _ => true
  | _ => false

/-- the file belongs to a lexer -/
def Written.isLexer : Written → Bool
  | .lexer _ => true
  | _ => false

/-- where `generate` panics -/
inductive PanicAt where
  /-- reading the rules — lapex/src/lib.rs:133-135 -/
  | parse
  /-- names of tokens — lapex/src/lib.rs:140 -/
  | tokens
  /-- alphabet, automaton and precedences — lapex/src/lib.rs:143-145 -/
  | lexer
  /-- an error report — lapex/src/errors.rs -/
  | report
  /-- the grammar — lapex/src/lib.rs:151 -/
  | grammar
  /-- the LL or LR table — lapex/src/lib.rs:154, 159, 181, 208 -/
  | parserTable
  /-- `unreachable!()` — lapex/src/lib.rs:170, 196, 220 -/
  | unreachable
  /-- the table file — lapex/src/lib.rs:172-177, 198-203, 222-227 -/
  | tableFile
  /-- the files of the parser — lapex/src/lib.rs:155, 178, 204, 228 -/
  | codegen
deriving DecidableEq, Repr

/-- how a run of `generate` ends; `running`: not within the given number of steps -/
inductive Ending where
  | ok
  | err (reports : List Report)
  | panic (at_ : PanicAt)
  | running
deriving DecidableEq, Repr

/-- a step of the run panics, or does not come to an end -/
def Ending.failed (at_ : PanicAt) : Err → Ending
  | .panic => .panic at_
  | .fuel => .running

/-- `generate_tokens` — lapex-rust-codegen/src/lexer/mod.rs:204-208, lapex-cpp-codegen/src/lexer/mod.rs:175-181. -/
def tokenFile (lang : Language) (tokens : List TokenRule) : Res Written :=
  match lang with
  | .rust => do
    let vs ← rustTokenVariants (tokens.map (·.name.toList))
    .ok (.tokens vs)
  | .cpp => .ok (.tokens (cppTokenVariants (tokens.map (·.name.toList))))

/-- the variant of a non-terminal — lapex-rust-codegen/src/lib.rs:58-68; for other symbols there is none. -/
def ntVariant (g : Grammar) : Sym → Res (List Char)
  | .nt A => ntEnumName g A
  | _ => .error .panic

/-- the LR parser — `RustLRParserCodeGen::generate_code`, lapex-rust-codegen/src/lr_parser/mod.rs (the names of the non-terminals are written at 337-344);
`CppLRParserCodeGen::generate_code`, lapex-cpp-codegen/src/lr_parser/mod.rs:230-253. -/
def lrFile (lang : Language) (tokens : List TokenRule) (g : Grammar) (tb : LRTable) : Res Written :=
  match lang with
  | .rust => do
    let _ ← g.nonTerminals.mapM (ntVariant g)
    let p ← genRust g tb
    .ok (.rustParser p)
  | .cpp => do
    let src ← genCpp (tokens.map (·.name.toList)) g tb
    .ok (.cppParser src)

/-- the GLR parser — lapex-rust-codegen/src/glr_parser/mod.rs:391-541; C++: `todo!()`, lapex-cpp-codegen/src/glr_parser/mod.rs:13. -/
def glrFile (lang : Language) (g : Grammar) (tb : LRTable) : Res Written :=
  match lang with
  | .rust => do
    let _ ← g.nonTerminals.mapM (ntVariant g)
    let p ← genGlr g tb
    .ok (.rustGlrParser p)
  | .cpp => .error .panic

/-- the LL parser — lapex-cpp-codegen/src/ll_parser/mod.rs:235-256; Rust: `todo!()`, lapex-rust-codegen/src/ll_parser/mod.rs:13. -/
def llFile (lang : Language) (table : LLTable) : Res Written :=
  match lang with
  | .rust => .error .panic
  | .cpp => .ok (.cppLLParser table)

/-- writing the files of the parser — lapex/src/lib.rs:178, 204, 228. -/
def writeFile (file : Res Written) (written : List Written) : List Written × Ending :=
  match file with
  | .error e => (written, .failed .codegen e)
  | .ok w => (written ++ [w], .ok)

/-- writing the table file, if asked for, and the parser — lapex/src/lib.rs:172-178, 198-204, 222-228. -/
def writeParser (genTable : Bool) (g : Grammar) (tb : LRTable) (file : Res Written) (written : List Written) : List Written × Ending :=
  if genTable then
    match outputTable g tb with
    | .error e => (written, .failed .tableFile e)
    | .ok text => writeFile file (written ++ [.table text])
  else writeFile file written

/-- the arms for LR(0), LALR and LR(1) — lapex/src/lib.rs:157-205. Rust keeps conflicts in a `BTreeSet`, so none is reported twice; the order of the reports is not
modelled. -/
def lrArm (fuel : Nat) (lang : Language) (kind : LRKind) (genTable : Bool) (path contents : List Char) (rules : SpannedRules) (g : Grammar) (written : List Written) :
    List Written × Ending :=
  match generateTable g false kind fuel with
  | .error e => (written, .failed .parserTable e)
  | .ok (.noConflicts tb) => writeParser genTable g tb (lrFile lang (rules.tokens.map (·.inner)) g tb) written
  | .ok (.badConflicts cs) =>
    match cs.dedup.mapM (conflictReport path contents rules.prods g) with
    | .error e => (written, .failed .report e)
    | .ok reports => (written, .err reports)
  | .ok (.allowedConflicts _ _) => (written, .panic .unreachable)

/-- the arm for GLR — lapex/src/lib.rs:206-229. -/
def glrArm (fuel : Nat) (lang : Language) (genTable : Bool) (g : Grammar) (written : List Written) : List Written × Ending :=
  match generateTable g true .lalr fuel with
  | .error e => (written, .failed .parserTable e)
  | .ok (.noConflicts tb) => writeParser genTable g tb (glrFile lang g tb) written
  | .ok (.allowedConflicts tb _) => writeParser genTable g tb (glrFile lang g tb) written
  | .ok (.badConflicts _) => (written, .panic .unreachable)

/-- the arm for LL(1) — lapex/src/lib.rs:153-156. -/
def llArm (fuel : Nat) (lang : Language) (g : Grammar) (written : List Written) : List Written × Ending :=
  match llGenerateTable g fuel with
  | .error .fuel => (written, .running)
  | .error _ => (written, .panic .parserTable)
  | .ok table => writeFile (llFile lang table) written

/-- the rules for the grammar builder -/
def SpannedRules.ruleSet (rules : SpannedRules) : RuleSet := ⟨rules.entry.inner, rules.tokens.map (·.inner.name), rules.prods.map (·.inner)⟩

/-- from the grammar on — lapex/src/lib.rs:151-231. -/
def generateParser (fuel : Nat) (lang : Language) (alg : Algorithm) (genTable : Bool) (path contents : List Char) (rules : SpannedRules) (written : List Written) :
    List Written × Ending :=
  match Grammar.fromRuleSet rules.ruleSet with
  | .error _ => (written, .panic .grammar)
  | .ok g =>
    match alg with
    | .ll1 => llArm fuel lang g written
    | .lr0 => lrArm fuel lang .lr0 genTable path contents rules g written
    | .lalr => lrArm fuel lang .lalr genTable path contents rules g written
    | .lr1 => lrArm fuel lang .lr1 genTable path contents rules g written
    | .glr => glrArm fuel lang genTable g written

/-- `generate_lexer_and_parser` — lapex/src/lib.rs:109-232; `contents` is what the grammar file contains, `none` if it cannot be read. -/
def generate (parse : List Char → Res SpannedRules) (fuel : Nat) (genLexer : Bool) (alg : Algorithm) (genTable : Bool) (lang : Language) (path : List Char)
    (contents : Option (List Char)) : List Written × Ending :=
  match contents with
  | none => ([], .err [.io path])
  | some contents =>
    match parse contents with
    | .error e => ([], .failed .parse e)
    | .ok rules =>
      match tokenFile lang (rules.tokens.map (·.inner)) with
      | .error e => ([], .failed .tokens e)
      | .ok tokens =>
        if genLexer then
          match generateLexer fuel (rules.tokens.map (·.inner)) with
          | .error e => ([tokens], .failed .lexer e)
          | .ok (.error e) =>
            match precedenceReport path contents rules.tokens e with
            | .error e => ([tokens], .failed .report e)
            | .ok report => ([tokens], .err [report])
          | .ok (.ok t) => generateParser fuel lang alg genTable path contents rules [tokens, .lexer t]
        else generateParser fuel lang alg genTable path contents rules [tokens]

end Verif
