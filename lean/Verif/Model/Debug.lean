import Verif.Model.Generate
import Verif.Model.LapexInput

/-!
# `lapex debug`: `lapex-cli/src/main.rs:73-160`

The command generates a lexer and a parser in Rust, compiles them with a small main program and runs it on a source file. `cargo` and the compiler are not modelled: `cargo init`
succeeds, and the project compiles if everything the main program uses is there and no name is declared twice. `fuel` bounds the loops of the generation, `steps` those of the
program that is run.
-/

set_option autoImplicit false

namespace Verif

/-- the result of the `n`-th call of `lex.next()`, counted from 0 — lapex-cli/src/main.rs:136 -/
def nthNext (t : LexerTables) : Nat → Lexer → Res LexResult
  | 0, l => do
    let (r, _) ← l.next t
    .ok r
  | n + 1, l => do
    let (_, l) ← l.next t
    nthNext t n l

/-- the token function of the main program — lapex-cli/src/main.rs:135-138. Where it panics, which is where the lexer reports an error or panics, the model has `.err`. -/
def debugInput (t : LexerTables) (source : List Char) (n : Nat) : Tok × Unit :=
  match nthNext t n (Lexer.new source) with
  | .ok r => (r.tok, ())
  | .error _ => (.err, ())

/-- one of the first `pos + 1` calls of the token function panics; the parser has made so many calls when it has taken `pos` tokens from its queue —
lapex-rust-codegen/src/glr_parser/mod.rs:540, 553-555 -/
def tokenPanics (t : LexerTables) (source : List Char) (pos : Nat) : Bool :=
  (List.range (pos + 1)).any fun n => (debugInput t source n).1 = .err

/-- how the main program ends; `running`: not within the given number of steps -/
inductive ProgramEnd where
  | success (events : List (LREvent Unit))
  | failure
  | running
deriving DecidableEq, Repr

/-- the main program — lapex-cli/src/main.rs:130-142; a panic and an `Err` that is unwrapped give an exit code other than 0. -/
def runProgram (t : LexerTables) (p : GlrProg) (source : List Char) (steps : Nat) : ProgramEnd :=
  match glrParse p.machine (debugInput t source) steps with
  | .ok events pos => if tokenPanics t source pos then .failure else .success events
  | .unexpected _ _ _ => .failure
  | .panic _ _ => .failure
  | .running _ pos => if tokenPanics t source pos then .failure else .running

/-- one reduce function of `DebugVisitor` and the text it prints — lapex-rust-codegen/src/glr_parser/mod.rs:114-139. -/
def debugMethod (rs : RuleSet) (g : Grammar) (A n : Nat) (r : Nat × Nat) : Res (List Char × List Char) :=
  match g.rules[r.1]? with
  | none => .error .panic
  | some rule => do
    let text ← ruleText g rule
    .ok (callbackName rs g A n r.2 r.1, text)

/-- the reduce functions of `DebugVisitor` — `write_debug_visitor`, lapex-rust-codegen/src/glr_parser/mod.rs:107-154. -/
def debugMethods (rs : RuleSet) (g : Grammar) : Res (List (List Char × List Char)) := do
  let methods ← (rulesByNt g).mapM fun e => e.2.zipIdx.mapM (debugMethod rs g e.1 e.2.length)
  .ok methods.flatten

/-- the first entry with the given key -/
def findKey {K V : Type} [DecidableEq K] (k : K) (l : List (K × V)) : Option V := (l.find? (fun x => x.1 = k)).map (·.2)

/-- the line a callback of `DebugVisitor` prints — lapex-rust-codegen/src/glr_parser/mod.rs:121-125, 132-136, 146-148; `do_visit` calls the function of the rule, 526-530. -/
def debugLine (variants : List (List Char)) (visits : List (Nat × List Char)) (methods : List (List Char × List Char)) : LREvent Unit → Option (List Char)
  | .shift (.tok a) _ => (variants[a + 1]?).map ("shift ".toList ++ ·)
  | .shift _ _ => some "shift EndOfFile".toList
  | .reduce i => (findKey i visits).bind fun name => findKey name methods

/-- the names declared in the generated files — lapex-rust-codegen/src/lexer/mod.rs:28-33, lapex-rust-codegen/src/glr_parser/mod.rs:99-104, 141-151, 423-426 — are distinct. -/
def namesDistinct (variants nonTerminals : List (List Char)) (methods : List (List Char × List Char)) : Bool :=
  decide variants.Nodup && decide nonTerminals.Nodup && decide (methods.map (·.1)).Nodup

/-- how `lapex debug` ends: error reports printed; "Successfully parsed" after the lines printed by the program; "Failed to parse" -/
inductive Debugged where
  | reports (reports : List Report)
  | parsed (lines : List (List Char))
  | failed
  | panic
  | running
deriving DecidableEq, Repr

/-- what the command says after a run of the program — lapex-cli/src/main.rs:151-156. -/
def programOutput (variants : List (List Char)) (visits : List (Nat × List Char)) (methods : List (List Char × List Char)) : ProgramEnd → Debugged
  | .failure => .failed
  | .running => .running
  | .success events =>
    match events.mapM (debugLine variants visits methods) with
    | some lines => .parsed lines
    | none => .failed

/-- compiling and running — lapex-cli/src/main.rs:98-157. Only the GLR generator writes the `DebugVisitor` that the main program uses (lines 114, 131), so the project does not
compile with another parser. -/
def compileAndRun (rs : RuleSet) (g : Grammar) (source : List Char) (steps : Nat) : List Written → Debugged
  | [.tokens variants, .lexer t, .table _, .rustGlrParser p] =>
    match g.nonTerminals.mapM (ntVariant g), debugMethods rs g with
    | .ok nts, .ok methods =>
      if namesDistinct variants nts methods then programOutput variants (ruleVisits rs g) methods (runProgram t p source steps) else .failed
    | _, _ => .panic
  | _ => .failed

/-- `lapex debug` — lapex-cli/src/main.rs:73-160; `source` is what the source file contains, `none` if there is no such file (line 109). -/
def debug (parse : List Char → Res SpannedRules) (fuel steps : Nat) (alg : Algorithm) (path : List Char) (contents : Option (List Char)) (source : Option (List Char)) : Debugged :=
  match generate parse fuel true alg true .rust path contents with
  | (_, .err reports) => .reports reports
  | (_, .panic _) => .panic
  | (_, .running) => .running
  | (written, .ok) =>
    match source, contents with
    | some source, some contents =>
      match parse contents with
      | .error _ => .panic
      | .ok rules =>
        match Grammar.fromRuleSet rules.ruleSet with
        | .error _ => .panic
        | .ok g => compileAndRun rules.ruleSet g source steps written
    | _, _ => .panic

end Verif
