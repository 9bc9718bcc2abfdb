import Verif.Model.Generate

/-!
# The text of error reports

`Display` of `LapexError` (`lapex/src/errors.rs`) and the printing of errors by the command line tool (`lapex-cli/src/main.rs`). Colours are escape codes written by `owo-colors` 3.5.0.
-/

set_option autoImplicit false

namespace Verif

/-- `bold()` — used in lapex/src/errors.rs:23, 174-176, 184, 199-200, 227, 235, 240 -/
def bold (s : List Char) : List Char := "\x1b[1m".toList ++ s ++ "\x1b[0m".toList

/-- `blue()` — used in lapex/src/errors.rs:227, 240 -/
def blue (s : List Char) : List Char := "\x1b[34m".toList ++ s ++ "\x1b[39m".toList

/-- `bright_red()` — used in lapex/src/errors.rs:23, 235 -/
def brightRed (s : List Char) : List Char := "\x1b[91m".toList ++ s ++ "\x1b[39m".toList

/-- a line without the `'\r'` at its end -/
def stripCr : List Char → List Char
  | [] => []
  | [c] => if c = '\r' then [] else [c]
  | c :: d :: cs => c :: stripCr (d :: cs)

/-- `str::lines`; `cur` is the line read so far. A `'\r'` at the end of a line is dropped only before `'\n'`. -/
def strLinesFrom (cur : List Char) : List Char → List (List Char)
  | [] => if cur = [] then [] else [cur]
  | c :: cs => if c = '\n' then stripCr cur :: strLinesFrom [] cs else strLinesFrom (cur ++ [c]) cs

/-- `str::lines` -/
def strLines (s : List Char) : List (List Char) := strLinesFrom [] s

/-- `write_section` — lapex/src/errors.rs:219-243. -/
def writeSection (l : Location) (contents : List Char) : List Char :=
  [' '] ++ bold (blue "-->".toList) ++ [' '] ++ l.file ++ [':'] ++ decimal l.pos.line ++ [':'] ++ decimal l.pos.col ++ ['\n'] ++
    List.intercalate ['\n'] (([] :: (strLines (l.text ++ ['\n'] ++ bold (brightRed (List.replicate (byteLen l.text) '~')) ++ "\n\n".toList ++ contents) ++ [[]])).map
      fun line => "  ".toList ++ bold (blue ['|']) ++ "  ".toList ++ line)

/-- the loops over sections — lapex/src/errors.rs:181-190, 194-208. -/
def writeSections : List (List Char) → List Char
  | [] => []
  | [s] => s
  | s :: t :: ss => s ++ ['\n'] ++ writeSections (t :: ss)

/-- `LapexErrorType::message` — lapex/src/errors.rs:151-160. -/
def Report.message : Report → List Char
  | .shiftReduce .. => "shift-reduce conflict in grammar".toList
  | .reduceReduce .. => "reduce-reduce conflict in grammar".toList
  | .precedence .. => "conflicting token precedences in grammar".toList
  | .io .. => "failed to read grammar file".toList

/-- `Display` of `LapexErrorType` — lapex/src/errors.rs:162-215; `reason` is what the operating system says about a file that cannot be read. -/
def Report.body (reason : List Char) : Report → List Char
  | .shiftReduce state symbolName location itemText =>
    writeSection location ("In state ".toList ++ bold (decimal state) ++ ":\nCould shift token\n\t".toList ++ bold symbolName ++ "\nOr reduce item\n\t".toList ++ bold itemText)
  | .precedence rules => writeSections (rules.map fun r => writeSection r.1 ("Token has identical precedence:\n\t".toList ++ bold r.2))
  | .reduceReduce state items =>
    writeSections (items.map fun x => writeSection x.1 ("In state ".toList ++ bold (decimal state) ++ ":\nCould reduce this item:\n\t".toList ++ bold x.2))
  | .io file => "     file: ".toList ++ file ++ "\n     reason: ".toList ++ reason

/-- `Display` of `LapexError` — lapex/src/errors.rs:20-26, 245-250. -/
def Report.display (reason : List Char) (r : Report) : List Char := bold (brightRed "error".toList) ++ ": ".toList ++ r.message ++ ['\n'] ++ r.body reason

/-- the loops that print errors — lapex-cli/src/main.rs:64-69, 91-96. -/
def printReports (reason : List Char) : List Report → List Char
  | [] => []
  | [r] => r.display reason ++ ['\n']
  | r :: s :: rs => r.display reason ++ ['\n'] ++ ['\n'] ++ printReports reason (s :: rs)

/-- how the process of `lapex generate` ends — lapex-cli/src/main.rs:51-72: what it prints to the standard error stream, and its exit code. A panic prints a message that is not
modelled and exits with 101; `none`: not ended. -/
def cliGenerate (reason : List Char) : Ending → Option (Option (List Char) × Nat)
  | .ok => some (some [], 0)
  | .err reports => some (some (printReports reason reports), 0)
  | .panic _ => some (none, 101)
  | .running => none

end Verif
