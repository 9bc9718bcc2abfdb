import Verif.Model.Generate

/-!
# Writing the output files

`GeneratedCodeWriter` (lapex-codegen/src/lib.rs), with the `BufWriter` of the standard library around a file that takes only so many bytes, and the sequence of files `lapex generate` writes. Not
modelled: what makes a disk refuse a file or bytes (both are parameters here), short writes that are continued later, and signals; a file that has refused bytes refuses all further ones.
-/

set_option autoImplicit false

namespace Verif

abbrev FileName := List Char

/-- the target directory: the files in it and what they contain -/
abbrev Dir := FileName → Option (List UInt8)

/-- a file is created, or its contents replaced -/
def Dir.set (d : Dir) (name : FileName) (contents : List UInt8) : Dir := fun n => if n = name then some contents else d n

/-- what the disk allows: which files can be created, and how many bytes each of them takes -/
structure Disk where
  creates : FileName → Bool
  room : FileName → Nat

/-- `BufWriter<File>` — lapex/src/lib.rs:136-139: what is in the file, how many bytes it still takes, and the buffer. -/
structure BufFile where
  written : List UInt8
  room : Nat
  buf : List UInt8
deriving DecidableEq, Repr

/-- `write_all` of a file: true if all bytes were taken -/
def BufFile.writeFile (f : BufFile) (data : List UInt8) : BufFile × Bool :=
  if data.length ≤ f.room then ({ f with written := f.written ++ data, room := f.room - data.length }, true)
  else ({ f with written := f.written ++ data.take f.room, room := 0 }, false)

/-- `BufWriter::flush_buf` of the standard library: bytes taken leave the buffer -/
def BufFile.flush (f : BufFile) : BufFile × Bool :=
  let (g, ok) := f.writeFile f.buf
  ({ g with buf := f.buf.drop f.room }, ok)

/-- `BufWriter::write_all` of the standard library for a buffer of `cap` bytes: what fits is kept in the buffer, otherwise the buffer is written first, and what is as large as the buffer is
written directly -/
def BufFile.write (cap : Nat) (f : BufFile) (data : List UInt8) : BufFile × Bool :=
  if data.length + f.buf.length < cap then ({ f with buf := f.buf ++ data }, true)
  else
    let (g, ok) := if data.length + f.buf.length > cap then f.flush else (f, true)
    if ok then
      if cap ≤ data.length then g.writeFile data else ({ g with buf := g.buf ++ data }, true)
    else (g, false)

/-- how a code generator ends after it has written: `Ok`, or a panic. (The error it returns if a write fails is `GenEnd` of the run, not of the generator.) -/
inductive GenEnd where
  | ok
  | panic
deriving DecidableEq, Repr

/-- a code generator as the writer sees it: the pieces it writes one after the other, and how it ends — the argument of `generate_code`, lapex-codegen/src/lib.rs:41-44. -/
structure Generator where
  pieces : List (List UInt8)
  ends : GenEnd

/-- all that it writes -/
def Generator.output (g : Generator) : List UInt8 := g.pieces.flatten

/-- how `generate_code` ends -/
inductive CodeEnd where
  | ok
  | err
  | panic
deriving DecidableEq, Repr

/-- the generator writes its pieces; it returns the first error (all generators pass errors on with `?`) -/
def writePieces (cap : Nat) : BufFile → List (List UInt8) → BufFile × Bool
  | f, [] => (f, true)
  | f, p :: ps =>
    match f.write cap p with
    | (f, true) => writePieces cap f ps
    | (f, false) => (f, false)

/-- `Drop` of `BufWriter`: the buffer is written, an error is ignored -/
def BufFile.close (f : BufFile) : BufFile := f.flush.1

/-- `targets` and what was written to them — lapex-codegen/src/lib.rs:9-13. A target is a `Vec<u8>` here. -/
abbrev Targets := List (FileName × List UInt8)

/-- `BTreeMap::get_mut` -/
def targetOf (key : FileName) : Targets → Option (List UInt8)
  | [] => none
  | (k, v) :: ts => if k = key then some v else targetOf key ts

/-- a target gets more bytes -/
def targetAppend (key : FileName) (data : List UInt8) : Targets → Targets
  | [] => []
  | (k, v) :: ts => if k = key then (k, v ++ data) :: ts else (k, v) :: targetAppend key data ts

/-- `add_target` — lapex-codegen/src/lib.rs:34-39: the last one registered is used. -/
def addTarget (key : FileName) (start : List UInt8) : Targets → Targets
  | [] => [(key, start)]
  | (k, v) :: ts => if k = key then (k, start) :: ts else (k, v) :: addTarget key start ts

/-- the size of the buffer of `BufWriter::new` -/
def bufCapacity : Nat := 8192

/-- `GeneratedCodeWriter::generate_code` — lapex-codegen/src/lib.rs:41-52, with the default writer of lapex/src/lib.rs:136-139. -/
def generateCode (disk : Disk) (key : FileName) (g : Generator) (targets : Targets) (dir : Dir) : Targets × Dir × CodeEnd :=
  match targetOf key targets with
  | some _ => (targetAppend key g.output targets, dir, if g.ends = .ok then .ok else .panic)
  | none =>
    if disk.creates key then
      let (f, ok) := writePieces bufCapacity ⟨[], disk.room key, []⟩ g.pieces
      (targets, dir.set key f.close.written, if ok then (if g.ends = .ok then .ok else .panic) else .err)
    else (targets, dir, .err)

/-- the files written by a run; every error is unwrapped — lapex-rust-codegen/src/lexer/mod.rs:200-207, lapex-cpp-codegen/src/lexer/mod.rs:169-180, lapex/src/lib.rs:172-177. True if no panic. -/
def writeFiles (disk : Disk) : List (FileName × Generator) → Dir → Dir × Bool
  | [], d => (d, true)
  | (key, g) :: fs, d =>
    match generateCode disk key g [] d with
    | (_, d, .ok) => writeFiles disk fs d
    | (_, d, _) => (d, false)

/-- the names of the files, in the order in which they are written — lapex-rust-codegen/src/lexer/mod.rs:200, 206, lapex-rust-codegen/src/lr_parser/mod.rs:517,
lapex-rust-codegen/src/glr_parser/mod.rs:845, lapex-cpp-codegen/src/lexer/mod.rs:169-179, lapex-cpp-codegen/src/lr_parser/mod.rs:240-248, lapex-cpp-codegen/src/ll_parser/mod.rs:243-251,
lapex/src/lib.rs:173. -/
def Written.fileNames (lang : Language) : Written → List FileName
  | .tokens _ => match lang with
    | .rust => ["tokens.rs".toList]
    | .cpp => ["tokens.h".toList, "tokens.cpp".toList]
  | .lexer _ => match lang with
    | .rust => ["lexer.rs".toList]
    | .cpp => ["lexer.h".toList, "lexer.cpp".toList]
  | .table _ => ["table".toList]
  | _ => match lang with
    | .rust => ["parser.rs".toList]
    | .cpp => ["parser.h".toList, "parser.cpp".toList, "parser_impl.h".toList, "visitor.h".toList]

end Verif
