import Mathlib.Data.List.Forall2
import Verif.Model.Report

/-! # How error reports should look -/

set_option autoImplicit false

namespace Verif

/-- the text without colour codes; `code`: inside of a code, which goes up to the next `m` -/
def plainFrom (code : Bool) : List Char → List Char
  | [] => []
  | c :: cs =>
    if code then plainFrom (c != 'm') cs
    else if c = '\x1b' then plainFrom true cs
    else c :: plainFrom false cs

/-- what a terminal shows: the text without colour codes, which begin with the escape char and end with `m` -/
def plain (s : List Char) : List Char := plainFrom false s

/-- no escape char in the text -/
def NoEscape (s : List Char) : Prop := '\x1b' ∉ s

/-- the lines of a text, without carriage returns at their ends -/
def LinesOf (text : List Char) (ls : List (List Char)) : Prop :=
  ∃ parts, parts ≠ [] ∧ text = List.intercalate ['\n'] parts ∧ (∀ p ∈ parts, '\n' ∉ p) ∧ ls = parts.map fun p => if p.getLast? = some '\r' then p.dropLast else p

/-- what is shown about a place in the grammar file: where it begins, the text found there, as many tildes as it has bytes, and what is told about it -/
inductive SectionLines (l : Location) (told : List (List Char)) : List (List Char) → Prop
  | mk {quoted : List (List Char)} : LinesOf l.text quoted → SectionLines l told
      ((" --> ".toList ++ l.file ++ [':'] ++ decimal l.pos.line ++ [':'] ++ decimal l.pos.col) ::
        ([[]] ++ quoted ++ [List.replicate (byteLen l.text) '~', []] ++ told ++ [[]]).map ("  |  ".toList ++ ·))

/-- the lines of a report -/
inductive ReportLines (reason : List Char) : Report → List (List Char) → Prop
  | shiftReduce {q : Nat} {name text : List Char} {l : Location} {ls : List (List Char)} :
      SectionLines l ["In state ".toList ++ decimal q ++ [':'], "Could shift token".toList, '\t' :: name, "Or reduce item".toList, '\t' :: text] ls →
      ReportLines reason (.shiftReduce q name l text) ("error: shift-reduce conflict in grammar".toList :: ls)
  | reduceReduce {q : Nat} {items : List (Location × List Char)} {lss : List (List (List Char))} :
      List.Forall₂ (fun x ls => SectionLines x.1 ["In state ".toList ++ decimal q ++ [':'], "Could reduce this item:".toList, '\t' :: x.2] ls) items lss →
      ReportLines reason (.reduceReduce q items) ("error: reduce-reduce conflict in grammar".toList :: lss.flatten)
  | precedence {rules : List (Location × List Char)} {lss : List (List (List Char))} :
      List.Forall₂ (fun x ls => SectionLines x.1 ["Token has identical precedence:".toList, '\t' :: x.2] ls) rules lss →
      ReportLines reason (.precedence rules) ("error: conflicting token precedences in grammar".toList :: lss.flatten)
  | io {file : List Char} : ReportLines reason (.io file) ["error: failed to read grammar file".toList, "     file: ".toList ++ file, "     reason: ".toList ++ reason]

/-- the places a report tells about, each with a name -/
def Report.places : Report → List (Location × List Char)
  | .shiftReduce _ name l text => [(l, name), (l, text)]
  | .reduceReduce _ items => items
  | .precedence rules => rules
  | .io _ => []

/-- the report tells about some place if it is about places -/
def Report.Tells : Report → Prop
  | .reduceReduce _ items => items ≠ []
  | .precedence rules => rules ≠ []
  | _ => True

/-- no escape chars in what the report shows, and names on one line -/
structure Report.Printable (reason : List Char) (r : Report) : Prop where
  tells : r.Tells
  names : ∀ x ∈ r.places, NoEscape x.2 ∧ '\n' ∉ x.2
  files : ∀ x ∈ r.places, NoEscape x.1.file
  texts : ∀ x ∈ r.places, NoEscape x.1.text
  io : ∀ file, r = .io file → NoEscape file ∧ NoEscape reason

/-- every line followed by a newline -/
def textOfLines (ls : List (List Char)) : List Char := (ls.map (· ++ ['\n'])).flatten

end Verif
