import Verif.Model.Collections

/-!
# Templates: `lapex-codegen/src/templating.rs`

Texts are lists of chars. What a substitution writes is given by the text and whether it returned `Ok`; errors of the underlying
writer are not modelled.
-/

set_option autoImplicit false

namespace Verif

/-- `char::is_whitespace` (Unicode `White_Space`), used by `str::trim` -/
def isWhitespace (c : Char) : Bool :=
  let n := c.toNat
  (9 ≤ n && n ≤ 13) || n = 32 || n = 0x85 || n = 0xA0 || n = 0x1680 || (0x2000 ≤ n && n ≤ 0x200A) || n = 0x2028 || n = 0x2029 || n = 0x202F || n = 0x205F || n = 0x3000

/-- `str::trim` -/
def trim (s : List Char) : List Char := ((s.dropWhile isWhitespace).reverse.dropWhile isWhitespace).reverse

/-- the part `(.*?)\}\*\/` of the regex of lapex-codegen/src/templating.rs:81, tried at the start of a text: as few chars as possible, none of them
a newline (`.` does not match it), then `}*/`. Returns the group and the rest. -/
def closing : List Char → Option (List Char × List Char)
  | '}' :: '*' :: '/' :: rest => some ([], rest)
  | [] => none
  | c :: rest => if c = '\n' then none else (closing rest).map (fun x => (c :: x.1, x.2))

/-- the whole regex `\/\*\{(.*?)\}\*\/` at the start of a text -/
def markerAt : List Char → Option (List Char × List Char)
  | '/' :: '*' :: '{' :: rest => closing rest
  | _ => none

/-- the next item of `captures_iter`: the leftmost match, as the text before it, its group and the text after it -/
def nextMatch : List Char → Option (List Char × List Char × List Char)
  | [] => (markerAt []).map (fun x => ([], x.1, x.2))
  | c :: cs =>
    match markerAt (c :: cs) with
    | some (key, rest) => some ([], key, rest)
    | none => (nextMatch cs).map (fun x => (c :: x.1, x.2.1, x.2.2))

/-- how writing ended -/
inductive WriteStatus where
  | ok
  | ioError
  | panic
deriving DecidableEq, Repr

/-- the substitutions supplied: for each key what its closure writes, and whether it returns `Ok` — lapex-codegen/src/templating.rs:26-30. -/
abbrev Substitutions := List (List Char × List Char × Bool)

/-- `TemplateWriter::substitute` — lapex-codegen/src/templating.rs:33-38; a later substitution for the same key replaces the earlier one. -/
def substitute (key : List Char) (writes : List Char × Bool) (s : Substitutions) : Substitutions := (key, writes) :: s.filter (fun x => x.1 ≠ key)

/-- `self.substitutions.get(key)` -/
def Substitutions.get (s : Substitutions) (key : List Char) : Option (List Char × Bool) := (s.find? (fun x => x.1 = key)).map (·.2)

/-- the loop of `replace_all_streaming` with the closure of `write` and `insert_substitution` — lapex-codegen/src/templating.rs:40-50, 53-76, 85-88:
what has been written when it ends, and how it ends. The first argument bounds the number of matches. -/
def replaceAll (s : Substitutions) : Nat → List Char → List Char × WriteStatus
  | 0, text => (text, .ok)
  | n + 1, text =>
    match nextMatch text with
    | none => (text, .ok)
    | some (before, key, rest) =>
      match s.get (trim key) with
      | none => (before, .panic)
      | some (written, false) => (before ++ written, .ioError)
      | some (written, true) =>
        let (out, status) := replaceAll s n rest
        (before ++ written ++ out, status)

/-- `TemplateWriter::write` — lapex-codegen/src/templating.rs:79-92. A text has fewer matches than chars, so the bound is never reached. -/
def writeTemplate (s : Substitutions) (template : List Char) : List Char × WriteStatus := replaceAll s template.length template

end Verif
