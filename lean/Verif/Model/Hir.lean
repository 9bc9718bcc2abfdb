import Verif.Model.Input

/-!
# Regular expressions of token rules: `make_pattern_from_hir` of lapex-input-gen/src/lib.rs

The parser of the crate `regex_syntax` is not modelled; `Hir` is the type it returns. Properties, which `regex_syntax` caches in each node, and names of groups are left
out.
-/

set_option autoImplicit false

namespace Verif

/-- `enum HirKind` of `regex_syntax`. The kinds of look-around and the ranges of a byte class are irrelevant to lapex. -/
inductive Hir where
  | empty
  | literal (bytes : ByteArray)
  | classUnicode (ranges : List (Char × Char))
  | classBytes
  | look
  | repetition (min : Nat) (max : Option Nat) (greedy : Bool) (sub : Hir)
  | capture (sub : Hir)
  | concat (subs : List Hir)
  | alternation (subs : List Hir)

/-- `enum RegexConversionError` — lapex-input-gen/src/lib.rs:54-62; the error of the parser of `regex_syntax` does not occur in the conversion. -/
inductive RegexError where
  | lazyRepetition
  | lookaround
  | emptyRegex
  | utf8Conversion
  | byteClass
deriving DecidableEq, Repr

mutual
/-- `make_pattern_from_hir` — lapex-input-gen/src/lib.rs:85-138. `std::str::from_utf8` is `ByteArray.utf8Decode?`. -/
def makePattern : Hir → Except RegexError Pattern
  | .empty => .error .emptyRegex
  | .literal bytes =>
    match bytes.utf8Decode? with
    | none => .error .utf8Conversion
    | some chars => .ok (.sequence (chars.toList.map fun c => .char (.single c)))
  | .classUnicode ranges => .ok (.charSet (ranges.map fun r => .range r.1 r.2) false)
  | .classBytes => .error .byteClass
  | .look => .error .lookaround
  | .repetition min max greedy sub =>
    if greedy = false then .error .lazyRepetition
    else do
      let inner ← makePattern sub
      .ok (.repetition min max inner)
  | .capture sub => makePattern sub
  | .concat subs => do
    let elements ← makePatterns subs
    .ok (.sequence elements)
  | .alternation subs => do
    let elements ← makePatterns subs
    .ok (.alternative elements)
/-- `iter().map(..).collect::<Result<Vec<_>, _>>()?` (lines 125-128 and 131-134) -/
def makePatterns : List Hir → Except RegexError (List Pattern)
  | [] => .ok []
  | h :: hs => do
    let p ← makePattern h
    let ps ← makePatterns hs
    .ok (p :: ps)
end

end Verif
