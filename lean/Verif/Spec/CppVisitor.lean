import Verif.Spec.CppLRText

/-!
# Specification: the class of the C++ visitor

How the file `visitor.h` is read: the class of which the user derives their own, a list of functions to be defined. What is written in the file is divided into tokens as in
`Verif/Spec/CppSource.lean`; comments are left out.
-/

set_option autoImplicit false

namespace Verif

/-- a function without definition: its name and its parameters -/
structure CppMethod where
  name : List Char
  params : List CTok
deriving DecidableEq

/-- functions `virtual void name(params) = 0;` up to the end of the class -/
def readMethods : Nat → List CTok → Option (List CppMethod)
  | _, .sym ['}'] :: .sym [';'] :: _ => some []
  | n + 1, .word v :: .word t :: .word name :: ts => do
    if v = "virtual".toList ∧ t = "void".toList then
      let (params, ts) ← inParens ts
      let ts ← expect (.sym ['=']) ts
      let ts ← expect (.word ['0']) ts
      let ts ← expect (.sym [';']) ts
      let ms ← readMethods n ts
      some (⟨name, params⟩ :: ms)
    else none
  | _, _ => none

/-- the public functions of the class `Visitor` in a file -/
def readVisitor (file : List Char) : Option (List CppMethod) := do
  let ts ← cLex file
  let ts ← afterPhrase (phrase "template <class T> class Visitor { public:") ts
  readMethods ts.length ts

mutual
/-- the simple statements within a statement -/
def CStmt.simples : CStmt → List (List CTok)
  | .label _ => []
  | .range _ _ => []
  | .dflt => []
  | .simple ts => [ts]
  | .block ss => CStmt.simplesL ss
  | .switch _ ss => CStmt.simplesL ss
  | .cond _ a b => a.simples ++ b.simples
  | .loop _ a => a.simples
  | .count _ a => a.simples
/-- the simple statements within statements -/
def CStmt.simplesL : List CStmt → List (List CTok)
  | [] => []
  | s :: ss => s.simples ++ CStmt.simplesL ss
end

/-- `visitor.f(` in a statement: the names `f` -/
def calledOn : List CTok → List (List Char)
  | [] => []
  | t :: ts =>
    (match ts with
    | .sym ['.'] :: .word f :: .sym ['('] :: _ => if t = .word "visitor".toList then [f] else []
    | _ => []) ++ calledOn ts

/-- the functions of the visitor that are called somewhere in the parser -/
def CppUnit.called (u : CppUnit) : List (List Char) := (CStmt.simplesL (u.reduceVisitor ++ u.parse)).flatMap calledOn

end Verif
