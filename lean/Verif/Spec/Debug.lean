import Mathlib.Data.List.Forall2
import Verif.Model.Debug
import Verif.Spec.GlrTrace
import Verif.Spec.Table
import Verif.Spec.Names
import Verif.Spec.Pipeline

/-! # What `lapex debug` should do -/

set_option autoImplicit false

namespace Verif

/-- the line for a node of a parse tree: for a token `shift` and the name of its variant, which is `Tk` and the token's name in upper camel case; for an inner node the rule -/
inductive NodeLine (names : List (List Char)) (g : Grammar) : PEvent Unit → List Char → Prop
  | token {a : Nat} {name camel : List Char} : names[a]? = some name → upperCamel name = .ok camel → NodeLine names g (.shift a ()) ("shift Tk".toList ++ camel)
  | rule {r : Rule} {text : List Char} : ShowsRule g r text → NodeLine names g (.reduce r) text

/-- names that give different identifiers in the generated code (C41, C42): every segment of a name begins with a letter, no two names are equal up to case, no production is called
like a helper non-terminal, ends in a number, or has a tag -/
structure ClearNames (rules : SpannedRules) : Prop where
  tokens : ∀ r ∈ rules.tokens, GoodName r.inner.name.toList
  tokensDiffer : (rules.tokens.map (·.inner.name.toList)).Pairwise fun a b => ¬ SameName a b
  prods : ∀ r ∈ rules.prods, GoodName r.inner.name.toList
  prodsDiffer : ∀ r ∈ rules.prods, ∀ r' ∈ rules.prods, SameName r.inner.name.toList r'.inner.name.toList → r.inner.name = r'.inner.name
  notAnon : ∀ r ∈ rules.prods, ∀ n, ¬ SameName r.inner.name.toList ("anon".toList ++ decimal n)
  noNumber : ∀ r ∈ rules.prods, ¬ EndsInNumber r.inner.name.toList
  noTag : ∀ r ∈ rules.prods, r.inner.tag = none

/-- the tokens without their texts -/
def tokenNumbers (ts : List (Nat × List Char)) : List (Nat × Unit) := ts.map fun x => (x.1, ())

end Verif
