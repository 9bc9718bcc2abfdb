import Mathlib.Data.List.Forall2
import Verif.Model.LR
import Verif.Model.Names

/-! # Reading the table file -/

set_option autoImplicit false

namespace Verif

/-- the parts of a text between the chars `c` -/
def split (c : Char) : List Char → List (List Char)
  | [] => [[]]
  | x :: xs =>
    if x = c then [] :: split c xs
    else
      match split c xs with
      | [] => [[x]]
      | l :: ls => (x :: l) :: ls

/-- without the spaces at the end -/
def trimmed (s : List Char) : List Char := (s.reverse.dropWhile (· = ' ')).reverse

/-- line number `i` of a text, field number `j` of it -/
def fieldAt (text : List Char) (i j : Nat) : Option (List Char) := ((split '\n' text)[i]?).bind fun line => (split '|' line)[j]?

/-- what the text of a cell says: nothing; `s` and the state to shift to; `r` and the number of the rule to reduce; `e`rror; `a`ccept; `c`onflict -/
inductive CellSays : List Char → Option (List TableEntry) → Prop
  | nothing : CellSays [] none
  | shift (q : Nat) : CellSays ('s' :: decimal q) (some [.shift q])
  | reduce (r : Nat) : CellSays ('r' :: decimal r) (some [.reduce (some r)])
  | error : CellSays ['e'] (some [.error])
  | accept : CellSays ['a'] (some [.accept])
  | conflict (e e' : TableEntry) (es : List TableEntry) : CellSays ['c'] (some (e :: e' :: es))

/-- no token or production has the char in its name -/
def NamesLack (g : Grammar) (c : Char) : Prop := (∀ x ∈ g.tokens, c ∉ x.2.toList) ∧ ∀ x ∈ g.productions, c ∉ x.2.toList

/-- how a symbol is shown: a token or production by its name and its number, a helper non-terminal as `<anon>` with its number -/
inductive NamesSymbol (g : Grammar) : Sym → List Char → Prop
  | token {a : Nat} {name : String} : (Sym.t a, name) ∈ g.tokens → NamesSymbol g (.t a) (name.toList ++ ['('] ++ decimal a ++ [')'])
  | production {A : Nat} {name : String} : (Sym.nt A, name) ∈ g.productions → NamesSymbol g (.nt A) (name.toList ++ ['('] ++ decimal A ++ [')'])
  | helper {A : Nat} : (∀ name, (Sym.nt A, name) ∉ g.productions) → NamesSymbol g (.nt A) ("<anon>(".toList ++ decimal A ++ [')'])
  | eps : NamesSymbol g .eps "<eps>".toList
  | eof : NamesSymbol g .eof "<end>".toList

/-- how a string of symbols is shown: with single spaces between them -/
def NamesString (g : Grammar) (ss : List Sym) (t : List Char) : Prop := ∃ names, List.Forall₂ (NamesSymbol g) ss names ∧ t = List.intercalate [' '] names

/-- how a rule is shown -/
def ShowsRule (g : Grammar) (r : Rule) (t : List Char) : Prop := ∃ lhs rhs, NamesSymbol g (.nt r.lhs) lhs ∧ NamesString g r.rhs rhs ∧ t = lhs ++ " -> ".toList ++ rhs

/-- how a rule with a dot in it is shown -/
def ShowsItem (g : Grammar) (r : Rule) (dot : Nat) (t : List Char) : Prop :=
  ∃ lhs pre post, NamesSymbol g (.nt r.lhs) lhs ∧ NamesString g (r.rhs.take dot) pre ∧ NamesString g (r.rhs.drop dot) post ∧ t = lhs ++ " -> ".toList ++ pre ++ " • ".toList ++ post

end Verif
