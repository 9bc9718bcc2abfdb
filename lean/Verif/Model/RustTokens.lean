import Lean.Elab.Term
import Lean.ToExpr

/-!
# Rust token streams: `proc_macro2` and `quote`

The Rust generators write code with the macro `quote!`, which gives a stream of tokens with nested groups, and print the stream. `rs! "..."` stands for `quote! { ... }`: the
tokens of the text are put down one by one, and `#x` stands for the stream `x`. (Repetitions are written as `RForest.join`.) The tokens in the text are separated as `quote!` separates them; operators
of several chars are one token.
-/

set_option autoImplicit false

namespace Verif

/-- `proc_macro2::Delimiter` -/
inductive RDelim where
  | paren
  | bracket
  | brace
deriving DecidableEq, Repr

/-- `proc_macro2::TokenStream`: identifiers and numbers, lifetimes, string literals (the text between the quotes, as it is written), operators, and groups; each followed by the rest of the stream -/
inductive RForest where
  | nil
  | word (w : List Char) (rest : RForest)
  | life (w : List Char) (rest : RForest)
  | str (raw : List Char) (rest : RForest)
  | sym (s : List Char) (rest : RForest)
  | group (d : RDelim) (inner rest : RForest)
deriving DecidableEq, Repr

/-- one stream after another -/
def RForest.append : RForest → RForest → RForest
  | .nil, g => g
  | .word w f, g => .word w (f.append g)
  | .life w f, g => .life w (f.append g)
  | .str w f, g => .str w (f.append g)
  | .sym w f, g => .sym w (f.append g)
  | .group d i f, g => .group d i (f.append g)

/-- `#( #xs )*` -/
def RForest.join : List RForest → RForest
  | [] => .nil
  | f :: fs => f.append (RForest.join fs)

/-- no tokens -/
def RForest.isNil : RForest → Bool
  | .nil => true
  | _ => false

/-- `Display` of a token stream (proc_macro2, fallback.rs): tokens are separated by spaces; inside braces there is a space at both ends -/
def RForest.print : RForest → List Char
  | .nil => []
  | .word w f => w ++ (if f.isNil then [] else ' ' :: f.print)
  | .life w f => '\'' :: w ++ (if f.isNil then [] else ' ' :: f.print)
  | .str w f => '"' :: w ++ '"' :: (if f.isNil then [] else ' ' :: f.print)
  | .sym w f => w ++ (if f.isNil then [] else ' ' :: f.print)
  | .group .paren i f => '(' :: i.print ++ ')' :: (if f.isNil then [] else ' ' :: f.print)
  | .group .bracket i f => '[' :: i.print ++ ']' :: (if f.isNil then [] else ' ' :: f.print)
  | .group .brace i f => '{' :: ' ' :: i.print ++ (if i.isNil then [] else [' ']) ++ '}' :: (if f.isNil then [] else ' ' :: f.print)

/-! ## `quote!` -/

/-- the operators of several chars that are used -/
def quoteOps : List (List Char) := ["..=", "=>", "->", "::", "+=", "==", "!=", ">>", "&&", ".."].map String.toList

/-- letters, digits and the underscore -/
def quoteWordChar (c : Char) : Bool := c.isAlphanum || c = '_'

open Lean Elab Term Meta in
/-- the tokens of a text, up to a closing delimiter, as a term -/
partial def quoteTokens : List Char → TermElabM (Expr × List Char)
  | [] => return (mkConst ``RForest.nil, [])
  | c :: cs =>
    if c.isWhitespace then quoteTokens cs
    else if c = ')' || c = ']' || c = '}' then return (mkConst ``RForest.nil, c :: cs)
    else if c = '(' then group ``RDelim.paren ')' cs
    else if c = '[' then group ``RDelim.bracket ']' cs
    else if c = '{' then group ``RDelim.brace '}' cs
    else if c = '"' then do
      let s := cs.takeWhile (· ≠ '"')
      let (r, cs) ← quoteTokens (cs.drop (s.length + 1))
      return (mkApp2 (mkConst ``RForest.str) (toExpr s) r, cs)
    else if quoteWordChar c then do
      let s := (c :: cs).takeWhile quoteWordChar
      let (r, cs) ← quoteTokens ((c :: cs).drop s.length)
      return (mkApp2 (mkConst ``RForest.word) (toExpr s) r, cs)
    else if c = '\'' then do
      let s := cs.takeWhile quoteWordChar
      let (r, cs) ← quoteTokens (cs.drop s.length)
      return (mkApp2 (mkConst ``RForest.life) (toExpr s) r, cs)
    else if c = '#' && (cs.head?.map quoteWordChar).getD false then do
      let s := cs.takeWhile quoteWordChar
      let x ← elabTerm (mkIdent (Name.mkSimple (String.ofList s))) (some (mkConst ``RForest))
      let (r, cs) ← quoteTokens (cs.drop s.length)
      return (if r.isConstOf ``RForest.nil then x else mkApp2 (mkConst ``RForest.append) x r, cs)
    else do
      let s := (quoteOps.find? (fun o => o.isPrefixOf (c :: cs))).getD [c]
      let (r, cs) ← quoteTokens ((c :: cs).drop s.length)
      return (mkApp2 (mkConst ``RForest.sym) (toExpr s) r, cs)
where
  group (d : Name) (close : Char) (cs : List Char) : TermElabM (Expr × List Char) := do
    let (i, cs) ← quoteTokens cs
    match cs with
    | c :: cs =>
      if c = close then do
        let (r, cs) ← quoteTokens cs
        return (mkApp3 (mkConst ``RForest.group) (mkConst d) i r, cs)
      else Lean.throwError "delimiters do not match"
    | [] => Lean.throwError "delimiter is not closed"

open Lean Elab Term in
/-- `quote!` -/
elab "rs! " s:str : term => do
  let (e, cs) ← quoteTokens s.getString.toList
  if cs.isEmpty then return e else Lean.throwError "delimiter is not open"

example (x : RForest) : rs! "(a, 1usize) => { f::g #x }" =
    .group .paren (.word ['a'] (.sym [','] (.word ['1', 'u', 's', 'i', 'z', 'e'] .nil))) (.sym ['=', '>'] (.group .brace (.word ['f'] (.sym [':', ':'] (.word ['g'] x))) .nil)) := rfl

example : (rs! "(a, 1usize) => { f::g; }").print = "(a , 1usize) => { f :: g ; }".toList := by decide

end Verif
