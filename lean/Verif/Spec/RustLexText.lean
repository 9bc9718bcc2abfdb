import Verif.Spec.RustSource
import Verif.Model.Lexer

/-!
# What the statements in `lexer.rs` mean

The fields of the struct `Lexer` are those of `Verif.Lexer`, with the chars that `char_iter` still gives. A function that is called is the one in the text.
-/

set_option autoImplicit false

namespace Verif

/-! ## `get_alphabet_index` and `get_alphabet_range` -/

/-- `return Some(i)` or `return None` -/
def returnedIndex : RForest → Option (Option Nat)
  | .word r (.word s (.group .paren (.word n .nil) .nil)) =>
    if r = "return".toList ∧ s = "Some".toList then (rNumber n).map some else none
  | .word r (.word s .nil) => if r = "return".toList ∧ s = "None".toList then some none else none
  | _ => none

/-- `return Some(a..=b)` or `return None` -/
def returnedRange : RForest → Option (Option (Nat × Nat))
  | .word r (.word s (.group .paren (.word a (.sym o (.word b .nil))) .nil)) =>
    if r = "return".toList ∧ s = "Some".toList ∧ o = "..=".toList then do
      let x ← rNumber a
      let y ← rNumber b
      some (some (x, y))
    else none
  | .word r (.word s .nil) => if r = "return".toList ∧ s = "None".toList then some none else none
  | _ => none

/-- a function of one number `c`, which returns by `return` -/
def caseMachine {ρ : Type} (returned : RForest → Option ρ) : RMachine Nat ρ where
  value := fun e c => if e = rs! "c" then some (.num c) else none
  test := fun _ _ => none
  rounds := fun _ _ => none
  bind := fun _ _ => none
  act := fun ts c =>
    match returned ts with
    | some r => .ok (.ret c r)
    | none => .error .panic

/-- a call of a function with one number -/
def callCase {ρ : Type} (returned : RForest → Option ρ) (name : List Char) (text : List Char) (c : Nat) : Res ρ :=
  match readRustFn name text with
  | none => .error .panic
  | some body => (callR (caseMachine returned) 0 body c).map (·.2)

/-! ## `next` -/

/-- what `next` returns: a variant of `TokenType`, or an error -/
inductive RustLexResult where
  | ok (variant : List Char)
  | invalidChar (badCh : Nat)
  | unexpectedAlphabet (range : Nat × Nat)
deriving DecidableEq, Repr

/-- the variables of `next`. Inside an arm there is another variable `next_ch`, here `taken`. -/
structure RNextVars where
  lexer : Lexer
  state : Option Nat
  nextCh : Option Nat
  symbol : Option Nat
  transition : Option Nat
  taken : Option Char
deriving DecidableEq, Repr

/-- `state = k`, `return Ok(TokenType::variant)` -/
def rNextShort (ts : RForest) (s : RNextVars) : Res (ROut RNextVars RustLexResult) :=
  match ts with
  | .word x (.sym e (.word k .nil)) =>
    if x = "state".toList ∧ e = "=".toList then
      match rNumber k with
      | some k => .ok (.next { s with state := some k })
      | none => .error .panic
    else .error .panic
  | .word r (.word o (.group .paren (.word ty (.sym c (.word v .nil))) .nil)) =>
    if r = "return".toList ∧ o = "Ok".toList ∧ ty = "TokenType".toList ∧ c = "::".toList then .ok (.ret s (.ok v)) else .error .panic
  | _ => .error .panic

/-- effect of a simple statement; `index` and `range` are the functions that are called -/
def rNextAct (index : Nat → Res (Option Nat)) (range : Nat → Res (Option (Nat × Nat))) (ts : RForest) (s : RNextVars) : Res (ROut RNextVars RustLexResult) :=
  if ts = rs! "let mut state: usize = 0" then .ok (.next { s with state := some 0 })
  else if ts = rs! "self.start = self.position" then .ok (.next { s with lexer := { s.lexer with start := s.lexer.position } })
  else if ts = rs! "let next_ch = self.char_iter.peek().copied().map(|c| c as u32).unwrap_or(0)" then
    .ok (.next { s with nextCh := some ((s.lexer.rest.head?.map Char.toNat).getD 0) })
  else if ts = rs! "let symbol = if let Some(symbol) = Lexer::get_alphabet_index(next_ch) { symbol } else { return Err(LexerError::InvalidChar { bad_ch: next_ch }); }" then
    match s.nextCh with
    | none => .error .panic
    | some c =>
      match index c with
      | .error e => .error e
      | .ok (some i) => .ok (.next { s with symbol := some i })
      | .ok none => .ok (.ret s (.invalidChar c))
  else if ts = rs! "let next_ch = self.char_iter.next().unwrap()" then
    match s.lexer.rest with
    | [] => .error .panic
    | c :: rest => .ok (.next { s with lexer := { s.lexer with rest := rest }, taken := some c })
  else if ts = rs! "self.position += next_ch.len_utf8()" then
    match s.taken with
    | none => .error .panic
    | some c => .ok (.next { s with lexer := { s.lexer with position := s.lexer.position + c.utf8Size } })
  else if ts = rs! "return Err(LexerError::UnexpectedAlphabet { range: Lexer::get_alphabet_range(transition).unwrap() })" then
    match s.transition with
    | none => .error .panic
    | some t =>
      match range t with
      | .error e => .error e
      | .ok none => .error .panic
      | .ok (some r) => .ok (.ret s (.unexpectedAlphabet r))
  else if ts = rs! "unreachable!()" then .error .panic
  else rNextShort ts s

/-- expressions and statements of `next` -/
def rNextMachine (index : Nat → Res (Option Nat)) (range : Nat → Res (Option (Nat × Nat))) : RMachine RNextVars RustLexResult where
  value := fun e s =>
    if e = rs! "(state, symbol)" then do
      let a ← s.state
      let b ← s.symbol
      some (.pair (.num a) (.num b))
    else none
  test := fun _ _ => none
  rounds := fun _ _ => none
  bind := fun b s =>
    match b with
    | (x, .num k) => if x = "transition".toList then some { s with transition := some k } else none
    | _ => none
  act := rNextAct index range

/-- a call of `next`; `n` bounds the number of rounds of the loop -/
def rustNext (text : List Char) (n : Nat) (l : Lexer) : Res (RustLexResult × Lexer) :=
  match readRustFn "next".toList text with
  | none => .error .panic
  | some body =>
    (callR (rNextMachine (callCase returnedIndex "get_alphabet_index".toList text) (callCase returnedRange "get_alphabet_range".toList text)) n body ⟨l, none, none, none, none, none⟩).map
      fun r => (r.2, r.1.lexer)

/-! ## `new`, `span` and `slice` -/

/-- a call of `new`; the variables are `src` and `char_iter` -/
def newMachine : RMachine (List Char × Option (List Char)) Lexer where
  value := fun _ _ => none
  test := fun _ _ => none
  rounds := fun _ _ => none
  bind := fun _ _ => none
  act := fun ts s =>
    if ts = rs! "let char_iter = src.chars().peekable()" then .ok (.next (s.1, some s.1))
    else if ts = rs! "return Lexer { src, char_iter, start: 0, position: 0 }" then
      match s.2 with
      | none => .error .panic
      | some rest => .ok (.ret s { src := s.1, rest := rest, start := 0, position := 0 })
    else .error .panic

/-- `Lexer::new(src)` -/
def rustNew (text : List Char) (src : List Char) : Res Lexer :=
  match readRustFn "new".toList text with
  | none => .error .panic
  | some body => (callR newMachine 0 body (src, none)).map (·.2)

/-- a function whose block is an expression with this value -/
def exprMachine {ρ : Type} (e : RForest) (v : Lexer → Res ρ) : RMachine Lexer ρ where
  value := fun _ _ => none
  test := fun _ _ => none
  rounds := fun _ _ => none
  bind := fun _ _ => none
  act := fun ts s => if ts = e then (v s).map (.ret s ·) else .error .panic

/-- `span()` -/
def rustSpan (text : List Char) (l : Lexer) : Res (Nat × Nat) :=
  match readRustFn "span".toList text with
  | none => .error .panic
  | some body => (callR (exprMachine (rs! "return self.start..self.position") (fun s => .ok (s.start, s.position))) 0 body l).map (·.2)

/-- `slice()`: a part of the source, by bytes -/
def rustSlice (text : List Char) (l : Lexer) : Res (List Char) :=
  match readRustFn "slice".toList text with
  | none => .error .panic
  | some body =>
    (callR (exprMachine (rs! "return &self.src[self.span()]") (fun s => do
      let r ← rustSpan text s
      byteSlice s.src r.1 r.2)) 0 body l).map (·.2)

/-! ## The enum in `tokens.rs` -/

/-- variants without fields, with a `,` after each (the last may lack it) -/
def readVariants : RForest → Option (List (List Char))
  | .nil => some []
  | .word v .nil => some [v]
  | .word v (.sym c f) => if c = [','] then (readVariants f).map (v :: ·) else none
  | _ => none

/-- the variants of the first enum with this name -/
def findEnum (name : List Char) : RForest → Option (List (List Char))
  | .nil => none
  | .word w f =>
    match f with
    | .word n (.group .brace i _) => if w = "enum".toList ∧ n = name then readVariants i else findEnum name f
    | _ => findEnum name f
  | .life _ f => findEnum name f
  | .str _ f => findEnum name f
  | .sym _ f => findEnum name f
  | .group _ _ f => findEnum name f

/-- the variants of an enum in a text -/
def rustEnum (name : List Char) (text : List Char) : Option (List (List Char)) := (rRead text).bind (findEnum name)

/-- a result, with the variants of `TokenType`: the first is the end of the input, then come the rules in order -/
def variantOf (variants : List (List Char)) : LexResult → RustLexResult
  | .token r => .ok (variants.getD (r + 1) [])
  | .eof => .ok (variants.getD 0 [])
  | .invalidChar c => .invalidChar c
  | .unexpectedAlphabet r => .unexpectedAlphabet r

end Verif
