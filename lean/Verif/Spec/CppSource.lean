import Verif.Model.Collections

/-!
# Reading and running C++ text

A small part of C++, as much as the generated functions use, given independently of the generator: how a text is divided into tokens, how tokens form statements, and
what the statements do. Expressions and simple statements are left to a "machine", which says what variables there are. Everything outside this part of the language
has no meaning here (`none`, or a panic), so a theorem that says what a text does says in particular that it lies within it.
-/

set_option autoImplicit false

namespace Verif

/-! ## Tokens -/

/-- a token: a word (identifier, keyword or number), a string literal, or a symbol -/
inductive CTok where
  | word (s : List Char)
  | str (s : List Char)
  | sym (s : List Char)
deriving DecidableEq, Repr

/-- letters, digits and the underscore -/
def isCWordChar (c : Char) : Bool :=
  (97 ≤ c.toNat && c.toNat ≤ 122) || (65 ≤ c.toNat && c.toNat ≤ 90) || (48 ≤ c.toNat && c.toNat ≤ 57) || c = '_'

/-- white space between tokens -/
def isCSpace (c : Char) : Bool := c = ' ' || c = '\n' || c = '\t' || c = '\r'

/-- where the division into tokens stands -/
inductive CLex where
  /-- between tokens -/
  | base
  /-- in a word -/
  | word (s : List Char)
  /-- in a string literal -/
  | str (s : List Char)
  /-- after `:` -/
  | colon
  /-- after `.` -/
  | dot
  /-- after `..` -/
  | dots
  /-- after `/` -/
  | slash
  /-- in a `//` comment, or in a line for the preprocessor -/
  | line
  /-- there, after a backslash -/
  | lineEsc
  /-- in a `/*` comment -/
  | block
  /-- there, after `*` -/
  | blockStar
deriving DecidableEq, Repr

/-- a char between tokens -/
def cLexBase (c : Char) : Option (List CTok × CLex) :=
  if isCWordChar c then some ([], .word [c])
  else if isCSpace c then some ([], .base)
  else if c = ':' then some ([], .colon)
  else if c = '.' then some ([], .dot)
  else if c = '/' then some ([], .slash)
  else if c = '"' then some ([], .str [])
  else if c = '#' then some ([], .line)
  else if c = '\'' || c = '\\' then none
  else some ([.sym [c]], .base)

/-- a token ends before this char -/
def cLexAfter (t : CTok) (c : Char) : Option (List CTok × CLex) := (cLexBase c).map fun r => (t :: r.1, r.2)

/-- one char: the tokens completed, and where the division stands then. A backslash at the end of a line joins it with the next one. -/
def cLexStep : CLex → Char → Option (List CTok × CLex)
  | .base, c => cLexBase c
  | .word s, c => if isCWordChar c then some ([], .word (s ++ [c])) else cLexAfter (.word s) c
  | .str s, c => if c = '"' then some ([.str s], .base) else if c = '\\' || c = '\n' then none else some ([], .str (s ++ [c]))
  | .colon, c => if c = ':' then some ([.sym [':', ':']], .base) else cLexAfter (.sym [':']) c
  | .dot, c => if c = '.' then some ([], .dots) else cLexAfter (.sym ['.']) c
  | .dots, c => if c = '.' then some ([.sym ['.', '.', '.']], .base) else none
  | .slash, c => if c = '/' then some ([], .line) else if c = '*' then some ([], .block) else cLexAfter (.sym ['/']) c
  | .line, c => if c = '\n' then some ([], .base) else if c = '\\' then some ([], .lineEsc) else some ([], .line)
  | .lineEsc, c => if c = '\\' then some ([], .lineEsc) else some ([], .line)
  | .block, c => if c = '*' then some ([], .blockStar) else some ([], .block)
  | .blockStar, c => if c = '/' then some ([], .base) else if c = '*' then some ([], .blockStar) else some ([], .block)

/-- a text: its tokens, and where the division stands at the end -/
def cLexRun : CLex → List Char → Option (List CTok × CLex)
  | st, [] => some ([], st)
  | st, c :: cs =>
    match cLexStep st c with
    | none => none
    | some (ts, st') =>
      match cLexRun st' cs with
      | none => none
      | some (ts', st'') => some (ts ++ ts', st'')

/-- the end of the text -/
def cLexEnd : CLex → Option (List CTok)
  | .base => some []
  | .word s => some [.word s]
  | .colon => some [.sym [':']]
  | .line => some []
  | _ => none

/-- the tokens of a text -/
def cLex (text : List Char) : Option (List CTok) :=
  match cLexRun .base text with
  | none => none
  | some (ts, st) => (cLexEnd st).map (ts ++ ·)

/-- the tokens of a phrase, to write phrases down -/
def phrase (s : String) : List CTok := (cLex s.toList).getD []

/-! ## Statements -/

/-- a statement; labels stand in the list of statements of a `switch` -/
inductive CStmt where
  /-- `case l:` -/
  | label (l : List CTok)
  /-- `case l ... m:` -/
  | range (l m : List CTok)
  /-- `default:` -/
  | dflt
  /-- a statement that ends in `;` -/
  | simple (ts : List CTok)
  /-- `{ ... }` -/
  | block (ss : List CStmt)
  /-- `switch (e) { ... }` -/
  | switch (e : List CTok) (ss : List CStmt)
  /-- `if (c) s else s'`; without `else` the second statement is an empty block -/
  | cond (c : List CTok) (s s' : CStmt)
  /-- `while (c) s` -/
  | loop (c : List CTok) (s : CStmt)
  /-- `for (a; b; c) s`; the tokens between the parentheses -/
  | count (c : List CTok) (s : CStmt)

/-- the tokens up to the parenthesis that closes, and those after it -/
def toParen : Nat → List CTok → Option (List CTok × List CTok)
  | _, [] => none
  | d, t :: ts =>
    if t = .sym ['('] then (toParen (d + 1) ts).map fun r => (t :: r.1, r.2)
    else if t = .sym [')'] then
      match d with
      | 0 => some ([], ts)
      | d + 1 => (toParen d ts).map fun r => (t :: r.1, r.2)
    else (toParen d ts).map fun r => (t :: r.1, r.2)

/-- the tokens up to a symbol, and those after it -/
def toSym (s : List Char) : List CTok → Option (List CTok × List CTok)
  | [] => none
  | t :: ts => if t = .sym s then some ([], ts) else (toSym s ts).map fun r => (t :: r.1, r.2)

/-- the tokens after this one, which must be the next -/
def expect (t : CTok) : List CTok → Option (List CTok)
  | t' :: ts => if t' = t then some ts else none
  | [] => none

/-- tokens in parentheses, and those after them -/
def inParens (ts : List CTok) : Option (List CTok × List CTok) := (expect (.sym ['(']) ts).bind (toParen 0)

/-- the label between `case` and `:` -/
def readLabel (l : List CTok) : CStmt :=
  match toSym ['.', '.', '.'] l with
  | some (a, b) => .range a b
  | none => .label l

mutual
/-- statements up to `}` or the end of the text -/
def readStmts : Nat → List CTok → Option (List CStmt × List CTok)
  | 0, _ => none
  | _ + 1, [] => some ([], [])
  | n + 1, t :: ts =>
    if t = .sym ['}'] then some ([], t :: ts)
    else do
      let (s, r) ← readStmt n (t :: ts)
      let (ss, r) ← readStmts n r
      some (s :: ss, r)
/-- one statement. The number bounds the depth. -/
def readStmt : Nat → List CTok → Option (CStmt × List CTok)
  | 0, _ => none
  | _ + 1, [] => none
  | n + 1, t :: ts =>
    if t = .sym ['{'] then do
      let (ss, r) ← readStmts n ts
      let r ← expect (.sym ['}']) r
      some (.block ss, r)
    else if t = .word "switch".toList then do
      let (e, r) ← inParens ts
      let r ← expect (.sym ['{']) r
      let (ss, r) ← readStmts n r
      let r ← expect (.sym ['}']) r
      some (.switch e ss, r)
    else if t = .word "case".toList then do
      let (l, r) ← toSym [':'] ts
      some (readLabel l, r)
    else if t = .word "default".toList then do
      let r ← expect (.sym [':']) ts
      some (.dflt, r)
    else if t = .word "if".toList then do
      let (c, r) ← inParens ts
      let (s, r) ← readStmt n r
      match expect (.word "else".toList) r with
      | none => some (.cond c s (.block []), r)
      | some r => do
        let (s', r) ← readStmt n r
        some (.cond c s s', r)
    else if t = .word "while".toList then do
      let (c, r) ← inParens ts
      let (s, r) ← readStmt n r
      some (.loop c s, r)
    else if t = .word "for".toList then do
      let (c, r) ← inParens ts
      let (s, r) ← readStmt n r
      some (.count c s, r)
    else do
      let (ts, r) ← toSym [';'] (t :: ts)
      some (.simple ts, r)
end

/-- the tokens after the first occurrence of a phrase -/
def afterPhrase (p : List CTok) : List CTok → Option (List CTok)
  | [] => if p = [] then some [] else none
  | t :: ts => if p.isPrefixOf (t :: ts) then some ((t :: ts).drop p.length) else afterPhrase p ts

/-- the statements of a function in a file; the function is found by its head, which ends in `{` -/
def readFunction (head : List CTok) (file : List Char) : Option (List CStmt) := do
  let ts ← cLex file
  let ts ← afterPhrase head ts
  let (ss, r) ← readStmts (ts.length + 1) ts
  let _ ← expect (.sym ['}']) r
  some ss

/-- a decimal constant -/
def decimalConst : List CTok → Option Nat
  | [.word w] =>
    if w ≠ [] ∧ w.all (fun c => 48 ≤ c.toNat && c.toNat ≤ 57) ∧ (w.head? = some '0' → w = ['0']) then
      some (w.foldl (fun n c => 10 * n + (c.toNat - 48)) 0)
    else none
  | _ => none

/-- the enumerators of an `enum` with their values: as given, or one more than the one before; `n` is that value -/
def readEnumerators : Nat → Nat → List CTok → Option (List (List Char × Nat))
  | _, _, .sym ['}'] :: _ => some []
  | fuel + 1, n, .word w :: .sym [','] :: ts => (readEnumerators fuel (n + 1) ts).map ((w, n) :: ·)
  | fuel + 1, _, .word w :: .sym ['='] :: k :: .sym [','] :: ts => do
    let k ← decimalConst [k]
    let r ← readEnumerators fuel (k + 1) ts
    some ((w, k) :: r)
  | _, _, _ => none

/-- the enumerators of an `enum` in a file, found by its head, which ends in `{`; they must be different -/
def readEnum (head : List CTok) (file : List Char) : Option (List (List Char × Nat)) := do
  let ts ← cLex file
  let ts ← afterPhrase head ts
  let es ← readEnumerators ts.length 0 ts
  if (es.map (·.1)).Nodup then some es else none

/-! ## Execution -/

/-- how a statement ends -/
inductive COut (σ ρ : Type) where
  /-- the next statement follows -/
  | next (s : σ)
  /-- the `switch` or loop is left -/
  | brk (s : σ)
  /-- the function is left: it returns, throws or ends the program -/
  | exit (s : σ) (r : ρ)
deriving DecidableEq, Repr

/-- what expressions and simple statements mean -/
structure CMachine (σ ρ : Type) where
  /-- value of an integer constant -/
  const : List CTok → Option Nat
  /-- value of an expression -/
  value : List CTok → σ → Option Nat
  /-- value of a condition -/
  test : List CTok → σ → Option Bool
  /-- effect of a simple statement -/
  act : List CTok → σ → Option (COut σ ρ)

variable {σ ρ : Type}

/-- does a label apply to a value? -/
def CMachine.applies (m : CMachine σ ρ) (v : Nat) : CStmt → Option Bool
  | .label l => (m.const l).map fun k => k = v
  | .range a b => do
    let x ← m.const a
    let y ← m.const b
    some (x ≤ v && v ≤ y)
  | _ => some false

/-- positions of the labels that apply -/
def CMachine.targets (m : CMachine σ ρ) (v : Nat) : Nat → List CStmt → Option (List Nat)
  | _, [] => some []
  | k, s :: ss => do
    let b ← m.applies v s
    let r ← m.targets v (k + 1) ss
    some (if b then k :: r else r)

/-- position of `default:` -/
def dfltAt : Nat → List CStmt → Option Nat
  | _, [] => none
  | k, .dflt :: _ => some k
  | k, _ :: ss => dfltAt (k + 1) ss

/-- how many statements of a `switch` are passed over: up to the label that applies, of which there must not be two, else up to `default`, else all -/
def CMachine.jump (m : CMachine σ ρ) (v : Nat) (ss : List CStmt) : Option Nat :=
  match m.targets v 0 ss with
  | none => none
  | some [k] => some k
  | some [] => some ((dfltAt 0 ss).getD ss.length)
  | some _ => none

/-- a `while` loop, run at most `n` times -/
def whileLoop (test : σ → Option Bool) (body : σ → Res (COut σ ρ)) : Nat → σ → Res (COut σ ρ)
  | 0, _ => .error .fuel
  | n + 1, s =>
    match test s with
    | none => .error .panic
    | some false => .ok (.next s)
    | some true =>
      match body s with
      | .ok (.next s') => whileLoop test body n s'
      | .ok (.brk s') => .ok (.next s')
      | r => r

/-- a loop run `n` times -/
def repeatLoop (body : σ → Res (COut σ ρ)) : Nat → σ → Res (COut σ ρ)
  | 0, s => .ok (.next s)
  | n + 1, s =>
    match body s with
    | .ok (.next s') => repeatLoop body n s'
    | .ok (.brk s') => .ok (.next s')
    | r => r

/-- the number of times a loop `for (size_t i = 0; i < n; i++)` runs; no other loops have a meaning here -/
def countOf (c : List CTok) : Option Nat :=
  match toSym [';'] c with
  | some (a, r) =>
    if a = phrase "size_t i = 0" then
      match r with
      | .word ['i'] :: .sym ['<'] :: n :: r => if r = phrase "; i++" then decimalConst [n] else none
      | _ => none
    else none
  | none => none

mutual
/-- one statement; `n` bounds the number of times a `while` loop runs -/
def CMachine.exec (m : CMachine σ ρ) (n : Nat) : CStmt → σ → Res (COut σ ρ)
  | .label _, s => .ok (.next s)
  | .range _ _, s => .ok (.next s)
  | .dflt, s => .ok (.next s)
  | .simple ts, s => match m.act ts s with
    | some r => .ok r
    | none => .error .panic
  | .block ss, s => m.execs n 0 ss s
  | .switch e ss, s =>
    match m.value e s with
    | none => .error .panic
    | some v =>
      match m.jump v ss with
      | none => .error .panic
      | some k =>
        match m.execs n k ss s with
        | .ok (.brk s') => .ok (.next s')
        | r => r
  | .cond c a b, s =>
    match m.test c s with
    | none => .error .panic
    | some true => m.exec n a s
    | some false => m.exec n b s
  | .loop c a, s => whileLoop (m.test c) (fun s => m.exec n a s) n s
  | .count c a, s =>
    match countOf c with
    | none => .error .panic
    | some k => repeatLoop (fun s => m.exec n a s) k s
/-- a list of statements, after passing over some -/
def CMachine.execs (m : CMachine σ ρ) (n : Nat) : Nat → List CStmt → σ → Res (COut σ ρ)
  | _, [], s => .ok (.next s)
  | k + 1, _ :: ss, s => m.execs n k ss s
  | 0, a :: ss, s =>
    match m.exec n a s with
    | .ok (.next s') => m.execs n 0 ss s'
    | r => r
end

/-- statements that are always the same, with their effects -/
def doPhrase (table : List (String × (σ → Option (COut σ ρ)))) (ts : List CTok) (s : σ) : Option (COut σ ρ) :=
  match table.find? (fun x => phrase x.1 = ts) with
  | some x => x.2 s
  | none => none

/-- a call of a function without loops: what it returns; it must not run into its end -/
def callC (m : CMachine σ ρ) (body : List CStmt) (s : σ) : Res (σ × ρ) :=
  match m.execs 0 0 body s with
  | .ok (.exit s' r) => .ok (s', r)
  | .ok _ => .error .panic
  | .error e => .error e

end Verif
