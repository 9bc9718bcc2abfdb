import Verif.Model.RustTokens
import Verif.Model.Collections

/-!
# Reading and running Rust text

A small part of Rust, as much as the generated functions use, given independently of the generator: how a text is divided into tokens and groups, how these form statements, patterns and arms of a
`match`, and what they do. Expressions and simple statements are left to a "machine", which says what variables there are. Everything outside this part of the language has no meaning here
(`none`, or a panic).
-/

set_option autoImplicit false

namespace Verif

/-! ## Tokens -/

/-- a token -/
inductive RTok where
  | word (w : List Char)
  | life (w : List Char)
  | str (raw : List Char)
  | sym (s : List Char)
  | opn (d : RDelim)
  | cls (d : RDelim)
deriving DecidableEq, Repr

/-- letters, digits and the underscore -/
def isRWordChar (c : Char) : Bool :=
  (97 ≤ c.toNat && c.toNat ≤ 122) || (65 ≤ c.toNat && c.toNat ≤ 90) || (48 ≤ c.toNat && c.toNat ≤ 57) || c = '_'

/-- white space between tokens -/
def isRSpace (c : Char) : Bool := c = ' ' || c = '\n'

/-- chars of operators -/
def isRSym (c : Char) : Bool := c ∈ ['!', '#', '$', '%', '&', '*', '+', ',', '-', '.', '/', ':', ';', '<', '=', '>', '?', '@', '^', '|', '~']

/-- delimiters -/
def rDelim (c : Char) : Option RTok :=
  if c = '(' then some (.opn .paren) else if c = ')' then some (.cls .paren) else if c = '[' then some (.opn .bracket) else if c = ']' then some (.cls .bracket)
  else if c = '{' then some (.opn .brace) else if c = '}' then some (.cls .brace) else none

/-- where the division into tokens stands -/
inductive RLex where
  /-- between tokens -/
  | base
  /-- in a word -/
  | word (w : List Char)
  /-- in a lifetime -/
  | life (w : List Char)
  /-- in an operator: chars of operators that follow each other without a space are one token -/
  | sym (s : List Char)
  /-- in a string literal -/
  | str (raw : List Char)
  /-- there, after a backslash -/
  | strEsc (raw : List Char)
deriving DecidableEq, Repr

/-- a char between tokens -/
def rLexBase (c : Char) : Option (List RTok × RLex) :=
  if isRWordChar c then some ([], .word [c])
  else if isRSpace c then some ([], .base)
  else if isRSym c then some ([], .sym [c])
  else if c = '"' then some ([], .str [])
  else if c = '\'' then some ([], .life [])
  else (rDelim c).map fun t => ([t], .base)

/-- a token ends before this char -/
def rLexAfter (t : RTok) (c : Char) : Option (List RTok × RLex) := (rLexBase c).map fun r => (t :: r.1, r.2)

/-- one char: the tokens completed, and where the division stands then. `//` and `/*` begin comments, which are not used. -/
def rLexStep : RLex → Char → Option (List RTok × RLex)
  | .base, c => rLexBase c
  | .word w, c => if isRWordChar c then some ([], .word (w ++ [c])) else rLexAfter (.word w) c
  | .life w, c => if isRWordChar c then some ([], .life (w ++ [c])) else if c = '\'' then none else rLexAfter (.life w) c
  | .sym s, c => if isRSym c then (if s ++ [c] = ['/', '/'] ∨ s ++ [c] = ['/', '*'] then none else some ([], .sym (s ++ [c]))) else rLexAfter (.sym s) c
  | .str s, c => if c = '"' then some ([.str s], .base) else if c = '\\' then some ([], .strEsc s) else some ([], .str (s ++ [c]))
  | .strEsc s, c => some ([], .str (s ++ ['\\', c]))

/-- a text: its tokens, and where the division stands at the end -/
def rLexRun : RLex → List Char → Option (List RTok × RLex)
  | st, [] => some ([], st)
  | st, c :: cs =>
    match rLexStep st c with
    | none => none
    | some (ts, st') =>
      match rLexRun st' cs with
      | none => none
      | some (ts', st'') => some (ts ++ ts', st'')

/-- the end of the text -/
def rLexEnd : RLex → Option (List RTok)
  | .base => some []
  | .word w => some [.word w]
  | .life w => some [.life w]
  | .sym s => some [.sym s]
  | _ => none

/-- the tokens of a text -/
def rLex (text : List Char) : Option (List RTok) :=
  match rLexRun .base text with
  | none => none
  | some (ts, st) => (rLexEnd st).map (ts ++ ·)

/-- tokens as a stream with groups: the stream up to the first delimiter that closes a group around it, and what follows each such delimiter -/
def rGroups : List RTok → Option (RForest × List (RDelim × RForest))
  | [] => some (.nil, [])
  | t :: ts =>
    match rGroups ts with
    | none => none
    | some (f, st) =>
      match t with
      | .word w => some (.word w f, st)
      | .life w => some (.life w f, st)
      | .str w => some (.str w f, st)
      | .sym w => some (.sym w f, st)
      | .cls d => some (.nil, (d, f) :: st)
      | .opn d =>
        match st with
        | (d', g) :: st => if d = d' then some (.group d f g, st) else none
        | [] => none

/-- a text as a stream with groups -/
def rRead (text : List Char) : Option RForest :=
  match (rLex text).bind rGroups with
  | some (f, []) => some f
  | _ => none

/-! ## Functions -/

/-- where the search for a function stands -/
inductive FnMode where
  | look
  /-- in the head of another function -/
  | other
  /-- in the head of the function -/
  | ours

/-- the body of the first function with this name -/
def findFn (name : List Char) : FnMode → RForest → Option RForest
  | _, .nil => none
  | .look, .word w f =>
    match f with
    | .word n _ => findFn name (if w = "fn".toList then if n = name then .ours else .other else .look) f
    | _ => findFn name .look f
  | .look, .group _ i f =>
    match findFn name .look i with
    | some b => some b
    | none => findFn name .look f
  | .ours, .group .brace i _ => some i
  | .other, .group .brace _ f => findFn name .look f
  | .other, .sym s f => findFn name (if s = [';'] then .look else .other) f
  | m, .word _ f => findFn name m f
  | m, .life _ f => findFn name m f
  | m, .str _ f => findFn name m f
  | m, .sym _ f => findFn name m f
  | m, .group _ _ f => findFn name m f

/-! ## Values and patterns -/

/-- a value: a number, a variant of an enum without or with a field, a pair -/
inductive RVal where
  | num (n : Nat)
  | variant (ty v : List Char)
  | field (ty v f : List Char) (x : RVal)
  | pair (a b : RVal)
deriving DecidableEq, Repr

/-- a pattern -/
inductive RPat where
  | wild
  | bind (x : List Char)
  | num (n : Nat)
  | range (a b : Nat)
  | variant (ty v : List Char)
  | field (ty v f : List Char) (p : RPat)
  | pair (a b : RPat)
deriving DecidableEq, Repr

/-- does a value match? If so: the variables with their values. -/
def RPat.matches : RPat → RVal → Option (List (List Char × RVal))
  | .wild, _ => some []
  | .bind x, v => some [(x, v)]
  | .num n, .num k => if n = k then some [] else none
  | .range a b, .num k => if a ≤ k ∧ k ≤ b then some [] else none
  | .variant ty v, .variant ty' v' => if ty = ty' ∧ v = v' then some [] else none
  | .field ty v f p, .field ty' v' f' x => if ty = ty' ∧ v = v' ∧ f = f' then p.matches x else none
  | .pair a b, .pair x y =>
    match a.matches x, b.matches y with
    | some l, some l' => some (l ++ l')
    | _, _ => none
  | _, _ => none

/-- a digit -/
def isRDigit (c : Char) : Bool := 48 ≤ c.toNat && c.toNat ≤ 57

/-- a number, with or without the name of a type -/
def rNumber (w : List Char) : Option Nat :=
  if w.takeWhile isRDigit ≠ [] ∧ w.dropWhile isRDigit ∈ [[], "usize".toList, "u32".toList] then
    some ((w.takeWhile isRDigit).foldl (fun n c => 10 * n + (c.toNat - 48)) 0)
  else none

/-- the stream up to an operator, and the stream after it -/
def upToSym (s : List Char) : RForest → Option (RForest × RForest)
  | .nil => none
  | .word w f => (upToSym s f).map fun r => (.word w r.1, r.2)
  | .life w f => (upToSym s f).map fun r => (.life w r.1, r.2)
  | .str w f => (upToSym s f).map fun r => (.str w r.1, r.2)
  | .sym w f => if w = s then some (.nil, f) else (upToSym s f).map fun r => (.sym w r.1, r.2)
  | .group d i f => (upToSym s f).map fun r => (.group d i r.1, r.2)

/-- the stream up to a word, and the stream after it -/
def upToWord (s : List Char) : RForest → Option (RForest × RForest)
  | .nil => none
  | .word w f => if w = s then some (.nil, f) else (upToWord s f).map fun r => (.word w r.1, r.2)
  | .life w f => (upToWord s f).map fun r => (.life w r.1, r.2)
  | .str w f => (upToWord s f).map fun r => (.str w r.1, r.2)
  | .sym w f => (upToWord s f).map fun r => (.sym w r.1, r.2)
  | .group d i f => (upToWord s f).map fun r => (.group d i r.1, r.2)

/-- the stream up to a group in braces, what is in the braces, and the stream after it -/
def upToBrace : RForest → Option (RForest × RForest × RForest)
  | .nil => none
  | .word w f => (upToBrace f).map fun r => (.word w r.1, r.2)
  | .life w f => (upToBrace f).map fun r => (.life w r.1, r.2)
  | .str w f => (upToBrace f).map fun r => (.str w r.1, r.2)
  | .sym w f => (upToBrace f).map fun r => (.sym w r.1, r.2)
  | .group .brace i f => some (.nil, i, f)
  | .group d i f => (upToBrace f).map fun r => (.group d i r.1, r.2)

/-- a pattern of one word: `_`, a number or a variable -/
def wordPat (w : List Char) : RPat :=
  if w = ['_'] then .wild
  else match rNumber w with
    | some n => .num n
    | none => .bind w

/-- a pattern; the number bounds the depth -/
def readPat : Nat → RForest → Option RPat
  | 0, _ => none
  | _ + 1, .word w .nil => some (wordPat w)
  | _ + 1, .word a (.sym s (.word b .nil)) =>
    if s = "..=".toList then do
      let x ← rNumber a
      let y ← rNumber b
      some (.range x y)
    else if s = "::".toList then some (.variant a b)
    else none
  | n + 1, .word ty (.sym s (.word v (.group .brace (.word f r) .nil))) =>
    if s = "::".toList then
      match r with
      | .nil => some (.field ty v f (.bind f))
      | .sym c r => if c = [':'] then (readPat n r).map (.field ty v f) else none
      | _ => none
    else none
  | n + 1, .group .paren i .nil => do
    let (a, b) ← upToSym [','] i
    let p ← readPat n a
    let q ← readPat n b
    some (.pair p q)
  | _, _ => none

/-! ## Statements -/

/-- a statement -/
inductive RStmt where
  /-- ends in `;` -/
  | simple (ts : RForest)
  /-- an expression at the end of a block -/
  | tail (ts : RForest)
  /-- `loop { ... }` -/
  | loop (body : List RStmt)
  /-- `while c { ... }` -/
  | whileDo (c : RForest) (body : List RStmt)
  /-- `for x in e { ... }`; the tokens after `for` -/
  | forDo (c : RForest) (body : List RStmt)
  /-- `before match e { ... };`, where `before` may be `let p =`; then the value of the `match` is bound -/
  | matching (before e : RForest) (arms : List RStmt)
  /-- a `match` at the end of a block -/
  | tailMatch (e : RForest) (arms : List RStmt)
  /-- an arm of a `match`, with its pattern -/
  | arm (p : RPat) (body : List RStmt)

/-- a stream without a `,` at its front -/
def skipComma : RForest → RForest
  | .sym s f => if s = [','] then f else .sym s f
  | f => f

mutual
/-- the statements of a block. The number bounds depth and length. -/
def readRStmts : Nat → RForest → Option (List RStmt)
  | 0, _ => none
  | _ + 1, .nil => some []
  | n + 1, .word w f =>
    if w = "loop".toList then do
      let (c, b, r) ← upToBrace f
      if c = .nil then do
        let b ← readRStmts n b
        let ss ← readRStmts n r
        some (.loop b :: ss)
      else none
    else if w = "while".toList then do
      let (c, b, r) ← upToBrace f
      let b ← readRStmts n b
      let ss ← readRStmts n r
      some (.whileDo c b :: ss)
    else if w = "for".toList then do
      let (c, b, r) ← upToBrace f
      let b ← readRStmts n b
      let ss ← readRStmts n r
      some (.forDo c b :: ss)
    else if w = "match".toList then do
      let (e, b, r) ← upToBrace f
      let arms ← readArms n b
      if r = .nil then some [.tailMatch e arms]
      else do
        let ss ← readRStmts n r
        some (.matching .nil e arms :: ss)
    else readSimple n (.word w f)
  | n + 1, f => readSimple n f
/-- a statement up to `;`, or an expression at the end of a block -/
def readSimple : Nat → RForest → Option (List RStmt)
  | 0, _ => none
  | n + 1, f =>
    match upToSym [';'] f with
    | none => some [.tail f]
    | some (ts, r) =>
      match upToWord "match".toList ts with
      | none => do
        let ss ← readRStmts n r
        some (.simple ts :: ss)
      | some (before, m) => do
        let (e, b, rest) ← upToBrace m
        if rest = .nil then do
          let arms ← readArms n b
          let ss ← readRStmts n r
          some (.matching before e arms :: ss)
        else none
/-- the arms of a `match` -/
def readArms : Nat → RForest → Option (List RStmt)
  | 0, _ => none
  | _ + 1, .nil => some []
  | n + 1, f => do
    let (p, r) ← upToSym "=>".toList f
    let p ← readPat 5 p
    match r with
    | .group .brace b r => do
      let b ← readRStmts n b
      let as ← readArms n (skipComma r)
      some (.arm p b :: as)
    | r =>
      match upToSym [','] r with
      | none => some [.arm p [.tail r]]
      | some (e, r) => do
        let as ← readArms n r
        some (.arm p [.tail e] :: as)
end

/-- number of tokens -/
def RForest.size : RForest → Nat
  | .nil => 1
  | .word _ f => f.size + 1
  | .life _ f => f.size + 1
  | .str _ f => f.size + 1
  | .sym _ f => f.size + 1
  | .group _ i f => i.size + f.size + 1

/-- the statements of a function in a text -/
def readRustFn (name : List Char) (text : List Char) : Option (List RStmt) := do
  let f ← rRead text
  let b ← findFn name .look f
  readRStmts (2 * b.size) b

/-! ## Execution -/

/-- how a statement ends -/
inductive ROut (σ ρ : Type) where
  /-- the next statement follows -/
  | next (s : σ)
  /-- the function returns -/
  | ret (s : σ) (r : ρ)
deriving DecidableEq, Repr

/-- what expressions and simple statements mean -/
structure RMachine (σ ρ : Type) where
  /-- value of an expression that is matched -/
  value : RForest → σ → Option RVal
  /-- value of a condition -/
  test : RForest → σ → Option Bool
  /-- number of rounds of a `for` loop -/
  rounds : RForest → σ → Option Nat
  /-- a variable gets a value by a pattern -/
  bind : List Char × RVal → σ → Option σ
  /-- effect of a simple statement; it may panic -/
  act : RForest → σ → Res (ROut σ ρ)

variable {σ ρ : Type}

/-- variables get values -/
def RMachine.binds (m : RMachine σ ρ) : List (List Char × RVal) → σ → Res σ
  | [], s => .ok s
  | b :: bs, s =>
    match m.bind b s with
    | none => .error .panic
    | some s => m.binds bs s

/-- a loop, run while `test` holds, at most `n` times -/
def rLoop (test : σ → Option Bool) (body : σ → Res (ROut σ ρ)) : Nat → σ → Res (ROut σ ρ)
  | 0, _ => .error .fuel
  | n + 1, s =>
    match test s with
    | none => .error .panic
    | some false => .ok (.next s)
    | some true =>
      match body s with
      | .ok (.next s') => rLoop test body n s'
      | r => r

/-- a loop, run `n` times -/
def rTimes (body : σ → Res (ROut σ ρ)) : Nat → σ → Res (ROut σ ρ)
  | 0, s => .ok (.next s)
  | n + 1, s =>
    match body s with
    | .ok (.next s') => rTimes body n s'
    | r => r

mutual
/-- one statement; `n` bounds the number of times a loop runs, `ctx` are the tokens before the value of the block (`return` in the block of a function, `let p =`, or none) -/
def RMachine.exec (m : RMachine σ ρ) (n : Nat) : RForest → RStmt → σ → Res (ROut σ ρ)
  | _, .simple ts, s => m.act ts s
  | ctx, .tail ts, s => m.act (ctx.append ts) s
  | _, .loop b, s => rLoop (fun _ => some true) (fun s => m.execs n .nil b s) n s
  | _, .whileDo c b, s => rLoop (m.test c) (fun s => m.execs n .nil b s) n s
  | _, .forDo c b, s =>
    match m.rounds c s with
    | none => .error .panic
    | some k => rTimes (fun s => m.execs n .nil b s) k s
  | _, .matching before e arms, s =>
    match m.value e s with
    | none => .error .panic
    | some v => m.execArms n before v arms s
  | ctx, .tailMatch e arms, s =>
    match m.value e s with
    | none => .error .panic
    | some v => m.execArms n ctx v arms s
  | _, .arm _ _, _ => .error .panic
/-- the statements of a block -/
def RMachine.execs (m : RMachine σ ρ) (n : Nat) : RForest → List RStmt → σ → Res (ROut σ ρ)
  | _, [], s => .ok (.next s)
  | ctx, a :: ss, s =>
    match m.exec n ctx a s with
    | .ok (.next s') => m.execs n ctx ss s'
    | r => r
/-- the first arm that matches -/
def RMachine.execArms (m : RMachine σ ρ) (n : Nat) : RForest → RVal → List RStmt → σ → Res (ROut σ ρ)
  | _, _, [], _ => .error .panic
  | ctx, v, .arm p b :: as, s =>
    match p.matches v with
    | none => m.execArms n ctx v as s
    | some bs =>
      match m.binds bs s with
      | .error e => .error e
      | .ok s => m.execs n ctx b s
  | _, _, _ :: _, _ => .error .panic
end

/-- a call of a function: what it returns -/
def callR (m : RMachine σ ρ) (n : Nat) (body : List RStmt) (s : σ) : Res (σ × ρ) :=
  match m.execs n (rs! "return") body s with
  | .ok (.ret s' r) => .ok (s', r)
  | .ok _ => .error .panic
  | .error e => .error e

end Verif
