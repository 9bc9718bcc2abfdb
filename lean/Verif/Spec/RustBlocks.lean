import Verif.Spec.RustGlrText

/-!
# Blocks of Rust statements

How a block with loops, conditions and `match` is read. Expressions and simple statements stay streams of tokens.
-/

set_option autoImplicit false

namespace Verif

/-! ## Statements -/

/-- a statement -/
inductive DStmt where
  /-- ends in `;` -/
  | simple (ts : RForest)
  /-- an expression at the end of a block -/
  | tail (ts : RForest)
  /-- `while c { ... }` -/
  | whileDo (c : RForest) (body : List DStmt)
  /-- `for x in e { ... }`; the tokens after `for` -/
  | forDo (c : RForest) (body : List DStmt)
  /-- `before if c { ... } else { ... }`, where `before` may be `let x =` -/
  | ifDo (before : Option RForest) (c : RForest) (thn els : List DStmt)
  /-- `match e { ... }` -/
  | choice (e : RForest) (arms : List DStmt)
  /-- an arm of a `match`, with its pattern -/
  | arm (p : RForest) (body : List DStmt)

/-- a stream without a `;` at its front -/
def skipSemi : RForest → RForest
  | .sym s f => if s = [';'] then f else .sym s f
  | f => f

mutual
/-- the statements of a block. The number bounds depth and length. -/
def readD : Nat → RForest → Option (List DStmt)
  | 0, _ => none
  | _ + 1, .nil => some []
  | n + 1, .word w f =>
    if w = "while".toList then do
      let (c, b, r) ← upToBrace f
      let b ← readD n b
      let ss ← readD n r
      some (.whileDo c b :: ss)
    else if w = "for".toList then do
      let (c, b, r) ← upToBrace f
      let b ← readD n b
      let ss ← readD n r
      some (.forDo c b :: ss)
    else if w = "match".toList then do
      let (e, b, r) ← upToBrace f
      let arms ← readDArms n b
      let ss ← readD n (skipSemi r)
      some (.choice e arms :: ss)
    else if w = "if".toList then do
      let (c, t, r) ← upToBrace f
      let t ← readD n t
      match r with
      | .word e (.group .brace b r) =>
        if e = "else".toList then do
          let b ← readD n b
          let ss ← readD n r
          some (.ifDo none c t b :: ss)
        else do
          let ss ← readD n (.word e (.group .brace b r))
          some (.ifDo none c t [] :: ss)
      | r => do
        let ss ← readD n r
        some (.ifDo none c t [] :: ss)
    else readDSimple n (.word w f)
  | n + 1, f => readDSimple n f
/-- a statement up to `;`, or an expression at the end of a block -/
def readDSimple : Nat → RForest → Option (List DStmt)
  | 0, _ => none
  | n + 1, f =>
    match upToSym [';'] f with
    | none => some [.tail f]
    | some (ts, r) =>
      match upToWord "if".toList ts with
      | none => do
        let ss ← readD n r
        some (.simple ts :: ss)
      | some (before, m) => do
        let (c, t, e) ← upToBrace m
        match e with
        | .word e (.group .brace b .nil) =>
          if e = "else".toList then do
            let t ← readD n t
            let b ← readD n b
            let ss ← readD n r
            some (.ifDo (some before) c t b :: ss)
          else none
        | _ => none
/-- the arms of a `match` -/
def readDArms : Nat → RForest → Option (List DStmt)
  | 0, _ => none
  | _ + 1, .nil => some []
  | n + 1, f => do
    let (p, r) ← upToSym "=>".toList f
    match r with
    | .group .brace b r => do
      let b ← readD n b
      let as ← readDArms n (skipComma r)
      some (.arm p b :: as)
    | r =>
      match upToSym [','] r with
      | none => some [.arm p [.tail r]]
      | some (e, r) => do
        let as ← readDArms n r
        some (.arm p [.tail e] :: as)
end

/-! ## Loops over lists -/

variable {σ ρ : Type}

/-- a loop over a list -/
def rEach (body : σ → Res (ROut σ ρ)) : List (σ → σ) → σ → Res (ROut σ ρ)
  | [], s => .ok (.next s)
  | u :: us, s =>
    match body (u s) with
    | .ok (.next s') => rEach body us s'
    | r => r

end Verif
