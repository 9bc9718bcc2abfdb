import Verif.Model.Nfa
import Mathlib.Data.List.Sort

/-!
# Precedence resolution (`lapex-lexer/src/lib.rs`), the generation pipeline (`lapex/src/lib.rs`)
and the generated Rust lexer (`lapex-rust-codegen/src/lexer/mod.rs`)
-/

namespace Verif

/-- `struct PrecedenceError` — lapex-lexer/src/lib.rs:13-17; rules as indices instead of names with spans. -/
structure PrecedenceError where
  rules : List Nat
  precedence : Nat
deriving DecidableEq, Repr

/-- precedences of the referenced rules — lapex-lexer/src/lib.rs:23-24; `none` models the panic of
`Pattern::precedence`. -/
def withPrecedence (rules : List TokenRule) : List Nat → Option (List (Nat × Nat))
  | [] => some []
  | r :: rs =>
    match (rules[r]?).bind TokenRule.prec, withPrecedence rules rs with
    | some p, some l => some ((r, p) :: l)
    | _, _ => none

/-- `resolve_precedence` — lapex-lexer/src/lib.rs:19-42. `sort_by_key(Reverse)` is a stable sort, descending; the model
uses Mathlib's stable `insertionSort` (any two stable sorts give the same list). -/
def resolvePrecedence (rules : List TokenRule) (accepted : List Nat) : Res (Except PrecedenceError Nat) :=
  match withPrecedence rules accepted with
  | none => .error .panic
  | some l =>
    let sortedRules := l.insertionSort (fun a b => b.2 ≤ a.2)
    match sortedRules with
    | [] => .error .panic
    | (_, highestPrecedence) :: _ =>
      let rulesWithMatchingPrec := (sortedRules.filter (fun r => r.2 = highestPrecedence)).map (·.1)
      if rulesWithMatchingPrec.length > 1 then
        .ok (.error { rules := rulesWithMatchingPrec, precedence := highestPrecedence })
      else
        match rulesWithMatchingPrec with
        | [] => .error .panic
        | r :: _ => .ok (.ok r)

/-- the state loop of `apply_precedence_to_dfa` — lapex-lexer/src/lib.rs:49-61, from state `idx` on. -/
def applyPrecedenceStates (rules : List TokenRule) :
    Nat → List (AutomatonState (List Nat)) → Dfa Nat Nat → List (Nat × Nat) →
    Res (Except PrecedenceError (Dfa Nat Nat × List (Nat × Nat)))
  | _, [], dfa, mapping => .ok (.ok (dfa, mapping))
  | idx, .accepting accepted :: states, dfa, mapping =>
    match resolvePrecedence rules accepted with
    | .error e => .error e
    | .ok (.error e) => .ok (.error e)
    | .ok (.ok rule) =>
      let (dfa, newIdx) := dfa.addAcceptingState rule
      applyPrecedenceStates rules (idx + 1) states dfa (minsert idx newIdx mapping)
  | idx, .intermediate _ :: states, dfa, mapping =>
    let (dfa, newIdx) := dfa.addIntermediateState
    applyPrecedenceStates rules (idx + 1) states dfa (minsert idx newIdx mapping)

/-- the transition loop of `apply_precedence_to_dfa` — lapex-lexer/src/lib.rs:62-70; the `unwrap` of line 66
is an explicit panic. -/
def applyPrecedenceTransitions (dfa : Dfa (List Nat) Nat) (mapping : List (Nat × Nat)) (result : Dfa Nat Nat) :
    Res (Dfa Nat Nat) :=
  mapping.foldlM (fun result (old, new) =>
    (dfa.transitionsFrom old).foldlM (fun result (weight, oldTarget) =>
      match mget? oldTarget mapping with
      | none => .error .panic
      | some newTarget => .ok (result.addTransition new newTarget weight)) result) result

/-- `apply_precedence_to_dfa` — lapex-lexer/src/lib.rs:44-72. -/
def applyPrecedenceToDfa (rules : List TokenRule) (dfa : Dfa (List Nat) Nat) :
    Res (Except PrecedenceError (Dfa Nat Nat)) :=
  match applyPrecedenceStates rules 0 dfa.graph.nodes {} [] with
  | .error e => .error e
  | .ok (.error e) => .ok (.error e)
  | .ok (.ok (result, mapping)) =>
    match applyPrecedenceTransitions dfa mapping result with
    | .error e => .error e
    | .ok d => .ok (.ok d)

/-- what the lexer code generators get: the alphabet's ranges and the final DFA. -/
structure LexerTables where
  alphabet : Alphabet
  dfa : Dfa Nat Nat
deriving DecidableEq, Repr

/-- the lexer part of `generate_lexer_and_parser` — lapex/src/lib.rs:143-148. -/
def generateLexer (fuel : Nat) (rules : List TokenRule) : Res (Except PrecedenceError LexerTables) := do
  let alphabet := generateAlphabet rules
  let (nfaEntrypoint, nfa) ← generateNfa alphabet rules
  let dfa ← nfa.powersetConstruction fuel nfaEntrypoint
  match ← applyPrecedenceToDfa rules dfa with
  | .error e => .ok (.error e)
  | .ok dfa => .ok (.ok { alphabet := alphabet, dfa := dfa })

/-! ## The generated Rust lexer -/

/-- one arm of the generated `match (state, symbol)` — lapex-rust-codegen/src/lexer/mod.rs:58-93. -/
inductive LexArm where
  /-- `(0, 0) => return Ok(TokenType::EndOfFile)` (line 63) -/
  | eof (state : Nat)
  /-- `(state, symbol) => { consume one char; state = target }` (lines 68-74) -/
  | advance (state symbol target : Nat)
  /-- `(state, _) => return Ok(TokenType::name)` (lines 79-83) -/
  | accept (state rule : Nat)
  /-- `(state, transition) => return Err(UnexpectedAlphabet)` (lines 85-91) -/
  | reject (state : Nat)
deriving DecidableEq, Repr

/-- the arms of one state — lapex-rust-codegen/src/lexer/mod.rs:60-92. -/
def lexArmsOf (dfa : Dfa Nat Nat) (stateId : Nat) (node : AutomatonState Nat) : List LexArm :=
  (if stateId = 0 then [.eof stateId] else [])
  ++ (dfa.transitionsFrom stateId).filterMap (fun (transition, target) =>
      if transition ≠ 0 then some (.advance stateId transition target) else none)
  ++ [match node with
      | .accepting rule => .accept stateId rule
      | .intermediate _ => .reject stateId]

/-- all arms, in order — lapex-rust-codegen/src/lexer/mod.rs:58-93. -/
def lexArms (dfa : Dfa Nat Nat) : List LexArm :=
  (dfa.graph.nodes.zipIdx.map (fun (node, i) => lexArmsOf dfa i node)).flatten

/-- whether an arm's pattern matches `(state, symbol)`. -/
def LexArm.applies (state symbol : Nat) : LexArm → Bool
  | .eof s => s = state ∧ symbol = 0
  | .advance s t _ => s = state ∧ symbol = t
  | .accept s _ => s = state
  | .reject s => s = state

/-- generated `get_alphabet_index` — lapex-rust-codegen/src/lexer/mod.rs:47-56, 145-150: first range containing `c`. -/
def getAlphabetIndex (a : Alphabet) (c : Nat) : Option Nat :=
  a.ranges.findIdx? (fun r => r.1 ≤ c ∧ c ≤ r.2)

/-- what `next()` returns (generated code, lapex-rust-codegen/src/lexer/mod.rs:159-176);
tokens as rule indices. -/
inductive LexResult where
  | token (rule : Nat)
  | eof
  | invalidChar (badCh : Nat)
  | unexpectedAlphabet (range : Nat × Nat)
deriving DecidableEq, Repr

/-- the generated `struct Lexer` — lapex-rust-codegen/src/lexer/mod.rs:127-132. `rest` is what `char_iter` will
yield; `start`/`position` are byte offsets. -/
structure Lexer where
  src : List Char
  rest : List Char
  start : Nat
  position : Nat
deriving DecidableEq, Repr

/-- generated `Lexer::new` — lapex-rust-codegen/src/lexer/mod.rs:135-143. -/
def Lexer.new (src : List Char) : Lexer := { src := src, rest := src, start := 0, position := 0 }

/-- the `loop` of the generated `next` — lapex-rust-codegen/src/lexer/mod.rs:162-175. Returns the result, the
unread chars and the new position. `unreachable!()` and the `unwrap`s are explicit panics. -/
def lexLoop (t : LexerTables) (state : Nat) (position : Nat) : List Char → Res (LexResult × List Char × Nat)
  | [] =>
    match getAlphabetIndex t.alphabet 0 with
    | none => .ok (.invalidChar 0, [], position)
    | some symbol =>
      match (lexArms t.dfa).find? (LexArm.applies state symbol) with
      | none => .error .panic
      | some (.eof _) => .ok (.eof, [], position)
      | some (.advance _ _ _) => .error .panic
      | some (.accept _ rule) => .ok (.token rule, [], position)
      | some (.reject _) =>
        match t.alphabet.ranges[symbol]? with
        | none => .error .panic
        | some r => .ok (.unexpectedAlphabet r, [], position)
  | c :: rest =>
    match getAlphabetIndex t.alphabet c.toNat with
    | none => .ok (.invalidChar c.toNat, c :: rest, position)
    | some symbol =>
      match (lexArms t.dfa).find? (LexArm.applies state symbol) with
      | none => .error .panic
      | some (.eof _) => .ok (.eof, c :: rest, position)
      | some (.advance _ _ target) => lexLoop t target (position + c.utf8Size) rest
      | some (.accept _ rule) => .ok (.token rule, c :: rest, position)
      | some (.reject _) =>
        match t.alphabet.ranges[symbol]? with
        | none => .error .panic
        | some r => .ok (.unexpectedAlphabet r, c :: rest, position)

/-- generated `Lexer::next` — lapex-rust-codegen/src/lexer/mod.rs:159-176. -/
def Lexer.next (t : LexerTables) (l : Lexer) : Res (LexResult × Lexer) := do
  let (r, rest, position) ← lexLoop t 0 l.position l.rest
  .ok (r, { l with rest := rest, start := l.position, position := position })

/-- drop `n` bytes of a string; `none` if `n` is not a char boundary. -/
def dropBytes : List Char → Nat → Option (List Char)
  | cs, 0 => some cs
  | [], _ + 1 => none
  | c :: cs, n + 1 => if c.utf8Size ≤ n + 1 then dropBytes cs (n + 1 - c.utf8Size) else none

/-- take `n` bytes of a string; `none` if `n` is not a char boundary. -/
def takeBytes : List Char → Nat → Option (List Char)
  | _, 0 => some []
  | [], _ + 1 => none
  | c :: cs, n + 1 =>
    if c.utf8Size ≤ n + 1 then (takeBytes cs (n + 1 - c.utf8Size)).map (c :: ·) else none

/-- `&s[start..end]` of a Rust string: panics unless both ends are char boundaries in order. -/
def byteSlice (s : List Char) (start end_ : Nat) : Res (List Char) :=
  if start ≤ end_ then
    match (dropBytes s start).bind (fun r => takeBytes r (end_ - start)) with
    | some r => .ok r
    | none => .error .panic
  else .error .panic

/-- generated `Lexer::slice` — lapex-rust-codegen/src/lexer/mod.rs:182-184 (with `span`, 178-180). -/
def Lexer.slice (l : Lexer) : Res (List Char) := byteSlice l.src l.start l.position

end Verif
