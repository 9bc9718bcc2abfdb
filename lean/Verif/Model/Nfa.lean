import Verif.Model.Alphabet
import Verif.Model.Automaton

/-!
# NFA construction: `lapex-lexer/src/nfa/mod.rs`

Accepting states carry a reference to their token rule; the model stores the rule's index.
`build_nfa_from_pattern` returns `Option<()>`, which every caller drops; an early `return None` (the `?` on `find_range`)
leaves the automaton as it is at that point.
-/

namespace Verif

/-- the NFA type of lapex-lexer/src/nfa/mod.rs (rule references as indices, transitions = alphabet indices). -/
abbrev LexNfa := Nfa Nat Nat

/-- a call `build_nfa_from_pattern(start, end, .., nfa, ..)` for some pattern -/
abbrev Builder := Nat → Nat → LexNfa → Res LexNfa

/-- `chain_pattern_iterator` — lapex-lexer/src/nfa/mod.rs:9-35, for the iterator's list of patterns (given as their
build calls). Returns the automaton and `intermediates`. -/
def chainPatternIterator : List Builder → Nat → Nat → LexNfa → Res (LexNfa × List Nat)
  | [], _, _, _ => .error .panic
  | [b], innerStart, end_, nfa => do
    let nfa ← b innerStart end_ nfa
    .ok (nfa, [])
  | b :: bs, innerStart, end_, nfa => do
    let (nfa, innerEnd) := nfa.addIntermediateState
    let nfa ← b innerStart innerEnd nfa
    let (nfa, is) ← chainPatternIterator bs innerEnd end_ nfa
    .ok (nfa, innerEnd :: is)

/-- `chain_pattern_times` — lapex-lexer/src/nfa/mod.rs:37-52. -/
def chainPatternTimes (times : Nat) (b : Builder) : Nat → Nat → LexNfa → Res (LexNfa × List Nat) :=
  chainPatternIterator (List.replicate times b)

/-- the numbers of `a..=b`. -/
def rangeIncl (a b : Nat) : List Nat := (List.range (b + 1 - a)).map (· + a)

/-- the loop of lapex-lexer/src/nfa/mod.rs:135-150 collecting alphabet indices of a char set;
`none` is the early return of `?`. -/
def charSetIndices (alphabet : Alphabet) : List Characters → List Nat → Res (Option (List Nat))
  | [], indices => .ok (some indices)
  | .single ch :: rest, indices => do
    match ← alphabet.findRange ch.toNat with
    | none => .ok none
    | some index => charSetIndices alphabet rest (sinsert index indices)
  | .range c1 c2 :: rest, indices => do
    match ← alphabet.findRange c1.toNat with
    | none => .ok none
    | some indexStart =>
      match ← alphabet.findRange c2.toNat with
      | none => .ok none
      | some indexEnd =>
        charSetIndices alphabet rest ((rangeIncl indexStart indexEnd).foldl (fun s i => sinsert i s) indices)

/-- `Pattern::CharSet` and `Pattern::Char` arms — lapex-lexer/src/nfa/mod.rs:131-162. -/
def buildCharSet (alphabet : Alphabet) (chars : List Characters) (negated : Bool) : Builder :=
  fun start end_ nfa => do
    match ← charSetIndices alphabet chars [] with
    | none => .ok nfa
    | some indices =>
      if negated then
        .ok (((List.range alphabet.ranges.length).filter (fun i => ¬ i ∈ indices)).foldl
          (fun nfa i => nfa.addTransition start end_ i) nfa)
      else
        .ok (indices.foldl (fun nfa i => nfa.addTransition start end_ i) nfa)

/-- `Pattern::Char` arm — lapex-lexer/src/nfa/mod.rs:163-175. -/
def buildChar (alphabet : Alphabet) (chars : Characters) : Builder :=
  fun start end_ nfa =>
    match chars with
    | .single ch => do
      match ← alphabet.findRange ch.toNat with
      | none => .ok nfa
      | some index => .ok (nfa.addTransition start end_ index)
    | .range c1 c2 => do
      match ← alphabet.findRange c1.toNat with
      | none => .ok nfa
      | some indexStart =>
        match ← alphabet.findRange c2.toNat with
        | none => .ok nfa
        | some indexEnd =>
          .ok ((rangeIncl indexStart indexEnd).foldl (fun nfa i => nfa.addTransition start end_ i) nfa)

/-- the mandatory copies of a repetition (`if n == 0 { .. } else { .. }`) — lapex-lexer/src/nfa/mod.rs:89-101. -/
def buildMandatory (n : Nat) (b : Builder) (innerStart innerEnd : Nat) (nfa : LexNfa) : Res (LexNfa × List Nat) :=
  if n = 0 then .ok (nfa.addEpsilonTransition innerStart innerEnd, [])
  else chainPatternTimes n b innerStart innerEnd nfa

/-- `Pattern::Repetition` arm — lapex-lexer/src/nfa/mod.rs:76-130; `b` builds the inner pattern.
`max - min` on `u32` panics (debug) or wraps to a huge count (release) when `max < min`; modelled as a panic. -/
def buildRepetition (min : Nat) (max : Option Nat) (b : Builder) : Builder :=
  fun start end_ nfa => do
    let (nfa, innerStart) := nfa.addIntermediateState
    let (nfa, innerEnd) := nfa.addIntermediateState
    let nfa := nfa.addEpsilonTransition start innerStart
    match min, max with
    | 0, none => do
      let nfa ← b innerStart innerEnd nfa
      let nfa := nfa.addEpsilonTransition start end_
      let nfa := nfa.addEpsilonTransition innerEnd innerStart
      .ok (nfa.addEpsilonTransition innerEnd end_)
    | n, max => do
      let (nfa, intermediates) ← buildMandatory n b innerStart innerEnd nfa
      match max with
      | none =>
        let previous := intermediates.getLast?.getD innerStart
        let nfa := nfa.addEpsilonTransition innerEnd previous
        .ok (nfa.addEpsilonTransition innerEnd end_)
      | some max => if max < min then .error .panic else do
        let additionalUntilMax := max - min
        let (nfa, maxStart) := nfa.addIntermediateState
        let nfa := nfa.addEpsilonTransition innerEnd maxStart
        let (nfa, maxEnd) := nfa.addIntermediateState
        let (nfa, maxIntermediates) ← chainPatternTimes additionalUntilMax b maxStart maxEnd nfa
        .ok ((maxIntermediates ++ [maxStart, maxEnd]).foldl
          (fun nfa mi => nfa.addEpsilonTransition mi end_) nfa)

/-- the `Pattern::Alternative` loop — lapex-lexer/src/nfa/mod.rs:67-75. -/
def buildAlternative : List Builder → Builder
  | [], _, _, nfa => .ok nfa
  | b :: bs, start, end_, nfa => do
    let (nfa, innerStart) := nfa.addIntermediateState
    let (nfa, innerEnd) := nfa.addIntermediateState
    let nfa ← b innerStart innerEnd nfa
    let nfa := nfa.addEpsilonTransition start innerStart
    let nfa := nfa.addEpsilonTransition innerEnd end_
    buildAlternative bs start end_ nfa

mutual
/-- `build_nfa_from_pattern` — lapex-lexer/src/nfa/mod.rs:54-178. -/
def buildNfaFromPattern (alphabet : Alphabet) : Pattern → Builder
  | .sequence elements => fun start end_ nfa =>
    if elements.isEmpty then .ok nfa
    else do
      let (nfa, _) ← chainPatternIterator (buildNfaFromPatterns alphabet elements) start end_ nfa
      .ok nfa
  | .alternative elements => buildAlternative (buildNfaFromPatterns alphabet elements)
  | .repetition min max inner => buildRepetition min max (buildNfaFromPattern alphabet inner)
  | .charSet chars negated => buildCharSet alphabet chars negated
  | .char chars => buildChar alphabet chars
/-- the build calls for a list of sub-patterns (iterated at lapex-lexer/src/nfa/mod.rs:64 and 68). -/
def buildNfaFromPatterns (alphabet : Alphabet) : List Pattern → List Builder
  | [] => []
  | p :: ps => buildNfaFromPattern alphabet p :: buildNfaFromPatterns alphabet ps
end

/-- the loop of lapex-lexer/src/nfa/mod.rs:187-203 from rule number `i` on. -/
def generateNfaLoop (alphabet : Alphabet) (start : Nat) : Nat → List TokenRule → LexNfa → Res LexNfa
  | _, [], nfa => .ok nfa
  | i, rule :: rules, nfa => do
    let (nfa, ruleStart) := nfa.addIntermediateState
    let (nfa, ruleEnd) := nfa.addAcceptingState i
    let nfa := nfa.addEpsilonTransition start ruleStart
    let nfa ← buildNfaFromPattern alphabet rule.toPattern ruleStart ruleEnd nfa
    generateNfaLoop alphabet start (i + 1) rules nfa

/-- `generate_nfa` — lapex-lexer/src/nfa/mod.rs:180-205. Returns the start state and the automaton. -/
def generateNfa (alphabet : Alphabet) (rules : List TokenRule) : Res (Nat × LexNfa) := do
  let (nfa, start) := ({} : LexNfa).addIntermediateState
  let nfa ← generateNfaLoop alphabet start 0 rules nfa
  .ok (start, nfa)

end Verif
