import Verif.Model.Grammar

/-!
# FIRST sets: `lapex-parser/src/util.rs`

`BTreeMap<Symbol, BTreeSet<Symbol>>` is a sorted association list of sorted lists. `unwrap()` of a missing map entry is an explicit
panic. The `loop` of `compute_first_sets` takes fuel.
-/

set_option autoImplicit false

namespace Verif

/-- `BTreeMap<Symbol, BTreeSet<Symbol>>` -/
abbrev SymSets := List (Sym × List Sym)

/-- the inner `for first_symbol in first_set_for_symbol` — lapex-parser/src/util.rs:31-35. -/
def insertNonEps (res : List Sym) : List Sym → List Sym
  | [] => res
  | s :: ss => insertNonEps (if s ≠ .eps then sinsert s res else res) ss

/-- the loop of `get_first_terminals_of_sequence` — lapex-parser/src/util.rs:16-46; `res` is `result_set`, the argument the rest of the
sequence. -/
def firstLoop (fs : SymSets) : List Sym → List Sym → Res (List Sym)
  | res, [] => .ok res
  | res, .eof :: _ => .ok (sinsert .eof res)
  | res, .t a :: _ => .ok (sinsert (.t a) res)
  | res, .eps :: rest => firstLoop fs (if rest.isEmpty then sinsert .eps res else res) rest
  | res, .nt A :: rest =>
    match mget? (Sym.nt A) fs with
    | none => .error .panic
    | some set =>
      let res := insertNonEps res set
      if set.contains .eps then firstLoop fs (if rest.isEmpty then sinsert .eps res else res) rest
      else .ok res

/-- `get_first_terminals_of_sequence` — lapex-parser/src/util.rs:5-47. -/
def firstOfSeq (seq : List Sym) (fs : SymSets) : Res (List Sym) := firstLoop fs [] seq

/-- inserting symbols into one set, remembering whether something was new — lapex-parser/src/util.rs:61-64. -/
def insertTracked : List Sym → List Sym × Bool → List Sym × Bool
  | [], st => st
  | s :: ss, (set, any) => insertTracked ss (sinsert s set, any || !set.contains s)

/-- one rule of the loop body — lapex-parser/src/util.rs:59-64. -/
def firstStep (st : SymSets × Bool) (r : Rule) : Res (SymSets × Bool) := do
  let f ← firstOfSeq r.rhs st.1
  match mget? (Sym.nt r.lhs) st.1 with
  | none => .error .panic
  | some set =>
    let (set, any) := insertTracked f (set, st.2)
    .ok (minsert (Sym.nt r.lhs) set st.1, any)

/-- the initial empty sets — lapex-parser/src/util.rs:51-54. -/
def emptySets (g : Grammar) : SymSets := g.nonTerminals.foldl (fun fs s => minsert s [] fs) []

/-- the `loop` — lapex-parser/src/util.rs:56-70. -/
def firstSetsLoop (g : Grammar) : Nat → SymSets → Res SymSets
  | 0, _ => .error .fuel
  | fuel + 1, fs => do
    let (fs, any) ← g.rules.foldlM firstStep (fs, false)
    if any then firstSetsLoop g fuel fs else .ok fs

/-- `compute_first_sets` — lapex-parser/src/util.rs:49-73. -/
def computeFirstSets (g : Grammar) (fuel : Nat) : Res SymSets := firstSetsLoop g fuel (emptySets g)

end Verif
