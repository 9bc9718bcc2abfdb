import Verif.Model.First

/-!
# LR table generation: `lapex-parser/src/lr_parser/{item,mod}.rs`

The const generic `N` (0 for LR(0), 1 for LR(1) and LALR) is visible in the items: their lookahead is `none` for `N = 0` and `some x`
for `N = 1`. `N > 1` (a panic in Rust, never instantiated) is not modelled. Rules are identified by their position in `Grammar::rules`
(Rust compares their addresses, the rules are consecutive in one `Vec`), the entry rule is `none`; in Rust the entry rule's address may
also be the largest, which changes only the order in which items are listed (`Verif.Model.Layout`, C70). Graph node numbers are unbounded (`u32` in petgraph).
-/

set_option autoImplicit false

namespace Verif

/-- a rule reference: `none` is the entry rule, `some i` the rule number `i` — lapex-parser/src/lr_parser/item.rs:13-58. -/
abbrev RuleIdx := Option Nat

/-- right side of a rule -/
def ruleRhs (g : Grammar) : RuleIdx → List Sym
  | none => [g.entry]
  | some i => ((g.rules[i]?).map (·.rhs)).getD []

/-- `Rule::lhs` of a rule reference -/
def ruleLhs (g : Grammar) : RuleIdx → Option Nat
  | none => none
  | some i => (g.rules[i]?).map (·.lhs)

/-- `struct Item` — lapex-parser/src/lr_parser/item.rs:60-65. -/
structure Item where
  rule : RuleIdx
  dot : Nat
  la : Option Sym
deriving DecidableEq, Repr

/-- the derived `Ord` of `Item`: rule, dot, lookahead. -/
def Item.toKey (it : Item) : List Nat :=
  (match it.rule with | none => 0 | some i => i + 1) :: it.dot :: (match it.la with | none => [] | some s => Sym.toKey s)

instance : Key Item where
  key := Item.toKey
  inj := by
    rintro ⟨r, d, l⟩ ⟨r', d', l'⟩ h
    simp only [Item.toKey, List.cons.injEq] at h
    obtain ⟨h1, h2, h3⟩ := h
    have : r = r' := by cases r <;> cases r' <;> simp_all
    subst this h2
    congr 1
    cases l with
    | none => cases l' with
      | none => rfl
      | some s => cases s <;> simp [Sym.toKey] at h3
    | some s => cases l' with
      | none => cases s <;> simp [Sym.toKey] at h3
      | some s' => exact congrArg some (Key.inj (α := Sym) s s' h3)

/-- `to_lr0` — lapex-parser/src/lr_parser/item.rs:130-136. -/
def Item.toLr0 (it : Item) : Item := ⟨it.rule, it.dot, none⟩

/-- `symbol_after_dot` — lapex-parser/src/lr_parser/item.rs:148-157. -/
def Item.after (g : Grammar) (it : Item) : Option Sym := (ruleRhs g it.rule)[it.dot]?

/-- number of values of the dot position's type `u8` -/
def u8Size : Nat := 256

/-- `advance_dot` — lapex-parser/src/lr_parser/item.rs:168-175; panics when the `u8` position overflows. -/
def Item.advance (g : Grammar) (it : Item) : Res Item :=
  if it.dot < (ruleRhs g it.rule).length then
    if it.dot + 1 < u8Size then .ok { it with dot := it.dot + 1 } else .error .panic
  else .ok it

/-- `while let Some(Epsilon) = item.symbol_after_dot() { item.advance_dot(); }` — lapex-parser/src/lr_parser/mod.rs:60-62; the list is the
right side from the dot on. -/
def skipEps : List Sym → Item → Res Item
  | .eps :: rest, it => if it.dot + 1 < u8Size then skipEps rest { it with dot := it.dot + 1 } else .error .panic
  | _, it => .ok it

/-- `determine_lookaheads_to_expand` — lapex-parser/src/lr_parser/mod.rs:76-106 (both item arguments are the same item). -/
def lookaheads (g : Grammar) (fs : SymSets) (it : Item) : Res (List (Option Sym)) :=
  if u8Size ≤ it.dot + 1 then .error .panic
  else
    match it.la with
    | none => .ok [none]
    | some a =>
      match (ruleRhs g it.rule)[it.dot + 1]? with
      | some (.t b) => .ok [some (.t b)]
      | some (.nt _) => do
        let f ← firstOfSeq ((ruleRhs g it.rule).drop (it.dot + 1) ++ [a]) fs
        .ok (f.map some)
      | some _ => .error .panic
      | none => .ok [some a]

/-- `rules_map.get(symbol)` — lapex-parser/src/lr_parser/mod.rs:236-248: the numbers of the rules with this left side, in order. -/
def rulesFor (g : Grammar) : Sym → List Nat
  | .nt A => (List.range g.rules.length).filter (fun i => ruleLhs g (some i) = some A)
  | _ => []

/-- adding one new item to the set and the stack — lapex-parser/src/lr_parser/mod.rs:59-66. -/
def closureAdd (g : Grammar) (i : Nat) (st : List Item × List Item) (la : Option Sym) : Res (List Item × List Item) := do
  let it ← skipEps (ruleRhs g (some i)) ⟨some i, 0, la⟩
  if st.1.contains it then .ok st else .ok (sinsert it st.1, it :: st.2)

/-- one rule of the loop — lapex-parser/src/lr_parser/mod.rs:54-68. -/
def expandRule (g : Grammar) (fs : SymSets) (top : Item) (st : List Item × List Item) (i : Nat) : Res (List Item × List Item) := do
  let las ← lookaheads g fs top
  las.foldlM (closureAdd g i) st

/-- one iteration — lapex-parser/src/lr_parser/mod.rs:51-70. -/
def expandTop (g : Grammar) (fs : SymSets) (top : Item) (st : List Item × List Item) : Res (List Item × List Item) :=
  match top.after g with
  | none => .ok st
  | some X => (rulesFor g X).foldlM (expandRule g fs top) st

/-- the `while` loop — lapex-parser/src/lr_parser/mod.rs:50-71; the stack's top is the head of the list. -/
def expandLoop (g : Grammar) (fs : SymSets) : Nat → List Item → List Item → Res (List Item)
  | _, set, [] => .ok set
  | 0, _, _ :: _ => .error .fuel
  | fuel + 1, set, top :: stack => do
    let st ← expandTop g fs top (set, stack)
    expandLoop g fs fuel st.1 st.2

/-- `expand_item` — lapex-parser/src/lr_parser/mod.rs:39-74. The cache only saves recomputation of the same value and is left out
(it is in `Verif.Model.Layout`). -/
def expandItem (g : Grammar) (fs : SymSets) (fuel : Nat) (it : Item) : Res (List Item) := expandLoop g fs fuel [it] [it]

/-- `get_lr0_core`, `get_hash_lr0_core` — lapex-parser/src/lr_parser/mod.rs:27-37. -/
def lr0Core (items : List Item) : List Item := items.foldl (fun s it => sinsert it.toLr0 s) []

/-- `struct ParserGraph` — lapex-parser/src/lr_parser/mod.rs:108-113. `sets` gives the item set of every node (`state_map`, a
bidirectional map, see `Verif.Model.BidiMap`); `cores` is the hash map from LR(0) cores to nodes, latest insertion first; `edges` are
source, label and target in order of insertion. The entry state is node 0. -/
structure LRGraph where
  sets : List (List Item)
  cores : List (List Item × Nat)
  edges : List (Nat × Sym × Nat)
deriving DecidableEq, Repr

/-- hash map lookup -/
def coreLookup (core : List Item) : List (List Item × Nat) → Option Nat
  | [] => none
  | (c, q) :: l => if c = core then some q else coreLookup core l

/-- `add_state` — lapex-parser/src/lr_parser/mod.rs:125-131. -/
def LRGraph.addState (gr : LRGraph) (set : List Item) : LRGraph × Nat :=
  ({ gr with sets := gr.sets ++ [set], cores := (lr0Core set, gr.sets.length) :: gr.cores }, gr.sets.length)

/-- `get_state` — lapex-parser/src/lr_parser/mod.rs:148-150. -/
def LRGraph.getState (gr : LRGraph) (set : List Item) : Option Nat := gr.sets.findIdx? (fun s => s = set)

/-- `get_state_by_lr0_core` — lapex-parser/src/lr_parser/mod.rs:152-154. -/
def LRGraph.getByCore (gr : LRGraph) (set : List Item) : Option Nat := coreLookup (lr0Core set) gr.cores

/-- `add_transition` — lapex-parser/src/lr_parser/mod.rs:156-163. -/
def LRGraph.addTransition (gr : LRGraph) (q : Nat) (X : Sym) (q' : Nat) : LRGraph := { gr with edges := gr.edges ++ [(q, X, q')] }

/-- the closure of `merge_into_state` — lapex-parser/src/lr_parser/mod.rs:255-264. -/
def mergeItems : List Item → List Item × Bool → List Item × Bool
  | [], st => st
  | it :: its, (set, changed) => mergeItems its (sinsert it set, changed || !set.contains it)

/-- `merge_into_state` and `update_item_set` — lapex-parser/src/lr_parser/mod.rs:137-146, 250-265. -/
def LRGraph.merge (gr : LRGraph) (q : Nat) (set : List Item) : Res (LRGraph × Bool) :=
  match gr.sets[q]? with
  | none => .error .panic
  | some old =>
    let (new, changed) := mergeItems set (old, false)
    .ok ({ gr with sets := gr.sets.set q new, cores := (lr0Core new, q) :: gr.cores }, changed)

/-- one item of the first loop — lapex-parser/src/lr_parser/mod.rs:188-201. -/
def transStep (g : Grammar) (fs : SymSets) (fuel : Nat) (m : List (Sym × List Item)) (it : Item) : Res (List (Sym × List Item)) :=
  match it.after g with
  | none => .ok m
  | some X =>
    match ruleLhs g it.rule with
    | none => .ok m
    | some _ => do
      let it' ← it.advance g
      let set ← expandItem g fs fuel it'
      .ok (minsert X (set.foldl (fun s i => sinsert i s) ((mget? X m).getD [])) m)

/-- the transition map of an item set — lapex-parser/src/lr_parser/mod.rs:186-201. -/
def transitions (g : Grammar) (fs : SymSets) (fuel : Nat) (items : List Item) : Res (List (Sym × List Item)) :=
  items.foldlM (transStep g fs fuel) []

/-- one transition — lapex-parser/src/lr_parser/mod.rs:202-231; the state is the graph and the stack of unprocessed nodes. -/
def linkStep (lalr : Bool) (q : Nat) (st : LRGraph × List Nat) (e : Sym × List Item) : Res (LRGraph × List Nat) :=
  if lalr then
    match st.1.getByCore e.2 with
    | some q' => do
      let (gr, changed) ← st.1.merge q' e.2
      .ok (gr.addTransition q e.1 q', if changed then q' :: st.2 else st.2)
    | none =>
      let (gr, q') := st.1.addState e.2
      .ok (gr.addTransition q e.1 q', q' :: st.2)
  else
    match st.1.getState e.2 with
    | some q' => .ok (st.1.addTransition q e.1 q', st.2)
    | none =>
      let (gr, q') := st.1.addState e.2
      .ok (gr.addTransition q e.1 q', q' :: st.2)

/-- one iteration — lapex-parser/src/lr_parser/mod.rs:184-232. -/
def processState (g : Grammar) (fs : SymSets) (fuel : Nat) (lalr : Bool) (q : Nat) (st : LRGraph × List Nat) : Res (LRGraph × List Nat) :=
  match st.1.sets[q]? with
  | none => .error .panic
  | some items => do
    let ts ← transitions g fs fuel items
    ts.foldlM (linkStep lalr q) st

/-- the `while` loop — lapex-parser/src/lr_parser/mod.rs:184-232. -/
def graphLoop (g : Grammar) (fs : SymSets) (cfuel : Nat) (lalr : Bool) : Nat → LRGraph → List Nat → Res LRGraph
  | _, gr, [] => .ok gr
  | 0, _, _ :: _ => .error .fuel
  | fuel + 1, gr, q :: work => do
    let st ← processState g fs cfuel lalr q (gr, work)
    graphLoop g fs cfuel lalr fuel st.1 st.2

/-- the number of lookahead symbols, `N`, and the flag `lalr` -/
inductive LRKind where
  | lr0
  | lr1
  | lalr
deriving DecidableEq, Repr

/-- `N > 0` -/
def LRKind.hasLa : LRKind → Bool
  | .lr0 => false
  | _ => true

/-- the lookahead `[Symbol::End; N]` -/
def LRKind.endLa : LRKind → Option Sym
  | .lr0 => none
  | _ => some .eof

/-- the argument `lalr` -/
def LRKind.isLalr : LRKind → Bool
  | .lalr => true
  | _ => false

/-- `generate_parser_graph` — lapex-parser/src/lr_parser/mod.rs:166-234. `cfuel` bounds the closure loops, `fuel` the main loop. -/
def generateGraph (g : Grammar) (fs : SymSets) (kind : LRKind) (cfuel fuel : Nat) : Res LRGraph := do
  let set ← expandItem g fs cfuel ⟨none, 0, kind.endLa⟩
  let (gr, q) := LRGraph.addState ⟨[], [], []⟩ set
  graphLoop g fs cfuel kind.isLalr fuel gr [q]

/-- `enum Conflict` — lapex-parser/src/lr_parser/mod.rs:267-278. -/
inductive Conflict where
  | shiftReduce (state : Nat) (item : Item) (sym : Sym)
  | reduceReduce (state : Nat) (items : List Item)
deriving DecidableEq, Repr

instance : Key (Option Sym) where
  key := fun | none => [] | some s => Sym.toKey s
  inj := by
    intro a b h
    cases a with
    | none => cases b with
      | none => rfl
      | some s => cases s <;> simp [Sym.toKey] at h
    | some s => cases b with
      | none => cases s <;> simp [Sym.toKey] at h
      | some s' => exact congrArg some (Key.inj (α := Sym) s s' h)

/-- completed items by lookahead — lapex-parser/src/lr_parser/mod.rs:285-293. -/
def reducing (g : Grammar) (items : List Item) : List (Option Sym × List Item) :=
  items.foldl (fun m it => if it.after g = none then mpush it.la it m else m) []

/-- conflicts for one lookahead — lapex-parser/src/lr_parser/mod.rs:294-330. petgraph lists outgoing edges latest first; the result goes
into a set, so the order is not modelled. -/
def conflictsFor (gr : LRGraph) (q : Nat) (e : Option Sym × List Item) : List Conflict :=
  match e.2 with
  | [] => []
  | [it] =>
    (gr.edges.filter (fun x => x.1 = q)).filterMap fun x =>
      match e.1 with
      | some a => if a = x.2.1 then some (.shiftReduce q it.toLr0 x.2.1) else none
      | none => some (.shiftReduce q it.toLr0 x.2.1)
  | its => [.reduceReduce q (its.map Item.toLr0)]

/-- `find_conflicts` — lapex-parser/src/lr_parser/mod.rs:280-333. Rust collects into a `BTreeSet`; here the list may have repetitions and
is in order of nodes. -/
def findConflicts (g : Grammar) (gr : LRGraph) : List Conflict :=
  gr.sets.zipIdx.flatMap fun s => (reducing g s.1).flatMap (conflictsFor gr s.2)

/-- `enum TableEntry` — lapex-parser/src/lr_parser/mod.rs:335-341. -/
inductive TableEntry where
  | shift (target : Nat)
  | reduce (rule : RuleIdx)
  | error
  | accept
deriving DecidableEq, Repr

instance : Key (Nat × Sym) where
  key := fun p => p.1 :: Sym.toKey p.2
  inj := by
    rintro ⟨q, s⟩ ⟨q', s'⟩ h
    simp only [List.cons.injEq] at h
    rw [h.1, Key.inj (α := Sym) s s' h.2]

/-- `struct ActionGotoTable` — lapex-parser/src/lr_parser/mod.rs:354-359. -/
structure LRTable where
  entries : List ((Nat × Sym) × List TableEntry)
  stateCount : Nat
  entryState : Nat
deriving DecidableEq, Repr

/-- `get_entry` — lapex-parser/src/lr_parser/mod.rs:370-372. -/
def LRTable.get (tb : LRTable) (q : Nat) (s : Sym) : Option (List TableEntry) := mget? (q, s) tb.entries

/-- `insert_reduce`, `insert_shift`, `insert_error`, `insert_accept` — lapex-parser/src/lr_parser/mod.rs:403-431. -/
def LRTable.push (tb : LRTable) (q : Nat) (s : Sym) (e : TableEntry) : LRTable := { tb with entries := mpush (q, s) e tb.entries }

/-- `symbols` — lapex-parser/src/grammar.rs:177-179. -/
def Grammar.symbols (g : Grammar) : List Sym := g.terminals ++ g.nonTerminals

/-- reduce entries of one item — lapex-parser/src/lr_parser/mod.rs:492-507. -/
def tableItem (g : Grammar) (q : Nat) (tb : LRTable) (it : Item) : LRTable :=
  if it.after g = none then
    match it.la with
    | none => (g.symbols ++ [Sym.eof]).foldl (fun tb s => tb.push q s (.reduce it.rule)) tb
    | some a => tb.push q a (.reduce it.rule)
  else tb

/-- `reachable_states` — lapex-parser/src/lr_parser/mod.rs:508-512: petgraph lists outgoing edges latest first and `collect` keeps the
last, so the oldest edge wins. -/
def edgeTarget (gr : LRGraph) (q : Nat) (s : Sym) : Option Nat :=
  (gr.edges.find? (fun x => x.1 = q ∧ x.2.1 = s)).map (·.2.2)

/-- one symbol — lapex-parser/src/lr_parser/mod.rs:513-525. -/
def tableSymbol (g : Grammar) (gr : LRGraph) (q : Nat) (tb : LRTable) (s : Sym) : LRTable :=
  if s = g.entry ∧ q = tb.entryState then tb.push q s .accept
  else
    match edgeTarget gr q s with
    | some q' => tb.push q s (.shift q')
    | none => if tb.get q s = none then tb.push q s .error else tb

/-- one state — lapex-parser/src/lr_parser/mod.rs:491-526. -/
def tableState (g : Grammar) (gr : LRGraph) (tb : LRTable) (s : List Item × Nat) : LRTable :=
  g.symbols.foldl (tableSymbol g gr s.2) (s.1.foldl (tableItem g s.2) tb)

/-- `build_table` — lapex-parser/src/lr_parser/mod.rs:482-528. Rust visits the states in the order of their item sets, here in the order
of their numbers; entries of different states do not interact. -/
def buildTable (g : Grammar) (gr : LRGraph) : LRTable :=
  gr.sets.zipIdx.foldl (tableState g gr) ⟨[], gr.sets.length, 0⟩

/-- `enum GenerationResult` — lapex-parser/src/lr_parser/mod.rs:448-455. -/
inductive GenResult where
  | noConflicts (table : LRTable)
  | allowedConflicts (table : LRTable) (conflicts : List Conflict)
  | badConflicts (conflicts : List Conflict)
deriving DecidableEq, Repr

/-- the FIRST sets, computed only when `N > 0` — lapex-parser/src/lr_parser/mod.rs:462-466. -/
def lrFirstSets (g : Grammar) (kind : LRKind) (fuel : Nat) : Res SymSets := if kind.hasLa then computeFirstSets g fuel else .ok []

/-- `generate_table` — lapex-parser/src/lr_parser/mod.rs:457-480. `fuel` bounds every loop. -/
def generateTable (g : Grammar) (allow : Bool) (kind : LRKind) (fuel : Nat) : Res GenResult := do
  let fs ← lrFirstSets g kind fuel
  let gr ← generateGraph g fs kind fuel fuel
  let conflicts := findConflicts g gr
  if !allow && !conflicts.isEmpty then .ok (.badConflicts conflicts)
  else if conflicts.isEmpty then .ok (.noConflicts (buildTable g gr))
  else .ok (.allowedConflicts (buildTable g gr) conflicts)

end Verif
