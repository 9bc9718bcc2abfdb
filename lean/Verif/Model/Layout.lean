import Verif.Model.BidiMap

/-!
# LR table generation with everything that differs from run to run: `lapex-parser/src/lr_parser/mod.rs`

`Verif.Model.LR` fixes three things that the code leaves to the run: the order in which a `HashSet` of items is iterated (Rust seeds the hash function anew in every
process), whether the entry rule lies before or after the other rules in memory (`RuleRef` compares addresses, the other rules are consecutive in one `Vec`), and the order
in which `state_map` lists the states (it follows the order of the items). Here they are parameters. The hash maps `item_set_cache` and `rules_map`, which
`Verif.Model.LR` leaves out, are modelled too; they are only looked up, so their order plays no role. Conflicts go into an ordered set as in the code. The two-way map is the
subject of `Verif.Model.BidiMap`; here node `q` simply has an item set, as in `Verif.Model.LR`.
-/

set_option autoImplicit false

namespace Verif

/-- what a run of the program leaves open: whether the entry rule's address is larger than those of the other rules, the order of iteration over a hash set of items (it may
depend on everything that happened before) and the order in which the states are visited -/
structure Layout where
  entryLast : Bool
  iter : LRGraph → Sym → List Item → List Item
  visit : LRGraph → List (List Item × Nat)

/-- the address of a rule, as far as comparisons can see: `1` and the position for the rules of the `Vec` — lapex-parser/src/lr_parser/item.rs:42-52. -/
def Layout.address (lay : Layout) : RuleIdx → List Nat
  | none => [if lay.entryLast then 2 else 0, 0]
  | some i => [1, i]

/-- the order of lookaheads `[Symbol; N]` -/
def laKey : Option Sym → List Nat
  | none => []
  | some s => Sym.toKey s

/-- the derived `Ord` of `Item`: rule, dot, lookahead — lapex-parser/src/lr_parser/item.rs:60-65. -/
def Layout.itemKey (lay : Layout) (it : Item) : List Nat := lay.address it.rule ++ it.dot :: laKey it.la

/-- the order of items in this run -/
@[implicit_reducible] def Layout.keyed (lay : Layout) : Key Item where
  key := lay.itemKey
  inj := by
    rintro ⟨r, d, l⟩ ⟨r', d', l'⟩ h
    have hr : r = r' ∧ d = d' ∧ laKey l = laKey l' := by
      simp only [Layout.itemKey] at h
      cases r <;> cases r' <;> simp only [Layout.address] at h <;> (try split at h) <;> simp_all
    obtain ⟨rfl, rfl, h3⟩ := hr
    congr 1
    cases l with
    | none => cases l' with
      | none => rfl
      | some s => cases s <;> simp [laKey, Sym.toKey] at h3
    | some s => cases l' with
      | none => cases s <;> simp [laKey, Sym.toKey] at h3
      | some s' => exact congrArg some (Key.inj (α := Sym) s s' h3)

/-- `BTreeSet<Item>::insert` in this run -/
def Layout.insert (lay : Layout) (it : Item) (s : List Item) : List Item := @sinsert Item lay.keyed it s

/-- `collect` into a `BTreeSet<Item>` -/
def Layout.collect (lay : Layout) (l : List Item) : List Item := l.foldl (fun s it => lay.insert it s) []

/-- hash map lookup -/
def hashGet? {α β : Type} [DecidableEq α] (k : α) : List (α × β) → Option β
  | [] => none
  | (k', v) :: l => if k' = k then some v else hashGet? k l

/-- `rules_map.entry(lhs).or_insert(Vec::new()).push(rule)` -/
def hashPush {α β : Type} [DecidableEq α] (k : α) (v : β) : List (α × List β) → List (α × List β)
  | [] => [(k, [v])]
  | (k', vs) :: l => if k' = k then (k', vs ++ [v]) :: l else (k', vs) :: hashPush k v l

/-- `HashSet::insert`: the elements in some order -/
def hashInsert (it : Item) (s : List Item) : List Item := if s.contains it then s else it :: s

/-- the closure of `build_rules_map` — lapex-parser/src/lr_parser/mod.rs:243-246. -/
def rulesMapStep (g : Grammar) (m : List (Sym × List Nat)) (i : Nat) : List (Sym × List Nat) :=
  match ruleLhs g (some i) with
  | none => m
  | some A => hashPush (Sym.nt A) i m

/-- `build_rules_map` — lapex-parser/src/lr_parser/mod.rs:236-248. -/
def rulesMap (g : Grammar) : List (Sym × List Nat) := (List.range g.rules.length).foldl (rulesMapStep g) []

/-- adding one new item to the set and the stack — lapex-parser/src/lr_parser/mod.rs:59-66. -/
def laidAdd (lay : Layout) (g : Grammar) (i : Nat) (st : List Item × List Item) (la : Option Sym) : Res (List Item × List Item) := do
  let it ← skipEps (ruleRhs g (some i)) ⟨some i, 0, la⟩
  if st.1.contains it then .ok st else .ok (lay.insert it st.1, it :: st.2)

/-- one rule of the loop — lapex-parser/src/lr_parser/mod.rs:54-68. -/
def laidRule (lay : Layout) (g : Grammar) (fs : SymSets) (top : Item) (st : List Item × List Item) (i : Nat) : Res (List Item × List Item) := do
  let las ← lookaheads g fs top
  las.foldlM (laidAdd lay g i) st

/-- one iteration — lapex-parser/src/lr_parser/mod.rs:51-70. -/
def laidTop (lay : Layout) (g : Grammar) (fs : SymSets) (rm : List (Sym × List Nat)) (top : Item) (st : List Item × List Item) : Res (List Item × List Item) :=
  match top.after g with
  | none => .ok st
  | some X =>
    match hashGet? X rm with
    | none => .ok st
    | some rules => rules.foldlM (laidRule lay g fs top) st

/-- the `while` loop — lapex-parser/src/lr_parser/mod.rs:50-71. -/
def laidExpandLoop (lay : Layout) (g : Grammar) (fs : SymSets) (rm : List (Sym × List Nat)) : Nat → List Item → List Item → Res (List Item)
  | _, set, [] => .ok set
  | 0, _, _ :: _ => .error .fuel
  | fuel + 1, set, top :: stack => do
    let st ← laidTop lay g fs rm top (set, stack)
    laidExpandLoop lay g fs rm fuel st.1 st.2

/-- the hash map from items to their closures -/
abbrev ItemCache := List (Item × List Item)

/-- `expand_item` — lapex-parser/src/lr_parser/mod.rs:39-74. -/
def laidExpand (lay : Layout) (g : Grammar) (fs : SymSets) (rm : List (Sym × List Nat)) (fuel : Nat) (it : Item) (cache : ItemCache) : Res (List Item × ItemCache) :=
  match hashGet? it cache with
  | some set => .ok (set, cache)
  | none => do
    let set ← laidExpandLoop lay g fs rm fuel [it] [it]
    .ok (set, (it, set) :: cache)

/-- `get_lr0_core`, `get_hash_lr0_core` — lapex-parser/src/lr_parser/mod.rs:27-37; the items in the order of iteration. -/
def laidCore (lay : Layout) (items : List Item) : List Item := lay.collect (items.map Item.toLr0)

/-- `add_state` — lapex-parser/src/lr_parser/mod.rs:125-131. -/
def laidAddState (lay : Layout) (gr : LRGraph) (set : List Item) : LRGraph × Nat :=
  ({ gr with sets := gr.sets ++ [set], cores := (laidCore lay set, gr.sets.length) :: gr.cores }, gr.sets.length)

/-- the closure of `merge_into_state` — lapex-parser/src/lr_parser/mod.rs:255-264. -/
def laidMergeItems (lay : Layout) : List Item → List Item × Bool → List Item × Bool
  | [], st => st
  | it :: its, (set, changed) => laidMergeItems lay its (lay.insert it set, changed || !set.contains it)

/-- `merge_into_state` and `update_item_set` — lapex-parser/src/lr_parser/mod.rs:137-146, 250-265. -/
def laidMerge (lay : Layout) (gr : LRGraph) (q : Nat) (set : List Item) : Res (LRGraph × Bool) :=
  match gr.sets[q]? with
  | none => .error .panic
  | some old =>
    let (new, changed) := laidMergeItems lay set (old, false)
    .ok ({ gr with sets := gr.sets.set q new, cores := (laidCore lay new, q) :: gr.cores }, changed)

/-- one item of the first loop — lapex-parser/src/lr_parser/mod.rs:188-201; the state is the transition map, whose values are hash sets, and the cache. -/
def laidTransStep (lay : Layout) (g : Grammar) (fs : SymSets) (rm : List (Sym × List Nat)) (fuel : Nat) (st : List (Sym × List Item) × ItemCache) (it : Item) :
    Res (List (Sym × List Item) × ItemCache) :=
  match it.after g with
  | none => .ok st
  | some X =>
    match ruleLhs g it.rule with
    | none => .ok st
    | some _ => do
      let it' ← it.advance g
      let (set, cache) ← laidExpand lay g fs rm fuel it' st.2
      .ok (minsert X (set.foldl (fun s i => hashInsert i s) ((mget? X st.1).getD [])) st.1, cache)

/-- one transition — lapex-parser/src/lr_parser/mod.rs:202-231; `e.2` is a hash set. -/
def laidLinkStep (lay : Layout) (lalr : Bool) (q : Nat) (st : LRGraph × List Nat) (e : Sym × List Item) : Res (LRGraph × List Nat) :=
  let items := lay.iter st.1 e.1 e.2
  if lalr then
    match coreLookup (laidCore lay items) st.1.cores with
    | some q' => do
      let (gr, changed) ← laidMerge lay st.1 q' (lay.collect items)
      .ok (gr.addTransition q e.1 q', if changed then q' :: st.2 else st.2)
    | none =>
      let (gr, q') := laidAddState lay st.1 (lay.collect items)
      .ok (gr.addTransition q e.1 q', q' :: st.2)
  else
    match st.1.getState (lay.collect items) with
    | some q' => .ok (st.1.addTransition q e.1 q', st.2)
    | none =>
      let (gr, q') := laidAddState lay st.1 (lay.collect items)
      .ok (gr.addTransition q e.1 q', q' :: st.2)

/-- one iteration — lapex-parser/src/lr_parser/mod.rs:184-232. -/
def laidProcess (lay : Layout) (g : Grammar) (fs : SymSets) (rm : List (Sym × List Nat)) (fuel : Nat) (lalr : Bool) (q : Nat) (cache : ItemCache)
    (st : LRGraph × List Nat) : Res ((LRGraph × List Nat) × ItemCache) :=
  match st.1.sets[q]? with
  | none => .error .panic
  | some items => do
    let (ts, cache) ← items.foldlM (laidTransStep lay g fs rm fuel) ([], cache)
    let st ← ts.foldlM (laidLinkStep lay lalr q) st
    .ok (st, cache)

/-- the `while` loop — lapex-parser/src/lr_parser/mod.rs:184-232. -/
def laidLoop (lay : Layout) (g : Grammar) (fs : SymSets) (rm : List (Sym × List Nat)) (cfuel : Nat) (lalr : Bool) : Nat → ItemCache → LRGraph → List Nat → Res LRGraph
  | _, _, gr, [] => .ok gr
  | 0, _, _, _ :: _ => .error .fuel
  | fuel + 1, cache, gr, q :: work => do
    let st ← laidProcess lay g fs rm cfuel lalr q cache (gr, work)
    laidLoop lay g fs rm cfuel lalr fuel st.2 st.1.1 st.1.2

/-- `generate_parser_graph` — lapex-parser/src/lr_parser/mod.rs:166-234. -/
def laidGraph (lay : Layout) (g : Grammar) (fs : SymSets) (kind : LRKind) (cfuel fuel : Nat) : Res LRGraph := do
  let (set, cache) ← laidExpand lay g fs (rulesMap g) cfuel ⟨none, 0, kind.endLa⟩ []
  let (gr, q) := laidAddState lay ⟨[], [], []⟩ set
  laidLoop lay g fs (rulesMap g) cfuel kind.isLalr fuel cache gr [q]

/-- the derived `Ord` of `Conflict` — lapex-parser/src/lr_parser/mod.rs:267-278; the items have no lookahead, so their keys all have the same length and a list of items
compares as the list of all their numbers, up to the length. -/
def Layout.conflictKey (lay : Layout) : Conflict → List Nat
  | .shiftReduce q it s => 0 :: q :: (lay.itemKey it ++ Sym.toKey s)
  | .reduceReduce q its => 1 :: q :: its.flatMap lay.itemKey

/-- `BTreeSet<Conflict>::insert` -/
def Layout.insertConflict (lay : Layout) (c : Conflict) : List Conflict → List Conflict
  | [] => [c]
  | d :: l =>
    if lay.conflictKey c = lay.conflictKey d then d :: l
    else if lay.conflictKey c < lay.conflictKey d then c :: d :: l
    else d :: lay.insertConflict c l

/-- `find_conflicts` — lapex-parser/src/lr_parser/mod.rs:280-333. -/
def laidConflicts (lay : Layout) (g : Grammar) (gr : LRGraph) : List Conflict :=
  ((lay.visit gr).flatMap fun s => (reducing g s.1).flatMap (conflictsFor gr s.2)).foldl (fun cs c => lay.insertConflict c cs) []

/-- `build_table` — lapex-parser/src/lr_parser/mod.rs:482-528. -/
def laidBuild (lay : Layout) (g : Grammar) (gr : LRGraph) : LRTable := (lay.visit gr).foldl (tableState g gr) ⟨[], gr.sets.length, 0⟩

/-- `generate_table` — lapex-parser/src/lr_parser/mod.rs:457-480. -/
def laidTable (lay : Layout) (g : Grammar) (allow : Bool) (kind : LRKind) (fuel : Nat) : Res GenResult := do
  let fs ← lrFirstSets g kind fuel
  let gr ← laidGraph lay g fs kind fuel fuel
  let conflicts := laidConflicts lay g gr
  if !allow && !conflicts.isEmpty then .ok (.badConflicts conflicts)
  else if conflicts.isEmpty then .ok (.noConflicts (laidBuild lay g gr))
  else .ok (.allowedConflicts (laidBuild lay g gr) conflicts)

end Verif
