import Verif.Model.LR

/-!
# The two-way map: `lapex-parser/src/lr_parser/bidimap.rs`

The order in which `BTreeMap` keeps its entries only affects the order of iteration and is not modelled. `Rc` is modelled by identities: two `Rc`s share an allocation
when they have the same identity, and `Rc::try_unwrap` succeeds when no other `Rc` with the identity is left in the two maps.
-/

set_option autoImplicit false

namespace Verif

/-- `Rc<T>` -/
structure Rc (α : Type) where
  id : Nat
  val : α
deriving DecidableEq, Repr

section maps
variable {α β : Type} [DecidableEq α]

/-- `BTreeMap::get` -/
def rcGet? (k : α) : List (Rc α × β) → Option β
  | [] => none
  | (k', v) :: l => if k'.val = k then some v else rcGet? k l

/-- `BTreeMap::insert`: the key of an existing entry is kept -/
def rcInsert (k : Rc α) (v : β) : List (Rc α × β) → List (Rc α × β)
  | [] => [(k, v)]
  | (k', v') :: l => if k'.val = k.val then (k', v) :: l else (k', v') :: rcInsert k v l

/-- `BTreeMap::remove` -/
def rcRemove (k : α) (l : List (Rc α × β)) : List (Rc α × β) := l.filter (fun e => e.1.val ≠ k)

end maps

/-- `struct BidiMap` — lapex-parser/src/lr_parser/bidimap.rs:5-8; `next` is the next unused identity. -/
structure BidiMap (A B : Type) where
  ab : List (Rc A × Rc B)
  ba : List (Rc B × Rc A)
  next : Nat
deriving DecidableEq, Repr

namespace BidiMap
variable {A B : Type} [DecidableEq A] [DecidableEq B]

/-- `BidiMap::new` — lapex-parser/src/lr_parser/bidimap.rs:17-22. -/
def new : BidiMap A B := ⟨[], [], 0⟩

/-- `BidiMap::insert` — lapex-parser/src/lr_parser/bidimap.rs:24-29. -/
def insert (a : A) (b : B) (m : BidiMap A B) : BidiMap A B :=
  ⟨rcInsert ⟨m.next, a⟩ ⟨m.next, b⟩ m.ab, rcInsert ⟨m.next, b⟩ ⟨m.next, a⟩ m.ba, m.next + 1⟩

/-- `BidiMap::get_a_to_b` — lapex-parser/src/lr_parser/bidimap.rs:31-33. -/
def getAToB (m : BidiMap A B) (a : A) : Option B := (rcGet? a m.ab).map (·.val)

/-- `BidiMap::get_b_to_a` — lapex-parser/src/lr_parser/bidimap.rs:35-37. -/
def getBToA (m : BidiMap A B) (b : B) : Option A := (rcGet? b m.ba).map (·.val)

/-- whether `Rc::try_unwrap` succeeds for an `Rc` taken out of the maps -/
def unwraps {α β : Type} (r : Rc α) (keys : List (Rc α × Rc β)) (vals : List (Rc β × Rc α)) : Bool :=
  keys.all (fun e => e.1.id ≠ r.id) && vals.all (fun e => e.2.id ≠ r.id)

/-- `BidiMap::remove_by_b` — lapex-parser/src/lr_parser/bidimap.rs:39-51. -/
def removeByB (m : BidiMap A B) (b : B) : Res (Option (A × B) × BidiMap A B) :=
  match rcGet? b m.ba with
  | none => .ok (none, m)
  | some aRc =>
    let ba := rcRemove b m.ba
    match rcGet? aRc.val m.ab with
    | none => .ok (none, { m with ba := ba })
    | some bRc =>
      let ab := rcRemove aRc.val m.ab
      match unwraps aRc ab ba, unwraps bRc ba ab with
      | true, true => .ok (some (aRc.val, bRc.val), { m with ab := ab, ba := ba })
      | false, false => .ok (none, { m with ab := rcInsert aRc bRc ab, ba := rcInsert bRc aRc ba })
      | _, _ => .error .panic

/-- `BidiMap::iter` — lapex-parser/src/lr_parser/bidimap.rs:53-55. -/
def iter (m : BidiMap A B) : List (A × B) := m.ab.map (fun e => (e.1.val, e.2.val))

end BidiMap

/-! ## The parser graph with its two-way map -/

/-- `struct ParserGraph` — lapex-parser/src/lr_parser/mod.rs:108-113. As `LRGraph`, but with the two-way map between item sets and nodes of the code;
`nodes` is the number of nodes of `graph`. -/
structure MapGraph where
  map : BidiMap (List Item) Nat
  cores : List (List Item × Nat)
  nodes : Nat
  edges : List (Nat × Sym × Nat)

/-- `add_state` — lapex-parser/src/lr_parser/mod.rs:125-131. -/
def MapGraph.addState (gr : MapGraph) (set : List Item) : MapGraph × Nat :=
  ({ gr with nodes := gr.nodes + 1, cores := (lr0Core set, gr.nodes) :: gr.cores, map := gr.map.insert set gr.nodes }, gr.nodes)

/-- `get_item_set` — lapex-parser/src/lr_parser/mod.rs:133-135. -/
def MapGraph.getItemSet (gr : MapGraph) (q : Nat) : Option (List Item) := gr.map.getBToA q

/-- `merge_into_state` and `update_item_set` — lapex-parser/src/lr_parser/mod.rs:137-146, 250-265, and the `unwrap` at 210. -/
def MapGraph.merge (gr : MapGraph) (q : Nat) (set : List Item) : Res (MapGraph × Bool) := do
  match ← gr.map.removeByB q with
  | (none, _) => .error .panic
  | (some (old, q'), map) =>
    let (new, changed) := mergeItems set (old, false)
    .ok ({ gr with map := map.insert new q', cores := (lr0Core new, q') :: gr.cores }, changed)

/-- `get_state` — lapex-parser/src/lr_parser/mod.rs:148-150. -/
def MapGraph.getState (gr : MapGraph) (set : List Item) : Option Nat := gr.map.getAToB set

/-- `get_state_by_lr0_core` — lapex-parser/src/lr_parser/mod.rs:152-154. -/
def MapGraph.getByCore (gr : MapGraph) (set : List Item) : Option Nat := coreLookup (lr0Core set) gr.cores

/-- `add_transition` — lapex-parser/src/lr_parser/mod.rs:156-163. -/
def MapGraph.addTransition (gr : MapGraph) (q : Nat) (X : Sym) (q' : Nat) : MapGraph := { gr with edges := gr.edges ++ [(q, X, q')] }

/-- one transition — lapex-parser/src/lr_parser/mod.rs:202-231. -/
def mapLinkStep (lalr : Bool) (q : Nat) (st : MapGraph × List Nat) (e : Sym × List Item) : Res (MapGraph × List Nat) :=
  if lalr then
    match st.1.getByCore e.2 with
    | some q' => do
      let (gr, changed) ← st.1.merge q' e.2
      .ok (gr.addTransition q e.1 q', if changed then q' :: st.2 else st.2)
    | none =>
      let (gr, q') := st.1.addState e.2
      .ok (gr.addTransition q e.1 q', q' :: st.2)
  else
    match st.1.getState e.2 with
    | some q' => .ok (st.1.addTransition q e.1 q', st.2)
    | none =>
      let (gr, q') := st.1.addState e.2
      .ok (gr.addTransition q e.1 q', q' :: st.2)

/-- one iteration — lapex-parser/src/lr_parser/mod.rs:184-232. -/
def mapProcessState (g : Grammar) (fs : SymSets) (fuel : Nat) (lalr : Bool) (q : Nat) (st : MapGraph × List Nat) : Res (MapGraph × List Nat) :=
  match st.1.getItemSet q with
  | none => .error .panic
  | some items => do
    let ts ← transitions g fs fuel items
    ts.foldlM (mapLinkStep lalr q) st

/-- the `while` loop — lapex-parser/src/lr_parser/mod.rs:184-232. -/
def mapGraphLoop (g : Grammar) (fs : SymSets) (cfuel : Nat) (lalr : Bool) : Nat → MapGraph → List Nat → Res MapGraph
  | _, gr, [] => .ok gr
  | 0, _, _ :: _ => .error .fuel
  | fuel + 1, gr, q :: work => do
    let st ← mapProcessState g fs cfuel lalr q (gr, work)
    mapGraphLoop g fs cfuel lalr fuel st.1 st.2

/-- `generate_parser_graph` — lapex-parser/src/lr_parser/mod.rs:166-234. -/
def generateMapGraph (g : Grammar) (fs : SymSets) (kind : LRKind) (cfuel fuel : Nat) : Res MapGraph := do
  let set ← expandItem g fs cfuel ⟨none, 0, kind.endLa⟩
  let (gr, q) := MapGraph.addState ⟨.new, [], 0, []⟩ set
  mapGraphLoop g fs cfuel kind.isLalr fuel gr [q]

end Verif
