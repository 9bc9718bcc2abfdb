import Verif.Spec.RustBlocks
import Verif.Model.Glr

/-!
# What module `gss` in the text of a generated Rust GLR parser means

The methods of `GraphNode`, read as statements and executed on a memory with `Rc<RefCell<…>>` cells. A `GraphNode` is a pair of addresses. The cells of the two types `RefCell<GraphNodeInner>` and
`RefCell<Vec<R>>` are in two lists; `Rc::new(RefCell::new(x))` appends one, `clone` of an `Rc` gives the same address. `borrow` panics when the cell is borrowed mutably, `borrow_mut` when it is borrowed
at all. A borrow in a statement ends with it. Two borrows last longer: the one of `self.neighbors()` in the head of a `for` loop, and the one behind `let neighbors = &mut …`. They are kept in lists until
the function returns. Borrows of lists of visits never last. A variable that is not set is `none`; reading it is a panic, which `rustc` rules out. Freeing memory is not modelled.
-/

set_option autoImplicit false

namespace Verif

/-! ## Execution -/

/-- what expressions and simple statements mean -/
structure SMachine (σ ρ : Type) where
  /-- a condition, which may be `let p = e`: is it met, and the variables then -/
  cond : RForest → σ → Res (Bool × σ)
  /-- the rounds of a `for` loop: how the variables are set in each of them -/
  rounds : RForest → σ → Res (List (σ → σ))
  /-- does the value of an expression match a pattern? If so: the variables after that -/
  hit : RForest → RForest → σ → Res (Option σ)
  /-- effect of a simple statement; it may panic -/
  act : RForest → σ → Res (ROut σ ρ)

variable {σ ρ : Type}

mutual
/-- one statement; `ctx` are the tokens before the value of the block -/
def SMachine.exec (m : SMachine σ ρ) : RForest → DStmt → σ → Res (ROut σ ρ)
  | _, .simple ts, s => m.act ts s
  | ctx, .tail ts, s => m.act (ctx.append ts) s
  | _, .whileDo _ _, _ => .error .panic
  | _, .forDo c b, s =>
    match m.rounds c s with
    | .error e => .error e
    | .ok us => rEach (fun s => m.execs .nil b s) us s
  | ctx, .ifDo before c t e, s =>
    match m.cond c s with
    | .error e => .error e
    | .ok (true, s) => m.execs (before.getD ctx) t s
    | .ok (false, s) => m.execs (before.getD ctx) e s
  | ctx, .choice e arms, s => m.execArms ctx e arms s
  | _, .arm _ _, _ => .error .panic
/-- the statements of a block; the last one gives its value -/
def SMachine.execs (m : SMachine σ ρ) : RForest → List DStmt → σ → Res (ROut σ ρ)
  | _, [], s => .ok (.next s)
  | ctx, [a], s => m.exec ctx a s
  | ctx, a :: b :: ss, s =>
    match m.exec .nil a s with
    | .ok (.next s') => m.execs ctx (b :: ss) s'
    | r => r
/-- the first arm that matches -/
def SMachine.execArms (m : SMachine σ ρ) : RForest → RForest → List DStmt → σ → Res (ROut σ ρ)
  | _, _, [], _ => .error .panic
  | ctx, e, .arm p b :: as, s =>
    match m.hit e p s with
    | .error err => .error err
    | .ok none => m.execArms ctx e as s
    | .ok (some s') => m.execs ctx b s'
  | _, _, _ :: _, _ => .error .panic
end

/-- the statements of a function of module `gss` in a text -/
def gssBody (name : List Char) (text : List Char) : Option (List DStmt) := do
  let f ← rRead text
  let m ← findMod "gss".toList f
  let b ← findFn name .look m
  readD (2 * b.size) b

/-- a call of a function that returns a value -/
def SMachine.call (m : SMachine σ ρ) (text name : List Char) (s : σ) : Res (σ × ρ) :=
  match gssBody name text with
  | none => .error .panic
  | some body =>
    match m.execs (rs! "return") body s with
    | .ok (.ret s' r) => .ok (s', r)
    | .ok (.next _) => .error .panic
    | .error e => .error e

/-- a call of a function that returns nothing -/
def SMachine.callUnit (m : SMachine σ Empty) (text name : List Char) (s : σ) : Res σ :=
  match gssBody name text with
  | none => .error .panic
  | some body =>
    match m.execs .nil body s with
    | .ok (.next s') => .ok s'
    | .ok (.ret s' _) => .ok s'
    | .error e => .error e

/-! ## Memory -/

/-- the cells, and the addresses of node cells with a shared or a mutable borrow that lasts -/
structure GMem (N E R : Type) where
  heap : GHeap N E R
  shared : List Nat := []
  mutated : List Nat := []

variable {N E R : Type}

/-- `borrow` of a node cell -/
def GMem.borrow (m : GMem N E R) (a : Nat) : Res (GInner N E) := if a ∈ m.mutated then .error .panic else .ok ((m.heap.inners[a]?).getD ⟨none, []⟩)

/-- may a node cell be borrowed mutably? -/
def GMem.free (m : GMem N E R) (a : Nat) : Bool := decide (a ∉ m.mutated) && decide (a ∉ m.shared)

/-- another value in a node cell -/
def GMem.write (m : GMem N E R) (a : Nat) (x : GInner N E) : GMem N E R := { m with heap := { m.heap with inners := m.heap.inners.set a x } }

/-- `Rc::new(RefCell::new(GraphNodeInner { … }))` -/
def GMem.newInner (m : GMem N E R) (x : GInner N E) : GMem N E R × Nat := ({ m with heap := { m.heap with inners := m.heap.inners ++ [x] } }, m.heap.inners.length)

/-- `borrow` of a list of visits -/
def GMem.visits (m : GMem N E R) (a : Nat) : List R := (m.heap.recs[a]?).getD []

/-- other visits in a list -/
def GMem.setVisits (m : GMem N E R) (a : Nat) (l : List R) : GMem N E R := { m with heap := { m.heap with recs := m.heap.recs.set a l } }

/-- `Rc::new(RefCell::new(l))` for a list of visits -/
def GMem.newVisits (m : GMem N E R) (l : List R) : GMem N E R × Nat := ({ m with heap := { m.heap with recs := m.heap.recs ++ [l] } }, m.heap.recs.length)

/-! ## The functions -/

/-- a function without conditions and loops -/
def straight (act : RForest → σ → Res (ROut σ ρ)) : SMachine σ ρ where
  cond := fun _ _ => .error .panic
  rounds := fun _ _ => .error .panic
  hit := fun _ _ _ => .error .panic
  act := act

/-- `self.clone_and_fork_record()` -/
def rustFork (text : List Char) (m : GMem N E R) (self : GNode) : Res (GMem N E R × GNode) :=
  (straight fun ts m =>
    if ts = rs! "return GraphNode { inner: self.inner.clone(), recorded: Rc::new(RefCell::new(self.recorded.borrow().clone())), }" then
      .ok (.ret (m.newVisits (m.visits self.recd)).1 ⟨self.inner, (m.newVisits (m.visits self.recd)).2⟩)
    else .error .panic).call text "clone_and_fork_record".toList m

/-- `GraphNode::root()` -/
def rustRoot (text : List Char) (m : GMem N E R) : Res (GMem N E R × GNode) :=
  (straight fun ts m =>
    if ts = rs! "return GraphNode { inner: Rc::new(RefCell::new(GraphNodeInner { node_value: None, neighbors: vec![], })), recorded: Rc::new(RefCell::new(Vec::new())), }" then
      let (m, a) := m.newInner ⟨none, []⟩
      let (m, b) := m.newVisits []
      .ok (.ret m ⟨a, b⟩)
    else .error .panic).call text "root".toList m

/-- `self.new_with_same_record(node_value)` -/
def rustNewNode (text : List Char) (m : GMem N E R) (self : GNode) (value : Option N) : Res (GMem N E R × GNode) :=
  (straight fun ts m =>
    if ts = rs! "return GraphNode { inner: Rc::new(RefCell::new(GraphNodeInner { node_value, neighbors: vec![], })), recorded: self.recorded.clone(), }" then
      let (m, a) := m.newInner ⟨value, []⟩
      .ok (.ret m ⟨a, self.recd⟩)
    else .error .panic).call text "new_with_same_record".toList m

/-- `self.add_edge(value, predecessor)` -/
def rustAddEdge (text : List Char) (m : GMem N E R) (self : GNode) (value : Option E) (predecessor : GNode) : Res (GMem N E R) :=
  (straight fun ts m =>
    if ts = rs! "self.inner.borrow_mut().neighbors.push((value, predecessor))" then
      if m.free self.inner then
        match m.borrow self.inner with
        | .error e => .error e
        | .ok x => .ok (.next (m.write self.inner { x with neighbors := x.neighbors ++ [(value, predecessor)] }))
      else .error .panic
    else .error .panic).callUnit text "add_edge".toList m

/-- `self.is_root()` -/
def rustIsRoot (text : List Char) (m : GMem N E R) (self : GNode) : Res (GMem N E R × Bool) :=
  (straight fun ts m =>
    if ts = rs! "return self.inner.borrow().node_value.is_none()" then
      match m.borrow self.inner with
      | .error e => .error e
      | .ok x => .ok (.ret m x.value.isNone)
    else .error .panic).call text "is_root".toList m

/-- `self.record(record)` -/
def rustRecord (text : List Char) (m : GMem N E R) (self : GNode) (record : R) : Res (GMem N E R) :=
  (straight fun ts m =>
    if ts = rs! "self.recorded.borrow_mut().push(record)" then .ok (.next (m.setVisits self.recd (m.visits self.recd ++ [record])))
    else .error .panic).callUnit text "record".toList m

/-- `self.pop_recorded()`; `split_off(0)` takes all elements out of a list -/
def rustPopRecorded (text : List Char) (m : GMem N E R) (self : GNode) : Res (GMem N E R × List R) :=
  (straight fun ts m =>
    if ts = rs! "return self.recorded.borrow_mut().split_off(0)" then .ok (.ret (m.setVisits self.recd []) (m.visits self.recd))
    else .error .panic).call text "pop_recorded".toList m

/-- `self.push(value, edge)`; the variable is `new_node` -/
def rustPush (text : List Char) (m : GMem N E R) (self : GNode) (value : Option N) (edge : Option E) : Res (GMem N E R × GNode) :=
  ((straight fun ts (s : GMem N E R × Option GNode) =>
    if ts = rs! "let mut new_node = self.new_with_same_record(value)" then
      match rustNewNode text s.1 self value with
      | .error e => .error e
      | .ok (m, x) => .ok (.next (m, some x))
    else if ts = rs! "new_node.add_edge(edge, self)" then
      match s.2 with
      | none => .error .panic
      | some x =>
        match rustAddEdge text s.1 x edge self with
        | .error e => .error e
        | .ok m => .ok (.next (m, some x))
    else if ts = rs! "return new_node" then
      match s.2 with
      | none => .error .panic
      | some x => .ok (.ret s x)
    else .error .panic).call text "push".toList (m, none)).map fun r => (r.1.1, r.2)

/-- `self.top()`, and the value behind the reference; the variables are `opt` and `r` -/
def rustTop (text : List Char) (m : GMem N E R) (self : GNode) : Res (Option N) :=
  (({ cond := fun _ _ => .error .panic
      rounds := fun _ _ => .error .panic
      hit := fun e p s =>
        if e = rs! "opt" then
          match s.1 with
          | none => .error .panic
          | some v =>
            if p = rs! "Ok(r)" then .ok (v.map fun r => (s.1, some r))
            else if p = rs! "Err(_)" then .ok (if v.isNone then some s else none)
            else .error .panic
        else .error .panic
      act := fun ts s =>
        if ts = rs! "let opt = Ref::filter_map(self.inner.borrow(), |i| i.node_value.as_ref())" then
          match m.borrow self.inner with
          | .error e => .error e
          | .ok x => .ok (.next (some x.value, s.2))
        else if ts = rs! "return Some(r)" then
          match s.2 with
          | none => .error .panic
          | some r => .ok (.ret s (some r))
        else if ts = rs! "return None" then .ok (.ret s none)
        else .error .panic } : SMachine (Option (Option N) × Option N) (Option N)).call text "top".toList (none, none)).map (·.2)

/-- `self.neighbors()`: what is behind the reference -/
def rustNeighbors (text : List Char) (m : GMem N E R) (self : GNode) : Res (List (Option E × GNode)) :=
  ((straight fun ts (m : GMem N E R) =>
    if ts = rs! "return Ref::map(self.inner.borrow(), |i| i.neighbors.as_slice())" then
      match m.borrow self.inner with
      | .error e => .error e
      | .ok x => .ok (.ret m x.neighbors)
    else .error .panic).call text "neighbors".toList m).map (·.2)

/-- variables of `pop`; `neighbors` is a mutable reference into the cell `self.inner`, the truth value says whether it is set -/
structure RPopVars (N E R : Type) where
  mem : GMem N E R
  neighbors : Bool := false
  e : Option (Option E) := none
  node : Option GNode := none

/-- `self.pop()` -/
def rustPop (text : List Char) (m : GMem N E R) (self : GNode) : Res (GMem N E R × (Option E × GNode)) :=
  (({ cond := fun c s =>
        if c = rs! "let Some((e, mut node)) = neighbors.pop()" then
          if s.neighbors then
            let cell := (s.mem.heap.inners[self.inner]?).getD ⟨none, []⟩
            match cell.neighbors.getLast? with
            | none => .ok (false, s)
            | some (e, x) => .ok (true, { s with mem := s.mem.write self.inner { cell with neighbors := cell.neighbors.dropLast }, e := some e, node := some x })
          else .error .panic
        else .error .panic
      rounds := fun _ _ => .error .panic
      hit := fun _ _ _ => .error .panic
      act := fun ts s =>
        if ts = rs! "let neighbors = &mut self.inner.borrow_mut().neighbors" then
          if s.mem.free self.inner then .ok (.next { s with mem := { s.mem with mutated := self.inner :: s.mem.mutated }, neighbors := true })
          else .error .panic
        else if ts = rs! "assert_eq!(neighbors.len(), 1, \"Tried to pop from stack branch with more/less than one predecessor\")" then
          if s.neighbors && ((s.mem.heap.inners[self.inner]?).getD ⟨none, []⟩).neighbors.length == 1 then .ok (.next s) else .error .panic
        else if ts = rs! "node.recorded = self.recorded" then
          match s.node with
          | none => .error .panic
          | some x => .ok (.next { s with node := some { x with recd := self.recd } })
        else if ts = rs! "return (e, node)" then
          match s.e, s.node with
          | some e, some x => .ok (.ret s (e, x))
          | _, _ => .error .panic
        else .error .panic } : SMachine (RPopVars N E R) (Option E × GNode)).call text "pop".toList { mem := m }).map
    fun r => ({ r.1.mem with mutated := m.mutated }, r.2)

/-- variables of `unwind_stacks` -/
structure RUnwindVars (N E R : Type) where
  mem : GMem N E R
  resultingParents : Option (List GNode) := none
  value : Option (Option N) := none
  edge : Option (Option E) := none
  neighbor : Option GNode := none
  newParents : Option (List GNode) := none
  parent : Option GNode := none
  newNode : Option GNode := none

/-- `self.unwind_stacks(depth)`, where the calls are nested at most `n` deep -/
def rustUnwind (text : List Char) : Nat → GMem N E R → GNode → Nat → Res (GMem N E R × List GNode)
  | 0, _, _, _ => .error .fuel
  | n + 1, m, self, depth =>
    (({ cond := fun c s => if c = rs! "depth == 0" then .ok (decide (depth = 0), s) else .error .panic
        rounds := fun c s =>
          if c = rs! "(edge, neighbor) in self.neighbors().iter()" then
            match rustNeighbors text s.mem self with
            | .error e => .error e
            | .ok l => .ok (l.map fun x s => { s with mem := { s.mem with shared := self.inner :: m.shared }, edge := some x.1, neighbor := some x.2 })
          else if c = rs! "parent in new_parents" then
            match s.newParents with
            | none => .error .panic
            | some l => .ok (l.map fun x s => { s with parent := some x })
          else .error .panic
        hit := fun _ _ _ => .error .panic
        act := fun ts s =>
          if ts = rs! "return vec![self.clone_and_fork_record()]" then
            match rustFork text s.mem self with
            | .error e => .error e
            | .ok (m, x) => .ok (.ret { s with mem := m } [x])
          else if ts = rs! "let mut resulting_parents = Vec::new()" then .ok (.next { s with resultingParents := some [] })
          else if ts = rs! "let value = self.top().map(|r| r.clone())" then
            match rustTop text s.mem self with
            | .error e => .error e
            | .ok v => .ok (.next { s with value := some v })
          else if ts = rs! "let new_parents = neighbor.unwind_stacks(depth - 1)" then
            match s.neighbor, depth with
            | some x, d + 1 =>
              match rustUnwind text n s.mem x d with
              | .error e => .error e
              | .ok (m, l) => .ok (.next { s with mem := m, newParents := some l })
            | _, _ => .error .panic
          else if ts = rs! "let mut new_node = parent.push(value.clone(), edge.clone())" then
            match s.parent, s.value, s.edge with
            | some x, some v, some e =>
              match rustPush text s.mem x v e with
              | .error e => .error e
              | .ok (m, y) => .ok (.next { s with mem := m, newNode := some y })
            | _, _, _ => .error .panic
          else if ts = rs! "new_node.recorded = self.recorded.clone()" then
            match s.newNode with
            | none => .error .panic
            | some x => .ok (.next { s with newNode := some { x with recd := self.recd } })
          else if ts = rs! "resulting_parents.push(new_node.clone_and_fork_record())" then
            match s.resultingParents, s.newNode with
            | some l, some x =>
              match rustFork text s.mem x with
              | .error e => .error e
              | .ok (m, y) => .ok (.next { s with mem := m, resultingParents := some (l ++ [y]) })
            | _, _ => .error .panic
          else if ts = rs! "return resulting_parents" then
            match s.resultingParents with
            | none => .error .panic
            | some l => .ok (.ret s l)
          else .error .panic } : SMachine (RUnwindVars N E R) (List GNode)).call text "unwind_stacks".toList { mem := m }).map
      fun r => ({ r.1.mem with shared := m.shared }, r.2)

/-! ## As the driver sees them -/

/-- the functions of module `gss`, called without borrows that last -/
structure Gss (N E R : Type) where
  root : GHeap N E R → Res (GHeap N E R × GNode)
  fork : GHeap N E R → GNode → Res (GHeap N E R × GNode)
  top : GHeap N E R → GNode → Res (Option N)
  isRoot : GHeap N E R → GNode → Res Bool
  push : GHeap N E R → GNode → Option N → Option E → Res (GHeap N E R × GNode)
  pop : GHeap N E R → GNode → Res (GHeap N E R × GNode)
  record : GHeap N E R → GNode → R → Res (GHeap N E R)
  popRecorded : GHeap N E R → GNode → Res (GHeap N E R × List R)
  unwind : GHeap N E R → GNode → Nat → Res (GHeap N E R × List GNode)

/-- the functions in a text; the edge that `pop` returns is not used -/
def rustGss (text : List Char) : Gss N E R where
  root := fun h => (rustRoot text ⟨h, [], []⟩).map fun r => (r.1.heap, r.2)
  fork := fun h x => (rustFork text ⟨h, [], []⟩ x).map fun r => (r.1.heap, r.2)
  top := fun h x => rustTop text ⟨h, [], []⟩ x
  isRoot := fun h x => (rustIsRoot text ⟨h, [], []⟩ x).map (·.2)
  push := fun h x v e => (rustPush text ⟨h, [], []⟩ x v e).map fun r => (r.1.heap, r.2)
  pop := fun h x => (rustPop text ⟨h, [], []⟩ x).map fun r => (r.1.heap, r.2.2)
  record := fun h x r => (rustRecord text ⟨h, [], []⟩ x r).map (·.heap)
  popRecorded := fun h x => (rustPopRecorded text ⟨h, [], []⟩ x).map fun r => (r.1.heap, r.2)
  unwind := fun h x d => (rustUnwind text (d + 1) ⟨h, [], []⟩ x d).map fun r => (r.1.heap, r.2)

end Verif
