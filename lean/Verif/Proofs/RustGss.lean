import Verif.Spec.RustGss
import Verif.Proofs.RustGlrFile

/-! # Module `gss` of the text of the GLR parser -/

set_option autoImplicit false

namespace Verif

/-! ## Its functions are in the text -/

section
variable (m d entry nts rules actions gotos reds visits : RForest)

/-- the block of module `gss` -/
def gssBlock : RForest := (findMod "gss".toList (glrStream .nil .nil .nil .nil .nil .nil .nil .nil .nil)).getD .nil

set_option maxRecDepth 8000 in
theorem find_gss : findMod "gss".toList (glrStream m d entry nts rules actions gotos reds visits) = some gssBlock := rfl
end

/-- the block of a function -/
def gssFn (name : List Char) : Option (List DStmt) := do
  let b ← findFn name .look gssBlock
  readD (2 * b.size) b

theorem gssBody_of {rs : RuleSet} {g : Grammar} (hg : g.WordNames) (ht : TagWords rs) {p : GlrProg} {text : List Char} (h : rustGlrFile rs g p = .ok text) (name : List Char) :
    gssBody name text = gssFn name := by
  obtain ⟨methods, debug, actions, gotos, reds, _, _, _, _, _, hr⟩ := glr_file hg ht h
  unfold gssBody gssFn
  rw [hr]
  simp only [Option.bind_eq_bind, Option.bind_some, find_gss]

set_option maxRecDepth 8000 in
theorem gss_fork : gssFn "clone_and_fork_record".toList = some [.tail (rs! "GraphNode { inner: self.inner.clone(), recorded: Rc::new(RefCell::new(self.recorded.borrow().clone())), }")] := rfl
set_option maxRecDepth 8000 in
theorem gss_root : gssFn "root".toList =
    some [.tail (rs! "GraphNode { inner: Rc::new(RefCell::new(GraphNodeInner { node_value: None, neighbors: vec![], })), recorded: Rc::new(RefCell::new(Vec::new())), }")] := rfl
set_option maxRecDepth 8000 in
theorem gss_new : gssFn "new_with_same_record".toList =
    some [.tail (rs! "GraphNode { inner: Rc::new(RefCell::new(GraphNodeInner { node_value, neighbors: vec![], })), recorded: self.recorded.clone(), }")] := rfl
set_option maxRecDepth 8000 in
theorem gss_addEdge : gssFn "add_edge".toList = some [.simple (rs! "self.inner.borrow_mut().neighbors.push((value, predecessor))")] := rfl
set_option maxRecDepth 8000 in
theorem gss_isRoot : gssFn "is_root".toList = some [.tail (rs! "self.inner.borrow().node_value.is_none()")] := rfl
set_option maxRecDepth 8000 in
theorem gss_record : gssFn "record".toList = some [.simple (rs! "self.recorded.borrow_mut().push(record)")] := rfl
set_option maxRecDepth 8000 in
theorem gss_popRecorded : gssFn "pop_recorded".toList = some [.simple (rs! "return self.recorded.borrow_mut().split_off(0)")] := rfl
set_option maxRecDepth 8000 in
theorem gss_push : gssFn "push".toList =
    some [.simple (rs! "let mut new_node = self.new_with_same_record(value)"), .simple (rs! "new_node.add_edge(edge, self)"), .tail (rs! "new_node")] := rfl
set_option maxRecDepth 8000 in
theorem gss_top : gssFn "top".toList = some [.simple (rs! "let opt = Ref::filter_map(self.inner.borrow(), |i| i.node_value.as_ref())"),
    .choice (rs! "opt") [.arm (rs! "Ok(r)") [.tail (rs! "Some(r)")], .arm (rs! "Err(_)") [.tail (rs! "None")]]] := rfl
set_option maxRecDepth 8000 in
theorem gss_neighbors : gssFn "neighbors".toList = some [.tail (rs! "Ref::map(self.inner.borrow(), |i| i.neighbors.as_slice())")] := rfl
set_option maxRecDepth 8000 in
theorem gss_pop : gssFn "pop".toList = some [.simple (rs! "let neighbors = &mut self.inner.borrow_mut().neighbors"),
    .simple (rs! "assert_eq!(neighbors.len(), 1, \"Tried to pop from stack branch with more/less than one predecessor\")"),
    .ifDo none (rs! "let Some((e, mut node)) = neighbors.pop()") [.simple (rs! "node.recorded = self.recorded"), .tail (rs! "(e, node)")]
      [.simple (rs! "panic!(\"Tried to pop from stack branch with zero predecessors\")")]] := rfl

/-- the loops of `unwind_stacks` -/
def unwindInner : List DStmt :=
  [.simple (rs! "let mut new_node = parent.push(value.clone(), edge.clone())"), .simple (rs! "new_node.recorded = self.recorded.clone()"), .simple (rs! "resulting_parents.push(new_node.clone_and_fork_record())")]
def unwindOuter : List DStmt := [.simple (rs! "let new_parents = neighbor.unwind_stacks(depth - 1)"), .forDo (rs! "parent in new_parents") unwindInner]
set_option maxRecDepth 8000 in
theorem gss_unwind : gssFn "unwind_stacks".toList = some [.ifDo none (rs! "depth == 0") [.simple (rs! "return vec![self.clone_and_fork_record()]")] [],
    .simple (rs! "let mut resulting_parents = Vec::new()"), .simple (rs! "let value = self.top().map(|r| r.clone())"),
    .forDo (rs! "(edge, neighbor) in self.neighbors().iter()") unwindOuter, .tail (rs! "resulting_parents")] := rfl

/-! ## Executing statements -/

section
variable {σ ρ : Type} (m : SMachine σ ρ) (ctx : RForest)

theorem s_one (a : DStmt) (s : σ) : m.execs ctx [a] s = m.exec ctx a s := by rw [SMachine.execs]
theorem s_nil (s : σ) : m.execs ctx [] s = .ok (.next s) := by rw [SMachine.execs]
theorem s_next {a b : DStmt} {ss : List DStmt} {s s' : σ} (h : m.exec .nil a s = .ok (.next s')) : m.execs ctx (a :: b :: ss) s = m.execs ctx (b :: ss) s' := by rw [SMachine.execs, h]
theorem s_err {a b : DStmt} {ss : List DStmt} {s : σ} {e : Err} (h : m.exec .nil a s = .error e) : m.execs ctx (a :: b :: ss) s = .error e := by rw [SMachine.execs, h]
theorem s_ret {a b : DStmt} {ss : List DStmt} {s s' : σ} {r : ρ} (h : m.exec .nil a s = .ok (.ret s' r)) : m.execs ctx (a :: b :: ss) s = .ok (.ret s' r) := by rw [SMachine.execs, h]
theorem s_simple (ts : RForest) (s : σ) : m.exec ctx (.simple ts) s = m.act ts s := by rw [SMachine.exec]
theorem s_tail (ts : RForest) (s : σ) : m.exec ctx (.tail ts) s = m.act (ctx.append ts) s := by rw [SMachine.exec]
theorem s_for {c : RForest} {b : List DStmt} {s : σ} {us : List (σ → σ)} (h : m.rounds c s = .ok us) : m.exec ctx (.forDo c b) s = rEach (fun s => m.execs .nil b s) us s := by rw [SMachine.exec, h]
theorem s_if {before : Option RForest} {c : RForest} {t e : List DStmt} {s s' : σ} {v : Bool} (h : m.cond c s = .ok (v, s')) :
    m.exec ctx (.ifDo before c t e) s = m.execs (before.getD ctx) (if v then t else e) s' := by
  rw [SMachine.exec, h]
  cases v <;> rfl
theorem s_choice (e : RForest) (arms : List DStmt) (s : σ) : m.exec ctx (.choice e arms) s = m.execArms ctx e arms s := by rw [SMachine.exec]
theorem s_hit {e p : RForest} {b as : List DStmt} {s s' : σ} (h : m.hit e p s = .ok (some s')) : m.execArms ctx e (.arm p b :: as) s = m.execs ctx b s' := by rw [SMachine.execArms, h]
theorem s_miss {e p : RForest} {b as : List DStmt} {s : σ} (h : m.hit e p s = .ok none) : m.execArms ctx e (.arm p b :: as) s = m.execArms ctx e as s := by rw [SMachine.execArms, h]

theorem call_of {text name : List Char} {body : List DStmt} (h : gssBody name text = some body) (s : σ) : m.call text name s = match m.execs (rs! "return") body s with
    | .ok (.ret s' r) => .ok (s', r)
    | .ok (.next _) => .error .panic
    | .error e => .error e := by unfold SMachine.call; rw [h]; rfl
theorem callUnit_of {m : SMachine σ Empty} {text name : List Char} {body : List DStmt} (h : gssBody name text = some body) (s : σ) : m.callUnit text name s = match m.execs .nil body s with
    | .ok (.next s') => .ok s'
    | .ok (.ret s' _) => .ok s'
    | .error e => .error e := by unfold SMachine.callUnit; rw [h]; rfl
theorem call_ret {text name : List Char} {body : List DStmt} (h : gssBody name text = some body) {s s' : σ} {r : ρ} (hx : m.execs (rs! "return") body s = .ok (.ret s' r)) :
    m.call text name s = .ok (s', r) := by rw [call_of _ h, hx]
theorem call_err {text name : List Char} {body : List DStmt} (h : gssBody name text = some body) {s : σ} {e : Err} (hx : m.execs (rs! "return") body s = .error e) :
    m.call text name s = .error e := by rw [call_of _ h, hx]
end

/-! ## What the functions return -/

section
variable {N E R : Type} {text : List Char} (hb : ∀ name, gssBody name text = gssFn name)

include hb

theorem text_fork (m : GMem N E R) (x : GNode) : rustFork text m x = .ok ({ m with heap := (m.heap.fork x).1 }, (m.heap.fork x).2) := by
  unfold rustFork
  rw [call_of _ ((hb _).trans gss_fork), s_one, s_tail]
  rfl

theorem text_root (m : GMem N E R) : rustRoot text m = .ok ({ m with heap := m.heap.root.1 }, m.heap.root.2) := by
  unfold rustRoot
  rw [call_of _ ((hb _).trans gss_root), s_one, s_tail]
  rfl

theorem text_new (m : GMem N E R) (x : GNode) (v : Option N) :
    rustNewNode text m x v = .ok ({ m with heap := { m.heap with inners := m.heap.inners ++ [⟨v, []⟩] } }, ⟨m.heap.inners.length, x.recd⟩) := by
  unfold rustNewNode
  rw [call_of _ ((hb _).trans gss_new), s_one, s_tail]
  rfl

theorem text_addEdge (m : GMem N E R) (x y : GNode) (e : Option E) (hs : x.inner ∉ m.shared) (hm : x.inner ∉ m.mutated) :
    rustAddEdge text m x e y = .ok { m with heap := { m.heap with inners := m.heap.inners.set x.inner ⟨((m.heap.inners[x.inner]?).getD ⟨none, []⟩).value,
      ((m.heap.inners[x.inner]?).getD ⟨none, []⟩).neighbors ++ [(e, y)]⟩ } } := by
  unfold rustAddEdge
  rw [callUnit_of ((hb _).trans gss_addEdge), s_one, s_simple]
  have h1 : m.free x.inner = true := by unfold GMem.free; simp [hs, hm]
  have h2 : m.borrow x.inner = .ok ((m.heap.inners[x.inner]?).getD ⟨none, []⟩) := by unfold GMem.borrow; rw [if_neg hm]
  simp only [straight, if_true, h1, h2]
  rfl

theorem text_isRoot (m : GMem N E R) (x : GNode) (hm : x.inner ∉ m.mutated) : rustIsRoot text m x = .ok (m, m.heap.isRoot x) := by
  unfold rustIsRoot
  have h2 : m.borrow x.inner = .ok ((m.heap.inners[x.inner]?).getD ⟨none, []⟩) := by unfold GMem.borrow; rw [if_neg hm]
  have h3 : (((m.heap.inners[x.inner]?).getD ⟨none, []⟩).value).isNone = m.heap.isRoot x := by
    unfold GHeap.isRoot GHeap.top
    cases m.heap.inners[x.inner]? <;> rfl
  refine call_ret _ ((hb _).trans gss_isRoot) ?_
  rw [s_one, s_tail]
  show (match m.borrow x.inner with | .error e => .error e | .ok y => .ok (.ret m y.value.isNone) : Res (ROut (GMem N E R) Bool)) = _
  rw [h2]
  simp only [h3]

theorem text_record (m : GMem N E R) (x : GNode) (r : R) : rustRecord text m x r = .ok { m with heap := m.heap.record x r } := by
  unfold rustRecord
  rw [callUnit_of ((hb _).trans gss_record), s_one, s_simple]
  rfl

theorem text_popRecorded (m : GMem N E R) (x : GNode) : rustPopRecorded text m x = .ok ({ m with heap := (m.heap.popRecorded x).1 }, (m.heap.popRecorded x).2) := by
  unfold rustPopRecorded
  rw [call_of _ ((hb _).trans gss_popRecorded), s_one, s_simple]
  rfl

theorem text_push (m : GMem N E R) (x : GNode) (v : Option N) (e : Option E) (hs : m.heap.inners.length ∉ m.shared) (hm : m.heap.inners.length ∉ m.mutated) :
    rustPush text m x v e = .ok ({ m with heap := (m.heap.push x v e).1 }, (m.heap.push x v e).2) := by
  unfold rustPush
  rw [call_of _ ((hb _).trans gss_push), s_next _ _ (s' := ({ m with heap := { m.heap with inners := m.heap.inners ++ [⟨v, []⟩] } }, some ⟨m.heap.inners.length, x.recd⟩)),
    s_next _ _ (s' := ({ m with heap := (m.heap.push x v e).1 }, some ⟨m.heap.inners.length, x.recd⟩)), s_one, s_tail]
  · rfl
  · rw [s_simple]
    show (match rustAddEdge text _ _ e x with | .error e => .error e | .ok m => .ok (.next (m, _)) : Res (ROut (GMem N E R × Option GNode) GNode)) = _
    rw [text_addEdge hb _ _ _ _ hs hm]
    simp [GHeap.push]
  · rw [s_simple]
    show (match rustNewNode text m x v with | .error e => .error e | .ok (m, x) => .ok (.next (m, some x)) : Res (ROut (GMem N E R × Option GNode) GNode)) = _
    rw [text_new hb]

theorem text_top (m : GMem N E R) (x : GNode) (hm : x.inner ∉ m.mutated) : rustTop text m x = .ok (m.heap.top x) := by
  have h2 : m.borrow x.inner = .ok ((m.heap.inners[x.inner]?).getD ⟨none, []⟩) := by unfold GMem.borrow; rw [if_neg hm]
  have h3 : ((m.heap.inners[x.inner]?).getD ⟨none, []⟩).value = m.heap.top x := by
    unfold GHeap.top
    cases m.heap.inners[x.inner]? <;> rfl
  unfold rustTop
  rw [call_of _ ((hb _).trans gss_top), s_next _ _ (s' := (some (m.heap.top x), none)), s_one, s_choice]
  · cases hv : m.heap.top x with
    | none =>
      rw [s_miss _ _ (by rfl), s_hit _ _ (s' := (some none, none)) (by rfl), s_one, s_tail]
      rfl
    | some v =>
      rw [s_hit _ _ (s' := (some (some v), some v)) (by rfl), s_one, s_tail]
      rfl
  · rw [s_simple]
    show (match m.borrow x.inner with | .error e => .error e | .ok y => .ok (.next (some y.value, none)) : Res (ROut (Option (Option N) × Option N) (Option N))) = _
    rw [h2]
    simp only [h3]

theorem text_neighbors (m : GMem N E R) (x : GNode) (hm : x.inner ∉ m.mutated) : rustNeighbors text m x = .ok (m.heap.neighbors x) := by
  have h2 : m.borrow x.inner = .ok ((m.heap.inners[x.inner]?).getD ⟨none, []⟩) := by unfold GMem.borrow; rw [if_neg hm]
  have h3 : ((m.heap.inners[x.inner]?).getD ⟨none, []⟩).neighbors = m.heap.neighbors x := by
    unfold GHeap.neighbors
    cases m.heap.inners[x.inner]? <;> rfl
  unfold rustNeighbors
  rw [call_ret _ ((hb _).trans gss_neighbors) (s' := m) (r := m.heap.neighbors x)]
  · rfl
  rw [s_one, s_tail]
  show (match m.borrow x.inner with | .error e => .error e | .ok y => .ok (.ret m y.neighbors) : Res (ROut (GMem N E R) (List (Option E × GNode)))) = _
  rw [h2]
  simp only [h3]

theorem text_pop (m : GMem N E R) (x : GNode) (hs : x.inner ∉ m.shared) (hm : x.inner ∉ m.mutated) : match m.heap.pop x with
    | .ok (h, y) => ∃ e, rustPop text m x = .ok ({ m with heap := h }, (e, y))
    | .error e => rustPop text m x = .error e := by
  have h1 : m.free x.inner = true := by unfold GMem.free; simp [hs, hm]
  have start : ∀ b ss, ∀ mc : SMachine (RPopVars N E R) (Option E × GNode), mc.act (rs! "let neighbors = &mut self.inner.borrow_mut().neighbors") { mem := m } =
      (if m.free x.inner then .ok (.next { mem := { m with mutated := x.inner :: m.mutated }, neighbors := true }) else .error .panic) →
      mc.execs (rs! "return") (.simple (rs! "let neighbors = &mut self.inner.borrow_mut().neighbors") :: b :: ss) { mem := m } =
        mc.execs (rs! "return") (b :: ss) { mem := { m with mutated := x.inner :: m.mutated }, neighbors := true } := by
    intro b ss mc hmc
    rw [h1] at hmc
    rw [s_next _ _ (by rw [s_simple, hmc]; rfl)]
  have bad : ((m.heap.inners[x.inner]?).getD ⟨none, []⟩).neighbors.length ≠ 1 → rustPop text m x = .error .panic := by
    intro hl
    unfold rustPop
    rw [call_err _ ((hb _).trans gss_pop) (e := .panic)]
    · rfl
    rw [start _ _ _ rfl]
    refine s_err _ _ ?_
    rw [s_simple]
    show (if true && ((m.heap.inners[x.inner]?).getD ⟨none, []⟩).neighbors.length == 1 then .ok (.next _) else .error .panic : Res (ROut (RPopVars N E R) (Option E × GNode))) = _
    rw [if_neg (by simpa using hl)]
  unfold GHeap.pop
  cases hc : m.heap.inners[x.inner]? with
  | none =>
    rw [hc] at bad
    exact bad (by simp)
  | some c =>
    obtain ⟨v, l⟩ := c
    rw [hc] at bad
    match l, hc, bad with
    | [], _, bad => exact bad (by simp)
    | _ :: _ :: _, _, bad => exact bad (by simp)
    | [(e, y)], hc, bad =>
      refine ⟨e, ?_⟩
      have hg : (m.heap.inners[x.inner]?).getD ⟨none, []⟩ = ⟨v, [(e, y)]⟩ := by rw [hc]; rfl
      unfold rustPop
      rw [call_ret _ ((hb _).trans gss_pop) (s' := { mem := { m with heap := { m.heap with inners := m.heap.inners.set x.inner ⟨v, []⟩ }, mutated := x.inner :: m.mutated }, neighbors := true, e := some e, node := some { y with recd := x.recd } })
        (r := (e, { y with recd := x.recd }))]
      · rfl
      rw [start _ _ _ rfl]
      rw [s_next _ _ (s' := { mem := { m with mutated := x.inner :: m.mutated }, neighbors := true })]
      · rw [s_one, s_if _ _ (v := true) (s' := { mem := { m with heap := { m.heap with inners := m.heap.inners.set x.inner ⟨v, []⟩ }, mutated := x.inner :: m.mutated }, neighbors := true, e := some e, node := some y })]
        · rw [if_pos rfl, s_next _ _ (s' := { mem := { m with heap := { m.heap with inners := m.heap.inners.set x.inner ⟨v, []⟩ }, mutated := x.inner :: m.mutated }, neighbors := true, e := some e, node := some { y with recd := x.recd } }) (by rw [s_simple]; rfl), s_one, s_tail]
          rfl
        · show (match ((m.heap.inners[x.inner]?).getD ⟨none, []⟩).neighbors.getLast? with
            | none => .ok (false, _)
            | some (e, z) => .ok (true, { mem := GMem.write { m with mutated := x.inner :: m.mutated } x.inner { ((m.heap.inners[x.inner]?).getD ⟨none, []⟩) with neighbors := ((m.heap.inners[x.inner]?).getD ⟨none, []⟩).neighbors.dropLast }, neighbors := true, e := some e, node := some z }) : Res (Bool × RPopVars N E R)) = _
          rw [hg]
          rfl
      · rw [s_simple]
        show (if true && ((m.heap.inners[x.inner]?).getD ⟨none, []⟩).neighbors.length == 1 then .ok (.next _) else .error .panic : Res (ROut (RPopVars N E R) (Option E × GNode))) = _
        rw [hg]
        rfl

omit hb in
theorem unwind_pres {P : GHeap N E R → Prop} (hp : ∀ h x v e, P h → P (h.push x v e).1) (hf : ∀ h x, P h → P (h.fork x).1) (k : Nat) {h : GHeap N E R} (h0 : P h) (x : GNode) :
    P (GHeap.unwind k h x).1 := by
  induction k generalizing h x with
  | zero => exact hf _ _ h0
  | succ k ih =>
    simp only [GHeap.unwind]
    refine List.foldlRecOn (motive := fun st : GHeap N E R × List GNode => P st.1) _ _ h0 fun st hst e _ => ?_
    refine List.foldlRecOn (motive := fun st : GHeap N E R × List GNode => P st.1) _ _ (ih hst _) fun st hst p _ => ?_
    exact hf _ _ (hp _ _ _ _ hst)

omit hb in
theorem unwind_length (k : Nat) (h : GHeap N E R) (x : GNode) : h.inners.length ≤ (GHeap.unwind k h x).1.inners.length :=
  unwind_pres (P := fun h' => h.inners.length ≤ h'.inners.length) (fun h' x v e hh => by simp only [GHeap.push, List.length_append]; omega) (fun h' x hh => hh) k (Nat.le_refl _) x

omit hb in
theorem each_fold {σ ρ τ α : Type} {Inv : σ → τ → Prop} {body : σ → Res (ROut σ ρ)} {F : τ → α → τ} {u : α → σ → σ} (xs : List α)
    (H : ∀ s t, ∀ y ∈ xs, Inv s t → ∃ s', body (u y s) = .ok (.next s') ∧ Inv s' (F t y)) (s : σ) (t : τ) (h : Inv s t) :
    ∃ s', rEach body (xs.map u) s = .ok (.next s') ∧ Inv s' (xs.foldl F t) := by
  induction xs generalizing s t with
  | nil => exact ⟨s, rfl, h⟩
  | cons y ys ih =>
    obtain ⟨s1, h1, h2⟩ := H s t y List.mem_cons_self h
    obtain ⟨s2, h3, h4⟩ := ih (fun s t z hz => H s t z (List.mem_cons_of_mem _ hz)) s1 (F t y) h2
    refine ⟨s2, ?_, h4⟩
    rw [List.map_cons, rEach, h1]
    exact h3

/-- the variables of `unwind_stacks` in its loops -/
structure UnwindInv (m : GMem N E R) (v : Option N) (s : RUnwindVars N E R) (st : GHeap N E R × List GNode) : Prop where
  heap : s.mem.heap = st.1
  mutated : s.mem.mutated = []
  parents : s.resultingParents = some st.2
  value : s.value = some v
  grows : m.heap.inners.length ≤ st.1.inners.length

theorem text_unwind (d : Nat) (m : GMem N E R) (x : GNode) (hm : m.mutated = []) (hs : ∀ a ∈ m.shared, a < m.heap.inners.length) :
    rustUnwind text (d + 1) m x d = .ok ({ m with heap := (GHeap.unwind d m.heap x).1 }, (GHeap.unwind d m.heap x).2) := by
  induction d generalizing m x with
  | zero =>
    unfold rustUnwind
    rw [call_ret _ ((hb _).trans gss_unwind) (s' := { mem := { m with heap := (m.heap.fork x).1 } }) (r := [(m.heap.fork x).2])]
    · rfl
    rw [s_ret _ _ (s' := { mem := { m with heap := (m.heap.fork x).1 } }) (r := [(m.heap.fork x).2])]
    rw [s_if _ _ (v := true) (s' := { mem := m }) rfl, if_pos rfl, s_one, s_simple]
    show (match rustFork text m x with | .error e => .error e | .ok (m, y) => .ok (.ret { mem := m } [y]) : Res (ROut (RUnwindVars N E R) (List GNode))) = _
    rw [text_fork hb]
  | succ d ih =>
    unfold rustUnwind
    generalize hM : (SMachine.mk _ _ _ _ : SMachine (RUnwindVars N E R) (List GNode)) = M
    have hnm : x.inner ∉ m.mutated := by rw [hm]; simp
    -- the two loops
    have inner : ∀ (s : RUnwindVars N E R) (st : GHeap N E R × List GNode) (y : GNode) (e : Option E),
        (UnwindInv m (m.heap.top x) s st ∧ s.mem.shared = x.inner :: m.shared ∧ s.edge = some e ∧ x.inner < m.heap.inners.length) →
        ∃ s', M.execs .nil unwindInner { s with parent := some y } = .ok (.next s') ∧
          UnwindInv m (m.heap.top x) s' (((st.1.push y (m.heap.top x) e).1.fork { (st.1.push y (m.heap.top x) e).2 with recd := x.recd }).1,
            st.2 ++ [((st.1.push y (m.heap.top x) e).1.fork { (st.1.push y (m.heap.top x) e).2 with recd := x.recd }).2]) ∧
          s'.mem.shared = x.inner :: m.shared ∧ s'.edge = some e ∧ x.inner < m.heap.inners.length := by
      rintro ⟨⟨h, sh, mu⟩, rp, va, ed, ne, np, pa, nn⟩ ⟨h0, l⟩ y e ⟨⟨h1, h2, h3, h4, h5⟩, h6, h7, h8⟩
      simp only at h1 h2 h3 h4 h5 h6 h7
      subst h1 h2 h3 h4 h6 h7
      have hfree : h.inners.length ∉ x.inner :: m.shared := by
        intro hx
        rcases List.mem_cons.mp hx with hx | hx
        · omega
        · have := hs _ hx
          omega
      refine ⟨⟨⟨((h.push y (m.heap.top x) e).1.fork { (h.push y (m.heap.top x) e).2 with recd := x.recd }).1, x.inner :: m.shared, []⟩,
        some (l ++ [((h.push y (m.heap.top x) e).1.fork { (h.push y (m.heap.top x) e).2 with recd := x.recd }).2]), some (m.heap.top x), some e, ne, np, some y,
        some { (h.push y (m.heap.top x) e).2 with recd := x.recd }⟩, ?_, ⟨rfl, rfl, rfl, rfl, ?_⟩, rfl, rfl, h8⟩
      · unfold unwindInner
        rw [s_next _ _ (s' := ⟨⟨(h.push y (m.heap.top x) e).1, x.inner :: m.shared, []⟩, some l, some (m.heap.top x), some e, ne, np, some y, some (h.push y (m.heap.top x) e).2⟩),
          s_next _ _ (s' := ⟨⟨(h.push y (m.heap.top x) e).1, x.inner :: m.shared, []⟩, some l, some (m.heap.top x), some e, ne, np, some y, some { (h.push y (m.heap.top x) e).2 with recd := x.recd }⟩),
          s_one, s_simple]
        · rw [← hM]
          show (match rustFork text (⟨(h.push y (m.heap.top x) e).1, x.inner :: m.shared, []⟩ : GMem N E R) { (h.push y (m.heap.top x) e).2 with recd := x.recd } with | .error e => .error e | .ok (m', z) => .ok (.next ⟨m', some (l ++ [z]), some (m.heap.top x), some e, ne, np, some y, some { (h.push y (m.heap.top x) e).2 with recd := x.recd }⟩) : Res (ROut (RUnwindVars N E R) (List GNode))) = _
          rw [text_fork hb]
        · rw [s_simple, ← hM]
          rfl
        · rw [s_simple, ← hM]
          show (match rustPush text (⟨h, x.inner :: m.shared, []⟩ : GMem N E R) y (m.heap.top x) e with | .error e => .error e | .ok (m', z) => .ok (.next ⟨m', some l, some (m.heap.top x), some e, ne, np, some y, some z⟩) : Res (ROut (RUnwindVars N E R) (List GNode))) = _
          rw [text_push hb _ _ _ _ hfree (by simp)]
      · show _ ≤ ((h.push y (m.heap.top x) e).1.fork _).1.inners.length
        simp only [GHeap.fork, GHeap.push, List.length_append]
        omega
    have outer : ∀ (s : RUnwindVars N E R) (st : GHeap N E R × List GNode), ∀ y ∈ m.heap.neighbors x, UnwindInv m (m.heap.top x) s st →
        ∃ s', M.execs .nil unwindOuter { s with mem := { s.mem with shared := x.inner :: m.shared }, edge := some y.1, neighbor := some y.2 } = .ok (.next s') ∧
          UnwindInv m (m.heap.top x) s' ((GHeap.unwind d st.1 y.2).2.foldl (fun (st : GHeap N E R × List GNode) parent =>
            (((st.1.push parent (m.heap.top x) y.1).1.fork { (st.1.push parent (m.heap.top x) y.1).2 with recd := x.recd }).1,
              st.2 ++ [((st.1.push parent (m.heap.top x) y.1).1.fork { (st.1.push parent (m.heap.top x) y.1).2 with recd := x.recd }).2])) ((GHeap.unwind d st.1 y.2).1, st.2)) := by
      rintro ⟨⟨h, sh, mu⟩, rp, va, ed, ne, np, pa, nn⟩ ⟨h0, l⟩ ⟨e, y⟩ hy ⟨h1, h2, h3, h4, h5⟩
      simp only at h1 h2 h3 h4 h5
      subst h1 h2 h3 h4
      have hx : x.inner < m.heap.inners.length := by
        by_contra hn
        unfold GHeap.neighbors at hy
        rw [List.getElem?_eq_none (by omega)] at hy
        simp at hy
      obtain ⟨s', k1, k2, _⟩ := each_fold (Inv := fun s st => UnwindInv m (m.heap.top x) s st ∧ s.mem.shared = x.inner :: m.shared ∧ s.edge = some e ∧ x.inner < m.heap.inners.length)
        (body := fun s => M.execs .nil unwindInner s) (u := fun p s => { s with parent := some p }) (GHeap.unwind d h y).2 (fun s st p _ hi => inner s st p e hi)
        ⟨⟨(GHeap.unwind d h y).1, x.inner :: m.shared, []⟩, some l, some (m.heap.top x), some e, some y, some (GHeap.unwind d h y).2, pa, nn⟩ ((GHeap.unwind d h y).1, l)
        ⟨⟨rfl, rfl, rfl, rfl, Nat.le_trans h5 (unwind_length d h y)⟩, rfl, rfl, hx⟩
      refine ⟨s', ?_, k2⟩
      unfold unwindOuter
      rw [s_next _ _ (s' := ⟨⟨(GHeap.unwind d h y).1, x.inner :: m.shared, []⟩, some l, some (m.heap.top x), some e, some y, some (GHeap.unwind d h y).2, pa, nn⟩), s_one]
      · rw [s_for _ _ (by rw [← hM]; rfl)]
        exact k1
      · rw [s_simple, ← hM]
        show (match rustUnwind text (d + 1) (⟨h, x.inner :: m.shared, []⟩ : GMem N E R) y d with | .error e => .error e | .ok (m', l') => .ok (.next ⟨m', some l, some (m.heap.top x), some e, some y, some l', pa, nn⟩) : Res (ROut (RUnwindVars N E R) (List GNode))) = _
        rw [ih _ _ rfl]
        intro a ha
        rcases List.mem_cons.mp ha with rfl | ha
        · show _ < h.inners.length
          omega
        · have := hs a ha
          show _ < h.inners.length
          omega
    obtain ⟨s', k1, k2⟩ := each_fold (Inv := UnwindInv m (m.heap.top x)) (body := fun s => M.execs .nil unwindOuter s)
      (u := fun (y : Option E × GNode) s => { s with mem := { s.mem with shared := x.inner :: m.shared }, edge := some y.1, neighbor := some y.2 }) (m.heap.neighbors x) outer
      { mem := m, resultingParents := some [], value := some (m.heap.top x) } (m.heap, []) ⟨rfl, hm, rfl, rfl, Nat.le_refl _⟩
    rw [call_ret _ ((hb _).trans gss_unwind) (s' := s') (r := (GHeap.unwind (d + 1) m.heap x).2)]
    · obtain ⟨⟨h, sh, mu⟩, _⟩ := s'
      have e1 := k2.heap
      have e2 := k2.mutated
      simp only at e1 e2
      subst e1 e2
      obtain ⟨mh, ms, mm⟩ := m
      simp only at hm
      subst hm
      rfl
    rw [s_next _ _ (s' := { mem := m }), s_next _ _ (s' := { mem := m, resultingParents := some [] }), s_next _ _ (s' := { mem := m, resultingParents := some [], value := some (m.heap.top x) }),
      s_next _ _ (s' := s'), s_one, s_tail]
    · rw [← hM]
      have := k2.parents
      show (match s'.resultingParents with | none => .error .panic | some l => .ok (.ret s' l) : Res (ROut (RUnwindVars N E R) (List GNode))) = _
      rw [this]
      rfl
    · rw [s_for _ _ (us := (m.heap.neighbors x).map fun (y : Option E × GNode) s => { s with mem := { s.mem with shared := x.inner :: m.shared }, edge := some y.1, neighbor := some y.2 })]
      · exact k1
      · rw [← hM]
        show (match rustNeighbors text m x with | .error e => .error e | .ok l => .ok (l.map _) : Res (List (RUnwindVars N E R → RUnwindVars N E R))) = _
        rw [text_neighbors hb _ _ hnm]
    · rw [s_simple, ← hM]
      show (match rustTop text m x with | .error e => .error e | .ok v => .ok (.next { mem := m, resultingParents := some [], value := some v }) : Res (ROut (RUnwindVars N E R) (List GNode))) = _
      rw [text_top hb _ _ hnm]
    · rw [s_simple, ← hM]
      rfl
    · rw [s_if _ _ (v := false) (s' := { mem := m }) (by rw [← hM]; rfl)]
      rw [if_neg (by decide), s_nil]

/-- the functions of the model -/
def heapGss (N E R : Type) : Gss N E R where
  root := fun h => .ok h.root
  fork := fun h x => .ok (h.fork x)
  top := fun h x => .ok (h.top x)
  isRoot := fun h x => .ok (h.isRoot x)
  push := fun h x v e => .ok (h.push x v e)
  pop := fun h x => h.pop x
  record := fun h x r => .ok (h.record x r)
  popRecorded := fun h x => .ok (h.popRecorded x)
  unwind := fun h x d => .ok (GHeap.unwind d h x)

theorem text_gss : (rustGss text : Gss N E R) = heapGss N E R := by
  unfold rustGss heapGss
  congr 1
  · funext h; rw [text_root hb]; rfl
  · funext h x; rw [text_fork hb]; rfl
  · funext h x; rw [text_top hb _ _ (by simp)]
  · funext h x; rw [text_isRoot hb _ _ (by simp)]; rfl
  · funext h x v e; rw [text_push hb _ _ _ _ (by simp) (by simp)]; rfl
  · funext h x
    have := text_pop hb (⟨h, [], []⟩ : GMem N E R) x (by simp) (by simp)
    cases hp : h.pop x with
    | error e => simp only [hp] at this; rw [this]; rfl
    | ok r =>
      simp only [hp] at this
      obtain ⟨e, he⟩ := this
      rw [he]; rfl
  · funext h x r; rw [text_record hb]; rfl
  · funext h x; rw [text_popRecorded hb]; rfl
  · funext h x d; rw [text_unwind hb _ _ _ rfl (by simp)]; rfl

end

end Verif
