import Verif.Model.Glr

/-! # The graph-structured stack with other labels and records -/

set_option autoImplicit false

namespace Verif

variable {N E R E' R' : Type} (f : E → E') (r : R → R')

/-- a heap with other labels and records -/
def GHeap.relabel (h : GHeap N E R) : GHeap N E' R' := ⟨h.inners.map fun x => ⟨x.value, x.neighbors.map fun e => (e.1.map f, e.2)⟩, h.recs.map (·.map r)⟩

theorem relabel_rec (h : GHeap N E R) (i : Nat) : ((h.relabel f r).recs[i]?).getD [] = ((h.recs[i]?).getD []).map r := by
  unfold GHeap.relabel
  rw [List.getElem?_map]
  cases h.recs[i]? <;> rfl

theorem relabel_fork (h : GHeap N E R) (n : GNode) : (h.relabel f r).fork n = ((h.fork n).1.relabel f r, (h.fork n).2) := by
  unfold GHeap.fork
  rw [relabel_rec]
  simp [GHeap.relabel]

theorem relabel_root (h : GHeap N E R) : (h.relabel f r).root = (h.root.1.relabel f r, h.root.2) := by simp [GHeap.root, GHeap.relabel]

theorem relabel_top (h : GHeap N E R) (n : GNode) : (h.relabel f r).top n = h.top n := by
  unfold GHeap.top GHeap.relabel
  rw [List.getElem?_map]
  cases h.inners[n.inner]? <;> rfl

theorem relabel_isRoot (h : GHeap N E R) (n : GNode) : (h.relabel f r).isRoot n = h.isRoot n := by unfold GHeap.isRoot; rw [relabel_top]

theorem relabel_neighbors (h : GHeap N E R) (n : GNode) : (h.relabel f r).neighbors n = (h.neighbors n).map fun e => (e.1.map f, e.2) := by
  unfold GHeap.neighbors GHeap.relabel
  rw [List.getElem?_map]
  cases h.inners[n.inner]? <;> rfl

theorem relabel_push (h : GHeap N E R) (n : GNode) (v : Option N) (e : Option E) : (h.relabel f r).push n v (e.map f) = ((h.push n v e).1.relabel f r, (h.push n v e).2) := by
  simp [GHeap.push, GHeap.relabel]

theorem relabel_pop (h : GHeap N E R) (n : GNode) : (h.relabel f r).pop n = match h.pop n with
    | .ok (h', x) => .ok (h'.relabel f r, x)
    | .error e => .error e := by
  unfold GHeap.pop
  rw [show (h.relabel f r).inners[n.inner]? = (h.inners[n.inner]?).map fun x => ⟨x.value, x.neighbors.map fun e => (e.1.map f, e.2)⟩ by simp [GHeap.relabel]]
  cases h.inners[n.inner]? with
  | none => rfl
  | some x =>
    obtain ⟨v, l⟩ := x
    match l with
    | [] => rfl
    | [(e, p)] => simp [GHeap.relabel, List.map_set]
    | _ :: _ :: _ => rfl

theorem relabel_record (h : GHeap N E R) (n : GNode) (x : R) : (h.relabel f r).record n (r x) = (h.record n x).relabel f r := by
  unfold GHeap.record
  rw [relabel_rec]
  simp [GHeap.relabel, List.map_set]

theorem relabel_popRecorded (h : GHeap N E R) (n : GNode) : (h.relabel f r).popRecorded n = ((h.popRecorded n).1.relabel f r, (h.popRecorded n).2.map r) := by
  unfold GHeap.popRecorded
  rw [relabel_rec]
  simp [GHeap.relabel, List.map_set]

theorem relabel_unwind (k : Nat) (h : GHeap N E R) (n : GNode) : GHeap.unwind k (h.relabel f r) n = ((GHeap.unwind k h n).1.relabel f r, (GHeap.unwind k h n).2) := by
  induction k generalizing h n with
  | zero => simp only [GHeap.unwind, relabel_fork]
  | succ k ih =>
    simp only [GHeap.unwind, relabel_top, relabel_neighbors, List.foldl_map]
    refine List.foldl_hom (fun st : GHeap N E R × List GNode => (st.1.relabel f r, st.2)) (init := (h, [])) fun st e => ?_
    simp only [ih]
    refine List.foldl_hom (fun st : GHeap N E R × List GNode => (st.1.relabel f r, st.2)) (init := ((GHeap.unwind k st.1 e.2).1, st.2)) fun st p => ?_
    simp only [relabel_push, relabel_fork]

/-! ## Records -/

/-- all recorded visits have a property -/
def GHeap.RecsOk (P : R → Prop) (h : GHeap N E R) : Prop := ∀ l ∈ h.recs, ∀ x ∈ l, P x

variable {P : R → Prop} {h : GHeap N E R}

theorem recsOk_get (hp : h.RecsOk P) (i : Nat) : ∀ x ∈ (h.recs[i]?).getD [], P x := by
  intro x hx
  cases hi : h.recs[i]? with
  | none => rw [hi] at hx; simp at hx
  | some l => rw [hi] at hx; exact hp l (List.mem_of_getElem? hi) x hx

theorem recsOk_fork (hp : h.RecsOk P) (n : GNode) : (h.fork n).1.RecsOk P := by
  intro l hl
  rcases List.mem_append.mp hl with hl | hl
  · exact hp l hl
  · rw [List.mem_singleton.mp hl]
    exact recsOk_get hp _

theorem recsOk_push (hp : h.RecsOk P) (n : GNode) (v : Option N) (e : Option E) : (h.push n v e).1.RecsOk P := hp

theorem recsOk_pop (hp : h.RecsOk P) {n x : GNode} {h' : GHeap N E R} (e : h.pop n = .ok (h', x)) : h'.RecsOk P := by
  unfold GHeap.pop at e
  split at e
  · cases e; exact hp
  · cases e

theorem recsOk_set (hp : h.RecsOk P) (i : Nat) {l : List R} (hl : ∀ x ∈ l, P x) : GHeap.RecsOk (N := N) (E := E) P { h with recs := h.recs.set i l } := by
  intro l' hl'
  rcases List.mem_or_eq_of_mem_set hl' with h1 | h1
  · exact hp l' h1
  · rw [h1]; exact hl

theorem recsOk_record (hp : h.RecsOk P) (n : GNode) {x : R} (hx : P x) : (h.record n x).RecsOk P := by
  refine recsOk_set hp _ ?_
  intro y hy
  rcases List.mem_append.mp hy with hy | hy
  · exact recsOk_get hp _ y hy
  · rw [List.mem_singleton.mp hy]; exact hx

theorem recsOk_popRecorded (hp : h.RecsOk P) (n : GNode) : (h.popRecorded n).1.RecsOk P ∧ ∀ x ∈ (h.popRecorded n).2, P x :=
  ⟨recsOk_set hp _ (by simp), recsOk_get hp _⟩

theorem recsOk_unwind (k : Nat) {h : GHeap N E R} (hp : h.RecsOk P) (n : GNode) : (GHeap.unwind k h n).1.RecsOk P := by
  induction k generalizing h n with
  | zero => exact recsOk_fork hp n
  | succ k ih =>
    simp only [GHeap.unwind]
    suffices H : ∀ (es : List (Option E × GNode)) (v : Option N) (st : GHeap N E R × List GNode), st.1.RecsOk P →
        (es.foldl (fun (st : GHeap N E R × List GNode) e =>
          (GHeap.unwind k st.1 e.2).2.foldl (fun (st : GHeap N E R × List GNode) parent =>
            (((st.1.push parent v e.1).1.fork { (st.1.push parent v e.1).2 with recd := n.recd }).1,
              st.2 ++ [((st.1.push parent v e.1).1.fork { (st.1.push parent v e.1).2 with recd := n.recd }).2])) ((GHeap.unwind k st.1 e.2).1, st.2)) st).1.RecsOk P from H _ _ (h, []) hp
    intro es v
    induction es with
    | nil => intro st hst; exact hst
    | cons e es ihe =>
      intro st hst
      rw [List.foldl_cons]
      apply ihe
      have : ∀ (ps : List GNode) (st : GHeap N E R × List GNode), st.1.RecsOk P → (ps.foldl (fun (st : GHeap N E R × List GNode) parent =>
            (((st.1.push parent v e.1).1.fork { (st.1.push parent v e.1).2 with recd := n.recd }).1,
              st.2 ++ [((st.1.push parent v e.1).1.fork { (st.1.push parent v e.1).2 with recd := n.recd }).2])) st).1.RecsOk P := by
        intro ps
        induction ps with
        | nil => intro st h; exact h
        | cons p ps ihp =>
          intro st h
          rw [List.foldl_cons]
          exact ihp _ (recsOk_fork (recsOk_push h _ _ _) _)
      exact this _ _ (ih hst _)

end Verif
