import Verif.Model.Glr
import Verif.Proofs.Closure
import Verif.Proofs.LRArms

/-! # The graph-structured stack of the GLR parser: linear stacks on the heap -/

set_option autoImplicit false

namespace Verif

variable {T : Type}

/-- the node at this address is the top of this stack; address 1 is the entry node -/
inductive Chain (h : GlrHeap T) : Nat → List StackSym → Prop
  | base {q : Nat} {nb : List (Option StackSym × GNode)} : h.inners[1]? = some ⟨some q, nb⟩ → Chain h 1 [.state q]
  | push {a q : Nat} {x : StackSym} {n : GNode} {rest : List StackSym} :
      h.inners[a]? = some ⟨some q, [(some x, n)]⟩ → a ≠ 1 → Chain h n.inner rest → Chain h a (.state q :: x :: rest)

/-- root and entry node; the flag tells whether the entry node's edge to the root has been taken -/
structure GBase (h : GlrHeap T) (popped : Bool) : Prop where
  root : h.inners[0]? = some ⟨none, []⟩
  entry : ∃ q r, h.inners[1]? = some ⟨some q, if popped then [] else [(none, ⟨0, r⟩)]⟩

/-- how a heap may develop: cells other than the entry node stay as they are -/
structure HExt (h h' : GlrHeap T) : Prop where
  inners : ∀ (a : Nat) (c : GInner Nat StackSym), h.inners[a]? = some c → a ≠ 1 → h'.inners[a]? = some c
  entry : ∀ (v : Option Nat) (nb : List (Option StackSym × GNode)), h.inners[1]? = some ⟨v, nb⟩ → ∃ nb', h'.inners[1]? = some ⟨v, nb'⟩
  recs : ∀ (r : Nat) (l : List (LREvent T)), h.recs[r]? = some l → h'.recs[r]? = some l

theorem HExt.refl (h : GlrHeap T) : HExt h h := ⟨fun _ _ h _ => h, fun _ nb h => ⟨nb, h⟩, fun _ _ h => h⟩

theorem HExt.trans {a b c : GlrHeap T} (h1 : HExt a b) (h2 : HExt b c) : HExt a c := by
  refine ⟨fun x y h hn => h2.inners x y (h1.inners x y h hn) hn, fun v nb h => ?_, fun r l h => h2.recs r l (h1.recs r l h)⟩
  obtain ⟨nb', h'⟩ := h1.entry v nb h
  exact h2.entry v nb' h'

theorem Chain.ext {h h' : GlrHeap T} (he : HExt h h') {a : Nat} {stk : List StackSym} (hc : Chain h a stk) : Chain h' a stk := by
  induction hc with
  | base hb => obtain ⟨nb', h'⟩ := he.entry _ _ hb; exact .base h'
  | push hb hn _ ih => exact .push (he.inners _ _ hb hn) hn ih

theorem Chain.lt {h : GlrHeap T} {a : Nat} {stk : List StackSym} (hc : Chain h a stk) : a < h.inners.length := by
  cases hc with
  | base hb => exact getElem?_lt hb
  | push hb _ _ => exact getElem?_lt hb

theorem Chain.top {h : GlrHeap T} {n : GNode} {q : Nat} {rest : List StackSym} (hc : Chain h n.inner (.state q :: rest)) : h.top n = some q := by
  unfold GHeap.top
  revert hc
  generalize n.inner = a
  intro hc
  cases hc with
  | base hb => simp [hb]
  | push hb _ _ => simp [hb]

theorem Chain.shape {h : GlrHeap T} {a : Nat} {stk : List StackSym} (hc : Chain h a stk) : ∃ q rest, stk = .state q :: rest := by
  cases hc <;> exact ⟨_, _, rfl⟩

theorem Chain.single {h : GlrHeap T} {a q : Nat} (hc : Chain h a [.state q]) : a = 1 := by cases hc; rfl

/-- nothing below a bound of addresses is changed -/
structure Keeps (B : Nat) (h h' : GlrHeap T) : Prop where
  inners : ∀ a, a < B → h'.inners[a]? = h.inners[a]?
  recs : ∀ r, r < h.recs.length → h'.recs[r]? = h.recs[r]?
  len : h.inners.length ≤ h'.inners.length
  rlen : h.recs.length ≤ h'.recs.length

theorem Keeps.refl (B : Nat) (h : GlrHeap T) : Keeps B h h := ⟨fun _ _ => rfl, fun _ _ => rfl, Nat.le_refl _, Nat.le_refl _⟩

theorem Keeps.trans {B : Nat} {a b c : GlrHeap T} (h1 : Keeps B a b) (h2 : Keeps B b c) : Keeps B a c :=
  ⟨fun x hx => (h2.inners x hx).trans (h1.inners x hx), fun r hr => (h2.recs r (Nat.lt_of_lt_of_le hr h1.rlen)).trans (h1.recs r hr),
    Nat.le_trans h1.len h2.len, Nat.le_trans h1.rlen h2.rlen⟩

theorem Keeps.hext {h h' : GlrHeap T} (hk : Keeps h.inners.length h h') : HExt h h' := by
  refine ⟨fun a c hc _ => ?_, fun v nb hc => ⟨nb, ?_⟩, fun r l hl => ?_⟩
  · rw [hk.inners a (getElem?_lt hc)]; exact hc
  · rw [hk.inners 1 (getElem?_lt hc)]; exact hc
  · rw [hk.recs r (getElem?_lt hl)]; exact hl

theorem Keeps.chain {h h' : GlrHeap T} (hk : Keeps h.inners.length h h') {a : Nat} {stk : List StackSym} (hc : Chain h a stk) : Chain h' a stk := hc.ext hk.hext

theorem Keeps.base {h h' : GlrHeap T} (hk : Keeps h.inners.length h h') {popped : Bool} (hb : GBase h popped) : GBase h' popped := by
  obtain ⟨h0, q, r, h1⟩ := hb
  exact ⟨by rw [hk.inners 0 (getElem?_lt h0)]; exact h0, q, r, by rw [hk.inners 1 (getElem?_lt h1)]; exact h1⟩

theorem fork_keeps (h : GlrHeap T) (n : GNode) (B : Nat) : Keeps B h (h.fork n).1 := by
  refine ⟨fun _ _ => rfl, fun r hr => ?_, Nat.le_refl _, by simp [GHeap.fork]⟩
  simp only [GHeap.fork]
  exact List.getElem?_append_left hr

theorem push_keeps (h : GlrHeap T) (n : GNode) (v : Option Nat) (e : Option StackSym) : Keeps h.inners.length h (h.push n v e).1 := by
  refine ⟨fun a ha => ?_, fun _ _ => rfl, by simp [GHeap.push], Nat.le_refl _⟩
  simp only [GHeap.push]
  exact List.getElem?_append_left ha

/-- a path of `k` fresh nodes down to a target -/
inductive FreshPath (h : GlrHeap T) (B : Nat) (t : Nat) : Nat → Nat → Prop
  | zero : FreshPath h B t 0 t
  | succ {k a : Nat} {v : Option Nat} {e : Option StackSym} {n : GNode} :
      h.inners[a]? = some ⟨v, [(e, n)]⟩ → B ≤ a → n.inner < a → FreshPath h B t k n.inner → FreshPath h B t (k + 1) a

theorem FreshPath.keep {h h' : GlrHeap T} {B t k a B' : Nat} (hf : FreshPath h B t k a) (hk : ∀ x, x < B' → h'.inners[x]? = h.inners[x]?) (ha : a < B') :
    FreshPath h' B t k a := by
  induction hf with
  | zero => exact .zero
  | succ hc hB hn _ ih => exact .succ (by rw [hk _ ha]; exact hc) hB hn (ih (by omega))

theorem FreshPath.mono {h : GlrHeap T} {B B' t k a : Nat} (hf : FreshPath h B t k a) (hB : B' ≤ B) : FreshPath h B' t k a := by
  induction hf with
  | zero => exact .zero
  | succ hc h2 hn _ ih => exact .succ hc (by omega) hn ih

/-- popping fresh nodes -/
theorem popTimes_fresh {B t : Nat} : ∀ (k : Nat) (h : GlrHeap T) (n : GNode), FreshPath h B t k n.inner →
    ∃ h', popTimes k h n = .ok (h', ⟨t, n.recd⟩) ∧ h'.recs = h.recs ∧ (∀ a, a < B → h'.inners[a]? = h.inners[a]?) ∧ h'.inners.length = h.inners.length := by
  intro k
  induction k with
  | zero =>
    intro h n hf
    cases n with
    | mk i r =>
      simp only at hf
      cases hf
      exact ⟨h, rfl, rfl, fun _ _ => rfl, rfl⟩
  | succ k ih =>
    intro h n hf
    obtain ⟨i, r⟩ := n
    simp only at hf
    cases hf with
    | @succ _ _ v e n1 hc hB hn hf =>
      have hpop : h.pop ⟨i, r⟩ = .ok ({ h with inners := h.inners.set i ⟨v, []⟩ }, ⟨n1.inner, r⟩) := by
        simp only [GHeap.pop, hc]
      obtain ⟨h', h1, h2, h3, h4⟩ := ih { h with inners := h.inners.set i ⟨v, []⟩ } ⟨n1.inner, r⟩
        (hf.keep (B' := i) (fun x hx => by simp only; rw [List.getElem?_set_ne (by omega)]) hn)
      refine ⟨h', ?_, h2, fun a ha => ?_, by simpa using h4⟩
      · unfold popTimes
        rw [hpop]
        exact h1
      · rw [h3 a ha]
        simp only
        rw [List.getElem?_set_ne (by omega)]

/-- unwinding copies the top of the stack -/
theorem unwind_chain : ∀ (k : Nat) (h : GlrHeap T) (n : GNode) (stk : List StackSym), Chain h n.inner stk → 2 * k < stk.length →
    ∃ h' n' t, h.unwind k n = (h', [n']) ∧ Keeps h.inners.length h h' ∧ h.recs.length ≤ n'.recd ∧ n'.recd < h'.recs.length ∧ n'.inner < h'.inners.length ∧
      (n.recd < h.recs.length → h'.recs[n'.recd]? = h.recs[n.recd]?) ∧ FreshPath h' h.inners.length t k n'.inner ∧ Chain h t (stk.drop (2 * k)) := by
  intro k
  induction k with
  | zero =>
    intro h n stk hc _
    refine ⟨(h.fork n).1, (h.fork n).2, n.inner, rfl, fork_keeps _ _ _, ?_, ?_, ?_, ?_, ?_, by simpa using hc⟩
    · simp [GHeap.fork]
    · simp [GHeap.fork]
    · simpa [GHeap.fork] using hc.lt
    · intro hr
      simp [GHeap.fork, List.getElem?_eq_getElem hr]
    · exact .zero
  | succ k ih =>
    intro h n stk hc hlen
    obtain ⟨i, r⟩ := n
    simp only at hc
    cases hc with
    | base hb => simp at hlen
    | @push a q x n1 rest hb hn hc =>
      simp only [List.length_cons] at hlen
      obtain ⟨h1, p, t, e1, k1, r1, r1', i1, _, f1, c1⟩ := ih h n1 rest hc (by omega)
      have hnb : h.neighbors ⟨i, r⟩ = [(some x, n1)] := by simp [GHeap.neighbors, hb]
      have htop : h.top ⟨i, r⟩ = some q := by simp [GHeap.top, hb]
      refine ⟨((h1.push p (some q) (some x)).1.fork ⟨h1.inners.length, r⟩).1, ((h1.push p (some q) (some x)).1.fork ⟨h1.inners.length, r⟩).2, t, ?_, ?_, ?_, ?_, ?_, ?_, ?_, ?_⟩
      · unfold GHeap.unwind
        simp only [hnb, htop, List.foldl_cons, List.foldl_nil, e1]
        rfl
      · refine (k1.trans ?_).trans (fork_keeps _ _ _)
        have := push_keeps h1 p (some q) (some x)
        exact ⟨fun a ha => this.inners a (Nat.lt_of_lt_of_le ha k1.len), this.recs, this.len, this.rlen⟩
      · simpa [GHeap.fork, GHeap.push] using k1.rlen
      · simp [GHeap.fork, GHeap.push]
      · simp [GHeap.fork, GHeap.push]
      · intro hr
        have := k1.recs r hr
        simp only at hr
        simp [GHeap.fork, GHeap.push, this, List.getElem?_eq_getElem hr]
      · refine .succ (v := some q) (e := some x) (n := p) ?_ ?_ ?_ ?_
        · simp [GHeap.fork, GHeap.push]
        · simpa [GHeap.fork, GHeap.push] using k1.len
        · simpa [GHeap.fork, GHeap.push] using i1
        · refine f1.keep (B' := h1.inners.length) (fun y hy => ?_) i1
          simp only [GHeap.fork, GHeap.push]
          exact List.getElem?_append_left hy
      · simpa [Nat.mul_add] using c1

end Verif
