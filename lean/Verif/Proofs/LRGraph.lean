import Verif.Proofs.LRCore
import Mathlib.Tactic.ByContra
import Mathlib.Data.List.Sublists

/-! # The parser graph: invariant of the construction, termination -/

set_option autoImplicit false

namespace Verif

variable {g : Grammar} {kind : LRKind}

/-- reachability along edges -/
inductive EReach (edges : List (Nat × Sym × Nat)) : Nat → Nat → Prop
  | refl (q : Nat) : EReach edges q q
  | step {p q q' : Nat} {X : Sym} : EReach edges p q → (q, X, q') ∈ edges → EReach edges p q'

theorem EReach.mono {e e' : List (Nat × Sym × Nat)} (h : ∀ x ∈ e, x ∈ e') {p q : Nat} (hr : EReach e p q) : EReach e' p q := by
  induction hr with
  | refl => exact .refl _
  | step _ he ih => exact .step ih (h _ he)

/-- the entry item -/
def entryItem (kind : LRKind) : Item := ⟨none, 0, kind.endLa⟩

/-- the lookahead of an item can follow the left side of its rule -/
def LaFollows (g : Grammar) (it : Item) : Prop :=
  ∀ x, it.la = some x → match it.rule with
    | none => x = .eof
    | some i => ∃ r, g.rules[i]? = some r ∧ CanFollow g r.lhs x

theorem rewrites_eof {rules : List Rule} {y : List Sym} (h : Rewrites rules [.eof] y) : y = [.eof] := by
  induction h with
  | refl => rfl
  | @step α β r _ _ ih =>
    exfalso
    have : Sym.nt r.lhs ∈ [Sym.eof] := by rw [← ih]; simp
    simp at this

theorem laFollows_closureStep (wf : g.WF) {it it' : Item} (h : LaFollows g it) (hs : ClosureStep g it it') : LaFollows g it' := by
  obtain ⟨A, i, r, x, h1, h2, rfl, h4, rfl⟩ := hs
  intro y hy
  simp only at hy
  subst hy
  refine ⟨r, h2, ?_⟩
  unfold ExpandsWith at h4
  cases hla : it.la with
  | none => simp [hla] at h4
  | some a =>
    simp only [hla] at h4
    obtain ⟨b, hb, _, γ, hγ⟩ := h4
    simp only [Option.some.injEq] at hb
    subst hb
    have ha := h a hla
    cases hr : it.rule with
    | none =>
      simp only [hr] at ha
      subst ha
      have hE : g.entry = .nt r.lhs := by
        simp only [Item.after, hr, ruleRhs] at h1
        cases hd : it.dot with
        | zero => simpa [hd] using h1
        | succ n => simp [hd] at h1
      have : strip ((ruleRhs g none).drop (it.dot + 1) ++ [Sym.eof]) = [.eof] := by simp [ruleRhs, strip]
      rw [hr, this] at hγ
      have := rewrites_eof hγ
      simp at this
      rw [this.1]
      exact ⟨[], [], by rw [hE]; exact .refl⟩
    | some j =>
      simp only [hr] at ha
      obtain ⟨r', hr', α, β, hc⟩ := ha
      have hrhs : ruleRhs g it.rule = r'.rhs := by simp [hr, ruleRhs, hr']
      rw [hrhs] at hγ
      have hsplit : r'.rhs = r'.rhs.take it.dot ++ .nt r.lhs :: r'.rhs.drop (it.dot + 1) := by
        unfold Item.after at h1
        rw [hrhs] at h1
        have hlt := getElem?_lt h1
        rw [List.getElem?_eq_getElem hlt] at h1
        simp only [Option.some.injEq] at h1
        rw [← h1, List.getElem_cons_drop, List.take_append_drop]
      have h5 := Rewrites.step hc (List.mem_of_getElem? hr')
      rw [hsplit] at h5
      have e1 : strip (r'.rhs.take it.dot ++ .nt r.lhs :: r'.rhs.drop (it.dot + 1)) = strip (r'.rhs.take it.dot) ++ .nt r.lhs :: strip (r'.rhs.drop (it.dot + 1)) := by
        simp [strip]
      have hae : a ≠ .eps := by
        rintro rfl
        have : strip (r'.rhs.drop (it.dot + 1) ++ [Sym.eps]) = strip (r'.rhs.drop (it.dot + 1)) := by simp [strip]
        have h6 : ∀ s ∈ α ++ Sym.nt r'.lhs :: Sym.eps :: β, s ≠ .eps := by
          have : ∀ {y : List Sym}, Rewrites g.rules [g.entry, .eof] y → ∀ s ∈ y, s ≠ Sym.eps := by
            intro y hy
            induction hy with
            | refl =>
              intro s hs
              obtain ⟨E, hE, _⟩ := wf.entry_declared
              simp only [List.mem_cons, List.not_mem_nil, or_false, hE] at hs
              rcases hs with rfl | rfl <;> simp
            | @step α β r _ _ ih =>
              intro s hs
              simp only [List.mem_append] at hs
              rcases hs with (hs | hs) | hs
              · exact ih s (by simp [hs])
              · simp only [strip, List.mem_filter, decide_eq_true_eq] at hs; exact hs.2
              · exact ih s (by simp [hs])
          exact this hc
        exact h6 .eps (by simp) rfl
      have e2 : strip (r'.rhs.drop (it.dot + 1) ++ [a]) = strip (r'.rhs.drop (it.dot + 1)) ++ [a] := by simp [strip, hae]
      rw [e2] at hγ
      have h6 := hγ.ctx (α ++ strip (r'.rhs.take it.dot) ++ [.nt r.lhs]) β
      rw [e1] at h5
      refine ⟨α ++ strip (r'.rhs.take it.dot), γ ++ β, ?_⟩
      refine Rewrites.trans ?_ (by simpa using h6)
      simpa using h5

theorem laFollows_closure (wf : g.WF) {it it' : Item} (h : LaFollows g it) (hs : Closure g it it') : LaFollows g it' := by
  induction hs with
  | self => exact h
  | step _ hs ih => exact laFollows_closureStep wf ih hs

theorem laFollows_goto (wf : g.WF) {s : List Item} (h : ∀ it ∈ s, LaFollows g it) {X : Sym} {it : Item} (hg : GotoSet g s X it) : LaFollows g it := by
  obtain ⟨k, hk, _, _, hc⟩ := hg
  exact laFollows_closure wf (it := { k with dot := k.dot + 1 }) (fun x hx => h k hk x hx) hc

/-- what holds of the graph at every moment -/
structure Base (g : Grammar) (kind : LRKind) (gr : LRGraph) : Prop where
  sorted : ∀ (q : Nat) (s : List Item), gr.sets[q]? = some s → SSorted s
  nonempty : ∀ (q : Nat) (s : List Item), gr.sets[q]? = some s → s ≠ []
  items : ∀ (q : Nat) (s : List Item), gr.sets[q]? = some s → ∀ it ∈ s, ItemOk g kind it
  closed : ∀ (q : Nat) (s : List Item), gr.sets[q]? = some s → ∀ it ∈ s, ∀ it', ClosureStep g it it' → it' ∈ s
  start : ∃ s, gr.sets[0]? = some s ∧ ∀ it, it ∈ s ↔ Closure g (entryItem kind) it
  inj : ∀ (q q' : Nat) (s s' : List Item), gr.sets[q]? = some s → gr.sets[q']? = some s' →
    (kind.isLalr = true → ∀ c, InCore s c ↔ InCore s' c) → (kind.isLalr = false → s = s') → q = q'
  cores : kind.isLalr = true → ∀ (c : List Item) (q : Nat), coreLookup c gr.cores = some q ↔ ∃ s, gr.sets[q]? = some s ∧ lr0Core s = c
  edge : ∀ (q : Nat) (X : Sym) (q' : Nat), (q, X, q') ∈ gr.edges → ∃ s s', gr.sets[q]? = some s ∧ gr.sets[q']? = some s' ∧
    (∀ c, InCore s' c ↔ CGoto g kind (InCore s) X c) ∧ (kind.isLalr = false → ∀ it, it ∈ s' ↔ GotoSet g s X it)
  follow : ∀ (q : Nat) (s : List Item), gr.sets[q]? = some s → ∀ it ∈ s, LaFollows g it

/-- every node is reachable from the entry node -/
def Reached (gr : LRGraph) : Prop := ∀ q, q < gr.sets.length → EReach gr.edges 0 q

/-- number of states and items -/
def pot (gr : LRGraph) : Nat := (gr.sets.map (fun s => 1 + s.length)).sum

/-- how a graph and worklist may develop -/
structure LRExt (kind : LRKind) (st st' : LRGraph × List Nat) : Prop where
  len : st.1.sets.length ≤ st'.1.sets.length
  old : ∀ (q : Nat) (s : List Item), st.1.sets[q]? = some s → ∃ s', st'.1.sets[q]? = some s' ∧ (∀ it ∈ s, it ∈ s') ∧ (∀ c, InCore s c ↔ InCore s' c) ∧
    (q ∉ st'.2 → s' = s) ∧ (kind.isLalr = false → s' = s)
  edges : ∀ e ∈ st.1.edges, e ∈ st'.1.edges
  work : ∀ q ∈ st.2, q ∈ st'.2
  fresh : ∀ q, st.1.sets.length ≤ q → q < st'.1.sets.length → q ∈ st'.2
  pot : pot st.1 + st'.2.length ≤ pot st'.1 + st.2.length

theorem LRExt.refl (st : LRGraph × List Nat) : LRExt kind st st :=
  ⟨Nat.le_refl _, fun q s h => ⟨s, h, fun _ h => h, fun _ => Iff.rfl, fun _ => rfl, fun _ => rfl⟩, fun _ h => h, fun _ h => h, fun q h1 h2 => by omega, Nat.le_refl _⟩

theorem LRExt.trans {a b c : LRGraph × List Nat} (h1 : LRExt kind a b) (h2 : LRExt kind b c) : LRExt kind a c := by
  refine ⟨Nat.le_trans h1.len h2.len, fun q s h => ?_, fun e h => h2.edges e (h1.edges e h), fun q h => h2.work q (h1.work q h), fun q h3 h4 => ?_, ?_⟩
  · obtain ⟨s', a1, a2, a3, a4, a5⟩ := h1.old q s h
    obtain ⟨s'', b1, b2, b3, b4, b5⟩ := h2.old q s' a1
    refine ⟨s'', b1, fun it h => b2 it (a2 it h), fun c => (a3 c).trans (b3 c), fun hn => ?_, fun hn => ?_⟩
    · rw [b4 hn, a4 (fun h => hn (h2.work q h))]
    · rw [b5 hn, a5 hn]
  · by_cases h : q < b.1.sets.length
    · exact h2.work q (h1.fresh q h3 h)
    · exact h2.fresh q (by omega) h4
  · have := h1.pot
    have := h2.pot
    omega

theorem gotoSet_rule {S : List Item} {X : Sym} {it : Item} (h : GotoSet g S X it) : it.rule ≠ none := by
  obtain ⟨k, _, _, h3, h4⟩ := h
  induction h4 with
  | self => exact h3
  | step _ hs _ => obtain ⟨_, _, _, _, _, _, _, _, rfl⟩ := hs; simp

theorem gotoSet_closed {S : List Item} {X : Sym} {it it' : Item} (h : GotoSet g S X it) (hs : ClosureStep g it it') : GotoSet g S X it' := by
  obtain ⟨k, h1, h2, h3, h4⟩ := h
  exact ⟨k, h1, h2, h3, .step h4 hs⟩

theorem pot_addState (gr : LRGraph) (S : List Item) : pot (gr.addState S).1 = pot gr + 1 + S.length := by
  simp [pot, LRGraph.addState]; omega

theorem pot_edge (gr : LRGraph) (q : Nat) (X : Sym) (q' : Nat) : pot (gr.addTransition q X q') = pot gr := rfl

theorem sum_set {f : List Item → Nat} {l : List (List Item)} {q : Nat} {old new : List Item} (h : l[q]? = some old) :
    ((l.set q new).map f).sum + f old = (l.map f).sum + f new := by
  induction l generalizing q with
  | nil => simp at h
  | cons x l ih =>
    cases q with
    | zero => simp at h; subst h; simp; omega
    | succ q =>
      simp only [List.getElem?_cons_succ] at h
      have := ih h
      simp only [List.set_cons_succ, List.map_cons, List.sum_cons]
      omega

theorem mergeItems_spec : ∀ (its set : List Item) (ch : Bool), SSorted set →
    SSorted (mergeItems its (set, ch)).1 ∧ (∀ it, it ∈ (mergeItems its (set, ch)).1 ↔ it ∈ set ∨ it ∈ its) ∧
    ((mergeItems its (set, ch)).2 = false → (mergeItems its (set, ch)).1 = set ∧ ch = false) ∧
    set.length ≤ (mergeItems its (set, ch)).1.length ∧
    ((mergeItems its (set, ch)).2 = true → ch = true ∨ set.length < (mergeItems its (set, ch)).1.length) := by
  intro its
  induction its with
  | nil => intro set ch h; simp [mergeItems, h]
  | cons x its ih =>
    intro set ch h
    obtain ⟨h1, h2, h3, h4, h5⟩ := ih (sinsert x set) (ch || !set.contains x) (sinsert_sorted h)
    simp only [mergeItems]
    refine ⟨h1, fun it => ?_, fun hf => ?_, ?_, fun ht => ?_⟩
    · rw [h2, mem_sinsert, List.mem_cons]; tauto
    · obtain ⟨a, b⟩ := h3 hf
      simp at b
      rw [a, sinsert_of_mem h b.2]
      exact ⟨rfl, b.1⟩
    · by_cases hx : x ∈ set
      · rw [sinsert_of_mem h hx] at h4; rw [sinsert_of_mem h hx]; exact h4
      · have := sinsert_length h hx; omega
    · by_cases hx : x ∈ set
      · rcases h5 ht with h6 | h6
        · simp [hx] at h6; exact .inl h6
        · rw [sinsert_of_mem h hx] at h6 ⊢; exact .inr h6
      · have := sinsert_length h hx
        exact .inr (by omega)

theorem Base.addEdge {gr : LRGraph} (hb : Base g kind gr) {q q' : Nat} {X : Sym} {s s' : List Item} (hs : gr.sets[q]? = some s) (hs' : gr.sets[q']? = some s')
    (hc : ∀ c, InCore s' c ↔ CGoto g kind (InCore s) X c) (he : kind.isLalr = false → ∀ it, it ∈ s' ↔ GotoSet g s X it) :
    Base g kind (gr.addTransition q X q') := by
  refine ⟨hb.sorted, hb.nonempty, hb.items, hb.closed, hb.start, hb.inj, hb.cores, fun p Y p' h => ?_, hb.follow⟩
  rcases List.mem_append.mp h with h | h
  · exact hb.edge p Y p' h
  · simp at h
    obtain ⟨rfl, rfl, rfl⟩ := h
    exact ⟨s, s', hs, hs', hc, he⟩

/-- a set that may become a state -/
structure NewSet (g : Grammar) (kind : LRKind) (S : List Item) : Prop where
  sorted : SSorted S
  nonempty : S ≠ []
  items : ∀ it ∈ S, ItemOk g kind it
  closed : ∀ it ∈ S, ∀ it', ClosureStep g it it' → it' ∈ S
  follow : ∀ it ∈ S, LaFollows g it

theorem getElem?_snoc {α : Type} {l : List α} {x y : α} {q : Nat} : (l ++ [x])[q]? = some y ↔ l[q]? = some y ∨ (q = l.length ∧ y = x) := by
  rcases Nat.lt_trichotomy q l.length with h | h | h
  · rw [List.getElem?_append_left h]
    simp; omega
  · subst h; simp [eq_comm]
  · rw [List.getElem?_append_right (by omega), List.getElem?_eq_none (by simp; omega), List.getElem?_eq_none (by omega)]
    simp; omega

theorem Base.addState {gr : LRGraph} (hb : Base g kind gr) {S : List Item} (hS : NewSet g kind S)
    (hn : ∀ (q : Nat) (s : List Item), gr.sets[q]? = some s → (kind.isLalr = true → ∀ c, InCore s c ↔ InCore S c) → (kind.isLalr = false → s = S) → False) :
    Base g kind (gr.addState S).1 := by
  have get : ∀ {q : Nat} {s : List Item}, (gr.addState S).1.sets[q]? = some s ↔ gr.sets[q]? = some s ∨ (q = gr.sets.length ∧ s = S) := getElem?_snoc
  refine ⟨fun q s h => ?_, fun q s h => ?_, fun q s h => ?_, fun q s h => ?_, ?_, fun q q' s s' h h' c1 c2 => ?_, fun hl c q => ?_, fun q X q' h => ?_, fun q s h => ?_⟩
  · rcases get.mp h with h | ⟨_, rfl⟩
    · exact hb.sorted q s h
    · exact hS.sorted
  · rcases get.mp h with h | ⟨_, rfl⟩
    · exact hb.nonempty q s h
    · exact hS.nonempty
  · rcases get.mp h with h | ⟨_, rfl⟩
    · exact hb.items q s h
    · exact hS.items
  · rcases get.mp h with h | ⟨_, rfl⟩
    · exact hb.closed q s h
    · exact hS.closed
  · obtain ⟨s, h1, h2⟩ := hb.start
    exact ⟨s, get.mpr (.inl h1), h2⟩
  · rcases get.mp h with k | ⟨rfl, rfl⟩
    · rcases get.mp h' with k' | ⟨rfl, rfl⟩
      · exact hb.inj q q' s s' k k' c1 c2
      · exact (hn q s k c1 c2).elim
    · rcases get.mp h' with k' | ⟨rfl, rfl⟩
      · exact (hn q' s' k' (fun l c => (c1 l c).symm) (fun l => (c2 l).symm)).elim
      · rfl
  · simp only [LRGraph.addState, coreLookup]
    by_cases he : lr0Core S = c
    · rw [if_pos he]
      constructor
      · intro h; simp at h; subst h; exact ⟨S, by simp, he⟩
      · rintro ⟨s, h1, h2⟩
        rcases getElem?_snoc.mp h1 with h1 | ⟨rfl, _⟩
        · exfalso
          refine hn q s h1 (fun _ => ?_) (fun h => by rw [hl] at h; cases h)
          rw [← lr0Core_eq, h2, he]
        · rfl
    · rw [if_neg he, hb.cores hl]
      constructor
      · rintro ⟨s, h1, h2⟩; exact ⟨s, getElem?_snoc.mpr (.inl h1), h2⟩
      · rintro ⟨s, h1, h2⟩
        rcases getElem?_snoc.mp h1 with h1 | ⟨rfl, rfl⟩
        · exact ⟨s, h1, h2⟩
        · exact (he h2).elim
  · obtain ⟨s, s', h1, h2, h3⟩ := hb.edge q X q' h
    exact ⟨s, s', get.mpr (.inl h1), get.mpr (.inl h2), h3⟩
  · rcases get.mp h with h | ⟨_, rfl⟩
    · exact hb.follow q s h
    · exact hS.follow

theorem getElem?_set_iff {α : Type} {l : List α} {q p : Nat} {x y : α} (hq : q < l.length) :
    (l.set q x)[p]? = some y ↔ (p = q ∧ y = x) ∨ (p ≠ q ∧ l[p]? = some y) := by
  rw [List.getElem?_set]
  by_cases h : q = p
  · subst h; simp [hq, eq_comm]
  · simp [h, Ne.symm h]

/-- merging a set with the same core into a state other than the entry state -/
theorem Base.merge {gr : LRGraph} (hb : Base g kind gr) (hl : kind.isLalr = true) {S old : List Item} (hS : NewSet g kind S) {q : Nat}
    (hq : gr.sets[q]? = some old) (hc : ∀ c, InCore old c ↔ InCore S c) (h0 : q ≠ 0) {new : List Item}
    (hnew : ∀ it, it ∈ new ↔ it ∈ old ∨ it ∈ S) (hns : SSorted new) :
    Base g kind { gr with sets := gr.sets.set q new, cores := (lr0Core new, q) :: gr.cores } ∧ ∀ c, InCore old c ↔ InCore new c := by
  have hlt := getElem?_lt hq
  have hcore : ∀ c, InCore old c ↔ InCore new c := by
    intro c
    constructor
    · rintro ⟨it, h1, h2⟩; exact ⟨it, (hnew it).mpr (.inl h1), h2⟩
    · rintro ⟨it, h1, h2⟩
      rcases (hnew it).mp h1 with h1 | h1
      · exact ⟨it, h1, h2⟩
      · exact (hc c).mpr ⟨it, h1, h2⟩
  have get : ∀ {p : Nat} {s : List Item}, (gr.sets.set q new)[p]? = some s ↔ (p = q ∧ s = new) ∨ (p ≠ q ∧ gr.sets[p]? = some s) := getElem?_set_iff hlt
  -- every state of the new graph has the core of an old one
  have back : ∀ {p : Nat} {s : List Item}, (gr.sets.set q new)[p]? = some s → ∃ s0, gr.sets[p]? = some s0 ∧ ∀ c, InCore s0 c ↔ InCore s c := by
    intro p s h
    rcases get.mp h with ⟨rfl, rfl⟩ | ⟨_, h⟩
    · exact ⟨old, hq, hcore⟩
    · exact ⟨s, h, fun _ => Iff.rfl⟩
  have fwd : ∀ {p : Nat} {s : List Item}, gr.sets[p]? = some s → ∃ s1, (gr.sets.set q new)[p]? = some s1 ∧ ∀ c, InCore s c ↔ InCore s1 c := by
    intro p s h
    by_cases hp : p = q
    · subst hp; rw [hq] at h; simp at h; subst h; exact ⟨new, get.mpr (.inl ⟨rfl, rfl⟩), hcore⟩
    · exact ⟨s, get.mpr (.inr ⟨hp, h⟩), fun _ => Iff.rfl⟩
  refine ⟨⟨fun p s h => ?_, fun p s h => ?_, fun p s h => ?_, fun p s h => ?_, ?_, fun p p' s s' h h' c1 c2 => ?_, fun hl c p => ?_, fun p X p' h => ?_, fun p s h => ?_⟩, hcore⟩
  · rcases get.mp h with ⟨rfl, rfl⟩ | ⟨_, h⟩
    · exact hns
    · exact hb.sorted p s h
  · rcases get.mp h with ⟨rfl, rfl⟩ | ⟨_, h⟩
    · intro hn
      obtain ⟨x, hx⟩ := List.exists_mem_of_ne_nil S hS.nonempty
      have := (hnew x).mpr (.inr hx)
      rw [hn] at this; simp at this
    · exact hb.nonempty p s h
  · rcases get.mp h with ⟨rfl, rfl⟩ | ⟨_, h⟩
    · intro it hit
      rcases (hnew it).mp hit with h | h
      · exact hb.items _ _ hq it h
      · exact hS.items it h
    · exact hb.items p s h
  · rcases get.mp h with ⟨rfl, rfl⟩ | ⟨_, h⟩
    · intro it hit it' hs
      rcases (hnew it).mp hit with h | h
      · exact (hnew it').mpr (.inl (hb.closed _ _ hq it h it' hs))
      · exact (hnew it').mpr (.inr (hS.closed it h it' hs))
    · exact hb.closed p s h
  · obtain ⟨s, h1, h2⟩ := hb.start
    exact ⟨s, get.mpr (.inr ⟨Ne.symm h0, h1⟩), h2⟩
  · obtain ⟨s0, a1, a2⟩ := back h
    obtain ⟨s0', b1, b2⟩ := back h'
    exact hb.inj p p' s0 s0' a1 b1 (fun l c => (a2 c).trans ((c1 l c).trans (b2 c).symm)) (fun l => by rw [hl] at l; cases l)
  · simp only [coreLookup]
    by_cases he : lr0Core new = c
    · rw [if_pos he]
      constructor
      · intro h; simp at h; subst h; exact ⟨new, get.mpr (.inl ⟨rfl, rfl⟩), he⟩
      · rintro ⟨s, h1, h2⟩
        obtain ⟨s0, a1, a2⟩ := back h1
        have := hb.inj q p old s0 hq a1 (fun _ c' => by
          rw [← he, lr0Core_eq] at h2
          exact (hcore c').trans ((h2 c').symm.trans (a2 c').symm)) (fun l => by rw [hl] at l; cases l)
        rw [this]
    · rw [if_neg he, hb.cores hl]
      constructor
      · rintro ⟨s, h1, h2⟩
        obtain ⟨s1, a1, a2⟩ := fwd h1
        exact ⟨s1, a1, by rw [← h2, lr0Core_eq]; exact fun c => (a2 c).symm⟩
      · rintro ⟨s, h1, h2⟩
        obtain ⟨s0, a1, a2⟩ := back h1
        exact ⟨s0, a1, by rw [← h2, lr0Core_eq]; exact a2⟩
  · obtain ⟨s, s', h1, h2, h3, _⟩ := hb.edge p X p' h
    obtain ⟨t, a1, a2⟩ := fwd h1
    obtain ⟨t', b1, b2⟩ := fwd h2
    exact ⟨t, t', a1, b1, fun c => (b2 c).symm.trans ((h3 c).trans (CGoto.congr a2)), fun l => by rw [hl] at l; cases l⟩
  · rcases get.mp h with ⟨rfl, rfl⟩ | ⟨_, h⟩
    · intro it hit
      rcases (hnew it).mp hit with h | h
      · exact hb.follow _ _ hq it h
      · exact hS.follow it h
    · exact hb.follow p s h

/-- what a link step does -/
structure LinkOk (g : Grammar) (kind : LRKind) (q : Nat) (X : Sym) (S : List Item) (st st' : LRGraph × List Nat) : Prop where
  base : Base g kind st'.1
  ext : LRExt kind st st'
  reached : Reached st'.1
  linked : ∃ q' s', (q, X, q') ∈ st'.1.edges ∧ st'.1.sets[q']? = some s' ∧ ∀ it ∈ S, it ∈ s'

theorem mem_snoc_edges {gr : LRGraph} {q q' : Nat} {X : Sym} : (q, X, q') ∈ (gr.addTransition q X q').edges := by simp [LRGraph.addTransition]

theorem linkNew {st : LRGraph × List Nat} (hb : Base g kind st.1) (hr : Reached st.1) {q : Nat} {X : Sym} {S s : List Item} (hS : NewSet g kind S)
    (hq : st.1.sets[q]? = some s) (hc : ∀ c, InCore S c ↔ CGoto g kind (InCore s) X c) (he : kind.isLalr = false → ∀ it, it ∈ S ↔ GotoSet g s X it)
    (hn : ∀ (p : Nat) (t : List Item), st.1.sets[p]? = some t → (kind.isLalr = true → ∀ c, InCore t c ↔ InCore S c) → (kind.isLalr = false → t = S) → False) :
    LinkOk g kind q X S st ((st.1.addState S).1.addTransition q X st.1.sets.length, st.1.sets.length :: st.2) := by
  have h1 := hb.addState hS hn
  have e0 : (st.1.addState S).1.sets = st.1.sets ++ [S] := rfl
  have hq' : (st.1.addState S).1.sets[q]? = some s := by rw [e0]; exact getElem?_snoc.mpr (.inl hq)
  have hnew : (st.1.addState S).1.sets[st.1.sets.length]? = some S := by rw [e0]; exact getElem?_snoc.mpr (.inr ⟨rfl, rfl⟩)
  refine ⟨h1.addEdge hq' hnew hc he, ⟨?_, fun p t h => ?_, fun e h => ?_, fun p h => List.mem_cons_of_mem _ h, fun p h2 h3 => ?_, ?_⟩, ?_,
    ⟨st.1.sets.length, S, mem_snoc_edges, hnew, fun _ h => h⟩⟩
  · simp [LRGraph.addTransition, LRGraph.addState]
  · exact ⟨t, getElem?_snoc.mpr (.inl h), fun _ h => h, fun _ => Iff.rfl, fun _ => rfl, fun _ => rfl⟩
  · exact List.mem_append.mpr (.inl h)
  · simp [LRGraph.addTransition, LRGraph.addState] at h3
    have : p = st.1.sets.length := by omega
    subst this; exact List.mem_cons_self
  · rw [pot_edge, pot_addState]; simp; omega
  · intro p hp
    have key : ∀ p, EReach st.1.edges 0 p → EReach ((st.1.addState S).1.addTransition q X st.1.sets.length).edges 0 p :=
      fun p h => h.mono (fun x hx => List.mem_append.mpr (.inl hx))
    simp [LRGraph.addTransition, LRGraph.addState] at hp
    by_cases hlt : p < st.1.sets.length
    · exact key p (hr p hlt)
    · have : p = st.1.sets.length := by omega
      subst this
      exact .step (key q (hr q (getElem?_lt hq))) mem_snoc_edges

theorem linkStep_spec (wf : g.WF) {st : LRGraph × List Nat} (hb : Base g kind st.1) (hr : Reached st.1) {q : Nat} {X : Sym} {S s s0 : List Item}
    (hS : NewSet g kind S) (hs0 : ∀ it ∈ s0, ItemOk g kind it) (hmem : ∀ it, it ∈ S ↔ GotoSet g s0 X it)
    (hq : st.1.sets[q]? = some s) (hsc : ∀ c, InCore s0 c ↔ InCore s c) (hse : kind.isLalr = false → s = s0) :
    ∃ st', linkStep kind.isLalr q st (X, S) = .ok st' ∧ LinkOk g kind q X S st st' := by
  have hc : ∀ c, InCore S c ↔ CGoto g kind (InCore s) X c := by
    intro c
    rw [← CGoto.congr hsc, ← gotoSet_core wf hs0]
    constructor
    · rintro ⟨it, h1, h2⟩; exact ⟨it, (hmem it).mp h1, h2⟩
    · rintro ⟨it, h1, h2⟩; exact ⟨it, (hmem it).mpr h1, h2⟩
  have he : kind.isLalr = false → ∀ it, it ∈ S ↔ GotoSet g s X it := fun h => by rw [hse h]; exact hmem
  unfold linkStep
  cases hl : kind.isLalr with
  | true =>
    simp only [if_true]
    cases hg : st.1.getByCore S with
    | none =>
      refine ⟨_, rfl, linkNew hb hr hS hq hc he fun p t ht c1 _ => ?_⟩
      have := (hb.cores hl (lr0Core S) p).mpr ⟨t, ht, lr0Core_eq.mpr (c1 hl)⟩
      rw [LRGraph.getByCore] at hg
      rw [hg] at this
      simp at this
    | some q' =>
      obtain ⟨old, ho, hoc⟩ := (hb.cores hl (lr0Core S) q').mp hg
      have hoc := lr0Core_eq.mp hoc
      obtain ⟨m1, m2, m3, m4, m5⟩ := mergeItems_spec S old false (hb.sorted _ _ ho)
      have h0 : q' ≠ 0 := by
        rintro rfl
        obtain ⟨t, t1, t2⟩ := hb.start
        rw [ho] at t1
        simp at t1
        subst t1
        obtain ⟨it, i1, i2, _⟩ := (hoc (none, 0)).mp ⟨entryItem kind, (t2 _).mpr .self, rfl, rfl⟩
        exact gotoSet_rule ((hmem it).mp i1) i2
      obtain ⟨hb', hcore⟩ := hb.merge hl hS ho hoc h0 m2 m1
      generalize hm : mergeItems S (old, false) = mm at *
      have hmerge : st.1.merge q' S = .ok ({ st.1 with sets := st.1.sets.set q' mm.1, cores := (lr0Core mm.1, q') :: st.1.cores }, mm.2) := by
        simp only [LRGraph.merge, ho, hm]
      simp only
      refine ⟨_, res_bind_ok.mpr ⟨_, hmerge, rfl⟩, ?_⟩
      have hlt := getElem?_lt ho
      have get : ∀ {p : Nat} {t : List Item}, (st.1.sets.set q' mm.1)[p]? = some t ↔ (p = q' ∧ t = mm.1) ∨ (p ≠ q' ∧ st.1.sets[p]? = some t) := getElem?_set_iff hlt
      have hnew : (st.1.sets.set q' mm.1)[q']? = some mm.1 := get.mpr (.inl ⟨rfl, rfl⟩)
      obtain ⟨s1, hs1, hs1c⟩ : ∃ s1, (st.1.sets.set q' mm.1)[q]? = some s1 ∧ ∀ c, InCore s c ↔ InCore s1 c := by
        by_cases hp : q = q'
        · subst hp; rw [hq] at ho; simp at ho; subst ho; exact ⟨_, hnew, hcore⟩
        · exact ⟨s, get.mpr (.inr ⟨hp, hq⟩), fun _ => Iff.rfl⟩
      refine ⟨hb'.addEdge hs1 hnew (fun c => (hcore c).symm.trans ((hoc c).trans ((hc c).trans (CGoto.congr hs1c)))) (fun h => by rw [hl] at h; cases h),
        ⟨?_, fun p t h => ?_, fun e h => List.mem_append.mpr (.inl h), fun p h => ?_, fun p h2 h3 => ?_, ?_⟩, ?_, ⟨q', mm.1, mem_snoc_edges, hnew, fun it h => (m2 it).mpr (.inr h)⟩⟩
      · simp [LRGraph.addTransition]
      · by_cases hp : p = q'
        · subst hp
          rw [ho] at h; simp at h; subst h
          refine ⟨mm.1, hnew, fun it h => (m2 it).mpr (.inl h), hcore, fun hn => ?_, fun h => by rw [hl] at h; cases h⟩
          cases hch : mm.2 with
          | false => exact (m3 hch).1
          | true => simp [hch] at hn
        · exact ⟨t, get.mpr (.inr ⟨hp, h⟩), fun _ h => h, fun _ => Iff.rfl, fun _ => rfl, fun _ => rfl⟩
      · show p ∈ (if mm.2 then q' :: st.2 else st.2)
        split
        · exact List.mem_cons_of_mem _ h
        · exact h
      · simp [LRGraph.addTransition] at h3; omega
      · rw [pot_edge]
        have := sum_set (f := fun s => 1 + s.length) (new := mm.1) ho
        simp only [pot]
        cases hch : mm.2 with
        | false => simp only [Bool.false_eq_true, if_false]; omega
        | true =>
          have := m5 hch
          simp only [Bool.false_eq_true, false_or] at this
          simp only [if_true, List.length_cons]
          omega
      · intro p hp
        simp [LRGraph.addTransition] at hp
        exact (hr p hp).mono (fun x hx => List.mem_append.mpr (.inl hx))
  | false =>
    simp only [Bool.false_eq_true, if_false]
    cases hg : st.1.getState S with
    | none =>
      refine ⟨_, rfl, linkNew hb hr hS hq hc he fun p t ht _ c2 => ?_⟩
      have := c2 hl
      subst this
      rw [LRGraph.getState, List.findIdx?_eq_none_iff] at hg
      have := hg t (List.mem_of_getElem? ht)
      simp at this
    | some q' =>
      have ho : st.1.sets[q']? = some S := by
        rw [LRGraph.getState, List.findIdx?_eq_some_iff_getElem] at hg
        obtain ⟨h1, h2, _⟩ := hg
        rw [List.getElem?_eq_getElem h1]
        simpa using h2
      refine ⟨_, rfl, hb.addEdge hq ho hc he, ⟨?_, fun p t h => ?_, fun e h => List.mem_append.mpr (.inl h), fun p h => h, fun p h2 h3 => ?_, ?_⟩, ?_,
        ⟨q', S, mem_snoc_edges, ho, fun _ h => h⟩⟩
      · simp [LRGraph.addTransition]
      · exact ⟨t, h, fun _ h => h, fun _ => Iff.rfl, fun _ => rfl, fun _ => rfl⟩
      · simp [LRGraph.addTransition] at h3; omega
      · rw [pot_edge]
      · intro p hp
        exact (hr p hp).mono (fun x hx => List.mem_append.mpr (.inl hx))

/-- every item with a symbol after the dot has its transition -/
def Done (g : Grammar) (gr : LRGraph) (q : Nat) : Prop :=
  ∀ (s : List Item), gr.sets[q]? = some s → ∀ k ∈ s, ∀ X, k.after g = some X → k.rule ≠ none →
    ∃ (q' : Nat) (s' : List Item), (q, X, q') ∈ gr.edges ∧ gr.sets[q']? = some s' ∧ ({ k with dot := k.dot + 1 } : Item) ∈ s'

/-- invariant of the main loop -/
structure LoopInv (g : Grammar) (kind : LRKind) (gr : LRGraph) (work : List Nat) : Prop where
  base : Base g kind gr
  reached : Reached gr
  inRange : ∀ q ∈ work, q < gr.sets.length
  done : ∀ q, q < gr.sets.length → q ∉ work → Done g gr q

theorem processState_spec (wf : g.WF) {fs : SymSets} (hfs : FsOk g kind fs) (fuel : Nat) {q : Nat} {gr : LRGraph} {work : List Nat}
    (hinv : LoopInv g kind gr (q :: work)) (hw : ∀ p ∈ work, p < gr.sets.length) :
    Out (closureFuel g kind ≤ fuel) (SafeFor g kind) (fun st => LoopInv g kind st.1 st.2 ∧ LRExt kind (gr, work) st)
      (processState g fs fuel kind.isLalr q (gr, work)) := by
  have hq := hinv.inRange q List.mem_cons_self
  have hs0 : gr.sets[q]? = some gr.sets[q] := List.getElem?_eq_getElem hq
  unfold processState
  simp only [hs0]
  have hit := hinv.base.items q _ hs0
  refine (transitions_spec wf hfs hit fuel).bind fun m hm => ?_
  refine (Out.foldlM (fun pre st => Base g kind st.1 ∧ Reached st.1 ∧ LRExt kind (gr, work) st ∧ (∀ p ∈ st.2, p < st.1.sets.length) ∧
    ∀ e ∈ pre, ∃ (q' : Nat) (s' : List Item), (q, e.1, q') ∈ st.1.edges ∧ st.1.sets[q']? = some s' ∧ ∀ it ∈ e.2, it ∈ s') ?_ ?_).imp ?_
  · exact ⟨hinv.base, hinv.reached, .refl _, hw, by simp⟩
  · rintro pre ⟨X, S⟩ post st hl ⟨h1, h2, h3, h4, h5⟩
    have hget : mget? X m = some S := mem_mget? hm.msorted (hl ▸ List.mem_append.mpr (.inr List.mem_cons_self))
    obtain ⟨s1, s2, s3⟩ := hm.sorted X S hget
    have hmem : ∀ it, it ∈ S ↔ GotoSet g gr.sets[q] X it := by
      intro it
      rw [← hm.mem, hget]
      simp
    obtain ⟨s, o1, o2, o3, o4, o5⟩ := h3.old q _ hs0
    obtain ⟨st', l1, l2⟩ := linkStep_spec wf h1 h2 ⟨s1, s2, s3, fun it hi it' hs => (hmem it').mpr (gotoSet_closed ((hmem it).mp hi) hs),
      fun it hi => laFollows_goto wf (hinv.base.follow q _ hs0) ((hmem it).mp hi)⟩ hit hmem o1 o3 o5
    rw [l1]
    refine ⟨l2.base, l2.reached, h3.trans l2.ext, ?_, ?_⟩
    · intro p hp
      have hcases : p ∈ st.2 ∨ p < st'.1.sets.length := by
        unfold linkStep at l1
        split at l1
        · split at l1
          · rename_i q' hg
            obtain ⟨⟨gr2, ch⟩, a1, a2⟩ := res_bind_ok.mp l1
            simp only [Except.ok.injEq] at a2
            subst a2
            simp only at hp
            split at hp
            · rcases List.mem_cons.mp hp with rfl | hp
              · refine .inr ?_
                simp only [LRGraph.merge] at a1
                split at a1
                · cases a1
                · rename_i old ho
                  simp only [Except.ok.injEq, Prod.mk.injEq] at a1
                  rw [← a1.1]
                  simpa [LRGraph.addTransition] using getElem?_lt ho
              · exact .inl hp
            · exact .inl hp
          · simp only [Except.ok.injEq] at l1
            subst l1
            rcases List.mem_cons.mp hp with rfl | hp
            · exact .inr (by simp [LRGraph.addTransition, LRGraph.addState])
            · exact .inl hp
        · split at l1
          · simp only [Except.ok.injEq] at l1
            subst l1
            exact .inl hp
          · simp only [Except.ok.injEq] at l1
            subst l1
            rcases List.mem_cons.mp hp with rfl | hp
            · exact .inr (by simp [LRGraph.addTransition, LRGraph.addState])
            · exact .inl hp
      rcases hcases with h | h
      · have := h4 p h
        have := l2.ext.len
        omega
      · exact h
    · intro e he
      rcases List.mem_append.mp he with he | he
      · obtain ⟨q', s', a1, a2, a3⟩ := h5 e he
        obtain ⟨s'', b1, b2, _⟩ := l2.ext.old q' s' a2
        exact ⟨q', s'', l2.ext.edges _ a1, b1, fun it h => b2 it (a3 it h)⟩
      · simp at he; subst he; exact l2.linked
  · rintro st ⟨h1, h2, h3, h4, h5⟩
    refine ⟨⟨h1, h2, h4, fun p hp hn => ?_⟩, h3⟩
    have hp0 : p < gr.sets.length := by
      by_contra hc
      exact hn (h3.fresh p (by simp only; omega) hp)
    have hp1 : gr.sets[p]? = some gr.sets[p] := List.getElem?_eq_getElem hp0
    obtain ⟨s, o1, o2, o3, o4, o5⟩ := h3.old p _ hp1
    have o4 := o4 hn
    subst o4
    intro s' hs' k hk X hX hr
    rw [o1] at hs'
    simp at hs'
    subst hs'
    by_cases hpq : p = q
    · subst hpq
      obtain ⟨S, hS, hkS⟩ := (hm.mem X { k with dot := k.dot + 1 }).mpr ⟨k, hk, hX, hr, .self⟩
      obtain ⟨q', s', a1, a2, a3⟩ := h5 (X, S) (mget?_mem hS)
      exact ⟨q', s', a1, a2, a3 _ hkS⟩
    · have hd := hinv.done p hp0 (by
        intro hc
        rcases List.mem_cons.mp hc with hc | hc
        · exact hpq hc
        · exact hn (h3.work p hc))
      obtain ⟨q', s', a1, a2, a3⟩ := hd _ hp1 k hk X hX hr
      obtain ⟨s'', b1, b2, _⟩ := h3.old q' s' a2
      exact ⟨q', s'', h3.edges _ a1, b1, b2 _ a3⟩

theorem sorted_sublist' {u l : List Item} (hl : SSorted l) (hu : SSorted u) (h : ∀ x ∈ l, x ∈ u) : l.Sublist u := by
  have : l = u.filter (fun x => x ∈ l) := by
    apply SSorted.ext hl
    · exact List.Pairwise.filter _ hu
    · intro x
      simp only [List.mem_filter, decide_eq_true_eq]
      exact ⟨fun hx => ⟨h x hx, hx⟩, fun hx => hx.2⟩
  rw [this]
  exact List.filter_sublist

/-- enough iterations of the main loop -/
def graphFuel (g : Grammar) (kind : LRKind) : Nat := 2 ^ closureFuel g kind * (1 + closureFuel g kind) + 1

theorem sum_le_mul {l : List (List Item)} {B : Nat} (h : ∀ s ∈ l, 1 + s.length ≤ B) : (l.map (fun s => 1 + s.length)).sum ≤ l.length * B := by
  induction l with
  | nil => simp
  | cons x l ih =>
    have h1 := h x List.mem_cons_self
    have h2 := ih (fun s hs => h s (List.mem_cons_of_mem _ hs))
    simp only [List.map_cons, List.sum_cons, List.length_cons, Nat.succ_mul]
    omega

theorem pot_bound {gr : LRGraph} (hb : Base g kind gr) : pot gr < graphFuel g kind := by
  obtain ⟨hu1, hu2⟩ := foldl_sinsert_spec (itemUniverse g kind) [] (by simp [SSorted])
  generalize hU : (itemUniverse g kind).foldl (fun s i => sinsert i s) [] = U at *
  have hUlen : U.length ≤ closureFuel g kind :=
    (hu1.nodup.subperm (fun x hx => by have := (hu2 x).mp hx; simpa using this)).length_le
  have hmem : ∀ s ∈ gr.sets, SSorted s ∧ ∀ it ∈ s, ItemOk g kind it := by
    intro s hs
    obtain ⟨i, hi⟩ := List.mem_iff_getElem?.mp hs
    exact ⟨hb.sorted i s hi, hb.items i s hi⟩
  have hnd : gr.sets.Nodup := by
    rw [List.nodup_iff_injective_getElem]
    intro ⟨i, hi⟩ ⟨j, hj⟩ h
    simp only at h
    have := hb.inj i j _ _ (List.getElem?_eq_getElem hi) (List.getElem?_eq_getElem hj) (fun _ c => by rw [h]) (fun _ => h)
    simp [this]
  have hlen : gr.sets.length ≤ 2 ^ closureFuel g kind := by
    have hsub : gr.sets ⊆ U.sublists := by
      intro s hs
      rw [List.mem_sublists]
      exact sorted_sublist' (hmem s hs).1 hu1 (fun x hx => (hu2 x).mpr (.inr (mem_universe ((hmem s hs).2 x hx))))
    have := (hnd.subperm hsub).length_le
    rw [List.length_sublists] at this
    exact Nat.le_trans this (Nat.pow_le_pow_right (by omega) hUlen)
  have h1 := sum_le_mul (l := gr.sets) (B := 1 + closureFuel g kind) (fun s hs => by
    have := universe_bound (hmem s hs).1 (hmem s hs).2
    omega)
  have h2 := Nat.mul_le_mul_right (1 + closureFuel g kind) hlen
  unfold pot graphFuel
  omega

theorem graphLoop_spec (wf : g.WF) {fs : SymSets} (hfs : FsOk g kind fs) (cfuel : Nat) : ∀ (fuel : Nat) (gr : LRGraph) (work : List Nat),
    LoopInv g kind gr work →
    Out (closureFuel g kind ≤ cfuel ∧ graphFuel g kind - pot gr + work.length ≤ fuel) (SafeFor g kind) (fun gr' => LoopInv g kind gr' [])
      (graphLoop g fs cfuel kind.isLalr fuel gr work) := by
  intro fuel
  induction fuel with
  | zero =>
    intro gr work hinv
    cases work with
    | nil => exact hinv
    | cons q work => simp [graphLoop, Out]
  | succ fuel ih =>
    intro gr work hinv
    cases work with
    | nil => exact hinv
    | cons q work =>
      unfold graphLoop
      refine ((processState_spec wf hfs cfuel hinv (fun p hp => hinv.inRange p (List.mem_cons_of_mem _ hp))).weaken (fun h => h.1) id).bind ?_
      rintro st ⟨h1, h2⟩
      refine (ih st.1 st.2 h1).weaken ?_ id
      rintro ⟨f1, f2⟩
      refine ⟨f1, ?_⟩
      have := h2.pot
      have := pot_bound h1.base
      have := pot_bound hinv.base
      simp only [List.length_cons] at *
      omega

theorem entryItem_ok : ItemOk g kind (entryItem kind) := by
  refine ⟨by simp [entryItem], by simp [entryItem], by simp [entryItem, u8Size], ?_⟩
  unfold LaOk
  cases kind <;> simp [LRKind.hasLa, entryItem, LRKind.endLa]

/-- the graph with the entry state only -/
theorem startInv (wf : g.WF) {S : List Item} (s1 : SSorted S) (s2 : ∀ it ∈ S, ItemOk g kind it) (s3 : ∀ it, it ∈ S ↔ Closure g (entryItem kind) it) :
    LoopInv g kind (LRGraph.addState ⟨[], [], []⟩ S).1 [0] := by
  have hbase : Base g kind (LRGraph.addState ⟨[], [], []⟩ S).1 := by
    have get : ∀ {q : Nat} {s : List Item}, ([S] : List (List Item))[q]? = some s → q = 0 ∧ s = S := by
      intro q s h
      cases q with
      | zero => simp at h; exact ⟨rfl, h.symm⟩
      | succ q => simp at h
    refine ⟨fun q s h => ?_, fun q s h => ?_, fun q s h => ?_, fun q s h => ?_, ⟨S, rfl, s3⟩, fun q q' s s' h h' _ _ => ?_, fun _ c q => ?_, fun q X q' h => by simp [LRGraph.addState] at h, fun q s h => ?_⟩
    · rw [(get h).2]; exact s1
    · rw [(get h).2]
      intro hn
      have := (s3 _).mpr .self
      rw [hn] at this; simp at this
    · rw [(get h).2]; exact s2
    · rw [(get h).2]; exact fun it hi it' hs => (s3 it').mpr (.step ((s3 it).mp hi) hs)
    · rw [(get h).1, (get h').1]
    · simp only [LRGraph.addState, coreLookup, List.length_nil]
      constructor
      · intro h
        split at h
        · rename_i hc; simp at h; subst h; exact ⟨S, rfl, hc⟩
        · simp at h
      · rintro ⟨s, h1, h2⟩
        obtain ⟨rfl, rfl⟩ := get h1
        rw [if_pos h2]
    · rw [(get h).2]
      intro it hi
      refine laFollows_closure wf ?_ ((s3 it).mp hi)
      intro x hx
      cases kind <;> simp [entryItem, LRKind.endLa] at hx ⊢ <;> exact hx.symm
  refine ⟨hbase, ?_, ?_, ?_⟩
  · intro q hq
    simp [LRGraph.addState] at hq
    subst hq
    exact .refl 0
  · intro q hq
    simp at hq
    subst hq
    simp [LRGraph.addState]
  · intro q hq hn
    simp [LRGraph.addState] at hq
    subst hq
    simp at hn

/-- the graph produced has the properties of the textbook automaton -/
theorem generateGraph_spec (wf : g.WF) {fs : SymSets} (hfs : FsOk g kind fs) (cfuel fuel : Nat) :
    Out (closureFuel g kind ≤ cfuel ∧ graphFuel g kind ≤ fuel) (SafeFor g kind) (fun gr => LoopInv g kind gr []) (generateGraph g fs kind cfuel fuel) := by
  unfold generateGraph
  refine ((expandItem_spec wf hfs entryItem_ok cfuel).weaken (fun h => h.1) id).bind ?_
  rintro S ⟨s1, s2, s3⟩
  have hinv := startInv wf s1 s2 s3
  refine (graphLoop_spec wf hfs cfuel fuel _ [0] hinv).weaken ?_ id
  rintro ⟨f1, f2⟩
  refine ⟨f1, ?_⟩
  have := pot_addState ⟨[], [], []⟩ S
  simp only [List.length_cons, List.length_nil]
  have := pot_bound hinv.base
  omega

theorem processState_mono {fs : SymSets} {f1 f2 : Nat} {lalr : Bool} {q : Nat} {st st' : LRGraph × List Nat}
    (h : processState g fs f1 lalr q st = .ok st') (hle : f1 ≤ f2) : processState g fs f2 lalr q st = .ok st' := by
  unfold processState at h ⊢
  split at h
  · exact h
  · obtain ⟨m, h1, h2⟩ := res_bind_ok.mp h
    exact res_bind_ok.mpr ⟨m, transitions_mono h1 hle, h2⟩

theorem graphLoop_mono {fs : SymSets} {c1 c2 f1 f2 : Nat} {lalr : Bool} {gr gr' : LRGraph} {work : List Nat}
    (h : graphLoop g fs c1 lalr f1 gr work = .ok gr') (hc : c1 ≤ c2) (hle : f1 ≤ f2) : graphLoop g fs c2 lalr f2 gr work = .ok gr' := by
  induction f1 generalizing f2 gr work with
  | zero =>
    cases work with
    | nil => cases f2 <;> simpa [graphLoop] using h
    | cons _ _ => simp [graphLoop] at h
  | succ f1 ih =>
    cases work with
    | nil => cases f2 <;> simpa [graphLoop] using h
    | cons q work =>
      obtain ⟨f2, rfl⟩ : ∃ k, f2 = k + 1 := ⟨f2 - 1, by omega⟩
      simp only [graphLoop] at h ⊢
      obtain ⟨st, h1, h2⟩ := res_bind_ok.mp h
      exact res_bind_ok.mpr ⟨st, processState_mono h1 hc, ih h2 (by omega)⟩

theorem generateGraph_mono {fs : SymSets} {c1 c2 f1 f2 : Nat} {gr : LRGraph} (h : generateGraph g fs kind c1 f1 = .ok gr) (hc : c1 ≤ c2) (hle : f1 ≤ f2) :
    generateGraph g fs kind c2 f2 = .ok gr := by
  unfold generateGraph at h ⊢
  obtain ⟨s, h1, h2⟩ := res_bind_ok.mp h
  exact res_bind_ok.mpr ⟨s, expandItem_mono h1 hc, graphLoop_mono h2 hc hle⟩

end Verif
