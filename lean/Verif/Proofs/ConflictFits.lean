import Verif.Proofs.LR1Exact
import Verif.Proofs.LRConflict
import Verif.Spec.Conflict
import Mathlib.Data.List.TakeWhile

/-! # Conflicts: exactly the clashes, and what they say about derivations -/

set_option autoImplicit false

namespace Verif

variable {T : Type} {g : Grammar} {kind : LRKind} {gr : LRGraph}

/-- the edges of a state are the symbols its items let shift -/
theorem edge_iff (hv : LoopInv g kind gr []) {q : Nat} {s : List Item} (hs : gr.sets[q]? = some s) (X : Sym) : (∃ q', (q, X, q') ∈ gr.edges) ↔ LetsShift g s X := by
  constructor
  · rintro ⟨q', he⟩
    obtain ⟨s0, s', h1, h2, h3, _⟩ := hv.base.edge _ _ _ he
    rw [hs] at h1; cases h1
    obtain ⟨it, hit⟩ := List.exists_mem_of_ne_nil _ (hv.base.nonempty _ _ h2)
    obtain ⟨k, ⟨it', h4, h5, h6⟩, h7, h8, _⟩ := (h3 (it.rule, it.dot)).mp ⟨it, hit, rfl, rfl⟩
    refine ⟨it', h4, by rw [h5]; exact h8, ?_⟩
    unfold Core.after at h7
    unfold Item.after
    rw [h5, h6]
    exact h7
  · rintro ⟨k, h1, h2, h3⟩
    obtain ⟨q', _, h, _⟩ := hv.done q (getElem?_lt hs) (by simp) s hs k h1 X h3 h2
    exact ⟨q', h⟩

theorem findConflicts_iff (hv : LoopInv g kind gr []) (c : Conflict) : c ∈ findConflicts g gr ↔ Clash g gr.sets c := by
  unfold findConflicts
  simp only [List.mem_flatMap]
  constructor
  · rintro ⟨⟨s, q⟩, h1, ⟨la, its⟩, h2, h3⟩
    have hs : gr.sets[q]? = some s := by rw [List.mem_zipIdx_iff_getElem?] at h1; exact h1
    obtain ⟨e1, e2⟩ := mem_reducing.mp h2
    simp only at e1 e2 h2
    unfold conflictsFor at h3
    split at h3
    · cases h3
    · rename_i it hit
      simp only at hit h3
      obtain ⟨⟨q0, X, q'⟩, h4, h5⟩ := List.mem_filterMap.mp h3
      simp only [List.mem_filter, decide_eq_true_eq] at h4
      obtain ⟨h4, rfl⟩ := h4
      have hla : it.la = la := by
        have : it ∈ its := by rw [hit]; simp
        rw [e1] at this
        simpa using (List.mem_filter.mp this).2
          |> fun h => (by simpa using h : it.after g = none ∧ it.la = la).2
      have hcf : completedFor g s it.la = [it] := by
        unfold completedFor
        rw [hla, ← e1, hit]
      have hsh : LetsShift g s X := (edge_iff hv hs X).mp ⟨q', h4⟩
      cases la with
      | none =>
        simp only [Option.some.injEq] at h5
        subst h5
        exact .shiftReduce hs hcf hsh (.inl hla)
      | some a =>
        simp only at h5
        split at h5
        · rename_i ha
          simp only [Option.some.injEq] at h5
          subst h5 ha
          exact .shiftReduce hs hcf hsh (.inr hla)
        · cases h5
    · rename_i h6 h7
      simp only [List.mem_singleton] at h3
      subst h3
      rw [e1]
      refine Clash.reduceReduce hs ?_
      unfold completedFor
      rw [← e1]
      match its, h6, h7 with
      | [], h6, _ => exact absurd rfl h6
      | [x], _, h7 => exact absurd rfl (h7 x)
      | _ :: _ :: _, _, _ => simp
  · intro h
    cases h with
    | @shiftReduce q s it X hs h1 h2 h3 =>
      refine ⟨(s, q), by rw [List.mem_zipIdx_iff_getElem?]; exact hs, (it.la, [it]), mem_reducing.mpr ⟨h1.symm, by simp⟩, ?_⟩
      obtain ⟨q', he⟩ := (edge_iff hv hs X).mpr h2
      unfold conflictsFor
      simp only
      refine List.mem_filterMap.mpr ⟨(q, X, q'), by simp [he], ?_⟩
      rcases h3 with h3 | h3 <;> simp [h3]
    | @reduceReduce q s la hs h1 =>
      have hne : completedFor g s la ≠ [] := by intro h; rw [h] at h1; simp at h1
      refine ⟨(s, q), by rw [List.mem_zipIdx_iff_getElem?]; exact hs, (la, completedFor g s la), mem_reducing.mpr ⟨rfl, hne⟩, ?_⟩
      unfold conflictsFor
      simp only
      match hc : completedFor g s la, h1 with
      | [], h1 => simp at h1
      | [x], h1 => simp at h1
      | _ :: _ :: _, _ => simp

/-! ## Derivations -/

/-- the item with this rule and dot, followed by `ls`, is right after `α` -/
def FitsAt (g : Grammar) (α : List Sym) (rule : RuleIdx) (dot : Nat) (ls : List Sym) : Prop :=
  match rule with
  | none => dot = 0 ∧ α = [] ∧ (ls = [] ∨ ls = [.eof])
  | some i => ∃ r α' δ, g.rules[i]? = some r ∧ α = α' ++ strip (r.rhs.take dot) ∧ Rewrites g.rules [g.entry, .eof] (α' ++ .nt r.lhs :: (ls ++ δ))

theorem strip_take_lead (rhs : List Sym) : strip (rhs.take (leadingEps rhs)) = [] := by
  unfold leadingEps strip
  rw [← List.prefix_iff_eq_take.mp (List.takeWhile_prefix (l := rhs) (fun s => decide (s = Sym.eps)))]
  rw [List.filter_eq_nil_iff]
  intro a ha
  have := List.mem_takeWhile_imp ha
  simpa using this

/-- what is after the dot may follow -/
theorem FitsAt.rest (wf : g.WF) {α : List Sym} {rule : RuleIdx} {dot : Nat} {ls : List Sym} (h : FitsAt g α rule dot ls) :
    ∃ δ, Rewrites g.rules [g.entry, .eof] (α ++ strip ((ruleRhs g rule).drop dot) ++ (ls ++ δ)) := by
  cases rule with
  | none =>
    obtain ⟨rfl, rfl, h⟩ := h
    obtain ⟨A, hA, _⟩ := wf.entry_declared
    have : strip ((ruleRhs g none).drop 0) = [g.entry] := by simp [ruleRhs, strip, hA]
    rw [this]
    rcases h with rfl | rfl
    · exact ⟨[.eof], .refl⟩
    · exact ⟨[], .refl⟩
  | some i =>
    obtain ⟨r, α', δ, h1, rfl, h3⟩ := h
    refine ⟨δ, ?_⟩
    have := Rewrites.step h3 (List.mem_of_getElem? h1)
    simp only [ruleRhs, h1, Option.map_some, Option.getD_some]
    have e : strip r.rhs = strip (r.rhs.take dot) ++ strip (r.rhs.drop dot) := by rw [← strip_append, List.take_append_drop]
    rw [e] at this
    simpa using this

theorem FitsAt.closure (wf : g.WF) {α : List Sym} {rule : RuleIdx} {dot i : Nat} {r : Rule} {ls ls' : List Sym} (h : FitsAt g α rule dot ls)
    (ha : (ruleRhs g rule)[dot]? = some (.nt r.lhs)) (hr : g.rules[i]? = some r)
    (hl : ls' = [] ∨ ∃ a b, ls = [a] ∧ a.isTerm ∧ ls' = [b] ∧ FirstOf g ((ruleRhs g rule).drop (dot + 1) ++ [a]) b) : FitsAt g α (some i) (leadingEps r.rhs) ls' := by
  obtain ⟨δ, h1⟩ := h.rest wf
  rw [lr_drop_of_get ha, strip_cons (by simp)] at h1
  rcases hl with rfl | ⟨a, b, rfl, hat, rfl, β, hβ⟩
  · exact ⟨r, α, strip ((ruleRhs g rule).drop (dot + 1)) ++ (ls ++ δ), hr, by rw [strip_take_lead]; simp, by simpa using h1⟩
  · have hae : a ≠ .eps := by rintro rfl; exact hat
    have e1 : strip ((ruleRhs g rule).drop (dot + 1) ++ [a]) = strip ((ruleRhs g rule).drop (dot + 1)) ++ [a] := by simp [strip, hae]
    rw [e1] at hβ
    have h8 := hβ.ctx (α ++ [.nt r.lhs]) δ
    exact ⟨r, α, β ++ δ, hr, by rw [strip_take_lead]; simp, Rewrites.trans (by simpa using h1) (by simpa using h8)⟩

theorem FitsAt.advance {α : List Sym} {i dot : Nat} {X : Sym} {ls : List Sym} (h : FitsAt g α (some i) dot ls) (ha : (ruleRhs g (some i))[dot]? = some X) :
    FitsAt g (α ++ strip [X]) (some i) (dot + 1) ls := by
  obtain ⟨r, α', δ, h1, rfl, h3⟩ := h
  refine ⟨r, α', δ, h1, ?_, h3⟩
  simp only [ruleRhs, h1, Option.map_some, Option.getD_some] at ha
  rw [List.append_assoc, ← strip_append, List.take_add_one, ha]
  rfl

theorem FitsAt.reduce {α : List Sym} {i : Nat} {r : Rule} {ls : List Sym} (h : FitsAt g α (some i) r.rhs.length ls) (hr : g.rules[i]? = some r) : ReduceFits g α r ls := by
  obtain ⟨r', α', δ, h1, h2, h3⟩ := h
  rw [hr] at h1; cases h1
  exact ⟨α', δ, by simpa using h2, h3⟩

theorem FitsAt.shift {α : List Sym} {i dot : Nat} {X : Sym} {ls : List Sym} (h : FitsAt g α (some i) dot ls) (ha : (ruleRhs g (some i))[dot]? = some X) : ShiftFits g α X := by
  obtain ⟨r, α', δ, h1, h2, h3⟩ := h
  simp only [ruleRhs, h1, Option.map_some, Option.getD_some] at ha
  refine ⟨r, List.mem_of_getElem? h1, r.rhs.take dot, r.rhs.drop (dot + 1), α', ls ++ δ, ?_, h2, h3⟩
  rw [← lr_drop_of_get ha, List.take_append_drop]

end Verif
