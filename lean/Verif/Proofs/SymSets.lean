import Verif.Model.First
import Verif.Proofs.Collections
import Verif.Proofs.Closure
import Mathlib.Data.List.Perm.Subperm

/-! # Families of symbol sets that grow until nothing changes -/

set_option autoImplicit false

namespace Verif

theorem sinsert_of_mem {α : Type} [Key α] {a : α} {l : List α} (hs : SSorted l) (h : a ∈ l) : sinsert a l = l := by
  refine (sinsert_sorted hs).ext hs ?_
  intro x
  rw [mem_sinsert]
  constructor
  · rintro (rfl | h') ; exacts [h, h']
  · exact .inr

theorem sinsert_length {α : Type} [Key α] {a : α} {l : List α} (hs : SSorted l) (h : a ∉ l) : (sinsert a l).length = l.length + 1 := by
  induction l with
  | nil => rfl
  | cons b l ih =>
    have hb := List.pairwise_cons.mp hs
    simp only [sinsert]
    split
    · rename_i e; have := Key.inj a b e; subst this; simp at h
    · split
      · rfl
      · simp [ih hb.2 (fun hm => h (List.mem_cons_of_mem _ hm))]

theorem minsert_self {α ν : Type} [Key α] {k : α} {v : ν} {m : List (α × ν)} (hs : MSorted m) (h : mget? k m = some v) : minsert k v m = m := by
  induction m with
  | nil => simp [mget?] at h
  | cons p m ih =>
    obtain ⟨k', v'⟩ := p
    have hp := List.pairwise_cons.mp hs
    simp only [mget?] at h
    simp only [minsert]
    split at h
    · rename_i e; rw [if_pos e]; simp at h; rw [h]
    · rename_i e
      rw [if_neg e, if_neg, ih hp.2 h]
      intro hlt
      have := hp.1 _ (mget?_mem h)
      exact List.lt_irrefl _ (List.lt_trans hlt this)

/-- number of elements in all sets -/
def totalSize (fs : SymSets) : Nat := (fs.map (fun e => e.2.length)).sum

theorem totalSize_minsert {k : Sym} {v w : List Sym} {m : SymSets} (hs : MSorted m) (h : mget? k m = some v) :
    totalSize (minsert k w m) + v.length = totalSize m + w.length := by
  induction m with
  | nil => simp [mget?] at h
  | cons p m ih =>
    obtain ⟨k', v'⟩ := p
    have hp := List.pairwise_cons.mp hs
    simp only [mget?] at h
    simp only [minsert]
    split at h
    · rename_i e
      rw [if_pos e]
      simp at h
      subst h
      simp only [totalSize, List.map_cons, List.sum_cons]
      omega
    · rename_i e
      rw [if_neg e, if_neg]
      · have := ih hp.2 h
        simp only [totalSize, List.map_cons, List.sum_cons] at this ⊢
        omega
      · intro hlt
        have := hp.1 _ (mget?_mem h)
        exact List.lt_irrefl _ (List.lt_trans hlt this)

theorem insertTracked_spec : ∀ (f : List Sym) (set : List Sym) (any : Bool), SSorted set →
    SSorted (insertTracked f (set, any)).1 ∧ (∀ x, x ∈ (insertTracked f (set, any)).1 ↔ x ∈ set ∨ x ∈ f) ∧
    set.length ≤ (insertTracked f (set, any)).1.length ∧
    ((insertTracked f (set, any)).2 = true ↔ any = true ∨ set.length < (insertTracked f (set, any)).1.length) := by
  intro f
  induction f with
  | nil => intro set any h; simp [insertTracked, h]
  | cons s f ih =>
    intro set any h
    rw [insertTracked]
    obtain ⟨h1, h2, h3, h4⟩ := ih (sinsert s set) (any || !set.contains s) (sinsert_sorted h)
    refine ⟨h1, ?_, ?_, ?_⟩
    · intro x; rw [h2, mem_sinsert, List.mem_cons]; tauto
    · by_cases hm : s ∈ set
      · rw [sinsert_of_mem h hm] at h3 ⊢; exact h3
      · rw [sinsert_length h hm] at h3; omega
    · rw [h4]
      by_cases hm : s ∈ set
      · rw [sinsert_of_mem h hm]; simp [hm]
      · rw [sinsert_length h hm] at h3 ⊢
        constructor
        · intro _; right; omega
        · intro _; left; simp [hm]

/-- what all set families in the computations look like -/
structure GoodSets (N U : List Sym) (fs : SymSets) : Prop where
  sorted : MSorted fs
  keys : ∀ s, (mget? s fs).isSome ↔ s ∈ N
  sets : ∀ s set, mget? s fs = some set → SSorted set ∧ set ⊆ U

/-- how a step may change the state -/
structure Prog (st st' : SymSets × Bool) : Prop where
  size : totalSize st.1 ≤ totalSize st'.1
  grow : ∀ s set, mget? s st.1 = some set → ∃ set', mget? s st'.1 = some set' ∧ set ⊆ set'
  flag : st.2 = true → st'.2 = true
  some : st'.2 = true → st.2 = true ∨ totalSize st.1 < totalSize st'.1
  none : st'.2 = false → st'.1 = st.1

theorem Prog.refl (st : SymSets × Bool) : Prog st st := ⟨Nat.le_refl _, fun _ set h => ⟨set, h, fun _ h => h⟩, id, .inl, fun _ => rfl⟩

theorem Prog.trans {a b c : SymSets × Bool} (h1 : Prog a b) (h2 : Prog b c) : Prog a c := by
  refine ⟨Nat.le_trans h1.size h2.size, ?_, fun h => h2.flag (h1.flag h), ?_, ?_⟩
  · intro s set h
    obtain ⟨s1, g1, g2⟩ := h1.grow s set h
    obtain ⟨s2, g3, g4⟩ := h2.grow s s1 g1
    exact ⟨s2, g3, fun _ h => g4 (g2 h)⟩
  · intro h
    have := h2.size
    have := h1.size
    rcases h2.some h with h | h
    · rcases h1.some h with h | h
      · exact .inl h
      · right; omega
    · right; omega
  · intro h
    have hb : b.2 = false := by
      cases hb : b.2 with
      | false => rfl
      | true => rw [h2.flag hb] at h; simp at h
    rw [h2.none h, h1.none hb]

/-- adding symbols to the set of one key -/
theorem addSet_prog {N U : List Sym} {st : SymSets × Bool} {k : Sym} {set f : List Sym} (hg : GoodSets N U st.1) (hk : mget? k st.1 = some set)
    (hf : f ⊆ U) :
    GoodSets N U (minsert k (insertTracked f (set, st.2)).1 st.1) ∧
    Prog st (minsert k (insertTracked f (set, st.2)).1 st.1, (insertTracked f (set, st.2)).2) ∧
    (∀ s, mget? s (minsert k (insertTracked f (set, st.2)).1 st.1) = if s = k then some (insertTracked f (set, st.2)).1 else mget? s st.1) ∧
    (∀ x, x ∈ (insertTracked f (set, st.2)).1 ↔ x ∈ set ∨ x ∈ f) := by
  obtain ⟨hss, hsu⟩ := hg.sets k set hk
  obtain ⟨h1, h2, h3, h4⟩ := insertTracked_spec f set st.2 hss
  generalize insertTracked f (set, st.2) = out at h1 h2 h3 h4 ⊢
  obtain ⟨set', any'⟩ := out
  simp only at h1 h2 h3 h4 ⊢
  have hl : ∀ s, mget? s (minsert k set' st.1) = if s = k then some set' else mget? s st.1 := fun s => mget?_minsert k s set' st.1
  have hsz := totalSize_minsert (w := set') hg.sorted hk
  refine ⟨⟨minsert_sorted hg.sorted, ?_, ?_⟩, ⟨by simp only; omega, ?_, ?_, ?_, ?_⟩, hl, h2⟩
  · intro s
    rw [hl]
    split
    · rename_i e; subst e; rw [← hg.keys, hk]; simp
    · exact hg.keys s
  · intro s t ht
    rw [hl] at ht
    split at ht
    · simp at ht; subst ht
      refine ⟨h1, fun x hx => ?_⟩
      rcases (h2 x).mp hx with h | h
      · exact hsu h
      · exact hf h
    · exact hg.sets s t ht
  · intro s t ht
    simp only
    rw [hl]
    split
    · rename_i e; subst e
      rw [hk] at ht; simp at ht; subst ht
      exact ⟨set', rfl, fun x hx => (h2 x).mpr (.inl hx)⟩
    · exact ⟨t, ht, fun _ h => h⟩
  · intro h; exact h4.mpr (.inl h)
  · intro h
    rcases h4.mp h with h | h
    · exact .inl h
    · right; simp only; omega
  · intro h
    simp only at h
    have : ¬ (st.2 = true ∨ set.length < set'.length) := fun hc => by rw [h4.mpr hc] at h; simp at h
    have he : set'.length = set.length := by omega
    have : set' = set := by
      refine h1.ext hss ?_
      intro x
      have hsub : set ⊆ set' := fun y hy => (h2 y).mpr (.inl hy)
      have := (List.subperm_of_subset hss.nodup hsub).perm_of_length_le (by omega)
      exact (this.mem_iff).symm
    subst this
    exact minsert_self hg.sorted hk

theorem GoodSets.bound {N U : List Sym} {fs : SymSets} (h : GoodSets N U fs) : totalSize fs ≤ N.length * U.length := by
  have hk : fs.map (·.1) ⊆ N := by
    intro s hs
    obtain ⟨⟨k, v⟩, he, rfl⟩ := List.mem_map.mp hs
    exact (h.keys k).mp (by rw [mem_mget? h.sorted he]; rfl)
  have hl := (List.subperm_of_subset h.sorted.keys_nodup hk).length_le
  have hsum : ∀ (l : SymSets), (∀ e ∈ l, e.2.length ≤ U.length) → totalSize l ≤ l.length * U.length := by
    intro l
    induction l with
    | nil => intro _; simp [totalSize]
    | cons e l ih =>
      intro hh
      have := ih (fun x hx => hh x (List.mem_cons_of_mem _ hx))
      have := hh e List.mem_cons_self
      simp only [totalSize, List.map_cons, List.sum_cons, List.length_cons, Nat.succ_mul] at *
      omega
  have h1 := hsum fs (fun e he => by
    obtain ⟨k, v⟩ := e
    obtain ⟨h1, h2⟩ := h.sets k v (mem_mget? h.sorted he)
    exact (List.subperm_of_subset h1.nodup h2).length_le)
  rw [List.length_map] at hl
  exact Nat.le_trans h1 (Nat.mul_le_mul_right _ hl)

theorem emptySets_good (g : Grammar) (U : List Sym) : GoodSets g.nonTerminals U (emptySets g) ∧ ∀ s set, mget? s (emptySets g) = some set → set = [] := by
  have key : ∀ (l : List Sym) (fs : SymSets), MSorted fs → (∀ s set, mget? s fs = some set → set = []) →
      MSorted (l.foldl (fun fs s => minsert s [] fs) fs) ∧
      (∀ s, (mget? s (l.foldl (fun fs s => minsert s [] fs) fs)).isSome ↔ s ∈ l ∨ (mget? s fs).isSome) ∧
      ∀ s set, mget? s (l.foldl (fun fs s => minsert s [] fs) fs) = some set → set = [] := by
    intro l
    induction l with
    | nil => intro fs h1 h2; simp [h1]; exact h2
    | cons a l ih =>
      intro fs h1 h2
      obtain ⟨i1, i2, i3⟩ := ih (minsert a [] fs) (minsert_sorted h1) (by
        intro s set h
        rw [mget?_minsert] at h
        split at h
        · simpa using h.symm
        · exact h2 s set h)
      refine ⟨i1, ?_, i3⟩
      intro s
      rw [List.foldl_cons, i2, mget?_minsert, List.mem_cons]
      by_cases e : s = a
      · simp [e]
      · simp [e]
  obtain ⟨k1, k2, k3⟩ := key g.nonTerminals [] (by simp [MSorted]) (by simp [mget?])
  refine ⟨⟨k1, ?_, ?_⟩, k3⟩
  · intro s
    show (mget? s (g.nonTerminals.foldl (fun fs s => minsert s [] fs) [])).isSome ↔ _
    rw [k2]; simp [mget?]
  · intro s set h
    have := k3 s set h
    subst this
    exact ⟨by simp [SSorted], by simp⟩

end Verif
