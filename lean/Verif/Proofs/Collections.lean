import Verif.Model.Collections

/-! Lemmas about the collection models. -/

namespace Verif

theorem listNat_trichotomy (a b : List Nat) (h : a ≠ b) (h2 : ¬ a < b) : b < a := by
  rcases List.le_total a b with h3 | h3
  · exact absurd (List.le_antisymm h3 (List.not_lt.mp h2)) h
  · rcases Decidable.em (b < a) with h4 | h4
    · exact h4
    · exact absurd (List.le_antisymm (List.not_lt.mp h4) h3) h

variable {α : Type} [Key α]

@[simp] theorem mem_sinsert {a x : α} {l : List α} : x ∈ sinsert a l ↔ x = a ∨ x ∈ l := by
  induction l with
  | nil => simp [sinsert]
  | cons b l ih =>
    simp only [sinsert]
    split
    · rename_i h
      have := Key.inj a b h
      subst this
      simp
    · split
      · simp
      · simp only [List.mem_cons, ih]
        grind

theorem sinsert_sorted {a : α} {l : List α} (h : SSorted l) : SSorted (sinsert a l) := by
  induction l with
  | nil => simp [sinsert, SSorted]
  | cons b l ih =>
    simp only [sinsert]
    have hb := List.pairwise_cons.mp h
    split
    · exact h
    · rename_i hne
      split
      · rename_i hlt
        refine List.pairwise_cons.mpr ⟨?_, h⟩
        intro x hx
        rcases List.mem_cons.mp hx with rfl | hx
        · exact hlt
        · exact List.lt_trans hlt (hb.1 x hx)
      · rename_i hnlt
        refine List.pairwise_cons.mpr ⟨?_, ih hb.2⟩
        intro x hx
        rcases mem_sinsert.mp hx with rfl | hx
        · exact listNat_trichotomy _ _ hne hnlt
        · exact hb.1 x hx

theorem SSorted.nodup {l : List α} (h : SSorted l) : l.Nodup := by
  refine List.Pairwise.imp ?_ h
  intro a b hab e
  subst e
  exact List.lt_irrefl _ hab

theorem SSorted.ext {l1 l2 : List α} (h1 : SSorted l1) (h2 : SSorted l2)
    (h : ∀ x, x ∈ l1 ↔ x ∈ l2) : l1 = l2 := by
  induction l1 generalizing l2 with
  | nil =>
    cases l2 with
    | nil => rfl
    | cons b l2 => exact absurd ((h b).mpr (by simp)) (by simp)
  | cons a l1 ih =>
    cases l2 with
    | nil => exact absurd ((h a).mp (by simp)) (by simp)
    | cons b l2 =>
      have p1 := List.pairwise_cons.mp h1
      have p2 := List.pairwise_cons.mp h2
      have hab : a = b := by
        rcases List.mem_cons.mp ((h a).mp (by simp)) with e | ha
        · exact e
        rcases List.mem_cons.mp ((h b).mpr (by simp)) with e | hb
        · exact e.symm
        exact absurd (List.lt_trans (p2.1 a ha) (p1.1 b hb)) (List.lt_irrefl _)
      subst hab
      congr 1
      apply ih p1.2 p2.2
      intro x
      constructor
      · intro hx
        rcases List.mem_cons.mp ((h x).mp (List.mem_cons_of_mem _ hx)) with e | hx2
        · subst e; exact absurd (p1.1 _ hx) (List.lt_irrefl _)
        · exact hx2
      · intro hx
        rcases List.mem_cons.mp ((h x).mpr (List.mem_cons_of_mem _ hx)) with e | hx2
        · subst e; exact absurd (p2.1 _ hx) (List.lt_irrefl _)
        · exact hx2

section maps
variable {ν : Type}

theorem mget?_minsert_self (k : α) (v : ν) (m : List (α × ν)) : mget? k (minsert k v m) = some v := by
  induction m with
  | nil => simp [minsert, mget?]
  | cons p m ih =>
    obtain ⟨k', v'⟩ := p
    simp only [minsert]
    split
    · rename_i h; simp [mget?, h]
    · rename_i h
      split
      · simp [mget?]
      · simp [mget?, h, ih]

theorem mget?_minsert_ne {k k2 : α} (v : ν) (m : List (α × ν)) (hne : k2 ≠ k) :
    mget? k2 (minsert k v m) = mget? k2 m := by
  have hk : Key.key k2 ≠ Key.key k := fun e => hne (Key.inj _ _ e)
  induction m with
  | nil => simp [minsert, mget?, hk]
  | cons p m ih =>
    obtain ⟨k', v'⟩ := p
    simp only [minsert]
    split
    · rename_i h; simp [mget?, ← h, hk]
    · rename_i h
      split
      · simp [mget?, hk]
      · simp [mget?, ih]

theorem mget?_minsert [DecidableEq α] (k k2 : α) (v : ν) (m : List (α × ν)) :
    mget? k2 (minsert k v m) = if k2 = k then some v else mget? k2 m := by
  split
  · rename_i h; subst h; exact mget?_minsert_self _ _ _
  · rename_i h; exact mget?_minsert_ne _ _ h

theorem mget?_mem {k : α} {v : ν} {m : List (α × ν)} (h : mget? k m = some v) : (k, v) ∈ m := by
  induction m with
  | nil => simp [mget?] at h
  | cons p m ih =>
    obtain ⟨k', v'⟩ := p
    simp only [mget?] at h
    split at h
    · rename_i hk
      have := Key.inj _ _ hk
      subst this
      simp_all
    · exact List.mem_cons_of_mem _ (ih h)

theorem mem_mget? {k : α} {v : ν} {m : List (α × ν)} (hs : MSorted m) (h : (k, v) ∈ m) :
    mget? k m = some v := by
  induction m with
  | nil => simp at h
  | cons p m ih =>
    obtain ⟨k', v'⟩ := p
    have hp := List.pairwise_cons.mp hs
    rcases List.mem_cons.mp h with e | h
    · cases e; simp [mget?]
    · have := hp.1 _ h
      simp only [mget?]
      split
      · rename_i hk
        simp only [← hk] at this
        exact absurd this (List.lt_irrefl _)
      · exact ih hp.2 h

theorem mem_keys_minsert {k x : α} {v : ν} {m : List (α × ν)} {y : ν} (h : (x, y) ∈ minsert k v m) :
    (x = k ∧ y = v) ∨ (x, y) ∈ m := by
  induction m with
  | nil => simp [minsert] at h; exact Or.inl h
  | cons p m ih =>
    obtain ⟨k', v'⟩ := p
    simp only [minsert] at h
    split at h
    · rename_i hk
      have := Key.inj _ _ hk
      subst this
      rcases List.mem_cons.mp h with e | h
      · cases e; exact Or.inl ⟨rfl, rfl⟩
      · exact Or.inr (List.mem_cons_of_mem _ h)
    · split at h
      · rcases List.mem_cons.mp h with e | h
        · cases e; exact Or.inl ⟨rfl, rfl⟩
        · exact Or.inr h
      · rcases List.mem_cons.mp h with e | h
        · cases e; exact Or.inr (by simp)
        · rcases ih h with h | h
          · exact Or.inl h
          · exact Or.inr (List.mem_cons_of_mem _ h)

theorem minsert_sorted {k : α} {v : ν} {m : List (α × ν)} (h : MSorted m) : MSorted (minsert k v m) := by
  induction m with
  | nil => simp [minsert, MSorted]
  | cons p m ih =>
    obtain ⟨k', v'⟩ := p
    have hp := List.pairwise_cons.mp h
    simp only [minsert]
    split
    · exact List.pairwise_cons.mpr hp
    · rename_i hne
      split
      · rename_i hlt
        refine List.pairwise_cons.mpr ⟨?_, h⟩
        intro x hx
        rcases List.mem_cons.mp hx with rfl | hx
        · exact hlt
        · exact List.lt_trans hlt (hp.1 x hx)
      · rename_i hnlt
        refine List.pairwise_cons.mpr ⟨?_, ih hp.2⟩
        intro x hx
        obtain ⟨x1, x2⟩ := x
        rcases mem_keys_minsert hx with ⟨rfl, _⟩ | hx
        · exact listNat_trichotomy _ _ hne hnlt
        · exact hp.1 _ hx

/-- lookup in a multimap, `[]` for an absent key -/
theorem mget?_mpush_self (k : α) (v : ν) (m : List (α × List ν)) (hs : MSorted m) :
    mget? k (mpush k v m) = some ((mget? k m).getD [] ++ [v]) := by
  induction m with
  | nil => simp [mpush, mget?]
  | cons p m ih =>
    obtain ⟨k', v'⟩ := p
    have hp := List.pairwise_cons.mp hs
    simp only [mpush]
    split
    · rename_i h; simp [mget?, h]
    · rename_i h
      split
      · rename_i hlt
        have hn : mget? k m = none := by
          rcases hm : mget? k m with _ | w
          · rfl
          · have := hp.1 _ (mget?_mem hm)
            exact absurd (List.lt_trans hlt this) (List.lt_irrefl _)
        simp [mget?, h, hn]
      · simp [mget?, h, ih hp.2]

theorem mget?_mpush_ne {k k2 : α} (v : ν) (m : List (α × List ν)) (hne : k2 ≠ k) :
    mget? k2 (mpush k v m) = mget? k2 m := by
  have hk : Key.key k2 ≠ Key.key k := fun e => hne (Key.inj _ _ e)
  induction m with
  | nil => simp [mpush, mget?, hk]
  | cons p m ih =>
    obtain ⟨k', v'⟩ := p
    simp only [mpush]
    split
    · rename_i h; simp [mget?, ← h, hk]
    · rename_i h
      split
      · simp [mget?, hk]
      · simp [mget?, ih]

theorem mem_keys_mpush {k x : α} {v : ν} {m : List (α × List ν)} {y : List ν} (h : (x, y) ∈ mpush k v m) :
    x = k ∨ ∃ y', (x, y') ∈ m := by
  induction m with
  | nil => simp [mpush] at h; exact Or.inl h.1
  | cons p m ih =>
    obtain ⟨k', v'⟩ := p
    simp only [mpush] at h
    split at h
    · rename_i hk
      have := Key.inj _ _ hk
      subst this
      rcases List.mem_cons.mp h with e | h
      · cases e; exact Or.inl rfl
      · exact Or.inr ⟨_, List.mem_cons_of_mem _ h⟩
    · split at h
      · rcases List.mem_cons.mp h with e | h
        · cases e; exact Or.inl rfl
        · exact Or.inr ⟨_, h⟩
      · rcases List.mem_cons.mp h with e | h
        · cases e; exact Or.inr ⟨_, List.mem_cons_self⟩
        · rcases ih h with h | ⟨_, h⟩
          · exact Or.inl h
          · exact Or.inr ⟨_, List.mem_cons_of_mem _ h⟩

theorem mpush_sorted {k : α} {v : ν} {m : List (α × List ν)} (h : MSorted m) : MSorted (mpush k v m) := by
  induction m with
  | nil => simp [mpush, MSorted]
  | cons p m ih =>
    obtain ⟨k', v'⟩ := p
    have hp := List.pairwise_cons.mp h
    simp only [mpush]
    split
    · exact List.pairwise_cons.mpr hp
    · rename_i hne
      split
      · rename_i hlt
        refine List.pairwise_cons.mpr ⟨?_, h⟩
        intro x hx
        rcases List.mem_cons.mp hx with rfl | hx
        · exact hlt
        · exact List.lt_trans hlt (hp.1 x hx)
      · rename_i hnlt
        refine List.pairwise_cons.mpr ⟨?_, ih hp.2⟩
        intro x hx
        obtain ⟨x1, x2⟩ := x
        rcases mem_keys_mpush hx with rfl | ⟨_, hx⟩
        · exact listNat_trichotomy _ _ hne hnlt
        · have h3 := hp.1 _ hx
          exact h3

theorem MSorted.keys_nodup {m : List (α × ν)} (h : MSorted m) : (m.map (·.1)).Nodup := by
  rw [List.Nodup, List.pairwise_map]
  refine List.Pairwise.imp ?_ h
  intro a b hab e
  rw [e] at hab
  exact List.lt_irrefl _ hab

end maps
end Verif
