import Verif.Spec.BidiMap
import Verif.Proofs.LRGraph

/-! # The two-way map -/

set_option autoImplicit false

namespace Verif

section maps
variable {α β : Type} [DecidableEq α]

theorem rcGet?_insert (k : Rc α) (v : β) (x : α) : ∀ (l : List (Rc α × β)), rcGet? x (rcInsert k v l) = if x = k.val then some v else rcGet? x l := by
  intro l
  induction l with
  | nil =>
    by_cases h : x = k.val
    · simp [rcInsert, rcGet?, h]
    · simp [rcInsert, rcGet?, h, Ne.symm h]
  | cons e l ih =>
    obtain ⟨k', v'⟩ := e
    unfold rcInsert
    by_cases h1 : k'.val = k.val
    · rw [if_pos h1]
      simp only [rcGet?, h1]
      by_cases h : x = k.val
      · simp [h]
      · simp [h, Ne.symm h]
    · rw [if_neg h1]
      simp only [rcGet?]
      by_cases h2 : k'.val = x
      · have : x ≠ k.val := fun e => h1 (h2.trans e)
        simp [h2, this]
      · rw [if_neg h2, if_neg h2, ih]

theorem rcGet?_remove (k x : α) : ∀ (l : List (Rc α × β)), rcGet? x (rcRemove k l) = if x = k then none else rcGet? x l := by
  intro l
  induction l with
  | nil => simp [rcRemove, rcGet?]
  | cons e l ih =>
    obtain ⟨k', v'⟩ := e
    unfold rcRemove at ih ⊢
    by_cases h : k'.val = k
    · rw [List.filter_cons_of_neg (by simp [h]), ih]
      by_cases hx : x = k
      · simp [hx]
      · have : k'.val ≠ x := fun e => hx (e.symm.trans h)
        simp [hx, rcGet?, this]
    · rw [List.filter_cons_of_pos (by simp [h])]
      simp only [rcGet?]
      by_cases h2 : k'.val = x
      · have : x ≠ k := fun e => h (h2.trans e)
        simp [h2, this]
      · rw [if_neg h2, if_neg h2, ih]

theorem rcGet?_mem {k : α} {v : β} : ∀ {l : List (Rc α × β)}, rcGet? k l = some v → ∃ k', (k', v) ∈ l ∧ k'.val = k := by
  intro l
  induction l with
  | nil => intro h; cases h
  | cons e l ih =>
    obtain ⟨k', v'⟩ := e
    intro h
    simp only [rcGet?] at h
    split at h
    · rename_i hk
      cases h
      exact ⟨k', by simp, hk⟩
    · obtain ⟨k'', h1, h2⟩ := ih h
      exact ⟨k'', by simp [h1], h2⟩

theorem mem_rcInsert {k : Rc α} {v : β} {e : Rc α × β} : ∀ {l : List (Rc α × β)}, e ∈ rcInsert k v l → e ∈ l ∨ (e.2 = v ∧ (e.1 = k ∨ ∃ v', (e.1, v') ∈ l)) := by
  intro l
  induction l with
  | nil => intro h; simp [rcInsert] at h; subst h; exact .inr ⟨rfl, .inl rfl⟩
  | cons e' l ih =>
    obtain ⟨k', v'⟩ := e'
    intro h
    unfold rcInsert at h
    split at h
    · rcases List.mem_cons.mp h with rfl | h
      · exact .inr ⟨rfl, .inr ⟨v', by simp⟩⟩
      · exact .inl (by simp [h])
    · rcases List.mem_cons.mp h with rfl | h
      · exact .inl (by simp)
      · rcases ih h with h | ⟨h1, h2 | ⟨v'', h2⟩⟩
        · exact .inl (by simp [h])
        · exact .inr ⟨h1, .inl h2⟩
        · exact .inr ⟨h1, .inr ⟨v'', by simp [h2]⟩⟩

theorem rcInsert_keys (k : Rc α) (v : β) : ∀ (l : List (Rc α × β)), (l.map (·.1.val)).Nodup → ((rcInsert k v l).map (·.1.val)).Nodup := by
  intro l
  induction l with
  | nil => intro _; simp [rcInsert]
  | cons e l ih =>
    obtain ⟨k', v'⟩ := e
    intro h
    simp only [List.map_cons, List.nodup_cons] at h
    unfold rcInsert
    split
    · simpa using h
    · rename_i hk
      simp only [List.map_cons, List.nodup_cons]
      refine ⟨?_, ih h.2⟩
      intro hm
      obtain ⟨e, he, hv⟩ := List.mem_map.mp hm
      rcases mem_rcInsert he with h1 | ⟨_, h1 | ⟨v'', h1⟩⟩
      · exact h.1 (List.mem_map.mpr ⟨e, h1, hv⟩)
      · exact hk (by rw [← hv, h1])
      · exact h.1 (List.mem_map.mpr ⟨(e.1, v''), h1, hv⟩)

theorem rcInsert_vals (f : β → Nat) (k : Rc α) (v : β) : ∀ (l : List (Rc α × β)), (l.map (fun e => f e.2)).Nodup → (∀ e ∈ l, f e.2 ≠ f v) →
    ((rcInsert k v l).map (fun e => f e.2)).Nodup := by
  intro l
  induction l with
  | nil => intro _ _; simp [rcInsert]
  | cons e l ih =>
    obtain ⟨k', v'⟩ := e
    intro h hv
    simp only [List.map_cons, List.nodup_cons] at h
    unfold rcInsert
    split
    · simp only [List.map_cons, List.nodup_cons]
      refine ⟨?_, h.2⟩
      intro hm
      obtain ⟨e, he, hev⟩ := List.mem_map.mp hm
      exact hv e (by simp [he]) hev
    · simp only [List.map_cons, List.nodup_cons]
      refine ⟨?_, ih h.2 (fun e he => hv e (by simp [he]))⟩
      intro hm
      obtain ⟨e, he, hev⟩ := List.mem_map.mp hm
      rcases mem_rcInsert he with h1 | ⟨h1, _⟩
      · exact h.1 (List.mem_map.mpr ⟨e, h1, hev⟩)
      · exact hv (k', v') (by simp) (by rw [← hev, h1])

theorem rcRemove_sublist (k : α) (l : List (Rc α × β)) : (rcRemove k l).Sublist l := List.filter_sublist

theorem mem_rcRemove {k : α} {l : List (Rc α × β)} {e : Rc α × β} : e ∈ rcRemove k l ↔ e ∈ l ∧ e.1.val ≠ k := by simp [rcRemove]

/-- with distinct keys, lookup is membership -/
theorem rcGet?_iff {k : α} {v : β} : ∀ {l : List (Rc α × β)}, (l.map (·.1.val)).Nodup → (rcGet? k l = some v ↔ ∃ k', (k', v) ∈ l ∧ k'.val = k) := by
  intro l
  induction l with
  | nil => intro _; simp [rcGet?]
  | cons e l ih =>
    obtain ⟨k', v'⟩ := e
    intro h
    refine ⟨rcGet?_mem, ?_⟩
    simp only [List.map_cons, List.nodup_cons] at h
    rintro ⟨k'', hm, rfl⟩
    simp only [rcGet?]
    rcases List.mem_cons.mp hm with e | hm
    · cases e; simp
    · rw [if_neg, (ih h.2).mpr ⟨k'', hm, rfl⟩]
      intro e
      exact h.1 (List.mem_map.mpr ⟨_, hm, e.symm⟩)

end maps

section inv
variable {A B : Type}

/-- `r` is held somewhere in the maps -/
def OccA (m : BidiMap A B) (r : Rc A) : Prop := (∃ b, (r, b) ∈ m.ab) ∨ (∃ b, (b, r) ∈ m.ba)
def OccB (m : BidiMap A B) (r : Rc B) : Prop := (∃ a, (r, a) ∈ m.ba) ∨ (∃ a, (a, r) ∈ m.ab)

/-- holds in every history -/
structure RcInv (m : BidiMap A B) : Prop where
  keysA : (m.ab.map (·.1.val)).Nodup
  keysB : (m.ba.map (·.1.val)).Nodup
  valsA : (m.ba.map (·.2.id)).Nodup
  valsB : (m.ab.map (·.2.id)).Nodup
  sameA : ∀ r r', OccA m r → OccA m r' → r.id = r'.id → r.val = r'.val
  sameB : ∀ r r', OccB m r → OccB m r' → r.id = r'.id → r.val = r'.val
  ltA : ∀ r, OccA m r → r.id < m.next
  ltB : ∀ r, OccB m r → r.id < m.next

variable [DecidableEq A] [DecidableEq B]

theorem RcInv.new : RcInv (BidiMap.new : BidiMap A B) := by
  constructor <;> simp [BidiMap.new, OccA, OccB]

theorem occA_insert {m : BidiMap A B} {a : A} {b : B} {r : Rc A} (h : OccA (m.insert a b) r) : OccA m r ∨ r = ⟨m.next, a⟩ := by
  rcases h with ⟨b', h⟩ | ⟨b', h⟩
  · rcases mem_rcInsert h with h | ⟨_, h | ⟨v, h⟩⟩
    · exact .inl (.inl ⟨_, h⟩)
    · exact .inr h
    · exact .inl (.inl ⟨_, h⟩)
  · rcases mem_rcInsert h with h | ⟨h, _⟩
    · exact .inl (.inr ⟨_, h⟩)
    · exact .inr h

theorem occB_insert {m : BidiMap A B} {a : A} {b : B} {r : Rc B} (h : OccB (m.insert a b) r) : OccB m r ∨ r = ⟨m.next, b⟩ := by
  rcases h with ⟨b', h⟩ | ⟨b', h⟩
  · rcases mem_rcInsert h with h | ⟨_, h | ⟨v, h⟩⟩
    · exact .inl (.inl ⟨_, h⟩)
    · exact .inr h
    · exact .inl (.inl ⟨_, h⟩)
  · rcases mem_rcInsert h with h | ⟨h, _⟩
    · exact .inl (.inr ⟨_, h⟩)
    · exact .inr h

theorem RcInv.insert {m : BidiMap A B} (hi : RcInv m) (a : A) (b : B) : RcInv (m.insert a b) := by
  constructor
  · exact rcInsert_keys _ _ _ hi.keysA
  · exact rcInsert_keys _ _ _ hi.keysB
  · refine rcInsert_vals (fun r : Rc A => r.id) _ _ _ hi.valsA ?_
    rintro ⟨k, v⟩ he heq
    have := hi.ltA v (.inr ⟨_, he⟩)
    simp only at heq
    omega
  · refine rcInsert_vals (fun r : Rc B => r.id) _ _ _ hi.valsB ?_
    rintro ⟨k, v⟩ he heq
    have := hi.ltB v (.inr ⟨_, he⟩)
    simp only at heq
    omega
  · intro r r' h h' e
    rcases occA_insert h with h | rfl <;> rcases occA_insert h' with h' | rfl
    · exact hi.sameA r r' h h' e
    · have := hi.ltA r h
      simp only at e; omega
    · have := hi.ltA r' h'
      simp only at e; omega
    · rfl
  · intro r r' h h' e
    rcases occB_insert h with h | rfl <;> rcases occB_insert h' with h' | rfl
    · exact hi.sameB r r' h h' e
    · have := hi.ltB r h
      simp only at e; omega
    · have := hi.ltB r' h'
      simp only at e; omega
    · rfl
  · intro r h
    rcases occA_insert h with h | rfl
    · have := hi.ltA r h
      simp only [BidiMap.insert]; omega
    · simp [BidiMap.insert]
  · intro r h
    rcases occB_insert h with h | rfl
    · have := hi.ltB r h
      simp only [BidiMap.insert]; omega
    · simp [BidiMap.insert]

theorem RcInv.sub {m m' : BidiMap A B} (hi : RcInv m) (h1 : m'.ab.Sublist m.ab) (h2 : m'.ba.Sublist m.ba) (h3 : m'.next = m.next) : RcInv m' := by
  have oA : ∀ r, OccA m' r → OccA m r := by
    rintro r (⟨b, h⟩ | ⟨b, h⟩)
    · exact .inl ⟨b, h1.subset h⟩
    · exact .inr ⟨b, h2.subset h⟩
  have oB : ∀ r, OccB m' r → OccB m r := by
    rintro r (⟨b, h⟩ | ⟨b, h⟩)
    · exact .inl ⟨b, h2.subset h⟩
    · exact .inr ⟨b, h1.subset h⟩
  exact ⟨hi.keysA.sublist (h1.map _), hi.keysB.sublist (h2.map _), hi.valsA.sublist (h2.map _), hi.valsB.sublist (h1.map _),
    fun r r' h h' => hi.sameA r r' (oA r h) (oA r' h'), fun r r' h h' => hi.sameB r r' (oB r h) (oB r' h'),
    fun r h => by rw [h3]; exact hi.ltA r (oA r h), fun r h => by rw [h3]; exact hi.ltB r (oB r h)⟩

omit [DecidableEq A] [DecidableEq B] in
theorem unwraps_iff {α β : Type} {r : Rc α} {keys : List (Rc α × Rc β)} {vals : List (Rc β × Rc α)} :
    BidiMap.unwraps r keys vals = true ↔ (∀ e ∈ keys, e.1.id ≠ r.id) ∧ (∀ e ∈ vals, e.2.id ≠ r.id) := by
  simp [BidiMap.unwraps]

theorem nodup_map_inj {γ : Type} {f : γ → Nat} : ∀ {l : List γ}, (l.map f).Nodup → ∀ x ∈ l, ∀ y ∈ l, f x = f y → x = y := by
  intro l
  induction l with
  | nil => simp
  | cons z l ih =>
    intro h x hx y hy e
    simp only [List.map_cons, List.nodup_cons] at h
    obtain ⟨h1, h2⟩ := h
    rcases List.mem_cons.mp hx with ex | hx <;> rcases List.mem_cons.mp hy with ey | hy
    · rw [ex, ey]
    · exact absurd (List.mem_map.mpr ⟨y, hy, by rw [← e, ex]⟩) h1
    · exact absurd (List.mem_map.mpr ⟨x, hx, by rw [e, ey]⟩) h1
    · exact ih h2 x hx y hy e

/-- the `Rc` of `a` can always be unwrapped -/
theorem unwraps_a {m : BidiMap A B} (hi : RcInv m) {b : B} {aRc : Rc A} (h : rcGet? b m.ba = some aRc) :
    BidiMap.unwraps aRc (rcRemove aRc.val m.ab) (rcRemove b m.ba) = true := by
  rw [unwraps_iff]
  obtain ⟨bk, hm, hb⟩ := rcGet?_mem h
  constructor
  · rintro ⟨k, v⟩ he e
    obtain ⟨he, hne⟩ := mem_rcRemove.mp he
    exact hne (hi.sameA k aRc (.inl ⟨_, he⟩) (.inr ⟨_, hm⟩) e)
  · rintro ⟨k, v⟩ he e
    obtain ⟨he, hne⟩ := mem_rcRemove.mp he
    have := nodup_map_inj (f := fun e : Rc B × Rc A => e.2.id) hi.valsA _ he _ hm e
    cases this
    exact hne hb

/-- the `Rc` of `b` can be unwrapped when the maps agree -/
theorem unwraps_b {m : BidiMap A B} (hi : RcInv m) {a : A} {bRc : Rc B} (h : rcGet? a m.ab = some bRc) :
    BidiMap.unwraps bRc (rcRemove bRc.val m.ba) (rcRemove a m.ab) = true := by
  rw [unwraps_iff]
  obtain ⟨ak, hm, ha⟩ := rcGet?_mem h
  constructor
  · rintro ⟨k, v⟩ he e
    obtain ⟨he, hne⟩ := mem_rcRemove.mp he
    exact hne (hi.sameB k bRc (.inl ⟨_, he⟩) (.inr ⟨_, hm⟩) e)
  · rintro ⟨k, v⟩ he e
    obtain ⟨he, hne⟩ := mem_rcRemove.mp he
    have := nodup_map_inj (f := fun e : Rc A × Rc B => e.2.id) hi.valsB _ he _ hm e
    cases this
    exact hne ha

/-- what `remove_by_b` can do, in any history -/
theorem removeByB_cases {m m' : BidiMap A B} (hi : RcInv m) {b : B} {r : Option (A × B)} (h : m.removeByB b = .ok (r, m')) :
    RcInv m' ∧ m'.ba = rcRemove b m.ba := by
  unfold BidiMap.removeByB at h
  split at h
  · rename_i hn
    simp only [Except.ok.injEq, Prod.mk.injEq] at h
    obtain ⟨_, rfl⟩ := h
    refine ⟨hi, ?_⟩
    unfold rcRemove
    symm
    rw [List.filter_eq_self]
    intro e he
    simp only [ne_eq, decide_not, Bool.not_eq_true', decide_eq_false_iff_not]
    intro hv
    have := (rcGet?_iff hi.keysB).mpr ⟨e.1, he, hv⟩
    rw [hn] at this; cases this
  · rename_i aRc ha
    split at h
    · simp only [Except.ok.injEq, Prod.mk.injEq] at h
      obtain ⟨_, rfl⟩ := h
      exact ⟨hi.sub (List.Sublist.refl _) (rcRemove_sublist _ _) rfl, rfl⟩
    · simp only [unwraps_a hi ha] at h
      split at h
      · simp only [Except.ok.injEq, Prod.mk.injEq] at h
        obtain ⟨_, rfl⟩ := h
        exact ⟨hi.sub (rcRemove_sublist _ _) (rcRemove_sublist _ _) rfl, rfl⟩
      · rename_i hc _; cases hc
      · cases h

theorem anyHistory_inv {m : BidiMap A B} (h : AnyHistory m) : RcInv m := by
  induction h with
  | new => exact .new
  | insert a b _ ih => exact ih.insert a b
  | remove b r _ hr ih => exact (removeByB_cases ih hr).1

/-- the map stands for the relation -/
structure Stands (m : BidiMap A B) (R : A → B → Prop) : Prop where
  inv : RcInv m
  ab : ∀ a b, m.getAToB a = some b ↔ R a b
  ba : ∀ a b, m.getBToA b = some a ↔ R a b

theorem getAToB_insert (m : BidiMap A B) (a x : A) (b : B) : (m.insert a b).getAToB x = if x = a then some b else m.getAToB x := by
  unfold BidiMap.getAToB BidiMap.insert
  simp only [rcGet?_insert]
  split <;> simp

theorem getBToA_insert (m : BidiMap A B) (a : A) (b y : B) : (m.insert a b).getBToA y = if y = b then some a else m.getBToA y := by
  unfold BidiMap.getBToA BidiMap.insert
  simp only [rcGet?_insert]
  split <;> simp

theorem Stands.insert {m : BidiMap A B} {R : A → B → Prop} (hs : Stands m R) {a : A} {b : B} (ha : ∀ y, ¬ R a y) (hb : ∀ x, ¬ R x b) :
    Stands (m.insert a b) (RelInsert a b R) := by
  refine ⟨hs.inv.insert a b, ?_, ?_⟩
  · intro x y
    rw [getAToB_insert]
    unfold RelInsert
    split
    · rename_i hx
      subst hx
      simp only [Option.some.injEq, true_and]
      exact ⟨fun e => .inr e.symm, fun h => (h.resolve_left (ha y)).symm⟩
    · rename_i hx
      simp [hs.ab, hx]
  · intro x y
    rw [getBToA_insert]
    unfold RelInsert
    split
    · rename_i hx
      subst hx
      simp only [Option.some.injEq, and_true]
      exact ⟨fun e => .inr e.symm, fun h => (h.resolve_left (hb x)).symm⟩
    · rename_i hx
      simp [hs.ba, hx]

theorem Stands.remove {m : BidiMap A B} {R : A → B → Prop} (hs : Stands m R) (b : B) :
    (∀ a, R a b → ∃ m', m.removeByB b = .ok (some (a, b), m') ∧ Stands m' (RelRemove b R)) ∧
    ((∀ a, ¬ R a b) → m.removeByB b = .ok (none, m) ∧ Stands m (RelRemove b R)) := by
  constructor
  · intro a hr
    have h1 := (hs.ba a b).mpr hr
    have h2 := (hs.ab a b).mpr hr
    unfold BidiMap.getBToA at h1
    unfold BidiMap.getAToB at h2
    obtain ⟨aRc, k1, rfl⟩ := Option.map_eq_some_iff.mp h1
    obtain ⟨bRc, k2, rfl⟩ := Option.map_eq_some_iff.mp h2
    clear h1 h2
    rename' k1 => h1, k2 => h2
    refine ⟨{ m with ab := rcRemove aRc.val m.ab, ba := rcRemove bRc.val m.ba }, ?_, ?_⟩
    · unfold BidiMap.removeByB
      rw [h1]
      simp only
      rw [h2]
      simp only
      rw [unwraps_a hs.inv h1, unwraps_b hs.inv h2]
    · refine ⟨hs.inv.sub (rcRemove_sublist _ _) (rcRemove_sublist _ _) rfl, ?_, ?_⟩
      · intro x y
        unfold BidiMap.getAToB RelRemove
        simp only [rcGet?_remove]
        split
        · rename_i hx
          subst hx
          simp only [Option.map_none, reduceCtorEq, false_iff, not_and, ne_eq, Decidable.not_not]
          intro hr'
          have e1 := (hs.ab _ _).mpr hr
          have e2 := (hs.ab _ _).mpr hr'
          rw [e1] at e2
          exact (Option.some.inj e2).symm
        · rename_i hx
          have := hs.ab x y
          unfold BidiMap.getAToB at this
          rw [this]
          constructor
          · intro h
            refine ⟨h, ?_⟩
            rintro rfl
            have e1 := (hs.ba _ _).mpr hr
            have e2 := (hs.ba _ _).mpr h
            rw [e1] at e2
            exact hx (Option.some.inj e2).symm
          · exact fun h => h.1
      · intro x y
        unfold BidiMap.getBToA RelRemove
        simp only [rcGet?_remove]
        split
        · rename_i hx
          simp [hx]
        · rename_i hx
          have := hs.ba x y
          unfold BidiMap.getBToA at this
          rw [this]
          simp [hx]
  · intro hn
    have h1 : rcGet? b m.ba = none := by
      cases h : rcGet? b m.ba with
      | none => rfl
      | some r => exact absurd ((hs.ba r.val b).mp (by simp [BidiMap.getBToA, h])) (hn _)
    refine ⟨by simp [BidiMap.removeByB, h1], hs.inv, ?_, ?_⟩
    · intro x y
      rw [hs.ab]
      exact ⟨fun h => ⟨h, fun e => hn x (e ▸ h)⟩, fun h => h.1⟩
    · intro x y
      rw [hs.ba]
      exact ⟨fun h => ⟨h, fun e => hn x (e ▸ h)⟩, fun h => h.1⟩

theorem Stands.remove_eq {m m' : BidiMap A B} {R : A → B → Prop} (hs : Stands m R) {b : B} {r : Option (A × B)} (h : m.removeByB b = .ok (r, m')) :
    Stands m' (RelRemove b R) := by
  obtain ⟨h1, h2⟩ := hs.remove b
  by_cases hr : ∃ a, R a b
  · obtain ⟨a, hr⟩ := hr
    obtain ⟨m'', e, hs'⟩ := h1 a hr
    rw [h] at e
    cases e
    exact hs'
  · obtain ⟨e, hs'⟩ := h2 (fun a hra => hr ⟨a, hra⟩)
    rw [h] at e
    cases e
    exact hs'

theorem freshHistory_stands {m : BidiMap A B} {R : A → B → Prop} (h : FreshHistory m R) : Stands m R := by
  induction h with
  | new => exact ⟨.new, by intro a b; simp [BidiMap.new, BidiMap.getAToB, rcGet?], by intro a b; simp [BidiMap.new, BidiMap.getBToA, rcGet?]⟩
  | insert a b _ ha hb ih => exact ih.insert ha hb
  | remove b r _ hr ih => exact ih.remove_eq hr

theorem Stands.iter {m : BidiMap A B} {R : A → B → Prop} (hs : Stands m R) (a : A) (b : B) : ((a, b) ∈ m.iter ↔ R a b) ∧ m.iter.Nodup := by
  constructor
  · rw [← hs.ab a b]
    unfold BidiMap.iter BidiMap.getAToB
    rw [List.mem_map, Option.map_eq_some_iff]
    constructor
    · rintro ⟨⟨k, v⟩, he, e⟩
      cases e
      exact ⟨v, (rcGet?_iff hs.inv.keysA).mpr ⟨k, he, rfl⟩, rfl⟩
    · rintro ⟨v, h, rfl⟩
      obtain ⟨k, hk, rfl⟩ := rcGet?_mem h
      exact ⟨(k, v), hk, rfl⟩
  · have := hs.inv.keysA
    unfold BidiMap.iter
    refine List.Pairwise.map (R := fun e e' : Rc A × Rc B => e.1.val ≠ e'.1.val) _ ?_ (List.pairwise_map.mp this)
    intro x y h e
    exact h (congrArg Prod.fst e)

end inv

/-! ## the parser graph -/

theorem Stands.congr {A B : Type} [DecidableEq A] [DecidableEq B] {m : BidiMap A B} {R R' : A → B → Prop} (hs : Stands m R) (h : ∀ a b, R a b ↔ R' a b) : Stands m R' :=
  ⟨hs.inv, fun a b => (hs.ab a b).trans (h a b), fun a b => (hs.ba a b).trans (h a b)⟩

/-- the graph with the two-way map and the graph with the list of item sets -/
structure MapSim (lalr : Bool) (gr : LRGraph) (mg : MapGraph) : Prop where
  nodes : mg.nodes = gr.sets.length
  cores : mg.cores = gr.cores
  edges : mg.edges = gr.edges
  stands : Stands mg.map (fun s q => gr.sets[q]? = some s)
  coresOk : lalr = true → ∀ (c : List Item) (q : Nat), coreLookup c gr.cores = some q ↔ ∃ s, gr.sets[q]? = some s ∧ lr0Core s = c

/-- both results are the same error, or both are values that are related -/
def ResRel {α β : Type} (P : α → β → Prop) : Res α → Res β → Prop
  | .ok a, .ok b => P a b
  | .error e, .error e' => e = e'
  | _, _ => False

theorem ResRel.bind {α β γ δ : Type} {P : α → β → Prop} {Q : γ → δ → Prop} {x : Res α} {y : Res β} {f : α → Res γ} {g : β → Res δ} (h : ResRel P x y)
    (hf : ∀ a b, P a b → ResRel Q (f a) (g b)) : ResRel Q (x >>= f) (y >>= g) := by
  cases x with
  | error e =>
    cases y with
    | error e' => exact h
    | ok b => exact h.elim
  | ok a =>
    cases y with
    | error e' => exact h.elim
    | ok b => exact hf a b h

theorem ResRel.foldlM {α β γ : Type} {P : α → β → Prop} {f : α → γ → Res α} {g : β → γ → Res β} : ∀ (l : List γ) (a : α) (b : β), P a b →
    (∀ a b x, P a b → ResRel P (f a x) (g b x)) → ResRel P (l.foldlM f a) (l.foldlM g b) := by
  intro l
  induction l with
  | nil => intro a b h _; exact h
  | cons x l ih =>
    intro a b h hf
    rw [List.foldlM_cons, List.foldlM_cons]
    exact (hf a b x h).bind (fun a b h => ih a b h hf)

theorem MapSim.addState {lalr : Bool} {gr : LRGraph} {mg : MapGraph} (h : MapSim lalr gr mg) {set : List Item} (hnew : ∀ q : Nat, gr.sets[q]? ≠ some set)
    (hc : lalr = true → coreLookup (lr0Core set) gr.cores = none) : MapSim lalr (gr.addState set).1 (mg.addState set).1 ∧ (gr.addState set).2 = (mg.addState set).2 := by
  refine ⟨⟨?_, ?_, h.edges, ?_, ?_⟩, h.nodes.symm⟩
  · simp [LRGraph.addState, MapGraph.addState, h.nodes]
  · simp [LRGraph.addState, MapGraph.addState, h.nodes, h.cores]
  · have := h.stands.insert (a := set) (b := mg.nodes) hnew (by
      intro x e
      rw [h.nodes] at e
      have := (List.getElem?_eq_some_iff.mp e).1
      omega)
    refine this.congr ?_
    intro s q
    simp only [RelInsert, LRGraph.addState, getElem?_snoc, h.nodes]
    exact or_congr Iff.rfl ⟨fun e => ⟨e.2, e.1⟩, fun e => ⟨e.2, e.1⟩⟩
  · intro hl c q
    simp only [LRGraph.addState, coreLookup]
    split
    · rename_i hcc
      subst hcc
      constructor
      · intro e
        cases e
        exact ⟨set, by simp, rfl⟩
      · rintro ⟨s, hs, hcs⟩
        rcases getElem?_snoc.mp hs with hs | ⟨rfl, rfl⟩
        · have := (h.coresOk hl _ _).mpr ⟨s, hs, hcs⟩
          rw [hc hl] at this; cases this
        · rfl
    · rename_i hcc
      rw [h.coresOk hl c q]
      constructor
      · rintro ⟨s, hs, hcs⟩
        exact ⟨s, getElem?_snoc.mpr (.inl hs), hcs⟩
      · rintro ⟨s, hs, hcs⟩
        rcases getElem?_snoc.mp hs with hs | ⟨rfl, rfl⟩
        · exact ⟨s, hs, hcs⟩
        · exact absurd hcs hcc

theorem MapSim.addTransition {lalr : Bool} {gr : LRGraph} {mg : MapGraph} (h : MapSim lalr gr mg) (q : Nat) (X : Sym) (q' : Nat) :
    MapSim lalr (gr.addTransition q X q') (mg.addTransition q X q') :=
  ⟨h.nodes, h.cores, by simp [LRGraph.addTransition, MapGraph.addTransition, h.edges], h.stands, h.coresOk⟩

theorem mem_mergeItems : ∀ (its set : List Item) (ch : Bool) (it : Item), it ∈ (mergeItems its (set, ch)).1 ↔ it ∈ set ∨ it ∈ its := by
  intro its
  induction its with
  | nil => intro set ch it; simp [mergeItems]
  | cons x its ih =>
    intro set ch it
    simp only [mergeItems]
    rw [ih, mem_sinsert, List.mem_cons]
    tauto

theorem MapSim.merge {lalr : Bool} {gr : LRGraph} {mg : MapGraph} (h : MapSim lalr gr mg) (hl : lalr = true) {set : List Item} {q : Nat}
    (hq : coreLookup (lr0Core set) gr.cores = some q) :
    ResRel (fun x y => MapSim lalr x.1 y.1 ∧ x.2 = y.2) (gr.merge q set) (mg.merge q set) := by
  obtain ⟨old, hold, hcore⟩ := (h.coresOk hl _ _).mp hq
  have hlt : q < gr.sets.length := (List.getElem?_eq_some_iff.mp hold).1
  obtain ⟨m', hr, hs'⟩ := (h.stands.remove q).1 old hold
  unfold LRGraph.merge MapGraph.merge
  rw [hold, hr]
  simp only [bind, Except.bind]
  have hnc : lr0Core (mergeItems set (old, false)).1 = lr0Core set := by
    rw [lr0Core_eq] at hcore ⊢
    intro c
    rw [← hcore c]
    constructor
    · rintro ⟨it, hit, h1⟩
      rcases (mem_mergeItems _ _ _ _).mp hit with hit | hit
      · exact ⟨it, hit, h1⟩
      · exact (hcore c).mpr ⟨it, hit, h1⟩
    · rintro ⟨it, hit, h1⟩
      exact ⟨it, (mem_mergeItems _ _ _ _).mpr (.inl hit), h1⟩
  have hfresh : ∀ y, ¬ RelRemove q (fun s q => gr.sets[q]? = some s) (mergeItems set (old, false)).1 y := by
    rintro y ⟨hy, hne⟩
    have := (h.coresOk hl (lr0Core set) y).mpr ⟨_, hy, hnc⟩
    rw [hq] at this
    exact hne (Option.some.inj this).symm
  refine ⟨⟨?_, ?_, h.edges, ?_, ?_⟩, rfl⟩
  · simp [h.nodes]
  · simp [h.cores]
  · refine (hs'.insert (a := (mergeItems set (old, false)).1) (b := q) hfresh (fun x hx => hx.2 rfl)).congr ?_
    intro s p
    rw [getElem?_set_iff hlt]
    unfold RelInsert RelRemove
    constructor
    · rintro (⟨h1, h2⟩ | ⟨rfl, rfl⟩)
      · exact .inr ⟨h2, h1⟩
      · exact .inl ⟨rfl, rfl⟩
    · rintro (⟨rfl, rfl⟩ | ⟨h1, h2⟩)
      · exact .inr ⟨rfl, rfl⟩
      · exact .inl ⟨h2, h1⟩
  · intro _ c p
    simp only [coreLookup, hnc]
    split
    · rename_i hcc
      subst hcc
      constructor
      · intro e
        cases e
        exact ⟨_, (getElem?_set_iff hlt).mpr (.inl ⟨rfl, rfl⟩), hnc⟩
      · rintro ⟨s, hs, hcs⟩
        rcases (getElem?_set_iff hlt).mp hs with ⟨rfl, _⟩ | ⟨hne, hs⟩
        · rfl
        · have := (h.coresOk hl _ _).mpr ⟨s, hs, hcs⟩
          rw [hq] at this
          exact this
    · rename_i hcc
      rw [h.coresOk hl c p]
      constructor
      · rintro ⟨s, hs, hcs⟩
        refine ⟨s, (getElem?_set_iff hlt).mpr (.inr ⟨?_, hs⟩), hcs⟩
        rintro rfl
        rw [hold] at hs
        cases hs
        exact hcc (hcore.symm.trans hcs)
      · rintro ⟨s, hs, hcs⟩
        rcases (getElem?_set_iff hlt).mp hs with ⟨rfl, rfl⟩ | ⟨_, hs⟩
        · exact absurd (hnc.symm.trans hcs) hcc
        · exact ⟨s, hs, hcs⟩

theorem MapSim.getState {lalr : Bool} {gr : LRGraph} {mg : MapGraph} (h : MapSim lalr gr mg) (set : List Item) : gr.getState set = mg.getState set := by
  unfold LRGraph.getState MapGraph.getState
  cases hf : gr.sets.findIdx? (fun s => decide (s = set)) with
  | none =>
    cases hg : mg.map.getAToB set with
    | none => rfl
    | some q =>
      have := (h.stands.ab set q).mp hg
      have hn := List.findIdx?_eq_none_iff.mp hf set (List.mem_of_getElem? this)
      simp at hn
  | some q =>
    obtain ⟨hlt, hq, _⟩ := List.findIdx?_eq_some_iff_getElem.mp hf
    have : gr.sets[q]? = some set := by
      rw [List.getElem?_eq_getElem hlt]
      simpa using hq
    exact ((h.stands.ab set q).mpr this).symm

/-- graph and work list -/
def StSim (lalr : Bool) (x : LRGraph × List Nat) (y : MapGraph × List Nat) : Prop := MapSim lalr x.1 y.1 ∧ x.2 = y.2

theorem linkStep_map {lalr : Bool} {x : LRGraph × List Nat} {y : MapGraph × List Nat} (h : StSim lalr x y) (q : Nat) (e : Sym × List Item) :
    ResRel (StSim lalr) (linkStep lalr q x e) (mapLinkStep lalr q y e) := by
  obtain ⟨gr, work⟩ := x
  obtain ⟨mg, work'⟩ := y
  obtain ⟨hs, rfl⟩ := h
  unfold linkStep mapLinkStep
  cases lalr with
  | true =>
    simp only [if_true]
    have hc : mg.getByCore e.2 = gr.getByCore e.2 := by unfold MapGraph.getByCore LRGraph.getByCore; rw [hs.cores]
    rw [hc]
    cases hq : gr.getByCore e.2 with
    | some q' =>
      simp only
      refine (hs.merge rfl hq).bind ?_
      rintro ⟨gr', ch⟩ ⟨mg', ch'⟩ ⟨h1, rfl⟩
      exact ⟨h1.addTransition q e.1 q', rfl⟩
    | none =>
      simp only
      have := hs.addState (set := e.2) (by
        intro q'' hq''
        have := (hs.coresOk rfl _ _).mpr ⟨_, hq'', rfl⟩
        unfold LRGraph.getByCore at hq
        rw [hq] at this; cases this) (fun _ => hq)
      refine ⟨?_, ?_⟩
      · rw [this.2]; exact this.1.addTransition q e.1 _
      · simp only; rw [this.2]
  | false =>
    simp only [Bool.false_eq_true, if_false]
    rw [← hs.getState e.2]
    cases hq : gr.getState e.2 with
    | some q' => exact ⟨hs.addTransition q e.1 q', rfl⟩
    | none =>
      have := hs.addState (set := e.2) (by
        intro q'' hq''
        unfold LRGraph.getState at hq
        have hn := List.findIdx?_eq_none_iff.mp hq e.2 (List.mem_of_getElem? hq'')
        simp at hn) (fun h => by cases h)
      refine ⟨?_, ?_⟩
      · simp only; rw [this.2]; exact this.1.addTransition q e.1 _
      · simp only; rw [this.2]

theorem MapSim.getItemSet {lalr : Bool} {gr : LRGraph} {mg : MapGraph} (h : MapSim lalr gr mg) (q : Nat) : mg.getItemSet q = gr.sets[q]? := by
  unfold MapGraph.getItemSet
  cases hq : gr.sets[q]? with
  | some s => exact (h.stands.ba s q).mpr hq
  | none =>
    cases hg : mg.map.getBToA q with
    | none => rfl
    | some s =>
      have := (h.stands.ba s q).mp hg
      rw [hq] at this; cases this

theorem processState_map {g : Grammar} {fs : SymSets} {fuel : Nat} {lalr : Bool} {x : LRGraph × List Nat} {y : MapGraph × List Nat} (h : StSim lalr x y) (q : Nat) :
    ResRel (StSim lalr) (processState g fs fuel lalr q x) (mapProcessState g fs fuel lalr q y) := by
  unfold processState mapProcessState
  rw [h.1.getItemSet]
  cases x.1.sets[q]? with
  | none => rfl
  | some items =>
    simp only
    cases transitions g fs fuel items with
    | error e => rfl
    | ok ts => exact ResRel.foldlM ts x y h (fun a b e hab => linkStep_map hab q e)

theorem graphLoop_map {g : Grammar} {fs : SymSets} {cfuel : Nat} {lalr : Bool} : ∀ (fuel : Nat) (gr : LRGraph) (mg : MapGraph) (work : List Nat), MapSim lalr gr mg →
    ResRel (MapSim lalr) (graphLoop g fs cfuel lalr fuel gr work) (mapGraphLoop g fs cfuel lalr fuel mg work) := by
  intro fuel
  induction fuel with
  | zero =>
    intro gr mg work h
    cases work with
    | nil => exact h
    | cons q work => rfl
  | succ fuel ih =>
    intro gr mg work h
    cases work with
    | nil => exact h
    | cons q work =>
      simp only [graphLoop, mapGraphLoop]
      refine (processState_map (x := (gr, work)) (y := (mg, work)) ⟨h, rfl⟩ q).bind ?_
      rintro ⟨gr', work'⟩ ⟨mg', work''⟩ ⟨h1, h2⟩
      simp only at h2
      subst h2
      exact ih gr' mg' work' h1

theorem generateGraph_map (g : Grammar) (fs : SymSets) (kind : LRKind) (cfuel fuel : Nat) :
    ResRel (MapSim kind.isLalr) (generateGraph g fs kind cfuel fuel) (generateMapGraph g fs kind cfuel fuel) := by
  unfold generateGraph generateMapGraph
  cases expandItem g fs cfuel ⟨none, 0, kind.endLa⟩ with
  | error e => rfl
  | ok set =>
    have h0 : MapSim kind.isLalr ⟨[], [], []⟩ ⟨.new, [], 0, []⟩ :=
      ⟨rfl, rfl, rfl, (freshHistory_stands .new).congr (by simp), by simp [coreLookup]⟩
    have := h0.addState (set := set) (by simp) (fun _ => rfl)
    exact graphLoop_map fuel _ _ _ this.1

end Verif
