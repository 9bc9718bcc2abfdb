import Verif.Model.Layout
import Verif.Proofs.BidiMap
import Verif.Proofs.LRTable

/-! # Proofs: table generation does not depend on hash order and addresses -/

set_option autoImplicit false

namespace Verif

variable {lay : Layout} {g : Grammar} {fs : SymSets}

/-- sorted in the order of this run -/
def LSorted (lay : Layout) (s : List Item) : Prop := @SSorted Item lay.keyed s

theorem mem_layInsert {it x : Item} {s : List Item} : x ∈ lay.insert it s ↔ x = it ∨ x ∈ s := by
  unfold Layout.insert
  letI := lay.keyed
  exact mem_sinsert

theorem layInsert_sorted {it : Item} {s : List Item} (h : LSorted lay s) : LSorted lay (lay.insert it s) := by
  unfold Layout.insert LSorted at *
  letI := lay.keyed
  exact sinsert_sorted h

theorem layFold_spec : ∀ (l s : List Item), LSorted lay s →
    LSorted lay (l.foldl (fun s it => lay.insert it s) s) ∧ ∀ x, x ∈ l.foldl (fun s it => lay.insert it s) s ↔ x ∈ s ∨ x ∈ l := by
  intro l
  induction l with
  | nil => intro s h; exact ⟨h, by simp⟩
  | cons a l ih =>
    intro s h
    obtain ⟨h1, h2⟩ := ih (lay.insert a s) (layInsert_sorted h)
    refine ⟨h1, fun x => ?_⟩
    rw [List.foldl_cons, h2, mem_layInsert, List.mem_cons]
    tauto

theorem collect_sorted (l : List Item) : LSorted lay (lay.collect l) := (layFold_spec l [] (by simp [LSorted, SSorted])).1

theorem mem_collect {l : List Item} {x : Item} : x ∈ lay.collect l ↔ x ∈ l := by
  have := (layFold_spec (lay := lay) l [] (by simp [LSorted, SSorted])).2 x
  simpa [Layout.collect] using this

/-- on items of ordinary rules both orders agree -/
theorem layKey_iff {a b : Item} (ha : a.rule.isSome) (hb : b.rule.isSome) : lay.itemKey a < lay.itemKey b ↔ a.toKey < b.toKey := by
  obtain ⟨r, d, l⟩ := a
  obtain ⟨r', d', l'⟩ := b
  cases r with
  | none => simp at ha
  | some i => cases r' with
    | none => simp at hb
    | some j =>
      have e : ∀ (i d : Nat) (l : Option Sym), (⟨some i, d, l⟩ : Item).toKey = (i + 1) :: d :: laKey l := by intro i d l; cases l <;> rfl
      rw [e, e]
      simp only [Layout.itemKey, Layout.address, List.cons_append, List.nil_append]
      simp only [List.cons_lt_cons_iff, Nat.lt_irrefl, false_or, true_and, Nat.add_lt_add_iff_right, Nat.add_right_cancel_iff]

theorem LSorted.ssorted {s : List Item} (h : LSorted lay s) (hr : ∀ x ∈ s, x.rule.isSome) : SSorted s := by
  unfold LSorted SSorted at *
  exact List.Pairwise.imp_of_mem (fun {a b} ha hb hab => (layKey_iff (lay := lay) (hr a ha) (hr b hb)).mp hab) h

theorem SSorted.lsorted {s : List Item} (h : SSorted s) (hr : ∀ x ∈ s, x.rule.isSome) : LSorted lay s := by
  unfold LSorted SSorted at *
  exact List.Pairwise.imp_of_mem (fun {a b} ha hb hab => (layKey_iff (lay := lay) (hr a ha) (hr b hb)).mpr hab) h

/-- a set in both orders -/
structure SetRel (lay : Layout) (s s' : List Item) : Prop where
  sorted : SSorted s
  laid : LSorted lay s'
  mem : ∀ x, x ∈ s' ↔ x ∈ s

theorem SetRel.eq {s s' : List Item} (h : SetRel lay s s') (hr : ∀ x ∈ s, x.rule.isSome) : s' = s :=
  (h.laid.ssorted (fun x hx => hr x ((h.mem x).mp hx))).ext h.sorted h.mem

theorem SetRel.filter {s s' : List Item} (h : SetRel lay s s') : s'.filter (fun x => x.rule.isSome) = s.filter (fun x => x.rule.isSome) := by
  refine SetRel.eq (lay := lay) ⟨?_, ?_, ?_⟩ ?_
  · exact List.Pairwise.filter _ h.sorted
  · exact List.Pairwise.filter _ h.laid
  · intro x; simp only [List.mem_filter, h.mem]
  · intro x hx; exact (List.mem_filter.mp hx).2

/-! ## the closure -/

theorem hashGet?_push {α β : Type} [DecidableEq α] (k k' : α) (v : β) : ∀ (m : List (α × List β)),
    (hashGet? k' (hashPush k v m)).getD [] = (hashGet? k' m).getD [] ++ if k = k' then [v] else [] := by
  intro m
  induction m with
  | nil => simp only [hashPush, hashGet?]; split <;> simp
  | cons e m ih =>
    obtain ⟨c, vs⟩ := e
    simp only [hashPush]
    split
    · rename_i hc
      subst hc
      simp only [hashGet?]
      split
      · simp
      · simp
    · rename_i hc
      simp only [hashGet?]
      split
      · rename_i hc'
        subst hc'
        simp [Ne.symm hc]
      · exact ih

theorem rulesMap_get (X : Sym) : (hashGet? X (rulesMap g)).getD [] = rulesFor g X := by
  unfold rulesMap rulesFor
  have gen : ∀ (l : List Nat) (m : List (Sym × List Nat)), (hashGet? X (l.foldl (rulesMapStep g) m)).getD [] =
      (hashGet? X m).getD [] ++ match X with | .nt A => l.filter (fun i => ruleLhs g (some i) = some A) | _ => [] := by
    intro l
    induction l with
    | nil => intro m; cases X <;> simp
    | cons i l ih =>
      intro m
      rw [List.foldl_cons, ih]
      unfold rulesMapStep
      cases hl : ruleLhs g (some i) with
      | none => cases X <;> simp [hl]
      | some A =>
        simp only
        rw [hashGet?_push, List.append_assoc]
        congr 1
        cases X with
        | nt B =>
          simp only [List.filter_cons, hl, Option.some.injEq]
          by_cases hAB : A = B
          · subst hAB; simp
          · simp [hAB]
        | _ => simp
  have := gen (List.range g.rules.length) []
  rw [this]
  cases X <;> simp [hashGet?]

theorem skipEps_rule : ∀ (rhs : List Sym) {it it' : Item}, skipEps rhs it = .ok it' → it'.rule = it.rule := by
  intro rhs
  induction rhs with
  | nil => intro it it' h; simp [skipEps] at h; rw [h]
  | cons s rhs ih =>
    intro it it' h
    cases s with
    | eps =>
      simp only [skipEps] at h
      split at h
      · exact ih (it := { it with dot := it.dot + 1 }) h
      · cases h
    | _ => simp only [skipEps, Except.ok.injEq] at h; rw [h]

/-- the states of both closure loops; `it0` is the item they started with -/
structure ClosRel (lay : Layout) (it0 : Item) (x y : List Item × List Item) : Prop where
  set : SetRel lay x.1 y.1
  stack : x.2 = y.2
  rules : ∀ i ∈ x.1, i = it0 ∨ i.rule.isSome
  start : it0 ∈ x.1

theorem laidAdd_rel {it0 : Item} (i : Nat) {x y : List Item × List Item} (la : Option Sym) (h : ClosRel lay it0 x y) :
    ResRel (ClosRel lay it0) (closureAdd g i x la) (laidAdd lay g i y la) := by
  unfold closureAdd laidAdd
  cases hs : skipEps (ruleRhs g (some i)) ⟨some i, 0, la⟩ with
  | error e => rfl
  | ok it =>
    simp only [bind, Except.bind]
    have hc : y.1.contains it = x.1.contains it := by
      rw [Bool.eq_iff_iff]
      simp only [List.contains_iff_mem]
      exact h.set.mem it
    rw [hc]
    split
    · exact h
    · refine ⟨⟨sinsert_sorted h.set.sorted, layInsert_sorted h.set.laid, ?_⟩, ?_, ?_, mem_sinsert.mpr (.inr h.start)⟩
      · intro z; rw [mem_layInsert, mem_sinsert, h.set.mem]
      · simp [h.stack]
      · intro z hz
        rcases mem_sinsert.mp hz with rfl | hz
        · right; rw [skipEps_rule _ hs]; rfl
        · exact h.rules z hz

theorem laidRule_rel {it0 : Item} (top : Item) {x y : List Item × List Item} (i : Nat) (h : ClosRel lay it0 x y) :
    ResRel (ClosRel lay it0) (expandRule g fs top x i) (laidRule lay g fs top y i) := by
  unfold expandRule laidRule
  cases lookaheads g fs top with
  | error e => rfl
  | ok las => exact ResRel.foldlM las x y h (fun a b la hab => laidAdd_rel i la hab)

theorem laidTop_rel {it0 : Item} (top : Item) {x y : List Item × List Item} (h : ClosRel lay it0 x y) :
    ResRel (ClosRel lay it0) (expandTop g fs top x) (laidTop lay g fs (rulesMap g) top y) := by
  unfold expandTop laidTop
  cases top.after g with
  | none => exact h
  | some X =>
    simp only
    have hr := rulesMap_get (g := g) X
    cases hm : hashGet? X (rulesMap g) with
    | none =>
      rw [hm] at hr
      simp only [Option.getD_none] at hr
      rw [← hr]
      exact h
    | some rules =>
      rw [hm] at hr
      simp only [Option.getD_some] at hr
      rw [← hr]
      exact ResRel.foldlM rules x y h (fun a b i hab => laidRule_rel top i hab)

/-- sets in both orders, with no item of the entry rule besides `it0` -/
def ExpRel (lay : Layout) (it0 : Item) (s s' : List Item) : Prop := SetRel lay s s' ∧ (∀ i ∈ s, i = it0 ∨ i.rule.isSome) ∧ it0 ∈ s

theorem laidExpandLoop_rel {it0 : Item} : ∀ (fuel : Nat) (s s' stack : List Item), ClosRel lay it0 (s, stack) (s', stack) →
    ResRel (ExpRel lay it0) (expandLoop g fs fuel s stack) (laidExpandLoop lay g fs (rulesMap g) fuel s' stack) := by
  intro fuel
  induction fuel with
  | zero =>
    intro s s' stack h
    cases stack with
    | nil => exact ⟨h.set, h.rules, h.start⟩
    | cons a st => rfl
  | succ fuel ih =>
    intro s s' stack h
    cases stack with
    | nil => exact ⟨h.set, h.rules, h.start⟩
    | cons a st =>
      simp only [expandLoop, laidExpandLoop]
      refine ResRel.bind (laidTop_rel (g := g) (fs := fs) (lay := lay) (it0 := it0) a (x := (s, st)) (y := (s', st)) ⟨h.set, rfl, h.rules, h.start⟩) ?_
      rintro ⟨x1, x2⟩ ⟨y1, y2⟩ hxy
      obtain ⟨h1, h2, h3, h4⟩ := hxy
      simp only at h2
      subst h2
      exact ih x1 y1 x2 ⟨h1, rfl, h3, h4⟩

/-- every cached closure is the one that would be computed -/
def CacheOk (lay : Layout) (g : Grammar) (fs : SymSets) (fuel : Nat) (cache : ItemCache) : Prop :=
  ∀ it s, hashGet? it cache = some s → laidExpandLoop lay g fs (rulesMap g) fuel [it] [it] = .ok s

theorem laidExpand_rel {fuel : Nat} (it : Item) {cache : ItemCache} (h : CacheOk lay g fs fuel cache) :
    ResRel (fun s x => ExpRel lay it s x.1 ∧ CacheOk lay g fs fuel x.2) (expandItem g fs fuel it) (laidExpand lay g fs (rulesMap g) fuel it cache) := by
  have hr := laidExpandLoop_rel (lay := lay) (g := g) (fs := fs) (it0 := it) fuel [it] [it] [it]
    ⟨⟨by simp [SSorted], by simp [LSorted, SSorted], by simp⟩, rfl, by simp, by simp⟩
  unfold expandItem laidExpand
  cases hc : hashGet? it cache with
  | some s =>
    rw [h it s hc] at hr
    cases he : expandLoop g fs fuel [it] [it] with
    | error e => rw [he] at hr; exact hr.elim
    | ok s1 => rw [he] at hr; exact ⟨hr, h⟩
  | none =>
    simp only
    cases hl : laidExpandLoop lay g fs (rulesMap g) fuel [it] [it] with
    | error e =>
      cases he : expandLoop g fs fuel [it] [it] with
      | error e' => rw [he, hl] at hr; exact hr
      | ok s1 => rw [he, hl] at hr; exact hr.elim
    | ok s' =>
      cases he : expandLoop g fs fuel [it] [it] with
      | error e' => rw [he, hl] at hr; exact hr.elim
      | ok s1 =>
        rw [he, hl] at hr
        refine ⟨hr, ?_⟩
        intro it2 s2 h2
        simp only [hashGet?] at h2
        split at h2
        · rename_i e; subst e; cases h2; exact hl
        · exact h it2 s2 h2

/-! ## the transition map -/

/-- a set of items of ordinary rules, sorted and as a hash set -/
structure HashRel (s s' : List Item) : Prop where
  sorted : SSorted s
  mem : ∀ x, x ∈ s' ↔ x ∈ s
  rules : ∀ x ∈ s, x.rule.isSome

/-- the two transition maps -/
abbrev MapRel (m m' : List (Sym × List Item)) : Prop := List.Forall₂ (fun e e' => e.1 = e'.1 ∧ HashRel e.2 e'.2) m m'

theorem MapRel.get {m m' : List (Sym × List Item)} (h : MapRel m m') (X : Sym) : HashRel ((mget? X m).getD []) ((mget? X m').getD []) := by
  induction h with
  | nil => exact ⟨by simp [mget?, SSorted], by simp [mget?], by simp [mget?]⟩
  | @cons e e' m m' he _ ih =>
    obtain ⟨k, v⟩ := e
    obtain ⟨k', v'⟩ := e'
    obtain ⟨hk, hv⟩ := he
    simp only at hk
    subst hk
    simp only [mget?]
    split
    · exact hv
    · exact ih

theorem MapRel.insert {m m' : List (Sym × List Item)} (h : MapRel m m') (X : Sym) {v v' : List Item} (hv : HashRel v v') :
    MapRel (minsert X v m) (minsert X v' m') := by
  induction h with
  | nil => exact .cons ⟨rfl, hv⟩ .nil
  | @cons e e' m m' he hm ih =>
    obtain ⟨k, w⟩ := e
    obtain ⟨k', w'⟩ := e'
    obtain ⟨hk, hw⟩ := he
    simp only at hk
    subst hk
    simp only [minsert]
    split
    · exact .cons ⟨rfl, hv⟩ hm
    · split
      · exact .cons ⟨rfl, hv⟩ (.cons ⟨rfl, hw⟩ hm)
      · exact .cons ⟨rfl, hw⟩ ih

theorem HashRel.extend : ∀ (s' s v v' : List Item), HashRel v v' → (∀ x, x ∈ s' ↔ x ∈ s) → (∀ x ∈ s, x.rule.isSome) →
    HashRel (s.foldl (fun s i => sinsert i s) v) (s'.foldl (fun s i => hashInsert i s) v') := by
  have h1 : ∀ (s v : List Item), SSorted v → SSorted (s.foldl (fun s i => sinsert i s) v) ∧ ∀ x, x ∈ s.foldl (fun s i => sinsert i s) v ↔ x ∈ v ∨ x ∈ s := by
    intro s
    induction s with
    | nil => intro v hv; exact ⟨hv, by simp⟩
    | cons a s ih =>
      intro v hv
      obtain ⟨h1, h2⟩ := ih (sinsert a v) (sinsert_sorted hv)
      refine ⟨h1, fun x => ?_⟩
      rw [List.foldl_cons, h2, mem_sinsert, List.mem_cons]
      tauto
  have h2 : ∀ (s v : List Item) (x : Item), x ∈ s.foldl (fun s i => hashInsert i s) v ↔ x ∈ v ∨ x ∈ s := by
    intro s
    induction s with
    | nil => intro v x; simp
    | cons a s ih =>
      intro v x
      rw [List.foldl_cons, ih, List.mem_cons]
      unfold hashInsert
      split
      · rename_i hc
        have hm := List.contains_iff_mem.mp hc
        constructor
        · rintro (h | h)
          · exact .inl h
          · exact .inr (.inr h)
        · rintro (h | rfl | h)
          · exact .inl h
          · exact .inl hm
          · exact .inr h
      · rw [List.mem_cons]; tauto
  intro s' s v v' hv hm hr
  obtain ⟨h3, h4⟩ := h1 s v hv.sorted
  refine ⟨h3, ?_, ?_⟩
  · intro x; rw [h2, h4, hv.mem, hm]
  · intro x hx
    rcases (h4 x).mp hx with h | h
    · exact hv.rules x h
    · exact hr x h

theorem advance_rule {it it' : Item} (h : it.advance g = .ok it') : it'.rule = it.rule := by
  unfold Item.advance at h
  split at h
  · split at h
    · cases h; rfl
    · cases h
  · cases h; rfl

theorem laidTransStep_rel {fuel : Nat} {m : List (Sym × List Item)} {y : List (Sym × List Item) × ItemCache} (it : Item)
    (h : MapRel m y.1 ∧ CacheOk lay g fs fuel y.2) :
    ResRel (fun m y => MapRel m y.1 ∧ CacheOk lay g fs fuel y.2) (transStep g fs fuel m it) (laidTransStep lay g fs (rulesMap g) fuel y it) := by
  unfold transStep laidTransStep
  cases it.after g with
  | none => exact h
  | some X =>
    simp only
    cases hl : ruleLhs g it.rule with
    | none => exact h
    | some A =>
      simp only
      cases ha : it.advance g with
      | error e => rfl
      | ok it' =>
        simp only [bind, Except.bind]
        refine ResRel.bind (laidExpand_rel (lay := lay) (g := g) (fs := fs) it' h.2) ?_
        rintro s ⟨s', cache⟩ ⟨⟨h1, h2, _⟩, h3⟩
        refine ⟨h.1.insert X (HashRel.extend s' s _ _ (h.1.get X) h1.mem ?_), h3⟩
        intro x hx
        rcases h2 x hx with rfl | h
        · rw [advance_rule ha]
          cases hr : it.rule with
          | none => rw [hr] at hl; simp [ruleLhs] at hl
          | some i => rfl
        · exact h

/-- items of the entry rule have no transitions -/
theorem transStep_filter {fuel : Nat} : ∀ (l : List Item) (m : List (Sym × List Item)),
    l.foldlM (transStep g fs fuel) m = (l.filter (fun x => x.rule.isSome)).foldlM (transStep g fs fuel) m := by
  intro l
  induction l with
  | nil => intro m; rfl
  | cons it l ih =>
    intro m
    cases hr : it.rule with
    | none =>
      have : transStep g fs fuel m it = .ok m := by
        unfold transStep
        cases it.after g with
        | none => rfl
        | some X => simp [hr, ruleLhs]
      rw [List.foldlM_cons, this, List.filter_cons_of_neg (by simp [hr]), ← ih]
      rfl
    | some i =>
      rw [List.filter_cons_of_pos (by simp [hr]), List.foldlM_cons, List.foldlM_cons]
      exact congrArg _ (funext fun m => ih m)

theorem laidTransStep_filter {rm : List (Sym × List Nat)} {fuel : Nat} : ∀ (l : List Item) (y : List (Sym × List Item) × ItemCache),
    l.foldlM (laidTransStep lay g fs rm fuel) y = (l.filter (fun x => x.rule.isSome)).foldlM (laidTransStep lay g fs rm fuel) y := by
  intro l
  induction l with
  | nil => intro m; rfl
  | cons it l ih =>
    intro y
    cases hr : it.rule with
    | none =>
      have : laidTransStep lay g fs rm fuel y it = .ok y := by
        unfold laidTransStep
        cases it.after g with
        | none => rfl
        | some X => simp [hr, ruleLhs]
      rw [List.foldlM_cons, this, List.filter_cons_of_neg (by simp [hr]), ← ih]
      rfl
    | some i =>
      rw [List.filter_cons_of_pos (by simp [hr]), List.foldlM_cons, List.foldlM_cons]
      exact congrArg _ (funext fun m => ih m)

theorem laidTransitions_rel {fuel : Nat} {s s' : List Item} (h : SetRel lay s s') {cache : ItemCache} (hc : CacheOk lay g fs fuel cache) :
    ResRel (fun m y => MapRel m y.1 ∧ CacheOk lay g fs fuel y.2) (transitions g fs fuel s) (s'.foldlM (laidTransStep lay g fs (rulesMap g) fuel) ([], cache)) := by
  unfold transitions
  rw [transStep_filter, laidTransStep_filter, h.filter]
  exact ResRel.foldlM _ _ _ ⟨.nil, hc⟩ (fun a b it hab => laidTransStep_rel it hab)

/-! ## the graph -/

/-- items of ordinary rules, sorted -/
def PlainSet (s : List Item) : Prop := SSorted s ∧ ∀ x ∈ s, x.rule.isSome

theorem PlainSet.rel {s : List Item} (h : PlainSet s) : SetRel lay s s := ⟨h.1, h.1.lsorted h.2, fun _ => Iff.rfl⟩

theorem collect_eq {v l : List Item} (hv : PlainSet v) (hm : ∀ x, x ∈ l ↔ x ∈ v) : lay.collect l = v :=
  SetRel.eq (lay := lay) ⟨hv.1, collect_sorted l, fun x => by rw [mem_collect, hm]⟩ hv.2

theorem lr0Core_rules {v : List Item} (hv : ∀ x ∈ v, x.rule.isSome) : PlainSet (lr0Core v) := by
  refine ⟨(lr0Core_spec v).1, ?_⟩
  intro x hx
  obtain ⟨k, h1, h2⟩ := ((lr0Core_spec v).2 x).mp hx
  rw [← h2]
  exact hv k h1

theorem laidCore_eq {v l : List Item} (hv : ∀ x ∈ v, x.rule.isSome) (hm : ∀ x, x ∈ l ↔ x ∈ v) : laidCore lay l = lr0Core v := by
  refine collect_eq (lr0Core_rules hv) ?_
  intro x
  rw [(lr0Core_spec v).2 x]
  simp only [List.mem_map, hm]

theorem layInsert_eq {it : Item} {s : List Item} (hs : PlainSet s) (hi : it.rule.isSome) : lay.insert it s = sinsert it s :=
  SetRel.eq (lay := lay) ⟨sinsert_sorted hs.1, layInsert_sorted (hs.1.lsorted hs.2), fun x => by rw [mem_layInsert, mem_sinsert]⟩
    (fun x hx => by rcases mem_sinsert.mp hx with rfl | h; exact hi; exact hs.2 x h)

theorem laidMergeItems_eq : ∀ (its s : List Item) (ch : Bool), PlainSet s → (∀ x ∈ its, x.rule.isSome) →
    laidMergeItems lay its (s, ch) = mergeItems its (s, ch) ∧ PlainSet (mergeItems its (s, ch)).1 := by
  intro its
  induction its with
  | nil => intro s ch hs _; exact ⟨rfl, hs⟩
  | cons it its ih =>
    intro s ch hs hi
    simp only [laidMergeItems, mergeItems]
    have h1 := hi it (by simp)
    rw [layInsert_eq hs h1]
    exact ih _ _ ⟨sinsert_sorted hs.1, fun x hx => by rcases mem_sinsert.mp hx with rfl | h; exact h1; exact hs.2 x h⟩ (fun x hx => hi x (by simp [hx]))

/-- an item of the entry rule occurs -/
def HasEntry (s : List Item) : Prop := ∃ x ∈ s, x.rule = none

theorem HasEntry.ne {s v : List Item} (h : HasEntry s) (hv : ∀ x ∈ v, x.rule.isSome) : s ≠ v := by
  rintro rfl
  obtain ⟨x, h1, h2⟩ := h
  have := hv x h1
  rw [h2] at this
  cases this

theorem coreLookup_append (core : List Item) : ∀ (cs ds : List (List Item × Nat)), coreLookup core (cs ++ ds) = (coreLookup core cs).or (coreLookup core ds) := by
  intro cs
  induction cs with
  | nil => intro ds; simp [coreLookup]
  | cons e cs ih =>
    intro ds
    obtain ⟨c, q⟩ := e
    simp only [List.cons_append, coreLookup]
    split
    · rfl
    · exact ih ds

theorem coreLookup_mem {core : List Item} {q : Nat} : ∀ {cs : List (List Item × Nat)}, coreLookup core cs = some q → (core, q) ∈ cs := by
  intro cs
  induction cs with
  | nil => intro h; simp [coreLookup] at h
  | cons e cs ih =>
    obtain ⟨c, p⟩ := e
    intro h
    simp only [coreLookup] at h
    split at h
    · rename_i hc; subst hc; cases h; simp
    · exact List.mem_cons_of_mem _ (ih h)

/-- the two graphs agree up to the order of the items in the entry state -/
structure GrRel (lay : Layout) (x y : LRGraph) : Prop where
  ex : ∃ s0 s0' rest cs c0 c0', x.sets = s0 :: rest ∧ y.sets = s0' :: rest ∧ x.cores = cs ++ [(c0, 0)] ∧ y.cores = cs ++ [(c0', 0)] ∧
    SetRel lay s0 s0' ∧ HasEntry s0 ∧ (∀ it ∈ s0, it.rule = none → it.dot = 0) ∧ HasEntry c0 ∧ HasEntry c0' ∧ (∀ s ∈ rest, PlainSet s) ∧ (∀ e ∈ cs, 0 < e.2)
  edges : x.edges = y.edges

theorem GrRel.addTransition {x y : LRGraph} (h : GrRel lay x y) (q : Nat) (X : Sym) (q' : Nat) : GrRel lay (x.addTransition q X q') (y.addTransition q X q') :=
  ⟨h.ex, by simp only [LRGraph.addTransition, h.edges]⟩

theorem GrRel.length {x y : LRGraph} (h : GrRel lay x y) : x.sets.length = y.sets.length := by
  obtain ⟨s0, s0', rest, cs, c0, c0', h1, h2, _⟩ := h.ex
  rw [h1, h2]
  rfl

theorem GrRel.set {x y : LRGraph} (h : GrRel lay x y) (q : Nat) :
    (x.sets[q]? = none ∧ y.sets[q]? = none) ∨ ∃ s s', x.sets[q]? = some s ∧ y.sets[q]? = some s' ∧ SetRel lay s s' := by
  obtain ⟨s0, s0', rest, cs, c0, c0', h1, h2, _, _, h3, _, _, _, _, h4, _⟩ := h.ex
  rw [h1, h2]
  cases q with
  | zero => exact .inr ⟨s0, s0', rfl, rfl, h3⟩
  | succ q =>
    simp only [List.getElem?_cons_succ]
    cases hq : rest[q]? with
    | none => exact .inl ⟨rfl, rfl⟩
    | some s => exact .inr ⟨s, s, rfl, rfl, (h4 s (List.mem_of_getElem? hq)).rel⟩

theorem GrRel.addState {x y : LRGraph} (h : GrRel lay x y) {v : List Item} (hv : PlainSet v) :
    GrRel lay (x.addState v).1 (laidAddState lay y v).1 ∧ (x.addState v).2 = (laidAddState lay y v).2 := by
  have hl := h.length
  refine ⟨?_, hl⟩
  obtain ⟨s0, s0', rest, cs, c0, c0', h1, h2, h3, h4, h5, h6, h7, h8, h9, h10, h11⟩ := h.ex
  refine ⟨⟨s0, s0', rest ++ [v], (lr0Core v, x.sets.length) :: cs, c0, c0', ?_, ?_, ?_, ?_, h5, h6, h7, h8, h9, ?_, ?_⟩, h.edges⟩
  · simp [LRGraph.addState, h1]
  · simp [laidAddState, h2]
  · simp [LRGraph.addState, h3]
  · simp only [laidAddState, h4, ← hl, laidCore_eq hv.2 (fun _ => Iff.rfl), List.cons_append]
  · intro s hs
    rcases List.mem_append.mp hs with hs | hs
    · exact h10 s hs
    · rw [List.mem_singleton.mp hs]; exact hv
  · intro e he
    rcases List.mem_cons.mp he with rfl | he
    · rw [h1]; simp
    · exact h11 e he

theorem GrRel.lookup {x y : LRGraph} (h : GrRel lay x y) {core : List Item} (hc : ∀ i ∈ core, i.rule.isSome) :
    coreLookup core y.cores = coreLookup core x.cores ∧ ∀ q, coreLookup core x.cores = some q → 0 < q := by
  obtain ⟨s0, s0', rest, cs, c0, c0', h1, h2, h3, h4, h5, h6, h7, h8, h9, h10, h11⟩ := h.ex
  have e1 : coreLookup core [(c0, 0)] = none := by simp [coreLookup, h8.ne hc]
  have e2 : coreLookup core [(c0', 0)] = none := by simp [coreLookup, h9.ne hc]
  rw [h3, h4, coreLookup_append, coreLookup_append, e1, e2]
  refine ⟨rfl, fun q hq => ?_⟩
  rw [Option.or_none] at hq
  exact h11 _ (coreLookup_mem hq)

theorem GrRel.getState {x y : LRGraph} (h : GrRel lay x y) {v : List Item} (hv : ∀ i ∈ v, i.rule.isSome) : y.getState v = x.getState v := by
  obtain ⟨s0, s0', rest, cs, c0, c0', h1, h2, h3, h4, h5, h6, h7, h8, h9, h10, h11⟩ := h.ex
  have h6' : HasEntry s0' := by
    obtain ⟨i, hi, hr⟩ := h6
    exact ⟨i, (h5.mem i).mpr hi, hr⟩
  unfold LRGraph.getState
  rw [h1, h2, List.findIdx?_cons, List.findIdx?_cons]
  simp [h6.ne hv, h6'.ne hv]

theorem GrRel.merge {x y : LRGraph} (h : GrRel lay x y) {q : Nat} (hq : 0 < q) {v : List Item} (hv : PlainSet v) :
    ResRel (fun a b => GrRel lay a.1 b.1 ∧ a.2 = b.2) (x.merge q v) (laidMerge lay y q v) := by
  obtain ⟨s0, s0', rest, cs, c0, c0', h1, h2, h3, h4, h5, h6, h7, h8, h9, h10, h11⟩ := h.ex
  obtain ⟨q, rfl⟩ : ∃ k, q = k + 1 := ⟨q - 1, by omega⟩
  unfold LRGraph.merge laidMerge
  rw [h1, h2]
  simp only [List.getElem?_cons_succ]
  cases hr : rest[q]? with
  | none => rfl
  | some old =>
    have ho := h10 old (List.mem_of_getElem? hr)
    obtain ⟨e1, e2⟩ := laidMergeItems_eq (lay := lay) v old false ho hv.2
    simp only [e1]
    refine ⟨⟨⟨s0, s0', rest.set q (mergeItems v (old, false)).1, (lr0Core (mergeItems v (old, false)).1, q + 1) :: cs, c0, c0', ?_, ?_, ?_, ?_, h5, h6, h7, h8, h9, ?_, ?_⟩, h.edges⟩, rfl⟩
    · simp
    · simp
    · simp [h3]
    · simp [h4, laidCore_eq e2.2 (fun _ => Iff.rfl)]
    · intro s hs
      rcases List.mem_or_eq_of_mem_set hs with hs | rfl
      · exact h10 s hs
      · exact e2
    · intro e he
      rcases List.mem_cons.mp he with rfl | he
      · simp
      · exact h11 e he

/-- graph and work list -/
def LayState (lay : Layout) (x y : LRGraph × List Nat) : Prop := GrRel lay x.1 y.1 ∧ x.2 = y.2

theorem laidLinkStep_rel (hi : ∀ gr X s, (lay.iter gr X s).Perm s) {lalr : Bool} {x y : LRGraph × List Nat} (h : LayState lay x y) (q : Nat) {e e' : Sym × List Item}
    (he : e.1 = e'.1 ∧ HashRel e.2 e'.2) : ResRel (LayState lay) (linkStep lalr q x e) (laidLinkStep lay lalr q y e') := by
  obtain ⟨gr, work⟩ := x
  obtain ⟨gr', work'⟩ := y
  obtain ⟨hg, hw⟩ := h
  simp only at hg hw
  subst hw
  obtain ⟨X, v⟩ := e
  obtain ⟨X', v'⟩ := e'
  obtain ⟨hX, hv⟩ := he
  simp only at hX hv
  subst hX
  have hvr : PlainSet v := ⟨hv.sorted, hv.rules⟩
  have hm : ∀ z, z ∈ lay.iter gr' X v' ↔ z ∈ v := fun z => ((hi gr' X v').mem_iff).trans (hv.mem z)
  unfold linkStep laidLinkStep
  simp only [collect_eq hvr hm, laidCore_eq hvr.2 hm]
  cases lalr with
  | true =>
    simp only [if_true]
    have hl := hg.lookup (lr0Core_rules hvr.2).2
    unfold LRGraph.getByCore
    rw [hl.1]
    cases hc : coreLookup (lr0Core v) gr.cores with
    | some q' =>
      simp only
      refine ResRel.bind (hg.merge (hl.2 q' hc) hvr) ?_
      rintro ⟨a, ch⟩ ⟨b, ch'⟩ ⟨h1, h2⟩
      simp only at h1 h2
      subst h2
      exact ⟨h1.addTransition q X q', rfl⟩
    | none =>
      simp only
      have := hg.addState hvr
      refine ⟨?_, ?_⟩
      · simp only; rw [← this.2]; exact this.1.addTransition q X _
      · simp only; rw [this.2]
  | false =>
    simp only [Bool.false_eq_true, if_false]
    rw [hg.getState hvr.2]
    cases hc : gr.getState v with
    | some q' => exact ⟨hg.addTransition q X q', rfl⟩
    | none =>
      simp only
      have := hg.addState hvr
      refine ⟨?_, ?_⟩
      · simp only; rw [← this.2]; exact this.1.addTransition q X _
      · simp only; rw [this.2]

theorem laidProcess_rel (hi : ∀ gr X s, (lay.iter gr X s).Perm s) {fuel : Nat} {lalr : Bool} {x y : LRGraph × List Nat} (h : LayState lay x y) (q : Nat) {cache : ItemCache}
    (hc : CacheOk lay g fs fuel cache) :
    ResRel (fun a b => LayState lay a b.1 ∧ CacheOk lay g fs fuel b.2) (processState g fs fuel lalr q x) (laidProcess lay g fs (rulesMap g) fuel lalr q cache y) := by
  unfold processState laidProcess
  rcases h.1.set q with ⟨h1, h2⟩ | ⟨s, s', h1, h2, hs⟩
  · rw [h1, h2]; rfl
  · rw [h1, h2]
    simp only
    refine ResRel.bind (laidTransitions_rel (fuel := fuel) hs hc) ?_
    rintro ts ⟨ts', cache'⟩ ⟨hm, hc'⟩
    simp only at hm hc' ⊢
    have gen : ∀ (ts ts' : List (Sym × List Item)), MapRel ts ts' → ∀ x y, LayState lay x y → ResRel (LayState lay) (ts.foldlM (linkStep lalr q) x) (ts'.foldlM (laidLinkStep lay lalr q) y) := by
      intro ts ts' hm
      induction hm with
      | nil => intro x y h; exact h
      | @cons e e' m m' he _ ih =>
        intro x y h
        rw [List.foldlM_cons, List.foldlM_cons]
        exact (laidLinkStep_rel hi h q he).bind (fun a b hab => ih a b hab)
    have := gen ts ts' hm x y h
    cases ha : ts.foldlM (linkStep lalr q) x with
    | error e =>
      cases hb : ts'.foldlM (laidLinkStep lay lalr q) y with
      | error e' => rw [ha, hb] at this; exact this
      | ok b => rw [ha, hb] at this; exact this.elim
    | ok a =>
      cases hb : ts'.foldlM (laidLinkStep lay lalr q) y with
      | error e' => rw [ha, hb] at this; exact this.elim
      | ok b => rw [ha, hb] at this; exact ⟨this, hc'⟩

theorem laidLoop_rel (hi : ∀ gr X s, (lay.iter gr X s).Perm s) {cfuel : Nat} {lalr : Bool} : ∀ (fuel : Nat) (cache : ItemCache) (gr gr' : LRGraph) (work : List Nat), GrRel lay gr gr' →
    CacheOk lay g fs cfuel cache →
    ResRel (GrRel lay) (graphLoop g fs cfuel lalr fuel gr work) (laidLoop lay g fs (rulesMap g) cfuel lalr fuel cache gr' work) := by
  intro fuel
  induction fuel with
  | zero =>
    intro cache gr gr' work h hc
    cases work with
    | nil => exact h
    | cons q work => rfl
  | succ fuel ih =>
    intro cache gr gr' work h hc
    cases work with
    | nil => exact h
    | cons q work =>
      simp only [graphLoop, laidLoop]
      refine ResRel.bind (laidProcess_rel hi (lay := lay) (x := (gr, work)) (y := (gr', work)) ⟨h, rfl⟩ q hc) ?_
      rintro ⟨a, wa⟩ ⟨⟨b, wb⟩, cache'⟩ ⟨⟨h1, h2⟩, h3⟩
      simp only at h1 h2 h3
      subst h2
      exact ih cache' a b wa h1 h3

theorem laidGraph_rel (hi : ∀ gr X s, (lay.iter gr X s).Perm s) (kind : LRKind) (cfuel fuel : Nat) :
    ResRel (GrRel lay) (generateGraph g fs kind cfuel fuel) (laidGraph lay g fs kind cfuel fuel) := by
  unfold generateGraph laidGraph
  have hx := laidExpand_rel (lay := lay) (g := g) (fs := fs) (fuel := cfuel) ⟨none, 0, kind.endLa⟩ (cache := []) (by intro it s h; simp [hashGet?] at h)
  cases ha : expandItem g fs cfuel ⟨none, 0, kind.endLa⟩ with
  | error e =>
    cases hb : laidExpand lay g fs (rulesMap g) cfuel ⟨none, 0, kind.endLa⟩ [] with
    | error e' => rw [ha, hb] at hx; exact hx
    | ok b => rw [ha, hb] at hx; exact hx.elim
  | ok s =>
    cases hb : laidExpand lay g fs (rulesMap g) cfuel ⟨none, 0, kind.endLa⟩ [] with
    | error e' => rw [ha, hb] at hx; exact hx.elim
    | ok b =>
      rw [ha, hb] at hx
      obtain ⟨s', cache⟩ := b
      obtain ⟨⟨h1, h2, hin⟩, h3⟩ := hx
      simp only at h1 h2 h3
      refine laidLoop_rel hi fuel cache _ _ _ ?_ h3
      refine ⟨⟨s, s', [], [], lr0Core s, laidCore lay s', rfl, rfl, rfl, rfl, h1, ⟨_, hin, rfl⟩, ?_, ?_, ?_, by simp, by simp⟩, rfl⟩
      · intro it hit hr
        rcases h2 it hit with rfl | h
        · rfl
        · rw [hr] at h; cases h
      · exact ⟨⟨none, 0, none⟩, ((lr0Core_spec s).2 _).mpr ⟨_, hin, rfl⟩, rfl⟩
      · exact ⟨⟨none, 0, none⟩, mem_collect.mpr (List.mem_map.mpr ⟨_, (h1.mem _).mpr hin, rfl⟩), rfl⟩

end Verif
