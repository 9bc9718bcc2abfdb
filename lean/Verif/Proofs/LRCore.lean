import Verif.Proofs.LRClosure

/-! # LR(0) cores and transition maps -/

set_option autoImplicit false

namespace Verif

variable {g : Grammar} {kind : LRKind}

/-- a rule and a dot position -/
abbrev Core := RuleIdx × Nat

/-- the core occurs in an item set -/
def InCore (s : List Item) (c : Core) : Prop := ∃ it ∈ s, it.rule = c.1 ∧ it.dot = c.2

theorem lr0Core_spec (s : List Item) : SSorted (lr0Core s) ∧ ∀ it, it ∈ lr0Core s ↔ ∃ k ∈ s, k.toLr0 = it := by
  have gen : ∀ (l acc : List Item), SSorted acc →
      SSorted (l.foldl (fun s it => sinsert it.toLr0 s) acc) ∧
      ∀ it, it ∈ l.foldl (fun s it => sinsert it.toLr0 s) acc ↔ it ∈ acc ∨ ∃ k ∈ l, k.toLr0 = it := by
    intro l
    induction l with
    | nil => intro acc h; simp [h]
    | cons x l ih =>
      intro acc h
      obtain ⟨h1, h2⟩ := ih (sinsert x.toLr0 acc) (sinsert_sorted h)
      refine ⟨h1, fun it => ?_⟩
      rw [List.foldl_cons, h2, mem_sinsert]
      simp only [List.mem_cons, exists_eq_or_imp]
      constructor
      · rintro ((rfl | h) | h)
        · exact .inr (.inl rfl)
        · exact .inl h
        · exact .inr (.inr h)
      · rintro (h | rfl | h)
        · exact .inl (.inr h)
        · exact .inl (.inl rfl)
        · exact .inr h
  obtain ⟨h1, h2⟩ := gen s [] (by simp [SSorted])
  exact ⟨h1, fun it => by have := h2 it; simp only [List.not_mem_nil, false_or] at this; exact this⟩

theorem mem_lr0Core {s : List Item} {c : Core} : (⟨c.1, c.2, none⟩ : Item) ∈ lr0Core s ↔ InCore s c := by
  rw [(lr0Core_spec s).2]
  constructor
  · rintro ⟨k, h1, h2⟩
    simp only [Item.toLr0, Item.mk.injEq] at h2
    exact ⟨k, h1, h2.1, h2.2.1⟩
  · rintro ⟨k, h1, h2, h3⟩
    exact ⟨k, h1, by simp [Item.toLr0, h2, h3]⟩

theorem lr0Core_eq {s s' : List Item} : lr0Core s = lr0Core s' ↔ ∀ c, InCore s c ↔ InCore s' c := by
  constructor
  · intro h c; rw [← mem_lr0Core, ← mem_lr0Core, h]
  · intro h
    refine SSorted.ext (lr0Core_spec s).1 (lr0Core_spec s').1 fun it => ?_
    rw [(lr0Core_spec s).2, (lr0Core_spec s').2]
    constructor
    · rintro ⟨k, h1, rfl⟩
      obtain ⟨k', h2, h3, h4⟩ := (h (k.rule, k.dot)).mp ⟨k, h1, rfl, rfl⟩
      exact ⟨k', h2, by simp only [Item.toLr0] at *; simp [h3, h4]⟩
    · rintro ⟨k, h1, rfl⟩
      obtain ⟨k', h2, h3, h4⟩ := (h (k.rule, k.dot)).mpr ⟨k, h1, rfl, rfl⟩
      exact ⟨k', h2, by simp only [Item.toLr0] at *; simp [h3, h4]⟩

/-- something can follow: rules of a non-terminal followed by `rest` get at least one lookahead -/
def Live (g : Grammar) (kind : LRKind) (rest : List Sym) : Prop :=
  kind.hasLa = true → Nul g.rules rest ∨ ∃ x : Sym, x.isTerm ∧ FirstIn g.rules x rest

theorem live_iff (wf : g.WF) {it : Item} (hl : LaOk g kind it.la) :
    (∃ x, ExpandsWith g it x) ↔ Live g kind ((ruleRhs g it.rule).drop (it.dot + 1)) := by
  have hl' := hl
  unfold LaOk at hl
  split at hl
  · rename_i hk
    obtain ⟨a, ha, _⟩ := hl
    have hat : a.isTerm := hl'.isTerm wf ha
    simp only [ExpandsWith, ha, Live]
    constructor
    · rintro ⟨x, b, rfl, hb, hf⟩ _
      rw [firstOf_iff hb, firstIn_append hb] at hf
      rcases hf with h | ⟨h, _⟩
      · exact .inr ⟨b, hb, h⟩
      · exact .inl h
    · intro h
      rcases h hk with h | ⟨x, hx, h⟩
      · exact ⟨_, a, rfl, hat, (firstOf_iff hat).mpr ((firstIn_append hat).mpr (.inr ⟨h, .here⟩))⟩
      · exact ⟨_, x, rfl, hx, (firstOf_iff hx).mpr ((firstIn_append hx).mpr (.inl h))⟩
  · rename_i hk
    simp only [ExpandsWith, hl, Live]
    exact ⟨fun _ h => (hk h).elim, fun _ => ⟨none, rfl⟩⟩

/-- symbol after the dot of a core -/
def Core.after (g : Grammar) (c : Core) : Option Sym := (ruleRhs g c.1)[c.2]?

/-- closure steps on cores -/
def CStep (g : Grammar) (kind : LRKind) (c c' : Core) : Prop :=
  ∃ (A i : Nat) (r : Rule), Core.after g c = some (.nt A) ∧ g.rules[i]? = some r ∧ r.lhs = A ∧
    Live g kind ((ruleRhs g c.1).drop (c.2 + 1)) ∧ c' = (some i, leadingEps r.rhs)

/-- closure on cores -/
inductive CClosure (g : Grammar) (kind : LRKind) (c : Core) : Core → Prop
  | self : CClosure g kind c c
  | step {a b : Core} : CClosure g kind c a → CStep g kind a b → CClosure g kind c b

theorem closure_laOk (wf : g.WF) {it0 it : Item} (h0 : LaOk g kind it0.la) (h : Closure g it0 it) : LaOk g kind it.la := by
  induction h with
  | self => exact h0
  | step _ hs ih =>
    obtain ⟨A, i, r, x, _, _, _, h4, rfl⟩ := hs
    exact expandsWith_ok wf ih h4

theorem closure_core (wf : g.WF) {it0 : Item} (h0 : LaOk g kind it0.la) {c : Core} :
    (∃ it, Closure g it0 it ∧ it.rule = c.1 ∧ it.dot = c.2) ↔ CClosure g kind (it0.rule, it0.dot) c := by
  constructor
  · rintro ⟨it, h, h1, h2⟩
    have : c = (it.rule, it.dot) := by rw [h1, h2]
    subst this
    clear h1 h2
    induction h with
    | self => exact .self
    | step hc hs ih =>
      obtain ⟨A, i, r, x, a1, a2, a3, a4, rfl⟩ := hs
      exact .step ih ⟨A, i, r, a1, a2, a3, (live_iff wf (closure_laOk wf h0 hc)).mp ⟨x, a4⟩, rfl⟩
  · intro h
    induction h with
    | self => exact ⟨it0, .self, rfl, rfl⟩
    | step hc hs ih =>
      obtain ⟨it, i1, i2, i3⟩ := ih
      obtain ⟨A, i, r, a1, a2, a3, a4, rfl⟩ := hs
      rw [← i2, ← i3] at a4
      obtain ⟨x, hx⟩ := (live_iff wf (closure_laOk wf h0 i1)).mpr a4
      exact ⟨⟨some i, leadingEps r.rhs, x⟩, .step i1 ⟨A, i, r, x, by rw [← a1]; simp [Item.after, Core.after, i2, i3], a2, a3, hx, rfl⟩, rfl, rfl⟩

/-- successor cores -/
def CGoto (g : Grammar) (kind : LRKind) (C : Core → Prop) (X : Sym) (c : Core) : Prop :=
  ∃ k, C k ∧ Core.after g k = some X ∧ k.1 ≠ none ∧ CClosure g kind (k.1, k.2 + 1) c

theorem gotoSet_core (wf : g.WF) {S : List Item} (hS : ∀ it ∈ S, ItemOk g kind it) {X : Sym} {c : Core} :
    (∃ it, GotoSet g S X it ∧ it.rule = c.1 ∧ it.dot = c.2) ↔ CGoto g kind (InCore S) X c := by
  constructor
  · rintro ⟨it, ⟨k, h1, h2, h3, h4⟩, h5, h6⟩
    exact ⟨(k.rule, k.dot), ⟨k, h1, rfl, rfl⟩, h2, h3, (closure_core wf (it0 := { k with dot := k.dot + 1 }) (hS k h1).la).mp ⟨it, h4, h5, h6⟩⟩
  · rintro ⟨⟨r, d⟩, ⟨k, h1, rfl, rfl⟩, h2, h3, h4⟩
    obtain ⟨it, h5, h6⟩ := (closure_core wf (it0 := { k with dot := k.dot + 1 }) (hS k h1).la).mpr h4
    exact ⟨it, ⟨k, h1, h2, h3, h5⟩, h6⟩

theorem CGoto.congr {C C' : Core → Prop} (h : ∀ c, C c ↔ C' c) {X : Sym} {c : Core} : CGoto g kind C X c ↔ CGoto g kind C' X c := by
  have : C = C' := funext fun c => propext (h c)
  rw [this]

theorem foldl_sinsert_spec : ∀ (l acc : List Item), SSorted acc →
    SSorted (l.foldl (fun s i => sinsert i s) acc) ∧ ∀ it, it ∈ l.foldl (fun s i => sinsert i s) acc ↔ it ∈ acc ∨ it ∈ l := by
  intro l
  induction l with
  | nil => intro acc h; simp [h]
  | cons x l ih =>
    intro acc h
    obtain ⟨h1, h2⟩ := ih (sinsert x acc) (sinsert_sorted h)
    refine ⟨h1, fun it => ?_⟩
    rw [List.foldl_cons, h2, mem_sinsert, List.mem_cons]
    tauto

/-- the transition map of an item set -/
structure TransOk (g : Grammar) (kind : LRKind) (S : List Item) (m : List (Sym × List Item)) : Prop where
  msorted : MSorted m
  mem : ∀ X it, (∃ s, mget? X m = some s ∧ it ∈ s) ↔ GotoSet g S X it
  sorted : ∀ X s, mget? X m = some s → SSorted s ∧ s ≠ [] ∧ ∀ it ∈ s, ItemOk g kind it

theorem itemOk_advance {it : Item} (hi : ItemOk g kind it) {X : Sym} (ha : it.after g = some X) {F : Prop} :
    Out F (SafeFor g kind) (fun it' => it' = { it with dot := it.dot + 1 } ∧ ItemOk g kind it') (it.advance g) := by
  have hlt : it.dot < (ruleRhs g it.rule).length := getElem?_lt ha
  unfold Item.advance
  rw [if_pos hlt]
  split
  · exact ⟨rfl, hi.rule, hlt, ‹_›, hi.la⟩
  · intro hs
    have := ruleRhs_length hs.1 it.rule
    simp only [u8Size] at *
    omega

theorem transitions_spec (wf : g.WF) {fs : SymSets} (hfs : FsOk g kind fs) {S : List Item} (hS : ∀ it ∈ S, ItemOk g kind it) (fuel : Nat) :
    Out (closureFuel g kind ≤ fuel) (SafeFor g kind) (TransOk g kind S) (transitions g fs fuel S) := by
  unfold transitions
  refine Out.foldlM (fun pre m => TransOk g kind pre m) ?_ ?_
  · exact ⟨by simp [MSorted], fun X it => by simp [mget?, GotoSet], fun X s h => by simp [mget?] at h⟩
  · intro pre it post m hl hm
    have hit := hS it (hl ▸ List.mem_append.mpr (.inr List.mem_cons_self))
    have skip : (∀ X, it.after g = some X → it.rule = none) → TransOk g kind (pre ++ [it]) m := by
      intro hsk
      refine ⟨hm.msorted, fun X i => ?_, hm.sorted⟩
      rw [hm.mem]
      constructor
      · rintro ⟨k, h1, h2⟩; exact ⟨k, List.mem_append.mpr (.inl h1), h2⟩
      · rintro ⟨k, h1, h2, h3, h4⟩
        rcases List.mem_append.mp h1 with h1 | h1
        · exact ⟨k, h1, h2, h3, h4⟩
        · simp at h1; subst h1; exact (h3 (hsk X h2)).elim
    unfold transStep
    cases ha : it.after g with
    | none => exact skip (fun X h => by rw [ha] at h; simp at h)
    | some X =>
      simp only
      cases hr : it.rule with
      | none => exact skip (fun _ _ => hr)
      | some i =>
        have hlt := hit.rule i hr
        have : ruleLhs g (some i) = some g.rules[i].lhs := by simp [ruleLhs, hlt]
        simp only [this]
        refine (itemOk_advance hit ha).bind ?_
        rintro it' ⟨rfl, hit'⟩
        refine (expandItem_spec wf hfs hit' fuel).bind fun s hs => ?_
        obtain ⟨s1, s2, s3⟩ := hs
        have hold : SSorted ((mget? X m).getD []) := by
          cases h : mget? X m with
          | none => simp [SSorted]
          | some o => exact (hm.sorted X o h).1
        obtain ⟨f1, f2⟩ := foldl_sinsert_spec s _ hold
        refine ⟨minsert_sorted hm.msorted, fun Y i' => ?_, fun Y s' h => ?_⟩
        · rw [mget?_minsert]
          by_cases hY : Y = X
          · subst hY
            simp only [if_pos, Option.some.injEq, exists_eq_left', f2]
            have hold' : i' ∈ (mget? Y m).getD [] ↔ GotoSet g pre Y i' := by
              rw [← hm.mem]
              cases h : mget? Y m with
              | none => simp
              | some o => simp
            rw [hold', s3]
            constructor
            · rintro (⟨k, h1, h2⟩ | h)
              · exact ⟨k, List.mem_append.mpr (.inl h1), h2⟩
              · exact ⟨it, by simp, ha, by simp [hr], h⟩
            · rintro ⟨k, h1, h2, h3, h4⟩
              rcases List.mem_append.mp h1 with h1 | h1
              · exact .inl ⟨k, h1, h2, h3, h4⟩
              · simp at h1; subst h1; exact .inr h4
          · rw [if_neg hY, hm.mem]
            constructor
            · rintro ⟨k, h1, h2⟩; exact ⟨k, List.mem_append.mpr (.inl h1), h2⟩
            · rintro ⟨k, h1, h2, h3, h4⟩
              rcases List.mem_append.mp h1 with h1 | h1
              · exact ⟨k, h1, h2, h3, h4⟩
              · simp at h1; subst h1; rw [ha] at h2; simp at h2; exact (hY h2.symm).elim
        · rw [mget?_minsert] at h
          split at h
          · simp at h
            subst h
            refine ⟨f1, ?_, fun i' hi' => ?_⟩
            · intro hnil
              have := (f2 { it with dot := it.dot + 1 }).mpr (.inr ((s3 _).mpr .self))
              rw [hnil] at this
              simp at this
            · rcases (f2 i').mp hi' with h | h
              · cases ho : mget? X m with
                | none => simp [ho] at h
                | some o => simp [ho] at h; exact (hm.sorted X o ho).2.2 i' h
              · exact s2 i' h
          · exact hm.sorted Y s' h

theorem transStep_mono {fs : SymSets} {f1 f2 : Nat} {m m' : List (Sym × List Item)} {it : Item} (h : transStep g fs f1 m it = .ok m') (hle : f1 ≤ f2) :
    transStep g fs f2 m it = .ok m' := by
  unfold transStep at h ⊢
  split at h
  · exact h
  · split at h
    · exact h
    · obtain ⟨it', h1, h2⟩ := res_bind_ok.mp h
      obtain ⟨s, h3, h4⟩ := res_bind_ok.mp h2
      exact res_bind_ok.mpr ⟨it', h1, res_bind_ok.mpr ⟨s, expandItem_mono h3 hle, h4⟩⟩

theorem transitions_mono {fs : SymSets} {f1 f2 : Nat} {S : List Item} {m : List (Sym × List Item)} (h : transitions g fs f1 S = .ok m) (hle : f1 ≤ f2) :
    transitions g fs f2 S = .ok m := by
  unfold transitions at *
  have gen : ∀ (l : List Item) (m0 : List (Sym × List Item)), l.foldlM (transStep g fs f1) m0 = .ok m → l.foldlM (transStep g fs f2) m0 = .ok m := by
    intro l
    induction l with
    | nil => intro m0 h; exact h
    | cons x l ih =>
      intro m0 h
      rw [List.foldlM_cons] at h ⊢
      obtain ⟨m1, h1, h2⟩ := res_bind_ok.mp h
      exact res_bind_ok.mpr ⟨m1, transStep_mono h1 hle, ih m1 h2⟩
  exact gen S [] h

end Verif
