import Verif.Proofs.RenameSem
import Verif.Proofs.ConflictFits
import Verif.Props.Conflicts

/-!
# Grammars with the same rules have the same items, states and conflicts, up to numbers
-/

set_option autoImplicit false

namespace Verif

/-- the item's rule exists -/
def Item.InRules (g : Grammar) (it : Item) : Prop := ∀ i, it.rule = some i → i < g.rules.length

section
variable {φ τ π : Nat → Nat} {g g' : Grammar} {kind : LRKind}

theorem RuleMap.rhs (h : SameGrammar φ τ g g') (m : RuleMap φ τ π g g') {i : RuleIdx} (hi : ∀ j, i = some j → j < g.rules.length) :
    ruleRhs g' (i.map π) = (ruleRhs g i).map (Sym.rename φ τ) := by
  cases i with
  | none => simp [ruleRhs, h.entry]
  | some i =>
    have hi := hi i rfl
    obtain ⟨r', h1, h2, h3⟩ := m.fwd i _ (List.getElem?_eq_getElem hi)
    simp only [Option.map_some, ruleRhs, h1, List.getElem?_eq_getElem hi, Option.getD_some]
    exact h3

theorem RuleMap.after (h : SameGrammar φ τ g g') (m : RuleMap φ τ π g g') {it : Item} (hi : it.InRules g) : (it.rename φ τ π).after g' = (it.after g).map (Sym.rename φ τ) := by
  unfold Item.after
  show (ruleRhs g' (it.rule.map π))[it.dot]? = _
  rw [m.rhs h hi, List.getElem?_map]

theorem RuleMap.item_inj (h : SameGrammar φ τ g g') (m : RuleMap φ τ π g g') {a b : Item} (ha : a.InRules g) (hb : b.InRules g) (e : a.rename φ τ π = b.rename φ τ π) : a = b := by
  obtain ⟨r, d, l⟩ := a
  obtain ⟨r', d', l'⟩ := b
  simp only [Item.rename, Item.mk.injEq] at e
  obtain ⟨e1, rfl, e3⟩ := e
  have e3 := Option.map_injective (fun _ _ e => h.sym_inj e) e3
  subst e3
  cases r with
  | none => cases r' with
    | none => rfl
    | some j => simp at e1
  | some i => cases r' with
    | none => simp at e1
    | some j =>
      simp only [Option.map_some, Option.some.injEq] at e1
      rw [m.inj i j (ha i rfl) (hb j rfl) e1]

theorem firstOf_rename (h : SameGrammar φ τ g g') {ss : List Sym} {x : Sym} (hf : FirstOf g ss x) : FirstOf g' (ss.map (Sym.rename φ τ)) (x.rename φ τ) := by
  obtain ⟨β, hb⟩ := hf
  have := h.rewrites hb
  rw [← strip_rename] at this
  exact ⟨_, this⟩

theorem firstOf_rename_bwd (h : SameGrammar φ τ g g') {ss : List Sym} {x' : Sym} (hf : FirstOf g' (ss.map (Sym.rename φ τ)) x') : ∃ x : Sym, x' = x.rename φ τ ∧ FirstOf g ss x := by
  obtain ⟨β, hb⟩ := hf
  rw [strip_rename] at hb
  obtain ⟨y, e, hy⟩ := h.rewrites_bwd hb
  obtain ⟨s, y0, rfl, e3, rfl⟩ := List.map_eq_cons_iff.mp e.symm
  exact ⟨s, e3.symm, y0, hy⟩

theorem expands_rhs (h : SameGrammar φ τ g g') (m : RuleMap φ τ π g g') {it : Item} (hi : it.InRules g) (a : Sym) :
    (ruleRhs g' (it.rename φ τ π).rule).drop ((it.rename φ τ π).dot + 1) ++ [a.rename φ τ] = ((ruleRhs g it.rule).drop (it.dot + 1) ++ [a]).map (Sym.rename φ τ) := by
  show (ruleRhs g' (it.rule.map π)).drop (it.dot + 1) ++ [a.rename φ τ] = _
  rw [m.rhs h hi, List.map_append, List.map_drop]
  rfl

theorem expandsWith_rename (h : SameGrammar φ τ g g') (m : RuleMap φ τ π g g') {it : Item} (hi : it.InRules g) {x : Option Sym} (he : ExpandsWith g it x) :
    ExpandsWith g' (it.rename φ τ π) (x.map (Sym.rename φ τ)) := by
  unfold ExpandsWith at *
  cases hl : it.la with
  | none => rw [hl] at he; simp only at he; subst he; simp [Item.rename, hl]
  | some a =>
    rw [hl] at he
    obtain ⟨b, rfl, hb, hf⟩ := he
    have e : (it.rename φ τ π).la = some (a.rename φ τ) := by simp [Item.rename, hl]
    rw [e]
    refine ⟨b.rename φ τ, rfl, rename_isTerm.mpr hb, ?_⟩
    rw [expands_rhs h m hi]
    exact firstOf_rename h hf

theorem expandsWith_rename_bwd (h : SameGrammar φ τ g g') (m : RuleMap φ τ π g g') {it : Item} (hi : it.InRules g) {x' : Option Sym} (he : ExpandsWith g' (it.rename φ τ π) x') :
    ∃ x : Option Sym, x' = x.map (Sym.rename φ τ) ∧ ExpandsWith g it x := by
  unfold ExpandsWith at *
  cases hl : it.la with
  | none =>
    have e : (it.rename φ τ π).la = none := by simp [Item.rename, hl]
    rw [e] at he
    exact ⟨none, he, rfl⟩
  | some a =>
    have e : (it.rename φ τ π).la = some (a.rename φ τ) := by simp [Item.rename, hl]
    rw [e] at he
    obtain ⟨b', rfl, hb, hf⟩ := he
    rw [expands_rhs h m hi] at hf
    obtain ⟨b, rfl, hf2⟩ := firstOf_rename_bwd h hf
    exact ⟨some b, rfl, b, rfl, rename_isTerm.mp hb, hf2⟩

theorem closureStep_inRules {a b : Item} (hc : ClosureStep g a b) : b.InRules g := by
  obtain ⟨A, i, r, x, h1, h2, h3, h4, rfl⟩ := hc
  intro j hj
  cases hj
  exact (List.getElem?_eq_some_iff.mp h2).1

theorem itemAfter_inRules {α : List Sym} {it : Item} (hi : ItemAfter g kind α it) : it.InRules g := by
  induction hi with
  | start => intro i hi; cases hi
  | closure _ hc _ => exact closureStep_inRules hc
  | goto _ _ _ ih => exact ih

theorem closureStep_rename (h : SameGrammar φ τ g g') (m : RuleMap φ τ π g g') {a b : Item} (hi : a.InRules g) (hc : ClosureStep g a b) :
    ClosureStep g' (a.rename φ τ π) (b.rename φ τ π) := by
  obtain ⟨A, i, r, x, h1, h2, h3, h4, rfl⟩ := hc
  obtain ⟨r', k1, k2, k3⟩ := m.fwd i r h2
  refine ⟨φ A, π i, r', x.map (Sym.rename φ τ), by rw [m.after h hi, h1]; rfl, k1, by rw [k2, h3], expandsWith_rename h m hi h4, ?_⟩
  rw [k3, leadingEps_rename]
  rfl

theorem closureStep_rename_bwd (h : SameGrammar φ τ g g') (m : RuleMap φ τ π g g') {a b' : Item} (hi : a.InRules g) (hc : ClosureStep g' (a.rename φ τ π) b') :
    ∃ b, b' = b.rename φ τ π ∧ ClosureStep g a b := by
  obtain ⟨A', i', r', x', h1, h2, h3, h4, rfl⟩ := hc
  obtain ⟨i, r, k1, k2, k3, k4⟩ := m.bwd i' r' h2
  obtain ⟨x, rfl, hx⟩ := expandsWith_rename_bwd h m hi h4
  rw [m.after h hi, Option.map_eq_some_iff] at h1
  obtain ⟨s, e1, e2⟩ := h1
  obtain ⟨A, rfl, e3⟩ := rename_nt.mp e2
  refine ⟨⟨some i, leadingEps r.rhs, x⟩, ?_, A, i, r, x, e1, k1, ?_, hx, rfl⟩
  · rw [k4, leadingEps_rename, ← k2]; rfl
  · exact h.nts _ _ (by rw [e3, ← k3, h3])

theorem endLa_rename : kind.endLa.map (Sym.rename φ τ) = kind.endLa := by cases kind <;> rfl

theorem itemAfter_rename (h : SameGrammar φ τ g g') (m : RuleMap φ τ π g g') {α : List Sym} {it : Item} (hi : ItemAfter g kind α it) :
    ItemAfter g' kind (α.map (Sym.rename φ τ)) (it.rename φ τ π) := by
  induction hi with
  | start => show ItemAfter g' kind [] ⟨none, 0, kind.endLa.map (Sym.rename φ τ)⟩; rw [endLa_rename]; exact .start
  | closure hp hc ih => exact ih.closure (closureStep_rename h m (itemAfter_inRules hp) hc)
  | goto hp ha hr ih =>
    rw [List.map_append]
    refine ih.goto (X := Sym.rename φ τ _) ?_ ?_
    · rw [m.after h (itemAfter_inRules hp), ha]; rfl
    · simpa [Item.rename] using hr

theorem itemAfter_rename_bwd (h : SameGrammar φ τ g g') (m : RuleMap φ τ π g g') {α' : List Sym} {it' : Item} (hi : ItemAfter g' kind α' it') :
    ∀ α, α' = α.map (Sym.rename φ τ) → ∃ it, it' = it.rename φ τ π ∧ ItemAfter g kind α it := by
  induction hi with
  | start =>
    intro α e
    have : α = [] := by simpa using e.symm
    subst this
    exact ⟨⟨none, 0, kind.endLa⟩, by simp [Item.rename, endLa_rename], .start⟩
  | closure _ hc ih =>
    intro α e
    obtain ⟨k, rfl, hk⟩ := ih α e
    obtain ⟨b, rfl, hb⟩ := closureStep_rename_bwd h m (itemAfter_inRules hk) hc
    exact ⟨b, rfl, hk.closure hb⟩
  | goto _ ha hr ih =>
    intro α e
    obtain ⟨α0, s, rfl, rfl, e2⟩ := List.map_eq_append_iff.mp e.symm
    obtain ⟨s, β0, rfl, e3, e4⟩ := List.map_eq_cons_iff.mp e2
    have : β0 = [] := by simpa using e4
    subst this
    obtain ⟨k, rfl, hk⟩ := ih α0 rfl
    rw [m.after h (itemAfter_inRules hk), Option.map_eq_some_iff] at ha
    obtain ⟨s', e5, e6⟩ := ha
    have e7 := h.sym_inj (e3.trans e6.symm)
    subst e7
    refine ⟨{ k with dot := k.dot + 1 }, rfl, hk.goto e5 ?_⟩
    intro hc; exact hr (by simp [Item.rename, hc])

/-- the same strings lead to the same state -/
theorem cores_rename (h : SameGrammar φ τ g g') (m : RuleMap φ τ π g g') {α β : List Sym}
    (he : ∀ k, (∃ it, ItemAfter g kind α it ∧ it.toLr0 = k) ↔ (∃ it, ItemAfter g kind β it ∧ it.toLr0 = k)) :
    ∀ k, (∃ it, ItemAfter g' kind (α.map (Sym.rename φ τ)) it ∧ it.toLr0 = k) → (∃ it, ItemAfter g' kind (β.map (Sym.rename φ τ)) it ∧ it.toLr0 = k) := by
  rintro k ⟨it', h1, rfl⟩
  obtain ⟨it, rfl, h2⟩ := itemAfter_rename_bwd h m h1 α rfl
  obtain ⟨it2, h3, h4⟩ := (he it.toLr0).mp ⟨it, h2, rfl⟩
  refine ⟨it2.rename φ τ π, itemAfter_rename h m h3, ?_⟩
  simp only [Item.toLr0, Item.mk.injEq] at h4 ⊢
  exact ⟨by simp [Item.rename, h4.1], h4.2.1, trivial⟩

end

/-- two states with the same items, up to numbers -/
def SameState (φ τ π : Nat → Nat) (s s' : List Item) : Prop := (∀ it ∈ s, it.rename φ τ π ∈ s') ∧ ∀ it' ∈ s', ∃ it ∈ s, it' = it.rename φ τ π

section
variable {φ τ π : Nat → Nat} {g g' : Grammar} {kind : LRKind}

theorem itemAfter_lalr {α : List Sym} {it : Item} : ItemAfter g .lr1 α it ↔ ItemAfter g .lalr α it := by
  constructor
  · intro h
    induction h with
    | start => exact .start
    | closure _ hs ih => exact ih.closure hs
    | goto _ h1 h2 ih => exact ih.goto h1 h2
  · intro h
    induction h with
    | start => exact .start
    | closure _ hs ih => exact ih.closure hs
    | goto _ h1 h2 ih => exact ih.goto h1 h2

theorem itemAfter_string (h : SameGrammar φ τ g g') (m : RuleMap φ τ π g g') {α' : List Sym} {it' : Item} (hi : ItemAfter g' kind α' it') : ∃ α : List Sym, α' = α.map (Sym.rename φ τ) := by
  induction hi with
  | start => exact ⟨[], rfl⟩
  | closure _ _ ih => exact ih
  | goto hp ha hr ih =>
    obtain ⟨γ, rfl⟩ := ih
    obtain ⟨k0, rfl, h0⟩ := itemAfter_rename_bwd h m hp γ rfl
    rw [m.after h (itemAfter_inRules h0), Option.map_eq_some_iff] at ha
    obtain ⟨s0, _, rfl⟩ := ha
    exact ⟨γ ++ [s0], by simp⟩

/-- states for the same string have the same items -/
theorem sameState (h : SameGrammar φ τ g g') (m : RuleMap φ τ π g g') (wf : g.WF) (hne : NoEmptyRhs g) (wf' : g'.WF) (hne' : NoEmptyRhs g') {n n' c c' f f' : Nat} {fs fs' : SymSets}
    (hfs : lrFirstSets g kind n = .ok fs) (hfs' : lrFirstSets g' kind n' = .ok fs') {gr gr' : LRGraph} (hgr : generateGraph g fs kind c f = .ok gr)
    (hgr' : generateGraph g' fs' kind c' f' = .ok gr') {q q' : Nat} {s s' : List Item} {α : List Sym} (hs : gr.sets[q]? = some s) (hs' : gr'.sets[q']? = some s')
    (hα : Leads gr.edges α q) (l' : Leads gr'.edges (α.map (Sym.rename φ τ)) q') : SameState φ τ π s s' := by
  obtain ⟨hv, hj⟩ := generateGraph_justified wf (fsOk_of wf hne hfs) hgr
  obtain ⟨hv', hj'⟩ := generateGraph_justified wf' (fsOk_of wf' hne' hfs') hgr'
  by_cases hk : kind.isLalr = false
  · have e := state_items hk hv hα s hs
    have e' := state_items hk hv' l' s' hs'
    refine ⟨fun k hkm => (e' _).mpr (itemAfter_rename h m ((e k).mp hkm)), fun k' hkm => ?_⟩
    obtain ⟨k, rfl, h2⟩ := itemAfter_rename_bwd h m ((e' k').mp hkm) α rfl
    exact ⟨k, (e k).mpr h2, rfl⟩
  · have hkl : kind = .lalr := by cases kind <;> simp [LRKind.isLalr] at hk ⊢
    subst hkl
    obtain ⟨-, -, m1, c1⟩ := C52_lalr_collection g wf hne n fs hfs c f gr hgr
    obtain ⟨-, -, m2, c2⟩ := C52_lalr_collection g' wf' hne' n' fs' hfs' c' f' gr' hgr'
    refine ⟨fun k hkm => ?_, fun k' hkm => ?_⟩
    · obtain ⟨β, hβ, hi2⟩ := (m1 q s hs k).mp hkm
      have hi3 := itemAfter_rename h m hi2
      obtain ⟨q2, s2, l2, hs2, _⟩ := mem_of_itemAfter hv' (itemAfter_lalr.mp hi3)
      have same := (c1 α β q q hα hβ).mp rfl
      have : q' = q2 := (c2 _ _ q' q2 l' l2).mpr (fun k => ⟨cores_rename h m same k, cores_rename h m (fun k => (same k).symm) k⟩)
      subst this
      rw [hs'] at hs2
      cases hs2
      exact (m2 q' s' hs' _).mpr ⟨_, l2, hi3⟩
    · obtain ⟨β', hβ', hi2⟩ := (m2 q' s' hs' k').mp hkm
      obtain ⟨β, rfl⟩ := itemAfter_string h m hi2
      obtain ⟨k, rfl, hi3⟩ := itemAfter_rename_bwd h m hi2 β rfl
      obtain ⟨q2, s2, l2, hs2, _⟩ := mem_of_itemAfter hv (itemAfter_lalr.mp hi3)
      have same := (c2 _ _ q' q' l' hβ').mp rfl
      have : q = q2 := (c1 α β q q2 hα l2).mpr (fun k => by
        have conv : ∀ (γ δ : List Sym), (∀ k, (∃ it, ItemAfter g' .lr1 (γ.map (Sym.rename φ τ)) it ∧ it.toLr0 = k) ↔ (∃ it, ItemAfter g' .lr1 (δ.map (Sym.rename φ τ)) it ∧ it.toLr0 = k)) →
            ∀ k, (∃ it, ItemAfter g .lr1 γ it ∧ it.toLr0 = k) → (∃ it, ItemAfter g .lr1 δ it ∧ it.toLr0 = k) := by
          rintro γ δ he k ⟨it, h1, rfl⟩
          obtain ⟨it', h2, h3⟩ := (he _).mp ⟨_, itemAfter_rename h m h1, rfl⟩
          obtain ⟨it2, rfl, h4⟩ := itemAfter_rename_bwd h m h2 δ rfl
          refine ⟨it2, h4, ?_⟩
          have hin : it2.toLr0.InRules g := fun i hi => itemAfter_inRules h4 i hi
          have hin' : it.toLr0.InRules g := fun i hi => itemAfter_inRules h1 i hi
          refine m.item_inj h hin hin' ?_
          simp only [Item.toLr0, Item.rename, Item.mk.injEq, Option.map_none, and_true] at h3 ⊢
          exact h3
        exact ⟨conv α β same k, conv β α (fun k => (same k).symm) k⟩)
      subst this
      rw [hs] at hs2
      cases hs2
      exact ⟨k, (m1 q s hs k).mpr ⟨β, l2, hi3⟩, rfl⟩

theorem toLr0_rename (it : Item) : (it.rename φ τ π).toLr0 = it.toLr0.rename φ τ π := rfl

/-- two states with the same items -/
structure PairOk (g g' : Grammar) (φ τ π : Nat → Nat) (s s' : List Item) : Prop where
  nodup : s.Nodup
  nodup' : s'.Nodup
  inRules : ∀ it ∈ s, it.InRules g
  same : SameState φ τ π s s'

theorem PairOk.perm (h : SameGrammar φ τ g g') (m : RuleMap φ τ π g g') {s s' : List Item} (p : PairOk g g' φ τ π s s') : (s.map (Item.rename φ τ π)).Perm s' := by
  refine (List.perm_ext_iff_of_nodup ?_ p.nodup').mpr fun it' => ?_
  · exact List.Nodup.map_on (fun a ha b hb e => m.item_inj h (p.inRules a ha) (p.inRules b hb) e) p.nodup
  · constructor
    · intro hi
      obtain ⟨it, h1, rfl⟩ := List.mem_map.mp hi
      exact p.same.1 it h1
    · intro hi
      obtain ⟨it, h1, rfl⟩ := p.same.2 it' hi
      exact List.mem_map_of_mem h1

theorem PairOk.completed (h : SameGrammar φ τ g g') (m : RuleMap φ τ π g g') {s s' : List Item} (p : PairOk g g' φ τ π s s') (la : Option Sym) :
    ((completedFor g s la).map (Item.rename φ τ π)).Perm (completedFor g' s' (la.map (Sym.rename φ τ))) := by
  unfold completedFor
  refine List.Perm.trans (List.Perm.of_eq ?_) ((p.perm h m).filter _)
  rw [List.filter_map]
  congr 1
  refine List.filter_congr fun it hit => ?_
  simp only [Function.comp, decide_eq_decide]
  rw [m.after h (p.inRules it hit), Option.map_eq_none_iff]
  refine and_congr Iff.rfl ⟨fun e => by rw [← e]; rfl, fun e => ?_⟩
  exact Option.map_injective (fun _ _ e => h.sym_inj e) e

theorem PairOk.letsShift (h : SameGrammar φ τ g g') (m : RuleMap φ τ π g g') {s s' : List Item} (p : PairOk g g' φ τ π s s') {X' : Sym} :
    LetsShift g' s' X' ↔ ∃ X : Sym, X' = X.rename φ τ ∧ LetsShift g s X := by
  constructor
  · rintro ⟨k', h1, h2, h3⟩
    obtain ⟨k, hk, rfl⟩ := p.same.2 k' h1
    rw [m.after h (p.inRules k hk), Option.map_eq_some_iff] at h3
    obtain ⟨X, e1, e2⟩ := h3
    exact ⟨X, e2.symm, k, hk, fun hc => h2 (by simp [Item.rename, hc]), e1⟩
  · rintro ⟨X, rfl, k, h1, h2, h3⟩
    refine ⟨k.rename φ τ π, p.same.1 k h1, by simpa [Item.rename] using h2, ?_⟩
    rw [m.after h (p.inRules k h1), h3]; rfl

theorem la_rename {la : Option Sym} {X : Sym} (h : SameGrammar φ τ g g') : (la.map (Sym.rename φ τ) = none ∨ la.map (Sym.rename φ τ) = some (X.rename φ τ)) ↔ (la = none ∨ la = some X) := by
  cases la with
  | none => simp
  | some a =>
    simp only [Option.map_some, Option.some.injEq]
    exact ⟨fun h' => h'.imp (by simp) (fun e => h.sym_inj e), fun h' => h'.imp (by simp) (fun e => by rw [e])⟩

/-- the conflicts of grammars with the same rules -/
theorem sameConflicts (h : SameGrammar φ τ g g') (m : RuleMap φ τ π g g') (wf : g.WF) (hne : NoEmptyRhs g) (wf' : g'.WF) (hne' : NoEmptyRhs g') {n n' c c' f f' : Nat} {fs fs' : SymSets}
    (hfs : lrFirstSets g kind n = .ok fs) (hfs' : lrFirstSets g' kind n' = .ok fs') {gr gr' : LRGraph} (hgr : generateGraph g fs kind c f = .ok gr)
    (hgr' : generateGraph g' fs' kind c' f' = .ok gr') : ∃ st : Nat → Nat,
      (∀ q q', q < gr.sets.length → q' < gr.sets.length → st q = st q' → q = q') ∧ (∀ q, q < gr.sets.length → st q < gr'.sets.length) ∧
      (∀ q', q' < gr'.sets.length → ∃ q, q < gr.sets.length ∧ st q = q') ∧
      (∀ c, Clash g gr.sets c → ∃ c', Clash g' gr'.sets c' ∧ SameConflict φ τ π st c c') ∧
      (∀ c', Clash g' gr'.sets c' → ∃ c, Clash g gr.sets c ∧ SameConflict φ τ π st c c') := by
  obtain ⟨hv, hj⟩ := generateGraph_justified wf (fsOk_of wf hne hfs) hgr
  obtain ⟨hv', hj'⟩ := generateGraph_justified wf' (fsOk_of wf' hne' hfs') hgr'
  have pairOk : ∀ {q q' : Nat} {s s' : List Item} {α : List Sym}, gr.sets[q]? = some s → gr'.sets[q']? = some s' → Leads gr.edges α q →
      Leads gr'.edges (α.map (Sym.rename φ τ)) q' → PairOk g g' φ τ π s s' := by
    intro q q' s s' α hs hs' h1 h2
    exact ⟨(hv.base.sorted q s hs).nodup, (hv'.base.sorted q' s' hs').nodup, fun it hit i hi => (hv.base.items q s hs it hit).rule i hi,
      sameState h m wf hne wf' hne' hfs hfs' hgr hgr' hs hs' h1 h2⟩
  have fwd : ∀ q : Nat, ∃ q' : Nat, ∀ s, gr.sets[q]? = some s → ∃ s', gr'.sets[q']? = some s' ∧ PairOk g g' φ τ π s s' := by
    intro q
    cases hs : gr.sets[q]? with
    | none => exact ⟨0, fun s e => by cases e⟩
    | some s =>
      obtain ⟨it, hit⟩ := List.exists_mem_of_ne_nil _ (hv.base.nonempty q s hs)
      obtain ⟨α, hα, hi⟩ := hj q s hs it hit
      obtain ⟨q', s', l', hs', _⟩ := mem_of_itemAfter hv' (itemAfter_rename h m hi)
      exact ⟨q', fun s2 e => by cases e; exact ⟨s', hs', pairOk hs hs' hα l'⟩⟩
  choose st hst using fwd
  have sinj : ∀ (q q2 : Nat) (s s2 s' : List Item), gr.sets[q]? = some s → gr.sets[q2]? = some s2 → PairOk g g' φ τ π s s' → PairOk g g' φ τ π s2 s' → q = q2 := by
    intro q q2 s s2 s' hs hs2 p p2
    have sub : ∀ {a b : List Item}, PairOk g g' φ τ π a s' → PairOk g g' φ τ π b s' → ∀ it ∈ a, it ∈ b := by
      intro a b pa pb it hit
      obtain ⟨k, hk, e⟩ := pb.same.2 _ (pa.same.1 it hit)
      rw [m.item_inj h (pa.inRules it hit) (pb.inRules k hk) e]; exact hk
    have e : s = s2 := SSorted.ext (hv.base.sorted q s hs) (hv.base.sorted q2 s2 hs2) (fun it => ⟨sub p p2 it, sub p2 p it⟩)
    subst e
    exact hv.base.inj q q2 s s hs hs2 (fun _ _ => Iff.rfl) (fun _ => rfl)
  have sinj' : ∀ (q q2 : Nat) (s s' s2 : List Item), gr'.sets[q]? = some s' → gr'.sets[q2]? = some s2 → PairOk g g' φ τ π s s' → PairOk g g' φ τ π s s2 → q = q2 := by
    intro q q2 s s' s2 hs hs2 p p2
    have sub : ∀ {a b : List Item}, PairOk g g' φ τ π s a → PairOk g g' φ τ π s b → ∀ it ∈ a, it ∈ b := by
      intro a b pa pb it hit
      obtain ⟨k, hk, rfl⟩ := pa.same.2 it hit
      exact pb.same.1 k hk
    have e : s' = s2 := SSorted.ext (hv'.base.sorted q s' hs) (hv'.base.sorted q2 s2 hs2) (fun it => ⟨sub p p2 it, sub p2 p it⟩)
    subst e
    exact hv'.base.inj q q2 s' s' hs hs2 (fun _ _ => Iff.rfl) (fun _ => rfl)
  have bwd : ∀ (q' : Nat) (s' : List Item), gr'.sets[q']? = some s' → ∃ q s, gr.sets[q]? = some s ∧ st q = q' ∧ PairOk g g' φ τ π s s' := by
    intro q' s' hs'
    obtain ⟨it', hit⟩ := List.exists_mem_of_ne_nil _ (hv'.base.nonempty q' s' hs')
    obtain ⟨α', hα, hi⟩ := hj' q' s' hs' it' hit
    obtain ⟨α, rfl⟩ := itemAfter_string h m hi
    obtain ⟨it, rfl, hi2⟩ := itemAfter_rename_bwd h m hi α rfl
    obtain ⟨q, s, l, hs, _⟩ := mem_of_itemAfter hv hi2
    have p := pairOk hs hs' l hα
    obtain ⟨s2, hs2, p2⟩ := hst q s hs
    exact ⟨q, s, hs, sinj' _ _ s s2 s' hs2 hs' p2 p, p⟩
  refine ⟨st, ?_, ?_, ?_, ?_, ?_⟩
  · intro q q2 hq hq2 e
    obtain ⟨s', h1, p⟩ := hst q _ (List.getElem?_eq_getElem hq)
    obtain ⟨s2', h2, p2⟩ := hst q2 _ (List.getElem?_eq_getElem hq2)
    rw [e, h2] at h1
    cases h1
    exact sinj q q2 _ _ _ (List.getElem?_eq_getElem hq) (List.getElem?_eq_getElem hq2) p p2
  · intro q hq
    obtain ⟨s', h1, _⟩ := hst q _ (List.getElem?_eq_getElem hq)
    exact (List.getElem?_eq_some_iff.mp h1).1
  · intro q' hq'
    obtain ⟨q, s, h1, h2, _⟩ := bwd q' _ (List.getElem?_eq_getElem hq')
    exact ⟨q, (List.getElem?_eq_some_iff.mp h1).1, h2⟩
  · intro c hc
    cases hc with
    | @shiftReduce q s it X hs h1 h2 h3 =>
      obtain ⟨s', hs', p⟩ := hst q s hs
      refine ⟨_, .shiftReduce hs' (it := it.rename φ τ π) ?_ ((p.letsShift h m).mpr ⟨X, rfl, h2⟩) ((la_rename h).mpr h3), .shiftReduce⟩
      have := p.completed h m it.la
      rw [h1] at this
      exact (List.singleton_perm.mp this).symm
    | @reduceReduce q s la hs h1 =>
      obtain ⟨s', hs', p⟩ := hst q s hs
      have := p.completed h m la
      refine ⟨_, .reduceReduce hs' (la := la.map (Sym.rename φ τ)) (by rw [← this.length_eq, List.length_map]; exact h1), .reduceReduce ?_⟩
      have := this.map Item.toLr0
      rw [List.map_map] at this ⊢
      exact this
  · intro c' hc
    cases hc with
    | @shiftReduce q' s' it' X' hs' h1 h2 h3 =>
      obtain ⟨q, s, hs, rfl, p⟩ := bwd q' s' hs'
      obtain ⟨X, rfl, hX⟩ := (p.letsShift h m).mp h2
      have hm : it' ∈ completedFor g' s' it'.la := by rw [h1]; simp
      have hm' : it' ∈ s' := (List.mem_filter.mp hm).1
      obtain ⟨it, hit, rfl⟩ := p.same.2 it' hm'
      have hp := p.completed h m it.la
      have e : completedFor g' s' (it.la.map (Sym.rename φ τ)) = [it.rename φ τ π] := h1
      rw [e] at hp
      have e2 := List.perm_singleton.mp hp
      obtain ⟨k, rest, e3, e4, e5⟩ := List.map_eq_cons_iff.mp e2
      have : rest = [] := by simpa using e5
      subst this
      have hk : k ∈ completedFor g s it.la := by rw [e3]; simp
      have := m.item_inj h (p.inRules k (List.mem_filter.mp hk).1) (p.inRules it hit) e4
      subst this
      exact ⟨_, .shiftReduce hs e3 hX ((la_rename h).mp h3), .shiftReduce⟩
    | @reduceReduce q' s' la' hs' h1 =>
      obtain ⟨q, s, hs, rfl, p⟩ := bwd q' s' hs'
      obtain ⟨it', hit'⟩ := List.exists_mem_of_ne_nil (completedFor g' s' la') (by intro e; rw [e] at h1; simp at h1)
      obtain ⟨it, hit, rfl⟩ := p.same.2 it' (List.mem_filter.mp hit').1
      have hla : la' = it.la.map (Sym.rename φ τ) := by
        have := (List.mem_filter.mp hit').2
        simp only [decide_eq_true_eq] at this
        exact this.2.symm
      subst hla
      have := p.completed h m it.la
      refine ⟨_, .reduceReduce hs (la := it.la) (by rw [← this.length_eq, List.length_map] at h1; exact h1), .reduceReduce ?_⟩
      have := this.map Item.toLr0
      rw [List.map_map] at this ⊢
      exact this

end

end Verif
