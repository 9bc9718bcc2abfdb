import Verif.Proofs.RenameBuild
import Verif.Spec.LL
import Verif.Spec.Conflict
import Verif.Spec.ParseTree

/-!
# Grammars with the same rules mean the same
-/

set_option autoImplicit false

namespace Verif

section
variable {φ τ : Nat → Nat} {g g' : Grammar}

theorem Sym.rename_inj (h1 : ∀ a b, φ a = φ b → a = b) (h2 : ∀ a b, τ a = τ b → a = b) {s s' : Sym} (h : s.rename φ τ = s'.rename φ τ) : s = s' := by
  cases s <;> cases s' <;> simp_all [Sym.rename]
  · exact h1 _ _ h
  · exact h2 _ _ h

theorem SameGrammar.sym_inj (h : SameGrammar φ τ g g') {s s' : Sym} (e : s.rename φ τ = s'.rename φ τ) : s = s' := Sym.rename_inj h.nts h.ts e

theorem SameGrammar.syms_inj (h : SameGrammar φ τ g g') {s s' : List Sym} (e : s.map (Sym.rename φ τ) = s'.map (Sym.rename φ τ)) : s = s' :=
  List.map_injective_iff.mpr (fun _ _ e => h.sym_inj e) e

theorem rename_eps {s : Sym} : s.rename φ τ = .eps ↔ s = .eps := by cases s <;> simp [Sym.rename]
theorem rename_nt {s : Sym} {B : Nat} : s.rename φ τ = .nt B ↔ ∃ A, s = .nt A ∧ φ A = B := by cases s <;> simp [Sym.rename]
theorem rename_t {s : Sym} {b : Nat} : s.rename φ τ = .t b ↔ ∃ a, s = .t a ∧ τ a = b := by cases s <;> simp [Sym.rename]
theorem rename_isTerm {s : Sym} : (s.rename φ τ).isTerm ↔ s.isTerm := by cases s <;> simp [Sym.rename, Sym.isTerm]

theorem strip_rename (ss : List Sym) : strip (ss.map (Sym.rename φ τ)) = (strip ss).map (Sym.rename φ τ) := by
  unfold strip
  rw [List.filter_map]
  congr 1
  refine List.filter_congr fun s _ => ?_
  cases s <;> simp [Sym.rename]

theorem leadingEps_rename (ss : List Sym) : leadingEps (ss.map (Sym.rename φ τ)) = leadingEps ss := by
  unfold leadingEps
  induction ss with
  | nil => rfl
  | cons s ss ih => cases s <;> simp_all [Sym.rename, List.takeWhile]

theorem SameGrammar.ruleMap (h : SameGrammar φ τ g g') : ∃ π, RuleMap φ τ π g g' := by
  obtain ⟨π, hπ⟩ := perm_positions h.rules
  obtain ⟨h1, h2, h3⟩ := positions_spec hπ
  refine ⟨π, fun i r hr => ?_, fun j r' hr' => ?_, fun i i' hi hi' e => h3 i i' (by simpa using hi) (by simpa using hi') e⟩
  · have := h1 i _ (by rw [List.getElem?_map, hr]; rfl)
    rw [List.getElem?_map, Option.map_eq_some_iff] at this
    obtain ⟨r', e1, e2⟩ := this
    simp only [Prod.mk.injEq] at e2
    exact ⟨r', e1, e2.1, e2.2⟩
  · obtain ⟨i, e1, e2⟩ := h2 j _ (by rw [List.getElem?_map, hr']; rfl)
    rw [List.getElem?_map, Option.map_eq_some_iff] at e1
    obtain ⟨r, e3, e4⟩ := e1
    simp only [Prod.mk.injEq] at e4
    exact ⟨i, r, e3, e2, e4.1.symm, e4.2.symm⟩

theorem SameGrammar.rule_fwd (h : SameGrammar φ τ g g') {r : Rule} (hr : r ∈ g.rules) : ∃ r' ∈ g'.rules, r'.lhs = φ r.lhs ∧ r'.rhs = r.rhs.map (Sym.rename φ τ) := by
  have := h.rules.mem_iff.mp (List.mem_map_of_mem (f := fun r : Rule => (φ r.lhs, r.rhs.map (Sym.rename φ τ))) hr)
  obtain ⟨r', h1, h2⟩ := List.mem_map.mp this
  simp only [Prod.mk.injEq] at h2
  exact ⟨r', h1, h2.1, h2.2⟩

theorem SameGrammar.rule_bwd (h : SameGrammar φ τ g g') {r' : Rule} (hr : r' ∈ g'.rules) : ∃ r ∈ g.rules, r'.lhs = φ r.lhs ∧ r'.rhs = r.rhs.map (Sym.rename φ τ) := by
  have := h.rules.mem_iff.mpr (List.mem_map_of_mem (f := fun r : Rule => (r.lhs, r.rhs)) hr)
  obtain ⟨r, h1, h2⟩ := List.mem_map.mp this
  simp only [Prod.mk.injEq] at h2
  exact ⟨r, h1, h2.1.symm, h2.2.symm⟩

theorem SameGrammar.rewrites (h : SameGrammar φ τ g g') {x y : List Sym} (hr : Rewrites g.rules x y) : Rewrites g'.rules (x.map (Sym.rename φ τ)) (y.map (Sym.rename φ τ)) := by
  induction hr with
  | refl => exact .refl
  | step _ hm ih =>
    obtain ⟨r', h1, h2, h3⟩ := h.rule_fwd hm
    rw [List.map_append, List.map_cons] at ih
    have := Rewrites.step (r := r') (by rw [h2]; exact ih) h1
    rw [List.map_append, List.map_append, ← strip_rename, ← h3]
    exact this

theorem SameGrammar.rewrites_bwd (h : SameGrammar φ τ g g') {x : List Sym} {y' : List Sym} (hr : Rewrites g'.rules (x.map (Sym.rename φ τ)) y') :
    ∃ y, y' = y.map (Sym.rename φ τ) ∧ Rewrites g.rules x y := by
  induction hr with
  | refl => exact ⟨x, rfl, .refl⟩
  | @step α β r' _ hm ih =>
    obtain ⟨y, e, hy⟩ := ih
    obtain ⟨r, h1, h2, h3⟩ := h.rule_bwd hm
    obtain ⟨α0, s, rfl, rfl, e2⟩ := List.map_eq_append_iff.mp e.symm
    obtain ⟨s, β0, rfl, e3, rfl⟩ := List.map_eq_cons_iff.mp e2
    have e4 : s = .nt r.lhs := h.sym_inj (by rw [e3, h2]; rfl)
    subst e4
    refine ⟨α0 ++ strip r.rhs ++ β0, ?_, hy.step h1⟩
    rw [List.map_append, List.map_append, ← strip_rename, ← h3]

theorem SameGrammar.rewrites_iff (h : SameGrammar φ τ g g') {x y : List Sym} : Rewrites g'.rules (x.map (Sym.rename φ τ)) (y.map (Sym.rename φ τ)) ↔ Rewrites g.rules x y := by
  refine ⟨fun hr => ?_, h.rewrites⟩
  obtain ⟨z, e, hz⟩ := h.rewrites_bwd hr
  rw [h.syms_inj e]; exact hz

theorem SameGrammar.derives (h : SameGrammar φ τ g g') {ss : List Sym} {w : List Nat} (hd : Derives g.rules ss w) : Derives g'.rules (ss.map (Sym.rename φ τ)) (w.map τ) := by
  induction hd with
  | nil => exact .nil
  | eps _ ih => exact .eps ih
  | term _ ih => exact .term ih
  | nonterm hr _ _ i1 i2 =>
    obtain ⟨r', h1, h2, h3⟩ := h.rule_fwd hr
    rw [List.map_append]
    rw [← h3] at i1
    have := Derives.nonterm h1 i1 i2
    rw [h2] at this
    exact this

theorem SameGrammar.derives_bwd (h : SameGrammar φ τ g g') {ss' : List Sym} {w' : List Nat} (hd : Derives g'.rules ss' w') : ∀ ss, ss' = ss.map (Sym.rename φ τ) →
    ∃ w, w' = w.map τ ∧ Derives g.rules ss w := by
  induction hd with
  | nil => intro ss e; have : ss = [] := by simpa using e.symm
           subst this; exact ⟨[], rfl, .nil⟩
  | eps _ ih =>
    intro ss e
    obtain ⟨s, ss0, rfl, e1, e2⟩ := List.map_eq_cons_iff.mp e.symm
    rw [rename_eps.mp e1]
    obtain ⟨w, e3, hw⟩ := ih ss0 e2.symm
    exact ⟨w, e3, .eps hw⟩
  | term _ ih =>
    intro ss e
    obtain ⟨s, ss0, rfl, e1, e2⟩ := List.map_eq_cons_iff.mp e.symm
    obtain ⟨a, rfl, rfl⟩ := rename_t.mp e1
    obtain ⟨w, rfl, hw⟩ := ih ss0 e2.symm
    exact ⟨a :: w, rfl, .term hw⟩
  | nonterm hr _ _ i1 i2 =>
    intro ss e
    obtain ⟨s, ss0, rfl, e1, e2⟩ := List.map_eq_cons_iff.mp e.symm
    obtain ⟨r, h1, h2, h3⟩ := h.rule_bwd hr
    have e4 : s = .nt r.lhs := h.sym_inj (by rw [e1, h2]; rfl)
    subst e4
    obtain ⟨u, rfl, hu⟩ := i1 r.rhs h3
    obtain ⟨v, rfl, hv⟩ := i2 ss0 e2.symm
    exact ⟨u ++ v, by simp, .nonterm h1 hu hv⟩

theorem SameGrammar.sentence_iff (h : SameGrammar φ τ g g') {w : List Nat} : Derives g'.rules [g'.entry] (w.map τ) ↔ Derives g.rules [g.entry] w := by
  rw [h.entry]
  refine ⟨fun hd => ?_, fun hd => h.derives hd⟩
  obtain ⟨v, e, hv⟩ := h.derives_bwd hd [g.entry] rfl
  rw [List.map_injective_iff.mpr (fun a b e => h.ts a b e) e]; exact hv

/-! ## LL(1) -/

theorem SameGrammar.predictsFirst (h : SameGrammar φ τ g g') {r r' : Rule} (e2 : r'.rhs = r.rhs.map (Sym.rename φ τ)) {x : Sym} :
    PredictsFirst g' r' (x.rename φ τ) ↔ PredictsFirst g r x := by
  unfold PredictsFirst
  rw [e2, strip_rename]
  constructor
  · rintro ⟨β, hb⟩
    obtain ⟨y, e, hy⟩ := h.rewrites_bwd hb
    obtain ⟨s, y0, rfl, e3, rfl⟩ := List.map_eq_cons_iff.mp e.symm
    rw [h.sym_inj e3] at hy
    exact ⟨y0, hy⟩
  · rintro ⟨β, hb⟩; exact ⟨_, h.rewrites hb⟩

theorem SameGrammar.canFollow (h : SameGrammar φ τ g g') {A : Nat} {x : Sym} : CanFollow g' (φ A) (x.rename φ τ) ↔ CanFollow g A x := by
  unfold CanFollow
  constructor
  · rintro ⟨α, β, hb⟩
    have e0 : [g'.entry, .eof] = [g.entry, .eof].map (Sym.rename φ τ) := by rw [h.entry]; rfl
    rw [e0] at hb
    obtain ⟨y, e, hy⟩ := h.rewrites_bwd hb
    obtain ⟨α0, s, rfl, rfl, e2⟩ := List.map_eq_append_iff.mp e.symm
    obtain ⟨s, β0, rfl, e3, e4⟩ := List.map_eq_cons_iff.mp e2
    obtain ⟨s', β0, rfl, e5, rfl⟩ := List.map_eq_cons_iff.mp e4
    have e6 : s = .nt A := h.sym_inj e3
    rw [e6, h.sym_inj e5] at hy
    exact ⟨α0, β0, hy⟩
  · rintro ⟨α, β, hb⟩
    have := h.rewrites hb
    simp only [List.map_cons, List.map_append, List.map_nil] at this
    rw [h.entry]
    exact ⟨_, _, this⟩

theorem SameGrammar.canFollowInside (h : SameGrammar φ τ g g') {A : Nat} {x : Sym} (hx : CanFollowInside g A x) : CanFollowInside g' (φ A) (x.rename φ τ) := by
  obtain ⟨B, α, β, hb⟩ := hx
  have := h.rewrites hb
  simp only [List.map_cons, List.map_append, List.map_nil] at this
  exact ⟨φ B, _, _, this⟩

theorem rewrites_start {rules : List Rule} {x y : List Sym} (h : Rewrites rules x y) : y = x ∨ ∃ r ∈ rules, Sym.nt r.lhs ∈ x := by
  induction h with
  | refl => exact .inl rfl
  | step _ hr ih =>
    rcases ih with rfl | ih
    · exact .inr ⟨_, hr, by simp⟩
    · exact .inr ih

theorem SameGrammar.canFollowInside_bwd (h : SameGrammar φ τ g g') {A : Nat} {x : Sym} (hx : CanFollowInside g' (φ A) (x.rename φ τ)) : CanFollowInside g A x := by
  obtain ⟨B, α, β, hb⟩ := hx
  rcases rewrites_start hb with e | ⟨r', hr', hm⟩
  · have := congrArg List.length e
    simp at this
    omega
  · obtain ⟨r, h1, h2, h3⟩ := h.rule_bwd hr'
    simp only [List.mem_cons, List.not_mem_nil, or_false, Sym.nt.injEq] at hm
    rw [← hm, h2] at hb
    obtain ⟨y, e, hy⟩ := h.rewrites_bwd (x := [.nt r.lhs]) hb
    obtain ⟨α0, s, rfl, rfl, e2⟩ := List.map_eq_append_iff.mp e.symm
    obtain ⟨s, β0, rfl, e3, e4⟩ := List.map_eq_cons_iff.mp e2
    obtain ⟨s', β0, rfl, e5, rfl⟩ := List.map_eq_cons_iff.mp e4
    have e6 : s = .nt A := h.sym_inj e3
    rw [e6, h.sym_inj e5] at hy
    exact ⟨_, α0, β0, hy⟩

theorem SameGrammar.predictsFollow (h : SameGrammar φ τ g g') {r r' : Rule} (e1 : r'.lhs = φ r.lhs) (e2 : r'.rhs = r.rhs.map (Sym.rename φ τ)) {x : Sym} :
    PredictsFollow g' r' (x.rename φ τ) ↔ PredictsFollow g r x := by
  unfold PredictsFollow
  rw [e1, e2, strip_rename, h.canFollow]
  have : Rewrites g'.rules ((strip r.rhs).map (Sym.rename φ τ)) [] ↔ Rewrites g.rules (strip r.rhs) [] := h.rewrites_iff (y := [])
  rw [this]
  have : CanFollowInside g' (φ r.lhs) (x.rename φ τ) ↔ CanFollowInside g r.lhs x := ⟨h.canFollowInside_bwd, h.canFollowInside⟩
  rw [this]

/-- terminals that are predicted come from terminals -/
theorem SameGrammar.predicts_bwd (h : SameGrammar φ τ g g') {r r' : Rule} (e1 : r'.lhs = φ r.lhs) (e2 : r'.rhs = r.rhs.map (Sym.rename φ τ)) {x' : Sym}
    (hp : PredictsFirst g' r' x' ∨ PredictsFollow g' r' x') : ∃ x : Sym, x' = x.rename φ τ := by
  rcases hp with ⟨β, hb⟩ | ⟨_, ⟨α, β, hb⟩ | ⟨B, α, β, hb⟩⟩
  · rw [e2, strip_rename] at hb
    obtain ⟨y, e, hy⟩ := h.rewrites_bwd hb
    obtain ⟨s, y0, rfl, e3, rfl⟩ := List.map_eq_cons_iff.mp e.symm
    exact ⟨s, e3.symm⟩
  · have e0 : [g'.entry, .eof] = [g.entry, .eof].map (Sym.rename φ τ) := by rw [h.entry]; rfl
    rw [e0] at hb
    obtain ⟨y, e, hy⟩ := h.rewrites_bwd hb
    obtain ⟨α0, s, rfl, rfl, e2⟩ := List.map_eq_append_iff.mp e.symm
    obtain ⟨s, β0, rfl, e3, e4⟩ := List.map_eq_cons_iff.mp e2
    obtain ⟨s', β0, rfl, e5, rfl⟩ := List.map_eq_cons_iff.mp e4
    exact ⟨s', e5.symm⟩
  · rcases rewrites_start hb with e | ⟨r0, hr', hm⟩
    · have := congrArg List.length e
      simp at this
      omega
    · obtain ⟨r, h1, h2, h3⟩ := h.rule_bwd hr'
      simp only [List.mem_cons, List.not_mem_nil, or_false, Sym.nt.injEq] at hm
      rw [← hm, h2] at hb
      obtain ⟨y, e, hy⟩ := h.rewrites_bwd (x := [.nt r.lhs]) hb
      obtain ⟨α0, s, rfl, rfl, e2⟩ := List.map_eq_append_iff.mp e.symm
      obtain ⟨s, β0, rfl, e3, e4⟩ := List.map_eq_cons_iff.mp e2
      obtain ⟨s', β0, rfl, e5, rfl⟩ := List.map_eq_cons_iff.mp e4
      exact ⟨s', e5.symm⟩

theorem predicts_core {r r' : Rule} (e1 : r'.lhs = r.lhs) (e2 : r'.rhs = r.rhs) {x : Sym} : Predicts g r' x ↔ Predicts g r x := by
  unfold Predicts PredictsFirst PredictsFollow; rw [e1, e2]

theorem SameGrammar.ll1 (h : SameGrammar φ τ g g') : g'.LL1 ↔ g.LL1 := by
  have hpr : ∀ {r r' : Rule}, r'.lhs = φ r.lhs → r'.rhs = r.rhs.map (Sym.rename φ τ) → ∀ {x : Sym}, Predicts g' r' (x.rename φ τ) ↔ Predicts g r x := by
    intro r r' e1 e2 x
    unfold Predicts
    rw [h.predictsFirst e2, h.predictsFollow e1 e2]
  -- the condition on pairs, for left and right sides only
  let P' : Nat × List Sym → Nat × List Sym → Prop := fun a b => a.1 = b.1 → ∀ x : Sym, x.isTerm → ¬ (Predicts g' ⟨a.1, a.2, 0⟩ x ∧ Predicts g' ⟨b.1, b.2, 0⟩ x)
  have hsymm : ∀ {a b}, P' a b → P' b a := fun {a b} hp e x hx hc => hp e.symm x hx ⟨hc.2, hc.1⟩
  have key : g'.rules.Pairwise (fun r r' => r.lhs = r'.lhs → ∀ x : Sym, x.isTerm → ¬ (Predicts g' r x ∧ Predicts g' r' x)) ↔
      g.rules.Pairwise (fun r r' => r.lhs = r'.lhs → ∀ x : Sym, x.isTerm → ¬ (Predicts g r x ∧ Predicts g r' x)) := by
    have k1 : g'.rules.Pairwise (fun r r' => r.lhs = r'.lhs → ∀ x : Sym, x.isTerm → ¬ (Predicts g' r x ∧ Predicts g' r' x)) ↔
        (g'.rules.map (fun r => (r.lhs, r.rhs))).Pairwise P' := by
      rw [List.pairwise_map]
      refine Iff.of_eq (congrArg (fun R => List.Pairwise R g'.rules) ?_)
      funext r r'
      refine propext ⟨fun hp e x hx hc => hp e x hx ⟨(predicts_core rfl rfl).mp hc.1, (predicts_core rfl rfl).mp hc.2⟩,
        fun hp e x hx hc => hp e x hx ⟨(predicts_core rfl rfl).mp hc.1, (predicts_core rfl rfl).mp hc.2⟩⟩
    rw [k1, ← h.rules.pairwise_iff hsymm, List.pairwise_map]
    refine Iff.of_eq (congrArg (fun R => List.Pairwise R g.rules) ?_)
    funext r r'
    refine propext ⟨fun hp e x hx hc => ?_, fun hp e x hx hc => ?_⟩
    · exact hp (congrArg φ e) (x.rename φ τ) (rename_isTerm.mpr hx) ⟨(hpr rfl rfl).mpr hc.1, (hpr rfl rfl).mpr hc.2⟩
    · obtain ⟨y, rfl⟩ := h.predicts_bwd (r := r) (r' := ⟨φ r.lhs, r.rhs.map (Sym.rename φ τ), 0⟩) rfl rfl hc.1
      exact hp (h.nts _ _ e) y (rename_isTerm.mp hx) ⟨(hpr rfl rfl).mp hc.1, (hpr rfl rfl).mp hc.2⟩
  constructor
  · intro hl
    refine ⟨key.mp hl.disjoint, fun r hr x hx hc => ?_⟩
    obtain ⟨r', h1, h2, h3⟩ := h.rule_fwd hr
    exact hl.once r' h1 (x.rename φ τ) (rename_isTerm.mpr hx) ⟨(h.predictsFirst h3).mpr hc.1, (h.predictsFollow h2 h3).mpr hc.2⟩
  · intro hl
    refine ⟨key.mpr hl.disjoint, fun r' hr x hx hc => ?_⟩
    obtain ⟨r, h1, h2, h3⟩ := h.rule_bwd hr
    obtain ⟨y, rfl⟩ := h.predicts_bwd h2 h3 (.inl hc.1)
    exact hl.once r h1 y (rename_isTerm.mp hx) ⟨(h.predictsFirst h3).mp hc.1, (h.predictsFollow h2 h3).mp hc.2⟩

end

end Verif
