import Verif.Spec.Pipeline
import Verif.Spec.GlrTrace
import Verif.Props.LR

/-! # Lemmas: conditions on grammars, from conditions on rule sets -/

set_option autoImplicit false

namespace Verif

variable {so : String → Option Sym} {tp : Nat → Option ProdPattern}

theorem first_append {u v : List Sym} (hu : u ≠ []) (he : Sym.eps ∉ u) : (u ++ v)[leadingEps (u ++ v)]? = u[0]? ∧ u[leadingEps u]? = u[0]? := by
  cases u with
  | nil => exact absurd rfl hu
  | cons x u =>
    have hx : x ≠ .eps := fun h => he (by simp [h])
    simp [leadingEps, hx]

/-- the first symbol of a translated body -/
theorem Trans.first (hso : ∀ n, so n ≠ some .eps) {p : ProdPattern} {ss : List Sym} (h : Trans so tp p ss) (h1 : ¬ Occurs (.sequence []) p)
    (h2 : ∀ ps, Occurs (.sequence ps) p → ProdPattern.epsilon ∉ ps) {C : Nat} (hC : ss[leadingEps ss]? = some (.nt C)) :
    (∃ n, BeginsWith p n ∧ so n = some (.nt C)) ∨ ∃ q, tp C = some q ∧ ∀ n, BeginsWith q n → BeginsWith p n := by
  induction h with
  | @rule n s hn =>
    have hs : s ≠ .eps := by rintro rfl; exact hso n hn
    simp [leadingEps, hs] at hC
    subst hC
    exact .inl ⟨n, .rule n, hn⟩
  | epsilon => simp [leadingEps] at hC
  | seqNil => simp [leadingEps] at hC
  | @seqCons p ps u v a b ih _ =>
    have hp : p ≠ .epsilon := by rintro rfl; exact h2 _ .here (by simp)
    have h1' : ¬ Occurs (.sequence []) p := fun ho => h1 (.sequence (by simp) ho)
    have h2' : ∀ qs, Occurs (.sequence qs) p → ProdPattern.epsilon ∉ qs := fun qs ho => h2 qs (.sequence (by simp) ho)
    have hne := a.ne_nil h1'
    have he : Sym.eps ∉ u := by
      rcases a.eps hso h2' with ⟨e, _⟩ | h
      · exact absurd e hp
      · exact h
    obtain ⟨f1, f2⟩ := first_append (v := v) hne he
    rw [f1, ← f2] at hC
    rcases ih h1' h2' hC with ⟨n, i1, i2⟩ | ⟨q, i1, i2⟩
    · exact .inl ⟨n, .sequence i1, i2⟩
    · exact .inr ⟨q, i1, fun n hn => .sequence (i2 n hn)⟩
  | alt ht => simp [leadingEps] at hC; subst hC; exact .inr ⟨_, ht, fun n hn => hn⟩
  | plus ht => simp [leadingEps] at hC; subst hC; exact .inr ⟨_, ht, fun n hn => hn⟩
  | star ht => simp [leadingEps] at hC; subst hC; exact .inr ⟨_, ht, fun n hn => hn⟩
  | opt ht => simp [leadingEps] at hC; subst hC; exact .inr ⟨_, ht, fun n hn => hn⟩

/-- the same for a translated body followed by a symbol -/
theorem Trans.first_then (hso : ∀ n, so n ≠ some .eps) {p : ProdPattern} {ss : List Sym} (h : Trans so tp p ss) (h1 : ¬ Occurs (.sequence []) p)
    (h2 : ∀ ps, Occurs (.sequence ps) p → ProdPattern.epsilon ∉ ps) {A C : Nat} (hC : (ss ++ [.nt A])[leadingEps (ss ++ [.nt A])]? = some (.nt C)) :
    C = A ∨ (∃ n, BeginsWith p n ∧ so n = some (.nt C)) ∨ ∃ q, tp C = some q ∧ ∀ n, BeginsWith q n → BeginsWith p n := by
  rcases h.eps hso h2 with ⟨_, rfl⟩ | he
  · simp [leadingEps] at hC
    exact .inl hC.symm
  · obtain ⟨f1, f2⟩ := first_append (v := [Sym.nt A]) (h.ne_nil h1) he
    rw [f1, ← f2] at hC
    exact .inr (h.first hso h1 h2 hC)

theorem resolve_ne_eps (rs : RuleSet) (n : String) : resolve rs n ≠ some .eps := fun h => by
  rcases resolve_kind h with ⟨_, h⟩ | ⟨_, h⟩ <;> cases h

theorem entry_not_left_recursive {rs : RuleSet} {g : Grammar} (hg : Grammar.fromRuleSet rs = .ok g) (hf : rs.Fine) : EntryNotLeftRecursive g := by
  obtain ⟨base, pats, h⟩ := grammarOk hg
  have hocc : ∀ A q, tpOf base pats A = some q → ¬ Occurs (.sequence []) q ∧ ∀ ps, Occurs (.sequence ps) q → ProdPattern.epsilon ∉ ps := by
    intro A q hq
    unfold tpOf at hq
    split at hq
    · cases hq
    · obtain ⟨p, a1, a2⟩ := h.occurs q (List.mem_of_getElem? hq)
      exact ⟨fun ho => hf.noEmptySequence p a1 (ho.trans a2), fun ps ho => hf.noEpsilonInSequence p a1 ps (ho.trans a2)⟩
  -- what a symbol reached from the entry can be
  let Reached : Nat → Prop := fun B => (∃ m, resolve rs m = some (.nt B) ∧ NameCorner rs rs.entry m) ∨
    ∃ q, tpOf base pats B = some q ∧ ∀ n, BeginsWith q n → NameCorner rs rs.entry n
  -- one step
  have step : ∀ B C, (∃ m, resolve rs m = some (.nt B) ∧ (m = rs.entry ∨ NameCorner rs rs.entry m)) ∨
      (∃ q, tpOf base pats B = some q ∧ ∀ n, BeginsWith q n → NameCorner rs rs.entry n) → StartsRule g B C → Reached C := by
    rintro B C hB ⟨r, hr, rfl, hC⟩
    rcases h.good r hr with ⟨p, h1, h2⟩ | ⟨pr, h1, h2, h3⟩
    · have hB' : ∀ n, BeginsWith p n → NameCorner rs rs.entry n := by
        rcases hB with ⟨m, m1, _⟩ | ⟨q, q1, q2⟩
        · have := h.named m _ m1
          simp only [Sym.index] at this
          rw [tpOf, if_pos this] at h1; cases h1
        · rw [h1] at q1; cases q1; exact q2
      obtain ⟨o1, o2⟩ := hocc _ _ h1
      have out : ∀ {p' : ProdPattern}, (∀ n, BeginsWith p' n → BeginsWith p n) →
          ((∃ n, BeginsWith p' n ∧ resolve rs n = some (.nt C)) ∨ ∃ q, tpOf base pats C = some q ∧ ∀ n, BeginsWith q n → BeginsWith p' n) → Reached C := by
        rintro p' hp (⟨n, i1, i2⟩ | ⟨q, i1, i2⟩)
        · exact .inl ⟨n, i2, hB' n (hp n i1)⟩
        · exact .inr ⟨q, i1, fun n hn => hB' n (hp n (i2 n hn))⟩
      have self : C = r.lhs → Reached C := by rintro rfl; exact .inr ⟨p, h1, hB'⟩
      generalize r.rhs = rhs at h2 hC
      cases h2 with
      | alt hm ht =>
        exact out (fun n => .alternative hm) (ht.first (resolve_ne_eps rs) (fun ho => o1 (.alternative hm ho)) (fun ps ho => o2 ps (.alternative hm ho)) hC)
      | plusOne ht => exact out (fun n => .oneOrMany) (ht.first (resolve_ne_eps rs) (fun ho => o1 (.oneOrMany ho)) (fun ps ho => o2 ps (.oneOrMany ho)) hC)
      | plusMore ht =>
        rcases ht.first_then (resolve_ne_eps rs) (fun ho => o1 (.oneOrMany ho)) (fun ps ho => o2 ps (.oneOrMany ho)) hC with e | e
        · exact self e
        · exact out (fun n => .oneOrMany) e
      | starNil => simp [leadingEps] at hC
      | starMore ht =>
        rcases ht.first_then (resolve_ne_eps rs) (fun ho => o1 (.zeroOrMany ho)) (fun ps ho => o2 ps (.zeroOrMany ho)) hC with e | e
        · exact self e
        · exact out (fun n => .zeroOrMany) e
      | optSome ht => exact out (fun n => .optional) (ht.first (resolve_ne_eps rs) (fun ho => o1 (.optional ho)) (fun ps ho => o2 ps (.optional ho)) hC)
      | optNone => simp [leadingEps] at hC
    · have hpr := List.mem_of_getElem? h1
      have hname : pr.name = rs.entry ∨ NameCorner rs rs.entry pr.name := by
        rcases hB with ⟨m, m1, m2⟩ | ⟨q, q1, _⟩
        · rw [resolve_inj hf.prods h2 m1]; exact m2
        · have := h.named pr.name _ h2
          simp only [Sym.index] at this
          rw [tpOf, if_pos this] at q1; cases q1
      have hb : ∀ n, BeginsWith pr.pattern n → NameCorner rs rs.entry n := by
        intro n hn
        rcases hname with e | e
        · rw [← e]; exact .one hpr hn
        · exact .more e hpr hn
      rcases h3.first (resolve_ne_eps rs) (hf.noEmptySequence pr hpr) (hf.noEpsilonInSequence pr hpr) hC with ⟨n, i1, i2⟩ | ⟨q, i1, i2⟩
      · exact .inl ⟨n, i2, hb n i1⟩
      · exact .inr ⟨q, i1, fun n hn => hb n (i2 n hn)⟩
  intro A hA hlc
  have hent := h.entry
  rw [hA] at hent
  have key : ∀ {B}, LeftCorner g A B → Reached B := by
    intro B hlc
    induction hlc with
    | one hs => exact step _ _ (.inl ⟨rs.entry, hent, .inl rfl⟩) hs
    | more _ hs ih =>
      refine step _ _ ?_ hs
      rcases ih with ⟨m, m1, m2⟩ | ih
      · exact .inl ⟨m, m1, .inr m2⟩
      · exact .inr ih
  rcases key hlc with ⟨m, m1, m2⟩ | ⟨q, q1, _⟩
  · rw [resolve_inj hf.prods m1 hent] at m2
    exact hf.entry m2
  · have := h.named _ _ hent
    simp only [Sym.index] at this
    rw [tpOf, if_pos this] at q1; cases q1

/-- the non-terminals of a translated body -/
theorem Trans.mem {p : ProdPattern} {ss : List Sym} (h : Trans so tp p ss) {C : Nat} (hC : .nt C ∈ ss) : (∃ n, Mentions p n ∧ so n = some (.nt C)) ∨ ∃ q, tp C = some q := by
  induction h with
  | @rule n s hn =>
    rw [List.mem_singleton] at hC
    exact .inl ⟨n, .rule n, by rw [hn, hC]⟩
  | epsilon => simp at hC
  | seqNil => simp at hC
  | seqCons _ _ ih1 ih2 =>
    rcases List.mem_append.mp hC with hC | hC
    · rcases ih1 hC with ⟨n, h1, h2⟩ | h
      · exact .inl ⟨n, .sequence (by simp) h1, h2⟩
      · exact .inr h
    · rcases ih2 hC with ⟨n, h1, h2⟩ | h
      · cases h1 with
        | sequence hm h1 => exact .inl ⟨n, .sequence (List.mem_cons_of_mem _ hm) h1, h2⟩
      · exact .inr h
  | alt ht => simp at hC; subst hC; exact .inr ⟨_, ht⟩
  | plus ht => simp at hC; subst hC; exact .inr ⟨_, ht⟩
  | star ht => simp at hC; subst hC; exact .inr ⟨_, ht⟩
  | opt ht => simp at hC; subst hC; exact .inr ⟨_, ht⟩

/-- every pattern whose names all match something matches something -/
theorem den_exists {rs : RuleSet} (hprod : ∀ p ∈ rs.prods, ∃ w, Den rs (.rule p.name) w) : ∀ p : ProdPattern, ¬ Occurs (.alternative []) p →
    (∀ n, Mentions p n → Defined rs n) → ∃ w, Den rs p w
  | .sequence [], _, _ => ⟨[], .seqNil⟩
  | .sequence (p :: ps), h1, h2 => by
    obtain ⟨u, hu⟩ := den_exists hprod p (fun h => h1 (.sequence (by simp) h)) (fun n h => h2 n (.sequence (by simp) h))
    obtain ⟨v, hv⟩ := den_exists hprod (.sequence ps)
      (fun h => by
        cases h with
        | sequence hm h => exact h1 (.sequence (List.mem_cons_of_mem _ hm) h))
      (fun n h => by
        cases h with
        | sequence hm h => exact h2 n (.sequence (List.mem_cons_of_mem _ hm) h))
    exact ⟨_, .seqCons hu hv⟩
  | .alternative [], h1, _ => absurd .here h1
  | .alternative (p :: ps), h1, h2 => by
    obtain ⟨u, hu⟩ := den_exists hprod p (fun h => h1 (.alternative (by simp) h)) (fun n h => h2 n (.alternative (by simp) h))
    exact ⟨u, .alt (by simp) hu⟩
  | .oneOrMany p, h1, h2 => by
    obtain ⟨u, hu⟩ := den_exists hprod p (fun h => h1 (.oneOrMany h)) (fun n h => h2 n (.oneOrMany h))
    exact ⟨u, .plusOne hu⟩
  | .zeroOrMany _, _, _ => ⟨[], .starNil⟩
  | .optional _, _, _ => ⟨[], .optNone⟩
  | .epsilon, _, _ => ⟨[], .epsilon⟩
  | .rule n, _, h2 => by
    rcases h2 n (.rule n) with h | ⟨p, hp, rfl⟩
    · obtain ⟨i, hi⟩ := List.mem_iff_getElem?.mp h
      exact ⟨[i], .token hi⟩
    · exact hprod p hp

theorem Mentions.of_occurs {q p : ProdPattern} {n : String} (h : Mentions q n) (ho : Occurs q p) : Mentions p n := by
  induction ho with
  | here => exact h
  | sequence hm _ ih => exact .sequence hm ih
  | alternative hm _ ih => exact .alternative hm ih
  | oneOrMany _ ih => exact .oneOrMany ih
  | zeroOrMany _ ih => exact .zeroOrMany ih
  | optional _ ih => exact .optional ih

theorem productive_of_rules {rs : RuleSet} {g : Grammar} (hg : Grammar.fromRuleSet rs = .ok g) (hf : rs.Fine)
    (hprod : ∀ p ∈ rs.prods, ∃ w, Den rs (.rule p.name) w) : Productive g := by
  obtain ⟨_, hdef, _⟩ := C16_ok_only_if rs g hg
  obtain ⟨base, pats, h⟩ := grammarOk hg
  intro A hA
  rw [Grammar.nonTerminals, List.mem_append] at hA
  rcases hA with hA | hA
  · obtain ⟨⟨s, n⟩, hm, rfl⟩ := List.mem_map.mp hA
    have hr := (h.prodN hf.prods n A).mp (mem_mget? h.prodS hm)
    have hd : Defined rs n := resolve_defined.mp (by rw [hr]; simp)
    have : ∃ w, Den rs (.rule n) w := by
      rcases hd with hd | ⟨p, hp, rfl⟩
      · obtain ⟨i, hi⟩ := List.mem_iff_getElem?.mp hd
        exact ⟨[i], .token hi⟩
      · exact hprod p hp
    obtain ⟨w, hw⟩ := this
    exact ⟨w, (h.language hf.tokens hf.prods hr w).mpr hw⟩
  · rw [h.anon] at hA
    obtain ⟨A', hA', e⟩ := List.mem_map.mp hA
    cases e
    rw [List.mem_range'_1] at hA'
    have hq : pats[A - base]? = some pats[A - base] := List.getElem?_eq_getElem (by omega)
    generalize pats[A - base] = q at hq
    have htp : tpOf base pats A = some q := by rw [tpOf, if_neg (by omega), hq]
    obtain ⟨p, p1, p2⟩ := h.occurs q (List.mem_of_getElem? hq)
    obtain ⟨w, hw⟩ := den_exists hprod q (fun ho => hf.noEmptyAlternative p p1 (ho.trans p2)) (fun n hn => hdef p p1 n (hn.of_occurs p2))
    have hc := h.complete' htp
    have : Trans (resolve rs) (tpOf base pats) q [.nt A] := by
      cases q with
      | alternative ps => exact .alt htp
      | oneOrMany p => exact .plus htp
      | zeroOrMany p => exact .star htp
      | optional p => exact .opt htp
      | sequence ps => exact absurd hc id
      | rule n => exact absurd hc id
      | epsilon => exact absurd hc id
    exact ⟨w, hw.complete h hf.tokens _ this⟩

theorem entryFresh_of_rules {rs : RuleSet} {g : Grammar} (hg : Grammar.fromRuleSet rs = .ok g) (hP : rs.prods.length ≤ 65536) (hu : rs.EntryUnused) : EntryFresh g := by
  obtain ⟨base, pats, h⟩ := grammarOk hg
  have hent := h.entry
  obtain ⟨E, hE⟩ : ∃ E, g.entry = .nt E := by
    obtain ⟨E, hE, _⟩ := (C19_well_formed _ _ hg).entry_declared
    exact ⟨E, hE⟩
  rw [hE] at hent
  have hno : tpOf base pats E = none := by
    have := h.named _ _ hent
    simp only [Sym.index] at this
    rw [tpOf, if_pos this]
  have out : ∀ (p : ProdPattern), ¬ Mentions p rs.entry → ∀ {ss}, Trans (resolve rs) (tpOf base pats) p ss → .nt E ∉ ss := by
    intro p hp ss ht hm
    rcases ht.mem hm with ⟨n, h1, h2⟩ | ⟨q, h1⟩
    · rw [resolve_inj hP h2 hent] at h1
      exact hp h1
    · rw [hno] at h1; cases h1
  intro r hr
  rw [hE]
  rcases h.good r hr with ⟨p, h1, h2⟩ | ⟨pr, h1, h2, h3⟩
  · have hp : ¬ Mentions p rs.entry := by
      intro hm
      unfold tpOf at h1
      split at h1
      · cases h1
      · obtain ⟨q, a1, a2⟩ := h.occurs p (List.mem_of_getElem? h1)
        exact hu q a1 (hm.of_occurs a2)
    have hne : r.lhs ≠ E := by rintro rfl; rw [hno] at h1; cases h1
    generalize r.rhs = rhs at h2
    cases h2 with
    | alt hm ht => exact out _ (fun hx => hp (.alternative hm hx)) ht
    | plusOne ht => exact out _ (fun hx => hp (.oneOrMany hx)) ht
    | plusMore ht =>
      have := out _ (fun hx => hp (.oneOrMany hx)) ht
      simp [this, Ne.symm hne]
    | starNil => simp
    | starMore ht =>
      have := out _ (fun hx => hp (.zeroOrMany hx)) ht
      simp [this, Ne.symm hne]
    | optSome ht => exact out _ (fun hx => hp (.optional hx)) ht
    | optNone => simp
  · exact out _ (hu pr (List.mem_of_getElem? h1)) h3

end Verif
