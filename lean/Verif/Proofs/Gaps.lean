import Verif.Proofs.GrammarLang
import Verif.Proofs.LLCpp

/-! # Ordinals and numbers of the non-terminals -/

set_option autoImplicit false

namespace Verif

theorem resolve_position {rs : RuleSet} (hl : rs.prods.length ≤ u16Size) {A : Nat} {x : String} (h : resolve rs x = some (.nt A)) : ∃ p, rs.prods[A]? = some p ∧ p.name = x := by
  unfold resolve at h
  cases hq : tokEntry 0 rs.tokens x with
  | some v =>
    rw [hq] at h
    simp only [tokEntry, Option.map_eq_some_iff] at hq
    obtain ⟨k, hk, e⟩ := hq
    rw [← e] at h
    simp at h
  | none =>
    rw [hq] at h
    simp only [Option.none_or, prodEntry, Option.map_map, Option.map_eq_some_iff] at h
    obtain ⟨k, hk, e⟩ := h
    obtain ⟨g1, g2, -⟩ := List.findIdx?_eq_some_iff_getElem.mp hk
    simp at e
    rw [Nat.mod_eq_of_lt (by omega)] at e
    subst e
    exact ⟨_, List.getElem?_eq_getElem g1, by simpa using g2⟩

theorem ascending_range : ∀ (l : List Nat) (lo n : Nat), l.Pairwise (· < ·) → (∀ x, x ∈ l ↔ lo ≤ x ∧ x < lo + n) → l = List.range' lo n := by
  intro l
  induction l with
  | nil =>
    intro lo n _ hm
    cases n with
    | zero => rfl
    | succ n => exact absurd ((hm lo).mpr ⟨Nat.le_refl _, by omega⟩) (by simp)
  | cons a l ih =>
    intro lo n hs hm
    rw [List.pairwise_cons] at hs
    have h1 := (hm a).mp List.mem_cons_self
    cases n with
    | zero => omega
    | succ n =>
      have h2 : a = lo := by
        rcases List.mem_cons.mp ((hm lo).mpr ⟨Nat.le_refl _, by omega⟩) with h | h
        · exact h.symm
        · have := hs.1 lo h; omega
      subst h2
      rw [List.range'_succ]
      congr 1
      refine ih (a + 1) n hs.2 (fun x => ⟨fun hx => ?_, fun hx => ?_⟩)
      · have := hs.1 x hx
        have := (hm x).mp (List.mem_cons_of_mem _ hx)
        omega
      · rcases List.mem_cons.mp ((hm x).mpr ⟨by omega, by omega⟩) with h | h
        · omega
        · exact h

section
variable {rs : RuleSet} {g : Grammar} {base : Nat} {pats : List ProdPattern} (h : GrammarOk rs g base pats) (hp : rs.prods.length ≤ u16Size)

include h in
/-- the numbers of the productions -/
theorem production_numbers : ∃ as : List Nat, g.productions.map (·.1) = as.map Sym.nt ∧ as.Pairwise (· < ·) ∧ ∀ A ∈ as, A < base := by
  have hk : ∀ x ∈ g.productions, ∃ A, x.1 = .nt A ∧ A < base := by
    rintro ⟨s, n⟩ hx
    exact h.prodK s (by rw [mem_mget? h.prodS hx]; rfl)
  have hs := h.prodS
  unfold MSorted at hs
  generalize g.productions = l at hk hs
  induction l with
  | nil => exact ⟨[], rfl, .nil, by simp⟩
  | cons x l ih =>
    rw [List.pairwise_cons] at hs
    obtain ⟨as, e, h1, h2⟩ := ih (fun y hy => hk y (List.mem_cons_of_mem _ hy)) hs.2
    obtain ⟨A, eA, hA⟩ := hk x List.mem_cons_self
    refine ⟨A :: as, by rw [List.map_cons, List.map_cons, e, eA], List.pairwise_cons.mpr ⟨fun B hB => ?_, h1⟩, ?_⟩
    · have hm : Sym.nt B ∈ l.map (·.1) := by rw [e]; exact List.mem_map.mpr ⟨B, hB, rfl⟩
      obtain ⟨y, hy, ey⟩ := List.mem_map.mp hm
      have := hs.1 y hy
      rw [eA, ey] at this
      simpa [Key.key, Sym.toKey, List.cons_lt_cons_iff] using this
    · intro B hB
      rcases List.mem_cons.mp hB with rfl | hB
      · exact hA
      · exact h2 B hB

include h hp in
theorem number_position {as : List Nat} (e : g.productions.map (·.1) = as.map Sym.nt) (A : Nat) : A ∈ as ↔ ∃ n, resolve rs n = some (.nt A) := by
  constructor
  · intro hA
    have hm : Sym.nt A ∈ g.productions.map (·.1) := by rw [e]; exact List.mem_map.mpr ⟨A, hA, rfl⟩
    obtain ⟨⟨s, n⟩, hx, rfl⟩ := List.mem_map.mp hm
    exact ⟨n, (h.prodN hp n A).mp (mem_mget? h.prodS hx)⟩
  · rintro ⟨n, hn⟩
    have := mget?_mem ((h.prodN hp n A).mpr hn)
    have hm : Sym.nt A ∈ as.map Sym.nt := by rw [← e]; exact List.mem_map.mpr ⟨_, this, rfl⟩
    obtain ⟨B, hB, eB⟩ := List.mem_map.mp hm
    cases eB
    exact hB

include h in
theorem nonTerminals_numbers {as : List Nat} (e : g.productions.map (·.1) = as.map Sym.nt) : g.nonTerminals = (as ++ List.range' base pats.length).map Sym.nt := by
  unfold Grammar.nonTerminals
  rw [e, h.anon, List.map_append]

theorem idxOf_map_nt (l : List Nat) (A : Nat) : (l.map Sym.nt).idxOf (.nt A) = l.idxOf A := by
  induction l with
  | nil => rfl
  | cons a l ih =>
    rw [List.map_cons, List.idxOf_cons, List.idxOf_cons, ih]
    by_cases ha : a = A
    · subst ha; simp
    · have h1 : (Sym.nt a == Sym.nt A) = false := by simpa using ha
      have h2 : (a == A) = false := by simpa using ha
      rw [h1, h2]

include h hp in
/-- with different production names: no gaps iff there are no operators or at least as many productions as tokens -/
theorem noGaps_iff (ht : rs.tokens.length ≤ u16Size) (hnd : (rs.prods.map (·.name)).Nodup) : NoGaps g ↔ rs.operators = 0 ∨ rs.tokens.length ≤ rs.prods.length := by
  obtain ⟨as, e, h1, h2⟩ := production_numbers h
  have hnt := nonTerminals_numbers h e
  have has : as = List.range' 0 rs.prods.length := by
    refine ascending_range as 0 _ h1 (fun A => ?_)
    rw [number_position h hp e]
    constructor
    · rintro ⟨n, hn⟩
      obtain ⟨p, hp1, _⟩ := resolve_position hp hn
      have := (List.getElem?_eq_some_iff.mp hp1).1
      omega
    · rintro ⟨_, hA⟩
      have hA : A < rs.prods.length := by omega
      obtain ⟨B, _, hB, _⟩ := h.prod rs.prods[A] (List.getElem_mem hA)
      obtain ⟨p, hp1, hp2⟩ := resolve_position hp hB
      obtain ⟨hB', hp1⟩ := List.getElem?_eq_some_iff.mp hp1
      have : A = B := by
        refine (List.Nodup.getElem_inj_iff hnd (hi := by simpa using hA) (hj := by simpa using hB')).mp ?_
        rw [List.getElem_map, List.getElem_map, hp1, hp2]
      subst this
      exact ⟨_, hB⟩
  have hlb : rs.prods.length ≤ base := by
    by_contra hc
    have : rs.prods.length - 1 ∈ as := by rw [has, List.mem_range'_1]; omega
    have := h2 _ this
    omega
  have hord : ∀ A, ordinal g A = (as ++ List.range' base pats.length).idxOf A := by
    intro A
    unfold ordinal
    rw [hnt, idxOf_map_nt]
  have hlen : as.length = rs.prods.length := by rw [has, List.length_range']
  constructor
  · intro hg
    by_contra hc
    push Not at hc
    have hne : 0 < pats.length := by rw [h.len]; omega
    have hm : Sym.nt base ∈ g.nonTerminals := by
      rw [hnt]
      exact List.mem_map.mpr ⟨base, List.mem_append_right _ (by rw [List.mem_range'_1]; omega), rfl⟩
    have := hg base hm
    rw [hord, List.idxOf_append_of_notMem (fun hb => by have := h2 _ hb; omega), hlen] at this
    have h0 : (List.range' base pats.length).idxOf base = 0 := by
      cases hq : pats.length with
      | zero => omega
      | succ n => rw [List.range'_succ, List.idxOf_cons_self]
    rw [h0] at this
    have hk : rs.tokens.length - 1 < rs.tokens.length := by omega
    have := h.named _ _ (resolve_token' h.noClash.1 ht (List.getElem?_eq_getElem hk))
    simp only [Sym.index] at this
    omega
  · intro hc A hA
    rw [hnt] at hA
    obtain ⟨B, hB, eB⟩ := List.mem_map.mp hA
    cases eB
    have key : as ++ List.range' base pats.length = List.range' 0 (rs.prods.length + pats.length) := by
      rw [← List.range'_append_1, ← has]
      rcases hc with hc | hc
      · rw [h.len, hc]; rfl
      · have hb : base ≤ max rs.tokens.length rs.prods.length := h.baseLe
        rw [show base = rs.prods.length by omega, Nat.zero_add]
    rw [hord, key]
    rw [key, List.mem_range'_1] at hB
    have hlt : A < (List.range' 0 (rs.prods.length + pats.length)).length := by rw [List.length_range']; omega
    have := List.Nodup.idxOf_getElem (List.nodup_range' (s := 0) (n := rs.prods.length + pats.length)) A hlt
    simpa using this

end

end Verif
