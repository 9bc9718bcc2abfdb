import Verif.Proofs.GrammarLang

/-! # Which source production the rules of a grammar come from -/

set_option autoImplicit false

namespace Verif

/-- if `A` is a helper non-terminal, it was made for production `o` -/
def Owned (base : Nat) (os : List Nat) (o A : Nat) : Prop := base ≤ A → os[A - base]? = some o

theorem Owned.mono {base : Nat} {os ext : List Nat} {o A : Nat} (h : Owned base os o A) : Owned base (os ++ ext) o A := by
  intro hA
  have := h hA
  rw [List.getElem?_append_left (List.getElem?_eq_some_iff.mp this).1]
  exact this

/-- `os` gives the production of every helper, in order of creation -/
structure OwnInv (n : Nat) (b : GrammarBuilder) (os : List Nat) : Prop where
  len : os.length = b.tempCount
  rules : ∀ r ∈ b.rules, r.origin < n ∧ Owned (b.maxSymbol + 1) os r.origin r.lhs ∧ ∀ A, Sym.nt A ∈ r.rhs → Owned (b.maxSymbol + 1) os r.origin A
  named : ∀ m s, symOf b.symbols m = some s → s.index ≤ b.maxSymbol

theorem OwnInv.temp {n : Nat} {b b' : GrammarBuilder} {os : List Nat} {i : Nat} (h : OwnInv n b os) (o : Nat) (ht : b.getTempSymbol = .ok (i, b')) :
    OwnInv n b' (os ++ [o]) ∧ Owned (b'.maxSymbol + 1) (os ++ [o]) o i ∧ b'.maxSymbol = b.maxSymbol := by
  unfold GrammarBuilder.getTempSymbol at ht
  simp only at ht
  split at ht
  · simp only [Except.ok.injEq, Prod.mk.injEq] at ht
    obtain ⟨rfl, rfl⟩ := ht
    refine ⟨⟨by simp [h.len], fun r hr => ?_, h.named⟩, ?_, rfl⟩
    · obtain ⟨h0, h1, h2⟩ := h.rules r hr
      exact ⟨h0, h1.mono, fun A hA => (h2 A hA).mono⟩
    · intro _
      simp only
      rw [show b.tempCount + b.maxSymbol + 1 - (b.maxSymbol + 1) = os.length by rw [h.len]; omega]
      simp
  · simp at ht

theorem OwnInv.push {n : Nat} {b : GrammarBuilder} {os : List Nat} (h : OwnInv n b os) {o A : Nat} {ss : List Sym} (ho : o < n)
    (h1 : Owned (b.maxSymbol + 1) os o A) (h2 : ∀ B, Sym.nt B ∈ ss → Owned (b.maxSymbol + 1) os o B) : OwnInv n (b.pushRule A ss o) os := by
  refine ⟨h.len, fun r hr => ?_, h.named⟩
  rcases List.mem_append.mp hr with hr | hr
  · exact h.rules r hr
  · rw [List.mem_singleton.mp hr]
    exact ⟨ho, h1, h2⟩

/-- what a step leaves behind -/
def OwnStep (n : Nat) (b b' : GrammarBuilder) (os : List Nat) (o : Nat) (ss : List Sym) : Prop :=
  ∃ k, OwnInv n b' (os ++ List.replicate k o) ∧ b'.maxSymbol = b.maxSymbol ∧ ∀ A, Sym.nt A ∈ ss → Owned (b.maxSymbol + 1) (os ++ List.replicate k o) o A

theorem replicate_one (o k : Nat) (os : List Nat) : os ++ [o] ++ List.replicate k o = os ++ List.replicate (k + 1) o := by
  rw [List.append_assoc, List.replicate_succ]; rfl

mutual
theorem transformPattern_own (n o : Nat) (ho : o < n) : ∀ (p : ProdPattern) (b b' : GrammarBuilder) (ss : List Sym) (os : List Nat),
    OwnInv n b os → transformPattern o p b = .ok (ss, b') → OwnStep n b b' os o ss
  | .sequence ps, b, b', ss, os, hi, h => by
    rw [transformPattern] at h
    exact transformSeq_own n o ho ps b b' ss os hi h
  | .alternative ps, b, b', ss, os, hi, h => by
    rw [transformPattern] at h
    obtain ⟨⟨A, b1⟩, h1, h⟩ := gres_bind_ok.mp h
    obtain ⟨b2, h2, h⟩ := gres_bind_ok.mp h
    simp only [Except.ok.injEq, Prod.mk.injEq] at h
    obtain ⟨rfl, rfl⟩ := h
    obtain ⟨i1, a1, m1⟩ := hi.temp o h1
    obtain ⟨k, i2, m2⟩ := transformAlts_own n o ho A ps b1 b2 _ i1 a1 h2
    refine ⟨k + 1, by rw [← replicate_one]; exact i2, by rw [m2, m1], fun B hB => ?_⟩
    simp only [List.mem_singleton, Sym.nt.injEq] at hB
    subst hB
    rw [← replicate_one, ← m1]
    exact a1.mono
  | .oneOrMany q, b, b', ss, os, hi, h => by
    rw [transformPattern] at h
    obtain ⟨⟨A, b1⟩, h1, h⟩ := gres_bind_ok.mp h
    obtain ⟨⟨inner, b2⟩, h2, h⟩ := gres_bind_ok.mp h
    simp only [Except.ok.injEq, Prod.mk.injEq] at h
    obtain ⟨rfl, rfl⟩ := h
    obtain ⟨i1, a1, m1⟩ := hi.temp o h1
    obtain ⟨k, i2, m2, s2⟩ := transformPattern_own n o ho q b1 b2 inner _ i1 h2
    have hA : Owned (b.maxSymbol + 1) (os ++ [o] ++ List.replicate k o) o A := by rw [← m1]; exact a1.mono
    rw [m1] at m2 s2
    have i3 := (i2.push (ss := inner) ho (by rw [m2]; exact hA) (by rw [m2]; exact s2)).push (ss := inner ++ [.nt A]) ho (by show Owned (b2.maxSymbol + 1) _ _ _; rw [m2]; exact hA)
      (by
        intro B hB
        show Owned (b2.maxSymbol + 1) _ _ _
        rw [m2]
        rcases List.mem_append.mp hB with hB | hB
        · exact s2 B hB
        · simp only [List.mem_singleton, Sym.nt.injEq] at hB; subst hB; exact hA)
    rw [replicate_one] at i3 hA
    refine ⟨k + 1, i3, m2, fun B hB => ?_⟩
    simp only [List.mem_singleton, Sym.nt.injEq] at hB
    subst hB
    exact hA
  | .zeroOrMany q, b, b', ss, os, hi, h => by
    rw [transformPattern] at h
    obtain ⟨⟨A, b1⟩, h1, h⟩ := gres_bind_ok.mp h
    obtain ⟨⟨inner, b2⟩, h2, h⟩ := gres_bind_ok.mp h
    simp only [Except.ok.injEq, Prod.mk.injEq] at h
    obtain ⟨rfl, rfl⟩ := h
    obtain ⟨i1, a1, m1⟩ := hi.temp o h1
    obtain ⟨k, i2, m2, s2⟩ := transformPattern_own n o ho q b1 b2 inner _ i1 h2
    have hA : Owned (b.maxSymbol + 1) (os ++ [o] ++ List.replicate k o) o A := by rw [← m1]; exact a1.mono
    rw [m1] at m2 s2
    have i3 := (i2.push (ss := [.eps]) ho (by rw [m2]; exact hA) (by intro B hB; simp at hB)).push (ss := inner ++ [.nt A]) ho (by show Owned (b2.maxSymbol + 1) _ _ _; rw [m2]; exact hA)
      (by
        intro B hB
        show Owned (b2.maxSymbol + 1) _ _ _
        rw [m2]
        rcases List.mem_append.mp hB with hB | hB
        · exact s2 B hB
        · simp only [List.mem_singleton, Sym.nt.injEq] at hB; subst hB; exact hA)
    rw [replicate_one] at i3 hA
    refine ⟨k + 1, i3, m2, fun B hB => ?_⟩
    simp only [List.mem_singleton, Sym.nt.injEq] at hB
    subst hB
    exact hA
  | .optional q, b, b', ss, os, hi, h => by
    rw [transformPattern] at h
    obtain ⟨⟨A, b1⟩, h1, h⟩ := gres_bind_ok.mp h
    obtain ⟨⟨inner, b2⟩, h2, h⟩ := gres_bind_ok.mp h
    simp only [Except.ok.injEq, Prod.mk.injEq] at h
    obtain ⟨rfl, rfl⟩ := h
    obtain ⟨i1, a1, m1⟩ := hi.temp o h1
    obtain ⟨k, i2, m2, s2⟩ := transformPattern_own n o ho q b1 b2 inner _ i1 h2
    have hA : Owned (b.maxSymbol + 1) (os ++ [o] ++ List.replicate k o) o A := by rw [← m1]; exact a1.mono
    rw [m1] at m2 s2
    have i3 := (i2.push (ss := inner) ho (by rw [m2]; exact hA) (by rw [m2]; exact s2)).push (ss := [.eps]) ho (by show Owned (b2.maxSymbol + 1) _ _ _; rw [m2]; exact hA)
      (by intro B hB; simp at hB)
    rw [replicate_one] at i3 hA
    refine ⟨k + 1, i3, m2, fun B hB => ?_⟩
    simp only [List.mem_singleton, Sym.nt.injEq] at hB
    subst hB
    exact hA
  | .rule name, b, b', ss, os, hi, h => by
    rw [transformPattern] at h
    obtain ⟨s, h1, h⟩ := gres_bind_ok.mp h
    simp only [Except.ok.injEq, Prod.mk.injEq] at h
    obtain ⟨rfl, rfl⟩ := h
    refine ⟨0, by simpa using hi, rfl, fun A hA => ?_⟩
    simp only [List.mem_singleton] at hA
    subst hA
    intro hle
    have := hi.named name (.nt A) (by
      unfold GrammarBuilder.getSymbolByName at h1
      unfold symOf
      cases hl : symLookup name b.symbols with
      | none => rw [hl] at h1; simp at h1
      | some v => rw [hl] at h1; simp at h1; simp [h1])
    simp only [Sym.index] at this
    omega
  | .epsilon, b, b', ss, os, hi, h => by
    rw [transformPattern] at h
    simp only [Except.ok.injEq, Prod.mk.injEq] at h
    obtain ⟨rfl, rfl⟩ := h
    exact ⟨0, by simpa using hi, rfl, fun A hA => by simp at hA⟩
theorem transformSeq_own (n o : Nat) (ho : o < n) : ∀ (ps : List ProdPattern) (b b' : GrammarBuilder) (ss : List Sym) (os : List Nat),
    OwnInv n b os → transformSeq o ps b = .ok (ss, b') → OwnStep n b b' os o ss
  | [], b, b', ss, os, hi, h => by
    rw [transformSeq] at h
    simp only [Except.ok.injEq, Prod.mk.injEq] at h
    obtain ⟨rfl, rfl⟩ := h
    exact ⟨0, by simpa using hi, rfl, fun A hA => by simp at hA⟩
  | p :: ps, b, b', ss, os, hi, h => by
    rw [transformSeq] at h
    obtain ⟨⟨u, b1⟩, h1, h⟩ := gres_bind_ok.mp h
    obtain ⟨⟨v, b2⟩, h2, h⟩ := gres_bind_ok.mp h
    simp only [Except.ok.injEq, Prod.mk.injEq] at h
    obtain ⟨rfl, rfl⟩ := h
    obtain ⟨k1, i1, m1, s1⟩ := transformPattern_own n o ho p b b1 u os hi h1
    obtain ⟨k2, i2, m2, s2⟩ := transformSeq_own n o ho ps b1 b2 v _ i1 h2
    rw [m1] at m2 s2
    refine ⟨k1 + k2, ?_, m2, fun A hA => ?_⟩
    · rw [← List.replicate_append_replicate, ← List.append_assoc]; exact i2
    · rw [← List.replicate_append_replicate, ← List.append_assoc]
      rcases List.mem_append.mp hA with hA | hA
      · exact (s1 A hA).mono
      · exact s2 A hA
theorem transformAlts_own (n o : Nat) (ho : o < n) (alt : Nat) : ∀ (ps : List ProdPattern) (b b' : GrammarBuilder) (os : List Nat),
    OwnInv n b os → Owned (b.maxSymbol + 1) os o alt → transformAlts o alt ps b = .ok b' → ∃ k, OwnInv n b' (os ++ List.replicate k o) ∧ b'.maxSymbol = b.maxSymbol
  | [], b, b', os, hi, ha, h => by
    rw [transformAlts] at h
    simp only [Except.ok.injEq] at h
    subst h
    exact ⟨0, by simpa using hi, rfl⟩
  | p :: ps, b, b', os, hi, ha, h => by
    rw [transformAlts] at h
    obtain ⟨⟨u, b1⟩, h1, h⟩ := gres_bind_ok.mp h
    obtain ⟨k1, i1, m1, s1⟩ := transformPattern_own n o ho p b b1 u os hi h1
    have i2 := i1.push (ss := u) (A := alt) ho (by rw [m1]; exact ha.mono) (by rw [m1]; exact s1)
    obtain ⟨k2, i3, m3⟩ := transformAlts_own n o ho alt ps _ b' _ i2 (by show Owned (b1.maxSymbol + 1) _ _ _; rw [m1]; exact ha.mono) h
    refine ⟨k1 + k2, ?_, by rw [m3]; exact m1⟩
    rw [← List.replicate_append_replicate, ← List.append_assoc]
    exact i3
end

theorem addProductionRules_own {n : Nat} : ∀ (rs : List ProdRule) (i : Nat) (b b' : GrammarBuilder) (os : List Nat), i + rs.length ≤ n →
    OwnInv n b os → GrammarBuilder.addProductionRules i rs b = .ok b' → ∃ ext, OwnInv n b' (os ++ ext) ∧ b'.maxSymbol = b.maxSymbol := by
  intro rs
  induction rs with
  | nil =>
    intro i b b' os _ hi h
    rw [GrammarBuilder.addProductionRules] at h
    simp only [Except.ok.injEq] at h
    subst h
    exact ⟨[], by simpa using hi, rfl⟩
  | cons r rs ih =>
    intro i b b' os hn hi h
    rw [GrammarBuilder.addProductionRules] at h
    obtain ⟨b1, h1, h⟩ := gres_bind_ok.mp h
    unfold GrammarBuilder.addProductionRule at h1
    obtain ⟨s, hs, h1⟩ := gres_bind_ok.mp h1
    obtain ⟨⟨u, b2⟩, h2, h1⟩ := gres_bind_ok.mp h1
    simp only [List.length_cons] at hn
    obtain ⟨k, i2, m2, s2⟩ := transformPattern_own n i (by omega) r.pattern b b2 u os hi h2
    cases s with
    | nt A =>
      simp only [Except.ok.injEq] at h1
      subst h1
      have i3 := i2.push (o := i) (A := A) (ss := u) (by omega) (by
          intro hle
          have := hi.named r.name (.nt A) (by
            unfold GrammarBuilder.getSymbolByName at hs
            unfold symOf
            cases hl : symLookup r.name b.symbols with
            | none => rw [hl] at hs; simp at hs
            | some v => rw [hl] at hs; simp at hs; simp [hs])
          simp only [Sym.index] at this
          omega) (by rw [m2]; exact s2)
      obtain ⟨ext, i4, m4⟩ := ih (i + 1) _ b' _ (by omega) i3 h
      exact ⟨List.replicate k i ++ ext, by rw [← List.append_assoc]; exact i4, by rw [m4]; exact m2⟩
    | _ => simp at h1

/-- every rule has a production as its origin, and a helper is only used in rules of the same origin -/
theorem fromRuleSet_own {rs : RuleSet} {g : Grammar} (hg : Grammar.fromRuleSet rs = .ok g) : ∃ (base : Nat) (os : List Nat),
    (∀ A, Sym.nt A ∈ g.anon → base ≤ A) ∧ ∀ r ∈ g.rules, r.origin < rs.prods.length ∧ Owned base os r.origin r.lhs ∧ ∀ A, Sym.nt A ∈ r.rhs → Owned base os r.origin A := by
  have hg' := hg
  unfold Grammar.fromRuleSet at hg
  obtain ⟨b, h0, h⟩ := gres_bind_ok.mp hg
  have hb := fromRuleSet_ok h0
  unfold GrammarBuilder.build at h
  obtain ⟨b', h1, h⟩ := gres_bind_ok.mp h
  obtain ⟨s, h2, h⟩ := gres_bind_ok.mp h
  obtain ⟨ext, i1, m1⟩ := addProductionRules_own (n := rs.prods.length) rs.prods 0 b b' [] (by omega) ⟨by simp [hb.temp], by rw [hb.rules]; simp, hb.max⟩ h1
  obtain ⟨ext', st, _⟩ := addProductionRules_spec rs.prods rs.prods 0 b b' [] (by simp [hb.temp]) (by simp) h1
  split at h
  · cases h
  · simp only [Except.ok.injEq] at h
    subst h
    refine ⟨b.maxSymbol + 1, ext, fun A hA => ?_, fun r hr => ?_⟩
    · have hA : Sym.nt A ∈ b'.anon := hA
      rw [st.anon, hb.anon] at hA
      simp only [List.nil_append, List.mem_map, Sym.nt.injEq, exists_eq_right, List.mem_range'_1] at hA
      omega
    · have := i1.rules r hr
      rw [m1] at this
      simpa using this

end Verif
