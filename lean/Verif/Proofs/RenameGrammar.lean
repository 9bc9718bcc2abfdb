import Verif.Proofs.RenameBuild

/-!
# Rule sets with the same rules give grammars with the same rules
-/

set_option autoImplicit false

namespace Verif

section
variable {ρ : String → String} {rs rs' : RuleSet}

theorem SameRules.defined (h : SameRules ρ rs rs') {n : String} (hn : Defined rs n) : Defined rs' (ρ n) := by
  rcases hn with hn | ⟨p, hp, rfl⟩
  · exact .inl (h.tokens.mem_iff.mp (List.mem_map_of_mem hn))
  · have := h.prods.mem_iff.mp (List.mem_map_of_mem (f := fun p : ProdRule => (ρ p.name, p.pattern.rename ρ)) hp)
    obtain ⟨p', hp', e⟩ := List.mem_map.mp this
    simp only [Prod.mk.injEq] at e
    exact .inr ⟨p', hp', e.1⟩

theorem SameRules.lengths (h : SameRules ρ rs rs') : rs'.tokens.length = rs.tokens.length ∧ rs'.prods.length = rs.prods.length := by
  have h1 := h.tokens.length_eq
  have h2 := h.prods.length_eq
  simp only [List.length_map] at h1 h2
  omega

theorem SameRules.resolve_t (h : SameRules ρ rs rs') (hn : NoClash rs) (hn' : NoClash rs') (hT : rs.tokens.length ≤ 65536) {n : String} {a : Nat}
    (hr : resolve rs n = some (.t a)) : ∃ a', resolve rs' (ρ n) = some (.t a') ∧ rs.tokens[a]? = some n ∧ rs'.tokens[a']? = some (ρ n) := by
  have h1 := resolve_token hT hr
  have h2 : ρ n ∈ rs'.tokens := h.tokens.mem_iff.mp (List.mem_map_of_mem (List.mem_of_getElem? h1))
  obtain ⟨a', ha'⟩ := List.mem_iff_getElem?.mp h2
  exact ⟨a', resolve_token' hn'.1 (by rw [h.lengths.1]; exact hT) ha', h1, ha'⟩

theorem SameRules.resolve_nt (h : SameRules ρ rs rs') (hn : NoClash rs) (hT : rs.tokens.length ≤ 65536) {n : String} {A : Nat}
    (hr : resolve rs n = some (.nt A)) : ∃ A', resolve rs' (ρ n) = some (.nt A') := by
  have hd : Defined rs n := resolve_defined.mp (by rw [hr]; simp)
  have hd' := resolve_defined.mpr (h.defined hd)
  obtain ⟨s, hs⟩ := Option.ne_none_iff_exists'.mp hd'
  rcases resolve_kind hs with ⟨a, rfl⟩ | ⟨A', rfl⟩
  · exfalso
    have h1 := List.mem_of_getElem? (resolve_token (by rw [h.lengths.1]; exact hT) hs)
    obtain ⟨m, hm, e⟩ := List.mem_map.mp (h.tokens.mem_iff.mpr h1)
    have := h.inj m n (.inl (.inl hm)) (.inl hd) e
    subst this
    obtain ⟨b, hb⟩ := List.mem_iff_getElem?.mp hm
    rw [resolve_token' hn.1 hT hb] at hr
    simp at hr
  · exact ⟨A', hs⟩

end

theorem sameGrammar {ρ : String → String} {rs rs' : RuleSet} {g g' : Grammar} (h : SameRules ρ rs rs') (hg : Grammar.fromRuleSet rs = .ok g)
    (hg' : Grammar.fromRuleSet rs' = .ok g') (hT : rs.tokens.length ≤ 65536) (hP : rs.prods.length ≤ 65536) :
    ∃ φ τ, SameGrammar φ τ g g' ∧ ∀ (a : Nat) (n : String), rs.tokens[a]? = some n → rs'.tokens[τ a]? = some (ρ n) := by
  obtain ⟨base, hb, hnc, hen, hru, hok⟩ := fromRuleSet_k hg
  obtain ⟨base', hb', hnc', hen', hru', -⟩ := fromRuleSet_k hg'
  have hT' : rs'.tokens.length ≤ 65536 := by rw [h.lengths.1]; exact hT
  have hP' : rs'.prods.length ≤ 65536 := by rw [h.lengths.2]; exact hP
  have hperm : ((rs.prods.map ProdRule.key).map (renameKey ρ)).Perm (rs'.prods.map ProdRule.key) := by
    have := h.prods
    rw [List.map_map]; exact this
  generalize hPd : rs.prods.map ProdRule.key = P at *
  generalize hPd' : rs'.prods.map ProdRule.key = P' at *
  have hok' : ∀ p ∈ P, KBlockOk (resolve rs) p := by
    intro p hp
    rw [← hPd] at hp
    obtain ⟨r, hr, rfl⟩ := List.mem_map.mp hp
    exact hok r hr
  obtain ⟨σ, hσ⟩ := perm_positions hperm
  obtain ⟨σ1, σ2, σ3⟩ := positions_spec hσ
  have hren : ∀ (i : Nat) (p : String × ProdPattern), P[i]? = some p → P'[σ i]? = some (renameKey ρ p) := by
    intro i p hp
    exact σ1 i _ (by rw [List.getElem?_map, hp]; rfl)
  have hlt : ∀ (i : Nat) (p : String × ProdPattern), P[i]? = some p → i < P.length := fun i p hp => (List.getElem?_eq_some_iff.mp hp).1
  -- tokens
  obtain ⟨τ, τinj, hτ⟩ := extend_relation (fun a a' => ∃ n, rs.tokens[a]? = some n ∧ rs'.tokens[a']? = some (ρ n)) rs'.tokens.length
    (by
      rintro a b c ⟨n, h1, h2⟩ ⟨m, h3, h4⟩
      rw [h1] at h3
      cases h3
      obtain ⟨hb1, e1⟩ := List.getElem?_eq_some_iff.mp h2
      obtain ⟨hc1, e2⟩ := List.getElem?_eq_some_iff.mp h4
      exact (List.Nodup.getElem_inj_iff hnc'.1).mp (e1.trans e2.symm))
    (by
      rintro a b c ⟨n, h1, h2⟩ ⟨m, h3, h4⟩
      rw [h2] at h4
      have e := h.inj n m (.inl (.inl (List.mem_of_getElem? h1))) (.inl (.inl (List.mem_of_getElem? h3))) (Option.some.inj h4)
      subst e
      obtain ⟨hb1, e1⟩ := List.getElem?_eq_some_iff.mp h1
      obtain ⟨hc1, e2⟩ := List.getElem?_eq_some_iff.mp h3
      exact (List.Nodup.getElem_inj_iff hnc.1).mp (e1.trans e2.symm))
    (by rintro a b ⟨n, h1, h2⟩; exact (List.getElem?_eq_some_iff.mp h2).1)
  -- non-terminals
  obtain ⟨φ, φinj, hφ⟩ := extend_relation (fun A A' => (∃ n, resolve rs n = some (.nt A) ∧ resolve rs' (ρ n) = some (.nt A')) ∨
      ∃ i j p, P[i]? = some p ∧ j < p.2.operators ∧ A = base + before P i + j ∧ A' = base' + before P' (σ i) + j) (base' + before P' P'.length)
    (by
      rintro a b c (⟨n, h1, h2⟩ | ⟨i, j, p, h1, h2, h3, h4⟩) (⟨m, k1, k2⟩ | ⟨i', j', p', k1, k2, k3, k4⟩)
      · have := resolve_inj hP h1 k1
        subst this
        rw [h2] at k2
        simpa using k2
      · have := hb n _ h1
        simp only [Sym.index] at this
        omega
      · have := hb m _ k1
        simp only [Sym.index] at this
        omega
      · obtain ⟨e1, e2⟩ := before_unique h1 k1 h2 k2 (by omega)
        subst e1 e2
        omega)
    (by
      rintro a b c (⟨n, h1, h2⟩ | ⟨i, j, p, h1, h2, h3, h4⟩) (⟨m, k1, k2⟩ | ⟨i', j', p', k1, k2, k3, k4⟩)
      · have e := resolve_inj hP' h2 k2
        have := h.inj n m (.inl (resolve_defined.mp (by rw [h1]; simp))) (.inl (resolve_defined.mp (by rw [k1]; simp))) e
        subst this
        rw [h1] at k1
        simpa using k1
      · have := hb' _ _ h2
        simp only [Sym.index] at this
        omega
      · have := hb' _ _ k2
        simp only [Sym.index] at this
        omega
      · obtain ⟨e1, e2⟩ := before_unique (hren i p h1) (hren i' p' k1) (by show j < (p.2.rename ρ).operators; rw [rename_operators]; exact h2)
          (by show j' < (p'.2.rename ρ).operators; rw [rename_operators]; exact k2) (by omega)
        have e1 := σ3 i i' (by simpa using hlt i p h1) (by simpa using hlt i' p' k1) e1
        subst e1 e2
        omega)
    (by
      rintro a b (⟨n, h1, h2⟩ | ⟨i, j, p, h1, h2, h3, h4⟩)
      · have := hb' _ _ h2
        simp only [Sym.index] at this
        omega
      · have h5 := hren i p h1
        have h6 := before_succ h5
        have h7 : (renameKey ρ p).2.operators = p.2.operators := rename_operators ρ p.2
        have h8 := before_mono P' (show σ i + 1 ≤ P'.length from (List.getElem?_eq_some_iff.mp h5).1)
        omega)
  have henc : ∀ (i : Nat) (p : String × ProdPattern), P[i]? = some p → ∀ s : KSym, s.Ok (resolve rs) 0 p.2.operators →
      (s.enc (resolve rs) (base + before P i)).rename φ τ = (s.rename ρ).enc (resolve rs') (base' + before P' (σ i)) := by
    intro i p hp s hs
    cases s with
    | eps => rfl
    | anon j =>
      show Sym.nt (φ (base + before P i + j)) = Sym.nt (base' + before P' (σ i) + j)
      rw [hφ _ _ (.inr ⟨i, j, p, hp, hs.2, rfl, rfl⟩)]
    | name n =>
      obtain ⟨s, hs⟩ := hs
      show ((resolve rs n).getD .eps).rename φ τ = (resolve rs' (ρ n)).getD .eps
      rcases resolve_kind hs with ⟨a, rfl⟩ | ⟨A, rfl⟩
      · obtain ⟨a', e1, e2, e3⟩ := h.resolve_t hnc hnc' hT hs
        rw [hs, e1]
        show Sym.t (τ a) = Sym.t a'
        rw [hτ a a' ⟨n, e2, e3⟩]
      · obtain ⟨A', e1⟩ := h.resolve_nt hnc hT hs
        rw [hs, e1]
        show Sym.nt (φ A) = Sym.nt A'
        rw [hφ A A' (.inl ⟨n, hs, e1⟩)]
  refine ⟨φ, τ, ⟨φinj, τinj, ?_, ?_⟩, ?_⟩
  · have e1 : g.rules.map (fun r => (φ r.lhs, r.rhs.map (Sym.rename φ τ))) = (g.rules.map Rule.core).map (fun r => (φ r.1, r.2.map (Sym.rename φ τ))) := by
      rw [List.map_map]; rfl
    have e2 : g'.rules.map (fun r => (r.lhs, r.rhs)) = g'.rules.map Rule.core := rfl
    rw [e1, e2, hru, hru', List.map_flatMap]
    refine List.Perm.trans ?_ (hσ.flatMap_right _)
    rw [List.flatMap_map, List.zipIdx_map, List.flatMap_map]
    refine List.Perm.of_eq (List.flatMap_congr fun x hx => ?_)
    obtain ⟨p, i⟩ := x
    have hp : P[i]? = some p := List.mem_zipIdx_iff_getElem?.mp hx
    obtain ⟨⟨A, hA⟩, ks, kr⟩ := hok' p (List.mem_of_getElem? hp)
    show _ = (kblock (renameKey ρ p)).map (KRule.enc (resolve rs') (base' + before P' (σ i)))
    rw [kblock_rename, List.map_map, List.map_map]
    refine List.map_congr_left fun r hr => ?_
    have hlr : (∃ A, (r.lhs.enc (resolve rs) (base + before P i)) = .nt A) ∧ (r.lhs.Ok (resolve rs) 0 p.2.operators) ∧ ∀ s ∈ r.rhs, KSym.Ok (resolve rs) 0 p.2.operators s := by
      rcases List.mem_append.mp hr with hr | hr
      · obtain ⟨⟨j, e, j1, j2⟩, hrr⟩ := kr r hr
        rw [e]
        exact ⟨⟨_, rfl⟩, ⟨j1, j2⟩, hrr⟩
      · simp only [List.mem_cons, List.not_mem_nil, or_false] at hr
        subst hr
        exact ⟨⟨A, by simp [KSym.enc, hA]⟩, ⟨_, hA⟩, ks⟩
    obtain ⟨⟨B, hB⟩, hl, hrr⟩ := hlr
    have el := henc i p hp r.lhs hl
    rw [hB] at el
    simp only [Function.comp, KRule.enc, KRule.rename, Prod.mk.injEq, List.map_map]
    refine ⟨?_, ?_⟩
    · rw [← el, hB]; rfl
    · exact List.map_congr_left fun s hs => henc i p hp s (hrr s hs)
  · rcases resolve_kind hen with ⟨a, ha⟩ | ⟨A, hA⟩
    · rw [ha] at hen ⊢
      obtain ⟨a', e1, e2, e3⟩ := h.resolve_t hnc hnc' hT hen
      rw [← h.entry, hen'] at e1
      rw [Option.some.inj e1]
      show Sym.t a' = Sym.t (τ a)
      rw [hτ a a' ⟨_, e2, e3⟩]
    · rw [hA] at hen ⊢
      obtain ⟨A', e1⟩ := h.resolve_nt hnc hT hen
      have e2 := e1
      rw [← h.entry, hen'] at e1
      rw [Option.some.inj e1]
      show Sym.nt A' = Sym.nt (φ A)
      rw [hφ A A' (.inl ⟨_, hen, e2⟩)]
  · intro a n ha
    obtain ⟨a', ha'⟩ := List.mem_iff_getElem?.mp (h.tokens.mem_iff.mp (List.mem_map_of_mem (f := ρ) (List.mem_of_getElem? ha)))
    rw [hτ a a' ⟨n, ha, ha'⟩]
    exact ha'

end Verif
