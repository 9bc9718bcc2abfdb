import Verif.Proofs.RenameItems
import Verif.Proofs.RenameGrammar
import Verif.Proofs.EbnfCond

/-!
# Conditions on rule sets do not depend on order and names; tokens of texts and parse trees correspond
-/

set_option autoImplicit false

namespace Verif

section
variable {ρ : String → String}

theorem renameList_map (ps : List ProdPattern) : ProdPattern.renameList ρ ps = ps.map (ProdPattern.rename ρ) := by
  induction ps with
  | nil => rfl
  | cons p ps ih => rw [ProdPattern.renameList, ih]; rfl

theorem mentions_rename {p' : ProdPattern} {m : String} (h : Mentions p' m) : ∀ p, p' = p.rename ρ → ∃ n, Mentions p n ∧ m = ρ n := by
  induction h with
  | rule n => intro p e; cases p <;> simp only [ProdPattern.rename, reduceCtorEq, ProdPattern.rule.injEq] at e; exact ⟨_, .rule _, e⟩
  | sequence hm _ ih =>
    intro p e
    cases p <;> simp only [ProdPattern.rename, reduceCtorEq, ProdPattern.sequence.injEq] at e
    rw [e, renameList_map] at hm
    obtain ⟨q, hq, rfl⟩ := List.mem_map.mp hm
    obtain ⟨n, h1, h2⟩ := ih q rfl
    exact ⟨n, .sequence hq h1, h2⟩
  | alternative hm _ ih =>
    intro p e
    cases p <;> simp only [ProdPattern.rename, reduceCtorEq, ProdPattern.alternative.injEq] at e
    rw [e, renameList_map] at hm
    obtain ⟨q, hq, rfl⟩ := List.mem_map.mp hm
    obtain ⟨n, h1, h2⟩ := ih q rfl
    exact ⟨n, .alternative hq h1, h2⟩
  | oneOrMany _ ih =>
    intro p e
    cases p <;> simp only [ProdPattern.rename, reduceCtorEq, ProdPattern.oneOrMany.injEq] at e
    obtain ⟨n, h1, h2⟩ := ih _ e
    exact ⟨n, .oneOrMany h1, h2⟩
  | zeroOrMany _ ih =>
    intro p e
    cases p <;> simp only [ProdPattern.rename, reduceCtorEq, ProdPattern.zeroOrMany.injEq] at e
    obtain ⟨n, h1, h2⟩ := ih _ e
    exact ⟨n, .zeroOrMany h1, h2⟩
  | optional _ ih =>
    intro p e
    cases p <;> simp only [ProdPattern.rename, reduceCtorEq, ProdPattern.optional.injEq] at e
    obtain ⟨n, h1, h2⟩ := ih _ e
    exact ⟨n, .optional h1, h2⟩

theorem mentions_rename_fwd {p : ProdPattern} {n : String} (h : Mentions p n) : Mentions (p.rename ρ) (ρ n) := by
  induction h with
  | rule n => exact .rule _
  | sequence hm _ ih => rw [ProdPattern.rename, renameList_map]; exact .sequence (List.mem_map_of_mem hm) ih
  | alternative hm _ ih => rw [ProdPattern.rename, renameList_map]; exact .alternative (List.mem_map_of_mem hm) ih
  | oneOrMany _ ih => exact .oneOrMany ih
  | zeroOrMany _ ih => exact .zeroOrMany ih
  | optional _ ih => exact .optional ih

theorem beginsWith_rename {p' : ProdPattern} {m : String} (h : BeginsWith p' m) : ∀ p, p' = p.rename ρ → ∃ n, BeginsWith p n ∧ m = ρ n := by
  induction h with
  | rule n => intro p e; cases p <;> simp only [ProdPattern.rename, reduceCtorEq, ProdPattern.rule.injEq] at e; exact ⟨_, .rule _, e⟩
  | sequence _ ih =>
    intro p e
    cases p <;> simp only [ProdPattern.rename, reduceCtorEq, ProdPattern.sequence.injEq] at e
    rw [renameList_map] at e
    obtain ⟨q, qs, rfl, e1, e2⟩ := List.map_eq_cons_iff.mp e.symm
    obtain ⟨n, h1, h2⟩ := ih q e1.symm
    exact ⟨n, .sequence h1, h2⟩
  | alternative hm _ ih =>
    intro p e
    cases p <;> simp only [ProdPattern.rename, reduceCtorEq, ProdPattern.alternative.injEq] at e
    rw [e, renameList_map] at hm
    obtain ⟨q, hq, rfl⟩ := List.mem_map.mp hm
    obtain ⟨n, h1, h2⟩ := ih q rfl
    exact ⟨n, .alternative hq h1, h2⟩
  | oneOrMany _ ih =>
    intro p e
    cases p <;> simp only [ProdPattern.rename, reduceCtorEq, ProdPattern.oneOrMany.injEq] at e
    obtain ⟨n, h1, h2⟩ := ih _ e
    exact ⟨n, .oneOrMany h1, h2⟩
  | zeroOrMany _ ih =>
    intro p e
    cases p <;> simp only [ProdPattern.rename, reduceCtorEq, ProdPattern.zeroOrMany.injEq] at e
    obtain ⟨n, h1, h2⟩ := ih _ e
    exact ⟨n, .zeroOrMany h1, h2⟩
  | optional _ ih =>
    intro p e
    cases p <;> simp only [ProdPattern.rename, reduceCtorEq, ProdPattern.optional.injEq] at e
    obtain ⟨n, h1, h2⟩ := ih _ e
    exact ⟨n, .optional h1, h2⟩

theorem occurs_rename {q' p' : ProdPattern} (h : Occurs q' p') : ∀ p, p' = p.rename ρ → ∃ q, Occurs q p ∧ q' = q.rename ρ := by
  induction h with
  | here => intro p e; exact ⟨p, .here, e⟩
  | sequence hm _ ih =>
    intro p e
    cases p <;> simp only [ProdPattern.rename, reduceCtorEq, ProdPattern.sequence.injEq] at e
    rw [e, renameList_map] at hm
    obtain ⟨q, hq, rfl⟩ := List.mem_map.mp hm
    obtain ⟨n, h1, h2⟩ := ih q rfl
    exact ⟨n, .sequence hq h1, h2⟩
  | alternative hm _ ih =>
    intro p e
    cases p <;> simp only [ProdPattern.rename, reduceCtorEq, ProdPattern.alternative.injEq] at e
    rw [e, renameList_map] at hm
    obtain ⟨q, hq, rfl⟩ := List.mem_map.mp hm
    obtain ⟨n, h1, h2⟩ := ih q rfl
    exact ⟨n, .alternative hq h1, h2⟩
  | oneOrMany _ ih =>
    intro p e
    cases p <;> simp only [ProdPattern.rename, reduceCtorEq, ProdPattern.oneOrMany.injEq] at e
    obtain ⟨n, h1, h2⟩ := ih _ e
    exact ⟨n, .oneOrMany h1, h2⟩
  | zeroOrMany _ ih =>
    intro p e
    cases p <;> simp only [ProdPattern.rename, reduceCtorEq, ProdPattern.zeroOrMany.injEq] at e
    obtain ⟨n, h1, h2⟩ := ih _ e
    exact ⟨n, .zeroOrMany h1, h2⟩
  | optional _ ih =>
    intro p e
    cases p <;> simp only [ProdPattern.rename, reduceCtorEq, ProdPattern.optional.injEq] at e
    obtain ⟨n, h1, h2⟩ := ih _ e
    exact ⟨n, .optional h1, h2⟩

variable {rs rs' : RuleSet}

theorem SameRules.prod_bwd (h : SameRules ρ rs rs') {p' : ProdRule} (hp : p' ∈ rs'.prods) : ∃ p ∈ rs.prods, p'.name = ρ p.name ∧ p'.pattern = p.pattern.rename ρ := by
  have := h.prods.mem_iff.mpr (List.mem_map_of_mem (f := fun p : ProdRule => (p.name, p.pattern)) hp)
  obtain ⟨p, hp, e⟩ := List.mem_map.mp this
  simp only [Prod.mk.injEq] at e
  exact ⟨p, hp, e.1.symm, e.2.symm⟩

theorem SameRules.prod_fwd (h : SameRules ρ rs rs') {p : ProdRule} (hp : p ∈ rs.prods) : ∃ p' ∈ rs'.prods, p'.name = ρ p.name ∧ p'.pattern = p.pattern.rename ρ := by
  have := h.prods.mem_iff.mp (List.mem_map_of_mem (f := fun p : ProdRule => (ρ p.name, p.pattern.rename ρ)) hp)
  obtain ⟨p', hp', e⟩ := List.mem_map.mp this
  simp only [Prod.mk.injEq] at e
  exact ⟨p', hp', e.1, e.2⟩

theorem SameRules.operators (h : SameRules ρ rs rs') : rs'.operators = rs.operators := by
  have := (h.prods.map (fun x => x.2.operators)).sum_nat
  simp only [List.map_map, Function.comp_def, rename_operators] at this
  exact this.symm

theorem SameRules.fits (h : SameRules ρ rs rs') (hf : rs.Fits) : rs'.Fits := by
  unfold RuleSet.Fits at *
  rw [h.operators, h.lengths.1, h.lengths.2]
  exact hf

theorem SameRules.noClash (h : SameRules ρ rs rs') : NoClash rs' ↔ NoClash rs := by
  constructor
  · rintro ⟨h1, h2⟩
    refine ⟨(h.tokens.nodup_iff.mpr h1).of_map, fun p hp hm => ?_⟩
    obtain ⟨p', hp', e, _⟩ := h.prod_fwd hp
    exact h2 p' hp' (by rw [e]; exact h.tokens.mem_iff.mp (List.mem_map_of_mem hm))
  · rintro ⟨h1, h2⟩
    refine ⟨h.tokens.nodup_iff.mp (h1.map_on fun a ha b hb e => h.inj a b (.inl (.inl ha)) (.inl (.inl hb)) e), fun p' hp' hm => ?_⟩
    obtain ⟨p, hp, e, _⟩ := h.prod_bwd hp'
    obtain ⟨m, hm, e2⟩ := List.mem_map.mp (h.tokens.mem_iff.mpr hm)
    have := h.inj m p.name (.inl (.inl hm)) (.inl (.inr ⟨p, hp, rfl⟩)) (e2.trans e)
    exact h2 p hp (this ▸ hm)

theorem SameRules.defined_bwd (h : SameRules ρ rs rs') {n : String} (ha : Appears rs n) (hn : Defined rs' (ρ n)) : Defined rs n := by
  rcases hn with hn | ⟨p', hp', e⟩
  · obtain ⟨m, hm, e⟩ := List.mem_map.mp (h.tokens.mem_iff.mpr hn)
    rw [← h.inj m n (.inl (.inl hm)) ha e]
    exact .inl hm
  · obtain ⟨p, hp, e2, _⟩ := h.prod_bwd hp'
    rw [← h.inj p.name n (.inl (.inr ⟨p, hp, rfl⟩)) ha (e2.symm.trans e)]
    exact .inr ⟨p, hp, rfl⟩

theorem SameRules.built (h : SameRules ρ rs rs') (hf : rs.Fits) : (∃ g', Grammar.fromRuleSet rs' = .ok g') ↔ ∃ g, Grammar.fromRuleSet rs = .ok g := by
  rw [C16_ok_iff rs' (h.fits hf), C16_ok_iff rs hf, h.noClash]
  refine and_congr_right fun _ => and_congr ?_ ?_
  · constructor
    · intro h1 p hp n hm
      obtain ⟨p', hp', _, e⟩ := h.prod_fwd hp
      exact h.defined_bwd (.inr (.inl ⟨p, hp, hm⟩)) (h1 p' hp' (ρ n) (by rw [e]; exact mentions_rename_fwd hm))
    · intro h1 p' hp' m hm
      obtain ⟨p, hp, _, e⟩ := h.prod_bwd hp'
      obtain ⟨n, hn, rfl⟩ := mentions_rename hm _ e
      exact h.defined (h1 p hp n hn)
  · constructor
    · rintro ⟨p', hp', e⟩
      obtain ⟨p, hp, e2, _⟩ := h.prod_bwd hp'
      rw [e, h.entry] at e2
      exact ⟨p, hp, (h.inj _ _ (.inr (.inr rfl)) (.inl (.inr ⟨p, hp, rfl⟩)) e2).symm⟩
    · rintro ⟨p, hp, e⟩
      obtain ⟨p', hp', e2, _⟩ := h.prod_fwd hp
      exact ⟨p', hp', by rw [e2, e, h.entry]⟩

theorem SameRules.corner (h : SameRules ρ rs rs') {a' b' : String} (hc : NameCorner rs' a' b') :
    ∃ a b, Appears rs a ∧ Appears rs b ∧ a' = ρ a ∧ b' = ρ b ∧ NameCorner rs a b := by
  have mention : ∀ {p : ProdPattern} {n : String}, BeginsWith p n → Mentions p n := by
    intro p n hb
    induction hb with
    | rule => exact .rule _
    | sequence _ ih => exact .sequence (by simp) ih
    | alternative hm _ ih => exact .alternative hm ih
    | oneOrMany _ ih => exact .oneOrMany ih
    | zeroOrMany _ ih => exact .zeroOrMany ih
    | optional _ ih => exact .optional ih
  induction hc with
  | one hp hb =>
    obtain ⟨p, hp, e1, e2⟩ := h.prod_bwd hp
    obtain ⟨n, hn, e3⟩ := beginsWith_rename hb _ e2
    exact ⟨p.name, n, .inl (.inr ⟨p, hp, rfl⟩), .inr (.inl ⟨p, hp, mention hn⟩), e1, e3, .one hp hn⟩
  | more _ hp hb ih =>
    obtain ⟨a, b, h1, h2, h3, h4, h5⟩ := ih
    obtain ⟨p, hp, e1, e2⟩ := h.prod_bwd hp
    obtain ⟨n, hn, e3⟩ := beginsWith_rename hb _ e2
    have : b = p.name := h.inj b p.name h2 (.inl (.inr ⟨p, hp, rfl⟩)) (h4.symm.trans e1)
    subst this
    exact ⟨a, n, h1, .inr (.inl ⟨p, hp, mention hn⟩), h3, e3, .more h5 hp hn⟩

/-- the conditions of C62 do not depend on order and names -/
theorem SameRules.fine (h : SameRules ρ rs rs') (hf : rs.Fine) : rs'.Fine where
  tokens := by rw [h.lengths.1]; exact hf.tokens
  prods := by rw [h.lengths.2]; exact hf.prods
  noEmptySequence := by
    intro p' hp' ho
    obtain ⟨p, hp, _, e⟩ := h.prod_bwd hp'
    obtain ⟨q, hq, e2⟩ := occurs_rename ho _ e
    cases q <;> simp only [ProdPattern.rename, reduceCtorEq, ProdPattern.sequence.injEq, renameList_map] at e2
    rw [List.map_eq_nil_iff.mp e2.symm] at hq
    exact hf.noEmptySequence p hp hq
  noEmptyAlternative := by
    intro p' hp' ho
    obtain ⟨p, hp, _, e⟩ := h.prod_bwd hp'
    obtain ⟨q, hq, e2⟩ := occurs_rename ho _ e
    cases q <;> simp only [ProdPattern.rename, reduceCtorEq, ProdPattern.alternative.injEq, renameList_map] at e2
    rw [List.map_eq_nil_iff.mp e2.symm] at hq
    exact hf.noEmptyAlternative p hp hq
  noEpsilonInSequence := by
    intro p' hp' ps ho hm
    obtain ⟨p, hp, _, e⟩ := h.prod_bwd hp'
    obtain ⟨q, hq, e2⟩ := occurs_rename ho _ e
    cases q <;> simp only [ProdPattern.rename, reduceCtorEq, ProdPattern.sequence.injEq, renameList_map] at e2
    rw [e2] at hm
    obtain ⟨x, hx, e3⟩ := List.mem_map.mp hm
    cases x <;> simp only [ProdPattern.rename, reduceCtorEq] at e3
    exact hf.noEpsilonInSequence p hp _ hq hx
  entry := by
    intro hc
    obtain ⟨a, b, h1, h2, h3, h4, h5⟩ := h.corner hc
    rw [h.entry] at h3 h4
    have e1 := h.inj _ _ (.inr (.inr rfl)) h1 h3
    have e2 := h.inj _ _ (.inr (.inr rfl)) h2 h4
    subst e1
    rw [← e2] at h5
    exact hf.entry h5

theorem SameRules.entryUnused (h : SameRules ρ rs rs') (hf : rs.EntryUnused) : rs'.EntryUnused := by
  intro p' hp' hm
  obtain ⟨p, hp, _, e⟩ := h.prod_bwd hp'
  obtain ⟨n, hn, e2⟩ := mentions_rename hm _ e
  rw [h.entry] at e2
  have := h.inj _ _ (.inr (.inr rfl)) (.inr (.inl ⟨p, hp, hn⟩)) e2
  rw [← this] at hn
  exact hf p hp hn

end

/-! ## files -/

section
variable {ρ : String → String} {entry entry' : String} {rules rules' : List TokenRule} {prods prods' : List ProdRule}

theorem SameFile.sameRules (h : SameFile ρ entry rules prods entry' rules' prods') : SameRules ρ (ruleSet entry rules prods) (ruleSet entry' rules' prods') where
  tokens := by
    have := h.tokens.map (·.1)
    simp only [List.map_map, Function.comp_def] at this
    simpa [ruleSet, List.map_map, Function.comp_def] using this
  prods := h.productions
  entry := h.entryName
  inj := h.inj

theorem SameFile.maps (h : SameFile ρ entry rules prods entry' rules' prods') {g g' : Grammar} (hg : Grammar.fromRuleSet (ruleSet entry rules prods) = .ok g)
    (hg' : Grammar.fromRuleSet (ruleSet entry' rules' prods') = .ok g') (hT : rules.length ≤ 65536) (hP : prods.length ≤ 65536) :
    ∃ φ τ, SameGrammar φ τ g g' ∧ SameTokens ρ τ rules rules' := by
  obtain ⟨φ, τ, h1, h2⟩ := sameGrammar h.sameRules hg hg' (by simpa [ruleSet] using hT) hP
  have hnd : (rules'.map (·.name)).Nodup := (C16_ok_only_if _ _ hg').1.1
  have fwd : ∀ (j : Nat) (r : TokenRule), rules[j]? = some r → ∃ r', rules'[τ j]? = some r' ∧ TokenRule.SameAs ρ r r' := by
    intro j r hr
    have h3 := h2 j r.name (by simp [ruleSet, hr])
    simp only [ruleSet, List.getElem?_map, Option.map_eq_some_iff] at h3
    obtain ⟨r', h4, h5⟩ := h3
    have := h.tokens.mem_iff.mp (List.mem_map_of_mem (f := fun r : TokenRule => (ρ r.name, r.precedence, r.pattern)) (List.mem_of_getElem? hr))
    obtain ⟨r2, h6, e⟩ := List.mem_map.mp this
    simp only [Prod.mk.injEq] at e
    have : r2 = r' := List.inj_on_of_nodup_map hnd h6 (List.mem_of_getElem? h4) (e.1.trans h5.symm)
    subst this
    exact ⟨r2, h4, e⟩
  refine ⟨φ, τ, h1, h1.ts, fwd, fun j' r' hr' => ?_⟩
  have := h.tokens.mem_iff.mpr (List.mem_map_of_mem (f := fun r : TokenRule => (r.name, r.precedence, r.pattern)) (List.mem_of_getElem? hr'))
  obtain ⟨r, hr, e⟩ := List.mem_map.mp this
  simp only [Prod.mk.injEq] at e
  obtain ⟨j, hj⟩ := List.mem_iff_getElem?.mp hr
  obtain ⟨r2, h3, h4⟩ := fwd j r hj
  refine ⟨j, r, hj, ?_, e.1.symm, e.2.1.symm, e.2.2.symm⟩
  have e0 : (rules'.map (·.name))[τ j]? = (rules'.map (·.name))[j']? := by
    rw [List.getElem?_map, List.getElem?_map, h3, hr']
    simp only [Option.map_some, Option.some.injEq]
    exact h4.1.trans e.1
  have hlt : τ j < (rules'.map (·.name)).length := by
    have := (List.getElem?_eq_some_iff.mp h3).1
    simpa using this
  exact (List.getElem?_inj hlt hnd).mp e0

end

/-! ## tokens of texts -/

section
variable {ρ : String → String} {τ : Nat → Nat} {rules rules' : List TokenRule}

theorem TokenRule.SameAs.matches {r r' : TokenRule} (h : TokenRule.SameAs ρ r r') : r'.Matches = r.Matches := by
  unfold TokenRule.Matches; rw [h.2.2]

theorem TokenRule.SameAs.prec {r r' : TokenRule} (h : TokenRule.SameAs ρ r r') : r'.prec = r.prec := by
  unfold TokenRule.prec; rw [h.2.1, h.2.2]

theorem SameTokens.someMatch (h : SameTokens ρ τ rules rules') {w : List Char} : SomeMatch rules' w ↔ SomeMatch rules w := by
  constructor
  · rintro ⟨r', hr', hm⟩
    obtain ⟨j', hj'⟩ := List.mem_iff_getElem?.mp hr'
    obtain ⟨j, r, h1, _, h2⟩ := h.bwd j' r' hj'
    exact ⟨r, List.mem_of_getElem? h1, h2.matches ▸ hm⟩
  · rintro ⟨r, hr, hm⟩
    obtain ⟨j, hj⟩ := List.mem_iff_getElem?.mp hr
    obtain ⟨r', h1, h2⟩ := h.fwd j r hj
    exact ⟨r', List.mem_of_getElem? h1, h2.matches ▸ hm⟩

theorem SameTokens.viable (h : SameTokens ρ τ rules rules') {w : List Char} : Viable rules' w ↔ Viable rules w := by
  unfold Viable
  exact exists_congr fun u => h.someMatch

theorem SameTokens.bestMatch (h : SameTokens ρ τ rules rules') {w : List Char} {j' : Nat} : BestMatch rules' w j' ↔ ∃ j, j' = τ j ∧ BestMatch rules w j := by
  constructor
  · rintro ⟨r', p, h1, h2, h3, h4⟩
    obtain ⟨j, r, k1, rfl, k2⟩ := h.bwd j' r' h1
    refine ⟨j, rfl, r, p, k1, k2.matches ▸ h2, by rw [← k2.prec]; exact h3, fun i s hs hm hne => ?_⟩
    obtain ⟨s', e1, e2⟩ := h.fwd i s hs
    obtain ⟨p', e3, e4⟩ := h4 (τ i) s' e1 (e2.matches ▸ hm) (fun e => hne (h.inj _ _ e))
    exact ⟨p', by rw [← e2.prec]; exact e3, e4⟩
  · rintro ⟨j, rfl, r, p, h1, h2, h3, h4⟩
    obtain ⟨r', k1, k2⟩ := h.fwd j r h1
    refine ⟨r', p, k1, k2.matches ▸ h2, by rw [k2.prec]; exact h3, fun i' s' hs hm hne => ?_⟩
    obtain ⟨i, s, e1, rfl, e2⟩ := h.bwd i' s' hs
    obtain ⟨p', e3, e4⟩ := h4 i s e1 (e2.matches ▸ hm) (fun e => hne (by rw [e]))
    exact ⟨p', by rw [e2.prec]; exact e3, e4⟩

theorem SameTokens.textTokens (h : SameTokens ρ τ rules rules') {text : List Char} {ts : List (Nat × List Char)} (ht : TextTokens rules text ts) : TextTokens rules' text (retoken τ ts) := by
  induction ht with
  | done he => exact .done he
  | token h1 h2 h3 h4 _ ih => exact .token h1 h2 (h.bestMatch.mpr ⟨_, rfl, h3⟩) (fun p suf e1 e2 e3 => h4 p suf e1 e2 (h.viable.mp e3)) ih

theorem SameTokens.textTokens_bwd (h : SameTokens ρ τ rules rules') {text : List Char} {ts' : List (Nat × List Char)} (ht : TextTokens rules' text ts') :
    ∃ ts, ts' = retoken τ ts ∧ TextTokens rules text ts := by
  induction ht with
  | done he => exact ⟨[], rfl, .done he⟩
  | token h1 h2 h3 h4 _ ih =>
    obtain ⟨ts, rfl, h5⟩ := ih
    obtain ⟨j, rfl, h6⟩ := h.bestMatch.mp h3
    exact ⟨(j, _) :: ts, rfl, .token h1 h2 h6 (fun p suf e1 e2 e3 => h4 p suf e1 e2 (h.viable.mpr e3)) h5⟩

theorem kept_retoken {skip skip' : Nat → Bool} {ts : List (Nat × List Char)} (hs : ∀ x ∈ ts, skip' (τ x.1) = skip x.1) : kept skip' (retoken τ ts) = retoken τ (kept skip ts) := by
  unfold kept retoken
  rw [List.filter_map]
  congr 1
  refine List.filter_congr fun x hx => ?_
  simp [hs x hx]

theorem textTokens_rule {text : List Char} {ts : List (Nat × List Char)} (ht : TextTokens rules text ts) : ∀ x ∈ ts, ∃ r, rules[x.1]? = some r := by
  induction ht with
  | done => simp
  | token _ _ h3 _ _ ih =>
    intro x hx
    rcases List.mem_cons.mp hx with rfl | hx
    · obtain ⟨r, _, h, _⟩ := h3
      exact ⟨r, h⟩
    · exact ih x hx

end

/-! ## LR(k) -/

section
variable {φ τ π : Nat → Nat} {g g' : Grammar}

theorem map_toks (w : List Nat) : (w.map Sym.t).map (Sym.rename φ τ) = (w.map τ).map Sym.t := by
  simp [List.map_map, Function.comp_def, Sym.rename]

theorem toks_of_map {z : List Sym} {w' : List Nat} (h : z.map (Sym.rename φ τ) = w'.map Sym.t) : ∃ w : List Nat, z = w.map Sym.t ∧ w' = w.map τ := by
  induction z generalizing w' with
  | nil => exact ⟨[], rfl, by simpa using h.symm⟩
  | cons s z ih =>
    cases w' with
    | nil => simp at h
    | cons a w' =>
      simp only [List.map_cons, List.cons.injEq] at h
      obtain ⟨a0, rfl, rfl⟩ := rename_t.mp h.1
      obtain ⟨w, rfl, rfl⟩ := ih h.2
      exact ⟨a0 :: w, rfl, rfl⟩

theorem SameGrammar.rightForm (h : SameGrammar φ τ g g') {y : List Sym} (hy : RightForm g y) : RightForm g' (y.map (Sym.rename φ τ)) := by
  induction hy with
  | start => rw [List.map_cons, List.map_nil, ← h.entry]; exact .start
  | step _ hr ih =>
    obtain ⟨r', h1, h2, h3⟩ := h.rule_fwd hr
    rw [List.map_append, List.map_cons, map_toks, Sym.rename, ← h2] at ih
    rw [List.map_append, List.map_append, map_toks, ← strip_rename, ← h3]
    exact .step ih h1

theorem SameGrammar.rightForm_split (h : SameGrammar φ τ g g') {y α' : List Sym} {w' : List Nat} {r r' : Rule} (hl : r'.lhs = φ r.lhs) (e : α' ++ .nt r'.lhs :: w'.map Sym.t = y.map (Sym.rename φ τ)) :
    ∃ (α : List Sym) (w : List Nat), α' = α.map (Sym.rename φ τ) ∧ w' = w.map τ ∧ y = α ++ .nt r.lhs :: w.map Sym.t := by
  obtain ⟨α, z, rfl, rfl, e1⟩ := List.map_eq_append_iff.mp e.symm
  obtain ⟨s, z, rfl, e2, e3⟩ := List.map_eq_cons_iff.mp e1
  obtain ⟨A, rfl, e4⟩ := rename_nt.mp e2
  obtain ⟨w, rfl, rfl⟩ := toks_of_map e3
  have : A = r.lhs := h.nts _ _ (e4.trans hl)
  subst this
  exact ⟨α, w, rfl, rfl, rfl⟩

theorem SameGrammar.rightForm_bwd (h : SameGrammar φ τ g g') {y' : List Sym} (hy : RightForm g' y') : ∃ y : List Sym, y' = y.map (Sym.rename φ τ) ∧ RightForm g y := by
  induction hy with
  | start => exact ⟨[g.entry], by rw [h.entry]; rfl, .start⟩
  | step _ hr ih =>
    obtain ⟨y, e, hy⟩ := ih
    obtain ⟨r, h1, h2, h3⟩ := h.rule_bwd hr
    obtain ⟨α, w, rfl, rfl, rfl⟩ := h.rightForm_split h2 e
    exact ⟨_, by rw [List.map_append, List.map_append, map_toks, ← strip_rename, ← h3], .step hy h1⟩

theorem SameGrammar.isLR (h : SameGrammar φ τ g g') (k : Nat) : IsLR g' k ↔ IsLR g k := by
  obtain ⟨π, m⟩ := h.ruleMap
  constructor
  · intro hlr α γ i j r r' w x y hi hj h1 h2 e hk
    obtain ⟨s, a1, a2, a3⟩ := m.fwd i r hi
    obtain ⟨s', b1, b2, b3⟩ := m.fwd j r' hj
    have f1 := h.rightForm h1
    have f2 := h.rightForm h2
    rw [List.map_append, List.map_cons, map_toks, Sym.rename, ← a2] at f1
    rw [List.map_append, List.map_cons, map_toks, Sym.rename, ← b2] at f2
    have e' := congrArg (List.map (Sym.rename φ τ)) e
    simp only [List.map_append, map_toks, ← strip_rename] at e'
    rw [← a3, ← b3] at e'
    obtain ⟨q1, q2⟩ := hlr _ _ _ _ s s' _ _ _ a1 b1 f1 f2 e' (by rw [← List.map_take, hk, List.map_take])
    exact ⟨h.syms_inj q1, m.inj j i (List.getElem?_eq_some_iff.mp hj).1 (List.getElem?_eq_some_iff.mp hi).1 q2⟩
  · intro hlr α' γ' i' j' s s' w' x' y' hi hj h1 h2 e hk
    obtain ⟨i, r, a1, rfl, a2, a3⟩ := m.bwd i' s hi
    obtain ⟨j, r', b1, rfl, b2, b3⟩ := m.bwd j' s' hj
    obtain ⟨z1, e1, f1⟩ := h.rightForm_bwd h1
    obtain ⟨z2, e2, f2⟩ := h.rightForm_bwd h2
    obtain ⟨α, w, rfl, rfl, rfl⟩ := h.rightForm_split a2 e1
    obtain ⟨γ, x, rfl, rfl, rfl⟩ := h.rightForm_split b2 e2
    rw [a3, b3, strip_rename, strip_rename, ← map_toks, ← List.map_append, ← List.map_append, ← List.map_append] at e
    obtain ⟨u, z, e3, e4, e5⟩ := List.map_eq_append_iff.mp e
    obtain ⟨y, rfl, rfl⟩ := toks_of_map e5
    have := h.syms_inj e4
    subst this
    have hk' : w.take k = y.take k := by
      rw [← List.map_take, ← List.map_take] at hk
      exact List.map_injective_iff.mpr (fun a b e => h.ts a b e) hk
    obtain ⟨q1, q2⟩ := hlr α γ i j r r' w x y a1 b1 f1 f2 e3 hk'
    exact ⟨by rw [q1], by rw [q2]⟩

end

/-! ## parse trees -/

section
variable {φ τ π : Nat → Nat} {g g' : Grammar} {T : Type}

theorem RuleMap.bij (m : RuleMap φ τ π g g') (hd : DistinctRules g) (hd' : DistinctRules g') : ∃ R, RuleBij φ τ R g g' := by
  classical
  have key : ∀ (i : Nat) (r : Rule), g.rules[i]? = some r → (g'.rules[π (g.rules.idxOf r)]?).getD r = (g'.rules[π i]?).getD r := by
    intro i r hr
    obtain ⟨hi, rfl⟩ := List.getElem?_eq_some_iff.mp hr
    rw [List.Nodup.idxOf_getElem hd]
  refine ⟨fun r => (g'.rules[π (g.rules.idxOf r)]?).getD r, fun r hr => ?_, fun r' hr' => ?_, fun r hr s hs e => ?_⟩
  · obtain ⟨i, hi⟩ := List.mem_iff_getElem?.mp hr
    obtain ⟨r', h1, h2, h3⟩ := m.fwd i r hi
    simp only [key i r hi, h1, Option.getD_some]
    exact ⟨List.mem_of_getElem? h1, h2, h3⟩
  · obtain ⟨j, hj⟩ := List.mem_iff_getElem?.mp hr'
    obtain ⟨i, r, h1, h2, h3⟩ := m.bwd j r' hj
    refine ⟨r, List.mem_of_getElem? h1, ?_⟩
    simp only [key i r h1, h2, hj, Option.getD_some]
  · obtain ⟨i, hi⟩ := List.mem_iff_getElem?.mp hr
    obtain ⟨j, hj⟩ := List.mem_iff_getElem?.mp hs
    obtain ⟨r', h1, -⟩ := m.fwd i r hi
    obtain ⟨s', h2, -⟩ := m.fwd j s hj
    simp only [key i r hi, key j s hj, h1, h2, Option.getD_some] at e
    subst e
    have e2 := (List.getElem?_inj (List.getElem?_eq_some_iff.mp h1).1 hd').mp (h1.trans h2.symm)
    have e3 := m.inj i j (List.getElem?_eq_some_iff.mp hi).1 (List.getElem?_eq_some_iff.mp hj).1 e2
    subst e3
    rw [hi] at hj
    exact Option.some.inj hj

mutual
theorem rename_tokens (R : Rule → Rule) : ∀ t : PTree T, (t.rename τ R).tokens = retoken τ t.tokens
  | .leaf a d => by simp [PTree.rename, PTree.tokens, retoken]
  | .node r cs => by rw [PTree.rename, PTree.tokens, PTree.tokens, renameList_tokens R cs]
theorem renameList_tokens (R : Rule → Rule) : ∀ ts : List (PTree T), PTree.tokensList (PTree.renameList τ R ts) = retoken τ (PTree.tokensList ts)
  | [] => by simp [PTree.renameList, PTree.tokensList, retoken]
  | t :: ts => by
    rw [PTree.renameList, PTree.tokensList, PTree.tokensList, rename_tokens R t, renameList_tokens R ts]
    simp [retoken]
end

variable {R : Rule → Rule}

theorem RuleBij.forest (b : RuleBij φ τ R g g') {ss : List Sym} {ts : List (PTree T)} (h : Forest g.rules ss ts) :
    Forest g'.rules (ss.map (Sym.rename φ τ)) (PTree.renameList τ R ts) := by
  induction h with
  | nil => exact .nil
  | eps _ ih => exact .eps ih
  | term _ ih => rw [PTree.renameList, PTree.rename]; exact .term ih
  | nonterm hr _ _ i1 i2 =>
    obtain ⟨h1, h2, h3⟩ := b.mem _ hr
    rw [← h3] at i1
    have := Forest.nonterm h1 i1 i2
    rw [PTree.renameList, PTree.rename, List.map_cons, Sym.rename, ← h2]
    exact this

theorem RuleBij.forest_bwd (h : SameGrammar φ τ g g') (b : RuleBij φ τ R g g') {ss' : List Sym} {ts' : List (PTree T)} (hf : Forest g'.rules ss' ts') :
    ∀ ss, ss' = ss.map (Sym.rename φ τ) → ∃ ts, ts' = PTree.renameList τ R ts ∧ Forest g.rules ss ts := by
  induction hf with
  | nil => intro ss e
           have : ss = [] := by simpa using e.symm
           subst this
           exact ⟨[], by rw [PTree.renameList], .nil⟩
  | eps _ ih =>
    intro ss e
    obtain ⟨s, ss0, rfl, e1, e2⟩ := List.map_eq_cons_iff.mp e.symm
    rw [rename_eps.mp e1]
    obtain ⟨ts, h1, h2⟩ := ih ss0 e2.symm
    exact ⟨ts, h1, .eps h2⟩
  | @term a d _ _ _ ih =>
    intro ss e
    obtain ⟨s, ss0, rfl, e1, e2⟩ := List.map_eq_cons_iff.mp e.symm
    obtain ⟨a0, rfl, rfl⟩ := rename_t.mp e1
    obtain ⟨ts, rfl, h2⟩ := ih ss0 e2.symm
    exact ⟨.leaf a0 d :: ts, by rw [PTree.renameList, PTree.rename], .term h2⟩
  | @nonterm r' cs _ _ hr _ _ i1 i2 =>
    intro ss e
    obtain ⟨s, ss0, rfl, e1, e2⟩ := List.map_eq_cons_iff.mp e.symm
    obtain ⟨A, rfl, e3⟩ := rename_nt.mp e1
    obtain ⟨r, hm, rfl⟩ := b.surj _ hr
    obtain ⟨_, k2, k3⟩ := b.mem r hm
    obtain ⟨cs0, rfl, h1⟩ := i1 _ k3
    obtain ⟨ts, rfl, h2⟩ := i2 ss0 e2.symm
    have : A = r.lhs := h.nts _ _ (e3.trans k2)
    subst this
    exact ⟨.node r cs0 :: ts, by rw [PTree.renameList, PTree.rename], .nonterm hm h1 h2⟩

theorem RuleBij.forest_inj (b : RuleBij φ τ R g g') {ss : List Sym} {ts : List (PTree T)} (hf : Forest g.rules ss ts) :
    ∀ us, Forest g.rules ss us → PTree.renameList τ R ts = PTree.renameList τ R us → ts = us := by
  induction hf with
  | nil => intro us hu _; cases hu; rfl
  | eps _ ih => intro us hu e; cases hu with | eps hu => exact ih us hu e
  | term _ ih =>
    intro us hu e
    cases hu with
    | term hu =>
      simp only [PTree.renameList, PTree.rename, List.cons.injEq, PTree.leaf.injEq] at e
      rw [ih _ hu e.2, e.1.2]
  | @nonterm r cs _ _ hr _ _ i1 i2 =>
    intro us hu e
    generalize hA : r.lhs = A at hu
    cases hu with
    | @nonterm r2 cs2 _ _ hr2 hc2 hu =>
      simp only [PTree.renameList, PTree.rename, List.cons.injEq, PTree.node.injEq] at e
      have := b.inj _ hr _ hr2 e.1.1
      subst this
      rw [i1 _ hc2 e.1.2, i2 _ hu e.2]

theorem retoken_inj (h : ∀ a b, τ a = τ b → a = b) {u v : List (Nat × T)} (e : retoken τ u = retoken τ v) : u = v := by
  refine List.map_injective_iff.mpr (fun a b e => ?_) e
  simp only [Prod.mk.injEq] at e
  exact Prod.ext (h _ _ e.1) e.2

theorem RuleBij.parses (h : SameGrammar φ τ g g') (b : RuleBij φ τ R g g') (w : List (Nat × T)) :
    (∀ t, IsParseOf g w t → IsParseOf g' (retoken τ w) (t.rename τ R)) ∧
    (∀ t u, IsParseOf g w t → IsParseOf g w u → t.rename τ R = u.rename τ R → t = u) ∧
    (∀ t', IsParseOf g' (retoken τ w) t' → ∃ t, IsParseOf g w t ∧ t' = t.rename τ R) := by
  refine ⟨fun t ht => ⟨?_, by rw [rename_tokens, ht.2]⟩, fun t u ht hu e => ?_, fun t' ht => ?_⟩
  · have := b.forest ht.1
    rw [PTree.renameList, PTree.renameList, List.map_cons, List.map_nil, ← h.entry] at this
    exact this
  · have := b.forest_inj ht.1 [u] hu.1 (by simp [PTree.renameList, e])
    exact List.singleton_inj.mp this
  · obtain ⟨ts, e, hf⟩ := b.forest_bwd h ht.1 [g.entry] (by rw [h.entry]; rfl)
    cases ts with
    | nil => simp [PTree.renameList] at e
    | cons t ts =>
      cases ts with
      | cons => simp [PTree.renameList] at e
      | nil =>
        simp only [PTree.renameList, List.cons.injEq, and_true] at e
        subst e
        refine ⟨t, ⟨hf, ?_⟩, rfl⟩
        have := ht.2
        rw [rename_tokens] at this
        exact retoken_inj h.ts this

end

/-- a stream is one of one token string only -/
theorem streamIs_inj {T : Type} {input : Nat → Tok × T} {u v : List (Nat × T)} (hu : StreamIs input u) (hv : StreamIs input v) : u = v := by
  have hlen : ∀ (u v : List (Nat × T)), StreamIs input u → StreamIs input v → v.length ≤ u.length := by
    intro u v hu hv
    by_contra hc
    have hlt : u.length < v.length := by omega
    have := hv.1 u.length v[u.length] (List.getElem?_eq_getElem hlt)
    rw [← Prod.eta (input u.length), hu.2] at this
    simp at this
  apply List.ext_getElem (Nat.le_antisymm (hlen _ _ hv hu) (hlen _ _ hu hv))
  intro i hi1 hi2
  have e1 := hu.1 i _ (List.getElem?_eq_getElem hi1)
  have e2 := hv.1 i _ (List.getElem?_eq_getElem hi2)
  rw [e1] at e2
  simp at e2
  exact Prod.ext e2.1 e2.2

end Verif
