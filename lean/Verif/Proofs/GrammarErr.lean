import Verif.Proofs.GrammarTrans
import Mathlib.Tactic.ByContra
import Mathlib.Tactic.Push
import Mathlib.Data.List.Nodup

/-! # When building a grammar fails -/

set_option autoImplicit false

namespace Verif

def Room (b : GrammarBuilder) (n : Nat) : Prop := n = 0 ∨ b.tempCount + b.maxSymbol + n < u16Size

/-- the ways transforming a pattern can fail -/
def FailsFor (b : GrammarBuilder) (n : Nat) (m : String → Prop) (e : GrammarError) : Prop :=
  (e = .panic ∧ ¬ Room b n) ∨ ∃ x, e = .missingSymbol x ∧ m x ∧ symLookup x b.symbols = none

theorem FailsFor.mono {b b' : GrammarBuilder} {n n' : Nat} {m m' : String → Prop} {e : GrammarError} (h : FailsFor b n m e)
    (hs : b'.symbols = b.symbols) (hm : ∀ x, m x → m' x) (hr : Room b' n' → Room b n) : FailsFor b' n' m' e := by
  rcases h with ⟨h1, h2⟩ | ⟨x, h1, h2, h3⟩
  · exact .inl ⟨h1, fun h => h2 (hr h)⟩
  · exact .inr ⟨x, h1, hm x h2, by rw [hs]; exact h3⟩

theorem getTemp_error {b : GrammarBuilder} {e : GrammarError} (h : b.getTempSymbol = .error e) (n : Nat) (m : String → Prop) : FailsFor b (n + 1) m e := by
  unfold GrammarBuilder.getTempSymbol at h
  simp only at h
  split at h
  · simp at h
  · rename_i hc
    left
    refine ⟨by simpa using h.symm, ?_⟩
    rintro (h | h)
    · omega
    · apply hc; constructor <;> omega

theorem getTemp_room {b b' : GrammarBuilder} {i n : Nat} (h : b.getTempSymbol = .ok (i, b')) (hr : Room b (n + 1)) : Room b' n := by
  obtain ⟨s, -⟩ := getTemp_step (prods := []) (pats := List.replicate b.tempCount .epsilon) (by simp) h .epsilon
  have h1 := s.temp
  have h2 := s.maxSymbol
  simp at h1
  rcases hr with hr | hr
  · omega
  · right; omega

theorem getTemp_symbols {b b' : GrammarBuilder} {i : Nat} (h : b.getTempSymbol = .ok (i, b')) : b.symbols = b'.symbols := by
  obtain ⟨s, -⟩ := getTemp_step (prods := []) (pats := List.replicate b.tempCount .epsilon) (by simp) h .epsilon
  exact s.symbols.symm

mutual
theorem transformPattern_error (o : Nat) : ∀ (p : ProdPattern) (b : GrammarBuilder) (e : GrammarError),
    transformPattern o p b = .error e → FailsFor b p.operators (Mentions p) e
  | .sequence ps, b, e, h => by
    rw [transformPattern] at h
    rw [ProdPattern.operators]
    exact (transformSeq_error o ps b e h).mono rfl (fun x ⟨p, h1, h2⟩ => .sequence h1 h2) id
  | .alternative ps, b, e, h => by
    rw [transformPattern] at h
    rw [ProdPattern.operators]
    rcases gres_bind_error.mp h with h | ⟨⟨A, b1⟩, h1, h⟩
    · exact getTemp_error h _ _
    · rcases gres_bind_error.mp h with h | ⟨b2, h2, h⟩
      · exact (transformAlts_error o A ps b1 e h).mono (getTemp_symbols h1) (fun x ⟨p, h1, h2⟩ => .alternative h1 h2) (getTemp_room h1)
      · simp at h
  | .oneOrMany q, b, e, h => by
    rw [transformPattern] at h
    rw [ProdPattern.operators]
    rcases gres_bind_error.mp h with h | ⟨⟨A, b1⟩, h1, h⟩
    · exact getTemp_error h _ _
    · rcases gres_bind_error.mp h with h | ⟨b2, h2, h⟩
      · exact (transformPattern_error o q b1 e h).mono (getTemp_symbols h1) (fun x h => .oneOrMany h) (getTemp_room h1)
      · simp at h
  | .zeroOrMany q, b, e, h => by
    rw [transformPattern] at h
    rw [ProdPattern.operators]
    rcases gres_bind_error.mp h with h | ⟨⟨A, b1⟩, h1, h⟩
    · exact getTemp_error h _ _
    · rcases gres_bind_error.mp h with h | ⟨b2, h2, h⟩
      · exact (transformPattern_error o q b1 e h).mono (getTemp_symbols h1) (fun x h => .zeroOrMany h) (getTemp_room h1)
      · simp at h
  | .optional q, b, e, h => by
    rw [transformPattern] at h
    rw [ProdPattern.operators]
    rcases gres_bind_error.mp h with h | ⟨⟨A, b1⟩, h1, h⟩
    · exact getTemp_error h _ _
    · rcases gres_bind_error.mp h with h | ⟨b2, h2, h⟩
      · exact (transformPattern_error o q b1 e h).mono (getTemp_symbols h1) (fun x h => .optional h) (getTemp_room h1)
      · simp at h
  | .rule n, b, e, h => by
    rw [transformPattern] at h
    rcases gres_bind_error.mp h with h | ⟨s, h1, h⟩
    · unfold GrammarBuilder.getSymbolByName at h
      cases hq : symLookup n b.symbols with
      | none => rw [hq] at h; exact .inr ⟨n, by simpa using h.symm, .rule n, hq⟩
      | some v => rw [hq] at h; simp at h
    · simp at h
  | .epsilon, b, e, h => by
    rw [transformPattern] at h
    simp at h
theorem transformSeq_error (o : Nat) : ∀ (ps : List ProdPattern) (b : GrammarBuilder) (e : GrammarError),
    transformSeq o ps b = .error e → FailsFor b (ProdPattern.operatorsList ps) (fun x => ∃ p ∈ ps, Mentions p x) e
  | [], b, e, h => by rw [transformSeq] at h; simp at h
  | p :: ps, b, e, h => by
    rw [transformSeq] at h
    rw [ProdPattern.operatorsList]
    rcases gres_bind_error.mp h with h | ⟨⟨u, b1⟩, h1, h⟩
    · exact (transformPattern_error o p b e h).mono rfl (fun x h => ⟨p, List.mem_cons_self, h⟩) (by
        rintro (h | h)
        · left; omega
        · right; omega)
    · rcases gres_bind_error.mp h with h | ⟨⟨v, b2⟩, h2, h⟩
      · obtain ⟨ext, s, l, -⟩ := transformPattern_spec [] o p b b1 u (List.replicate b.tempCount .epsilon) (by simp) h1
        have t1 := s.temp
        have t2 := s.maxSymbol
        exact (transformSeq_error o ps b1 e h).mono s.symbols.symm (fun x ⟨q, h1, h2⟩ => ⟨q, List.mem_cons_of_mem _ h1, h2⟩) (by
          rintro (h | h)
          · left; omega
          · right; omega)
      · simp at h
theorem transformAlts_error (o : Nat) (A : Nat) : ∀ (ps : List ProdPattern) (b : GrammarBuilder) (e : GrammarError),
    transformAlts o A ps b = .error e → FailsFor b (ProdPattern.operatorsList ps) (fun x => ∃ p ∈ ps, Mentions p x) e
  | [], b, e, h => by rw [transformAlts] at h; simp at h
  | p :: ps, b, e, h => by
    rw [transformAlts] at h
    rw [ProdPattern.operatorsList]
    rcases gres_bind_error.mp h with h | ⟨⟨u, b1⟩, h1, h⟩
    · exact (transformPattern_error o p b e h).mono rfl (fun x h => ⟨p, List.mem_cons_self, h⟩) (by
        rintro (h | h)
        · left; omega
        · right; omega)
    · obtain ⟨ext, s, l, -⟩ := transformPattern_spec [] o p b b1 u (List.replicate b.tempCount .epsilon) (by simp) h1
      have t1 := s.temp
      have t2 := s.maxSymbol
      have f := transformAlts_error o A ps (b1.pushRule A u o) e h
      exact f.mono s.symbols.symm (fun x ⟨q, h1, h2⟩ => ⟨q, List.mem_cons_of_mem _ h1, h2⟩) (by
        rintro (h | h)
        · left; omega
        · right; simp only [GrammarBuilder.pushRule]; omega)
end

theorem addProductionRules_error : ∀ (rs : List ProdRule) (i : Nat) (b : GrammarBuilder) (e : GrammarError),
    (∀ p ∈ rs, ∃ A, symOf b.symbols p.name = some (.nt A)) → GrammarBuilder.addProductionRules i rs b = .error e →
    FailsFor b (rs.map (fun p => p.pattern.operators)).sum (fun x => ∃ p ∈ rs, Mentions p.pattern x) e := by
  intro rs
  induction rs with
  | nil => intro i b e _ h; simp [GrammarBuilder.addProductionRules] at h
  | cons r rs ih =>
    intro i b e hs h
    rw [GrammarBuilder.addProductionRules] at h
    rw [List.map_cons, List.sum_cons]
    obtain ⟨A, hA⟩ := hs r List.mem_cons_self
    have hg : b.getSymbolByName r.name = .ok (.nt A) := by
      unfold symOf at hA
      unfold GrammarBuilder.getSymbolByName
      cases hq : symLookup r.name b.symbols with
      | none => rw [hq] at hA; simp at hA
      | some v => obtain ⟨v1, v2⟩ := v; rw [hq] at hA; simp at hA; simp [hA]
    rcases gres_bind_error.mp h with h | ⟨b1, h1, h⟩
    · unfold GrammarBuilder.addProductionRule at h
      rw [hg] at h
      rcases gres_bind_error.mp h with h | ⟨s, h1, h⟩
      · simp at h
      · simp only [Except.ok.injEq] at h1
        subst h1
        rcases gres_bind_error.mp h with h | ⟨⟨u, b1⟩, h1, h⟩
        · exact (transformPattern_error i r.pattern b e h).mono rfl (fun x h => ⟨r, List.mem_cons_self, h⟩) (by
            rintro (h | h)
            · left; omega
            · right; omega)
        · simp at h
    · unfold GrammarBuilder.addProductionRule at h1
      rw [hg] at h1
      obtain ⟨s, h0, h1⟩ := gres_bind_ok.mp h1
      simp only [Except.ok.injEq] at h0
      subst h0
      obtain ⟨⟨u, b0⟩, h2, h1⟩ := gres_bind_ok.mp h1
      simp only [Except.ok.injEq] at h1
      obtain ⟨ext, s, l, -⟩ := transformPattern_spec [] i r.pattern b b0 u (List.replicate b.tempCount .epsilon) (by simp) h2
      have t1 := s.temp
      have t2 := s.maxSymbol
      have hb : b1.symbols = b.symbols := by rw [← h1]; exact s.symbols
      have hb2 : b1.tempCount = b0.tempCount := by rw [← h1]; rfl
      have hb3 : b1.maxSymbol = b0.maxSymbol := by rw [← h1]; rfl
      refine (ih (i + 1) b1 e (fun p hp => by rw [hb]; exact hs p (List.mem_cons_of_mem _ hp)) h).mono hb.symm
        (fun x ⟨q, h1, h2⟩ => ⟨q, List.mem_cons_of_mem _ h1, h2⟩) ?_
      rintro (h | h)
      · left; omega
      · right; omega

theorem maxOpt_spec {l : List Nat} {m : Nat} (h : maxOpt l = some m) : m ∈ l ∧ ∀ x ∈ l, x ≤ m := by
  cases l with
  | nil => simp [maxOpt] at h
  | cons a l =>
    simp only [maxOpt, Option.some.injEq] at h
    subst h
    have key : ∀ (l : List Nat) (a : Nat), l.foldl max a ∈ a :: l ∧ a ≤ l.foldl max a ∧ ∀ x ∈ l, x ≤ l.foldl max a := by
      intro l
      induction l with
      | nil => intro a; simp
      | cons b l ih =>
        intro a
        obtain ⟨h1, h2, h3⟩ := ih (max a b)
        simp only [List.foldl_cons]
        refine ⟨?_, by omega, ?_⟩
        · rcases List.mem_cons.mp h1 with h1 | h1
          · rw [h1]
            rcases Nat.le_total a b with h | h
            · simp [Nat.max_eq_right h]
            · simp [Nat.max_eq_left h]
          · simp [h1]
        · intro x hx
          rcases List.mem_cons.mp hx with rfl | hx
          · omega
          · exact h3 x hx
    obtain ⟨h1, h2, h3⟩ := key l a
    exact ⟨h1, by intro x hx; rcases List.mem_cons.mp hx with rfl | hx; exact h2; exact h3 x hx⟩

theorem maxOpt_none {l : List Nat} (h : maxOpt l = none) : l = [] := by
  cases l with
  | nil => rfl
  | cons a l => simp [maxOpt] at h

/-- which symbol a name of a rule set stands for: the position of the token, or of the first production of that name -/
def resolve (rs : RuleSet) (n : String) : Option Sym :=
  ((tokEntry 0 rs.tokens n).or (prodEntry 0 rs.prods n)).map (·.1)

/-- everything about the builder `from_rule_set` returns -/
structure BuilderOk (rs : RuleSet) (b : GrammarBuilder) : Prop where
  noClash : NoClash rs
  lookup : ∀ n, symLookup n b.symbols = (tokEntry 0 rs.tokens n).or (prodEntry 0 rs.prods n)
  temp : b.tempCount = 0
  anon : b.anon = []
  rules : b.rules = []
  max : ∀ n s, symOf b.symbols n = some s → s.index ≤ b.maxSymbol
  maxT : ∀ k < rs.tokens.length, k % u16Size ≤ b.maxSymbol
  maxLt : b.maxSymbol < u16Size
  maxLe : b.maxSymbol < Nat.max rs.tokens.length rs.prods.length
  tokS : MSorted b.tokens
  tokK : ∀ s, (mget? s b.tokens).isSome ↔ ∃ k < rs.tokens.length, s = .t (k % u16Size)
  tokN : rs.tokens.length ≤ u16Size → ∀ k < rs.tokens.length, mget? (Sym.t k) b.tokens = rs.tokens[k]?
  prodS : MSorted b.productions
  prodK : ∀ s, (mget? s b.productions).isSome → ∃ A, s = .nt A ∧ A ≤ b.maxSymbol
  prodD : ∀ n A, symOf b.symbols n = some (.nt A) → (mget? (Sym.nt A) b.productions).isSome

theorem mget?_nil {ν : Type} (s : Sym) : mget? s ([] : List (Sym × ν)) = none := rfl

theorem tokens_tableOk {rs : RuleSet} {s1 : List (String × Sym × RuleRef)} {t1 : List (Sym × String)}
    (h : addTokens 0 rs.tokens [] [] = .ok (s1, t1)) : TableOk t1 s1 ∧ ∀ A, mget? (Sym.nt A) t1 = none := by
  obtain ⟨-, -, a3, -⟩ := addTokens_ok h
  obtain ⟨-, k2⟩ := addTokens_keys h (by simp [MSorted])
  constructor
  · intro n s ref hn
    rw [a3] at hn
    simp only [symLookup, Option.none_or, tokEntry, Option.map_eq_some_iff] at hn
    obtain ⟨k, hk, e⟩ := hn
    simp only [Prod.mk.injEq] at e
    refine .inl ⟨_, _, e.1.symm, e.2.symm, ?_⟩
    rw [k2]
    refine .inr ⟨k, ?_, e.1.symm⟩
    obtain ⟨h1, -⟩ := List.findIdx?_eq_some_iff_getElem.mp hk
    exact h1
  · intro A
    have : ¬ (mget? (Sym.nt A) t1).isSome := by
      rw [k2]
      simp [mget?_nil]
    simpa using this

theorem symOf_fst {syms : List (String × Sym × RuleRef)} {n : String} {s : Sym} (h : symOf syms n = some s) : s ∈ syms.map (fun e => e.2.1) := by
  induction syms with
  | nil => simp [symOf, symLookup] at h
  | cons a l ih =>
    obtain ⟨m, v, w⟩ := a
    simp only [symOf, symLookup] at h
    split at h
    · simp at h; simp [h]
    · exact List.mem_cons_of_mem _ (ih h)

theorem fromRuleSet_ok {rs : RuleSet} {b : GrammarBuilder} (h : GrammarBuilder.fromRuleSet rs = .ok b) : BuilderOk rs b := by
  unfold GrammarBuilder.fromRuleSet at h
  obtain ⟨⟨s1, t1⟩, h1, h⟩ := gres_bind_ok.mp h
  obtain ⟨⟨s2, p2⟩, h2, h⟩ := gres_bind_ok.mp h
  simp only at h h2
  cases hm : maxOpt (s2.map (fun s => s.2.1.index)) with
  | none => rw [hm] at h; simp at h
  | some m =>
    rw [hm] at h
    simp only [Except.ok.injEq] at h
    subst h
    obtain ⟨hT, hN⟩ := tokens_tableOk h1
    obtain ⟨a1, a2, a3, ext1, a4, a5⟩ := addTokens_ok h1
    obtain ⟨k1, k2⟩ := addTokens_keys h1 (by simp [MSorted])
    obtain ⟨b1, b2, ext2, b4, b5⟩ := addProds_ok hT h2
    obtain ⟨q1, q2, q3⟩ := addProds_keys h2 (by simp [MSorted])
    have q4 := addProds_declared h2 (by simp [MSorted]) (by
      intro n A ref hn
      rcases hT _ _ _ hn with ⟨a, i, h5, h6, h7⟩ | ⟨A, i, h5, h6⟩
      · simp at h5
      · rw [a3] at hn
        simp only [symLookup, Option.none_or, tokEntry, Option.map_eq_some_iff, Prod.mk.injEq] at hn
        obtain ⟨k, hk, e1, e2⟩ := hn
        simp at e1)
    obtain ⟨m1, m2⟩ := maxOpt_spec hm
    have hmax : ∀ s ∈ s2.map (fun e => e.2.1), s.index ≤ m := by
      intro s hs
      obtain ⟨e, he, rfl⟩ := List.mem_map.mp hs
      exact m2 _ (List.mem_map.mpr ⟨e, he, rfl⟩)
    obtain ⟨e, he, hem⟩ := List.mem_map.mp m1
    have hbd : (∃ k < rs.tokens.length, e.2.1 = .t (k % u16Size)) ∨ ∃ k < rs.prods.length, e.2.1 = .nt (k % u16Size) := by
      rw [b4] at he
      rcases List.mem_append.mp he with he | he
      · rw [a4] at he
        obtain ⟨k, hk, e2⟩ := a5 e (by simpa using he)
        exact .inl ⟨k, hk, by simpa using e2⟩
      · obtain ⟨k, hk, e2⟩ := b5 e he
        exact .inr ⟨k, hk, by simpa using e2⟩
    have hU : 0 < u16Size := by decide
    refine ⟨⟨a1, ?_⟩, ?_, rfl, rfl, rfl, ?_, ?_, ?_, ?_, k1, ?_, ?_, q1, ?_, ?_⟩
    · intro p hp hmem
      have : tokEntry 0 rs.tokens p.name ≠ none := by rw [Ne, tokEntry_none]; simpa using hmem
      cases hq : tokEntry 0 rs.tokens p.name with
      | none => exact this hq
      | some v =>
        obtain ⟨v1, v2⟩ := v
        have hv := hq
        simp only [tokEntry, Option.map_eq_some_iff, Prod.mk.injEq] at hv
        obtain ⟨k, hk, e1, e2⟩ := hv
        apply b1 p hp _ v2
        rw [a3, hq]; simp only [symLookup, Option.none_or]; rw [← e1]
    · intro n; rw [b2, a3]; simp [symLookup]
    · intro n s hs
      exact hmax s (symOf_fst hs)
    · intro k hk
      have hne : tokEntry 0 rs.tokens rs.tokens[k] ≠ none := by rw [Ne, tokEntry_none]; simp
      have hk' : tokEntry 0 rs.tokens rs.tokens[k] = some (.t (k % u16Size), .token k) := by
        simp only [tokEntry, Option.map_eq_some_iff]
        refine ⟨k, ?_, by simp⟩
        rw [List.findIdx?_eq_some_iff_getElem]
        refine ⟨hk, by simp, fun j hj => ?_⟩
        simp only [decide_eq_true_eq]
        intro e
        have := (List.Nodup.getElem_inj_iff a1).mp e
        omega
      have := hmax (.t (k % u16Size)) (symOf_fst (n := rs.tokens[k]) (by
        unfold symOf; rw [b2, a3, hk']; rfl))
      exact this
    · show m < u16Size
      rcases hbd with ⟨k, hk, e2⟩ | ⟨k, hk, e2⟩
      · rw [← hem, e2]; exact Nat.mod_lt _ hU
      · rw [← hem, e2]; exact Nat.mod_lt _ hU
    · show m < _
      rcases hbd with ⟨k, hk, e2⟩ | ⟨k, hk, e2⟩
      · rw [← hem, e2]
        exact Nat.lt_of_le_of_lt (Nat.mod_le _ _) (Nat.lt_of_lt_of_le hk (Nat.le_max_left _ _))
      · rw [← hem, e2]
        exact Nat.lt_of_le_of_lt (Nat.mod_le _ _) (Nat.lt_of_lt_of_le hk (Nat.le_max_right _ _))
    · intro s; show (mget? s t1).isSome ↔ _
      rw [k2]; simp [mget?_nil]
    · intro hl k hk
      have := addTokens_names h1 (by simpa using hl) k hk
      simpa using this
    · intro s hs
      rcases q3 s hs with h | ⟨k, hk, e⟩
      · simp [mget?_nil] at h
      · refine ⟨_, e, ?_⟩
        simp only [Nat.zero_add] at *
        -- the key was inserted together with a table entry
        have key : ∀ (ps : List ProdRule) (i : Nat) (syms s' : List (String × Sym × RuleRef)) (prods p' : List (Sym × String)),
            addProds t1 i ps syms prods = .ok (s', p') → (∀ s, (mget? s prods).isSome → s ∈ syms.map (fun e => e.2.1)) →
            ∀ s, (mget? s p').isSome → s ∈ s'.map (fun e => e.2.1) := by
          intro ps
          induction ps with
          | nil =>
            intro i syms s' prods p' h hp
            simp only [addProds, Except.ok.injEq, Prod.mk.injEq] at h
            obtain ⟨rfl, rfl⟩ := h
            exact hp
          | cons r ps ih =>
            intro i syms s' prods p' h hp
            rw [addProds] at h
            cases hl : symLookup r.name syms with
            | some v =>
              obtain ⟨v1, v2⟩ := v
              simp only [hl] at h
              split at h
              · simp at h
              · exact ih _ _ _ _ _ h hp
            | none =>
              simp only [hl] at h
              refine ih _ _ _ _ _ h ?_
              intro s hs
              rw [mget?_minsert] at hs
              split at hs
              · rename_i e; rw [e]; simp
              · rw [List.map_append]; exact List.mem_append_left _ (hp s hs)
        have := hmax s (key _ _ _ _ _ _ h2 (by simp [mget?_nil]) s hs)
        rw [e] at this
        exact this
    · intro n A hn
      unfold symOf at hn
      simp only [Option.map_eq_some_iff] at hn
      obtain ⟨⟨v1, v2⟩, hv, e⟩ := hn
      simp only at e
      subst e
      exact q4 n A v2 hv

/-- how `from_rule_set` can fail -/
theorem fromRuleSet_error {rs : RuleSet} {e : GrammarError} (h : GrammarBuilder.fromRuleSet rs = .error e) :
    (∃ (i j : Nat) (n : String), i < j ∧ rs.tokens[i]? = some n ∧ rs.tokens[j]? = some n ∧ e = .conflictingRules (.token i) (.token j)) ∨
    (∃ (i j : Nat) (n : String) (p : ProdRule), rs.tokens[i]? = some n ∧ rs.prods[j]? = some p ∧ p.name = n ∧ e = .conflictingRules (.token i) (.prod j)) ∨
    (e = .panic ∧ rs.tokens = [] ∧ rs.prods = []) := by
  unfold GrammarBuilder.fromRuleSet at h
  rcases gres_bind_error.mp h with h | ⟨⟨s1, t1⟩, h1, h⟩
  · obtain ⟨k, n, prev, hk, he, hc⟩ := addTokens_error h
    rcases hc with ⟨s, hs⟩ | ⟨j, hj, hn, hp⟩
    · simp [symLookup] at hs
    · left; exact ⟨j, k, n, hj, hn, hk, by rw [he, hp]; simp⟩
  · obtain ⟨hT, hN⟩ := tokens_tableOk h1
    obtain ⟨a1, a2, a3, ext1, a4, a5⟩ := addTokens_ok h1
    rcases gres_bind_error.mp h with h | ⟨⟨s2, p2⟩, h2, h⟩
    · obtain ⟨k, p, a, ref, hk, hl, he⟩ := addProds_error hN hT h
      right; left
      rw [a3] at hl
      simp only [symLookup, Option.none_or, tokEntry, Option.map_eq_some_iff, Prod.mk.injEq] at hl
      obtain ⟨i, hi, e1, e2⟩ := hl
      obtain ⟨hi1, hi2, -⟩ := List.findIdx?_eq_some_iff_getElem.mp hi
      refine ⟨i, k, p.name, p, ?_, hk, rfl, by rw [he, ← e2]; simp⟩
      rw [List.getElem?_eq_getElem hi1]
      simpa using hi2
    · right; right
      simp only at h2 h
      obtain ⟨b1, b2, ext2, b4, b5⟩ := addProds_ok hT h2
      cases hm : maxOpt (s2.map (fun s => s.2.1.index)) with
      | some m => rw [hm] at h; simp at h
      | none =>
        rw [hm] at h
        have hnil : s2 = [] := by simpa using maxOpt_none hm
        refine ⟨by simpa using h.symm, ?_, ?_⟩
        · by_contra hne
          obtain ⟨a, l, hal⟩ := List.exists_cons_of_ne_nil hne
          have := b2 a
          rw [hnil, a3, hal] at this
          simp [symLookup, tokEntry_cons] at this
        · by_contra hne
          obtain ⟨a, l, hal⟩ := List.exists_cons_of_ne_nil hne
          have := b2 a.name
          rw [hnil, hal] at this
          simp [symLookup, prodEntry_cons] at this

/-- names that resolve -/
theorem resolve_defined {rs : RuleSet} {n : String} : resolve rs n ≠ none ↔ Defined rs n := by
  unfold resolve
  rw [Ne, Option.map_eq_none_iff, Option.or_eq_none_iff, tokEntry_none, prodEntry_none]
  unfold Defined
  constructor
  · intro h
    by_contra hc
    push Not at hc
    exact h ⟨hc.1, fun p hp e => hc.2 p hp e⟩
  · rintro (h | ⟨p, hp, e⟩) ⟨h1, h2⟩
    · exact h1 h
    · exact h2 p hp e

theorem BuilderOk.symOf {rs : RuleSet} {b : GrammarBuilder} (h : BuilderOk rs b) (n : String) : symOf b.symbols n = resolve rs n := by
  unfold Verif.symOf resolve
  rw [h.lookup]

theorem BuilderOk.prod {rs : RuleSet} {b : GrammarBuilder} (h : BuilderOk rs b) {p : ProdRule} (hp : p ∈ rs.prods) :
    ∃ A, Verif.symOf b.symbols p.name = some (.nt A) := by
  rw [h.symOf]
  unfold resolve
  have h1 : tokEntry 0 rs.tokens p.name = none := tokEntry_none.mpr (h.noClash.2 p hp)
  rw [h1]
  cases hq : prodEntry 0 rs.prods p.name with
  | none => exact absurd rfl (prodEntry_none.mp hq p hp)
  | some v =>
    simp only [prodEntry, Option.map_eq_some_iff] at hq
    obtain ⟨k, hk, e⟩ := hq
    refine ⟨k % u16Size, ?_⟩
    rw [← e]; simp

end Verif
