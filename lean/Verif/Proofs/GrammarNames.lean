import Verif.Spec.Grammar
import Verif.Proofs.Collections

/-! # The name tables of the grammar builder -/

set_option autoImplicit false

namespace Verif

theorem symLookup_append (n : String) (l1 l2 : List (String × Sym × RuleRef)) :
    symLookup n (l1 ++ l2) = (symLookup n l1).or (symLookup n l2) := by
  induction l1 with
  | nil => simp [symLookup]
  | cons a l ih =>
    obtain ⟨m, v⟩ := a
    simp only [List.cons_append, symLookup]
    split <;> simp [ih]

theorem gres_bind_ok {α β : Type} {x : GRes α} {f : α → GRes β} {b : β} :
    x >>= f = .ok b ↔ ∃ a, x = .ok a ∧ f a = .ok b := by
  cases x <;> simp [bind, Except.bind]

theorem gres_bind_error {α β : Type} {x : GRes α} {f : α → GRes β} {e : GrammarError} :
    x >>= f = .error e ↔ x = .error e ∨ ∃ a, x = .ok a ∧ f a = .error e := by
  cases x <;> simp [bind, Except.bind]

/-- the table entry the token loop makes for a name -/
def tokEntry (i : Nat) (names : List String) (n : String) : Option (Sym × RuleRef) :=
  (names.findIdx? (· = n)).map (fun k => (.t ((i + k) % u16Size), .token (i + k)))

theorem tokEntry_cons (i : Nat) (a : String) (names : List String) (n : String) :
    tokEntry i (a :: names) n = if a = n then some (.t (i % u16Size), .token i) else tokEntry (i + 1) names n := by
  unfold tokEntry
  rw [List.findIdx?_cons]
  by_cases h : a = n
  · simp [h]
  · simp only [decide_eq_true_eq, h, ↓reduceIte, Option.map_map, Function.comp_def]
    congr 1; funext k
    rw [show i + (k + 1) = i + 1 + k by omega]

theorem tokEntry_none {i : Nat} {names : List String} {n : String} : tokEntry i names n = none ↔ n ∉ names := by
  simp only [tokEntry, Option.map_eq_none_iff, List.findIdx?_eq_none_iff, decide_eq_false_iff_not]
  exact ⟨fun h hn => h n hn rfl, fun h x hx e => h (e ▸ hx)⟩

theorem addTokens_ok {i : Nat} {names : List String} {syms s' : List (String × Sym × RuleRef)} {toks t' : List (Sym × String)}
    (h : addTokens i names syms toks = .ok (s', t')) :
    names.Nodup ∧ (∀ n ∈ names, symLookup n syms = none) ∧
    (∀ n, symLookup n s' = (symLookup n syms).or (tokEntry i names n)) ∧
    (∃ ext, s' = syms ++ ext ∧ ∀ e ∈ ext, ∃ k < names.length, e.2.1 = .t ((i + k) % u16Size)) := by
  induction names generalizing i syms toks with
  | nil =>
    simp only [addTokens, Except.ok.injEq, Prod.mk.injEq] at h
    obtain ⟨rfl, rfl⟩ := h
    simp [tokEntry]
  | cons a names ih =>
    rw [addTokens] at h
    cases hl : symLookup a syms with
    | some v => rw [hl] at h; obtain ⟨v1, v2⟩ := v; simp at h
    | none =>
      rw [hl] at h
      obtain ⟨h1, h2, h3, ext, h4, h5⟩ := ih h
      have ha : a ∉ names := by
        intro hm
        have := h2 a hm
        rw [symLookup_append] at this
        simp [hl, symLookup] at this
      refine ⟨List.nodup_cons.mpr ⟨ha, h1⟩, ?_, ?_, ?_⟩
      · intro n hn
        rcases List.mem_cons.mp hn with rfl | hn
        · exact hl
        · have := h2 n hn
          rw [symLookup_append] at this
          exact (Option.or_eq_none_iff.mp this).1
      · intro n
        rw [h3, symLookup_append, tokEntry_cons]
        by_cases e : a = n
        · subst e; simp [symLookup, hl]
        · simp [symLookup, e]
      · refine ⟨_, by rw [h4, List.append_assoc], ?_⟩
        intro e he
        rcases List.mem_append.mp he with he | he
        · rw [List.mem_singleton.mp he]; exact ⟨0, by simp, rfl⟩
        · obtain ⟨k, hk, e2⟩ := h5 e he
          exact ⟨k + 1, by simp; omega, by rw [e2, show i + 1 + k = i + (k + 1) by omega]⟩

theorem addTokens_total {i : Nat} {names : List String} {syms : List (String × Sym × RuleRef)} {toks : List (Sym × String)}
    (h1 : names.Nodup) (h2 : ∀ n ∈ names, symLookup n syms = none) : ∃ r, addTokens i names syms toks = .ok r := by
  induction names generalizing i syms toks with
  | nil => exact ⟨_, rfl⟩
  | cons a names ih =>
    rw [addTokens, h2 a (List.mem_cons_self)]
    obtain ⟨ha, h1⟩ := List.nodup_cons.mp h1
    refine ih h1 ?_
    intro n hn
    rw [symLookup_append, h2 n (List.mem_cons_of_mem _ hn)]
    have : a ≠ n := fun e => ha (e ▸ hn)
    simp [symLookup, this]

/-- a token conflict names two rules of the same name -/
theorem addTokens_error {i : Nat} {names : List String} {syms : List (String × Sym × RuleRef)} {toks : List (Sym × String)} {e : GrammarError}
    (h : addTokens i names syms toks = .error e) :
    ∃ (k : Nat) (n : String) (prev : RuleRef), names[k]? = some n ∧ e = .conflictingRules prev (.token (i + k)) ∧
      ((∃ s, symLookup n syms = some (s, prev)) ∨ ∃ j < k, names[j]? = some n ∧ prev = .token (i + j)) := by
  induction names generalizing i syms toks with
  | nil => simp [addTokens] at h
  | cons a names ih =>
    rw [addTokens] at h
    cases hl : symLookup a syms with
    | some v =>
      rw [hl] at h
      obtain ⟨v1, v2⟩ := v
      simp only [Except.error.injEq] at h
      exact ⟨0, a, v2, rfl, h.symm, .inl ⟨v1, hl⟩⟩
    | none =>
      rw [hl] at h
      obtain ⟨k, n, prev, hk, he, hc⟩ := ih h
      refine ⟨k + 1, n, prev, by simpa using hk, by rw [he, show i + 1 + k = i + (k + 1) by omega], ?_⟩
      rcases hc with ⟨s, hs⟩ | ⟨j, hj, hn, hp⟩
      · rw [symLookup_append] at hs
        cases hq : symLookup n syms with
        | some w => rw [hq] at hs; exact .inl ⟨s, by simpa using hs⟩
        | none =>
          rw [hq] at hs
          by_cases e : a = n
          · simp [symLookup, e] at hs
            exact .inr ⟨0, by omega, by simp [e], by simpa using hs.2.symm⟩
          · simp [symLookup, e] at hs
      · exact .inr ⟨j + 1, by omega, by simpa using hn, by rw [hp, show i + 1 + j = i + (j + 1) by omega]⟩

/-- the keys of the token map -/
theorem addTokens_keys {i : Nat} {names : List String} {syms s' : List (String × Sym × RuleRef)} {toks t' : List (Sym × String)}
    (h : addTokens i names syms toks = .ok (s', t')) (hs : MSorted toks) :
    MSorted t' ∧ ∀ s, (mget? s t').isSome ↔ (mget? s toks).isSome ∨ ∃ k < names.length, s = .t ((i + k) % u16Size) := by
  induction names generalizing i syms toks with
  | nil =>
    simp only [addTokens, Except.ok.injEq, Prod.mk.injEq] at h
    obtain ⟨rfl, rfl⟩ := h
    simp [hs]
  | cons a names ih =>
    rw [addTokens] at h
    cases hl : symLookup a syms with
    | some v => rw [hl] at h; obtain ⟨v1, v2⟩ := v; simp at h
    | none =>
      rw [hl] at h
      obtain ⟨h1, h2⟩ := ih h (minsert_sorted hs)
      refine ⟨h1, fun s => ?_⟩
      rw [h2, mget?_minsert]
      constructor
      · rintro (h | ⟨k, hk, e⟩)
        · split at h
          · rename_i e; exact .inr ⟨0, by simp, by simpa using e⟩
          · exact .inl h
        · exact .inr ⟨k + 1, by simp; omega, by rw [e, show i + 1 + k = i + (k + 1) by omega]⟩
      · rintro (h | ⟨k, hk, e⟩)
        · left; split
          · rfl
          · exact h
        · cases k with
          | zero => left; rw [if_pos (by simpa using e)]; rfl
          | succ k => exact .inr ⟨k, by simpa using hk, by rw [e, show i + 1 + k = i + (k + 1) by omega]⟩

/-- the names in the token map -/
theorem addTokens_names {i : Nat} {names : List String} {syms s' : List (String × Sym × RuleRef)} {toks t' : List (Sym × String)}
    (h : addTokens i names syms toks = .ok (s', t')) (hi : i + names.length ≤ u16Size) (k : Nat) (hk : k < names.length) :
    mget? (Sym.t (i + k)) t' = names[k]? := by
  have key : ∀ (names : List String) (i : Nat) (syms s' : List (String × Sym × RuleRef)) (toks t' : List (Sym × String)),
      addTokens i names syms toks = .ok (s', t') → i + names.length ≤ u16Size → ∀ j,
      mget? (Sym.t j) t' = if j < i ∨ i + names.length ≤ j then mget? (Sym.t j) toks else names[j - i]? := by
    intro names
    induction names with
    | nil =>
      intro i syms s' toks t' h _ j
      simp only [addTokens, Except.ok.injEq, Prod.mk.injEq] at h
      obtain ⟨rfl, rfl⟩ := h
      rw [if_pos]; simp; omega
    | cons a names ih =>
      intro i syms s' toks t' h hi j
      rw [addTokens] at h
      simp only [List.length_cons] at hi
      cases hl : symLookup a syms with
      | some v => rw [hl] at h; obtain ⟨v1, v2⟩ := v; simp at h
      | none =>
        rw [hl] at h
        rw [ih _ _ _ _ _ h (by omega) j, mget?_minsert]
        have hm : i % u16Size = i := Nat.mod_eq_of_lt (by omega)
        simp only [hm, List.length_cons, Sym.t.injEq]
        by_cases hj : j < i
        · rw [if_pos (by omega), if_neg (by omega), if_pos (by omega)]
        · by_cases hj2 : j = i
          · subst hj2
            rw [if_pos (by omega), if_pos rfl, if_neg (by omega)]; simp
          · by_cases hj3 : i + (names.length + 1) ≤ j
            · rw [if_pos (by omega), if_neg (by omega), if_pos (by omega)]
            · rw [if_neg (by omega), if_neg (by omega), show j - i = (j - (i + 1)) + 1 by omega]; simp
  rw [key names i syms s' toks t' h hi (i + k), if_neg (by omega), show i + k - i = k by omega]

/-- the table entry the production loop makes for a name -/
def prodEntry (i : Nat) (ps : List ProdRule) (n : String) : Option (Sym × RuleRef) :=
  (ps.findIdx? (fun r => r.name = n)).map (fun k => (.nt ((i + k) % u16Size), .prod (i + k)))

theorem prodEntry_cons (i : Nat) (a : ProdRule) (ps : List ProdRule) (n : String) :
    prodEntry i (a :: ps) n = if a.name = n then some (.nt (i % u16Size), .prod i) else prodEntry (i + 1) ps n := by
  unfold prodEntry
  rw [List.findIdx?_cons]
  by_cases h : a.name = n
  · simp [h]
  · simp only [decide_eq_true_eq, h, ↓reduceIte, Option.map_map, Function.comp_def]
    congr 1; funext k
    rw [show i + (k + 1) = i + 1 + k by omega]

theorem prodEntry_none {i : Nat} {ps : List ProdRule} {n : String} : prodEntry i ps n = none ↔ ∀ p ∈ ps, p.name ≠ n := by
  simp [prodEntry]

/-- entries of the table are either terminals that are in the token map or non-terminals -/
def TableOk (tokens : List (Sym × String)) (syms : List (String × Sym × RuleRef)) : Prop :=
  ∀ n s ref, symLookup n syms = some (s, ref) → (∃ a i, s = .t a ∧ ref = .token i ∧ (mget? s tokens).isSome) ∨ ∃ A i, s = .nt A ∧ ref = .prod i

theorem addProds_ok {tokens : List (Sym × String)} {i : Nat} {ps : List ProdRule}
    {syms s' : List (String × Sym × RuleRef)} {prods p' : List (Sym × String)} (hT : TableOk tokens syms)
    (h : addProds tokens i ps syms prods = .ok (s', p')) :
    (∀ p ∈ ps, ∀ a ref, symLookup p.name syms ≠ some (.t a, ref)) ∧
    (∀ n, symLookup n s' = (symLookup n syms).or (prodEntry i ps n)) ∧
    (∃ ext, s' = syms ++ ext ∧ ∀ e ∈ ext, ∃ k < ps.length, e.2.1 = .nt ((i + k) % u16Size)) := by
  induction ps generalizing i syms prods with
  | nil =>
    simp only [addProds, Except.ok.injEq, Prod.mk.injEq] at h
    obtain ⟨rfl, rfl⟩ := h
    simp [prodEntry]
  | cons r ps ih =>
    rw [addProds] at h
    cases hl : symLookup r.name syms with
    | some v =>
      obtain ⟨v1, v2⟩ := v
      simp only [hl] at h
      by_cases hv : (mget? v1 tokens).isSome
      · rw [if_pos hv] at h; simp at h
      · rw [if_neg hv] at h
        obtain ⟨h1, h2, ext, h3, h4⟩ := ih hT h
        refine ⟨?_, ?_, ext, h3, ?_⟩
        · intro p hp
          rcases List.mem_cons.mp hp with rfl | hp
          · intro a ref e
            rw [hl] at e
            simp only [Option.some.injEq, Prod.mk.injEq] at e
            rcases hT _ _ _ hl with ⟨a, i, h5, h6, h7⟩ | ⟨A, i, h5, h6⟩
            · exact hv h7
            · rw [h5] at e; exact absurd e.1 (by simp)
          · exact h1 p hp
        · intro n
          rw [h2, prodEntry_cons]
          by_cases e : r.name = n
          · subst e; simp [hl]
          · simp [e]
        · intro e he
          obtain ⟨k, hk, e2⟩ := h4 e he
          exact ⟨k + 1, by simp; omega, by rw [e2, show i + 1 + k = i + (k + 1) by omega]⟩
    | none =>
      simp only [hl] at h
      have hT' : TableOk tokens (syms ++ [(r.name, .nt (i % u16Size), .prod i)]) := by
        intro n s ref hn
        rw [symLookup_append] at hn
        cases hq : symLookup n syms with
        | some w => rw [hq] at hn; exact hT n s ref (by rw [hq]; simpa using hn)
        | none =>
          rw [hq] at hn
          by_cases e : r.name = n
          · simp [symLookup, e] at hn; exact .inr ⟨_, _, hn.1.symm, hn.2.symm⟩
          · simp [symLookup, e] at hn
      obtain ⟨h1, h2, ext, h3, h4⟩ := ih hT' h
      refine ⟨?_, ?_, _, by rw [h3, List.append_assoc], ?_⟩
      · intro p hp
        rcases List.mem_cons.mp hp with rfl | hp
        · intro a ref e; rw [hl] at e; simp at e
        · intro a ref e
          apply h1 p hp a ref
          rw [symLookup_append, e]; rfl
      · intro n
        rw [h2, symLookup_append, prodEntry_cons]
        by_cases e : r.name = n
        · subst e; simp [symLookup, hl]
        · simp [symLookup, e]
      · intro e he
        rcases List.mem_append.mp he with he | he
        · rw [List.mem_singleton.mp he]; exact ⟨0, by simp, rfl⟩
        · obtain ⟨k, hk, e2⟩ := h4 e he
          exact ⟨k + 1, by simp; omega, by rw [e2, show i + 1 + k = i + (k + 1) by omega]⟩

theorem addProds_total {tokens : List (Sym × String)} (ht : ∀ A, mget? (Sym.nt A) tokens = none) {i : Nat} {ps : List ProdRule}
    {syms : List (String × Sym × RuleRef)} {prods : List (Sym × String)}
    (hT : TableOk tokens syms)
    (h : ∀ p ∈ ps, ∀ a ref, symLookup p.name syms ≠ some (.t a, ref)) : ∃ r, addProds tokens i ps syms prods = .ok r := by
  induction ps generalizing i syms prods with
  | nil => exact ⟨_, rfl⟩
  | cons r ps ih =>
    rw [addProds]
    cases hl : symLookup r.name syms with
    | some v =>
      obtain ⟨v1, v2⟩ := v
      have hv : (mget? v1 tokens).isSome = false := by
        rcases hT _ _ _ hl with ⟨a, i, h5, h6, h7⟩ | ⟨A, i, h5, h6⟩
        · rw [h5] at hl; exact absurd hl (h r List.mem_cons_self a v2)
        · rw [h5, ht]; rfl
      simp only [hv, Bool.false_eq_true, ↓reduceIte]
      exact ih hT (fun p hp => h p (List.mem_cons_of_mem _ hp))
    | none =>
      refine ih ?_ ?_
      · intro n s ref hn
        rw [symLookup_append] at hn
        cases hq : symLookup n syms with
        | some w => rw [hq] at hn; exact hT n s ref (by rw [hq]; simpa using hn)
        | none =>
          rw [hq] at hn
          by_cases e : r.name = n
          · simp [symLookup, e] at hn; exact .inr ⟨_, _, hn.1.symm, hn.2.symm⟩
          · simp [symLookup, e] at hn
      · intro p hp a ref e
        rw [symLookup_append] at e
        cases hq : symLookup p.name syms with
        | some w => rw [hq] at e; exact h p (List.mem_cons_of_mem _ hp) a ref (by rw [hq]; simpa using e)
        | none =>
          rw [hq] at e
          by_cases e2 : r.name = p.name
          · simp [symLookup, e2] at e
          · simp [symLookup, e2] at e

theorem addProds_error {tokens : List (Sym × String)} (ht : ∀ A, mget? (Sym.nt A) tokens = none) {i : Nat} {ps : List ProdRule}
    {syms : List (String × Sym × RuleRef)} {prods : List (Sym × String)} {e : GrammarError}
    (hT : TableOk tokens syms) (h : addProds tokens i ps syms prods = .error e) :
    ∃ (k : Nat) (p : ProdRule) (a : Nat) (ref : RuleRef), ps[k]? = some p ∧ symLookup p.name syms = some (.t a, ref) ∧ e = .conflictingRules ref (.prod (i + k)) := by
  induction ps generalizing i syms prods with
  | nil => simp [addProds] at h
  | cons r ps ih =>
    rw [addProds] at h
    cases hl : symLookup r.name syms with
    | some v =>
      obtain ⟨v1, v2⟩ := v
      simp only [hl] at h
      by_cases hv : (mget? v1 tokens).isSome
      · rw [if_pos hv] at h
        rcases hT _ _ _ hl with ⟨a, j, h5, h6, h7⟩ | ⟨A, j, h5, h6⟩
        · exact ⟨0, r, a, v2, rfl, by rw [hl, h5], by simpa using h.symm⟩
        · rw [h5, ht] at hv; simp at hv
      · rw [if_neg hv] at h
        obtain ⟨k, p, a, ref, h1, h2, h3⟩ := ih hT h
        exact ⟨k + 1, p, a, ref, by simpa using h1, h2, by rw [h3, show i + 1 + k = i + (k + 1) by omega]⟩
    | none =>
      simp only [hl] at h
      have hT' : TableOk tokens (syms ++ [(r.name, .nt (i % u16Size), .prod i)]) := by
        intro n s ref hn
        rw [symLookup_append] at hn
        cases hq : symLookup n syms with
        | some w => rw [hq] at hn; exact hT n s ref (by rw [hq]; simpa using hn)
        | none =>
          rw [hq] at hn
          by_cases e : r.name = n
          · simp [symLookup, e] at hn; exact .inr ⟨_, _, hn.1.symm, hn.2.symm⟩
          · simp [symLookup, e] at hn
      obtain ⟨k, p, a, ref, h1, h2, h3⟩ := ih hT' h
      refine ⟨k + 1, p, a, ref, by simpa using h1, ?_, by rw [h3, show i + 1 + k = i + (k + 1) by omega]⟩
      rw [symLookup_append] at h2
      cases hq : symLookup p.name syms with
      | some w => rw [hq] at h2; simpa using h2
      | none =>
        rw [hq] at h2
        by_cases e2 : r.name = p.name
        · simp [symLookup, e2] at h2
        · simp [symLookup, e2] at h2

/-- the keys of the production map -/
theorem addProds_keys {tokens : List (Sym × String)} {i : Nat} {ps : List ProdRule}
    {syms s' : List (String × Sym × RuleRef)} {prods p' : List (Sym × String)}
    (h : addProds tokens i ps syms prods = .ok (s', p')) (hs : MSorted prods) :
    MSorted p' ∧ (∀ s, (mget? s prods).isSome → (mget? s p').isSome) ∧
    ∀ s, (mget? s p').isSome → (mget? s prods).isSome ∨ ∃ k < ps.length, s = .nt ((i + k) % u16Size) := by
  induction ps generalizing i syms prods with
  | nil =>
    simp only [addProds, Except.ok.injEq, Prod.mk.injEq] at h
    obtain ⟨rfl, rfl⟩ := h
    simp [hs]
  | cons r ps ih =>
    rw [addProds] at h
    cases hl : symLookup r.name syms with
    | some v =>
      obtain ⟨v1, v2⟩ := v
      simp only [hl] at h
      split at h
      · simp at h
      · obtain ⟨h1, h2, h3⟩ := ih h hs
        refine ⟨h1, h2, fun s hs => ?_⟩
        rcases h3 s hs with h | ⟨k, hk, e⟩
        · exact .inl h
        · exact .inr ⟨k + 1, by simp; omega, by rw [e, show i + 1 + k = i + (k + 1) by omega]⟩
    | none =>
      simp only [hl] at h
      obtain ⟨h1, h2, h3⟩ := ih h (minsert_sorted hs)
      refine ⟨h1, fun s hs => h2 s ?_, fun s hs => ?_⟩
      · rw [mget?_minsert]; split
        · rfl
        · exact hs
      · rcases h3 s hs with h | ⟨k, hk, e⟩
        · rw [mget?_minsert] at h
          split at h
          · rename_i e; exact .inr ⟨0, by simp, by simpa using e⟩
          · exact .inl h
        · exact .inr ⟨k + 1, by simp; omega, by rw [e, show i + 1 + k = i + (k + 1) by omega]⟩

/-- every non-terminal of the name table is in the production map -/
theorem addProds_declared {tokens : List (Sym × String)} {i : Nat} {ps : List ProdRule}
    {syms s' : List (String × Sym × RuleRef)} {prods p' : List (Sym × String)}
    (h : addProds tokens i ps syms prods = .ok (s', p')) (hs : MSorted prods)
    (hd : ∀ n A ref, symLookup n syms = some (.nt A, ref) → (mget? (Sym.nt A) prods).isSome) :
    ∀ n A ref, symLookup n s' = some (.nt A, ref) → (mget? (Sym.nt A) p').isSome := by
  induction ps generalizing i syms prods with
  | nil =>
    simp only [addProds, Except.ok.injEq, Prod.mk.injEq] at h
    obtain ⟨rfl, rfl⟩ := h
    exact hd
  | cons r ps ih =>
    rw [addProds] at h
    cases hl : symLookup r.name syms with
    | some v =>
      obtain ⟨v1, v2⟩ := v
      simp only [hl] at h
      split at h
      · simp at h
      · exact ih h hs hd
    | none =>
      simp only [hl] at h
      refine ih h (minsert_sorted hs) ?_
      intro n A ref hn
      rw [symLookup_append] at hn
      rw [mget?_minsert]
      split
      · rfl
      · rename_i hne
        cases hq : symLookup n syms with
        | some w => rw [hq] at hn; exact hd n A ref (by rw [hq]; simpa using hn)
        | none =>
          rw [hq] at hn
          by_cases e : r.name = n
          · simp [symLookup, e] at hn; exact absurd (congrArg Sym.nt hn.1.symm) hne
          · simp [symLookup, e] at hn

end Verif
