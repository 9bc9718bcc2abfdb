import Verif.Proofs.GrammarErr

/-! # The grammar the builder returns, and its language -/

set_option autoImplicit false

namespace Verif

/-- everything about a grammar the builder returns -/
structure GrammarOk (rs : RuleSet) (g : Grammar) (base : Nat) (pats : List ProdPattern) : Prop where
  noClash : NoClash rs
  named : ∀ n s, resolve rs n = some s → s.index < base
  len : pats.length = rs.operators
  anon : g.anon = (List.range' base pats.length).map Sym.nt
  good : ∀ r ∈ g.rules, GoodRule rs.prods (resolve rs) (tpOf base pats) r
  prod : ∀ p ∈ rs.prods, ∃ A ss, resolve rs p.name = some (.nt A) ∧ Trans (resolve rs) (tpOf base pats) p.pattern ss ∧ HasRule g.rules A ss
  complete : ∀ k p, pats[k]? = some p → Complete (resolve rs) (tpOf base pats) g.rules (base + k) p
  occurs : ∀ q ∈ pats, ∃ p ∈ rs.prods, Occurs q p.pattern
  tokS : MSorted g.tokens
  tokK : ∀ s, (mget? s g.tokens).isSome ↔ ∃ k < rs.tokens.length, s = .t (k % u16Size)
  tokN : rs.tokens.length ≤ u16Size → ∀ k < rs.tokens.length, mget? (Sym.t k) g.tokens = rs.tokens[k]?
  prodS : MSorted g.productions
  prodK : ∀ s, (mget? s g.productions).isSome → ∃ A, s = .nt A ∧ A < base
  prodD : ∀ n A, resolve rs n = some (.nt A) → (mget? (Sym.nt A) g.productions).isSome
  prodN : rs.prods.length ≤ u16Size → ∀ n A, mget? (Sym.nt A) g.productions = some n ↔ resolve rs n = some (.nt A)
  entry : resolve rs rs.entry = some g.entry
  entryO : ∃ p, rs.prods[g.entryOrigin]? = some p ∧ p.name = rs.entry ∧ ∀ j < g.entryOrigin, ∀ q, rs.prods[j]? = some q → q.name ≠ rs.entry
  bound : base ≤ u16Size
  baseLe : base ≤ Nat.max rs.tokens.length rs.prods.length

theorem addProds_names {tokens : List (Sym × String)} : ∀ (ps : List ProdRule) (i : Nat) (syms s' : List (String × Sym × RuleRef)) (prods p' : List (Sym × String)),
    addProds tokens i ps syms prods = .ok (s', p') → i + ps.length ≤ u16Size →
    (∀ n A, mget? (Sym.nt A) prods = some n ↔ symOf syms n = some (.nt A)) → (∀ n A, symOf syms n = some (.nt A) → A < i) →
    ∀ n A, mget? (Sym.nt A) p' = some n ↔ symOf s' n = some (.nt A) := by
  intro ps
  induction ps with
  | nil =>
    intro i syms s' prods p' h _ hp _
    simp only [addProds, Except.ok.injEq, Prod.mk.injEq] at h
    obtain ⟨rfl, rfl⟩ := h
    exact hp
  | cons r ps ih =>
    intro i syms s' prods p' h hi hp hlt
    rw [addProds] at h
    simp only [List.length_cons] at hi
    cases hl : symLookup r.name syms with
    | some v =>
      obtain ⟨v1, v2⟩ := v
      simp only [hl] at h
      split at h
      · simp at h
      · exact ih _ _ _ _ _ h (by omega) hp (fun n A h => Nat.lt_succ_of_lt (hlt n A h))
    | none =>
      simp only [hl] at h
      have hm : i % u16Size = i := Nat.mod_eq_of_lt (by omega)
      rw [hm] at h
      have hso : ∀ n, symOf (syms ++ [(r.name, Sym.nt i, RuleRef.prod i)]) n = if n = r.name then some (.nt i) else symOf syms n := by
        intro n
        unfold symOf
        rw [symLookup_append]
        by_cases e : r.name = n
        · subst e; simp [hl, symLookup]
        · simp [symLookup, e, Ne.symm e]
      refine ih _ _ _ _ _ h (by omega) ?_ ?_
      · intro n A
        rw [mget?_minsert, hso]
        by_cases e : n = r.name
        · subst e
          rw [if_pos rfl]
          by_cases e2 : A = i
          · subst e2; simp
          · rw [if_neg (by simpa using e2), hp]
            unfold symOf; rw [hl]; simp; omega
        · rw [if_neg e]
          by_cases e2 : A = i
          · subst e2
            rw [if_pos rfl]
            constructor
            · intro h; simp at h; exact absurd h.symm e
            · intro h; exact absurd (hlt n A h) (by omega)
          · rw [if_neg (by simpa using e2), hp]
      · intro n A h
        rw [hso] at h
        split at h
        · simp at h; omega
        · exact Nat.lt_succ_of_lt (hlt n A h)

theorem grammarOk {rs : RuleSet} {g : Grammar} (h : Grammar.fromRuleSet rs = .ok g) : ∃ base pats, GrammarOk rs g base pats := by
  unfold Grammar.fromRuleSet at h
  obtain ⟨b, h0, h⟩ := gres_bind_ok.mp h
  have hb := fromRuleSet_ok h0
  unfold GrammarBuilder.build at h
  obtain ⟨b', h1, h⟩ := gres_bind_ok.mp h
  obtain ⟨s, h2, h⟩ := gres_bind_ok.mp h
  cases hf : rs.prods.findIdx? (fun r => decide (r.name = rs.entry)) with
  | none => rw [hf] at h; simp at h
  | some eo =>
    rw [hf] at h
    simp only [Except.ok.injEq] at h
    obtain ⟨ext, st, l, r2, n2, m2⟩ := addProductionRules_spec rs.prods rs.prods 0 b b' [] (by simp [hb.temp]) (by simp) h1
    have hso : symOf b.symbols = resolve rs := funext hb.symOf
    simp only [List.nil_append, hso] at st l r2 n2 m2
    obtain ⟨nr, hr, hg⟩ := st.rules
    rw [hb.rules, List.nil_append] at hr
    refine ⟨b.maxSymbol + 1, ext, ?_⟩
    have hs : symOf b'.symbols = resolve rs := by rw [st.symbols]; exact hso
    subst h
    constructor
    case noClash => exact hb.noClash
    case named => intro n s hs; have := hb.max n s (by rw [hso]; exact hs); omega
    case len => exact l
    case anon => show b'.anon = _; rw [st.anon, hb.anon, hb.temp]; simp
    case good =>
      intro r hr'
      have := hg r (by rw [← hr]; exact hr')
      rwa [hso] at this
    case prod => exact r2
    case complete =>
      intro k p hk
      have := n2 k p hk
      simp only [List.nil_append, hso] at this
      simpa using this
    case occurs => exact m2
    case tokS => show MSorted b'.tokens; rw [st.tokens]; exact hb.tokS
    case tokK => show ∀ s, (mget? s b'.tokens).isSome ↔ _; rw [st.tokens]; exact hb.tokK
    case tokN => show _ → ∀ k, _ → mget? _ b'.tokens = _; rw [st.tokens]; exact hb.tokN
    case prodS => show MSorted b'.productions; rw [st.productions]; exact hb.prodS
    case prodK =>
      show ∀ s, (mget? s b'.productions).isSome → _
      rw [st.productions]
      intro s hs
      obtain ⟨A, h1, h2⟩ := hb.prodK s hs
      exact ⟨A, h1, by omega⟩
    case prodD =>
      show ∀ n A, _ → (mget? _ b'.productions).isSome
      rw [st.productions]; intro n A h; exact hb.prodD n A (by rw [hso]; exact h)
    case prodN =>
      intro hl n A
      show mget? _ b'.productions = _ ↔ _
      rw [st.productions, ← hso]
      have h0' := h0
      unfold GrammarBuilder.fromRuleSet at h0'
      obtain ⟨⟨s1, t1⟩, h1, h⟩ := gres_bind_ok.mp h0'
      obtain ⟨⟨s2, p2⟩, h2, h⟩ := gres_bind_ok.mp h
      simp only at h h2
      have hno : ∀ n A, symOf s1 n ≠ some (.nt A) := by
        intro n A hn
        obtain ⟨a1, a2, a3, -⟩ := addTokens_ok h1
        unfold symOf at hn
        rw [a3] at hn
        simp only [symLookup, Option.none_or, tokEntry, Option.map_map, Option.map_eq_some_iff] at hn
        obtain ⟨k, -, e⟩ := hn
        simp at e
      have key := addProds_names rs.prods 0 s1 s2 [] p2 h2 (by omega) (by
        intro n A
        rw [mget?_nil]
        constructor
        · intro h; simp at h
        · intro h; exact absurd h (hno n A)) (by
        intro n A h; exact absurd h (hno n A)) n A
      cases hm : maxOpt (s2.map (fun s => s.2.1.index)) with
      | none => rw [hm] at h; simp at h
      | some m =>
        rw [hm] at h
        simp only [Except.ok.injEq] at h
        subst h
        exact key
    case entry =>
      show _ = some s
      rw [← hs]
      unfold GrammarBuilder.getSymbolByName at h2
      unfold symOf
      cases hq : symLookup rs.entry b'.symbols with
      | none => rw [hq] at h2; simp at h2
      | some v => obtain ⟨v1, v2⟩ := v; rw [hq] at h2; simp at h2; simp [h2]
    case entryO =>
      show ∃ p, rs.prods[eo]? = some p ∧ _
      obtain ⟨e1, e2, e3⟩ := List.findIdx?_eq_some_iff_getElem.mp hf
      refine ⟨rs.prods[eo], List.getElem?_eq_getElem e1, by simpa using e2, ?_⟩
      intro j hj q hq he
      obtain ⟨hj', rfl⟩ := List.getElem?_eq_some_iff.mp hq
      have := e3 j hj
      simp at this
      exact this he
    case bound => exact hb.maxLt
    case baseLe => exact hb.maxLe

/-- tokens resolve to their number -/
theorem resolve_token {rs : RuleSet} (hl : rs.tokens.length ≤ u16Size) {n : String} {a : Nat} (h : resolve rs n = some (.t a)) :
    rs.tokens[a]? = some n := by
  unfold resolve at h
  cases hq : tokEntry 0 rs.tokens n with
  | none =>
    rw [hq] at h
    simp only [Option.none_or, prodEntry, Option.map_map, Option.map_eq_some_iff] at h
    obtain ⟨k, -, e⟩ := h
    simp at e
  | some v =>
    rw [hq] at h
    simp only [tokEntry, Option.map_eq_some_iff] at hq
    obtain ⟨k, hk, e⟩ := hq
    obtain ⟨h1, h2, -⟩ := List.findIdx?_eq_some_iff_getElem.mp hk
    rw [← e] at h
    simp at h
    rw [Nat.mod_eq_of_lt (by omega)] at h
    subst h
    rw [List.getElem?_eq_getElem h1]
    simpa using h2

theorem resolve_token' {rs : RuleSet} (hnd : rs.tokens.Nodup) (hl : rs.tokens.length ≤ u16Size) {n : String} {a : Nat} (h : rs.tokens[a]? = some n) :
    resolve rs n = some (.t a) := by
  obtain ⟨ha, hn⟩ := List.getElem?_eq_some_iff.mp h
  unfold resolve
  cases hq : tokEntry 0 rs.tokens n with
  | none => exact absurd (hn ▸ List.getElem_mem ha) (tokEntry_none.mp hq)
  | some v =>
    simp only [tokEntry, Option.map_eq_some_iff] at hq
    obtain ⟨k, hk, e⟩ := hq
    obtain ⟨h1, h2, -⟩ := List.findIdx?_eq_some_iff_getElem.mp hk
    have : k = a := (List.Nodup.getElem_inj_iff hnd).mp (by rw [hn]; simpa using h2)
    rw [← e, this]
    simp
    exact Nat.mod_eq_of_lt (by omega)

/-- two names do not resolve to the same non-terminal -/
theorem resolve_inj {rs : RuleSet} (hl : rs.prods.length ≤ u16Size) {n m : String} {A : Nat} (h1 : resolve rs n = some (.nt A))
    (h2 : resolve rs m = some (.nt A)) : n = m := by
  have key : ∀ x, resolve rs x = some (.nt A) → ∃ p, rs.prods[A]? = some p ∧ p.name = x := by
    intro x h
    unfold resolve at h
    cases hq : tokEntry 0 rs.tokens x with
    | some v =>
      rw [hq] at h
      simp only [tokEntry, Option.map_eq_some_iff] at hq
      obtain ⟨k, hk, e⟩ := hq
      rw [← e] at h
      simp at h
    | none =>
      rw [hq] at h
      simp only [Option.none_or, prodEntry, Option.map_map, Option.map_eq_some_iff] at h
      obtain ⟨k, hk, e⟩ := h
      obtain ⟨g1, g2, -⟩ := List.findIdx?_eq_some_iff_getElem.mp hk
      simp at e
      rw [Nat.mod_eq_of_lt (by omega)] at e
      subst e
      exact ⟨_, List.getElem?_eq_getElem g1, by simpa using g2⟩
  obtain ⟨p, hp, rfl⟩ := key n h1
  obtain ⟨q, hq, rfl⟩ := key m h2
  rw [hp] at hq
  rw [Option.some.inj hq]

theorem resolve_kind {rs : RuleSet} {n : String} {s : Sym} (h : resolve rs n = some s) : (∃ a, s = .t a) ∨ ∃ A, s = .nt A := by
  unfold resolve at h
  cases hq : tokEntry 0 rs.tokens n with
  | some v =>
    rw [hq] at h
    simp only [tokEntry, Option.map_eq_some_iff] at hq
    obtain ⟨k, hk, e⟩ := hq
    rw [← e] at h
    simp at h
    exact .inl ⟨_, h.symm⟩
  | none =>
    rw [hq] at h
    simp only [Option.none_or, prodEntry, Option.map_map, Option.map_eq_some_iff] at h
    obtain ⟨k, hk, e⟩ := h
    exact .inr ⟨_, e.symm⟩

theorem Derives.append {rules : List Rule} {s1 s2 : List Sym} {u v : List Nat} (h1 : Derives rules s1 u) (h2 : Derives rules s2 v) :
    Derives rules (s1 ++ s2) (u ++ v) := by
  induction h1 with
  | nil => exact h2
  | eps _ ih => exact .eps ih
  | term _ ih => exact .term ih
  | nonterm hr hd _ _ ih => rw [List.append_assoc]; exact .nonterm hr hd ih

theorem Derives.split {rules : List Rule} {s1 s2 : List Sym} {w : List Nat} (h : Derives rules (s1 ++ s2) w) :
    ∃ u v, w = u ++ v ∧ Derives rules s1 u ∧ Derives rules s2 v := by
  induction s1 generalizing w with
  | nil => exact ⟨[], w, rfl, .nil, h⟩
  | cons s s1 ih =>
    rw [List.cons_append] at h
    cases h with
    | eps h => obtain ⟨u, v, e, h1, h2⟩ := ih h; exact ⟨u, v, e, .eps h1, h2⟩
    | term h => obtain ⟨u, v, e, h1, h2⟩ := ih h; exact ⟨_ :: u, v, by rw [e]; rfl, .term h1, h2⟩
    | nonterm hr hd h => obtain ⟨u, v, e, h1, h2⟩ := ih h; exact ⟨_ ++ u, v, by rw [e, List.append_assoc], .nonterm hr hd h1, h2⟩

/-- symbol strings interpreted by languages for the non-terminals -/
inductive Interp (I : Nat → List Nat → Prop) : List Sym → List Nat → Prop
  | nil : Interp I [] []
  | eps {ss : List Sym} {w : List Nat} : Interp I ss w → Interp I (.eps :: ss) w
  | term {a : Nat} {ss : List Sym} {w : List Nat} : Interp I ss w → Interp I (.t a :: ss) (a :: w)
  | nonterm {A : Nat} {ss : List Sym} {u v : List Nat} : I A u → Interp I ss v → Interp I (.nt A :: ss) (u ++ v)

theorem Interp.split {I : Nat → List Nat → Prop} {s1 s2 : List Sym} {w : List Nat} (h : Interp I (s1 ++ s2) w) :
    ∃ u v, w = u ++ v ∧ Interp I s1 u ∧ Interp I s2 v := by
  induction s1 generalizing w with
  | nil => exact ⟨[], w, rfl, .nil, h⟩
  | cons s s1 ih =>
    rw [List.cons_append] at h
    cases h with
    | eps h => obtain ⟨u, v, e, h1, h2⟩ := ih h; exact ⟨u, v, e, .eps h1, h2⟩
    | term h => obtain ⟨u, v, e, h1, h2⟩ := ih h; exact ⟨_ :: u, v, by rw [e]; rfl, .term h1, h2⟩
    | nonterm hd h => obtain ⟨u, v, e, h1, h2⟩ := ih h; exact ⟨_ ++ u, v, by rw [e, List.append_assoc], .nonterm hd h1, h2⟩

theorem Interp.one {I : Nat → List Nat → Prop} {A : Nat} {w : List Nat} (h : Interp I [.nt A] w) : I A w := by
  cases h with
  | nonterm h1 h2 => cases h2; simpa using h1

theorem Derives.interp {rules : List Rule} {I : Nat → List Nat → Prop} (hc : ∀ r ∈ rules, ∀ w, Interp I r.rhs w → I r.lhs w) {ss : List Sym} {w : List Nat}
    (h : Derives rules ss w) : Interp I ss w := by
  induction h with
  | nil => exact .nil
  | eps _ ih => exact .eps ih
  | term _ ih => exact .term ih
  | nonterm hr _ _ i1 i2 => exact .nonterm (hc _ hr _ i1) i2

/-- the language the non-terminals should have -/
def ntLang (rs : RuleSet) (tp : Nat → Option ProdPattern) (A : Nat) (w : List Nat) : Prop :=
  match tp A with
  | some p => Den rs p w
  | none => ∃ pr ∈ rs.prods, resolve rs pr.name = some (.nt A) ∧ Den rs pr.pattern w

theorem Trans.sound {rs : RuleSet} {base : Nat} {pats : List ProdPattern} (hT : rs.tokens.length ≤ u16Size) (hP : rs.prods.length ≤ u16Size)
    (named : ∀ n s, resolve rs n = some s → s.index < base) {p : ProdPattern} {ss : List Sym}
    (h : Trans (resolve rs) (tpOf base pats) p ss) {w : List Nat} (hi : Interp (ntLang rs (tpOf base pats)) ss w) : Den rs p w := by
  have tp_case : ∀ {A : Nat} {p : ProdPattern} {w : List Nat}, tpOf base pats A = some p → Interp (ntLang rs (tpOf base pats)) [.nt A] w → Den rs p w := by
    intro A p w h hi
    have := hi.one
    unfold ntLang at this
    rwa [h] at this
  induction h generalizing w with
  | @rule n s hs =>
    rcases resolve_kind hs with ⟨a, rfl⟩ | ⟨A, rfl⟩
    · cases hi with
      | term h => cases h; exact .token (resolve_token hT hs)
    · have h1 := hi.one
      have hb := named _ _ hs
      simp only [Sym.index] at hb
      unfold ntLang at h1
      have ht : tpOf base pats A = none := by unfold tpOf; rw [if_pos hb]
      rw [ht] at h1
      obtain ⟨pr, h2, h3, h4⟩ := h1
      rw [resolve_inj hP hs h3]
      exact .prod h2 h4
  | epsilon => cases hi with | eps h => cases h; exact .epsilon
  | seqNil => cases hi; exact .seqNil
  | seqCons _ _ i1 i2 =>
    obtain ⟨u, v, rfl, h1, h2⟩ := hi.split
    exact .seqCons (i1 h1) (i2 h2)
  | alt h => exact tp_case h hi
  | plus h => exact tp_case h hi
  | star h => exact tp_case h hi
  | opt h => exact tp_case h hi

theorem GoodRule.sound {rs : RuleSet} {base : Nat} {pats : List ProdPattern} (hT : rs.tokens.length ≤ u16Size) (hP : rs.prods.length ≤ u16Size)
    (named : ∀ n s, resolve rs n = some s → s.index < base) {r : Rule}
    (h : GoodRule rs.prods (resolve rs) (tpOf base pats) r) (w : List Nat) (hi : Interp (ntLang rs (tpOf base pats)) r.rhs w) :
    ntLang rs (tpOf base pats) r.lhs w := by
  rcases h with ⟨p, ht, hr⟩ | ⟨pr, h1, h2, h3⟩
  · have self : ∀ v, Interp (ntLang rs (tpOf base pats)) [.nt r.lhs] v → Den rs p v := by
      intro v hv
      have := hv.one
      unfold ntLang at this
      rwa [ht] at this
    unfold ntLang
    rw [ht]
    generalize hrhs : r.rhs = rhs at hr hi
    cases hr with
    | alt h1 h2 => exact .alt h1 (h2.sound hT hP named hi)
    | plusOne h => exact .plusOne (h.sound hT hP named hi)
    | plusMore h =>
      obtain ⟨u, v, rfl, h1, h2⟩ := hi.split
      exact .plusMore (h.sound hT hP named h1) (self v h2)
    | starNil => cases hi with | eps h => cases h; exact .starNil
    | starMore h =>
      obtain ⟨u, v, rfl, h1, h2⟩ := hi.split
      exact .starMore (h.sound hT hP named h1) (self v h2)
    | optSome h => exact .optSome (h.sound hT hP named hi)
    | optNone => cases hi with | eps h => cases h; exact .optNone
  · have hb := named _ _ h2
    simp only [Sym.index] at hb
    unfold ntLang
    have ht : tpOf base pats r.lhs = none := by unfold tpOf; rw [if_pos hb]
    rw [ht]
    exact ⟨pr, List.mem_of_getElem? h1, h2, h3.sound hT hP named hi⟩

theorem derives_one {rules : List Rule} {A : Nat} {ss : List Sym} {w : List Nat} (h : HasRule rules A ss) (hd : Derives rules ss w) : Derives rules [.nt A] w := by
  obtain ⟨r, hr, rfl, rfl⟩ := h
  have := Derives.nonterm hr hd .nil
  simpa using this

theorem GrammarOk.complete' {rs : RuleSet} {g : Grammar} {base : Nat} {pats : List ProdPattern} (h : GrammarOk rs g base pats) {A : Nat} {p : ProdPattern}
    (ht : tpOf base pats A = some p) : Complete (resolve rs) (tpOf base pats) g.rules A p := by
  unfold tpOf at ht
  split at ht
  · simp at ht
  · have := h.complete _ _ ht
    rwa [show base + (A - base) = A by omega] at this

theorem Den.complete {rs : RuleSet} {g : Grammar} {base : Nat} {pats : List ProdPattern} (h : GrammarOk rs g base pats) (hT : rs.tokens.length ≤ u16Size)
    {p : ProdPattern} {w : List Nat} (hd : Den rs p w) : ∀ ss, Trans (resolve rs) (tpOf base pats) p ss → Derives g.rules ss w := by
  induction hd with
  | token hi =>
    intro ss ht
    cases ht with
    | rule hs =>
      rw [resolve_token' h.noClash.1 hT hi] at hs
      rw [← Option.some.inj hs]
      exact .term .nil
  | prod hr hd ih =>
    intro ss ht
    cases ht with
    | rule hs =>
      obtain ⟨A, ss', h1, h2, h3⟩ := h.prod _ hr
      rw [h1] at hs
      rw [← Option.some.inj hs]
      exact derives_one h3 (ih _ h2)
  | epsilon => intro ss ht; cases ht; exact .eps .nil
  | seqNil => intro ss ht; cases ht; exact .nil
  | seqCons _ _ i1 i2 =>
    intro ss ht
    cases ht with
    | seqCons t1 t2 => exact (i1 _ t1).append (i2 _ t2)
  | alt hp _ ih =>
    intro ss ht
    cases ht with
    | alt ht =>
      obtain ⟨ss', h1, h2⟩ := h.complete' ht _ hp
      exact derives_one h2 (ih _ h1)
  | plusOne _ ih =>
    intro ss ht
    cases ht with
    | plus ht =>
      obtain ⟨ss', h1, h2, h3⟩ := h.complete' ht
      exact derives_one h2 (ih _ h1)
  | plusMore _ _ i1 i2 =>
    intro ss ht
    cases ht with
    | plus ht =>
      obtain ⟨ss', h1, h2, h3⟩ := h.complete' ht
      exact derives_one h3 ((i1 _ h1).append (i2 _ (.plus ht)))
  | starNil =>
    intro ss ht
    cases ht with
    | star ht =>
      obtain ⟨ss', h1, h2, h3⟩ := h.complete' ht
      exact derives_one h2 (.eps .nil)
  | starMore _ _ i1 i2 =>
    intro ss ht
    cases ht with
    | star ht =>
      obtain ⟨ss', h1, h2, h3⟩ := h.complete' ht
      exact derives_one h3 ((i1 _ h1).append (i2 _ (.star ht)))
  | optNone =>
    intro ss ht
    cases ht with
    | opt ht =>
      obtain ⟨ss', h1, h2, h3⟩ := h.complete' ht
      exact derives_one h3 (.eps .nil)
  | optSome _ ih =>
    intro ss ht
    cases ht with
    | opt ht =>
      obtain ⟨ss', h1, h2, h3⟩ := h.complete' ht
      exact derives_one h2 (ih _ h1)

/-- the language of a name -/
theorem GrammarOk.language {rs : RuleSet} {g : Grammar} {base : Nat} {pats : List ProdPattern} (h : GrammarOk rs g base pats) (hT : rs.tokens.length ≤ u16Size)
    (hP : rs.prods.length ≤ u16Size) {n : String} {s : Sym} (hn : resolve rs n = some s) (w : List Nat) :
    Derives g.rules [s] w ↔ Den rs (.rule n) w := by
  constructor
  · intro hd
    have := hd.interp (I := ntLang rs (tpOf base pats)) (fun r hr w hi => (h.good r hr).sound hT hP h.named w hi)
    exact (Trans.rule hn : Trans (resolve rs) (tpOf base pats) (.rule n) [s]).sound hT hP h.named this
  · intro hd
    exact hd.complete h hT _ (.rule hn)

end Verif
