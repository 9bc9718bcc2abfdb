import Verif.Proofs.GrammarLang
import Verif.Proofs.GrammarOrigin
import Mathlib.Data.List.Perm.Subperm

/-!
# C16–C19: the grammar builder

`Verif/Spec/Grammar.lean` says what names, EBNF bodies (`Den`), context-free derivations (`Derives`) and well-formed grammars are.
-/

set_option autoImplicit false

namespace Verif

/-- the name of the rule a reference points to -/
def RuleRef.nameIn (rs : RuleSet) : RuleRef → Option String
  | .token i => rs.tokens[i]?
  | .prod i => (rs.prods[i]?).map (·.name)

/-! ## Example -/

/-- a rule set used as example: two tokens, a list production with star and alternative, a name defined twice -/
def listRules : RuleSet where
  entry := "list"
  tokens := ["x", "y"]
  prods := [⟨"list", none, .sequence [.rule "x", .zeroOrMany (.alternative [.rule "y", .rule "pair"])]⟩,
    ⟨"pair", none, .sequence [.rule "x", .rule "y"]⟩, ⟨"pair", some "opt", .optional (.rule "y")⟩]

def listGrammar : Grammar where
  rules := [⟨3, [.t 1], 0⟩, ⟨3, [.nt 1], 0⟩, ⟨2, [.eps], 0⟩, ⟨2, [.nt 3, .nt 2], 0⟩, ⟨0, [.t 0, .nt 2], 0⟩, ⟨1, [.t 0, .t 1], 1⟩,
    ⟨4, [.t 1], 2⟩, ⟨4, [.eps], 2⟩, ⟨1, [.nt 4], 2⟩]
  anon := [.nt 2, .nt 3, .nt 4]
  productions := [(.nt 0, "list"), (.nt 1, "pair")]
  tokens := [(.t 0, "x"), (.t 1, "y")]
  entry := .nt 0
  entryOrigin := 0

/-- does a build return this grammar? -/
def GRes.same {α : Type} [DecidableEq α] : GRes α → α → Bool
  | .ok a, b => a = b
  | .error _, _ => false

theorem GRes.of_same {α : Type} [DecidableEq α] {x : GRes α} {a : α} (h : x.same a = true) : x = .ok a := by
  cases x with
  | ok b => simp [GRes.same] at h; rw [h]
  | error e => simp [GRes.same] at h

theorem listGrammar_built : Grammar.fromRuleSet listRules = .ok listGrammar := GRes.of_same (by decide)

/-! ## C16 — name resolution -/

theorem build_of_builder {rs : RuleSet} {b : GrammarBuilder} (hb : BuilderOk rs b) :
    (∃ g, b.build rs = .ok g) ∨
    (b.build rs = .error .panic ∧ ¬ rs.Fits) ∨
    (∃ n, b.build rs = .error (.missingSymbol n) ∧
      ((∃ p ∈ rs.prods, Mentions p.pattern n ∧ ¬ Defined rs n) ∨ (n = rs.entry ∧ ∀ p ∈ rs.prods, p.name ≠ rs.entry))) := by
  have hso : symOf b.symbols = resolve rs := funext hb.symOf
  have hun : ∀ x, symLookup x b.symbols = none → ¬ Defined rs x := by
    intro x hx hd
    apply resolve_defined.mpr hd
    rw [← hso]; unfold symOf; rw [hx]; rfl
  cases h : b.build rs with
  | ok g => exact .inl ⟨g, rfl⟩
  | error e =>
    right
    unfold GrammarBuilder.build at h
    rcases gres_bind_error.mp h with h | ⟨b', h1, h⟩
    · rcases addProductionRules_error rs.prods 0 b e (fun p hp => hb.prod hp) h with ⟨rfl, hr⟩ | ⟨x, rfl, ⟨p, hp, hm⟩, hx⟩
      · left
        refine ⟨rfl, fun hf => hr ?_⟩
        rcases hf with hf | hf
        · left; exact hf
        · right
          have h1 := hb.maxLe
          have h2 := hb.temp
          have : b.tempCount + b.maxSymbol + rs.operators < u16Size := by
            unfold u16Size
            simp only [Nat.max_def] at h1
            have h3 : max rs.tokens.length rs.prods.length = if rs.tokens.length ≤ rs.prods.length then rs.prods.length else rs.tokens.length := rfl
            rw [h3] at hf
            omega
          exact this
      · right; exact ⟨x, rfl, .inl ⟨p, hp, hm, hun x hx⟩⟩
    · obtain ⟨ext, st, -⟩ := addProductionRules_spec rs.prods rs.prods 0 b b' [] (by simp [hb.temp]) (by simp) h1
      rcases gres_bind_error.mp h with h | ⟨s, h2, h⟩
      · right
        unfold GrammarBuilder.getSymbolByName at h
        rw [st.symbols] at h
        cases hq : symLookup rs.entry b.symbols with
        | some v => rw [hq] at h; simp at h
        | none =>
          rw [hq] at h
          simp only [Except.error.injEq] at h
          refine ⟨rs.entry, by rw [← h], .inr ⟨rfl, ?_⟩⟩
          intro p hp he
          exact hun _ hq (.inr ⟨p, hp, he⟩)
      · right
        cases hf : rs.prods.findIdx? (fun r => decide (r.name = rs.entry)) with
        | some i => rw [hf] at h; simp at h
        | none =>
          rw [hf] at h
          simp only [Except.error.injEq] at h
          refine ⟨rs.entry, by rw [← h], .inr ⟨rfl, ?_⟩⟩
          simpa using hf

/-- what `Grammar.fromRuleSet` can do, for every rule set -/
theorem fromRuleSet_outcomes (rs : RuleSet) :
    (∃ g, Grammar.fromRuleSet rs = .ok g ∧ NoClash rs) ∨
    (∃ a b n, Grammar.fromRuleSet rs = .error (.conflictingRules a b) ∧ ¬ NoClash rs ∧ a ≠ b ∧ a.nameIn rs = some n ∧ b.nameIn rs = some n ∧ ∃ i, a = .token i) ∨
    (Grammar.fromRuleSet rs = .error .panic ∧ NoClash rs ∧ (¬ rs.Fits ∨ (rs.tokens = [] ∧ rs.prods = []))) ∨
    (∃ n, Grammar.fromRuleSet rs = .error (.missingSymbol n) ∧ NoClash rs ∧
      ((∃ p ∈ rs.prods, Mentions p.pattern n ∧ ¬ Defined rs n) ∨ (n = rs.entry ∧ ∀ p ∈ rs.prods, p.name ≠ rs.entry))) := by
  unfold Grammar.fromRuleSet
  cases h : GrammarBuilder.fromRuleSet rs with
  | ok b =>
    have hb := fromRuleSet_ok h
    rcases build_of_builder hb with ⟨g, hg⟩ | ⟨hg, hf⟩ | ⟨n, hg, hc⟩
    · left; exact ⟨g, hg, hb.noClash⟩
    · right; right; left; exact ⟨hg, hb.noClash, .inl hf⟩
    · right; right; right; exact ⟨n, hg, hb.noClash, hc⟩
  | error e =>
    rcases fromRuleSet_error h with ⟨i, j, n, h1, h2, h3, rfl⟩ | ⟨i, j, n, p, h1, h2, h3, rfl⟩ | ⟨rfl, h1, h2⟩
    · right; left
      refine ⟨_, _, n, rfl, ?_, ?_, h2, h3, i, rfl⟩
      · rintro ⟨hn, -⟩
        obtain ⟨hi, e1⟩ := List.getElem?_eq_some_iff.mp h2
        obtain ⟨hj, e2⟩ := List.getElem?_eq_some_iff.mp h3
        have := (List.Nodup.getElem_inj_iff hn).mp (e1.trans e2.symm)
        omega
      · intro e; simp at e; omega
    · right; left
      refine ⟨_, _, n, rfl, ?_, by simp, h1, by simp [RuleRef.nameIn, h2, h3], i, rfl⟩
      rintro ⟨-, hn⟩
      exact hn p (List.mem_of_getElem? h2) (h3 ▸ List.mem_of_getElem? h1)
    · right; right; left
      refine ⟨rfl, ⟨by rw [h1]; exact List.nodup_nil, by rw [h2]; simp⟩, .inr ⟨h1, h2⟩⟩

/-- A conflict is reported exactly when two tokens share a name or a production has the name of a token. -/
theorem C16_conflict_iff (rs : RuleSet) :
    (∃ a b, Grammar.fromRuleSet rs = .error (.conflictingRules a b)) ↔ ¬ NoClash rs := by
  rcases fromRuleSet_outcomes rs with ⟨g, h, hn⟩ | ⟨a, b, n, h, hn, -⟩ | ⟨h, hn, -⟩ | ⟨n, h, hn, -⟩
  · simp [h, hn]
  · exact ⟨fun _ => hn, fun _ => ⟨a, b, h⟩⟩
  · simp [h, hn]
  · simp [h, hn]

/-- The two rules a conflict names are different and have the same name; the first one is a token. -/
theorem C16_conflict_names (rs : RuleSet) (a b : RuleRef) (h : Grammar.fromRuleSet rs = .error (.conflictingRules a b)) :
    a ≠ b ∧ (∃ n, a.nameIn rs = some n ∧ b.nameIn rs = some n) ∧ ∃ i, a = .token i := by
  rcases fromRuleSet_outcomes rs with ⟨g, h', hn⟩ | ⟨a', b', n, h', hn, h1, h2, h3, h4⟩ | ⟨h', hn, -⟩ | ⟨n, h', hn, -⟩
  · rw [h'] at h; simp at h
  · rw [h'] at h
    simp only [Except.error.injEq, GrammarError.conflictingRules.injEq] at h
    obtain ⟨rfl, rfl⟩ := h
    exact ⟨h1, ⟨n, h2, h3⟩, h4⟩
  · rw [h'] at h; simp at h
  · rw [h'] at h; simp at h

/-- A missing symbol is reported only for a name used in a body that nothing defines, or for the entry when no production has its
name. -/
theorem C16_missing (rs : RuleSet) (n : String) (h : Grammar.fromRuleSet rs = .error (.missingSymbol n)) :
    (∃ p ∈ rs.prods, Mentions p.pattern n ∧ ¬ Defined rs n) ∨ (n = rs.entry ∧ ∀ p ∈ rs.prods, p.name ≠ rs.entry) := by
  rcases fromRuleSet_outcomes rs with ⟨g, h', hn⟩ | ⟨a', b', n', h', -⟩ | ⟨h', hn, -⟩ | ⟨n', h', hn, hc⟩
  · rw [h'] at h; simp at h
  · rw [h'] at h; simp at h
  · rw [h'] at h; simp at h
  · rw [h'] at h
    simp only [Except.error.injEq, GrammarError.missingSymbol.injEq] at h
    subst h; exact hc

/-- every name used in a built grammar is defined -/
theorem trans_mentions {so : String → Option Sym} {tp : Nat → Option ProdPattern} {rules : List Rule}
    (hc : ∀ A p, tp A = some p → Complete so tp rules A p) :
    ∀ {p : ProdPattern} {n : String}, Mentions p n → ∀ ss, Trans so tp p ss → so n ≠ none := by
  intro p n hm
  induction hm with
  | rule n => intro ss ht; cases ht with | rule h => rw [h]; simp
  | @sequence ps p n hp _ ih =>
    intro ss ht
    have key : ∀ ps ss, Trans so tp (.sequence ps) ss → p ∈ ps → ∃ ss', Trans so tp p ss' := by
      intro ps
      induction ps with
      | nil => intro ss _ h; simp at h
      | cons q qs ihq =>
        intro ss ht hmem
        cases ht with
        | seqCons t1 t2 =>
          rcases List.mem_cons.mp hmem with rfl | hmem
          · exact ⟨_, t1⟩
          · exact ihq _ t2 hmem
    obtain ⟨ss', h⟩ := key ps ss ht hp
    exact ih _ h
  | @alternative ps p n hp _ ih =>
    intro ss ht
    cases ht with
    | alt ht =>
      obtain ⟨ss', h1, -⟩ := hc _ _ ht p hp
      exact ih _ h1
  | oneOrMany _ ih => intro ss ht; cases ht with | plus ht => obtain ⟨ss', h1, -⟩ := hc _ _ ht; exact ih _ h1
  | zeroOrMany _ ih => intro ss ht; cases ht with | star ht => obtain ⟨ss', h1, -⟩ := hc _ _ ht; exact ih _ h1
  | optional _ ih => intro ss ht; cases ht with | opt ht => obtain ⟨ss', h1, -⟩ := hc _ _ ht; exact ih _ h1

/-- When symbol numbers fit into 16 bits, the build succeeds exactly when no names clash, all names used in bodies are defined, and the
entry is the name of a production. (Only-if does not need the size condition.) -/
theorem C16_ok_iff (rs : RuleSet) (hf : rs.Fits) :
    (∃ g, Grammar.fromRuleSet rs = .ok g) ↔
      NoClash rs ∧ (∀ p ∈ rs.prods, ∀ n, Mentions p.pattern n → Defined rs n) ∧ ∃ p ∈ rs.prods, p.name = rs.entry := by
  constructor
  · rintro ⟨g, hg⟩
    obtain ⟨base, pats, h⟩ := grammarOk hg
    refine ⟨h.noClash, ?_, ?_⟩
    · intro p hp n hm
      obtain ⟨A, ss, -, h2, -⟩ := h.prod p hp
      exact resolve_defined.mp (trans_mentions (fun A p ht => h.complete' ht) hm ss h2)
    · obtain ⟨p, h1, h2, -⟩ := h.entryO
      exact ⟨p, List.mem_of_getElem? h1, h2⟩
  · rintro ⟨h1, h2, p, hp, he⟩
    rcases fromRuleSet_outcomes rs with ⟨g, h, hn⟩ | ⟨a', b', n', h', hn, -⟩ | ⟨h', hn, hc⟩ | ⟨n', h', hn, hc⟩
    · exact ⟨g, h⟩
    · exact absurd h1 hn
    · rcases hc with hc | ⟨-, hc⟩
      · exact absurd hf hc
      · rw [hc] at hp; simp at hp
    · rcases hc with ⟨q, hq, hm, hd⟩ | ⟨-, hc⟩
      · exact absurd (h2 q hq _ hm) hd
      · exact absurd he (hc p hp)

/-- Only-if direction of `C16_ok_iff`, without the size condition. -/
theorem C16_ok_only_if (rs : RuleSet) (g : Grammar) (hg : Grammar.fromRuleSet rs = .ok g) :
    NoClash rs ∧ (∀ p ∈ rs.prods, ∀ n, Mentions p.pattern n → Defined rs n) ∧ ∃ p ∈ rs.prods, p.name = rs.entry := by
  obtain ⟨base, pats, h⟩ := grammarOk hg
  refine ⟨h.noClash, ?_, ?_⟩
  · intro p hp n hm
    obtain ⟨A, ss, -, h2, -⟩ := h.prod p hp
    exact resolve_defined.mp (trans_mentions (fun A p ht => h.complete' ht) hm ss h2)
  · obtain ⟨p, h1, h2, -⟩ := h.entryO
    exact ⟨p, List.mem_of_getElem? h1, h2⟩

/-- No other outcome: a non-empty rule set that fits never panics the builder and never gives the "terminal on the left side" error. -/
theorem C16_no_other_failure (rs : RuleSet) (hf : rs.Fits) (hne : rs.tokens ≠ [] ∨ rs.prods ≠ []) :
    (∃ g, Grammar.fromRuleSet rs = .ok g) ∨ (∃ a b, Grammar.fromRuleSet rs = .error (.conflictingRules a b)) ∨
      ∃ n, Grammar.fromRuleSet rs = .error (.missingSymbol n) := by
  rcases fromRuleSet_outcomes rs with ⟨g, h, -⟩ | ⟨a, b, n, h, -⟩ | ⟨h, hn, hc⟩ | ⟨n, h, -⟩
  · exact .inl ⟨g, h⟩
  · exact .inr (.inl ⟨a, b, h⟩)
  · rcases hc with hc | ⟨h1, h2⟩
    · exact absurd hf hc
    · rcases hne with hne | hne
      · exact absurd h1 hne
      · exact absurd h2 hne
  · exact .inr (.inr ⟨n, h⟩)

/-- The rule set without any rule panics the builder (maximum of no symbols). -/
theorem C16_empty_panics (entry : String) : Grammar.fromRuleSet ⟨entry, [], []⟩ = .error .panic := rfl

-- non-vacuity: a successful build; the three errors
example : (∃ g, Grammar.fromRuleSet listRules = .ok g) := ⟨_, listGrammar_built⟩
example : listRules.Fits := .inr (by decide)
example : ¬ NoClash ⟨"p", ["x", "y", "x"], []⟩ := by intro h; exact absurd h.1 (by decide)
example : Grammar.fromRuleSet ⟨"p", ["x", "y", "x"], []⟩ = .error (.conflictingRules (.token 0) (.token 2)) := rfl
example : Grammar.fromRuleSet ⟨"p", ["x", "p"], [⟨"p", none, .rule "x"⟩]⟩ = .error (.conflictingRules (.token 1) (.prod 0)) := rfl
example : Grammar.fromRuleSet ⟨"p", ["x"], [⟨"p", none, .rule "y"⟩]⟩ = .error (.missingSymbol "y") := rfl
example : Grammar.fromRuleSet ⟨"x", ["x"], [⟨"p", none, .rule "x"⟩]⟩ = .error (.missingSymbol "x") := rfl

/-! ## C17 — helper non-terminals are fresh -/

theorem mem_keys {ν : Type} {m : List (Sym × ν)} {s : Sym} : s ∈ m.map (·.1) ↔ (mget? s m).isSome := by
  induction m with
  | nil => simp [mget?]
  | cons a m ih =>
    obtain ⟨k, v⟩ := a
    simp only [List.map_cons, List.mem_cons, mget?]
    by_cases e : Key.key s = Key.key k
    · have := Key.inj _ _ e; subst this; simp
    · rw [if_neg e, ← ih]
      constructor
      · rintro (h | h)
        · exact absurd (congrArg Key.key h) e
        · exact h
      · exact .inr

/-- All symbols of a built grammar (named non-terminals, helper non-terminals, terminals) are pairwise different, and there is exactly
one helper per operator. -/
theorem C17_fresh (rs : RuleSet) (g : Grammar) (hg : Grammar.fromRuleSet rs = .ok g) :
    (g.productions.map (·.1) ++ g.anon ++ g.tokens.map (·.1)).Nodup ∧ g.anon.length = rs.operators ∧
      (∀ s ∈ g.anon, ∃ A, s = .nt A) := by
  obtain ⟨base, pats, h⟩ := grammarOk hg
  refine ⟨?_, by rw [h.anon, List.length_map, List.length_range', h.len], ?_⟩
  · have hn1 : (g.productions.map (·.1)).Nodup := h.prodS.keys_nodup
    have hn2 : (g.tokens.map (·.1)).Nodup := h.tokS.keys_nodup
    have hn3 : g.anon.Nodup := by
      rw [h.anon]
      exact List.Nodup.map (fun a b e => by simpa using e) List.nodup_range'
    rw [List.nodup_append, List.nodup_append]
    refine ⟨⟨hn1, hn3, ?_⟩, hn2, ?_⟩
    · intro s hs s' hs' e
      subst e
      obtain ⟨A, rfl, hA⟩ := h.prodK s (mem_keys.mp hs)
      rw [h.anon] at hs'
      simp only [List.mem_map, List.mem_range'_1] at hs'
      obtain ⟨B, ⟨hB, -⟩, e⟩ := hs'
      simp at e; omega
    · intro s hs s' hs' e
      subst e
      obtain ⟨k, -, rfl⟩ := (h.tokK s).mp (mem_keys.mp hs')
      rcases List.mem_append.mp hs with hs | hs
      · obtain ⟨A, e, hA⟩ := h.prodK _ (mem_keys.mp hs)
        simp at e
      · rw [h.anon] at hs
        simp at hs
  · intro s hs
    rw [h.anon] at hs
    obtain ⟨A, -, rfl⟩ := List.mem_map.mp hs
    exact ⟨A, rfl⟩

/-- With at most 65536 tokens and productions every token name and every production name has a symbol of its own. -/
theorem C17_names (rs : RuleSet) (g : Grammar) (hg : Grammar.fromRuleSet rs = .ok g) (hT : rs.tokens.length ≤ 65536)
    (hP : rs.prods.length ≤ 65536) :
    (∀ i n, rs.tokens[i]? = some n → (Sym.t i, n) ∈ g.tokens) ∧
    (∀ p ∈ rs.prods, ∃ A, (Sym.nt A, p.name) ∈ g.productions ∧ ∀ B, (Sym.nt B, p.name) ∈ g.productions → B = A) := by
  obtain ⟨base, pats, h⟩ := grammarOk hg
  constructor
  · intro i n hi
    obtain ⟨hlt, -⟩ := List.getElem?_eq_some_iff.mp hi
    exact mget?_mem (by rw [h.tokN hT i hlt, hi])
  · intro p hp
    obtain ⟨A, ss, h1, -⟩ := h.prod p hp
    refine ⟨A, mget?_mem ((h.prodN hP p.name A).mpr h1), ?_⟩
    intro B hB
    have := (h.prodN hP p.name B).mp (mem_mget? h.prodS hB)
    rw [h1] at this
    simpa using this.symm

/-- With more than 65536 tokens some token silently loses its symbol: the grammar has no entry with its name. -/
theorem C17_too_many_tokens (rs : RuleSet) (g : Grammar) (hg : Grammar.fromRuleSet rs = .ok g) (hT : 65536 < rs.tokens.length) :
    ∃ n ∈ rs.tokens, ∀ s, (s, n) ∉ g.tokens := by
  obtain ⟨base, pats, h⟩ := grammarOk hg
  by_contra hc
  push Not at hc
  have hsub : rs.tokens ⊆ g.tokens.map (·.2) := by
    intro n hn
    obtain ⟨s, hs⟩ := hc n hn
    exact List.mem_map.mpr ⟨_, hs, rfl⟩
  have h1 := (List.subperm_of_subset h.noClash.1 hsub).length_le
  have h2 : g.tokens.map (·.1) ⊆ (List.range 65536).map Sym.t := by
    intro s hs
    obtain ⟨k, -, rfl⟩ := (h.tokK s).mp (mem_keys.mp hs)
    exact List.mem_map.mpr ⟨_, List.mem_range.mpr (Nat.mod_lt _ (by decide)), rfl⟩
  have h3 := (List.subperm_of_subset h.tokS.keys_nodup h2).length_le
  simp only [List.length_map, List.length_range] at h1 h3
  omega

/-- such rule sets exist and are accepted, for every number of tokens -/
theorem many_tokens (n : Nat) : ∃ rs g, Grammar.fromRuleSet rs = .ok g ∧ rs.tokens.length = n := by
  let rs : RuleSet := ⟨"p", (List.range n).map (fun k => String.ofList (List.replicate k 'a')), [⟨"p", none, .epsilon⟩]⟩
  have hf : rs.Fits := .inl (by simp [rs, RuleSet.operators, ProdPattern.operators])
  suffices hok : ∃ g, Grammar.fromRuleSet rs = .ok g by
    obtain ⟨g, hg⟩ := hok
    exact ⟨rs, g, hg, by simp [rs]⟩
  refine (C16_ok_iff rs hf).mpr ⟨⟨?_, ?_⟩, ?_, ⟨_, List.mem_singleton.mpr rfl, rfl⟩⟩
  · refine List.Nodup.map ?_ List.nodup_range
    intro a b e
    have := congrArg (fun s => s.toList.length) e
    simpa using this
  · intro p hp hm
    have : p = ⟨"p", none, .epsilon⟩ := by simpa [rs] using hp
    subst this
    obtain ⟨k, -, e⟩ := List.mem_map.mp hm
    have e2 := congrArg String.toList e
    simp only [String.toList_ofList] at e2
    have : 'p' ∈ List.replicate k 'a' := by rw [e2]; simp
    have := List.eq_of_mem_replicate this
    simp at this
  · intro p hp m hm
    have : p = ⟨"p", none, .epsilon⟩ := by simpa [rs] using hp
    subst this
    cases hm

example : ∃ rs g, Grammar.fromRuleSet rs = .ok g ∧ 65536 < rs.tokens.length := by
  obtain ⟨rs, g, h1, h2⟩ := many_tokens 70000
  exact ⟨rs, g, h1, by omega⟩

/-! ## C18 — desugaring preserves the language -/

/-- For every production name, what its non-terminal derives is what the EBNF productions of that name denote. -/
theorem C18_language (rs : RuleSet) (g : Grammar) (hg : Grammar.fromRuleSet rs = .ok g) (hT : rs.tokens.length ≤ 65536)
    (hP : rs.prods.length ≤ 65536) (A : Nat) (n : String) (hn : (Sym.nt A, n) ∈ g.productions) (w : List Nat) :
    Derives g.rules [.nt A] w ↔ Den rs (.rule n) w := by
  obtain ⟨base, pats, h⟩ := grammarOk hg
  exact h.language hT hP ((h.prodN hP n A).mp (mem_mget? h.prodS hn)) w

/-- In particular the sentences of the grammar are what the entry rule denotes. -/
theorem C18_entry_language (rs : RuleSet) (g : Grammar) (hg : Grammar.fromRuleSet rs = .ok g) (hT : rs.tokens.length ≤ 65536)
    (hP : rs.prods.length ≤ 65536) (w : List Nat) :
    Derives g.rules [g.entry] w ↔ Den rs (.rule rs.entry) w := by
  obtain ⟨base, pats, h⟩ := grammarOk hg
  exact h.language hT hP h.entry w

-- non-vacuity: a sentence of the example and its EBNF derivation: x (y | pair)* on "x y x y"
example : Den listRules (.rule "list") [0, 1, 0, 1] := by
  refine .prod (r := listRules.prods[0]) (by simp [listRules]) ?_
  refine .seqCons (u := [0]) (.token rfl) ?_
  refine .seqCons (u := [1, 0, 1]) (v := []) ?_ .seqNil
  refine .starMore (u := [1]) (v := [0, 1]) (.alt (p := .rule "y") (by simp) (.token rfl)) ?_
  refine .starMore (u := [0, 1]) (v := []) (.alt (p := .rule "pair") (by simp) ?_) .starNil
  refine .prod (r := listRules.prods[1]) (by simp [listRules]) ?_
  exact .seqCons (u := [0]) (.token rfl) (.seqCons (u := [1]) (v := []) (.token rfl) .seqNil)

example : Derives listGrammar.rules [.nt 0] [0, 1, 0, 1] ↔ Den listRules (.rule "list") [0, 1, 0, 1] :=
  C18_language listRules listGrammar listGrammar_built (by decide) (by decide) 0 "list" (by decide) _

/-! ## C19 — built grammars are well-formed -/

theorem Trans.symbols {rs : RuleSet} {base : Nat} {pats : List ProdPattern} {p : ProdPattern} {ss : List Sym}
    (h : Trans (resolve rs) (tpOf base pats) p ss) : ∀ s ∈ ss, s = .eps ∨ (∃ n, resolve rs n = some s) ∨ ∃ A, s = .nt A ∧ ∃ q, tpOf base pats A = some q := by
  induction h with
  | rule h => intro s hs; rw [List.mem_singleton.mp hs]; exact .inr (.inl ⟨_, h⟩)
  | epsilon => intro s hs; rw [List.mem_singleton.mp hs]; exact .inl rfl
  | seqNil => intro s hs; simp at hs
  | seqCons _ _ i1 i2 =>
    intro s hs
    rcases List.mem_append.mp hs with hs | hs
    · exact i1 s hs
    · exact i2 s hs
  | alt h => intro s hs; rw [List.mem_singleton.mp hs]; exact .inr (.inr ⟨_, rfl, _, h⟩)
  | plus h => intro s hs; rw [List.mem_singleton.mp hs]; exact .inr (.inr ⟨_, rfl, _, h⟩)
  | star h => intro s hs; rw [List.mem_singleton.mp hs]; exact .inr (.inr ⟨_, rfl, _, h⟩)
  | opt h => intro s hs; rw [List.mem_singleton.mp hs]; exact .inr (.inr ⟨_, rfl, _, h⟩)

theorem GoodRule.symbols {rs : RuleSet} {base : Nat} {pats : List ProdPattern} {r : Rule} (h : GoodRule rs.prods (resolve rs) (tpOf base pats) r) :
    ∀ s ∈ r.rhs, s = .eps ∨ (∃ n, resolve rs n = some s) ∨ ∃ A, s = .nt A ∧ ∃ q, tpOf base pats A = some q := by
  rcases h with ⟨p, h1, h2⟩ | ⟨pr, h1, h2, h3⟩
  · generalize hrhs : r.rhs = rhs at h2
    have self : ∀ (ss : List Sym), (∀ s ∈ ss, s = .eps ∨ (∃ n, resolve rs n = some s) ∨ ∃ A, s = .nt A ∧ ∃ q, tpOf base pats A = some q) →
        ∀ s ∈ ss ++ [.nt r.lhs], s = .eps ∨ (∃ n, resolve rs n = some s) ∨ ∃ A, s = .nt A ∧ ∃ q, tpOf base pats A = some q := by
      intro ss h s hs
      rcases List.mem_append.mp hs with hs | hs
      · exact h s hs
      · rw [List.mem_singleton.mp hs]; exact .inr (.inr ⟨_, rfl, _, h1⟩)
    cases h2 with
    | alt _ h => exact h.symbols
    | plusOne h => exact h.symbols
    | plusMore h => exact self _ h.symbols
    | starNil => intro s hs; rw [List.mem_singleton.mp hs]; exact .inl rfl
    | starMore h => exact self _ h.symbols
    | optSome h => exact h.symbols
    | optNone => intro s hs; rw [List.mem_singleton.mp hs]; exact .inl rfl
  · exact h3.symbols

/-- Every grammar the builder returns is well-formed: all symbols in rules are declared, the end marker does not occur, the entry is a
declared non-terminal, nothing is declared twice. -/
theorem C19_well_formed (rs : RuleSet) (g : Grammar) (hg : Grammar.fromRuleSet rs = .ok g) : g.WF := by
  obtain ⟨base, pats, h⟩ := grammarOk hg
  obtain ⟨hfresh, -, hnt⟩ := C17_fresh rs g hg
  have hres : ∀ n A, resolve rs n = some (.nt A) → Sym.nt A ∈ g.nonTerminals := fun n A hn =>
    List.mem_append_left _ (mem_keys.mpr (h.prodD n A hn))
  have htp : ∀ A q, tpOf base pats A = some q → Sym.nt A ∈ g.nonTerminals := by
    intro A q hq
    refine List.mem_append_right _ ?_
    rw [h.anon]
    unfold tpOf at hq
    split at hq
    · simp at hq
    · obtain ⟨hlt, -⟩ := List.getElem?_eq_some_iff.mp hq
      exact List.mem_map.mpr ⟨A, by rw [List.mem_range'_1]; omega, rfl⟩
  constructor
  case lhs_declared =>
    intro r hr
    rcases h.good r hr with ⟨p, h1, -⟩ | ⟨pr, -, h2, -⟩
    · exact htp _ _ h1
    · exact hres _ _ h2
  case nt_declared =>
    intro r hr A hA
    rcases (h.good r hr).symbols _ hA with e | ⟨n, hn⟩ | ⟨B, e, q, hq⟩
    · simp at e
    · exact hres _ _ hn
    · simp at e; subst e; exact htp _ _ hq
  case t_declared =>
    intro r hr a ha
    rcases (h.good r hr).symbols _ ha with e | ⟨n, hn⟩ | ⟨B, e, q, hq⟩
    · simp at e
    · refine mem_keys.mpr ((h.tokK _).mpr ?_)
      unfold resolve at hn
      cases hq : tokEntry 0 rs.tokens n with
      | none =>
        rw [hq] at hn
        simp only [Option.none_or, prodEntry, Option.map_map, Option.map_eq_some_iff] at hn
        obtain ⟨k, -, e⟩ := hn
        simp at e
      | some v =>
        rw [hq] at hn
        simp only [tokEntry, Option.map_eq_some_iff] at hq
        obtain ⟨k, hk, e⟩ := hq
        obtain ⟨h1, -, -⟩ := List.findIdx?_eq_some_iff_getElem.mp hk
        rw [← e] at hn
        exact ⟨k, h1, by simpa using hn.symm⟩
    · simp at e
  case no_eof =>
    intro r hr ha
    rcases (h.good r hr).symbols _ ha with e | ⟨n, hn⟩ | ⟨B, e, q, hq⟩
    · simp at e
    · rcases resolve_kind hn with ⟨a, e⟩ | ⟨a, e⟩ <;> simp at e
    · simp at e
  case nts =>
    intro s hs
    rcases List.mem_append.mp hs with hs | hs
    · obtain ⟨A, e, -⟩ := h.prodK s (mem_keys.mp hs); exact ⟨A, e⟩
    · exact hnt s hs
  case ts =>
    intro s hs
    obtain ⟨k, -, e⟩ := (h.tokK s).mp (mem_keys.mp hs)
    exact ⟨_, e⟩
  case entry_declared =>
    obtain ⟨p, h1, h2, -⟩ := h.entryO
    obtain ⟨A, ss, h3, -⟩ := h.prod p (List.mem_of_getElem? h1)
    rw [h2] at h3
    refine ⟨A, ?_, hres _ _ h3⟩
    have := h.entry
    rw [h3] at this
    exact (Option.some.inj this).symm
  case nodup => exact (List.nodup_append.mp hfresh).1
  case nodup_t => exact h.tokS.keys_nodup

/-- Every declared non-terminal has a rule, if no body contains an alternative without branches. -/
theorem C19_every_nonterminal_has_a_rule (rs : RuleSet) (g : Grammar) (hg : Grammar.fromRuleSet rs = .ok g) (hP : rs.prods.length ≤ 65536)
    (hE : rs.NoEmptyAlternative) (A : Nat) (hA : Sym.nt A ∈ g.nonTerminals) : ∃ r ∈ g.rules, r.lhs = A := by
  obtain ⟨base, pats, h⟩ := grammarOk hg
  have hh : ∀ ss, HasRule g.rules A ss → ∃ r ∈ g.rules, r.lhs = A := fun ss ⟨r, h1, h2, _⟩ => ⟨r, h1, h2⟩
  rcases List.mem_append.mp hA with hA | hA
  · obtain ⟨n, hn⟩ := Option.isSome_iff_exists.mp (mem_keys.mp hA)
    have hr := (h.prodN hP n A).mp hn
    have hd : Defined rs n := resolve_defined.mp (by rw [hr]; simp)
    rcases hd with hd | ⟨p, hp, rfl⟩
    · exfalso
      unfold resolve at hr
      cases hq : tokEntry 0 rs.tokens n with
      | none => exact tokEntry_none.mp hq hd
      | some v =>
        rw [hq] at hr
        simp only [tokEntry, Option.map_eq_some_iff] at hq
        obtain ⟨k, -, e⟩ := hq
        rw [← e] at hr; simp at hr
    · obtain ⟨B, ss, h1, -, h3⟩ := h.prod p hp
      rw [hr] at h1
      simp at h1; subst h1
      exact hh ss h3
  · rw [h.anon] at hA
    simp only [List.mem_map, List.mem_range'_1] at hA
    obtain ⟨B, ⟨h1, h2⟩, e⟩ := hA
    simp at e; subst e
    have hp : pats[B - base]? = some pats[B - base] := List.getElem?_eq_getElem (by omega)
    have hc := h.complete _ _ hp
    rw [show base + (B - base) = B by omega] at hc
    generalize hq : pats[B - base] = q at hp hc
    cases q with
    | alternative ps =>
      cases ps with
      | nil =>
        obtain ⟨p, h1, h2⟩ := h.occurs _ (List.mem_of_getElem? hp)
        exact absurd h2 (hE p h1)
      | cons p ps => obtain ⟨ss, -, h3⟩ := hc p List.mem_cons_self; exact hh ss h3
    | oneOrMany p => obtain ⟨ss, -, h3, -⟩ := hc; exact hh ss h3
    | zeroOrMany p => obtain ⟨ss, -, h3, -⟩ := hc; exact hh _ h3
    | optional p => obtain ⟨ss, -, h3, -⟩ := hc; exact hh ss h3
    | sequence ps => exact hc.elim
    | rule n => exact hc.elim
    | epsilon => exact hc.elim

theorem Occurs.trans {a b c : ProdPattern} (h1 : Occurs a b) (h2 : Occurs b c) : Occurs a c := by
  induction h2 with
  | here => exact h1
  | sequence hp _ ih => exact .sequence hp ih
  | alternative hp _ ih => exact .alternative hp ih
  | oneOrMany _ ih => exact .oneOrMany ih
  | zeroOrMany _ ih => exact .zeroOrMany ih
  | optional _ ih => exact .optional ih

theorem Trans.ne_nil {so : String → Option Sym} {tp : Nat → Option ProdPattern} {p : ProdPattern} {ss : List Sym} (h : Trans so tp p ss)
    (hn : ¬ Occurs (.sequence []) p) : ss ≠ [] := by
  cases h with
  | seqNil => exact absurd .here hn
  | @seqCons p ps u v h1 h2 =>
    have : ∀ {p : ProdPattern} {ss : List Sym}, Trans so tp p ss → ¬ Occurs (.sequence []) p → ss ≠ [] := by
      intro p ss h
      induction h with
      | seqNil => intro hn; exact absurd .here hn
      | seqCons _ _ i1 _ =>
        intro hn
        have := i1 (fun h => hn (.sequence List.mem_cons_self h))
        simp [this]
      | _ => intro _; simp
    have := this h1 (fun h => hn (.sequence List.mem_cons_self h))
    simp [this]
  | _ => simp

/-- The empty string is always written with an explicit epsilon: no rule has an empty right side, unless a body contains a sequence
without elements. -/
theorem C19_no_empty_right_side (rs : RuleSet) (g : Grammar) (hg : Grammar.fromRuleSet rs = .ok g) (hE : rs.NoEmptySequence) :
    ∀ r ∈ g.rules, r.rhs ≠ [] := by
  obtain ⟨base, pats, h⟩ := grammarOk hg
  intro r hr
  have htp : ∀ q, tpOf base pats r.lhs = some q → ¬ Occurs (.sequence []) q := by
    intro q hq ho
    unfold tpOf at hq
    split at hq
    · simp at hq
    · obtain ⟨p, h1, h2⟩ := h.occurs q (List.mem_of_getElem? hq)
      exact hE p h1 (ho.trans h2)
  rcases h.good r hr with ⟨p, h1, h2⟩ | ⟨pr, h1, -, h3⟩
  · have hp := htp p h1
    generalize r.rhs = rhs at h2
    cases h2 with
    | alt hm ht => exact ht.ne_nil (fun ho => hp (.alternative hm ho))
    | plusOne ht => exact ht.ne_nil (fun ho => hp (.oneOrMany ho))
    | plusMore ht => simp
    | starNil => simp
    | starMore ht => simp
    | optSome ht => exact ht.ne_nil (fun ho => hp (.optional ho))
    | optNone => simp
  · exact h3.ne_nil (hE pr (List.mem_of_getElem? h1))

theorem Trans.eps {so : String → Option Sym} (hso : ∀ n, so n ≠ some .eps) {tp : Nat → Option ProdPattern} {p : ProdPattern} {ss : List Sym} (h : Trans so tp p ss)
    (hn : ∀ ps, Occurs (.sequence ps) p → ProdPattern.epsilon ∉ ps) : (p = .epsilon ∧ ss = [.eps]) ∨ Sym.eps ∉ ss := by
  have seq : ∀ {p : ProdPattern} {ss : List Sym}, Trans so tp p ss → (∀ ps, Occurs (.sequence ps) p → ProdPattern.epsilon ∉ ps) →
      (p = .epsilon ∧ ss = [.eps]) ∨ Sym.eps ∉ ss := by
    intro p ss h
    induction h with
    | @rule n s h => intro _; right; simp; rintro rfl; exact hso n h
    | epsilon => intro _; exact .inl ⟨rfl, rfl⟩
    | seqNil => intro _; right; simp
    | @seqCons p ps u v _ h2 i1 i2 =>
      intro hn
      have hp : p ≠ .epsilon := by rintro rfl; exact hn _ .here (by simp)
      have h1 := i1 (fun qs h => hn qs (.sequence (by simp) h))
      have h3 : ProdPattern.epsilon ∉ ps := fun h => hn _ .here (by simp [h])
      have h2' := i2 (fun qs h => by
        cases h with
        | here => exact h3
        | sequence hm h => exact hn qs (.sequence (List.mem_cons_of_mem _ hm) h))
      right
      simp only [List.mem_append, not_or]
      refine ⟨?_, ?_⟩
      · rcases h1 with h | h
        · exact absurd h.1 hp
        · exact h
      · rcases h2' with h | h
        · cases h.1
        · exact h
    | _ => intro _; right; simp
  exact seq h hn

/-- An explicit epsilon in the rules is always in front of a right side, unless a sequence written by the user has one among its elements. -/
theorem C19_epsilon_in_front (rs : RuleSet) (g : Grammar) (hg : Grammar.fromRuleSet rs = .ok g) (hE : rs.NoEpsilonInSequence) :
    ∀ r ∈ g.rules, ∀ i, r.rhs[i]? = some .eps → i = 0 := by
  obtain ⟨base, pats, h⟩ := grammarOk hg
  have hso : ∀ n, resolve rs n ≠ some .eps := by
    intro n hn
    unfold resolve at hn
    cases hq : tokEntry 0 rs.tokens n with
    | none =>
      rw [hq] at hn
      simp only [Option.none_or, prodEntry, Option.map_map, Option.map_eq_some_iff] at hn
      obtain ⟨_, _, h⟩ := hn
      simp at h
    | some v =>
      rw [hq] at hn
      simp only [tokEntry, Option.map_eq_some_iff] at hq
      obtain ⟨k, _, rfl⟩ := hq
      simp at hn
  intro r hr
  have htp : ∀ q, tpOf base pats r.lhs = some q → ∀ ps, Occurs (.sequence ps) q → ProdPattern.epsilon ∉ ps := by
    intro q hq ps ho
    unfold tpOf at hq
    split at hq
    · simp at hq
    · obtain ⟨p, h1, h2⟩ := h.occurs q (List.mem_of_getElem? hq)
      exact hE p h1 ps (ho.trans h2)
  have one : ∀ {p : ProdPattern} {ss : List Sym}, Trans (resolve rs) (tpOf base pats) p ss → (∀ ps, Occurs (.sequence ps) p → ProdPattern.epsilon ∉ ps) →
      ∀ (tail : List Sym), Sym.eps ∉ tail → ∀ i, (ss ++ tail)[i]? = some Sym.eps → i = 0 := by
    intro p ss ht ho tail htail i hi
    rcases ht.eps hso ho with ⟨_, rfl⟩ | hne
    · cases i with
      | zero => rfl
      | succ i => simp at hi; exact absurd (List.mem_of_getElem? hi) htail
    · have := List.mem_of_getElem? hi
      simp [hne, htail] at this
  rcases h.good r hr with ⟨p, h1, h2⟩ | ⟨pr, h1, -, h3⟩
  · have hp := htp p h1
    generalize r.rhs = rhs at h2
    cases h2 with
    | alt hm ht => intro i hi; exact one ht (fun ps ho => hp ps (.alternative hm ho)) [] (by simp) i (by simpa using hi)
    | plusOne ht => intro i hi; exact one ht (fun ps ho => hp ps (.oneOrMany ho)) [] (by simp) i (by simpa using hi)
    | plusMore ht => exact one ht (fun ps ho => hp ps (.oneOrMany ho)) _ (by simp)
    | starNil => intro i hi; cases i with
      | zero => rfl
      | succ i => simp at hi
    | starMore ht => exact one ht (fun ps ho => hp ps (.zeroOrMany ho)) _ (by simp)
    | optSome ht => intro i hi; exact one ht (fun ps ho => hp ps (.optional ho)) [] (by simp) i (by simpa using hi)
    | optNone => intro i hi; cases i with
      | zero => rfl
      | succ i => simp at hi
  · intro i hi
    exact one h3 (hE pr (List.mem_of_getElem? h1)) [] (by simp) i (by simpa using hi)

/-- The entry rule expands to the non-terminal of the entry's name, and the entry's source rule is the first production of that name. -/
theorem C19_entry (rs : RuleSet) (g : Grammar) (hg : Grammar.fromRuleSet rs = .ok g) (hP : rs.prods.length ≤ 65536) :
    (g.entry, rs.entry) ∈ g.productions ∧ ∃ p, rs.prods[g.entryOrigin]? = some p ∧ p.name = rs.entry ∧
      ∀ j < g.entryOrigin, ∀ q, rs.prods[j]? = some q → q.name ≠ rs.entry := by
  obtain ⟨base, pats, h⟩ := grammarOk hg
  refine ⟨?_, h.entryO⟩
  obtain ⟨A, e, -⟩ := (C19_well_formed rs g hg).entry_declared
  have := h.entry
  rw [e] at this ⊢
  exact mget?_mem ((h.prodN hP _ _).mpr this)

/-- Every rule has a source production, and a rule that is not one of a helper non-terminal is a rule of that production's name. -/
theorem C19_origin (rs : RuleSet) (g : Grammar) (hg : Grammar.fromRuleSet rs = .ok g) (hP : rs.prods.length ≤ 65536) (r : Rule) (hr : r ∈ g.rules) :
    ∃ p, rs.prods[r.origin]? = some p ∧ (Sym.nt r.lhs ∈ g.anon ∨ (Sym.nt r.lhs, p.name) ∈ g.productions) := by
  obtain ⟨base, pats, h⟩ := grammarOk hg
  obtain ⟨_, _, _, ho⟩ := fromRuleSet_own hg
  rcases h.good r hr with ⟨p, h1, -⟩ | ⟨pr, h1, h2, -⟩
  · refine ⟨_, List.getElem?_eq_getElem (ho r hr).1, .inl ?_⟩
    rw [h.anon]
    unfold tpOf at h1
    split at h1
    · simp at h1
    · obtain ⟨hlt, -⟩ := List.getElem?_eq_some_iff.mp h1
      exact List.mem_map.mpr ⟨_, by rw [List.mem_range'_1]; omega, rfl⟩
  · exact ⟨pr, h1, .inr (mget?_mem ((h.prodN hP _ _).mpr h2))⟩

/-- The rules of a helper non-terminal have the same source production as every rule that uses the helper. -/
theorem C19_helper_origin (rs : RuleSet) (g : Grammar) (hg : Grammar.fromRuleSet rs = .ok g) (r r' : Rule) (hr : r ∈ g.rules) (hr' : r' ∈ g.rules)
    (ha : Sym.nt r.lhs ∈ g.anon) (hu : Sym.nt r.lhs ∈ r'.rhs) : r.origin = r'.origin := by
  obtain ⟨base, os, h1, h2⟩ := fromRuleSet_own hg
  have a := (h2 r hr).2.1 (h1 _ ha)
  have b := (h2 r' hr').2.2 _ hu (h1 _ ha)
  rw [a] at b
  simpa using b

-- non-vacuity
example : listGrammar.WF := C19_well_formed _ _ listGrammar_built
theorem listRules_noEmptyAlternative : listRules.NoEmptyAlternative := by
  intro p hp he
  simp only [listRules, List.mem_cons, List.not_mem_nil, or_false] at hp
  rcases hp with rfl | rfl | rfl
  · cases he with
    | sequence h1 h2 =>
      simp only [List.mem_cons, List.not_mem_nil, or_false] at h1
      rcases h1 with rfl | rfl
      · cases h2
      · cases h2 with
        | zeroOrMany h =>
          cases h with
          | alternative h1 h2 =>
            simp only [List.mem_cons, List.not_mem_nil, or_false] at h1
            rcases h1 with rfl | rfl <;> cases h2
  · cases he with
    | sequence h1 h2 =>
      simp only [List.mem_cons, List.not_mem_nil, or_false] at h1
      rcases h1 with rfl | rfl <;> cases h2
  · cases he with
    | optional h => cases h

end Verif
