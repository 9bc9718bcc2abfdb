import Verif.Proofs.LLCpp
import Verif.Props.Grammar

/-!
# C20–C25: FIRST and FOLLOW sets, the LL(1) table, the LL parser

Hypotheses: `Grammar.WF` (C19: every built grammar has it), `NoEmptyRhs` (C19: every grammar built from a rule set without empty
sequences has it), and for tables `TokensFit` (at most 65535 tokens).
-/

set_option autoImplicit false

namespace Verif

variable {T : Type}

/-- enough iterations for the set computations -/
def setsFuel (g : Grammar) : Nat := g.nonTerminals.length * (g.terminals.length + 2) + 1

/-! ## C20 — FIRST -/

/-- FIRST sets are computed in a bounded number of passes, without panic, and are exactly the textbook sets. -/
theorem C20_first_exact (g : Grammar) (wf : g.WF) (hne : NoEmptyRhs g) :
    ∃ fs, (∀ fuel, setsFuel g ≤ fuel → computeFirstSets g fuel = .ok fs) ∧
      ∀ A, Sym.nt A ∈ g.nonTerminals → ∃ set, mget? (Sym.nt A) fs = some set ∧
        (∀ x : Sym, x.isTerm → (x ∈ set ↔ StartsWith g A x)) ∧ (Sym.eps ∈ set ↔ DerivesEmpty g A) ∧ ∀ B, Sym.nt B ∉ set := by
  obtain ⟨fs, h, hr⟩ := computeFirstSets_spec wf hne
  refine ⟨fs, fun fuel hf => hr fuel (by unfold setsFuel at hf; omega), fun A hA => ?_⟩
  obtain ⟨set, hset⟩ := Option.isSome_iff_exists.mp ((h.good.keys _).mpr hA)
  have hin : ∀ x, InSet fs A x ↔ x ∈ set := fun x => ⟨by rintro ⟨s, h1, h2⟩; rw [hset] at h1; simp at h1; exact h1 ▸ h2, fun h => ⟨set, hset, h⟩⟩
  refine ⟨set, hset, fun x hx => ?_, ?_, fun B hB => h.noNt A B ((hin _).mpr hB)⟩
  · rw [← hin, h.term A x hx, firstIn_iff hx]
  · rw [← hin, h.eps, nul_iff]

/-- the FIRST set of a sequence of symbols, as the table generators use it -/
theorem C20_first_of_sequence (g : Grammar) (wf : g.WF) (hne : NoEmptyRhs g) (fs : SymSets) (fuel : Nat) (hf : setsFuel g ≤ fuel)
    (hfs : computeFirstSets g fuel = .ok fs) (ss : List Sym) (hss : ∀ A, Sym.nt A ∈ ss → Sym.nt A ∈ g.nonTerminals) :
    ∃ out, firstOfSeq ss fs = .ok out ∧ (∀ x : Sym, x.isTerm → (x ∈ out ↔ ∃ β, Rewrites g.rules (strip ss) (x :: β))) ∧
      (Sym.eps ∈ out ↔ ss ≠ [] ∧ Rewrites g.rules (strip ss) []) := by
  obtain ⟨fs', h, hr⟩ := computeFirstSets_spec wf hne
  rw [hr fuel (by unfold setsFuel at hf; omega)] at hfs
  simp at hfs
  subst hfs
  obtain ⟨out, o1, _, o3, o4, _⟩ := h.ofSeq hss
  refine ⟨out, o1, fun x hx => ?_, ?_⟩
  · rw [o3 x hx]
    exact ⟨firstIn_rewrites hx, fun ⟨β, h⟩ => (firstIn_strip hx).mp (firstIn_back hx h .here)⟩
  · rw [o4]
    exact and_congr_right (fun _ => ⟨nul_rewrites, fun h => nul_strip.mp (nul_back h .nil)⟩)

/-! ## C21 — FOLLOW -/

/-- FOLLOW sets are computed in a bounded number of passes, without panic; they contain exactly the terminals (and the end marker) that
follow in a sentential form derived from the entry symbol and the end marker or from some non-terminal. -/
theorem C21_follow_exact (g : Grammar) (wf : g.WF) (hne : NoEmptyRhs g) :
    ∃ fs fo, (∀ fuel, setsFuel g ≤ fuel → computeFirstSets g fuel = .ok fs ∧ computeFollowSets g fs fuel = .ok fo) ∧
      ∀ A, Sym.nt A ∈ g.nonTerminals → ∃ set, mget? (Sym.nt A) fo = some set ∧ (∀ x ∈ set, x.isTerm) ∧
        ∀ x : Sym, x.isTerm → (x ∈ set ↔ CanFollow g A x ∨ CanFollowInside g A x) := by
  obtain ⟨fs, h, hr⟩ := computeFirstSets_spec wf hne
  obtain ⟨fo, h', hr'⟩ := computeFollowSets_spec wf h
  refine ⟨fs, fo, fun fuel hf => ⟨hr fuel (by unfold setsFuel at hf; omega), hr' fuel (by unfold setsFuel at hf; omega)⟩, fun A hA => ?_⟩
  obtain ⟨set, hset⟩ := Option.isSome_iff_exists.mp ((h'.good.keys _).mpr hA)
  have hin : ∀ x, InSet fo A x ↔ x ∈ set := fun x => ⟨by rintro ⟨s, h1, h2⟩; rw [hset] at h1; simp at h1; exact h1 ▸ h2, fun h => ⟨set, hset, h⟩⟩
  refine ⟨set, hset, fun x hx => h'.isTerm A x ((hin x).mpr hx), fun x hx => ?_⟩
  obtain ⟨E, hE, _⟩ := wf.entry_declared
  rw [← hin, h'.term A x hx, followIn_iff hx ⟨E, hE⟩]

/-- if every non-terminal is reachable from the entry symbol, FOLLOW is the textbook set -/
theorem C21_follow_exact_reachable (g : Grammar) (wf : g.WF) (hne : NoEmptyRhs g) (hreach : ∀ A, Sym.nt A ∈ g.nonTerminals → Reachable g A) :
    ∃ fs fo, (∀ fuel, setsFuel g ≤ fuel → computeFirstSets g fuel = .ok fs ∧ computeFollowSets g fs fuel = .ok fo) ∧
      ∀ A, Sym.nt A ∈ g.nonTerminals → ∃ set, mget? (Sym.nt A) fo = some set ∧ ∀ x : Sym, x.isTerm → (x ∈ set ↔ CanFollow g A x) := by
  obtain ⟨fs, fo, h1, h2⟩ := C21_follow_exact g wf hne
  refine ⟨fs, fo, h1, fun A hA => ?_⟩
  obtain ⟨set, s1, _, s3⟩ := h2 A hA
  exact ⟨set, s1, fun x hx => by
    rw [s3 x hx]
    exact ⟨fun h => h.elim id (canFollow_of_inside hreach wf.lhs_declared), .inl⟩⟩

/-! ## C22 — the table -/

theorem ll1_iff {g : Grammar} (wf : g.WF) {rs : List Rule} :
    (rs.Pairwise (fun r r' => r.lhs = r'.lhs → ∀ x : Sym, x.isTerm → ¬ (Predicts g r x ∧ Predicts g r' x)) ∧
      ∀ r ∈ rs, ∀ x : Sym, x.isTerm → ¬ (PredictsFirst g r x ∧ PredictsFollow g r x)) ↔
    (rs.Pairwise (fun r r' => r.lhs = r'.lhs → ∀ x : Sym, x.isTerm → ¬ ((PF g r x ∨ PO g r x) ∧ (PF g r' x ∨ PO g r' x))) ∧
      ∀ r ∈ rs, ∀ x : Sym, x.isTerm → ¬ (PF g r x ∧ PO g r x)) := by
  obtain ⟨E, hE, _⟩ := wf.entry_declared
  have e1 : ∀ (r : Rule) (x : Sym), x.isTerm → (PredictsFirst g r x ↔ PF g r x) := fun r x hx => predictsFirst_iff hx
  have e2 : ∀ (r : Rule) (x : Sym), x.isTerm → (PredictsFollow g r x ↔ PO g r x) := fun r x hx => predictsFollow_iff hx ⟨E, hE⟩
  refine and_congr ?_ ?_
  · refine ⟨fun h => h.imp ?_, fun h => h.imp ?_⟩
    · intro r r' h hl x hx
      have := h hl x hx
      rwa [Predicts, Predicts, e1 r x hx, e2 r x hx, e1 r' x hx, e2 r' x hx] at this
    · intro r r' h hl x hx
      rw [Predicts, Predicts, e1 r x hx, e2 r x hx, e1 r' x hx, e2 r' x hx]
      exact h hl x hx
  · refine ⟨fun h r hr x hx => ?_, fun h r hr x hx => ?_⟩
    · have := h r hr x hx; rwa [e1 r x hx, e2 r x hx] at this
    · rw [e1 r x hx, e2 r x hx]; exact h r hr x hx

theorem predicts_iff {g : Grammar} (wf : g.WF) {r : Rule} {x : Sym} (hx : x.isTerm) : Predicts g r x ↔ PF g r x ∨ PO g r x := by
  obtain ⟨E, hE, _⟩ := wf.entry_declared
  rw [Predicts, predictsFirst_iff hx, predictsFollow_iff hx ⟨E, hE⟩]
  rfl

/-- a table is produced exactly for LL(1) grammars -/
theorem C22_ok_iff (g : Grammar) (wf : g.WF) (hne : NoEmptyRhs g) (ht : TokensFit g) (fuel : Nat) (hf : setsFuel g ≤ fuel) :
    (∃ table, llGenerateTable g fuel = .ok table) ↔ g.LL1 := by
  have hf' : g.nonTerminals.length * (g.terminals.length + 2) < fuel := by unfold setsFuel at hf; omega
  rcases llGenerate_spec wf hne ht with ⟨table, h1, h2⟩ | ⟨A, x, p, prev, hx, ⟨pre, r, post, he, hl, hr, hc⟩, h2⟩
  · refine ⟨fun _ => ?_, fun _ => ⟨table, h2 fuel hf'⟩⟩
    have := (ll1_iff wf (rs := g.rules)).mpr ⟨h1.disjoint, h1.once⟩
    exact ⟨this.1, this.2⟩
  · refine ⟨fun ⟨table, h⟩ => by rw [h2 fuel hf'] at h; simp at h, fun h => ?_⟩
    exfalso
    have := (ll1_iff wf (rs := g.rules)).mp ⟨h.disjoint, h.once⟩
    rcases hc with ⟨h3, r', h4, h5, h6, h7⟩ | ⟨_, h3, h4⟩
    · have hp := this.1
      rw [he, List.pairwise_append] at hp
      exact hp.2.2 r' h4 r List.mem_cons_self (by rw [h5, hl]) x hx ⟨h7, h3⟩
    · exact this.2 r (by rw [he]; simp) x hx ⟨h3, h4⟩

/-- the entry for a non-terminal and a lookahead is the rule that predicts the lookahead, if there is one -/
theorem C22_entries (g : Grammar) (wf : g.WF) (hne : NoEmptyRhs g) (ht : TokensFit g) (fuel : Nat) (hf : setsFuel g ≤ fuel) (table : LLTable)
    (h : llGenerateTable g fuel = .ok table) (A : Nat) (x : Sym) (hx : x.isTerm) (p : List Sym) :
    table.getProduction A x = some p ↔ ∃ r ∈ g.rules, r.lhs = A ∧ r.rhs = p ∧ Predicts g r x := by
  have hf' : g.nonTerminals.length * (g.terminals.length + 2) < fuel := by unfold setsFuel at hf; omega
  rcases llGenerate_spec wf hne ht with ⟨table', h1, h2⟩ | ⟨A, x, p, prev, hx, _, h2⟩
  · rw [h2 fuel hf'] at h
    simp at h
    subst h
    rw [h1.entries A x p hx]
    simp only [predicts_iff wf hx]
  · rw [h2 fuel hf'] at h; simp at h

/-- every failure is a genuine conflict (in particular there is no panic) -/
theorem C22_conflict (g : Grammar) (wf : g.WF) (hne : NoEmptyRhs g) (ht : TokensFit g) (fuel : Nat) (hf : setsFuel g ≤ fuel) (e : LLError)
    (h : llGenerateTable g fuel = .error e) : ∃ A x p prev, e = .conflict A x p prev ∧ GenuineConflict g A x p prev := by
  have hf' : g.nonTerminals.length * (g.terminals.length + 2) < fuel := by unfold setsFuel at hf; omega
  obtain ⟨E, hE, _⟩ := wf.entry_declared
  rcases llGenerate_spec wf hne ht with ⟨table', h1, h2⟩ | ⟨A, x, p, prev, hx, ⟨pre, r, post, he, hl, hr, hc⟩, h2⟩
  · rw [h2 fuel hf'] at h; simp at h
  · rw [h2 fuel hf'] at h
    simp at h
    refine ⟨A, x, p, prev, h.symm, hx, pre, r, post, he, hl, hr, ?_⟩
    rcases hc with ⟨h3, r', h4, h5, h6, h7⟩ | ⟨h3, h4, h5⟩
    · exact .inl ⟨(predicts_iff wf hx).mpr h3, r', h4, h5, h6, (predicts_iff wf hx).mpr h7⟩
    · exact .inr ⟨h3, (predictsFirst_iff hx).mpr h4, (predictsFollow_iff hx ⟨E, hE⟩).mpr h5⟩

/-! ## C23 — the driver accepts only sentences and reports a parse tree -/

theorem tableFor_of_ok {g : Grammar} (wf : g.WF) (hne : NoEmptyRhs g) (ht : TokensFit g) {fuel : Nat} (hf : setsFuel g ≤ fuel) {table : LLTable}
    (h : llGenerateTable g fuel = .ok table) : TableFor g g.rules table := by
  have hf' : g.nonTerminals.length * (g.terminals.length + 2) < fuel := by unfold setsFuel at hf; omega
  rcases llGenerate_spec wf hne ht with ⟨table', h1, h2⟩ | ⟨A, x, p, prev, hx, _, h2⟩
  · rw [h2 fuel hf'] at h
    simp at h
    subst h
    exact h1
  · rw [h2 fuel hf'] at h; simp at h

/-- If the table-driven parser returns normally then the tokens before the first end of file form a sentence, and the callbacks are those of a parse
tree of it, followed by the token callback for the end of file. -/
theorem C23_accepts_only_sentences (g : Grammar) (wf : g.WF) (hne : NoEmptyRhs g) (ht : TokensFit g) (fuel : Nat) (hf : setsFuel g ≤ fuel)
    (table : LLTable) (h : llGenerateTable g fuel = .ok table) (E : Nat) (hE : g.entry = .nt E) (visible : Nat → Bool) (input : Nat → Tok × T)
    (steps : Nat) (events : List (LLEvent T)) (pos : Nat) (hrun : llParse (tableDispatch table) visible E input steps = .ok events pos) :
    ∃ t : PTree T, IsParseTree g.rules g.entry t ∧ StreamIs input t.tokens ∧ Derives g.rules [g.entry] (t.tokens.map (·.1)) ∧
      pos = t.tokens.length + 1 ∧ events = t.callbacks visible ++ [.token .eof (input t.tokens.length).2] := by
  have hT := tableFor_of_ok wf hne ht hf h
  obtain ⟨n, ev, h1, h2⟩ := llRun_acc _ _ _ _ _ _ hrun
  obtain ⟨n1, n2, ev1, ev2, mid, -, rfl, h3, h4⟩ := h2.split (llPush id [.nt E]) [.terminal .eof] rfl
  obtain ⟨ts, t1, t2, t3⟩ := acc_forest wf (table_exact hT).sound n1 [.nt E] _ _ _ (by simp) h3
  cases t1 with
  | @nonterm r cs _ ts hr hc hts =>
    cases hts
    cases h4 with
    | @term _ _ _ _ _ ev hte h5 =>
      cases h5
      have htok : PTree.tokensList [PTree.node r cs] = (PTree.node r cs).tokens := by simp [PTree.tokensList]
      rw [htok] at t3
      have hf2 : Forest g.rules [g.entry] [PTree.node r cs] := by rw [hE]; exact .nonterm hr hc .nil
      refine ⟨.node r cs, hf2, ⟨?_, ?_⟩, ?_, ?_, ?_⟩
      · intro i p hp
        have := t3.2 i p hp
        simpa using this
      · have := t3.1
        simp at this
        rw [← this]; exact hte
      · have := forest_derives hf2
        rwa [htok] at this
      · have := t3.1
        simp at this
        rw [this]
      · have := t3.1
        simp at this
        rw [h1, t2, ← this]
        simp [PTree.callbacksList]

/-- The same for the generated C++ dispatch when the enum ordinals of the non-terminals are their symbol numbers. -/
theorem C23_cpp_without_gaps (g : Grammar) (wf : g.WF) (hne : NoEmptyRhs g) (ht : TokensFit g) (hgap : NoGaps g) (fuel : Nat) (hf : setsFuel g ≤ fuel)
    (table : LLTable) (h : llGenerateTable g fuel = .ok table) (E : Nat) (hE : g.entry = .nt E) (input : Nat → Tok × T)
    (steps : Nat) (events : List (LLEvent T)) (pos : Nat) (hrun : llParse (cppDispatch g table) (cppVisible g) E input steps = .ok events pos) :
    ∃ t : PTree T, IsParseTree g.rules g.entry t ∧ StreamIs input t.tokens ∧ Derives g.rules [g.entry] (t.tokens.map (·.1)) ∧
      pos = t.tokens.length + 1 ∧ events = t.callbacks (cppVisible g) ++ [.token .eof (input t.tokens.length).2] := by
  have hT := tableFor_of_ok wf hne ht hf h
  refine C23_accepts_only_sentences g wf hne ht fuel hf table h E hE (cppVisible g) input steps events pos ?_
  have hdecl : StackDeclared g [.nonTerminal E, .terminal .eof] := by
    intro A hA
    simp at hA
    subst hA
    obtain ⟨E', hE', hd⟩ := wf.entry_declared
    rw [hE] at hE'; simp at hE'; subst hE'
    exact hd
  rcases cpp_run wf hgap hT (cppVisible g) input steps _ 0 [] hdecl with ⟨ev, p, h1⟩ | h1
  · have h2 : llRun (cppDispatch g table) (cppVisible g) input steps [.nonTerminal E, .terminal .eof] 0 [] = .ok events pos := hrun
    rw [h2] at h1; simp at h1
  · show llRun _ _ _ _ _ _ _ = _
    rw [← h1]; exact hrun

/-- tokens a, b, c; `s = c (a | b)`; the helper non-terminal has number 3 and enum ordinal 1 -/
def gapRules : RuleSet where
  entry := "s"
  tokens := ["a", "b", "c"]
  prods := [⟨"s", none, .sequence [.rule "c", .alternative [.rule "a", .rule "b"]]⟩]

def gapGrammar : Grammar where
  rules := [⟨3, [.t 0], 0⟩, ⟨3, [.t 1], 0⟩, ⟨0, [.t 2, .nt 3], 0⟩]
  anon := [.nt 3]
  productions := [(.nt 0, "s")]
  tokens := [(.t 0, "a"), (.t 1, "b"), (.t 2, "c")]
  entry := .nt 0
  entryOrigin := 0

theorem gapGrammar_built : Grammar.fromRuleSet gapRules = .ok gapGrammar := GRes.of_same (by decide)

def gapTable : LLTable := [(⟨0, some 3⟩, [.t 2, .nt 3]), (⟨3, some 1⟩, [.t 0]), (⟨3, some 2⟩, [.t 1])]

/-- does a table generation return this table? -/
def sameTable (x : Except LLError LLTable) (t : LLTable) : Bool :=
  match x with
  | .ok t' => t' = t
  | .error _ => false

theorem of_sameTable {x : Except LLError LLTable} {t : LLTable} (h : sameTable x t = true) : x = .ok t := by
  cases x with
  | ok b => simp [sameTable] at h; rw [h]
  | error e => simp [sameTable] at h

theorem gapTable_ok : llGenerateTable gapGrammar (setsFuel gapGrammar) = .ok gapTable := of_sameTable (by decide +kernel)

/-- a finite token list followed by the end of file -/
def streamOf (w : List Nat) : Nat → Tok × Unit := fun i => (match w[i]? with | some a => .tok a | none => .eof, ())

/-- With a gap between ordinals and symbol numbers the generated C++ parser can accept a token string that is not a sentence: for
`s = c (a | b)` it accepts `c`. -/
theorem C23_cpp_gap_counterexample :
    (∃ events pos, llParse (cppDispatch gapGrammar gapTable) (cppVisible gapGrammar) 0 (streamOf [2]) 10 = .ok events pos) ∧
    ¬ Derives gapGrammar.rules [.nt 0] [2] := by
  refine ⟨⟨[.enter 0, .token (.tok 2) (), .exit 0, .token .eof ()], 2, by decide +kernel⟩, ?_⟩
  intro h
  have hlen : ∀ w, Derives gapGrammar.rules [.nt 3] w → w.length = 1 := by
    intro w h
    generalize hs : [Sym.nt 3] = ss at h
    cases h with
    | nil => simp at hs
    | eps _ => simp at hs
    | term _ => simp at hs
    | @nonterm r ss u v hr h1 h2 =>
      simp at hs
      obtain ⟨hs1, rfl⟩ := hs
      cases h2
      simp [gapGrammar] at hr
      rcases hr with rfl | rfl | rfl
      · cases h1 with
        | term h1 => cases h1; rfl
      · cases h1 with
        | term h1 => cases h1; rfl
      · simp at hs1
  generalize hs : [Sym.nt 0] = ss at h
  generalize hw : [2] = w at h
  cases h with
  | nil => simp at hs
  | eps _ => simp at hs
  | term _ => simp at hs
  | @nonterm r ss u v hr h1 h2 =>
    simp at hs
    obtain ⟨hs1, rfl⟩ := hs
    cases h2
    simp [gapGrammar] at hr
    rcases hr with rfl | rfl | rfl
    · simp at hs1
    · simp at hs1
    · cases h1 with
      | term h1 =>
        have := hlen _ h1
        have h5 := congrArg List.length hw
        simp [this] at h5

/-! ## C24 — the driver accepts every sentence -/

/-- The table-driven parser accepts every sentence of an LL(1) grammar (and then C23 describes the callbacks). -/
theorem C24_accepts_every_sentence (g : Grammar) (wf : g.WF) (hne : NoEmptyRhs g) (ht : TokensFit g) (fuel : Nat) (hf : setsFuel g ≤ fuel)
    (table : LLTable) (h : llGenerateTable g fuel = .ok table) (E : Nat) (hE : g.entry = .nt E) (visible : Nat → Bool) (input : Nat → Tok × T)
    (w : List (Nat × T)) (hw : StreamIs input w) (hsent : Derives g.rules [g.entry] (w.map (·.1))) :
    ∃ n events, ∀ steps, n ≤ steps → llParse (tableDispatch table) visible E input steps = .ok events (w.length + 1) := by
  have hT := tableFor_of_ok wf hne ht hf h
  rw [hE] at hsent
  have hctx : InContext g [.nt E] .eof := by
    intro α A β he
    cases α with
    | nil =>
      simp at he
      obtain ⟨rfl, rfl⟩ := he
      exact ⟨fun x _ hf => (by cases hf), fun _ => .entry hE rfl⟩
    | cons a α => simp at he
  have hstr : StreamAt input 0 (w.map (·.1)) .eof := by
    refine ⟨?_, ?_⟩
    · intro i a ha
      rw [List.getElem?_map] at ha
      obtain ⟨p, hp, rfl⟩ := Option.map_eq_some_iff.mp ha
      have := hw.1 i p hp
      simp only [Nat.zero_add, this]
    · rw [List.length_map, Nat.zero_add, hw.2]; rfl
  obtain ⟨n, ev, hacc⟩ := derives_acc (table_exact hT).1 visible hsent 0 .eof trivial hctx hstr
  have h2 : Acc (tableDispatch table) visible input 1 [.terminal .eof] (0 + (w.map (·.1)).length) _ _ :=
    .term (by rw [List.length_map, Nat.zero_add]; exact hw.2) .nil
  have h3 := hacc.append h2
  refine ⟨n + 1 + 1, ev ++ [.token .eof (input (0 + (w.map (·.1)).length)).2], fun steps hs => ?_⟩
  have := acc_llRun h3 steps (by omega) []
  simp only [List.length_map, Nat.zero_add, List.nil_append] at this ⊢
  exact this

/-- acceptance is exactly membership -/
theorem C24_accepts_iff (g : Grammar) (wf : g.WF) (hne : NoEmptyRhs g) (ht : TokensFit g) (fuel : Nat) (hf : setsFuel g ≤ fuel)
    (table : LLTable) (h : llGenerateTable g fuel = .ok table) (E : Nat) (hE : g.entry = .nt E) (visible : Nat → Bool) (input : Nat → Tok × T)
    (w : List (Nat × T)) (hw : StreamIs input w) :
    (∃ steps events pos, llParse (tableDispatch table) visible E input steps = .ok events pos) ↔ Derives g.rules [g.entry] (w.map (·.1)) := by
  constructor
  · rintro ⟨steps, events, pos, hr⟩
    obtain ⟨t, h1, h2, h3, h4, h5⟩ := C23_accepts_only_sentences g wf hne ht fuel hf table h E hE visible input steps events pos hr
    -- both are the tokens before the first end of file
    have hlen : ∀ (u v : List (Nat × T)), StreamIs input u → StreamIs input v → v.length ≤ u.length := by
      intro u v hu hv
      by_contra hc
      have hlt : u.length < v.length := by omega
      have := hv.1 u.length v[u.length] (List.getElem?_eq_getElem hlt)
      rw [← Prod.eta (input u.length), hu.2] at this
      simp at this
    have heq : t.tokens = w := by
      apply List.ext_getElem (Nat.le_antisymm (hlen _ _ hw h2) (hlen _ _ h2 hw))
      intro i hi1 hi2
      have e1 := h2.1 i _ (List.getElem?_eq_getElem hi1)
      have e2 := hw.1 i _ (List.getElem?_eq_getElem hi2)
      rw [e1] at e2
      simp at e2
      exact Prod.ext e2.1 e2.2
    rw [← heq]; exact h3
  · intro hs
    obtain ⟨n, ev, hr⟩ := C24_accepts_every_sentence g wf hne ht fuel hf table h E hE visible input w hw hs
    exact ⟨n, ev, _, hr n (Nat.le_refl _)⟩

/-- The generated C++ dispatch has no case for the end of file: for `s = a?` it rejects the empty sentence. -/
def optRules : RuleSet where
  entry := "s"
  tokens := ["a"]
  prods := [⟨"s", none, .optional (.rule "a")⟩]

def optGrammar : Grammar where
  rules := [⟨1, [.t 0], 0⟩, ⟨1, [.eps], 0⟩, ⟨0, [.nt 1], 0⟩]
  anon := [.nt 1]
  productions := [(.nt 0, "s")]
  tokens := [(.t 0, "a")]
  entry := .nt 0
  entryOrigin := 0

theorem optGrammar_built : Grammar.fromRuleSet optRules = .ok optGrammar := GRes.of_same (by decide)

def optTable : LLTable := [(⟨0, none⟩, [.nt 1]), (⟨0, some 1⟩, [.nt 1]), (⟨1, none⟩, [.eps]), (⟨1, some 1⟩, [.t 0])]

theorem optTable_ok : llGenerateTable optGrammar (setsFuel optGrammar) = .ok optTable := of_sameTable (by decide +kernel)

theorem C24_cpp_eof_counterexample : Derives optGrammar.rules [optGrammar.entry] [] ∧ NoGaps optGrammar ∧
    ∀ steps, 1 ≤ steps → llParse (cppDispatch optGrammar optTable) (cppVisible optGrammar) 0 (streamOf []) steps = .error [] 0 := by
  refine ⟨?_, ?_, ?_⟩
  · have h1 : Derives optGrammar.rules [.nt 1] [] :=
      .nonterm (r := ⟨1, [.eps], 0⟩) (u := []) (v := []) (by simp [optGrammar]) (.eps .nil) .nil
    exact .nonterm (r := ⟨0, [.nt 1], 0⟩) (u := []) (v := []) (by simp [optGrammar]) h1 .nil
  · intro A hA
    simp [optGrammar, Grammar.nonTerminals] at hA
    rcases hA with rfl | rfl <;> decide
  · intro steps hs
    obtain ⟨k, rfl⟩ : ∃ k, steps = k + 1 := ⟨steps - 1, by omega⟩
    rfl

/-- With a gap between ordinals and symbol numbers the generated C++ parser can also reject sentences: for `s = c (a | b)` it rejects `c a`. -/
theorem C24_cpp_gap_counterexample : Derives gapGrammar.rules [gapGrammar.entry] [2, 0] ∧
    ∀ steps, 6 ≤ steps → ∃ events pos, llParse (cppDispatch gapGrammar gapTable) (cppVisible gapGrammar) 0 (streamOf [2, 0]) steps = .error events pos := by
  refine ⟨?_, ?_⟩
  · have h1 : Derives gapGrammar.rules [.nt 3] [0] :=
      .nonterm (r := ⟨3, [.t 0], 0⟩) (u := [0]) (v := []) (by simp [gapGrammar]) (.term .nil) .nil
    exact .nonterm (r := ⟨0, [.t 2, .nt 3], 0⟩) (u := [2, 0]) (v := []) (by simp [gapGrammar]) (.term h1) .nil
  · intro steps hs
    refine ⟨[.enter 0, .token (.tok 2) (), .exit 0], 1, ?_⟩
    have h6 : llParse (cppDispatch gapGrammar gapTable) (cppVisible gapGrammar) 0 (streamOf [2, 0]) 6 =
      .error [.enter 0, .token (.tok 2) (), .exit 0] 1 := by decide +kernel
    have h7 : llRun (cppDispatch gapGrammar gapTable) (cppVisible gapGrammar) (streamOf [2, 0]) 6 [.nonTerminal 0, .terminal .eof] 0 [] =
      .error [.enter 0, .token (.tok 2) (), .exit 0] 1 := h6
    exact (llRun_mono 6 steps _ _ _ hs (by rw [h7]; simp)).trans h7

/-! ## C25 — termination -/

/-- For every token stream that contains an end of file the table-driven parser stops, with acceptance or an error. -/
theorem C25_terminates (g : Grammar) (wf : g.WF) (hne : NoEmptyRhs g) (ht : TokensFit g) (fuel : Nat) (hf : setsFuel g ≤ fuel)
    (table : LLTable) (h : llGenerateTable g fuel = .ok table) (E : Nat) (visible : Nat → Bool) (input : Nat → Tok × T)
    (N : Nat) (hN : (input N).1 = .eof) :
    ∃ n result, result ≠ .fuel ∧ ∀ steps, n ≤ steps → llParse (tableDispatch table) visible E input steps = result := by
  have hT := tableFor_of_ok wf hne ht hf h
  obtain ⟨n, hn⟩ := llRun_terminates (visible := visible) wf (table_exact hT) hN N 1 [.nonTerminal E] 0 (by intro x hx; simp at hx; subst hx; simp)
    (by omega) (by simp) (by omega) []
  exact ⟨n, _, hn, fun steps hs => llRun_mono n steps _ _ _ hs hn⟩

/-- the generated C++ dispatch without gaps stops as well -/
theorem C25_cpp_terminates (g : Grammar) (wf : g.WF) (hne : NoEmptyRhs g) (ht : TokensFit g) (hgap : NoGaps g) (fuel : Nat) (hf : setsFuel g ≤ fuel)
    (table : LLTable) (h : llGenerateTable g fuel = .ok table) (E : Nat) (hE : g.entry = .nt E) (input : Nat → Tok × T)
    (N : Nat) (hN : (input N).1 = .eof) :
    ∃ n result, result ≠ .fuel ∧ ∀ steps, n ≤ steps → llParse (cppDispatch g table) (cppVisible g) E input steps = result := by
  obtain ⟨n, result, h1, h2⟩ := C25_terminates g wf hne ht fuel hf table h E (cppVisible g) input N hN
  have hT := tableFor_of_ok wf hne ht hf h
  have hdecl : StackDeclared g [.nonTerminal E, .terminal .eof] := by
    intro A hA
    simp at hA
    subst hA
    obtain ⟨E', hE', hd⟩ := wf.entry_declared
    rw [hE] at hE'; simp at hE'; subst hE'
    exact hd
  have hn : llRun (cppDispatch g table) (cppVisible g) input n [.nonTerminal E, .terminal .eof] 0 [] ≠ .fuel := by
    rcases cpp_run wf hgap hT (cppVisible g) input n _ 0 [] hdecl with ⟨ev, p, h3⟩ | h3
    · rw [h3]; simp
    · rw [h3]
      have := h2 n (Nat.le_refl _)
      intro hc
      exact h1 (this.symm.trans hc)
  exact ⟨n, _, hn, fun steps hs => llRun_mono n steps _ _ _ hs hn⟩

/-! ## Non-vacuity -/

theorem optGrammar_wf : optGrammar.WF := C19_well_formed _ _ optGrammar_built
theorem gapGrammar_wf : gapGrammar.WF := C19_well_formed _ _ gapGrammar_built

instance (g : Grammar) : Decidable (NoEmptyRhs g) := by unfold NoEmptyRhs; infer_instance

example : NoEmptyRhs optGrammar ∧ NoEmptyRhs gapGrammar ∧ NoEmptyRhs listGrammar := by decide
example : TokensFit optGrammar ∧ TokensFit gapGrammar := by
  refine ⟨?_, ?_⟩ <;> intro a ha <;> simp [optGrammar, gapGrammar, Grammar.terminals] at ha <;> omega
-- `list = x (y | pair)*` with `pair = x y | y?` is not LL(1): the conflict found
example : llGenerateTable listGrammar (setsFuel listGrammar) = .error (.conflict 3 (.t 1) [.nt 1] [.t 1]) := by decide +kernel
example : listGrammar.WF := C19_well_formed _ _ listGrammar_built
-- the two tables are tables of LL(1) grammars
example : gapGrammar.LL1 := (C22_ok_iff _ gapGrammar_wf (by decide) (by
  intro a ha; simp [gapGrammar, Grammar.terminals] at ha; omega) _ (Nat.le_refl _)).mp ⟨_, gapTable_ok⟩
example : ∃ events, llParse (tableDispatch gapTable) (fun _ => true) 0 (streamOf [2, 1]) 20 = .ok events 3 :=
  ⟨[.enter 0, .token (.tok 2) (), .enter 3, .token (.tok 1) (), .exit 3, .exit 0, .token .eof ()], by decide +kernel⟩
example : StreamIs (streamOf [2, 1]) [(2, ()), (1, ())] := by
  refine ⟨?_, rfl⟩
  intro i p h
  match i, h with
  | 0, h => simp at h; subst h; rfl
  | 1, h => simp at h; subst h; rfl
  | i + 2, h => simp at h
example : Reachable gapGrammar 3 :=
  ⟨[.t 2], [], .step (α := []) (β := []) (r := ⟨0, [.t 2, .nt 3], 0⟩) .refl (by decide)⟩

end Verif
