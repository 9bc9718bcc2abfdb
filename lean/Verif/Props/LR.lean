import Verif.Proofs.LRLink
import Verif.Props.LL

/-!
# C26–C37, C51, C52: LR table generation and the generated LR parser

Hypotheses: `Grammar.WF` (C19: every built grammar has it), `NoEmptyRhs` (C19: every grammar built from a rule set without empty sequences
has it). `LRParserFor g kind p`: `p` is a parser that lapex generates for `g`.
-/

set_option autoImplicit false

namespace Verif

variable {T : Type}

/-! ## C26 — closure -/

/-- The closure of an item, when it is computed, is exactly the set of items reachable by closure steps. -/
theorem C26_closure_exact (g : Grammar) (wf : g.WF) (hne : NoEmptyRhs g) (kind : LRKind) (n : Nat) (fs : SymSets)
    (hfs : lrFirstSets g kind n = .ok fs) (it : Item) (hi : ItemOk g kind it) (fuel : Nat) (s : List Item) (h : expandItem g fs fuel it = .ok s) :
    ∀ it', it' ∈ s ↔ Closure g it it' :=
  ((expandItem_spec wf (fsOk_of wf hne hfs) hi fuel).ok h).2.2

/-- It contains the item, is closed under closure steps, and is contained in every set with these two properties. -/
theorem C26_closure_least (g : Grammar) (wf : g.WF) (hne : NoEmptyRhs g) (kind : LRKind) (n : Nat) (fs : SymSets)
    (hfs : lrFirstSets g kind n = .ok fs) (it : Item) (hi : ItemOk g kind it) (fuel : Nat) (s : List Item) (h : expandItem g fs fuel it = .ok s) :
    it ∈ s ∧ (∀ a ∈ s, ∀ b, ClosureStep g a b → b ∈ s) ∧
      ∀ P : Item → Prop, P it → (∀ a b, P a → ClosureStep g a b → P b) → ∀ a ∈ s, P a := by
  have hc := C26_closure_exact g wf hne kind n fs hfs it hi fuel s h
  refine ⟨(hc it).mpr .self, fun a ha b hb => (hc b).mpr (.step ((hc a).mp ha) hb), fun P h0 hs a ha => ?_⟩
  have := (hc a).mp ha
  induction this with
  | self => exact h0
  | step h1 h2 ih => exact hs _ _ (ih ((hc _).mpr h1)) h2

/-- The loop ends after a bounded number of iterations; no panic if right sides have at most 255 symbols and (with lookahead) epsilon
occurs only in front. -/
theorem C26_closure_total (g : Grammar) (wf : g.WF) (hne : NoEmptyRhs g) (kind : LRKind) (n : Nat) (fs : SymSets)
    (hfs : lrFirstSets g kind n = .ok fs) (it : Item) (hi : ItemOk g kind it) :
    (∃ bound, ∀ fuel, bound ≤ fuel → expandItem g fs fuel it ≠ .error .fuel) ∧
    (ShortRhs g → (kind.hasLa = true → EpsLeading g) → ∃ bound s, ∀ fuel, bound ≤ fuel → expandItem g fs fuel it = .ok s) := by
  have hsp := expandItem_spec wf (fsOk_of wf hne hfs) hi
  refine ⟨⟨closureFuel g kind, fun fuel hf h => ?_⟩, fun h1 h2 => ?_⟩
  · have := hsp fuel
    rw [h] at this
    exact this hf
  · obtain ⟨s, h, _⟩ := (hsp (closureFuel g kind)).total (Nat.le_refl _) ⟨h1, h2⟩
    exact ⟨closureFuel g kind, s, fun fuel hf => expandItem_mono h hf⟩

/-! ## C27 — generation terminates -/

/-- Table generation terminates for every grammar and algorithm. -/
theorem C27_terminates (g : Grammar) (wf : g.WF) (hne : NoEmptyRhs g) (allow : Bool) (kind : LRKind) :
    ∃ bound, ∀ fuel, bound ≤ fuel → generateTable g allow kind fuel ≠ .error .fuel := by
  refine ⟨lrFuel g kind, fun fuel hf h => ?_⟩
  have := generateTable_out (kind := kind) wf hne allow hf
  rw [h] at this
  exact this trivial

/-- It gives an answer, without panic, if right sides have at most 255 symbols and (LR(1), LALR) epsilon occurs only in front. -/
theorem C27_no_panic (g : Grammar) (wf : g.WF) (hne : NoEmptyRhs g) (allow : Bool) (kind : LRKind) (hs : ShortRhs g)
    (he : kind.hasLa = true → EpsLeading g) : ∃ bound r, ∀ fuel, bound ≤ fuel → generateTable g allow kind fuel = .ok r := by
  obtain ⟨r, h, _⟩ := (generateTable_out (kind := kind) wf hne allow (Nat.le_refl _)).total trivial ⟨hs, he⟩
  exact ⟨lrFuel g kind, r, fun fuel hf => generateTable_mono h hf⟩

/-- The answer does not depend on the number of iterations allowed. -/
theorem C27_answer_fixed (g : Grammar) (allow : Bool) (kind : LRKind) (f1 f2 : Nat) (r1 r2 : GenResult)
    (h1 : generateTable g allow kind f1 = .ok r1) (h2 : generateTable g allow kind f2 = .ok r2) : r1 = r2 := by
  have := (generateTable_mono h1 (Nat.le_max_left f1 f2)).symm.trans (generateTable_mono h2 (Nat.le_max_right f1 f2))
  simpa using this

/-! ## C52 — the canonical collection -/

/-- LR(0) and LR(1): the states are exactly the canonical collection. State 0 is the closure of the entry item; an edge leads to the
closure of the advanced items; every advanceable item has an edge; different states have different items; every state is reachable. -/
theorem C52_canonical_collection (g : Grammar) (wf : g.WF) (hne : NoEmptyRhs g) (kind : LRKind) (hk : kind ≠ .lalr) (n : Nat) (fs : SymSets)
    (hfs : lrFirstSets g kind n = .ok fs) (c f : Nat) (gr : LRGraph) (h : generateGraph g fs kind c f = .ok gr) :
    (∃ s, gr.sets[0]? = some s ∧ ∀ it, it ∈ s ↔ Closure g ⟨none, 0, kind.endLa⟩ it) ∧
    (∀ (q : Nat) (X : Sym) (q' : Nat), (q, X, q') ∈ gr.edges → ∃ s s', gr.sets[q]? = some s ∧ gr.sets[q']? = some s' ∧ ∀ it, it ∈ s' ↔ GotoSet g s X it) ∧
    (∀ (q : Nat) (s : List Item), gr.sets[q]? = some s → ∀ k ∈ s, ∀ X, k.after g = some X → k.rule ≠ none → ∃ q', (q, X, q') ∈ gr.edges) ∧
    (∀ (q q' : Nat) (s : List Item), gr.sets[q]? = some s → gr.sets[q']? = some s → q = q') ∧
    (∀ q, q < gr.sets.length → EReach gr.edges 0 q) := by
  have hv := (generateGraph_spec wf (fsOk_of wf hne hfs) c f).ok h
  have hl : kind.isLalr = false := by cases kind <;> first | rfl | exact absurd rfl hk
  refine ⟨hv.base.start, fun q X q' he => ?_, fun q s hs k hkm X ha hr => ?_, fun q q' s h1 h2 => ?_, hv.reached⟩
  · obtain ⟨s, s', h1, h2, _, h3⟩ := hv.base.edge q X q' he
    exact ⟨s, s', h1, h2, h3 hl⟩
  · obtain ⟨q', _, h1, _⟩ := hv.done q (getElem?_lt hs) (by simp) s hs k hkm X ha hr
    exact ⟨q', h1⟩
  · exact hv.base.inj q q' s s h1 h2 (fun h => by rw [hl] at h; cases h) (fun _ => rfl)

/-! ## C28 — success is a derivation -/

/-- If the parser returns Ok, the tokens consumed are the yield of a parse tree of the entry symbol, and the callbacks made are the
post-order traversal of this tree. -/
theorem C28_sound (g : Grammar) (wf : g.WF) (hne : NoEmptyRhs g) (kind : LRKind) (p : LRProg) (hp : LRParserFor g kind p)
    (input : Nat → Tok × T) (fuel : Nat) (events : List (LREvent T)) (pos : Nat) (h : lrParse p.machine input fuel = .ok events pos) :
    ∃ t, IsParseTree g.rules g.entry t ∧ Consumes input pos t.tokens ∧ TraceIs g events t.postorder := by
  obtain ⟨gr, hv, hs⟩ := parser_inv wf hne hp
  have := lrParse_sound hv (prog_follows wf hv.base hs) input fuel
  rw [h] at this
  obtain ⟨t, h1, h2, h3⟩ := this
  exact ⟨t, h1, by simpa [PTree.tokensList] using h2, by simpa [PTree.postorderList] using h3⟩

/-- In particular the consumed tokens form a sentence. -/
theorem C28_sentence (g : Grammar) (wf : g.WF) (hne : NoEmptyRhs g) (kind : LRKind) (p : LRProg) (hp : LRParserFor g kind p)
    (input : Nat → Tok × T) (fuel : Nat) (events : List (LREvent T)) (pos : Nat) (h : lrParse p.machine input fuel = .ok events pos) :
    ∃ w, Consumes input pos w ∧ Derives g.rules [g.entry] (w.map (·.1)) := by
  obtain ⟨t, h1, h2, _⟩ := C28_sound g wf hne kind p hp input fuel events pos h
  exact ⟨t.tokens, h2, by simpa [PTree.tokensList] using forest_derives h1⟩

/-! ## C29 — success and the end of the input -/

/-- If the LR(1) parser returns Ok and the entry symbol is not left-recursive, the next token is the end of file. -/
theorem C29_lr1_end (g : Grammar) (wf : g.WF) (hne : NoEmptyRhs g) (hl : EntryNotLeftRecursive g) (p : LRProg) (hp : LRParserFor g .lr1 p)
    (input : Nat → Tok × T) (fuel : Nat) (events : List (LREvent T)) (pos : Nat) (h : lrParse p.machine input fuel = .ok events pos) :
    (input pos).1 = .eof := by
  obtain ⟨gr, hv, hs⟩ := parser_inv wf hne hp
  have hm := prog_follows wf hv.base hs
  unfold lrParse at h
  rw [hm.entry] at h
  refine lrRun_eof wf hv hm hl fuel _ _ _ _ _ ?_ (by simp) h
  have := reaches_inv hv hm (input := input) (.start)
  rwa [hm.entry] at this

/-- generating the parser and running it -/
def lrTry (g : Grammar) (kind : LRKind) (fuel : Nat) (w : List Nat) (steps : Nat) : Option (LRResult Unit) :=
  match generateTable g false kind fuel with
  | .ok (.noConflicts tb) =>
    match genRust g tb with
    | .ok p => some (lrParse p.machine (streamOf w) steps)
    | .error _ => none
  | _ => none

theorem lrTry_some {g : Grammar} {kind : LRKind} {fuel : Nat} {w : List Nat} {steps : Nat} {r : LRResult Unit} (h : lrTry g kind fuel w steps = some r) :
    ∃ p, LRParserFor g kind p ∧ lrParse p.machine (streamOf w) steps = r := by
  unfold lrTry at h
  split at h
  · rename_i tb ht
    split at h
    · rename_i p hp
      simp at h
      exact ⟨p, ⟨false, fuel, tb, .inl ht, hp⟩, h⟩
    · cases h
  · cases h

/-- `e = e a`, `e = b`: the entry symbol is left-recursive -/
def leftRules : RuleSet where
  entry := "e"
  tokens := ["a", "b"]
  prods := [⟨"e", none, .sequence [.rule "e", .rule "a"]⟩, ⟨"e", none, .rule "b"⟩]

def leftGrammar : Grammar where
  rules := [⟨0, [.nt 0, .t 0], 0⟩, ⟨0, [.t 1], 1⟩]
  anon := []
  productions := [(.nt 0, "e")]
  tokens := [(.t 0, "a"), (.t 1, "b")]
  entry := .nt 0
  entryOrigin := 0

theorem leftGrammar_built : Grammar.fromRuleSet leftRules = .ok leftGrammar := GRes.of_same (by decide)

/-- `s = ( s )`, `s = x` -/
def parenRules : RuleSet where
  entry := "s"
  tokens := ["(", ")", "x"]
  prods := [⟨"s", none, .sequence [.rule "(", .rule "s", .rule ")"]⟩, ⟨"s", none, .rule "x"⟩]

def parenGrammar : Grammar where
  rules := [⟨0, [.t 0, .nt 0, .t 1], 0⟩, ⟨0, [.t 2], 1⟩]
  anon := []
  productions := [(.nt 0, "s")]
  tokens := [(.t 0, "("), (.t 1, ")"), (.t 2, "x")]
  entry := .nt 0
  entryOrigin := 0

theorem parenGrammar_built : Grammar.fromRuleSet parenRules = .ok parenGrammar := GRes.of_same (by decide)

/-- With a left-recursive entry symbol the LR(1) parser returns Ok after a proper prefix: for `e = e a | b` it accepts the `b` of `b a`. -/
theorem C29_left_recursive_counterexample : leftGrammar.WF ∧ ∃ p, LRParserFor leftGrammar .lr1 p ∧
    lrParse p.machine (streamOf [1, 0]) 10 = .ok [.shift (.tok 1) (), .reduce 1] 1 ∧ (streamOf [1, 0] 1).1 ≠ .eof := by
  obtain ⟨p, h1, h2⟩ := lrTry_some (g := leftGrammar) (kind := .lr1) (fuel := 30) (w := [1, 0]) (steps := 10)
    (r := .ok [.shift (.tok 1) (), .reduce 1] 1) (by decide +kernel)
  exact ⟨C19_well_formed _ _ leftGrammar_built, p, h1, h2, by decide⟩

/-- So completeness fails as well: `e = e a | b` derives `b a`, but the parser stops, with Ok, before the `a`. -/
theorem C30_left_recursive_counterexample : Derives leftGrammar.rules [leftGrammar.entry] [1, 0] ∧ ∃ p, LRParserFor leftGrammar .lr1 p ∧
    ∃ events, lrParse p.machine (streamOf [1, 0]) 10 = .ok events 1 := by
  obtain ⟨_, p, h1, h2, _⟩ := C29_left_recursive_counterexample
  refine ⟨?_, p, h1, _, h2⟩
  exact .nonterm (r := ⟨0, [.nt 0, .t 0], 0⟩) (u := [1, 0]) (v := []) (by simp [leftGrammar])
    (.nonterm (r := ⟨0, [.t 1], 1⟩) (u := [1]) (v := [0]) (by simp [leftGrammar]) (.term .nil) (.term .nil)) .nil

theorem parenGrammar_entry : EntryNotLeftRecursive parenGrammar := by
  intro A _ h
  have hno : ∀ A B, ¬ StartsRule parenGrammar A B := by
    rintro A B ⟨r, hr, _, h⟩
    simp [parenGrammar] at hr
    rcases hr with rfl | rfl <;> simp [leadingEps] at h
  cases h with
  | one h => exact hno _ _ h
  | more _ h => exact hno _ _ h

/-- The LALR and LR(0) parsers return Ok with tokens left over: for `s = ( s ) | x` both accept the `x` of `x )`. -/
theorem C29_lalr_lr0_counterexample : parenGrammar.WF ∧ EntryNotLeftRecursive parenGrammar ∧
    (∃ p, LRParserFor parenGrammar .lalr p ∧ lrParse p.machine (streamOf [2, 1]) 10 = .ok [.shift (.tok 2) (), .reduce 1] 1) ∧
    (∃ p, LRParserFor parenGrammar .lr0 p ∧ lrParse p.machine (streamOf [2, 1]) 10 = .ok [.shift (.tok 2) (), .reduce 1] 1) ∧
    (streamOf [2, 1] 1).1 ≠ .eof := by
  refine ⟨C19_well_formed _ _ parenGrammar_built, parenGrammar_entry, ?_, ?_, by decide⟩
  · exact lrTry_some (g := parenGrammar) (kind := .lalr) (fuel := 60) (w := [2, 1]) (steps := 10) (by decide +kernel)
  · exact lrTry_some (g := parenGrammar) (kind := .lr0) (fuel := 60) (w := [2, 1]) (steps := 10) (by decide +kernel)

/-! ## C33 — one entry per cell -/

/-- A table reported free of conflicts (LR(1), LALR) has exactly one entry for every state and symbol, and at most one for the end marker. -/
theorem C33_single_entry (g : Grammar) (wf : g.WF) (hne : NoEmptyRhs g) (allow : Bool) (kind : LRKind) (hk : kind.hasLa = true) (fuel : Nat)
    (tb : LRTable) (h : generateTable g allow kind fuel = .ok (.noConflicts tb)) (q : Nat) (hq : q < tb.stateCount) :
    (∀ X ∈ g.symbols, ∃ e, tb.get q X = some [e]) ∧ (tb.get q .eof = none ∨ ∃ e, tb.get q .eof = some [e]) := by
  obtain ⟨gr, hv, hc, rfl⟩ := generateTable_inv wf hne h
  have hn := (findConflicts_nil hv.base).mp hc
  have hac := acceptClear_la wf hv.base hk
  refine ⟨fun X hX => ?_, (cells_ok wf hv hn hac q hq .eof).1⟩
  rw [(buildTable_cell (gr := gr) wf).1.count] at hq
  have hs : gr.sets[q]? = some gr.sets[q] := List.getElem?_eq_getElem hq
  obtain ⟨e, he⟩ := (cell_single wf hv.base hn hac hs X).1 hX
  have hget := cellOk_content (gr := gr) wf (X := X) hs
  rw [if_neg (by rw [he]; simp), he] at hget
  exact ⟨e, hget⟩

/-- So the code generator accepts the table. -/
theorem C33_codegen (g : Grammar) (wf : g.WF) (hne : NoEmptyRhs g) (allow : Bool) (kind : LRKind) (hk : kind.hasLa = true) (fuel : Nat)
    (tb : LRTable) (h : generateTable g allow kind fuel = .ok (.noConflicts tb)) : ∃ p, genRust g tb = .ok p := by
  obtain ⟨gr, hv, hc, rfl⟩ := generateTable_inv wf hne h
  have hn := (findConflicts_nil hv.base).mp hc
  exact genRust_total (fun q hq X _ => cells_ok wf hv hn (acceptClear_la wf hv.base hk) q hq X)

/-- LR(0): the same, if no rule of the entry symbol consists of epsilons only. -/
theorem C33_codegen_lr0 (g : Grammar) (wf : g.WF) (hne : NoEmptyRhs g) (allow : Bool) (fuel : Nat) (tb : LRTable)
    (h : generateTable g allow .lr0 fuel = .ok (.noConflicts tb)) (he : ∀ r ∈ g.rules, g.entry = .nt r.lhs → strip r.rhs ≠ []) :
    ∃ p, genRust g tb = .ok p := by
  obtain ⟨gr, hv, hc, rfl⟩ := generateTable_inv wf hne h
  have hn := (findConflicts_nil hv.base).mp hc
  exact genRust_total (fun q hq X _ => cells_ok wf hv hn (acceptClear_lr0 hv hn he) q hq X)

/-- `s = ε` -/
def emptyRules : RuleSet where
  entry := "s"
  tokens := ["a"]
  prods := [⟨"s", none, .epsilon⟩]

def emptyGrammar : Grammar where
  rules := [⟨0, [.eps], 0⟩]
  anon := []
  productions := [(.nt 0, "s")]
  tokens := [(.t 0, "a")]
  entry := .nt 0
  entryOrigin := 0

theorem emptyGrammar_built : Grammar.fromRuleSet emptyRules = .ok emptyGrammar := GRes.of_same (by decide)

/-- what generation of an LR(0) parser for `s = ε` comes to -/
def emptyLr0 : Bool :=
  match generateTable emptyGrammar false .lr0 20 with
  | .ok (.noConflicts tb) => tb.get 0 (.nt 0) = some [.reduce (some 0), .accept] && (match genRust emptyGrammar tb with | .error .panic => true | _ => false)
  | _ => false

/-- Without that condition it fails: for `s = ε` LR(0) generation reports no conflict, but the cell of the entry symbol has two entries
and the code generator panics. -/
theorem C33_lr0_counterexample : emptyGrammar.WF ∧ ∃ tb, generateTable emptyGrammar false .lr0 20 = .ok (.noConflicts tb) ∧
    tb.get 0 (.nt 0) = some [.reduce (some 0), .accept] ∧ genRust emptyGrammar tb = .error .panic := by
  refine ⟨C19_well_formed _ _ emptyGrammar_built, ?_⟩
  have h : emptyLr0 = true := by decide +kernel
  unfold emptyLr0 at h
  split at h
  · rename_i tb ht
    simp only [Bool.and_eq_true, decide_eq_true_eq] at h
    refine ⟨tb, ht, h.1, ?_⟩
    have h2 := h.2
    split at h2
    · assumption
    · cases h2
  · cases h

/-! ## C30, C31 — completeness -/

/-- all algorithms: a parser generated for a grammar accepts every sentence -/
theorem lr_accepts (g : Grammar) (wf : g.WF) (hne : NoEmptyRhs g) (hel : EpsLeading g) (hl : EntryNotLeftRecursive g) (kind : LRKind)
    (p : LRProg) (hp : LRParserFor g kind p) (t : PTree T) (ht : IsParseTree g.rules g.entry t) (input : Nat → Tok × T)
    (hin : StreamIs input t.tokens) :
    ∃ n events, (∀ fuel, n ≤ fuel → lrParse p.machine input fuel = .ok events t.tokens.length) ∧ TraceIs g events t.postorder := by
  obtain ⟨gr, hv, hs⟩ := parser_inv wf hne hp
  exact lrParse_complete wf hv (prog_obeys wf hv.base hs) hel hl ht hin

/-- For a table reported free of conflicts code is generated, and the LR(1) parser returns Ok on every sentence followed by the end of
file, with the callbacks of its parse tree. -/
theorem C30_lr1_complete (g : Grammar) (wf : g.WF) (hne : NoEmptyRhs g) (hel : EpsLeading g) (hl : EntryNotLeftRecursive g) (allow : Bool)
    (n : Nat) (tb : LRTable) (h : generateTable g allow .lr1 n = .ok (.noConflicts tb)) :
    ∃ p, genRust g tb = .ok p ∧ ∀ (t : PTree T) (input : Nat → Tok × T), IsParseTree g.rules g.entry t → StreamIs input t.tokens →
      ∃ k events, (∀ fuel, k ≤ fuel → lrParse p.machine input fuel = .ok events t.tokens.length) ∧ TraceIs g events t.postorder := by
  obtain ⟨p, hp⟩ := C33_codegen g wf hne allow .lr1 rfl n tb h
  exact ⟨p, hp, fun t input ht hin => lr_accepts g wf hne hel hl .lr1 p ⟨allow, n, tb, .inl h, hp⟩ t ht input hin⟩

/-- The LR(1) parser decides the language: on a token string followed by the end of file it returns Ok exactly for sentences. -/
theorem C30_lr1_decides (g : Grammar) (wf : g.WF) (hne : NoEmptyRhs g) (hel : EpsLeading g) (hl : EntryNotLeftRecursive g)
    (p : LRProg) (hp : LRParserFor g .lr1 p) (w : List (Nat × T)) (input : Nat → Tok × T) (hin : StreamIs input w) :
    (∃ fuel events pos, lrParse p.machine input fuel = .ok events pos) ↔ Derives g.rules [g.entry] (w.map (·.1)) := by
  constructor
  · rintro ⟨fuel, events, pos, h⟩
    obtain ⟨w', h1, h2⟩ := C28_sentence g wf hne .lr1 p hp input fuel events pos h
    have h3 := C29_lr1_end g wf hne hl p hp input fuel events pos h
    have : w' = w := by
      obtain ⟨h4, h5⟩ := h1
      obtain ⟨h6, h7⟩ := hin
      have hlen : pos = w.length := by
        rcases Nat.lt_trichotomy pos w.length with hlt | heq | hgt
        · have := h6 pos _ (List.getElem?_eq_getElem hlt)
          rw [this] at h3; cases h3
        · exact heq
        · have := h5 w.length _ (List.getElem?_eq_getElem (by omega))
          rw [this] at h7; cases h7
      refine List.ext_getElem? (fun i => ?_)
      by_cases hi : i < w.length
      · have a1 := h6 i _ (List.getElem?_eq_getElem hi)
        have a2 := h5 i _ (List.getElem?_eq_getElem (show i < w'.length by omega))
        rw [a1] at a2
        rw [List.getElem?_eq_getElem hi, List.getElem?_eq_getElem (show i < w'.length by omega)]
        simp at a2
        exact congrArg some (Prod.ext a2.1.symm a2.2.symm)
      · rw [List.getElem?_eq_none (by omega), List.getElem?_eq_none (by omega)]
    exact this ▸ h2
  · intro h
    obtain ⟨E, hE, _⟩ := wf.entry_declared
    rw [hE] at h
    obtain ⟨t, h1, h2⟩ := derives_tree h
    rw [← hE] at h1
    obtain ⟨n, events, h3, _⟩ := lr_accepts g wf hne hel hl .lr1 p hp t h1 input (h2 ▸ hin)
    exact ⟨n, events, _, h3 n (Nat.le_refl _)⟩

/-- The same completeness for LALR. -/
theorem C31_lalr_complete (g : Grammar) (wf : g.WF) (hne : NoEmptyRhs g) (hel : EpsLeading g) (hl : EntryNotLeftRecursive g) (allow : Bool)
    (n : Nat) (tb : LRTable) (h : generateTable g allow .lalr n = .ok (.noConflicts tb)) :
    ∃ p, genRust g tb = .ok p ∧ ∀ (t : PTree T) (input : Nat → Tok × T), IsParseTree g.rules g.entry t → StreamIs input t.tokens →
      ∃ k events, (∀ fuel, k ≤ fuel → lrParse p.machine input fuel = .ok events t.tokens.length) ∧ TraceIs g events t.postorder := by
  obtain ⟨p, hp⟩ := C33_codegen g wf hne allow .lalr rfl n tb h
  exact ⟨p, hp, fun t input ht hin => lr_accepts g wf hne hel hl .lalr p ⟨allow, n, tb, .inl h, hp⟩ t ht input hin⟩

/-- And for LR(0), for every table code is generated for. -/
theorem C31_lr0_complete (g : Grammar) (wf : g.WF) (hne : NoEmptyRhs g) (hel : EpsLeading g) (hl : EntryNotLeftRecursive g) (p : LRProg)
    (hp : LRParserFor g .lr0 p) (t : PTree T) (ht : IsParseTree g.rules g.entry t) (input : Nat → Tok × T) (hin : StreamIs input t.tokens) :
    ∃ n events, (∀ fuel, n ≤ fuel → lrParse p.machine input fuel = .ok events t.tokens.length) ∧ TraceIs g events t.postorder :=
  lr_accepts g wf hne hel hl .lr0 p hp t ht input hin

/-! ## C32 — no conflicts means unambiguous -/

/-- If generation with any of the three algorithms reports no conflicts, every token string has at most one parse tree. -/
theorem C32_unambiguous (g : Grammar) (wf : g.WF) (hne : NoEmptyRhs g) (hel : EpsLeading g) (hl : EntryNotLeftRecursive g) (allow : Bool)
    (kind : LRKind) (n : Nat) (tb : LRTable) (h : generateTable g allow kind n = .ok (.noConflicts tb)) : Unambiguous g := by
  obtain ⟨gr, hv, hc, _⟩ := generateTable_inv wf hne h
  have hn := (findConflicts_nil hv.base).mp hc
  intro T t t' h1 h2 h3
  exact unambiguous_lift (fun t t' => noConf_unambiguous (T := Option T) wf hv hn hel hl) h1 h2 h3

/-! ## C34 — no panic -/

/-- The generated parser does not panic: no missing goto, no stack underflow, on any token stream and at any step. -/
theorem C34_no_panic (g : Grammar) (wf : g.WF) (hne : NoEmptyRhs g) (kind : LRKind) (p : LRProg) (hp : LRParserFor g kind p)
    (input : Nat → Tok × T) (fuel : Nat) (events : List (LREvent T)) (pos : Nat) : lrParse p.machine input fuel ≠ .panic events pos := by
  obtain ⟨gr, hv, hs⟩ := parser_inv wf hne hp
  intro h
  have := lrParse_sound hv (prog_follows wf hv.base hs) input fuel
  rw [h] at this
  exact this

/-! ## C35 — viable prefixes -/

/-- At every moment the tokens consumed so far are those of the shift callbacks made and a prefix of a sentence. -/
theorem C35_viable_prefix (g : Grammar) (wf : g.WF) (hne : NoEmptyRhs g) (hprod : Productive g) (kind : LRKind) (p : LRProg)
    (hp : LRParserFor g kind p) (input : Nat → Tok × T) (stack : List StackSym) (pos : Nat) (events : List (LREvent T))
    (h : LRReaches p.machine input stack pos events) :
    ∃ w v, Consumes input pos w ∧ shiftsOf events = w.map (fun x => (Tok.tok x.1, x.2)) ∧ Derives g.rules [g.entry] (w.map (·.1) ++ v) := by
  obtain ⟨gr, hv, hs⟩ := parser_inv wf hne hp
  rcases reaches_inv hv (prog_follows wf hv.base hs) h with ⟨ts, h1, h2⟩ | ⟨_, t, h1, h2⟩
  · obtain ⟨v, hv'⟩ := stack_prefix wf hv.base hprod h1
    exact ⟨_, v, h2.consumed, shiftsOf_trace h2.trace, hv'⟩
  · refine ⟨_, [], h2.consumed, shiftsOf_trace h2.trace, ?_⟩
    rw [List.append_nil]
    exact forest_derives h1

/-! ## C36 — the expected tokens -/

/-- When the parser reports an unexpected token, the list of expected symbols has exactly those symbols for which the table has a shift
or reduce entry in the state on top of the stack; the token found is not among them. -/
theorem C36_expected (g : Grammar) (wf : g.WF) (hne : NoEmptyRhs g) (allow : Bool) (kind : LRKind) (n : Nat) (tb : LRTable)
    (h : generateTable g allow kind n = .ok (.noConflicts tb) ∨ ∃ cs, generateTable g allow kind n = .ok (.allowedConflicts tb cs))
    (p : LRProg) (hp : genRust g tb = .ok p) (input : Nat → Tok × T) (fuel : Nat) (events : List (LREvent T)) (pos : Nat) (expected : List Sym)
    (hr : lrParse p.machine input fuel = .unexpected events pos expected) :
    ∃ q rest, LRReaches p.machine input (.state q :: rest) pos events ∧ q < tb.stateCount ∧
      (∀ s, s ∈ expected ↔ s ∈ g.terminals ++ [Sym.eof] ∧ ((∃ q', tb.get q s = some [.shift q']) ∨ ∃ i, tb.get q s = some [.reduce (some i)])) ∧
      ∀ s, (input pos).1.sym = some s → s ∉ expected := by
  obtain ⟨gr, hv, rfl⟩ : ∃ gr, LoopInv g kind gr [] ∧ tb = buildTable g gr := by
    rcases h with h | ⟨cs, h⟩
    · obtain ⟨gr, h1, _, h2⟩ := generateTable_inv wf hne h; exact ⟨gr, h1, h2⟩
    · obtain ⟨gr, h1, _, _, h2, _⟩ := generateTable_inv wf hne h; exact ⟨gr, h1, h2⟩
  have hs := genRust_spec hp
  have hm := prog_follows wf hv.base hs
  obtain ⟨stk, h1, h2⟩ := (lrRun_reaches fuel _ _ _ .start).2 _ _ _ hr
  rcases reaches_inv hv hm h1 with ⟨ts, h3, h4⟩ | ⟨rfl, _⟩
  · obtain ⟨q, rest, rfl⟩ := h3.head
    have hq : q < (buildTable g gr).stateCount := by
      rw [(buildTable_cell (gr := gr) wf).1.count]
      exact getElem?_lt (h3.range hv.base).choose_spec
    have hact : p.machine.nextAction q (input pos).1 = .unexpected expected := by
      rcases lrStep_sound hv hm h3 h4 with ⟨exp, he, ha⟩ | ⟨_, _, _, he, _⟩
      · rw [he] at h2; cases h2; exact ha
      · rw [he] at h2; cases h2
    change p.nextAction q (input pos).1 = _ at hact
    rw [hs.action q hq] at hact
    refine ⟨q, rest, h1, hq, ?_⟩
    split at hact
    · cases hact
    · rename_i hb
      simp at hact
      subst hact
      have hmem : ∀ s, s ∈ (g.terminals ++ [Sym.eof]).filter (fun s => (actOf (buildTable g gr) q s).isSome) ↔ s ∈ g.terminals ++ [Sym.eof] ∧
          ((∃ q', (buildTable g gr).get q s = some [.shift q']) ∨ ∃ i, (buildTable g gr).get q s = some [.reduce (some i)]) := by
        intro s
        rw [List.mem_filter, actOf_isSome]
      refine ⟨fun s => by rw [← hmem s]; simp, fun s hsym hin => ?_⟩
      rw [hsym] at hb
      simp only [Option.bind_some] at hb
      have hin' : s ∈ (g.terminals ++ [Sym.eof]).filter (fun s => (actOf (buildTable g gr) q s).isSome) := by simpa using hin
      rw [List.mem_filter] at hin'
      rw [if_pos hin'.1] at hb
      rw [hb] at hin'
      simp at hin'
  · simp [lrStep] at h2

/-! ## C37, C51 — comparing the algorithms -/

/-- If LALR generation reports no conflicts, LR(1) generation reports none. -/
theorem C37_lalr_lr1 (g : Grammar) (wf : g.WF) (hne : NoEmptyRhs g) (a1 a2 : Bool) (n1 n2 : Nat) (tb : LRTable) (r : GenResult)
    (h1 : generateTable g a1 .lalr n1 = .ok (.noConflicts tb)) (h2 : generateTable g a2 .lr1 n2 = .ok r) : ∃ tb', r = .noConflicts tb' := by
  obtain ⟨grL, hL, hc, _⟩ := generateTable_inv wf hne h1
  obtain ⟨gr1, hv1, ha⟩ := generateTable_inv wf hne h2
  have := (findConflicts_nil hv1.base).mpr (noConf_lr1_of_lalr hv1 hL ((findConflicts_nil hL.base).mp hc))
  cases r with
  | noConflicts tb' => exact ⟨tb', rfl⟩
  | allowedConflicts _ _ => exact absurd this ha.2.1
  | badConflicts _ => exact absurd this ha.2.1

/-- LR(1) generation does give an answer whenever LALR generation does. -/
theorem C37_lr1_answers (g : Grammar) (wf : g.WF) (hne : NoEmptyRhs g) (hs : ShortRhs g) (he : EpsLeading g) (a1 a2 : Bool) (n1 : Nat) (tb : LRTable)
    (h1 : generateTable g a1 .lalr n1 = .ok (.noConflicts tb)) : ∃ bound tb', ∀ fuel, bound ≤ fuel → generateTable g a2 .lr1 fuel = .ok (.noConflicts tb') := by
  obtain ⟨bound, r, h⟩ := C27_no_panic g wf hne a2 .lr1 hs (fun _ => he)
  obtain ⟨tb', rfl⟩ := C37_lalr_lr1 g wf hne a1 a2 n1 bound tb r h1 (h bound (Nat.le_refl _))
  exact ⟨bound, tb', h⟩

/-- If LR(0) generation reports no conflicts, LALR generation reports none (and so neither does LR(1), by C37). -/
theorem C51_lr0_lalr (g : Grammar) (wf : g.WF) (hne : NoEmptyRhs g) (a1 a2 : Bool) (n1 n2 : Nat) (tb : LRTable) (r : GenResult)
    (h1 : generateTable g a1 .lr0 n1 = .ok (.noConflicts tb)) (h2 : generateTable g a2 .lalr n2 = .ok r) : ∃ tb', r = .noConflicts tb' := by
  obtain ⟨gr0, h0, hc, _⟩ := generateTable_inv wf hne h1
  obtain ⟨grL, hL, ha⟩ := generateTable_inv wf hne h2
  have := (findConflicts_nil hL.base).mpr (noConf_lalr_of_lr0 wf h0 hL ((findConflicts_nil h0.base).mp hc))
  cases r with
  | noConflicts tb' => exact ⟨tb', rfl⟩
  | allowedConflicts _ _ => exact absurd this ha.2.1
  | badConflicts _ => exact absurd this ha.2.1

/-! ## Non-vacuity -/

instance (g : Grammar) : Decidable (EpsLeading g) := by unfold EpsLeading; infer_instance
instance (g : Grammar) : Decidable (ShortRhs g) := by unfold ShortRhs; infer_instance

/-- does generation report no conflicts? -/
def lrClean (g : Grammar) (kind : LRKind) (fuel : Nat) : Bool :=
  match generateTable g false kind fuel with
  | .ok (.noConflicts _) => true
  | _ => false

theorem lrClean_some {g : Grammar} {kind : LRKind} {fuel : Nat} (h : lrClean g kind fuel = true) : ∃ tb, generateTable g false kind fuel = .ok (.noConflicts tb) := by
  unfold lrClean at h
  split at h
  · exact ⟨_, by assumption⟩
  · cases h

/-- an LR(1) grammar that is not LALR: `s = a c d | b c e | a f e | b f d` with `c = x`, `f = x` -/
def lr1Rules : RuleSet where
  entry := "s"
  tokens := ["a", "b", "d", "e", "x"]
  prods := [⟨"s", none, .sequence [.rule "a", .rule "c", .rule "d"]⟩, ⟨"s", none, .sequence [.rule "b", .rule "c", .rule "e"]⟩,
    ⟨"s", none, .sequence [.rule "a", .rule "f", .rule "e"]⟩, ⟨"s", none, .sequence [.rule "b", .rule "f", .rule "d"]⟩,
    ⟨"c", none, .rule "x"⟩, ⟨"f", none, .rule "x"⟩]

def lr1Grammar : Grammar where
  rules := [⟨0, [.t 0, .nt 4, .t 2], 0⟩, ⟨0, [.t 1, .nt 4, .t 3], 1⟩, ⟨0, [.t 0, .nt 5, .t 3], 2⟩, ⟨0, [.t 1, .nt 5, .t 2], 3⟩,
    ⟨4, [.t 4], 4⟩, ⟨5, [.t 4], 5⟩]
  anon := []
  productions := [(.nt 0, "s"), (.nt 4, "c"), (.nt 5, "f")]
  tokens := [(.t 0, "a"), (.t 1, "b"), (.t 2, "d"), (.t 3, "e"), (.t 4, "x")]
  entry := .nt 0
  entryOrigin := 0

theorem lr1Grammar_built : Grammar.fromRuleSet lr1Rules = .ok lr1Grammar := GRes.of_same (by decide)

-- the converse of C37 is false
example : lrClean lr1Grammar .lr1 60 = true ∧ lrClean lr1Grammar .lalr 60 = false := by decide +kernel
-- `s = a?` is LALR but not LR(0)
example : lrClean optGrammar .lalr 60 = true ∧ lrClean optGrammar .lr0 60 = false := by decide +kernel
example : lrClean parenGrammar .lr0 60 = true ∧ lrClean parenGrammar .lalr 60 = true ∧ lrClean parenGrammar .lr1 60 = true := by decide +kernel
example : parenGrammar.WF ∧ optGrammar.WF ∧ lr1Grammar.WF :=
  ⟨C19_well_formed _ _ parenGrammar_built, optGrammar_wf, C19_well_formed _ _ lr1Grammar_built⟩
example : NoEmptyRhs parenGrammar ∧ EpsLeading parenGrammar ∧ ShortRhs parenGrammar ∧ NoEmptyRhs optGrammar ∧ EpsLeading optGrammar ∧
    NoEmptyRhs lr1Grammar ∧ EpsLeading lr1Grammar ∧ ShortRhs lr1Grammar := by decide
example : Productive parenGrammar := by
  intro A hA
  simp [parenGrammar, Grammar.nonTerminals] at hA
  subst hA
  exact ⟨[2], .nonterm (r := ⟨0, [.t 2], 1⟩) (u := [2]) (v := []) (by simp [parenGrammar]) (.term .nil) .nil⟩
-- a successful and an unsuccessful parse
example : lrTry parenGrammar .lr1 60 [0, 2, 1] 20 =
    some (.ok [.shift (.tok 0) (), .shift (.tok 2) (), .reduce 1, .shift (.tok 1) (), .reduce 0] 3) := by decide +kernel
example : lrTry parenGrammar .lr1 60 [0, 2, 2] 20 = some (.unexpected [.shift (.tok 0) (), .shift (.tok 2) ()] 2 [.t 1]) := by decide +kernel
-- with LALR a reduction precedes the error
example : lrTry parenGrammar .lalr 60 [0, 2] 20 = some (.unexpected [.shift (.tok 0) (), .shift (.tok 2) (), .reduce 1] 2 [.t 1]) := by decide +kernel
-- an item that C26 applies to
example : ItemOk parenGrammar .lr1 ⟨some 0, 1, some .eof⟩ :=
  ⟨by intro i h; simp at h; subst h; decide, by decide, by decide, ⟨_, rfl, .inl rfl⟩⟩
example : ∃ s, expandItem parenGrammar [(.nt 0, [.t 0, .t 2])] 20 ⟨some 0, 1, some .eof⟩ = .ok s ∧ s.length = 3 :=
  ⟨[⟨some 0, 0, some (.t 1)⟩, ⟨some 0, 1, some .eof⟩, ⟨some 1, 0, some (.t 1)⟩], by decide +kernel, rfl⟩

/-- `s = c ε a`, `c = a` -/
def midRules : RuleSet where
  entry := "s"
  tokens := ["a"]
  prods := [⟨"s", none, .sequence [.rule "c", .epsilon, .rule "a"]⟩, ⟨"c", none, .rule "a"⟩]

def midGrammar : Grammar where
  rules := [⟨0, [.nt 1, .eps, .t 0], 0⟩, ⟨1, [.t 0], 1⟩]
  anon := []
  productions := [(.nt 0, "s"), (.nt 1, "c")]
  tokens := [(.t 0, "a")]
  entry := .nt 0
  entryOrigin := 0

theorem midGrammar_built : Grammar.fromRuleSet midRules = .ok midGrammar := GRes.of_same (by decide)

/-- does generation panic? -/
def lrPanics (g : Grammar) (kind : LRKind) (fuel : Nat) : Bool :=
  match generateTable g false kind fuel with
  | .error .panic => true
  | _ => false

/-- Every grammar built from a rule set without explicit epsilons inside sequences satisfies the condition on epsilons of C27 and C30–C32. -/
theorem C27_epsilon_condition (rs : RuleSet) (g : Grammar) (hg : Grammar.fromRuleSet rs = .ok g) (hE : rs.NoEpsilonInSequence) : EpsLeading g := by
  intro r hr hm
  obtain ⟨i, hi⟩ := List.mem_iff_getElem?.mp hm
  rw [List.getElem?_drop] at hi
  have h0 := C19_epsilon_in_front rs g hg hE r hr _ hi
  have hl : leadingEps r.rhs = 0 := by omega
  have hi0 : i = 0 := by omega
  subst hi0
  rw [hl] at hi
  cases hrhs : r.rhs with
  | nil => rw [hrhs] at hi; simp at hi
  | cons x l =>
    rw [hrhs] at hi hl
    simp at hi
    subst hi
    simp [leadingEps] at hl

/-- Without it completeness fails: LR(0) generation succeeds for `s = c ε a` with `c = a`, but the parser rejects the sentence `a a`. -/
theorem C31_epsilon_counterexample : Derives midGrammar.rules [midGrammar.entry] [0, 0] ∧ ∃ p, LRParserFor midGrammar .lr0 p ∧
    lrParse p.machine (streamOf [0, 0]) 20 = .unexpected [.shift (.tok 0) (), .reduce 1] 1 [] := by
  refine ⟨?_, lrTry_some (g := midGrammar) (kind := .lr0) (fuel := 30) (w := [0, 0]) (steps := 20) (by decide +kernel)⟩
  exact .nonterm (r := ⟨0, [.nt 1, .eps, .t 0], 0⟩) (u := [0, 0]) (v := []) (by simp [midGrammar])
    (.nonterm (r := ⟨1, [.t 0], 1⟩) (u := [0]) (v := [0]) (by simp [midGrammar]) (.term .nil) (.eps (.term .nil))) .nil

/-- An epsilon after a non-terminal makes LR(1) and LALR generation panic: `s = c ε a` with `c = a`. -/
theorem C27_epsilon_counterexample : midGrammar.WF ∧ generateTable midGrammar false .lr1 30 = .error .panic ∧
    generateTable midGrammar false .lalr 30 = .error .panic := by
  have h1 : lrPanics midGrammar .lr1 30 = true := by decide +kernel
  have h2 : lrPanics midGrammar .lalr 30 = true := by decide +kernel
  unfold lrPanics at h1 h2
  refine ⟨C19_well_formed _ _ midGrammar_built, ?_, ?_⟩
  · split at h1
    · assumption
    · cases h1
  · split at h2
    · assumption
    · cases h2

end Verif
