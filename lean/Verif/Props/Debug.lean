import Verif.Proofs.Debug
import Verif.Proofs.GrammarCheck
import Verif.Props.Generate
import Verif.Props.GLR
import Verif.Props.Names
import Verif.Props.Pipeline

/-!
# C67 — `lapex debug`

`debug parse fuel steps alg path contents source`: how the command ends for a grammar file and a source file with these contents; `parsed lines` when it says "Successfully parsed",
after printing the lines, and `failed` when it says "Failed to parse". `parse` is the input parser; the command line tool uses the one of C63.
-/

set_option autoImplicit false

namespace Verif

section
variable {parse : List Char → Res SpannedRules} {fuel : Nat} {path text : List Char} {rules : SpannedRules} {g : Grammar}

/-- what is compiled and run -/
theorem debug_glr {ws : List Written} (hgen : generate parse fuel true .glr true .rust path (some text) = (ws, .ok)) (hparse : parse text = .ok rules)
    (hg : Grammar.fromRuleSet rules.ruleSet = .ok g) :
    ∃ vs t n shown p, ws = [.tokens vs, .lexer t, .table shown, .rustGlrParser p] ∧ rustTokenVariants (rules.tokens.map (·.inner.name.toList)) = .ok vs ∧
      generateLexer n (rules.tokens.map (·.inner)) = .ok (.ok t) ∧ GlrParserFor g .lalr p := by
  obtain ⟨text', rules', g', vs, lexer, table, parser, tb, h1, h2, h3, h4, h5, h6, h7, h8⟩ := C65_ok _ _ _ _ _ _ _ _ _ hgen
  cases h1
  rw [hparse] at h2
  cases h2
  rw [hg] at h3
  cases h3
  simp only [if_true] at h6
  obtain ⟨t, n, rfl, ht⟩ := h6
  rw [if_pos (by simp)] at h7
  obtain ⟨tb', shown, rfl, _, rfl⟩ := h7
  generalize ha : Algorithm.glr = a at h5
  cases h5 with
  | rust hk => subst ha; cases hk
  | @glr tb p htb hp =>
    refine ⟨vs, t, n, shown, p, by rw [h4]; rfl, h8, ht, ?_⟩
    obtain ⟨allow, n', h⟩ := htb
    exact ⟨allow, n', tb', h, hp⟩

/-- the command after the generation -/
theorem debug_of_ok {ws : List Written} {alg : Algorithm} (hgen : generate parse fuel true alg true .rust path (some text) = (ws, .ok)) (hparse : parse text = .ok rules)
    (hg : Grammar.fromRuleSet rules.ruleSet = .ok g) (steps : Nat) (src : List Char) :
    debug parse fuel steps alg path (some text) (some src) = compileAndRun rules.ruleSet g src steps ws := by
  unfold debug
  rw [hgen]
  simp only [hparse, hg]

/-- what has happened when the command says "Successfully parsed" -/
theorem debug_parsed {alg : Algorithm} {steps : Nat} {contents : Option (List Char)} {source : Option (List Char)} {lines : List (List Char)}
    (h : debug parse fuel steps alg path contents source = .parsed lines) :
    ∃ ws text rules g src, generate parse fuel true alg true .rust path contents = (ws, .ok) ∧ contents = some text ∧ parse text = .ok rules ∧
      Grammar.fromRuleSet rules.ruleSet = .ok g ∧ source = some src ∧ compileAndRun rules.ruleSet g src steps ws = .parsed lines := by
  unfold debug at h
  cases hgen : generate parse fuel true alg true .rust path contents with
  | mk ws e =>
    rw [hgen] at h
    cases e with
    | err r => cases h
    | panic a => cases h
    | running => cases h
    | ok =>
      simp only at h
      cases source with
      | none => cases h
      | some src =>
        cases contents with
        | none => cases h
        | some text =>
          simp only at h
          cases hp : parse text with
          | error e => rw [hp] at h; cases h
          | ok rules =>
            rw [hp] at h
            simp only at h
            cases hg : Grammar.fromRuleSet rules.ruleSet with
            | error e => rw [hg] at h; cases h
            | ok g =>
              rw [hg] at h
              exact ⟨ws, text, rules, g, src, rfl, rfl, hp, hg, rfl, h⟩

/-- the lines of a run -/
theorem lines_exist {names vs : List (List Char)} {ms : List (List Char × List Char)} {rs : RuleSet} (hv : rustTokenVariants names = .ok vs)
    (hm : List.Forall₂ (fun (v : Nat × List Char) (m : List Char × List Char) => v.2 = m.1 ∧ ∃ rule, g.rules[v.1]? = some rule ∧ ShowsRule g rule m.2) (ruleVisits rs g) ms)
    (hn : (ms.map (·.1)).Nodup) : ∀ (events : List (LREvent Unit)) (es : List (PEvent Unit)), TraceIs g events es → (∀ a, .shift a () ∈ es → a < names.length) →
    ∃ lines, events.mapM (debugLine vs (ruleVisits rs g) ms) = some lines ∧ List.Forall₂ (NodeLine names g) es lines := by
  intro events
  induction events with
  | nil =>
    intro es h _
    cases es with
    | nil => exact ⟨[], rfl, .nil⟩
    | cons e es => simp [TraceIs] at h
  | cons e events ih =>
    intro es h hs
    cases es with
    | nil => simp [TraceIs] at h
    | cons pe es =>
      simp only [TraceIs, List.map_cons, List.cons.injEq] at h
      obtain ⟨lines, h1, h2⟩ := ih es h.2 fun a ha => hs a (.tail _ ha)
      obtain ⟨line, h3, h4⟩ := debugLine_spec hv hm hn h.1 (fun a ha => hs a (ha ▸ .head _))
      exact ⟨line :: lines, by rw [List.mapM_cons, h3, h1]; rfl, .cons h4 h2⟩

theorem tokens_below {ts : List (Nat × List Char)} {trules : List TokenRule} {src : List Char} (h : TextTokens trules src ts) : ∀ x ∈ ts, x.1 < trules.length := by
  induction h with
  | done => simp
  | token _ _ hb _ _ ih =>
    intro x hx
    cases hx with
    | head =>
      obtain ⟨r, _, h1, _⟩ := hb
      exact (List.getElem?_eq_some_iff.mp h1).1
    | tail _ hx => exact ih x hx

theorem shifts_below {ts : List (Nat × List Char)} {trules : List TokenRule} {src : List Char} (h : TextTokens trules src ts) {tree : PTree Unit}
    (ht : tree.tokens = tokenNumbers ts) (a : Nat) (ha : .shift a () ∈ tree.postorder) : a < trules.length := by
  have : (a, ()) ∈ tree.tokens := by
    rw [← leaves_postorder, leavesOf, List.mem_filterMap]
    exact ⟨_, ha, rfl⟩
  rw [ht, tokenNumbers] at this
  obtain ⟨x, hx, he⟩ := List.mem_map.mp this
  cases he
  exact tokens_below h x hx

variable (hparse : parse text = .ok rules) (hg : Grammar.fromRuleSet rules.ruleSet = .ok g) (hE : rules.ruleSet.NoEmptySequence) (hf : EntryFresh g)
include hparse hg hE hf

/-- When the command says "Successfully parsed", the source consists of tokens (none is left out) that match the entry rule: they have a parse tree, and the lines printed before
are its nodes in post-order. (The entry symbol must occur in no right side.) -/
theorem C67_parsed (hT : ∀ r ∈ rules.tokens, r.inner.NoEmptySeq) (steps : Nat) (src : List Char) (lines : List (List Char))
    (h : debug parse fuel steps .glr path (some text) (some src) = .parsed lines) :
    ∃ ts tree, TextTokens (rules.tokens.map (·.inner)) src ts ∧ IsParseOf g (tokenNumbers ts) tree ∧
      List.Forall₂ (NodeLine (rules.tokens.map (·.inner.name.toList)) g) tree.postorder lines := by
  obtain ⟨ws, text', rules', g', src', hgen, h1, h2, h3, h4, hrun⟩ := debug_parsed h
  cases h1
  cases h4
  rw [hparse] at h2
  cases h2
  rw [hg] at h3
  cases h3
  have wf := C19_well_formed _ _ hg
  have hne : NoEmptyRhs g := C19_no_empty_right_side _ g hg hE
  obtain ⟨vs, t, n, shown, p, rfl, hvs, ht, hp⟩ := debug_glr hgen hparse hg
  obtain ⟨ms, m1, m2, m3⟩ := debugMethods_spec (rs := rules.ruleSet) wf
  simp only [compileAndRun, m1] at hrun
  cases hnt : g.nonTerminals.mapM (ntVariant g) with
  | error e => rw [hnt] at hrun; cases hrun
  | ok nts =>
    rw [hnt] at hrun
    simp only at hrun
    by_cases hd : namesDistinct vs nts ms = true
    · rw [if_pos hd] at hrun
      have hnd : (ms.map (·.1)).Nodup := by
        simp only [namesDistinct, Bool.and_eq_true, decide_eq_true_eq] at hd
        exact hd.2
      unfold runProgram at hrun
      cases hr : glrParse p.machine (debugInput t src) steps with
      | unexpected e q x => rw [hr] at hrun; cases hrun
      | panic e q => rw [hr] at hrun; cases hrun
      | running e q =>
        rw [hr] at hrun
        simp only at hrun
        split at hrun <;> cases hrun
      | ok events pos =>
        rw [hr] at hrun
        simp only at hrun
        obtain ⟨gr, hv, hm⟩ := glr_parser_inv wf hne hp
        have hspec := glrParse_spec hv hm (debugInput t src) steps
        rw [hr] at hspec
        obtain ⟨k, rfl, hacc, _⟩ := hspec
        obtain ⟨tree, t1, t2, t3⟩ := acc_tree hv hm hacc
        have heof := acc_eof hv hm (acceptEof_fresh wf hv rfl hf) hacc
        have hs : StreamIs (debugInput t src) tree.tokens := ⟨t2.2, by rw [t2.1]; exact heof⟩
        obtain ⟨ts, s1, s2⟩ := (debug_stream ht src).2 (fun r hr => by obtain ⟨x, hx, rfl⟩ := List.mem_map.mp hr; exact hT x hx) _ hs
        refine ⟨ts, tree, s1, ⟨t1, s2⟩, ?_⟩
        obtain ⟨lines', l1, l2⟩ := lines_exist hvs m3 hnd events tree.postorder t3 (fun a ha => by simpa using shifts_below s1 s2 a ha)
        split at hrun
        · cases hrun
        · simp only [programOutput, l1, Debugged.parsed.injEq] at hrun
          rw [← hrun]
          exact l2
    · rw [if_neg hd] at hrun
      cases hrun

variable {ws : List Written} (hgen : generate parse fuel true .glr true .rust path (some text) = (ws, .ok)) (hP : rules.prods.length ≤ 65536)
  (hS : rules.ruleSet.NoEpsilonInSequence) (hU : ∀ r ∈ rules.tokens, r.inner.NoEmptySeq ∧ r.inner.Useful) (hε : ∀ r ∈ rules.tokens, ¬ r.inner.Matches [])
  (hN : ClearNames rules) (hd : DistinctRules g) (hc : NoCycle g) (hh : NoHiddenLeftRecursion g)
include hgen hP hS hU hε hN hd hc hh

/-- For every source file the command comes to an end. It says "Successfully parsed" if the source consists of tokens that have exactly one parse tree, and "Failed to parse" if
not. -/
theorem C67_decides (src : List Char) : ∃ bound, ∀ steps, bound ≤ steps →
    ((∃ lines, debug parse fuel steps .glr path (some text) (some src) = .parsed lines) ↔
      ∃ ts tree, TextTokens (rules.tokens.map (·.inner)) src ts ∧ IsParseOf g (tokenNumbers ts) tree ∧ ∀ tree', IsParseOf g (tokenNumbers ts) tree' → tree' = tree) ∧
    ((¬ ∃ lines, debug parse fuel steps .glr path (some text) (some src) = .parsed lines) → debug parse fuel steps .glr path (some text) (some src) = .failed) := by
  have wf := C19_well_formed _ _ hg
  have hne : NoEmptyRhs g := C19_no_empty_right_side _ g hg hE
  have hel := C27_epsilon_condition _ g hg hS
  obtain ⟨vs, t, n, shown, p, rfl, hvs, ht, hp⟩ := debug_glr hgen hparse hg
  obtain ⟨ms, m1, m2, m3⟩ := debugMethods_spec (rs := rules.ruleSet) wf
  have hprods : ∀ q ∈ rules.ruleSet.prods, ∃ r ∈ rules.prods, r.inner = q := fun q hq => by
    obtain ⟨r, hr, rfl⟩ := List.mem_map.mp hq
    exact ⟨r, hr, rfl⟩
  have hPl : rules.ruleSet.prods.length ≤ 65536 := by simpa [SpannedRules.ruleSet] using hP
  have hanon : ∀ q ∈ rules.ruleSet.prods, ¬ IsAnon q.name.toList := fun q hq ⟨k, hk⟩ => by
    obtain ⟨r, hr, rfl⟩ := hprods q hq
    exact hN.notAnon r hr k (by rw [hk]; exact rfl)
  have hmn := (C41_distinct hg hPl (fun q hq => by obtain ⟨r, hr, rfl⟩ := hprods q hq; exact hN.noTag r hr) hanon
    (fun q hq => by obtain ⟨r, hr, rfl⟩ := hprods q hq; exact hN.noNumber r hr)).1
  rw [← m2] at hmn
  have hnts := C42_non_terminals hg hPl (fun q hq => by obtain ⟨r, hr, rfl⟩ := hprods q hq; exact hN.prods r hr)
    (fun q hq q' hq' hs => by
      obtain ⟨r, hr, rfl⟩ := hprods q hq
      obtain ⟨r', hr', rfl⟩ := hprods q' hq'
      exact hN.prodsDiffer r hr r' hr' hs)
    (fun q hq k => by obtain ⟨r, hr, rfl⟩ := hprods q hq; exact hN.notAnon r hr k)
  obtain ⟨nts, n1⟩ : ∃ nts, g.nonTerminals.mapM (ntVariant g) = .ok nts := mapM_total _ fun s hs => by
    obtain ⟨A, rfl⟩ := wf.nts s hs
    exact (hnts A A).1
  have n2 : nts.Nodup := by
    have hfa := mapM_forall₂ (P := fun x y => ntVariant g x = .ok y) n1 fun _ _ _ h => h
    have hlen := hfa.length_eq
    rw [List.nodup_iff_injective_get]
    intro i j hij
    have hi := (List.forall₂_iff_get.mp hfa).2 i.1 (by omega) i.2
    have hj := (List.forall₂_iff_get.mp hfa).2 j.1 (by omega) j.2
    have e1 : nts.get ⟨i.1, i.2⟩ = nts.get ⟨j.1, j.2⟩ := hij
    rw [e1] at hi
    obtain ⟨A, hA⟩ := wf.nts _ (List.get_mem g.nonTerminals ⟨i.1, by omega⟩)
    obtain ⟨B, hB⟩ := wf.nts _ (List.get_mem g.nonTerminals ⟨j.1, by omega⟩)
    rw [hA] at hi
    rw [hB] at hj
    have hAB : A = B := (hnts A B).2 (by
      show ntVariant g (.nt A) = ntVariant g (.nt B)
      rw [hi, hj])
    have := (List.nodup_iff_injective_get.mp wf.nodup) (a₁ := ⟨i.1, by omega⟩) (a₂ := ⟨j.1, by omega⟩) (by rw [hA, hB, hAB])
    exact Fin.ext (by simpa using this)
  have n3 : vs.Nodup := by
    obtain ⟨vs', v1, _, v2⟩ := C42_rust_tokens (names := rules.tokens.map (·.inner.name.toList)) fun x hx => by
      obtain ⟨r, hr, rfl⟩ := List.mem_map.mp hx
      exact hN.tokens r hr
    rw [hvs] at v1
    cases v1
    exact v2.mpr hN.tokensDiffer
  have hdist : namesDistinct vs nts ms = true := by simp [namesDistinct, n2, n3, hmn]
  have hdebug : ∀ steps, debug parse fuel steps .glr path (some text) (some src) =
      programOutput vs (ruleVisits rules.ruleSet g) ms (runProgram t p src steps) := by
    intro steps
    rw [debug_of_ok hgen hparse hg]
    simp only [compileAndRun, n1, m1, hdist, if_true]
  have hU' : ∀ r ∈ rules.tokens.map (·.inner), r.NoEmptySeq ∧ r.Useful := fun r hr => by obtain ⟨x, hx, rfl⟩ := List.mem_map.mp hr; exact hU x hx
  have hε' : ∀ r ∈ rules.tokens.map (·.inner), ¬ r.Matches [] := fun r hr => by obtain ⟨x, hx, rfl⟩ := List.mem_map.mp hr; exact hε x hx
  obtain ⟨hst1, hst2⟩ := debug_stream ht src
  obtain ⟨gr, hv, hm⟩ := glr_parser_inv wf hne hp
  by_cases hts : ∃ ts, TextTokens (rules.tokens.map (·.inner)) src ts
  · obtain ⟨ts, hts⟩ := hts
    have hs := hst1 hU' ts hts
    obtain ⟨bound, hb⟩ := C54_decides_empty g wf hne hel hd hf hc hh .lalr rfl p hp _ _ hs
    refine ⟨bound, fun steps hsteps => ?_⟩
    obtain ⟨b1, b2, b3⟩ := hb steps hsteps
    have hcount := C53_counts g wf hne hel hd hf .lalr rfl p hp _ _ hs steps
    have hright : (∃ ts tree, TextTokens (rules.tokens.map (·.inner)) src ts ∧ IsParseOf g (tokenNumbers ts) tree ∧ ∀ tree', IsParseOf g (tokenNumbers ts) tree' → tree' = tree) ↔
        ∃ tree, IsParseOf g (tokenNumbers ts) tree ∧ ∀ tree', IsParseOf g (tokenNumbers ts) tree' → tree' = tree := by
      constructor
      · rintro ⟨ts', tree, a1, a2⟩
        cases a1.unique hts
        exact ⟨tree, a2⟩
      · rintro ⟨tree, a⟩
        exact ⟨ts, tree, hts, a⟩
    rw [hright, hdebug]
    cases hr : glrParse p.machine (debugInput t src) steps with
    | ok events pos =>
      obtain ⟨c1, tree, c2, c3, c4⟩ := hcount.1 events pos hr
      have hpan : tokenPanics t src pos = false := by
        simp only [tokenPanics, List.any_eq_false, List.mem_range, decide_eq_true_eq]
        intro i hi
        have hlen : (tokenNumbers ts).length = ts.length := by simp [tokenNumbers]
        by_cases h1 : i < (tokenNumbers ts).length
        · rw [hs.1 i _ (List.getElem?_eq_getElem h1)]; simp
        · by_cases h2 : i = (tokenNumbers ts).length
          · rw [h2, hs.2]; simp
          · have : i = (tokenNumbers ts).length + 1 := by omega
            rw [this, debug_end ht src hs.2]; simp
      obtain ⟨lines, l1, l2⟩ := lines_exist hvs m3 hmn events tree.postorder c3 (fun a ha => by simpa using shifts_below hts c2.2 a ha)
      have hrun : runProgram t p src steps = .success events := by simp [runProgram, hr, hpan]
      rw [hrun]
      simp only [programOutput, l1]
      exact ⟨⟨fun _ => ⟨tree, c2, c4⟩, fun _ => ⟨lines, rfl⟩⟩, fun h => absurd ⟨lines, rfl⟩ h⟩
    | unexpected events pos errs =>
      have hrun : runProgram t p src steps = .failure := by simp [runProgram, hr]
      rw [hrun]
      refine ⟨⟨(by rintro ⟨l, hl⟩; cases hl), ?_⟩, fun _ => rfl⟩
      rintro ⟨tree, c, _⟩
      exact absurd c (hcount.2.2 events pos errs hr tree)
    | panic events pos =>
      have hrun : runProgram t p src steps = .failure := by simp [runProgram, hr]
      rw [hrun]
      refine ⟨⟨(by rintro ⟨l, hl⟩; cases hl), ?_⟩, fun _ => rfl⟩
      rintro ⟨tree, c, cu⟩
      obtain ⟨t1, t2, hne, d1, d2⟩ := hcount.2.1 events pos hr
      exact absurd ((cu t1 d1).trans (cu t2 d2).symm) hne
    | running events pos =>
      exfalso
      by_cases h0 : ∃ tree, IsParseOf g (tokenNumbers ts) tree
      · by_cases h1 : ∃ tree, IsParseOf g (tokenNumbers ts) tree ∧ ∀ tree', IsParseOf g (tokenNumbers ts) tree' → tree' = tree
        · obtain ⟨e, q, h2⟩ := b1.mpr h1
          rw [hr] at h2; cases h2
        · obtain ⟨tree, h0⟩ := h0
          have : ∃ tree', tree ≠ tree' ∧ IsParseOf g (tokenNumbers ts) tree' := by
            by_contra hcon
            exact h1 ⟨tree, h0, fun tree' h' => by by_contra hne; exact hcon ⟨tree', fun e => hne e.symm, h'⟩⟩
          obtain ⟨tree', h2, h3⟩ := this
          obtain ⟨e, q, h4⟩ := b3.mpr ⟨tree, tree', h2, h0, h3⟩
          rw [hr] at h4; cases h4
      · obtain ⟨e, q, x, h2⟩ := b2.mpr fun tree h => h0 ⟨tree, h⟩
        rw [hr] at h2; cases h2
  · -- a part of the source is no token
    obtain ⟨input, hfed, hinp⟩ := debugInput_fed ht src
    obtain ⟨L, hL⟩ := fedBy_ends ht hε' hfed
    have hex : ∃ k, ∀ a, (debugInput t src k).1 ≠ .tok a := ⟨L, fun a => by rw [hinp]; exact hL a⟩
    classical
    let k := Nat.find hex
    have hk : ∀ a, (debugInput t src k).1 ≠ .tok a := Nat.find_spec hex
    have hlt : ∀ i, i < k → ∃ a, (debugInput t src i).1 = .tok a := fun i hi => by
      have := Nat.find_min hex hi
      push Not at this
      exact this
    choose! a ha using hlt
    have hstream : ∀ inp : Nat → Tok × Unit, (∀ i, i < k → inp i = debugInput t src i) → (inp k).1 = .eof → StreamIs inp ((List.range k).map fun i => (a i, ())) := by
      intro inp h1 h2
      refine ⟨fun i x hx => ?_, by simpa using h2⟩
      rw [List.getElem?_map] at hx
      by_cases hi : i < k
      · rw [List.getElem?_range hi] at hx
        cases hx
        rw [h1 i hi]
        exact Prod.ext (ha i hi) rfl
      · rw [List.getElem?_eq_none (by simpa using hi)] at hx
        cases hx
    have herr : (debugInput t src k).1 = .err := by
      cases hc : (debugInput t src k).1 with
      | err => rfl
      | tok b => exact absurd hc (hk b)
      | eof =>
        obtain ⟨ts, h1, _⟩ := hst2 (fun r hr => (hU' r hr).1) _ (hstream _ (fun _ _ => rfl) hc)
        exact absurd ⟨ts, h1⟩ hts
    let inp : Nat → Tok × Unit := fun i => if i < k then debugInput t src i else (.eof, ())
    have hs := hstream inp (fun i hi => by simp [inp, hi]) (by simp [inp])
    obtain ⟨bound, hb⟩ := C54_terminates_empty g wf hne hc hh .lalr p hp _ _ hs
    refine ⟨bound, fun steps hsteps => ?_⟩
    have hfail : runProgram t p src steps = .failure := by
      unfold runProgram
      cases hr : glrParse p.machine (debugInput t src) steps with
      | unexpected e q x => rfl
      | panic e q => rfl
      | ok e q =>
        exfalso
        have hspec := glrParse_spec hv hm (debugInput t src) steps
        rw [hr] at hspec
        obtain ⟨j, rfl, hacc, _⟩ := hspec
        obtain ⟨tree, t1, t2, t3⟩ := acc_tree hv hm hacc
        have heof := acc_eof hv hm (acceptEof_fresh wf hv rfl hf) hacc
        obtain ⟨ts, s1, _⟩ := hst2 (fun r hr => (hU' r hr).1) _ (show StreamIs (debugInput t src) tree.tokens from ⟨t2.2, by rw [t2.1]; exact heof⟩)
        exact hts ⟨ts, s1⟩
      | running e q =>
        have hq : k ≤ q := by
          rcases glrParse_agree p.machine (input := debugInput t src) (input' := inp) (k := k) (fun i hi => by simp [inp, hi]) steps with h1 | h1
          · rw [hr] at h1
            exact absurd h1.symm (hb steps hsteps e q)
          · rw [hr] at h1
            exact h1
        have : tokenPanics t src q = true := by
          simp only [tokenPanics, List.any_eq_true, List.mem_range, decide_eq_true_eq]
          exact ⟨k, by omega, herr⟩
        simp only [this, if_true]
    rw [hdebug, hfail]
    refine ⟨⟨(by rintro ⟨l, hl⟩; cases hl), ?_⟩, fun _ => rfl⟩
    rintro ⟨ts, tree, h1, _⟩
    exact absurd ⟨ts, h1⟩ hts

end

section
variable (parse : List Char → Res SpannedRules) (fuel steps : Nat) (path : List Char)

/-- Where `generate` returns an error, `lapex debug` prints its reports and nothing else; it prints reports in no other case. -/
theorem C67_reports (alg : Algorithm) (contents source : Option (List Char)) (reports : List Report) :
    debug parse fuel steps alg path contents source = .reports reports ↔ ∃ ws, generate parse fuel true alg true .rust path contents = (ws, .err reports) := by
  constructor
  · intro h
    unfold debug at h
    split at h
    · rename_i ws rs hgen
      cases h
      exact ⟨ws, hgen⟩
    · cases h
    · cases h
    · split at h
      · split at h
        · cases h
        · split at h
          · cases h
          · rename_i rs _ _ g _
            exfalso
            unfold compileAndRun at h
            split at h
            · split at h
              · split at h
                · unfold programOutput at h
                  split at h <;> first | cases h | (split at h <;> cases h)
                · cases h
              · cases h
            · cases h
      · cases h
  · rintro ⟨ws, h⟩
    unfold debug
    rw [h]

/-- With any algorithm but GLR the command never says "Successfully parsed"; when the generation succeeds, it says "Failed to parse" for every source. -/
theorem C67_only_glr (alg : Algorithm) (ha : alg ≠ .glr) :
    (∀ contents source lines, debug parse fuel steps alg path contents source ≠ .parsed lines) ∧
    ∀ contents ws src, generate parse fuel true alg true .rust path contents = (ws, .ok) → debug parse fuel steps alg path contents (some src) = .failed := by
  have key : ∀ contents ws, generate parse fuel true alg true .rust path contents = (ws, .ok) → ∃ text rules g, contents = some text ∧ parse text = .ok rules ∧
      Grammar.fromRuleSet rules.ruleSet = .ok g ∧ ∀ src, compileAndRun rules.ruleSet g src steps ws = .failed := by
    intro contents ws hgen
    obtain ⟨text, rules, g, vs, lexer, table, parser, tb, h1, h2, h3, h4, h5, h6, h7, h8⟩ := C65_ok _ _ _ _ _ _ _ _ _ hgen
    refine ⟨text, rules, g, h1, h2, h3, fun src => ?_⟩
    simp only [if_true] at h6
    obtain ⟨t, n, rfl, ht⟩ := h6
    generalize hl : Language.rust = lang at h5
    cases h5 with
    | rust hk htb hp =>
      have hll : alg ≠ .ll1 := by rintro rfl; cases hk
      rw [if_pos ⟨rfl, hll⟩] at h7
      obtain ⟨tb', shown, _, _, rfl⟩ := h7
      rw [h4]
      rfl
    | cpp => cases hl
    | glr => exact absurd rfl ha
    | ll => cases hl
  constructor
  · intro contents source lines h
    obtain ⟨ws, text, rules, g, src, h1, h2, h3, h4, h5, h6⟩ := debug_parsed h
    obtain ⟨text', rules', g', k1, k2, k3, k4⟩ := key contents ws h1
    rw [h2] at k1
    cases k1
    rw [h3] at k2
    cases k2
    rw [h4] at k3
    cases k3
    rw [k4] at h6
    cases h6
  · intro contents ws src hgen
    obtain ⟨text, rules, g, rfl, k2, k3, k4⟩ := key contents ws hgen
    rw [debug_of_ok hgen k2 k3]
    exact k4 src

/-- If two rules have callbacks of the same name (C41), the command never says "Successfully parsed", with any algorithm. -/
theorem C67_clash (alg : Algorithm) (text : List Char) (rules : SpannedRules) (g : Grammar) (hparse : parse text = .ok rules) (hg : Grammar.fromRuleSet rules.ruleSet = .ok g)
    (r r' : Nat) (name : List Char) (hne : r ≠ r') (h1 : IsCallback rules.ruleSet g r name) (h2 : IsCallback rules.ruleSet g r' name) (source : Option (List Char))
    (lines : List (List Char)) : debug parse fuel steps alg path (some text) source ≠ .parsed lines := by
  intro h
  by_cases ha : alg = .glr
  · subst ha
    obtain ⟨ws, text', rules', g', src, hgen, e1, e2, e3, e4, hrun⟩ := debug_parsed h
    cases e1
    rw [hparse] at e2
    cases e2
    rw [hg] at e3
    cases e3
    obtain ⟨vs, t, n, shown, p, rfl, hvs, ht, hp⟩ := debug_glr hgen hparse hg
    obtain ⟨ms, m1, m2, m3⟩ := debugMethods_spec (rs := rules.ruleSet) (C19_well_formed _ _ hg)
    have hnd : ¬ (ms.map (·.1)).Nodup := by
      rw [m2]
      intro hnd
      exact hne (methods_nodup_iff.mp hnd r r' name h1 h2)
    have hd : ∀ nts, namesDistinct vs nts ms = false := fun nts => by simp [namesDistinct, hnd]
    simp only [compileAndRun, m1] at hrun
    cases hnt : g.nonTerminals.mapM (ntVariant g) with
    | error e => rw [hnt] at hrun; cases hrun
    | ok nts =>
      rw [hnt] at hrun
      simp only [hd] at hrun
      cases hrun
  · exact (C67_only_glr parse fuel steps path alg ha).1 _ _ _ h

end

/-! ## Non-vacuity: `token n = /1+/; token plus = "+"; entry sum; prod sum = n (plus n)*;` -/

def debugRules : SpannedRules where
  entry := ⟨⟨⟨0, 0⟩, ⟨0, 0⟩⟩, "sum"⟩
  tokens := (sumTokens.take 2).map (⟨⟨⟨0, 0⟩, ⟨0, 0⟩⟩, ·⟩)
  prods := sumProds.map (⟨⟨⟨0, 0⟩, ⟨0, 0⟩⟩, ·⟩)

def debugGrammar : Grammar where
  rules := [⟨2, [.eps], 0⟩, ⟨2, [.t 1, .t 0, .nt 2], 0⟩, ⟨0, [.t 0, .nt 2], 0⟩]
  anon := [.nt 2]
  productions := [(.nt 0, "sum")]
  tokens := [(.t 0, "n"), (.t 1, "plus")]
  entry := .nt 0
  entryOrigin := 0

theorem debugGrammar_built : Grammar.fromRuleSet debugRules.ruleSet = .ok debugGrammar := GRes.of_same (by decide)

/-- the parser of the examples -/
def debugParse (_ : List Char) : Res SpannedRules := .ok debugRules

example : debug debugParse 60 60 .glr [] (some []) (some "1+11".toList) = .parsed
    ["shift TkN".toList, "shift TkPlus".toList, "shift TkN".toList, "<anon>(2) -> <eps>".toList, "<anon>(2) -> plus(1) n(0) <anon>(2)".toList, "sum(0) -> n(0) <anon>(2)".toList] := by
  decide +kernel

example : debug debugParse 60 60 .glr [] (some []) (some "1+ 1".toList) = .failed ∧ debug debugParse 60 60 .glr [] (some []) (some "1+".toList) = .failed ∧
    debug debugParse 60 60 .lalr [] (some []) (some "1+11".toList) = .failed := by
  decide +kernel

theorem debugTokens_mem {r : Spanned TokenRule} (hr : r ∈ debugRules.tokens) : r.inner ∈ sumTokens := by
  simp only [debugRules, sumTokens, List.take_succ_cons, List.take_zero, List.map_cons, List.map_nil, List.mem_cons, List.not_mem_nil, or_false] at hr
  rcases hr with rfl | rfl <;> simp [sumTokens]

theorem debug_clear : ClearNames debugRules where
  tokens := by
    intro r hr
    have := debugTokens_mem hr
    simp only [sumTokens, List.mem_cons, List.not_mem_nil, or_false] at this
    rcases this with h | h | h <;> rw [h] <;> exact goodName_of (by decide +kernel)
  tokensDiffer := by
    have : debugRules.tokens.map (·.inner.name.toList) = ["n".toList, "plus".toList] := rfl
    rw [this]
    simp only [List.pairwise_cons, List.mem_cons, List.not_mem_nil, or_false, forall_eq, false_implies, implies_true, List.Pairwise.nil, and_true, SameName]
    decide +kernel
  prods := by
    intro r hr
    simp only [debugRules, sumProds, List.map_cons, List.map_nil, List.mem_singleton] at hr
    subst hr
    exact goodName_of (by decide +kernel)
  prodsDiffer := by
    intro r hr r' hr' _
    simp only [debugRules, sumProds, List.map_cons, List.map_nil, List.mem_singleton] at hr hr'
    subst hr hr'
    rfl
  notAnon := by
    intro r hr n h
    simp only [debugRules, sumProds, List.map_cons, List.map_nil, List.mem_singleton] at hr
    subst hr
    have := congrArg (List.take 1) h
    rw [List.map_append] at this
    revert this
    rw [List.take_append_of_le_length (by decide +kernel)]
    decide +kernel
  noNumber := by
    intro r hr
    simp only [debugRules, sumProds, List.map_cons, List.map_nil, List.mem_singleton] at hr
    subst hr
    exact not_number (by decide +kernel)
  noTag := by
    intro r hr
    simp only [debugRules, sumProds, List.map_cons, List.map_nil, List.mem_singleton] at hr
    subst hr
    rfl

/-- all hypotheses of C67_parsed and C67_decides hold -/
example (src : List Char) : ∃ bound, ∀ steps, bound ≤ steps →
    ((∃ lines, debug debugParse 60 steps .glr [] (some []) (some src) = .parsed lines) ↔
      ∃ ts tree, TextTokens (debugRules.tokens.map (·.inner)) src ts ∧ IsParseOf debugGrammar (tokenNumbers ts) tree ∧
        ∀ tree', IsParseOf debugGrammar (tokenNumbers ts) tree' → tree' = tree) ∧
    ((¬ ∃ lines, debug debugParse 60 steps .glr [] (some []) (some src) = .parsed lines) → debug debugParse 60 steps .glr [] (some []) (some src) = .failed) := by
  have hok : (generate debugParse 60 true .glr true .rust [] (some [])).2 = .ok := by decide +kernel
  have hgen : generate debugParse 60 true .glr true .rust [] (some []) = ((generate debugParse 60 true .glr true .rust [] (some [])).1, .ok) := by rw [← hok]
  have hrank : wellRanked debugGrammar [2] (fun A => if A = 0 then 1 else 0) = true := by decide
  exact C67_decides rfl debugGrammar_built sum_fine.noEmptySequence (by unfold EntryFresh; decide) hgen (by decide) sum_fine.noEpsilonInSequence
    (fun r hr => sumTokens_useful _ (debugTokens_mem hr)) (fun r hr => sumTokens_nonempty _ (debugTokens_mem hr)) debug_clear (by unfold DistinctRules; decide)
    (wellRanked_spec hrank).1 (wellRanked_spec hrank).2 src

/-- a name clash: `a` has two rules and there is an `a_1` -/
def clashRules : SpannedRules where
  entry := ⟨⟨⟨0, 0⟩, ⟨0, 0⟩⟩, "a"⟩
  tokens := [⟨⟨⟨0, 0⟩, ⟨0, 0⟩⟩, ⟨"x", none, .literal ['x']⟩⟩, ⟨⟨⟨0, 0⟩, ⟨0, 0⟩⟩, ⟨"y", none, .literal ['y']⟩⟩]
  prods := [⟨⟨⟨0, 0⟩, ⟨0, 0⟩⟩, ⟨"a", none, .rule "x"⟩⟩, ⟨⟨⟨0, 0⟩, ⟨0, 0⟩⟩, ⟨"a", none, .rule "a_1"⟩⟩, ⟨⟨⟨0, 0⟩, ⟨0, 0⟩⟩, ⟨"a_1", none, .rule "y"⟩⟩]

def clashGrammar : Grammar :=
  ⟨[⟨0, [.t 0], 0⟩, ⟨0, [.nt 2], 1⟩, ⟨2, [.t 1], 2⟩], [], [(.nt 0, "a"), (.nt 2, "a_1")], [(.t 0, "x"), (.t 1, "y")], .nt 0, 0⟩

-- the hypotheses of C67_clash hold
example : Grammar.fromRuleSet clashRules.ruleSet = .ok clashGrammar ∧
    ∃ r r' name, r ≠ r' ∧ IsCallback clashRules.ruleSet clashGrammar r name ∧ IsCallback clashRules.ruleSet clashGrammar r' name := by
  refine ⟨GRes.of_same (by decide), ?_⟩
  have h : ¬ (visitorMethods clashRules.ruleSet clashGrammar).Nodup := by decide +kernel
  rw [methods_nodup_iff] at h
  simp only [not_forall] at h
  obtain ⟨r, r', name, h1, h2, h3⟩ := h
  exact ⟨r, r', name, h3, h1, h2⟩

-- the generation succeeds, and `x` has exactly one tree
example : (generate (fun _ => .ok clashRules) 60 true .glr true .rust [] (some [])).2 = .ok ∧
    debug (fun _ => .ok clashRules) 60 60 .glr [] (some []) (some ['x']) = .failed := by
  decide +kernel

end Verif
