import Verif.Proofs.LR1Exact
import Verif.Proofs.LRStops
import Verif.Props.GLR

/-!
# C59: canonical LR(1) parsers stop, reduce only when the next token fits, and name exactly the tokens that fit

For all grammars with productive non-terminals whose rules have an ε only at the beginning (C27) and whose entry symbol is not left-recursive (C30), empty
rules included. `CanContinue g w x`: the terminal `x` can come after the tokens `w` in a sentence; for the end marker, `w` is a sentence.
-/

set_option autoImplicit false

namespace Verif

variable {T : Type}

/-- The parser returns on every stream that ends. -/
theorem C59_terminates (g : Grammar) (wf : g.WF) (hne : NoEmptyRhs g) (hel : EpsLeading g) (hl : EntryNotLeftRecursive g) (hprod : Productive g) (p : LRProg)
    (hp : LRParserFor g .lr1 p) (w : List (Nat × T)) (input : Nat → Tok × T) (hin : StreamIs input w) :
    ∃ bound, ∀ fuel, bound ≤ fuel → ∀ events pos, lrParse p.machine input fuel ≠ .running events pos := by
  obtain ⟨gr, hv, hsp⟩ := parser_inv wf hne hp
  obtain ⟨n, hn⟩ := lr1_stops wf hprod hv (prog_follows wf hv.base hsp) (prog_obeys wf hv.base hsp) hel hl (fun a => by rw [hin.2]; simp) w.length [.state p.machine.entry] 0 [] (by omega) .start
  refine ⟨n, fun fuel hf events pos h => ?_⟩
  unfold lrParse at h
  rw [lrRun_mono n _ _ _ hn fuel hf] at h
  exact hn _ _ h

/-- A reduction is only made if the next token can follow the tokens consumed. -/
theorem C59_reduce (g : Grammar) (wf : g.WF) (hne : NoEmptyRhs g) (hprod : Productive g) (p : LRProg) (hp : LRParserFor g .lr1 p) (input : Nat → Tok × T)
    (stack stack' : List StackSym) (pos pos' i : Nat) (events : List (LREvent T)) (h : LRReaches p.machine input stack pos events)
    (hs : lrStep p.machine input stack pos = .next stack' pos' (.reduce i)) : NextViable g input pos := by
  obtain ⟨gr, hv, hsp⟩ := parser_inv wf hne hp
  rcases lr1_step wf hprod hv (prog_follows wf hv.base hsp) h with h | ⟨exp, h⟩ | ⟨stk', a, d, h1, h⟩ | ⟨stk', i, h, hn⟩
  · rw [h] at hs; cases hs
  · rw [h] at hs; cases hs
  · rw [h] at hs; cases hs
  · exact hn

/-- So the last callback before an error is not a reduction: the error is found at once. -/
theorem C59_no_reduction (g : Grammar) (wf : g.WF) (hne : NoEmptyRhs g) (hel : EpsLeading g) (hl : EntryNotLeftRecursive g) (hprod : Productive g) (p : LRProg)
    (hp : LRParserFor g .lr1 p) (input : Nat → Tok × T) (fuel : Nat) (events : List (LREvent T)) (pos : Nat) (expected : List Sym)
    (h : lrParse p.machine input fuel = .unexpected events pos expected) (i : Nat) : events.getLast? ≠ some (.reduce i) := by
  obtain ⟨gr, hv, hsp⟩ := parser_inv wf hne hp
  obtain ⟨stk, h1, _⟩ := (lrRun_reaches fuel _ _ _ .start).2 _ _ _ h
  exact (error_config wf hprod hv (prog_follows wf hv.base hsp) h1 (lr_error wf hne hp hel hl h).1).1 i

/-- The expected symbols of an error are exactly those that can follow the tokens before the error. -/
theorem C59_expected (g : Grammar) (wf : g.WF) (hne : NoEmptyRhs g) (hel : EpsLeading g) (hl : EntryNotLeftRecursive g) (hprod : Productive g) (p : LRProg)
    (hp : LRParserFor g .lr1 p) (input : Nat → Tok × T) (fuel : Nat) (events : List (LREvent T)) (pos : Nat) (expected : List Sym)
    (h : lrParse p.machine input fuel = .unexpected events pos expected) :
    ∃ w, Consumes input pos w ∧ ∀ x, x ∈ expected ↔ CanContinue g (w.map (·.1)) x := by
  obtain ⟨gr, hv, hsp⟩ := parser_inv wf hne hp
  have hm := prog_follows wf hv.base hsp
  obtain ⟨stk, h1, h2⟩ := (lrRun_reaches fuel _ _ _ .start).2 _ _ _ h
  obtain ⟨_, hre⟩ := error_config wf hprod hv hm h1 (lr_error wf hne hp hel hl h).1
  rcases reaches_inv hv hm h1 with ⟨ts, h3, h4⟩ | ⟨rfl, _⟩
  · obtain ⟨q, rest, rfl⟩ := h3.head
    have hq : q < (buildTable g gr).stateCount := by
      rw [(buildTable_cell (gr := gr) wf).1.count]
      exact getElem?_lt (h3.range hv.base).choose_spec
    have hact : p.machine.nextAction q (input pos).1 = .unexpected expected := by
      rcases lrStep_sound hv hm h3 h4 with ⟨exp, he, ha⟩ | ⟨_, _, _, he, _⟩
      · rw [he] at h2; cases h2; exact ha
      · rw [he] at h2; cases h2
    change p.nextAction q (input pos).1 = _ at hact
    rw [hsp.action q hq] at hact
    have hexp : expected = (g.terminals ++ [Sym.eof]).filter (fun s => (actOf (buildTable g gr) q s).isSome) := by
      split at hact
      · cases hact
      · simpa using hact.symm
    refine ⟨_, h4.consumed, fun x => ?_⟩
    rw [hexp, List.mem_filter]
    constructor
    · rintro ⟨hx, ha⟩
      obtain ⟨a, ha⟩ := Option.isSome_iff_exists.mp ha
      obtain ⟨tk, htk⟩ : ∃ tk : Tok, tk.sym = some x := by
        rcases List.mem_append.mp hx with h | h
        · obtain ⟨t, rfl⟩ := wf.ts _ h; exact ⟨.tok t, rfl⟩
        · simp at h; subst h; exact ⟨.eof, rfl⟩
      have : p.machine.nextAction q tk = .act a := by
        change p.nextAction q tk = _
        rw [hsp.action q hq, htk, Option.bind_some, if_pos hx, ha]
      obtain ⟨x', hx', hc⟩ := action_continue wf hprod hv hm h3 this
      rw [htk] at hx'; cases hx'
      exact hc
    · intro hc
      obtain ⟨tk, htk⟩ : ∃ tk : Tok, tk.sym = some x := by
        cases x with
        | t a => exact ⟨.tok a, rfl⟩
        | eof => exact ⟨.eof, rfl⟩
        | nt A => exact hc.elim
        | eps => exact hc.elim
      let inp : Nat → Tok × T := fun j => if j < pos then input j else (tk, (input pos).2)
      have hj : ∀ j, j < pos → input j = inp j := fun j hj => by simp [inp, hj]
      have hpos : (inp pos).1 = tk := by simp [inp]
      have hcons : Consumes inp pos (PTree.tokensList ts.reverse) := by
        obtain ⟨k1, k2⟩ := h4.consumed
        refine ⟨k1, fun i y hy => ?_⟩
        rw [← hj i (by rw [← k1]; exact getElem?_lt hy)]
        exact k2 i y hy
      have hnv : NextViable g inp pos := nextViable_of_continue hcons (by rw [hpos]; exact htk) hc
      have hr' := hre inp hj
      have hact' : ∀ exp, p.nextAction q tk ≠ .unexpected exp := by
        intro exp he
        obtain ⟨n, hn⟩ := reaches_run hr'
        have : lrStep p.machine inp (.state q :: rest) pos = .unexpected exp := lrStep_unexpected (by rw [hpos]; exact he)
        have h5 := hn 1
        rw [lrRun, this] at h5
        exact (lr_error wf hne hp hel hl h5).1 hnv
      rw [hsp.action q hq, htk, Option.bind_some] at hact'
      split at hact'
      · rename_i a ha
        split at ha
        · rename_i hx
          exact ⟨hx, by rw [ha]; rfl⟩
        · cases ha
      · exact absurd rfl (hact' _)
  · simp [lrStep] at h2

/-- Token strings that are not sentences are reported as errors (sentences are accepted, C30): with C30 the parser is a decision procedure. -/
theorem C59_reports (g : Grammar) (wf : g.WF) (hne : NoEmptyRhs g) (hel : EpsLeading g) (hl : EntryNotLeftRecursive g) (hprod : Productive g) (p : LRProg)
    (hp : LRParserFor g .lr1 p) (w : List (Nat × T)) (input : Nat → Tok × T) (hin : StreamIs input w)
    (hw : ¬ Derives g.rules [g.entry] (w.map (·.1))) :
    ∃ bound events pos expected, ∀ fuel, bound ≤ fuel → lrParse p.machine input fuel = .unexpected events pos expected := by
  obtain ⟨bound, hb⟩ := C59_terminates g wf hne hel hl hprod p hp w input hin
  have hrun := hb bound (Nat.le_refl _)
  have hmono := lrRun_mono bound [.state p.machine.entry] 0 [] hrun
  cases hr : lrParse p.machine input bound with
  | running e q => exact absurd hr (hrun e q)
  | panic e q => exact absurd hr (C34_no_panic g wf hne .lr1 p hp input bound e q)
  | unexpected e q x => exact ⟨bound, e, q, x, fun fuel hf => (hmono fuel hf).trans hr⟩
  | ok e q => exact absurd ((C30_lr1_decides g wf hne hel hl p hp w input hin).mp ⟨bound, e, q, hr⟩) hw

/-! ## C57 — termination of every parser without conflicts -/

/-- Every generated LR parser (LR(0), LALR, LR(1)) returns on every stream that ends, if every non-terminal derives some tokens. There is no condition on
cycles or hidden left recursion, which show up as conflicts. -/
theorem C57_lr_terminates_productive (g : Grammar) (wf : g.WF) (hne : NoEmptyRhs g) (hel : EpsLeading g) (hl : EntryNotLeftRecursive g) (hprod : Productive g) (kind : LRKind)
    (p : LRProg) (hp : LRParserFor g kind p) (w : List (Nat × T)) (input : Nat → Tok × T) (hin : StreamIs input w) :
    ∃ bound, ∀ fuel, bound ≤ fuel → ∀ events pos, lrParse p.machine input fuel ≠ .running events pos :=
  lr_stops_productive wf hne hp hel hl hprod hin

/-- What it returns: for a sentence Ok, with all tokens consumed and the callbacks of its parse tree. Otherwise an error, or Ok after a proper prefix that is
a sentence, with the callbacks of the prefix' tree. -/
theorem C57_lr_answers (g : Grammar) (wf : g.WF) (hne : NoEmptyRhs g) (hel : EpsLeading g) (hl : EntryNotLeftRecursive g) (hprod : Productive g) (kind : LRKind)
    (p : LRProg) (hp : LRParserFor g kind p) (w : List (Nat × T)) (input : Nat → Tok × T) (hin : StreamIs input w) :
    (Derives g.rules [g.entry] (w.map (·.1)) → ∃ t, IsParseTree g.rules g.entry t ∧ t.tokens = w ∧ ∃ events, TraceIs g events t.postorder ∧
      ∃ bound, ∀ fuel, bound ≤ fuel → lrParse p.machine input fuel = .ok events w.length) ∧
    (¬ Derives g.rules [g.entry] (w.map (·.1)) →
      (∃ events pos expected bound, ∀ fuel, bound ≤ fuel → lrParse p.machine input fuel = .unexpected events pos expected) ∨
      (∃ t, IsParseTree g.rules g.entry t ∧ t.tokens <+: w ∧ t.tokens ≠ w ∧ ∃ events, TraceIs g events t.postorder ∧
        ∃ bound, ∀ fuel, bound ≤ fuel → lrParse p.machine input fuel = .ok events t.tokens.length)) := by
  constructor
  · intro hd
    obtain ⟨E, hE, _⟩ := wf.entry_declared
    rw [hE] at hd
    obtain ⟨t, ht, rfl⟩ := derives_tree hd
    rw [← hE] at ht
    obtain ⟨n, events, h1, h2⟩ := lr_accepts g wf hne hel hl kind p hp t ht input hin
    exact ⟨t, ht, rfl, events, h2, n, h1⟩
  · intro hd
    obtain ⟨bound, hb⟩ := C57_lr_terminates_productive g wf hne hel hl hprod kind p hp w input hin
    have hrun := hb bound (Nat.le_refl _)
    have hmono := lrRun_mono bound [.state p.machine.entry] 0 [] hrun
    cases hr : lrParse p.machine input bound with
    | running e q => exact absurd hr (hrun e q)
    | panic e q => exact absurd hr (C34_no_panic g wf hne kind p hp input bound e q)
    | unexpected e q x => exact .inl ⟨e, q, x, bound, fun fuel hf => (hmono fuel hf).trans hr⟩
    | ok e q =>
      right
      obtain ⟨t, h1, h2, h3⟩ := C28_sound g wf hne kind p hp input bound e q hr
      refine ⟨t, h1, ?_, ?_, e, h3, bound, fun fuel hf => by rw [h2.1]; exact (hmono fuel hf).trans hr⟩
      · exact consumes_prefix hin h2
      · intro he
        exact hd (by rw [← he]; exact isParseTree_derives h1)

/-- If no right side contains the entry symbol, an LALR parser is a decision procedure as well: Ok for the sentences, an error for everything else. -/
theorem C57_lalr_decides (g : Grammar) (wf : g.WF) (hne : NoEmptyRhs g) (hel : EpsLeading g) (hf : EntryFresh g) (hprod : Productive g) (kind : LRKind) (hk : kind.hasLa = true)
    (p : LRProg) (hp : LRParserFor g kind p) (w : List (Nat × T)) (input : Nat → Tok × T) (hin : StreamIs input w) :
    (Derives g.rules [g.entry] (w.map (·.1)) → ∃ events bound, ∀ fuel, bound ≤ fuel → lrParse p.machine input fuel = .ok events w.length) ∧
    (¬ Derives g.rules [g.entry] (w.map (·.1)) → ∃ events pos expected bound, ∀ fuel, bound ≤ fuel → lrParse p.machine input fuel = .unexpected events pos expected) := by
  obtain ⟨h1, h2⟩ := C57_lr_answers g wf hne hel (entryFresh_leftCorner hf) hprod kind p hp w input hin
  refine ⟨fun hd => ?_, fun hd => ?_⟩
  · obtain ⟨_, _, _, events, _, bound, h⟩ := h1 hd
    exact ⟨events, bound, h⟩
  · rcases h2 hd with h | ⟨t, ht, hpre, hneq, events, _, bound, h⟩
    · exact h
    · exfalso
      have he := lr_eof wf hne hp hk hf (h bound (Nat.le_refl _))
      exact hneq (consumes_stream hin (prefix_consumes hin hpre) he).2

/-! ## Non-vacuity -/

/-- a check of `Productive`: non-terminals in an order in which each has a rule with earlier non-terminals only -/
def productiveOrder (g : Grammar) : List Nat → List Nat → Bool
  | _, [] => true
  | done, A :: rest => g.rules.any (fun r => r.lhs = A && r.rhs.all (fun s => match s with | .nt B => done.contains B | .eof => false | _ => true)) && productiveOrder g (A :: done) rest

theorem productiveOrder_sound {g : Grammar} : ∀ (order done : List Nat), (∀ A ∈ done, ∃ w, Derives g.rules [.nt A] w) → productiveOrder g done order = true →
    ∀ A ∈ order, ∃ w, Derives g.rules [.nt A] w := by
  intro order
  induction order with
  | nil => intro _ _ _ A hA; cases hA
  | cons A rest ih =>
    intro done hd h
    simp only [productiveOrder, Bool.and_eq_true, List.any_eq_true] at h
    obtain ⟨⟨r, hr, hA, hall⟩, h⟩ := h
    have hA : r.lhs = A := by simpa using hA
    have key : ∀ ss : List Sym, (∀ s ∈ ss, (match s with | .nt B => done.contains B | .eof => false | _ => true) = true) → ∃ w, Derives g.rules ss w := by
      intro ss
      induction ss with
      | nil => intro _; exact ⟨[], .nil⟩
      | cons s ss ih2 =>
        intro hs
        obtain ⟨v, hv⟩ := ih2 fun s h => hs s (List.mem_cons_of_mem _ h)
        have h1 := hs s List.mem_cons_self
        cases s with
        | t a => exact ⟨_, .term hv⟩
        | eps => exact ⟨_, .eps hv⟩
        | eof => simp at h1
        | nt B =>
          obtain ⟨u, hu⟩ := hd B (by simpa using h1)
          exact ⟨u ++ v, hu.append hv⟩
    obtain ⟨w, hw⟩ := key r.rhs (List.all_eq_true.mp hall)
    have hnew : ∃ w, Derives g.rules [.nt A] w := by
      rw [← hA]
      exact ⟨w ++ [], .nonterm hr hw .nil⟩
    intro B hB
    rcases List.mem_cons.mp hB with rfl | hB
    · exact hnew
    · refine ih (A :: done) ?_ h B hB
      intro C hC
      rcases List.mem_cons.mp hC with rfl | hC
      · exact hnew
      · exact hd C hC

theorem productive_of_order {g : Grammar} (order : List Nat) (h : productiveOrder g [] order = true) (ha : g.nonTerminals.all (fun s => match s with | .nt A => order.contains A | _ => true) = true) :
    Productive g := by
  intro A hA
  refine productiveOrder_sound order [] (by simp) h A ?_
  have := List.all_eq_true.mp ha _ hA
  simpa using this

/-- a grammar with an empty rule: `s = a? b` -/
def optBRules : RuleSet where
  entry := "s"
  tokens := ["a", "b"]
  prods := [⟨"s", none, .sequence [.optional (.rule "a"), .rule "b"]⟩]

def optBGrammar : Grammar where
  rules := [⟨2, [.t 0], 0⟩, ⟨2, [.eps], 0⟩, ⟨0, [.nt 2, .t 1], 0⟩]
  anon := [.nt 2]
  productions := [(.nt 0, "s")]
  tokens := [(.t 0, "a"), (.t 1, "b")]
  entry := .nt 0
  entryOrigin := 0

theorem optBGrammar_built : Grammar.fromRuleSet optBRules = .ok optBGrammar := GRes.of_same (by decide)

theorem optBGrammar_entry : EntryNotLeftRecursive optBGrammar := by
  intro A hA h
  have h0 : A = 0 := by
    have : optBGrammar.entry = .nt 0 := rfl
    rw [this] at hA
    cases hA
    rfl
  subst h0
  have hno : ∀ r ∈ optBGrammar.rules, r.rhs[leadingEps r.rhs]? ≠ some (.nt 0) := by decide
  cases h with
  | one h => obtain ⟨r, hr, -, h⟩ := h; exact hno r hr h
  | more _ h => obtain ⟨r, hr, -, h⟩ := h; exact hno r hr h

example : optBGrammar.WF ∧ NoEmptyRhs optBGrammar ∧ EpsLeading optBGrammar ∧ EntryNotLeftRecursive optBGrammar ∧ Productive optBGrammar ∧ lrClean optBGrammar .lr1 60 = true :=
  ⟨C19_well_formed _ _ optBGrammar_built, by decide, by decide, optBGrammar_entry, productive_of_order [2, 0] (by decide) (by decide), by decide +kernel⟩
-- no reduction before the error, and the exact expected tokens
example : lrTry optBGrammar .lr1 60 [] 20 = some (.unexpected [] 0 [.t 0, .t 1]) := by decide +kernel
example : lrTry optBGrammar .lr1 60 [0, 0] 20 = some (.unexpected [.shift (.tok 0) ()] 1 [.t 1]) := by decide +kernel
example : lrTry optBGrammar .lr1 60 [1] 20 = some (.ok [.reduce 1, .shift (.tok 1) (), .reduce 2] 1) := by decide +kernel

-- C57: an LALR and an LR(0) grammar for which the conditions of `C57_lr_terminates` and `C57_lr_terminates_empty` fail: `u` and `v` are a cycle of unit rules,
-- which is not a conflict as nothing uses them
def loopRules : RuleSet where
  entry := "s"
  tokens := ["a", "b"]
  prods := [⟨"s", none, .sequence [.rule "a", .rule "b"]⟩, ⟨"u", none, .rule "v"⟩, ⟨"v", none, .rule "u"⟩, ⟨"v", none, .rule "a"⟩]

def loopGrammar : Grammar where
  rules := [⟨0, [.t 0, .t 1], 0⟩, ⟨1, [.nt 2], 1⟩, ⟨2, [.nt 1], 2⟩, ⟨2, [.t 0], 3⟩]
  anon := []
  productions := [(.nt 0, "s"), (.nt 1, "u"), (.nt 2, "v")]
  tokens := [(.t 0, "a"), (.t 1, "b")]
  entry := .nt 0
  entryOrigin := 0

theorem loopGrammar_built : Grammar.fromRuleSet loopRules = .ok loopGrammar := GRes.of_same (by decide)

example : loopGrammar.WF ∧ NoEmptyRhs loopGrammar ∧ EpsLeading loopGrammar ∧ EntryFresh loopGrammar ∧ Productive loopGrammar ∧ lrClean loopGrammar .lalr 60 = true ∧
    lrClean loopGrammar .lr0 60 = true :=
  ⟨C19_well_formed _ _ loopGrammar_built, by decide, by decide, by unfold EntryFresh; decide, productive_of_order [2, 1, 0] (by decide) (by decide), by decide +kernel, by decide +kernel⟩
example : ¬ NoCycle loopGrammar := fun h => h 1 (.tail (.single ⟨⟨1, [.nt 2], 1⟩, by decide, [], [], rfl, rfl, .nil, .nil⟩) ⟨⟨2, [.nt 1], 2⟩, by decide, [], [], rfl, rfl, .nil, .nil⟩)
example : lrTry loopGrammar .lalr 60 [0, 1] 20 = some (.ok [.shift (.tok 0) (), .shift (.tok 1) (), .reduce 0] 2) := by decide +kernel
-- the LR(0) parser returns Ok after a proper prefix, the LALR parser does not
example : lrTry loopGrammar .lr0 60 [0, 1, 1] 20 = some (.ok [.shift (.tok 0) (), .shift (.tok 1) (), .reduce 0] 2) := by decide +kernel
example : lrTry loopGrammar .lalr 60 [0, 1, 1] 20 = some (.unexpected [.shift (.tok 0) (), .shift (.tok 1) ()] 2 [.eof]) := by decide +kernel

end Verif
