import Verif.Proofs.GlrError
import Verif.Proofs.GlrTermEps
import Verif.Props.LR

/-!
# C38–C40, C53–C58: the generated GLR parser, and what it says about the generated LR parser

`GlrParserFor g kind p`: `p` is a GLR parser that lapex generates for `g` from a table of the given kind, conflicts allowed or not. The
command line tool uses LALR tables with conflicts allowed. `glrParse` runs the driver with its graph-structured stack.
-/

set_option autoImplicit false

namespace Verif

variable {T : Type}

/-! ## C38 — success reports one derivation -/

/-- If the parser returns Ok, the callbacks are the post-order traversal of one parse tree of the tokens consumed (the token after them has been requested
as well, and is not part of the tree). -/
theorem C38_sound (g : Grammar) (wf : g.WF) (hne : NoEmptyRhs g) (kind : LRKind) (p : GlrProg) (hp : GlrParserFor g kind p)
    (input : Nat → Tok × T) (fuel : Nat) (events : List (LREvent T)) (pos : Nat) (h : glrParse p.machine input fuel = .ok events pos) :
    ∃ n t, pos = n + 1 ∧ IsParseTree g.rules g.entry t ∧ Consumes input n t.tokens ∧ TraceIs g events t.postorder := by
  obtain ⟨gr, hv, hm⟩ := glr_parser_inv wf hne hp
  have := glrParse_spec hv hm input fuel
  rw [h] at this
  obtain ⟨n, rfl, h1, _⟩ := this
  obtain ⟨t, h2, h3, h4⟩ := acc_tree hv hm h1
  exact ⟨n, t, rfl, h2, h3, h4⟩

/-- If it returns an error instead, or panics, the callbacks made so far are those of parse trees, side by side, of the first tokens of the stream. -/
theorem C38_reported (g : Grammar) (wf : g.WF) (hne : NoEmptyRhs g) (kind : LRKind) (p : GlrProg) (hp : GlrParserFor g kind p)
    (input : Nat → Tok × T) (fuel : Nat) (events : List (LREvent T)) (pos : Nat)
    (h : (∃ errs, glrParse p.machine input fuel = .unexpected events pos errs) ∨ glrParse p.machine input fuel = .panic events pos) :
    ∃ n ss ts, n ≤ pos ∧ Forest g.rules ss ts ∧ Consumes input n (PTree.tokensList ts) ∧ TraceIs g events (PTree.postorderList ts) := by
  obtain ⟨gr, hv, hm⟩ := glr_parser_inv wf hne hp
  have hs := glrParse_spec hv hm input fuel
  have key : ∀ q, q ≤ pos → Reported p.machine input q events →
      ∃ n ss ts, n ≤ pos ∧ Forest g.rules ss ts ∧ Consumes input n (PTree.tokensList ts) ∧ TraceIs g events (PTree.postorderList ts) := by
    rintro q hq ⟨⟨j, stk, h1, h2⟩, _⟩
    obtain ⟨_, ts, h3, h4⟩ := heads_inv hv hm h2
    exact ⟨j, _, ts.reverse, by omega, stackOk_forest h3, h4.consumed, h4.trace⟩
  rcases h with ⟨errs, h⟩ | h
  · rw [h] at hs
    obtain ⟨_, _, h1, _⟩ := hs
    exact key _ (Nat.le_refl _) h1
  · rw [h] at hs
    rcases hs with ⟨_, _, _, _, _, _, h1⟩ | ⟨n, _, rfl, _, _, _, h1⟩
    · exact key _ (Nat.le_refl _) h1
    · exact key n (by omega) h1

/-! ## C39 — agreement with LR -/

/-- From the same table: if the LR parser returns Ok, so does the GLR parser, with the same callbacks, and it has requested one token more. -/
theorem C39_lr_ok (g : Grammar) (wf : g.WF) (hne : NoEmptyRhs g) (kind : LRKind) (p : LRProg) (p' : GlrProg) (hp : SameTable g kind p p')
    (input : Nat → Tok × T) (f : Nat) (events : List (LREvent T)) (pos : Nat) (h : lrParse p.machine input f = .ok events pos) :
    ∀ fuel, f < fuel → glrParse p'.machine input fuel = .ok events (pos + 1) := by
  intro fuel hf
  obtain ⟨gr, hv, hm, hr⟩ := sameTable_inv wf hne hp
  have := glr_agrees_lr (input := input) hv hm hr f fuel hf (by rw [h]; intro e p h; cases h)
  rw [h] at this
  generalize glrParse p'.machine input fuel = r at this
  cases this
  rfl

/-- If the GLR parser returns Ok, so does the LR parser. -/
theorem C39_glr_ok (g : Grammar) (wf : g.WF) (hne : NoEmptyRhs g) (kind : LRKind) (p : LRProg) (p' : GlrProg) (hp : SameTable g kind p p')
    (input : Nat → Tok × T) (fuel : Nat) (events : List (LREvent T)) (pos : Nat) (h : glrParse p'.machine input fuel = .ok events pos) :
    ∃ f n, pos = n + 1 ∧ lrParse p.machine input f = .ok events n := by
  obtain ⟨gr, hv, hm, hr⟩ := sameTable_inv wf hne hp
  obtain ⟨f, hf⟩ := lr_agrees_glr (input := input) hv hm hr fuel (by rw [h]; intro e p h; cases h)
  rw [h] at hf
  generalize hq : lrParse p.machine input f = r at hf
  cases hf with
  | ok => exact ⟨f, _, rfl, hq⟩

/-- If the LR parser reports an error, the GLR parser reports it at the same token, with the same expected tokens, and its callbacks are the same up to the last shift. -/
theorem C39_error (g : Grammar) (wf : g.WF) (hne : NoEmptyRhs g) (kind : LRKind) (p : LRProg) (p' : GlrProg) (hp : SameTable g kind p p')
    (input : Nat → Tok × T) (f : Nat) (events : List (LREvent T)) (pos : Nat) (expected : List Sym) (h : lrParse p.machine input f = .unexpected events pos expected) :
    ∀ fuel, f < fuel → ∃ events' expected', glrParse p'.machine input fuel = .unexpected events' pos [expected'] ∧ SameExpected expected expected' ∧
      ∃ is : List Nat, events = events' ++ is.map .reduce := by
  intro fuel hf
  obtain ⟨gr, hv, hm, hr⟩ := sameTable_inv wf hne hp
  have := glr_agrees_lr (input := input) hv hm hr f fuel hf (by rw [h]; intro e p h; cases h)
  rw [h] at this
  generalize glrParse p'.machine input fuel = r at this
  cases this with
  | unexpected h1 h2 => exact ⟨_, _, rfl, h1, h2⟩

/-- The GLR parser does not panic on such a table, and when it reports an error so does the LR parser, at the same token. -/
theorem C39_glr_error (g : Grammar) (wf : g.WF) (hne : NoEmptyRhs g) (kind : LRKind) (p : LRProg) (p' : GlrProg) (hp : SameTable g kind p p')
    (input : Nat → Tok × T) (fuel : Nat) (events : List (LREvent T)) (pos : Nat) :
    glrParse p'.machine input fuel ≠ .panic events pos ∧
    ∀ errs, glrParse p'.machine input fuel = .unexpected events pos errs → ∃ f events' expected, lrParse p.machine input f = .unexpected events' pos expected := by
  obtain ⟨gr, hv, hm, hr⟩ := sameTable_inv wf hne hp
  refine ⟨fun h => ?_, fun errs h => ?_⟩
  · obtain ⟨f, hf⟩ := lr_agrees_glr (input := input) hv hm hr fuel (by rw [h]; intro e p h; cases h)
    rw [h] at hf
    generalize lrParse p.machine input f = r at hf
    cases hf
  · obtain ⟨f, hf⟩ := lr_agrees_glr (input := input) hv hm hr fuel (by rw [h]; intro e p h; cases h)
    rw [h] at hf
    generalize hq : lrParse p.machine input f = r at hf
    cases hf with
    | unexpected _ _ => exact ⟨f, _, _, hq⟩

/-! ## C53 — how many parse trees -/

/-- Parsers from LALR or LR(1) tables, when the entry symbol occurs in no right side: Ok means that the input has exactly one parse tree, and the callbacks are
its post-order; a panic means that it has at least two; an error means that it has none. -/
theorem C53_counts (g : Grammar) (wf : g.WF) (hne : NoEmptyRhs g) (hel : EpsLeading g) (hd : DistinctRules g) (hf : EntryFresh g) (kind : LRKind)
    (hk : kind.hasLa = true) (p : GlrProg) (hp : GlrParserFor g kind p) (w : List (Nat × T)) (input : Nat → Tok × T) (hin : StreamIs input w) (fuel : Nat) :
    (∀ events pos, glrParse p.machine input fuel = .ok events pos →
      pos = w.length + 1 ∧ ∃ t, IsParseOf g w t ∧ TraceIs g events t.postorder ∧ ∀ t', IsParseOf g w t' → t' = t) ∧
    (∀ events pos, glrParse p.machine input fuel = .panic events pos → ∃ t t', t ≠ t' ∧ IsParseOf g w t ∧ IsParseOf g w t') ∧
    (∀ events pos errs, glrParse p.machine input fuel = .unexpected events pos errs → ∀ t, ¬ IsParseOf g w t) := by
  obtain ⟨gr, hv, hm⟩ := glr_parser_inv wf hne hp
  have h := glr_counts wf hv hm (acceptEof_fresh wf hv hk hf) (entryFresh_leftCorner hf) hel hd hin (glrParse_spec hv hm input fuel)
  exact ⟨h.ok, fun ev pos hr => (h.panic ev pos hr).2, h.unexpected⟩

/-- The same for LR(1) tables when the entry symbol is not left-recursive. -/
theorem C53_counts_lr1 (g : Grammar) (wf : g.WF) (hne : NoEmptyRhs g) (hel : EpsLeading g) (hd : DistinctRules g) (hl : EntryNotLeftRecursive g)
    (p : GlrProg) (hp : GlrParserFor g .lr1 p) (w : List (Nat × T)) (input : Nat → Tok × T) (hin : StreamIs input w) (fuel : Nat) :
    (∀ events pos, glrParse p.machine input fuel = .ok events pos →
      pos = w.length + 1 ∧ ∃ t, IsParseOf g w t ∧ TraceIs g events t.postorder ∧ ∀ t', IsParseOf g w t' → t' = t) ∧
    (∀ events pos, glrParse p.machine input fuel = .panic events pos → ∃ t t', t ≠ t' ∧ IsParseOf g w t ∧ IsParseOf g w t') ∧
    (∀ events pos errs, glrParse p.machine input fuel = .unexpected events pos errs → ∀ t, ¬ IsParseOf g w t) := by
  obtain ⟨gr, hv, hm⟩ := glr_parser_inv wf hne hp
  have h := glr_counts wf hv hm (acceptEof_lr1 hv hl) hl hel hd hin (glrParse_spec hv hm input fuel)
  exact ⟨h.ok, fun ev pos hr => (h.panic ev pos hr).2, h.unexpected⟩

/-! ## C54 — termination -/

/-- Without empty rules and cycles of unit rules every generated GLR parser returns, after a number of steps linear in the input (each step handles all stacks). -/
theorem C54_terminates (g : Grammar) (wf : g.WF) (hne : NoEmptyRhs g) (he : EpsFree g) (hu : NoUnitCycle g) (kind : LRKind) (p : GlrProg)
    (hp : GlrParserFor g kind p) (w : List (Nat × T)) (input : Nat → Tok × T) (hin : StreamIs input w) (fuel : Nat)
    (hf : (w.length + 1) * (2 * g.rules.length + 5) ≤ fuel) (events : List (LREvent T)) (pos : Nat) : glrParse p.machine input fuel ≠ .running events pos := by
  obtain ⟨gr, hv, hm⟩ := glr_parser_inv wf hne hp
  exact glr_stops hv hm he hu hin hf events pos

/-- a parser that has returned has decided -/
theorem glr_decided (g : Grammar) (wf : g.WF) (hne : NoEmptyRhs g) (hel : EpsLeading g) (hd : DistinctRules g) (hf : EntryFresh g)
    (kind : LRKind) (hk : kind.hasLa = true) (p : GlrProg) (hp : GlrParserFor g kind p) (w : List (Nat × T)) (input : Nat → Tok × T) (hin : StreamIs input w)
    (fuel : Nat) (h4 : ∀ events pos, glrParse p.machine input fuel ≠ .running events pos) :
    ((∃ events pos, glrParse p.machine input fuel = .ok events pos) ↔ ∃ t, IsParseOf g w t ∧ ∀ t', IsParseOf g w t' → t' = t) ∧
    ((∃ events pos errs, glrParse p.machine input fuel = .unexpected events pos errs) ↔ ∀ t, ¬ IsParseOf g w t) ∧
    ((∃ events pos, glrParse p.machine input fuel = .panic events pos) ↔ ∃ t t', t ≠ t' ∧ IsParseOf g w t ∧ IsParseOf g w t') := by
  obtain ⟨h1, h2, h3⟩ := C53_counts g wf hne hel hd hf kind hk p hp w input hin fuel
  cases hr : glrParse p.machine input fuel with
  | running ev pos => exact absurd hr (h4 ev pos)
  | ok ev pos =>
    obtain ⟨_, t, k1, _, k3⟩ := h1 _ _ hr
    refine ⟨⟨fun _ => ⟨t, k1, k3⟩, fun _ => ⟨_, _, rfl⟩⟩, ⟨?_, fun h => absurd k1 (h t)⟩, ⟨?_, ?_⟩⟩
    · rintro ⟨_, _, _, h⟩; cases h
    · rintro ⟨_, _, h⟩; cases h
    · rintro ⟨t1, t2, hne', ha, hb'⟩
      exact absurd ((k3 _ ha).trans (k3 _ hb').symm) hne'
  | panic ev pos =>
    obtain ⟨t, t', k1, k2, k3⟩ := h2 _ _ hr
    refine ⟨⟨?_, ?_⟩, ⟨?_, fun h => absurd k2 (h t)⟩, ⟨fun _ => ⟨t, t', k1, k2, k3⟩, fun _ => ⟨_, _, rfl⟩⟩⟩
    · rintro ⟨_, _, h⟩; cases h
    · rintro ⟨t1, _, hu'⟩
      exact absurd ((hu' _ k2).trans (hu' _ k3).symm) k1
    · rintro ⟨_, _, _, h⟩; cases h
  | unexpected ev pos errs =>
    have k := h3 _ _ _ hr
    refine ⟨⟨?_, fun ⟨t, h, _⟩ => absurd h (k t)⟩, ⟨fun _ => k, fun _ => ⟨_, _, _, rfl⟩⟩, ⟨?_, fun ⟨t, _, _, h, _⟩ => absurd h (k t)⟩⟩
    · rintro ⟨_, _, h⟩; cases h
    · rintro ⟨_, _, h⟩; cases h

/-- So for these grammars it decides, on every input, whether there is no parse tree, exactly one, or more than one. -/
theorem C54_decides (g : Grammar) (wf : g.WF) (hne : NoEmptyRhs g) (hel : EpsLeading g) (hd : DistinctRules g) (hf : EntryFresh g) (he : EpsFree g) (hu : NoUnitCycle g)
    (kind : LRKind) (hk : kind.hasLa = true) (p : GlrProg) (hp : GlrParserFor g kind p) (w : List (Nat × T)) (input : Nat → Tok × T) (hin : StreamIs input w)
    (fuel : Nat) (hb : (w.length + 1) * (2 * g.rules.length + 5) ≤ fuel) :
    ((∃ events pos, glrParse p.machine input fuel = .ok events pos) ↔ ∃ t, IsParseOf g w t ∧ ∀ t', IsParseOf g w t' → t' = t) ∧
    ((∃ events pos errs, glrParse p.machine input fuel = .unexpected events pos errs) ↔ ∀ t, ¬ IsParseOf g w t) ∧
    ((∃ events pos, glrParse p.machine input fuel = .panic events pos) ↔ ∃ t t', t ≠ t' ∧ IsParseOf g w t ∧ IsParseOf g w t') :=
  glr_decided g wf hne hel hd hf kind hk p hp w input hin fuel (C54_terminates g wf hne he hu kind p hp w input hin fuel hb)

/-- With empty rules: every generated GLR parser returns on every input, if no non-terminal derives itself and no left recursion is hidden behind symbols that can become
empty. `C40_cyclic_counterexample` and `C40_hidden_left_recursion_counterexample` show that neither condition can be dropped. -/
theorem C54_terminates_empty (g : Grammar) (wf : g.WF) (hne : NoEmptyRhs g) (hc : NoCycle g) (hh : NoHiddenLeftRecursion g) (kind : LRKind) (p : GlrProg)
    (hp : GlrParserFor g kind p) (w : List (Nat × T)) (input : Nat → Tok × T) (hin : StreamIs input w) :
    ∃ bound, ∀ fuel, bound ≤ fuel → ∀ events pos, glrParse p.machine input fuel ≠ .running events pos := by
  obtain ⟨gr, hv, hm⟩ := glr_parser_inv wf hne hp
  exact glr_stops_eps wf hv hm hc hh hin

/-- So it decides there, too, whether there is no parse tree, exactly one, or more than one. -/
theorem C54_decides_empty (g : Grammar) (wf : g.WF) (hne : NoEmptyRhs g) (hel : EpsLeading g) (hd : DistinctRules g) (hf : EntryFresh g) (hc : NoCycle g)
    (hh : NoHiddenLeftRecursion g) (kind : LRKind) (hk : kind.hasLa = true) (p : GlrProg) (hp : GlrParserFor g kind p) (w : List (Nat × T)) (input : Nat → Tok × T)
    (hin : StreamIs input w) : ∃ bound, ∀ fuel, bound ≤ fuel →
    ((∃ events pos, glrParse p.machine input fuel = .ok events pos) ↔ ∃ t, IsParseOf g w t ∧ ∀ t', IsParseOf g w t' → t' = t) ∧
    ((∃ events pos errs, glrParse p.machine input fuel = .unexpected events pos errs) ↔ ∀ t, ¬ IsParseOf g w t) ∧
    ((∃ events pos, glrParse p.machine input fuel = .panic events pos) ↔ ∃ t t', t ≠ t' ∧ IsParseOf g w t ∧ IsParseOf g w t') := by
  obtain ⟨bound, h⟩ := C54_terminates_empty g wf hne hc hh kind p hp w input hin
  exact ⟨bound, fun fuel hfu => glr_decided g wf hne hel hd hf kind hk p hp w input hin fuel (h fuel hfu)⟩

/-- The conditions include the grammars of `C54_terminates`. -/
theorem C54_without_empty_rules (g : Grammar) (he : EpsFree g) (hu : NoUnitCycle g) : NoCycle g ∧ NoHiddenLeftRecursion g :=
  ⟨noCycle_of_units he hu, noHidden_of_epsFree he⟩

/-! ## C57 — termination of LR parsers -/

/-- Without empty rules and cycles of unit rules every generated LR parser returns on every input. -/
theorem C57_lr_terminates (g : Grammar) (wf : g.WF) (hne : NoEmptyRhs g) (he : EpsFree g) (hu : NoUnitCycle g) (kind : LRKind) (p : LRProg)
    (hp : LRParserFor g kind p) (w : List (Nat × T)) (input : Nat → Tok × T) (hin : StreamIs input w) :
    ∃ bound, ∀ fuel, bound ≤ fuel → ∀ events pos, lrParse p.machine input fuel ≠ .running events pos :=
  lr_stops wf hne hp he hu hin

/-- With empty rules, if no non-terminal derives itself and no left recursion is hidden behind symbols that can become empty. -/
theorem C57_lr_terminates_empty (g : Grammar) (wf : g.WF) (hne : NoEmptyRhs g) (hc : NoCycle g) (hh : NoHiddenLeftRecursion g) (kind : LRKind) (p : LRProg)
    (hp : LRParserFor g kind p) (w : List (Nat × T)) (input : Nat → Tok × T) (hin : StreamIs input w) :
    ∃ bound, ∀ fuel, bound ≤ fuel → ∀ events pos, lrParse p.machine input fuel ≠ .running events pos :=
  lr_stops_of wf hne hp fun _ _ hv hm => (glr_stops_eps wf hv hm hc hh hin).imp fun _ h => h _ (Nat.le_refl _)

/-! ## C55 — lookahead -/

/-- LR(1) and LALR parsers reduce a rule only if the next token can follow its left side in a sentential form. -/
theorem C55_lookahead (g : Grammar) (wf : g.WF) (hne : NoEmptyRhs g) (kind : LRKind) (hk : kind.hasLa = true) (p : LRProg) (hp : LRParserFor g kind p)
    (input : Nat → Tok × T) (stack stack' : List StackSym) (pos pos' i : Nat) (events : List (LREvent T)) (h : LRReaches p.machine input stack pos events)
    (hs : lrStep p.machine input stack pos = .next stack' pos' (.reduce i)) :
    ∃ r x, g.rules[i]? = some r ∧ (input pos).1.sym = some x ∧ CanFollow g r.lhs x := by
  obtain ⟨gr, hv, hsp⟩ := parser_inv wf hne hp
  have hm := prog_follows wf hv.base hsp
  rcases reaches_inv hv hm h with ⟨ts, h1, _⟩ | ⟨rfl, _⟩
  · obtain ⟨q, rest, rfl⟩ := h1.head
    obtain ⟨s, hq⟩ := h1.range hv.base
    have hact : p.machine.nextAction q (input pos).1 = .act (.reduce i) := by
      have hgoto : ∀ st ps (ev : LREvent T), lrGoto p.machine st ps ev = .next stack' pos' (.reduce i) → ev = .reduce i := by
        intro st ps ev h
        unfold lrGoto at h
        split at h
        · split at h <;> simp at h <;> exact h.2.2
        · simp at h
      unfold lrStep at hs
      simp only at hs
      split at hs
      · cases hs
      · cases hs
      · cases hgoto _ _ _ hs
      · rename_i j hj
        split at hs
        · cases hs
        · split at hs
          · cases hs
          · have := hgoto _ _ _ hs
            simp at this
            rw [hj, this]
    obtain ⟨s', it, x, h2, h3, h4, h5, h6, h7⟩ := hm.reduce q _ i (getElem?_lt hq) hact
    have hla := (hv.base.items q s' h2 it h3).la
    unfold LaOk at hla
    rw [if_pos hk] at hla
    obtain ⟨a, ha, _⟩ := hla
    have hfo := hv.base.follow q s' h2 it h3 a ha
    rw [h4] at hfo
    obtain ⟨r, h8, h9⟩ := hfo
    rw [ha] at h7
    simp only [LaMatch] at h7
    subst h7
    exact ⟨r, a, h8, h6, h9⟩
  · simp [lrStep] at hs

/-- If the entry symbol occurs in no right side, LALR and LR(1) parsers return Ok only at the end of the input. -/
theorem C55_fresh_entry_end (g : Grammar) (wf : g.WF) (hne : NoEmptyRhs g) (hf : EntryFresh g) (kind : LRKind) (hk : kind.hasLa = true) (p : LRProg) (hp : LRParserFor g kind p)
    (input : Nat → Tok × T) (fuel : Nat) (events : List (LREvent T)) (pos : Nat) (h : lrParse p.machine input fuel = .ok events pos) :
    (input pos).1 = .eof :=
  lr_eof wf hne hp hk hf h

/-! ## C56 — errors are reported at the first possible token -/

/-- An LR parser (of any kind) that reports an unexpected token has consumed a prefix of a sentence, and no sentence continues with the unexpected token. -/
theorem C56_lr_error (g : Grammar) (wf : g.WF) (hne : NoEmptyRhs g) (hel : EpsLeading g) (hl : EntryNotLeftRecursive g) (hprod : Productive g) (kind : LRKind)
    (p : LRProg) (hp : LRParserFor g kind p) (input : Nat → Tok × T) (fuel : Nat) (events : List (LREvent T)) (pos : Nat) (expected : List Sym)
    (h : lrParse p.machine input fuel = .unexpected events pos expected) : PrefixViable g input pos ∧ ¬ NextViable g input pos :=
  have k := lr_error wf hne hp hel hl h
  ⟨k.2 hprod, k.1⟩

/-- The same for GLR parsers. -/
theorem C56_glr_error (g : Grammar) (wf : g.WF) (hne : NoEmptyRhs g) (hel : EpsLeading g) (hl : EntryNotLeftRecursive g) (hprod : Productive g) (kind : LRKind)
    (p : GlrProg) (hp : GlrParserFor g kind p) (input : Nat → Tok × T) (fuel : Nat) (events : List (LREvent T)) (pos : Nat) (errs : List (List (Option Nat)))
    (h : glrParse p.machine input fuel = .unexpected events pos errs) : PrefixViable g input pos ∧ ¬ NextViable g input pos := by
  obtain ⟨gr, hv, hm⟩ := glr_parser_inv wf hne hp
  have h1 := glrParse_spec hv hm input fuel
  rw [h] at h1
  have k := glr_error wf hv hm hel hl h1
  exact ⟨k.2 hprod, k.1⟩

/-! ## C40 — ambiguous and cyclic grammars -/

/-- The parser panics on every input with two parse trees (no empty rules, no unit cycles, entry symbol in no right side). -/
theorem C40_ambiguous_panics (g : Grammar) (wf : g.WF) (hne : NoEmptyRhs g) (hel : EpsLeading g) (hd : DistinctRules g) (hf : EntryFresh g) (he : EpsFree g)
    (hu : NoUnitCycle g) (kind : LRKind) (hk : kind.hasLa = true) (p : GlrProg) (hp : GlrParserFor g kind p) (t t' : PTree T) (ht : IsParseTree g.rules g.entry t)
    (ht' : IsParseTree g.rules g.entry t') (hne' : t ≠ t') (heq : t.tokens = t'.tokens) (input : Nat → Tok × T) (hin : StreamIs input t.tokens) (fuel : Nat)
    (hb : (t.tokens.length + 1) * (2 * g.rules.length + 5) ≤ fuel) : ∃ events pos, glrParse p.machine input fuel = .panic events pos :=
  (C54_decides g wf hne hel hd hf he hu kind hk p hp t.tokens input hin fuel hb).2.2.mpr ⟨t, t', hne', ⟨ht, rfl⟩, ⟨ht', heq.symm⟩⟩

/-- `s = e`, `e = e p e`, `e = x` -/
def plusRules : RuleSet where
  entry := "s"
  tokens := ["p", "x"]
  prods := [⟨"s", none, .rule "e"⟩, ⟨"e", none, .sequence [.rule "e", .rule "p", .rule "e"]⟩, ⟨"e", none, .rule "x"⟩]

def plusGrammar : Grammar where
  rules := [⟨0, [.nt 1], 0⟩, ⟨1, [.nt 1, .t 0, .nt 1], 1⟩, ⟨1, [.t 1], 2⟩]
  anon := []
  productions := [(.nt 0, "s"), (.nt 1, "e")]
  tokens := [(.t 0, "p"), (.t 1, "x")]
  entry := .nt 0
  entryOrigin := 0

theorem plusGrammar_built : Grammar.fromRuleSet plusRules = .ok plusGrammar := GRes.of_same (by decide)

/-- generating the parser, conflicts allowed, and running it -/
def glrTry (g : Grammar) (kind : LRKind) (fuel : Nat) (w : List Nat) (steps : Nat) : Option (GlrResult Unit) :=
  match generateTable g true kind fuel with
  | .ok (.allowedConflicts tb _) =>
    match genGlr g tb with
    | .ok p => some (glrParse p.machine (streamOf w) steps)
    | .error _ => none
  | .ok (.noConflicts tb) =>
    match genGlr g tb with
    | .ok p => some (glrParse p.machine (streamOf w) steps)
    | .error _ => none
  | _ => none

theorem glrTry_some {g : Grammar} {kind : LRKind} {fuel : Nat} {w : List Nat} {steps : Nat} {r : GlrResult Unit} (h : glrTry g kind fuel w steps = some r) :
    ∃ p, GlrParserFor g kind p ∧ glrParse p.machine (streamOf w) steps = r := by
  unfold glrTry at h
  split at h
  · rename_i tb cs ht
    split at h
    · rename_i p hp
      simp at h
      exact ⟨p, ⟨true, fuel, tb, .inr ⟨cs, ht⟩, hp⟩, h⟩
    · cases h
  · rename_i tb ht
    split at h
    · rename_i p hp
      simp at h
      exact ⟨p, ⟨true, fuel, tb, .inl ht, hp⟩, h⟩
    · cases h
  · cases h

/-- The ambiguous grammar `s = e`, `e = e p e | x`: Ok for `x p x`, an error for `x p`, a panic for `x p x p x`. -/
theorem C40_ambiguous_example : plusGrammar.WF ∧
    (∃ p, GlrParserFor plusGrammar .lalr p ∧ glrParse p.machine (streamOf [1, 0, 1]) 30 =
      .ok [.shift (.tok 1) (), .reduce 2, .shift (.tok 0) (), .shift (.tok 1) (), .reduce 2, .reduce 1, .reduce 0] 4) ∧
    (∃ p, GlrParserFor plusGrammar .lalr p ∧ glrParse p.machine (streamOf [1, 0]) 30 = .unexpected [.shift (.tok 1) (), .reduce 2, .shift (.tok 0) ()] 2 [[some 1]]) ∧
    (∃ p, GlrParserFor plusGrammar .lalr p ∧ ∃ ev, glrParse p.machine (streamOf [1, 0, 1, 0, 1]) 30 = .panic ev 5) := by
  refine ⟨C19_well_formed _ _ plusGrammar_built, ?_, ?_, ?_⟩
  · exact glrTry_some (g := plusGrammar) (kind := .lalr) (fuel := 60) (w := [1, 0, 1]) (steps := 30) (by decide +kernel)
  · exact glrTry_some (g := plusGrammar) (kind := .lalr) (fuel := 60) (w := [1, 0]) (steps := 30) (by decide +kernel)
  · obtain ⟨p, h1, h2⟩ := glrTry_some (g := plusGrammar) (kind := .lalr) (fuel := 60) (w := [1, 0, 1, 0, 1]) (steps := 30)
      (r := .panic [.shift (.tok 1) (), .reduce 2, .shift (.tok 0) (), .shift (.tok 1) ()] 5) (by decide +kernel)
    exact ⟨p, h1, _, h2⟩

theorem plusGrammar_units : NoUnitCycle plusGrammar := by
  have h1 : ∀ A B, UnitRule plusGrammar A B → A = 0 ∧ B = 1 := by
    rintro A B ⟨r, hr, rfl, h⟩
    simp [plusGrammar] at hr
    rcases hr with rfl | rfl | rfl <;> simp [strip] at h ⊢
    exact h.symm
  intro A h
  have h2 : ∀ A B, UnitChain plusGrammar A B → A = 0 ∧ B = 1 := by
    intro A B h
    induction h with
    | one h => exact h1 _ _ h
    | more h _ ih => exact ⟨(h1 _ _ h).1, ih.2⟩
  have := h2 _ _ h
  omega

-- the hypotheses of C53, C54, C56 hold for it
example : NoEmptyRhs plusGrammar ∧ EpsLeading plusGrammar ∧ DistinctRules plusGrammar ∧ EntryFresh plusGrammar ∧ EpsFree plusGrammar := by
  refine ⟨by decide, by decide, ?_, ?_, ?_⟩
  · unfold DistinctRules; decide
  · unfold EntryFresh; decide
  · unfold EpsFree; decide
example : Productive plusGrammar := by
  intro A hA
  have hx : Derives plusGrammar.rules [.nt 1] [1] := .nonterm (r := ⟨1, [.t 1], 2⟩) (u := [1]) (v := []) (by simp [plusGrammar]) (.term .nil) .nil
  simp [plusGrammar, Grammar.nonTerminals] at hA
  rcases hA with rfl | rfl
  · exact ⟨[1], .nonterm (r := ⟨0, [.nt 1], 0⟩) (u := [1]) (v := []) (by simp [plusGrammar]) hx .nil⟩
  · exact ⟨[1], hx⟩
-- an LR and a GLR parser from the same table
example : ∃ p p', SameTable parenGrammar .lalr p p' := by
  obtain ⟨p, hp, _⟩ := lrTry_some (g := parenGrammar) (kind := .lalr) (fuel := 60) (w := [2]) (steps := 10) (r := .ok [.shift (.tok 2) (), .reduce 1] 1) (by decide +kernel)
  obtain ⟨p', h⟩ := lr_sameTable (C19_well_formed _ _ parenGrammar_built) (by decide) hp
  exact ⟨p, p', h⟩

/-- `s = b y`, `b = b`, `b = x` -/
def cycleRules : RuleSet where
  entry := "s"
  tokens := ["x", "y"]
  prods := [⟨"s", none, .sequence [.rule "b", .rule "y"]⟩, ⟨"b", none, .rule "b"⟩, ⟨"b", none, .rule "x"⟩]

def cycleGrammar : Grammar where
  rules := [⟨0, [.nt 1, .t 1], 0⟩, ⟨1, [.nt 1], 1⟩, ⟨1, [.t 0], 2⟩]
  anon := []
  productions := [(.nt 0, "s"), (.nt 1, "b")]
  tokens := [(.t 0, "x"), (.t 1, "y")]
  entry := .nt 0
  entryOrigin := 0

theorem cycleGrammar_built : Grammar.fromRuleSet cycleRules = .ok cycleGrammar := GRes.of_same (by decide)

/-- the parser generated for it -/
def cycleProg : GlrProg where
  entry := 0
  actions := [([(.t 0, [.shift])], [some 0]), ([(.t 1, [.reduce 1, .shift])], [some 1]), ([(.t 1, [.reduce 2])], [some 1]), ([(.eof, [.reduce 0])], [none])]
  gotos := [[(.t 0, .state 2), (.nt 0, .accept), (.nt 1, .state 1)], [(.t 1, .state 3)], [], []]
  reductions := [(2, 0), (1, 1), (1, 1)]

/-- is it the given one -/
def glrIs (g : Grammar) (kind : LRKind) (fuel : Nat) (p : GlrProg) : Bool :=
  match generateTable g true kind fuel with
  | .ok (.allowedConflicts tb _) =>
    match genGlr g tb with
    | .ok p' => p' = p
    | .error _ => false
  | _ => false

theorem glrIs_for {g : Grammar} {kind : LRKind} {fuel : Nat} {p : GlrProg} (h : glrIs g kind fuel p = true) : GlrParserFor g kind p := by
  unfold glrIs at h
  split at h
  · rename_i tb cs ht
    split at h
    · rename_i p' hp
      simp at h
      subst h
      exact ⟨true, fuel, tb, .inr ⟨cs, ht⟩, hp⟩
    · cases h
  · cases h

/-- With a cycle of unit rules the parser may never return: for `s = b y`, `b = b | x` it loops on the sentence `x y`. -/
theorem C40_cyclic_counterexample : cycleGrammar.WF ∧ GlrParserFor cycleGrammar .lalr cycleProg ∧ Derives cycleGrammar.rules [cycleGrammar.entry] [0, 1] ∧
    ∀ fuel, ∃ events pos, glrParse cycleProg.machine (streamOf [0, 1]) fuel = .running events pos := by
  have wf := C19_well_formed _ _ cycleGrammar_built
  have hp : GlrParserFor cycleGrammar .lalr cycleProg := glrIs_for (fuel := 60) (by decide +kernel)
  refine ⟨wf, hp, ?_, fun fuel => ?_⟩
  · exact .nonterm (r := ⟨0, [.nt 1, .t 1], 0⟩) (u := [0, 1]) (v := []) (by simp [cycleGrammar])
      (.nonterm (r := ⟨1, [.t 0], 2⟩) (u := [0]) (v := [1]) (by simp [cycleGrammar]) (.term .nil) (.term .nil)) .nil
  · obtain ⟨gr, hv, hm⟩ := glr_parser_inv wf (by decide) hp
    rw [glrParse_lin (glr_stackInv (T := Unit) hv hm)]
    have loop : ∀ f acc ev, linReduces cycleProg.machine (.tok 1) f false acc [GConf.live (T := Unit) [.state 1, .nonTerminal 1, .state 0] ev] = .error .fuel := by
      intro f
      induction f with
      | zero => intro acc ev; rfl
      | succ f ih =>
        intro acc ev
        have hacts : cycleProg.machine.nextActions 1 (.tok 1) = .acts [.reduce 1, .shift] := by decide
        have hred : linReduce cycleProg.machine 1 [.state 1, .nonTerminal 1, .state 0] ev = some (.live [.state 1, .nonTerminal 1, .state 0] (ev ++ [.reduce 1])) := rfl
        conv_lhs => unfold linReduces
        simp only [List.foldlM_cons, List.foldlM_nil, linStack, hacts, linAction, hred, bind, Except.bind, pure, Except.pure]
        rw [if_neg (by simp)]
        exact ih _ _
    have first : ∀ f ev, linReduces cycleProg.machine (.tok 1) f false [] [GConf.live (T := Unit) [.state 2, .terminal (.tok 0), .state 0] ev] = .error .fuel := by
      intro f ev
      cases f with
      | zero => rfl
      | succ f =>
        have hacts : cycleProg.machine.nextActions 2 (.tok 1) = .acts [.reduce 2] := by decide
        have hred : linReduce cycleProg.machine 2 [.state 2, .terminal (.tok 0), .state 0] ev = some (.live [.state 1, .nonTerminal 1, .state 0] (ev ++ [.reduce 2])) := rfl
        rw [linReduces_live hacts hred rfl]
        exact loop _ _ _
    cases fuel with
    | zero => exact ⟨_, _, rfl⟩
    | succ fuel =>
      rw [linRun_live]
      have hacts : cycleProg.machine.nextActions 0 (streamOf [0, 1] 0).1 = .acts [.shift] := by decide
      rw [show cycleProg.machine.entry = 0 from rfl, linReduces_shift hacts, gcont_shift (q' := 2) (by decide)]
      cases fuel with
      | zero => exact ⟨_, _, rfl⟩
      | succ fuel =>
        rw [linRun_live]
        have := first (fuel + 1 + 1) ([] ++ [.shift (.tok 0) ()])
        rw [show (streamOf [0, 1] (0 + 1)).1 = .tok 1 from rfl, show (streamOf [0, 1] 0) = (.tok 0, ()) from rfl, this]
        exact ⟨_, _, rfl⟩

/-- `s = a s y`, `s = x`, `a = ε` -/
def hiddenRules : RuleSet where
  entry := "s"
  tokens := ["x", "y"]
  prods := [⟨"s", none, .sequence [.rule "a", .rule "s", .rule "y"]⟩, ⟨"s", none, .rule "x"⟩, ⟨"a", none, .epsilon⟩]

def hiddenGrammar : Grammar where
  rules := [⟨0, [.nt 2, .nt 0, .t 1], 0⟩, ⟨0, [.t 0], 1⟩, ⟨2, [.eps], 2⟩]
  anon := []
  productions := [(.nt 0, "s"), (.nt 2, "a")]
  tokens := [(.t 0, "x"), (.t 1, "y")]
  entry := .nt 0
  entryOrigin := 0

theorem hiddenGrammar_built : Grammar.fromRuleSet hiddenRules = .ok hiddenGrammar := GRes.of_same (by decide)

/-- the parser generated for it -/
def hiddenProg : GlrProg where
  entry := 0
  actions := [([(.t 0, [.reduce 2, .shift])], [some 0]), ([(.t 0, [.reduce 2, .shift])], [some 0]), ([(.t 1, [.reduce 1]), (.eof, [.reduce 1])], [none, some 1]),
    ([(.t 1, [.shift])], [some 1]), ([(.t 1, [.reduce 0]), (.eof, [.reduce 0])], [none, some 1])]
  gotos := [[(.t 0, .state 2), (.nt 0, .accept), (.nt 2, .state 1)], [(.t 0, .state 2), (.nt 0, .state 3), (.nt 2, .state 1)], [], [(.t 1, .state 4)], []]
  reductions := [(3, 0), (1, 0), (0, 2)]

/-- Nor does it return when left recursion is hidden behind an empty non-terminal: for `s = a s y | x`, `a = ε` it loops on every input that starts with `x`. -/
theorem C40_hidden_left_recursion_counterexample : hiddenGrammar.WF ∧ GlrParserFor hiddenGrammar .lalr hiddenProg ∧ Derives hiddenGrammar.rules [hiddenGrammar.entry] [0] ∧
    ∀ (input : Nat → Tok × Unit), (input 0).1 = .tok 0 → ∀ fuel, ∃ events pos, glrParse hiddenProg.machine input fuel = .running events pos := by
  have wf := C19_well_formed _ _ hiddenGrammar_built
  have hp : GlrParserFor hiddenGrammar .lalr hiddenProg := glrIs_for (fuel := 60) (by decide +kernel)
  refine ⟨wf, hp, ?_, fun input hin fuel => ?_⟩
  · exact .nonterm (r := ⟨0, [.t 0], 1⟩) (u := [0]) (v := []) (by simp [hiddenGrammar]) (.term .nil) .nil
  · obtain ⟨gr, hv, hm⟩ := glr_parser_inv wf (by decide) hp
    rw [glrParse_lin (glr_stackInv (T := Unit) hv hm)]
    have loop : ∀ f acc q rest ev, q ≤ 1 → linReduces hiddenProg.machine (.tok 0) f false acc [GConf.live (T := Unit) (.state q :: rest) ev] = .error .fuel := by
      intro f
      induction f with
      | zero => intro acc q rest ev _; rfl
      | succ f ih =>
        intro acc q rest ev hq
        have hacts : hiddenProg.machine.nextActions q (.tok 0) = .acts [.reduce 2, .shift] := by
          rcases Nat.le_one_iff_eq_zero_or_eq_one.mp hq with rfl | rfl <;> decide
        have hred : linReduce hiddenProg.machine 2 (.state q :: rest) ev = some (.live (.state 1 :: .nonTerminal 2 :: .state q :: rest) (ev ++ [.reduce 2])) := by
          rcases Nat.le_one_iff_eq_zero_or_eq_one.mp hq with rfl | rfl <;> rfl
        conv_lhs => unfold linReduces
        simp only [List.foldlM_cons, List.foldlM_nil, linStack, hacts, linAction, hred, bind, Except.bind, pure, Except.pure]
        rw [if_neg (by simp)]
        exact ih _ _ _ _ (by omega)
    cases fuel with
    | zero => exact ⟨_, _, rfl⟩
    | succ fuel =>
      rw [linRun_live, hin, show hiddenProg.machine.entry = 0 from rfl, loop _ _ _ _ _ (by omega)]
      exact ⟨_, _, rfl⟩

/-- `s = a b y`, `a = ε`, `a = x`, `b = b z`, `b = w`: an empty rule and left recursion -/
def optionalRules : RuleSet where
  entry := "s"
  tokens := ["x", "y", "z", "w"]
  prods := [⟨"s", none, .sequence [.rule "a", .rule "b", .rule "y"]⟩, ⟨"a", none, .epsilon⟩, ⟨"a", none, .rule "x"⟩, ⟨"b", none, .sequence [.rule "b", .rule "z"]⟩,
    ⟨"b", none, .rule "w"⟩]

def optionalGrammar : Grammar where
  rules := [⟨0, [.nt 1, .nt 3, .t 1], 0⟩, ⟨1, [.eps], 1⟩, ⟨1, [.t 0], 2⟩, ⟨3, [.nt 3, .t 2], 3⟩, ⟨3, [.t 3], 4⟩]
  anon := []
  productions := [(.nt 0, "s"), (.nt 1, "a"), (.nt 3, "b")]
  tokens := [(.t 0, "x"), (.t 1, "y"), (.t 2, "z"), (.t 3, "w")]
  entry := .nt 0
  entryOrigin := 0

theorem optionalGrammar_built : Grammar.fromRuleSet optionalRules = .ok optionalGrammar := GRes.of_same (by decide)

/-- what becomes empty in it: epsilons and `a` -/
theorem optional_nullable {α : List Sym} {w : List Nat} (h : Derives optionalGrammar.rules α w) : w = [] → ∀ X ∈ α, X = .eps ∨ X = .nt 1 := by
  induction h with
  | nil => intro _ X hX; cases hX
  | eps _ ih =>
    intro h X hX
    rcases List.mem_cons.mp hX with rfl | hX
    · exact .inl rfl
    · exact ih h X hX
  | term _ _ => intro h; cases h
  | @nonterm r ss u v hr _ _ ih1 ih2 =>
    intro h X hX
    obtain ⟨hu, hv⟩ := List.append_eq_nil_iff.mp h
    rcases List.mem_cons.mp hX with rfl | hX
    · have := ih1 hu
      simp [optionalGrammar] at hr
      rcases hr with rfl | rfl | rfl | rfl | rfl <;> simp at this ⊢
    · exact ih2 hv X hX

theorem optional_left {A B : Nat} (h : LeftStep optionalGrammar A B) : (A = 0 ∧ (B = 1 ∨ B = 3)) ∨ (A = 3 ∧ B = 3) := by
  obtain ⟨r, hr, α, β, rfl, e, ha⟩ := h
  have hn := optional_nullable ha rfl
  simp [optionalGrammar] at hr
  rcases hr with rfl | rfl | rfl | rfl | rfl
  all_goals
    match α with
    | [] => simp at e ⊢; try omega
    | [X] => simp at e hn ⊢; try (obtain ⟨rfl, e⟩ := e; simp_all)
    | X :: Y :: γ =>
      simp at e hn
      try (obtain ⟨rfl, rfl, e⟩ := e; simp at hn)

-- the hypotheses of C54_decides_empty and C57_lr_terminates_empty hold for it, and `w z y` is parsed with `a` empty
example : NoCycle optionalGrammar := by
  intro A h
  have h1 : ∀ A B, ¬ SelfStep optionalGrammar A B := by
    rintro A B ⟨r, hr, α, β, rfl, e, ha, hb⟩
    have hn := optional_nullable ha rfl
    have hn' := optional_nullable hb rfl
    simp [optionalGrammar] at hr
    have hall : ∀ X ∈ r.rhs, X = .eps ∨ X = .nt 1 ∨ X = .nt B := by
      intro X hX
      rw [e] at hX
      rcases List.mem_append.mp hX with hX | hX
      · rcases hn X hX with h | h <;> simp [h]
      · rcases List.mem_cons.mp hX with rfl | hX
        · simp
        · rcases hn' X hX with h | h <;> simp [h]
    have hm : Sym.nt B ∈ r.rhs := by rw [e]; simp
    rcases hr with rfl | rfl | rfl | rfl | rfl <;> simp at hall hm
  cases h with
  | single h => exact h1 _ _ h
  | tail _ h => exact h1 _ _ h
example : NoHiddenLeftRecursion optionalGrammar := by
  rintro A B ⟨r, hr, α, β, rfl, e, ha, hs⟩ hcon
  have h1 : r.lhs = 0 ∧ B = 3 := by
    have hn := optional_nullable ha rfl
    simp [optionalGrammar] at hr
    rcases hr with rfl | rfl | rfl | rfl | rfl
    all_goals
      match α with
      | [] => simp [strip] at hs
      | [X] => simp at e hn ⊢; try (obtain ⟨rfl, e⟩ := e; simp_all)
      | X :: Y :: γ =>
        simp at e hn
        try (obtain ⟨rfl, rfl, e⟩ := e; simp at hn)
  rw [h1.1, h1.2] at hcon
  have h2 : ∀ B, Relation.ReflTransGen (LeftStep optionalGrammar) 3 B → B = 3 := by
    intro B h
    induction h with
    | refl => rfl
    | tail _ h ih =>
      subst ih
      rcases optional_left h with ⟨h, _⟩ | ⟨_, h⟩
      · cases h
      · exact h
  have := h2 _ hcon
  omega
example : NoEmptyRhs optionalGrammar ∧ EpsLeading optionalGrammar ∧ DistinctRules optionalGrammar ∧ EntryFresh optionalGrammar := by
  refine ⟨by decide, by decide, ?_, ?_⟩
  · unfold DistinctRules; decide
  · unfold EntryFresh; decide
example : ∃ p, GlrParserFor optionalGrammar .lalr p ∧ glrParse p.machine (streamOf [3, 2, 1]) 30 =
    .ok [.reduce 1, .shift (.tok 3) (), .reduce 4, .shift (.tok 2) (), .reduce 3, .shift (.tok 1) (), .reduce 0] 4 :=
  glrTry_some (g := optionalGrammar) (kind := .lalr) (fuel := 60) (w := [3, 2, 1]) (steps := 30) (by decide +kernel)

end Verif
