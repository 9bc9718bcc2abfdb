import Verif.Proofs.RustGlrDriver
import Verif.Props.RustGlrText

/-!
# C77: what the text of the generated Rust GLR parser does when it is run

`Verif/Spec/RustGlrRun.lean` says what the statements of `parse`, `apply_reduces`, `apply_reduce` and `combine_errors` mean. The functions they call are those of C76, and
those of module `gss` in the same text, which `Verif/Spec/RustGss.lean` gives a meaning.
-/

set_option autoImplicit false

namespace Verif

variable {T : Type}

section
variable {rs : RuleSet} {g : Grammar} {rules : List TokenRule} {tb : LRTable} {p : GlrProg} {toks text : List Char} (hf : GlrParserFiles rs g rules tb p toks text)

include hf in
/-- The functions of module `gss` in the text, read as Rust and executed on a memory of `Rc<RefCell<…>>` cells, do what the operations on the heap of the model do, for all memories and nodes. A function
panics only where the model says so (`pop` of a node that has not exactly one predecessor); in particular no `borrow` or `borrow_mut` fails, although `unwind_stacks` calls itself and `push` while it has
borrowed the node it is called for. -/
theorem C77_stack_text {N E R : Type} : (rustGss text : Gss N E R) =
    { root := fun h => .ok h.root
      fork := fun h x => .ok (h.fork x)
      top := fun h x => .ok (h.top x)
      isRoot := fun h x => .ok (h.isRoot x)
      push := fun h x v e => .ok (h.push x v e)
      pop := fun h x => h.pop x
      record := fun h x r => .ok (h.record x r)
      popRecorded := fun h x => .ok (h.popRecorded x)
      unwind := fun h x d => .ok (GHeap.unwind d h x) } := text_gss (gssBody_of hf.gwords hf.tagWords hf.parserFile)

end

section
variable {rs : RuleSet} {g : Grammar} {rules : List TokenRule} {tb : LRTable} {p : GlrProg} {toks text : List Char} (hf : GlrParserFiles rs g rules tb p toks text)

include hf in
theorem glr_callsFit {variants : List (List Char)} (h : GlrCalls text variants g p.machine T) : DCallsFit (T := T) (rustGlrCalls text) variants g p.machine (ruleVisits rs g) := by
  have hred := (genGlr_spec hf.program).reductions
  have wf := C19_well_formed _ _ hf.grammar
  refine ⟨h.actions, h.goto, h.reduction, ?_, ?_⟩
  · intro i hi
    have hlt : i < g.rules.length := by
      by_contra hn
      refine hi ?_
      show p.reductions[i]? = none
      rw [hred, List.getElem?_eq_none (by rw [List.length_map]; omega)]
    show rustDoVisit text (rRuleVal i) = _
    rw [glr_visit hf.gwords hf.tagWords hf.parserFile]
    obtain ⟨name, hn⟩ := ((C41_visits rs g).2.1 i).mp hlt
    cases hfi : (ruleVisits rs g).find? (fun x => x.1 = i) with
    | none =>
      have := List.find?_eq_none.mp hfi _ hn
      simp at this
    | some y => rfl
  · intro i k A hi
    have hi' : p.reductions[i]? = some (k, A) := hi
    rw [hred] at hi'
    obtain ⟨r, hr, e⟩ := List.mem_map.mp (List.mem_of_getElem? hi')
    simp only [Prod.mk.injEq] at e
    rw [← e.2]
    exact wf.lhs_declared r hr

include hf in
/-- C77. `parser.parse()` of the text, read as Rust and run on any stream of tokens, does what the modelled program does: it makes the same calls of the visitor, asks for the same number of tokens, and
returns `Ok`, or an error with the token and the expected ones of each stack, or panics. The tokens are the variants of the `enum` in `tokens.rs`; the method called for a rule is its callback
(`C75_calls`). -/
theorem C77_parser_text (T ε : Type) : ∃ variants, rustEnum "TokenType".toList toks = some variants ∧ variants.length = rs.tokens.length + 1 ∧
    ∀ (input : Nat → Tok × T) (n : Nat), (runGlrParser text (fun i => .ok (tokVariant variants (input i).1, (input i).2)) n : Res (RGlrEnd T ε × List (RVisit T) × Nat)) =
      rustGlrOutcome variants (ruleVisits rs g) input (glrParse p.machine input n) := by
  obtain ⟨variants, h1, h2, h3⟩ := C76_functions hf T
  refine ⟨variants, h1, h2, fun input n => ?_⟩
  rw [run_text hf.gwords hf.tagWords hf.parserFile]
  exact run_glrParser (hasDriver hf.gwords hf.tagWords hf.parserFile) (glr_callsFit hf h3) rfl input n

include hf in
/-- When the token function fails, `parse` returns its error: suppose that on the stream `input` a run returns after `calls` calls of the token function. If the token function fails first at call
`k` (from 0), the outcome is the same when `k` is not among these calls; otherwise `parse` stops right after call `k`, returns that error, and has made the first of the same calls of the visitor. -/
theorem C77_token_error (T ε : Type) : ∃ variants, rustEnum "TokenType".toList toks = some variants ∧
    ∀ (input : Nat → Tok × T) (inp : Nat → Except ε (List Char × T)) (k : Nat) (e : ε), (∀ i < k, inp i = .ok (tokVariant variants (input i).1, (input i).2)) → inp k = .error e →
      ∀ (n : Nat) (out : RGlrEnd T ε) (visits : List (RVisit T)) (calls : Nat), runGlrParser text (fun i => .ok (tokVariant variants (input i).1, (input i).2)) n = .ok (out, visits, calls) →
        if calls ≤ k then runGlrParser text inp n = .ok (out, visits, calls) else ∃ before, before <+: visits ∧ runGlrParser text inp n = .ok (.lexerError e, before, k + 1) := by
  obtain ⟨variants, h1, _, h3⟩ := C76_functions hf T
  refine ⟨variants, h1, fun input inp k e hi he n out visits calls hr => ?_⟩
  have hd := hasDriver hf.gwords hf.tagWords hf.parserFile
  have hc := glr_callsFit hf h3
  have h0 := run_glrParser (ε := ε) hd hc rfl input n
  unfold glrInput at h0
  rw [run_text hf.gwords hf.tagWords hf.parserFile] at hr
  rw [hr] at h0
  rw [run_text hf.gwords hf.tagWords hf.parserFile]
  have hn : ∀ a b, glrParse p.machine input n ≠ .panic a b := by
    intro a b hx
    rw [hx] at h0
    cases h0
  obtain ⟨k1, k2⟩ := run_glrParser_error hd hc rfl input inp k e hi he n hn
  have hpos : calls = (resultAt (glrParse p.machine input n)).2 + 1 ∧ visits = (resultAt (glrParse p.machine input n)).1.map (visitOf variants (ruleVisits rs g)) := by
    cases hx : glrParse p.machine input n with
    | ok events pos => rw [hx] at h0; cases h0; exact ⟨rfl, rfl⟩
    | unexpected events pos es =>
      rw [hx] at h0
      simp only [rustGlrOutcome, Except.ok.injEq, Prod.mk.injEq] at h0
      exact ⟨h0.2.2, h0.2.1⟩
    | panic events pos => exact absurd hx (hn _ _)
    | running events pos => rw [hx] at h0; cases h0
  split
  · rw [k1 (by omega), ← h0]
  · obtain ⟨pre, j1, j2⟩ := k2 (by omega)
    exact ⟨_, by rw [hpos.2]; exact j1.map _, j2⟩

/-- how `parse` ends when it returns an error is never `Ok` -/
theorem glrEnd_ne {ε : Type} (variants : List (List Char)) (x : Tok × T) (l : List (List (Option Nat))) : (glrEnd variants x l : RGlrEnd T ε) ≠ .ok := by
  unfold glrEnd
  split <;> exact fun h => by cases h

include hf in
/-- Consequence for grammars without cycles and hidden left recursion, with an LR(1) table and an entry symbol that is not left-recursive, or with any table with lookahead and an entry symbol on no
right side: if enough steps are allowed, a run of the text on a stream of tokens returns, or panics. It returns `Ok` if the tokens have exactly one parse tree, with the calls of the visitor that this
tree has from the bottom to the top, and after it has asked for one token after the end. It returns another result if there is no parse tree. It panics if there are two or more. -/
theorem C77_decides (T ε : Type) (hne : NoEmptyRhs g) (hel : EpsLeading g) (hd : DistinctRules g) (hc : NoCycle g) (hh : NoHiddenLeftRecursion g) (kind : LRKind) (hk : kind.hasLa = true)
    (hent : EntryFresh g ∨ kind = .lr1 ∧ EntryNotLeftRecursive g) (htb : LRTableFor g kind tb) (w : List (Nat × T)) (input : Nat → Tok × T) (hst : StreamIs input w) :
    ∃ variants bound, rustEnum "TokenType".toList toks = some variants ∧ ∀ n, bound ≤ n → ∃ r : Res (RGlrEnd T ε × List (RVisit T) × Nat),
      runGlrParser text (fun i => .ok (tokVariant variants (input i).1, (input i).2)) n = r ∧
      (∀ t, IsParseOf g w t → (∀ t', IsParseOf g w t' → t' = t) →
        ∃ events, TraceIs g events t.postorder ∧ r = .ok (.ok, events.map (visitOf variants (ruleVisits rs g)), w.length + 2)) ∧
      ((∀ t, ¬ IsParseOf g w t) → ∃ out visits calls, r = .ok (out, visits, calls) ∧ out ≠ .ok) ∧
      ((∃ t t', t ≠ t' ∧ IsParseOf g w t ∧ IsParseOf g w t') → r = .error .panic) := by
  obtain ⟨variants, h1, _, h2⟩ := C77_parser_text hf T ε
  have wf := C19_well_formed _ _ hf.grammar
  have hp : GlrParserFor g kind p := by
    obtain ⟨allow, n, h⟩ := htb
    exact ⟨allow, n, tb, h, hf.program⟩
  obtain ⟨bound, hb⟩ := C54_terminates_empty g wf hne hc hh kind p hp w input hst
  refine ⟨variants, bound, h1, fun n hn => ⟨_, rfl, ?_⟩⟩
  have cnt : (∀ events pos, glrParse p.machine input n = .ok events pos →
      pos = w.length + 1 ∧ ∃ t, IsParseOf g w t ∧ TraceIs g events t.postorder ∧ ∀ t', IsParseOf g w t' → t' = t) ∧
    (∀ events pos, glrParse p.machine input n = .panic events pos → ∃ t t', t ≠ t' ∧ IsParseOf g w t ∧ IsParseOf g w t') ∧
    (∀ events pos errs, glrParse p.machine input n = .unexpected events pos errs → ∀ t, ¬ IsParseOf g w t) := by
    rcases hent with h | ⟨rfl, h⟩
    · exact C53_counts g wf hne hel hd h kind hk p hp w input hst n
    · exact C53_counts_lr1 g wf hne hel hd h p hp w input hst n
  obtain ⟨c1, c2, c3⟩ := cnt
  rw [h2]
  cases hr : glrParse p.machine input n with
  | running ev pos => exact absurd hr (hb n hn ev pos)
  | ok ev pos =>
    obtain ⟨rfl, t, k1, k2, k3⟩ := c1 _ _ hr
    refine ⟨fun t' ht' _ => ⟨ev, by rw [k3 t' ht']; exact k2, rfl⟩, fun h => absurd k1 (h t), ?_⟩
    rintro ⟨t1, t2, hne', ha, hb'⟩
    exact absurd ((k3 _ ha).trans (k3 _ hb').symm) hne'
  | panic ev pos =>
    obtain ⟨t, t', k1, k2, k3⟩ := c2 _ _ hr
    refine ⟨fun t0 _ hu => absurd ((hu _ k2).trans (hu _ k3).symm) k1, fun h => absurd k2 (h t), fun _ => rfl⟩
  | unexpected ev pos errs =>
    have k := c3 _ _ _ hr
    exact ⟨fun t ht _ => absurd ht (k t), fun _ => ⟨_, _, _, rfl, glrEnd_ne _ _ _⟩, fun ⟨t, _, _, h, _⟩ => absurd h (k t)⟩

end

/-! ## Cases -/

theorem wordGrammar_units : EpsFree wordGrammar ∧ NoUnitCycle wordGrammar := by
  refine ⟨by unfold EpsFree; decide, fun A h => ?_⟩
  have hno : ∀ A B, ¬ UnitRule wordGrammar A B := by
    rintro A B ⟨r, hr, _, h⟩
    simp [wordGrammar] at hr
    rcases hr with rfl | rfl <;> simp [strip] at h
  cases h with
  | one h => exact hno _ _ h
  | more h _ => exact hno _ _ h

-- the conditions of C77_decides for this grammar
example : NoEmptyRhs wordGrammar ∧ EpsLeading wordGrammar ∧ DistinctRules wordGrammar ∧ NoCycle wordGrammar ∧ NoHiddenLeftRecursion wordGrammar ∧ EntryNotLeftRecursive wordGrammar :=
  ⟨by decide, by decide, by unfold DistinctRules; decide, (C54_without_empty_rules _ wordGrammar_units.1 wordGrammar_units.2).1, (C54_without_empty_rules _ wordGrammar_units.1 wordGrammar_units.2).2,
    wordGrammar_entry⟩

/-- what the program made of this grammar does on two inputs -/
def wordGlrRun : Bool :=
  match generateTable wordGrammar true .lr1 60 with
  | .ok (.noConflicts tb) =>
    match genGlr wordGrammar tb with
    | .ok p => decide (glrParse p.machine (streamOf [0, 2, 1]) 20 = .ok [.shift (.tok 0) (), .shift (.tok 2) (), .reduce 1, .shift (.tok 1) (), .reduce 0] 4) &&
          decide (glrParse p.machine (streamOf [0, 2]) 20 = .unexpected [.shift (.tok 0) (), .shift (.tok 2) ()] 2 [[some 1]])
    | _ => false
  | _ => false

/-- the text of the file, run on a sentence, on an input that is none, and with a token function that fails -/
example : ∃ tb p toks text, LRTableFor wordGrammar .lr1 tb ∧ GlrParserFiles nestedRules wordGrammar wordTokens tb p toks text ∧
    (runGlrParser text (fun i => .ok (["TkLp".toList, "TkX".toList, "TkRp".toList].getD i "EndOfFile".toList, ())) 20 : Res (RGlrEnd Unit Nat × List (RVisit Unit) × Nat)) =
      .ok (.ok, [.shift "TkLp".toList (), .shift "TkX".toList (), .call "reduce_s_2".toList, .shift "TkRp".toList (), .call "reduce_s_nested".toList], 5) ∧
    (runGlrParser text (fun i => .ok (["TkLp".toList, "TkX".toList].getD i "EndOfFile".toList, ())) 20 : Res (RGlrEnd Unit Nat × List (RVisit Unit) × Nat)) =
      .ok (.unexpected ("EndOfFile".toList, (), ["TkRp".toList]), [.shift "TkLp".toList (), .shift "TkX".toList ()], 3) ∧
    ∃ before, (runGlrParser text (fun i => if i = 3 then .error 7 else .ok (["TkLp".toList, "TkX".toList, "TkRp".toList].getD i "EndOfFile".toList, ())) 20 : Res (RGlrEnd Unit Nat × List (RVisit Unit) × Nat)) =
      .ok (.lexerError 7, before, 4) := by
  have h : wordGlrRun = true := by decide +kernel
  unfold wordGlrRun at h
  split at h
  · rename_i tb ht
    split at h
    · rename_i p hp
      rw [Bool.and_eq_true, decide_eq_true_eq, decide_eq_true_eq] at h
      obtain ⟨h1, h2⟩ := h
      obtain ⟨toks, text, hf⟩ := nested_glr tb p hp
      obtain ⟨ws, hws, hv⟩ := glr_variants hf
      obtain ⟨vs, hv', _, key⟩ := C77_parser_text hf Unit Nat
      obtain ⟨vs', hv'', fails⟩ := C77_token_error hf Unit Nat
      rw [hv] at hv' hv''
      cases hv'
      cases hv''
      have hws' : wordTokens.mapM (fun r => tokenEnumName r.name.toList) = .ok ["TkLp".toList, "TkRp".toList, "TkX".toList] := by decide +kernel
      rw [hws'] at hws
      cases hws
      have e1 : (fun i => (.ok (["TkLp".toList, "TkX".toList, "TkRp".toList].getD i "EndOfFile".toList, ()) : Except Nat (List Char × Unit))) =
          fun i => .ok (tokVariant ("EndOfFile".toList :: ["TkLp".toList, "TkRp".toList, "TkX".toList]) (streamOf [0, 2, 1] i).1, (streamOf [0, 2, 1] i).2) := by
        funext i
        match i with
        | 0 => rfl
        | 1 => rfl
        | 2 => rfl
        | i + 3 => rfl
      have r1 := key (streamOf [0, 2, 1]) 20
      rw [h1, ← e1] at r1
      refine ⟨tb, p, toks, text, ⟨true, 60, .inl ht⟩, hf, r1.trans (by decide +kernel), ?_, ?_⟩
      · have := key (streamOf [0, 2]) 20
        rw [h2] at this
        refine Eq.trans (congrArg (fun f => runGlrParser text f 20) ?_) (this.trans (by decide +kernel))
        funext i
        match i with
        | 0 => rfl
        | 1 => rfl
        | i + 2 => rfl
      · have := fails (streamOf [0, 2, 1]) (fun i => if i = 3 then .error 7 else .ok (["TkLp".toList, "TkX".toList, "TkRp".toList].getD i "EndOfFile".toList, ())) 3 7
          (fun i hi => by
            rw [if_neg (by omega)]
            exact congrFun e1 i) rfl 20 .ok _ 5 (by rw [← e1]; exact r1)
        rw [if_neg (by decide)] at this
        obtain ⟨before, _, h⟩ := this
        exact ⟨before, h⟩
    · cases h
  · cases h

end Verif
