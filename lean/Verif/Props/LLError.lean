import Verif.Proofs.LLError
import Verif.Props.LLTree
import Verif.Props.CppLLText

/-!
# C85: LL parsers report errors at the first wrong token

What has been read before is the beginning of a sentence and does not go on with the token at which the error is reported.
-/

set_option autoImplicit false

namespace Verif

variable {T : Type}

theorem table_sound {g : Grammar} {table : LLTable} (h : TableFor g g.rules table) : SoundDispatch g (tableDispatch table) := by
  intro A tk syms hd
  obtain ⟨r, hr, h1, h2, _⟩ := (table_exact h).2 _ _ _ hd
  exact ⟨r, hr, h1, h2⟩

/-- C85. At all times, until the parser has seen the end of file, the tokens given to the visitor are those read, and they are the beginning of a sentence. -/
theorem C85_viable_prefix (g : Grammar) (wf : g.WF) (hne : NoEmptyRhs g) (ht : TokensFit g) (hprod : Productive g) (fuel : Nat) (hf : setsFuel g ≤ fuel)
    (table : LLTable) (h : llGenerateTable g fuel = .ok table) (E : Nat) (hE : g.entry = .nt E) (visible : Nat → Bool) (input : Nat → Tok × T)
    (s : List LLSym) (pos : Nat) (events : List (LLEvent T)) (hr : LLReaches (tableDispatch table) visible input E s pos events) (hs : s ≠ []) :
    ∃ w v, Consumes input pos w ∧ tokensOf events = w.map (fun x => (Tok.tok x.1, x.2)) ∧ Derives g.rules [g.entry] (w.map (·.1) ++ v) := by
  rcases reaches_inv_ll wf (table_sound (tableFor_of_ok wf hne ht hf h)) hE hr with h1 | ⟨⟨w, h1, h2, h3⟩, h4, _⟩
  · exact absurd h1 hs
  · obtain ⟨v, hv⟩ := stack_productive hprod s h4
    rw [hE]
    exact ⟨w, v, h1, h2, h3 v hv⟩

/-- what is known when an error is reported: the tokens `w` read before are those given to the visitor, they are the beginning of a sentence if all non-terminals are productive, and with the token
found they are not -/
structure FirstWrong (g : Grammar) (input : Nat → Tok × T) (events : List (LLEvent T)) (pos : Nat) (w : List (Nat × T)) : Prop where
  read : Consumes input pos w
  given : tokensOf events = w.map (fun x => (Tok.tok x.1, x.2))
  begins : Productive g → ∃ v, Derives g.rules [g.entry] (w.map (·.1) ++ v)
  wrong : ∀ a, (input pos).1 = .tok a → ∀ v, ¬ Derives g.rules [g.entry] (w.map (·.1) ++ a :: v)

theorem table_error {g : Grammar} (wf : g.WF) (hne : NoEmptyRhs g) (ht : TokensFit g) {fuel : Nat} (hf : setsFuel g ≤ fuel)
    {table : LLTable} (h : llGenerateTable g fuel = .ok table) {E : Nat} (hE : g.entry = .nt E) (visible : Nat → Bool) (input : Nat → Tok × T)
    {steps : Nat} {events : List (LLEvent T)} {pos : Nat} (hr : llParse (tableDispatch table) visible E input steps = .error events pos) {w : List (Nat × T)} (hw : Consumes input pos w)
    {a : Nat} (ha : (input pos).1 = .tok a) (v : List Nat) : ¬ Derives g.rules [g.entry] (w.map (·.1) ++ a :: v) := by
  intro hd
  obtain ⟨n, ev, h1⟩ := C24_accepts_every_sentence g wf hne ht fuel hf table h E hE visible (goOn input pos v) _ (goOn_is hw ha v) (by
    simpa [Function.comp_def] using hd)
  have h2 : llParse (tableDispatch table) visible E (goOn input pos v) steps = .error events pos := by
    rw [← hr]
    exact llRun_online _ _ steps _ _ _ pos (by rw [show llRun _ _ input steps _ 0 [] = .error events pos from hr]; rfl) (fun i hi => by simp [goOn, hi])
  have h3 : llParse (tableDispatch table) visible E (goOn input pos v) (max n steps) = .error events pos := by
    rw [← h2]
    exact llRun_mono steps (max n steps) _ _ _ (by omega) (by rw [show llRun _ _ (goOn input pos v) steps _ 0 [] = .error events pos from h2]; simp)
  rw [h1 _ (by omega)] at h3
  cases h3

/-- C85. A parser that dispatches by the table reports an error at the first wrong token; and at the end of file only if the tokens are no sentence. -/
theorem C85_first_wrong (g : Grammar) (wf : g.WF) (hne : NoEmptyRhs g) (ht : TokensFit g) (fuel : Nat) (hf : setsFuel g ≤ fuel)
    (table : LLTable) (h : llGenerateTable g fuel = .ok table) (E : Nat) (hE : g.entry = .nt E) (visible : Nat → Bool) (input : Nat → Tok × T)
    (steps : Nat) (events : List (LLEvent T)) (pos : Nat) (hr : llParse (tableDispatch table) visible E input steps = .error events pos) :
    ∃ w, FirstWrong g input events pos w ∧ ((input pos).1 = .eof → ¬ Derives g.rules [g.entry] (w.map (·.1))) := by
  obtain ⟨s, h1, h2⟩ := error_reaches steps _ _ _ _ _ .start hr
  rcases reaches_inv_ll wf (table_sound (tableFor_of_ok wf hne ht hf h)) hE h1 with rfl | ⟨⟨w, h3, h4, h5⟩, h6, _⟩
  · simp [llStep] at h2
  · refine ⟨w, ⟨h3, h4, fun hp => ?_, fun a ha v => table_error wf hne ht hf h hE visible input hr h3 ha v⟩, fun he hd => ?_⟩
    · obtain ⟨v, hv⟩ := stack_productive hp s h6
      rw [hE]
      exact ⟨v, h5 v hv⟩
    · have hst : StreamIs input w := ⟨h3.2, by rw [h3.1]; exact he⟩
      obtain ⟨n, ev, k⟩ := C24_accepts_every_sentence g wf hne ht fuel hf table h E hE visible input w hst hd
      have k2 : llParse (tableDispatch table) visible E input (max n steps) = .error events pos := by
        rw [← hr]
        exact llRun_mono steps (max n steps) _ _ _ (by omega) (by rw [show llRun _ _ input steps _ 0 [] = .error events pos from hr]; simp)
      rw [k _ (by omega)] at k2
      cases k2

/-- C85. So does the generated C++ parser, where the two numberings of the non-terminals agree; at the end of file it reports errors for sentences, too (`C24_cpp_accepts_iff`). -/
theorem C85_cpp_first_wrong (g : Grammar) (wf : g.WF) (hne : NoEmptyRhs g) (ht : TokensFit g) (hgap : NoGaps g) (fuel : Nat) (hf : setsFuel g ≤ fuel)
    (table : LLTable) (h : llGenerateTable g fuel = .ok table) (E : Nat) (hE : g.entry = .nt E) (input : Nat → Tok × T)
    (steps : Nat) (events : List (LLEvent T)) (pos : Nat) (hr : llParse (cppDispatch g table) (cppVisible g) E input steps = .error events pos) :
    ∃ w, FirstWrong g input events pos w := by
  have hT := tableFor_of_ok wf hne ht hf h
  obtain ⟨s, h1, h2⟩ := error_reaches steps _ _ _ _ _ .start hr
  have hinv : ∀ {s pos events}, LLReaches (cppDispatch g table) (cppVisible g) input E s pos events → s = [] ∨ LLInv g input E s pos events := by
    intro s pos events hr
    induction hr with
    | start => exact .inr (inv_start wf hE)
    | @step s s' pos pos' events e h1 h2 ih =>
      rcases ih with rfl | ih
      · simp [llStep] at h2
      · refine inv_step (disp := tableDispatch table) (visible := cppVisible g) wf (table_sound hT) ih ?_
        rw [← h2]
        cases s with
        | nil => rfl
        | cons x s =>
          cases x with
          | exit A => rfl
          | terminal t => rfl
          | nonTerminal A =>
            simp only [llStep] at h2 ⊢
            rcases cpp_disp wf hgap hT (ih.declared A List.mem_cons_self) (input pos).1 with h3 | h3
            · rw [h3] at h2; cases h2
            · rw [h3]
  rcases hinv h1 with rfl | ⟨⟨w, h3, h4, h5⟩, h6, _⟩
  · simp [llStep] at h2
  · refine ⟨w, h3, h4, fun hp => ?_, fun a ha v => ?_⟩
    · obtain ⟨v, hv⟩ := stack_productive hp s h6
      rw [hE]
      exact ⟨v, h5 v hv⟩
    · exact table_error wf hne ht hf h hE (cppVisible g) input (cpp_error_tok wf hgap hT ha steps _ _ _ (entry_stack wf hE) hr) h3 ha v

/-- C85. When another token is found than the one on top of the stack, which the message names, the one named would have fit. -/
theorem C85_expected_fits (g : Grammar) (wf : g.WF) (hne : NoEmptyRhs g) (ht : TokensFit g) (hprod : Productive g) (fuel : Nat) (hf : setsFuel g ≤ fuel)
    (table : LLTable) (h : llGenerateTable g fuel = .ok table) (E : Nat) (hE : g.entry = .nt E) (visible : Nat → Bool) (input : Nat → Tok × T)
    (b : Nat) (s : List LLSym) (pos : Nat) (events : List (LLEvent T)) (hr : LLReaches (tableDispatch table) visible input E (.terminal (.tok b) :: s) pos events) :
    ∃ w v, Consumes input pos w ∧ Derives g.rules [g.entry] (w.map (·.1) ++ b :: v) := by
  rcases reaches_inv_ll wf (table_sound (tableFor_of_ok wf hne ht hf h)) hE hr with h1 | ⟨⟨w, h1, h2, h3⟩, h4, _⟩
  · cases h1
  · obtain ⟨v, hv⟩ := stack_productive hprod s (fun A hA => h4 A (List.mem_cons_of_mem _ hA))
    rw [hE]
    exact ⟨w, v, h1, h3 (b :: v) (.term hv)⟩

/-- C85. When the text of the generated parser throws, executed as in C82, it does so at the first wrong token or at the end of file or at an error of the lexer. -/
theorem C85_text (rs : RuleSet) (g : Grammar) (table : LLTable) (h : LLGenerated rs g table) (hgap : NoGaps g) (src : CppLLSource) (hsrc : genCppLL (tokenNames rs) g table = .ok src)
    (hv : (cppTokenVariants (tokenNames rs)).Nodup) (hn : src.nonTerminals.Nodup) (label : List Char) (E : Nat) (hE : g.entry = .nt E) (input : Nat → Tok × T)
    (hin : TokensBelow rs.tokens.length input) (n : Nat) (events : List (LLTextEvent T)) (pos : Nat) (message : List Char)
    (hr : runCppLL (cppLLFiles (tokenNames rs) src label) E (codeInput input) n = some (.thrown events pos message)) :
    ∃ calls w, events = calls.map (llTextEvent g) ∧ FirstWrong g input calls pos w ∧ LLMessage (tokenNames rs) g table (input pos).1 message := by
  obtain ⟨r, h1, h2⟩ := C82_parser_text rs g table h src hsrc hv hn label E input hin n
  rw [h1] at hr
  have hr := Option.some.inj hr
  subst hr
  obtain ⟨fuel, hfu, ht⟩ := h.table
  cases hm : llParse (cppDispatch g table) (cppVisible g) E input n with
  | ok es ps => rw [hm] at h2; cases h2
  | fuel => rw [hm] at h2; cases h2
  | error es ps =>
    obtain ⟨w, hw⟩ := C85_cpp_first_wrong g (C19_well_formed _ g h.grammar) h.noEmpty h.fit hgap fuel hfu table ht E hE input n es ps hm
    rw [hm] at h2
    cases h2 with
    | error _ _ _ hmsg => exact ⟨es, w, rfl, hw, hmsg⟩

/-! ## The tokens named in a message are neither all that fit nor only such -/

/-- tokens c, x, y, z; `s = l | r`, `l = o x`, `r = y o z`, `o = c?` -/
def ctxRules : RuleSet where
  entry := "s"
  tokens := ["c", "x", "y", "z"]
  prods := [⟨"s", none, .alternative [.rule "l", .rule "r"]⟩, ⟨"l", none, .sequence [.rule "o", .rule "x"]⟩,
    ⟨"r", none, .sequence [.rule "y", .rule "o", .rule "z"]⟩, ⟨"o", none, .optional (.rule "c")⟩]

def ctxGrammar : Grammar where
  rules := [⟨4, [.nt 1], 0⟩, ⟨4, [.nt 2], 0⟩, ⟨0, [.nt 4], 0⟩, ⟨1, [.nt 3, .t 1], 1⟩, ⟨2, [.t 2, .nt 3, .t 3], 2⟩, ⟨5, [.t 0], 3⟩, ⟨5, [.eps], 3⟩, ⟨3, [.nt 5], 3⟩]
  anon := [.nt 4, .nt 5]
  productions := [(.nt 0, "s"), (.nt 1, "l"), (.nt 2, "r"), (.nt 3, "o")]
  tokens := [(.t 0, "c"), (.t 1, "x"), (.t 2, "y"), (.t 3, "z")]
  entry := .nt 0
  entryOrigin := 0

theorem ctxGrammar_built : Grammar.fromRuleSet ctxRules = .ok ctxGrammar := GRes.of_same (by decide)

def ctxTable : LLTable := [(⟨0, some 1⟩, [.nt 4]), (⟨0, some 2⟩, [.nt 4]), (⟨0, some 3⟩, [.nt 4]), (⟨1, some 1⟩, [.nt 3, .t 1]), (⟨1, some 2⟩, [.nt 3, .t 1]),
  (⟨2, some 3⟩, [.t 2, .nt 3, .t 3]), (⟨3, some 1⟩, [.nt 5]), (⟨3, some 2⟩, [.nt 5]), (⟨3, some 4⟩, [.nt 5]), (⟨4, some 1⟩, [.nt 1]), (⟨4, some 2⟩, [.nt 1]),
  (⟨4, some 3⟩, [.nt 2]), (⟨5, some 1⟩, [.t 0]), (⟨5, some 2⟩, [.eps]), (⟨5, some 4⟩, [.eps])]

theorem ctxTable_ok : llGenerateTable ctxGrammar (setsFuel ctxGrammar) = .ok ctxTable := of_sameTable (by decide +kernel)
theorem ctxGrammar_wf : ctxGrammar.WF := C19_well_formed _ _ ctxGrammar_built
theorem ctxGrammar_gaps : NoGaps ctxGrammar := by
  intro A hA
  simp [ctxGrammar, Grammar.nonTerminals] at hA
  rcases hA with rfl | rfl | rfl | rfl | rfl | rfl <;> decide
theorem ctxGrammar_fits : TokensFit ctxGrammar := by
  intro a ha
  simp [ctxGrammar, Grammar.terminals] at ha
  omega

theorem ctxGrammar_productive : Productive ctxGrammar := by
  have h5 : Derives ctxGrammar.rules [.nt 5] [] := .nonterm (r := ⟨5, [.eps], 3⟩) (u := []) (v := []) (by simp [ctxGrammar]) (.eps .nil) .nil
  have h3 : Derives ctxGrammar.rules [.nt 3] [] := .nonterm (r := ⟨3, [.nt 5], 3⟩) (u := []) (v := []) (by simp [ctxGrammar]) h5 .nil
  have h1 : Derives ctxGrammar.rules [.nt 1] [1] :=
    .nonterm (r := ⟨1, [.nt 3, .t 1], 1⟩) (u := [1]) (v := []) (by simp [ctxGrammar]) (Derives.append (s1 := [.nt 3]) h3 (.term .nil)) .nil
  have h2 : Derives ctxGrammar.rules [.nt 2] [2, 3] :=
    .nonterm (r := ⟨2, [.t 2, .nt 3, .t 3], 2⟩) (u := [2, 3]) (v := []) (by simp [ctxGrammar]) (.term (Derives.append (s1 := [.nt 3]) h3 (.term .nil))) .nil
  have h4 : Derives ctxGrammar.rules [.nt 4] [1] := .nonterm (r := ⟨4, [.nt 1], 0⟩) (u := [1]) (v := []) (by simp [ctxGrammar]) h1 .nil
  have h0 : Derives ctxGrammar.rules [.nt 0] [1] := .nonterm (r := ⟨0, [.nt 4], 0⟩) (u := [1]) (v := []) (by simp [ctxGrammar]) h4 .nil
  intro A hA
  simp [ctxGrammar, Grammar.nonTerminals] at hA
  rcases hA with rfl | rfl | rfl | rfl | rfl | rfl
  · exact ⟨_, h0⟩
  · exact ⟨_, h1⟩
  · exact ⟨_, h2⟩
  · exact ⟨_, h3⟩
  · exact ⟨_, h4⟩
  · exact ⟨_, h5⟩

/-- C85. For `y x` the generated C++ parser has forgotten, when it reports that it expected `z`, that `c` would have fit, too. -/
theorem C85_expected_incomplete : NoGaps ctxGrammar ∧ ∃ s events,
    LLReaches (cppDispatch ctxGrammar ctxTable) (cppVisible ctxGrammar) (streamOf [2, 1]) 0 (.terminal (.tok 3) :: s) 1 events ∧
    llStep (cppDispatch ctxGrammar ctxTable) (cppVisible ctxGrammar) (streamOf [2, 1]) (.terminal (.tok 3) :: s) 1 = .error ∧
    Derives ctxGrammar.rules [ctxGrammar.entry] [2, 0, 3] := by
  refine ⟨ctxGrammar_gaps, [.exit 2, .exit 4, .exit 0, .terminal .eof], [.enter 0, .enter 2, .token (.tok 2) (), .enter 3, .exit 3], reaches_of_state 8 _ _ _ _ _ _ .start (by decide +kernel), rfl, ?_⟩
  have h5 : Derives ctxGrammar.rules [.nt 5] [0] := .nonterm (r := ⟨5, [.t 0], 3⟩) (u := [0]) (v := []) (by simp [ctxGrammar]) (.term .nil) .nil
  have h3 : Derives ctxGrammar.rules [.nt 3] [0] := .nonterm (r := ⟨3, [.nt 5], 3⟩) (u := [0]) (v := []) (by simp [ctxGrammar]) h5 .nil
  have h2 : Derives ctxGrammar.rules [.nt 2] [2, 0, 3] :=
    .nonterm (r := ⟨2, [.t 2, .nt 3, .t 3], 2⟩) (u := [2, 0, 3]) (v := []) (by simp [ctxGrammar]) (.term (Derives.append (s1 := [.nt 3]) h3 (.term .nil))) .nil
  have h4 : Derives ctxGrammar.rules [.nt 4] [2, 0, 3] := .nonterm (r := ⟨4, [.nt 2], 0⟩) (u := [2, 0, 3]) (v := []) (by simp [ctxGrammar]) h2 .nil
  exact .nonterm (r := ⟨0, [.nt 4], 0⟩) (u := [2, 0, 3]) (v := []) (by simp [ctxGrammar]) h4 .nil

/-- C85. For `y y` it reports that `o` begins with `c`, `x` or `z`, though behind `y` there is never an `x`. -/
theorem C85_expected_excess : ∃ s events,
    LLReaches (cppDispatch ctxGrammar ctxTable) (cppVisible ctxGrammar) (streamOf [2, 2]) 0 (.nonTerminal 3 :: s) 1 events ∧
    llStep (cppDispatch ctxGrammar ctxTable) (cppVisible ctxGrammar) (streamOf [2, 2]) (.nonTerminal 3 :: s) 1 = .error ∧
    (ctxTable.getProduction 3 (.t 1)).isSome ∧ ∀ v, ¬ Derives ctxGrammar.rules [ctxGrammar.entry] (2 :: 1 :: v) := by
  refine ⟨[.terminal (.tok 3), .exit 2, .exit 4, .exit 0, .terminal .eof], [.enter 0, .enter 2, .token (.tok 2) ()], reaches_of_state 4 _ _ _ _ _ _ .start (by decide +kernel), rfl, by decide, fun v => ?_⟩
  have hr : llParse (cppDispatch ctxGrammar ctxTable) (cppVisible ctxGrammar) 0 (streamOf [2, 1]) 20 =
      .error [.enter 0, .enter 2, .token (.tok 2) (), .enter 3, .exit 3] 1 := by decide +kernel
  obtain ⟨w, h1, _, _, h2⟩ := C85_cpp_first_wrong ctxGrammar ctxGrammar_wf (by decide) ctxGrammar_fits ctxGrammar_gaps _ (Nat.le_refl _) ctxTable ctxTable_ok 0 rfl (streamOf [2, 1]) _ _ _ hr
  have hw : w = [(2, ())] := by
    match w, h1.1, h1.2 with
    | [p], _, h => have := h 0 p rfl; simp [streamOf] at this; rw [this]
  have := h2 1 rfl v
  rwa [hw] at this

-- the hypotheses of the theorems above hold for this grammar: errors at a token and at the end
example : ctxGrammar.WF ∧ NoEmptyRhs ctxGrammar ∧ TokensFit ctxGrammar ∧ NoGaps ctxGrammar ∧ Productive ctxGrammar ∧
    llGenerateTable ctxGrammar (setsFuel ctxGrammar) = .ok ctxTable :=
  ⟨ctxGrammar_wf, by decide, ctxGrammar_fits, ctxGrammar_gaps, ctxGrammar_productive, ctxTable_ok⟩
example : llParse (tableDispatch ctxTable) (fun _ => true) 0 (streamOf [2, 0, 1]) 30 =
    .error [.enter 0, .enter 4, .enter 2, .token (.tok 2) (), .enter 3, .enter 5, .token (.tok 0) (), .exit 5, .exit 3] 2 := by decide +kernel
example : ∃ events, llParse (tableDispatch ctxTable) (fun _ => true) 0 (streamOf [2, 0]) 30 = .error events 2 :=
  ⟨[.enter 0, .enter 4, .enter 2, .token (.tok 2) (), .enter 3, .enter 5, .token (.tok 0) (), .exit 5, .exit 3], by decide +kernel⟩

end Verif
