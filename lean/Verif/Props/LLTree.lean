import Verif.Proofs.LLTree
import Verif.Proofs.LRLink
import Verif.Props.LL

/-!
# C22, C24: trees of LL(1) grammars, and what the generated C++ LL parser accepts

Every token string has at most one parse tree if there is an LL table, the parser reports the tree it is given the tokens of, and the generated C++ parser, which has no case for the end of file,
accepts exactly the sentences with a tree in which every node starts before the last token.
-/

set_option autoImplicit false

namespace Verif

variable {T : Type}

/-- C22. If there is a table, every token string has at most one parse tree. -/
theorem C22_unambiguous (g : Grammar) (wf : g.WF) (hne : NoEmptyRhs g) (ht : TokensFit g) (fuel : Nat) (hf : setsFuel g ≤ fuel)
    (table : LLTable) (h : llGenerateTable g fuel = .ok table) : Unambiguous g := by
  have hT := tableFor_of_ok wf hne ht hf h
  obtain ⟨E, hE, _⟩ := wf.entry_declared
  intro T t t' h1 h2 h3
  refine unambiguous_lift (fun t t' h1 h2 h3 => ?_) h1 h2 h3
  obtain ⟨input, hin⟩ := exists_stream t.tokens
  have hin' := hin
  rw [h3] at hin'
  rw [IsParseTree, hE] at h1 h2
  have := forest_unique hT h1 [t'] 0 .eof .eof h2 trivial trivial (entry_context hE) (entry_context hE) (by simpa [PTree.tokensList] using streamIs_dataAt hin)
    (by simpa [PTree.tokensList] using streamIs_dataAt hin')
  simpa using this

theorem entry_run {g : Grammar} {disp : Dispatch} (hd : PredictiveDispatch g disp) {E : Nat} (hE : g.entry = .nt E) (visible : Nat → Bool) {input : Nat → Tok × T} {t : PTree T}
    (h1 : IsParseTree g.rules g.entry t) (h2 : StreamIs input t.tokens) :
    ∃ n, Acc disp visible input n [.nonTerminal E, .terminal .eof] 0 (t.callbacks visible ++ [.token .eof (input t.tokens.length).2]) (t.tokens.length + 1) := by
  rw [IsParseTree, hE] at h1
  obtain ⟨n, h3⟩ := forest_acc hd visible h1 0 .eof trivial (entry_context hE) (by simpa [PTree.tokensList] using streamIs_dataAt h2)
  simp only [PTree.tokensList, PTree.callbacksList, List.append_nil, Nat.zero_add] at h3
  have h4 : Acc disp visible input 1 [.terminal .eof] t.tokens.length [.token .eof (input t.tokens.length).2] (t.tokens.length + 1) := .term h2.2 .nil
  exact ⟨_, h3.append h4⟩

/-- C24. Given the tokens of a parse tree the table-driven parser reports this tree. -/
theorem C24_reports_every_tree (g : Grammar) (wf : g.WF) (hne : NoEmptyRhs g) (ht : TokensFit g) (fuel : Nat) (hf : setsFuel g ≤ fuel)
    (table : LLTable) (h : llGenerateTable g fuel = .ok table) (E : Nat) (hE : g.entry = .nt E) (visible : Nat → Bool) (input : Nat → Tok × T)
    (t : PTree T) (h1 : IsParseTree g.rules g.entry t) (h2 : StreamIs input t.tokens) :
    ∃ n, ∀ steps, n ≤ steps → llParse (tableDispatch table) visible E input steps = .ok (t.callbacks visible ++ [.token .eof (input t.tokens.length).2]) (t.tokens.length + 1) := by
  obtain ⟨n, h3⟩ := entry_run (table_exact (tableFor_of_ok wf hne ht hf h)).1 hE visible h1 h2
  refine ⟨n + 1, fun steps hs => ?_⟩
  have := acc_llRun h3 steps (by omega) []
  rw [List.nil_append] at this
  exact this

theorem entry_stack {g : Grammar} (wf : g.WF) {E : Nat} (hE : g.entry = .nt E) : StackDeclared g [.nonTerminal E, .terminal .eof] := by
  intro A hA
  simp at hA
  subst hA
  obtain ⟨E', hE', hd⟩ := wf.entry_declared
  rw [hE] at hE'; simp at hE'; subst hE'
  exact hd

theorem not_late {t : PTree T} {input : Nat → Tok × T} (h2 : StreamIs input t.tokens) (d : T) :
    ¬ Late input 0 (t.callbacks (fun _ => true) ++ [.token .eof d]) ↔ t.EndsInToken := by
  rw [late_iff _ 0 t.tokens d (streamIs_dataAt h2) (tokens_callbacks t)]
  unfold PTree.EndsInToken
  constructor
  · intro h pre A post he
    by_contra hc
    push Not at hc
    exact h ⟨pre, A, post, he, hc⟩
  · rintro h ⟨pre, A, post, he, hc⟩
    obtain ⟨a, d, hm⟩ := h pre A post he
    exact hc a d hm

/-- C24. The generated C++ parser, when the enum ordinals of the non-terminals are their symbol numbers, accepts exactly the sentences that have a parse tree in which no node starts behind the last
token. -/
theorem C24_cpp_accepts_iff (g : Grammar) (wf : g.WF) (hne : NoEmptyRhs g) (ht : TokensFit g) (hgap : NoGaps g) (fuel : Nat) (hf : setsFuel g ≤ fuel)
    (table : LLTable) (h : llGenerateTable g fuel = .ok table) (E : Nat) (hE : g.entry = .nt E) (input : Nat → Tok × T) :
    (∃ steps events pos, llParse (cppDispatch g table) (cppVisible g) E input steps = .ok events pos) ↔
      ∃ t : PTree T, IsParseTree g.rules g.entry t ∧ StreamIs input t.tokens ∧ t.EndsInToken := by
  have hT := tableFor_of_ok wf hne ht hf h
  constructor
  · rintro ⟨steps, events, pos, hr⟩
    obtain ⟨t, h1, h2, _⟩ := C23_cpp_without_gaps g wf hne ht hgap fuel hf table h E hE input steps events pos hr
    refine ⟨t, h1, h2, ?_⟩
    obtain ⟨n, ev, _, h3⟩ := llRun_acc _ _ _ _ _ _ hr
    obtain ⟨m, h4⟩ := entry_run (table_exact hT).1 hE (fun _ => true) h1 h2
    exact (not_late h2 _).mp ((acc_cpp wf hgap hT h4 (entry_stack wf hE)).2 _ _ _ h3)
  · rintro ⟨t, h1, h2, h3⟩
    obtain ⟨m, h4⟩ := entry_run (table_exact hT).1 hE (fun _ => true) h1 h2
    obtain ⟨ev, h5⟩ := (acc_cpp (visible := cppVisible g) wf hgap hT h4 (entry_stack wf hE)).1 ((not_late h2 _).mpr h3)
    exact ⟨m + 1, _, _, acc_llRun h5 (m + 1) (by omega) []⟩

theorem acc_not_late {input : Nat → Tok × T} {disp : Dispatch} (hd : ∀ A, disp A .eof = none) {n pos pos' : Nat} {s : List LLSym} {ev : List (LLEvent T)}
    (ha : Acc disp (fun _ => true) input n s pos ev pos') : ¬ Late input pos ev := by
  induction ha with
  | nil => exact fun h => h
  | exit _ ih => exact ih
  | term _ _ ih => exact ih
  | nonterm h1 _ ih =>
    simp only [if_true, List.cons_append, List.nil_append, Late, not_or]
    exact ⟨fun he => (by rw [he, hd] at h1; simp at h1), ih⟩

/-- C24. So if no rule is predicted at the end of the input, the C++ parser accepts exactly the sentences. -/
theorem C24_cpp_accepts_every_sentence (g : Grammar) (wf : g.WF) (hne : NoEmptyRhs g) (ht : TokensFit g) (hgap : NoGaps g) (fuel : Nat) (hf : setsFuel g ≤ fuel)
    (table : LLTable) (h : llGenerateTable g fuel = .ok table) (E : Nat) (hE : g.entry = .nt E) (hend : ∀ r ∈ g.rules, ¬ Predicts g r .eof) (input : Nat → Tok × T)
    (t : PTree T) (h1 : IsParseTree g.rules g.entry t) (h2 : StreamIs input t.tokens) :
    ∃ n, ∀ steps, n ≤ steps → llParse (cppDispatch g table) (cppVisible g) E input steps = .ok (t.callbacks (cppVisible g) ++ [.token .eof (input t.tokens.length).2]) (t.tokens.length + 1) := by
  have hT := tableFor_of_ok wf hne ht hf h
  have hd : ∀ A, tableDispatch table A .eof = none := by
    intro A
    cases hc : tableDispatch table A .eof with
    | none => rfl
    | some syms =>
      obtain ⟨r, hr, _, _, x, hx, hp⟩ := (table_exact hT).2 _ _ _ hc
      cases hx
      exact absurd ((predicts_iff wf (x := .eof) trivial).mpr hp) (hend r hr)
  obtain ⟨m, h4⟩ := entry_run (table_exact hT).1 hE (fun _ => true) h1 h2
  obtain ⟨steps, events, pos, hr⟩ := (C24_cpp_accepts_iff g wf hne ht hgap fuel hf table h E hE input).mpr ⟨t, h1, h2, (not_late h2 _).mp (acc_not_late hd h4)⟩
  obtain ⟨t', k1, k2, _, k3, k4⟩ := C23_cpp_without_gaps g wf hne ht hgap fuel hf table h E hE input steps events pos hr
  obtain rfl : t = t' := C22_unambiguous g wf hne ht fuel hf table h T t t' h1 k1 (by
    have hlen : ∀ (u v : List (Nat × T)), StreamIs input u → StreamIs input v → v.length ≤ u.length := by
      intro u v hu hv
      by_contra hc
      have hlt : u.length < v.length := by omega
      have := hv.1 u.length v[u.length] (List.getElem?_eq_getElem hlt)
      rw [← Prod.eta (input u.length), hu.2] at this
      simp at this
    apply List.ext_getElem (Nat.le_antisymm (hlen _ _ k2 h2) (hlen _ _ h2 k2))
    intro i hi1 hi2
    have e1 := h2.1 i _ (List.getElem?_eq_getElem hi1)
    have e2 := k2.1 i _ (List.getElem?_eq_getElem hi2)
    rw [e1] at e2
    simp at e2
    exact Prod.ext e2.1 e2.2)
  refine ⟨steps, fun n hn => ?_⟩
  have := llRun_mono steps n _ _ _ hn (by rw [show llRun (cppDispatch g table) (cppVisible g) input steps [.nonTerminal E, .terminal .eof] 0 [] = .ok events pos from hr]; simp)
  rw [← k3, ← k4, ← hr]
  exact this

/-! ## C25 — also for streams with an error -/

/-- C25. For every token stream that has something other than a token in it, be it the end of file or an error of the lexer, the table-driven parser stops. -/
theorem C25_stops (g : Grammar) (wf : g.WF) (hne : NoEmptyRhs g) (ht : TokensFit g) (fuel : Nat) (hf : setsFuel g ≤ fuel)
    (table : LLTable) (h : llGenerateTable g fuel = .ok table) (E : Nat) (visible : Nat → Bool) (input : Nat → Tok × T)
    (N : Nat) (hN : ∀ a, (input N).1 ≠ .tok a) :
    ∃ n result, result ≠ .fuel ∧ ∀ steps, n ≤ steps → llParse (tableDispatch table) visible E input steps = result := by
  cases hc : (input N).1 with
  | eof => exact C25_terminates g wf hne ht fuel hf table h E visible input N hc
  | tok a => exact absurd hc (hN a)
  | err =>
    have hT := tableFor_of_ok wf hne ht hf h
    let input' : Nat → Tok × T := fun i => if i < N then input i else (.eof, (input i).2)
    obtain ⟨n, result, h1, h2⟩ := C25_terminates g wf hne ht fuel hf table h E visible input' N (by simp [input'])
    obtain ⟨n', hn'⟩ := err_ends (visible := visible) (table_exact hT).sound (fun A => by simp [tableDispatch, Tok.sym]) (input' := input') hc (fun i hi => by simp [input', hi]) n
      [.nonTerminal E, .terminal .eof] 0 [] (by omega) (by simp) (by
        have := h2 n (Nat.le_refl _)
        intro hcon
        exact h1 (this.symm.trans hcon))
    exact ⟨n', _, hn', fun steps hs => llRun_mono n' steps _ _ _ hs hn'⟩

/-- C25. And the generated C++ parser, when the enum ordinals of the non-terminals are their symbol numbers. -/
theorem C25_cpp_stops (g : Grammar) (wf : g.WF) (hne : NoEmptyRhs g) (ht : TokensFit g) (hgap : NoGaps g) (fuel : Nat) (hf : setsFuel g ≤ fuel)
    (table : LLTable) (h : llGenerateTable g fuel = .ok table) (E : Nat) (hE : g.entry = .nt E) (input : Nat → Tok × T)
    (N : Nat) (hN : ∀ a, (input N).1 ≠ .tok a) :
    ∃ n result, result ≠ .fuel ∧ ∀ steps, n ≤ steps → llParse (cppDispatch g table) (cppVisible g) E input steps = result := by
  obtain ⟨n, result, h1, h2⟩ := C25_stops g wf hne ht fuel hf table h E (cppVisible g) input N hN
  have hT := tableFor_of_ok wf hne ht hf h
  have hn : llRun (cppDispatch g table) (cppVisible g) input n [.nonTerminal E, .terminal .eof] 0 [] ≠ .fuel := by
    rcases cpp_run wf hgap hT (cppVisible g) input n _ 0 [] (entry_stack wf hE) with ⟨ev, p, h3⟩ | h3
    · rw [h3]; simp
    · rw [h3]
      have := h2 n (Nat.le_refl _)
      intro hc
      exact h1 (this.symm.trans hc)
  exact ⟨n, _, hn, fun steps hs => llRun_mono n steps _ _ _ hs hn⟩

end Verif
