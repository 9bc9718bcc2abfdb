import Verif.Proofs.CppLR
import Verif.Props.LR1
import Verif.Props.Names

/-!
# C61: the generated C++ LR parser behaves like the generated Rust parser

`genCpp` writes the C++ source, `compile` is what a compiler makes of it, `cppLRParse` runs it. For a table lapex builds and from which the Rust generator makes a
parser, the C++ parser makes the same calls, returns where the Rust parser returns `Ok` and throws an exception with the documented message where the Rust parser
returns an error. There is one condition: the start state must have a shift entry. It has one whenever the language has a sentence that is not empty (and
the entry symbol is not left-recursive). Without one the C++ parser never returns.
-/

set_option autoImplicit false

namespace Verif

variable {T : Type}

/-- the C++ generator does not panic where the Rust generator does not -/
theorem C61_generates (g : Grammar) (wf : g.WF) (hne : NoEmptyRhs g) (kind : LRKind) (tb : LRTable) (htb : LRTableFor g kind tb) (p : LRProg) (hp : genRust g tb = .ok p)
    (names : List (List Char)) : ∃ src, genCpp names g tb = .ok src := by
  obtain ⟨allow, fuel, h⟩ := htb
  rcases h with h | ⟨cs, h⟩
  · obtain ⟨gr, h1, _, rfl⟩ := generateTable_inv wf hne h
    exact ⟨_, genCpp_eq wf (cppTableOk wf h1 hp) names⟩
  · obtain ⟨gr, h1, _, _, rfl, _⟩ := generateTable_inv wf hne h
    exact ⟨_, genCpp_eq wf (cppTableOk wf h1 hp) names⟩

theorem table_graph {g : Grammar} (wf : g.WF) (hne : NoEmptyRhs g) {kind : LRKind} {tb : LRTable} (htb : LRTableFor g kind tb) :
    ∃ gr, LoopInv g kind gr [] ∧ tb = buildTable g gr := by
  obtain ⟨allow, fuel, h⟩ := htb
  rcases h with h | ⟨cs, h⟩
  · obtain ⟨gr, h1, _, rfl⟩ := generateTable_inv wf hne h
    exact ⟨gr, h1, rfl⟩
  · obtain ⟨gr, h1, _, _, rfl, _⟩ := generateTable_inv wf hne h
    exact ⟨gr, h1, rfl⟩

theorem cppActionCases_single (g : Grammar) (tb : LRTable) (q : Nat) : ∀ (ss : List Sym) {r : List (List Char × LRAction) × List (List Char)}, cppActionCases g tb q ss = .ok r →
    ∀ s ∈ ss, ∀ es, tb.get q s = some es → es.length = 1 := by
  intro ss
  induction ss with
  | nil => intro r _ s hs; cases hs
  | cons s ss ih =>
    intro r h s' hs es he
    rw [cppActionCases] at h
    obtain ⟨e, h1, h2⟩ := res_bind_ok.mp h
    have hrest : ∃ r', cppActionCases g tb q ss = .ok r' := by
      split at h2
      · obtain ⟨_, _, h3⟩ := res_bind_ok.mp h2
        obtain ⟨_, _, h4⟩ := res_bind_ok.mp h3
        obtain ⟨r', h5, _⟩ := res_bind_ok.mp h4
        exact ⟨r', h5⟩
      · obtain ⟨_, _, h3⟩ := res_bind_ok.mp h2
        obtain ⟨_, _, h4⟩ := res_bind_ok.mp h3
        obtain ⟨r', h5, _⟩ := res_bind_ok.mp h4
        exact ⟨r', h5⟩
      · cases h2
      · exact ⟨r, h2⟩
    rcases List.mem_cons.mp hs with rfl | hs
    · unfold cppCell at h1
      rw [he] at h1
      split at h1
      · rename_i heq; cases heq
      · rename_i heq; cases heq; rfl
      · cases h1
    · obtain ⟨r', h5⟩ := hrest
      exact ih h5 s' hs es he

/-- The C++ generator never picks one of several actions: from a table with more than one entry in a cell for a token or the end it generates nothing (it panics). -/
theorem C61_no_silent_choice (names : List (List Char)) (g : Grammar) (tb : LRTable) (src : CppLRSource) (h : genCpp names g tb = .ok src) (q : Nat) (hq : q < tb.stateCount)
    (s : Sym) (hs : s ∈ g.terminals ∨ s = .eof) (es : List TableEntry) (he : tb.get q s = some es) : es.length = 1 := by
  unfold genCpp at h
  obtain ⟨nts, _, h⟩ := res_bind_ok.mp h
  obtain ⟨actions, h1, _⟩ := res_bind_ok.mp h
  obtain ⟨_, h2⟩ := mapM_ok _ _ h1
  obtain ⟨y, _, h3⟩ := h2 q q (by simp [hq])
  obtain ⟨r, h4, _⟩ := res_bind_ok.mp h3
  exact cppActionCases_single g tb q _ h4 s (by simpa using hs) es he

/-- the source compiles if the tokens are not called ERR or EOF, the names of productions differ also in capitals and do not look like those of
anonymous non-terminals, and the numbers in the source fit their types -/
theorem C61_compiles (rs : RuleSet) (g : Grammar) (hg : Grammar.fromRuleSet rs = .ok g) (hne : NoEmptyRhs g) (ht : rs.tokens.length ≤ 65536)
    (hpr : rs.prods.length ≤ 65536) (kind : LRKind)
    (tb : LRTable) (htb : LRTableFor g kind tb) (p : LRProg) (hp : genRust g tb = .ok p) (src : CppLRSource) (hsrc : genCpp (tokenNames rs) g tb = .ok src)
    (h1 : "ERR" ∉ rs.tokens ∧ "EOF" ∉ rs.tokens)
    (h2 : ∀ x ∈ rs.prods, ∀ y ∈ rs.prods, x.name.toList.map asciiUpper = y.name.toList.map asciiUpper → x.name = y.name)
    (h2' : ∀ x ∈ rs.prods, ∀ n, x.name.toList.map asciiUpper ≠ "ANON".toList ++ decimal n)
    (h3 : g.rules.length ≤ 65536) (h4 : tb.stateCount ≤ 4294967296) : ∃ c, src.compile = some c := by
  have wf := C19_well_formed _ _ hg
  obtain ⟨gr, hv, rfl⟩ := table_graph wf hne htb
  have hok := cppTableOk wf hv hp
  rw [genCpp_eq wf hok] at hsrc
  cases hsrc
  have hinj : Function.Injective String.toList := fun a b h => string_toList_inj h
  refine ⟨_, compile_eq wf hok (tokensOk hg ht) ((C42_cpp_tokens _).mpr ⟨?_, ?_, ?_⟩) ?_ h3 h4⟩
  · obtain ⟨base, pats, ok⟩ := grammarOk hg
    exact ok.noClash.1.map hinj
  · intro h
    obtain ⟨x, hx, e⟩ := List.mem_map.mp h
    exact h1.1 (hinj e ▸ hx)
  · intro h
    obtain ⟨x, hx, e⟩ := List.mem_map.mp h
    exact h1.2 (hinj e ▸ hx)
  · refine wf.nodup.map_on (fun s hs s' hs' e => ?_)
    obtain ⟨A, rfl⟩ := wf.nts s hs
    obtain ⟨B, rfl⟩ := wf.nts s' hs'
    simp only [symLabel, ntLabel] at e
    cases hA : g.productionName (.nt A) with
    | some n =>
      obtain ⟨k1, x, hx, k2⟩ := named hg hpr hA
      cases hB : g.productionName (.nt B) with
      | some m =>
        obtain ⟨k3, y, hy, k4⟩ := named hg hpr hB
        rw [hA, hB] at e
        have e := List.append_cancel_left e
        subst k2
        subst k4
        rw [h2 x hx y hy e, k3] at k1
        exact (Option.some.inj k1).symm
      | none =>
        rw [hA, hB] at e
        subst k2
        exact absurd (List.append_cancel_left (as := "NT_".toList) (bs := x.name.toList.map asciiUpper) (cs := "ANON".toList ++ decimal B) e) (h2' x hx B)
    | none =>
      cases hB : g.productionName (.nt B) with
      | some m =>
        obtain ⟨k3, y, hy, k4⟩ := named hg hpr hB
        rw [hA, hB] at e
        subst k4
        exact absurd (List.append_cancel_left (as := "NT_".toList) (bs := y.name.toList.map asciiUpper) (cs := "ANON".toList ++ decimal A) e.symm) (h2' y hy A)
      | none =>
        rw [hA, hB] at e
        rw [decimal_inj (List.append_cancel_left e)]

theorem cppActionCases_reduce (g : Grammar) (tb : LRTable) (q i : Nat) (s : Sym) (he : tb.get q s = some [.reduce (some i)]) :
    ∀ (ss : List Sym) (r : List (List Char × LRAction) × List (List Char)), cppActionCases g tb q ss = .ok r → s ∈ ss → ∃ l, (l, LRAction.reduce i) ∈ r.1 := by
  intro ss
  induction ss with
  | nil => intro r _ hs; cases hs
  | cons s' ss ih =>
    intro r h hs
    unfold cppActionCases at h
    obtain ⟨e, h1, h⟩ := res_bind_ok.mp h
    have hmem : ∀ r' : List (List Char × LRAction) × List (List Char), cppActionCases g tb q ss = .ok r' → s = s' ∨ s ∈ ss →
        (s ≠ s' → ∃ l, (l, LRAction.reduce i) ∈ r'.1) := fun r' h hs hn => ih r' h (hs.resolve_left hn)
    have hs' : s = s' ∨ s ∈ ss := by simpa using hs
    by_cases hss : s = s'
    · subst hss
      rw [cppCell, he] at h1
      cases h1
      simp only at h
      obtain ⟨l, _, h⟩ := res_bind_ok.mp h
      obtain ⟨n, _, h⟩ := res_bind_ok.mp h
      obtain ⟨r', _, h⟩ := res_bind_ok.mp h
      cases h
      exact ⟨l, by simp⟩
    · split at h
      · obtain ⟨l, _, h⟩ := res_bind_ok.mp h
        obtain ⟨n, _, h⟩ := res_bind_ok.mp h
        obtain ⟨r', h2, h⟩ := res_bind_ok.mp h
        cases h
        obtain ⟨l', h3⟩ := hmem r' h2 hs' hss
        exact ⟨l', by simp [h3]⟩
      · obtain ⟨l, _, h⟩ := res_bind_ok.mp h
        obtain ⟨n, _, h⟩ := res_bind_ok.mp h
        obtain ⟨r', h2, h⟩ := res_bind_ok.mp h
        cases h
        obtain ⟨l', h3⟩ := hmem r' h2 hs' hss
        exact ⟨l', by simp [h3]⟩
      · cases h
      · exact hmem r h hs' hss

theorem cppGotoCases_state (g : Grammar) (tb : LRTable) (q q' : Nat) (s : Sym) (he : tb.get q s = some [.shift q']) :
    ∀ (ss : List Sym) (r : List (List Char × LRGoto)), cppGotoCases g tb q ss = .ok r → s ∈ ss → ∃ l, (l, LRGoto.state q') ∈ r := by
  intro ss
  induction ss with
  | nil => intro r _ hs; cases hs
  | cons s' ss ih =>
    intro r h hs
    unfold cppGotoCases at h
    obtain ⟨e, h1, h⟩ := res_bind_ok.mp h
    have hs' : s = s' ∨ s ∈ ss := by simpa using hs
    by_cases hss : s = s'
    · subst hss
      rw [cppCell, he] at h1
      cases h1
      simp only at h
      obtain ⟨l, _, h⟩ := res_bind_ok.mp h
      obtain ⟨r', _, h⟩ := res_bind_ok.mp h
      cases h
      exact ⟨l, by simp⟩
    · have hs2 := hs'.resolve_left hss
      split at h
      · obtain ⟨l, _, h⟩ := res_bind_ok.mp h
        obtain ⟨r', h2, h⟩ := res_bind_ok.mp h
        cases h
        obtain ⟨l', h3⟩ := ih r' h2 hs2
        exact ⟨l', by simp [h3]⟩
      · obtain ⟨l, _, h⟩ := res_bind_ok.mp h
        obtain ⟨r', h2, h⟩ := res_bind_ok.mp h
        cases h
        obtain ⟨l', h3⟩ := ih r' h2 hs2
        exact ⟨l', by simp [h3]⟩
      · exact ih r h hs2

theorem option_mapM_mem {α β : Type} {f : α → Option β} {l : List α} {ys : List β} (h : l.mapM f = some ys) {x : α} (hx : x ∈ l) : ∃ y, f x = some y := by
  induction l generalizing ys with
  | nil => cases hx
  | cons a l ih =>
    rw [List.mapM_cons] at h
    simp only [Option.bind_eq_bind, Option.bind_eq_some_iff] at h
    obtain ⟨y, h1, zs, h2, _⟩ := h
    rcases List.mem_cons.mp hx with rfl | hx
    · exact ⟨y, h1⟩
    · exact ih h2 hx

/-- a source that compiles needs no rule number over 65535 and no state number over 4294967295: nothing is cut off -/
theorem C61_fits (names : List (List Char)) (g : Grammar) (tb : LRTable) (src : CppLRSource) (hsrc : genCpp names g tb = .ok src) (c : CppLRProg) (hc : src.compile = some c)
    (q : Nat) (hq : q < tb.stateCount) :
    (∀ s, s ∈ g.terminals ∨ s = .eof → ∀ i, tb.get q s = some [.reduce (some i)] → i < 65536) ∧
    (∀ s, s ∈ g.terminals ∨ s ∈ g.nonTerminals ∨ s = .eof → ∀ q', tb.get q s = some [.shift q'] → q' < 4294967296) := by
  unfold genCpp at hsrc
  obtain ⟨nts, _, h⟩ := res_bind_ok.mp hsrc
  obtain ⟨actions, h1, h⟩ := res_bind_ok.mp h
  obtain ⟨gotos, h2, h⟩ := res_bind_ok.mp h
  obtain ⟨reds, _, h⟩ := res_bind_ok.mp h
  cases h
  unfold CppLRSource.compile at hc
  split at hc
  · simp only [Option.bind_eq_bind, Option.bind_eq_some_iff] at hc
    obtain ⟨as, ha, gs, hg, _⟩ := hc
    constructor
    · intro s hs i he
      obtain ⟨_, h3⟩ := mapM_ok _ _ h1
      obtain ⟨y, hy, h4⟩ := h3 q q (by simp [hq])
      obtain ⟨r, h5, h6⟩ := res_bind_ok.mp h4
      cases h6
      obtain ⟨l, hl⟩ := cppActionCases_reduce g tb q i s he _ _ h5 (by simpa using hs)
      have hmem : (r.1, joinNames r.2) ∈ actions := List.mem_of_getElem? hy
      obtain ⟨x, hx⟩ := option_mapM_mem ha hmem
      split at hx
      · rename_i hall
        simpa [actionFits] using (List.all_eq_true.mp hall) _ hl
      · cases hx
    · intro s hs q' he
      obtain ⟨_, h3⟩ := mapM_ok _ _ h2
      obtain ⟨y, hy, h4⟩ := h3 q q (by simp [hq])
      have hsh : stateHasShift g tb q = true := by
        simp only [stateHasShift, List.any_eq_true]
        refine ⟨s, by simp only [List.mem_append, List.mem_singleton]; tauto, ?_⟩
        rw [he]
        rfl
      unfold cppGotoState at h4
      rw [if_pos hsh] at h4
      obtain ⟨ts, h5, h4⟩ := res_bind_ok.mp h4
      obtain ⟨ns, h6, h4⟩ := res_bind_ok.mp h4
      cases h4
      have hmem : (q, ts, ns) ∈ gotos.flatten := List.mem_flatten.mpr ⟨_, List.mem_of_getElem? hy, by simp⟩
      obtain ⟨x, hx⟩ := option_mapM_mem hg hmem
      split at hx
      · rename_i hall
        rw [Bool.and_eq_true] at hall
        by_cases hn : s ∈ g.nonTerminals
        · obtain ⟨l, hl⟩ := cppGotoCases_state g tb q q' s he _ _ h6 hn
          simpa [gotoFits] using (List.all_eq_true.mp hall.2) _ hl
        · obtain ⟨l, hl⟩ := cppGotoCases_state g tb q q' s he _ _ h5 (by simp only [List.mem_append, List.mem_singleton]; tauto)
          simpa [gotoFits] using (List.all_eq_true.mp hall.1) _ hl
      · cases hx
  · cases hc

/-- same calls, same end, and the message that tells what was found and what was expected -/
theorem C61_same (rs : RuleSet) (g : Grammar) (hg : Grammar.fromRuleSet rs = .ok g) (hne : NoEmptyRhs g) (ht : rs.tokens.length ≤ 65536) (kind : LRKind)
    (tb : LRTable) (htb : LRTableFor g kind tb) (p : LRProg) (hp : genRust g tb = .ok p) (src : CppLRSource) (hsrc : genCpp (tokenNames rs) g tb = .ok src)
    (c : CppLRProg) (hc : src.compile = some c) (hs : StartShifts tb) (input : Nat → Tok × T) (hin : TokensBelow rs.tokens.length input) (fuel : Nat) :
    cppLRParse c (codeInput input) fuel = codeResult (tokenNames rs) input (lrParse p.machine input fuel) := by
  have wf := C19_well_formed _ _ hg
  have hpf : LRParserFor g kind p := by
    obtain ⟨allow, n, h⟩ := htb
    exact ⟨allow, n, tb, h, hp⟩
  have hnp := C34_no_panic g wf hne kind p hpf input fuel
  obtain ⟨gr, hv, rfl⟩ := table_graph wf hne htb
  have hok := cppTableOk wf hv hp
  have hk := tokensOk hg ht
  rw [genCpp_eq wf hok] at hsrc
  cases hsrc
  rw [compile_some wf hk hc]
  have hsp := genRust_spec hp
  have hin' : TokensBelow (tokenNames rs).length input := by simpa [tokenNames] using hin
  have := run_sim wf hok hk ((startShifts_iff wf hv).mp hs) hsp hin' fuel [.state p.machine.entry] 0 [] (fun q hq => ?_) hnp
  · have he : p.machine.entry = (buildTable g gr).entryState := hsp.entry
    unfold lrParse cppLRParse
    rw [← this, he]
    rfl
  · simp only [List.mem_singleton, StackSym.state.injEq] at hq
    subst hq
    obtain ⟨hi, _⟩ := buildTable_cell (gr := gr) wf
    have he : p.machine.entry = (buildTable g gr).entryState := hsp.entry
    obtain ⟨S, hS, _⟩ := hv.base.start
    rw [he, hi.entry, hi.count]
    exact getElem?_lt hS

/-- the condition on the start state holds if some sentence is not empty -/
theorem C61_start (g : Grammar) (wf : g.WF) (hne : NoEmptyRhs g) (kind : LRKind) (tb : LRTable) (htb : LRTableFor g kind tb) (hl : EntryNotLeftRecursive g)
    (w : List Nat) (hw : w ≠ []) (hd : Derives g.rules [g.entry] w) : StartShifts tb := by
  obtain ⟨gr, hv, rfl⟩ := table_graph wf hne htb
  exact start_shifts wf hv hl hw hd

/-- so the C++ LR(1) parser returns exactly on the sentences -/
theorem C61_decides (rs : RuleSet) (g : Grammar) (hg : Grammar.fromRuleSet rs = .ok g) (hne : NoEmptyRhs g) (hel : EpsLeading g) (hl : EntryNotLeftRecursive g)
    (ht : rs.tokens.length ≤ 65536) (tb : LRTable) (htb : LRTableFor g .lr1 tb) (p : LRProg) (hp : genRust g tb = .ok p) (src : CppLRSource)
    (hsrc : genCpp (tokenNames rs) g tb = .ok src) (c : CppLRProg) (hc : src.compile = some c) (w0 : List Nat) (hw0 : w0 ≠ []) (hd : Derives g.rules [g.entry] w0)
    (w : List (Nat × T)) (input : Nat → Tok × T) (hin : TokensBelow rs.tokens.length input) (hst : StreamIs input w) :
    (∃ fuel events pos, cppLRParse c (codeInput input) fuel = .returned events pos) ↔ Derives g.rules [g.entry] (w.map (·.1)) := by
  have wf := C19_well_formed _ _ hg
  have hpf : LRParserFor g .lr1 p := by
    obtain ⟨allow, n, h⟩ := htb
    exact ⟨allow, n, tb, h, hp⟩
  rw [← C30_lr1_decides g wf hne hel hl p hpf w input hst]
  have hss := C61_start g wf hne .lr1 tb htb hl w0 hw0 hd
  have key := fun fuel => C61_same rs g hg hne ht .lr1 tb htb p hp src hsrc c hc hss input hin fuel
  constructor
  · rintro ⟨fuel, events, pos, h⟩
    rw [key] at h
    cases hr : lrParse p.machine input fuel with
    | ok es ps => exact ⟨fuel, es, ps, hr⟩
    | unexpected es ps e => rw [hr] at h; cases h
    | panic es ps => rw [hr] at h; cases h
    | running es ps => rw [hr] at h; cases h
  · rintro ⟨fuel, events, pos, h⟩
    exact ⟨fuel, _, _, by rw [key, h]; rfl⟩

/-- without a shift entry in the start state the C++ parser returns on no input at all -/
theorem C61_never_returns (rs : RuleSet) (g : Grammar) (hg : Grammar.fromRuleSet rs = .ok g) (hne : NoEmptyRhs g) (ht : rs.tokens.length ≤ 65536) (kind : LRKind)
    (tb : LRTable) (htb : LRTableFor g kind tb) (p : LRProg) (hp : genRust g tb = .ok p) (src : CppLRSource) (hsrc : genCpp (tokenNames rs) g tb = .ok src)
    (c : CppLRProg) (hc : src.compile = some c) (hs : ¬ StartShifts tb) (input : Nat → Nat × T) (fuel : Nat) (events : List (CppEvent T)) (pos : Nat) :
    cppLRParse c input fuel ≠ .returned events pos := by
  have wf := C19_well_formed _ _ hg
  obtain ⟨gr, hv, rfl⟩ := table_graph wf hne htb
  have hok := cppTableOk wf hv hp
  rw [genCpp_eq wf hok] at hsrc
  cases hsrc
  rw [compile_some wf (tokensOk hg ht) hc]
  refine cppLRRun_no_return (fun q s => nextState_ne_accept hok ?_ q s) fuel _ _ _ _ _ (by simp)
  rw [startShifts_iff wf hv] at hs
  simpa using hs

/-! ## Cases -/

/-- generate, compile and run the C++ parser -/
def cppTry (rs : RuleSet) (kind : LRKind) (fuel : Nat) (w : List Nat) (steps : Nat) : Option (CppLRResult Unit) :=
  match Grammar.fromRuleSet rs with
  | .ok g =>
    match generateTable g false kind fuel with
    | .ok (.noConflicts tb) =>
      match genCpp (tokenNames rs) g tb with
      | .ok src => src.compile.map fun c => cppLRParse c (codeInput (streamOf w)) steps
      | .error _ => none
    | _ => none
  | .error _ => none

-- `s = ( s )`, `s = x`: a sentence, and two errors
example : cppTry parenRules .lr1 60 [0, 2, 1] 20 =
    some (.returned [.shift 2 (), .shift 4 (), .reduce 1, .shift 3 (), .reduce 0] 3) := by decide +kernel
example : cppTry parenRules .lr1 60 [0, 2] 20 =
    some (.thrown [.shift 2 (), .shift 4 ()] 2 "Unexpected token '<EOF>', expected one of: ')'".toList) := by decide +kernel
example : cppTry parenRules .lr1 60 [1] 20 = some (.thrown [] 0 "Unexpected token ')', expected one of: '(', 'x'".toList) := by decide +kernel
-- the hypotheses of C61_same and C61_decides
example : Grammar.fromRuleSet parenRules = .ok parenGrammar ∧ NoEmptyRhs parenGrammar ∧ EpsLeading parenGrammar ∧ EntryNotLeftRecursive parenGrammar ∧
    Derives parenGrammar.rules [parenGrammar.entry] [2] :=
  ⟨parenGrammar_built, by decide, by decide, parenGrammar_entry, .nonterm (r := ⟨0, [.t 2], 1⟩) (by decide) (.term .nil) .nil⟩

/-- what becomes of the parser of `s = ε` -/
def emptyCpp : Bool :=
  match generateTable emptyGrammar false .lr1 20 with
  | .ok (.noConflicts tb) =>
    match genRust emptyGrammar tb, genCpp (tokenNames emptyRules) emptyGrammar tb with
    | .ok p, .ok src =>
      decide (lrParse p.machine (streamOf []) 10 = .ok [.reduce 0] 0) &&
        (match src.compile with | some c => decide (cppLRParse c (codeInput (streamOf [])) 10 = .aborted [.reduce 0] 0) | none => false)
    | _, _ => false
  | _ => false

/-- The condition on the start state is needed: for `s = ε` the Rust parser accepts the empty input, the C++ parser calls `std::terminate`. -/
theorem C61_empty_counterexample : Grammar.fromRuleSet emptyRules = .ok emptyGrammar ∧ ∃ tb p src c, LRTableFor emptyGrammar .lr1 tb ∧ genRust emptyGrammar tb = .ok p ∧
    genCpp (tokenNames emptyRules) emptyGrammar tb = .ok src ∧ src.compile = some c ∧
    lrParse p.machine (streamOf []) 10 = .ok [.reduce 0] 0 ∧ cppLRParse c (codeInput (streamOf [])) 10 = .aborted [.reduce 0] 0 := by
  refine ⟨emptyGrammar_built, ?_⟩
  have h : emptyCpp = true := by decide +kernel
  unfold emptyCpp at h
  split at h
  · rename_i tb ht
    split at h
    · rename_i p src hp hsrc
      rw [Bool.and_eq_true, decide_eq_true_eq] at h
      obtain ⟨h1, h2⟩ := h
      split at h2
      · rename_i c hc
        exact ⟨tb, p, src, c, ⟨false, 20, .inl ht⟩, hp, hsrc, hc, h1, of_decide_eq_true h2⟩
      · cases h2
    · cases h
  · cases h

-- a production called `S` beside `s` makes the source invalid
example : cppTry { entry := "s", tokens := ["a"], prods := [⟨"s", none, .rule "S"⟩, ⟨"S", none, .rule "a"⟩] } .lr1 40 [0] 10 = none := by decide +kernel

example : (cppTry { entry := "s", tokens := ["a"], prods := [⟨"s", none, .rule "t"⟩, ⟨"t", none, .rule "a"⟩] } .lr1 40 [0] 10).isSome := by decide +kernel

end Verif
