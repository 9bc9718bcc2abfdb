import Verif.Proofs.LRLinear
import Verif.Proofs.LLLinear
import Verif.Props.LR1
import Verif.Props.LL
import Verif.Props.CppLR
import Verif.Props.Lapex

/-! # C69 — parsers take a number of steps that is linear in the number of tokens -/

set_option autoImplicit false

namespace Verif

/-- Every generated LR parser (LR(0), LALR, LR(1)): there is a number `K` that depends on the parser only, so that on every stream of `n` tokens (with any data
attached to the tokens) the driver returns after at most `K * (n + 1)` iterations of its loop; with Ok if the tokens are a sentence. -/
theorem C69_lr (g : Grammar) (wf : g.WF) (hne : NoEmptyRhs g) (hel : EpsLeading g) (hl : EntryNotLeftRecursive g) (hprod : Productive g) (kind : LRKind)
    (p : LRProg) (hp : LRParserFor g kind p) :
    ∃ K, ∀ (T : Type) (w : List (Nat × T)) (input : Nat → Tok × T), StreamIs input w → ∀ fuel, K * (w.length + 1) ≤ fuel →
      (∀ events pos, lrParse p.machine input fuel ≠ .running events pos) ∧
      (Derives g.rules [g.entry] (w.map (·.1)) → ∃ events, lrParse p.machine input fuel = .ok events w.length) := by
  obtain ⟨K, hK⟩ := lr_linear wf hne hp hel hl hprod
  refine ⟨K, fun T w input hin fuel hf => ⟨hK T w input hin fuel hf, fun hd => ?_⟩⟩
  obtain ⟨t, -, -, events, -, bound, h⟩ := (C57_lr_answers g wf hne hel hl hprod kind p hp w input hin).1 hd
  exact ⟨events, (lrRun_mono fuel _ 0 [] (hK T w input hin fuel hf) (fuel + bound) (by omega)).symm.trans (h _ (by omega))⟩

theorem ok_events {T : Type} {m : LRMachine} {input : Nat → Tok × T} : ∀ (fuel : Nat) (stk : List StackSym) (pos : Nat) (ev events : List (LREvent T)) (pos' : Nat),
    lrRun m input fuel stk pos ev = .ok events pos' → events.length ≤ ev.length + fuel := by
  intro fuel
  induction fuel with
  | zero => intro _ _ _ _ _ h; cases h
  | succ fuel ih =>
    intro stk pos ev events pos' h
    rw [lrRun] at h
    cases hs : lrStep m input stk pos with
    | done => rw [hs] at h; cases h; omega
    | unexpected _ => rw [hs] at h; cases h
    | panic _ => rw [hs] at h; cases h
    | next s q ev1 =>
      rw [hs] at h
      have := ih _ _ _ _ _ h
      simp only [List.length_append, List.length_cons, List.length_nil] at this
      omega

/-- So the size of the parse trees (tokens and applications of rules, that is, the number of callbacks of an accepting run) is linear in the number of tokens. -/
theorem C69_tree_size (g : Grammar) (wf : g.WF) (hne : NoEmptyRhs g) (hel : EpsLeading g) (hl : EntryNotLeftRecursive g) (hprod : Productive g) (kind : LRKind)
    (p : LRProg) (hp : LRParserFor g kind p) :
    ∃ K, ∀ (T : Type) [Nonempty T] (t : PTree T), IsParseTree g.rules g.entry t → t.postorder.length ≤ K * (t.tokens.length + 1) := by
  obtain ⟨K, hK⟩ := C69_lr g wf hne hel hl hprod kind p hp
  refine ⟨K, fun T hT t ht => ?_⟩
  obtain ⟨d⟩ := hT
  let inp : Nat → Tok × T := fun i => match t.tokens[i]? with | some p => (.tok p.1, p.2) | none => (.eof, d)
  have hs : StreamIs inp t.tokens := ⟨fun i p h => by simp [inp, h], by simp [inp]⟩
  obtain ⟨n, events, h1, h2⟩ := lr_accepts g wf hne hel hl kind p hp t ht inp hs
  have hrun := (hK T _ inp hs _ (Nat.le_refl _)).1
  have := lrRun_mono _ _ 0 [] hrun (K * (t.tokens.length + 1) + n) (by omega)
  have h3 := ok_events _ _ _ _ _ _ (this.symm.trans (h1 _ (by omega)))
  have h4 := congrArg List.length h2
  simp only [List.length_map] at h4
  simp only [List.length_nil] at h3
  omega

/-- The C++ LR parser makes the same steps. -/
theorem C69_cpp_lr (rs : RuleSet) (g : Grammar) (hg : Grammar.fromRuleSet rs = .ok g) (hne : NoEmptyRhs g) (hel : EpsLeading g) (hl : EntryNotLeftRecursive g)
    (hprod : Productive g) (ht : rs.tokens.length ≤ 65536) (kind : LRKind) (tb : LRTable) (htb : LRTableFor g kind tb) (p : LRProg) (hp : genRust g tb = .ok p)
    (src : CppLRSource) (hsrc : genCpp (tokenNames rs) g tb = .ok src) (c : CppLRProg) (hc : src.compile = some c) (hs : StartShifts tb) :
    ∃ K, ∀ (T : Type) (w : List (Nat × T)) (input : Nat → Tok × T), StreamIs input w → TokensBelow rs.tokens.length input → ∀ fuel, K * (w.length + 1) ≤ fuel →
      ∀ events pos, cppLRParse c (codeInput input) fuel ≠ .running events pos := by
  have wf := C19_well_formed _ _ hg
  have hpf : LRParserFor g kind p := by
    obtain ⟨allow, n, h⟩ := htb
    exact ⟨allow, n, tb, h, hp⟩
  obtain ⟨K, hK⟩ := C69_lr g wf hne hel hl hprod kind p hpf
  refine ⟨K, fun T w input hin hb fuel hf events pos h => ?_⟩
  rw [C61_same rs g hg hne ht kind tb htb p hp src hsrc c hc hs input hb fuel] at h
  have := (hK T w input hin fuel hf).1
  cases hr : lrParse p.machine input fuel with
  | running e q => exact this e q hr
  | ok e q => rw [hr] at h; cases h
  | unexpected e q x => rw [hr] at h; cases h
  | panic e q => rw [hr] at h; cases h

/-- LL(1) parsers, driven by the table: `K` depends on the table only. -/
theorem C69_ll (g : Grammar) (wf : g.WF) (hne : NoEmptyRhs g) (ht : TokensFit g) (fuel : Nat) (hf : setsFuel g ≤ fuel) (table : LLTable)
    (h : llGenerateTable g fuel = .ok table) :
    ∃ K, ∀ (T : Type) (visible : Nat → Bool) (E : Nat) (input : Nat → Tok × T) (n : Nat), (input n).1 = .eof → ∀ steps, K * (n + 1) ≤ steps →
      llParse (tableDispatch table) visible E input steps ≠ .fuel :=
  ll_linear wf (table_exact (tableFor_of_ok wf hne ht hf h))

/-- The generated C++ LL(1) parser, for grammars without gaps in the numbers of the non-terminals. -/
theorem C69_cpp_ll (g : Grammar) (wf : g.WF) (hne : NoEmptyRhs g) (ht : TokensFit g) (hgap : NoGaps g) (fuel : Nat) (hf : setsFuel g ≤ fuel) (table : LLTable)
    (h : llGenerateTable g fuel = .ok table) (E : Nat) (hE : g.entry = .nt E) :
    ∃ K, ∀ (T : Type) (input : Nat → Tok × T) (n : Nat), (input n).1 = .eof → ∀ steps, K * (n + 1) ≤ steps →
      llParse (cppDispatch g table) (cppVisible g) E input steps ≠ .fuel := by
  obtain ⟨K, hK⟩ := C69_ll g wf hne ht fuel hf table h
  refine ⟨K, fun T input n hn steps hs => ?_⟩
  have hdecl : StackDeclared g [.nonTerminal E, .terminal .eof] := by
    intro A hA
    simp at hA
    subst hA
    obtain ⟨E', hE', hd⟩ := wf.entry_declared
    rw [hE] at hE'; simp at hE'; subst hE'
    exact hd
  rcases cpp_run wf hgap (tableFor_of_ok wf hne ht hf h) (cppVisible g) input steps _ 0 [] hdecl with ⟨ev, p, h3⟩ | h3
  · unfold llParse; rw [h3]; simp
  · unfold llParse; rw [h3]; exact hK T _ E input n hn steps hs

/-- The parser lapex uses for its own input files. -/
theorem C69_lapex (p : LRProg) (hp : LRParserFor lapexGrammar .lr1 p) :
    ∃ K, ∀ (T : Type) (w : List (Nat × T)) (input : Nat → Tok × T), StreamIs input w → ∀ fuel, K * (w.length + 1) ≤ fuel →
      ∀ events pos, lrParse p.machine input fuel ≠ .running events pos := by
  obtain ⟨K, hK⟩ := C69_lr _ lapexGrammar_wf lapexGrammar_noEmpty lapexGrammar_eps lapexGrammar_entry lapexGrammar_productive .lr1 p hp
  exact ⟨K, fun T w input hin fuel hf => (hK T w input hin fuel hf).1⟩

/-! ## Non-vacuity -/

/-- right recursion: all reductions happen at the end of the file, so the number of steps for one token is not bounded -/
def rightRules : RuleSet where
  entry := "s"
  tokens := ["a"]
  prods := [⟨"s", none, .sequence [.rule "a", .rule "l"]⟩, ⟨"l", none, .sequence [.rule "a", .rule "l"]⟩, ⟨"l", none, .rule "a"⟩]

def rightGrammar : Grammar where
  rules := [⟨0, [.t 0, .nt 1], 0⟩, ⟨1, [.t 0, .nt 1], 1⟩, ⟨1, [.t 0], 2⟩]
  anon := []
  productions := [(.nt 0, "s"), (.nt 1, "l")]
  tokens := [(.t 0, "a")]
  entry := .nt 0
  entryOrigin := 0

theorem rightGrammar_built : Grammar.fromRuleSet rightRules = .ok rightGrammar := GRes.of_same (by decide)

theorem rightGrammar_entry : EntryFresh rightGrammar := by unfold EntryFresh; decide

example : lrTry rightGrammar .lalr 60 [0, 0, 0, 0] 9 = some (.ok [.shift (.tok 0) (), .shift (.tok 0) (), .shift (.tok 0) (), .shift (.tok 0) (), .reduce 2, .reduce 1,
    .reduce 1, .reduce 0] 4) := by decide +kernel
example : lrTry rightGrammar .lalr 60 [0, 0, 0, 0] 8 = some (.running [.shift (.tok 0) (), .shift (.tok 0) (), .shift (.tok 0) (), .shift (.tok 0) (), .reduce 2, .reduce 1,
    .reduce 1, .reduce 0] 4) := by decide +kernel
example : ∃ p, LRParserFor rightGrammar .lalr p ∧ ∃ K, ∀ (w : List (Nat × Unit)) (input : Nat → Tok × Unit), StreamIs input w → ∀ fuel, K * (w.length + 1) ≤ fuel →
    ∀ events pos, lrParse p.machine input fuel ≠ .running events pos := by
  obtain ⟨p, hp, -⟩ := lrTry_some (g := rightGrammar) (kind := .lalr) (fuel := 60) (w := []) (steps := 0) (r := .running [] 0) (by decide +kernel)
  obtain ⟨K, hK⟩ := C69_lr rightGrammar (C19_well_formed _ _ rightGrammar_built) (by decide) (by decide) (entryFresh_leftCorner rightGrammar_entry)
    (productive_of_order [1, 0] (by decide) (by decide)) .lalr p hp
  exact ⟨p, hp, K, fun w input hin fuel hf => (hK Unit w input hin fuel hf).1⟩
-- the conditions of the other theorems
example : ∃ p, LRParserFor lapexGrammar .lr1 p := lapexParser
example : ∃ K, ∀ (n : Nat), ∀ steps, K * (n + 1) ≤ steps → llParse (tableDispatch gapTable) (fun _ => true) 0 (streamOf (List.replicate n 2)) steps ≠ .fuel := by
  obtain ⟨K, hK⟩ := C69_ll gapGrammar gapGrammar_wf (by decide) (by intro a ha; simp [gapGrammar, Grammar.terminals] at ha; omega) _ (Nat.le_refl _) gapTable gapTable_ok
  exact ⟨K, fun n => hK Unit _ 0 _ n (by simp [streamOf])⟩

end Verif
