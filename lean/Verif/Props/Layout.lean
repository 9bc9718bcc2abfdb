import Verif.Proofs.LaidGenerate
import Verif.Props.Grammar
import Verif.Props.LR
import Verif.Props.GLR

/-!
# C70 — the output does not depend on hash seeds and addresses

A `Layout` says what a run leaves open: the order in which hash sets are iterated, where the entry rule lies in memory, and the order in which states are visited. `laidTable` and
`laidGenerate` are table generation and `generate` in a run with this layout.
-/

set_option autoImplicit false

namespace Verif

/-- Two runs for the same grammar give the same table, cell by cell and in the same order within the cells, the same conflicts in the same order, or fail in the same way. -/
theorem C70_table (g : Grammar) (wf : g.WF) (lay lay' : Layout) (h : lay.Possible) (h' : lay'.Possible) (allow : Bool) (kind : LRKind) (fuel : Nat) :
    laidTable lay g allow kind fuel = laidTable lay' g allow kind fuel := laidTable_same wf h h' allow kind fuel

/-- The result of every run is the one of `generateTable`, about which the other properties are stated. -/
theorem C70_model (g : Grammar) (wf : g.WF) (lay : Layout) (h : lay.Possible) (allow : Bool) (kind : LRKind) (fuel : Nat) :
    (∀ e, laidTable lay g allow kind fuel = .error e ↔ generateTable g allow kind fuel = .error e) ∧
    (∀ tb, laidTable lay g allow kind fuel = .ok (.noConflicts tb) ↔ generateTable g allow kind fuel = .ok (.noConflicts tb)) ∧
    (∀ tb cs, laidTable lay g allow kind fuel = .ok (.allowedConflicts tb cs) → ∃ cs', generateTable g allow kind fuel = .ok (.allowedConflicts tb cs') ∧ ∀ c, c ∈ cs ↔ c ∈ cs') ∧
    (∀ cs, laidTable lay g allow kind fuel = .ok (.badConflicts cs) → ∃ cs', generateTable g allow kind fuel = .ok (.badConflicts cs') ∧ ∀ c, c ∈ cs ↔ c ∈ cs') := by
  have hr := laidTable_rel wf h.iter h.visit allow kind fuel
  cases ha : generateTable g allow kind fuel with
  | error e =>
    cases hb : laidTable lay g allow kind fuel with
    | ok b => rw [ha, hb] at hr; exact hr.elim
    | error e1 =>
      rw [ha, hb] at hr
      cases (show e = e1 from hr)
      exact ⟨fun _ => Iff.rfl, (fun _ => ⟨(nomatch ·), (nomatch ·)⟩), (fun _ _ => (nomatch ·)), (fun _ => (nomatch ·))⟩
  | ok a =>
    cases hb : laidTable lay g allow kind fuel with
    | error e1 => rw [ha, hb] at hr; exact hr.elim
    | ok b =>
      rw [ha, hb] at hr
      obtain ⟨h1, h2⟩ := hr
      refine ⟨fun _ => ⟨(nomatch ·), (nomatch ·)⟩, ?_, ?_, ?_⟩
      · intro tb
        cases a <;> cases b <;> (try exact h1.elim) <;> simp_all [SameResult]
      · intro tb cs e
        cases e
        cases a <;> try exact h1.elim
        exact ⟨_, by rw [h1.1], h1.2⟩
      · intro cs e
        cases e
        cases a <;> try exact h1.elim
        exact ⟨_, rfl, h1⟩

/-- Two runs of `generate` on the same file write the same files and end in the same way, with the same error reports in the same order. -/
theorem C70_generate (lay lay' : Layout) (h : lay.Possible) (h' : lay'.Possible) (parse : List Char → Res SpannedRules) (fuel : Nat) (genLexer : Bool) (alg : Algorithm)
    (genTable : Bool) (lang : Language) (path : List Char) (contents : Option (List Char)) :
    laidGenerate lay parse fuel genLexer alg genTable lang path contents = laidGenerate lay' parse fuel genLexer alg genTable lang path contents := by
  have hp : ∀ (contents : List Char) (rules : SpannedRules) (written : List Written),
      laidGenerateParser lay fuel lang alg genTable path contents rules written = laidGenerateParser lay' fuel lang alg genTable path contents rules written := by
    intro contents rules written
    unfold laidGenerateParser
    cases hg : Grammar.fromRuleSet rules.ruleSet with
    | error e => rfl
    | ok g =>
      have wf := C19_well_formed _ _ hg
      unfold laidLrArm laidGlrArm
      cases alg <;> simp only [C70_table g wf lay lay' h h']
  unfold laidGenerate
  simp only [hp]

/-- Every run of `generate` does what the model in C65 says; the error reports are the same up to their order. -/
theorem C70_generate_model (lay : Layout) (h : lay.Possible) (parse : List Char → Res SpannedRules) (fuel : Nat) (genLexer : Bool) (alg : Algorithm)
    (genTable : Bool) (lang : Language) (path : List Char) (contents : Option (List Char)) :
    SameOutcome (laidGenerate lay parse fuel genLexer alg genTable lang path contents) (generate parse fuel genLexer alg genTable lang path contents) := by
  have hp : ∀ (contents : List Char) (rules : SpannedRules) (written : List Written),
      SameOutcome (laidGenerateParser lay fuel lang alg genTable path contents rules written) (generateParser fuel lang alg genTable path contents rules written) := by
    intro contents rules written
    unfold laidGenerateParser generateParser
    cases hg : Grammar.fromRuleSet rules.ruleSet with
    | error e => exact SameOutcome.refl _
    | ok g =>
      have wf := C19_well_formed _ _ hg
      cases alg with
      | ll1 => exact SameOutcome.refl _
      | lr0 => exact laidLrArm_same wf h ..
      | lr1 => exact laidLrArm_same wf h ..
      | lalr => exact laidLrArm_same wf h ..
      | glr => simp only [laidGlrArm_same wf h]; exact SameOutcome.refl _
  unfold laidGenerate generate
  cases contents with
  | none => exact SameOutcome.refl _
  | some contents =>
    simp only
    cases parse contents with
    | error e => exact SameOutcome.refl _
    | ok rules =>
      simp only
      cases tokenFile lang (rules.tokens.map (·.inner)) with
      | error e => exact SameOutcome.refl _
      | ok tokens =>
        simp only
        split
        · cases generateLexer fuel (rules.tokens.map (·.inner)) with
          | error e => exact SameOutcome.refl _
          | ok r =>
            cases r with
            | error e => exact SameOutcome.refl _
            | ok t => exact hp ..
        · exact hp ..

/-- 0 for a shift-reduce, 1 for a reduce-reduce conflict -/
def Conflict.sort : Conflict → Nat
  | .shiftReduce .. => 0
  | .reduceReduce .. => 1

/-- the state a conflict is reported for -/
def Conflict.at : Conflict → Nat
  | .shiftReduce q .. => q
  | .reduceReduce q .. => q

/-- Conflicts are listed without repetitions, first the shift-reduce conflicts by state, then the reduce-reduce conflicts by state. -/
theorem C70_order (g : Grammar) (wf : g.WF) (lay : Layout) (h : lay.Possible) (allow : Bool) (kind : LRKind) (fuel : Nat) (cs : List Conflict)
    (hr : laidTable lay g allow kind fuel = .ok (.badConflicts cs) ∨ ∃ tb, laidTable lay g allow kind fuel = .ok (.allowedConflicts tb cs)) :
    cs.Nodup ∧ cs.Pairwise (fun c d => c.sort < d.sort ∨ c.sort = d.sort ∧ c.at ≤ d.at) := by
  have hs : ConflictSet lay cs := by
    have hx := laidTable_rel wf h.iter h.visit allow kind fuel
    cases ha : generateTable g allow kind fuel with
    | error e =>
      rw [ha] at hx
      rcases hr with hr | ⟨tb, hr⟩ <;> rw [hr] at hx <;> exact hx.elim
    | ok a =>
      rw [ha] at hx
      rcases hr with hr | ⟨tb, hr⟩ <;> rw [hr] at hx <;> exact hx.2.1
  constructor
  · refine List.Pairwise.imp ?_ hs
    intro a b hab e
    subst e
    exact List.lt_irrefl _ hab
  · refine List.Pairwise.imp ?_ hs
    intro a b hab
    have key : ∀ (a b c d : Nat) (l l' : List Nat), a :: b :: l < c :: d :: l' → a < c ∨ a = c ∧ b ≤ d := by
      intro a b c d l l' h
      rcases List.cons_lt_cons_iff.mp h with h | ⟨h0, h⟩
      · exact .inl h
      · rcases List.cons_lt_cons_iff.mp h with h | ⟨h, _⟩
        · exact .inr ⟨h0, by omega⟩
        · exact .inr ⟨h0, by omega⟩
    cases a <;> cases b <;> exact key _ _ _ _ _ _ hab

/-! ## non-vacuity -/

/-- the entry rule first, hash sets in the order of insertion, states by number -/
def straightLayout : Layout := ⟨false, fun _ _ s => s, fun gr => gr.sets.zipIdx⟩

/-- the entry rule last, hash sets and states the other way round -/
def reverseLayout : Layout := ⟨true, fun _ _ s => s.reverse, fun gr => gr.sets.zipIdx.reverse⟩

example : straightLayout.Possible := ⟨fun _ _ _ => List.Perm.refl _, fun _ => List.Perm.refl _⟩

example : reverseLayout.Possible := ⟨fun _ _ s => List.reverse_perm s, fun _ => List.reverse_perm _⟩

/-- the item sets are in different orders during these runs -/
example : (laidGraph straightLayout parenGrammar [(.nt 0, [.t 0, .t 2])] .lalr 60 60).toOption.bind (·.sets.head?) ≠
    (laidGraph reverseLayout parenGrammar [(.nt 0, [.t 0, .t 2])] .lalr 60 60).toOption.bind (·.sets.head?) := by decide +kernel

/-- a grammar with a conflict: `s = e`, `e = e p e | x` -/
example : (laidTable reverseLayout plusGrammar false .lalr 100).toOption = some (.badConflicts [.shiftReduce 4 ⟨some 1, 3, none⟩ (.t 0)]) := by decide +kernel

end Verif
