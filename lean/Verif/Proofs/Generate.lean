import Verif.Spec.Generate
import Verif.Props.Conflicts
import Verif.Props.CppLR
import Verif.Props.Names
import Verif.Props.GLR
import Verif.Props.Precedence
import Verif.Proofs.Display

/-! # Runs of `generate` -/

set_option autoImplicit false

namespace Verif

theorem fromSpan_ok {span : SourceSpan} {file contents : List Char} {l : Location} (h : Location.fromSpan span file contents = .ok l) : LocatedAt file contents span l := by
  unfold Location.fromSpan at h
  obtain ⟨o, h1, h⟩ := res_bind_ok.mp h
  cases o with
  | none => cases h
  | some text => cases h; exact ⟨rfl, rfl, h1⟩

theorem fromSpan_total {span : SourceSpan} {file contents : List Char} (h : Quotable contents span) : ∃ l, Location.fromSpan span file contents = .ok l := by
  obtain ⟨text, h⟩ := h
  unfold Location.fromSpan
  rw [h]
  exact ⟨_, rfl⟩

variable {g : Grammar} {file contents : List Char} {prods : List (Spanned ProdRule)}

/-- a completed rule of the grammar, without lookahead -/
def RuleItem (g : Grammar) (it : Item) : Prop := ∃ i r, it = ⟨some i, r.rhs.length, none⟩ ∧ g.rules[i]? = some r

theorem itemLocation_ok {it : Item} (hi : RuleItem g it) {l : Location} (h : itemLocation file contents prods g it = .ok l) {text : List Char} (ht : itemText g it = .ok text) :
    TellsItem file contents prods g it (l, text) := by
  obtain ⟨i, r, rfl, hr⟩ := hi
  unfold itemLocation at h
  obtain ⟨o, h1, h⟩ := res_bind_ok.mp h
  simp only [itemOrigin, hr] at h1
  cases h1
  split at h
  · rename_i p hp
    exact ⟨i, r, p, rfl, hr, hp, fromSpan_ok h, rfl, itemText_shows hr ht⟩
  · cases h

theorem conflictReport_tells {c : Conflict} {rep : Report} (hi : match c with | .shiftReduce _ it _ => RuleItem g it | .reduceReduce _ its => ∀ it ∈ its, RuleItem g it)
    (h : conflictReport file contents prods g c = .ok rep) : TellsConflict file contents prods g c rep := by
  cases c with
  | shiftReduce q it X =>
    simp only [conflictReport] at h
    obtain ⟨name, h1, h⟩ := res_bind_ok.mp h
    obtain ⟨l, h2, h⟩ := res_bind_ok.mp h
    obtain ⟨text, h3, h⟩ := res_bind_ok.mp h
    cases h
    have hti := itemLocation_ok hi h2 h3
    cases X with
    | t a =>
      simp only [Grammar.tokenName] at h1
      split at h1
      · rename_i n hn
        cases h1
        exact .shiftToken (mget?_mem hn) hti
      · cases h1
    | nt A => exact .shiftOther (by simp) (symbolName_shows h1) hti
    | eps => exact .shiftOther (by simp) (symbolName_shows h1) hti
    | eof => exact .shiftOther (by simp) (symbolName_shows h1) hti
  | reduceReduce q its =>
    simp only [conflictReport] at h
    obtain ⟨xs, h1, h⟩ := res_bind_ok.mp h
    cases h
    refine .reduces (mapM_forall₂ h1 fun it hit x hx => ?_)
    obtain ⟨text, h2, hx⟩ := res_bind_ok.mp hx
    obtain ⟨l, h3, hx⟩ := res_bind_ok.mp hx
    cases hx
    exact itemLocation_ok (hi it hit) h3 h2

/-- the productions the rules come from exist and can be quoted -/
def OriginsQuotable (contents : List Char) (prods : List (Spanned ProdRule)) (g : Grammar) : Prop := ∀ r ∈ g.rules, ∃ p, prods[r.origin]? = some p ∧ Quotable contents p.span

theorem itemLocation_total (ho : OriginsQuotable contents prods g) {it : Item} (hi : RuleItem g it) : ∃ l, itemLocation file contents prods g it = .ok l := by
  obtain ⟨i, r, rfl, hr⟩ := hi
  obtain ⟨p, h1, h2⟩ := ho r (List.mem_of_getElem? hr)
  obtain ⟨l, hl⟩ := fromSpan_total (file := file) h2
  refine ⟨l, ?_⟩
  unfold itemLocation
  simp only [itemOrigin, hr, res_bind_of_ok, h1, hl]

theorem conflictReport_total (wf : g.WF) (ho : OriginsQuotable contents prods g) {c : Conflict}
    (hi : match c with | .shiftReduce _ it X => RuleItem g it ∧ (X ∈ g.symbols ∨ X = .eps ∨ X = .eof) | .reduceReduce _ its => ∀ it ∈ its, RuleItem g it) :
    ∃ rep, conflictReport file contents prods g c = .ok rep := by
  have text : ∀ it, RuleItem g it → ∃ t, itemText g it = .ok t := by
    rintro it ⟨i, r, rfl, hr⟩
    exact itemText_ok wf hr _ _
  cases c with
  | shiftReduce q it X =>
    obtain ⟨hi, hX⟩ := hi
    obtain ⟨l, hl⟩ := itemLocation_total (file := file) ho hi
    obtain ⟨t, ht⟩ := text it hi
    have hn : ∃ n, (match X with | .t a => g.tokenName a | s => g.symbolName s) = .ok n := by
      cases X with
      | t a =>
        obtain ⟨n, hn⟩ := symbolName_ok wf hX
        simp only [Grammar.symbolName] at hn
        obtain ⟨m, hm, _⟩ := res_bind_ok.mp hn
        exact ⟨m, hm⟩
      | nt A => exact symbolName_ok wf hX
      | eps => exact symbolName_ok wf hX
      | eof => exact symbolName_ok wf hX
    obtain ⟨n, hn⟩ := hn
    refine ⟨.shiftReduce q n l t, ?_⟩
    cases X <;> simp only [conflictReport, hl, ht, res_bind_of_ok] <;> simp only at hn <;> rw [hn] <;> rfl
  | reduceReduce q its =>
    obtain ⟨xs, hxs⟩ := mapM_total (f := fun item => do
      let text ← itemText g item
      let location ← itemLocation file contents prods g item
      (.ok (location, text) : Res (Location × List Char))) its (by
        intro it hit
        obtain ⟨l, hl⟩ := itemLocation_total (file := file) ho (hi it hit)
        obtain ⟨t, ht⟩ := text it (hi it hit)
        exact ⟨(l, t), by simp only [ht, hl, res_bind_of_ok]⟩)
    exact ⟨.reduceReduce q xs, by simp only [conflictReport, hxs, res_bind_of_ok]⟩

theorem conflict_items (wf : g.WF) (hne : NoEmptyRhs g) {allow : Bool} {kind : LRKind} {fuel : Nat} {cs : List Conflict} (h : generateTable g allow kind fuel = .ok (.badConflicts cs))
    {c : Conflict} (hc : c ∈ cs) : match c with | .shiftReduce _ it X => RuleItem g it ∧ (X ∈ g.symbols ∨ X = .eps ∨ X = .eof) | .reduceReduce _ its => ∀ it ∈ its, RuleItem g it := by
  cases c with
  | shiftReduce q it X =>
    obtain ⟨i, r, α, h1, h2, _, h3⟩ := C64_shift_reduce g wf hne allow kind fuel _ h q it X hc
    obtain ⟨r', hr', β, γ, _, _, e, _⟩ := h3
    exact ⟨⟨i, r, h1, h2⟩, rhs_symbols wf hr' (by rw [e]; simp)⟩
  | reduceReduce q its => exact (C64_reduce_reduce g wf hne allow kind fuel _ h q its hc).2.2.1

theorem badConflicts_ne {allow : Bool} {kind : LRKind} {fuel : Nat} {cs : List Conflict} (h : generateTable g allow kind fuel = .ok (.badConflicts cs)) : cs ≠ [] ∧ allow = false := by
  unfold generateTable at h
  obtain ⟨fs, _, h⟩ := res_bind_ok.mp h
  obtain ⟨gr, _, h⟩ := res_bind_ok.mp h
  dsimp only at h
  split at h
  · rename_i hc
    cases h
    simp at hc
    exact ⟨hc.2, hc.1⟩
  · split at h <;> cases h

theorem allowedConflicts_allow {allow : Bool} {kind : LRKind} {fuel : Nat} {tb : LRTable} {cs : List Conflict} (h : generateTable g allow kind fuel = .ok (.allowedConflicts tb cs)) :
    allow = true := by
  unfold generateTable at h
  obtain ⟨fs, _, h⟩ := res_bind_ok.mp h
  obtain ⟨gr, _, h⟩ := res_bind_ok.mp h
  dsimp only at h
  split at h
  · cases h
  · rename_i hc
    split at h
    · cases h
    · rename_i hc'
      simp at hc hc'
      by_contra ha
      simp at ha
      exact hc' (hc ha)

/-! ## The arms -/

/-- what a run that ends well has written, from the grammar on -/
def WrittenParser (g : Grammar) (names : List (List Char)) (alg : Algorithm) (lang : Language) (genTable : Bool) (ws : List Written) : Prop :=
  ∃ tb parser table, ParserFrom g names alg lang tb parser ∧ ws = table ++ [parser] ∧
    (if genTable = true ∧ alg ≠ .ll1 then ∃ tb' text, tb = some tb' ∧ outputTable g tb' = .ok text ∧ table = [.table text] else table = [])

theorem writeParser_ok {genTable : Bool} {tb : LRTable} {file : Res Written} {written ws : List Written} (h : writeParser genTable g tb file written = (ws, .ok)) :
    ∃ w table, file = .ok w ∧ ws = written ++ table ++ [w] ∧ if genTable = true then ∃ text, outputTable g tb = .ok text ∧ table = [.table text] else table = [] := by
  unfold writeParser at h
  have parser : ∀ {written : List Written}, writeFile file written = (ws, Ending.ok) →
      ∃ w, file = .ok w ∧ ws = written ++ [w] := by
    intro written h
    unfold writeFile at h
    cases hf : file with
    | ok w => rw [hf] at h; cases h; exact ⟨w, rfl, rfl⟩
    | error e => rw [hf] at h; cases e <;> simp [Ending.failed] at h
  cases genTable with
  | false =>
    obtain ⟨w, h1, h2⟩ := parser h
    exact ⟨w, [], h1, by simpa using h2, by simp⟩
  | true =>
    simp only [if_true] at h
    cases ho : outputTable g tb with
    | error e => rw [ho] at h; cases e <;> simp [Ending.failed] at h
    | ok text =>
      rw [ho] at h
      obtain ⟨w, h1, h2⟩ := parser h
      exact ⟨w, [.table text], h1, h2, by simp⟩

theorem writeParser_err {genTable : Bool} {tb : LRTable} {file : Res Written} {written ws : List Written} {reports : List Report} :
    writeParser genTable g tb file written ≠ (ws, .err reports) := by
  intro h
  unfold writeParser at h
  have parser : ∀ {written : List Written}, writeFile file written ≠ (ws, Ending.err reports) := by
    intro written h
    unfold writeFile at h
    cases hf : file with
    | ok w => rw [hf] at h; cases h
    | error e => rw [hf] at h; cases e <;> simp [Ending.failed] at h
  cases genTable with
  | false => exact parser h
  | true =>
    simp only [if_true] at h
    cases ho : outputTable g tb with
    | error e => rw [ho] at h; cases e <;> simp [Ending.failed] at h
    | ok text => rw [ho] at h; exact parser h

theorem writeParser_unreachable {genTable : Bool} {tb : LRTable} {file : Res Written} {written ws : List Written} :
    writeParser genTable g tb file written ≠ (ws, .panic .unreachable) := by
  intro h
  unfold writeParser at h
  have parser : ∀ {written : List Written}, writeFile file written ≠ (ws, Ending.panic .unreachable) := by
    intro written h
    unfold writeFile at h
    cases hf : file with
    | ok w => rw [hf] at h; cases h
    | error e => rw [hf] at h; cases e <;> simp [Ending.failed] at h
  cases genTable with
  | false => exact parser h
  | true =>
    simp only [if_true] at h
    cases ho : outputTable g tb with
    | error e => rw [ho] at h; cases e <;> simp [Ending.failed] at h
    | ok text => rw [ho] at h; exact parser h

variable {fuel : Nat} {lang : Language} {alg : Algorithm} {genTable : Bool} {path : List Char} {rules : SpannedRules} {written ws : List Written}

theorem lrArm_ok {kind : LRKind} (hk : alg.kind = some kind) (h : lrArm fuel lang kind genTable path contents rules g written = (ws, .ok)) :
    ∃ ws', ws = written ++ ws' ∧ WrittenParser g (rules.tokens.map (·.inner.name.toList)) alg lang genTable ws' := by
  unfold lrArm at h
  cases hg : generateTable g false kind fuel with
  | error e => rw [hg] at h; cases e <;> simp [Ending.failed] at h
  | ok r =>
    rw [hg] at h
    cases r with
    | allowedConflicts _ _ => cases h
    | badConflicts cs =>
      simp only at h
      split at h
      · rename_i e _; cases e <;> simp [Ending.failed] at h
      · cases h
    | noConflicts tb =>
      obtain ⟨w, table, h1, h2, h3⟩ := writeParser_ok h
      refine ⟨table ++ [w], by simpa using h2, some tb, w, table, ?_, rfl, ?_⟩
      · unfold lrFile at h1
        cases lang with
        | rust =>
          obtain ⟨_, _, h1⟩ := res_bind_ok.mp h1
          obtain ⟨p, h4, h1⟩ := res_bind_ok.mp h1
          cases h1
          exact .rust hk hg h4
        | cpp =>
          obtain ⟨src, h4, h1⟩ := res_bind_ok.mp h1
          cases h1
          rw [List.map_map] at h4
          exact .cpp hk hg h4
      · have hne : alg ≠ .ll1 := by rintro rfl; cases hk
        simp only [hne, ne_eq, not_false_eq_true, and_true]
        split
        · rename_i ht
          rw [if_pos ht] at h3
          obtain ⟨text, h4, h5⟩ := h3
          exact ⟨tb, text, rfl, h4, h5⟩
        · rename_i ht
          rw [if_neg ht] at h3
          exact h3

theorem lrArm_err {kind : LRKind} {reports : List Report} (h : lrArm fuel lang kind genTable path contents rules g written = (ws, .err reports)) :
    ws = written ∧ ∃ cs, generateTable g false kind fuel = .ok (.badConflicts cs) ∧ cs.dedup.mapM (conflictReport path contents rules.prods g) = .ok reports := by
  unfold lrArm at h
  cases hg : generateTable g false kind fuel with
  | error e => rw [hg] at h; cases e <;> simp [Ending.failed] at h
  | ok r =>
    rw [hg] at h
    cases r with
    | allowedConflicts _ _ => cases h
    | noConflicts tb => exact absurd h writeParser_err
    | badConflicts cs =>
      simp only at h
      split at h
      · rename_i e _; cases e <;> simp [Ending.failed] at h
      · rename_i reps hr
        cases h
        exact ⟨rfl, cs, rfl, hr⟩

theorem lrArm_unreachable {kind : LRKind} : lrArm fuel lang kind genTable path contents rules g written ≠ (ws, .panic .unreachable) := by
  intro h
  unfold lrArm at h
  cases hg : generateTable g false kind fuel with
  | error e => rw [hg] at h; cases e <;> simp [Ending.failed] at h
  | ok r =>
    rw [hg] at h
    cases r with
    | allowedConflicts _ _ => exact absurd (allowedConflicts_allow hg) (by simp)
    | noConflicts tb => exact absurd h writeParser_unreachable
    | badConflicts cs =>
      simp only at h
      split at h
      · rename_i e _; cases e <;> simp [Ending.failed] at h
      · cases h

theorem glrArm_ok {names : List (List Char)} (h : glrArm fuel lang genTable g written = (ws, .ok)) : ∃ ws', ws = written ++ ws' ∧ WrittenParser g names .glr lang genTable ws' := by
  unfold glrArm at h
  have key : ∀ tb, LRTableFor g .lalr tb → writeParser genTable g tb (glrFile lang g tb) written = (ws, .ok) → ∃ ws', ws = written ++ ws' ∧ WrittenParser g names .glr lang genTable ws' := by
    intro tb htb h
    obtain ⟨w, table, h1, h2, h3⟩ := writeParser_ok h
    refine ⟨table ++ [w], by simpa using h2, some tb, w, table, ?_, rfl, ?_⟩
    · unfold glrFile at h1
      cases lang with
      | rust =>
        obtain ⟨_, _, h1⟩ := res_bind_ok.mp h1
        obtain ⟨p, h4, h1⟩ := res_bind_ok.mp h1
        cases h1
        exact .glr htb h4
      | cpp => cases h1
    · simp only [ne_eq, reduceCtorEq, not_false_eq_true, and_true]
      split
      · rename_i ht
        rw [if_pos ht] at h3
        obtain ⟨text, h4, h5⟩ := h3
        exact ⟨tb, text, rfl, h4, h5⟩
      · rename_i ht
        rw [if_neg ht] at h3
        exact h3
  cases hg : generateTable g true .lalr fuel with
  | error e => rw [hg] at h; cases e <;> simp [Ending.failed] at h
  | ok r =>
    rw [hg] at h
    cases r with
    | badConflicts _ => cases h
    | noConflicts tb => exact key tb ⟨true, fuel, .inl hg⟩ h
    | allowedConflicts tb cs => exact key tb ⟨true, fuel, .inr ⟨cs, hg⟩⟩ h

theorem glrArm_err {reports : List Report} : glrArm fuel lang genTable g written ≠ (ws, .err reports) ∧ glrArm fuel lang genTable g written ≠ (ws, .panic .unreachable) := by
  unfold glrArm
  cases hg : generateTable g true .lalr fuel with
  | error e => cases e <;> simp [Ending.failed]
  | ok r =>
    cases r with
    | badConflicts cs => exact absurd (badConflicts_ne hg).2 (by simp)
    | noConflicts tb => exact ⟨writeParser_err, writeParser_unreachable⟩
    | allowedConflicts tb cs => exact ⟨writeParser_err, writeParser_unreachable⟩

theorem llArm_ok {names : List (List Char)} (h : llArm fuel lang g written = (ws, .ok)) : ∃ ws', ws = written ++ ws' ∧ WrittenParser g names .ll1 lang genTable ws' := by
  unfold llArm at h
  cases ht : llGenerateTable g fuel with
  | error e => rw [ht] at h; cases e <;> cases h
  | ok table =>
    rw [ht] at h
    cases lang with
    | rust => simp [llFile, writeFile, Ending.failed] at h
    | cpp =>
      simp only [llFile, writeFile] at h
      cases h
      exact ⟨[.cppLLParser table], rfl, none, _, [], .ll ht, rfl, by simp⟩

theorem llArm_err {reports : List Report} : llArm fuel lang g written ≠ (ws, .err reports) ∧ llArm fuel lang g written ≠ (ws, .panic .unreachable) := by
  unfold llArm
  cases ht : llGenerateTable g fuel with
  | error e => cases e <;> simp
  | ok table => cases lang <;> simp [llFile, writeFile, Ending.failed]

theorem generateParser_ok (h : generateParser fuel lang alg genTable path contents rules written = (ws, .ok)) :
    ∃ g ws', Grammar.fromRuleSet rules.ruleSet = .ok g ∧ ws = written ++ ws' ∧ WrittenParser g (rules.tokens.map (·.inner.name.toList)) alg lang genTable ws' := by
  unfold generateParser at h
  cases hg : Grammar.fromRuleSet rules.ruleSet with
  | error e => rw [hg] at h; cases h
  | ok g =>
    rw [hg] at h
    cases alg with
    | ll1 => obtain ⟨ws', h1, h2⟩ := llArm_ok h; exact ⟨g, ws', rfl, h1, h2⟩
    | lr0 => obtain ⟨ws', h1, h2⟩ := lrArm_ok (alg := .lr0) rfl h; exact ⟨g, ws', rfl, h1, h2⟩
    | lr1 => obtain ⟨ws', h1, h2⟩ := lrArm_ok (alg := .lr1) rfl h; exact ⟨g, ws', rfl, h1, h2⟩
    | lalr => obtain ⟨ws', h1, h2⟩ := lrArm_ok (alg := .lalr) rfl h; exact ⟨g, ws', rfl, h1, h2⟩
    | glr => obtain ⟨ws', h1, h2⟩ := glrArm_ok h; exact ⟨g, ws', rfl, h1, h2⟩

theorem generateParser_err {reports : List Report} (h : generateParser fuel lang alg genTable path contents rules written = (ws, .err reports)) :
    ws = written ∧ ∃ g kind cs, Grammar.fromRuleSet rules.ruleSet = .ok g ∧ alg.kind = some kind ∧ generateTable g false kind fuel = .ok (.badConflicts cs) ∧
      cs.dedup.mapM (conflictReport path contents rules.prods g) = .ok reports := by
  unfold generateParser at h
  cases hg : Grammar.fromRuleSet rules.ruleSet with
  | error e => rw [hg] at h; cases h
  | ok g =>
    rw [hg] at h
    cases alg with
    | ll1 => exact absurd h llArm_err.1
    | lr0 => obtain ⟨h1, cs, h2⟩ := lrArm_err h; exact ⟨h1, g, .lr0, cs, rfl, rfl, h2⟩
    | lr1 => obtain ⟨h1, cs, h2⟩ := lrArm_err h; exact ⟨h1, g, .lr1, cs, rfl, rfl, h2⟩
    | lalr => obtain ⟨h1, cs, h2⟩ := lrArm_err h; exact ⟨h1, g, .lalr, cs, rfl, rfl, h2⟩
    | glr => exact absurd h glrArm_err.1

theorem generateParser_unreachable : generateParser fuel lang alg genTable path contents rules written ≠ (ws, .panic .unreachable) := by
  intro h
  unfold generateParser at h
  cases hg : Grammar.fromRuleSet rules.ruleSet with
  | error e => rw [hg] at h; cases h
  | ok g =>
    rw [hg] at h
    cases alg with
    | ll1 => exact absurd h (llArm_err (reports := [])).2
    | lr0 => exact absurd h lrArm_unreachable
    | lr1 => exact absurd h lrArm_unreachable
    | lalr => exact absurd h lrArm_unreachable
    | glr => exact absurd h (glrArm_err (reports := [])).2

end Verif
