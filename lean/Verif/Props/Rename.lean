import Verif.Proofs.RenameFile
import Verif.Props.PipelineKinds

/-!
# Property C71: neither the order of the rules in a file nor their names matter

`SameFile`: two files have the same token rules and productions, in any order, with other names. `SameGrammar φ τ g g'`, `SameTokens ρ τ rules rules'`: number `A` of a non-terminal of
one is `φ A` in the other, and token number `j` is number `τ j`. Tags, which are only names of callbacks, are not compared.
-/

set_option autoImplicit false

namespace Verif

section
variable {ρ : String → String} {rs rs' : RuleSet} {entry entry' : String} {rules rules' : List TokenRule} {prods prods' : List ProdRule} {g g' : Grammar} {φ τ : Nat → Nat}

/-- A grammar is built from one rule set exactly if one is built from the other. -/
theorem C71_built (h : SameRules ρ rs rs') (hf : rs.Fits) : (∃ g', Grammar.fromRuleSet rs' = .ok g') ↔ ∃ g, Grammar.fromRuleSet rs = .ok g := h.built hf

/-- Clashing names are reported for one exactly if they are for the other. -/
theorem C71_clash (h : SameRules ρ rs rs') :
    (∃ a b, Grammar.fromRuleSet rs' = .error (.conflictingRules a b)) ↔ ∃ a b, Grammar.fromRuleSet rs = .error (.conflictingRules a b) := by
  rw [C16_conflict_iff, C16_conflict_iff, h.noClash]

/-- The grammars of two such files differ only in the numbers of symbols and the order of rules, and the tokens are renumbered as the grammar's are. -/
theorem C71_maps (h : SameFile ρ entry rules prods entry' rules' prods') (hg : Grammar.fromRuleSet (ruleSet entry rules prods) = .ok g)
    (hg' : Grammar.fromRuleSet (ruleSet entry' rules' prods') = .ok g') (hT : rules.length ≤ 65536) (hP : prods.length ≤ 65536) :
    ∃ φ τ, SameGrammar φ τ g g' ∧ SameTokens ρ τ rules rules' := h.maps hg hg' hT hP

/-- Texts have the same tokens. -/
theorem C71_tokens (ht : SameTokens ρ τ rules rules') (text : List Char) : (∀ ts, TextTokens rules text ts → TextTokens rules' text (retoken τ ts)) ∧
    ∀ ts', TextTokens rules' text ts' → ∃ ts, ts' = retoken τ ts ∧ TextTokens rules text ts :=
  ⟨fun _ => ht.textTokens, fun _ => ht.textTokens_bwd⟩

/-- The grammars have the same sentences: those of the second are the renumbered ones of the first. -/
theorem C71_sentences (hs : SameGrammar φ τ g g') : (∀ w : List Nat, Derives g'.rules [g'.entry] (w.map τ) ↔ Derives g.rules [g.entry] w) ∧
    ∀ w', Derives g'.rules [g'.entry] w' → ∃ w : List Nat, w' = w.map τ := by
  refine ⟨fun w => hs.sentence_iff, fun w' h => ?_⟩
  rw [hs.entry] at h
  obtain ⟨w, e, _⟩ := hs.derives_bwd h [g.entry] rfl
  exact ⟨w, e⟩

/-- The table generators of all three kinds report the same conflicts, in states that correspond one to one. -/
theorem C71_conflicts (hs : SameGrammar φ τ g g') (wf : g.WF) (hne : NoEmptyRhs g) (wf' : g'.WF) (hne' : NoEmptyRhs g') (kind : LRKind) (allow : Bool) (fuel fuel' : Nat)
    (r r' : GenResult) (h : generateTable g allow kind fuel = .ok r) (h' : generateTable g' allow kind fuel' = .ok r') :
    ∃ π st, RuleMap φ τ π g g' ∧
      (∀ c ∈ r.conflicts, ∃ c' ∈ r'.conflicts, SameConflict φ τ π st c c') ∧ (∀ c' ∈ r'.conflicts, ∃ c ∈ r.conflicts, SameConflict φ τ π st c c') ∧
      ((∃ tb, r = .noConflicts tb) ↔ ∃ tb, r' = .noConflicts tb) ∧
      ∀ tb tb', (r = .noConflicts tb ∨ ∃ cs, r = .allowedConflicts tb cs) → (r' = .noConflicts tb' ∨ ∃ cs, r' = .allowedConflicts tb' cs) →
        tb'.stateCount = tb.stateCount ∧ (∀ q, q < tb.stateCount → st q < tb.stateCount) ∧ ∀ q q', q < tb.stateCount → q' < tb.stateCount → st q = st q' → q = q' := by
  obtain ⟨π, m⟩ := hs.ruleMap
  obtain ⟨fs, gr, h1, h2, hv, _, ha⟩ := generateTable_graph wf hne h
  obtain ⟨fs', gr', h1', h2', hv', _, ha'⟩ := generateTable_graph wf' hne' h'
  obtain ⟨st, s1, s2, s3, s4, s5⟩ := sameConflicts hs m wf hne wf' hne' h1 h1' h2 h2'
  have hcs : ∀ c, c ∈ r.conflicts ↔ Clash g gr.sets c := by
    intro c
    rw [← findConflicts_iff hv]
    cases r <;> simp only [AnswerFor, GenResult.conflicts] at ha ⊢
    · simp [ha.1]
    · rw [ha.2.2.2]
    · rw [ha.2.2]
  have hcs' : ∀ c, c ∈ r'.conflicts ↔ Clash g' gr'.sets c := by
    intro c
    rw [← findConflicts_iff hv']
    cases r' <;> simp only [AnswerFor, GenResult.conflicts] at ha' ⊢
    · simp [ha'.1]
    · rw [ha'.2.2.2]
    · rw [ha'.2.2]
  have hcard : gr'.sets.length = gr.sets.length := by
    have hperm : ((List.range gr.sets.length).map st).Perm (List.range gr'.sets.length) := by
      refine (List.perm_ext_iff_of_nodup ?_ List.nodup_range).mpr fun q => ?_
      · exact List.nodup_range.map_on fun a ha b hb e => s1 a b (List.mem_range.mp ha) (List.mem_range.mp hb) e
      · simp only [List.mem_map, List.mem_range]
        exact ⟨fun ⟨a, h1, h2⟩ => h2 ▸ s2 a h1, fun hq => s3 q hq⟩
    have := hperm.length_eq
    simpa using this.symm
  have hno : (∃ tb, r = .noConflicts tb) ↔ ∀ c, c ∉ r.conflicts := by
    cases r <;> simp only [AnswerFor, GenResult.conflicts] at ha ⊢
    · simp
    · simp only [reduceCtorEq, exists_false, false_iff]
      intro hn; exact ha.2.1 (by rw [← ha.2.2.2]; exact List.eq_nil_iff_forall_not_mem.mpr hn)
    · simp only [reduceCtorEq, exists_false, false_iff]
      intro hn; exact ha.2.1 (by rw [← ha.2.2]; exact List.eq_nil_iff_forall_not_mem.mpr hn)
  have hno' : (∃ tb, r' = .noConflicts tb) ↔ ∀ c, c ∉ r'.conflicts := by
    cases r' <;> simp only [AnswerFor, GenResult.conflicts] at ha' ⊢
    · simp
    · simp only [reduceCtorEq, exists_false, false_iff]
      intro hn; exact ha'.2.1 (by rw [← ha'.2.2.2]; exact List.eq_nil_iff_forall_not_mem.mpr hn)
    · simp only [reduceCtorEq, exists_false, false_iff]
      intro hn; exact ha'.2.1 (by rw [← ha'.2.2]; exact List.eq_nil_iff_forall_not_mem.mpr hn)
  have f1 : ∀ c ∈ r.conflicts, ∃ c' ∈ r'.conflicts, SameConflict φ τ π st c c' := by
    intro c hc
    obtain ⟨c', k1, k2⟩ := s4 c ((hcs c).mp hc)
    exact ⟨c', (hcs' c').mpr k1, k2⟩
  have f2 : ∀ c' ∈ r'.conflicts, ∃ c ∈ r.conflicts, SameConflict φ τ π st c c' := by
    intro c' hc
    obtain ⟨c, k1, k2⟩ := s5 c' ((hcs' c').mp hc)
    exact ⟨c, (hcs c).mpr k1, k2⟩
  refine ⟨π, st, m, f1, f2, ?_, fun tb tb' e e' => ?_⟩
  · rw [hno, hno']
    constructor
    · intro hn c' hc'
      obtain ⟨c, hc, _⟩ := f2 c' hc'
      exact hn c hc
    · intro hn c hc
      obtain ⟨c', hc', _⟩ := f1 c hc
      exact hn c' hc'
  · have e1 : tb.stateCount = gr.sets.length := by
      rcases e with rfl | ⟨cs, rfl⟩
      · rw [ha.2]; exact (buildTable_cell (gr := gr) wf).1.count
      · rw [ha.2.2.1]; exact (buildTable_cell (gr := gr) wf).1.count
    have e2 : tb'.stateCount = gr'.sets.length := by
      rcases e' with rfl | ⟨cs, rfl⟩
      · rw [ha'.2]; exact (buildTable_cell (gr := gr') wf').1.count
      · rw [ha'.2.2.1]; exact (buildTable_cell (gr := gr') wf').1.count
    rw [e1, e2]
    exact ⟨hcard, fun q hq => hcard ▸ s2 q hq, s1⟩

/-- The LL(1) table generator succeeds for one grammar exactly if it does for the other. -/
theorem C71_ll1 (hs : SameGrammar φ τ g g') (wf : g.WF) (hne : NoEmptyRhs g) (ht : TokensFit g) (wf' : g'.WF) (hne' : NoEmptyRhs g') (ht' : TokensFit g') (fuel fuel' : Nat)
    (hf : setsFuel g ≤ fuel) (hf' : setsFuel g' ≤ fuel') : (∃ table, llGenerateTable g' fuel' = .ok table) ↔ ∃ table, llGenerateTable g fuel = .ok table := by
  rw [C22_ok_iff g wf hne ht fuel hf, C22_ok_iff g' wf' hne' ht' fuel' hf', hs.ll1]

/-- The grammar of one is LR(k) exactly if that of the other is. -/
theorem C71_lrk (hs : SameGrammar φ τ g g') (k : Nat) : IsLR g' k ↔ IsLR g k := hs.isLR k

/-- Parse trees correspond one to one, if no rule occurs twice: corresponding nodes have corresponding rules, and leaves have the same texts. -/
theorem C71_trees (hs : SameGrammar φ τ g g') (hd : DistinctRules g) (hd' : DistinctRules g') : ∃ R, RuleBij φ τ R g g' ∧ ∀ (T : Type) (w : List (Nat × T)),
    (∀ t, IsParseOf g w t → IsParseOf g' (retoken τ w) (t.rename τ R)) ∧
    (∀ t u, IsParseOf g w t → IsParseOf g w u → t.rename τ R = u.rename τ R → t = u) ∧
    (∀ t', IsParseOf g' (retoken τ w) t' → ∃ t, IsParseOf g w t ∧ t' = t.rename τ R) := by
  obtain ⟨π, m⟩ := hs.ruleMap
  obtain ⟨R, b⟩ := m.bij hd hd'
  exact ⟨R, b, fun T w => b.parses hs w⟩

end

/-! ## parsers -/

section
variable {ρ : String → String} {entry entry' : String} {rules rules' : List TokenRule} {prods prods' : List ProdRule} {g g' : Grammar} {t t' : LexerTables} {lexFuel lexFuel' : Nat}
variable (h : SameFile ρ entry rules prods entry' rules' prods')
variable (hlex : generateLexer lexFuel rules = .ok (.ok t)) (hlex' : generateLexer lexFuel' rules' = .ok (.ok t')) (hne : ∀ r ∈ rules, r.NoEmptySeq ∧ r.Useful)
variable (hg : Grammar.fromRuleSet (ruleSet entry rules prods) = .ok g) (hg' : Grammar.fromRuleSet (ruleSet entry' rules' prods') = .ok g')
variable (hf : (ruleSet entry rules prods).Fine)
variable (names names' : String → Bool) (hnames : ∀ r ∈ rules, names' (ρ r.name) = names r.name)
variable (src : List Char) {input input' : Nat → Tok × List Char} (hin : FedBy t (skipNames names rules) (Lexer.new src) input)
variable (hin' : FedBy t' (skipNames names' rules') (Lexer.new src) input')
include h hlex hlex' hne hg hg' hf hnames hin hin'

/-- what both parsers get -/
theorem same_streams : ∃ φ τ, SameGrammar φ τ g g' ∧ SameTokens ρ τ rules rules' ∧ (∀ r ∈ rules', r.NoEmptySeq ∧ r.Useful) ∧
    (∀ w, StreamIs input w → StreamIs input' (retoken τ w)) ∧ (∀ w', StreamIs input' w' → ∃ w, w' = retoken τ w ∧ StreamIs input w) ∧
    ((∃ ts, TextTokens rules' src ts ∧ Den (ruleSet entry' rules' prods') (.rule entry') ((kept (skipNames names' rules') ts).map (·.1))) ↔
      ∃ ts, TextTokens rules src ts ∧ Den (ruleSet entry rules prods) (.rule entry) ((kept (skipNames names rules) ts).map (·.1))) := by
  have hT : rules.length ≤ 65536 := by simpa [ruleSet] using hf.tokens
  have hf' := h.sameRules.fine hf
  obtain ⟨φ, τ, h1, h2⟩ := h.maps hg hg' hT hf.prods
  have hne' : ∀ r ∈ rules', r.NoEmptySeq ∧ r.Useful := by
    intro r' hr'
    obtain ⟨j, hj⟩ := List.mem_iff_getElem?.mp hr'
    obtain ⟨i, r, k1, _, k2⟩ := h2.bwd j r' hj
    have := hne r (List.mem_of_getElem? k1)
    unfold TokenRule.NoEmptySeq TokenRule.Useful at *
    rw [k2.2.2]
    exact this
  have hskip : ∀ ts, TextTokens rules src ts → kept (skipNames names' rules') (retoken τ ts) = retoken τ (kept (skipNames names rules) ts) := by
    intro ts hts
    refine kept_retoken fun x hx => ?_
    obtain ⟨r, hr⟩ := textTokens_rule hts x hx
    obtain ⟨r', k1, k2⟩ := h2.fwd _ r hr
    simp only [skipNames, hr, k1, Option.map_some, Option.getD_some]
    rw [k2.1, hnames r (List.mem_of_getElem? hr)]
  have fwd : ∀ w, StreamIs input w → StreamIs input' (retoken τ w) := by
    intro w hw
    obtain ⟨ts, k1, rfl⟩ := (C62_stream hlex hne _ src hin w).mp hw
    exact (C62_stream hlex' hne' _ src hin' _).mpr ⟨_, h2.textTokens k1, (hskip ts k1).symm⟩
  refine ⟨φ, τ, h1, h2, hne', fwd, fun w' hw' => ?_, ?_⟩
  · obtain ⟨ts', k1, rfl⟩ := (C62_stream hlex' hne' _ src hin' w').mp hw'
    obtain ⟨ts, rfl, k2⟩ := h2.textTokens_bwd k1
    exact ⟨_, hskip ts k2, (C62_stream hlex hne _ src hin _).mpr ⟨ts, k2, rfl⟩⟩
  · have lang := C18_entry_language _ g hg hf.tokens hf.prods
    have lang' := C18_entry_language _ g' hg' hf'.tokens hf'.prods
    have key : ∀ ts, TextTokens rules src ts → (Den (ruleSet entry' rules' prods') (.rule entry') ((kept (skipNames names' rules') (retoken τ ts)).map (·.1)) ↔
        Den (ruleSet entry rules prods) (.rule entry) ((kept (skipNames names rules) ts).map (·.1))) := by
      intro ts hts
      rw [hskip ts hts]
      have e : (retoken τ (kept (skipNames names rules) ts)).map (·.1) = ((kept (skipNames names rules) ts).map (·.1)).map τ := by
        simp [retoken, List.map_map, Function.comp_def]
      rw [e]
      exact (lang' _).symm.trans (h1.sentence_iff.trans (lang _))
    constructor
    · rintro ⟨ts', k1, k2⟩
      obtain ⟨ts, rfl, k3⟩ := h2.textTokens_bwd k1
      exact ⟨ts, k3, (key ts k3).mp k2⟩
    · rintro ⟨ts, k1, k2⟩
      exact ⟨_, h2.textTokens k1, (key ts k1).mpr k2⟩

/-- The LR(1) parsers of both files accept the same texts. -/
theorem C71_accepts {p p' : LRProg} (hp : LRParserFor g .lr1 p) (hp' : LRParserFor g' .lr1 p') :
    (∃ fuel events pos, lrParse p'.machine input' fuel = .ok events pos) ↔ ∃ fuel events pos, lrParse p.machine input fuel = .ok events pos := by
  obtain ⟨φ, τ, _, _, hne', _, _, key⟩ := same_streams h hlex hlex' hne hg hg' hf names names' hnames src hin hin'
  exact (C62_accepts hlex' hne' hg' (h.sameRules.fine hf) hp' _ src hin').trans (key.trans (C62_accepts hlex hne hg hf hp _ src hin).symm)

/-- So do the LALR parsers, if no body uses the entry rule; and an LALR parser for one and an LR(1) parser for the other. -/
theorem C71_lalr_accepts (hu : (ruleSet entry rules prods).EntryUnused) {kind kind' : LRKind} (hk : kind.hasLa = true) (hk' : kind'.hasLa = true) {p p' : LRProg}
    (hp : LRParserFor g kind p) (hp' : LRParserFor g' kind' p') :
    (∃ fuel events pos, lrParse p'.machine input' fuel = .ok events pos) ↔ ∃ fuel events pos, lrParse p.machine input fuel = .ok events pos := by
  obtain ⟨φ, τ, _, _, hne', _, _, key⟩ := same_streams h hlex hlex' hne hg hg' hf names names' hnames src hin hin'
  exact (C62_lalr_accepts hlex' hne' hg' (h.sameRules.fine hf) hp' _ src hin' hk' (h.sameRules.entryUnused hu)).trans
    (key.trans (C62_lalr_accepts hlex hne hg hf hp _ src hin hk hu).symm)

/-- The callbacks of the parsers for grammars without conflicts correspond: those of the one are those of a tree, and those of the other are those of the renamed tree. -/
theorem C71_callbacks (hd : DistinctRules g) (hd' : DistinctRules g') {n n' : Nat} {tb tb' : LRTable} {p p' : LRProg} {allow allow' : Bool}
    (htb : generateTable g allow .lr1 n = .ok (.noConflicts tb)) (hp : genRust g tb = .ok p) (htb' : generateTable g' allow' .lr1 n' = .ok (.noConflicts tb'))
    (hp' : genRust g' tb' = .ok p') (fuel fuel' : Nat) (events events' : List (LREvent (List Char))) (pos pos' : Nat)
    (hr : lrParse p.machine input fuel = .ok events pos) (hr' : lrParse p'.machine input' fuel' = .ok events' pos') :
    ∃ φ τ R tree, SameGrammar φ τ g g' ∧ SameTokens ρ τ rules rules' ∧ RuleBij φ τ R g g' ∧ IsParseTree g.rules g.entry tree ∧ StreamIs input tree.tokens ∧
      TraceIs g events tree.postorder ∧ TraceIs g' events' (tree.rename τ R).postorder ∧ pos' = pos := by
  obtain ⟨φ, τ, h1, h2, hne', h3, h4, _⟩ := same_streams h hlex hlex' hne hg hg' hf names names' hnames src hin hin'
  have hf' := h.sameRules.fine hf
  obtain ⟨R, b, hb⟩ := C71_trees h1 hd hd'
  have wf := C19_well_formed _ _ hg
  have hner : NoEmptyRhs g := C19_no_empty_right_side _ g hg hf.noEmptySequence
  have hel := C27_epsilon_condition _ g hg hf.noEpsilonInSequence
  have hl := entry_not_left_recursive hg hf
  have wf' := C19_well_formed _ _ hg'
  have hner' : NoEmptyRhs g' := C19_no_empty_right_side _ g' hg' hf'.noEmptySequence
  have hl' := entry_not_left_recursive hg' hf'
  have hpf : LRParserFor g .lr1 p := ⟨allow, n, tb, .inl htb, hp⟩
  have hpf' : LRParserFor g' .lr1 p' := ⟨allow', n', tb', .inl htb', hp'⟩
  obtain ⟨tree, t1, t2, t3⟩ := C28_sound g wf hner .lr1 p hpf input fuel events pos hr
  obtain ⟨tree', t1', t2', t3'⟩ := C28_sound g' wf' hner' .lr1 p' hpf' input' fuel' events' pos' hr'
  have s1 : StreamIs input tree.tokens := ⟨t2.2, by rw [t2.1]; exact C29_lr1_end g wf hner hl p hpf input fuel events pos hr⟩
  have s2 : StreamIs input' tree'.tokens := ⟨t2'.2, by rw [t2'.1]; exact C29_lr1_end g' wf' hner' hl' p' hpf' input' fuel' events' pos' hr'⟩
  obtain ⟨w, e, hw⟩ := h4 _ s2
  obtain ⟨tree0, k1, k2⟩ := (hb _ w).2.2 tree' ⟨t1', e⟩
  have ew : tree.tokens = w := streamIs_inj s1 hw
  have := C32_unambiguous g wf hner hel hl allow .lr1 n tb htb _ tree tree0 t1 k1.1 (by rw [ew, k1.2])
  subst this
  refine ⟨φ, τ, R, tree, h1, h2, b, t1, s1, t3, k2 ▸ t3', ?_⟩
  rw [← t2.1, ← t2'.1, e, ew]
  simp [retoken]

/-- GLR parsers that return for one file and the other both return Ok, or both report an error, or both report an ambiguity. -/
theorem C71_glr (hu : (ruleSet entry rules prods).EntryUnused) (hd : DistinctRules g) (hd' : DistinctRules g') {kind kind' : LRKind} (hk : kind.hasLa = true)
    (hk' : kind'.hasLa = true) {p p' : GlrProg} (hp : GlrParserFor g kind p) (hp' : GlrParserFor g' kind' p') (ts : List (Nat × List Char)) (hts : TextTokens rules src ts)
    (fuel fuel' : Nat) (hr : ∀ events pos, glrParse p.machine input fuel ≠ .running events pos) (hr' : ∀ events pos, glrParse p'.machine input' fuel' ≠ .running events pos) :
    ((∃ events pos, glrParse p'.machine input' fuel' = .ok events pos) ↔ ∃ events pos, glrParse p.machine input fuel = .ok events pos) ∧
    ((∃ events pos errs, glrParse p'.machine input' fuel' = .unexpected events pos errs) ↔ ∃ events pos errs, glrParse p.machine input fuel = .unexpected events pos errs) ∧
    ((∃ events pos, glrParse p'.machine input' fuel' = .panic events pos) ↔ ∃ events pos, glrParse p.machine input fuel = .panic events pos) := by
  obtain ⟨φ, τ, h1, h2, hne', h3, h4, _⟩ := same_streams h hlex hlex' hne hg hg' hf names names' hnames src hin hin'
  have hf' := h.sameRules.fine hf
  obtain ⟨R, b, hb⟩ := C71_trees h1 hd hd'
  have wf := C19_well_formed _ _ hg
  have hner : NoEmptyRhs g := C19_no_empty_right_side _ g hg hf.noEmptySequence
  have hel := C27_epsilon_condition _ g hg hf.noEpsilonInSequence
  have wf' := C19_well_formed _ _ hg'
  have hner' : NoEmptyRhs g' := C19_no_empty_right_side _ g' hg' hf'.noEmptySequence
  have hel' := C27_epsilon_condition _ g' hg' hf'.noEpsilonInSequence
  have hs : StreamIs input (kept (skipNames names rules) ts) := (C62_stream hlex hne _ src hin _).mpr ⟨ts, hts, rfl⟩
  have d := glr_decided g wf hner hel hd (entryFresh_of_rules hg hf.prods hu) kind hk p hp _ input hs fuel hr
  have d' := glr_decided g' wf' hner' hel' hd' (entryFresh_of_rules hg' hf'.prods (h.sameRules.entryUnused hu)) kind' hk' p' hp' _ input' (h3 _ hs) fuel' hr'
  obtain ⟨b1, b2, b3⟩ := hb _ (kept (skipNames names rules) ts)
  refine ⟨d'.1.trans (Iff.trans ?_ d.1.symm), d'.2.1.trans (Iff.trans ?_ d.2.1.symm), d'.2.2.trans (Iff.trans ?_ d.2.2.symm)⟩
  · constructor
    · rintro ⟨u', k1, k2⟩
      obtain ⟨u, k3, rfl⟩ := b3 u' k1
      exact ⟨u, k3, fun v hv => b2 v u hv k3 (k2 _ (b1 v hv))⟩
    · rintro ⟨u, k1, k2⟩
      refine ⟨_, b1 u k1, fun v' hv' => ?_⟩
      obtain ⟨v, k3, rfl⟩ := b3 v' hv'
      rw [k2 v k3]
  · exact ⟨fun hn u hu' => hn _ (b1 u hu'), fun hn u' hu' => by obtain ⟨u, k, _⟩ := b3 u' hu'; exact hn u k⟩
  · constructor
    · rintro ⟨u', v', k1, k2, k3⟩
      obtain ⟨u, k4, rfl⟩ := b3 u' k2
      obtain ⟨v, k5, rfl⟩ := b3 v' k3
      exact ⟨u, v, fun e => k1 (by rw [e]), k4, k5⟩
    · rintro ⟨u, v, k1, k2, k3⟩
      exact ⟨_, _, fun e => k1 (b2 u v k2 k3 e), b1 u k2, b1 v k3⟩

end

/-! ## Non-vacuity: the file of C62 written in another order with other names, and an ambiguous grammar -/

def otherName (n : String) : String := if n = "n" then "number" else if n = "sum" then "n" else n

def otherTokens : List TokenRule :=
  [⟨"ws", none, .literal [' ']⟩, ⟨"plus", none, .literal ['+']⟩, ⟨"number", none, .pattern (.repetition 1 none (.char (.single '1')))⟩]

def otherProds : List ProdRule := [⟨"n", some "x", .sequence [.rule "number", .zeroOrMany (.sequence [.rule "plus", .rule "number"])]⟩]

def otherGrammar : Grammar where
  rules := [⟨3, [.eps], 0⟩, ⟨3, [.t 1, .t 2, .nt 3], 0⟩, ⟨0, [.t 2, .nt 3], 0⟩]
  anon := [.nt 3]
  productions := [(.nt 0, "n")]
  tokens := [(.t 0, "ws"), (.t 1, "plus"), (.t 2, "number")]
  entry := .nt 0
  entryOrigin := 0

theorem otherGrammar_built : Grammar.fromRuleSet (ruleSet "n" otherTokens otherProds) = .ok otherGrammar := GRes.of_same (by decide)

theorem sum_appears {m : String} (h : Appears (ruleSet "sum" sumTokens sumProds) m) : m = "n" ∨ m = "plus" ∨ m = "ws" ∨ m = "sum" := by
  rcases h with (h | ⟨p, hp, e⟩) | ⟨p, hp, hm⟩ | e
  · simp only [ruleSet, sumTokens, List.map_cons, List.map_nil, List.mem_cons, List.not_mem_nil, or_false] at h
    tauto
  · simp only [ruleSet, sumProds, List.mem_singleton] at hp
    subst hp
    exact .inr (.inr (.inr e.symm))
  · have := (C16_ok_only_if _ _ sumGrammar_built).2.1 p hp m hm
    rcases this with h | ⟨p, hp, e⟩
    · simp only [ruleSet, sumTokens, List.map_cons, List.map_nil, List.mem_cons, List.not_mem_nil, or_false] at h
      tauto
    · simp only [ruleSet, sumProds, List.mem_singleton] at hp
      subst hp
      exact .inr (.inr (.inr e.symm))
  · exact .inr (.inr (.inr e))

theorem sum_sameFile : SameFile otherName "sum" sumTokens sumProds "n" otherTokens otherProds where
  tokens := (List.reverse_perm _).symm
  productions := List.Perm.refl _
  entryName := rfl
  inj := by
    intro m n hm hn e
    rcases sum_appears hm with rfl | rfl | rfl | rfl <;> rcases sum_appears hn with rfl | rfl | rfl | rfl <;> first | rfl | exact absurd e (by decide)

/-- all hypotheses of `C71_accepts` hold, for every text -/
example (src : List Char) : ∃ t t' p p' input input', generateLexer 20 sumTokens = .ok (.ok t) ∧ generateLexer 20 otherTokens = .ok (.ok t') ∧ LRParserFor sumGrammar .lr1 p ∧
    LRParserFor otherGrammar .lr1 p' ∧ FedBy t (skipNames (· == "ws") sumTokens) (Lexer.new src) input ∧ FedBy t' (skipNames (· == "ws") otherTokens) (Lexer.new src) input' ∧
    ((∃ fuel events pos, lrParse p'.machine input' fuel = .ok events pos) ↔ ∃ fuel events pos, lrParse p.machine input fuel = .ok events pos) := by
  obtain ⟨t, ht⟩ := Res.of_tables (r := generateLexer 20 sumTokens) (by decide +kernel)
  obtain ⟨t', ht'⟩ := Res.of_tables (r := generateLexer 20 otherTokens) (by decide +kernel)
  obtain ⟨p, hp, _⟩ := lrTry_some (g := sumGrammar) (kind := .lr1) (fuel := 40) (w := []) (steps := 0) (r := .running [] 0) (by decide +kernel)
  obtain ⟨p', hp', _⟩ := lrTry_some (g := otherGrammar) (kind := .lr1) (fuel := 40) (w := []) (steps := 0) (r := .running [] 0) (by decide +kernel)
  obtain ⟨input, hin, _⟩ := C62_token_function ht sumTokens_nonempty (skipNames (· == "ws") sumTokens) src
  obtain ⟨input', hin', _⟩ := C62_token_function ht' (by
    intro r hr
    simp only [otherTokens, List.mem_cons, List.not_mem_nil, or_false] at hr
    rcases hr with rfl | rfl | rfl
    · exact sumTokens_nonempty ⟨"ws", none, .literal [' ']⟩ (by simp [sumTokens])
    · exact sumTokens_nonempty ⟨"plus", none, .literal ['+']⟩ (by simp [sumTokens])
    · exact sumTokens_nonempty ⟨"n", none, .pattern (.repetition 1 none (.char (.single '1')))⟩ (by simp [sumTokens])) (skipNames (· == "ws") otherTokens) src
  exact ⟨t, t', p, p', input, input', ht, ht', hp, hp', hin, hin', C71_accepts sum_sameFile ht ht' sumTokens_useful sumGrammar_built otherGrammar_built sum_fine _ _ (by decide) src hin hin' hp hp'⟩

def swappedRules : RuleSet where
  entry := "s"
  tokens := ["x", "p"]
  prods := [⟨"e", none, .rule "x"⟩, ⟨"s", none, .rule "e"⟩, ⟨"e", none, .sequence [.rule "e", .rule "p", .rule "e"]⟩]

def swappedGrammar : Grammar where
  rules := [⟨0, [.t 0], 0⟩, ⟨1, [.nt 0], 1⟩, ⟨0, [.nt 0, .t 1, .nt 0], 2⟩]
  anon := []
  productions := [(.nt 0, "e"), (.nt 1, "s")]
  tokens := [(.t 0, "x"), (.t 1, "p")]
  entry := .nt 1
  entryOrigin := 1

theorem swappedGrammar_built : Grammar.fromRuleSet swappedRules = .ok swappedGrammar := GRes.of_same (by decide)

theorem plus_sameRules : SameRules id plusRules swappedRules where
  tokens := List.Perm.swap _ _ _
  prods := (List.Perm.cons _ (List.Perm.swap _ _ [])).trans (List.Perm.swap _ _ _)
  entry := rfl
  inj := fun _ _ _ _ e => e

/-- the grammars, the conflict of the one and the conflict of the other -/
example : ∃ φ τ, SameGrammar φ τ plusGrammar swappedGrammar ∧
    generateTable plusGrammar false .lr1 60 = .ok (.badConflicts [.shiftReduce 4 ⟨some 1, 3, none⟩ (.t 0)]) ∧
    generateTable swappedGrammar false .lr1 60 = .ok (.badConflicts [.shiftReduce 4 ⟨some 2, 3, none⟩ (.t 1)]) := by
  obtain ⟨φ, τ, h, _⟩ := sameGrammar plus_sameRules plusGrammar_built swappedGrammar_built (by decide) (by decide)
  exact ⟨φ, τ, h, lrConflicts_some (by decide +kernel), lrConflicts_some (by decide +kernel)⟩

example : DistinctRules plusGrammar ∧ DistinctRules swappedGrammar := by unfold DistinctRules; decide
example : plusRules.Fits ∧ TokensFit plusGrammar ∧ TokensFit swappedGrammar := ⟨.inl (by decide), by intro a ha; simp [plusGrammar, Grammar.terminals] at ha; omega, by intro a ha; simp [swappedGrammar, Grammar.terminals] at ha; omega⟩

end Verif
