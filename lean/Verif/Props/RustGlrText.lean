import Verif.Proofs.RustGlrCalls
import Verif.Props.RustLRText
import Verif.Props.GLR

/-!
# C76: what the functions in the text of the generated Rust GLR parser return

`Verif/Spec/RustSource.lean` says how Rust text is read and run, `Verif/Spec/RustGlrText.lean` what the statements of the functions mean that depend on the grammar. C38 to C40, C53 and C54
are about the modelled program, the `GlrMachine` of `genGlr`.
-/

set_option autoImplicit false

namespace Verif

variable {T : Type}

/-- The file `parser.rs` with a GLR parser, and the file `tokens.rs`, made for a grammar: rules of tokens, a table, the program of the table. The names are words, and the files are such that an `enum`
in them has no variant twice (otherwise `rustc` rejects them; C42 says when that is so). -/
structure GlrParserFiles (rs : RuleSet) (g : Grammar) (rules : List TokenRule) (tb : LRTable) (p : GlrProg) (toks text : List Char) : Prop where
  grammar : Grammar.fromRuleSet rs = .ok g
  tokens : rs.tokens = rules.map (·.name)
  fewTokens : rs.tokens.length ≤ 65536
  fewProds : rs.prods.length ≤ 65536
  words : rs.WordNames
  tagWords : TagWords rs
  program : genGlr g tb = .ok p
  tokensFile : rustTokensFile rules = .ok toks
  parserFile : rustGlrFile rs g p = .ok text
  tokensOnce : ∀ vs, rustEnum "TokenType".toList toks = some vs → vs.Nodup
  ntsOnce : ∀ vs, rustEnum "NonTerminalType".toList text = some vs → vs.Nodup

section
variable {rs : RuleSet} {g : Grammar} {rules : List TokenRule} {tb : LRTable} {p : GlrProg} {toks text : List Char} (hf : GlrParserFiles rs g rules tb p toks text)

include hf in
theorem GlrParserFiles.gwords : g.WordNames := wordNames hf.grammar hf.fewTokens hf.fewProds hf.words

include hf in
theorem glr_variants : ∃ ws, rules.mapM (fun r => tokenEnumName r.name.toList) = .ok ws ∧ rustEnum "TokenType".toList toks = some ("EndOfFile".toList :: ws) := by
  refine tokens_file_rust ?_ hf.tokensFile
  intro r hr
  exact hf.words.1 r.name (by rw [hf.tokens]; exact List.mem_map.mpr ⟨r, hr, rfl⟩)

/-- the functions in a text return what a machine has: the actions or the expected tokens, the next state, the length and the non-terminal of a rule -/
structure GlrCalls (text : List Char) (variants : List (List Char)) (g : Grammar) (m : GlrMachine) (T : Type) : Prop where
  actions : ∀ (q : Nat) (tk : Tok) (data : T), rustNextActions text q (tokVariant variants tk) data = match m.nextActions q tk with
    | .acts l => .ok (.ok (l.map rActVal))
    | .unexpected es => .ok (.unexpected (tokVariant variants tk) data (es.map (optVariant variants)))
    | .panic => .error .panic
  goto : ∀ (q : Nat) (s : StackSym), (∀ A, s = .nonTerminal A → Sym.nt A ∈ g.nonTerminals) → rustNextGotoOf text q (rStackVal variants g s) = .ok ((m.nextGoto q s).map rGotoVal)
  reduction : ∀ i, rustRuleReduction text (rRuleVal i) = match m.reduction i with
    | none => .error .panic
    | some (k, A) => .ok (.pair (.num k) (rStackVal variants g (.nonTerminal A)))

include hf in
/-- C76. The functions of `parser.rs` that depend on the grammar, read as Rust and run, return for every state, token, symbol and rule what the modelled program has. The tokens are the variants of
the `enum` in `tokens.rs`. -/
theorem C76_functions (T : Type) : ∃ variants, rustEnum "TokenType".toList toks = some variants ∧ variants.length = rs.tokens.length + 1 ∧ GlrCalls text variants g p.machine T := by
  obtain ⟨ws, hws, hv⟩ := glr_variants hf
  have hnd := hf.tokensOnce _ hv
  refine ⟨_, hv, by rw [List.length_cons, (mapM_ok _ _ hws).1, hf.tokens, List.length_map], ?_⟩
  have hgw := hf.gwords
  have hlen : rs.tokens.length = rules.length := by rw [hf.tokens, List.length_map]
  have hnt := ntFits_of (hf.ntsOnce _ (glr_nts hgw hf.tagWords hf.parserFile))
  obtain ⟨s1, s2⟩ := glr_prog_syms hf.program
  have htn := tokNames_of hf.grammar hf.fewTokens hf.tokens hws
  refine ⟨fun q tk data => ?_, fun q s hs => glr_goto hgw hf.tagWords hf.parserFile htn hnt ?_ (fun y hy x hx => (s2 y hy x hx).2) q s hs, glr_reduction hgw hf.tagWords hf.parserFile _⟩
  · refine (glr_action hgw hf.tagWords hf.parserFile htn ?_ q tk data).trans ?_
    · intro y hy x hx
      refine symFits_of hws hnd fun a ha => ?_
      have := (s1 y hy).1 x hx
      rw [ha] at this
      rcases List.mem_append.mp this with h | h
      · rw [← hlen]; exact token_below hf.grammar hf.fewTokens h
      · simp at h
    · show rGlrResult _ _ _ (p.machine.nextActions q tk) = _
      cases p.machine.nextActions q tk <;> rfl
  · intro y hy x hx
    have := (s2 y hy x hx).1
    constructor
    · refine symFits_of hws hnd fun a ha => ?_
      rw [ha] at this
      rcases List.mem_append.mp this with h | h
      · rw [← hlen]; exact token_below hf.grammar hf.fewTokens h
      · obtain ⟨A, e⟩ := nonTerminals_nt hf.grammar h
        cases e
    · intro A hA
      rw [hA] at this
      rcases List.mem_append.mp this with h | h
      · obtain ⟨a, e⟩ := terminals_t hf.grammar h
        cases e
      · exact h

include hf in
/-- `do_visit` calls for a rule the method that is its callback, as C41 has it, and panics for no rule -/
theorem C76_calls (i : Nat) (x : List Char) : rustDoVisit text (rRuleVal i) = .ok x ↔ IsCallback rs g i x := by
  rw [glr_visit hf.gwords hf.tagWords hf.parserFile, ← (C41_visits rs g).2.2]
  constructor
  · intro h
    cases hfi : (ruleVisits rs g).find? (fun x => x.1 = i) with
    | none => rw [hfi] at h; cases h
    | some y =>
      rw [hfi] at h
      cases h
      have h1 := List.mem_of_find?_eq_some hfi
      have h2 := List.find?_some hfi
      simp only [decide_eq_true_eq] at h2
      rw [← h2]
      exact h1
  · intro h
    cases hfi : (ruleVisits rs g).find? (fun x => x.1 = i) with
    | none =>
      have := List.find?_eq_none.mp hfi _ h
      simp at this
    | some y =>
      have h1 := List.mem_of_find?_eq_some hfi
      have h2 := List.find?_some hfi
      simp only [decide_eq_true_eq] at h2
      obtain ⟨j, name⟩ := y
      cases h2
      obtain ⟨r1, e1, rfl⟩ := mem_ruleVisits.mp h1
      obtain ⟨r2, e2, rfl⟩ := mem_ruleVisits.mp h
      rw [e1] at e2
      cases e2
      rfl

include hf in
/-- the declarations in the text: `Visitor` has `shift` and one method for each rule, `DebugVisitor` defines the same methods, `NonTerminalType` has one variant for each non-terminal, `ReducedRule`
one for each rule -/
theorem C76_declared : rustTrait "Visitor".toList text = some ("shift".toList :: visitorMethods rs g) ∧
    rustImpl "Visitor".toList "DebugVisitor".toList text = some ("shift".toList :: visitorMethods rs g) ∧
    (∃ vs, rustEnum "NonTerminalType".toList text = some vs ∧ vs.length = g.nonTerminals.length) ∧
    rustEnum "ReducedRule".toList text = some ((List.range g.rules.length).map fun i => "Rule".toList ++ decimal i) := by
  refine ⟨glr_trait hf.gwords hf.tagWords hf.parserFile, glr_debugNames hf.gwords hf.tagWords hf.parserFile, ⟨_, glr_nts hf.gwords hf.tagWords hf.parserFile, by rw [List.length_map]⟩, ?_⟩
  rw [glr_rules hf.gwords hf.tagWords hf.parserFile, (genGlr_spec hf.program).reductions, List.length_map]

include hf in
/-- The method of `DebugVisitor` for a rule prints the rule, if no method is defined twice (otherwise `rustc` rejects the file). -/
theorem C76_debug (hn : ∀ ms, rustImpl "Visitor".toList "DebugVisitor".toList text = some ms → ms.Nodup) (i : Nat) (x : List Char) (hx : IsCallback rs g i x) :
    ∃ rule t, g.rules[i]? = some rule ∧ ruleText g rule = .ok t ∧ rustDebugBlock x text = some (.word "println".toList (.sym ['!'] (.group .paren (.str t .nil) (.sym [';'] .nil)))) := by
  have h1 := hn _ (glr_debugNames hf.gwords hf.tagWords hf.parserFile)
  exact glr_debug hf.gwords hf.tagWords hf.parserFile (List.nodup_cons.mp h1).2 ((C41_visits rs g).2.2 i x |>.mpr hx)

end

/-! ## When the file is written -/

/-- The file is written if no name has an empty segment or one that begins with a char outside ASCII; it is not written if the name of a production has one. -/
theorem C76_written (rs : RuleSet) (g : Grammar) (hg : Grammar.fromRuleSet rs = .ok g) (hrt : rs.tokens.length ≤ 65536) (hpr : rs.prods.length ≤ 65536) (tb : LRTable) (p : GlrProg)
    (hp : genGlr g tb = .ok p) :
    ((∀ n ∈ rs.tokens, ¬ BadSegment n.toList) → (∀ x ∈ rs.prods, ¬ BadSegment x.name.toList) → ∃ text, rustGlrFile rs g p = .ok text) ∧
    ((∃ x ∈ rs.prods, BadSegment x.name.toList) → ∀ text, rustGlrFile rs g p ≠ .ok text) := by
  have wf := C19_well_formed _ _ hg
  constructor
  · intro hb1 hb2
    obtain ⟨s1, s2⟩ := glr_prog_syms hp
    have m1 : ∃ fs, rustMethods rs g = .ok fs := by
      have : ∃ fss, ((rulesByNt g).mapM fun e => e.2.zipIdx.mapM fun r => rustMethod rs g e.1 e.2.length r.2 r.1) = .ok fss := by
        refine mapM_total _ fun e he => mapM_total _ fun r hr => ?_
        have hv : (r.1, callbackName rs g e.1 e.2.length r.2 r.1) ∈ ruleVisits rs g := List.mem_flatMap.mpr ⟨e, he, List.mem_map.mpr ⟨r, hr, rfl⟩⟩
        obtain ⟨rule, h1, _⟩ := mem_ruleVisits.mp hv
        obtain ⟨t, ht⟩ := ruleText_ok wf (List.mem_of_getElem? h1)
        exact ⟨_, by simp only [rustMethod, h1, ht]; rfl⟩
      obtain ⟨fss, h⟩ := this
      exact ⟨_, by unfold rustMethods; rw [h]; rfl⟩
    have m0 : ∃ fs, rustDebugMethods rs g = .ok fs := by
      have : ∃ fss, ((rulesByNt g).mapM fun e => e.2.zipIdx.mapM fun r => rustDebugMethod rs g e.1 e.2.length r.2 r.1) = .ok fss := by
        refine mapM_total _ fun e he => mapM_total _ fun r hr => ?_
        have hv : (r.1, callbackName rs g e.1 e.2.length r.2 r.1) ∈ ruleVisits rs g := List.mem_flatMap.mpr ⟨e, he, List.mem_map.mpr ⟨r, hr, rfl⟩⟩
        obtain ⟨rule, h1, _⟩ := mem_ruleVisits.mp hv
        obtain ⟨t, ht⟩ := ruleText_ok wf (List.mem_of_getElem? h1)
        exact ⟨_, by simp only [rustDebugMethod, h1, ht]; rfl⟩
      obtain ⟨fss, h⟩ := this
      exact ⟨_, by unfold rustDebugMethods; rw [h]; rfl⟩
    have m2 : ∃ fs, p.actions.zipIdx.mapM (rustGlrStateActions g) = .ok fs := by
      refine mapM_total _ fun y hy => ?_
      have hy' := List.mem_zipIdx' hy
      have hya : y.1 ∈ p.actions := by rw [hy'.2]; exact List.getElem_mem _
      have a1 : ∃ fs, y.1.1.mapM (rustGlrActionArm g y.2) = .ok fs := by
        refine mapM_total _ fun x hx => ?_
        have := (s1 _ hya).1 x hx
        obtain ⟨s, a⟩ := x
        cases s with
        | t b =>
          obtain ⟨f, hf⟩ := tokenIdent_ok hg hrt hb1 (a := b) (by simpa using this)
          exact ⟨_, by simp only [rustGlrActionArm, hf]; rfl⟩
        | _ => exact ⟨_, rfl⟩
      have a2 : ∃ fs, y.1.2.mapM (rustGlrExpected g) = .ok fs := by
        refine mapM_total _ fun x hx => ?_
        obtain ⟨s, hs, e⟩ := (s1 _ hya).2 x hx
        cases x with
        | some b =>
          have hsb : s = .t b := by cases s <;> cases e; rfl
          obtain ⟨f, hf⟩ := tokenIdent_ok hg hrt hb1 (a := b) (by rw [hsb] at hs; simpa using hs)
          exact ⟨_, by simp only [rustGlrExpected, hf]; rfl⟩
        | none => exact ⟨_, rfl⟩
      obtain ⟨fs, h1⟩ := a1
      obtain ⟨es, h2⟩ := a2
      exact ⟨_, by unfold rustGlrStateActions; rw [h1, res_bind_of_ok, h2]; rfl⟩
    have m3 : ∃ fs, p.gotos.zipIdx.mapM (rustGlrStateGotos g) = .ok fs := by
      refine mapM_total _ fun y hy => ?_
      have hy' := List.mem_zipIdx' hy
      have hya : y.1 ∈ p.gotos := by rw [hy'.2]; exact List.getElem_mem _
      have a1 : ∃ fs, y.1.mapM (rustGlrGotoArm g y.2) = .ok fs := by
        refine mapM_total _ fun x hx => ?_
        have := (s2 _ hya x hx).1
        obtain ⟨s, a⟩ := x
        cases s with
        | t b =>
          have hb : Sym.t b ∈ g.terminals := by
            rcases List.mem_append.mp this with h | h
            · exact h
            · obtain ⟨A, e⟩ := nonTerminals_nt hg h
              cases e
          obtain ⟨f, hf⟩ := tokenIdent_ok hg hrt hb1 hb
          exact ⟨_, by simp only [rustGlrGotoArm, hf]; rfl⟩
        | nt A =>
          obtain ⟨f, hf⟩ := ntIdent_ok hg hpr hb2 A
          exact ⟨_, by simp only [rustGlrGotoArm, hf]; rfl⟩
        | _ => exact ⟨_, rfl⟩
      obtain ⟨fs, h1⟩ := a1
      exact ⟨_, by unfold rustGlrStateGotos; rw [h1]; rfl⟩
    have m4 : ∃ fs, g.nonTerminals.mapM (rustNtVariant g) = .ok fs := by
      refine mapM_total _ fun s hs => ?_
      obtain ⟨A, rfl⟩ := nonTerminals_nt hg hs
      exact ntIdent_ok hg hpr hb2 A
    have m5 : ∃ fs, p.reductions.zipIdx.mapM (rustReduction g) = .ok fs := by
      refine mapM_total _ fun x _ => ?_
      obtain ⟨f, hf⟩ := ntIdent_ok hg hpr hb2 x.1.2
      exact ⟨_, by unfold rustReduction; rw [hf]; rfl⟩
    obtain ⟨f1, h1⟩ := m1
    obtain ⟨f0, h0⟩ := m0
    obtain ⟨f2, h2⟩ := m2
    obtain ⟨f3, h3⟩ := m3
    obtain ⟨f4, h4⟩ := m4
    obtain ⟨f5, h5⟩ := m5
    exact ⟨_, by unfold rustGlrFile; rw [h1, res_bind_of_ok, h0, res_bind_of_ok, h2, res_bind_of_ok, h3, res_bind_of_ok, h4, res_bind_of_ok, h5]; rfl⟩
  · rintro ⟨x, hx, hbad⟩ text h
    unfold rustGlrFile at h
    obtain ⟨_, _, h⟩ := res_bind_ok.mp h
    obtain ⟨_, _, h⟩ := res_bind_ok.mp h
    obtain ⟨_, _, h⟩ := res_bind_ok.mp h
    obtain ⟨_, _, h⟩ := res_bind_ok.mp h
    obtain ⟨fs, h4, h⟩ := res_bind_ok.mp h
    obtain ⟨base, pats, ok⟩ := grammarOk hg
    obtain ⟨A, _, h1, _⟩ := ok.prod x hx
    have h2 := (ok.prodN hpr _ _).mpr h1
    have hm : Sym.nt A ∈ g.nonTerminals := List.mem_append_left _ (List.mem_map.mpr ⟨_, mget?_mem h2, rfl⟩)
    obtain ⟨i, hi, e⟩ := List.getElem_of_mem hm
    obtain ⟨y, _, hy⟩ := (mapM_ok _ _ h4).2 i (.nt A) (by rw [List.getElem?_eq_getElem hi, e])
    have hpn : g.productionName (.nt A) = some x.name := h2
    simp only [rustNtVariant, rustNtIdent, ntEnumName, hpn, (C42_panics x.name.toList).1.mpr hbad] at hy
    cases hy

/-- The conditions of C76 are met when all names are words with segments that begin with letters, names of tokens and names of productions are not equal up to case, and no production is named
`anon` and a number. -/
theorem C76_files (rs : RuleSet) (g : Grammar) (hg : Grammar.fromRuleSet rs = .ok g) (hrt : rs.tokens.length ≤ 65536) (hpr : rs.prods.length ≤ 65536) (hw : rs.WordNames) (hta : TagWords rs)
    (tb : LRTable) (p : GlrProg) (hp : genGlr g tb = .ok p) (rules : List TokenRule) (hrs : rs.tokens = rules.map (·.name)) (hgt : ∀ n ∈ rs.tokens, GoodName n.toList)
    (hst : rs.tokens.Pairwise (fun a b => ¬ SameName a.toList b.toList)) (hgp : ∀ p ∈ rs.prods, GoodName p.name.toList)
    (hsp : ∀ p ∈ rs.prods, ∀ q ∈ rs.prods, SameName p.name.toList q.name.toList → p.name = q.name)
    (ha : ∀ p ∈ rs.prods, ∀ n, ¬ SameName p.name.toList ("anon".toList ++ decimal n)) : ∃ toks text, GlrParserFiles rs g rules tb p toks text := by
  obtain ⟨text, htext⟩ := (C76_written rs g hg hrt hpr tb p hp).1 (fun n hn => goodName_not_bad (hgt n hn)) (fun x hx => goodName_not_bad (hgp x hx))
  obtain ⟨vs, h1, _, h3⟩ := C42_rust_tokens (names := rules.map fun r => r.name.toList) (by
    intro n hn
    obtain ⟨r, hr, rfl⟩ := List.mem_map.mp hn
    exact hgt _ (by rw [hrs]; exact List.mem_map.mpr ⟨r, hr, rfl⟩))
  have hvs : vs.Nodup := h3.mpr (by
    rw [hrs, List.pairwise_map] at hst
    rw [List.pairwise_map]
    exact hst)
  unfold rustTokenVariants at h1
  obtain ⟨ws, h4, h5⟩ := res_bind_ok.mp h1
  cases h5
  rw [List.mapM_map] at h4
  have htoks : ∃ toks, rustTokensFile rules = .ok toks := by
    unfold rustTokensFile
    exact ⟨_, by rw [show rules.mapM (fun r => tokenEnumName r.name.toList) = .ok ws from h4]; rfl⟩
  obtain ⟨toks, htoks⟩ := htoks
  refine ⟨toks, text, hg, hrs, hrt, hpr, hw, hta, hp, htoks, htext, ?_, ?_⟩
  · intro us hus
    obtain ⟨ws', h6, h7⟩ := tokens_file_rust (rules := rules) (fun r hr => hw.1 r.name (by rw [hrs]; exact List.mem_map.mpr ⟨r, hr, rfl⟩)) htoks
    rw [show rules.mapM (fun r => tokenEnumName r.name.toList) = .ok ws from h4] at h6
    cases h6
    rw [h7] at hus
    cases hus
    exact hvs
  · intro us hus
    rw [glr_nts (wordNames hg hrt hpr hw) hta htext] at hus
    cases hus
    have wf := C19_well_formed _ _ hg
    refine (List.nodup_map_iff_inj_on wf.nodup).mpr ?_
    intro x hx y hy e
    obtain ⟨A, rfl⟩ := nonTerminals_nt hg hx
    obtain ⟨B, rfl⟩ := nonTerminals_nt hg hy
    obtain ⟨vA, hA⟩ := (C42_non_terminals hg hpr hgp hsp ha A A).1
    obtain ⟨vB, hB⟩ := (C42_non_terminals hg hpr hgp hsp ha B B).1
    simp only [rNtV, Sym.index, hA, hB] at e
    rw [(C42_non_terminals hg hpr hgp hsp ha A B).2 (by rw [hA, hB, e])]

/-! ## Cases -/

/-- the conditions of C76 for a grammar -/
theorem nested_glr (tb : LRTable) (p : GlrProg) (hp : genGlr wordGrammar tb = .ok p) : ∃ toks text, GlrParserFiles nestedRules wordGrammar wordTokens tb p toks text := by
  refine C76_files nestedRules wordGrammar nestedRules_built (by decide) (by decide) ⟨wordRules_words.1, ?_⟩ ?_ tb p hp wordTokens rfl ?_ ?_ ?_ ?_ ?_
  · intro x hx
    rw [nested_prods hx]
    unfold IsWord; decide
  · intro x hx t ht
    simp only [nestedRules, List.mem_cons, List.not_mem_nil, or_false] at hx
    rcases hx with rfl | rfl
    · cases ht; unfold IsWord; decide
    · cases ht
  · intro n hn
    simp only [nestedRules, wordRules, List.mem_cons, List.not_mem_nil, or_false] at hn
    rcases hn with rfl | rfl | rfl <;> exact goodName_of (by decide)
  · simp only [nestedRules, wordRules]
    unfold SameName
    decide
  · intro x hx
    rw [nested_prods hx]
    exact goodName_of (by decide)
  · intro x hx y hy _
    rw [nested_prods hx, nested_prods hy]
  · intro x hx n h
    rw [nested_prods hx] at h
    have := congrArg List.length h
    simp at this


/-- what the program made of this grammar has -/
def wordGlr : Bool :=
  match generateTable wordGrammar true .lr1 60 with
  | .ok (.noConflicts tb) =>
    match genGlr wordGrammar tb with
    | .ok p => decide (p.machine.nextActions 0 (.tok 0) = .acts [.shift] ∧ p.machine.nextActions 0 (.tok 1) = .unexpected [some 0, some 2] ∧ p.machine.nextGoto 0 (.nonTerminal 0) = some .accept ∧
        p.machine.reduction 0 = some (3, 0))
    | _ => false
  | _ => false

/-- the functions of the text for some arguments, and a method of the debug visitor -/
example : ∃ tb p toks text, LRTableFor wordGrammar .lr1 tb ∧ GlrParserFiles nestedRules wordGrammar wordTokens tb p toks text ∧
    rustNextActions text 0 "TkLp".toList 7 = .ok (.ok [.variant "Action".toList "Shift".toList]) ∧
    rustNextActions text 0 "TkRp".toList 7 = .ok (.unexpected "TkRp".toList 7 ["TkLp".toList, "TkX".toList]) ∧
    rustNextGotoOf text 0 (.field "StackSymbol".toList "NonTerminal".toList "non_terminal".toList (.variant "NonTerminalType".toList "NtS".toList)) =
      .ok (some (.variant "Goto".toList "Accept".toList)) ∧
    rustDoVisit text (.variant "ReducedRule".toList "Rule0".toList) = .ok "reduce_s_nested".toList ∧
    ∃ t, rustDebugBlock "reduce_s_nested".toList text = some (.word "println".toList (.sym ['!'] (.group .paren (.str t .nil) (.sym [';'] .nil)))) := by
  have h : wordGlr = true := by decide +kernel
  unfold wordGlr at h
  split at h
  · rename_i tb ht
    split at h
    · rename_i p hp
      obtain ⟨h1, h2, h3, h4⟩ := decide_eq_true_eq.mp h
      obtain ⟨toks, text, hf⟩ := nested_glr tb p hp
      obtain ⟨ws, hws, hv⟩ := glr_variants hf
      obtain ⟨vs, hv', _, key⟩ := C76_functions hf Nat
      rw [hv] at hv'
      cases hv'
      have hws' : wordTokens.mapM (fun r => tokenEnumName r.name.toList) = .ok ["TkLp".toList, "TkRp".toList, "TkX".toList] := by decide +kernel
      rw [hws'] at hws
      cases hws
      have hc : IsCallback nestedRules wordGrammar 0 "reduce_s_nested".toList := (C41_visits nestedRules wordGrammar).2.2 _ _ |>.mp (by decide +kernel)
      refine ⟨tb, p, toks, text, ⟨true, 60, .inl ht⟩, hf, ?_, ?_, ?_, (C76_calls hf 0 _).mpr hc, ?_⟩
      · have := key.actions 0 (.tok 0) 7
        rw [h1] at this
        exact this
      · have := key.actions 0 (.tok 1) 7
        rw [h2] at this
        exact this
      · have := key.goto 0 (.nonTerminal 0) (by intro A hA; cases hA; decide)
        rw [h3] at this
        exact Eq.trans (congrArg (rustNextGotoOf text 0) (by decide +kernel)) this
      · obtain ⟨_, t, _, _, h5⟩ := C76_debug hf (by
          intro ms hms
          rw [(C76_declared hf).2.1] at hms
          cases hms
          decide +kernel) 0 _ hc
        exact ⟨t, h5⟩
    · cases h
  · cases h

end Verif
