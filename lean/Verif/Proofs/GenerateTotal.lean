import Mathlib.Data.List.Dedup
import Verif.Proofs.Generate
import Verif.Proofs.GlrGraph
import Verif.Proofs.EbnfCond
import Verif.Proofs.GrammarTrans
import Verif.Props.Precedence
import Verif.Props.Names
import Verif.Props.CppLR
import Verif.Props.Table
import Verif.Props.LL
import Verif.Props.LR
import Verif.Props.Grammar
import Verif.Props.Conflicts

/-! Proofs for `Verif/Props/Generate.lean`: runs that come to an end. -/

set_option autoImplicit false

namespace Verif

/-! ## right sides -/

theorem trans_width {so : String → Option Sym} {tp : Nat → Option ProdPattern} {p : ProdPattern} {ss : List Sym} (h : Trans so tp p ss) : ss.length = p.width := by
  induction h with
  | seqNil => rfl
  | seqCons h1 h2 ih1 ih2 => rw [List.length_append, ih1, ih2]; rfl
  | _ => rfl

theorem occurs_trans {p q r : ProdPattern} (h1 : Occurs p q) (h2 : Occurs q r) : Occurs p r := by
  induction h2 with
  | here => exact h1
  | sequence hm _ ih => exact .sequence hm ih
  | alternative hm _ ih => exact .alternative hm ih
  | oneOrMany _ ih => exact .oneOrMany ih
  | zeroOrMany _ ih => exact .zeroOrMany ih
  | optional _ ih => exact .optional ih

theorem shortRhs_of_rules {rs : RuleSet} {g : Grammar} (hg : Grammar.fromRuleSet rs = .ok g) (hw : ∀ r ∈ rs.prods, ∀ p, Occurs p r.pattern → p.width ≤ 254) : ShortRhs g := by
  obtain ⟨base, pats, h⟩ := grammarOk hg
  have hpat : ∀ A q, tpOf base pats A = some q → ∃ p ∈ rs.prods, Occurs q p.pattern := by
    intro A q hq
    unfold tpOf at hq
    split at hq
    · cases hq
    · exact h.occurs q (List.mem_of_getElem? hq)
  intro r hr
  rcases h.good r hr with ⟨q, h1, h2⟩ | ⟨pr, h1, h2, h3⟩
  · obtain ⟨p, hp, ho⟩ := hpat _ _ h1
    generalize r.rhs = rhs at h2
    cases h2 with
    | alt hm ht => have := hw p hp _ (occurs_trans (.alternative hm .here) ho); have := trans_width ht; omega
    | plusOne ht => have := hw p hp _ (occurs_trans (.oneOrMany .here) ho); have := trans_width ht; omega
    | plusMore ht => have := hw p hp _ (occurs_trans (.oneOrMany .here) ho); have := trans_width ht; simp; omega
    | starMore ht => have := hw p hp _ (occurs_trans (.zeroOrMany .here) ho); have := trans_width ht; simp; omega
    | starNil => simp
    | optSome ht => have := hw p hp _ (occurs_trans (.optional .here) ho); have := trans_width ht; omega
    | optNone => simp
  · have := hw pr (List.mem_of_getElem? h1) _ .here
    have := trans_width h3
    omega

/-! ## names -/

theorem nonTerminal_names {rs : RuleSet} {g : Grammar} (hg : Grammar.fromRuleSet rs = .ok g) (hP : rs.prods.length ≤ 65536) (hn : ∀ p ∈ rs.prods, ¬ BadSegment p.name.toList) :
    ∃ ns, g.nonTerminals.mapM (ntVariant g) = .ok ns := by
  obtain ⟨base, pats, h⟩ := grammarOk hg
  have wf := C19_well_formed _ _ hg
  refine mapM_total _ fun s hs => ?_
  have hnt : ∃ A, s = .nt A := by
    rw [Grammar.nonTerminals, List.mem_append] at hs
    rcases hs with hs | hs
    · obtain ⟨⟨s', n⟩, hm, rfl⟩ := List.mem_map.mp hs
      have : (mget? s' g.productions).isSome := by rw [mem_mget? h.prodS hm]; rfl
      obtain ⟨A, hA, _⟩ := h.prodK _ this
      exact ⟨A, hA⟩
    · rw [h.anon] at hs
      obtain ⟨A, _, rfl⟩ := List.mem_map.mp hs
      exact ⟨A, rfl⟩
  obtain ⟨A, rfl⟩ := hnt
  unfold ntVariant ntEnumName Grammar.productionName
  cases hp : mget? (Sym.nt A) g.productions with
  | none => exact ⟨"NtAnon".toList ++ decimal A, by simp only [hp]⟩
  | some name =>
    have hr := (h.prodN hP _ _).mp hp
    obtain ⟨p, hp', rfl⟩ : ∃ p ∈ rs.prods, p.name = name := resolve_prod hr
    have := C42_panics p.name.toList
    cases hc : upperCamel p.name.toList with
    | ok c => exact ⟨"Nt".toList ++ c, by simp only [hp, hc]; rfl⟩
    | error e =>
      cases e with
      | panic => exact absurd (this.1.mp hc) (hn p hp')
      | fuel => exact absurd hc this.2

theorem tokenFile_total {lang : Language} {tokens : List TokenRule} (hn : lang = .rust → ∀ r ∈ tokens, ¬ BadSegment r.name.toList) : ∃ vs, tokenFile lang tokens = .ok (.tokens vs) := by
  unfold tokenFile
  cases lang with
  | cpp => exact ⟨_, rfl⟩
  | rust =>
    obtain ⟨vs, h⟩ : ∃ vs, (tokens.map (·.name.toList)).mapM tokenEnumName = .ok vs := by
      refine mapM_total _ fun n hm => ?_
      obtain ⟨r, hr, rfl⟩ := List.mem_map.mp hm
      have := C42_panics r.name.toList
      unfold tokenEnumName
      cases hc : upperCamel r.name.toList with
      | ok c => exact ⟨_, rfl⟩
      | error e =>
        cases e with
        | panic => exact absurd (this.1.mp hc) (hn rfl r hr)
        | fuel => exact absurd hc this.2
    refine ⟨"EndOfFile".toList :: vs, ?_⟩
    simp only [rustTokenVariants]
    rw [h]
    rfl

/-! ## the arms -/

theorem writeParser_total {g : Grammar} {genTable : Bool} {tb : LRTable} {file : Res Written} (written : List Written) (ht : ∃ text, outputTable g tb = .ok text) (hf : ∃ w, file = .ok w) :
    ∃ ws, writeParser genTable g tb file written = (ws, .ok) := by
  obtain ⟨text, ht⟩ := ht
  obtain ⟨w, rfl⟩ := hf
  unfold writeParser
  rw [ht]
  cases genTable <;> exact ⟨_, rfl⟩

section
variable {lang : Language} {contents : List Char} {rules : SpannedRules} (hr : GoodRules lang contents rules) {g : Grammar} (hg : Grammar.fromRuleSet rules.ruleSet = .ok g)
include hr hg

theorem good_short : ShortRhs g := by
  refine shortRhs_of_rules hg fun r hm p ho => ?_
  simp only [SpannedRules.ruleSet, List.mem_map] at hm
  obtain ⟨x, hx, rfl⟩ := hm
  exact hr.width x hx p ho

theorem good_origins : OriginsQuotable contents rules.prods g := by
  intro r hm
  obtain ⟨p, h1, _⟩ := C19_origin _ g hg (by simpa [SpannedRules.ruleSet] using hr.prods) r hm
  simp only [SpannedRules.ruleSet, List.getElem?_map, Option.map_eq_some_iff] at h1
  obtain ⟨x, hx, _⟩ := h1
  exact ⟨x, hx, hr.prodsQuotable x (List.mem_of_getElem? hx)⟩

theorem good_nonTerminals (hl : lang = .rust) :
    ∃ ns, g.nonTerminals.mapM (ntVariant g) = .ok ns := by
  refine nonTerminal_names hg (by simpa [SpannedRules.ruleSet] using hr.prods) fun p hm => ?_
  simp only [SpannedRules.ruleSet, List.mem_map] at hm
  obtain ⟨x, hx, rfl⟩ := hm
  exact hr.prodNames hl x hx

/-- LR(1) and LALR -/
theorem lrArm_total {kind : LRKind} (hk : kind.hasLa = true) (path : List Char) (genTable : Bool) : ∃ bound r, ∀ fuel, bound ≤ fuel → generateTable g false kind fuel = .ok r ∧
    ∀ written, ((∃ tb, r = .noConflicts tb) ∧ ∃ ws, lrArm fuel lang kind genTable path contents rules g written = (ws, .ok)) ∨
      ((∃ cs, r = .badConflicts cs) ∧ ∃ reports, lrArm fuel lang kind genTable path contents rules g written = (written, .err reports)) := by
  have wf := C19_well_formed _ _ hg
  have hne : NoEmptyRhs g := C19_no_empty_right_side _ g hg hr.noEmptySequence
  obtain ⟨bound, r, hb⟩ := C27_no_panic g wf hne false kind (good_short hr hg) (fun _ => C27_epsilon_condition _ g hg hr.noEpsilonInSequence)
  refine ⟨bound, r, fun fuel hf => ⟨hb fuel hf, fun written => ?_⟩⟩
  have h := hb fuel hf
  unfold lrArm
  rw [h]
  cases r with
  | allowedConflicts tb cs => exact absurd (allowedConflicts_allow h) (by simp)
  | noConflicts tb =>
    refine .inl ⟨⟨tb, rfl⟩, writeParser_total written (C66_total g wf hne false kind fuel tb [] (.inl h)) ?_⟩
    obtain ⟨p, hp⟩ := C33_codegen g wf hne false kind hk fuel tb h
    cases lang with
    | rust =>
      obtain ⟨ns, hns⟩ := good_nonTerminals hr hg rfl
      refine ⟨.rustParser p, ?_⟩
      simp only [lrFile]
      rw [hns, hp]
      rfl
    | cpp =>
      obtain ⟨src, hs⟩ := C61_generates g wf hne kind tb ⟨false, fuel, .inl h⟩ p hp ((rules.tokens.map (·.inner)).map (·.name.toList))
      refine ⟨.cppParser src, ?_⟩
      simp only [lrFile]
      rw [hs]
      rfl
  | badConflicts cs =>
    refine .inr ⟨⟨cs, rfl⟩, ?_⟩
    obtain ⟨reports, hrep⟩ := mapM_total (f := conflictReport path contents rules.prods g) cs.dedup (by
      intro c hc
      have := conflict_items wf hne h (List.mem_dedup.mp hc)
      refine conflictReport_total wf (good_origins hr hg) ?_
      cases c <;> exact this)
    exact ⟨reports, by simp only; rw [hrep]⟩

/-- GLR, Rust -/
theorem glrArm_total (hl : lang = .rust) (genTable : Bool) : ∃ bound, ∀ fuel, bound ≤ fuel → ∀ written, ∃ ws, glrArm fuel lang genTable g written = (ws, .ok) := by
  have wf := C19_well_formed _ _ hg
  have hne : NoEmptyRhs g := C19_no_empty_right_side _ g hg hr.noEmptySequence
  obtain ⟨bound, r, hb⟩ := C27_no_panic g wf hne true .lalr (good_short hr hg) (fun _ => C27_epsilon_condition _ g hg hr.noEpsilonInSequence)
  refine ⟨bound, fun fuel hf written => ?_⟩
  have h := hb fuel hf
  subst hl
  obtain ⟨ns, hns⟩ := good_nonTerminals hr hg rfl
  have key : ∀ tb, (∃ gr, LoopInv g .lalr gr [] ∧ tb = buildTable g gr) → ∃ w, glrFile .rust g tb = .ok w := by
    rintro tb ⟨gr, hv, rfl⟩
    obtain ⟨p, hp⟩ := genGlr_graph wf hv
    refine ⟨.rustGlrParser p, ?_⟩
    simp only [glrFile]
    rw [hns, hp]
    rfl
  unfold glrArm
  rw [h]
  cases r with
  | badConflicts cs => exact absurd (badConflicts_ne h).2 (by simp)
  | noConflicts tb =>
    obtain ⟨gr, hv, _, rfl⟩ := generateTable_inv wf hne h
    exact writeParser_total written (C66_total g wf hne true .lalr fuel _ [] (.inl h)) (key _ ⟨gr, hv, rfl⟩)
  | allowedConflicts tb cs =>
    obtain ⟨gr, hv, _, _, rfl, _⟩ := generateTable_inv wf hne h
    exact writeParser_total written (C66_total g wf hne true .lalr fuel _ cs (.inr h)) (key _ ⟨gr, hv, rfl⟩)

end

/-! ## the lexer -/

theorem noTies_iff {rules : List TokenRule} (ht : GoodTokens rules) {fuel : Nat} {r : Except PrecedenceError LexerTables} (h : generateLexer fuel rules = .ok r) : (∃ t, r = .ok t) ↔ NoTies rules := by
  cases r with
  | ok t => exact ⟨fun _ w hw => C07_pipeline_ok h ht.noEmptySeq hw, fun _ => ⟨t, rfl⟩⟩
  | error e =>
    refine ⟨(by rintro ⟨t, h⟩; cases h), fun hn => ?_⟩
    exfalso
    obtain ⟨w, h1, h2, h3, h4⟩ := C07_pipeline_error h ht.noEmptySeq ht.prec ht.full
    obtain ⟨a, b, rest, he⟩ : ∃ a b rest, e.rules = a :: b :: rest := by
      match hr : e.rules, h4 with
      | a :: b :: rest, _ => exact ⟨a, b, rest, rfl⟩
    have hab : a ≠ b := by rw [he] at h3; simp at h3; tauto
    obtain ⟨ra, ha1, ha2, ha3⟩ := (h1 a).mp (by rw [he]; simp)
    obtain ⟨rb, hb1, hb2, hb3⟩ := (h1 b).mp (by rw [he]; simp)
    obtain ⟨j, r, p, hj1, hj2, hj3, hj4⟩ := hn w ⟨ra, List.mem_of_getElem? ha1, ha2⟩
    have hle : p ≤ e.precedence := by
      obtain ⟨p', h5, h6⟩ := h2 r (List.mem_of_getElem? hj1) hj2
      rw [hj3] at h5
      cases h5
      exact h6
    have : ∀ k rk, rules[k]? = some rk → rk.Matches w → rk.prec = some e.precedence → k = j := by
      intro k rk h5 h6 h7
      by_contra hne
      obtain ⟨p', h8, h9⟩ := hj4 k rk h5 h6 hne
      rw [h7] at h8
      cases h8
      omega
    exact hab ((this a ra ha1 ha2 ha3).trans (this b rb hb1 hb2 hb3).symm)

theorem generate_lexer {lang : Language} {text path : List Char} {rules : SpannedRules} {parse : List Char → Res SpannedRules} (hp : parse text = .ok rules) {genLexer : Bool}
    (ht : genLexer = true → GoodTokens (rules.tokens.map (·.inner)))
    (hr : GoodRules lang text rules) (alg : Algorithm) (genTable : Bool) :
    ∃ bound, ∀ fuel, bound ≤ fuel →
      ((genLexer = true → NoTies (rules.tokens.map (·.inner))) ∧ ∃ written, generate parse fuel genLexer alg genTable lang path (some text) = generateParser fuel lang alg genTable path text rules written) ∨
      ((genLexer = true ∧ ¬ NoTies (rules.tokens.map (·.inner))) ∧ ∃ ws reports, generate parse fuel genLexer alg genTable lang path (some text) = (ws, .err reports)) := by
  obtain ⟨vs, hv⟩ : ∃ vs, tokenFile lang (rules.tokens.map (·.inner)) = .ok (.tokens vs) := tokenFile_total fun hl r hm => by
    obtain ⟨x, hx, rfl⟩ := List.mem_map.mp hm
    exact hr.tokenNames hl x hx
  cases genLexer with
  | false =>
    refine ⟨0, fun fuel _ => .inl ⟨(by simp), [.tokens vs], ?_⟩⟩
    simp only [generate]
    rw [hp]
    simp only
    rw [hv]
    rfl
  | true =>
    have ht := ht rfl
    obtain ⟨f0, hf0⟩ := C07_pipeline_terminates _ ht.counts ht.prec
    refine ⟨f0, fun fuel hf => ?_⟩
    simp only [generate]
    rw [hp]
    simp only
    rw [hv]
    simp only [if_true]
    rcases hf0 fuel hf with ⟨t, h⟩ | ⟨e, h⟩
    · refine .inl ⟨fun _ => (noTies_iff ht h).mp ⟨t, rfl⟩, [.tokens vs, .lexer t], ?_⟩
      rw [h]
    · refine .inr ⟨⟨trivial, fun hn => ?_⟩, ?_⟩
      · obtain ⟨t, h⟩ := (noTies_iff ht h).mpr hn
        cases h
      · rw [h]
        simp only
        obtain ⟨w, h1, -⟩ := C07_pipeline_error h ht.noEmptySeq ht.prec ht.full
        obtain ⟨xs, hx⟩ := mapM_total (f := precedenceEntry path text rules.tokens) e.rules fun j hj => by
            obtain ⟨r, h2, _⟩ := (h1 j).mp hj
            rw [List.getElem?_map, Option.map_eq_some_iff] at h2
            obtain ⟨x, h3, _⟩ := h2
            obtain ⟨l, hl⟩ := fromSpan_total (file := path) (hr.tokensQuotable x (List.mem_of_getElem? h3))
            exact ⟨(l, x.inner.name.toList), by simp only [precedenceEntry, h3]; rw [hl]; rfl⟩
        have : precedenceReport path text rules.tokens e = .ok (.precedence xs) := by
          unfold precedenceReport
          rw [hx]
          rfl
        rw [this]
        exact ⟨_, _, rfl⟩

end Verif
