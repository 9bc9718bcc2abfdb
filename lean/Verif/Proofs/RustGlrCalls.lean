import Verif.Proofs.RustGlrFile
import Verif.Proofs.GlrArms

/-! # The text of the GLR parser: what its functions return -/

set_option autoImplicit false

namespace Verif

variable {T : Type}

theorem reads_else_noneComma (n : Nat) : readArms (n + 10) (rs! "(_, _) => None,") = some [.arm (.pair .wild .wild) [.tail (rs! "None")]] :=
  rd_arm_expr (n := n + 9) rfl rfl (by rfl) rfl (by rfl)

section
variable {g : Grammar} (hg : g.WordNames) {rs : RuleSet} (ht : TagWords rs) {p : GlrProg} {text : List Char} (h : rustGlrFile rs g p = .ok text)

include hg ht h in
theorem glr_trait : rustTrait "Visitor".toList text = some ("shift".toList :: visitorMethods rs g) := by
  obtain ⟨methods, debug, actions, gotos, reds, h1, _, _, _, _, hr⟩ := glr_file hg ht h
  unfold rustTrait
  rw [hr]
  refine (find_glrVisitor (.join methods) (.join debug) (rUsize p.entry) (.sepComma ((g.nonTerminals.map fun s => rNtV g s.index).map fun w => .word w .nil)) (.sepComma ((List.range p.reductions.length).map rustRuleIdent)) (.joinComma actions.flatten) (.joinComma gotos.flatten) (.sepComma reds) (.sepComma ((ruleVisits rs g).map rustVisit))).trans ?_
  rw [declared_join (methods_ok hg ht h1).2]

include hg ht h in
theorem glr_nts : rustEnum "NonTerminalType".toList text = some (g.nonTerminals.map fun s => rNtV g s.index) := by
  obtain ⟨methods, debug, actions, gotos, reds, h1, _, _, _, _, hr⟩ := glr_file hg ht h
  unfold rustEnum
  rw [hr]
  refine (find_glrNtEnum (.join methods) (.join debug) (rUsize p.entry) _ (.sepComma ((List.range p.reductions.length).map rustRuleIdent)) (.joinComma actions.flatten) (.joinComma gotos.flatten) (.sepComma reds) (.sepComma ((ruleVisits rs g).map rustVisit))).trans ?_
  exact readVariants_sepComma _

include hg ht h in
theorem glr_rules : rustEnum "ReducedRule".toList text = some ((List.range p.reductions.length).map fun i => "Rule".toList ++ decimal i) := by
  obtain ⟨methods, debug, actions, gotos, reds, h1, _, _, _, _, hr⟩ := glr_file hg ht h
  unfold rustEnum
  rw [hr]
  refine (find_glrRuleEnum (.join methods) (.join debug) (rUsize p.entry) (.sepComma ((g.nonTerminals.map fun s => rNtV g s.index).map fun w => .word w .nil)) (.sepComma ((List.range p.reductions.length).map rustRuleIdent)) (.joinComma actions.flatten) (.joinComma gotos.flatten) (.sepComma reds) (.sepComma ((ruleVisits rs g).map rustVisit))).trans ?_
  have := readVariants_sepComma ((List.range p.reductions.length).map fun i => "Rule".toList ++ decimal i)
  rw [List.map_map] at this
  exact this

theorem readGlrMethod_of {f b i : RForest} {name : List Char} (h1 : rRead text = some f) (h2 : findImpl "Parser".toList none f = some i) (h3 : findFn name .look i = some b) :
    readRustMethod "Parser".toList name text = readRStmts (2 * b.size) b := by
  unfold readRustMethod
  rw [h1]
  simp only [Option.bind_eq_bind, Option.bind_some, h2, h3]

variable {variants : List (List Char)} (hv : TokNames g variants)

include hg ht h hv in
theorem glr_action (hf : ∀ y ∈ p.actions, ∀ x ∈ y.1, SymFits variants x.1) (q : Nat) (tk : Tok) (data : T) :
    rustNextActions text q (tokVariant variants tk) data = rGlrResult variants tk data (p.nextActions q tk) := by
  obtain ⟨methods, debug, actions, gotos, reds, h1, _, h2, h3, h5, hr⟩ := glr_file hg ht h
  unfold rustNextActions
  have hread : readRustMethod "Parser".toList "next_actions".toList text = some [.tailMatch (rs! "(state, next_token)") ((glrActionPairs variants p).map armOf)] := by
    rw [readGlrMethod_of hr (find_glrImpl _ _ _ _ _ _ _ _ _) (find_glrActions _ _ _ _ _ _ _)]
    have hs := size_joinComma actions.flatten
    have hb : (RForest.joinComma actions.flatten).size + 6 ≤ (rActionBody (.joinComma actions.flatten)).size := by
      have := size_append (.joinComma actions.flatten) (rs! "(_, _) => unreachable!()")
      simp only [rActionBody, RForest.size] at this ⊢
      omega
    obtain ⟨k, hk⟩ : ∃ k, 2 * (rActionBody (.joinComma actions.flatten)).size = (k + (actions.flatten.length + 10)) + 1 := ⟨2 * (rActionBody (.joinComma actions.flatten)).size - (actions.flatten.length + 11), by omega⟩
    rw [hk]
    refine rd_tailMatch rfl ?_
    rw [glrActionPairs, List.map_append]
    exact arms_read (pairs_read (forall₂_flatten (fun x fs hx => reads_glrStateActions hv x fs hx) _ h2)) reads_else_unreachable
  rw [hread]
  exact call_glrActions p hf q tk data

include hg ht h hv in
theorem glr_goto (hnt : NtFits g) (hf : ∀ y ∈ p.gotos, ∀ x ∈ y, SymFits variants x.1 ∧ ∀ A, x.1 = .nt A → Sym.nt A ∈ g.nonTerminals) (he : ∀ y ∈ p.gotos, ∀ x ∈ y, x.1 ≠ .eof)
    (q : Nat) (s : StackSym) (hs : ∀ A, s = .nonTerminal A → Sym.nt A ∈ g.nonTerminals) :
    rustNextGotoOf text q (rStackVal variants g s) = .ok ((p.nextGoto q s).map rGotoVal) := by
  obtain ⟨methods, debug, actions, gotos, reds, h1, _, h2, h3, h5, hr⟩ := glr_file hg ht h
  unfold rustNextGotoOf
  have hread : readRustMethod "Parser".toList "next_goto".toList text = some [.tailMatch (rs! "(state, symbol)") ((glrAllGotos variants g p).map armOf)] := by
    rw [readGlrMethod_of hr (find_glrImpl _ _ _ _ _ _ _ _ _) (find_glrGoto _ _ _ _ _ _ _)]
    have hs := size_joinComma gotos.flatten
    have hb : (RForest.joinComma gotos.flatten).size + 6 ≤ (glrGotoBody (.joinComma gotos.flatten)).size := by
      have := size_append (.joinComma gotos.flatten) (rs! "(_, _) => None,")
      simp only [glrGotoBody, RForest.size] at this ⊢
      omega
    obtain ⟨k, hk⟩ : ∃ k, 2 * (glrGotoBody (.joinComma gotos.flatten)).size = (k + (gotos.flatten.length + 10)) + 1 := ⟨2 * (glrGotoBody (.joinComma gotos.flatten)).size - (gotos.flatten.length + 11), by omega⟩
    rw [hk]
    refine rd_tailMatch rfl ?_
    rw [glrAllGotos, List.map_append]
    exact arms_read (pairs_read (forall₂_flatten (fun x fs hx => reads_glrStateGotos hv x fs hx) _ h3)) reads_else_noneComma
  rw [hread]
  exact call_glrGoto p hnt hf he q s hs

/-- the arms of a `match rule` -/
theorem read_ruleBody {fs : List RForest} {l : List (RPat × List RStmt)} (h : List.Forall₂ (fun f a => PairReads f a ∧ ∀ n, readArms (n + 10) f = some [armOf a]) fs l) :
    readRStmts (2 * (glrRuleBody (.sepComma fs)).size) (glrRuleBody (.sepComma fs)) = some [.tailMatch (rs! "rule") (l.map armOf)] := by
  cases h with
  | nil => rfl
  | @cons f a fs l h1 h2 =>
    have hf : f ≠ .nil := by
      rintro rfl
      have := h1.2 0
      cases this
    have hs : fs.length + 2 ≤ (RForest.sepComma (f :: fs)).size := by
      have h2' : 2 ≤ f.size := by
        cases f with
        | nil => exact absurd rfl hf
        | word w r => have := size_pos r; simp only [RForest.size]; omega
        | life w r => have := size_pos r; simp only [RForest.size]; omega
        | str w r => have := size_pos r; simp only [RForest.size]; omega
        | sym w r => have := size_pos r; simp only [RForest.size]; omega
        | group d i r => have := size_pos r; have := size_pos i; simp only [RForest.size]; omega
      cases fs with
      | nil => exact h2'
      | cons f' fs =>
        have e := size_append f (.sym [','] (RForest.sepComma (f' :: fs)))
        have := size_sepComma (f' :: fs)
        simp only [RForest.size] at e
        rw [RForest.sepComma]
        omega
    have hb : (RForest.sepComma (f :: fs)).size + 4 ≤ (glrRuleBody (.sepComma (f :: fs))).size := by
      have := size_append (.sepComma (f :: fs)) .nil
      simp only [glrRuleBody, RForest.size] at this ⊢
      omega
    obtain ⟨k, hk⟩ : ∃ k, 2 * (glrRuleBody (.sepComma (f :: fs))).size = (k + ((f :: fs).length + 10)) + 1 := ⟨2 * (glrRuleBody (.sepComma (f :: fs))).size - (fs.length + 12), by rw [List.length_cons]; omega⟩
    rw [hk]
    refine rd_tailMatch rfl ?_
    have h3 : List.Forall₂ (fun f a => PairReads f a ∧ ∀ n, readArms (n + 10) f = some [armOf a]) (f :: fs) (a :: l) := .cons h1 h2
    exact sep_read (h3.imp fun _ _ h => h.1) (h3.imp fun _ _ h => h.2) k

include hg ht h in
theorem glr_reduction (variants : List (List Char)) (i : Nat) :
    rustRuleReduction text (rRuleVal i) = match p.reductions[i]? with
      | none => .error .panic
      | some (k, A) => .ok (.pair (.num k) (rStackVal variants g (.nonTerminal A))) := by
  obtain ⟨methods, debug, actions, gotos, reds, h1, _, h2, h3, h5, hr⟩ := glr_file hg ht h
  unfold rustRuleReduction
  rw [readGlrMethod_of hr (find_glrImpl _ _ _ _ _ _ _ _ _) (find_glrReduction _ _ _ _ _ _ _), read_ruleBody (forall₂_mapM (fun x f hf => reads_reduction x f hf) _ h5)]
  exact call_glrReduction variants g p.reductions i

include hg ht h in
theorem glr_visit (i : Nat) :
    rustDoVisit text (rRuleVal i) = match (ruleVisits rs g).find? (fun x => x.1 = i) with
      | none => .error .panic
      | some x => .ok x.2 := by
  obtain ⟨methods, debug, actions, gotos, reds, h1, _, h2, h3, h5, hr⟩ := glr_file hg ht h
  unfold rustDoVisit
  rw [readGlrMethod_of hr (find_glrImpl _ _ _ _ _ _ _ _ _) (find_glrVisit _ _ _ _ _ _ _), read_ruleBody (forall₂_maps _ reads_visit)]
  exact call_glrVisit (ruleVisits rs g) i

/-! ## The debug visitor -/

/-- what a method of the debug visitor does -/
def debugBlock (text : List Char) : RForest := .word "println".toList (.sym ['!'] (.group .paren (.str text .nil) (.sym [';'] .nil)))

/-- the method of a rule -/
def DebugMethod (g : Grammar) (f : RForest) (x : Nat × List Char) : Prop :=
  ∃ rule text, g.rules[x.1]? = some rule ∧ ruleText g rule = .ok text ∧ Defines f (x.2, text)

include hg ht in
theorem debug_defines {fs : List RForest} (h : rustDebugMethods rs g = .ok fs) : List.Forall₂ (DebugMethod g) fs (ruleVisits rs g) := by
  unfold rustDebugMethods at h
  obtain ⟨fss, h1, h⟩ := res_bind_ok.mp h
  cases h
  unfold ruleVisits
  exact forall₂_flatten (fun e fs hfs => forall₂_mapM (fun x y hy => (debugMethod_ok hg ht hy).2.2) _ hfs) _ h1

theorem findFn_def (name n : List Char) (b rest : RForest) :
    findFn name .look (.word ['f', 'n'] (.word n (.group .paren (rs! "&mut self") (.group .brace b rest)))) = if n = name then some b else findFn name .look rest := by
  show findFn name (if n = name then .ours else .other) (.word n (.group .paren (rs! "&mut self") (.group .brace b rest))) = _
  by_cases h : n = name
  · rw [if_pos h, if_pos h]; rfl
  · rw [if_neg h, if_neg h]; rfl

theorem findFn_debug {fs : List RForest} {l : List (Nat × List Char)} (h : List.Forall₂ (DebugMethod g) fs l) (hn : (l.map (·.2)).Nodup) {i : Nat} {x : List Char} (hx : (i, x) ∈ l) :
    ∃ rule text, g.rules[i]? = some rule ∧ ruleText g rule = .ok text ∧ findFn x .look (.join fs) = some (debugBlock text) := by
  induction h with
  | nil => cases hx
  | @cons f a fs l h1 h2 ih =>
    obtain ⟨rule, text, e1, e2, name, text', e3, rfl⟩ := h1
    cases e3
    rw [List.map_cons, List.nodup_cons] at hn
    rw [RForest.join]
    rcases List.mem_cons.mp hx with rfl | hx
    · exact ⟨rule, text, e1, e2, (findFn_def _ _ _ _).trans (if_pos rfl)⟩
    · obtain ⟨rule', text', e4, e5, e6⟩ := ih hn.2 hx
      refine ⟨rule', text', e4, e5, (findFn_def _ _ _ _).trans ?_⟩
      rw [if_neg (fun e => hn.1 (List.mem_map.mpr ⟨_, hx, e.symm⟩))]
      exact e6

/-- the block of the debug visitor -/
def debugImpl (d : RForest) : RForest := (rs! "fn shift(&mut self, token: TokenType, _data: ()) { println!(\"shift {:?}\", token); }").append d

theorem find_debug (m d entry nts rules actions gotos reds visits : RForest) :
    findImplFor "Visitor".toList "DebugVisitor".toList none (glrStream m d entry nts rules actions gotos reds visits) = some (debugImpl d) := rfl

theorem find_debugFn {name : List Char} (hn : name ≠ "shift".toList) (d : RForest) : findFn name .look (debugImpl d) = findFn name .look d := by
  show findFn name (if "shift".toList = name then .ours else .other) (.word "shift".toList _) = _
  rw [if_neg (Ne.symm hn)]
  rfl

theorem callback_shift (A n i r : Nat) : callbackName rs g A n i r ≠ "shift".toList := by
  unfold callbackName
  split
  · split <;> simp
  · simp

include hg ht h in
theorem glr_debug (hn : (visitorMethods rs g).Nodup) {i : Nat} {x : List Char} (hx : (i, x) ∈ ruleVisits rs g) :
    ∃ rule t, g.rules[i]? = some rule ∧ ruleText g rule = .ok t ∧ rustDebugBlock x text = some (debugBlock t) := by
  obtain ⟨methods, debug, actions, gotos, reds, h1, h0, h2, h3, h5, hr⟩ := glr_file hg ht h
  obtain ⟨rule, t, e1, e2, e3⟩ := findFn_debug (debug_defines hg ht h0) (by rw [← methods_visits]; exact hn) hx
  refine ⟨rule, t, e1, e2, ?_⟩
  unfold rustDebugBlock
  rw [hr]
  simp only [Option.bind_eq_bind, Option.bind_some, find_debug]
  rw [find_debugFn, e3]
  obtain ⟨_, _, rfl⟩ := mem_ruleVisits.mp hx
  exact callback_shift _ _ _ _

include hg ht h in
theorem glr_debugNames : rustImpl "Visitor".toList "DebugVisitor".toList text = some ("shift".toList :: visitorMethods rs g) := by
  obtain ⟨methods, debug, actions, gotos, reds, h1, h0, h2, h3, h5, hr⟩ := glr_file hg ht h
  unfold rustImpl
  rw [hr, Option.bind_some, find_debug, Option.map_some]
  show some ("shift".toList :: declaredFns (.join debug)) = _
  rw [declared_join (debugMethods_ok hg ht h0).2]

end

/-! ## The program -/

theorem glr_prog_syms {g : Grammar} {tb : LRTable} {p : GlrProg} (h : genGlr g tb = .ok p) :
    (∀ y ∈ p.actions, (∀ x ∈ y.1, x.1 ∈ g.terminals ++ [Sym.eof]) ∧ ∀ x ∈ y.2, ∃ s ∈ g.terminals ++ [Sym.eof], expectedOf s = some x) ∧
      ∀ y ∈ p.gotos, ∀ x ∈ y, x.1 ∈ g.terminals ++ g.nonTerminals ∧ x.1 ≠ .eof := by
  unfold genGlr at h
  obtain ⟨acts, ha, h⟩ := res_bind_ok.mp h
  simp only [Except.ok.injEq] at h
  subst h
  constructor
  · intro y hy
    obtain ⟨q, _, hq⟩ := mem_mapM ha y hy
    obtain ⟨_, h1, _, h2⟩ := glrActionArms_ok _ _ _ hq List.Pairwise.nil
    constructor
    · intro x hx
      rw [h1, List.nil_append] at hx
      obtain ⟨s, h2, h3⟩ := List.mem_filterMap.mp hx
      cases hs : cellActs? tb q s with
      | none => rw [hs] at h3; cases h3
      | some a => rw [hs] at h3; cases h3; exact h2
    · intro x hx
      rcases (h2 x).mp hx with h | ⟨s, hs, e, _⟩
      · cases h
      · exact ⟨s, hs, e⟩
  · intro y hy x hx
    obtain ⟨q, _, rfl⟩ := List.mem_map.mp hy
    rw [glrGotoArms_eq] at hx
    obtain ⟨s, hs, hx⟩ := List.mem_flatMap.mp hx
    by_cases he : s = .eof
    · rw [if_pos he] at hx; cases hx
    · rw [if_neg he] at hx
      obtain ⟨a, _, rfl⟩ := List.mem_map.mp hx
      simp only [List.mem_append, List.mem_singleton] at hs ⊢
      tauto

end Verif
