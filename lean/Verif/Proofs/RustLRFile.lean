import Verif.Proofs.RustLRRun

/-! # The file `parser.rs` -/

set_option autoImplicit false

namespace Verif

/-! ## Tokens as they are read -/

theorem ok_sepComma {fs : List RForest} (h : ∀ f ∈ fs, f.Ok) : (RForest.sepComma fs).Ok := by
  induction fs with
  | nil => trivial
  | cons f fs ih =>
    cases fs with
    | nil => exact h f (by simp)
    | cons f' fs => exact ok_append (h f (by simp)) (ok_sym rfl (ih (fun g hg => h g (by simp [hg]))))

theorem size_sepComma (fs : List RForest) : fs.length ≤ (RForest.sepComma fs).size := by
  induction fs with
  | nil => simp
  | cons f fs ih =>
    cases fs with
    | nil => exact size_pos f
    | cons f' fs =>
      have h1 := size_append f (.sym [','] (RForest.sepComma (f' :: fs)))
      have h2 := size_pos f
      simp only [RForest.size] at h1
      rw [RForest.sepComma, List.length_cons]
      omega

theorem readVariants_sepComma (ws : List (List Char)) : readVariants (.sepComma (ws.map fun w => .word w .nil)) = some ws := by
  induction ws with
  | nil => rfl
  | cons w ws ih =>
    cases ws with
    | nil => rfl
    | cons w' ws =>
      show (if [','] = [','] then (readVariants (.sepComma ((w' :: ws).map fun w => .word w .nil))).map (w :: ·) else none) = _
      rw [if_pos rfl, ih]
      rfl

section
variable {g : Grammar} (hg : g.WordNames)

include hg in
theorem tokenIdent_word {a : Nat} {f : RForest} (h : rustTokenIdent g a = .ok f) : f.Ok := by
  unfold rustTokenIdent Grammar.tokenName at h
  cases hn : mget? (Sym.t a) g.tokens with
  | none => rw [hn] at h; cases h
  | some name =>
    rw [hn] at h
    dsimp only [bind, Except.bind] at h
    cases h1 : tokenEnumName name.toList with
    | error e => rw [h1] at h; cases h
    | ok w =>
      rw [h1] at h
      cases h
      exact ok_word (wordB_of (tokenEnum_word (hg.1 _ (mget?_mem hn)) h1)) ok_nil

include hg in
theorem ntEnum_word {A : Nat} {w : List Char} (h : ntEnumName g A = .ok w) : IsWord w ∧ w ≠ [] := by
  unfold ntEnumName at h
  cases hn : g.productionName (.nt A) with
  | none =>
    rw [hn] at h
    cases h
    exact ⟨isWord_append (by unfold IsWord; decide) (isWord_decimal A), by simp⟩
  | some name =>
    rw [hn] at h
    obtain ⟨c, hc, h⟩ := res_bind_ok.mp h
    cases h
    rw [upperCamel_go] at hc
    exact ⟨isWord_append (by unfold IsWord; decide) (camelGo_word _ _ _ (hg.2 _ (mget?_mem hn)) hc), by simp⟩

include hg in
theorem ntIdent_word {A : Nat} {f : RForest} (h : rustNtIdent g A = .ok f) : f.Ok := by
  unfold rustNtIdent at h
  obtain ⟨w, h1, h2⟩ := res_bind_ok.mp h
  cases h2
  exact ok_word (wordB_of (ntEnum_word hg h1)) ok_nil

theorem ok_ruleIdent (i : Nat) : (rustRuleIdent i).Ok := ok_word (wordB_of ⟨isWord_append (by unfold IsWord; decide) (isWord_decimal i), by simp⟩) ok_nil

theorem ok_rustAction (a : LRAction) : (rustAction a).Ok := by
  cases a with
  | shift => unfold rustAction; rust_ok
  | reduce i =>
    have := ok_ruleIdent i
    unfold rustAction; rust_ok

theorem ok_rustGoto (a : LRGoto) : (rustGoto a).Ok := by
  cases a with
  | accept => unfold rustGoto; rust_ok
  | state q =>
    have := ok_usize q
    unfold rustGoto; rust_ok

include hg in
theorem ok_actionArm {q : Nat} {x : Sym × LRAction} {fs : List RForest} (h : rustActionArm g q x = .ok fs) : ∀ f ∈ fs, f.Ok := by
  obtain ⟨s, a⟩ := x
  have h1 := ok_rustAction a
  have h2 := ok_usize q
  cases s with
  | t b =>
    simp only [rustActionArm] at h
    obtain ⟨t, h3, h⟩ := res_bind_ok.mp h
    cases h
    have := tokenIdent_word hg h3
    intro f hf
    cases List.mem_singleton.mp hf
    rust_ok
  | eof =>
    cases h
    intro f hf
    cases List.mem_singleton.mp hf
    rust_ok
  | nt A => cases h; simp
  | eps => cases h; simp

include hg in
theorem ok_expected {s : Sym} {fs : List RForest} (h : rustExpected g s = .ok fs) : ∀ f ∈ fs, f.Ok := by
  cases s with
  | t b =>
    simp only [rustExpected] at h
    obtain ⟨t, h3, h⟩ := res_bind_ok.mp h
    cases h
    have := tokenIdent_word hg h3
    intro f hf
    cases List.mem_singleton.mp hf
    rust_ok
  | eof =>
    cases h
    intro f hf
    cases List.mem_singleton.mp hf
    rust_ok
  | nt A => cases h; simp
  | eps => cases h; simp

theorem ok_flatten {α : Type} {f : α → Res (List RForest)} (hf : ∀ x fs, f x = .ok fs → ∀ y ∈ fs, y.Ok) {l : List α} {fss : List (List RForest)} (h : l.mapM f = .ok fss) : ∀ y ∈ fss.flatten, y.Ok := by
  intro y hy
  obtain ⟨fs, h1, h2⟩ := List.mem_flatten.mp hy
  obtain ⟨x, _, h3⟩ := mem_mapM h fs h1
  exact hf x fs h3 y h2

include hg in
theorem ok_stateActions {x : (List (Sym × LRAction) × List Sym) × Nat} {fs : List RForest} (h : rustStateActions g x = .ok fs) : ∀ f ∈ fs, f.Ok := by
  unfold rustStateActions at h
  obtain ⟨arms, h1, h⟩ := res_bind_ok.mp h
  obtain ⟨es, h2, h⟩ := res_bind_ok.mp h
  cases h
  have h3 := ok_usize x.2
  have h4 := ok_sepComma (ok_flatten (fun x fs => ok_expected hg) h2)
  intro f hf
  rcases List.mem_append.mp hf with hf | hf
  · exact ok_flatten (fun x fs => ok_actionArm hg) h1 f hf
  · cases List.mem_singleton.mp hf
    rust_ok

include hg in
theorem ok_gotoArm {q : Nat} {x : Sym × LRGoto} {fs : List RForest} (h : rustGotoArm g q x = .ok fs) : ∀ f ∈ fs, f.Ok := by
  obtain ⟨s, a⟩ := x
  have h1 := ok_rustGoto a
  have h2 := ok_usize q
  cases s with
  | t b =>
    simp only [rustGotoArm] at h
    obtain ⟨t, h3, h⟩ := res_bind_ok.mp h
    cases h
    have := tokenIdent_word hg h3
    intro f hf
    cases List.mem_singleton.mp hf
    rust_ok
  | nt A =>
    simp only [rustGotoArm] at h
    obtain ⟨t, h3, h⟩ := res_bind_ok.mp h
    cases h
    have := ntIdent_word hg h3
    intro f hf
    cases List.mem_singleton.mp hf
    rust_ok
  | eof => cases h; simp
  | eps => cases h; simp

include hg in
theorem ok_stateGotos {x : List (Sym × LRGoto) × Nat} {fs : List RForest} (h : rustStateGotos g x = .ok fs) : ∀ f ∈ fs, f.Ok := by
  unfold rustStateGotos at h
  obtain ⟨arms, h1, h⟩ := res_bind_ok.mp h
  cases h
  exact ok_flatten (fun x fs => ok_gotoArm hg) h1

include hg in
theorem ok_reduction {x : (Nat × Nat) × Nat} {f : RForest} (h : rustReduction g x = .ok f) : f.Ok := by
  unfold rustReduction at h
  obtain ⟨t, h1, h⟩ := res_bind_ok.mp h
  cases h
  have := ntIdent_word hg h1
  have := ok_ruleIdent x.2
  have := ok_usize x.1.1
  rust_ok

variable {rs : RuleSet} (ht : TagWords rs)

include hg in
theorem ntName_word (A : Nat) : IsWord (ntName g A) := by
  unfold ntName
  cases hn : g.productionName (.nt A) with
  | none => exact isWord_append (by unfold IsWord; decide) (isWord_decimal A)
  | some name => exact hg.2 _ (mget?_mem hn)

include hg ht in
theorem callback_word (A n i r : Nat) : IsWord (callbackName rs g A n i r) ∧ callbackName rs g A n i r ≠ [] := by
  have hr : IsWord "reduce_".toList := by unfold IsWord; decide
  have hu : IsWord ['_'] := by unfold IsWord; decide
  have hN := ntName_word hg A
  unfold callbackName
  split
  · cases hta : tagOf rs g r with
    | none => exact ⟨isWord_append (isWord_append (isWord_append hr hN) hu) (isWord_decimal _), by simp⟩
    | some tag =>
      refine ⟨isWord_append (isWord_append (isWord_append hr hN) hu) ?_, by simp⟩
      unfold tagOf at hta
      simp only [Option.bind_eq_bind, Option.bind_eq_some_iff, Option.some.injEq] at hta
      obtain ⟨rule, _, p, h1, t, h2, rfl⟩ := hta
      exact ht p (List.mem_of_getElem? h1) t h2
  · exact ⟨isWord_append hr hN, by simp⟩

include hg ht in
theorem ok_visit {x : Nat × List Char} (h : x ∈ ruleVisits rs g) : (rustVisit x).Ok := by
  obtain ⟨r, name⟩ := x
  obtain ⟨rule, _, rfl⟩ := mem_ruleVisits.mp h
  have h1 := ok_ruleIdent r
  have h2 : (RForest.word (callbackName rs g rule.lhs (ruleCount g rule.lhs) (rulesBefore g rule.lhs r) r) .nil).Ok := ok_word (wordB_of (callback_word hg ht _ _ _ _)) ok_nil
  unfold rustVisit
  rust_ok

/-! ## Doc comments -/

theorem strB_append {a b : List Char} (ha : strB a = true) (hb : strB b = true) : strB (a ++ b) = true := by
  induction a with
  | nil => exact hb
  | cons c a ih =>
    simp only [strB, List.cons_append, Bool.and_eq_true] at ha ⊢
    exact ⟨ha.1, ih ha.2⟩

theorem strB_word {w : List Char} (h : IsWord w) : strB w = true := by
  induction w with
  | nil => rfl
  | cons c w ih =>
    have := h c (by simp)
    simp only [strB, Bool.and_eq_true, decide_eq_true_eq]
    refine ⟨⟨?_, ?_⟩, ih (fun d hd => h d (by simp [hd]))⟩
    · rintro rfl; exact absurd this (by decide)
    · rintro rfl; exact absurd this (by decide)

include hg in
theorem strB_symbol {s : Sym} {w : List Char} (h : g.symbolName s = .ok w) : strB w = true := by
  cases s with
  | t a =>
    simp only [Grammar.symbolName, Grammar.tokenName] at h
    cases hn : mget? (Sym.t a) g.tokens with
    | none => rw [hn] at h; cases h
    | some name =>
      rw [hn] at h
      cases h
      exact strB_append (strB_append (strB_append (strB_word (hg.1 _ (mget?_mem hn))) rfl) (strB_word (isWord_decimal a))) rfl
  | nt A =>
    simp only [Grammar.symbolName] at h
    cases hn : g.productionName (.nt A) with
    | none =>
      rw [hn] at h
      cases h
      exact strB_append (strB_append rfl (strB_word (isWord_decimal A))) rfl
    | some name =>
      rw [hn] at h
      cases h
      exact strB_append (strB_append (strB_append (strB_word (hg.2 _ (mget?_mem hn))) rfl) (strB_word (isWord_decimal A))) rfl
  | eps => cases h; rfl
  | eof => cases h; rfl

theorem strB_intercalate {ws : List (List Char)} (h : ∀ w ∈ ws, strB w = true) : strB (List.intercalate [' '] ws) = true := by
  induction ws with
  | nil => rfl
  | cons w ws ih =>
    cases ws with
    | nil => simpa [List.intercalate] using h w (by simp)
    | cons w' ws =>
      rw [show List.intercalate [' '] (w :: w' :: ws) = w ++ ([' '] ++ List.intercalate [' '] (w' :: ws)) by simp [List.intercalate, List.intersperse]]
      exact strB_append (h w (by simp)) (strB_append rfl (ih (fun x hx => h x (by simp [hx]))))

include hg in
theorem strB_rule {r : Rule} {w : List Char} (h : ruleText g r = .ok w) : strB w = true := by
  unfold ruleText symbolNames at h
  obtain ⟨rhs, h1, h⟩ := res_bind_ok.mp h
  obtain ⟨ws, h2, h3⟩ := res_bind_ok.mp h1
  obtain ⟨lhs, h4, h⟩ := res_bind_ok.mp h
  cases h
  cases h3
  refine strB_append (strB_append (strB_symbol hg h4) rfl) (strB_intercalate ?_)
  intro w hw
  obtain ⟨s, _, hs⟩ := mem_mapM h2 w hw
  exact strB_symbol hg hs

/-- a method with its declaration -/
def Declares (f : RForest) (name : List Char) : Prop := ∀ rest, declaredFns (f.append rest) = name :: declaredFns rest

include hg ht in
theorem method_ok {A n i r : Nat} {f : RForest} (h : rustMethod rs g A n i r = .ok f) : f.Ok ∧ Declares f (callbackName rs g A n i r) := by
  unfold rustMethod at h
  cases hr : g.rules[r]? with
  | none => rw [hr] at h; cases h
  | some rule =>
    rw [hr] at h
    obtain ⟨text, h1, h⟩ := res_bind_ok.mp h
    cases h
    refine ⟨?_, fun rest => rfl⟩
    have h2 : (RForest.str text .nil).Ok := ok_str (strB_rule hg h1) ok_nil
    have h3 : (RForest.word (callbackName rs g A n i r) .nil).Ok := ok_word (wordB_of (callback_word hg ht A n i r)) ok_nil
    have h4 : (RForest.sym ['#'] (.group .bracket (.word ['d', 'o', 'c'] (.sym ['='] (.str text .nil))) .nil)).Ok := by rust_ok
    exact ok_append h4 (ok_word rfl (ok_append h3 (by rust_ok)))

include hg ht in
theorem methods_ok {fs : List RForest} (h : rustMethods rs g = .ok fs) : (∀ f ∈ fs, f.Ok) ∧ List.Forall₂ Declares fs (visitorMethods rs g) := by
  unfold rustMethods at h
  obtain ⟨fss, h1, h⟩ := res_bind_ok.mp h
  cases h
  constructor
  · refine ok_flatten (fun e fs hfs y hy => ?_) h1
    obtain ⟨x, _, hx⟩ := mem_mapM hfs y hy
    exact (method_ok hg ht hx).1
  · unfold visitorMethods
    exact forall₂_flatten (fun e fs hfs => forall₂_mapM (fun x y hy => (method_ok hg ht hy).2) _ hfs) _ h1

theorem declared_join {fs : List RForest} {ns : List (List Char)} (h : List.Forall₂ Declares fs ns) : declaredFns (.join fs) = ns := by
  induction h with
  | nil => rfl
  | cons h _ ih => rw [RForest.join, h, ih]

/-! ## The file -/

theorem ntVariants {ws : List RForest} : ∀ {l : List Sym}, l.mapM (rustNtVariant g) = .ok ws → ws = (l.map fun s => rNtV g s.index).map fun w => .word w .nil := by
  intro l
  induction l generalizing ws with
  | nil => intro h; cases h; rfl
  | cons s l ih =>
    intro h
    rw [List.mapM_cons] at h
    obtain ⟨f, h1, h⟩ := res_bind_ok.mp h
    obtain ⟨fs, h2, h⟩ := res_bind_ok.mp h
    cases h
    rw [ih h2, List.map_cons, List.map_cons]
    cases s with
    | nt A => rw [ntIdent_eq h1]; rfl
    | _ => cases h1

variable {p : LRProg} {text : List Char} (h : rustParserFile rs g p = .ok text)

include hg ht h in
/-- the file: a stream, printed -/
theorem parser_file_rust : ∃ methods actions gotos reds, rustMethods rs g = .ok methods ∧ p.actions.zipIdx.mapM (rustStateActions g) = .ok actions ∧ p.gotos.zipIdx.mapM (rustStateGotos g) = .ok gotos ∧
    p.reductions.zipIdx.mapM (rustReduction g) = .ok reds ∧
    rRead text = some (rParserStream (.join methods) (rUsize p.entry) (.sepComma ((g.nonTerminals.map fun s => rNtV g s.index).map fun w => .word w .nil))
      (.sepComma ((List.range p.reductions.length).map rustRuleIdent)) (.joinComma actions.flatten) (.joinComma gotos.flatten) (.sepComma reds) (.sepComma ((ruleVisits rs g).map rustVisit))) := by
  unfold rustParserFile at h
  obtain ⟨methods, h1, h⟩ := res_bind_ok.mp h
  obtain ⟨actions, h2, h⟩ := res_bind_ok.mp h
  obtain ⟨gotos, h3, h⟩ := res_bind_ok.mp h
  obtain ⟨nts, h4, h⟩ := res_bind_ok.mp h
  obtain ⟨reds, h5, h⟩ := res_bind_ok.mp h
  simp only [Except.ok.injEq] at h
  subst h
  refine ⟨methods, actions, gotos, reds, h1, h2, h3, h5, ?_⟩
  have hn : ∀ f ∈ nts, f.Ok := by
    intro f hf
    obtain ⟨s, _, hs⟩ := mem_mapM h4 f hf
    cases s with
    | nt A => exact ntIdent_word hg hs
    | _ => cases hs
  have := parser_read (.join methods) (rUsize p.entry) (.sepComma nts) (.sepComma ((List.range p.reductions.length).map rustRuleIdent)) (.joinComma actions.flatten) (.joinComma gotos.flatten) (.sepComma reds)
    (.sepComma ((ruleVisits rs g).map rustVisit)) (ok_join (methods_ok hg ht h1).1) (ok_usize _) (ok_sepComma hn)
    (ok_sepComma (by intro f hf; obtain ⟨i, _, rfl⟩ := List.mem_map.mp hf; exact ok_ruleIdent i))
    (ok_joinComma (ok_flatten (fun x fs => ok_stateActions hg) h2)) (ok_joinComma (ok_flatten (fun x fs => ok_stateGotos hg) h3))
    (ok_sepComma (fun f hf => by obtain ⟨x, _, hx⟩ := mem_mapM h5 f hf; exact ok_reduction hg hx))
    (ok_sepComma (by intro f hf; obtain ⟨x, hx, rfl⟩ := List.mem_map.mp hf; exact ok_visit hg ht hx))
  rw [this, ntVariants h4]

include hg ht h in
theorem parser_trait : rustTrait "Visitor".toList text = some ("shift".toList :: visitorMethods rs g) := by
  obtain ⟨methods, actions, gotos, reds, h1, _, _, _, hr⟩ := parser_file_rust hg ht h
  unfold rustTrait
  rw [hr]
  refine (find_visitor (.join methods) (rUsize p.entry) (.sepComma ((g.nonTerminals.map fun s => rNtV g s.index).map fun w => .word w .nil)) (.sepComma ((List.range p.reductions.length).map rustRuleIdent)) (.joinComma actions.flatten) (.joinComma gotos.flatten) (.sepComma reds) (.sepComma ((ruleVisits rs g).map rustVisit))).trans ?_
  rw [declared_join (methods_ok hg ht h1).2]

include hg ht h in
theorem parser_nts : rustEnum "NonTerminalType".toList text = some (g.nonTerminals.map fun s => rNtV g s.index) := by
  obtain ⟨methods, actions, gotos, reds, h1, _, _, _, hr⟩ := parser_file_rust hg ht h
  unfold rustEnum
  rw [hr]
  refine (find_ntEnum (.join methods) (rUsize p.entry) _ (.sepComma ((List.range p.reductions.length).map rustRuleIdent)) (.joinComma actions.flatten) (.joinComma gotos.flatten) (.sepComma reds) (.sepComma ((ruleVisits rs g).map rustVisit))).trans ?_
  exact readVariants_sepComma _

include hg ht h in
theorem parser_rules : rustEnum "ReducedRule".toList text = some ((List.range p.reductions.length).map fun i => "Rule".toList ++ decimal i) := by
  obtain ⟨methods, actions, gotos, reds, h1, _, _, _, hr⟩ := parser_file_rust hg ht h
  unfold rustEnum
  rw [hr]
  refine (find_ruleEnum (.join methods) (rUsize p.entry) (.sepComma ((g.nonTerminals.map fun s => rNtV g s.index).map fun w => .word w .nil)) (.sepComma ((List.range p.reductions.length).map rustRuleIdent)) (.joinComma actions.flatten) (.joinComma gotos.flatten) (.sepComma reds) (.sepComma ((ruleVisits rs g).map rustVisit))).trans ?_
  have := readVariants_sepComma ((List.range p.reductions.length).map fun i => "Rule".toList ++ decimal i)
  rw [List.map_map] at this
  exact this

theorem readRustMethod_of {f b : RForest} {name : List Char} (h1 : rRead text = some f) (h2 : (findImpl "Parser".toList none f).bind (findFn name .look) = some b) :
    readRustMethod "Parser".toList name text = readRStmts (2 * b.size) b := by
  obtain ⟨i, h3, h4⟩ := Option.bind_eq_some_iff.mp h2
  unfold readRustMethod
  rw [h1]
  simp only [Option.bind_eq_bind, Option.bind_some, h3, h4]

variable {variants : List (List Char)} (hv : TokNames g variants)

include hg ht h hv in
theorem parser_action (hf : ∀ y ∈ p.actions, ∀ x ∈ y.1, SymFits variants x.1) (q : Nat) (tk : Tok) :
    rustNextAction text q (tokVariant variants tk) = rActResult variants tk (p.nextAction q tk) := by
  obtain ⟨methods, actions, gotos, reds, h1, h2, h3, h5, hr⟩ := parser_file_rust hg ht h
  unfold rustNextAction
  have hread : readRustMethod "Parser".toList "next_action".toList text = some [.tailMatch (rs! "(state, next_token)") ((actionPairs variants p).map armOf)] := by
    rw [readRustMethod_of hr (find_action _ _ _ _ _ _ _ _)]
    have hs := size_joinComma actions.flatten
    have hb : (RForest.joinComma actions.flatten).size + 6 ≤ (rActionBody (.joinComma actions.flatten)).size := by
      have := size_append (.joinComma actions.flatten) (rs! "(_, _) => unreachable!()")
      simp only [rActionBody, RForest.size] at this ⊢
      omega
    obtain ⟨k, hk⟩ : ∃ k, 2 * (rActionBody (.joinComma actions.flatten)).size = (k + (actions.flatten.length + 10)) + 1 := ⟨2 * (rActionBody (.joinComma actions.flatten)).size - (actions.flatten.length + 11), by omega⟩
    rw [hk]
    refine rd_tailMatch rfl ?_
    rw [actionPairs, List.map_append]
    exact arms_read (pairs_read (forall₂_flatten (fun x fs hx => reads_stateActions hv x fs hx) _ h2)) reads_else_unreachable
  rw [hread]
  exact call_rAction p hf q tk

include hg ht h hv in
theorem parser_goto (hnt : NtFits g) (hf : ∀ y ∈ p.gotos, ∀ x ∈ y, SymFits variants x.1 ∧ ∀ A, x.1 = .nt A → Sym.nt A ∈ g.nonTerminals) (q : Nat) (s : StackSym)
    (hs : ∀ A, s = .nonTerminal A → Sym.nt A ∈ g.nonTerminals) :
    rustNextGoto text q (rStackVal variants g s) = match p.nextGoto q s with
      | some a => .ok (rGotoVal a)
      | none => .error .panic := by
  obtain ⟨methods, actions, gotos, reds, h1, h2, h3, h5, hr⟩ := parser_file_rust hg ht h
  unfold rustNextGoto
  have hread : readRustMethod "Parser".toList "next_goto".toList text = some [.tailMatch (rs! "(state, symbol)") ((allGotoPairs variants g p).map armOf)] := by
    rw [readRustMethod_of hr (find_goto _ _ _ _ _ _ _ _)]
    have hs := size_joinComma gotos.flatten
    have hb : (RForest.joinComma gotos.flatten).size + 6 ≤ (rGotoBody (.joinComma gotos.flatten)).size := by
      have := size_append (.joinComma gotos.flatten) (rs! "(_, _) => unreachable!()")
      simp only [rGotoBody, RForest.size] at this ⊢
      omega
    obtain ⟨k, hk⟩ : ∃ k, 2 * (rGotoBody (.joinComma gotos.flatten)).size = (k + (gotos.flatten.length + 10)) + 1 := ⟨2 * (rGotoBody (.joinComma gotos.flatten)).size - (gotos.flatten.length + 11), by omega⟩
    rw [hk]
    refine rd_tailMatch rfl ?_
    rw [allGotoPairs, List.map_append]
    exact arms_read (pairs_read (forall₂_flatten (fun x fs hx => reads_stateGotos hv x fs hx) _ h3)) reads_else_unreachable
  rw [hread]
  exact call_rGoto p hnt hf q s hs

include hg ht h in
theorem parser_reduce (hl : p.reductions.length ≤ g.rules.length) (i : Nat) (stack : List RVal) :
    rustReduce text (rRuleVal i) stack = match p.reductions[i]? with
      | none => .error .panic
      | some (k, A) =>
        if stack.length < 2 * k then .error .panic
        else .ok (rStackVal variants g (.nonTerminal A) :: stack.drop (2 * k), (((ruleVisits rs g).find? (fun x => x.1 = i)).map (·.2)).getD []) := by
  obtain ⟨methods, actions, gotos, reds, h1, h2, h3, h5, hr⟩ := parser_file_rust hg ht h
  unfold rustReduce
  have hread : readRustMethod "Parser".toList "reduce_stack_and_visit".toList text =
      some (rReduceStmts ((p.reductions.zipIdx.map (redPair g)).map armOf) (((ruleVisits rs g).map visitPair).map armOf)) := by
    rw [readRustMethod_of hr (find_reduce _ _ _ _ _ _ _ _)]
    have hs1 := size_sepComma reds
    have hs2 := size_sepComma ((ruleVisits rs g).map rustVisit)
    have hb : (RForest.sepComma reds).size + (RForest.sepComma ((ruleVisits rs g).map rustVisit)).size + 20 ≤ (rReduceBody (.sepComma reds) (.sepComma ((ruleVisits rs g).map rustVisit))).size := by
      simp only [rReduceBody, RForest.size]
      have e1 := size_append (.sepComma reds) .nil
      have e2 := size_append (.sepComma ((ruleVisits rs g).map rustVisit)) .nil
      simp only [RForest.size] at e1 e2
      omega
    generalize hsz : (rReduceBody (.sepComma reds) (.sepComma ((ruleVisits rs g).map rustVisit))).size = sz at hb
    obtain ⟨k, hk⟩ : ∃ k, 2 * sz = k + 22 := ⟨2 * sz - 22, by omega⟩
    rw [hk]
    have f1 : List.Forall₂ (fun f a => PairReads f a ∧ ∀ n, readArms (n + 10) f = some [armOf a]) reds (p.reductions.zipIdx.map (redPair g)) := forall₂_mapM (fun x f hf => reads_reduction x f hf) _ h5
    have f2 : List.Forall₂ (fun f a => PairReads f a ∧ ∀ n, readArms (n + 10) f = some [armOf a]) ((ruleVisits rs g).map rustVisit) ((ruleVisits rs g).map visitPair) := forall₂_maps _ reads_visit
    refine read_reduce ?_ ?_
    · obtain ⟨k', hk'⟩ : ∃ k', k + 20 = k' + (reds.length + 10) := ⟨k + 10 - reds.length, by omega⟩
      rw [hk']
      exact sep_read (f1.imp fun _ _ h => h.1) (f1.imp fun _ _ h => h.2) k'
    · obtain ⟨k', hk'⟩ : ∃ k', k + 16 = k' + (((ruleVisits rs g).map rustVisit).length + 10) := ⟨k + 6 - ((ruleVisits rs g).map rustVisit).length, by omega⟩
      rw [hk']
      exact sep_read (f2.imp fun _ _ h => h.1) (f2.imp fun _ _ h => h.2) k'
  rw [hread]
  refine call_rReduce variants g p.reductions (ruleVisits rs g) ?_ i stack
  intro j hj
  exact ⟨_, mem_ruleVisits.mpr ⟨_, List.getElem?_eq_getElem (by omega), rfl⟩⟩

include hg ht h hv in
theorem parser_run {T : Type} (hnt : NtFits g) (ha : ∀ y ∈ p.actions, ∀ x ∈ y.1, SymFits variants x.1)
    (hgo : ∀ y ∈ p.gotos, ∀ x ∈ y, SymFits variants x.1 ∧ ∀ A, x.1 = .nt A → Sym.nt A ∈ g.nonTerminals) (hl : p.reductions.length ≤ g.rules.length) (hlhs : ∀ x ∈ p.reductions, Sym.nt x.2 ∈ g.nonTerminals)
    (input : Nat → Tok × T) (n : Nat) : runRustParser text (textInput variants input) n = rustOutcome variants (ruleVisits rs g) input (lrParse p.machine input n) := by
  have hc : CallsFit ⟨rustNextAction text, rustNextGoto text, rustReduce text⟩ variants g p (ruleVisits rs g) :=
    ⟨parser_action hg ht h hv ha, parser_goto hg ht h hv hnt hgo, parser_reduce hg ht h hl, hlhs⟩
  obtain ⟨methods, actions, gotos, reds, h1, h2, h3, h5, hr⟩ := parser_file_rust hg ht h
  unfold runRustParser
  have hread : readRustMethod "Parser".toList "parse".toList text = some (rParseStmts (rUsize p.entry)) := by
    rw [readRustMethod_of hr (find_parse _ _ _ _ _ _ _ _)]
    exact read_parse (rUsize p.entry) _
  rw [hread]
  exact call_rParse hc input n
end

end Verif
