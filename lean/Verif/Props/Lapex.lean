import Verif.Props.LR1
import Verif.Proofs.Lapex

/-!
# C46, C58: the input parser lapex generates for itself

C46: what the input parser makes of the tokens of a lapex file. C58: the grammar of lapex files in `lapex.lapex` is LR(1), so the build of lapex-input-gen succeeds.
-/

set_option autoImplicit false

namespace Verif

/-! ## C58 — lapex generates its own input parser -/

/-- The grammar file of lapex gives a grammar, an LR(1) table without conflicts, and code for it. -/
theorem C58_self_hosted : ∃ g bound tb p, Grammar.fromRuleSet lapexRules = .ok g ∧ (∀ fuel, bound ≤ fuel → generateTable g false .lr1 fuel = .ok (.noConflicts tb)) ∧
    genRust g tb = .ok p := by
  obtain ⟨bound, tb, h⟩ := lapexTable
  obtain ⟨p, hp⟩ := C33_codegen lapexGrammar lapexGrammar_wf lapexGrammar_noEmpty false .lr1 rfl bound tb (h bound (Nat.le_refl _))
  exact ⟨_, bound, tb, p, lapexGrammar_built, h, hp⟩

/-- So an LR(1) parser for the grammar exists. -/
theorem lapexParser : ∃ p, LRParserFor lapexGrammar .lr1 p := by
  obtain ⟨bound, tb, h⟩ := lapexTable
  obtain ⟨p, hp⟩ := C33_codegen lapexGrammar lapexGrammar_wf lapexGrammar_noEmpty false .lr1 rfl bound tb (h bound (Nat.le_refl _))
  exact ⟨p, false, bound, tb, .inl (h bound (Nat.le_refl _)), hp⟩

/-- The visitor implements exactly the methods of the generated trait. -/
theorem C58_visitor (syn : List Char → Option Hir) : ((lapexVisitor syn).map (·.1)).Perm (visitorMethods lapexRules lapexGrammar) := by
  have : (lapexVisitor syn).map (·.1) = (lapexVisitor (fun _ => none)).map (·.1) := rfl
  rw [this]
  decide +kernel

/-- The grammar of lapex files is not ambiguous. -/
theorem C58_unambiguous : Unambiguous lapexGrammar := by
  obtain ⟨bound, tb, h⟩ := lapexTable
  exact C32_unambiguous lapexGrammar lapexGrammar_wf lapexGrammar_noEmpty lapexGrammar_eps lapexGrammar_entry false .lr1 bound tb (h bound (Nat.le_refl _))

/-- All its non-terminals are productive. -/
theorem lapexGrammar_productive : Productive lapexGrammar := productive_of_order [5, 26, 27, 8, 9, 10, 12, 25, 2, 6, 7, 18, 22, 23, 24, 0, 16, 14] (by decide +kernel) (by decide +kernel)

/-! ## C46 — what is made of the tokens -/

/-- a stream determines the tokens before its end of file -/
theorem stream_consumes {T : Type} {input : Nat → Tok × T} {w w' : List (Nat × T)} {pos : Nat} (hin : StreamIs input w) (hc : Consumes input pos w') (he : (input pos).1 = .eof) : w' = w := by
  obtain ⟨h4, h5⟩ := hc
  obtain ⟨h6, h7⟩ := hin
  have hlen : pos = w.length := by
    rcases Nat.lt_trichotomy pos w.length with hlt | heq | hgt
    · have := h6 pos _ (List.getElem?_eq_getElem hlt)
      rw [this] at he; cases he
    · exact heq
    · have := h5 w.length _ (List.getElem?_eq_getElem (by omega))
      rw [this] at h7; cases h7
  refine List.ext_getElem? (fun i => ?_)
  by_cases hi : i < w.length
  · have a1 := h6 i _ (List.getElem?_eq_getElem hi)
    have a2 := h5 i _ (List.getElem?_eq_getElem (show i < w'.length by omega))
    rw [a1] at a2
    rw [List.getElem?_eq_getElem hi, List.getElem?_eq_getElem (show i < w'.length by omega)]
    simp at a2
    exact congrArg some (Prod.ext a2.1.symm a2.2.symm)
  · rw [List.getElem?_eq_none (by omega), List.getElem?_eq_none (by omega)]

variable {p : LRProg} (hp : LRParserFor lapexGrammar .lr1 p) (syn : List Char → Option Hir) {w : Tokens} {input : Nat → Tok × TokenData} (hin : StreamIs input w)

include hp hin

theorem parse_of_file {rs : List (Spanned RawRule)} (h : FileText joinSeq joinAlt w rs) :
    ∃ n, ∀ fuel, n ≤ fuel → parseTokens syn p.machine input fuel = (pushAll syn [.rules rs] [] >>= lapexFinish) := by
  obtain ⟨t, h1, rfl, h3⟩ := file_tree h
  obtain ⟨n, events, h4, h5⟩ := lr_accepts lapexGrammar lapexGrammar_wf lapexGrammar_noEmpty lapexGrammar_eps lapexGrammar_entry .lr1 p hp t h1 input hin
  refine ⟨n, fun fuel hf => ?_⟩
  unfold parseTokens
  rw [h4 fuel hf]
  simp only
  rw [h3 syn events (by simpa [PTree.postorderList] using h5) []]

theorem file_of_parse {fuel : Nat} {out : SpannedRules} (h : parseTokens syn p.machine input fuel = .ok out) :
    ∃ rs, FileText joinSeq joinAlt w rs ∧ (pushAll syn [.rules rs] [] >>= lapexFinish) = .ok out := by
  unfold parseTokens at h
  split at h
  · cases h
  · rename_i events pos he
    obtain ⟨t, h1, h2, h3⟩ := C28_sound lapexGrammar lapexGrammar_wf lapexGrammar_noEmpty .lr1 p hp input fuel events pos he
    have h4 := C29_lr1_end lapexGrammar lapexGrammar_wf lapexGrammar_noEmpty lapexGrammar_entry p hp input fuel events pos he
    have h5 := stream_consumes hin h2 h4
    obtain ⟨raws, h6, h7⟩ := reads_of_forest h1
    have h8 : ∃ rs, raws = [.rules rs] ∧ FileText joinSeq joinAlt w rs := by
      have ht : PTree.tokensList [t] = w := by simpa [PTree.tokensList] using h5
      rw [ht] at h6
      have he0 : lapexGrammar.entry = .nt 0 := rfl
      rw [he0] at h6
      generalize hw : w = w' at h6
      cases h6 with
      | nonterm h8 h9 =>
        generalize hz : (0 : Nat) = z at h8
        cases h9
        rw [List.append_nil] at *
        cases h8 <;> first | exact ⟨_, rfl, ‹_›⟩ | cases hz
    obtain ⟨rs, rfl, h8⟩ := h8
    refine ⟨rs, h8, ?_⟩
    rw [h7 syn events (by simpa [PTree.postorderList] using h3) []] at h
    exact h
  · cases h

/-- The input parser answers `out` for the tokens `w` exactly if they are a lapex file with one entry rule that stands for `out`. -/
theorem C46_answer (out : SpannedRules) : (∃ fuel, parseTokens syn p.machine input fuel = .ok out) ↔ FileMeans syn w out := by
  constructor
  · rintro ⟨fuel, h⟩
    obtain ⟨rs, h1, h2⟩ := file_of_parse hp syn hin h
    obtain ⟨xs, h3⟩ := (finish_iff syn rs out).mp h2
    exact ⟨rs, xs, h1, h3⟩
  · rintro ⟨rs, xs, h1, h3⟩
    obtain ⟨n, h⟩ := parse_of_file hp syn hin h1
    exact ⟨n, (h n (Nat.le_refl _)).trans ((finish_iff syn rs out).mpr ⟨xs, h3⟩)⟩

/-- It stays so with more steps. -/
theorem C46_stable (out : SpannedRules) (h : FileMeans syn w out) : ∃ n, ∀ fuel, n ≤ fuel → parseTokens syn p.machine input fuel = .ok out := by
  obtain ⟨rs, xs, h1, h3⟩ := h
  obtain ⟨n, h⟩ := parse_of_file hp syn hin h1
  exact ⟨n, fun fuel hf => (h fuel hf).trans ((finish_iff syn rs out).mpr ⟨xs, h3⟩)⟩

/-- The input parser always comes to an end: for tokens that are no lapex file, or one without exactly one entry rule, with a precedence above 65535 or with an
unusable regular expression, it panics. -/
theorem C46_total : (∃ n out, FileMeans syn w out ∧ ∀ fuel, n ≤ fuel → parseTokens syn p.machine input fuel = .ok out) ∨
    ((∀ out, ¬ FileMeans syn w out) ∧ ∃ n, ∀ fuel, n ≤ fuel → parseTokens syn p.machine input fuel = .error .panic) := by
  by_cases h : ∃ out, FileMeans syn w out
  · obtain ⟨out, h⟩ := h
    obtain ⟨n, hn⟩ := C46_stable hp syn hin out h
    exact .inl ⟨n, out, h, hn⟩
  · refine .inr ⟨fun out ho => h ⟨out, ho⟩, ?_⟩
    obtain ⟨n, hn⟩ := C59_terminates lapexGrammar lapexGrammar_wf lapexGrammar_noEmpty lapexGrammar_eps lapexGrammar_entry lapexGrammar_productive p hp w input hin
    refine ⟨n, fun fuel hf => ?_⟩
    cases hr : parseTokens syn p.machine input fuel with
    | ok out => exact absurd ⟨out, (C46_answer hp syn hin out).mp ⟨fuel, hr⟩⟩ h
    | error e =>
      cases e with
      | panic => rfl
      | fuel => exact absurd hr (parseTokens_noFuel syn (hn fuel hf))

omit hp hin in
/-- A file stands for at most one rule set. -/
theorem C46_unambiguous {w : Tokens} {out out' : SpannedRules} (h : FileMeans syn w out) (h' : FileMeans syn w out') : out = out' := by
  obtain ⟨p, hp⟩ := lapexParser
  haveI : Inhabited TokenData := ⟨⟨[], ⟨⟨0, 0⟩, ⟨0, 0⟩⟩⟩⟩
  obtain ⟨n, h1⟩ := C46_stable hp syn (streamFrom_is w) out h
  obtain ⟨n', h2⟩ := C46_stable hp syn (streamFrom_is w) out' h'
  have := (h1 (max n n') (Nat.le_max_left ..)).symm.trans (h2 (max n n') (Nat.le_max_right ..))
  cases this
  rfl

/-- The visitor's stack is never broken: on the tokens of a file, the parser panics only if some rule stands for nothing (a number too large, a bad regex), or if there is
not exactly one entry rule. -/
theorem C46_no_broken_stack {rs : List (Spanned RawRule)} (h : FileText joinSeq joinAlt w rs) {xs : List (Spanned LapexRule)} (hx : MeansAll syn rs xs)
    (he : (entryRulesOf xs).length = 1) : ∃ n out, ∀ fuel, n ≤ fuel → parseTokens syn p.machine input fuel = .ok out := by
  obtain ⟨e, he⟩ := List.length_eq_one_iff.mp he
  obtain ⟨n, h'⟩ := C46_stable hp syn hin ⟨e, (tokenRulesOf xs).reverse, (prodRulesOf xs).reverse⟩ ⟨rs, xs, h, hx, he, rfl, rfl⟩
  exact ⟨n, _, h'⟩

omit hp hin

/-! ### the language of a body -/

/-- two bodies match the same token strings -/
def SameLanguage (p q : ProdPattern) : Prop := ∀ rs v, Den rs p v ↔ Den rs q v

theorem den_seq2 {rs : RuleSet} {p q : ProdPattern} {w : List Nat} : Den rs (.sequence [p, q]) w ↔ ∃ u v, w = u ++ v ∧ Den rs p u ∧ Den rs q v := by
  constructor
  · intro h
    cases h with
    | seqCons h1 h2 =>
      cases h2 with
      | seqCons h2 h3 =>
        cases h3
        exact ⟨_, _, by rw [List.append_nil], h1, h2⟩
  · rintro ⟨u, v, rfl, h1, h2⟩
    have := Den.seqCons h1 (Den.seqCons h2 .seqNil)
    rwa [List.append_nil] at this

theorem den_joinSeq {rs : RuleSet} {p q : ProdPattern} {w : List Nat} : Den rs (joinSeq p q) w ↔ ∃ u v, w = u ++ v ∧ Den rs p u ∧ Den rs q v := by
  unfold joinSeq
  split
  · constructor
    · intro h
      cases h with
      | seqCons h1 h2 => exact ⟨_, _, rfl, h1, h2⟩
    · rintro ⟨u, v, rfl, h1, h2⟩
      exact .seqCons h1 h2
  · exact den_seq2

theorem den_alt {rs : RuleSet} {ps : List ProdPattern} {w : List Nat} : Den rs (.alternative ps) w ↔ ∃ p ∈ ps, Den rs p w := by
  constructor
  · intro h
    cases h with
    | alt h1 h2 => exact ⟨_, h1, h2⟩
  · rintro ⟨p, h1, h2⟩
    exact .alt h1 h2

theorem den_joinAlt {rs : RuleSet} {p q : ProdPattern} {w : List Nat} : Den rs (joinAlt p q) w ↔ Den rs p w ∨ Den rs q w := by
  unfold joinAlt
  split
  · simp only [den_alt, List.mem_append, List.mem_singleton]
    constructor
    · rintro ⟨x, h1 | rfl, h2⟩
      · exact .inr ⟨x, h1, h2⟩
      · exact .inl h2
    · rintro (h | ⟨x, h1, h2⟩)
      · exact ⟨p, .inr rfl, h⟩
      · exact ⟨x, .inl h1, h2⟩
  · simp only [den_alt, List.mem_cons, List.not_mem_nil, or_false]
    constructor
    · rintro ⟨x, rfl | rfl, h2⟩
      · exact .inr h2
      · exact .inl h2
    · rintro (h | h)
      · exact ⟨p, .inr rfl, h⟩
      · exact ⟨q, .inl rfl, h⟩

theorem den_opt_mono {rs : RuleSet} {p q : ProdPattern} (h : ∀ v, Den rs p v → Den rs q v) {w : List Nat} (hw : Den rs (.optional p) w) : Den rs (.optional q) w := by
  cases hw with
  | optNone => exact .optNone
  | optSome h1 => exact .optSome (h _ h1)

theorem den_star_mono {rs : RuleSet} {p q : ProdPattern} (h : ∀ v, Den rs p v → Den rs q v) {w : List Nat} (hw : Den rs (.zeroOrMany p) w) : Den rs (.zeroOrMany q) w := by
  generalize hx : ProdPattern.zeroOrMany p = x at hw
  induction hw with
  | starNil => exact .starNil
  | starMore h1 _ _ ih => cases hx; exact .starMore (h _ h1) (ih rfl)
  | _ => cases hx

theorem den_plus_mono {rs : RuleSet} {p q : ProdPattern} (h : ∀ v, Den rs p v → Den rs q v) {w : List Nat} (hw : Den rs (.oneOrMany p) w) : Den rs (.oneOrMany q) w := by
  generalize hx : ProdPattern.oneOrMany p = x at hw
  induction hw with
  | plusOne h1 => cases hx; exact .plusOne (h _ h1)
  | plusMore h1 _ _ ih => cases hx; exact .plusMore (h _ h1) (ih rfl)
  | _ => cases hx

theorem same_join {p p' q q' : ProdPattern} (h1 : SameLanguage p p') (h2 : SameLanguage q q') : SameLanguage (joinSeq p q) (plainSeq p' q') := by
  intro rs v
  rw [den_joinSeq, plainSeq, den_seq2]
  exact exists_congr fun u => exists_congr fun v => and_congr Iff.rfl (and_congr (h1 rs u) (h2 rs v))

theorem same_alt {p p' q q' : ProdPattern} (h1 : SameLanguage p p') (h2 : SameLanguage q q') : SameLanguage (joinAlt p q) (plainAlt p' q') := by
  intro rs v
  rw [den_joinAlt, plainAlt, den_alt]
  simp only [List.mem_cons, List.not_mem_nil, or_false, exists_eq_or_imp, exists_eq_left]
  exact or_congr (h1 rs v) (h2 rs v)

/-- The pattern delivered for a production body matches the same token strings as the plain reading of the body: sequences in source order, `|` as choice. -/
theorem C46_body_language {l : Level} {w : Tokens} {q : ProdPattern} (h : Body joinSeq joinAlt l w q) : ∃ p, Body plainSeq plainAlt l w p ∧ SameLanguage q p := by
  induction h with
  | name n => exact ⟨_, .name n, fun _ _ => Iff.rfl⟩
  | paren l r _ ih => obtain ⟨p, h1, h2⟩ := ih; exact ⟨p, .paren l r h1, h2⟩
  | optional o _ ih =>
    obtain ⟨p, h1, h2⟩ := ih
    exact ⟨_, .optional o h1, fun rs v => ⟨den_opt_mono fun v => (h2 rs v).mp, den_opt_mono fun v => (h2 rs v).mpr⟩⟩
  | star o _ ih =>
    obtain ⟨p, h1, h2⟩ := ih
    exact ⟨_, .star o h1, fun rs v => ⟨den_star_mono fun v => (h2 rs v).mp, den_star_mono fun v => (h2 rs v).mpr⟩⟩
  | plus o _ ih =>
    obtain ⟨p, h1, h2⟩ := ih
    exact ⟨_, .plus o h1, fun rs v => ⟨den_plus_mono fun v => (h2 rs v).mp, den_plus_mono fun v => (h2 rs v).mpr⟩⟩
  | item _ ih => obtain ⟨p, h1, h2⟩ := ih; exact ⟨p, .item h1, h2⟩
  | sequence _ _ ih ih' =>
    obtain ⟨p, h1, h2⟩ := ih
    obtain ⟨p', h3, h4⟩ := ih'
    exact ⟨_, .sequence h1 h3, same_join h2 h4⟩
  | unary _ ih => obtain ⟨p, h1, h2⟩ := ih; exact ⟨p, .unary h1, h2⟩
  | choice b _ _ ih ih' =>
    obtain ⟨p, h1, h2⟩ := ih
    obtain ⟨p', h3, h4⟩ := ih'
    exact ⟨_, .choice b h1 h3, same_alt h2 h4⟩
  | concatenation _ ih => obtain ⟨p, h1, h2⟩ := ih; exact ⟨p, .concatenation h1, h2⟩
  | alternative _ ih => obtain ⟨p, h1, h2⟩ := ih; exact ⟨p, .alternative h1, h2⟩
  | nothing n => exact ⟨_, .nothing n, fun _ _ => Iff.rfl⟩

/-- And every body in the plain reading is delivered so. -/
theorem C46_body_language' {l : Level} {w : Tokens} {p : ProdPattern} (h : Body plainSeq plainAlt l w p) : ∃ q, Body joinSeq joinAlt l w q ∧ SameLanguage q p := by
  induction h with
  | name n => exact ⟨_, .name n, fun _ _ => Iff.rfl⟩
  | paren l r _ ih => obtain ⟨p, h1, h2⟩ := ih; exact ⟨p, .paren l r h1, h2⟩
  | optional o _ ih =>
    obtain ⟨p, h1, h2⟩ := ih
    exact ⟨_, .optional o h1, fun rs v => ⟨den_opt_mono fun v => (h2 rs v).mp, den_opt_mono fun v => (h2 rs v).mpr⟩⟩
  | star o _ ih =>
    obtain ⟨p, h1, h2⟩ := ih
    exact ⟨_, .star o h1, fun rs v => ⟨den_star_mono fun v => (h2 rs v).mp, den_star_mono fun v => (h2 rs v).mpr⟩⟩
  | plus o _ ih =>
    obtain ⟨p, h1, h2⟩ := ih
    exact ⟨_, .plus o h1, fun rs v => ⟨den_plus_mono fun v => (h2 rs v).mp, den_plus_mono fun v => (h2 rs v).mpr⟩⟩
  | item _ ih => obtain ⟨p, h1, h2⟩ := ih; exact ⟨p, .item h1, h2⟩
  | sequence _ _ ih ih' =>
    obtain ⟨p, h1, h2⟩ := ih
    obtain ⟨p', h3, h4⟩ := ih'
    exact ⟨_, .sequence h1 h3, same_join h2 h4⟩
  | unary _ ih => obtain ⟨p, h1, h2⟩ := ih; exact ⟨p, .unary h1, h2⟩
  | choice b _ _ ih ih' =>
    obtain ⟨p, h1, h2⟩ := ih
    obtain ⟨p', h3, h4⟩ := ih'
    exact ⟨_, .choice b h1 h3, same_alt h2 h4⟩
  | concatenation _ ih => obtain ⟨p, h1, h2⟩ := ih; exact ⟨p, .concatenation h1, h2⟩
  | alternative _ ih => obtain ⟨p, h1, h2⟩ := ih; exact ⟨p, .alternative h1, h2⟩
  | nothing n => exact ⟨_, .nothing n, fun _ _ => Iff.rfl⟩

/-! ### an example -/

/-- `entry s; token A = "a"; prod s = A A | A;` -/
def sampleData (text : String) (col : Nat) : TokenData := ⟨text.toList, ⟨⟨1, col⟩, ⟨1, col + text.length⟩⟩⟩

def sampleFile : Tokens := [
  (Lx.kwEntry, sampleData "entry" 1), (Lx.ident, sampleData "s" 7), (Lx.semi, sampleData ";" 8),
  (Lx.kwToken, sampleData "token" 10), (Lx.ident, sampleData "A" 16), (Lx.lbrack, sampleData "[" 17), (Lx.digit, sampleData "7" 18), (Lx.rbrack, sampleData "]" 19),
  (Lx.equals, sampleData "=" 21), (Lx.string, sampleData "\"a\"" 23), (Lx.semi, sampleData ";" 26),
  (Lx.kwProd, sampleData "prod" 28), (Lx.ident, sampleData "s" 33), (Lx.equals, sampleData "=" 35), (Lx.ident, sampleData "A" 37), (Lx.ident, sampleData "A" 39),
  (Lx.pipe, sampleData "|" 41), (Lx.ident, sampleData "A" 43), (Lx.semi, sampleData ";" 44)]

def sampleOut : SpannedRules where
  entry := ⟨⟨⟨1, 1⟩, ⟨1, 9⟩⟩, "s"⟩
  tokens := [⟨⟨⟨1, 10⟩, ⟨1, 27⟩⟩, ⟨"A", some 7, .literal ['a']⟩⟩]
  prods := [⟨⟨⟨1, 28⟩, ⟨1, 45⟩⟩, ⟨"s", none, .alternative [.rule "A", .sequence [.rule "A", .rule "A"]]⟩⟩]

theorem sampleFile_means (syn : List Char → Option Hir) : FileMeans syn sampleFile sampleOut := by
  refine ⟨_, [⟨⟨⟨1, 1⟩, ⟨1, 9⟩⟩, .entry "s"⟩, ⟨⟨⟨1, 10⟩, ⟨1, 27⟩⟩, .token ⟨"A", some 7, .literal ['a']⟩⟩,
      ⟨⟨⟨1, 28⟩, ⟨1, 45⟩⟩, .prod ⟨"s", none, .alternative [.rule "A", .sequence [.rule "A", .rule "A"]]⟩⟩], .more (.entry _ _ _) (.more (.token (sampleData "token" 10) (sampleData "A" 16) (sampleData "=" 21) (sampleData "\"a\"" 23) (sampleData ";" 26)
    (.present (sampleData "[" 17) (sampleData "7" 18) (sampleData "]" 19)) (.inl rfl)) (.one (.prod (sampleData "prod" 28) (sampleData "s" 33) (sampleData "=" 35) (sampleData ";" 44) .absent
    (.alternative (.choice (sampleData "|" 41) (.sequence (.item (.name (sampleData "A" 37))) (.unary (.item (.name (sampleData "A" 39)))))
      (.concatenation (.unary (.item (.name (sampleData "A" 43)))))))))),
    .cons ⟨rfl, .entry (sampleData "s" 7)⟩ (.cons ⟨rfl, ?_⟩ (.cons ⟨rfl, .prod (sampleData "s" 33) none _⟩ .nil)), rfl, rfl, rfl⟩
  exact .literal (n := sampleData "A" 16) (.some ⟨['7'], .inl rfl, by decide, by decide, rfl, by decide⟩) (body := ['a', '"']) rfl

example : ∃ p, LRParserFor lapexGrammar .lr1 p ∧ ∃ n, ∀ fuel, n ≤ fuel → parseTokens (fun _ => none) p.machine
    (fun i => match sampleFile[i]? with | some x => (.tok x.1, x.2) | none => (.eof, sampleData "" 45)) fuel = .ok sampleOut := by
  obtain ⟨p, hp⟩ := lapexParser
  refine ⟨p, hp, C46_stable hp _ ?_ _ (sampleFile_means _)⟩
  refine ⟨fun i x h => by simp only [h], ?_⟩
  rfl

-- the other case of C46_total: an empty file
example (syn : List Char → Option Hir) (out : SpannedRules) : ¬ FileMeans syn [] out := by
  rintro ⟨rs, xs, h, _⟩
  have key : ∀ w rs, FileText joinSeq joinAlt w rs → w ≠ [] := by
    intro w rs h
    cases h with
    | one h => cases h <;> simp
    | more h _ => cases h <;> simp
  exact key _ _ h rfl

end Verif
