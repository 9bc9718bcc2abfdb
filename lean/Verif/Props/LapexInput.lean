import Verif.Proofs.LapexQuote
import Verif.Proofs.LapexScan
import Verif.Props.Lapex
import Verif.Props.LR1

/-!
# C63: what the lapex input parser makes of the text of a file

`t` is the lexer generated for the token rules of lapex.lapex and `p` the canonical LR(1) parser generated for its grammar. `TextTokens lapexTokens text ts`: the tokens of the
text are `ts`; `fileTokens ts` are those the parser sees, with their spans; `FileMeans syn w out`: they are a lapex file that stands for the rule set `out` (C46). The text is
shorter than 65535 bytes: lines and columns are 16-bit numbers.
-/

set_option autoImplicit false

namespace Verif

/-- There are such a lexer and such a parser. -/
theorem C63_exists : (∃ fuel t, generateLexer fuel lapexTokens = .ok (.ok t)) ∧ ∃ p, LRParserFor lapexGrammar .lr1 p := ⟨lapexLexer, lapexParser⟩

/-- What the token rules match, in plain words (`Spec/LapexLexemes.lean`). -/
theorem C63_lexemes (j : Nat) (m : List Char) : (∃ r, lapexTokens[j]? = some r ∧ r.Matches m) ↔ isLexeme j m = true := by
  constructor
  · rintro ⟨r, h1, h2⟩
    exact (lexeme_iff h1).mp h2
  · intro h
    have hj : j < lapexTokens.length := by
      by_contra hj
      have hj : ¬ j < 20 := hj
      rcases lexeme_cases h with ⟨s, h1, _⟩ | ⟨rfl, _⟩ | ⟨rfl, _⟩ | ⟨rfl, _⟩ | ⟨rfl, _⟩ | ⟨rfl, _⟩
      · unfold fixedLexeme at h1
        split at h1 <;> first | omega | cases h1
      all_goals omega
    exact ⟨_, List.getElem?_eq_getElem hj, (lexeme_iff (List.getElem?_eq_getElem hj)).mpr h⟩

variable {lexFuel : Nat} {t : LexerTables} (hlex : generateLexer lexFuel lapexTokens = .ok (.ok t)) {p : LRProg} (hp : LRParserFor lapexGrammar .lr1 p)
  (syn : List Char → Option Hir) (text : List Char) (hb : bytes text < 65535)

instance : Inhabited TokenData := ⟨⟨[], ⟨⟨0, 0⟩, ⟨0, 0⟩⟩⟩⟩

include hlex hp hb

/-- The input parser answers `out` exactly if the tokens of the text are a lapex file that stands for `out`. -/
theorem C63_answer (out : SpannedRules) :
    (∃ fuel, parseLapex syn t p.machine fuel text = .ok out) ↔ ∃ ts, TextTokens lapexTokens text ts ∧ FileMeans syn (fileTokens ts) out := by
  constructor
  · rintro ⟨fuel, h⟩
    unfold parseLapex at h
    obtain ⟨r, h1, h2⟩ := res_bind_ok.mp h
    have h3 := lrRunWith_ok fuel h1
    cases r with
    | running _ _ => cases h2
    | unexpected _ _ _ => cases h2
    | panic _ _ => cases h2
    | ok events pos =>
      have h4 := C28_sentence lapexGrammar lapexGrammar_wf lapexGrammar_noEmpty .lr1 p hp _ fuel events pos h3
      have h5 := C29_lr1_end lapexGrammar lapexGrammar_wf lapexGrammar_noEmpty lapexGrammar_entry p hp _ fuel events pos h3
      obtain ⟨w, ⟨h6, h7⟩, _⟩ := h4
      have back : ∀ i x, noFail (fun i => (TokenFun.new text).nth t 19 18 (text.length + 2) i) i = x → x.1 ≠ .err →
          (TokenFun.new text).nth t 19 18 (text.length + 2) i = .ok x := by
        intro i x hx hne
        unfold noFail at hx
        dsimp only at hx
        cases hc : (TokenFun.new text).nth t 19 18 (text.length + 2) i with
        | ok y => rw [hc] at hx; rw [← hx]
        | error e => rw [hc] at hx; subst hx; exact absurd rfl hne
      obtain ⟨ts, h8, h9⟩ := nth_sound (nl := 19) (ws := 18) (fuel := text.length + 2) hlex lapexTokens_noEmptySeq (by omega) w (inv_new text)
        (fun i x hx => back i _ (h7 i x hx) (by simp))
        (by
          rw [h6]
          exact ⟨_, back pos (.eof, _) (Prod.ext h5 rfl) (by simp)⟩)
      refine ⟨ts, h8, (C46_answer hp syn (w := fileTokens ts) (input := noFail fun i => (TokenFun.new text).nth t 19 18 (text.length + 2) i) ⟨?_, ?_⟩ out).mp ⟨fuel, ?_⟩⟩
      · intro i x hx
        exact h7 i x (by rw [h9]; exact hx)
      · have : (fileTokens ts).length = pos := by rw [← h6, h9]; rfl
        rw [this]
        exact h5
      · unfold parseTokens lrParse
        rw [h3]
        exact h2
  · rintro ⟨ts, h1, h2⟩
    have hlen := textTokens_length lapexTokens_nonempty h1
    obtain ⟨h3, d, h4⟩ := nth_complete (nl := 19) (ws := 18) (fuel := text.length + 2) hlex (fun r hr => ⟨lapexTokens_noEmptySeq r hr, lapexTokens_useful r hr⟩) lapexTokens_nonempty hb
      ts.length (ts := ts) (st := TokenFun.new text) (done := []) (Nat.le_refl _) (inv_new text) h1 rfl (by simp [TokenFun.new]) (by simp [TokenFun.new]) (by omega)
    set input := noFail fun i => (TokenFun.new text).nth t 19 18 (text.length + 2) i with hi
    have hin : StreamIs input (fileTokens ts) := by
      constructor
      · intro i x hx
        exact noFail_ok (h3 i x hx)
      · rw [hi, noFail_ok h4]
    obtain ⟨n, h5⟩ := C46_stable hp syn hin out h2
    have h6 := h5 n (Nat.le_refl _)
    unfold parseTokens at h6
    refine ⟨n, ?_⟩
    unfold parseLapex
    cases hr : lrParse p.machine input n with
    | running _ _ => rw [hr] at h6; cases h6
    | unexpected _ _ _ => rw [hr] at h6; cases h6
    | panic _ _ => rw [hr] at h6; cases h6
    | ok events pos =>
      rw [hr] at h6
      obtain ⟨w, ⟨h7, h8⟩, _⟩ := C28_sentence lapexGrammar lapexGrammar_wf lapexGrammar_noEmpty .lr1 p hp _ n events pos hr
      have h9 := C29_lr1_end lapexGrammar lapexGrammar_wf lapexGrammar_noEmpty lapexGrammar_entry p hp _ n events pos hr
      have hw := stream_consumes hin ⟨h7, h8⟩ h9
      have hok : ∀ i, i ≤ pos → (TokenFun.new text).nth t 19 18 (text.length + 2) i = .ok (input i) := by
        intro i hle
        by_cases hlt : i < (fileTokens ts).length
        · have := h3 i _ (List.getElem?_eq_getElem hlt)
          rw [this, hi, noFail_ok this]
        · have : i = (fileTokens ts).length := by rw [← hw]; rw [← hw] at hlt; omega
          rw [this, hi, noFail_ok h4]
          exact h4
      rw [lrRunWith_of n hr hok]
      exact h6

/-- The input parser comes to an end on every text: with an answer or with a panic. -/
theorem C63_total : ∃ (bound : Nat) (r : Res SpannedRules), (∀ fuel, bound ≤ fuel → parseLapex syn t p.machine fuel text = r) ∧ r ≠ .error .fuel := by
  obtain ⟨L, hL⟩ := nth_ends (nl := 19) (ws := 18) (fuel := text.length + 2) hlex lapexTokens_noEmptySeq lapexTokens_nonempty (show bytes text < 65536 by omega) text.length
    (st := TokenFun.new text) (inv_new text) (Nat.le_refl _)
  set tokenFun := fun i => (TokenFun.new text).nth t 19 18 (text.length + 2) i with htf
  have hnf : ∀ i, tokenFun i ≠ .error .fuel := fun i => nth_noFuel hlex lapexTokens_noEmptySeq lapexTokens_nonempty (by omega) (by omega) i (inv_new text)
  obtain ⟨gr, hv, hsp⟩ := parser_inv lapexGrammar_wf lapexGrammar_noEmpty hp
  obtain ⟨n, hn⟩ := lr1_stops (input := noFail tokenFun) lapexGrammar_wf lapexGrammar_productive hv (prog_follows lapexGrammar_wf hv.base hsp) (prog_obeys lapexGrammar_wf hv.base hsp)
    lapexGrammar_eps lapexGrammar_entry (L := L)
    (fun a ha => by
      unfold noFail at ha
      cases hc : tokenFun L with
      | ok x => rw [hc] at ha; exact hL a x.2 (by have : x = (.tok a, x.2) := Prod.ext ha rfl; rw [← this]; exact hc)
      | error e => rw [hc] at ha; cases ha)
    L [.state p.machine.entry] 0 [] (by omega) .start
  have hn' : ∀ e q, lrRunWith p.machine tokenFun n [.state p.machine.entry] 0 [] ≠ .ok (.running e q) := fun e q h => hn e q (lrRunWith_ok n h)
  refine ⟨n, parseLapex syn t p.machine n text, fun fuel hf => ?_, ?_⟩
  · unfold parseLapex
    rw [lrRunWith_mono n hn' fuel hf]
  · unfold parseLapex
    cases hr : lrRunWith p.machine tokenFun n [.state p.machine.entry] 0 [] with
    | error e =>
      obtain ⟨i, hi⟩ := lrRunWith_error n hr
      intro h
      cases h
      exact hnf i hi
    | ok r =>
      rw [res_ok_bind]
      cases r with
      | running e q => exact absurd hr (hn' e q)
      | unexpected _ _ _ => intro h; cases h
      | panic _ _ => intro h; cases h
      | ok events pos =>
        refine nf_bind (nf_foldlM (nf_lapexVisit syn) _ _) fun s => ?_
        unfold lapexFinish
        split
        · split <;> (intro h; cases h)
        · exact nf_panic

/-- What the input parser says about the place of a rule is right: in an ASCII text without a backslash before a newline, the span of each rule of the answer quotes from the
text tokens that are this rule, from its keyword to its semicolon. -/
theorem C63_quotes (ha : Ascii text) (hbs : ¬ ['\\', '\n'] <:+: text) (fuel : Nat) (out : SpannedRules) (h : parseLapex syn t p.machine fuel text = .ok out) :
    ∀ x : Spanned LapexRule, (x = ⟨out.entry.span, .entry out.entry.inner⟩ ∨ (∃ r ∈ out.tokens, x = ⟨r.span, .token r.inner⟩) ∨ ∃ r ∈ out.prods, x = ⟨r.span, .prod r.inner⟩) →
      ∃ quoted ts raw, x.span.substring text = .ok (some quoted) ∧ TextTokens lapexTokens quoted ts ∧
        RuleText joinSeq joinAlt (located 19 18 x.span.start ts) ⟨x.span, raw⟩ ∧ Means syn raw x.inner := by
  obtain ⟨ts, h1, rs, xs, h2, h3, h4, h5, h6⟩ := (C63_answer hlex hp syn text hb out).mp ⟨fuel, h⟩
  have key : ∀ x ∈ xs, ∃ quoted ts raw, x.span.substring text = .ok (some quoted) ∧ TextTokens lapexTokens quoted ts ∧
      RuleText joinSeq joinAlt (located 19 18 x.span.start ts) ⟨x.span, raw⟩ ∧ Means syn raw x.inner := by
    intro x hx
    have : ∃ r ∈ rs, x.span = r.span ∧ Means syn r.inner x.inner := by
      clear h2 h4 h5 h6
      unfold MeansAll at h3
      induction h3 with
      | nil => cases hx
      | cons a _ ih =>
        rcases List.mem_cons.mp hx with rfl | hx
        · exact ⟨_, by simp, a⟩
        · obtain ⟨r, hr, h⟩ := ih hx
          exact ⟨r, by simp [hr], h⟩
    obtain ⟨r, hr, hs, hm⟩ := this
    obtain ⟨pre, quoted, suf, ts', g1, g2, g3, g4⟩ := rule_quoted ha (lapexTokens_newline hbs) h1 h2 r hr
    refine ⟨quoted, ts', r.inner, ?_, g3, ?_, hm⟩
    · rw [hs, g2, g1]
      refine C44_substring pre quoted suf (C44_fits _ ?_)
      rw [← g1]
      have := bytes_ascii text ha
      omega
    · rw [hs]
      exact g4
  have ht : ∀ r ∈ tokenRulesOf xs, (⟨r.span, .token r.inner⟩ : Spanned LapexRule) ∈ xs := by
    intro r hr
    obtain ⟨x, hx, he⟩ := List.mem_filterMap.mp hr
    split at he
    · rename_i q hq; cases he; rw [← hq]; exact hx
    · cases he
  have hpr : ∀ r ∈ prodRulesOf xs, (⟨r.span, .prod r.inner⟩ : Spanned LapexRule) ∈ xs := by
    intro r hr
    obtain ⟨x, hx, he⟩ := List.mem_filterMap.mp hr
    split at he
    · rename_i q hq; cases he; rw [← hq]; exact hx
    · cases he
  have hen : ∀ r ∈ entryRulesOf xs, (⟨r.span, .entry r.inner⟩ : Spanned LapexRule) ∈ xs := by
    intro r hr
    obtain ⟨x, hx, he⟩ := List.mem_filterMap.mp hr
    split at he
    · rename_i q hq; cases he; rw [← hq]; exact hx
    · cases he
  rintro x (rfl | ⟨r, hr, rfl⟩ | ⟨r, hr, rfl⟩)
  · exact key _ (hen _ (by rw [h4]; simp))
  · rw [h5, List.mem_reverse] at hr; exact key _ (ht r hr)
  · rw [h6, List.mem_reverse] at hr; exact key _ (hpr r hr)

omit hlex hp hb

/-! ### examples -/

/-- `entry s; token A[7] = "a"; prod s = A A | A;` -/
def sampleText : List Char := "entry s; token A[7] = \"a\"; prod s = A A | A;".toList

def sampleTokens : List (Nat × List Char) := [(1, "entry"), (18, " "), (15, "s"), (4, ";"), (18, " "), (0, "token"), (18, " "), (15, "A"), (7, "["), (9, "7"), (8, "]"), (18, " "),
  (3, "="), (18, " "), (16, "\"a\""), (4, ";"), (18, " "), (2, "prod"), (18, " "), (15, "s"), (18, " "), (3, "="), (18, " "), (15, "A"), (18, " "), (15, "A"), (18, " "), (14, "|"),
  (18, " "), (15, "A"), (4, ";")].map fun x => (x.1, x.2.toList)

theorem sampleText_file : ∃ ts, TextTokens lapexTokens sampleText ts ∧ FileMeans (fun _ => none) (fileTokens ts) sampleOut := by
  refine ⟨sampleTokens, checkTokens_spec (by decide +kernel), ?_⟩
  have : fileTokens sampleTokens = sampleFile := by decide +kernel
  rw [this]
  exact sampleFile_means _

-- a lexer, a parser and a text that fulfil the hypotheses of the theorems, and the answer
example : ∃ lexFuel t p, generateLexer lexFuel lapexTokens = .ok (.ok t) ∧ LRParserFor lapexGrammar .lr1 p ∧ bytes sampleText < 65535 ∧ Ascii sampleText ∧
    ¬ ['\\', '\n'] <:+: sampleText ∧ ∃ fuel, parseLapex (fun _ => none) t p.machine fuel sampleText = .ok sampleOut := by
  obtain ⟨⟨f, t, ht⟩, p, hp⟩ := C63_exists
  refine ⟨f, t, p, ht, hp, by decide +kernel, by unfold Ascii; decide +kernel, by decide +kernel, ?_⟩
  exact (C63_answer ht hp _ sampleText (by decide +kernel) sampleOut).mpr sampleText_file

/-! ### what `C63_quotes` needs -/

/-- the tokens of a file with the string token `s`, which the token function takes to be `w` columns wide -/
def wideFile (s : List Char) (w : Nat) : Tokens := [
  (Lx.kwEntry, sampleData "entry" 1), (Lx.ident, sampleData "s" 7), (Lx.semi, sampleData ";" 8),
  (Lx.kwToken, sampleData "token" 10), (Lx.ident, sampleData "A" 16), (Lx.equals, sampleData "=" 18), (Lx.string, ⟨s, ⟨⟨1, 20⟩, ⟨1, 20 + w⟩⟩⟩), (Lx.semi, sampleData ";" (20 + w)),
  (Lx.kwProd, sampleData "prod" (22 + w)), (Lx.ident, sampleData "s" (27 + w)), (Lx.equals, sampleData "=" (29 + w)), (Lx.ident, sampleData "A" (31 + w)), (Lx.semi, sampleData ";" (32 + w))]

def wideTokens (s : List Char) : List (Nat × List Char) := [(1, "entry".toList), (18, [' ']), (15, ['s']), (4, [';']), (18, [' ']), (0, "token".toList), (18, [' ']), (15, ['A']), (18, [' ']),
  (3, ['=']), (18, [' ']), (16, s), (4, [';']), (18, [' ']), (2, "prod".toList), (18, [' ']), (15, ['s']), (18, [' ']), (3, ['=']), (18, [' ']), (15, ['A']), (4, [';'])]

def wideOut (s : List Char) (w : Nat) : SpannedRules where
  entry := ⟨⟨⟨1, 1⟩, ⟨1, 9⟩⟩, "s"⟩
  tokens := [⟨⟨⟨1, 10⟩, ⟨1, 21 + w⟩⟩, ⟨"A", none, .literal s⟩⟩]
  prods := [⟨⟨⟨1, 22 + w⟩, ⟨1, 33 + w⟩⟩, ⟨"s", none, .rule "A"⟩⟩]

theorem wideFile_means (syn : List Char → Option Hir) (s : List Char) (w : Nat) : FileMeans syn (wideFile ('"' :: s ++ ['"']) w) (wideOut s w) := by
  refine ⟨_, [⟨⟨⟨1, 1⟩, ⟨1, 9⟩⟩, .entry "s"⟩, ⟨⟨⟨1, 10⟩, ⟨1, 21 + w⟩⟩, .token ⟨"A", none, .literal s⟩⟩, ⟨⟨⟨1, 22 + w⟩, ⟨1, 33 + w⟩⟩, .prod ⟨"s", none, .rule "A"⟩⟩],
    .more (.entry _ _ _) (.more (.token (sampleData "token" 10) (sampleData "A" 16) (sampleData "=" 18) ⟨'"' :: s ++ ['"'], ⟨⟨1, 20⟩, ⟨1, 20 + w⟩⟩⟩ (sampleData ";" (20 + w)) .absent (.inl rfl))
      (.one (.prod (sampleData "prod" (22 + w)) (sampleData "s" (27 + w)) (sampleData "=" (29 + w)) (sampleData ";" (32 + w)) .absent
        (.alternative (.concatenation (.unary (.item (.name (sampleData "A" (31 + w)))))))))),
    .cons ⟨rfl, .entry (sampleData "s" 7)⟩ (.cons ⟨?_, ?_⟩ (.cons ⟨?_, .prod (sampleData "s" (27 + w)) none _⟩ .nil)), rfl, rfl, rfl⟩
  · simp only [sampleData, SourceSpan.mk.injEq, SourcePos.mk.injEq, true_and]
    simp [String.length]
    omega
  · have := Means.literal (syn := syn) (n := sampleData "A" 16) (d := ⟨'"' :: s ++ ['"'], ⟨⟨1, 20⟩, ⟨1, 20 + w⟩⟩⟩) .none (body := s ++ ['"']) rfl
    rwa [List.dropLast_concat] at this
  · simp only [sampleData, SourceSpan.mk.injEq, SourcePos.mk.injEq, true_and]
    simp [String.length]
    omega

/-- the answer for a file with such a string -/
theorem wideText_answer (s : List Char) (w : Nat) (text : List Char) (hb : bytes text < 65535) (h1 : checkTokens text (wideTokens ('"' :: s ++ ['"'])) = true)
    (h2 : fileTokens (wideTokens ('"' :: s ++ ['"'])) = wideFile ('"' :: s ++ ['"']) w) :
    ∀ (lexFuel : Nat) (t : LexerTables) (p : LRProg), generateLexer lexFuel lapexTokens = .ok (.ok t) → LRParserFor lapexGrammar .lr1 p →
      ∃ fuel, parseLapex (fun _ => none) t p.machine fuel text = .ok (wideOut s w) := by
  intro lexFuel t p ht hp
  exact (C63_answer ht hp _ text hb _).mpr ⟨_, checkTokens_spec h1, by rw [h2]; exact wideFile_means _ s w⟩

def isNone (r : Res (Option (List Char))) : Bool :=
  match r with
  | .ok none => true
  | _ => false

theorem isNone_eq {r : Res (Option (List Char))} (h : isNone r = true) : r = .ok none := by
  unfold isNone at h
  split at h
  · rfl
  · cases h

/-- With a newline in a string (after a backslash), the spans of later rules point to places that do not exist. -/
theorem C63_quotes_newline_counterexample : ∃ text out, Ascii text ∧ bytes text < 65535 ∧ (∃ r ∈ out.prods, r.span.substring text = .ok none) ∧
    ∀ (lexFuel : Nat) (t : LexerTables) (p : LRProg), generateLexer lexFuel lapexTokens = .ok (.ok t) → LRParserFor lapexGrammar .lr1 p →
      ∃ fuel, parseLapex (fun _ => none) t p.machine fuel text = .ok out :=
  ⟨"entry s; token A = \"\\\n\"; prod s = A;".toList, wideOut ['\\', '\n'] 4, by unfold Ascii; decide +kernel, by decide +kernel, ⟨_, List.mem_singleton.mpr rfl, isNone_eq (by decide +kernel)⟩,
    wideText_answer _ 4 _ (by decide +kernel) (by decide +kernel) (by decide +kernel)⟩

/-- So do they after a non-ASCII char on the same line: columns are counted in bytes, but looked up in chars. -/
theorem C63_quotes_wide_counterexample : ∃ text out, ¬ ['\\', '\n'] <:+: text ∧ bytes text < 65535 ∧ (∃ r ∈ out.prods, r.span.substring text = .ok none) ∧
    ∀ (lexFuel : Nat) (t : LexerTables) (p : LRProg), generateLexer lexFuel lapexTokens = .ok (.ok t) → LRParserFor lapexGrammar .lr1 p →
      ∃ fuel, parseLapex (fun _ => none) t p.machine fuel text = .ok out :=
  ⟨"entry s; token A = \"é\"; prod s = A;".toList, wideOut ['é'] 4, by decide +kernel, by decide +kernel, ⟨_, List.mem_singleton.mpr rfl, isNone_eq (by decide +kernel)⟩,
    wideText_answer _ 4 _ (by decide +kernel) (by decide +kernel) (by decide +kernel)⟩

end Verif
