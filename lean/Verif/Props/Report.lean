import Verif.Proofs.ReportNames

/-!
# C68 — what the command line tool prints about errors

`plain` removes colour codes. `Report.display` is the text of a report, `printReports` what `lapex generate` and `lapex debug` print for a list of reports; `reason` is what the operating
system says about a file that cannot be read.
-/

set_option autoImplicit false

namespace Verif

/-- What is shown of a report are its lines: the kind of error, and for each place the report tells about the position, the text found there underlined, and what is told. -/
theorem C68_report (reason : List Char) (r : Report) (h : r.Printable reason) :
    ∃ ls, ReportLines reason r ls ∧ plain (r.display reason) = List.intercalate ['\n'] ls := by
  obtain ⟨ls, h1, _, h2⟩ := display_shown h
  exact ⟨ls, h1, h2.eq⟩

/-- Several reports are shown one after the other with an empty line between them. -/
theorem C68_prints (reason : List Char) (rs : List Report) (h : ∀ r ∈ rs, r.Printable reason) :
    ∃ blocks : List (List (List Char)), List.Forall₂ (ReportLines reason) rs blocks ∧ plain (printReports reason rs) = textOfLines (List.intercalate [[]] blocks) := by
  obtain ⟨blocks, h1, h2⟩ := reports_shown h
  exact ⟨blocks, h1, h2.eq⟩

/-- The lines of a report are determined by it. -/
theorem C68_lines_unique (text : List Char) (ls ls' : List (List Char)) (h : LinesOf text ls) (h' : LinesOf text ls') : ls = ls' := by
  obtain ⟨parts, h1, h2, h3, rfl⟩ := h
  obtain ⟨parts', i1, i2, i3, rfl⟩ := h'
  have e : ∀ (a b : List (List Char)), a ≠ [] → b ≠ [] → (∀ p ∈ a, '\n' ∉ p) → (∀ p ∈ b, '\n' ∉ p) → List.intercalate ['\n'] a = List.intercalate ['\n'] b →
      a.map stripCr = b.map stripCr := by
    intro a b ha hb na nb hab
    have ea := lines_parts a ha na []
    have eb := lines_parts b hb nb []
    rw [hab] at ea
    rw [ea] at eb
    simpa using eb
  have := e parts parts' h1 i1 h3 i3 (h2.symm.trans i2)
  rwa [funext stripCr_eq] at this

/-- If the text found at a place is ASCII and has no line breaks, it is shown as one line, followed by a line of as many tildes as it has chars. -/
theorem C68_underline (l : Location) (told ls : List (List Char)) (h : SectionLines l told ls) (ha : Ascii l.text) (hn : '\n' ∉ l.text) (hr : '\r' ∉ l.text) :
    ∃ before after, ls = before ++ ["  |  ".toList ++ l.text, "  |  ".toList ++ List.replicate l.text.length '~'] ++ after := by
  cases h with
  | @mk quoted hq =>
    have hone : LinesOf l.text [l.text] := by
      refine ⟨[l.text], by simp, by simp [List.intercalate], by simpa using hn, ?_⟩
      have : l.text.getLast? ≠ some '\r' := fun hl => hr (List.mem_of_getLast? hl)
      simp [this]
    have hq := C68_lines_unique _ _ _ hq hone
    have hb : byteLen l.text = l.text.length := by
      have hsum : ∀ s : List Char, Ascii s → (s.map Char.utf8Size).sum = s.length := by
        intro s
        induction s with
        | nil => intro _; rfl
        | cons c s ih =>
          intro h
          rw [List.map_cons, List.sum_cons, ih fun x hx => h x (List.mem_cons_of_mem _ hx), utf8Size_one.mpr (h c List.mem_cons_self)]
          simp [Nat.add_comm]
      exact hsum _ ha
    subst hq
    rw [hb]
    exact ⟨[(" --> ".toList ++ l.file ++ [':'] ++ decimal l.pos.line ++ [':'] ++ decimal l.pos.col), "  |  ".toList], _, by simp; rfl⟩

/-- Otherwise the underlining can be longer than the text: there are as many tildes as bytes. -/
theorem C68_underline_counterexample : ∃ (l : Location) (told ls : List (List Char)), SectionLines l told ls ∧ '\n' ∉ l.text ∧
    ("  |  ".toList ++ l.text) ∈ ls ∧ ∃ n, l.text.length < n ∧ ("  |  ".toList ++ List.replicate n '~') ∈ ls := by
  refine ⟨⟨⟨1, 1⟩, [], ['é']⟩, [], _, .mk ⟨[['é']], by simp, by simp [List.intercalate], by decide, rfl⟩, by decide, ?_, 2, by decide, ?_⟩
  · decide +kernel
  · decide +kernel

section
variable (parse : List Char → Res SpannedRules) (fuel : Nat) (genLexer : Bool) (alg : Algorithm) (genTable : Bool) (lang : Language) (path : List Char)
  (contents : Option (List Char)) (ws : List Written)

/-- The reports of a run of `generate` can be shown this way, if there are no escape chars in the names of the files, the grammar file, its rules' names and the reason, and rules'
names have no line breaks. -/
theorem C68_printable (reason : List Char) (reports : List Report) (h : generate parse fuel genLexer alg genTable lang path contents = (ws, .err reports))
    (hpath : NoEscape path) (hreason : NoEscape reason) (hC : ∀ text, contents = some text → NoEscape text)
    (hR : ∀ text rules, contents = some text → parse text = .ok rules → rules.ruleSet.NoEmptySequence ∧ rules.tokens.length ≤ 65536 ∧ rules.prods.length ≤ 65536 ∧
      (∀ r ∈ rules.tokens, NoEscape r.inner.name.toList ∧ '\n' ∉ r.inner.name.toList) ∧ ∀ r ∈ rules.prods, NoEscape r.inner.name.toList ∧ '\n' ∉ r.inner.name.toList) :
    ∀ r ∈ reports, r.Printable reason := by
  obtain ⟨_, h | ⟨text, rules, e, xs, h1, h2, _, _, h3, h4, h5⟩ | ⟨text, rules, g, kind, cs, h1, h2, h3, h4, h5, _, _, cs', _, h6, h7⟩⟩ :=
    C65_err parse fuel genLexer alg genTable lang path contents ws reports h fun text rules h1 h2 => (hR text rules h1 h2).1
  · obtain ⟨_, _, rfl⟩ := h
    intro r hr
    simp at hr
    subst hr
    exact ⟨trivial, by simp [Report.places], by simp [Report.places], by simp [Report.places], fun f hf => by cases hf; exact ⟨hpath, hreason⟩⟩
  · obtain ⟨_, _, _, hr4, _⟩ := hR text rules h1 h2
    subst h4
    intro r hr
    simp at hr
    subst hr
    exact token_printable hpath (hC text h1) hr4 h5 (tie_ne h3)
  · obtain ⟨hr1, hr2, hr3, hr4, hr5⟩ := hR text rules h1 h2
    intro r hr
    obtain ⟨c, hc, htell⟩ := forall₂_right h7 hr
    have wf := C19_well_formed _ _ h3
    have hne : NoEmptyRhs g := C19_no_empty_right_side _ g h3 hr1
    refine report_printable h3 (by simpa [SpannedRules.ruleSet] using hr2) (by simpa [SpannedRules.ruleSet] using hr3) ?_ ?_ hpath (hC text h1) htell ?_
    · intro n hn
      simp only [SpannedRules.ruleSet, List.mem_map] at hn
      obtain ⟨r, hr, rfl⟩ := hn
      exact hr4 r hr
    · intro n hn
      simp only [SpannedRules.ruleSet, List.mem_map] at hn
      obtain ⟨r, hr, rfl⟩ := hn
      exact hr5 r hr
    · rintro q its rfl rfl
      have := (C64_reduce_reduce g wf hne false kind fuel _ h5 q [] ((h6 _).mp hc)).2.1
      simp at this

end

/-- `lapex generate` with the input parser of C63, run on a grammar file of at most 65534 bytes, or a missing one, without escape chars: when it ends with errors, exactly the lines of
its reports are shown, and the exit code is 0. -/
theorem C68_cli {lexFuel : Nat} {t0 : LexerTables} (hlex : generateLexer lexFuel lapexTokens = .ok (.ok t0)) {p0 : LRProg} (hp0 : LRParserFor lapexGrammar .lr1 p0)
    (syn : List Char → Option Hir) (pf fuel : Nat) (genLexer : Bool) (alg : Algorithm) (genTable : Bool) (lang : Language) (path : List Char) (contents : Option (List Char))
    (hC : ∀ text, contents = some text → bytes text < 65535 ∧ NoEscape text) (hpath : NoEscape path) (reason : List Char) (hreason : NoEscape reason) (ws : List Written)
    (reports : List Report) (h : generate (parseLapex syn t0 p0.machine pf) fuel genLexer alg genTable lang path contents = (ws, .err reports)) :
    ∃ text blocks, cliGenerate reason (.err reports) = some (some text, 0) ∧ List.Forall₂ (ReportLines reason) reports blocks ∧
      plain text = textOfLines (List.intercalate [[]] blocks) := by
  have hp := C68_printable (parseLapex syn t0 p0.machine pf) fuel genLexer alg genTable lang path contents ws reason reports h hpath hreason (fun text h => (hC text h).2)
    fun text rules h1 h2 => by
      obtain ⟨ts, m1, m2⟩ := (C63_answer hlex hp0 syn text (hC text h1).1 rules).mp ⟨pf, h2⟩
      obtain ⟨f1, f2, f3, f4⟩ := parsed_fine hlex hp0 (hC text h1).1 h2
      obtain ⟨n1, n2⟩ := fileMeans_names m1 m2
      exact ⟨f3, f1, f2, fun r hr => showName_of_isName (n1 r hr), fun r hr => showName_of_isName (n2 r hr)⟩
  obtain ⟨blocks, h1, h2⟩ := C68_prints reason reports hp
  exact ⟨_, blocks, rfl, h1, h2⟩

/-- The exit code of `lapex generate` is 0 whether it was successful or found errors; only a panic gives another one. -/
theorem C68_exit_code (reason : List Char) (e : Ending) (out : Option (List Char)) (code : Nat) (h : cliGenerate reason e = some (out, code)) :
    code ≠ 0 ↔ ∃ at_, e = .panic at_ := by
  cases e <;> simp [cliGenerate] at h <;> (obtain ⟨_, rfl⟩ := h; simp)

/-! ### Examples -/

/-- a shift-reduce conflict -/
def sampleReport : Report := .shiftReduce 7 "IF".toList ⟨⟨3, 1⟩, "x.lapex".toList, "prod s = IF s;".toList⟩ "s(0) -> IF(1) s(0) • ".toList

theorem sampleReport_printable (reason : List Char) : sampleReport.Printable reason := by
  constructor
  · trivial
  · unfold NoEscape; decide
  · unfold NoEscape; decide
  · unfold NoEscape; decide
  · intro f h; cases h

example : plain (sampleReport.display []) =
    ("error: shift-reduce conflict in grammar\n --> x.lapex:3:1\n  |  \n  |  prod s = IF s;\n  |  ~~~~~~~~~~~~~~\n  |  \n" ++
      "  |  In state 7:\n  |  Could shift token\n  |  \tIF\n  |  Or reduce item\n  |  \ts(0) -> IF(1) s(0) • \n  |  ").toList := by
  decide +kernel

-- from the grammar file to what is shown
example : ∃ lexFuel t p pf, generateLexer lexFuel lapexTokens = .ok (.ok t) ∧ LRParserFor lapexGrammar .lr1 p ∧ ∃ ws reports text,
    generate (parseLapex (fun _ => none) t p.machine pf) 100 true .lr1 true .rust "x.lapex".toList (some "entry s; token A = \"a\"; prod s = A; prod s = A;".toList) = (ws, .err reports) ∧
    cliGenerate [] (.err reports) = some (some text, 0) ∧
    plain text = ("error: reduce-reduce conflict in grammar\n --> x.lapex:1:37\n  |  \n  |  prod s = A;\n  |  ~~~~~~~~~~~\n  |  \n" ++
      "  |  In state 1:\n  |  Could reduce this item:\n  |  \ts(0) -> A(0) • \n  |  \n" ++
      " --> x.lapex:1:25\n  |  \n  |  prod s = A;\n  |  ~~~~~~~~~~~\n  |  \n  |  In state 1:\n  |  Could reduce this item:\n  |  \ts(0) -> A(0) • \n  |  \n").toList := by
  obtain ⟨⟨f, t, ht⟩, p, hp⟩ := C63_exists
  obtain ⟨pf, h⟩ := (C63_answer ht hp (fun _ => none) "entry s; token A = \"a\"; prod s = A; prod s = A;".toList (by decide +kernel) (twiceOut ['a'] 3)).mpr
    ⟨twiceTokens "\"a\"".toList, checkTokens_spec (by decide +kernel), by
      have : fileTokens (twiceTokens "\"a\"".toList) = twiceFile ('"' :: ['a'] ++ ['"']) 3 := by decide +kernel
      rw [this]
      exact twiceFile_means _ _ _⟩
  refine ⟨f, t, p, pf, ht, hp, (generate (fun _ => .ok (twiceOut ['a'] 3)) 100 true .lr1 true .rust "x.lapex".toList (some "entry s; token A = \"a\"; prod s = A; prod s = A;".toList)).1,
    [.reduceReduce 1 [(⟨⟨1, 37⟩, "x.lapex".toList, "prod s = A;".toList⟩, "s(0) -> A(0) • ".toList), (⟨⟨1, 25⟩, "x.lapex".toList, "prod s = A;".toList⟩, "s(0) -> A(0) • ".toList)]], _, ?_, rfl, ?_⟩
  · rw [generate_of_parse h]
    exact Prod.ext rfl (by decide +kernel)
  · decide +kernel

end Verif
