import Verif.Props.Lapex
import Verif.Proofs.LapexFile

/-!
# C49, C50, C60: the bootstrap input parser

The texts, the printer and the writable rules are in `Verif.Spec.Bootstrap`.
-/

set_option autoImplicit false

namespace Verif

/-! ## C49 — what is printed is read back -/

theorem bootParse_of_raw {src : List Char} {rs : List LapexRule} (h : bootFileRaw (asBytes src) = some (rs, [])) :
    bootParse src = .ok (match entryRulesOf (rs.map noPos) with
      | [] => .error .noEntryRule
      | [entry] => .ok ⟨entry, tokenRulesOf (rs.map noPos), prodRulesOf (rs.map noPos)⟩
      | _ => .error .tooManyEntryRules) := by
  have hz : rs.map Spanned.zero = rs.map noPos := rfl
  simp only [bootParse, h, ne_eq, not_true_eq_false, if_false, hz, sortRules_eq]
  rcases entryRulesOf (rs.map noPos) with _ | ⟨a, _ | ⟨b, l⟩⟩ <;> rfl

/-- The text of a file with one entry rule is read as the rules it stands for, in their order. -/
theorem C49_reads (src : List Char) (rs : List LapexRule) (out : SpannedRules) (h : BootFileText true src rs) (ho : RuleSetOf rs out) : bootParse src = .ok (.ok out) := by
  have h1 := bootFileRaw_reads h
  rw [← asBytes_ascii (bootFileText_ascii h)] at h1
  obtain ⟨h2, h3, h4⟩ := ho
  rw [bootParse_of_raw h1, h2]
  simp only [h3, h4]

/-- Without an entry rule, or with more than one, the text is rejected with the error for this. -/
theorem C49_entry_rules (src : List Char) (rs : List LapexRule) (h : BootFileText true src rs) :
    ((entryRulesOf (rs.map noPos)).length = 0 → bootParse src = .ok (.error .noEntryRule)) ∧ (2 ≤ (entryRulesOf (rs.map noPos)).length → bootParse src = .ok (.error .tooManyEntryRules)) := by
  have h1 := bootFileRaw_reads h
  rw [← asBytes_ascii (bootFileText_ascii h)] at h1
  rw [bootParse_of_raw h1]
  rcases entryRulesOf (rs.map noPos) with _ | ⟨a, _ | ⟨b, l⟩⟩ <;> simp

/-- Every list of writable rules with one entry rule is parsed back from its printed form: the same rules, in the same order. -/
theorem C49_round_trip (rs : List LapexRule) (out : SpannedRules) (h : ∀ r ∈ rs, WritableRule r) (ho : RuleSetOf rs out) : bootParse (printRules rs) = .ok (.ok out) := by
  refine C49_reads _ rs out (printFile_text ?_ h) ho
  rintro rfl
  have := ho.1
  simp [entryRulesOf] at this

/-- Whatever the parser accepts is the text of a file with one entry rule, and the answer are the rules it stands for. -/
theorem C49_sound (src : List Char) (out : SpannedRules) (h : bootParse src = .ok (.ok out)) : ∃ rs, BootFileText false src rs ∧ RuleSetOf rs out := by
  cases hr : bootFileRaw (asBytes src) with
  | none => simp [bootParse, hr] at h
  | some r =>
    obtain ⟨rs, rest⟩ := r
    by_cases hrest : rest = []
    · subst hrest
      rw [bootParse_of_raw hr] at h
      obtain ⟨w, h1, h2⟩ := bootFileRaw_sound hr
      rw [List.append_nil] at h1
      subst h1
      have ha := ascii_of_asBytes (bootFileText_ascii h2)
      rw [asBytes_ascii ha] at h2
      refine ⟨rs, h2, ?_⟩
      split at h
      · cases h
      · rename_i he
        cases h
        exact ⟨he, rfl, rfl⟩
      · cases h
    · simp [bootParse, hr, hrest] at h

/-- The rules it can answer are exactly the writable ones. -/
theorem C49_writable (out : SpannedRules) : (∃ src, bootParse src = .ok (.ok out)) ↔ ∃ rs, RuleSetOf rs out ∧ ∀ r ∈ rs, WritableRule r := by
  constructor
  · rintro ⟨src, h⟩
    obtain ⟨rs, h1, h2⟩ := C49_sound src out h
    exact ⟨rs, h2, (bootFileText_writable h1).2⟩
  · rintro ⟨rs, h1, h2⟩
    exact ⟨printRules rs, C49_round_trip rs out h2 h1⟩

/-- If it reports that a part of the text is left over, the text before that part are rules. -/
theorem C49_incomplete (src rest : List Char) (h : bootParse src = .ok (.error (.incomplete rest))) : rest ≠ [] ∧ ∃ w rs, asBytes src = w ++ rest ∧ BootFileText false w rs := by
  cases hr : bootFileRaw (asBytes src) with
  | none => simp [bootParse, hr] at h
  | some r =>
    obtain ⟨rs, rest'⟩ := r
    by_cases hrest : rest' = []
    · subst hrest
      rw [bootParse_of_raw hr] at h
      split at h <;> cases h
    · simp [bootParse, hr, hrest] at h
      subst h
      obtain ⟨w, h1, h2⟩ := bootFileRaw_sound hr
      exact ⟨hrest, w, rs, h1, h2⟩

/-- It always comes to an end (with an answer, an error or a panic); the bounds on the nesting in the model are no restriction. -/
theorem C49_terminates (src : List Char) : bootParse src ≠ .error .fuel ∧ ∀ (d : Nat) (i : List Char), i.length < d → bootRegexSeq d i = bootRegexSequence i ∧ bootProdSeq d i = bootProdPattern i := by
  refine ⟨?_, fun d i h => ⟨bootRegexSeq_depth h, bootProdSeq_depth h⟩⟩
  unfold bootParse
  split
  · simp
  · split
    · simp
    · split <;> simp

/-- a rule set with all kinds of rules, and its printed form -/
def printSample : List LapexRule := [
  .token ⟨"PLUS", none, .literal ['+']⟩,
  .token ⟨"NUM", none, .pattern (.sequence [.repetition 1 none (.charSet [.range '0' '9', .single '-'] false), .alternative [.sequence [.char (.single '(')], .sequence [.charSet [] true]]])⟩,
  .entry "expr",
  .prod ⟨"expr", none, .sequence [.rule "NUM", .zeroOrMany (.alternative [.sequence [.rule "PLUS", .optional (.rule "expr")], .sequence [.rule "NUM"]])]⟩]

example : printRules printSample = "token PLUS = \"+\";\ntoken NUM = /[0-9\\u{00002d}]+(\\u{000028}|.)/;\nentry expr;\nprod expr = NUM (PLUS expr? | NUM)*;".toList := by decide +kernel

example : (∀ r ∈ printSample, WritableRule r) ∧ RuleSetOf printSample ⟨noPos "expr", tokenRulesOf (printSample.map noPos), prodRulesOf (printSample.map noPos)⟩ := by
  refine ⟨?_, rfl, rfl, rfl⟩
  have pn : ∀ n ∈ ["PLUS", "NUM", "expr"], PlainName n.toList := by unfold PlainName; decide
  intro r hr
  simp only [printSample, List.mem_cons, List.not_mem_nil, or_false] at hr
  rcases hr with rfl | rfl | rfl | rfl
  · exact .literal (pn _ (by simp)) (by simp) (by decide)
  · refine .regex (pn _ (by simp)) (by simp) ?_
    intro p hp
    simp only [List.mem_cons, List.not_mem_nil, or_false] at hp
    rcases hp with rfl | rfl
    · exact .oneOrMore (.set (by simp))
    · refine .alternative (by simp) (by simp) ?_
      intro q hq
      simp only [List.mem_cons, List.not_mem_nil, or_false] at hq
      rcases hq with rfl | rfl
      · exact .sequence (by simp) (by intro p hp; simp at hp; subst hp; exact .char _)
      · exact .sequence (by simp) (by intro p hp; simp at hp; subst hp; exact .any)
  · exact .entry (pn _ (by simp))
  · refine .prod (pn _ (by simp)) (by simp) ?_
    intro p hp
    simp only [List.mem_cons, List.not_mem_nil, or_false] at hp
    rcases hp with rfl | rfl
    · exact .rule (pn _ (by simp))
    · refine .zeroOrMore (.alternative (by simp) (by simp) ?_)
      intro q hq
      simp only [List.mem_cons, List.not_mem_nil, or_false] at hq
      rcases hq with rfl | rfl
      · refine .sequence (by simp) ?_
        intro p hp
        simp only [List.mem_cons, List.not_mem_nil, or_false] at hp
        rcases hp with rfl | rfl
        · exact .rule (pn _ (by simp))
        · exact .optional (.rule (pn _ (by simp)))
      · exact .sequence (by simp) (by intro p hp; simp at hp; subst hp; exact .rule (pn _ (by simp)))

/-- Names with digits cannot be read: the parser stops before the rule. -/
example : (match bootParse "entry a;\nprod a2 = a;".toList with | .ok (.error (.incomplete rest)) => rest | _ => []) = "prod a2 = a;".toList := by decide +kernel

/-- A file whose first rule is not understood makes the parser panic. -/
example : (match bootParse "prod a2 = a;".toList with | .error .panic => true | _ => false) = true := by decide +kernel

/-- A `(` that does not start a group is read as the char itself: the texts with `strict = false` are really needed in `C49_sound`. -/
example : (match bootRegexSequence "(a/".toList with | some (.sequence [.char x, .char y], rest) => some (x, y, rest) | _ => none) = some (.single '(', .single 'a', ['/']) := by decide +kernel

/-! ## C50 — chars in regular expressions -/

/-- Exactly the texts of the specification are read as a char. -/
theorem C50_char (i rest : List Char) (c : Char) : bootChar i = some (c, rest) ↔ ∃ w, i = w ++ rest ∧ CharText w c := bootChar_iff i rest c

/-- Every char can be written. -/
theorem C50_every_char (c : Char) (rest : List Char) : bootChar (printChar c ++ rest) = some (c, rest) := (C50_char _ _ _).mpr ⟨_, rfl, printChar_text c⟩

/-- Every hexadecimal spelling, with four to six digits, of every scalar value is read as the char. -/
theorem C50_unicode (ds rest : List Char) (c : Char) (h1 : 4 ≤ ds.length) (h2 : ds.length ≤ 6) (h : HexIs ds c.toNat) :
    bootChar (['\\', 'u', '{'] ++ ds ++ ['}'] ++ rest) = some (c, rest) := (C50_char _ _ _).mpr ⟨_, rfl, .unicode h1 h2 h⟩

/-- A number that is no scalar value is rejected. -/
theorem C50_not_scalar (ds rest : List Char) (n : Nat) (h : HexIs ds n) (hn : ¬ n.isValidChar) : bootChar (['\\', 'u', '{'] ++ ds ++ ['}'] ++ rest) = none := by
  cases hb : bootChar (['\\', 'u', '{'] ++ ds ++ ['}'] ++ rest) with
  | none => rfl
  | some r =>
    exfalso
    obtain ⟨c, r⟩ := r
    obtain ⟨w, h1, h2⟩ := (C50_char _ _ _).mp hb
    have hhex := (hexIs_value h).2
    cases h2 with
    | plain hp =>
      simp at h1
      obtain ⟨rfl, _⟩ := h1
      exact absurd hp.2 (by simp)
    | @unicode ds' c' l1 l2 h3 =>
      have hhex' := (hexIs_value h3).2
      simp only [List.cons_append, List.nil_append, List.append_assoc, List.cons.injEq, true_and] at h1
      have : ds = ds' := by
        have a := (takeWhile_app (rest := '}' :: rest) hhex (by simp [isHexDigit])).1
        have b := (takeWhile_app (rest := '}' :: r) hhex' (by simp [isHexDigit])).1
        rw [h1] at a
        exact a.symm.trans b
      subst this
      have e : n = c.toNat := (hexIs_value h).1.symm.trans (hexIs_value h3).1
      exact hn (e ▸ c.valid)
    | _ => simp at h1

/-- Fewer than four or more than six digits are rejected. -/
theorem C50_digits (ds rest : List Char) (n : Nat) (h : HexIs ds n) (hl : ds.length < 4 ∨ 6 < ds.length) : bootChar (['\\', 'u', '{'] ++ ds ++ ['}'] ++ rest) = none := by
  cases hb : bootChar (['\\', 'u', '{'] ++ ds ++ ['}'] ++ rest) with
  | none => rfl
  | some r =>
    exfalso
    obtain ⟨c, r⟩ := r
    obtain ⟨w, h1, h2⟩ := (C50_char _ _ _).mp hb
    have hhex := (hexIs_value h).2
    cases h2 with
    | plain hp =>
      simp at h1
      obtain ⟨rfl, _⟩ := h1
      exact absurd hp.2 (by simp)
    | @unicode ds' c' l1 l2 h3 =>
      have hhex' := (hexIs_value h3).2
      simp only [List.cons_append, List.nil_append, List.append_assoc, List.cons.injEq, true_and] at h1
      have : ds = ds' := by
        have a := (takeWhile_app (rest := '}' :: rest) hhex (by simp [isHexDigit])).1
        have b := (takeWhile_app (rest := '}' :: r) hhex' (by simp [isHexDigit])).1
        rw [h1] at a
        exact a.symm.trans b
      subst this
      omega
    | _ => simp at h1

/-- Other escapes do not exist, in particular none for `"`, `(`, `[` and `.`. -/
theorem C50_no_other (c : Char) (rest : List Char) (h : c ∉ ['n', 'r', 't', '\\', '/', 'u']) : bootChar ('\\' :: c :: rest) = none := by
  cases hb : bootChar ('\\' :: c :: rest) with
  | none => rfl
  | some r =>
    exfalso
    obtain ⟨d, r⟩ := r
    obtain ⟨w, h1, h2⟩ := (C50_char _ _ _).mp hb
    cases h2 with
    | plain hp =>
      simp at h1
      obtain ⟨rfl, _⟩ := h1
      exact absurd hp.2 (by simp)
    | _ =>
      simp at h1
      obtain ⟨rfl, _⟩ := h1
      simp at h

/-- In a string literal no escape exists: what is between the quotes is taken as it is, so a literal with `"` or a char outside ASCII cannot be written. -/
theorem C50_literals (src : List Char) (out : SpannedRules) (h : bootParse src = .ok (.ok out)) (t : Spanned TokenRule) (ht : t ∈ out.tokens) (cs : List Char)
    (hcs : t.inner.pattern = .literal cs) : cs ≠ [] ∧ ∀ c ∈ cs, c ≠ '"' ∧ c.toNat < 128 := by
  obtain ⟨rs, h1, h2⟩ := C49_sound src out h
  have hw := (bootFileText_writable h1).2
  rw [← h2.2.1] at ht
  simp only [tokenRulesOf, List.mem_filterMap, List.mem_map] at ht
  obtain ⟨x, ⟨r, hr, rfl⟩, hx⟩ := ht
  have := hw r hr
  cases this with
  | literal _ g1 g2 =>
    simp only [noPos, Option.some.injEq] at hx
    subst hx
    simp only [TokenPattern.literal.injEq] at hcs
    subst hcs
    exact ⟨g1, g2⟩
  | regex =>
    simp only [noPos, Option.some.injEq] at hx
    subst hx
    cases hcs
  | prod => simp [noPos] at hx
  | entry => simp [noPos] at hx

example : HexIs ['0', '0', 'e', '9'] 233 := (((HexIs.nil.snoc (d := '0') (v := 0) (by decide)).snoc (d := '0') (v := 0) (by decide)).snoc (d := 'e') (v := 14) (by decide)).snoc (d := '9') (v := 9) (by decide)
example : bootChar "\\u{00e9}x".toList = some ('é', ['x']) := by decide +kernel
example : bootChar "\\u{d800}".toList = none := by decide +kernel
example : bootChar "\\u{110000}".toList = none := by decide +kernel

/-! ## C60 — the build of lapex-input-gen -/

/-- The bootstrap parser reads the grammar file of lapex as the rules that the theorems about the generated input parser (C46, C58) are about. -/
theorem C60_grammar_file : ∃ out, bootParse lapexSource = .ok (.ok out) ∧ out.entry.inner = lapexRules.entry ∧ out.prods.map (·.inner) = lapexRules.prods ∧
    out.tokens.map (·.inner) = lapexTokens ∧ lapexTokens.map (·.name) = lapexRules.tokens := by
  refine ⟨⟨noPos "rules", lapexTokens.map noPos, lapexRules.prods.map noPos⟩, C49_reads _ lapexFileRules _ lapexFile_text ⟨rfl, rfl, rfl⟩, rfl, rfl, rfl, rfl⟩

/-- So building lapex-input-gen from its grammar file gives a parser. -/
theorem C60_build : ∃ out g bound tb p, bootParse lapexSource = .ok (.ok out) ∧
    Grammar.fromRuleSet ⟨out.entry.inner, out.tokens.map (·.inner.name), out.prods.map (·.inner)⟩ = .ok g ∧
    (∀ fuel, bound ≤ fuel → generateTable g false .lr1 fuel = .ok (.noConflicts tb)) ∧ genRust g tb = .ok p := by
  obtain ⟨out, h1, h2, h3, h4, h5⟩ := C60_grammar_file
  obtain ⟨g, bound, tb, p, h6, h7, h8⟩ := C58_self_hosted
  refine ⟨out, g, bound, tb, p, h1, ?_, h7, h8⟩
  have e : out.tokens.map (·.inner.name) = (out.tokens.map (·.inner)).map (·.name) := by rw [List.map_map]; rfl
  have e' : (⟨out.entry.inner, out.tokens.map (·.inner.name), out.prods.map (·.inner)⟩ : RuleSet) = ⟨lapexRules.entry, lapexRules.tokens, lapexRules.prods⟩ := by rw [e, h2, h3, h4, h5]
  rw [e']
  exact h6

end Verif
