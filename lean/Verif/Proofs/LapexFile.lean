import Verif.Proofs.BootPrint
import Verif.Model.LapexFile

/-! # The text of `lapex.lapex` -/

set_option autoImplicit false

namespace Verif

/-- lines with one rule each, or empty -/
inductive LineTexts : List (List Char) → List LapexRule → Prop
  | one {w : List Char} {r : LapexRule} : BootRuleText true w r → LineTexts [w] [r]
  | more {w : List Char} {r : LapexRule} {ws : List (List Char)} {rs : List LapexRule} : BootRuleText true w r → LineTexts ws rs → LineTexts (w :: ws) (r :: rs)
  | blank {ws : List (List Char)} {rs : List LapexRule} : LineTexts ws rs → LineTexts ([] :: ws) rs

theorem lineTexts_ne {ws : List (List Char)} {rs : List LapexRule} (h : LineTexts ws rs) : ∃ v vs, ws = v :: vs := by
  cases h <;> exact ⟨_, _, rfl⟩

theorem lineTexts_rules {ws : List (List Char)} {rs : List LapexRule} (h : LineTexts ws rs) :
    ∃ s v, List.intercalate ['\n'] ws = s ++ v ∧ Blank s ∧ BootRulesText true v rs := by
  induction h with
  | @one w r h => exact ⟨[], w, by simp [List.intercalate], (fun _ h => by cases h), .one h⟩
  | @more w r ws rs h hw ih =>
    obtain ⟨s, v, h1, h2, h3⟩ := ih
    obtain ⟨x, xs, rfl⟩ := lineTexts_ne hw
    refine ⟨[], w ++ ('\n' :: s) ++ v, ?_, (fun _ h => by cases h), .more h (by simp) ?_ h3⟩
    · rw [List.intercalate_cons_cons, h1]; simp
    · intro c hc
      rcases List.mem_cons.mp hc with rfl | hc
      · simp
      · exact h2 c hc
  | @blank ws rs hw ih =>
    obtain ⟨s, v, h1, h2, h3⟩ := ih
    obtain ⟨x, xs, rfl⟩ := lineTexts_ne hw
    refine ⟨'\n' :: s, v, ?_, ?_, h3⟩
    · rw [List.intercalate_cons_cons, h1]; simp
    · intro c hc
      rcases List.mem_cons.mp hc with rfl | hc
      · simp
      · exact h2 c hc

theorem lineTexts_file {ws : List (List Char)} {rs : List LapexRule} (h : LineTexts ws rs) : BootFileText true (List.intercalate ['\n'] ws) rs := by
  obtain ⟨s, v, h1, h2, h3⟩ := lineTexts_rules h
  exact ⟨s, v, [], by rw [h1]; simp, h2, h3, (fun _ h => by cases h)⟩

theorem ruleText_of_eq {w w' : List Char} {r : LapexRule} (h : BootRuleText true w r) (e : w' = w) : BootRuleText true w' r := e ▸ h

theorem ruleText_printed {w : List Char} {r : LapexRule} (h : WritableRule r) (e : w = printRule r) : BootRuleText true w r := e ▸ writableRule_text h

theorem plainName_of {n : List Char} (h : n ≠ [] ∧ ∀ c ∈ n, c.isAlpha = true ∨ c = '_') : PlainName n := h

theorem writable_names {ns : List String} (h : ∀ n ∈ ns, n.toList ≠ [] ∧ ∀ c ∈ n.toList, c.isAlpha = true ∨ c = '_') : ∀ p ∈ ns.map ProdPattern.rule, WritableProd true p := by
  intro p hp
  obtain ⟨n, hn, rfl⟩ := List.mem_map.mp hp
  exact .rule (h n hn)

theorem plainText (c : Char) (h : c.toNat < 128 ∧ c ∉ [']', '/', '\\', ')', '|', '+', '*', '?', '\t', '\r', '\n']) : CharText [c] c := .plain h

theorem charElement (c : Char) (h : c.toNat < 128 ∧ c ∉ [']', '/', '\\', ')', '|', '+', '*', '?', '\t', '\r', '\n']) (h' : c ∉ ['(', '[', '.']) : RegexText true .element [c] [.char (.single c)] :=
  .char (.plain h) (fun _ => by simp at h'; simp [h'])

theorem rangeItem (c d : Char) (h : c.toNat < 128 ∧ c ∉ [']', '/', '\\', ')', '|', '+', '*', '?', '\t', '\r', '\n'])
    (h' : d.toNat < 128 ∧ d ∉ [']', '/', '\\', ')', '|', '+', '*', '?', '\t', '\r', '\n']) : SetItem [c, '-', d] (.range c d) := .range (.plain h) (.plain h')

theorem token_regex {n : List Char} {w : List Char} {ps : List Pattern} (hn : n ≠ [] ∧ ∀ c ∈ n, c.isAlpha = true ∨ c = '_') (h : RegexText true .sequence w ps) :
    BootRuleText true ("token".toList ++ [' '] ++ n ++ [' '] ++ ['='] ++ [' '] ++ ('/' :: w ++ ['/']) ++ [';']) (.token ⟨String.ofList n, none, .pattern (.sequence ps)⟩) :=
  .token oneSpace hn oneSpace oneSpace (.regex h)

theorem lapexLine1 : BootRuleText true "token KW_TOKEN = \"token\";".toList (.token lapexTokens[0]) :=
  ruleText_printed (.literal (plainName_of (by decide)) (by decide) (by decide)) (by decide +kernel)

theorem lapexLine2 : BootRuleText true "token KW_ENTRY = \"entry\";".toList (.token lapexTokens[1]) :=
  ruleText_printed (.literal (plainName_of (by decide)) (by decide) (by decide)) (by decide +kernel)

theorem lapexLine3 : BootRuleText true "token KW_PROD = \"prod\";".toList (.token lapexTokens[2]) :=
  ruleText_printed (.literal (plainName_of (by decide)) (by decide) (by decide)) (by decide +kernel)

theorem lapexLine4 : BootRuleText true "token EQUALS = \"=\";".toList (.token lapexTokens[3]) :=
  ruleText_printed (.literal (plainName_of (by decide)) (by decide) (by decide)) (by decide +kernel)

theorem lapexLine5 : BootRuleText true "token SEMI = \";\";".toList (.token lapexTokens[4]) :=
  ruleText_printed (.literal (plainName_of (by decide)) (by decide) (by decide)) (by decide +kernel)

theorem lapexLine6 : BootRuleText true "token LPAR = \"(\";".toList (.token lapexTokens[5]) :=
  ruleText_printed (.literal (plainName_of (by decide)) (by decide) (by decide)) (by decide +kernel)

theorem lapexLine7 : BootRuleText true "token RPAR = \")\";".toList (.token lapexTokens[6]) :=
  ruleText_printed (.literal (plainName_of (by decide)) (by decide) (by decide)) (by decide +kernel)

theorem lapexLine8 : BootRuleText true "token LBRACK = \"[\";".toList (.token lapexTokens[7]) :=
  ruleText_printed (.literal (plainName_of (by decide)) (by decide) (by decide)) (by decide +kernel)

theorem lapexLine9 : BootRuleText true "token RBRACK = \"]\";".toList (.token lapexTokens[8]) :=
  ruleText_printed (.literal (plainName_of (by decide)) (by decide) (by decide)) (by decide +kernel)

theorem lapexLine10 : BootRuleText true "token DIGIT = /(0|[1-9][0-9]*)/;".toList (.token lapexTokens[9]) :=
  ruleText_of_eq (token_regex (n := "DIGIT".toList) (by decide) (
    .last (.once (.choice (.moreChoices (.last (.once (charElement '0' (by decide) (by decide))))
    (.lastChoice (.more (.once (.set (.one (rangeItem '1' '9' (by decide) (by decide))) (by decide))) (.last (.zeroOrMore (.set (.one (rangeItem '0' '9' (by decide) (by decide))) (by decide))))))) (by decide))))) (by decide +kernel)

theorem lapexLine11 : BootRuleText true "token QUESTION = \"?\";".toList (.token lapexTokens[10]) :=
  ruleText_printed (.literal (plainName_of (by decide)) (by decide) (by decide)) (by decide +kernel)

theorem lapexLine12 : BootRuleText true "token NOTHING = \"!\";".toList (.token lapexTokens[11]) :=
  ruleText_printed (.literal (plainName_of (by decide)) (by decide) (by decide)) (by decide +kernel)

theorem lapexLine13 : BootRuleText true "token ASTERISK = \"*\";".toList (.token lapexTokens[12]) :=
  ruleText_printed (.literal (plainName_of (by decide)) (by decide) (by decide)) (by decide +kernel)

theorem lapexLine14 : BootRuleText true "token PLUS = \"+\";".toList (.token lapexTokens[13]) :=
  ruleText_printed (.literal (plainName_of (by decide)) (by decide) (by decide)) (by decide +kernel)

theorem lapexLine15 : BootRuleText true "token PIPE = \"|\";".toList (.token lapexTokens[14]) :=
  ruleText_printed (.literal (plainName_of (by decide)) (by decide) (by decide)) (by decide +kernel)

theorem lapexLine16 : BootRuleText true "token IDENT = /[a-zA-Z][a-zA-Z0-9_]*/;".toList (.token lapexTokens[15]) :=
  ruleText_of_eq (token_regex (n := "IDENT".toList) (by decide) (
    .more (.once (.set (.more (rangeItem 'a' 'z' (by decide) (by decide)) (.one (rangeItem 'A' 'Z' (by decide) (by decide))) (fun _ => .inl ⟨_, _, rfl⟩)) (by decide)))
    (.last (.zeroOrMore (.set (.more (rangeItem 'a' 'z' (by decide) (by decide)) (.more (rangeItem 'A' 'Z' (by decide) (by decide)) (.more (rangeItem '0' '9' (by decide) (by decide))
      (.one (.single (plainText '_' (by decide)))) (fun _ => .inl ⟨_, _, rfl⟩)) (fun _ => .inl ⟨_, _, rfl⟩)) (fun _ => .inl ⟨_, _, rfl⟩)) (by decide)))))) (by decide +kernel)

theorem lapexLine17 : BootRuleText true "token STRING = /\"([^\"\\\\\\n]|\\\\.)*\"/;".toList (.token lapexTokens[16]) :=
  ruleText_of_eq (token_regex (n := "STRING".toList) (by decide) (
    .more (.once (charElement '"' (by decide) (by decide)))
    (.more (.zeroOrMore (.choice (.moreChoices (.last (.once (.negated (.more (.single (plainText '"' (by decide))) (.more (.single .backslash) (.one (.single .newline)) (fun _ => .inr (by decide))) (fun _ => .inr (by decide))))))
      (.lastChoice (.more (.once (.char .backslash (by decide))) (.last (.once .any))))) (by decide))) (.last (.once (charElement '"' (by decide) (by decide))))))) (by decide +kernel)

theorem lapexLine18 : BootRuleText true "token REGEX = /\\/([^\\/\\\\\\n]|\\\\.)*\\//;".toList (.token lapexTokens[17]) :=
  ruleText_of_eq (token_regex (n := "REGEX".toList) (by decide) (
    .more (.once (.char .slash (by decide)))
    (.more (.zeroOrMore (.choice (.moreChoices (.last (.once (.negated (.more (.single .slash) (.more (.single .backslash) (.one (.single .newline)) (fun _ => .inr (by decide))) (fun _ => .inr (by decide))))))
      (.lastChoice (.more (.once (.char .backslash (by decide))) (.last (.once .any))))) (by decide))) (.last (.once (.char .slash (by decide))))))) (by decide +kernel)

theorem lapexLine19 : BootRuleText true "token WHITESPACE = /[ \\t]+/;".toList (.token lapexTokens[18]) :=
  ruleText_of_eq (token_regex (n := "WHITESPACE".toList) (by decide) (
    .last (.oneOrMore (.set (.more (.single (plainText ' ' (by decide))) (.one (.single .tab)) (fun _ => .inr (by decide))) (by decide))))) (by decide +kernel)

theorem lapexLine20 : BootRuleText true "token NEWLINE = /[\\n]/;".toList (.token lapexTokens[19]) :=
  ruleText_of_eq (token_regex (n := "NEWLINE".toList) (by decide) (
    .last (.once (.set (.one (.single .newline)) (by decide))))) (by decide +kernel)

theorem lapexLine22 : BootRuleText true "entry rules;".toList (.entry "rules") :=
  ruleText_printed (.entry (plainName_of (by decide))) (by decide +kernel)

theorem lapexLine23 : BootRuleText true "prod rules = rule;".toList (.prod lapexRules.prods[0]) :=
  ruleText_printed (.prod (plainName_of (by decide)) (by simp) (writable_names (ns := ["rule"]) (by decide))) (by decide +kernel)

theorem lapexLine24 : BootRuleText true "prod rules = rule rules;".toList (.prod lapexRules.prods[1]) :=
  ruleText_printed (.prod (plainName_of (by decide)) (by simp) (writable_names (ns := ["rule", "rules"]) (by decide))) (by decide +kernel)

theorem lapexLine25 : BootRuleText true "prod rule = entry_rule;".toList (.prod lapexRules.prods[2]) :=
  ruleText_printed (.prod (plainName_of (by decide)) (by simp) (writable_names (ns := ["entry_rule"]) (by decide))) (by decide +kernel)

theorem lapexLine26 : BootRuleText true "prod rule = prod_rule;".toList (.prod lapexRules.prods[3]) :=
  ruleText_printed (.prod (plainName_of (by decide)) (by simp) (writable_names (ns := ["prod_rule"]) (by decide))) (by decide +kernel)

theorem lapexLine27 : BootRuleText true "prod rule = token_rule;".toList (.prod lapexRules.prods[4]) :=
  ruleText_printed (.prod (plainName_of (by decide)) (by simp) (writable_names (ns := ["token_rule"]) (by decide))) (by decide +kernel)

theorem lapexLine28 : BootRuleText true "prod entry_rule = KW_ENTRY IDENT SEMI;".toList (.prod lapexRules.prods[5]) :=
  ruleText_printed (.prod (plainName_of (by decide)) (by simp) (writable_names (ns := ["KW_ENTRY", "IDENT", "SEMI"]) (by decide))) (by decide +kernel)

theorem lapexLine29 : BootRuleText true "prod prod_rule = KW_PROD IDENT (tag)? EQUALS pattern SEMI;".toList (.prod lapexRules.prods[6]) :=
  ruleText_printed (.prod (plainName_of (by decide)) (by simp) (by
    intro p hp
    rcases List.mem_append.mp (show p ∈ ["KW_PROD", "IDENT"].map ProdPattern.rule ++ (.optional (.sequence [.rule "tag"]) :: ["EQUALS", "pattern", "SEMI"].map ProdPattern.rule) from hp) with hp | hp
    · exact writable_names (by decide) p hp
    · rcases List.mem_cons.mp hp with rfl | hp
      · exact .optional (.sequence (by decide) (writable_names (ns := ["tag"]) (by decide)))
      · exact writable_names (by decide) p hp)) (by decide +kernel)

theorem lapexLine30 : BootRuleText true "prod token_rule = KW_TOKEN IDENT (precedence)? EQUALS string_or_regex SEMI;".toList (.prod lapexRules.prods[7]) :=
  ruleText_printed (.prod (plainName_of (by decide)) (by simp) (by
    intro p hp
    rcases List.mem_append.mp (show p ∈ ["KW_TOKEN", "IDENT"].map ProdPattern.rule ++ (.optional (.sequence [.rule "precedence"]) :: ["EQUALS", "string_or_regex", "SEMI"].map ProdPattern.rule) from hp) with hp | hp
    · exact writable_names (by decide) p hp
    · rcases List.mem_cons.mp hp with rfl | hp
      · exact .optional (.sequence (by decide) (writable_names (ns := ["precedence"]) (by decide)))
      · exact writable_names (by decide) p hp)) (by decide +kernel)

theorem lapexLine31 : BootRuleText true "prod precedence = LBRACK DIGIT RBRACK;".toList (.prod lapexRules.prods[8]) :=
  ruleText_printed (.prod (plainName_of (by decide)) (by simp) (writable_names (ns := ["LBRACK", "DIGIT", "RBRACK"]) (by decide))) (by decide +kernel)

theorem lapexLine32 : BootRuleText true "prod tag = LBRACK IDENT RBRACK;".toList (.prod lapexRules.prods[9]) :=
  ruleText_printed (.prod (plainName_of (by decide)) (by simp) (writable_names (ns := ["LBRACK", "IDENT", "RBRACK"]) (by decide))) (by decide +kernel)

theorem lapexLine33 : BootRuleText true "prod string_or_regex = REGEX;".toList (.prod lapexRules.prods[10]) :=
  ruleText_printed (.prod (plainName_of (by decide)) (by simp) (writable_names (ns := ["REGEX"]) (by decide))) (by decide +kernel)

theorem lapexLine34 : BootRuleText true "prod string_or_regex = STRING;".toList (.prod lapexRules.prods[11]) :=
  ruleText_printed (.prod (plainName_of (by decide)) (by simp) (writable_names (ns := ["STRING"]) (by decide))) (by decide +kernel)

theorem lapexLine35 : BootRuleText true "prod pattern = alternative;".toList (.prod lapexRules.prods[12]) :=
  ruleText_printed (.prod (plainName_of (by decide)) (by simp) (writable_names (ns := ["alternative"]) (by decide))) (by decide +kernel)

theorem lapexLine36 : BootRuleText true "prod pattern = NOTHING;".toList (.prod lapexRules.prods[13]) :=
  ruleText_printed (.prod (plainName_of (by decide)) (by simp) (writable_names (ns := ["NOTHING"]) (by decide))) (by decide +kernel)

theorem lapexLine37 : BootRuleText true "prod alternative = concatenation PIPE alternative;".toList (.prod lapexRules.prods[14]) :=
  ruleText_printed (.prod (plainName_of (by decide)) (by simp) (writable_names (ns := ["concatenation", "PIPE", "alternative"]) (by decide))) (by decide +kernel)

theorem lapexLine38 : BootRuleText true "prod alternative = concatenation;".toList (.prod lapexRules.prods[15]) :=
  ruleText_printed (.prod (plainName_of (by decide)) (by simp) (writable_names (ns := ["concatenation"]) (by decide))) (by decide +kernel)

theorem lapexLine39 : BootRuleText true "prod concatenation = unary concatenation;".toList (.prod lapexRules.prods[16]) :=
  ruleText_printed (.prod (plainName_of (by decide)) (by simp) (writable_names (ns := ["unary", "concatenation"]) (by decide))) (by decide +kernel)

theorem lapexLine40 : BootRuleText true "prod concatenation = unary;".toList (.prod lapexRules.prods[17]) :=
  ruleText_printed (.prod (plainName_of (by decide)) (by simp) (writable_names (ns := ["unary"]) (by decide))) (by decide +kernel)

theorem lapexLine41 : BootRuleText true "prod unary = option;".toList (.prod lapexRules.prods[18]) :=
  ruleText_printed (.prod (plainName_of (by decide)) (by simp) (writable_names (ns := ["option"]) (by decide))) (by decide +kernel)

theorem lapexLine42 : BootRuleText true "prod unary = repetition_one;".toList (.prod lapexRules.prods[19]) :=
  ruleText_printed (.prod (plainName_of (by decide)) (by simp) (writable_names (ns := ["repetition_one"]) (by decide))) (by decide +kernel)

theorem lapexLine43 : BootRuleText true "prod unary = repetition_zero;".toList (.prod lapexRules.prods[20]) :=
  ruleText_printed (.prod (plainName_of (by decide)) (by simp) (writable_names (ns := ["repetition_zero"]) (by decide))) (by decide +kernel)

theorem lapexLine44 : BootRuleText true "prod unary = item;".toList (.prod lapexRules.prods[21]) :=
  ruleText_printed (.prod (plainName_of (by decide)) (by simp) (writable_names (ns := ["item"]) (by decide))) (by decide +kernel)

theorem lapexLine45 : BootRuleText true "prod option = item QUESTION;".toList (.prod lapexRules.prods[22]) :=
  ruleText_printed (.prod (plainName_of (by decide)) (by simp) (writable_names (ns := ["item", "QUESTION"]) (by decide))) (by decide +kernel)

theorem lapexLine46 : BootRuleText true "prod repetition_zero = item ASTERISK;".toList (.prod lapexRules.prods[23]) :=
  ruleText_printed (.prod (plainName_of (by decide)) (by simp) (writable_names (ns := ["item", "ASTERISK"]) (by decide))) (by decide +kernel)

theorem lapexLine47 : BootRuleText true "prod repetition_one = item PLUS;".toList (.prod lapexRules.prods[24]) :=
  ruleText_printed (.prod (plainName_of (by decide)) (by simp) (writable_names (ns := ["item", "PLUS"]) (by decide))) (by decide +kernel)

theorem lapexLine48 : BootRuleText true "prod item = IDENT;".toList (.prod lapexRules.prods[25]) :=
  ruleText_printed (.prod (plainName_of (by decide)) (by simp) (writable_names (ns := ["IDENT"]) (by decide))) (by decide +kernel)

theorem lapexLine49 : BootRuleText true "prod item = LPAR pattern RPAR;".toList (.prod lapexRules.prods[26]) :=
  ruleText_printed (.prod (plainName_of (by decide)) (by simp) (writable_names (ns := ["LPAR", "pattern", "RPAR"]) (by decide))) (by decide +kernel)

/-- the rules of the file in their order -/
def lapexFileRules : List LapexRule := (lapexTokens.map .token) ++ (.entry "rules" :: lapexRules.prods.map .prod)

theorem lapexFile_text : BootFileText true lapexSource lapexFileRules := lineTexts_file (
  .more lapexLine1 (.more lapexLine2 (.more lapexLine3 (.more lapexLine4 (.more lapexLine5 (.more lapexLine6 (.more lapexLine7 (.more lapexLine8 (.more lapexLine9 (.more lapexLine10 (.more lapexLine11 (.more lapexLine12 (.more lapexLine13 (.more lapexLine14 (.more lapexLine15 (.more lapexLine16 (.more lapexLine17 (.more lapexLine18 (.more lapexLine19 (.more lapexLine20 (.blank (.more lapexLine22 (.more lapexLine23 (.more lapexLine24 (.more lapexLine25 (.more lapexLine26 (.more lapexLine27 (.more lapexLine28 (.more lapexLine29 (.more lapexLine30 (.more lapexLine31 (.more lapexLine32 (.more lapexLine33 (.more lapexLine34 (.more lapexLine35 (.more lapexLine36 (.more lapexLine37 (.more lapexLine38 (.more lapexLine39 (.more lapexLine40 (.more lapexLine41 (.more lapexLine42 (.more lapexLine43 (.more lapexLine44 (.more lapexLine45 (.more lapexLine46 (.more lapexLine47 (.more lapexLine48 (.one lapexLine49)))))))))))))))))))))))))))))))))))))))))))))))))

end Verif
