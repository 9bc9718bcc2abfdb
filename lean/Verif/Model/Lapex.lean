import Verif.Model.Grammar
import Verif.Model.Input
import Verif.Model.Source
import Verif.Model.Hir
import Verif.Model.Names
import Verif.Model.LRDriver

/-!
# The input parser lapex generates for itself: `lapex-input-gen/src/{lapex.lapex,lib.rs}`

The grammar of lapex files, the visitor that builds a rule set from the callbacks of the generated LR(1) parser, and what is done with the result. The crate
`regex_syntax` is a parameter. The visitor's stack is a list whose head is the top.
-/

set_option autoImplicit false

namespace Verif

/-- the productions, token names and entry symbol of the grammar file — lapex-input-gen/src/lapex.lapex:1-49, as the bootstrap parser reads it (in
source order). -/
def lapexRules : RuleSet where
  entry := "rules"
  tokens := ["KW_TOKEN", "KW_ENTRY", "KW_PROD", "EQUALS", "SEMI", "LPAR", "RPAR", "LBRACK", "RBRACK", "DIGIT", "QUESTION", "NOTHING", "ASTERISK", "PLUS", "PIPE", "IDENT", "STRING", "REGEX", "WHITESPACE", "NEWLINE"]
  prods := [
    ⟨"rules", none, .sequence [.rule "rule"]⟩,
    ⟨"rules", none, .sequence [.rule "rule", .rule "rules"]⟩,
    ⟨"rule", none, .sequence [.rule "entry_rule"]⟩,
    ⟨"rule", none, .sequence [.rule "prod_rule"]⟩,
    ⟨"rule", none, .sequence [.rule "token_rule"]⟩,
    ⟨"entry_rule", none, .sequence [.rule "KW_ENTRY", .rule "IDENT", .rule "SEMI"]⟩,
    ⟨"prod_rule", none, .sequence [.rule "KW_PROD", .rule "IDENT", .optional (.sequence [.rule "tag"]), .rule "EQUALS", .rule "pattern", .rule "SEMI"]⟩,
    ⟨"token_rule", none, .sequence [.rule "KW_TOKEN", .rule "IDENT", .optional (.sequence [.rule "precedence"]), .rule "EQUALS", .rule "string_or_regex", .rule "SEMI"]⟩,
    ⟨"precedence", none, .sequence [.rule "LBRACK", .rule "DIGIT", .rule "RBRACK"]⟩,
    ⟨"tag", none, .sequence [.rule "LBRACK", .rule "IDENT", .rule "RBRACK"]⟩,
    ⟨"string_or_regex", none, .sequence [.rule "REGEX"]⟩,
    ⟨"string_or_regex", none, .sequence [.rule "STRING"]⟩,
    ⟨"pattern", none, .sequence [.rule "alternative"]⟩,
    ⟨"pattern", none, .sequence [.rule "NOTHING"]⟩,
    ⟨"alternative", none, .sequence [.rule "concatenation", .rule "PIPE", .rule "alternative"]⟩,
    ⟨"alternative", none, .sequence [.rule "concatenation"]⟩,
    ⟨"concatenation", none, .sequence [.rule "unary", .rule "concatenation"]⟩,
    ⟨"concatenation", none, .sequence [.rule "unary"]⟩,
    ⟨"unary", none, .sequence [.rule "option"]⟩,
    ⟨"unary", none, .sequence [.rule "repetition_one"]⟩,
    ⟨"unary", none, .sequence [.rule "repetition_zero"]⟩,
    ⟨"unary", none, .sequence [.rule "item"]⟩,
    ⟨"option", none, .sequence [.rule "item", .rule "QUESTION"]⟩,
    ⟨"repetition_zero", none, .sequence [.rule "item", .rule "ASTERISK"]⟩,
    ⟨"repetition_one", none, .sequence [.rule "item", .rule "PLUS"]⟩,
    ⟨"item", none, .sequence [.rule "IDENT"]⟩,
    ⟨"item", none, .sequence [.rule "LPAR", .rule "pattern", .rule "RPAR"]⟩]

/-- the grammar built from it (`lapexGrammar_built`) -/
def lapexGrammar : Grammar where
  rules := [
    ⟨0, [.nt 2], 0⟩,
    ⟨0, [.nt 2, .nt 0], 1⟩,
    ⟨2, [.nt 5], 2⟩,
    ⟨2, [.nt 6], 3⟩,
    ⟨2, [.nt 7], 4⟩,
    ⟨5, [.t 1, .t 15, .t 4], 5⟩,
    ⟨26, [.nt 9], 6⟩,
    ⟨26, [.eps], 6⟩,
    ⟨6, [.t 2, .t 15, .nt 26, .t 3, .nt 12, .t 4], 6⟩,
    ⟨27, [.nt 8], 7⟩,
    ⟨27, [.eps], 7⟩,
    ⟨7, [.t 0, .t 15, .nt 27, .t 3, .nt 10, .t 4], 7⟩,
    ⟨8, [.t 7, .t 9, .t 8], 8⟩,
    ⟨9, [.t 7, .t 15, .t 8], 9⟩,
    ⟨10, [.t 17], 10⟩,
    ⟨10, [.t 16], 11⟩,
    ⟨12, [.nt 14], 12⟩,
    ⟨12, [.t 11], 13⟩,
    ⟨14, [.nt 16, .t 14, .nt 14], 14⟩,
    ⟨14, [.nt 16], 15⟩,
    ⟨16, [.nt 18, .nt 16], 16⟩,
    ⟨16, [.nt 18], 17⟩,
    ⟨18, [.nt 22], 18⟩,
    ⟨18, [.nt 24], 19⟩,
    ⟨18, [.nt 23], 20⟩,
    ⟨18, [.nt 25], 21⟩,
    ⟨22, [.nt 25, .t 10], 22⟩,
    ⟨23, [.nt 25, .t 12], 23⟩,
    ⟨24, [.nt 25, .t 13], 24⟩,
    ⟨25, [.t 15], 25⟩,
    ⟨25, [.t 5, .nt 12, .t 6], 26⟩]
  anon := [.nt 26, .nt 27]
  productions := [(.nt 0, "rules"), (.nt 2, "rule"), (.nt 5, "entry_rule"), (.nt 6, "prod_rule"), (.nt 7, "token_rule"), (.nt 8, "precedence"), (.nt 9, "tag"), (.nt 10, "string_or_regex"), (.nt 12, "pattern"), (.nt 14, "alternative"), (.nt 16, "concatenation"), (.nt 18, "unary"), (.nt 22, "option"), (.nt 23, "repetition_zero"), (.nt 24, "repetition_one"), (.nt 25, "item")]
  tokens := [(.t 0, "KW_TOKEN"), (.t 1, "KW_ENTRY"), (.t 2, "KW_PROD"), (.t 3, "EQUALS"), (.t 4, "SEMI"), (.t 5, "LPAR"), (.t 6, "RPAR"), (.t 7, "LBRACK"), (.t 8, "RBRACK"), (.t 9, "DIGIT"), (.t 10, "QUESTION"), (.t 11, "NOTHING"), (.t 12, "ASTERISK"), (.t 13, "PLUS"), (.t 14, "PIPE"), (.t 15, "IDENT"), (.t 16, "STRING"), (.t 17, "REGEX"), (.t 18, "WHITESPACE"), (.t 19, "NEWLINE")]
  entry := .nt 0
  entryOrigin := 0

/-- `struct Spanned` — lapex-input/src/lib.rs:45-49. -/
structure Spanned (α : Type) where
  span : SourceSpan
  inner : α
deriving Repr

/-- `Spanned::zero` — lapex-input/src/lib.rs:52-60. -/
def Spanned.zero {α : Type} (inner : α) : Spanned α := ⟨⟨⟨0, 0⟩, ⟨0, 0⟩⟩, inner⟩

/-- `Spanned::between` — lapex-input/src/lib.rs:64-72. -/
def Spanned.between {α : Type} (start stop : SourceSpan) (inner : α) : Spanned α := ⟨⟨start.start, stop.stop⟩, inner⟩

/-- `enum Rule` — lapex-input-gen/src/lib.rs:27-32. -/
inductive LapexRule where
  | token (r : TokenRule)
  | prod (r : ProdRule)
  | entry (name : String)
deriving Repr

/-- `enum Ast` — lapex-input-gen/src/lib.rs:34-42. -/
inductive Ast where
  | token (text : List Char)
  | rule (r : LapexRule)
  | tag (t : Option String)
  | pattern (p : ProdPattern)
  | rules (rs : List (Spanned LapexRule))
  | precedence (n : Option Nat)
deriving Repr

/-- the visitor's stack — lapex-input-gen/src/lib.rs:44-46 -/
abbrev AstStack := List (Spanned Ast)

/-- `get_unescaped_chars` — lapex-input-gen/src/lib.rs:48-53. -/
def getUnescapedChars (text : List Char) : List Char := (text.drop 1).dropLast

/-- `str::parse::<u16>()`: an optional `+`, then decimal digits, at least one, with a value below 65536 -/
def parseU16 (text : List Char) : Option Nat :=
  let digits := match text with | '+' :: rest => rest | _ => text
  if digits ≠ [] ∧ digits.all Char.isDigit then
    let n := digits.foldl (fun n c => 10 * n + (c.toNat - 48)) 0
    if n < u16Count then some n else none
  else none

/-- `get_regex_pattern(rhs).unwrap()` — lapex-input-gen/src/lib.rs:140-143 and 307; `syn` is `regex_syntax::parse`. -/
def getRegexPattern (syn : List Char → Option Hir) (text : List Char) : Res Pattern := do
  let inner ← byteSlice text 1 ((text.map Char.utf8Size).sum - 1)
  match syn inner with
  | none => .error .panic
  | some h =>
    match makePattern h with
    | .ok p => .ok p
    | .error _ => .error .panic

/-- `self.stack.pop().unwrap()` -/
def popAny : AstStack → Res (Spanned Ast × AstStack)
  | [] => .error .panic
  | a :: s => .ok (a, s)

/-- `if let Some(Ast::Token(..)) = self.stack.pop()` … `else { panic!("Stack is broken") }` -/
def popToken : AstStack → Res (SourceSpan × List Char × AstStack)
  | ⟨sp, .token text⟩ :: s => .ok (sp, text, s)
  | _ => .error .panic

/-- the same with `Ast::Pattern` -/
def popPattern : AstStack → Res (SourceSpan × ProdPattern × AstStack)
  | ⟨sp, .pattern p⟩ :: s => .ok (sp, p, s)
  | _ => .error .panic

/-- the same with `Ast::Tag` -/
def popTag : AstStack → Res (Option String × AstStack)
  | ⟨_, .tag t⟩ :: s => .ok (t, s)
  | _ => .error .panic

/-- the same with `Ast::Precedence` -/
def popPrecedence : AstStack → Res (Option Nat × AstStack)
  | ⟨_, .precedence n⟩ :: s => .ok (n, s)
  | _ => .error .panic

/-- the same with `Ast::Rule` -/
def popRule : AstStack → Res (Spanned LapexRule × AstStack)
  | ⟨sp, .rule r⟩ :: s => .ok (⟨sp, r⟩, s)
  | _ => .error .panic

/-- the same with `Ast::Rules` -/
def popRules : AstStack → Res (List (Spanned LapexRule) × AstStack)
  | ⟨_, .rules rs⟩ :: s => .ok (rs, s)
  | _ => .error .panic

/-- the text of a name -/
def nameOf (text : List Char) : String := String.ofList text

/-- `reduce_prod_rule` — lapex-input-gen/src/lib.rs:167-195. -/
def reduceProdRule (s : AstStack) : Res AstStack := do
  let (semi, s) ← popAny s
  let (_, rhs, s) ← popPattern s
  let s := s.drop 1
  let (tag, s) ← popTag s
  let (_, name, s) ← popToken s
  let (prod, s) ← popAny s
  .ok (.between prod.span semi.span (.rule (.prod ⟨nameOf name, tag, rhs⟩)) :: s)

/-- `reduce_repetition_zero`, `reduce_repetition_one`, `reduce_option` — lapex-input-gen/src/lib.rs:197-215, 357-375, 322-340: three copies of the same code, up to the
constructor. -/
def reduceRepetition (wrap : ProdPattern → ProdPattern) (s : AstStack) : Res AstStack := do
  let (op, s) ← popAny s
  let (sp, p, s) ← popPattern s
  .ok (.between sp op.span (.pattern (wrap p)) :: s)

/-- `reduce_item_1` — lapex-input-gen/src/lib.rs:217-226. -/
def reduceItem1 (s : AstStack) : Res AstStack := do
  let (sp, name, s) ← popToken s
  .ok (⟨sp, .pattern (.rule (nameOf name))⟩ :: s)

/-- `reduce_item_2` — lapex-input-gen/src/lib.rs:228-238. -/
def reduceItem2 (s : AstStack) : Res AstStack := do
  let (stop, s) ← popAny s
  let (_, p, s) ← popPattern s
  let (start, s) ← popAny s
  .ok (.between start.span stop.span (.pattern p) :: s)

/-- the elements `reduce_concatenation_1` continues with — lapex-input-gen/src/lib.rs:241-251. -/
def sequenceElements : ProdPattern → List ProdPattern
  | .sequence elements => elements
  | p => [p]

/-- the elements `reduce_alternative_1` continues with — lapex-input-gen/src/lib.rs:378-388. -/
def alternativeElements : ProdPattern → List ProdPattern
  | .alternative elements => elements
  | p => [p]

/-- `reduce_concatenation_1` — lapex-input-gen/src/lib.rs:240-267. -/
def reduceConcatenation1 (s : AstStack) : Res AstStack := do
  let (concatSpan, right, s) ← popPattern s
  let (unarySpan, p, s) ← popPattern s
  .ok (.between unarySpan concatSpan (.pattern (.sequence (p :: sequenceElements right))) :: s)

/-- `reduce_pattern_2` — lapex-input-gen/src/lib.rs:277-281. -/
def reducePattern2 (s : AstStack) : Res AstStack := do
  let (a, s) ← popAny s
  .ok (⟨a.span, .pattern .epsilon⟩ :: s)

/-- the `match` on the first char — lapex-input-gen/src/lib.rs:302-310. -/
def tokenPatternOf (syn : List Char → Option Hir) (rhs : List Char) : Res TokenPattern :=
  match rhs with
  | '"' :: _ => .ok (.literal (getUnescapedChars rhs))
  | '/' :: _ => do
    let p ← getRegexPattern syn rhs
    .ok (.pattern p)
  | _ => .error .panic

/-- `reduce_token_rule` — lapex-input-gen/src/lib.rs:283-320. -/
def reduceTokenRule (syn : List Char → Option Hir) (s : AstStack) : Res AstStack := do
  let (semi, s) ← popAny s
  let (_, rhs, s) ← popToken s
  let s := s.drop 1
  let (precedence, s) ← popPrecedence s
  let (_, name, s) ← popToken s
  let (tok, s) ← popAny s
  let pattern ← tokenPatternOf syn rhs
  .ok (.between tok.span semi.span (.rule (.token ⟨nameOf name, precedence, pattern⟩)) :: s)

/-- `reduce_entry_rule` — lapex-input-gen/src/lib.rs:342-355. -/
def reduceEntryRule (s : AstStack) : Res AstStack := do
  let (semi, s) ← popAny s
  let (_, name, s) ← popToken s
  let (entry, s) ← popAny s
  .ok (.between entry.span semi.span (.rule (.entry (nameOf name))) :: s)

/-- `reduce_alternative_1` — lapex-input-gen/src/lib.rs:377-405. -/
def reduceAlternative1 (s : AstStack) : Res AstStack := do
  let (altSpan, right, s) ← popPattern s
  let s := s.drop 1
  let (concatSpan, p, s) ← popPattern s
  .ok (.between concatSpan altSpan (.pattern (.alternative (alternativeElements right ++ [p]))) :: s)

/-- `reduce_rules_1` — lapex-input-gen/src/lib.rs:423-434. -/
def reduceRules1 (s : AstStack) : Res AstStack := do
  let (r, s) ← popRule s
  .ok (.zero (.rules [r]) :: s)

/-- `reduce_rules_2` — lapex-input-gen/src/lib.rs:436-453. -/
def reduceRules2 (s : AstStack) : Res AstStack := do
  let (rs, s) ← popRules s
  let (r, s) ← popRule s
  .ok (.zero (.rules (rs ++ [r])) :: s)

/-- `reduce_precedence` — lapex-input-gen/src/lib.rs:463-476. -/
def reducePrecedence (s : AstStack) : Res AstStack := do
  let (stop, s) ← popAny s
  let (_, digit, s) ← popToken s
  match parseU16 digit with
  | none => .error .panic
  | some n => do
    let (start, s) ← popAny s
    .ok (.between start.span stop.span (.precedence (some n)) :: s)

/-- `reduce_tag` — lapex-input-gen/src/lib.rs:486-496. -/
def reduceTag (s : AstStack) : Res AstStack := do
  let (stop, s) ← popAny s
  let (_, name, s) ← popToken s
  let (start, s) ← popAny s
  .ok (.between start.span stop.span (.tag (some (nameOf name))) :: s)

/-- the methods of `impl Visitor for LapexAstVisitor`, by name — lapex-input-gen/src/lib.rs:145-505, in the order of the file. -/
def lapexVisitor (syn : List Char → Option Hir) : List (List Char × (AstStack → Res AstStack)) := [
  ("reduce_unary_1".toList, .ok),
  ("reduce_unary_2".toList, .ok),
  ("reduce_unary_3".toList, .ok),
  ("reduce_unary_4".toList, .ok),
  ("reduce_prod_rule".toList, reduceProdRule),
  ("reduce_repetition_zero".toList, reduceRepetition .zeroOrMany),
  ("reduce_item_1".toList, reduceItem1),
  ("reduce_item_2".toList, reduceItem2),
  ("reduce_concatenation_1".toList, reduceConcatenation1),
  ("reduce_concatenation_2".toList, .ok),
  ("reduce_pattern_1".toList, .ok),
  ("reduce_pattern_2".toList, reducePattern2),
  ("reduce_token_rule".toList, reduceTokenRule syn),
  ("reduce_option".toList, reduceRepetition .optional),
  ("reduce_entry_rule".toList, reduceEntryRule),
  ("reduce_repetition_one".toList, reduceRepetition .oneOrMany),
  ("reduce_alternative_1".toList, reduceAlternative1),
  ("reduce_alternative_2".toList, .ok),
  ("reduce_rule_1".toList, .ok),
  ("reduce_rule_2".toList, .ok),
  ("reduce_rule_3".toList, .ok),
  ("reduce_rules_1".toList, reduceRules1),
  ("reduce_rules_2".toList, reduceRules2),
  ("reduce_string_or_regex_1".toList, .ok),
  ("reduce_string_or_regex_2".toList, .ok),
  ("reduce_precedence".toList, reducePrecedence),
  ("reduce_anon27_1".toList, .ok),
  ("reduce_anon27_2".toList, fun s => .ok (.zero (.precedence none) :: s)),
  ("reduce_tag".toList, reduceTag),
  ("reduce_anon26_1".toList, .ok),
  ("reduce_anon26_2".toList, fun s => .ok (.zero (.tag none) :: s))]

/-- a callback of the generated parser: `shift` — lapex-input-gen/src/lib.rs:146-149; a reduction calls the method the code generator chose for the rule. -/
def lapexVisit (syn : List Char → Option Hir) (s : AstStack) : LREvent TokenData → Res AstStack
  | .shift _ d => .ok (⟨d.span, .token d.text⟩ :: s)
  | .reduce i =>
    match (ruleVisits lapexRules lapexGrammar).lookup i with
    | none => .error .panic
    | some name =>
      match (lapexVisitor syn).lookup name with
      | none => .error .panic
      | some f => f s

/-- a `RuleSet` with its source spans — lapex-input/src/lib.rs:202-206. -/
structure SpannedRules where
  entry : Spanned String
  tokens : List (Spanned TokenRule)
  prods : List (Spanned ProdRule)
deriving Repr

/-- the rules sorted by their kind — lapex-input-gen/src/lib.rs:559-570. -/
def sortRules : List (Spanned LapexRule) → List (Spanned TokenRule) × List (Spanned ProdRule) × List (Spanned String)
  | [] => ([], [], [])
  | ⟨sp, .token r⟩ :: rs => (⟨sp, r⟩ :: (sortRules rs).1, (sortRules rs).2)
  | ⟨sp, .prod r⟩ :: rs => ((sortRules rs).1, ⟨sp, r⟩ :: (sortRules rs).2.1, (sortRules rs).2.2)
  | ⟨sp, .entry n⟩ :: rs => ((sortRules rs).1, (sortRules rs).2.1, ⟨sp, n⟩ :: (sortRules rs).2.2)

/-- `parse_lapex` after the parser has returned — lapex-input-gen/src/lib.rs:553-574. -/
def lapexFinish : AstStack → Res SpannedRules
  | [⟨_, .rules rs⟩] =>
    match sortRules rs with
    | (tokens, prods, [entry]) => .ok ⟨entry, tokens, prods⟩
    | _ => .error .panic
  | _ => .error .panic

/-- `parse_lapex` from the tokens on — lapex-input-gen/src/lib.rs:552-574. The callbacks are made while parsing in Rust and afterwards here; as a syntax error makes
`expect` panic, the outcome is the same. -/
def parseTokens (syn : List Char → Option Hir) (m : LRMachine) (input : Nat → Tok × TokenData) (fuel : Nat) : Res SpannedRules :=
  match lrParse m input fuel with
  | .running _ _ => .error .fuel
  | .ok events _ => do
    let s ← events.foldlM (lapexVisit syn) []
    lapexFinish s
  | _ => .error .panic

end Verif
