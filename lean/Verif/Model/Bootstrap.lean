import Verif.Model.Lapex

/-!
# The bootstrap input parser: `lapex-input-bootstrap/src/lib.rs`

It works on the bytes of the source. A byte is written here as the char `char::from(byte)` that the code converts it to. The combinators of `nom` 7 used (`complete` versions) are modelled
from their documentation: a parser returns a value and the rest of the input, or fails (`nom::Err::Error`; the other kinds of errors do not occur).
-/

set_option autoImplicit false

namespace Verif

/-- `str::as_bytes`, a byte as a char below 256 -/
def asBytes (src : List Char) : List Char := src.flatMap fun c => (String.utf8EncodeChar c).map fun b => Char.ofNat b.toNat

/-- `IResult` of nom -/
abbrev NomParser (α : Type) := List Char → Option (α × List Char)

/-- `tag` of nom -/
def nomTag : List Char → NomParser Unit
  | [], i => some ((), i)
  | c :: cs, d :: i => if c = d then nomTag cs i else none
  | _ :: _, [] => none

/-- `map` of nom -/
def nomMap {α β : Type} (p : NomParser α) (f : α → β) : NomParser β := fun i => (p i).map fun r => (f r.1, r.2)

/-- `alt` of nom for two parsers -/
def nomAlt {α : Type} (p q : NomParser α) : NomParser α := fun i =>
  match p i with
  | some r => some r
  | none => q i

/-- `opt` of nom -/
def nomOpt {α : Type} (p : NomParser α) : NomParser (Option α) := fun i =>
  match p i with
  | some r => some (some r.1, r.2)
  | none => some (none, i)

/-- `take_while_m_n` of nom -/
def nomTakeWhileMN (m n : Nat) (pred : Char → Bool) : NomParser (List Char) := fun i =>
  let taken := (i.take n).takeWhile pred
  if m ≤ taken.length then some (taken, i.drop taken.length) else none

/-- `take_while1` of nom -/
def nomTakeWhile1 (pred : Char → Bool) : NomParser (List Char) := fun i =>
  let taken := i.takeWhile pred
  if taken = [] then none else some (taken, i.dropWhile pred)

/-- the loop of `many1` of nom, `n` bounds the number of rounds (each shortens the input) -/
def nomManyLoop {α : Type} (p : NomParser α) : Nat → NomParser (List α)
  | 0, i => some ([], i)
  | n + 1, i =>
    match p i with
    | none => some ([], i)
    | some (a, i') => if i'.length = i.length then none else (nomManyLoop p n i').map fun r => (a :: r.1, r.2)

/-- `many1` of nom -/
def nomMany1 {α : Type} (p : NomParser α) : NomParser (List α) := fun i =>
  match p i with
  | none => none
  | some (a, i') => (nomManyLoop p (i'.length + 1) i').map fun r => (a :: r.1, r.2)

/-- the loop of `separated_list1` of nom, `n` bounds the number of rounds -/
def nomSepLoop {α β : Type} (sep : NomParser β) (p : NomParser α) : Nat → NomParser (List α)
  | 0, i => some ([], i)
  | n + 1, i =>
    match sep i with
    | none => some ([], i)
    | some (_, i') =>
      if i'.length = i.length then none
      else
        match p i' with
        | none => some ([], i)
        | some (a, i'') => (nomSepLoop sep p n i'').map fun r => (a :: r.1, r.2)

/-- `separated_list1` of nom -/
def nomSepList1 {α β : Type} (sep : NomParser β) (p : NomParser α) : NomParser (List α) := fun i =>
  match p i with
  | none => none
  | some (a, i') => (nomSepLoop sep p (i'.length + 1) i').map fun r => (a :: r.1, r.2)

/-- `space1` of nom -/
def nomSpace1 : NomParser (List Char) := nomTakeWhile1 fun c => c = ' ' || c = '\t'

/-- the chars of `multispace0` and `multispace1` of nom -/
def isMultispace (c : Char) : Bool := c = ' ' || c = '\t' || c = '\r' || c = '\n'

/-- `multispace1` of nom -/
def nomMultispace1 : NomParser (List Char) := nomTakeWhile1 isMultispace

/-- `multispace0` of nom -/
def nomMultispace0 : NomParser (List Char) := fun i => some (i.takeWhile isMultispace, i.dropWhile isMultispace)

/-- `char::is_ascii` -/
def isAscii (c : Char) : Bool := c.toNat < 128

/-- the predicate of `parse_char_unescaped` — lapex-input-bootstrap/src/lib.rs:18-32. -/
def isUnescaped (c : Char) : Bool :=
  isAscii c && c ≠ ']' && c ≠ '/' && c ≠ '\\' && c ≠ ')' && c ≠ '|' && c ≠ '+' && c ≠ '*' && c ≠ '?' && c ≠ '\t' && c ≠ '\r' && c ≠ '\n'

/-- `parse_char_unescaped` — lapex-input-bootstrap/src/lib.rs:17-35. -/
def bootCharUnescaped : NomParser Char
  | c :: i => if isUnescaped c then some (c, i) else none
  | [] => none

/-- the predicate for hexadecimal digits — lapex-input-bootstrap/src/lib.rs:50-53. -/
def isHexDigit (c : Char) : Bool := ('0' ≤ c && c ≤ '9') || ('a' ≤ c && c ≤ 'f') || ('A' ≤ c && c ≤ 'F')

/-- value of a hexadecimal digit -/
def hexDigit (c : Char) : Nat := if c ≤ '9' then c.toNat - 48 else if c ≤ 'F' then c.toNat - 55 else c.toNat - 87

/-- `u32::from_str_radix(.., 16)` on at most six hexadecimal digits -/
def hexValue (ds : List Char) : Nat := ds.foldl (fun n c => 16 * n + hexDigit c) 0

/-- `std::char::from_u32` -/
def charFromU32 (n : Nat) : Option Char := if n.isValidChar then some (Char.ofNat n) else none

/-- the arm `'u'` of `parse_char_escaped` — lapex-input-bootstrap/src/lib.rs:48-65. -/
def bootCharUnicode : NomParser Char := fun i => do
  let (_, i) ← nomTag ['{'] i
  let (code, i) ← nomTakeWhileMN 4 6 isHexDigit i
  let (_, i) ← nomTag ['}'] i
  let c ← charFromU32 (hexValue code)
  some (c, i)

/-- `parse_char_escaped` — lapex-input-bootstrap/src/lib.rs:37-74. -/
def bootCharEscaped : NomParser Char
  | '\\' :: 'n' :: i => some ('\n', i)
  | '\\' :: 'r' :: i => some ('\r', i)
  | '\\' :: 't' :: i => some ('\t', i)
  | '\\' :: '\\' :: i => some ('\\', i)
  | '\\' :: '/' :: i => some ('/', i)
  | '\\' :: 'u' :: i => bootCharUnicode i
  | _ => none

/-- `parse_char` — lapex-input-bootstrap/src/lib.rs:76-78. -/
def bootChar : NomParser Char := nomAlt bootCharUnescaped bootCharEscaped

/-- `parse_char_range` — lapex-input-bootstrap/src/lib.rs:80-85. -/
def bootCharRange : NomParser Characters := fun i => do
  let (c1, i) ← bootChar i
  let (_, i) ← nomTag ['-'] i
  let (c2, i) ← bootChar i
  some (.range c1 c2, i)

/-- `parse_char_or_range` — lapex-input-bootstrap/src/lib.rs:87-94. -/
def bootCharOrRange : NomParser Characters := nomAlt bootCharRange (nomMap bootChar .single)

/-- `parse_char_set` — lapex-input-bootstrap/src/lib.rs:96-103. -/
def bootCharSet : NomParser Pattern := fun i => do
  let (_, i) ← nomTag ['['] i
  let (neg, i) ← nomOpt (nomTag ['^']) i
  let (chars, i) ← nomMany1 bootCharOrRange i
  let (_, i) ← nomTag [']'] i
  some (.charSet chars neg.isSome, i)

/-- `parse_regex_group` — lapex-input-bootstrap/src/lib.rs:105-114; `seq` is `parse_regex_sequence`. -/
def bootRegexGroup (seq : NomParser Pattern) : NomParser Pattern := fun i => do
  let (_, i) ← nomTag ['('] i
  let (seqs, i) ← nomSepList1 (nomTag ['|']) seq i
  let (_, i) ← nomTag [')'] i
  match seqs with
  | [s] => some (s, i)
  | _ => some (.alternative seqs, i)

/-- `parse_regex_element` — lapex-input-bootstrap/src/lib.rs:116-128. -/
def bootRegexElement (seq : NomParser Pattern) : NomParser Pattern :=
  nomAlt (bootRegexGroup seq) (nomAlt bootCharSet (nomAlt (nomMap (nomTag ['.']) fun _ => .charSet [] true) (nomMap bootChar fun c => .char (.single c))))

/-- `parse_repetition_kind` — lapex-input-bootstrap/src/lib.rs:230-236. -/
def bootRepetitionKind : NomParser (Option Nat) :=
  nomOpt (nomAlt (nomMap (nomTag ['*']) fun _ => 0) (nomAlt (nomMap (nomTag ['+']) fun _ => 1) (nomMap (nomTag ['?']) fun _ => 2)))

/-- `parse_regex_repetition` — lapex-input-bootstrap/src/lib.rs:130-156. -/
def bootRegexRepetition (seq : NomParser Pattern) : NomParser Pattern := fun i => do
  let (inner, i) ← bootRegexElement seq i
  let (kind, i) ← bootRepetitionKind i
  some (match kind with
    | some 0 => .repetition 0 none inner
    | some 1 => .repetition 1 none inner
    | some _ => .repetition 0 (some 1) inner
    | none => inner, i)

/-- `parse_regex_sequence` — lapex-input-bootstrap/src/lib.rs:158-161, with a bound on the depth of groups. A group is shorter than the input it is in, so a bound above the length of the
input is none (`bootRegexSeq_depth`). -/
def bootRegexSeq : Nat → NomParser Pattern
  | 0 => fun _ => none
  | d + 1 => nomMap (nomMany1 (bootRegexRepetition (bootRegexSeq d))) .sequence

/-- `parse_regex_sequence` — lapex-input-bootstrap/src/lib.rs:158-161. -/
def bootRegexSequence : NomParser Pattern := fun i => bootRegexSeq (i.length + 1) i

/-- `parse_regex_pattern` — lapex-input-bootstrap/src/lib.rs:163-168. -/
def bootRegexPattern : NomParser TokenPattern := fun i => do
  let (_, i) ← nomTag ['/'] i
  let (seq, i) ← bootRegexSequence i
  let (_, i) ← nomTag ['/'] i
  some (.pattern seq, i)

/-- `parse_literal_pattern` — lapex-input-bootstrap/src/lib.rs:170-179. -/
def bootLiteralPattern : NomParser TokenPattern := fun i => do
  let (_, i) ← nomTag ['"'] i
  let (chars, i) ← nomTakeWhile1 (fun c => c ≠ '"' && isAscii c) i
  let (_, i) ← nomTag ['"'] i
  some (.literal chars, i)

/-- `parse_pattern` — lapex-input-bootstrap/src/lib.rs:181-184. -/
def bootPattern : NomParser TokenPattern := nomAlt bootLiteralPattern bootRegexPattern

/-- `parse_symbol_name` — lapex-input-bootstrap/src/lib.rs:284-286. -/
def bootSymbolName : NomParser (List Char) := nomTakeWhile1 fun c => c.isAlpha || c = '_'

/-- `parse_token_rule` — lapex-input-bootstrap/src/lib.rs:186-203. -/
def bootTokenRule : NomParser TokenRule := fun i => do
  let (_, i) ← nomTag "token".toList i
  let (_, i) ← nomSpace1 i
  let (name, i) ← bootSymbolName i
  let (_, i) ← nomSpace1 i
  let (_, i) ← nomTag ['='] i
  let (_, i) ← nomSpace1 i
  let (pattern, i) ← bootPattern i
  let (_, i) ← nomTag [';'] i
  some (⟨nameOf name, none, pattern⟩, i)

/-- `parse_rule_name` — lapex-input-bootstrap/src/lib.rs:205-213. -/
def bootRuleName : NomParser ProdPattern := nomMap bootSymbolName fun name => .rule (nameOf name)

/-- `parse_production_group` — lapex-input-bootstrap/src/lib.rs:215-224; `seq` is `parse_production_pattern`. -/
def bootProdGroup (seq : NomParser ProdPattern) : NomParser ProdPattern := fun i => do
  let (_, i) ← nomTag ['('] i
  let (seqs, i) ← nomSepList1 (nomTag " | ".toList) seq i
  let (_, i) ← nomTag [')'] i
  match seqs with
  | [s] => some (s, i)
  | _ => some (.alternative seqs, i)

/-- `parse_production_element` — lapex-input-bootstrap/src/lib.rs:226-228. -/
def bootProdElement (seq : NomParser ProdPattern) : NomParser ProdPattern := nomAlt (bootProdGroup seq) bootRuleName

/-- `parse_production_regex_repetition` — lapex-input-bootstrap/src/lib.rs:238-258. -/
def bootProdRepetition (seq : NomParser ProdPattern) : NomParser ProdPattern := fun i => do
  let (inner, i) ← bootProdElement seq i
  let (kind, i) ← bootRepetitionKind i
  some (match kind with
    | some 0 => .zeroOrMany inner
    | some 1 => .oneOrMany inner
    | some _ => .optional inner
    | none => inner, i)

/-- `parse_production_pattern` — lapex-input-bootstrap/src/lib.rs:260-263, with a bound on the depth of groups, see `bootRegexSeq`. -/
def bootProdSeq : Nat → NomParser ProdPattern
  | 0 => fun _ => none
  | d + 1 => nomMap (nomSepList1 nomSpace1 (bootProdRepetition (bootProdSeq d))) .sequence

/-- `parse_production_pattern` — lapex-input-bootstrap/src/lib.rs:260-263. -/
def bootProdPattern : NomParser ProdPattern := fun i => bootProdSeq (i.length + 1) i

/-- `parse_production_rule` — lapex-input-bootstrap/src/lib.rs:265-282. -/
def bootProdRule : NomParser ProdRule := fun i => do
  let (_, i) ← nomTag "prod".toList i
  let (_, i) ← nomSpace1 i
  let (name, i) ← bootSymbolName i
  let (_, i) ← nomSpace1 i
  let (_, i) ← nomTag ['='] i
  let (_, i) ← nomSpace1 i
  let (pattern, i) ← bootProdPattern i
  let (_, i) ← nomTag [';'] i
  some (⟨nameOf name, none, pattern⟩, i)

/-- `parse_entry_rule` — lapex-input-bootstrap/src/lib.rs:288-299. -/
def bootEntryRule : NomParser String := fun i => do
  let (_, i) ← nomTag "entry".toList i
  let (_, i) ← nomSpace1 i
  let (name, i) ← bootSymbolName i
  let (_, i) ← nomTag [';'] i
  some (nameOf name, i)

/-- `parse_rule` — lapex-input-bootstrap/src/lib.rs:308-314. -/
def bootRule : NomParser LapexRule := nomAlt (nomMap bootTokenRule .token) (nomAlt (nomMap bootProdRule .prod) (nomMap bootEntryRule .entry))

/-- `parse_lapex_file_raw` — lapex-input-bootstrap/src/lib.rs:316-321. -/
def bootFileRaw : NomParser (List LapexRule) := fun i => do
  let (_, i) ← nomMultispace0 i
  let (rules, i) ← nomSepList1 nomMultispace1 bootRule i
  let (_, i) ← nomMultispace0 i
  some (rules, i)

/-- `LapexParsingError` — lapex-input/src/lib.rs:222-227. -/
inductive BootError where
  | incomplete (rest : List Char)
  | noEntryRule
  | tooManyEntryRules
deriving Repr, DecidableEq

/-- `parse_lapex`, `parse_lapex_file` — lapex-input-bootstrap/src/lib.rs:323-361. The `unwrap` of a failed parse panics. -/
def bootParse (source : List Char) : Res (Except BootError SpannedRules) :=
  match bootFileRaw (asBytes source) with
  | none => .error .panic
  | some (rules, rest) =>
    if rest ≠ [] then .ok (.error (.incomplete rest))
    else
      match sortRules (rules.map .zero) with
      | (_, _, []) => .ok (.error .noEntryRule)
      | (tokens, prods, [entry]) => .ok (.ok ⟨entry, tokens, prods⟩)
      | _ => .ok (.error .tooManyEntryRules)

end Verif
