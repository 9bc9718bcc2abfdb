import Verif.Model.Grammar

/-!
# Names in generated code

The names of enum variants and of visitor callbacks, as lists of chars.
-/

set_option autoImplicit false

namespace Verif

/-- `format!("{}", n)` for a number -/
def decimal (n : Nat) : List Char := Nat.toDigits 10 n

/-- `str::split('_')` -/
def splitUnderscore : List Char → List (List Char)
  | [] => [[]]
  | c :: cs =>
    if c = '_' then [] :: splitUnderscore cs
    else
      match splitUnderscore cs with
      | [] => [[c]]
      | s :: ss => (c :: s) :: ss

/-- `to_ascii_uppercase` on a char -/
def asciiUpper (c : Char) : Char := if 97 ≤ c.toNat ∧ c.toNat ≤ 122 then Char.ofNat (c.toNat - 32) else c

/-- `to_ascii_lowercase` on a char -/
def asciiLower (c : Char) : Char := if 65 ≤ c.toNat ∧ c.toNat ≤ 90 then Char.ofNat (c.toNat + 32) else c

/-- the closure of `convert_snake_to_upper_camel` — lapex-rust-codegen/src/lib.rs:72-75: `split_at(1)` panics on an empty segment, and when byte 1 is not the start
of a char. -/
def camelSegment : List Char → Res (List Char)
  | [] => .error .panic
  | c :: cs => if c.utf8Size = 1 then .ok (asciiUpper c :: cs.map asciiLower) else .error .panic

/-- `convert_snake_to_upper_camel` — lapex-rust-codegen/src/lib.rs:70-79. -/
def upperCamel (name : List Char) : Res (List Char) := do
  let segments ← (splitUnderscore name).mapM camelSegment
  .ok segments.flatten

/-- `get_token_enum_name` — lapex-rust-codegen/src/lib.rs:54-56. -/
def tokenEnumName (name : List Char) : Res (List Char) := do
  let c ← upperCamel name
  .ok ("Tk".toList ++ c)

/-- `Grammar::get_production_name` — lapex-parser/src/grammar.rs:194-204. -/
def Grammar.productionName (g : Grammar) (s : Sym) : Option String := mget? s g.productions

/-- `get_non_terminal_enum_name` — lapex-rust-codegen/src/lib.rs:58-68. -/
def ntEnumName (g : Grammar) (A : Nat) : Res (List Char) :=
  match g.productionName (.nt A) with
  | some name => do
    let c ← upperCamel name.toList
    .ok ("Nt".toList ++ c)
  | none => .ok ("NtAnon".toList ++ decimal A)

/-- `write_token_enum_variants` — lapex-cpp-codegen/src/lexer/mod.rs:121-126, with the two variants of the template (tokens.h.tpl). -/
def cppTokenVariants (names : List (List Char)) : List (List Char) :=
  ["TK_ERR".toList, "TK_EOF".toList] ++ names.map (fun n => "TK_".toList ++ n)

/-- the variants of `TokenType` in Rust — lapex-rust-codegen/src/lexer/mod.rs:17-35. -/
def rustTokenVariants (names : List (List Char)) : Res (List (List Char)) := do
  let vs ← names.mapM tokenEnumName
  .ok ("EndOfFile".toList :: vs)

/-! ## reduce callbacks -/

/-- `get_non_terminal_name` — lapex-rust-codegen/src/lr_parser/mod.rs:46-59, lapex-rust-codegen/src/glr_parser/mod.rs:50-63, lapex-cpp-codegen/src/lr_parser/mod.rs:112-126. -/
def ntName (g : Grammar) (A : Nat) : List Char :=
  match g.productionName (.nt A) with
  | some name => name.toList
  | none => "anon".toList ++ decimal A

/-- `rules_by_non_terminal` — lapex-rust-codegen/src/lr_parser/mod.rs:22-31 and the same code in the other generators. Rules are their numbers. -/
def rulesByNt (g : Grammar) : List (Nat × List Nat) :=
  (g.rules.zipIdx).foldl (fun m r => mpush r.1.lhs r.2 m) []

/-- `rule.rule().inner.tag` -/
def tagOf (rs : RuleSet) (g : Grammar) (r : Nat) : Option (List Char) := do
  let rule ← g.rules[r]?
  let p ← rs.prods[rule.origin]?
  let tag ← p.tag
  some tag.toList

/-- the name of the callback of the `i`-th of `n` rules of a non-terminal, rule number `r` — lapex-rust-codegen/src/lr_parser/mod.rs:66-88. -/
def callbackName (rs : RuleSet) (g : Grammar) (A : Nat) (n : Nat) (i r : Nat) : List Char :=
  if n ≠ 1 then
    match tagOf rs g r with
    | some tag => "reduce_".toList ++ ntName g A ++ ['_'] ++ tag
    | none => "reduce_".toList ++ ntName g A ++ ['_'] ++ decimal (i + 1)
  else "reduce_".toList ++ ntName g A

/-- the reduce functions of `trait Visitor` — `write_visitor`, lapex-rust-codegen/src/lr_parser/mod.rs:61-94, lapex-rust-codegen/src/glr_parser/mod.rs:65-98. -/
def visitorMethods (rs : RuleSet) (g : Grammar) : List (List Char) :=
  (rulesByNt g).flatMap fun e => e.2.zipIdx.map fun r => callbackName rs g e.1 e.2.length r.2 r.1

/-- which function is called for which rule — `make_rule_visits`, lapex-rust-codegen/src/lr_parser/mod.rs:293-325, lapex-rust-codegen/src/glr_parser/mod.rs:357-389. -/
def ruleVisits (rs : RuleSet) (g : Grammar) : List (Nat × List Char) :=
  (rulesByNt g).flatMap fun e => e.2.zipIdx.map fun r => (r.1, callbackName rs g e.1 e.2.length r.2 r.1)

/-- the name in C++, which ignores tags — lapex-cpp-codegen/src/lr_parser/mod.rs:94-108. -/
def cppCallbackName (g : Grammar) (A : Nat) (n : Nat) (i : Nat) : List Char :=
  if n ≠ 1 then "reduce_".toList ++ ntName g A ++ ['_'] ++ decimal (i + 1) else "reduce_".toList ++ ntName g A

/-- the methods of the C++ visitor — `write_visitor_methods`, lapex-cpp-codegen/src/lr_parser/mod.rs:90-110. -/
def cppVisitorMethods (g : Grammar) : List (List Char) :=
  (rulesByNt g).flatMap fun e => e.2.zipIdx.map fun r => cppCallbackName g e.1 e.2.length r.2

/-- `write_visitor_reduce_switch` — lapex-cpp-codegen/src/lr_parser/mod.rs:170-201: for each rule its rules vector and the position in it. -/
def cppReduceSwitch (g : Grammar) : Res (List (Nat × List Char)) :=
  g.rules.zipIdx.mapM fun r =>
    match mget? r.1.lhs (rulesByNt g) with
    | none => .error .panic
    | some rules =>
      match rules.findIdx? (fun x => x = r.2) with
      | none => .error .panic
      | some i => .ok (r.2, cppCallbackName g r.1.lhs rules.length i)

end Verif
