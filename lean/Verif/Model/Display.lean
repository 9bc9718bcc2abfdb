import Verif.Model.Names
import Verif.Model.LR
import Verif.Model.CppLR

/-!
# Texts shown to the user: names of symbols, rules and items, and the table file

`lapex-parser/src/grammar.rs`, `lapex-parser/src/lr_parser/item.rs`, `output_table` of `lapex-parser/src/lr_parser/mod.rs`. Texts are lists of chars.
-/

set_option autoImplicit false

namespace Verif

/-- `get_symbol_name` — lapex-parser/src/grammar.rs:218-237; panics for a terminal that is not one of the grammar. -/
def Grammar.symbolName (g : Grammar) : Sym → Res (List Char)
  | .t a => do
    let name ← g.tokenName a
    .ok (name ++ ['('] ++ decimal a ++ [')'])
  | .nt A =>
    match g.productionName (.nt A) with
    | some name => .ok (name.toList ++ ['('] ++ decimal A ++ [')'])
    | none => .ok ("<anon>(".toList ++ decimal A ++ [')'])
  | .eps => .ok "<eps>".toList
  | .eof => .ok "<end>".toList

/-- `.map(get_symbol_name).collect().join(" ")` — lapex-parser/src/grammar.rs:112-117, lapex-parser/src/lr_parser/item.rs:86-101. -/
def symbolNames (g : Grammar) (ss : List Sym) : Res (List Char) := do
  let names ← ss.mapM g.symbolName
  .ok (List.intercalate [' '] names)

/-- `RuleDisplay` — lapex-parser/src/grammar.rs:110-129, for a rule with a left side. -/
def ruleText (g : Grammar) (r : Rule) : Res (List Char) := do
  let rhs ← symbolNames g r.rhs
  let lhs ← g.symbolName (.nt r.lhs)
  .ok (lhs ++ " -> ".toList ++ rhs)

/-- `ItemDisplay` — lapex-parser/src/lr_parser/item.rs:84-119. -/
def itemText (g : Grammar) (it : Item) : Res (List Char) := do
  let pre ← symbolNames g ((ruleRhs g it.rule).take it.dot)
  let post ← symbolNames g ((ruleRhs g it.rule).drop it.dot)
  match ruleLhs g it.rule with
  | some lhs => do
    let lhs ← g.symbolName (.nt lhs)
    .ok (lhs ++ " -> ".toList ++ pre ++ " • ".toList ++ post)
  | none => .ok (pre ++ " • ".toList ++ post)

/-! ## The table file -/

/-- `format!("{: <width$}", s)`: the width is counted in chars -/
def padRight (width : Nat) (s : List Char) : List Char := s ++ List.replicate (width - s.length) ' '

/-- `format!("{:0width$}", n)` -/
def padZero (width n : Nat) : List Char := List.replicate (width - (decimal n).length) '0' ++ decimal n

/-- text of a cell — lapex-parser/src/lr_parser/mod.rs:567-598; a rule that is not one of `grammar.rules()` has no number, `unwrap` panics. -/
def cellText (g : Grammar) : Option (List TableEntry) → Res (List Char)
  | none => .ok []
  | some [.shift target] => .ok ('s' :: decimal target)
  | some [.reduce (some r)] => if r < g.rules.length then .ok ('r' :: decimal r) else .error .panic
  | some [.reduce none] => .error .panic
  | some [.error] => .ok ['e']
  | some [.accept] => .ok ['a']
  | some _ => .ok ['c']

/-- length of a `String` in bytes -/
def byteLen (s : List Char) : Nat := (s.map Char.utf8Size).sum

/-- the row of a state — lapex-parser/src/lr_parser/mod.rs:561-600. `column_sizes` are lengths in bytes (556). -/
def tableRow (g : Grammar) (tb : LRTable) (columns : List (Sym × Nat)) (state : Nat) : Res (List Char) := do
  let cells ← columns.mapM fun c => do
    let text ← cellText g (tb.get state c.1)
    .ok (padRight c.2 text ++ ['|'])
  .ok (padZero (decimal tb.stateCount).length state ++ ['|'] ++ cells.flatten ++ ['\n'])

/-- `output_table` — lapex-parser/src/lr_parser/mod.rs:530-603. The rules are listed in the order of their addresses, which is the order of their numbers. -/
def outputTable (g : Grammar) (tb : LRTable) : Res (List Char) := do
  let rules ← g.rules.zipIdx.mapM fun r => do
    let text ← ruleText g r.1
    .ok (decimal r.2 ++ ": ".toList ++ text ++ ['\n'])
  let names ← (g.symbols ++ [Sym.eof]).mapM g.symbolName
  let rows ← (List.range tb.stateCount).mapM (tableRow g tb ((g.symbols ++ [Sym.eof]).zip (names.map byteLen)))
  .ok ("Rules:\n".toList ++ rules.flatten ++ ['\n'] ++ List.replicate (decimal tb.stateCount).length ' ' ++ (names.map ('|' :: ·)).flatten ++ "|\n".toList ++ rows.flatten)

end Verif
