import Verif.Spec.RustGlrRun

/-!
# Messages of errors in generated Rust code

The error types of the generated files implement `Display` by a function `fmt` with a `match` on the error and `write!`. Here is what such a function writes. `{}` and `{:?}` in a format stand for the
next argument, shown by `Display` or by `Debug`. `TokenType` derives `Debug`, which shows the name of the variant; `Vec` shows `[a, b]`, `RangeInclusive` shows `a..=b`, `Option<char>` shows `None` or
`Some(c)`, where the char is shown in quotes and with escapes as `Debug` of `char` does (a parameter).
-/

set_option autoImplicit false

namespace Verif

/-- a value in an error -/
inductive RValue where
  /-- `u32` -/
  | num (n : Nat)
  /-- `Option<char>`, from a code -/
  | optChar (n : Nat)
  /-- `RangeInclusive<u32>` -/
  | range (a b : Nat)
  /-- `TokenType` -/
  | token (v : List Char)
  /-- `Vec<TokenType>` -/
  | tokens (vs : List (List Char))
  /-- `Vec<(TokenType, T)>`; of the second parts nothing is needed -/
  | pairs (vs : List (List Char))
  /-- `Vec<Vec<TokenType>>` -/
  | tokenLists (vss : List (List (List Char)))
  /-- something else that implements `Display`, as a `String` -/
  | text (t : List Char)
  /-- `Vec<String>` -/
  | texts (ts : List (List Char))
  /-- something of a type without conditions -/
  | any

/-- `[a, b, c]` -/
def listText (vs : List (List Char)) : List Char := "[".toList ++ List.intercalate ", ".toList vs ++ "]".toList

/-- by `{}` -/
def RValue.display : RValue → Option (List Char)
  | .num n => some (decimal n)
  | .text t => some t
  | _ => none

/-- by `{:?}` -/
def RValue.debug (charDebug : Char → List Char) : RValue → Option (List Char)
  | .num n => some (decimal n)
  | .optChar n => some (if n.isValidChar then "Some(".toList ++ charDebug (Char.ofNat n) ++ ")".toList else "None".toList)
  | .range a b => some (decimal a ++ "..=".toList ++ decimal b)
  | .token v => some v
  | .tokens vs => some (listText vs)
  | .tokenLists vss => some (listText (vss.map listText))
  | _ => none

/-- the text of a literal; of the escapes only `\n` is known -/
def literalText : List Char → Option (List Char)
  | [] => some []
  | '\\' :: 'n' :: cs => (literalText cs).map ('\n' :: ·)
  | '\\' :: _ => none
  | c :: cs => (literalText cs).map (c :: ·)

/-- a format with its arguments; each must be used -/
def formatText (charDebug : Char → List Char) : List Char → List RValue → Option (List Char)
  | [], [] => some []
  | [], _ :: _ => none
  | '{' :: '}' :: cs, a :: as => do
    let t ← a.display
    let r ← formatText charDebug cs as
    some (t ++ r)
  | '{' :: ':' :: '?' :: '}' :: cs, a :: as => do
    let t ← a.debug charDebug
    let r ← formatText charDebug cs as
    some (t ++ r)
  | '{' :: _, _ => none
  | '}' :: _, _ => none
  | c :: cs, as => (formatText charDebug cs as).map (c :: ·)

/-- variables -/
abbrev REnv := List (List Char × RValue)

def REnv.value (env : REnv) (x : List Char) : Option RValue := (env.find? (fun e => e.1 = x)).map (·.2)

/-- an argument: a variable, `std::char::from_u32(*x)`, or `x.join("...")` -/
def argValue (env : REnv) (e : RForest) : Option RValue :=
  if e = rs! "std::char::from_u32(*bad_ch)" then
    match env.value "bad_ch".toList with
    | some (.num n) => some (.optChar n)
    | _ => none
  else match e with
    | .word x .nil => env.value x
    | .word x (.sym ['.'] (.word j (.group .paren (.str sep .nil) .nil))) =>
      if j = "join".toList then
        match env.value x, literalText sep with
        | some (.texts ts), some sep => some (.text (List.intercalate sep ts))
        | _, _ => none
      else none
    | _ => none

/-- arguments, with a `,` before each; the number bounds how many there are -/
def argValues (env : REnv) : Nat → RForest → Option (List RValue)
  | _, .nil => some []
  | n + 1, .sym [','] f =>
    match upToSym [','] f with
    | none => do
      let v ← argValue env f
      some [v]
    | some (e, r) => do
      let v ← argValue env e
      let vs ← argValues env n (.sym [','] r)
      some (v :: vs)
  | _, _ => none

/-- `"..."` and arguments -/
def formatArgs (charDebug : Char → List Char) (env : REnv) : RForest → Option (List Char)
  | .str lit args => do
    let vs ← argValues env args.size args
    let lit ← literalText lit
    formatText charDebug lit vs
  | _ => none

/-- `write!(f, "...", ...)`: what is written -/
def writeMacro (charDebug : Char → List Char) (env : REnv) : RForest → Option (List Char)
  | .word w (.sym ['!'] (.group .paren (.word f (.sym [','] r)) .nil)) => if w = "write".toList ∧ f = "f".toList then formatArgs charDebug env r else none
  | _ => none

/-- the closure in `.map(...)` -/
def mapPart : RForest → RForest
  | .nil => .nil
  | .word w (.group .paren i f) => if w = "map".toList then i else mapPart f
  | .word _ f => mapPart f
  | .life _ f => mapPart f
  | .str _ f => mapPart f
  | .sym _ f => mapPart f
  | .group _ _ f => mapPart f

/-- what is in the first braces -/
def bracePart : RForest → RForest
  | .nil => .nil
  | .group .brace i _ => i
  | .word _ f => bracePart f
  | .life _ f => bracePart f
  | .str _ f => bracePart f
  | .sym _ f => bracePart f
  | .group _ _ f => bracePart f

/-- `format!(...)`: its value -/
def formatMacro (charDebug : Char → List Char) (env : REnv) : RForest → Option (List Char)
  | .word w (.sym ['!'] (.group .paren r .nil)) => if w = "format".toList then formatArgs charDebug env r else none
  | _ => none

/-- `let errors: Vec<String> = got.iter().zip(expected.iter()).map(|((got, _got_data), expected)| { ... }).collect()` -/
def collectErrors (charDebug : Char → List Char) (env : REnv) (ts : RForest) : Option REnv :=
  let closure := mapPart ts
  let body := bracePart closure
  if ts = (rs! "let errors: Vec<String> = got.iter().zip(expected.iter()).map(#closure).collect()") ∧ closure = (rs! "|((got, _got_data), expected)| { #body }") then
    match env.value "got".toList, env.value "expected".toList with
    | some (.pairs gs), some (.tokenLists es) => do
      let ts ← (gs.zip es).mapM fun x => formatMacro charDebug [("got".toList, .token x.1), ("_got_data".toList, .any), ("expected".toList, .tokens x.2)] body
      some (("errors".toList, .texts ts) :: env)
    | _, _ => none
  else none

/-- a block that writes -/
def writeBlock (charDebug : Char → List Char) : REnv → List DStmt → Option (List Char)
  | env, [.tail ts] => writeMacro charDebug env ts
  | env, .simple ts :: ss => do
    let env ← collectErrors charDebug env ts
    writeBlock charDebug env ss
  | _, _ => none

/-- an error: its type, its variant and its fields -/
structure RError where
  ty : List Char
  variant : List Char
  fields : REnv

/-- the fields in a pattern; is the field bound to a variable? -/
def readFields : RForest → Option (List (List Char × Bool))
  | .nil => some []
  | .word x .nil => some [(x, true)]
  | .word x (.sym [','] r) => (readFields r).map ((x, true) :: ·)
  | .word x (.sym [':'] (.word ['_'] .nil)) => some [(x, false)]
  | .word x (.sym [':'] (.word ['_'] (.sym [','] r))) => (readFields r).map ((x, false) :: ·)
  | _ => none

/-- variables bound by a pattern, which must name all fields in their order -/
def bindFields (fields : REnv) (names : List (List Char × Bool)) : Option REnv :=
  if names.map (·.1) = fields.map (·.1) then some ((fields.zip names).filterMap fun x => if x.2.2 then some x.1 else none) else none

/-- the arm for an error -/
def writeArms (charDebug : Char → List Char) (e : RError) : List DStmt → Option (List Char)
  | .arm (.word ty (.sym [':', ':'] (.word v (.group .brace fs .nil)))) body :: as =>
    if ty = e.ty ∧ v = e.variant then do
      let names ← readFields fs
      let env ← bindFields e.fields names
      writeBlock charDebug env body
    else writeArms charDebug e as
  | _ => none

/-- the block of the first `impl` of `Display`; the mode says whether we are in the head of an `impl`, and whether the name of the trait was seen there -/
def findDisplay : Option Bool → RForest → Option RForest
  | _, .nil => none
  | none, .word w f => findDisplay (if w = "impl".toList then some false else none) f
  | some b, .word w f => findDisplay (some (b || w = "Display".toList)) f
  | some true, .group .brace i _ => some i
  | some false, .group .brace _ f => findDisplay none f
  | m, .group _ _ f => findDisplay m f
  | m, .life _ f => findDisplay m f
  | m, .str _ f => findDisplay m f
  | m, .sym _ f => findDisplay m f

/-- `e.to_string()`, for an error of the type in the text that implements `Display` -/
def rustMessage (charDebug : Char → List Char) (text : List Char) (e : RError) : Option (List Char) := do
  let f ← rRead text
  let i ← findDisplay none f
  let b ← findFn "fmt".toList .look i
  match ← readD (2 * b.size) b with
  | [.choice x arms] => if x = rs! "self" then writeArms charDebug e arms else none
  | _ => none

/-! ## Errors that are returned -/

/-- the message about one token -/
def unexpectedText (got : List Char) (expected : List (List Char)) : List Char :=
  "Unexpected token ".toList ++ got ++ ", expected one of: ".toList ++ listText expected

/-- a name without the chars that stand after names in messages -/
def Separate (w : List Char) : Prop := w ≠ [] ∧ ',' ∉ w ∧ ']' ∉ w

/-- the error that `next` of the lexer returns -/
def RustLexResult.error : RustLexResult → Option RError
  | .ok _ => none
  | .invalidChar c => some ⟨"LexerError".toList, "InvalidChar".toList, [("bad_ch".toList, .num c)]⟩
  | .unexpectedAlphabet r => some ⟨"LexerError".toList, "UnexpectedAlphabet".toList, [("range".toList, .range r.1 r.2)]⟩

/-- the error that `parse` of the LR parser returns -/
def RParseReturn.error : RParseReturn → Option RError
  | .ok => none
  | .unexpected got expected => some ⟨"ParserError".toList, "UnexpectedToken".toList, [("got".toList, .token got), ("expected".toList, .tokens expected)]⟩

/-- the error that `parse` of the GLR parser returns; an error of the token function is shown by its own `Display` -/
def RGlrEnd.error {T ε : Type} (show' : ε → List Char) : RGlrEnd T ε → Option RError
  | .ok => none
  | .unexpected e => some ⟨"ParserError".toList, "UnexpectedToken".toList, [("got".toList, .token e.1), ("got_data".toList, .any), ("expected".toList, .tokens e.2.2)]⟩
  | .unexpecteds got expected => some ⟨"ParserError".toList, "UnexpectedTokens".toList, [("got".toList, .pairs (got.map (·.1))), ("expected".toList, .tokenLists expected)]⟩
  | .lexerError e => some ⟨"ParserError".toList, "LexerError".toList, [("inner".toList, .text (show' e))]⟩

end Verif
