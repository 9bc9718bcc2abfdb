import Verif.Spec.RustLRText

/-!
# What the text of a generated Rust GLR parser means

`Verif/Spec/RustSource.lean` says how a text is read as Rust. Here: what the functions of `parser.rs` return that depend on the grammar, the declarations, and the functions that do not.
-/

set_option autoImplicit false

namespace Verif

variable {T : Type}

/-! ## `next_actions` -/

/-- the variant of an expected token -/
def optVariant (variants : List (List Char)) : Option Nat → List Char
  | some a => tokVariant variants (.tok a)
  | none => tokVariant variants .eof

/-- values with a `,` after each of them; the last may be without one. The number bounds their number. -/
def readValues : Nat → RForest → Option (List RVal)
  | 0, _ => none
  | _ + 1, .nil => some []
  | n + 1, f =>
    match upToSym [','] f with
    | none => (readValue 5 f).map ([·])
    | some (e, r) => do
      let v ← readValue 5 e
      let vs ← readValues n r
      some (v :: vs)

/-- what `next_actions` returns: actions, or an error with the token, its data and the expected tokens -/
inductive RGlrReturn (T : Type) where
  | ok (actions : List RVal)
  | unexpected (got : List Char) (data : T) (expected : List (List Char))
deriving DecidableEq, Repr

/-- what is in the brackets of `return Ok(&[e])` -/
def slicePart : RForest → RForest
  | .word _ (.word _ (.group _ (.sym _ (.group _ e _)) _)) => e
  | _ => .nil

/-- what is in the brackets of the error -/
def errPart : RForest → RForest
  | .word _ (.word _ (.group _ (.word _ (.sym _ (.word _ (.group _ (.word _ (.sym _ (.word _ (.sym _ (.word _ (.sym _ (.word _ (.sym _ (.word _ (.sym _ (.word _ (.sym _ (.group _ l _))))))))))))) _)))) _)) => l
  | _ => .nil

/-- statements of `next_actions`; the variables are `state`, `next_token` and `next_data` -/
def rGlrActionMachine : RMachine (Nat × List Char × T) (RGlrReturn T) where
  value := fun e s => if e = rs! "(state, next_token)" then some (.pair (.num s.1) (.variant "TokenType".toList s.2.1)) else none
  test := fun _ _ => none
  rounds := fun _ _ => none
  bind := fun _ _ => none
  act := fun ts s =>
    let e := slicePart ts
    let l := errPart ts
    if ts = rs! "return Ok(&[#e])" then
      match readValues (e.size + 1) e with
      | some as => .ok (.ret s (.ok as))
      | none => .error .panic
    else if ts = rs! "return Err(ParserError::UnexpectedToken { got: next_token, got_data: next_data, expected: vec![#l], })" then
      match readTokenList l with
      | some expected => .ok (.ret s (.unexpected s.2.1 s.2.2 expected))
      | none => .error .panic
    else .error .panic

/-- `self.next_actions(state, token, data)` -/
def rustNextActions (text : List Char) (state : Nat) (token : List Char) (data : T) : Res (RGlrReturn T) :=
  match readRustMethod "Parser".toList "next_actions".toList text with
  | none => .error .panic
  | some body => (callR rGlrActionMachine 0 body (state, token, data)).map (·.2)

/-! ## `next_goto` -/

/-- statements of `next_goto`; the variables are `state` and `symbol` -/
def rGlrGotoMachine : RMachine (Nat × RVal) (Option RVal) where
  value := fun e s => if e = rs! "(state, symbol)" then some (.pair (.num s.1) s.2) else none
  test := fun _ _ => none
  rounds := fun _ _ => none
  bind := fun _ _ => none
  act := fun ts s =>
    let e := okPart ts
    if ts = rs! "return None" then .ok (.ret s none)
    else if ts = rs! "return Some(#e)" then
      match readValue 5 e with
      | some v => .ok (.ret s (some v))
      | none => .error .panic
    else .error .panic

/-- `self.next_goto(&state, &symbol)` -/
def rustNextGotoOf (text : List Char) (state : Nat) (symbol : RVal) : Res (Option RVal) :=
  match readRustMethod "Parser".toList "next_goto".toList text with
  | none => .error .panic
  | some body => (callR rGlrGotoMachine 0 body (state, symbol)).map (·.2)

/-! ## `get_rule_reduction` and `do_visit` -/

/-- statements of `get_rule_reduction`; the variable is `rule` -/
def rRuleMachine : RMachine RVal RVal where
  value := fun e s => if e = rs! "rule" then some s else none
  test := fun _ _ => none
  rounds := fun _ _ => none
  bind := fun _ _ => none
  act := fun ts s =>
    match ts with
    | .word r e =>
      if r = "return".toList then
        match readValue 5 e with
        | some v => .ok (.ret s v)
        | none => .error .panic
      else .error .panic
    | _ => .error .panic

/-- `self.get_rule_reduction(&rule)` -/
def rustRuleReduction (text : List Char) (rule : RVal) : Res RVal :=
  match readRustMethod "Parser".toList "get_rule_reduction".toList text with
  | none => .error .panic
  | some body => (callR rRuleMachine 0 body rule).map (·.2)

/-- statements of `do_visit`; what it returns is the name of the method of the visitor that is called -/
def rVisitMachine : RMachine RVal (List Char) where
  value := fun e s => if e = rs! "rule" then some s else none
  test := fun _ _ => none
  rounds := fun _ _ => none
  bind := fun _ _ => none
  act := fun ts s =>
    let function := RForest.word (visitPart ts) .nil
    if ts = rs! "return self.visitor.#function()" then .ok (.ret s (visitPart ts)) else .error .panic

/-- `self.do_visit(&rule)`: the method of the visitor that is called -/
def rustDoVisit (text : List Char) (rule : RVal) : Res (List Char) :=
  match readRustMethod "Parser".toList "do_visit".toList text with
  | none => .error .panic
  | some body => (callR rVisitMachine 0 body rule).map (·.2)

/-! ## Declarations -/

/-- the block of the first `impl` of a trait for a type; the mode says whether we are in the head of an `impl`, whether the trait was seen there, and whether `for` was seen after it -/
def findImplFor (tr ty : List Char) : Option (Bool × Bool × Bool) → RForest → Option RForest
  | _, .nil => none
  | none, .word w f => findImplFor tr ty (if w = "impl".toList then some (false, false, false) else none) f
  | some (a, b, c), .word w f => findImplFor tr ty (some (a || w = tr, b || w = "for".toList, c || (b && w = ty))) f
  | some (a, b, c), .group .brace i f => if a && b && c then some i else findImplFor tr ty none f
  | m, .group _ _ f => findImplFor tr ty m f
  | m, .life _ f => findImplFor tr ty m f
  | m, .str _ f => findImplFor tr ty m f
  | m, .sym _ f => findImplFor tr ty m f

/-- the functions defined by the `impl` of a trait for a type in a text -/
def rustImpl (tr ty : List Char) (text : List Char) : Option (List (List Char)) := ((rRead text).bind (findImplFor tr ty none)).map declaredFns

/-- the block of a method of `impl Visitor for DebugVisitor` in a text -/
def rustDebugBlock (name : List Char) (text : List Char) : Option RForest := do
  let f ← rRead text
  let i ← findImplFor "Visitor".toList "DebugVisitor".toList none f
  findFn name .look i

/-- the block of a method of the parser in a text -/
def rustBlock (name : List Char) (text : List Char) : Option RForest := do
  let f ← rRead text
  let i ← findImpl "Parser".toList none f
  findFn name .look i

/-- the block of a module in a stream -/
def findMod (name : List Char) : RForest → Option RForest
  | .nil => none
  | .word w f =>
    match f with
    | .word n f' => if w = "mod".toList ∧ n = name then (upToBrace f').map (·.2.1) else findMod name f
    | _ => findMod name f
  | .life _ f => findMod name f
  | .str _ f => findMod name f
  | .sym _ f => findMod name f
  | .group _ _ f => findMod name f

end Verif
