import Verif.Model.Layout
import Verif.Model.Generate

/-!
# `lapex::generate` with everything that differs from run to run: `lapex/src/lib.rs`

As `Verif.Model.Generate`, with the table generation of `Verif.Model.Layout`. Conflicts are reported in the order of their `BTreeSet`.
-/

set_option autoImplicit false

namespace Verif

/-- the arms for LR(0), LALR and LR(1) — lapex/src/lib.rs:157-205. -/
def laidLrArm (lay : Layout) (fuel : Nat) (lang : Language) (kind : LRKind) (genTable : Bool) (path contents : List Char) (rules : SpannedRules) (g : Grammar)
    (written : List Written) : List Written × Ending :=
  match laidTable lay g false kind fuel with
  | .error e => (written, .failed .parserTable e)
  | .ok (.noConflicts tb) => writeParser genTable g tb (lrFile lang (rules.tokens.map (·.inner)) g tb) written
  | .ok (.badConflicts cs) =>
    match cs.mapM (conflictReport path contents rules.prods g) with
    | .error e => (written, .failed .report e)
    | .ok reports => (written, .err reports)
  | .ok (.allowedConflicts _ _) => (written, .panic .unreachable)

/-- the arm for GLR — lapex/src/lib.rs:206-229. -/
def laidGlrArm (lay : Layout) (fuel : Nat) (lang : Language) (genTable : Bool) (g : Grammar) (written : List Written) : List Written × Ending :=
  match laidTable lay g true .lalr fuel with
  | .error e => (written, .failed .parserTable e)
  | .ok (.noConflicts tb) => writeParser genTable g tb (glrFile lang g tb) written
  | .ok (.allowedConflicts tb _) => writeParser genTable g tb (glrFile lang g tb) written
  | .ok (.badConflicts _) => (written, .panic .unreachable)

/-- from the grammar on — lapex/src/lib.rs:151-231. -/
def laidGenerateParser (lay : Layout) (fuel : Nat) (lang : Language) (alg : Algorithm) (genTable : Bool) (path contents : List Char) (rules : SpannedRules)
    (written : List Written) : List Written × Ending :=
  match Grammar.fromRuleSet rules.ruleSet with
  | .error _ => (written, .panic .grammar)
  | .ok g =>
    match alg with
    | .ll1 => llArm fuel lang g written
    | .lr0 => laidLrArm lay fuel lang .lr0 genTable path contents rules g written
    | .lalr => laidLrArm lay fuel lang .lalr genTable path contents rules g written
    | .lr1 => laidLrArm lay fuel lang .lr1 genTable path contents rules g written
    | .glr => laidGlrArm lay fuel lang genTable g written

/-- `generate_lexer_and_parser` — lapex/src/lib.rs:109-232. -/
def laidGenerate (lay : Layout) (parse : List Char → Res SpannedRules) (fuel : Nat) (genLexer : Bool) (alg : Algorithm) (genTable : Bool) (lang : Language)
    (path : List Char) (contents : Option (List Char)) : List Written × Ending :=
  match contents with
  | none => ([], .err [.io path])
  | some contents =>
    match parse contents with
    | .error e => ([], .failed .parse e)
    | .ok rules =>
      match tokenFile lang (rules.tokens.map (·.inner)) with
      | .error e => ([], .failed .tokens e)
      | .ok tokens =>
        if genLexer then
          match generateLexer fuel (rules.tokens.map (·.inner)) with
          | .error e => ([tokens], .failed .lexer e)
          | .ok (.error e) =>
            match precedenceReport path contents rules.tokens e with
            | .error e => ([tokens], .failed .report e)
            | .ok report => ([tokens], .err [report])
          | .ok (.ok t) => laidGenerateParser lay fuel lang alg genTable path contents rules [tokens, .lexer t]
        else laidGenerateParser lay fuel lang alg genTable path contents rules [tokens]

end Verif
