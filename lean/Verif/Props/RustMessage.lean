import Verif.Props.RustProgram
import Verif.Proofs.RustMessage

/-!
# C81 — messages of the errors in generated Rust code

The function `fmt` of the error types in the generated files `lexer.rs` and `parser.rs`, read and run. `{:?}` of a char is a parameter: the messages hold however it shows chars.
-/

set_option autoImplicit false

namespace Verif

variable {T : Type} (charDebug : Char → List Char)

/-- C81. The error of `lexer.rs` for a char outside the alphabet shows its code, as a number and as a char. The other error of the lexer shows the range of codes. -/
theorem C81_lexer (rules : List TokenRule) (t : LexerTables) (hn : ∀ r ∈ rules, IsWord r.name.toList) (text : List Char) (h : rustLexerFile rules t = .ok text) (out : RustLexResult) :
    out.error.bind (rustMessage charDebug text) =
      match out with
      | .ok _ => none
      | .invalidChar c => some ("Lexer got strange codepoint ".toList ++ decimal c ++ ", char value is '".toList ++
          ((if c.isValidChar then "Some(".toList ++ charDebug (Char.ofNat c) ++ ")".toList else "None".toList) ++ "'".toList))
      | .unexpectedAlphabet r => some ("Lexer got char in unexpected range: ".toList ++ (decimal r.1 ++ "..=".toList ++ decimal r.2)) := by
  obtain ⟨cs, _, f, hf, hok, ht⟩ := lexer_file_rust hn h
  have hr : rRead text = some f := by rw [ht]; exact rRead_print _ hok
  rw [hf] at hr
  have hm : ∀ e, rustMessage charDebug text e = writeArms charDebug e lexErrArms := fun e => (message_of charDebug hr (find_lexFmt _ _ _) e).trans (by rw [lexFmt_arms]; rfl)
  cases out with
  | ok v => rfl
  | invalidChar c => exact (hm _).trans (lex_writes_char charDebug c)
  | unexpectedAlphabet r => exact (hm _).trans (lex_writes_range charDebug r.1 r.2)

section
variable {rs : RuleSet} {g : Grammar} {rules : List TokenRule} {tb : LRTable} {p : LRProg} {toks text : List Char} (hf : RustParserFiles rs g rules tb p toks text)

include hf in
/-- C81. The error of an LR parser shows the token it got, then the expected ones. -/
theorem C81_parser (out : RParseReturn) : out.error.bind (rustMessage charDebug text) =
    match out with
    | .ok => none
    | .unexpected got expected => some (unexpectedText got expected) := by
  obtain ⟨_, _, _, _, _, _, _, _, h⟩ := parser_file_rust hf.gwords hf.tagWords hf.parserFile
  cases out with
  | ok => rfl
  | unexpected got expected => exact (message_of charDebug h (find_lrFmt _ _ _ _ _ _ _ _) _).trans (lr_writes charDebug got expected)

include hf in
/-- the variants of `TokenType` can be told from each other in a message -/
theorem variants_words (vs : List (List Char)) (h : rustEnum "TokenType".toList toks = some vs) : ∀ v ∈ vs, IsWord v ∧ v ≠ [] := by
  obtain ⟨ws, h1, h2⟩ := rust_variants hf
  rw [h2] at h
  cases h
  intro v hv
  rcases List.mem_cons.mp hv with rfl | hv
  · exact ⟨by unfold IsWord; decide, by decide⟩
  · obtain ⟨r, hr, hw⟩ := mem_mapM h1 v hv
    exact tokenEnum_word (hf.words.1 r.name (by rw [hf.tokens]; exact List.mem_map.mpr ⟨r, hr, rfl⟩)) hw

omit charDebug in
theorem lrRun_expected {p : LRProg} {input : Nat → Tok × T} {n : Nat} {st : List StackSym} {pos k : Nat} {events evs : List (LREvent T)} {expected : List Sym}
    (h : lrRun p.machine input n st pos events = .unexpected evs k expected) : ∃ y ∈ p.actions, expected = y.2 := by
  induction n generalizing st pos events with
  | zero => cases h
  | succ n ih =>
    unfold lrRun at h
    split at h
    · cases h
    · rename_i e he
      cases h
      unfold lrStep at he
      split at he
      · cases he
      · split at he
        · cases he
        · rename_i q _ e ha
          cases he
          unfold LRProg.machine LRProg.nextAction at ha
          simp only at ha
          split at ha
          · cases ha
          · rename_i arms ex hq
            split at ha
            · cases ha
            · cases ha
              exact ⟨_, List.mem_of_getElem? hq, rfl⟩
        · unfold lrGoto at he
          (repeat' split at he) <;> cases he
        · split at he
          · cases he
          · split at he
            · cases he
            · unfold lrGoto at he
              (repeat' split at he) <;> cases he
      · cases he
    · cases h
    · exact ih h

include hf in
/-- C81. When the parser, run on a stream of tokens, returns an error, its tokens are variants of `TokenType`, and the message shows them. -/
theorem C81_run (input : Nat → Tok × T) (hin : ∀ i, (input i).1 = .eof ∨ ∃ a < rs.tokens.length, (input i).1 = .tok a) :
    ∃ vs, rustEnum "TokenType".toList toks = some vs ∧ ∀ n out visits calls, runRustParser text (fun i => (tokVariant vs (input i).1, (input i).2)) n = .ok (out, visits, calls) → out ≠ .ok →
      ∃ got ∈ vs, ∃ expected : List (List Char), (∀ v ∈ expected, v ∈ vs) ∧ out.error.bind (rustMessage charDebug text) = some (unexpectedText got expected) := by
  obtain ⟨vs, h1, h2, h3⟩ := C75_parser_text (T := T) hf
  refine ⟨vs, h1, fun n out visits calls h hne => ?_⟩
  rw [h3] at h
  have mem : ∀ i, i < rs.tokens.length + 1 → vs.getD i [] ∈ vs := fun i hi => by
    rw [List.getD_eq_getElem?_getD, List.getElem?_eq_getElem (by omega)]
    exact List.getElem_mem _
  cases hr : lrParse p.machine input n with
  | ok events pos => rw [hr] at h; cases h; exact absurd rfl hne
  | panic events pos => rw [hr] at h; cases h
  | running events pos => rw [hr] at h; cases h
  | unexpected events pos expected =>
    rw [hr] at h
    cases h
    refine ⟨_, ?_, _, ?_, C81_parser charDebug hf _⟩
    · rcases hin pos with e | ⟨a, ha, e⟩
      · rw [e]; exact mem 0 (by omega)
      · rw [e]; exact mem _ (Nat.succ_lt_succ ha)
    · intro v hv
      obtain ⟨s, hs, e⟩ := List.mem_filterMap.mp hv
      obtain ⟨y, hy, rfl⟩ := lrRun_expected hr
      rcases List.mem_append.mp (prog_expected hf.program y hy s hs) with hs | hs
      · obtain ⟨a, rfl⟩ := terminals_t hf.grammar hs
        cases e
        exact mem _ (Nat.succ_lt_succ (token_below hf.grammar hf.fewTokens hs))
      · rw [List.mem_singleton] at hs
        subst hs
        cases e
        exact mem 0 (by omega)

include hf in
/-- C81. Two errors of an LR parser have the same message only if they are about the same token and the same expected tokens. -/
theorem C81_parser_determines (vs : List (List Char)) (h : rustEnum "TokenType".toList toks = some vs) (got got' : List Char) (expected expected' : List (List Char))
    (h1 : got ∈ vs) (h2 : got' ∈ vs) (h3 : ∀ v ∈ expected, v ∈ vs) (h4 : ∀ v ∈ expected', v ∈ vs)
    (e : (RParseReturn.unexpected got expected).error.bind (rustMessage charDebug text) = (RParseReturn.unexpected got' expected').error.bind (rustMessage charDebug text)) :
    got = got' ∧ expected = expected' := by
  have hw := fun v hv => separate_of (variants_words hf vs h v hv).1 (variants_words hf vs h v hv).2
  rw [C81_parser charDebug hf, C81_parser charDebug hf] at e
  exact unexpected_inj (hw _ h1).2.1 (hw _ h2).2.1 (fun v hv => hw v (h3 v hv)) (fun v hv => hw v (h4 v hv)) (Option.some.inj e)

end

section
variable {rs : RuleSet} {g : Grammar} {rules : List TokenRule} {tb : LRTable} {p : GlrProg} {toks text : List Char} (hf : GlrParserFiles rs g rules tb p toks text)

include hf in
/-- C81. The error of a GLR parser: if all stacks stopped at one error, it shows the token and the expected ones; for more errors there is a line for each, after a headline; an error of the token
function is shown as it shows itself. -/
theorem C81_glr {ε : Type} (show' : ε → List Char) (out : RGlrEnd T ε) : (out.error show').bind (rustMessage charDebug text) =
    match out with
    | .ok => none
    | .unexpected e => some (unexpectedText e.1 e.2.2)
    | .unexpecteds got expected => some ("Multiple diverging parse stacks reached unexpected ends:\n".toList ++
        List.intercalate ['\n'] ((got.zip expected).map fun x => unexpectedText x.1.1 x.2))
    | .lexerError e => some (show' e) := by
  obtain ⟨_, _, _, _, _, _, _, _, _, _, h⟩ := glr_file hf.gwords hf.tagWords hf.parserFile
  have hm : ∀ e, rustMessage charDebug text e = writeArms charDebug e glrErrArms := fun e => (message_of charDebug h (find_glrFmt _ _ _ _ _ _ _ _ _) e).trans (by rw [glrFmt_arms]; rfl)
  cases out with
  | ok => rfl
  | unexpected e => exact (hm _).trans (glr_writes_one charDebug e.1 e.2.2)
  | unexpecteds got expected =>
    refine (hm _).trans ((glr_writes_all charDebug (got.map (·.1)) expected).trans ?_)
    rw [List.zip_map_left, List.map_map]
    rfl
  | lexerError e => exact (hm _).trans (glr_writes_lexer charDebug (show' e))

include hf in
theorem glr_variants_words (vs : List (List Char)) (h : rustEnum "TokenType".toList toks = some vs) : ∀ v ∈ vs, IsWord v ∧ v ≠ [] := by
  obtain ⟨ws, h1, h2⟩ := glr_variants hf
  rw [h2] at h
  cases h
  intro v hv
  rcases List.mem_cons.mp hv with rfl | hv
  · exact ⟨by unfold IsWord; decide, by decide⟩
  · obtain ⟨r, hr, hw⟩ := mem_mapM h1 v hv
    exact tokenEnum_word (hf.words.1 r.name (by rw [hf.tokens]; exact List.mem_map.mpr ⟨r, hr, rfl⟩)) hw

/-- the errors about tokens in what `parse` of a GLR parser returned: the tokens got, each with the expected ones -/
def RGlrEnd.reported {ε : Type} : RGlrEnd T ε → List (List Char × List (List Char))
  | .unexpected e => [(e.1, e.2.2)]
  | .unexpecteds got expected => (got.zip expected).map fun x => (x.1.1, x.2)
  | _ => []

include hf in
/-- C81. If two results of a GLR parser are errors about tokens and have the same message, they report the same errors: the same tokens, each with the same expected ones, in the same order. -/
theorem C81_glr_determines {ε : Type} (show' : ε → List Char) (vs : List (List Char)) (h : rustEnum "TokenType".toList toks = some vs) (out out' : RGlrEnd T ε)
    (h1 : ∀ x ∈ out.reported, x.1 ∈ vs ∧ ∀ v ∈ x.2, v ∈ vs) (h2 : ∀ x ∈ out'.reported, x.1 ∈ vs ∧ ∀ v ∈ x.2, v ∈ vs)
    (k1 : out ≠ .ok) (k2 : out' ≠ .ok) (k3 : ∀ e, out ≠ .lexerError e) (k4 : ∀ e, out' ≠ .lexerError e)
    (e : (out.error show').bind (rustMessage charDebug text) = (out'.error show').bind (rustMessage charDebug text)) : out.reported = out'.reported := by
  have hw := glr_variants_words hf vs h
  have hs := fun v hv => separate_of (hw v hv).1 (hw v hv).2
  have differ : ∀ (got : List Char) (expected : List (List Char)) (r : List Char), unexpectedText got expected ≠ "Multiple diverging parse stacks reached unexpected ends:\n".toList ++ r := by
    intro got expected r e
    have := congrArg List.head? e
    unfold unexpectedText at this
    rw [List.append_assoc, List.append_assoc] at this
    have : some 'U' = some 'M' := this
    cases this
  rw [C81_glr charDebug hf, C81_glr charDebug hf] at e
  cases out with
  | ok => exact absurd rfl k1
  | lexerError x => exact absurd rfl (k3 x)
  | unexpected x =>
    cases out' with
    | ok => exact absurd rfl k2
    | lexerError x => exact absurd rfl (k4 x)
    | unexpected y =>
      obtain ⟨a1, a2⟩ := h1 (x.1, x.2.2) (by simp [RGlrEnd.reported])
      obtain ⟨b1, b2⟩ := h2 (y.1, y.2.2) (by simp [RGlrEnd.reported])
      obtain ⟨e1, e2⟩ := unexpected_inj (hs _ a1).2.1 (hs _ b1).2.1 (fun v hv => hs v (a2 v hv)) (fun v hv => hs v (b2 v hv)) (Option.some.inj e)
      show [(x.1, x.2.2)] = [(y.1, y.2.2)]
      rw [e1, e2]
    | unexpecteds got expected => exact absurd (Option.some.inj e) (differ _ _ _)
  | unexpecteds got expected =>
    cases out' with
    | ok => exact absurd rfl k2
    | lexerError x => exact absurd rfl (k4 x)
    | unexpected y => exact absurd (Option.some.inj e).symm (differ _ _ _)
    | unexpecteds got' expected' =>
      have e := List.append_cancel_left (Option.some.inj e)
      have form : ∀ (got : List (List Char × T)) (expected : List (List (List Char))), ((got.zip expected).map fun x => unexpectedText x.1.1 x.2) =
          (RGlrEnd.reported (.unexpecteds got expected : RGlrEnd T ε)).map fun x => unexpectedText x.1 x.2 := by
        intro got expected
        simp only [RGlrEnd.reported, List.map_map]
        rfl
      rw [form, form] at e
      have line : ∀ l : List (List Char × List (List Char)), (∀ x ∈ l, x.1 ∈ vs ∧ ∀ v ∈ x.2, v ∈ vs) → ∀ t ∈ l.map (fun x => unexpectedText x.1 x.2), t ≠ [] ∧ '\n' ∉ t := by
        intro l hl t ht
        obtain ⟨x, hx, rfl⟩ := List.mem_map.mp ht
        exact noLine_unexpected (hw _ (hl x hx).1).1 fun v hv => (hw _ ((hl x hx).2 v hv)).1
      have e' := lines_inj (line _ h1) (line _ h2) e
      clear e
      generalize RGlrEnd.reported (.unexpecteds got expected : RGlrEnd T ε) = l at *
      generalize RGlrEnd.reported (.unexpecteds got' expected' : RGlrEnd T ε) = l' at *
      clear form line
      induction l generalizing l' with
      | nil =>
        cases l' with
        | nil => rfl
        | cons y l' => cases e'
      | cons x l ih =>
        cases l' with
        | nil => cases e'
        | cons y l' =>
          simp only [List.map_cons, List.cons.injEq] at e'
          obtain ⟨a1, a2⟩ := h1 x (by simp)
          obtain ⟨b1, b2⟩ := h2 y (by simp)
          obtain ⟨e1, e2⟩ := unexpected_inj (hs _ a1).2.1 (hs _ b1).2.1 (fun v hv => hs v (a2 v hv)) (fun v hv => hs v (b2 v hv)) e'.1
          rw [ih (fun x hx => h1 x (List.mem_cons_of_mem _ hx)) l' (fun x hx => h2 x (List.mem_cons_of_mem _ hx)) e'.2, Prod.ext e1 e2]

end

/-! ## Examples -/

/-- a program for `wordGrammar`, and the message of its error after `( x` -/
example : ∃ tb p toks text, LRTableFor wordGrammar .lr1 tb ∧ RustParserFiles nestedRules wordGrammar wordTokens tb p toks text ∧
    rustEnum "TokenType".toList toks = some ["EndOfFile".toList, "TkLp".toList, "TkRp".toList, "TkX".toList] ∧
    (RParseReturn.unexpected "EndOfFile".toList ["TkRp".toList]).error.bind (rustMessage charDebug text) = some "Unexpected token EndOfFile, expected one of: [TkRp]".toList := by
  have h : wordRust = true := by decide +kernel
  unfold wordRust at h
  split at h
  · rename_i tb ht
    split at h
    · rename_i p hp
      obtain ⟨toks, text, hf⟩ := nested_files tb p hp
      obtain ⟨ws, hws, hv⟩ := rust_variants hf
      have hws' : wordTokens.mapM (fun r => tokenEnumName r.name.toList) = .ok ["TkLp".toList, "TkRp".toList, "TkX".toList] := by decide +kernel
      rw [hws'] at hws
      cases hws
      refine ⟨tb, p, toks, text, ⟨false, 60, .inl ht⟩, hf, hv, (C81_parser charDebug hf _).trans ?_⟩
      exact (by decide +kernel : some (unexpectedText "EndOfFile".toList ["TkRp".toList]) = some "Unexpected token EndOfFile, expected one of: [TkRp]".toList)
    · cases h
  · cases h

/-- messages of a GLR parser for `wordGrammar` -/
example : ∃ tb p toks text, LRTableFor wordGrammar .lr1 tb ∧ GlrParserFiles nestedRules wordGrammar wordTokens tb p toks text ∧
    (RGlrEnd.error id (.unexpecteds [("TkX".toList, 7), ("TkX".toList, 7)] [["TkRp".toList, "EndOfFile".toList], []] : RGlrEnd Nat (List Char))).bind (rustMessage charDebug text) =
      some "Multiple diverging parse stacks reached unexpected ends:\nUnexpected token TkX, expected one of: [TkRp, EndOfFile]\nUnexpected token TkX, expected one of: []".toList := by
  have h : wordGlr = true := by decide +kernel
  unfold wordGlr at h
  split at h
  · rename_i tb ht
    split at h
    · rename_i p hp
      obtain ⟨toks, text, hf⟩ := nested_glr tb p hp
      refine ⟨tb, p, toks, text, ⟨true, 60, .inl ht⟩, hf, (C81_glr charDebug hf id _).trans ?_⟩
      exact (by decide +kernel : some ("Multiple diverging parse stacks reached unexpected ends:\n".toList ++
        List.intercalate ['\n'] [unexpectedText "TkX".toList ["TkRp".toList, "EndOfFile".toList], unexpectedText "TkX".toList []]) =
          some "Multiple diverging parse stacks reached unexpected ends:\nUnexpected token TkX, expected one of: [TkRp, EndOfFile]\nUnexpected token TkX, expected one of: []".toList)
    · cases h
  · cases h

/-- the message of a lexer for `z`, which is in no token -/
example : ∃ t text, generateLexer 20 abcRules = .ok (.ok t) ∧ rustLexerFile abcRules t = .ok text ∧
    (RustLexResult.invalidChar 122).error.bind (rustMessage (fun c => ['\'', c, '\'']) text) = some "Lexer got strange codepoint 122, char value is 'Some('z')'".toList := by
  obtain ⟨t, ht⟩ : ∃ t, generateLexer 20 abcRules = .ok (.ok t) := Res.of_tables (by decide +kernel)
  obtain ⟨text, toks, h1, h2⟩ := (C74_written 20 abcRules t ht).1 (by
    intro r hr
    simp only [abcRules, List.mem_cons, List.not_mem_nil, or_false] at hr
    rcases hr with rfl | rfl <;> exact goodName_not_bad (goodName_of (by decide)))
  refine ⟨t, text, ht, h1, (C81_lexer _ abcRules t ?_ text h1 _).trans ?_⟩
  · intro r hr
    simp only [abcRules, List.mem_cons, List.not_mem_nil, or_false] at hr
    rcases hr with rfl | rfl <;> (unfold IsWord; decide)
  · decide +kernel

end Verif
