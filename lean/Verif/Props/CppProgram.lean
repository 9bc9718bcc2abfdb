import Verif.Proofs.CppProgram
import Verif.Props.CppLRText
import Verif.Props.PipelineKinds
import Verif.Props.RustProgram

/-!
# C79: a program made of the generated C++ files

`tokens.h`, `tokens.cpp`, `lexer.cpp`, `parser.cpp` and `parser_impl.h` are read as C++ and run together on the UTF-8 bytes of a text. `rules`, `prods` and `entry` are the token rules, the
productions and the entry name in the grammar file. The tokens and trees are described from them alone (`TextTokens`, `Den`).
-/

set_option autoImplicit false

namespace Verif

/-- the files lapex writes for C++ from the rules in a grammar file, with a table of the given kind. `debug` is the text of the comments in `lexer.cpp`. -/
structure CppProgramFiles (entry : String) (rules : List TokenRule) (prods : List ProdRule) (g : Grammar) (kind : LRKind) (lexer : List Char) (files : CppFiles) : Prop where
  lexer_ : ∃ fuel t debug, generateLexer fuel rules = .ok (.ok t) ∧ (∀ r : Nat, '\n' ∉ debug r ∧ (debug r).getLast? ≠ some '\\') ∧ lexer = (cppLexerFile rules debug t).1
  grammar : Grammar.fromRuleSet (ruleSet entry rules prods) = .ok g
  words : (ruleSet entry rules prods).WordNames
  parser : ∃ allow fuel tb src calls, generateTable g allow kind fuel = .ok (.noConflicts tb) ∧ genCpp (tokenNames (ruleSet entry rules prods)) g tb = .ok src ∧ src.compile.isSome ∧
    cppReduceSwitch g = .ok calls ∧ files = cppLRFiles (tokenNames (ruleSet entry rules prods)) src calls

section
variable {entry : String} {rules : List TokenRule} {prods : List ProdRule} {g : Grammar} {kind : LRKind} {lexer : List Char} {files : CppFiles}
variable (hf : CppProgramFiles entry rules prods g kind lexer files) (hne : ∀ r ∈ rules, r.NoEmptySeq ∧ r.Useful) (hfine : (ruleSet entry rules prods).Fine)
variable (skip : List Char → Bool) (hskip : skip "TK_EOF".toList = false ∧ skip "TK_ERR".toList = false) (src : List Char)

include hf in
theorem cpp_lexer_reads : ∃ lexFuel t body, generateLexer lexFuel rules = .ok (.ok t) ∧ readFunction (phrase "TokenType Lexer::next() {") lexer = some body ∧
    ∀ n l, runNext body n l = (CppLexer.next t n l).map (fun x => (cppTokenName (ruleName rules) x.1, x.2)) := by
  obtain ⟨fuel, t, debug, h1, h2, h0⟩ := hf.lexer_
  obtain ⟨_, body, h3, h4⟩ := C72_lexer_text fuel rules t h1 debug (fun r hr => hf.words.1 r.name (List.mem_map.mpr ⟨r, hr, rfl⟩)) h2
  rw [← h0] at h3
  exact ⟨fuel, t, body, h1, h3, h4⟩

theorem ruleSet_tokenNames : tokenNames (ruleSet entry rules prods) = rules.map (·.name.toList) := by
  simp [tokenNames, ruleSet]

theorem cppLRFiles_tokensH (names : List (List Char)) (src : CppLRSource) (calls : List (Nat × List Char)) : (cppLRFiles names src calls).tokensH = (cppTokensHeaderFile names).1 := by
  simp only [cppLRFiles]

include hf in
theorem cpp_tokens_read : (cppTokenVariants (rules.map (·.name.toList))).Nodup ∧
    readEnum (phrase "enum class TokenType : uint32_t {") files.tokensH = some (cppTokenVariants (rules.map (·.name.toList))).zipIdx := by
  obtain ⟨allow, fuel, tb, src, calls, _, h1, h2, _, h0⟩ := hf.parser
  obtain ⟨c, hc⟩ := Option.isSome_iff_exists.mp h2
  have hw : ∀ n ∈ rules.map (·.name.toList), IsWord n := by
    intro n hn
    obtain ⟨r, hr, rfl⟩ := List.mem_map.mp hn
    exact hf.words.1 r.name (List.mem_map.mpr ⟨r, hr, rfl⟩)
  have cp := (compiled hc).nodup.1
  have et : src.tokens = rules.map (·.name.toList) := by
    rw [← ruleSet_tokenNames (entry := entry) (prods := prods)]
    unfold genCpp at h1
    obtain ⟨_, _, h1⟩ := res_bind_ok.mp h1
    obtain ⟨_, _, h1⟩ := res_bind_ok.mp h1
    obtain ⟨_, _, h1⟩ := res_bind_ok.mp h1
    obtain ⟨_, _, h1⟩ := res_bind_ok.mp h1
    cases h1
    rfl
  rw [et] at cp
  refine ⟨cp, ?_⟩
  have e := tokens_enum _ hw cp
  rw [h0, cppLRFiles_tokensH, ruleSet_tokenNames, e]

variable {inp : Nat → Nat × (Nat × Nat)} (hin : CppTextFed lexer files.tokensH skip (utf8 src) inp)

include hf hne hskip hin in
/-- the token function around the text, in terms of the modelled Rust lexer -/
theorem cpp_fed : ∃ lexFuel t input, generateLexer lexFuel rules = .ok (.ok t) ∧ FedBy t (cppSkipped rules skip) (Lexer.new src) input ∧
    ∀ k, (inp k).1 = tokenCode (input k).1 ∧ ∀ a, (input k).1 = .tok a → (input k).2 = between src (inp k).2 := by
  obtain ⟨lexFuel, t, body, h1, h2, h3⟩ := cpp_lexer_reads hf
  obtain ⟨h4, h5⟩ := cpp_tokens_read hf
  obtain ⟨body', tokens, k1, k2, st, k3⟩ := hin
  rw [h2] at k1
  cases k1
  rw [h5] at k2
  cases k2
  obtain ⟨input, h6, h7⟩ := cppTextFed_fed h1 h3 hskip (fun r hr => (hne r hr).1) rfl h4 (inp := inp) (cst := st) k3
  exact ⟨lexFuel, t, input, h1, h6, h7⟩

variable (hk : kind.hasLa = true) (hent : (ruleSet entry rules prods).EntryUnused ∨ kind = .lr1) (hs : ∃ w, w ≠ [] ∧ Den (ruleSet entry rules prods) (.rule entry) w)

include hf hfine hk hs in
/-- the parser in the files does what the Rust parser does -/
theorem cpp_parser_runs : ∃ p calls, LRParserFor g kind p ∧ cppReduceSwitch g = .ok calls ∧ ∀ {T : Type} (input : Nat → Tok × T), TokensBelow rules.length input → ∀ n,
    runCppParser files (codeInput input) n = some (textResult calls (codeResult (rules.map (·.name.toList)) input (lrParse p.machine input n))) := by
  obtain ⟨allow, fuel, tb, csrc, calls, h1, h2, h3, h4, h0⟩ := hf.parser
  have wf := C19_well_formed _ _ hf.grammar
  have hner : NoEmptyRhs g := C19_no_empty_right_side _ g hf.grammar hfine.noEmptySequence
  have hl := entry_not_left_recursive hf.grammar hfine
  have hlang := C18_entry_language _ g hf.grammar hfine.tokens hfine.prods
  obtain ⟨p, hp⟩ := C33_codegen g wf hner allow kind hk fuel tb h1
  have htb : LRTableFor g kind tb := ⟨allow, fuel, .inl h1⟩
  obtain ⟨w0, hw0, hd⟩ := hs
  have hss := C61_start g wf hner kind tb htb hl w0 hw0 ((hlang w0).mpr hd)
  refine ⟨p, calls, ⟨allow, fuel, tb, .inl h1, hp⟩, h4, ?_⟩
  intro T input hin n
  have key := C73_same (T := T) _ g hf.grammar hner hfine.tokens hfine.prods hf.words kind tb htb p hp csrc h2 h3 calls h4 hss input (by
    intro i a ha
    simpa [ruleSet] using hin i a ha) n
  rw [h0, key, ruleSet_tokenNames]

include hf hne hfine hskip hin hk hs in
/-- everything put together -/
theorem cpp_program : ∃ (lexFuel : Nat) (t : LexerTables) (input : Nat → Tok × List Char) (inp' : Nat → Tok × (Nat × Nat)) (p : LRProg) (calls : List (Nat × List Char)), generateLexer lexFuel rules = .ok (.ok t) ∧ FedBy t (cppSkipped rules skip) (Lexer.new src) input ∧
    LRParserFor g kind p ∧ cppReduceSwitch g = .ok calls ∧ (∀ k, (inp' k).1 = (input k).1 ∧ (inp' k).2 = (inp k).2 ∧ ∀ a, (input k).1 = .tok a → (input k).2 = between src (inp k).2) ∧ inp = codeInput inp' ∧
    ∀ n, runCppParser files inp n = some (textResult calls (codeResult (rules.map (·.name.toList)) inp' (lrParse p.machine inp' n))) := by
  obtain ⟨lexFuel, t, input, h1, h2, h3⟩ := cpp_fed hf hne skip hskip src hin
  obtain ⟨p, calls, h4, h5, h6⟩ := cpp_parser_runs hf hfine hk hs
  have hbelow := fedBy_below h1 (fun r hr => (hne r hr).1) (inv_new src) h2
  have e : inp = codeInput (fun k => ((input k).1, (inp k).2)) := by
    funext k
    exact Prod.ext (h3 k).1 rfl
  refine ⟨lexFuel, t, input, fun k => ((input k).1, (inp k).2), p, calls, h1, h2, h4, h5, fun k => ⟨rfl, rfl, (h3 k).2⟩, e, ?_⟩
  intro n
  have := h6 (fun k => ((input k).1, (inp k).2)) (fun i a ha => hbelow i a ha) n
  rw [← e] at this
  exact this

include hf hne hfine hskip hin hk hent hs

/-- The program returns for exactly those texts whose tokens, those to be left out removed, match the entry rule. -/
theorem C79_accepts : (∃ n events pos, runCppParser files inp n = some (.returned events pos)) ↔
    ∃ ts, TextTokens rules src ts ∧ Den (ruleSet entry rules prods) (.rule entry) ((kept (cppSkipped rules skip) ts).map (·.1)) := by
  obtain ⟨lexFuel, t, input, inp', p, calls, h1, h2, h3, h4, h5, h6, h7⟩ := cpp_program hf hne hfine skip hskip src hin hk hs
  have key : (∃ fuel events pos, lrParse p.machine input fuel = .ok events pos) ↔
      ∃ ts, TextTokens rules src ts ∧ Den (ruleSet entry rules prods) (.rule entry) ((kept (cppSkipped rules skip) ts).map (·.1)) := by
    rcases hent with h | rfl
    · exact C62_lalr_accepts h1 hne hf.grammar hfine h3 (cppSkipped rules skip) src h2 hk h
    · exact C62_accepts h1 hne hf.grammar hfine h3 (cppSkipped rules skip) src h2
  rw [← key]
  have data := fun n => lrParse_data (m := p.machine) (fun i => (h5 i).1) n
  constructor
  · rintro ⟨n, events, pos, h⟩
    rw [h7] at h
    have d := data n
    cases hr : lrParse p.machine inp' n with
    | ok es ps =>
      rw [hr] at d
      cases hr2 : lrParse p.machine input n with
      | ok es2 ps2 => exact ⟨n, es2, ps2, hr2⟩
      | _ => rw [hr2] at d; cases d
    | _ => rw [hr] at h; cases h
  · rintro ⟨n, events, pos, h⟩
    have d := data n
    rw [h] at d
    cases hr : lrParse p.machine inp' n with
    | ok es ps => exact ⟨n, _, _, by rw [h7, hr]; rfl⟩
    | _ => rw [hr] at d; cases d

/-- When it returns, it has called the visitor for a parse tree of these tokens: `shift` with number, start and end of each token, and the methods that belong to the rules, bottom up and from left
to right. -/
theorem C79_calls (n : Nat) (events : List (TextEvent (Nat × Nat))) (pos : Nat) (h : runCppParser files inp n = some (.returned events pos)) :
    ∃ ts tree trace, TextTokens rules src ts ∧ IsParseTree g.rules g.entry tree ∧ tree.tokens.map (fun x => (x.1, between src x.2)) = kept (cppSkipped rules skip) ts ∧
      TraceIs g trace tree.postorder ∧ List.Forall₂ (CppCallFor g) trace events ∧ pos = tree.tokens.length := by
  obtain ⟨lexFuel, t, input, inp', p, calls, h1, h2, h3, h4, h5, h6, h7⟩ := cpp_program hf hne hfine skip hskip src hin hk hs
  rw [h7] at h
  have wf := C19_well_formed _ _ hf.grammar
  have hner : NoEmptyRhs g := C19_no_empty_right_side _ g hf.grammar hfine.noEmptySequence
  cases hr : lrParse p.machine inp' n with
  | ok es ps =>
    rw [hr] at h
    cases h
    obtain ⟨tree, k1, k2, k3⟩ := C28_sound g wf hner kind p h3 inp' n es pos hr
    have k4 : (inp' pos).1 = .eof := by
      rcases hent with h | rfl
      · exact lr_eof wf hner h3 hk (entryFresh_of_rules hf.grammar hfine.prods h) hr
      · exact C29_lr1_end g wf hner (entry_not_left_recursive hf.grammar hfine) p h3 inp' n es pos hr
    have hst : StreamIs input (tree.tokens.map (fun x => (x.1, between src x.2))) := by
      refine ⟨fun i x hx => ?_, ?_⟩
      · rw [List.getElem?_map] at hx
        cases hi : tree.tokens[i]? with
        | none => rw [hi] at hx; cases hx
        | some y =>
          rw [hi, Option.map_some, Option.some.injEq] at hx
          subst hx
          have e := k2.2 i y hi
          have e1 : (input i).1 = .tok y.1 := by rw [← (h5 i).1, e]
          have e2 : (inp i).2 = y.2 := by rw [← (h5 i).2.1, e]
          exact Prod.ext e1 (by rw [(h5 i).2.2 _ e1, e2])
      · rw [List.length_map, k2.1, ← (h5 pos).1]
        exact k4
    obtain ⟨ts, k5, k6⟩ := (C62_stream h1 hne _ src h2 _).mp hst
    refine ⟨ts, tree, es, k5, k1, k6, k3, ?_, k2.1.symm⟩
    have hlt : ∀ e ∈ es, ∀ i, e = .reduce i → i < g.rules.length := by
      intro e he i hi
      have hm : e.meaning g ∈ es.map (·.meaning g) := List.mem_map.mpr ⟨e, he, rfl⟩
      rw [k3] at hm
      obtain ⟨x, _, hx⟩ := List.mem_map.mp hm
      rw [hi] at hx
      cases hgi : g.rules[i]? with
      | none => rw [LREvent.meaning, hgi] at hx; cases hx
      | some r => exact (List.getElem?_eq_some_iff.mp hgi).1
    clear hr k3
    induction es with
    | nil => exact .nil
    | cons e es ih =>
      refine .cons ?_ (ih (fun e he => hlt e (List.mem_cons_of_mem _ he)))
      cases e with
      | shift tk d => exact .shift
      | reduce i =>
        have hi := hlt _ (List.mem_cons_self ..) i rfl
        exact .call ((C73_calls (T := Nat × Nat) g calls h4 i _).mp ⟨rfl, hi⟩)
  | _ => rw [hr] at h; cases h

omit hent in
/-- For every text the program comes to an end: it returns or throws an exception. -/
theorem C79_total (hε : ∀ r ∈ rules, ¬ r.Matches []) (hprod : ∀ q ∈ prods, ∃ w, Den (ruleSet entry rules prods) (.rule q.name) w) :
    ∃ bound r, (∀ n, bound ≤ n → runCppParser files inp n = some r) ∧ ((∃ events pos, r = .returned events pos) ∨ ∃ events pos message, r = .thrown events pos message) := by
  obtain ⟨lexFuel, t, input, inp', p, calls, h1, h2, h3, h4, h5, h6, h7⟩ := cpp_program hf hne hfine skip hskip src hin hk hs
  obtain ⟨bound, r, k1, k2⟩ := C62_kinds_total h1 hf.grammar hfine h3 (cppSkipped rules skip) src h2 hε hprod
  have d := lrParse_data (m := p.machine) (fun i => (h5 i).1) bound
  rw [k1 bound (Nat.le_refl _)] at d
  have hnr : ∀ e q, lrParse p.machine inp' bound ≠ .running e q := by
    intro e q h
    rw [h] at d
    rcases k2 with ⟨_, _, rfl⟩ | ⟨_, _, _, rfl⟩ <;> cases d
  have mono := lrRun_mono bound _ _ _ hnr
  refine ⟨bound, textResult calls (codeResult (rules.map (·.name.toList)) inp' (lrParse p.machine inp' bound)), fun n hn => ?_, ?_⟩
  · rw [h7, show lrParse p.machine inp' n = lrParse p.machine inp' bound from mono n hn]
  · cases hr : lrParse p.machine inp' bound with
    | ok es ps => exact .inl ⟨_, _, rfl⟩
    | unexpected es ps e => exact .inr ⟨_, _, _, rfl⟩
    | panic es ps => rw [hr] at d; rcases k2 with ⟨_, _, rfl⟩ | ⟨_, _, _, rfl⟩ <;> cases d
    | running es ps => exact absurd hr (hnr es ps)

omit hk hent in
/-- LR(1): an exception comes as early as possible and says all: the tokens before it begin some text that matches the entry rule, together with the token it is thrown at they do not, and the
message names this token and those that could stand there instead. -/
theorem C79_error (hk : kind = .lr1) (hprod : ∀ q ∈ prods, ∃ w, Den (ruleSet entry rules prods) (.rule q.name) w) (n : Nat) (events : List (TextEvent (Nat × Nat))) (pos : Nat)
    (message : List Char) (h : runCppParser files inp n = some (.thrown events pos message)) :
    ∃ (w : List (Nat × (Nat × Nat))) (got : Tok) (expected : List Sym), w.length = pos ∧ (∀ i x, w[i]? = some x → inp i = (x.1 + 2, x.2)) ∧ (inp pos).1 = tokenCode got ∧
      message = unexpectedMessage (rules.map (·.name.toList)) got expected ∧
      (∃ v, Den (ruleSet entry rules prods) (.rule entry) (w.map (·.1) ++ v)) ∧
      (∀ a v, got = .tok a → ¬ Den (ruleSet entry rules prods) (.rule entry) (w.map (·.1) ++ a :: v)) ∧
      (got = .eof → ¬ Den (ruleSet entry rules prods) (.rule entry) (w.map (·.1))) ∧
      ∀ x, x ∈ expected ↔ (∃ a, x = .t a ∧ ∃ v, Den (ruleSet entry rules prods) (.rule entry) (w.map (·.1) ++ a :: v)) ∨
        x = .eof ∧ Den (ruleSet entry rules prods) (.rule entry) (w.map (·.1)) := by
  subst hk
  obtain ⟨lexFuel, t, input, inp', p, calls, h1, h2, h3, h4, h5, h6, h7⟩ := cpp_program hf hne hfine skip hskip src hin rfl hs
  rw [h7] at h
  cases hr : lrParse p.machine inp' n with
  | unexpected es ps e =>
    rw [hr] at h
    cases h
    have d := lrParse_data (m := p.machine) (fun i => (h5 i).1) n
    rw [hr] at d
    cases hr2 : lrParse p.machine input n with
    | unexpected es2 ps2 e2 =>
      rw [hr2] at d
      obtain ⟨rfl, rfl⟩ : pos = ps2 ∧ e = e2 := by
        simp only [LRResult.mapData, LRResult.unexpected.injEq] at d
        exact d.2
      obtain ⟨w, k1, k2, k3, k4, k5⟩ := C62_error hf.grammar hfine h3 hprod n es2 pos e hr2
      let w' : List (Nat × (Nat × Nat)) := w.zipIdx.map fun x => (x.1.1, (inp x.2).2)
      have ew : w'.map (·.1) = w.map (·.1) := List.ext_getElem (by simp [w']) fun i hi1 hi2 => by simp [w']
      refine ⟨w', (inp' pos).1, e, by simp [w', k1.1], ?_, by rw [h6]; rfl, rfl, by rw [ew]; exact k2, ?_, ?_, by rw [ew]; exact k5⟩
      · intro i x hx
        simp only [w', List.getElem?_map, List.getElem?_zipIdx] at hx
        cases hi : w[i]? with
        | none => rw [hi] at hx; cases hx
        | some y =>
          rw [hi] at hx
          simp at hx
          subst hx
          refine Prod.ext ?_ rfl
          rw [h6]
          show tokenCode (inp' i).1 = _
          rw [(h5 i).1, k1.2 i y hi]
          rfl
      · rw [ew, (h5 pos).1]; exact fun a v => k3 a v
      · rw [ew, (h5 pos).1]; exact k4
    | _ => rw [hr2] at d; cases d
  | _ => rw [hr] at h; cases h

omit hfine hin hk hent hs in
/-- There is such a token function, and only one, if no token rule matches the empty text. -/
theorem C79_token_function (hε : ∀ r ∈ rules, ¬ r.Matches []) :
    ∃ inp, CppTextFed lexer files.tokensH skip (utf8 src) inp ∧ ∀ inp', CppTextFed lexer files.tokensH skip (utf8 src) inp' → inp' = inp := by
  obtain ⟨lexFuel, t, body, h1, h2, h3⟩ := cpp_lexer_reads hf
  obtain ⟨h4, h5⟩ := cpp_tokens_read hf
  obtain ⟨input, hfed, _⟩ := C62_token_function h1 hε (cppSkipped rules skip) src
  obtain ⟨inp, st, hin⟩ := cppTextFed_of h1 h3 hskip (fun r hr => (hne r hr).1) rfl h4 hfed
  refine ⟨inp, ⟨body, _, h2, h5, st, hin⟩, ?_⟩
  rintro inp' ⟨body', tokens, k1, k2, st', k3⟩
  rw [h2] at k1
  cases k1
  rw [h5] at k2
  cases k2
  exact cppTextFed_unique h1 h3 hskip h4 k3 hin

end

/-! ## Files written by `generate` -/

/-- When `generate` returns Ok for C++ and an LR algorithm, with a lexer, the files it has written are those C79 is about, for the rules of the file, if the names are words and the source compiles
(see C61_compiles). -/
theorem C79_generated (parse : List Char → Res SpannedRules) (fuel : Nat) (genTable : Bool) (path : List Char) (contents : Option (List Char)) (ws : List Written)
    (alg : Algorithm) (kind : LRKind) (hk : alg.kind = some kind) (h : generate parse fuel true alg genTable .cpp path contents = (ws, .ok)) :
    ∃ text rules g t src calls, contents = some text ∧ parse text = .ok rules ∧ Written.lexer t ∈ ws ∧ Written.cppParser src ∈ ws ∧ cppReduceSwitch g = .ok calls ∧
      ∀ debug : Nat → List Char, (∀ r, '\n' ∉ debug r ∧ (debug r).getLast? ≠ some '\\') → rules.ruleSet.WordNames → src.compile.isSome →
        CppProgramFiles rules.entry.inner (rules.tokens.map (·.inner)) (rules.prods.map (·.inner)) g kind (cppLexerFile (rules.tokens.map (·.inner)) debug t).1
          (cppLRFiles (tokenNames rules.ruleSet) src calls) := by
  obtain ⟨text, rules, g, vs, lexer, table, parser, tb, h1, h2, h3, h4, h5, h6, _, _⟩ := C65_ok _ _ _ _ _ _ _ _ _ h
  rw [if_pos rfl] at h6
  obtain ⟨t, n, rfl, h6⟩ := h6
  obtain ⟨calls, hc, _⟩ := cpp_switch g
  generalize hl : Language.cpp = lang at h5
  cases h5 with
  | rust => cases hl
  | cpp hk' hg hp =>
    rename_i n' tb' csrc _
    rw [hk] at hk'
    cases hk'
    refine ⟨text, rules, g, t, csrc, calls, h1, h2, by rw [h4]; simp, by rw [h4]; simp, hc, ?_⟩
    intro debug hd hw hcomp
    have e := ruleSet_spanned rules
    have en : rules.tokens.map (·.inner.name.toList) = tokenNames rules.ruleSet := by simp [tokenNames, SpannedRules.ruleSet]
    rw [en] at hp
    exact ⟨⟨n, t, debug, h6, hd, rfl⟩, by rw [← e]; exact h3, by rw [← e]; exact hw, ⟨false, _, _, _, calls, hg, by rw [← e]; exact hp, hcomp, hc, by rw [← e]⟩⟩
  | glr => cases hk
  | ll => cases hk

/-! ## Cases -/

/-- the grammar of sums gives C++ source that compiles -/
def sumCpp : Bool :=
  match generateTable sumGrammar false .lr1 60 with
  | .ok (.noConflicts tb) =>
    match genCpp (tokenNames (ruleSet "sum" sumTokens sumProds)) sumGrammar tb with
    | .ok src => src.compile.isSome
    | _ => false
  | _ => false

theorem sumDen : Den (ruleSet "sum" sumTokens sumProds) (.rule "sum") [0, 1, 0] := by
  refine .prod (r := sumProds[0]) (by simp [ruleSet, sumProds]) ?_
  refine .seqCons (u := [0]) (v := [1, 0]) (.token rfl) ?_
  refine .seqCons (u := [1, 0]) (v := []) ?_ .seqNil
  refine .starMore (u := [1, 0]) (v := []) ?_ .starNil
  exact .seqCons (u := [1]) (v := [0]) (.token rfl) (.seqCons (u := [0]) (v := []) (.token rfl) .seqNil)

theorem sum_cppSkipped : cppSkipped sumTokens (· == "TK_ws".toList) = (· == 2) := by
  funext j
  match j with
  | 0 => decide
  | 1 => decide
  | 2 => decide
  | j + 3 =>
    rw [show ((j + 3 == 2) = false) by simp]
    rfl

/-- all conditions hold for the grammar of sums, and the program returns for a text -/
example : ∃ lexer files inp, CppProgramFiles "sum" sumTokens sumProds sumGrammar .lr1 lexer files ∧ CppTextFed lexer files.tokensH (· == "TK_ws".toList) (utf8 "1 +11".toList) inp ∧
    ∃ n events pos, runCppParser files inp n = some (.returned events pos) := by
  obtain ⟨t, ht⟩ := Res.of_tables (r := generateLexer 20 sumTokens) (by decide +kernel)
  have h : sumCpp = true := by decide +kernel
  unfold sumCpp at h
  split at h
  · rename_i tb htb
    split at h
    · rename_i csrc hsrc
      obtain ⟨calls, hc, _⟩ := cpp_switch sumGrammar
      have hf : CppProgramFiles "sum" sumTokens sumProds sumGrammar .lr1 (cppLexerFile sumTokens (fun _ => "x".toList) t).1 (cppLRFiles (tokenNames (ruleSet "sum" sumTokens sumProds)) csrc calls) :=
        ⟨⟨20, t, _, ht, fun r => by decide, rfl⟩, sumGrammar_built, ⟨fun n hn => (sum_names hn).2, fun x hx => by rw [sum_prods hx]; unfold IsWord; decide⟩, ⟨false, 60, tb, csrc, calls, htb, hsrc, h, hc, rfl⟩⟩
      obtain ⟨inp, hin, _⟩ := C79_token_function hf sumTokens_useful (· == "TK_ws".toList) (by decide) "1 +11".toList sumTokens_nonempty
      refine ⟨_, _, inp, hf, hin, ?_⟩
      refine (C79_accepts hf sumTokens_useful sum_fine (· == "TK_ws".toList) (by decide) "1 +11".toList hin rfl (.inr rfl) ⟨_, by simp, sumDen⟩).mpr ?_
      obtain ⟨ts, h1, h2⟩ := sum_text "1 +11".toList [(0, ['1']), (1, ['+']), (0, ['1', '1'])] 5 (by decide +kernel)
      refine ⟨ts, h1, ?_⟩
      rw [sum_cppSkipped, h2]
      exact sumDen
    · cases h
  · cases h

end Verif
