import Verif.Proofs.Pipeline
import Verif.Proofs.EbnfCond
import Verif.Props.CppLR

/-!
# Property C62: the generated lexer and the generated LR(1) parser together

`rules`, `prods` and `entry` are the token rules, productions and the entry name of a file. The conditions are conditions on these alone (`RuleSet.Fine`,
`NoEmptySeq`, `Useful`).
-/

set_option autoImplicit false

namespace Verif

section
variable {entry : String} {rules : List TokenRule} {prods : List ProdRule} {t : LexerTables} {lexFuel : Nat} {g : Grammar} {p : LRProg}
variable (hlex : generateLexer lexFuel rules = .ok (.ok t)) (hne : ∀ r ∈ rules, r.NoEmptySeq ∧ r.Useful)
variable (hg : Grammar.fromRuleSet (ruleSet entry rules prods) = .ok g) (hf : (ruleSet entry rules prods).Fine) (hp : LRParserFor g .lr1 p)
variable (skip : Nat → Bool) (src : List Char) {input : Nat → Tok × List Char} (hin : FedBy t skip (Lexer.new src) input)
include hlex hne hin

/-- The parser's token stream is: the tokens of the text, those to be left out removed, then the end. There is no such stream if the text has a part that is no token. -/
theorem C62_stream (w : List (Nat × List Char)) : StreamIs input w ↔ ∃ ts, TextTokens rules src ts ∧ w = kept skip ts := by
  constructor
  · intro hs
    exact tokens_of_stream hlex (fun r hr => (hne r hr).1) w (inv_new src) hin hs
  · rintro ⟨ts, h1, rfl⟩
    exact stream_of_tokens hlex hne h1 (inv_new src) rfl hin

include hg hf hp

/-- The parser returns Ok for exactly those texts whose tokens, those to be left out removed, match the entry rule. -/
theorem C62_accepts : (∃ fuel events pos, lrParse p.machine input fuel = .ok events pos) ↔
    ∃ ts, TextTokens rules src ts ∧ Den (ruleSet entry rules prods) (.rule entry) ((kept skip ts).map (·.1)) := by
  have wf := C19_well_formed _ _ hg
  have hner : NoEmptyRhs g := C19_no_empty_right_side _ g hg hf.noEmptySequence
  have hel := C27_epsilon_condition _ g hg hf.noEpsilonInSequence
  have hl := entry_not_left_recursive hg hf
  have hlang := C18_entry_language _ g hg hf.tokens hf.prods
  constructor
  · rintro ⟨fuel, events, pos, h⟩
    obtain ⟨w, h1, h2⟩ := C28_sentence g wf hner .lr1 p hp input fuel events pos h
    have h3 := C29_lr1_end g wf hner hl p hp input fuel events pos h
    have hs : StreamIs input w := ⟨h1.2, by rw [h1.1]; exact h3⟩
    obtain ⟨ts, h4, rfl⟩ := (C62_stream hlex hne skip src hin w).mp hs
    exact ⟨ts, h4, (hlang _).mp h2⟩
  · rintro ⟨ts, h1, h2⟩
    exact (C30_lr1_decides g wf hner hel hl p hp _ input ((C62_stream hlex hne skip src hin _).mpr ⟨ts, h1, rfl⟩)).mpr ((hlang _).mpr h2)

/-- When it does, its callbacks are those of a parse tree whose leaves are the tokens with their texts. -/
theorem C62_callbacks (fuel : Nat) (events : List (LREvent (List Char))) (pos : Nat) (h : lrParse p.machine input fuel = .ok events pos) :
    ∃ ts tree, TextTokens rules src ts ∧ IsParseTree g.rules g.entry tree ∧ tree.tokens = kept skip ts ∧ TraceIs g events tree.postorder := by
  have wf := C19_well_formed _ _ hg
  have hner : NoEmptyRhs g := C19_no_empty_right_side _ g hg hf.noEmptySequence
  have hl := entry_not_left_recursive hg hf
  obtain ⟨tree, h1, h2, h3⟩ := C28_sound g wf hner .lr1 p hp input fuel events pos h
  have h4 := C29_lr1_end g wf hner hl p hp input fuel events pos h
  have hs : StreamIs input tree.tokens := ⟨h2.2, by rw [h2.1]; exact h4⟩
  obtain ⟨ts, h5, h6⟩ := (C62_stream hlex hne skip src hin _).mp hs
  exact ⟨ts, tree, h5, h1, h6, h3⟩

omit hne in
/-- For every text the parser comes to an end, with Ok or with an error. (No token rule may match the empty text, and every production must match something.) -/
theorem C62_total (hε : ∀ r ∈ rules, ¬ r.Matches []) (hprod : ∀ q ∈ prods, ∃ w, Den (ruleSet entry rules prods) (.rule q.name) w) :
    ∃ bound r, (∀ fuel, bound ≤ fuel → lrParse p.machine input fuel = r) ∧
      ((∃ events pos, r = .ok events pos) ∨ ∃ events pos expected, r = .unexpected events pos expected) := by
  have wf := C19_well_formed _ _ hg
  have hner : NoEmptyRhs g := C19_no_empty_right_side _ g hg hf.noEmptySequence
  have hel := C27_epsilon_condition _ g hg hf.noEpsilonInSequence
  have hl := entry_not_left_recursive hg hf
  obtain ⟨L, hL⟩ := fedBy_ends hlex hε hin
  obtain ⟨gr, hv, hsp⟩ := parser_inv wf hner hp
  obtain ⟨n, hn⟩ := lr1_stops wf (productive_of_rules hg hf hprod) hv (prog_follows wf hv.base hsp) (prog_obeys wf hv.base hsp) hel hl hL L
    [.state p.machine.entry] 0 [] (by omega) .start
  have hmono := lrRun_mono n [.state p.machine.entry] 0 [] hn
  refine ⟨n, lrParse p.machine input n, fun fuel hf => hmono fuel hf, ?_⟩
  cases hr : lrParse p.machine input n with
  | running e q => exact absurd hr (hn e q)
  | panic e q => exact absurd hr (C34_no_panic g wf hner .lr1 p hp input n e q)
  | ok e q => exact .inl ⟨e, q, rfl⟩
  | unexpected e q x => exact .inr ⟨e, q, x, rfl⟩

omit hlex hne hin in
/-- An error comes as early as possible and says all: the tokens before it begin some text that matches the entry rule, together with the token it is reported at they
do not, and the tokens named as expected are those that could stand there instead, the end among them if the tokens before match the entry rule. -/
theorem C62_error (hprod : ∀ q ∈ prods, ∃ w, Den (ruleSet entry rules prods) (.rule q.name) w) (fuel : Nat) (events : List (LREvent (List Char))) (pos : Nat)
    (expected : List Sym) (h : lrParse p.machine input fuel = .unexpected events pos expected) :
    ∃ w, Consumes input pos w ∧ (∃ v, Den (ruleSet entry rules prods) (.rule entry) (w.map (·.1) ++ v)) ∧
      (∀ a v, (input pos).1 = .tok a → ¬ Den (ruleSet entry rules prods) (.rule entry) (w.map (·.1) ++ a :: v)) ∧
      ((input pos).1 = .eof → ¬ Den (ruleSet entry rules prods) (.rule entry) (w.map (·.1))) ∧
      ∀ x, x ∈ expected ↔ (∃ a, x = .t a ∧ ∃ v, Den (ruleSet entry rules prods) (.rule entry) (w.map (·.1) ++ a :: v)) ∨
        x = .eof ∧ Den (ruleSet entry rules prods) (.rule entry) (w.map (·.1)) := by
  have wf := C19_well_formed _ _ hg
  have hner : NoEmptyRhs g := C19_no_empty_right_side _ g hg hf.noEmptySequence
  have hel := C27_epsilon_condition _ g hg hf.noEpsilonInSequence
  have hl := entry_not_left_recursive hg hf
  have hlang := C18_entry_language _ g hg hf.tokens hf.prods
  have hpr := productive_of_rules hg hf hprod
  obtain ⟨w, h1, h2⟩ := C59_expected g wf hner hel hl hpr p hp input fuel events pos expected h
  obtain ⟨h3, h4⟩ := lr_error wf hner hp hel hl h
  obtain ⟨w', v, h5, h6⟩ := h4 hpr
  have hw : w' = w := by
    refine List.ext_getElem? fun i => ?_
    by_cases hi : i < pos
    · have a1 := h1.2 i _ (List.getElem?_eq_getElem (by rw [h1.1]; exact hi))
      have a2 := h5.2 i _ (List.getElem?_eq_getElem (by rw [h5.1]; exact hi))
      rw [a1] at a2
      rw [List.getElem?_eq_getElem (by rw [h5.1]; exact hi), List.getElem?_eq_getElem (by rw [h1.1]; exact hi)]
      simp at a2
      exact congrArg some (Prod.ext a2.1.symm a2.2.symm)
    · rw [List.getElem?_eq_none (by rw [h5.1]; omega), List.getElem?_eq_none (by rw [h1.1]; omega)]
  subst hw
  refine ⟨w', h1, ⟨v, (hlang _).mp h6⟩, fun a v ha hd => h3 ⟨w', h1, .inl ⟨a, v, ha, (hlang _).mpr hd⟩⟩,
    fun he hd => h3 ⟨w', h1, .inr ⟨he, (hlang _).mpr hd⟩⟩, fun x => ?_⟩
  rw [h2]
  cases x with
  | t a => simp [CanContinue, hlang, ruleSet]
  | eof => simp [CanContinue, hlang, ruleSet]
  | nt A => simp [CanContinue]
  | eps => simp [CanContinue]

end

/-- There is such a token function, and only one, if no token rule matches the empty text. -/
theorem C62_token_function {rules : List TokenRule} {t : LexerTables} {lexFuel : Nat} (hlex : generateLexer lexFuel rules = .ok (.ok t))
    (hε : ∀ r ∈ rules, ¬ r.Matches []) (skip : Nat → Bool) (src : List Char) :
    ∃ input, FedBy t skip (Lexer.new src) input ∧ ∀ input', FedBy t skip (Lexer.new src) input' → input' = input := by
  obtain ⟨input, h⟩ := fedBy_exists (skip := skip) hlex hε (inv_new src)
  exact ⟨input, h, fun _ h' => h'.unique h⟩

/-- A text has only one token sequence. -/
theorem C62_tokens_unique {rules : List TokenRule} {text : List Char} {ts ts' : List (Nat × List Char)} (h : TextTokens rules text ts) (h' : TextTokens rules text ts') :
    ts = ts' := h.unique h'

/-- The token texts, in order, are the text up to its end or a NUL char. -/
theorem C62_tokens_cover {rules : List TokenRule} {text : List Char} {ts : List (Nat × List Char)} (h : TextTokens rules text ts) :
    ∃ rest, text = (ts.map (·.2)).flatten ++ rest ∧ AtEnd rest := by
  induction h with
  | @done text he => exact ⟨text, rfl, he⟩
  | token _ _ _ _ _ ih =>
    obtain ⟨r, h1, h2⟩ := ih
    exact ⟨r, by rw [h1]; simp, h2⟩

/-- The C++ lexer and the C++ parser, on the UTF-8 bytes of a text, return for exactly the same texts. (The entry rule must match some non-empty token string, see
C61.) -/
theorem C62_cpp_accepts {T : Type} {entry : String} {rules : List TokenRule} {prods : List ProdRule} {t : LexerTables} {lexFuel : Nat} {g : Grammar}
    (hlex : generateLexer lexFuel rules = .ok (.ok t)) (hne : ∀ r ∈ rules, r.NoEmptySeq ∧ r.Useful)
    (hg : Grammar.fromRuleSet (ruleSet entry rules prods) = .ok g) (hf : (ruleSet entry rules prods).Fine) (tb : LRTable) (htb : LRTableFor g .lr1 tb)
    (p : LRProg) (hp : genRust g tb = .ok p) (csrc : CppLRSource) (hsrc : genCpp (tokenNames (ruleSet entry rules prods)) g tb = .ok csrc)
    (c : CppLRProg) (hc : csrc.compile = some c) (hs : ∃ w, w ≠ [] ∧ Den (ruleSet entry rules prods) (.rule entry) w)
    (skip : Nat → Bool) (src : List Char) (budget : Nat) (hb : src.length < budget) (input : Nat → Nat × T)
    (hin : CppFedBy t budget skip (CppLexer.new (utf8 src)) input) :
    (∃ fuel events pos, cppLRParse c input fuel = .returned events pos) ↔
      ∃ ts, TextTokens rules src ts ∧ Den (ruleSet entry rules prods) (.rule entry) ((kept skip ts).map (·.1)) := by
  have wf := C19_well_formed _ _ hg
  have hner : NoEmptyRhs g := C19_no_empty_right_side _ g hg hf.noEmptySequence
  have hl := entry_not_left_recursive hg hf
  have hlang := C18_entry_language _ g hg hf.tokens hf.prods
  have hpf : LRParserFor g .lr1 p := by
    obtain ⟨allow, n, h⟩ := htb
    exact ⟨allow, n, tb, h, hp⟩
  obtain ⟨input', hfed, hcode⟩ := cppFedBy_sim hlex hb hin
  obtain ⟨w0, hw0, hd⟩ := hs
  have hss := C61_start g wf hner .lr1 tb htb hl w0 hw0 ((hlang w0).mpr hd)
  -- the same tokens, with the data of the C++ token function
  let inp : Nat → Tok × T := fun n => ((input' n).1, (input n).2)
  have hcin : codeInput inp = input := by
    funext n
    exact Prod.ext (hcode n).symm rfl
  have hbelow : TokensBelow (ruleSet entry rules prods).tokens.length inp := by
    have := fedBy_below hlex (fun r hr => (hne r hr).1) (inv_new src) hfed
    intro i a ha
    simpa [ruleSet] using this i a ha
  have key := fun fuel => C61_same _ g hg hner hf.tokens .lr1 tb htb p hp csrc hsrc c hc hss inp hbelow fuel
  rw [hcin] at key
  have hel := C27_epsilon_condition _ g hg hf.noEpsilonInSequence
  constructor
  · rintro ⟨fuel, events, pos, h⟩
    rw [key] at h
    cases hr : lrParse p.machine inp fuel with
    | ok es ps =>
      obtain ⟨w, h1, h2⟩ := C28_sentence g wf hner .lr1 p hpf inp fuel es ps hr
      have h3 := C29_lr1_end g wf hner hl p hpf inp fuel es ps hr
      -- the same words from the Rust token function
      have hst : StreamIs input' ((List.range w.length).map fun i => ((w.map (·.1)).getD i 0, (input' i).2)) := by
        refine ⟨fun i x hx => ?_, ?_⟩
        · rw [List.getElem?_map] at hx
          by_cases hi : i < w.length
          · rw [List.getElem?_range hi, Option.map_some, Option.some.injEq] at hx
            have := h1.2 i _ (List.getElem?_eq_getElem hi)
            subst hx
            have := congrArg Prod.fst this
            refine Prod.ext ?_ rfl
            simpa [inp, List.getD_eq_getElem?_getD, hi] using this
          · rw [List.getElem?_eq_none (by simpa using hi)] at hx; cases hx
        · simp only [List.length_map, List.length_range]
          rw [h1.1]
          exact h3
      obtain ⟨ts, h4, h5⟩ := (C62_stream hlex hne skip src hfed _).mp hst
      refine ⟨ts, h4, (hlang _).mp ?_⟩
      rw [← h5]
      convert h2 using 1
      refine List.ext_getElem (by simp) fun i hi1 hi2 => ?_
      simp [List.getD_eq_getElem?_getD] at hi1 hi2 ⊢
      simp [hi2]
    | unexpected es ps e => rw [hr] at h; cases h
    | panic es ps => rw [hr] at h; cases h
    | running es ps => rw [hr] at h; cases h
  · rintro ⟨ts, h1, h2⟩
    have hst := (C62_stream hlex hne skip src hfed _).mpr ⟨ts, h1, rfl⟩
    have hst' : StreamIs inp ((kept skip ts).zipIdx.map fun x => (x.1.1, (input x.2).2)) := by
      refine ⟨fun i x hx => ?_, ?_⟩
      · rw [List.getElem?_map, List.getElem?_zipIdx] at hx
        cases hk : (kept skip ts)[i]? with
        | none => rw [hk] at hx; cases hx
        | some y =>
          rw [hk] at hx
          simp at hx
          subst hx
          have := hst.1 i y hk
          exact Prod.ext (by simpa [inp] using congrArg Prod.fst this) rfl
      · simpa [inp] using hst.2
    have hd' : Derives g.rules [g.entry] (((kept skip ts).zipIdx.map fun x => (x.1.1, (input x.2).2)).map (·.1)) := by
      have he : (((kept skip ts).zipIdx.map fun x => (x.1.1, (input x.2).2)).map (·.1)) = (kept skip ts).map (·.1) :=
        List.ext_getElem (by simp) fun i hi1 hi2 => by simp
      rw [he]
      exact (hlang _).mpr h2
    obtain ⟨fuel, events, pos, h⟩ := (C30_lr1_decides g wf hner hel hl p hpf _ inp hst').mpr hd'
    exact ⟨fuel, _, _, by rw [key, h]; rfl⟩

/-! ## Non-vacuity: `n = /1+/; plus = "+"; ws = " "; sum = n (plus n)*;` on the text `1 +11` -/

/-- the first tokens a token function that leaves out `skip` gets from the lexer -/
def firstTokens (t : LexerTables) (skip : Nat → Bool) : Nat → Lexer → List (Tok × List Char)
  | 0, _ => []
  | n + 1, l =>
    match l.next t with
    | .ok (r, l') =>
      if r.tok = .tok 2 ∧ skip 2 = true then firstTokens t skip n l'
      else match l'.slice with
        | .ok s => (r.tok, s) :: firstTokens t skip n l'
        | _ => []
    | _ => []

theorem firstTokens_fed {t : LexerTables} {skip : Nat → Bool} (hs : ∀ j, j ≠ 2 → skip j = false) : ∀ (n : Nat) {l : Lexer} {input : Nat → Tok × List Char},
    FedBy t skip l input → ∀ (i : Nat) (x : Tok × List Char), (firstTokens t skip n l)[i]? = some x → input i = x := by
  intro n
  induction n with
  | zero => intro l input _ i x h; simp [firstTokens] at h
  | succ n ih =>
    intro l input hf i x h
    unfold firstTokens at h
    split at h
    · rename_i r l' hn
      split at h
      · rename_i hr
        have : r = .token 2 := by cases r <;> simp_all [LexResult.tok]
        subst this
        exact ih (hf.skipOne hn hr.2) i x h
      · rename_i hr
        have hkeep : ∀ j, r = .token j → skip j = false := by
          rintro j rfl
          by_cases hj : j = 2
          · subst hj; simpa [LexResult.tok] using hr
          · exact hs j hj
        obtain ⟨⟨s, h1, h2⟩, h3⟩ := hf.keep hn hkeep
        rw [h1] at h
        dsimp only at h
        cases i with
        | zero => simp at h; rw [h2, h]
        | succ i => exact ih h3 i x (by simpa using h)
    · simp at h

def sumTokens : List TokenRule :=
  [⟨"n", none, .pattern (.repetition 1 none (.char (.single '1')))⟩, ⟨"plus", none, .literal ['+']⟩, ⟨"ws", none, .literal [' ']⟩]

def sumProds : List ProdRule := [⟨"sum", none, .sequence [.rule "n", .zeroOrMany (.sequence [.rule "plus", .rule "n"])]⟩]

def sumGrammar : Grammar where
  rules := [⟨3, [.eps], 0⟩, ⟨3, [.t 1, .t 0, .nt 3], 0⟩, ⟨0, [.t 0, .nt 3], 0⟩]
  anon := [.nt 3]
  productions := [(.nt 0, "sum")]
  tokens := [(.t 0, "n"), (.t 1, "plus"), (.t 2, "ws")]
  entry := .nt 0
  entryOrigin := 0

theorem sumGrammar_built : Grammar.fromRuleSet (ruleSet "sum" sumTokens sumProds) = .ok sumGrammar := GRes.of_same (by decide)

theorem sum_fine : (ruleSet "sum" sumTokens sumProds).Fine where
  tokens := by decide
  prods := by decide
  noEmptySequence := by
    intro p hp
    simp only [ruleSet, sumProds, List.mem_singleton] at hp
    subst hp
    intro h
    cases h with
    | sequence hm h =>
      simp only [List.mem_cons, List.not_mem_nil, or_false] at hm
      rcases hm with rfl | rfl
      · cases h
      · cases h with
        | zeroOrMany h =>
          cases h with
          | sequence hm h =>
            simp only [List.mem_cons, List.not_mem_nil, or_false] at hm
            rcases hm with rfl | rfl <;> cases h
  noEmptyAlternative := by
    intro p hp
    simp only [ruleSet, sumProds, List.mem_singleton] at hp
    subst hp
    intro h
    cases h with
    | sequence hm h =>
      simp only [List.mem_cons, List.not_mem_nil, or_false] at hm
      rcases hm with rfl | rfl
      · cases h
      · cases h with
        | zeroOrMany h =>
          cases h with
          | sequence hm h =>
            simp only [List.mem_cons, List.not_mem_nil, or_false] at hm
            rcases hm with rfl | rfl <;> cases h
  noEpsilonInSequence := by
    intro p hp
    simp only [ruleSet, sumProds, List.mem_singleton] at hp
    subst hp
    intro ps h
    cases h with
    | here => simp
    | sequence hm h =>
      simp only [List.mem_cons, List.not_mem_nil, or_false] at hm
      rcases hm with rfl | rfl
      · cases h
      · cases h with
        | zeroOrMany h =>
          cases h with
          | here => simp
          | sequence hm h =>
            simp only [List.mem_cons, List.not_mem_nil, or_false] at hm
            rcases hm with rfl | rfl <;> cases h
  entry := by
    have key : ∀ a b, NameCorner (ruleSet "sum" sumTokens sumProds) a b → b = "n" := by
      intro a b h
      have one : ∀ p ∈ (ruleSet "sum" sumTokens sumProds).prods, ∀ b, BeginsWith p.pattern b → b = "n" := by
        intro p hp b hb
        simp only [ruleSet, sumProds, List.mem_singleton] at hp
        subst hp
        cases hb with
        | sequence hb => cases hb; rfl
      cases h with
      | one hp hb => exact one _ hp _ hb
      | more _ hp hb => exact one _ hp _ hb
    intro h
    exact absurd (key _ _ h) (by decide)

theorem sumTokens_useful : ∀ r ∈ sumTokens, r.NoEmptySeq ∧ r.Useful := by
  intro r hr
  simp only [sumTokens, List.mem_cons, List.not_mem_nil, or_false] at hr
  rcases hr with rfl | rfl | rfl
  · refine ⟨trivial, ?_, ?_⟩
    · exact ⟨['1'], 1, Nat.le_refl _, by simp, by simp [Lang.pow, Pattern.Matches, Characters.Has]⟩
    · exact ⟨['1'], '1', rfl, rfl⟩
  · exact ⟨by simp [TokenRule.NoEmptySeq], trivial⟩
  · exact ⟨by simp [TokenRule.NoEmptySeq], trivial⟩

theorem sumTokens_nonempty : ∀ r ∈ sumTokens, ¬ r.Matches [] := by
  intro r hr
  simp only [sumTokens, List.mem_cons, List.not_mem_nil, or_false] at hr
  rcases hr with rfl | rfl | rfl
  · rintro ⟨n, h1, _, h2⟩
    cases n with
    | zero => omega
    | succ n => simp [Lang.pow, Pattern.Matches] at h2
  · simp [TokenRule.Matches]
  · simp [TokenRule.Matches]

/-- all hypotheses hold, and the text is accepted -/
example : ∃ t g p input, generateLexer 20 sumTokens = .ok (.ok t) ∧ Grammar.fromRuleSet (ruleSet "sum" sumTokens sumProds) = .ok g ∧ LRParserFor g .lr1 p ∧
    FedBy t (· == 2) (Lexer.new "1 +11".toList) input ∧ (∃ fuel events pos, lrParse p.machine input fuel = .ok events pos) ∧
    ∃ ts, TextTokens sumTokens "1 +11".toList ts ∧ (kept (· == 2) ts) = [(0, ['1']), (1, ['+']), (0, ['1', '1'])] := by
  obtain ⟨t, ht⟩ := Res.of_tables (r := generateLexer 20 sumTokens) (by decide +kernel)
  obtain ⟨p, hp, _⟩ := lrTry_some (g := sumGrammar) (kind := .lr1) (fuel := 40) (w := []) (steps := 0) (r := .running [] 0) (by decide +kernel)
  obtain ⟨input, hin, _⟩ := C62_token_function ht sumTokens_nonempty (· == 2) "1 +11".toList
  have e1 : (generateLexer 20 sumTokens).tables = some t := by rw [ht]; rfl
  have e2 : (generateLexer 20 sumTokens).tables.map (fun t => firstTokens t (· == 2) 5 (Lexer.new "1 +11".toList)) =
      some [(.tok 0, ['1']), (.tok 1, ['+']), (.tok 0, ['1', '1']), (.eof, [])] := by decide +kernel
  rw [e1, Option.map_some, Option.some.injEq] at e2
  have hst : StreamIs input [(0, ['1']), (1, ['+']), (0, ['1', '1'])] := by
    have key := firstTokens_fed (t := t) (skip := (· == 2)) (by simp) 5 hin
    rw [e2] at key
    refine ⟨fun i x hx => ?_, by rw [show [(0, ['1']), (1, ['+']), (0, ['1', '1'])].length = 3 from rfl, key 3 _ rfl]⟩
    match i, hx with
    | 0, hx => cases hx; exact key 0 _ rfl
    | 1, hx => cases hx; exact key 1 _ rfl
    | 2, hx => cases hx; exact key 2 _ rfl
  obtain ⟨ts, h1, h2⟩ := (C62_stream ht sumTokens_useful (· == 2) _ hin _).mp hst
  refine ⟨t, sumGrammar, p, input, ht, sumGrammar_built, hp, hin, ?_, ts, h1, h2.symm⟩
  refine (C62_accepts ht sumTokens_useful sumGrammar_built sum_fine hp (· == 2) _ hin).mpr ⟨ts, h1, ?_⟩
  rw [← h2]
  refine .prod (r := sumProds[0]) (by simp [ruleSet, sumProds]) ?_
  refine .seqCons (u := [0]) (v := [1, 0]) (.token rfl) ?_
  refine .seqCons (u := [1, 0]) (v := []) ?_ .seqNil
  refine .starMore (u := [1, 0]) (v := []) ?_ .starNil
  exact .seqCons (u := [1]) (v := [0]) (.token rfl) (.seqCons (u := [0]) (v := []) (.token rfl) .seqNil)

-- every production matches something
example : ∀ q ∈ sumProds, ∃ w, Den (ruleSet "sum" sumTokens sumProds) (.rule q.name) w := by
  intro q hq
  simp only [sumProds, List.mem_singleton] at hq
  subst hq
  refine ⟨[0], .prod (r := sumProds[0]) (by simp [ruleSet, sumProds]) ?_⟩
  exact .seqCons (u := [0]) (v := []) (.token rfl) (.seqCons (u := []) (v := []) .starNil .seqNil)

end Verif
