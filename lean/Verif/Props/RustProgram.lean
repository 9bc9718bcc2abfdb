import Verif.Proofs.RustProgram
import Verif.Props.RustGlrRun
import Verif.Props.Generate
import Verif.Props.PipelineKinds

/-!
# C78: a program made of the generated Rust files

`tokens.rs`, `lexer.rs` and `parser.rs` are read as Rust and run together. `rules`, `prods` and `entry` are the token rules, the productions and the entry name in the grammar file. The tokens and
trees are described from them alone (`TextTokens`, `Den`); see C62 for the same claims about the modelled programs.
-/

set_option autoImplicit false

namespace Verif

section
variable {entry : String} {rules : List TokenRule} {prods : List ProdRule} {t : LexerTables} {lexFuel : Nat} {g : Grammar} {tb : LRTable} {toks lexer parser : List Char}
variable (hlex : generateLexer lexFuel rules = .ok (.ok t)) (hlexer : rustLexerFile rules t = .ok lexer)
variable (skip : List Char → Bool) (heof : skip "EndOfFile".toList = false) (src : List Char)

/-! ## LR(1) and LALR -/

section
variable {p : LRProg} (hf : RustParserFiles (ruleSet entry rules prods) g rules tb p toks parser) {inp : Nat → List Char × List Char} (hin : TextFed lrToken lexer skip src inp)

include hf hlexer heof hin in
/-- the token function around the text, in terms of the modelled lexer -/
theorem lr_fed : ∃ variants input, rustEnum "TokenType".toList toks = some variants ∧ variants.length = rules.length + 1 ∧ FedBy t (skipped variants skip) (Lexer.new src) input ∧
    inp = (fun i => (tokVariant variants (input i).1, (input i).2)) ∧
    ∀ n, runRustParser parser inp n = rustOutcome variants (ruleVisits (ruleSet entry rules prods) g) input (lrParse p.machine input n) := by
  have hw : ∀ r ∈ rules, IsWord r.name.toList := fun r hr => hf.words.1 r.name (by rw [hf.tokens]; exact List.mem_map.mpr ⟨r, hr, rfl⟩)
  obtain ⟨ws, hws, hv⟩ := rust_variants hf
  obtain ⟨variants, h1, h2, h3, h4, h5⟩ := C74_lexer_text rules t hw lexer toks hlexer hf.tokensFile
  obtain ⟨variants', k1, _, k2⟩ := C75_parser_text (T := List Char) hf
  rw [h1] at k1 hv
  cases k1
  cases hv
  obtain ⟨input, f1, rs, f2⟩ := textFed_fed h3 (skip := skip) (by exact heof) h4 (fun l => (h5 l).2) hin
  refine ⟨_, input, h1, h2, f1, ?_, ?_⟩
  · funext i
    obtain ⟨e1, e2⟩ := f2 i
    rw [e2, e1]
    cases rs i <;> rfl
  · intro n
    rw [← k2]
    congr 1
    funext i
    obtain ⟨e1, e2⟩ := f2 i
    rw [e2, e1]
    cases rs i <;> rfl

variable (hne : ∀ r ∈ rules, r.NoEmptySeq ∧ r.Useful) (hfine : (ruleSet entry rules prods).Fine)
variable (kind : LRKind) (hk : kind.hasLa = true) (hent : (ruleSet entry rules prods).EntryUnused ∨ kind = .lr1) (htb : LRTableFor g kind tb)

include hf htb in
theorem lr_parserFor : LRParserFor g kind p := by
  obtain ⟨allow, n, h⟩ := htb
  exact ⟨allow, n, tb, h, hf.program⟩

include hlex hlexer heof hf hin hne hfine hk hent htb

/-- C78. The program returns `Ok` for exactly those texts whose tokens, those to be left out removed, match the entry rule. (With an LALR table the entry rule must not be used in a production.) -/
theorem C78_accepts : ∃ variants, rustEnum "TokenType".toList toks = some variants ∧
    ((∃ n visits calls, runRustParser parser inp n = .ok (.ok, visits, calls)) ↔
      ∃ ts, TextTokens rules src ts ∧ Den (ruleSet entry rules prods) (.rule entry) ((kept (skipped variants skip) ts).map (·.1))) := by
  obtain ⟨variants, input, h1, _, h2, _, h3⟩ := lr_fed hlexer skip heof src hf hin
  refine ⟨variants, h1, ?_⟩
  have key : (∃ fuel events pos, lrParse p.machine input fuel = .ok events pos) ↔
      ∃ ts, TextTokens rules src ts ∧ Den (ruleSet entry rules prods) (.rule entry) ((kept (skipped variants skip) ts).map (·.1)) := by
    rcases hent with h | rfl
    · exact C62_lalr_accepts hlex hne hf.grammar hfine (lr_parserFor hf kind htb) (skipped variants skip) src h2 hk h
    · exact C62_accepts hlex hne hf.grammar hfine (lr_parserFor hf .lr1 htb) (skipped variants skip) src h2
  rw [← key]
  constructor
  · rintro ⟨n, visits, calls, h⟩
    rw [h3] at h
    cases hr : lrParse p.machine input n with
    | ok events pos => exact ⟨n, events, pos, hr⟩
    | unexpected events pos expected => rw [hr] at h; cases h
    | panic => rw [hr] at h; cases h
    | running => rw [hr] at h; cases h
  · rintro ⟨n, events, pos, h⟩
    exact ⟨n, _, _, by rw [h3, h]; rfl⟩

/-- Then the calls of the visitor are those of a parse tree, from the bottom to the top, whose leaves are the tokens with their texts. (`C75_calls`: the method called for a rule is its callback.) -/
theorem C78_calls (n : Nat) (visits : List (RVisit (List Char))) (calls : Nat) (h : runRustParser parser inp n = .ok (.ok, visits, calls)) :
    ∃ variants ts tree events, rustEnum "TokenType".toList toks = some variants ∧ TextTokens rules src ts ∧ IsParseTree g.rules g.entry tree ∧ tree.tokens = kept (skipped variants skip) ts ∧
      TraceIs g events tree.postorder ∧ visits = events.map (visitOf variants (ruleVisits (ruleSet entry rules prods) g)) ∧ calls = tree.tokens.length + 1 := by
  obtain ⟨variants, input, h1, _, h2, _, h3⟩ := lr_fed hlexer skip heof src hf hin
  rw [h3] at h
  cases hr : lrParse p.machine input n with
  | ok events pos =>
    rw [hr] at h
    cases h
    have wf := C19_well_formed _ _ hf.grammar
    have hner : NoEmptyRhs g := C19_no_empty_right_side _ g hf.grammar hfine.noEmptySequence
    have hp := lr_parserFor hf kind htb
    obtain ⟨tree, k1, k2, k3⟩ := C28_sound g wf hner kind p hp input n events pos hr
    have k4 : (input pos).1 = .eof := by
      rcases hent with h | rfl
      · exact lr_eof wf hner hp hk (entryFresh_of_rules hf.grammar hfine.prods h) hr
      · exact C29_lr1_end g wf hner (entry_not_left_recursive hf.grammar hfine) p hp input n events pos hr
    obtain ⟨ts, m1, m2⟩ := (C62_stream hlex hne (skipped variants skip) src h2 tree.tokens).mp ⟨k2.2, by rw [k2.1]; exact k4⟩
    exact ⟨variants, ts, tree, events, h1, m1, k1, m2, k3, rfl, by rw [k2.1]⟩
  | unexpected events pos expected => rw [hr] at h; cases h
  | panic => rw [hr] at h; cases h
  | running => rw [hr] at h; cases h

omit hne hk hent in
/-- For every text it comes to an end without panic, if no token rule matches the empty text and every production matches something. -/
theorem C78_total (hε : ∀ r ∈ rules, ¬ r.Matches []) (hprod : ∀ q ∈ prods, ∃ w, Den (ruleSet entry rules prods) (.rule q.name) w) :
    ∃ bound r, ∀ n, bound ≤ n → runRustParser parser inp n = .ok r := by
  obtain ⟨variants, input, h1, _, h2, _, h3⟩ := lr_fed hlexer skip heof src hf hin
  obtain ⟨bound, r, k1, k2⟩ := C62_kinds_total hlex hf.grammar hfine (lr_parserFor hf kind htb) (skipped variants skip) src h2 hε hprod
  rcases k2 with ⟨events, pos, rfl⟩ | ⟨events, pos, expected, rfl⟩
  · exact ⟨bound, _, fun n hn => by rw [h3, k1 n hn]; rfl⟩
  · exact ⟨bound, _, fun n hn => by rw [h3, k1 n hn]; rfl⟩

omit hlex hne hk hent htb in
/-- LR(1): an error comes as early as possible and says all: the tokens before it begin some text that matches the entry rule, together with the token it is reported at they do not, and the tokens it
names as expected are those that could stand there instead. -/
theorem C78_error (htb : LRTableFor g .lr1 tb) (hprod : ∀ q ∈ prods, ∃ w, Den (ruleSet entry rules prods) (.rule q.name) w) (n : Nat) (got : List Char) (expected : List (List Char)) (visits : List (RVisit (List Char)))
    (calls : Nat) (h : runRustParser parser inp n = .ok (.unexpected got expected, visits, calls)) :
    ∃ (variants : List (List Char)) (w : List (Nat × List Char)), rustEnum "TokenType".toList toks = some variants ∧ w.length + 1 = calls ∧ (∀ i x, w[i]? = some x → inp i = (variants.getD (x.1 + 1) [], x.2)) ∧ got = (inp w.length).1 ∧
      (∃ v, Den (ruleSet entry rules prods) (.rule entry) (w.map (·.1) ++ v)) ∧
      (∀ a v, a < rules.length → got = variants.getD (a + 1) [] → ¬ Den (ruleSet entry rules prods) (.rule entry) (w.map (·.1) ++ a :: v)) ∧
      (got = "EndOfFile".toList → ¬ Den (ruleSet entry rules prods) (.rule entry) (w.map (·.1))) ∧
      ∀ x, x ∈ expected ↔ (∃ a v, x = variants.getD (a + 1) [] ∧ Den (ruleSet entry rules prods) (.rule entry) (w.map (·.1) ++ a :: v)) ∨
        x = "EndOfFile".toList ∧ Den (ruleSet entry rules prods) (.rule entry) (w.map (·.1)) := by
  obtain ⟨ws, hws, hv⟩ := rust_variants hf
  obtain ⟨variants, input, h1, hlen, h2, hi, h3⟩ := lr_fed hlexer skip heof src hf hin
  have hnd := hf.tokensOnce _ h1
  rw [h1] at hv
  cases hv
  rw [h3] at h
  cases hr : lrParse p.machine input n with
  | ok events pos => rw [hr] at h; cases h
  | panic => rw [hr] at h; cases h
  | running => rw [hr] at h; cases h
  | unexpected events pos exp =>
    rw [hr] at h
    cases h
    obtain ⟨w, k1, k2, k3, k4, k5⟩ := C62_error hf.grammar hfine (lr_parserFor hf .lr1 htb) hprod n events pos exp hr
    refine ⟨_, w, h1, by rw [k1.1], ?_, by rw [hi, k1.1], k2, ?_, ?_, ?_⟩
    · intro i x hx
      rw [hi]
      dsimp only
      rw [k1.2 i x hx]
      rfl
    · intro a v ha e
      refine k3 a v ?_
      have := (symFits_of hws hnd (s := .t a) (by rintro b ⟨⟩; exact ha)) _ rfl (input pos).1
      have := this.mp e
      cases hh : (input pos).1 <;> rw [hh] at this <;> cases this
      rfl
    · intro e
      refine k4 ?_
      have := (symFits_of hws hnd (s := .eof) (by rintro b ⟨⟩)) _ rfl (input pos).1
      have := this.mp e
      cases hh : (input pos).1 <;> rw [hh] at this <;> cases this
    · intro x
      rw [List.mem_filterMap]
      constructor
      · rintro ⟨s, hs, e⟩
        rcases (k5 s).mp hs with ⟨a, rfl, v, hd⟩ | ⟨rfl, hd⟩
        · cases e; exact .inl ⟨a, v, rfl, hd⟩
        · cases e; exact .inr ⟨rfl, hd⟩
      · rintro (⟨a, v, rfl, hd⟩ | ⟨rfl, hd⟩)
        · exact ⟨.t a, (k5 _).mpr (.inl ⟨a, rfl, v, hd⟩), rfl⟩
        · exact ⟨.eof, (k5 _).mpr (.inr ⟨rfl, hd⟩), rfl⟩

end

/-! ## GLR -/

section
variable {p : GlrProg} (hf : GlrParserFiles (ruleSet entry rules prods) g rules tb p toks parser) {inp : Nat → Except RustLexResult (List Char × List Char)} (hin : TextFed glrToken lexer skip src inp)

include hf hlexer heof hin hlex in
/-- The token function around the text, in terms of the modelled lexer, and what it makes the parser do: either the tokens come to an end, or one of them is an error. -/
theorem glr_fed (hε : ∀ r ∈ rules, ¬ r.Matches []) : ∃ variants input, rustEnum "TokenType".toList toks = some variants ∧ FedBy t (skipped variants skip) (Lexer.new src) input ∧
    ((∃ w, StreamIs input w ∧ ∀ n, runGlrParser parser inp n = rustGlrOutcome variants (ruleVisits (ruleSet entry rules prods) g) input (glrParse p.machine input n)) ∨
     ∃ k w, Consumes input k w ∧ (input k).1 = .err ∧ ∀ n, (∀ a b, glrParse p.machine input n ≠ .panic a b) →
      runGlrParser parser inp n = rustGlrOutcome variants (ruleVisits (ruleSet entry rules prods) g) input (glrParse p.machine input n) ∨
      ∃ e visits calls, runGlrParser parser inp n = .ok (.lexerError e, visits, calls)) := by
  have hw : ∀ r ∈ rules, IsWord r.name.toList := fun r hr => hf.words.1 r.name (by rw [hf.tokens]; exact List.mem_map.mpr ⟨r, hr, rfl⟩)
  obtain ⟨ws, hws, hv⟩ := glr_variants hf
  obtain ⟨variants, h1, h2, h3, h4, h5⟩ := C74_lexer_text rules t hw lexer toks hlexer hf.tokensFile
  obtain ⟨variants', k1, _, k3⟩ := C76_functions hf (List Char)
  rw [h1] at k1 hv
  cases k1
  cases hv
  have hd := hasDriver hf.gwords hf.tagWords hf.parserFile
  have hc := glr_callsFit hf k3
  obtain ⟨input, f1, rs, f2⟩ := textFed_fed h3 (skip := skip) (by exact heof) h4 (fun l => (h5 l).2) hin
  have hok : ∀ i, (input i).1 ≠ .err → inp i = .ok (glrInput ("EndOfFile".toList :: ws) input i) := by
    intro i hi
    obtain ⟨e1, e2⟩ := f2 i
    unfold glrInput
    rw [e2, e1]
    rw [e1] at hi
    cases hr : rs i <;> rw [hr] at hi <;> first | rfl | exact absurd rfl hi
  refine ⟨_, input, h1, f1, ?_⟩
  rcases fed_first_error hlex hε f1 with ⟨w, hw'⟩ | ⟨k, w, hw', he⟩
  · refine .inl ⟨w, hw', fun n => ?_⟩
    have := run_glrParser (ε := RustLexResult) hd hc rfl input n
    rw [run_text hf.gwords hf.tagWords hf.parserFile, ← this]
    congr 1
    funext i
    refine hok i fun hi => ?_
    rcases Nat.lt_or_ge i w.length with h | h
    · rw [hw'.1 i _ (List.getElem?_eq_getElem h)] at hi
      cases hi
    · rw [fed_eof_stays hlex f1 hw'.2 i h] at hi
      cases hi
  · refine .inr ⟨k, w, hw', he, fun n hn => ?_⟩
    have hbefore : ∀ i < k, inp i = .ok (glrInput ("EndOfFile".toList :: ws) input i) := by
      intro i hi
      refine hok i fun h => ?_
      rw [hw'.2 i _ (List.getElem?_eq_getElem (by rw [hw'.1]; exact hi))] at h
      cases h
    obtain ⟨e, hek⟩ : ∃ e, inp k = .error e := by
      obtain ⟨e1, e2⟩ := f2 k
      rw [he] at e1
      rw [e2]
      cases hr : rs k with
      | token j => rw [hr] at e1; cases e1
      | eof => rw [hr] at e1; cases e1
      | invalidChar c => exact ⟨_, rfl⟩
      | unexpectedAlphabet c => exact ⟨_, rfl⟩
    obtain ⟨a1, a2⟩ := run_glrParser_error hd hc rfl input inp k e hbefore hek n hn
    rw [run_text hf.gwords hf.tagWords hf.parserFile]
    rcases Nat.lt_or_ge (resultAt (glrParse p.machine input n)).2 k with h | h
    · exact .inl (a1 h)
    · obtain ⟨pre, _, h⟩ := a2 h
      exact .inr ⟨_, _, _, h⟩

variable (hne : ∀ r ∈ rules, r.NoEmptySeq ∧ r.Useful) (hε : ∀ r ∈ rules, ¬ r.Matches []) (hfine : (ruleSet entry rules prods).Fine)
variable (kind : LRKind) (hk : kind.hasLa = true) (hent : (ruleSet entry rules prods).EntryUnused ∨ kind = .lr1) (htb : LRTableFor g kind tb)
variable (hd : DistinctRules g) (hc : NoCycle g) (hh : NoHiddenLeftRecursion g)

include hf htb in
theorem glr_parserFor : GlrParserFor g kind p := by
  obtain ⟨allow, n, h⟩ := htb
  exact ⟨allow, n, tb, h, hf.program⟩

include hlex hlexer heof hf hin hne hε hfine hk hent htb hd hc hh

/-- what the program does, in three cases -/
theorem glr_program : ∃ variants bound, rustEnum "TokenType".toList toks = some variants ∧
    ((∃ ts, TextTokens rules src ts ∧
      (∀ n visits calls, runGlrParser parser inp n = .ok (.ok, visits, calls) → ∃ tree events, IsParseOf g (kept (skipped variants skip) ts) tree ∧
        (∀ tree', IsParseOf g (kept (skipped variants skip) ts) tree' → tree' = tree) ∧ TraceIs g events tree.postorder ∧
        visits = events.map (visitOf variants (ruleVisits (ruleSet entry rules prods) g)) ∧ calls = tree.tokens.length + 2) ∧
      (∀ n, runGlrParser parser inp n = .error .panic → ∃ a b, a ≠ b ∧ IsParseOf g (kept (skipped variants skip) ts) a ∧ IsParseOf g (kept (skipped variants skip) ts) b) ∧
      (∀ n, bound ≤ n → runGlrParser parser inp n = .error .panic ∨ ∃ out visits calls, runGlrParser parser inp n = .ok (out, visits, calls) ∧
        (out ≠ .ok → ∀ tree, ¬ IsParseOf g (kept (skipped variants skip) ts) tree))) ∨
     (∀ ts, ¬ TextTokens rules src ts) ∧ (∀ n visits calls, runGlrParser parser inp n ≠ .ok (.ok, visits, calls)) ∧ (∀ n, runGlrParser parser inp n ≠ .error .panic) ∧
      ∀ n, bound ≤ n → ∃ r, runGlrParser parser inp n = .ok r) := by
  have wf := C19_well_formed _ _ hf.grammar
  have hner : NoEmptyRhs g := C19_no_empty_right_side _ g hf.grammar hfine.noEmptySequence
  have hel := C27_epsilon_condition _ g hf.grammar hfine.noEpsilonInSequence
  have hl := entry_not_left_recursive hf.grammar hfine
  have hp := glr_parserFor hf kind htb
  have cnt : ∀ w input, StreamIs input w → ∀ n, (∀ events pos, glrParse p.machine input n = .ok events pos →
        pos = w.length + 1 ∧ ∃ t, IsParseOf g w t ∧ TraceIs (T := List Char) g events t.postorder ∧ ∀ t', IsParseOf g w t' → t' = t) ∧
      (∀ events pos, glrParse p.machine input n = .panic events pos → ∃ t t', t ≠ t' ∧ IsParseOf g w t ∧ IsParseOf g w t') ∧
      (∀ events pos errs, glrParse p.machine input n = .unexpected events pos errs → ∀ t, ¬ IsParseOf g w t) := by
    intro w input hst n
    rcases hent with h | rfl
    · exact C53_counts g wf hner hel hd (entryFresh_of_rules hf.grammar hfine.prods h) kind hk p hp w input hst n
    · exact C53_counts_lr1 g wf hner hel hd hl p hp w input hst n
  obtain ⟨variants, input, h1, h2, h3⟩ := glr_fed hlex hlexer skip heof src hf hin hε
  rcases h3 with ⟨w, hst, h3⟩ | ⟨k, w, hcs, he, h3⟩
  · obtain ⟨ts, h4, rfl⟩ := (C62_stream hlex hne (skipped variants skip) src h2 w).mp hst
    obtain ⟨bound, hb⟩ := C54_terminates_empty g wf hner hc hh kind p hp _ input hst
    refine ⟨variants, bound, h1, .inl ⟨ts, h4, ?_, ?_, ?_⟩⟩
    · intro n visits calls h
      obtain ⟨c1, c2, c3⟩ := cnt _ input hst n
      rw [h3] at h
      cases hr : glrParse p.machine input n with
      | ok ev pos =>
        obtain ⟨rfl, tree, k1, k2, k3⟩ := c1 _ _ hr
        rw [hr] at h
        cases h
        exact ⟨tree, ev, k1, k3, k2, rfl, by rw [k1.2]⟩
      | unexpected ev pos errs =>
        rw [hr] at h
        simp only [rustGlrOutcome, Except.ok.injEq, Prod.mk.injEq] at h
        exact absurd h.1 (glrEnd_ne _ _ _)
      | panic ev pos => rw [hr] at h; cases h
      | running ev pos => rw [hr] at h; cases h
    · intro n h
      obtain ⟨c1, c2, c3⟩ := cnt _ input hst n
      rw [h3] at h
      cases hr : glrParse p.machine input n with
      | panic ev pos => exact c2 _ _ hr
      | ok ev pos => rw [hr] at h; cases h
      | unexpected ev pos errs => rw [hr] at h; cases h
      | running ev pos => rw [hr] at h; cases h
    · intro n hn
      obtain ⟨c1, c2, c3⟩ := cnt _ input hst n
      rw [h3]
      cases hr : glrParse p.machine input n with
      | panic ev pos => exact .inl rfl
      | ok ev pos => exact .inr ⟨_, _, _, rfl, fun h => absurd rfl h⟩
      | unexpected ev pos errs => exact .inr ⟨_, _, _, rfl, fun _ => c3 _ _ _ hr⟩
      | running ev pos => exact absurd hr (hb n hn ev pos)
  · obtain ⟨gr, hv, hm⟩ := glr_parser_inv wf hner hp
    have hacc : AcceptEof (List Char) g gr := by
      rcases hent with h | rfl
      · exact acceptEof_fresh wf hv hk (entryFresh_of_rules hf.grammar hfine.prods h)
      · exact acceptEof_lr1 hv hl
    have no := fun n => glr_error_stream hv hm hacc hcs he n
    obtain ⟨bound, hb⟩ := glr_stops_at (input := input) wf hv hm hc hh (N := k) (by rw [he]; rintro a ⟨⟩)
    have res : ∀ n, (∃ ev pos, glrParse p.machine input n = .running ev pos ∧ runGlrParser parser inp n = .error .fuel) ∨ ∃ out visits calls, runGlrParser parser inp n = .ok (out, visits, calls) ∧ out ≠ .ok := by
      intro n
      rcases h3 n (fun a b => (no n a b).2) with h | ⟨e, visits, calls, h⟩
      · cases hr : glrParse p.machine input n with
        | panic ev pos => exact absurd hr (no n _ _).2
        | ok ev pos => exact absurd hr (no n _ _).1
        | unexpected ev pos errs => rw [hr] at h; exact .inr ⟨_, _, _, h, glrEnd_ne _ _ _⟩
        | running ev pos => rw [hr] at h; exact .inl ⟨ev, pos, rfl, h⟩
      · exact .inr ⟨_, _, _, h, fun h => by cases h⟩
    refine ⟨variants, bound, h1, .inr ⟨?_, ?_, ?_, ?_⟩⟩
    · intro ts hts
      have hst := (C62_stream hlex hne (skipped variants skip) src h2 _).mpr ⟨ts, hts, rfl⟩
      rcases Nat.lt_or_ge k (kept (skipped variants skip) ts).length with h | h
      · rw [hst.1 k _ (List.getElem?_eq_getElem h)] at he
        cases he
      · rw [fed_eof_stays hlex h2 hst.2 k h] at he
        cases he
    · intro n visits calls h
      rcases res n with ⟨_, _, _, h'⟩ | ⟨out, _, _, h', ho⟩
      · rw [h] at h'; cases h'
      · rw [h] at h'
        cases h'
        exact ho rfl
    · intro n h
      rcases res n with ⟨_, _, _, h'⟩ | ⟨out, _, _, h', ho⟩ <;> rw [h] at h' <;> cases h'
    · intro n hn
      rcases res n with ⟨ev, pos, h, _⟩ | ⟨out, _, _, h', _⟩
      · exact absurd h (hb n hn ev pos)
      · exact ⟨_, h'⟩

/-- C78. With a GLR parser the program returns `Ok` for exactly those texts whose tokens, those to be left out removed, have exactly one parse tree. (The grammar has no cycles and no hidden left
recursion. The table is an LALR one when `generate` has made it, see `C78_generated_glr`; then the entry rule must not be used in a production.) -/
theorem C78_glr_accepts : ∃ variants, rustEnum "TokenType".toList toks = some variants ∧
    ((∃ n visits calls, runGlrParser parser inp n = .ok (.ok, visits, calls)) ↔
      ∃ ts tree, TextTokens rules src ts ∧ IsParseOf g (kept (skipped variants skip) ts) tree ∧ ∀ tree', IsParseOf g (kept (skipped variants skip) ts) tree' → tree' = tree) := by
  obtain ⟨variants, bound, h1, h⟩ := glr_program hlex hlexer skip heof src hf hin hne hε hfine kind hk hent htb hd hc hh
  refine ⟨variants, h1, ?_⟩
  rcases h with ⟨ts, h2, a1, a2, a3⟩ | ⟨h2, a1, _, _⟩
  · constructor
    · rintro ⟨n, visits, calls, h⟩
      obtain ⟨tree, _, b1, b2, _⟩ := a1 n visits calls h
      exact ⟨ts, tree, h2, b1, b2⟩
    · rintro ⟨ts', tree, c1, c2, c3⟩
      rw [c1.unique h2] at c2 c3
      rcases a3 bound (Nat.le_refl _) with h | ⟨out, visits, calls, h, ho⟩
      · obtain ⟨a, b, hab, ha, hb⟩ := a2 _ h
        exact absurd ((c3 _ ha).trans (c3 _ hb).symm) hab
      · by_cases e : out = .ok
        · subst e; exact ⟨_, _, _, h⟩
        · exact absurd c2 (ho e tree)
  · constructor
    · rintro ⟨n, visits, calls, h⟩
      exact absurd h (a1 n visits calls)
    · rintro ⟨ts, _, h, _⟩
      exact absurd h (h2 ts)

/-- Then the calls of the visitor are those of this tree. -/
theorem C78_glr_calls (n : Nat) (visits : List (RVisit (List Char))) (calls : Nat) (h : runGlrParser parser inp n = .ok (.ok, visits, calls)) :
    ∃ variants ts tree events, rustEnum "TokenType".toList toks = some variants ∧ TextTokens rules src ts ∧ IsParseOf g (kept (skipped variants skip) ts) tree ∧
      TraceIs g events tree.postorder ∧ visits = events.map (visitOf variants (ruleVisits (ruleSet entry rules prods) g)) ∧ calls = tree.tokens.length + 2 := by
  obtain ⟨variants, bound, h1, h'⟩ := glr_program hlex hlexer skip heof src hf hin hne hε hfine kind hk hent htb hd hc hh
  rcases h' with ⟨ts, h2, a1, _, _⟩ | ⟨_, a1, _, _⟩
  · obtain ⟨tree, events, b1, _, b2, b3, b4⟩ := a1 n visits calls h
    exact ⟨variants, ts, tree, events, h1, h2, b1, b2, b3, b4⟩
  · exact absurd h (a1 n visits calls)

/-- It panics for exactly those texts whose tokens have several parse trees. -/
theorem C78_glr_panics : ∃ variants, rustEnum "TokenType".toList toks = some variants ∧
    ((∃ n, runGlrParser parser inp n = .error .panic) ↔
      ∃ ts a b, TextTokens rules src ts ∧ a ≠ b ∧ IsParseOf g (kept (skipped variants skip) ts) a ∧ IsParseOf g (kept (skipped variants skip) ts) b) := by
  obtain ⟨variants, bound, h1, h⟩ := glr_program hlex hlexer skip heof src hf hin hne hε hfine kind hk hent htb hd hc hh
  refine ⟨variants, h1, ?_⟩
  rcases h with ⟨ts, h2, a1, a2, a3⟩ | ⟨h2, _, a1, _⟩
  · constructor
    · rintro ⟨n, h⟩
      obtain ⟨a, b, h⟩ := a2 n h
      exact ⟨ts, a, b, h2, h⟩
    · rintro ⟨ts', a, b, c1, c2, c3, c4⟩
      rw [c1.unique h2] at c3 c4
      rcases a3 bound (Nat.le_refl _) with h | ⟨out, visits, calls, h, ho⟩
      · exact ⟨_, h⟩
      · by_cases e : out = .ok
        · subst e
          obtain ⟨tree, _, b1, b2, _⟩ := a1 _ _ _ h
          exact absurd ((b2 _ c3).trans (b2 _ c4).symm) c2
        · exact absurd c3 (ho e a)
  · constructor
    · rintro ⟨n, h⟩
      exact absurd h (a1 n)
    · rintro ⟨ts, _, _, h, _⟩
      exact absurd h (h2 ts)

/-- For every text it comes to an end: it returns or panics. -/
theorem C78_glr_total : ∃ bound, ∀ n, bound ≤ n → runGlrParser parser inp n = .error .panic ∨ ∃ r, runGlrParser parser inp n = .ok r := by
  obtain ⟨variants, bound, h1, h⟩ := glr_program hlex hlexer skip heof src hf hin hne hε hfine kind hk hent htb hd hc hh
  refine ⟨bound, fun n hn => ?_⟩
  rcases h with ⟨ts, h2, a1, a2, a3⟩ | ⟨h2, _, _, a1⟩
  · exact (a3 n hn).imp_right fun ⟨_, _, _, h, _⟩ => ⟨_, h⟩
  · exact .inr (a1 n hn)

end
end

/-! ## The token function -/

/-- There is such a token function, and only one, if no token rule matches the empty text. -/
theorem C78_token_function {α : Type} (f : RustLexResult → List Char → α) {rules : List TokenRule} {t : LexerTables} {lexFuel : Nat} (hlex : generateLexer lexFuel rules = .ok (.ok t))
    (hw : ∀ r ∈ rules, IsWord r.name.toList) (hε : ∀ r ∈ rules, ¬ r.Matches []) {lexer toks : List Char} (hlexer : rustLexerFile rules t = .ok lexer) (htoks : rustTokensFile rules = .ok toks)
    (skip : List Char → Bool) (heof : skip "EndOfFile".toList = false) (src : List Char) :
    ∃ inp, TextFed f lexer skip src inp ∧ ∀ inp', TextFed f lexer skip src inp' → inp' = inp := by
  obtain ⟨variants, h1, h2, h3, h4, h5⟩ := C74_lexer_text rules t hw lexer toks hlexer htoks
  obtain ⟨ws, hws, hv⟩ := tokens_file_rust hw htoks
  rw [h1] at hv
  cases hv
  obtain ⟨input, hfed, _⟩ := C62_token_function hlex hε (skipped ("EndOfFile".toList :: ws) skip) src
  obtain ⟨inp, hin⟩ := textFed_of h3 (skip := skip) (by exact heof) h4 (fun l => (h5 l).2) f hfed
  exact ⟨inp, hin, fun inp' h => textFed_unique h3 (by exact heof) h hin⟩

/-! ## Files written by `generate` -/

section
variable (parse : List Char → Res SpannedRules) (fuel : Nat) (genTable : Bool) (path : List Char) (contents : Option (List Char)) (ws : List Written)

/-- the rules of a file, without where they stand -/
theorem ruleSet_spanned (rules : SpannedRules) : rules.ruleSet = ruleSet rules.entry.inner (rules.tokens.map (·.inner)) (rules.prods.map (·.inner)) := by
  simp [SpannedRules.ruleSet, ruleSet]

/-- When `generate` returns Ok for Rust and an LR algorithm, with a lexer, the lexer and the parser it has written are those C78 is about, for the rules of the file. -/
theorem C78_generated (alg : Algorithm) (kind : LRKind) (hk : alg.kind = some kind) (h : generate parse fuel true alg genTable .rust path contents = (ws, .ok)) :
    ∃ text rules g t p tb n, contents = some text ∧ parse text = .ok rules ∧ Written.lexer t ∈ ws ∧ Written.rustParser p ∈ ws ∧
      Grammar.fromRuleSet (ruleSet rules.entry.inner (rules.tokens.map (·.inner)) (rules.prods.map (·.inner))) = .ok g ∧ generateLexer n (rules.tokens.map (·.inner)) = .ok (.ok t) ∧
      LRTableFor g kind tb ∧ genRust g tb = .ok p := by
  obtain ⟨text, rules, g, vs, lexer, table, parser, tb, h1, h2, h3, h4, h5, h6, _, _⟩ := C65_ok _ _ _ _ _ _ _ _ _ h
  rw [if_pos rfl] at h6
  obtain ⟨t, n, rfl, h6⟩ := h6
  rw [ruleSet_spanned] at h3
  generalize hl : Language.rust = lang at h5
  cases h5 with
  | rust hk' hg hp =>
    rw [hk] at hk'
    cases hk'
    exact ⟨text, rules, g, t, _, _, n, h1, h2, by rw [h4]; simp, by rw [h4]; simp, h3, h6, ⟨false, _, .inl hg⟩, hp⟩
  | cpp => cases hl
  | glr => cases hk
  | ll => cases hk

/-- The same for GLR, where the table is an LALR one. -/
theorem C78_generated_glr (h : generate parse fuel true .glr genTable .rust path contents = (ws, .ok)) :
    ∃ text rules g t p tb n, contents = some text ∧ parse text = .ok rules ∧ Written.lexer t ∈ ws ∧ Written.rustGlrParser p ∈ ws ∧
      Grammar.fromRuleSet (ruleSet rules.entry.inner (rules.tokens.map (·.inner)) (rules.prods.map (·.inner))) = .ok g ∧ generateLexer n (rules.tokens.map (·.inner)) = .ok (.ok t) ∧
      LRTableFor g .lalr tb ∧ genGlr g tb = .ok p := by
  obtain ⟨text, rules, g, vs, lexer, table, parser, tb, h1, h2, h3, h4, h5, h6, _, _⟩ := C65_ok _ _ _ _ _ _ _ _ _ h
  rw [if_pos rfl] at h6
  obtain ⟨t, n, rfl, h6⟩ := h6
  rw [ruleSet_spanned] at h3
  generalize ha : Algorithm.glr = alg at h5
  generalize hl : Language.rust = lang at h5
  cases h5 with
  | rust hk hg hp =>
    subst ha
    cases hk
  | cpp => cases hl
  | glr htb hp => exact ⟨text, rules, g, t, _, _, n, h1, h2, by rw [h4]; simp, by rw [h4]; simp, h3, h6, htb, hp⟩
  | ll => cases ha

end

/-! ## Cases -/

theorem sum_prods {x : ProdRule} (hx : x ∈ (ruleSet "sum" sumTokens sumProds).prods) : x = ⟨"sum", none, .sequence [.rule "n", .zeroOrMany (.sequence [.rule "plus", .rule "n"])]⟩ := by
  simpa [ruleSet, sumProds] using hx

theorem sum_names {n : String} (hn : n ∈ sumTokens.map (·.name)) : GoodName n.toList ∧ IsWord n.toList := by
  simp only [sumTokens, List.map_cons, List.map_nil, List.mem_cons, List.not_mem_nil, or_false] at hn
  rcases hn with rfl | rfl | rfl <;> exact ⟨goodName_of (by decide), by unfold IsWord; decide⟩

/-- the conditions on names hold for the grammar of sums -/
theorem sum_files (tb : LRTable) (p : LRProg) (hp : genRust sumGrammar tb = .ok p) : ∃ toks text, RustParserFiles (ruleSet "sum" sumTokens sumProds) sumGrammar sumTokens tb p toks text := by
  refine C75_files _ sumGrammar sumGrammar_built (by decide) (by decide) ⟨fun n hn => (sum_names hn).2, ?_⟩ ?_ tb p hp sumTokens rfl (fun n hn => (sum_names hn).1) ?_ ?_ ?_ ?_
  · intro x hx
    rw [sum_prods hx]
    unfold IsWord; decide
  · intro x hx t ht
    rw [sum_prods hx] at ht
    cases ht
  · simp only [ruleSet, sumTokens, List.map_cons, List.map_nil]
    unfold SameName
    decide
  · intro x hx
    rw [sum_prods hx]
    exact goodName_of (by decide)
  · intro x hx y hy _
    rw [sum_prods hx, sum_prods hy]
  · intro x hx n h
    rw [sum_prods hx] at h
    have := congrArg List.head? h
    exact absurd (show some 's' = some 'a' from this) (by decide)

theorem sum_skipped : skipped ["EndOfFile".toList, "TkN".toList, "TkPlus".toList, "TkWs".toList] (· == "TkWs".toList) = (· == 2) := by
  funext j
  match j with
  | 0 => decide
  | 1 => decide
  | 2 => decide
  | j + 3 =>
    rw [show ((j + 3 == 2) = false) by simp]
    rfl

/-- the tokens of a text, with those to be left out removed -/
theorem sum_text (src : List Char) (w : List (Nat × List Char)) (n : Nat) (hw : (generateLexer 20 sumTokens).tables.map (fun t => firstTokens t (· == 2) n (Lexer.new src)) =
    some (w.map (fun x => (.tok x.1, x.2)) ++ [(.eof, [])])) : ∃ ts, TextTokens sumTokens src ts ∧ kept (· == 2) ts = w := by
  obtain ⟨t, ht⟩ := Res.of_tables (r := generateLexer 20 sumTokens) (by decide +kernel)
  have e1 : (generateLexer 20 sumTokens).tables = some t := by rw [ht]; rfl
  rw [e1, Option.map_some, Option.some.injEq] at hw
  obtain ⟨input, hin, _⟩ := C62_token_function ht sumTokens_nonempty (· == 2) src
  have key := firstTokens_fed (t := t) (skip := (· == 2)) (by simp) n hin
  rw [hw] at key
  have hst : StreamIs input w := by
    refine ⟨fun i x hx => key i _ ?_, ?_⟩
    · rw [List.getElem?_append_left (by simpa using (List.getElem?_eq_some_iff.mp hx).1), List.getElem?_map, hx]
      rfl
    · rw [key w.length (.eof, []) (by rw [List.getElem?_append_right (by simp)]; simp)]
  obtain ⟨ts, h1, h2⟩ := (C62_stream ht sumTokens_useful (· == 2) _ hin _).mp hst
  exact ⟨ts, h1, h2.symm⟩

theorem sumTokens_variants : sumTokens.mapM (fun r => tokenEnumName r.name.toList) = .ok ["TkN".toList, "TkPlus".toList, "TkWs".toList] := by decide +kernel

/-- all conditions hold for the grammar of sums, and the program returns `Ok` for a text -/
example : ∃ t tb p toks lexer parser inp, generateLexer 20 sumTokens = .ok (.ok t) ∧ rustLexerFile sumTokens t = .ok lexer ∧
    RustParserFiles (ruleSet "sum" sumTokens sumProds) sumGrammar sumTokens tb p toks parser ∧ LRTableFor sumGrammar .lr1 tb ∧
    TextFed lrToken lexer (· == "TkWs".toList) "1 +11".toList inp ∧ ∃ n visits calls, runRustParser parser inp n = .ok (.ok, visits, calls) := by
  obtain ⟨t, ht⟩ := Res.of_tables (r := generateLexer 20 sumTokens) (by decide +kernel)
  obtain ⟨p, ⟨allow, fuel, tb, htb, hp⟩, _⟩ := lrTry_some (g := sumGrammar) (kind := .lr1) (fuel := 40) (w := []) (steps := 0) (r := .running [] 0) (by decide +kernel)
  obtain ⟨toks, parser, hf⟩ := sum_files tb p hp
  have hw : ∀ r ∈ sumTokens, IsWord r.name.toList := fun r hr => (sum_names (List.mem_map.mpr ⟨r, hr, rfl⟩)).2
  obtain ⟨lexer, _, hl, _⟩ := (C74_written 20 sumTokens t ht).1 (fun r hr => goodName_not_bad (sum_names (List.mem_map.mpr ⟨r, hr, rfl⟩)).1)
  obtain ⟨inp, hin, _⟩ := C78_token_function lrToken ht hw sumTokens_nonempty hl hf.tokensFile (· == "TkWs".toList) (by decide) "1 +11".toList
  refine ⟨t, tb, p, toks, lexer, parser, inp, ht, hl, hf, ⟨allow, fuel, htb⟩, hin, ?_⟩
  obtain ⟨variants, hv, h⟩ := C78_accepts ht hl (· == "TkWs".toList) (by decide) _ hf hin sumTokens_useful sum_fine .lr1 rfl (.inr rfl) ⟨allow, fuel, htb⟩
  obtain ⟨ws, hws, hv'⟩ := rust_variants hf
  rw [sumTokens_variants] at hws
  cases hws
  rw [hv'] at hv
  cases hv
  refine h.mpr ?_
  obtain ⟨ts, h1, h2⟩ := sum_text "1 +11".toList [(0, ['1']), (1, ['+']), (0, ['1', '1'])] 5 (by decide +kernel)
  refine ⟨ts, h1, ?_⟩
  rw [sum_skipped, h2]
  refine .prod (r := sumProds[0]) (by simp [ruleSet, sumProds]) ?_
  refine .seqCons (u := [0]) (v := [1, 0]) (.token rfl) ?_
  refine .seqCons (u := [1, 0]) (v := []) ?_ .seqNil
  refine .starMore (u := [1, 0]) (v := []) ?_ .starNil
  exact .seqCons (u := [1]) (v := [0]) (.token rfl) (.seqCons (u := [0]) (v := []) (.token rfl) .seqNil)

/-- an ambiguous grammar of sums -/
def ambProds : List ProdRule := [⟨"s", none, .rule "e"⟩, ⟨"e", none, .sequence [.rule "e", .rule "plus", .rule "e"]⟩, ⟨"e", none, .rule "n"⟩]

def ambGrammar : Grammar where
  rules := [⟨0, [.nt 1], 0⟩, ⟨1, [.nt 1, .t 1, .nt 1], 1⟩, ⟨1, [.t 0], 2⟩]
  anon := []
  productions := [(.nt 0, "s"), (.nt 1, "e")]
  tokens := [(.t 0, "n"), (.t 1, "plus"), (.t 2, "ws")]
  entry := .nt 0
  entryOrigin := 0

theorem ambGrammar_built : Grammar.fromRuleSet (ruleSet "s" sumTokens ambProds) = .ok ambGrammar := GRes.of_same (by decide)

theorem amb_prods {x : ProdRule} (hx : x ∈ (ruleSet "s" sumTokens ambProds).prods) :
    x = ⟨"s", none, .rule "e"⟩ ∨ x = ⟨"e", none, .sequence [.rule "e", .rule "plus", .rule "e"]⟩ ∨ x = ⟨"e", none, .rule "n"⟩ := by
  simpa [ruleSet, ambProds] using hx

theorem amb_fine : (ruleSet "s" sumTokens ambProds).Fine where
  tokens := by decide
  prods := by decide
  noEmptySequence := by
    intro p hp h
    rcases amb_prods hp with rfl | rfl | rfl
    · cases h
    · cases h with
      | sequence hm h =>
        simp only [List.mem_cons, List.not_mem_nil, or_false] at hm
        rcases hm with rfl | rfl | rfl <;> cases h
    · cases h
  noEmptyAlternative := by
    intro p hp h
    rcases amb_prods hp with rfl | rfl | rfl
    · cases h
    · cases h with
      | sequence hm h =>
        simp only [List.mem_cons, List.not_mem_nil, or_false] at hm
        rcases hm with rfl | rfl | rfl <;> cases h
    · cases h
  noEpsilonInSequence := by
    intro p hp ps h
    rcases amb_prods hp with rfl | rfl | rfl
    · cases h
    · cases h with
      | here => simp
      | sequence hm h =>
        simp only [List.mem_cons, List.not_mem_nil, or_false] at hm
        rcases hm with rfl | rfl | rfl <;> cases h
    · cases h
  entry := by
    have key : ∀ a b, NameCorner (ruleSet "s" sumTokens ambProds) a b → b = "n" ∨ b = "e" := by
      intro a b h
      have one : ∀ p ∈ (ruleSet "s" sumTokens ambProds).prods, ∀ b, BeginsWith p.pattern b → b = "n" ∨ b = "e" := by
        intro p hp b hb
        rcases amb_prods hp with rfl | rfl | rfl
        · cases hb; exact .inr rfl
        · cases hb with
          | sequence hb => cases hb; exact .inr rfl
        · cases hb; exact .inl rfl
      cases h with
      | one hp hb => exact one _ hp _ hb
      | more _ hp hb => exact one _ hp _ hb
    intro h
    rcases key _ _ h with h | h <;> exact absurd h (by decide)

theorem amb_unused : (ruleSet "s" sumTokens ambProds).EntryUnused := by
  have key : ∀ n, Mentions (.rule n) "s" → n = "s" := by
    intro n h
    generalize hs : "s" = m at h
    cases h
    rfl
  intro p hp h
  rcases amb_prods hp with rfl | rfl | rfl
  · exact absurd (key _ h) (by decide)
  · cases h with
    | sequence hm h =>
      simp only [List.mem_cons, List.not_mem_nil, or_false] at hm
      rcases hm with rfl | rfl | rfl <;> exact absurd (key _ h) (by decide)
  · exact absurd (key _ h) (by decide)

theorem amb_units : EpsFree ambGrammar ∧ NoUnitCycle ambGrammar := by
  refine ⟨by unfold EpsFree; decide, fun A h => ?_⟩
  have hno : ∀ A B, UnitRule ambGrammar A B → A = 0 ∧ B = 1 := by
    rintro A B ⟨r, hr, hl, h⟩
    simp [ambGrammar] at hr
    rcases hr with rfl | rfl | rfl <;> simp [strip] at h hl
    exact ⟨hl.symm, h.symm⟩
  have all : ∀ A B, UnitChain ambGrammar A B → A = 0 ∧ B = 1 := by
    intro A B h
    induction h with
    | one h => exact hno _ _ h
    | more h _ ih =>
      have := (hno _ _ h).2
      omega
  have := all A A h
  omega

theorem amb_files (tb : LRTable) (p : GlrProg) (hp : genGlr ambGrammar tb = .ok p) : ∃ toks text, GlrParserFiles (ruleSet "s" sumTokens ambProds) ambGrammar sumTokens tb p toks text := by
  have hn : ∀ x ∈ (ruleSet "s" sumTokens ambProds).prods, x.name = "s" ∨ x.name = "e" := by
    intro x hx
    rcases amb_prods hx with rfl | rfl | rfl <;> simp
  refine C76_files _ ambGrammar ambGrammar_built (by decide) (by decide) ⟨fun n hn => (sum_names hn).2, ?_⟩ ?_ tb p hp sumTokens rfl (fun n hn => (sum_names hn).1) ?_ ?_ ?_ ?_
  · intro x hx
    rcases hn x hx with h | h <;> rw [h] <;> unfold IsWord <;> decide
  · intro x hx t ht
    rcases amb_prods hx with rfl | rfl | rfl <;> cases ht
  · simp only [ruleSet, sumTokens, List.map_cons, List.map_nil]
    unfold SameName
    decide
  · intro x hx
    rcases hn x hx with h | h <;> rw [h] <;> exact goodName_of (by decide)
  · intro x hx y hy h
    rcases hn x hx with h1 | h1 <;> rcases hn y hy with h2 | h2 <;> rw [h1, h2] at h ⊢ <;> revert h <;> unfold SameName <;> decide
  · intro x hx n h
    have := congrArg List.head? h
    rcases hn x hx with h1 | h1 <;> rw [h1] at this
    · exact absurd (show some 's' = some 'a' from this) (by decide)
    · exact absurd (show some 'e' = some 'a' from this) (by decide)

/-- is there a GLR parser? -/
def ambGlr : Bool :=
  match generateTable ambGrammar true .lalr 60 with
  | .ok (.allowedConflicts tb _) =>
    match genGlr ambGrammar tb with
    | .ok _ => true
    | _ => false
  | _ => false

/-- all conditions hold for this grammar, and the program panics for a text with two parse trees -/
example : ∃ t tb p toks lexer parser inp, generateLexer 20 sumTokens = .ok (.ok t) ∧ rustLexerFile sumTokens t = .ok lexer ∧
    GlrParserFiles (ruleSet "s" sumTokens ambProds) ambGrammar sumTokens tb p toks parser ∧ LRTableFor ambGrammar .lalr tb ∧
    TextFed glrToken lexer (· == "TkWs".toList) "1+1 +1".toList inp ∧ ∃ n, runGlrParser parser inp n = .error .panic := by
  obtain ⟨t, ht⟩ := Res.of_tables (r := generateLexer 20 sumTokens) (by decide +kernel)
  have h : ambGlr = true := by decide +kernel
  unfold ambGlr at h
  split at h
  · rename_i tb cs htb
    split at h
    · rename_i p hp
      have htb' : LRTableFor ambGrammar .lalr tb := ⟨true, 60, .inr ⟨cs, htb⟩⟩
      obtain ⟨toks, parser, hf⟩ := amb_files tb p hp
      have hw : ∀ r ∈ sumTokens, IsWord r.name.toList := fun r hr => (sum_names (List.mem_map.mpr ⟨r, hr, rfl⟩)).2
      obtain ⟨lexer, _, hl, _⟩ := (C74_written 20 sumTokens t ht).1 (fun r hr => goodName_not_bad (sum_names (List.mem_map.mpr ⟨r, hr, rfl⟩)).1)
      obtain ⟨inp, hin, _⟩ := C78_token_function glrToken ht hw sumTokens_nonempty hl hf.tokensFile (· == "TkWs".toList) (by decide) "1+1 +1".toList
      refine ⟨t, tb, p, toks, lexer, parser, inp, ht, hl, hf, htb', hin, ?_⟩
      obtain ⟨variants, hv, h⟩ := C78_glr_panics ht hl (· == "TkWs".toList) (by decide) _ hf hin sumTokens_useful sumTokens_nonempty amb_fine .lalr rfl (.inl amb_unused) htb'
        (by unfold DistinctRules; decide) (C54_without_empty_rules _ amb_units.1 amb_units.2).1 (C54_without_empty_rules _ amb_units.1 amb_units.2).2
      obtain ⟨ws, hws, hv'⟩ := glr_variants hf
      rw [sumTokens_variants] at hws
      cases hws
      rw [hv'] at hv
      cases hv
      refine h.mpr ?_
      obtain ⟨ts, h1, h2⟩ := sum_text "1+1 +1".toList [(0, ['1']), (1, ['+']), (0, ['1']), (1, ['+']), (0, ['1'])] 7 (by decide +kernel)
      let one : PTree (List Char) := .node ⟨1, [.t 0], 2⟩ [.leaf 0 ['1']]
      let plus : PTree (List Char) → PTree (List Char) → PTree (List Char) := fun a b => .node ⟨1, [.nt 1, .t 1, .nt 1], 1⟩ [a, .leaf 1 ['+'], b]
      let top : PTree (List Char) → PTree (List Char) := fun a => .node ⟨0, [.nt 1], 0⟩ [a]
      have h1' : IsParseTree ambGrammar.rules (.nt 1) one := .nonterm (r := ⟨1, [.t 0], 2⟩) (by simp [ambGrammar]) (.term .nil) .nil
      have h2' : ∀ a b, IsParseTree ambGrammar.rules (.nt 1) a → IsParseTree ambGrammar.rules (.nt 1) b → IsParseTree ambGrammar.rules (.nt 1) (plus a b) := by
        intro a b ha hb
        refine .nonterm (r := ⟨1, [.nt 1, .t 1, .nt 1], 1⟩) (by simp [ambGrammar]) ?_ .nil
        exact forest_append ha (.term hb)
      have h3' : ∀ a, IsParseTree ambGrammar.rules (.nt 1) a → IsParseTree ambGrammar.rules ambGrammar.entry (top a) := fun a ha => .nonterm (r := ⟨0, [.nt 1], 0⟩) (by simp [ambGrammar]) ha .nil
      refine ⟨ts, top (plus (plus one one) one), top (plus one (plus one one)), h1, ?_, ⟨h3' _ (h2' _ _ (h2' _ _ h1' h1') h1'), ?_⟩, ⟨h3' _ (h2' _ _ h1' (h2' _ _ h1' h1')), ?_⟩⟩
      · simp [top, plus, one]
      · rw [sum_skipped, h2]; rfl
      · rw [sum_skipped, h2]; rfl
    · cases h
  · cases h

end Verif
