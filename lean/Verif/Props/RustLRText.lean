import Verif.Proofs.RustLRFile
import Verif.Props.CppLRText
import Verif.Props.RustText

/-!
# C75: the text of the generated Rust LR parser is the modelled program

`Verif/Spec/RustSource.lean` says how Rust text is read and run, `Verif/Spec/RustLRText.lean` what the statements in `parser.rs` mean. C28 to C33 are about the modelled program `lrParse`.
-/

set_option autoImplicit false

namespace Verif

variable {T : Type}

/-! ## Names of tokens and non-terminals -/

theorem getD_at {l : List (List Char)} {i : Nat} (hi : i < l.length) : l.getD i [] = l[i] := by
  rw [List.getD, List.getElem?_eq_getElem hi, Option.getD_some]

theorem getD_inj {l : List (List Char)} (hd : l.Nodup) (hne : ∀ w ∈ l, w ≠ []) {i : Nat} (hi : i < l.length) (j : Nat) : l.getD j [] = l.getD i [] ↔ j = i := by
  refine ⟨fun h => ?_, fun h => by rw [h]⟩
  rw [getD_at hi] at h
  by_cases hj : j < l.length
  · rw [getD_at hj] at h
    exact (List.Nodup.getElem_inj_iff hd).mp h
  · rw [List.getD, List.getElem?_eq_none (by omega), Option.getD_none] at h
    exact absurd h.symm (hne _ (List.getElem_mem hi))

theorem tokenEnum_ne {n w : List Char} (h : tokenEnumName n = .ok w) : w ≠ [] := by
  unfold tokenEnumName at h
  obtain ⟨c, _, h⟩ := res_bind_ok.mp h
  cases h
  simp

section
variable {rs : RuleSet} {g : Grammar} (hg : Grammar.fromRuleSet rs = .ok g) (hrt : rs.tokens.length ≤ 65536)

include hg hrt in
theorem token_below {a : Nat} (h : Sym.t a ∈ g.terminals) : a < rs.tokens.length := by
  obtain ⟨base, pats, ok⟩ := grammarOk hg
  obtain ⟨x, hx, e⟩ := List.mem_map.mp h
  have h1 := mem_mget? ok.tokS (k := x.1) (v := x.2) hx
  obtain ⟨k, hk, e2⟩ := (ok.tokK x.1).mp (by rw [h1]; rfl)
  rw [Nat.mod_eq_of_lt (by unfold u16Size; omega), e] at e2
  cases e2
  exact hk

include hg in
theorem terminals_t {s : Sym} (h : s ∈ g.terminals) : ∃ a, s = .t a := by
  obtain ⟨base, pats, ok⟩ := grammarOk hg
  obtain ⟨x, hx, e⟩ := List.mem_map.mp h
  have h1 := mem_mget? ok.tokS (k := x.1) (v := x.2) hx
  obtain ⟨k, _, e2⟩ := (ok.tokK x.1).mp (by rw [h1]; rfl)
  exact ⟨_, e ▸ e2⟩

variable {rules : List TokenRule} (hrs : rs.tokens = rules.map (·.name)) {ws : List (List Char)} (hws : rules.mapM (fun r => tokenEnumName r.name.toList) = .ok ws)

include hg hrt hrs hws in
theorem tokNames_of : TokNames g ("EndOfFile".toList :: ws) := by
  refine ⟨rfl, fun a f hf => ?_⟩
  unfold rustTokenIdent Grammar.tokenName at hf
  cases hn : mget? (Sym.t a) g.tokens with
  | none => rw [hn] at hf; cases hf
  | some name =>
    rw [hn] at hf
    have hk : a < rs.tokens.length := token_below hg hrt (List.mem_map.mpr ⟨_, mget?_mem hn, rfl⟩)
    obtain ⟨base, pats, ok⟩ := grammarOk hg
    have h1 := ok.tokN hrt a hk
    rw [hn, hrs, List.getElem?_map] at h1
    cases hr : rules[a]? with
    | none => rw [hr] at h1; cases h1
    | some r =>
      rw [hr] at h1
      cases h1
      obtain ⟨w, h2, h3⟩ := (mapM_ok _ _ hws).2 a r hr
      dsimp only [bind, Except.bind] at hf
      rw [h3] at hf
      cases hf
      simp [tokVariant, List.getD, h2]

include hws in
theorem symFits_of (hd : ("EndOfFile".toList :: ws).Nodup) {s : Sym} (hs : ∀ a, s = .t a → a < rules.length) : SymFits ("EndOfFile".toList :: ws) s := by
  have hne : ∀ w ∈ "EndOfFile".toList :: ws, w ≠ [] := by
    intro w hw
    rcases List.mem_cons.mp hw with rfl | hw
    · decide
    · obtain ⟨r, _, hr⟩ := mem_mapM hws w hw
      exact tokenEnum_ne hr
  have hlen := (mapM_ok _ _ hws).1
  have hlen' : ("EndOfFile".toList :: ws).length = rules.length + 1 := by rw [List.length_cons, hlen]
  have key : ∀ i, i < rules.length + 1 → ∀ j, ("EndOfFile".toList :: ws).getD j [] = ("EndOfFile".toList :: ws).getD i [] ↔ j = i := fun i hi j => getD_inj hd hne (by omega) j
  have key0 : ∀ i, i < rules.length + 1 → [] ≠ ("EndOfFile".toList :: ws).getD i [] := by
    intro i hi e
    rw [getD_at (by omega)] at e
    exact hne _ (List.getElem_mem _) e.symm
  intro w hw tk
  cases s with
  | t a =>
    cases hw
    have ha := hs a rfl
    cases tk with
    | tok b => exact (key (a + 1) (by omega) (b + 1)).trans (by simp [Tok.sym])
    | eof => exact (key (a + 1) (by omega) 0).trans (by simp [Tok.sym])
    | err => exact ⟨fun h => absurd h (key0 _ (by omega)), fun h => by cases h⟩
  | eof =>
    cases hw
    cases tk with
    | tok b => exact (key 0 (by omega) (b + 1)).trans (by simp [Tok.sym])
    | eof => exact (key 0 (by omega) 0).trans (by simp [Tok.sym])
    | err => exact ⟨fun h => absurd h (key0 _ (by omega)), fun h => by cases h⟩
  | nt A => cases hw
  | eps => cases hw

theorem nonTerminals_nt {s : Sym} (hg : Grammar.fromRuleSet rs = .ok g) (h : s ∈ g.nonTerminals) : ∃ A, s = .nt A := by
  obtain ⟨base, pats, ok⟩ := grammarOk hg
  rcases List.mem_append.mp h with h | h
  · obtain ⟨x, hx, e⟩ := List.mem_map.mp h
    have h1 := mem_mget? ok.prodS (k := x.1) (v := x.2) hx
    obtain ⟨A, e2, _⟩ := ok.prodK x.1 (by rw [h1]; rfl)
    exact ⟨A, e ▸ e2⟩
  · rw [ok.anon] at h
    obtain ⟨A, _, e⟩ := List.mem_map.mp h
    exact ⟨A, e.symm⟩

theorem ntFits_of (hd : (g.nonTerminals.map fun s => rNtV g s.index).Nodup) : NtFits g := by
  intro A B hA hB e
  obtain ⟨i, hi, h1⟩ := List.getElem_of_mem hA
  obtain ⟨j, hj, h2⟩ := List.getElem_of_mem hB
  have : (g.nonTerminals.map fun s => rNtV g s.index)[i]'(by simpa using hi) = (g.nonTerminals.map fun s => rNtV g s.index)[j]'(by simpa using hj) := by
    rw [List.getElem_map, List.getElem_map, h1, h2]
    exact e
  have hij := (List.Nodup.getElem_inj_iff hd).mp this
  subst hij
  rw [h1] at h2
  cases h2
  rfl

end

theorem prog_syms {g : Grammar} {tb : LRTable} {p : LRProg} (h : genRust g tb = .ok p) :
    (∀ y ∈ p.actions, ∀ x ∈ y.1, x.1 ∈ g.terminals ++ [Sym.eof]) ∧ ∀ y ∈ p.gotos, ∀ x ∈ y, x.1 ∈ g.terminals ++ g.nonTerminals := by
  unfold genRust at h
  obtain ⟨acts, ha, h⟩ := res_bind_ok.mp h
  obtain ⟨gts, hg, h⟩ := res_bind_ok.mp h
  simp only [Except.ok.injEq] at h
  subst h
  constructor
  · intro y hy x hx
    obtain ⟨q, _, hq⟩ := mem_mapM ha y hy
    obtain ⟨_, h1, _⟩ := actionArms_ok _ _ _ hq
    rw [h1, List.nil_append] at hx
    obtain ⟨s, h2, h3⟩ := List.mem_filterMap.mp hx
    cases hs : actOf tb q s with
    | none => rw [hs] at h3; cases h3
    | some a => rw [hs] at h3; cases h3; exact h2
  · intro y hy x hx
    obtain ⟨q, _, hq⟩ := mem_mapM hg y hy
    obtain ⟨_, h1⟩ := gotoArms_ok _ _ _ hq
    rw [h1, List.nil_append] at hx
    obtain ⟨s, h2, h3⟩ := List.mem_filterMap.mp hx
    by_cases he : s = .eof
    · rw [if_pos he] at h3; cases h3
    · rw [if_neg he] at h3
      cases hs : gotoOf tb q s with
      | none => rw [hs] at h3; cases h3
      | some a =>
        rw [hs] at h3
        cases h3
        simp only [List.mem_append, List.mem_singleton] at h2 ⊢
        tauto

/-! ## C75 -/

/-- The file `parser.rs`, with the file `tokens.rs`, made for a grammar: rules of tokens, a table, the program of the table. The names are words, and the files are such that an `enum` in them
has no variant twice (otherwise `rustc` rejects them; C42 says when that is so). -/
structure RustParserFiles (rs : RuleSet) (g : Grammar) (rules : List TokenRule) (tb : LRTable) (p : LRProg) (toks text : List Char) : Prop where
  grammar : Grammar.fromRuleSet rs = .ok g
  tokens : rs.tokens = rules.map (·.name)
  fewTokens : rs.tokens.length ≤ 65536
  fewProds : rs.prods.length ≤ 65536
  words : rs.WordNames
  tagWords : TagWords rs
  program : genRust g tb = .ok p
  tokensFile : rustTokensFile rules = .ok toks
  parserFile : rustParserFile rs g p = .ok text
  tokensOnce : ∀ vs, rustEnum "TokenType".toList toks = some vs → vs.Nodup
  ntsOnce : ∀ vs, rustEnum "NonTerminalType".toList text = some vs → vs.Nodup

section
variable {rs : RuleSet} {g : Grammar} {rules : List TokenRule} {tb : LRTable} {p : LRProg} {toks text : List Char} (hf : RustParserFiles rs g rules tb p toks text)

include hf in
theorem RustParserFiles.gwords : g.WordNames := wordNames hf.grammar hf.fewTokens hf.fewProds hf.words

include hf in
theorem rust_variants : ∃ ws, rules.mapM (fun r => tokenEnumName r.name.toList) = .ok ws ∧ rustEnum "TokenType".toList toks = some ("EndOfFile".toList :: ws) := by
  refine tokens_file_rust ?_ hf.tokensFile
  intro r hr
  exact hf.words.1 r.name (by rw [hf.tokens]; exact List.mem_map.mpr ⟨r, hr, rfl⟩)

include hf in
/-- C75. The text of `parser.rs`, read as Rust: `parse`, run statement by statement, with the functions it calls taken from the same text, does on every input what the modelled program does:
it calls the visitor in the same way, asks for the same number of tokens, and returns `Ok` or the error with the token and the expected ones, or panics. The tokens are the variants of the `enum`
in `tokens.rs`. -/
theorem C75_parser_text : ∃ variants, rustEnum "TokenType".toList toks = some variants ∧ variants.length = rs.tokens.length + 1 ∧
    ∀ (input : Nat → Tok × T) (n : Nat), runRustParser text (fun i => (tokVariant variants (input i).1, (input i).2)) n = rustOutcome variants (ruleVisits rs g) input (lrParse p.machine input n) := by
  obtain ⟨ws, hws, hv⟩ := rust_variants hf
  have hnd := hf.tokensOnce _ hv
  refine ⟨_, hv, by rw [List.length_cons, (mapM_ok _ _ hws).1, hf.tokens, List.length_map], ?_⟩
  have hgw := hf.gwords
  have hlen : rs.tokens.length = rules.length := by rw [hf.tokens, List.length_map]
  have hnt := ntFits_of (hf.ntsOnce _ (parser_nts hgw hf.tagWords hf.parserFile))
  obtain ⟨s1, s2⟩ := prog_syms hf.program
  have hred := (genRust_spec hf.program).reductions
  have wf := C19_well_formed _ _ hf.grammar
  refine fun input n => parser_run hgw hf.tagWords hf.parserFile (tokNames_of hf.grammar hf.fewTokens hf.tokens hws) hnt ?_ ?_ ?_ ?_ input n
  · intro y hy x hx
    refine symFits_of hws hnd fun a ha => ?_
    have := s1 y hy x hx
    rw [ha] at this
    rcases List.mem_append.mp this with h | h
    · rw [← hlen]; exact token_below hf.grammar hf.fewTokens h
    · simp at h
  · intro y hy x hx
    have := s2 y hy x hx
    constructor
    · refine symFits_of hws hnd fun a ha => ?_
      rw [ha] at this
      rcases List.mem_append.mp this with h | h
      · rw [← hlen]; exact token_below hf.grammar hf.fewTokens h
      · obtain ⟨A, e⟩ := nonTerminals_nt hf.grammar h
        cases e
    · intro A hA
      rw [hA] at this
      rcases List.mem_append.mp this with h | h
      · obtain ⟨a, e⟩ := terminals_t hf.grammar h
        cases e
      · exact h
  · rw [hred, List.length_map]
  · intro x hx
    rw [hred] at hx
    obtain ⟨r, hr, rfl⟩ := List.mem_map.mp hx
    exact wf.lhs_declared r hr

include hf in
/-- the declarations in the text: `Visitor` has `shift` and one method for each rule, `NonTerminalType` one variant for each non-terminal, `ReducedRule` one for each rule -/
theorem C75_declared : rustTrait "Visitor".toList text = some ("shift".toList :: visitorMethods rs g) ∧
    (∃ vs, rustEnum "NonTerminalType".toList text = some vs ∧ vs.length = g.nonTerminals.length) ∧
    rustEnum "ReducedRule".toList text = some ((List.range g.rules.length).map fun i => "Rule".toList ++ decimal i) := by
  refine ⟨parser_trait hf.gwords hf.tagWords hf.parserFile, ⟨_, parser_nts hf.gwords hf.tagWords hf.parserFile, by rw [List.length_map]⟩, ?_⟩
  rw [parser_rules hf.gwords hf.tagWords hf.parserFile, (genRust_spec hf.program).reductions, List.length_map]

/-- the method called for a rule is its callback, as C41 has it -/
theorem C75_calls (rs : RuleSet) (g : Grammar) (variants : List (List Char)) (i : Nat) (x : List Char) :
    visitOf (T := T) variants (ruleVisits rs g) (.reduce i) = .call x ∧ i < g.rules.length ↔ IsCallback rs g i x := by
  rw [← (C41_visits rs g).2.2]
  constructor
  · rintro ⟨h, hi⟩
    obtain ⟨name, hn⟩ := ((C41_visits rs g).2.1 i).mp hi
    cases hfi : (ruleVisits rs g).find? (fun x => x.1 = i) with
    | none =>
      have := List.find?_eq_none.mp hfi _ hn
      simp at this
    | some y =>
      simp only [visitOf, hfi, Option.map_some, Option.getD_some, RVisit.call.injEq] at h
      have h1 := List.mem_of_find?_eq_some hfi
      have h2 := List.find?_some hfi
      simp only [decide_eq_true_eq] at h2
      rw [← h, ← h2]
      exact h1
  · intro h
    refine ⟨?_, ((C41_visits rs g).2.1 i).mpr ⟨x, h⟩⟩
    cases hfi : (ruleVisits rs g).find? (fun x => x.1 = i) with
    | none =>
      have := List.find?_eq_none.mp hfi _ h
      simp at this
    | some y =>
      have h1 := List.mem_of_find?_eq_some hfi
      have h2 := List.find?_some hfi
      simp only [decide_eq_true_eq] at h2
      obtain ⟨j, name⟩ := y
      cases h2
      obtain ⟨r1, e1, rfl⟩ := mem_ruleVisits.mp h1
      obtain ⟨r2, e2, rfl⟩ := mem_ruleVisits.mp h
      rw [e1] at e2
      cases e2
      simp [visitOf, hfi]

include hf in
/-- so the text of an LR(1) parser returns `Ok` exactly on the sentences -/
theorem C75_decides (hne : NoEmptyRhs g) (hel : EpsLeading g) (hl : EntryNotLeftRecursive g) (htb : LRTableFor g .lr1 tb) (w : List (Nat × T)) (input : Nat → Tok × T) (hst : StreamIs input w) :
    ∃ variants, rustEnum "TokenType".toList toks = some variants ∧
      ((∃ n visits calls, runRustParser text (fun i => (tokVariant variants (input i).1, (input i).2)) n = .ok (.ok, visits, calls)) ↔ Derives g.rules [g.entry] (w.map (·.1))) := by
  obtain ⟨variants, h1, _, h2⟩ := C75_parser_text (T := T) hf
  refine ⟨variants, h1, ?_⟩
  have hpf : LRParserFor g .lr1 p := by
    obtain ⟨allow, n, h⟩ := htb
    exact ⟨allow, n, tb, h, hf.program⟩
  rw [← C30_lr1_decides g (C19_well_formed _ _ hf.grammar) hne hel hl p hpf w input hst]
  constructor
  · rintro ⟨n, visits, calls, h⟩
    rw [h2] at h
    cases hr : lrParse p.machine input n with
    | ok events pos => exact ⟨n, events, pos, hr⟩
    | unexpected events pos expected => rw [hr] at h; cases h
    | panic => rw [hr] at h; cases h
    | running => rw [hr] at h; cases h
  · rintro ⟨n, events, pos, h⟩
    exact ⟨n, _, _, by rw [h2, h]; rfl⟩

end

/-! ## When the file is written -/

section
variable {rs : RuleSet} {g : Grammar} (hg : Grammar.fromRuleSet rs = .ok g) (hrt : rs.tokens.length ≤ 65536) (hpr : rs.prods.length ≤ 65536)

include hg hrt in
theorem tokenIdent_ok (hb : ∀ n ∈ rs.tokens, ¬ BadSegment n.toList) {a : Nat} (h : Sym.t a ∈ g.terminals) : ∃ f, rustTokenIdent g a = .ok f := by
  have hk := token_below hg hrt h
  obtain ⟨base, pats, ok⟩ := grammarOk hg
  have h1 := ok.tokN hrt a hk
  rw [List.getElem?_eq_getElem hk] at h1
  obtain ⟨w, hw⟩ := tokenEnum_ok (hb _ (List.getElem_mem hk))
  refine ⟨.word w .nil, ?_⟩
  unfold rustTokenIdent Grammar.tokenName
  rw [h1]
  dsimp only [bind, Except.bind]
  rw [hw]

include hg hpr in
theorem ntIdent_ok (hb : ∀ x ∈ rs.prods, ¬ BadSegment x.name.toList) (A : Nat) : ∃ f, rustNtIdent g A = .ok f := by
  unfold rustNtIdent ntEnumName
  cases hn : g.productionName (.nt A) with
  | none => exact ⟨_, rfl⟩
  | some n =>
    obtain ⟨_, x, hx, e⟩ := named hg hpr hn
    cases hc : upperCamel n.toList with
    | ok c => exact ⟨_, by simp only [hc]; rfl⟩
    | error e' =>
      cases e' with
      | panic => exact absurd ((C42_panics n.toList).1.mp hc) (e ▸ hb x hx)
      | fuel => exact absurd hc (C42_panics n.toList).2

variable {tb : LRTable} {p : LRProg} (hp : genRust g tb = .ok p)

theorem prog_expected (hp : genRust g tb = .ok p) : ∀ y ∈ p.actions, ∀ s ∈ y.2, s ∈ g.terminals ++ [Sym.eof] := by
  unfold genRust at hp
  obtain ⟨acts, ha, hp⟩ := res_bind_ok.mp hp
  obtain ⟨gts, hg, hp⟩ := res_bind_ok.mp hp
  simp only [Except.ok.injEq] at hp
  subst hp
  intro y hy x hx
  obtain ⟨q, _, hq⟩ := mem_mapM ha y hy
  obtain ⟨_, _, h1⟩ := actionArms_ok _ _ _ hq
  rw [h1, List.nil_append] at hx
  exact (List.mem_filter.mp hx).1

/-- The file is written if no name has an empty segment or one that begins with a char outside ASCII; it is not written if the name of a production has one. -/
theorem C75_written (rs : RuleSet) (g : Grammar) (hg : Grammar.fromRuleSet rs = .ok g) (hrt : rs.tokens.length ≤ 65536) (hpr : rs.prods.length ≤ 65536) (tb : LRTable) (p : LRProg)
    (hp : genRust g tb = .ok p) :
    ((∀ n ∈ rs.tokens, ¬ BadSegment n.toList) → (∀ x ∈ rs.prods, ¬ BadSegment x.name.toList) → ∃ text, rustParserFile rs g p = .ok text) ∧
    ((∃ x ∈ rs.prods, BadSegment x.name.toList) → ∀ text, rustParserFile rs g p ≠ .ok text) := by
  have wf := C19_well_formed _ _ hg
  constructor
  · intro hb1 hb2
    obtain ⟨s1, s2⟩ := prog_syms hp
    have s3 := prog_expected hp
    have m1 : ∃ fs, rustMethods rs g = .ok fs := by
      have : ∃ fss, ((rulesByNt g).mapM fun e => e.2.zipIdx.mapM fun r => rustMethod rs g e.1 e.2.length r.2 r.1) = .ok fss := by
        refine mapM_total _ fun e he => mapM_total _ fun r hr => ?_
        have hv : (r.1, callbackName rs g e.1 e.2.length r.2 r.1) ∈ ruleVisits rs g := List.mem_flatMap.mpr ⟨e, he, List.mem_map.mpr ⟨r, hr, rfl⟩⟩
        obtain ⟨rule, h1, _⟩ := mem_ruleVisits.mp hv
        obtain ⟨t, ht⟩ := ruleText_ok wf (List.mem_of_getElem? h1)
        exact ⟨_, by simp only [rustMethod, h1, ht]; rfl⟩
      obtain ⟨fss, h⟩ := this
      exact ⟨_, by unfold rustMethods; rw [h]; rfl⟩
    have m2 : ∃ fs, p.actions.zipIdx.mapM (rustStateActions g) = .ok fs := by
      refine mapM_total _ fun y hy => ?_
      have hy' := List.mem_zipIdx' hy
      have hya : y.1 ∈ p.actions := by rw [hy'.2]; exact List.getElem_mem _
      have a1 : ∃ fs, y.1.1.mapM (rustActionArm g y.2) = .ok fs := by
        refine mapM_total _ fun x hx => ?_
        have := s1 _ hya x hx
        obtain ⟨s, a⟩ := x
        cases s with
        | t b =>
          obtain ⟨f, hf⟩ := tokenIdent_ok hg hrt hb1 (a := b) (by simpa using this)
          exact ⟨_, by simp only [rustActionArm, hf]; rfl⟩
        | _ => exact ⟨_, rfl⟩
      have a2 : ∃ fs, y.1.2.mapM (rustExpected g) = .ok fs := by
        refine mapM_total _ fun x hx => ?_
        have := s3 _ hya x hx
        cases x with
        | t b =>
          obtain ⟨f, hf⟩ := tokenIdent_ok hg hrt hb1 (a := b) (by simpa using this)
          exact ⟨_, by simp only [rustExpected, hf]; rfl⟩
        | _ => exact ⟨_, rfl⟩
      obtain ⟨fs, h1⟩ := a1
      obtain ⟨es, h2⟩ := a2
      exact ⟨_, by unfold rustStateActions; rw [h1, res_bind_of_ok, h2]; rfl⟩
    have m3 : ∃ fs, p.gotos.zipIdx.mapM (rustStateGotos g) = .ok fs := by
      refine mapM_total _ fun y hy => ?_
      have hy' := List.mem_zipIdx' hy
      have hya : y.1 ∈ p.gotos := by rw [hy'.2]; exact List.getElem_mem _
      have a1 : ∃ fs, y.1.mapM (rustGotoArm g y.2) = .ok fs := by
        refine mapM_total _ fun x hx => ?_
        have := s2 _ hya x hx
        obtain ⟨s, a⟩ := x
        cases s with
        | t b =>
          have hb : Sym.t b ∈ g.terminals := by
            rcases List.mem_append.mp this with h | h
            · exact h
            · obtain ⟨A, e⟩ := nonTerminals_nt hg h
              cases e
          obtain ⟨f, hf⟩ := tokenIdent_ok hg hrt hb1 hb
          exact ⟨_, by simp only [rustGotoArm, hf]; rfl⟩
        | nt A =>
          obtain ⟨f, hf⟩ := ntIdent_ok hg hpr hb2 A
          exact ⟨_, by simp only [rustGotoArm, hf]; rfl⟩
        | _ => exact ⟨_, rfl⟩
      obtain ⟨fs, h1⟩ := a1
      exact ⟨_, by unfold rustStateGotos; rw [h1]; rfl⟩
    have m4 : ∃ fs, g.nonTerminals.mapM (rustNtVariant g) = .ok fs := by
      refine mapM_total _ fun s hs => ?_
      obtain ⟨A, rfl⟩ := nonTerminals_nt hg hs
      exact ntIdent_ok hg hpr hb2 A
    have m5 : ∃ fs, p.reductions.zipIdx.mapM (rustReduction g) = .ok fs := by
      refine mapM_total _ fun x _ => ?_
      obtain ⟨f, hf⟩ := ntIdent_ok hg hpr hb2 x.1.2
      exact ⟨_, by unfold rustReduction; rw [hf]; rfl⟩
    obtain ⟨f1, h1⟩ := m1
    obtain ⟨f2, h2⟩ := m2
    obtain ⟨f3, h3⟩ := m3
    obtain ⟨f4, h4⟩ := m4
    obtain ⟨f5, h5⟩ := m5
    exact ⟨_, by unfold rustParserFile; rw [h1, res_bind_of_ok, h2, res_bind_of_ok, h3, res_bind_of_ok, h4, res_bind_of_ok, h5]; rfl⟩
  · rintro ⟨x, hx, hbad⟩ text h
    unfold rustParserFile at h
    obtain ⟨_, _, h⟩ := res_bind_ok.mp h
    obtain ⟨_, _, h⟩ := res_bind_ok.mp h
    obtain ⟨_, _, h⟩ := res_bind_ok.mp h
    obtain ⟨fs, h4, h⟩ := res_bind_ok.mp h
    obtain ⟨base, pats, ok⟩ := grammarOk hg
    obtain ⟨A, _, h1, _⟩ := ok.prod x hx
    have h2 := (ok.prodN hpr _ _).mpr h1
    have hm : Sym.nt A ∈ g.nonTerminals := List.mem_append_left _ (List.mem_map.mpr ⟨_, mget?_mem h2, rfl⟩)
    obtain ⟨i, hi, e⟩ := List.getElem_of_mem hm
    obtain ⟨y, _, hy⟩ := (mapM_ok _ _ h4).2 i (.nt A) (by rw [List.getElem?_eq_getElem hi, e])
    have hpn : g.productionName (.nt A) = some x.name := h2
    simp only [rustNtVariant, rustNtIdent, ntEnumName, hpn, (C42_panics x.name.toList).1.mpr hbad] at hy
    cases hy

/-- The conditions of C75 are met when all names are words with segments that begin with letters, names of tokens and names of productions are not equal up to case, and no production is named
`anon` and a number. -/
theorem C75_files (rs : RuleSet) (g : Grammar) (hg : Grammar.fromRuleSet rs = .ok g) (hrt : rs.tokens.length ≤ 65536) (hpr : rs.prods.length ≤ 65536) (hw : rs.WordNames) (hta : TagWords rs)
    (tb : LRTable) (p : LRProg) (hp : genRust g tb = .ok p) (rules : List TokenRule) (hrs : rs.tokens = rules.map (·.name)) (hgt : ∀ n ∈ rs.tokens, GoodName n.toList)
    (hst : rs.tokens.Pairwise (fun a b => ¬ SameName a.toList b.toList)) (hgp : ∀ p ∈ rs.prods, GoodName p.name.toList)
    (hsp : ∀ p ∈ rs.prods, ∀ q ∈ rs.prods, SameName p.name.toList q.name.toList → p.name = q.name)
    (ha : ∀ p ∈ rs.prods, ∀ n, ¬ SameName p.name.toList ("anon".toList ++ decimal n)) : ∃ toks text, RustParserFiles rs g rules tb p toks text := by
  obtain ⟨text, htext⟩ := (C75_written rs g hg hrt hpr tb p hp).1 (fun n hn => goodName_not_bad (hgt n hn)) (fun x hx => goodName_not_bad (hgp x hx))
  obtain ⟨vs, h1, _, h3⟩ := C42_rust_tokens (names := rules.map fun r => r.name.toList) (by
    intro n hn
    obtain ⟨r, hr, rfl⟩ := List.mem_map.mp hn
    exact hgt _ (by rw [hrs]; exact List.mem_map.mpr ⟨r, hr, rfl⟩))
  have hvs : vs.Nodup := h3.mpr (by
    rw [hrs, List.pairwise_map] at hst
    rw [List.pairwise_map]
    exact hst)
  unfold rustTokenVariants at h1
  obtain ⟨ws, h4, h5⟩ := res_bind_ok.mp h1
  cases h5
  rw [List.mapM_map] at h4
  have htoks : ∃ toks, rustTokensFile rules = .ok toks := by
    unfold rustTokensFile
    exact ⟨_, by rw [show rules.mapM (fun r => tokenEnumName r.name.toList) = .ok ws from h4]; rfl⟩
  obtain ⟨toks, htoks⟩ := htoks
  refine ⟨toks, text, hg, hrs, hrt, hpr, hw, hta, hp, htoks, htext, ?_, ?_⟩
  · intro us hus
    obtain ⟨ws', h6, h7⟩ := tokens_file_rust (rules := rules) (fun r hr => hw.1 r.name (by rw [hrs]; exact List.mem_map.mpr ⟨r, hr, rfl⟩)) htoks
    rw [show rules.mapM (fun r => tokenEnumName r.name.toList) = .ok ws from h4] at h6
    cases h6
    rw [h7] at hus
    cases hus
    exact hvs
  · intro us hus
    rw [parser_nts (wordNames hg hrt hpr hw) hta htext] at hus
    cases hus
    have wf := C19_well_formed _ _ hg
    refine (List.nodup_map_iff_inj_on wf.nodup).mpr ?_
    intro x hx y hy e
    obtain ⟨A, rfl⟩ := nonTerminals_nt hg hx
    obtain ⟨B, rfl⟩ := nonTerminals_nt hg hy
    obtain ⟨vA, hA⟩ := (C42_non_terminals hg hpr hgp hsp ha A A).1
    obtain ⟨vB, hB⟩ := (C42_non_terminals hg hpr hgp hsp ha B B).1
    simp only [rNtV, Sym.index, hA, hB] at e
    rw [(C42_non_terminals hg hpr hgp hsp ha A B).2 (by rw [hA, hB, e])]
end

/-! ## Cases -/

def wordTokens : List TokenRule := [⟨"lp", none, .literal ['(']⟩, ⟨"rp", none, .literal [')']⟩, ⟨"x", none, .literal ['x']⟩]

/-- `wordRules` with a tag -/
def nestedRules : RuleSet := { wordRules with prods := [⟨"s", some "nested", .sequence [.rule "lp", .rule "s", .rule "rp"]⟩, ⟨"s", none, .rule "x"⟩] }

theorem nestedRules_built : Grammar.fromRuleSet nestedRules = .ok wordGrammar := GRes.of_same (by decide)

theorem nested_prods {x : ProdRule} (hx : x ∈ nestedRules.prods) : x.name = "s" := by
  simp only [nestedRules, List.mem_cons, List.not_mem_nil, or_false] at hx
  rcases hx with rfl | rfl <;> rfl

/-- the conditions of C75 for this grammar -/
theorem nested_files (tb : LRTable) (p : LRProg) (hp : genRust wordGrammar tb = .ok p) : ∃ toks text, RustParserFiles nestedRules wordGrammar wordTokens tb p toks text := by
  refine C75_files nestedRules wordGrammar nestedRules_built (by decide) (by decide) ⟨wordRules_words.1, ?_⟩ ?_ tb p hp wordTokens rfl ?_ ?_ ?_ ?_ ?_
  · intro x hx
    rw [nested_prods hx]
    unfold IsWord; decide
  · intro x hx t ht
    simp only [nestedRules, List.mem_cons, List.not_mem_nil, or_false] at hx
    rcases hx with rfl | rfl
    · cases ht; unfold IsWord; decide
    · cases ht
  · intro n hn
    simp only [nestedRules, wordRules, List.mem_cons, List.not_mem_nil, or_false] at hn
    rcases hn with rfl | rfl | rfl <;> exact goodName_of (by decide)
  · simp only [nestedRules, wordRules]
    unfold SameName
    decide
  · intro x hx
    rw [nested_prods hx]
    exact goodName_of (by decide)
  · intro x hx y hy _
    rw [nested_prods hx, nested_prods hy]
  · intro x hx n h
    rw [nested_prods hx] at h
    have := congrArg List.length h
    simp at this

/-- what the program made of this grammar does on two inputs -/
def wordRust : Bool :=
  match generateTable wordGrammar false .lr1 60 with
  | .ok (.noConflicts tb) =>
    match genRust wordGrammar tb with
    | .ok p => decide (lrParse p.machine (streamOf [0, 2, 1]) 20 = .ok [.shift (.tok 0) (), .shift (.tok 2) (), .reduce 1, .shift (.tok 1) (), .reduce 0] 3) &&
          decide (lrParse p.machine (streamOf [0, 2]) 20 = .unexpected [.shift (.tok 0) (), .shift (.tok 2) ()] 2 [.t 1])
    | _ => false
  | _ => false

/-- the text of the file, run on a sentence and on an input that is none -/
example : ∃ tb p toks text, LRTableFor wordGrammar .lr1 tb ∧ RustParserFiles nestedRules wordGrammar wordTokens tb p toks text ∧
    runRustParser text (fun i => (["TkLp".toList, "TkX".toList, "TkRp".toList].getD i "EndOfFile".toList, ())) 20 =
      .ok (.ok, [.shift "TkLp".toList (), .shift "TkX".toList (), .call "reduce_s_2".toList, .shift "TkRp".toList (), .call "reduce_s_nested".toList], 4) ∧
    runRustParser text (fun i => (["TkLp".toList, "TkX".toList].getD i "EndOfFile".toList, ())) 20 =
      .ok (.unexpected "EndOfFile".toList ["TkRp".toList], [.shift "TkLp".toList (), .shift "TkX".toList ()], 3) := by
  have h : wordRust = true := by decide +kernel
  unfold wordRust at h
  split at h
  · rename_i tb ht
    split at h
    · rename_i p hp
      rw [Bool.and_eq_true, decide_eq_true_eq, decide_eq_true_eq] at h
      obtain ⟨h1, h2⟩ := h
      obtain ⟨toks, text, hf⟩ := nested_files tb p hp
      obtain ⟨ws, hws, hv⟩ := rust_variants hf
      obtain ⟨vs, hv', _, key⟩ := C75_parser_text (T := Unit) hf
      rw [hv] at hv'
      cases hv'
      have hws' : wordTokens.mapM (fun r => tokenEnumName r.name.toList) = .ok ["TkLp".toList, "TkRp".toList, "TkX".toList] := by decide +kernel
      rw [hws'] at hws
      cases hws
      refine ⟨tb, p, toks, text, ⟨false, 60, .inl ht⟩, hf, ?_, ?_⟩
      · have := key (streamOf [0, 2, 1]) 20
        rw [h1] at this
        refine Eq.trans (congrArg (fun f => runRustParser text f 20) ?_) (this.trans (by decide +kernel))
        funext i
        match i with
        | 0 => rfl
        | 1 => rfl
        | 2 => rfl
        | i + 3 => rfl
      · have := key (streamOf [0, 2]) 20
        rw [h2] at this
        refine Eq.trans (congrArg (fun f => runRustParser text f 20) ?_) (this.trans (by decide +kernel))
        funext i
        match i with
        | 0 => rfl
        | 1 => rfl
        | i + 2 => rfl
    · cases h
  · cases h

-- the other conditions of C75_decides are those of C73_decides, shown there for this grammar

end Verif
