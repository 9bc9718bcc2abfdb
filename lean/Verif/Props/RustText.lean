import Verif.Proofs.RustLexText
import Verif.Props.Lexer
import Verif.Props.Names

/-!
# C74: the generated Rust source text of the lexer says what the tables say

`Verif/Spec/RustSource.lean` says how Rust text is read and run, `Verif/Spec/RustLexText.lean` what the statements in `lexer.rs` mean.
-/

set_option autoImplicit false

namespace Verif

theorem ruleName_getElem {rules : List TokenRule} {r : Nat} {x : TokenRule} (h : rules[r]? = some x) : ruleName rules r = x.name.toList := by
  unfold ruleName; rw [h]; rfl

theorem tokenEnum_nil {w : List Char} (h : tokenEnumName [] = .ok w) : False := by cases h

/-- C74. The files `lexer.rs` and `tokens.rs` that are generated, read as Rust: `TokenType` has one variant for the end of the input and then one for each rule; `next`, run statement by
statement, with the functions it calls taken from the same text, returns on every input the variant or error that the tables give, and leaves the lexer in the same state; `new`, `span` and
`slice` are those of the model. -/
theorem C74_lexer_text (rules : List TokenRule) (t : LexerTables) (hn : ∀ r ∈ rules, IsWord r.name.toList) (text toks : List Char)
    (h : rustLexerFile rules t = .ok text) (ht : rustTokensFile rules = .ok toks) :
    ∃ variants, rustEnum "TokenType".toList toks = some variants ∧ variants.length = rules.length + 1 ∧
      (∀ n l, l.rest.length < n → rustNext text n l = (Lexer.next t l).map (fun x => (variantOf variants x.1, x.2))) ∧
      (∀ src, rustNew text src = .ok (Lexer.new src)) ∧
      ∀ l, rustSpan text l = .ok (l.start, l.position) ∧ rustSlice text l = l.slice := by
  obtain ⟨ws, h1, h2⟩ := tokens_file_rust hn ht
  obtain ⟨l1, l2⟩ := mapM_ok _ _ h1
  refine ⟨_, h2, by simp [l1], ?_, run_rNew hn h, fun l => ⟨run_rSpan hn h l, run_rSlice hn h l⟩⟩
  intro n l hl
  have key := run_rNext (name := fun r => ("EndOfFile".toList :: ws).getD (r + 1) []) hn h ?_ n l hl
  · rw [key]
    congr 1
  · intro r w hw
    cases hr : rules[r]? with
    | none =>
      have : ruleName rules r = [] := by unfold ruleName; rw [hr]; rfl
      rw [this] at hw
      exact (tokenEnum_nil hw).elim
    | some x =>
      rw [ruleName_getElem hr] at hw
      obtain ⟨y, h3, h4⟩ := l2 r x hr
      rw [hw] at h4
      cases h4
      simp [List.getD, h3]

theorem mapM_error {α β : Type} {f : α → Res β} {e : Err} : ∀ {l : List α}, l.mapM f = .error e → ∃ x ∈ l, f x = .error e := by
  intro l
  induction l with
  | nil => intro h; cases h
  | cons x l ih =>
    intro h
    rw [List.mapM_cons] at h
    cases hx : f x with
    | error e' => rw [hx] at h; cases h; exact ⟨x, by simp, hx⟩
    | ok y =>
      rw [hx] at h
      cases hl : l.mapM f with
      | error e' =>
        simp only [bind, Except.bind, hl] at h
        cases h
        obtain ⟨x', h1, h2⟩ := ih hl
        exact ⟨x', by simp [h1], h2⟩
      | ok ys => simp only [bind, Except.bind, hl] at h; cases h

theorem tokenEnum_ok {n : List Char} (h : ¬ BadSegment n) : ∃ w, tokenEnumName n = .ok w := by
  unfold tokenEnumName
  cases hc : upperCamel n with
  | ok c => exact ⟨_, rfl⟩
  | error e =>
    cases e with
    | panic => exact absurd ((C42_panics n).1.mp hc) h
    | fuel => exact absurd hc (C42_panics n).2

/-- When they are written: if the tables are made, and no name of a rule has an empty segment or one that begins with a char outside ASCII, both files are written. Otherwise `tokens.rs` is not:
the generator panics. -/
theorem C74_written (fuel : Nat) (rules : List TokenRule) (t : LexerTables) (hg : generateLexer fuel rules = .ok (.ok t)) :
    ((∀ r ∈ rules, ¬ BadSegment r.name.toList) → ∃ text toks, rustLexerFile rules t = .ok text ∧ rustTokensFile rules = .ok toks) ∧
    ((∃ r ∈ rules, BadSegment r.name.toList) → rustTokensFile rules = .error .panic) := by
  constructor
  · intro hb
    have h1 : ∃ cs, (lexArms t.dfa).mapM (rustArm rules) = .ok cs := by
      cases hm : (lexArms t.dfa).mapM (rustArm rules) with
      | ok cs => exact ⟨cs, rfl⟩
      | error e =>
        obtain ⟨a, ha, he⟩ := mapM_error hm
        cases a with
        | accept q r =>
          obtain ⟨x, hx⟩ := accepting_rule hg r (mem_lexArms_accept ha)
          obtain ⟨w, hw⟩ := tokenEnum_ok (hb x (List.mem_of_getElem? hx))
          simp only [rustArm, ruleName_getElem hx, hw] at he
          cases he
        | _ => cases he
    have h2 : ∃ ws, rules.mapM (fun r => tokenEnumName r.name.toList) = .ok ws := by
      cases hm : rules.mapM (fun r => tokenEnumName r.name.toList) with
      | ok ws => exact ⟨ws, rfl⟩
      | error e =>
        obtain ⟨r, hr, he⟩ := mapM_error hm
        obtain ⟨w, hw⟩ := tokenEnum_ok (hb r hr)
        rw [hw] at he
        cases he
    obtain ⟨cs, hcs⟩ := h1
    obtain ⟨ws, hws⟩ := h2
    exact ⟨_, _, by unfold rustLexerFile; rw [hcs]; rfl, by unfold rustTokensFile; rw [hws]; rfl⟩
  · rintro ⟨r, hr, hbad⟩
    have hp := (C42_panics r.name.toList).1.mpr hbad
    unfold rustTokensFile
    cases hm : rules.mapM (fun r => tokenEnumName r.name.toList) with
    | error e =>
      obtain ⟨r', _, he⟩ := mapM_error hm
      unfold tokenEnumName at he
      cases hc : upperCamel r'.name.toList with
      | ok c => rw [hc] at he; cases he
      | error e' =>
        rw [hc] at he
        cases he
        cases e with
        | panic => rfl
        | fuel => exact absurd hc (C42_panics _).2
    | ok ws =>
      obtain ⟨_, h2⟩ := mapM_ok _ _ hm
      obtain ⟨i, hi, hx⟩ := List.getElem_of_mem hr
      obtain ⟨y, _, hy⟩ := h2 i r (by rw [List.getElem?_eq_getElem hi, hx])
      unfold tokenEnumName at hy
      rw [hp] at hy
      cases hy

theorem goodName_not_bad {n : List Char} (h : GoodName n) : ¬ BadSegment n := by
  rintro ⟨b, hb, hbad⟩
  obtain ⟨c, b', rfl, hl⟩ := h b hb
  rcases hbad with h1 | ⟨b'', h1⟩ | ⟨c', b'', h1, h2⟩
  · cases h1
  · cases h1; exact hl.not_underscore rfl
  · cases h1; unfold IsLetter at hl; omega

/-- the conditions can be met: two rules -/
example : ∃ t text toks, generateLexer 20 abcRules = .ok (.ok t) ∧ (∀ r ∈ abcRules, IsWord r.name.toList) ∧ rustLexerFile abcRules t = .ok text ∧ rustTokensFile abcRules = .ok toks := by
  obtain ⟨t, ht⟩ : ∃ t, generateLexer 20 abcRules = .ok (.ok t) := Res.of_tables (by decide +kernel)
  obtain ⟨text, toks, h1, h2⟩ := (C74_written 20 abcRules t ht).1 (by
    intro r hr
    simp only [abcRules, List.mem_cons, List.not_mem_nil, or_false] at hr
    rcases hr with rfl | rfl <;> exact goodName_not_bad (goodName_of (by decide)))
  refine ⟨t, text, toks, ht, ?_, h1, h2⟩
  intro r hr
  simp only [abcRules, List.mem_cons, List.not_mem_nil, or_false] at hr
  rcases hr with rfl | rfl <;> (unfold IsWord; decide)

/-- The text of that file, read and run on `abca`: the names of two tokens and of the end of the input. -/
example : (generateLexer 20 abcRules).tables.map (fun t => do
    let text ← rustLexerFile abcRules t
    let l ← rustNew text "abca".toList
    let (r1, l) ← rustNext text 9 l
    let s1 ← rustSlice text l
    let (r2, l) ← rustNext text 9 l
    let (r3, _) ← rustNext text 9 l
    return (r1, s1, r2, r3)) = some (.ok (.ok "TkAbc".toList, "abc".toList, .ok "TkA".toList, .ok "EndOfFile".toList)) := by decide +kernel

/-- a name that ends in an underscore: `tokens.rs` is not written -/
example : rustTokensFile [⟨"a_", none, .literal ['a']⟩] = .error .panic := by decide +kernel

end Verif
