import Verif.Proofs.Source
import Verif.Props.Lexer

/-!
# C44, C45: source positions

`posAfter pre` (Spec) is the line and column right after the text `pre`.
-/

set_option autoImplicit false

namespace Verif

/-! ## C44 -/

/-- `offset` returns the number of bytes before the position, and nothing for a position that the text does not have. -/
theorem C44_offset (text : List Char) (hf : FitsU16 text) (pos : SourcePos) (n : Nat) :
    (pos.offset text = .ok (some n) ↔ ∃ pre suf, text = pre ++ suf ∧ posAfter pre = pos ∧ n = bytes pre) ∧
    (pos.offset text = .ok none ↔ ∀ pre suf, text = pre ++ suf → posAfter pre ≠ pos) := by
  have key : ∀ pre suf, text = pre ++ suf → posAfter pre = pos → pos.offset text = .ok (some (bytes pre)) := by
    rintro pre suf h rfl
    exact offset_of_prefix hf ⟨suf, h.symm⟩
  refine ⟨⟨fun h => ?_, ?_⟩, ⟨fun h pre suf h1 h2 => ?_, fun h => ?_⟩⟩
  · rcases (offset_spec pos text).1 _ h with ⟨h1, _⟩ | ⟨p, ⟨s, h1⟩, h2, h3⟩
    · cases h1
    · exact ⟨p, s, h1.symm, h2, by cases h3; rfl⟩
  · rintro ⟨pre, suf, h1, h2, rfl⟩
    exact key pre suf h1 h2
  · rw [key pre suf h1 h2] at h
    cases h
  · cases hr : pos.offset text with
    | error e =>
      obtain ⟨_, p, h1, h2, _⟩ := (offset_spec pos text).2 e hr
      exact absurd (hf p h1) h2
    | ok r =>
      rcases (offset_spec pos text).1 _ hr with ⟨h1, _⟩ | ⟨p, ⟨s, h1⟩, h2, h3⟩
      · rw [h1]
      · exact absurd h2 (h p s h1.symm)

/-- Different places of a text have different positions, and the order of positions is the order of places and of byte offsets. -/
theorem C44_order (text : List Char) (pre pre' : List Char) (h : pre <+: text) (h' : pre' <+: text) :
    (posAfter pre = posAfter pre' ↔ pre = pre') ∧ ((posAfter pre).Before (posAfter pre') ↔ pre.length < pre'.length) ∧
    ((posAfter pre).Before (posAfter pre') ↔ bytes pre < bytes pre') := by
  have main : ((posAfter pre).Before (posAfter pre') ↔ pre.length < pre'.length) ∧ ((posAfter pre).Before (posAfter pre') ↔ bytes pre < bytes pre') := by
    rcases List.prefix_or_prefix_of_prefix h h' with ⟨m, rfl⟩ | ⟨m, rfl⟩
    · cases m with
      | nil => simp [before_irrefl]
      | cons c m =>
        have hb := before_append pre (c :: m) (by simp)
        have := utf8Size_pos c
        simp only [hb, true_iff]
        refine ⟨by simp, ?_⟩
        rw [bytes_append, bytes_cons]; omega
    · have hn : ¬ (posAfter (pre' ++ m)).Before (posAfter pre') := by
        intro hb
        by_cases hm : m = []
        · subst hm; simp at hb; exact before_irrefl hb
        · exact before_irrefl (before_trans hb (before_append pre' m hm))
      have := bytes_append pre' m
      refine ⟨⟨fun hb => absurd hb hn, fun hl => ?_⟩, ⟨fun hb => absurd hb hn, fun hl => ?_⟩⟩
      · simp at hl; omega
      · omega
  exact ⟨⟨posAfter_inj h h', fun e => by rw [e]⟩, main⟩

/-- The substring of a span is the text between its two positions. -/
theorem C44_substring (pre mid suf : List Char) (hf : FitsU16 (pre ++ mid ++ suf)) :
    SourceSpan.substring ⟨posAfter pre, posAfter (pre ++ mid)⟩ (pre ++ mid ++ suf) = .ok (some mid) :=
  substring_of hf

/-- In general: it is `none` exactly when one of the positions does not exist, the text between otherwise, and `substring` panics exactly for
reversed spans. -/
theorem C44_substring_cases (text : List Char) (hf : FitsU16 text) (span : SourceSpan) :
    (span.substring text = .ok none ↔ ¬ ((∃ pre, pre <+: text ∧ posAfter pre = span.start) ∧ ∃ pre, pre <+: text ∧ posAfter pre = span.stop)) ∧
    (∀ mid, span.substring text = .ok (some mid) ↔ ∃ pre suf, text = pre ++ mid ++ suf ∧ posAfter pre = span.start ∧ posAfter (pre ++ mid) = span.stop) ∧
    (span.substring text = .error .panic ↔
      (∃ pre, pre <+: text ∧ posAfter pre = span.start) ∧ (∃ pre, pre <+: text ∧ posAfter pre = span.stop) ∧ span.stop.Before span.start) := by
  have hoff : ∀ pos : SourcePos, (∃ pre, pre <+: text ∧ posAfter pre = pos ∧ pos.offset text = .ok (some (bytes pre))) ∨
      ((∀ pre, pre <+: text → posAfter pre ≠ pos) ∧ pos.offset text = .ok none) := by
    intro pos
    by_cases hp : ∃ pre, pre <+: text ∧ posAfter pre = pos
    · obtain ⟨pre, h1, rfl⟩ := hp
      exact .inl ⟨pre, h1, rfl, offset_of_prefix hf h1⟩
    · refine .inr ⟨fun pre h1 h2 => hp ⟨pre, h1, h2⟩, (C44_offset text hf pos 0).2.mpr fun pre suf h1 h2 => hp ⟨pre, ⟨suf, h1.symm⟩, h2⟩⟩
  obtain ⟨start, stop⟩ := span
  rcases hoff start with ⟨p, h1, h2, h3⟩ | ⟨h1, h3⟩
  · rcases hoff stop with ⟨p', h1', h2', h3'⟩ | ⟨h1', h3'⟩
    · subst h2 h2'
      rcases Nat.lt_or_ge (bytes p') (bytes p) with hlt | hge
      · have hr : SourceSpan.substring ⟨posAfter p, posAfter p'⟩ text = .error .panic := by
          simp only [SourceSpan.substring, h3, h3', bind, Except.bind, byteSlice, if_neg (Nat.not_le.mpr hlt)]
        rw [hr]
        refine ⟨⟨(fun h => by cases h), fun h => absurd ⟨⟨p, h1, rfl⟩, ⟨p', h1', rfl⟩⟩ h⟩, fun mid => ⟨(fun h => by cases h), ?_⟩, ⟨fun _ => ⟨⟨p, h1, rfl⟩, ⟨p', h1', rfl⟩, ?_⟩, fun _ => rfl⟩⟩
        · rintro ⟨pre, suf, rfl, k1, k2⟩
          have e1 := posAfter_inj (text := pre ++ mid ++ suf) ⟨mid ++ suf, by simp⟩ h1 k1
          have e2 := posAfter_inj (text := pre ++ mid ++ suf) ⟨suf, rfl⟩ h1' k2
          subst e1 e2
          rw [bytes_append] at hlt
          omega
        · exact (C44_order text p' p h1' h1).2.2.mpr hlt
      · have hpp : p <+: p' := by
          rcases List.prefix_or_prefix_of_prefix h1 h1' with h | ⟨m, rfl⟩
          · exact h
          · rw [bytes_append] at hge
            cases m with
            | nil => simp
            | cons c m => rw [bytes_cons] at hge; have := utf8Size_pos c; omega
        obtain ⟨mid, rfl⟩ := hpp
        obtain ⟨suf, rfl⟩ := h1'
        have hr := substring_of hf
        rw [hr]
        refine ⟨⟨(fun h => by cases h), fun h => absurd ⟨⟨p, h1, rfl⟩, ⟨p ++ mid, ⟨suf, rfl⟩, rfl⟩⟩ h⟩, fun mid' => ⟨fun h => ?_, ?_⟩, ⟨(fun h => by cases h), ?_⟩⟩
        · cases h
          exact ⟨p, suf, rfl, rfl, rfl⟩
        · rintro ⟨pre, suf', he, k1, k2⟩
          have e1 := posAfter_inj (text := p ++ mid ++ suf) ⟨mid' ++ suf', by rw [he]; simp⟩ h1 k1
          subst e1
          have e2 := posAfter_inj (text := pre ++ mid ++ suf) ⟨suf', he.symm⟩ ⟨suf, rfl⟩ k2
          rw [List.append_cancel_left e2]
        · rintro ⟨_, _, hb⟩
          have := (C44_order _ _ _ ⟨suf, rfl⟩ h1).2.2.mp hb
          omega
    · have hr : SourceSpan.substring ⟨start, stop⟩ text = .ok none := by simp only [SourceSpan.substring, h3, h3', bind, Except.bind]
      rw [hr]
      refine ⟨⟨fun _ h => ?_, fun _ => rfl⟩, fun mid => ⟨(fun h => by cases h), ?_⟩, ⟨(fun h => by cases h), ?_⟩⟩
      · obtain ⟨_, q, k1, k2⟩ := h; exact h1' q k1 k2
      · rintro ⟨pre, suf, he, k1, k2⟩; exact absurd k2 (h1' _ ⟨suf, he.symm⟩)
      · rintro ⟨_, ⟨q, k1, k2⟩, _⟩; exact absurd k2 (h1' q k1)
  · have hr : SourceSpan.substring ⟨start, stop⟩ text = .ok none := by simp only [SourceSpan.substring, h3, bind, Except.bind]
    rw [hr]
    refine ⟨⟨fun _ h => ?_, fun _ => rfl⟩, fun mid => ⟨(fun h => by cases h), ?_⟩, ⟨(fun h => by cases h), ?_⟩⟩
    · obtain ⟨⟨q, k1, k2⟩, _⟩ := h; exact h1 q k1 k2
    · rintro ⟨pre, suf, he, k1, k2⟩; exact absurd k1 (h1 _ ⟨mid ++ suf, by rw [he]; simp⟩)
    · rintro ⟨⟨q, k1, k2⟩, _⟩; exact absurd k2 (h1 q k1)

/-- A text with at most 65534 chars fits. -/
theorem C44_fits (text : List Char) (h : text.length < 65535) : FitsU16 text := by
  intro pre hp
  have := hp.length_le
  have h1 := List.count_le_length (a := '\n') (l := pre)
  have h2 := (List.takeWhile_sublist (fun c => decide (c ≠ '\n')) (l := pre.reverse)).length_le
  simp only [List.length_reverse] at h2
  simp only [posAfter]
  omega

-- a text of two lines with a two-byte char
example : posAfter "ab\ncä".toList = ⟨2, 3⟩ ∧ (⟨2, 3⟩ : SourcePos).offset "ab\ncäd".toList = .ok (some 6) ∧
    SourceSpan.substring ⟨⟨1, 2⟩, ⟨2, 3⟩⟩ "ab\ncäd".toList = .ok (some "b\ncä".toList) ∧
    SourceSpan.substring ⟨⟨2, 3⟩, ⟨1, 2⟩⟩ "ab\ncäd".toList = .error .panic ∧ SourceSpan.substring ⟨⟨1, 2⟩, ⟨1, 9⟩⟩ "ab\ncäd".toList = .ok none := by decide

/-! ## C45 -/

/-- Every token handed to the parser carries its text and a span that selects exactly this text, for ASCII sources in which
no token but the newline token contains a newline. -/
theorem C45_span {lexFuel : Nat} {rules : List TokenRule} {t : LexerTables} (h : generateLexer lexFuel rules = .ok (.ok t)) (nl ws : Nat)
    (src : List Char) (hn : NewlineRule rules nl src) (hw : ws ≠ nl) (ha : Ascii src) (hf : FitsU16 src) (fuel : Nat)
    (l : List (LexResult × TokenData)) (st : TokenFun) (hr : TokenRun t nl ws fuel (TokenFun.new src) l st) :
    ∀ x ∈ l, ∃ pre suf, src = pre ++ x.2.text ++ suf ∧ x.2.span = ⟨posAfter pre, posAfter (pre ++ x.2.text)⟩ ∧ x.2.span.substring src = .ok (some x.2.text) := by
  have ht := generateLexer_ok h
  have main : ∀ {st0 : TokenFun} {l : List (LexResult × TokenData)} {st : TokenFun}, TokenRun t nl ws fuel st0 l st → st0.Inv src →
      ∀ x ∈ l, ∃ pre suf, src = pre ++ x.2.text ++ suf ∧ x.2.span = ⟨posAfter pre, posAfter (pre ++ x.2.text)⟩ := by
    intro st0 l st hr
    induction hr with
    | nil => simp
    | cons hc _ ih =>
      intro hi x hx
      obtain ⟨h1, _, _, pre, h2, h3⟩ := (call_spec ht hn hw ha hf hi fuel).1 _ _ _ hc
      rcases List.mem_cons.mp hx with rfl | hx
      · exact ⟨pre, _, h2, h3⟩
      · exact ih h1 x hx
  intro x hx
  have hinv : (TokenFun.new src).Inv src := ⟨inv_new src, fun done hd => by
    have : done = [] := by
      have e : (TokenFun.new src).lexer.rest = src := rfl
      rw [e] at hd
      exact List.self_eq_append_left.mp hd
    subst this; rfl⟩
  obtain ⟨pre, suf, h1, h2⟩ := main hr hinv x hx
  refine ⟨pre, suf, h1, h2, ?_⟩
  rw [h2, h1]
  exact substring_of (h1 ▸ hf)

/-- The tokens are those of the lexer, in order, with newlines and whitespace left out; a call panics only if the lexer reports an error. -/
theorem C45_tokens {lexFuel : Nat} {rules : List TokenRule} {t : LexerTables} (h : generateLexer lexFuel rules = .ok (.ok t)) (nl ws : Nat)
    (src : List Char) (hn : NewlineRule rules nl src) (hw : ws ≠ nl) (ha : Ascii src) (hf : FitsU16 src) (fuel : Nat)
    (l : List (LexResult × TokenData)) (st : TokenFun) (hr : TokenRun t nl ws fuel (TokenFun.new src) l st) :
    (∃ hs, LexRun t (Lexer.new src) hs st.lexer ∧ l.map (fun x => (x.1, .ok x.2.text)) = (hs.filter (fun x => ¬ (x.1 = .token nl ∨ x.1 = .token ws))).map (fun x => (x.1, x.2.slice))) ∧
    (st.call t nl ws fuel = .error .panic → LexFails t st.lexer) ∧
    ((∀ r ∈ rules, ¬ r.Matches []) → src.length + 2 ≤ fuel → st.call t nl ws fuel ≠ .error .fuel) := by
  have ht := generateLexer_ok h
  have runApp : ∀ {a b c : Lexer} {x y : List (LexResult × Lexer)}, LexRun t a x b → LexRun t b y c → LexRun t a (x ++ y) c := by
    intro a b c x y hx hy
    induction hx with
    | nil => exact hy
    | cons h _ ih => exact .cons h (ih hy)
  have main : ∀ {st0 : TokenFun} {l : List (LexResult × TokenData)} {st : TokenFun}, TokenRun t nl ws fuel st0 l st → st0.Inv src →
      st.Inv src ∧ ∃ hs, LexRun t st0.lexer hs st.lexer ∧ l.map (fun x => (x.1, .ok x.2.text)) = (hs.filter (fun x => ¬ (x.1 = .token nl ∨ x.1 = .token ws))).map (fun x => (x.1, x.2.slice)) := by
    intro st0 l st hr
    induction hr with
    | nil => exact fun hi => ⟨hi, [], .nil _, rfl⟩
    | @cons st0 st1 st2 tk d l hc _ ih =>
      intro hi
      obtain ⟨h1, h2, ⟨hs, h3, h4, h5, h6⟩, _⟩ := (call_spec ht hn hw ha hf hi fuel).1 _ _ _ hc
      obtain ⟨i1, hs', i2, i3⟩ := ih h1
      refine ⟨i1, hs ++ hs', runApp h4 i2, ?_⟩
      have hsplit : hs = hs.dropLast ++ [(tk, st1.lexer)] := (List.dropLast_append_getLast? _ h3).symm
      have hnil : hs.dropLast.filter (fun x => ¬ (x.1 = .token nl ∨ x.1 = .token ws)) = [] := by
        rw [List.filter_eq_nil_iff]
        intro x hx
        have := h5 x hx
        unfold Skipped at this
        simpa [Decidable.or_iff_not_imp_left] using this
      have hlast : ([(tk, st1.lexer)] : List (LexResult × Lexer)).filter (fun x => ¬ (x.1 = .token nl ∨ x.1 = .token ws)) = [(tk, st1.lexer)] := by
        rw [List.filter_eq_self]
        intro x hx
        simp only [List.mem_singleton] at hx
        subst hx
        simpa [Skipped] using h2
      rw [List.filter_append, hsplit, List.filter_append, hnil, hlast, List.map_append, ← i3]
      simp [h6]
  have hinv : (TokenFun.new src).Inv src := ⟨inv_new src, fun done hd => by
    have : done = [] := by
      have e : (TokenFun.new src).lexer.rest = src := rfl
      rw [e] at hd
      exact List.self_eq_append_left.mp hd
    subst this; rfl⟩
  obtain ⟨i1, i2⟩ := main hr hinv
  obtain ⟨_, k2, k3⟩ := call_spec ht hn hw ha hf i1 fuel
  refine ⟨i2, k2, fun he hle hr => ?_⟩
  have := k3 hr he
  obtain ⟨_, done, hd, _⟩ := i1.lex
  have : st.lexer.rest.length ≤ src.length := by rw [hd]; simp
  omega

-- the hypotheses hold for a rule set with a word, newline and space, and any text over these chars
example : NewlineRule [⟨"X", none, .literal ['x']⟩, ⟨"NL", none, .literal ['\n']⟩, ⟨"WS", none, .literal [' ']⟩] 1 "x x\nx".toList ∧
    Ascii "x x\nx".toList ∧ FitsU16 "x x\nx".toList ∧
    ∃ t, generateLexer 40 [⟨"X", none, .literal ['x']⟩, ⟨"NL", none, .literal ['\n']⟩, ⟨"WS", none, .literal [' ']⟩] = .ok (.ok t) := by
  refine ⟨?_, by unfold Ascii; decide, C44_fits _ (by decide), Res.of_tables (by decide +kernel)⟩
  intro j r m hj hm _
  have hlit : ∀ (name : String) (c : Char), TokenRule.Matches ⟨name, none, .literal [c]⟩ m → m = [c] := by
    intro name c h
    simpa [TokenRule.Matches] using h
  match j with
  | 0 => simp at hj; subst hj; rw [hlit _ _ hm]; decide
  | 1 => simp at hj; subst hj; rw [hlit _ _ hm]; decide
  | 2 => simp at hj; subst hj; rw [hlit _ _ hm]; decide
  | j + 3 => simp at hj

/-- a token `ä`, a token `x`, newline, space, and a token that contains a newline -/
def spanRules : List TokenRule := [⟨"U", none, .literal ['ä']⟩, ⟨"X", none, .literal ['x']⟩, ⟨"NL", none, .literal ['\n']⟩, ⟨"WS", none, .literal [' ']⟩,
  ⟨"N", none, .literal ['a', '\n', 'b']⟩]

/-- the tokens of a text, with the substring of their spans -/
def spanTokens (src : List Char) : Nat → LexerTables → TokenFun → List (LexResult × List Char × Res (Option (List Char)))
  | 0, _, _ => []
  | n + 1, t, st =>
    match st.call t 2 3 20 with
    | .ok (tk, d, st) => (tk, d.text, d.span.substring src) :: spanTokens src n t st
    | .error _ => []

theorem spanTokens_run (src : List Char) (t : LexerTables) : ∀ (n : Nat) (st : TokenFun), ∃ l st',
    TokenRun t 2 3 20 st l st' ∧ spanTokens src n t st = l.map (fun x => (x.1, x.2.text, x.2.span.substring src)) := by
  intro n
  induction n with
  | zero => exact fun st => ⟨[], st, .nil _, rfl⟩
  | succ n ih =>
    intro st
    unfold spanTokens
    split
    · rename_i tk d st1 hc
      obtain ⟨l, st', h1, h2⟩ := ih st1
      exact ⟨(tk, d) :: l, st', .cons hc h1, by rw [h2]; rfl⟩
    · exact ⟨[], st, .nil _, rfl⟩

/-- The columns count bytes, so after a non-ASCII char on the same line the spans are wrong: in `äx`, the span of `x` selects nothing. -/
theorem C45_non_ascii_counterexample : ∃ t, generateLexer 40 spanRules = .ok (.ok t) ∧ ∃ l st x, TokenRun t 2 3 20 (TokenFun.new ['ä', 'x']) l st ∧ x ∈ l ∧
    x.1 = .token 1 ∧ x.2.text = ['x'] ∧ x.2.span.substring ['ä', 'x'] = .ok none := by
  obtain ⟨t, ht⟩ := Res.of_tables (r := generateLexer 40 spanRules) (by decide +kernel)
  refine ⟨t, ht, ?_⟩
  have e : (generateLexer 40 spanRules).tables.map (fun t => (spanTokens ['ä', 'x'] 2 t (TokenFun.new ['ä', 'x']))) =
    some [(.token 0, ['ä'], .ok (some ['ä', 'x'])), (.token 1, ['x'], .ok none)] := by decide +kernel
  rw [ht] at e
  simp only [Res.tables, Option.map_some, Option.some.injEq] at e
  obtain ⟨l, st, h1, h2⟩ := spanTokens_run ['ä', 'x'] t 2 (TokenFun.new ['ä', 'x'])
  rw [e] at h2
  have hx : (LexResult.token 1, ['x'], (Except.ok none : Res (Option (List Char)))) ∈ l.map (fun x => (x.1, x.2.text, x.2.span.substring ['ä', 'x'])) := by
    rw [← h2]; simp
  obtain ⟨x, hx, he⟩ := List.mem_map.mp hx
  simp only [Prod.mk.injEq] at he
  exact ⟨l, st, x, h1, hx, he⟩

/-- A token that contains a newline (a string with an escaped newline in the lapex grammar) is not counted as a line: in `a⏎bx` the span of `x` selects nothing. -/
theorem C45_newline_counterexample : ∃ t, generateLexer 40 spanRules = .ok (.ok t) ∧ ∃ l st x, TokenRun t 2 3 20 (TokenFun.new ['a', '\n', 'b', 'x']) l st ∧ x ∈ l ∧
    x.1 = .token 1 ∧ x.2.text = ['x'] ∧ x.2.span.substring ['a', '\n', 'b', 'x'] = .ok none := by
  obtain ⟨t, ht⟩ := Res.of_tables (r := generateLexer 40 spanRules) (by decide +kernel)
  refine ⟨t, ht, ?_⟩
  have e : (generateLexer 40 spanRules).tables.map (fun t => (spanTokens ['a', '\n', 'b', 'x'] 2 t (TokenFun.new ['a', '\n', 'b', 'x']))) =
    some [(.token 4, ['a', '\n', 'b'], .ok none), (.token 1, ['x'], .ok none)] := by decide +kernel
  rw [ht] at e
  simp only [Res.tables, Option.map_some, Option.some.injEq] at e
  obtain ⟨l, st, h1, h2⟩ := spanTokens_run ['a', '\n', 'b', 'x'] t 2 (TokenFun.new ['a', '\n', 'b', 'x'])
  rw [e] at h2
  have hx : (LexResult.token 1, ['x'], (Except.ok none : Res (Option (List Char)))) ∈ l.map (fun x => (x.1, x.2.text, x.2.span.substring ['a', '\n', 'b', 'x'])) := by
    rw [← h2]; simp
  obtain ⟨x, hx, he⟩ := List.mem_map.mp hx
  simp only [Prod.mk.injEq] at he
  exact ⟨l, st, x, h1, hx, he⟩

end Verif
