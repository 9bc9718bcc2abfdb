import Verif.Spec.Source
import Verif.Proofs.LexHist

/-! # Source positions -/

set_option autoImplicit false

namespace Verif

theorem posAfter_nil : posAfter [] = ⟨1, 1⟩ := rfl

theorem posAfter_newline (pre : List Char) : posAfter (pre ++ ['\n']) = ⟨(posAfter pre).line + 1, 1⟩ := by
  simp [posAfter]; omega

theorem posAfter_char (pre : List Char) {c : Char} (h : c ≠ '\n') : posAfter (pre ++ [c]) = ⟨(posAfter pre).line, (posAfter pre).col + 1⟩ := by
  have h' : ('\n' == c) = false := by simp [Ne.symm h]
  simp [posAfter, h, List.count_cons, List.takeWhile_cons]
  omega

theorem before_trans {p q r : SourcePos} (h : p.Before q) (h' : q.Before r) : p.Before r := by
  unfold SourcePos.Before at *; omega

theorem before_irrefl {p : SourcePos} : ¬ p.Before p := by
  unfold SourcePos.Before; omega

theorem before_step (pre : List Char) (c : Char) : (posAfter pre).Before (posAfter (pre ++ [c])) := by
  by_cases h : c = '\n'
  · subst h
    rw [posAfter_newline]
    exact .inl (Nat.lt_succ_self _)
  · rw [posAfter_char pre h]
    exact .inr ⟨rfl, Nat.lt_succ_self _⟩

theorem before_append (pre : List Char) : ∀ (mid : List Char), mid ≠ [] → (posAfter pre).Before (posAfter (pre ++ mid)) := by
  intro mid
  induction mid using List.reverseRecOn with
  | nil => intro h; exact absurd rfl h
  | append_singleton mid c ih =>
    intro _
    rw [← List.append_assoc]
    by_cases hm : mid = []
    · subst hm
      rw [List.append_nil]
      exact before_step _ _
    · exact before_trans (ih hm) (before_step _ _)

theorem posAfter_inj {text pre pre' : List Char} (h : pre <+: text) (h' : pre' <+: text) (he : posAfter pre = posAfter pre') : pre = pre' := by
  rcases List.prefix_or_prefix_of_prefix h h' with ⟨m, rfl⟩ | ⟨m, rfl⟩
  · by_cases hm : m = []
    · simp [hm]
    · exact absurd (he ▸ before_append pre m hm) before_irrefl
  · by_cases hm : m = []
    · simp [hm]
    · exact absurd (he ▸ before_append pre' m hm) before_irrefl

/-- what the loop returns, started after `pre` -/
theorem offsetFrom_spec (pos : SourcePos) : ∀ (rest pre : List Char), (∀ p, p <+: pre → p ≠ pre → posAfter p ≠ pos) →
    (∀ r, pos.offsetFrom (posAfter pre).line (posAfter pre).col (bytes pre) rest = .ok r →
      (r = none ∧ ∀ p, p <+: pre ++ rest → posAfter p ≠ pos) ∨ ∃ p, p <+: pre ++ rest ∧ posAfter p = pos ∧ r = some (bytes p)) ∧
    (∀ e, pos.offsetFrom (posAfter pre).line (posAfter pre).col (bytes pre) rest = .error e →
      e = .panic ∧ ∃ p, p <+: pre ++ rest ∧ ¬ ((posAfter p).line < 65536 ∧ (posAfter p).col < 65536) ∧ ∀ p', p' <+: p → p' ≠ p → posAfter p' ≠ pos) := by
  intro rest
  induction rest with
  | nil =>
    intro pre hno
    constructor
    · intro r h
      simp only [SourcePos.offsetFrom, Except.ok.injEq] at h
      split at h
      · rename_i hc
        exact .inr ⟨pre, by simp, by cases pos; simp at hc; simp [SourcePos.mk.injEq, ← hc.1, ← hc.2], h.symm⟩
      · rename_i hc
        refine .inl ⟨h.symm, fun p hp he => ?_⟩
        rw [List.append_nil] at hp
        by_cases hpp : p = pre
        · subst hpp
          exact hc (by rw [he]; exact ⟨rfl, rfl⟩)
        · exact hno p hp hpp he
    · intro e h
      simp [SourcePos.offsetFrom] at h
  | cons c rest ih =>
    intro pre hno
    have hpx : pre <+: pre ++ c :: rest := List.prefix_append _ _
    by_cases hc : (posAfter pre).line = pos.line ∧ (posAfter pre).col = pos.col
    · have hpos : posAfter pre = pos := by cases pos; simp at hc; simp [← hc.1, ← hc.2]
      constructor
      · intro r h
        simp only [SourcePos.offsetFrom, if_pos hc, Except.ok.injEq] at h
        exact .inr ⟨pre, hpx, hpos, h.symm⟩
      · intro e h
        simp [SourcePos.offsetFrom, hc] at h
    · have hno' : ∀ p, p <+: pre ++ [c] → p ≠ pre ++ [c] → posAfter p ≠ pos := by
        intro p hp hpp he
        rcases List.prefix_concat_iff.mp hp with h | h
        · exact hpp h
        · by_cases hpe : p = pre
          · subst hpe
            exact hc (by rw [he]; exact ⟨rfl, rfl⟩)
          · exact hno p h hpe he
      have ih' := ih (pre ++ [c]) hno'
      have happ : pre ++ [c] ++ rest = pre ++ c :: rest := by simp
      have hb : bytes (pre ++ [c]) = bytes pre + c.utf8Size := by simp [bytes]
      rw [happ, hb] at ih'
      by_cases hn : c = '\n'
      · subst hn
        rw [posAfter_newline] at ih'
        simp only [SourcePos.offsetFrom, if_neg hc, if_true, addU16]
        by_cases ho : (posAfter pre).line + 1 < u16Count
        · simp only [if_pos ho, bind, Except.bind]
          exact ih'
        · simp only [if_neg ho, bind, Except.bind]
          refine ⟨fun r h => (by cases h), fun e h => ⟨(by cases h; rfl), pre ++ ['\n'], ⟨rest, by simp⟩, ?_, hno'⟩⟩
          rw [posAfter_newline]
          intro h
          exact ho h.1
      · rw [posAfter_char pre hn] at ih'
        simp only [SourcePos.offsetFrom, if_neg hc, if_neg hn, addU16]
        by_cases ho : (posAfter pre).col + 1 < u16Count
        · simp only [if_pos ho, bind, Except.bind]
          exact ih'
        · simp only [if_neg ho, bind, Except.bind]
          refine ⟨fun r h => (by cases h), fun e h => ⟨(by cases h; rfl), pre ++ [c], ⟨rest, by simp⟩, ?_, hno'⟩⟩
          rw [posAfter_char pre hn]
          intro h
          exact ho h.2

theorem offset_spec (pos : SourcePos) (text : List Char) :
    (∀ r, pos.offset text = .ok r →
      (r = none ∧ ∀ p, p <+: text → posAfter p ≠ pos) ∨ ∃ p, p <+: text ∧ posAfter p = pos ∧ r = some (bytes p)) ∧
    (∀ e, pos.offset text = .error e →
      e = .panic ∧ ∃ p, p <+: text ∧ ¬ ((posAfter p).line < 65536 ∧ (posAfter p).col < 65536) ∧ ∀ p', p' <+: p → p' ≠ p → posAfter p' ≠ pos) :=
  offsetFrom_spec pos text [] (by intro p hp hpp; exact absurd (List.prefix_nil.mp hp) hpp)

theorem offset_of_prefix {text pre : List Char} (hf : FitsU16 text) (hp : pre <+: text) : (posAfter pre).offset text = .ok (some (bytes pre)) := by
  have h := offset_spec (posAfter pre) text
  cases hr : (posAfter pre).offset text with
  | error e =>
    obtain ⟨_, p, h1, h2, _⟩ := h.2 e hr
    exact absurd (hf p h1) h2
  | ok r =>
    rcases h.1 r hr with ⟨_, h2⟩ | ⟨p, h1, h2, h3⟩
    · exact absurd rfl (h2 pre hp)
    · rw [h3, posAfter_inj h1 hp h2]

theorem substring_of {pre mid suf : List Char} (hf : FitsU16 (pre ++ mid ++ suf)) :
    SourceSpan.substring ⟨posAfter pre, posAfter (pre ++ mid)⟩ (pre ++ mid ++ suf) = .ok (some mid) := by
  have h1 := offset_of_prefix hf (pre := pre) ⟨mid ++ suf, by simp⟩
  have h2 := offset_of_prefix hf (pre := pre ++ mid) ⟨suf, rfl⟩
  unfold SourceSpan.substring
  simp only [h1, h2, bind, Except.bind]
  have := byteSlice_mid pre mid suf
  rw [← List.append_assoc] at this
  rw [bytes_append, this]

theorem bytes_le_of_prefix {p q : List Char} (h : p <+: q) : bytes p ≤ bytes q := by
  obtain ⟨m, rfl⟩ := h
  rw [bytes_append]; omega

theorem bytes_lt_of_before {text p q : List Char} (hp : p <+: text) (hq : q <+: text) (h : (posAfter p).Before (posAfter q)) : bytes p < bytes q := by
  rcases List.prefix_or_prefix_of_prefix hp hq with ⟨m, rfl⟩ | ⟨m, rfl⟩
  · cases m with
    | nil => simp at h; exact absurd h before_irrefl
    | cons c m =>
      rw [bytes_append, bytes_cons]
      have := utf8Size_pos c
      omega
  · by_cases hm : m = []
    · subst hm; simp at h; exact absurd h before_irrefl
    · exact absurd (before_trans h (before_append q m hm)) before_irrefl

/-! ## The token function -/

theorem posAfter_noNewline (pre : List Char) : ∀ (m : List Char), '\n' ∉ m → posAfter (pre ++ m) = ⟨(posAfter pre).line, (posAfter pre).col + m.length⟩ := by
  intro m
  induction m using List.reverseRecOn with
  | nil => intro _; simp
  | append_singleton m c ih =>
    intro h
    simp only [List.mem_append, List.mem_singleton, not_or] at h
    rw [← List.append_assoc, posAfter_char _ (Ne.symm h.2), ih h.1]
    simp [Nat.add_assoc]

theorem bytes_ascii : ∀ (m : List Char), (∀ c ∈ m, c.toNat < 128) → bytes m = m.length := by
  intro m
  induction m with
  | nil => intro _; rfl
  | cons c m ih =>
    intro h
    rw [bytes_cons, ih (fun x hx => h x (by simp [hx])), List.length_cons]
    have := h c (by simp)
    have : c.utf8Size = 1 := by
      unfold Char.utf8Size
      rw [if_pos]
      show c.val ≤ 127
      rw [UInt32.le_iff_toNat_le]
      show c.toNat ≤ 127
      omega
    omega

/-- the closure's position is the position of what the lexer has consumed -/
structure TokenFun.Inv (src : List Char) (st : TokenFun) : Prop where
  lex : st.lexer.Inv src
  pos : ∀ done, src = done ++ st.lexer.rest → ⟨st.line, st.col⟩ = posAfter done

/-- the lexer is one token ahead: `pre` has been counted, `m` is the slice -/
structure TokenFun.Ahead (rules : List TokenRule) (src : List Char) (tk : LexResult) (st : TokenFun) (pre m : List Char) : Prop where
  src_eq : src = pre ++ m ++ st.lexer.rest
  lex : st.lexer.Inv src
  slice : st.lexer.slice = .ok m
  pos : ⟨st.line, st.col⟩ = posAfter pre
  tok : ∀ j, tk = .token j → ∃ r, rules[j]? = some r ∧ r.Matches m
  eof : tk = .eof → m = []
  fine : ∀ x, tk ≠ .unexpectedAlphabet x
  valid : ∀ c, tk ≠ .invalidChar c

theorem TokenFun.Ahead.infix {rules : List TokenRule} {src : List Char} {tk : LexResult} {st : TokenFun} {pre m : List Char}
    (h : st.Ahead rules src tk pre m) : m <:+: src := ⟨pre, st.lexer.rest, h.src_eq.symm⟩

theorem stopped_tok {t : LexerTables} {q : Nat} {rest : List Char} {j : Nat} (h : StopResult t q rest (.token j)) :
    t.dfa.graph.nodes[q]? = some (.accepting j) := by
  unfold StopResult at h
  split at h
  · cases h
  · split at h
    · rename_i heq; cases h; exact heq
    · obtain ⟨r, h, _⟩ := h; cases h
    · cases h

theorem stopped_eof {t : LexerTables} {q : Nat} {rest : List Char} (h : StopResult t q rest .eof) : q = 0 ∧ AtEnd rest := by
  unfold StopResult at h
  split at h
  · assumption
  · split at h
    · cases h
    · obtain ⟨r, h, _⟩ := h; cases h
    · cases h

theorem stopped_valid {t : LexerTables} {q : Nat} {rest : List Char} {c : Nat} : ¬ StopResult t q rest (.invalidChar c) := by
  intro h
  unfold StopResult at h
  split at h
  · cases h
  · split at h
    · cases h
    · obtain ⟨r, h, _⟩ := h; cases h
    · cases h

/-- one call of `lexer.next().unwrap()` -/
theorem nextUnwrap_spec {rules : List TokenRule} {t : LexerTables} (ht : TablesOk rules t) {src : List Char} {st : TokenFun} (hi : st.Inv src) :
    (∃ r l', st.lexer.next t = .ok (.unexpectedAlphabet r, l') ∧ nextUnwrap t st.lexer = .error .panic) ∨
    ∃ tk l' pre m, st.lexer.next t = .ok (tk, l') ∧ nextUnwrap t st.lexer = .ok (tk, l') ∧
      (({ st with lexer := l' } : TokenFun).Ahead rules src tk pre m) ∧ src = pre ++ st.lexer.rest ∧ st.lexer.rest = m ++ l'.rest := by
  obtain ⟨m, rest', q, res, l', g1, g2, g3, g4, g5, g6, g7, g8, g9, g10, g11, g12⟩ := next_slice ht hi.lex
  obtain ⟨_, done, hd, hp⟩ := hi.lex
  cases res with
  | invalidChar c => exact absurd g6 stopped_valid
  | unexpectedAlphabet r => exact .inl ⟨r, l', g7, by simp [nextUnwrap, g7, bind, Except.bind]⟩
  | token j =>
    refine .inr ⟨_, l', done, m, g7, by simp [nextUnwrap, g7, bind, Except.bind], ⟨?_, g12, g11, hi.pos _ hd, ?_, ?_, ?_, (by intro c h; cases h)⟩, hd, ?_⟩
    · rw [hd, g1, List.append_assoc, g8]
    · rintro j' hj
      cases hj
      obtain ⟨r, _, a1, a2, _⟩ := ht.accepting g3 (stopped_tok g6)
      exact ⟨r, a1, a2⟩
    · intro h; cases h
    · intro x h; cases h
    · rw [g8]; exact g1
  | eof =>
    refine .inr ⟨_, l', done, m, g7, by simp [nextUnwrap, g7, bind, Except.bind], ⟨?_, g12, g11, hi.pos _ hd, ?_, ?_, ?_, (by intro c h; cases h)⟩, hd, ?_⟩
    · rw [hd, g1, List.append_assoc, g8]
    · intro j h; cases h
    · intro _
      obtain ⟨rfl, hend⟩ := stopped_eof g6
      have := ht.once g3
      simpa using this
    · intro x h; cases h
    · rw [g8]; exact g1

section calls

variable {rules : List TokenRule} {t : LexerTables} {src : List Char} {nl ws : Nat}

/-- counting a token without newline in it -/
theorem count_token (ha : Ascii src) (hf : FitsU16 src) {tk : LexResult} {st : TokenFun} {pre m : List Char}
    (h : st.Ahead rules src tk pre m) (hm : '\n' ∉ m) :
    addU16 st.col ((m.map Char.utf8Size).sum % u16Count) = .ok (posAfter (pre ++ m)).col ∧ (posAfter (pre ++ m)).line = st.line := by
  have hb : bytes m = m.length := bytes_ascii m (fun c hc => ha c (by rw [h.src_eq]; simp [hc]))
  have hp := posAfter_noNewline pre m hm
  have hc : (posAfter pre).col = st.col := by rw [← h.pos]
  have hl : (posAfter pre).line = st.line := by rw [← h.pos]
  have hfit := (hf (pre ++ m) ⟨st.lexer.rest, by rw [h.src_eq]⟩).2
  rw [hp] at hfit ⊢
  simp only at hfit ⊢
  have e : (m.map Char.utf8Size).sum = m.length := hb
  rw [e, hc, Nat.mod_eq_of_lt (by simp [u16Count]; omega)]
  refine ⟨?_, hl⟩
  unfold addU16
  rw [if_pos (by simp [u16Count]; omega)]

/-- after counting the token read ahead -/
theorem ahead_inv {tk : LexResult} {st : TokenFun} {pre m : List Char} (h : st.Ahead rules src tk pre m) {line col : Nat}
    (hp : (⟨line, col⟩ : SourcePos) = posAfter (pre ++ m)) : TokenFun.Inv src ⟨st.lexer, col, line⟩ := by
  refine ⟨h.lex, fun done hd => ?_⟩
  rw [h.src_eq] at hd
  rw [← List.append_cancel_right hd]
  exact hp

theorem skip_spec (ht : TablesOk rules t) (hn : NewlineRule rules nl src) (hw : ws ≠ nl) (ha : Ascii src) (hf : FitsU16 src) : ∀ (fuel : Nat) (tk : LexResult) (st : TokenFun) (pre m : List Char),
    st.Ahead rules src tk pre m →
    (∀ tk' st', TokenFun.skip t nl ws fuel tk st = .ok (tk', st') → ¬ Skipped nl ws tk' ∧ (∃ pre' m', st'.Ahead rules src tk' pre' m') ∧
      ∃ hs : List (LexResult × Lexer), ((tk, st.lexer) :: hs).getLast? = some (tk', st'.lexer) ∧ LexRun t st.lexer hs st'.lexer ∧
        ∀ x ∈ ((tk, st.lexer) :: hs).dropLast, Skipped nl ws x.1) ∧
    (TokenFun.skip t nl ws fuel tk st = .error .panic → LexFails t st.lexer) ∧
    (TokenFun.skip t nl ws fuel tk st = .error .fuel → (∀ r ∈ rules, ¬ r.Matches []) → fuel < st.lexer.rest.length + 2) := by
  intro fuel
  induction fuel with
  | zero =>
    intro tk st pre m h
    refine ⟨?_, ?_, ?_⟩
    · intro _ _ hr; simp [TokenFun.skip] at hr
    · intro hr; simp [TokenFun.skip] at hr
    · intro _ _; omega
  | succ fuel ih =>
    intro tk st pre m h
    -- continuing after a skipped token
    have cont : ∀ (line col : Nat), (⟨line, col⟩ : SourcePos) = posAfter (pre ++ m) → Skipped nl ws tk →
        ∀ X : Res (LexResult × TokenFun), (X = (do let (tk, lexer) ← nextUnwrap t st.lexer; TokenFun.skip t nl ws fuel tk ⟨lexer, col, line⟩)) →
        (∀ tk' st', X = .ok (tk', st') → ¬ Skipped nl ws tk' ∧ (∃ pre' m', st'.Ahead rules src tk' pre' m') ∧
          ∃ hs : List (LexResult × Lexer), ((tk, st.lexer) :: hs).getLast? = some (tk', st'.lexer) ∧ LexRun t st.lexer hs st'.lexer ∧
            ∀ x ∈ ((tk, st.lexer) :: hs).dropLast, Skipped nl ws x.1) ∧
        (X = .error .panic → LexFails t st.lexer) ∧
        (X = .error .fuel → (∀ r ∈ rules, ¬ r.Matches []) → fuel + 1 < st.lexer.rest.length + 2) := by
      rintro line col hp hsk X rfl
      rcases nextUnwrap_spec ht (ahead_inv h hp) with ⟨r, l', h1, h2⟩ | ⟨tk2, l', pre2, m2, h1, h2, h3, h4, h5⟩
      · simp only at h2
        simp only [h2, bind, Except.bind]
        refine ⟨(fun _ _ hr => by cases hr), fun _ => ⟨[], _, _, r, .nil _, h1⟩, fun hr => by cases hr⟩
      · simp only at h2 h3 h1 h5
        simp only [h2, bind, Except.bind]
        obtain ⟨i1, i2, i3⟩ := ih tk2 _ pre2 m2 h3
        refine ⟨fun tk' st' hr => ?_, fun hr => ?_, fun hr he => ?_⟩
        · obtain ⟨j1, j2, hs, j3, j4, j5⟩ := i1 tk' st' hr
          refine ⟨j1, j2, (tk2, l') :: hs, ?_, .cons h1 j4, ?_⟩
          · rw [List.getLast?_cons_cons]; exact j3
          · intro x hx
            rw [List.dropLast_cons_of_ne_nil (by simp)] at hx
            rcases List.mem_cons.mp hx with rfl | hx
            · exact hsk
            · exact j5 x hx
        · obtain ⟨hs, l1, l2, r, k1, k2⟩ := i2 hr
          exact ⟨(tk2, l') :: hs, l1, l2, r, .cons h1 k1, k2⟩
        · have k := i3 hr he
          simp only at k
          by_cases hs2 : Skipped nl ws tk2
          · have hm2 : m2 ≠ [] := by
              rintro rfl
              rcases hs2 with rfl | rfl
              · obtain ⟨r, k1, k2⟩ := h3.tok nl rfl
                exact he r (List.mem_of_getElem? k1) k2
              · obtain ⟨r, k1, k2⟩ := h3.tok ws rfl
                exact he r (List.mem_of_getElem? k1) k2
            have := List.length_pos_of_ne_nil hm2
            rw [h5, List.length_append]
            omega
          · cases fuel with
            | zero => omega
            | succ f =>
              have n1 : ¬ tk2 = .token nl := fun e => hs2 (.inl e)
              have n2 : ¬ tk2 = .token ws := fun e => hs2 (.inr e)
              simp [TokenFun.skip, n1, n2] at hr
    by_cases h1 : tk = .token nl
    · obtain ⟨r, k1, k2⟩ := h.tok nl h1
      have hm := hn nl r m k1 k2 h.infix
      rw [if_pos rfl] at hm
      subst hm
      have hl : addU16 st.line 1 = .ok (st.line + 1) := by
        have hfit := (hf (pre ++ ['\n']) ⟨st.lexer.rest, by rw [h.src_eq]⟩).1
        rw [posAfter_newline, ← h.pos] at hfit
        unfold addU16
        rw [if_pos (by simpa [u16Count] using hfit)]
      have hp : (⟨st.line + 1, 1⟩ : SourcePos) = posAfter (pre ++ ['\n']) := by rw [posAfter_newline, ← h.pos]
      exact cont _ _ hp (.inl h1) _ (by simp only [TokenFun.skip, if_pos h1, hl]; rfl)
    · by_cases h2 : tk = .token ws
      · obtain ⟨r, k1, k2⟩ := h.tok ws h2
        have hm := hn ws r m k1 k2 h.infix
        rw [if_neg hw] at hm
        obtain ⟨hc, hl⟩ := count_token ha hf h hm
        have hp : (⟨st.line, (posAfter (pre ++ m)).col⟩ : SourcePos) = posAfter (pre ++ m) := by rw [← hl]
        exact cont _ _ hp (.inr h2) _ (by simp only [TokenFun.skip, if_neg h1, if_pos h2, h.slice, bind, Except.bind, hc])
      · simp only [TokenFun.skip, if_neg h1, if_neg h2]
        refine ⟨?_, (fun hr => by cases hr), fun hr => by cases hr⟩
        intro tk' st' hr
        cases hr
        exact ⟨fun hs => hs.elim h1 h2, ⟨pre, m, h⟩, [], rfl, .nil _, by simp⟩

/-- one call of the token function -/
theorem call_spec (ht : TablesOk rules t) (hn : NewlineRule rules nl src) (hw : ws ≠ nl) (ha : Ascii src) (hf : FitsU16 src) {st : TokenFun} (hi : st.Inv src) (fuel : Nat) :
    (∀ tk d st', st.call t nl ws fuel = .ok (tk, d, st') → st'.Inv src ∧ ¬ Skipped nl ws tk ∧
      (∃ hs : List (LexResult × Lexer), hs.getLast? = some (tk, st'.lexer) ∧ LexRun t st.lexer hs st'.lexer ∧ (∀ x ∈ hs.dropLast, Skipped nl ws x.1) ∧ st'.lexer.slice = .ok d.text) ∧
      ∃ pre, src = pre ++ d.text ++ st'.lexer.rest ∧ d.span = ⟨posAfter pre, posAfter (pre ++ d.text)⟩) ∧
    (st.call t nl ws fuel = .error .panic → LexFails t st.lexer) ∧
    (st.call t nl ws fuel = .error .fuel → (∀ r ∈ rules, ¬ r.Matches []) → fuel < st.lexer.rest.length + 2) := by
  unfold TokenFun.call
  rcases nextUnwrap_spec ht hi with ⟨r, l', h1, h2⟩ | ⟨tk, l', pre, m, h1, h2, h3, h4, h5⟩
  · simp only [h2, bind, Except.bind]
    refine ⟨(fun _ _ _ hr => by cases hr), fun _ => ⟨[], _, _, r, .nil _, h1⟩, fun hr => by cases hr⟩
  · obtain ⟨i1, i2, i3⟩ := skip_spec ht hn hw ha hf fuel tk _ pre m h3
    simp only [h2, bind, Except.bind]
    cases hs : TokenFun.skip t nl ws fuel tk { st with lexer := l' } with
    | error e =>
      refine ⟨(fun _ _ _ hr => by cases hr), fun hr => ?_, fun hr he => ?_⟩
      · cases hr
        obtain ⟨hs, l1, l2, r, k1, k2⟩ := i2 hs
        exact ⟨(tk, l') :: hs, l1, l2, r, .cons h1 k1, k2⟩
      · cases hr
        have := i3 hs he
        simp only at this
        rw [h5, List.length_append]
        omega
    | ok x =>
      obtain ⟨tk', st'⟩ := x
      obtain ⟨j1, ⟨pre', m', j2⟩, hs', j3, j4, j5⟩ := i1 tk' st' hs
      have hm' : '\n' ∉ m' := by
        cases tk' with
        | token j =>
          obtain ⟨r, k1, k2⟩ := j2.tok j rfl
          have := hn j r m' k1 k2 j2.infix
          rwa [if_neg (by rintro rfl; exact j1 (.inl rfl))] at this
        | eof => simp [j2.eof rfl]
        | unexpectedAlphabet x => exact absurd rfl (j2.fine x)
        | invalidChar c => exact absurd rfl (j2.valid c)
      obtain ⟨hc, hl⟩ := count_token ha hf j2 hm'
      simp only [j2.slice, hc]
      refine ⟨?_, (fun hr => by cases hr), fun hr => by cases hr⟩
      intro tk d st2 hr
      simp only [Except.ok.injEq, Prod.mk.injEq] at hr
      obtain ⟨rfl, rfl, rfl⟩ := hr
      have hp : (⟨st'.line, (posAfter (pre' ++ m')).col⟩ : SourcePos) = posAfter (pre' ++ m') := by rw [← hl]
      refine ⟨ahead_inv j2 hp, j1, ⟨(_, l') :: hs', j3, .cons h1 j4, j5, j2.slice⟩, pre', j2.src_eq, ?_⟩
      simp only [SourceSpan.mk.injEq]
      exact ⟨j2.pos, hp⟩

end calls

end Verif
