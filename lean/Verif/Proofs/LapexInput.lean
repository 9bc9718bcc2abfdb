import Verif.Spec.LapexInput
import Verif.Proofs.Pipeline
import Verif.Proofs.Source
import Verif.Props.Lapex

/-! # Lemmas: the lapex input parser on a text -/

set_option autoImplicit false

namespace Verif

section
variable {rules : List TokenRule} {t : LexerTables} {lexFuel nl ws : Nat} {src : List Char}

/-- the token function up to the first token that is not skipped -/
def TokenFun.go (t : LexerTables) (nl ws fuel : Nat) (st : TokenFun) : Res (LexResult × TokenFun) := do
  let (tk, lexer) ← nextUnwrap t st.lexer
  TokenFun.skip t nl ws fuel tk { st with lexer := lexer }

theorem call_eq (fuel : Nat) (st : TokenFun) : st.call t nl ws fuel = (do
    let (tk, st) ← st.go t nl ws fuel
    let slice ← st.lexer.slice
    let col ← addU16 st.col (bytes slice % u16Count)
    .ok (tk, ⟨slice, ⟨⟨st.line, st.col⟩, ⟨st.line, col⟩⟩⟩, { st with col := col })) := by
  unfold TokenFun.call TokenFun.go bytes
  cases nextUnwrap t st.lexer with
  | error e => rfl
  | ok x => rfl

/-- position of a token function's state -/
def TokenFun.pos (st : TokenFun) : SourcePos := ⟨st.line, st.col⟩

theorem nextUnwrap_next {l l' : Lexer} {r : LexResult} (h : nextUnwrap t l = .ok (r, l')) : l.next t = .ok (r, l') ∧ ((∃ j, r = .token j) ∨ r = .eof) := by
  unfold nextUnwrap at h
  obtain ⟨⟨r1, l1⟩, h1, h2⟩ := res_bind_ok.mp h
  rw [h1]
  cases r1 with
  | token j => cases h2; exact ⟨rfl, .inl ⟨j, rfl⟩⟩
  | eof => cases h2; exact ⟨rfl, .inr rfl⟩
  | invalidChar c => cases h2
  | unexpectedAlphabet c => cases h2

theorem nextUnwrap_of {l l' : Lexer} {r : LexResult} (h : l.next t = .ok (r, l')) (hr : (∃ j, r = .token j) ∨ r = .eof) : nextUnwrap t l = .ok (r, l') := by
  unfold nextUnwrap
  rw [h]
  rcases hr with ⟨j, rfl⟩ | rfl <;> rfl

theorem addU16_ok {a b c : Nat} (h : addU16 a b = .ok c) : c = a + b ∧ a + b < u16Count := by
  unfold addU16 at h
  split at h
  · cases h; exact ⟨rfl, by assumption⟩
  · cases h

theorem addU16_of {a b : Nat} (h : a + b < 65536) : addU16 a b = .ok (a + b) := by
  unfold addU16
  rw [if_pos (by simpa [u16Count] using h)]

theorem bytes_rest {l : Lexer} (hi : l.Inv src) : bytes l.rest ≤ bytes src := by
  obtain ⟨_, done, hd, _⟩ := hi
  rw [hd, bytes_append]
  omega

/-- what the token function found, and where -/
theorem go_sound (h : generateLexer lexFuel rules = .ok (.ok t)) (hne : ∀ r ∈ rules, r.NoEmptySeq) (hb : bytes src < 65536) : ∀ (fuel : Nat) {st st1 : TokenFun} {tk : LexResult},
    st.lexer.Inv src → st.go t nl ws fuel = .ok (tk, st1) → st1.lexer.Inv src ∧ ∃ ts1 m, (∀ x ∈ ts1, x.1 = nl ∨ x.1 = ws) ∧ st1.lexer.slice = .ok m ∧
      st1.pos = ts1.foldl (stepPos nl) st.pos ∧ st1.lexer.rest.length ≤ st.lexer.rest.length ∧ bytes m ≤ bytes src ∧
      ((∃ j, tk = .token j ∧ j ≠ nl ∧ j ≠ ws ∧ st1.lexer.rest.length + m.length ≤ st.lexer.rest.length ∧ BestMatch rules m j ∧
          ∀ ts2, TextTokens rules st1.lexer.rest ts2 → TextTokens rules st.lexer.rest (ts1 ++ (j, m) :: ts2)) ∨
        tk = .eof ∧ TextTokens rules st.lexer.rest ts1) := by
  intro fuel
  induction fuel with
  | zero =>
    intro st st1 tk hi hg
    unfold TokenFun.go at hg
    obtain ⟨⟨tk0, l0⟩, h1, h2⟩ := res_bind_ok.mp hg
    cases h2
  | succ fuel ih =>
    intro st st1 tk hi hg
    unfold TokenFun.go at hg
    obtain ⟨⟨tk0, l0⟩, h1, h2⟩ := res_bind_ok.mp hg
    obtain ⟨hn, hkind⟩ := nextUnwrap_next h1
    dsimp only at h2
    unfold TokenFun.skip at h2
    rcases hkind with ⟨j, rfl⟩ | rfl
    · obtain ⟨m, a1, a2, a3, a4, a5, a6, a7⟩ := next_token_spec h hne hi hn
      have hlen : l0.rest.length + m.length = st.lexer.rest.length := by rw [a1, List.length_append]; omega
      have hbm : bytes m ≤ bytes src := by
        have := bytes_rest hi
        rw [a1, bytes_append] at this
        omega
      have htok : ∀ {ts : List (Nat × List Char)}, TextTokens rules l0.rest ts → TextTokens rules st.lexer.rest ((j, m) :: ts) := by
        intro ts hts
        rw [a1] at a5 a6 ⊢
        exact .token a6 a3 a4 a5 hts
      by_cases hj : j = nl
      · subst hj
        rw [if_pos rfl] at h2
        dsimp only at h2
        obtain ⟨⟨tk1, l1⟩, h3, h4⟩ := res_bind_ok.mp h2
        obtain ⟨line, h5, h6⟩ := res_bind_ok.mp h4
        obtain ⟨rfl, _⟩ := addU16_ok h5
        have hg' : TokenFun.go t j ws fuel ⟨l0, 1, st.line + 1⟩ = .ok (tk, st1) := by
          unfold TokenFun.go
          rw [h3]
          exact h6
        obtain ⟨b1, ts1, m1, b2, b3, b4, b5, b6, b7⟩ := ih (st := ⟨l0, 1, st.line + 1⟩) a7 hg'
        refine ⟨b1, (j, m) :: ts1, m1, ?_, b3, ?_, ?_, b6, ?_⟩
        · intro x hx
          rcases List.mem_cons.mp hx with rfl | hx
          · exact .inl rfl
          · exact b2 x hx
        · rw [b4]; simp [stepPos, TokenFun.pos]
        · simp only at b5; omega
        · rcases b7 with ⟨k, c1, c2, c3, c4, c5, c6⟩ | ⟨c1, c2⟩
          · exact .inl ⟨k, c1, c2, c3, by simp only at c4; omega, c5, fun ts2 hts => htok (c6 ts2 hts)⟩
          · exact .inr ⟨c1, htok c2⟩
      · rw [if_neg (fun e => hj (by cases e; rfl))] at h2
        by_cases hw : j = ws
        · subst hw
          rw [if_pos rfl] at h2
          dsimp only at h2
          rw [a2, res_ok_bind] at h2
          obtain ⟨col, h5, h6⟩ := res_bind_ok.mp h2
          obtain ⟨rfl, _⟩ := addU16_ok h5
          obtain ⟨⟨tk1, l1⟩, h3, h4⟩ := res_bind_ok.mp h6
          have hg' : TokenFun.go t nl j fuel ⟨l0, st.col + bytes m, st.line⟩ = .ok (tk, st1) := by
            unfold TokenFun.go
            rw [h3]
            have e : (m.map Char.utf8Size).sum % u16Count = bytes m := Nat.mod_eq_of_lt (by simp only [u16Count]; exact Nat.lt_of_le_of_lt hbm hb)
            rw [e] at h4
            exact h4
          obtain ⟨b1, ts1, m1, b2, b3, b4, b5, b6, b7⟩ := ih (st := ⟨l0, st.col + bytes m, st.line⟩) a7 hg'
          refine ⟨b1, (j, m) :: ts1, m1, ?_, b3, ?_, ?_, b6, ?_⟩
          · intro x hx
            rcases List.mem_cons.mp hx with rfl | hx
            · exact .inr rfl
            · exact b2 x hx
          · rw [b4]; simp [stepPos, TokenFun.pos, hj]
          · simp only at b5; omega
          · rcases b7 with ⟨k, c1, c2, c3, c4, c5, c6⟩ | ⟨c1, c2⟩
            · exact .inl ⟨k, c1, c2, c3, by simp only at c4; omega, c5, fun ts2 hts => htok (c6 ts2 hts)⟩
            · exact .inr ⟨c1, htok c2⟩
        · rw [if_neg (fun e => hw (by cases e; rfl))] at h2
          cases h2
          exact ⟨a7, [], m, by simp, a2, rfl, by dsimp only; omega, hbm, .inl ⟨j, rfl, hj, hw, by dsimp only; omega, a4, fun ts2 hts => htok hts⟩⟩
    · rw [if_neg (by intro e; cases e), if_neg (by intro e; cases e)] at h2
      cases h2
      obtain ⟨m, rest', q, res, l', g1, g2, g3, g4, g5, g6, g7, g8, g9, g10, g11, g12⟩ := next_slice (generateLexer_ok h) hi
      rw [hn] at g7
      cases g7
      refine ⟨g12, [], m, by simp, g11, rfl, by dsimp only; rw [g8, g1, List.length_append]; omega, ?_, .inr ⟨rfl, .done ((C12_eof_iff h st.lexer).mp ⟨_, hn⟩)⟩⟩
      have := bytes_rest hi
      rw [g1, bytes_append] at this
      omega

/-- the same for a whole call -/
theorem call_sound (h : generateLexer lexFuel rules = .ok (.ok t)) (hne : ∀ r ∈ rules, r.NoEmptySeq) (hb : bytes src < 65536) {fuel : Nat} {st st' : TokenFun} {tk : LexResult}
    {d : TokenData} (hi : st.lexer.Inv src) (hc : st.call t nl ws fuel = .ok (tk, d, st')) :
    st'.lexer.Inv src ∧ ∃ ts1, (∀ x ∈ ts1, x.1 = nl ∨ x.1 = ws) ∧ 
      ((∃ j, tk = .token j ∧ j ≠ nl ∧ j ≠ ws ∧ st'.lexer.rest.length + d.text.length ≤ st.lexer.rest.length ∧ BestMatch rules d.text j ∧
          st'.pos = stepPos nl (ts1.foldl (stepPos nl) st.pos) (j, d.text) ∧ d.span = ⟨ts1.foldl (stepPos nl) st.pos, st'.pos⟩ ∧
          ∀ ts2, TextTokens rules st'.lexer.rest ts2 → TextTokens rules st.lexer.rest (ts1 ++ (j, d.text) :: ts2)) ∨
        tk = .eof ∧ TextTokens rules st.lexer.rest ts1) := by
  rw [call_eq] at hc
  obtain ⟨⟨tk1, st1⟩, h1, h2⟩ := res_bind_ok.mp hc
  obtain ⟨b1, ts1, m, b2, b3, b4, b5, b6, b7⟩ := go_sound h hne hb fuel hi h1
  dsimp only at h2
  rw [b3, res_ok_bind] at h2
  obtain ⟨col, h5, h6⟩ := res_bind_ok.mp h2
  obtain ⟨rfl, _⟩ := addU16_ok h5
  rw [Nat.mod_eq_of_lt (by simp only [u16Count]; omega)] at h6
  cases h6
  refine ⟨b1, ts1, b2, ?_⟩
  rcases b7 with ⟨j, c1, c2, c3, c4, c5, c6⟩ | ⟨c1, c2⟩
  · refine .inl ⟨j, c1, c2, c3, c4, c5, ?_, ?_, c6⟩
    · rw [← b4]; simp [stepPos, TokenFun.pos, c2]
    · rw [← b4]; rfl
  · exact .inr ⟨c1, c2⟩

/-- the token function finds the tokens of a text -/
theorem go_complete (h : generateLexer lexFuel rules = .ok (.ok t)) (hne : ∀ r ∈ rules, r.NoEmptySeq ∧ r.Useful) (hb : bytes src < 65535) {rest : List Char} {ts : List (Nat × List Char)}
    (hts : TextTokens rules rest ts) : ∀ {fuel : Nat} {st : TokenFun} {done : List Char}, st.lexer.Inv src → st.lexer.rest = rest → src = done ++ rest →
      st.col ≤ 1 + bytes done → st.line ≤ 1 + done.length → (∀ r ∈ rules, ¬ r.Matches []) → ts.length + 1 ≤ fuel →
      ∃ tk st1 done1 m, st.go t nl ws fuel = .ok (tk, st1) ∧ src = done1 ++ m ++ st1.lexer.rest ∧ st1.lexer.slice = .ok m ∧ st1.col ≤ 1 + bytes done1 ∧ st1.line ≤ 1 + done1.length ∧
        ((∃ j ts2, tk = .token j ∧ TextTokens rules st1.lexer.rest ts2 ∧ ts2.length < ts.length) ∨ tk = .eof) := by
  induction hts with
  | @done text he =>
    intro fuel st done hi hr hs hc hl _ hf
    obtain ⟨l', hn⟩ := (C12_eof_iff h st.lexer).mpr (by rw [hr]; exact he)
    obtain ⟨m, rest', q, res, l2, g1, g2, g3, g4, g5, g6, g7, g8, g9, g10, g11, g12⟩ := next_slice (generateLexer_ok h) hi
    rw [hn] at g7
    cases g7
    obtain ⟨fuel, rfl⟩ : ∃ n, fuel = n + 1 := ⟨fuel - 1, by omega⟩
    refine ⟨.eof, { st with lexer := l' }, done, m, ?_, ?_, g11, hc, hl, .inr rfl⟩
    · unfold TokenFun.go
      rw [nextUnwrap_of hn (.inr rfl), res_ok_bind]
      dsimp only
      unfold TokenFun.skip
      rw [if_neg (by intro e; cases e), if_neg (by intro e; cases e)]
    · dsimp only
      rw [hs, ← hr, g1, g8, List.append_assoc]
  | @token m rest j ts h1 h2 h3 h4 h5 ih =>
    intro fuel st done hi hr hs hc hl hε hf
    obtain ⟨l', hn, hrest, hslice, hinv⟩ := next_token_of h hne hi hr (by rw [hr]; exact h1) h2 h3 (by rw [hr]; exact h4)
    obtain ⟨fuel, rfl⟩ : ∃ n, fuel = n + 1 := ⟨fuel - 1, by omega⟩
    have hsrc : bytes src = bytes done + bytes m + bytes rest := by rw [hs, bytes_append, bytes_append]; omega
    have hlen : done.length + 1 ≤ (done ++ m).length := by
      have : m ≠ [] := by
        rintro rfl
        obtain ⟨r, p, a1, a2, _⟩ := h3
        exact hε r (List.mem_of_getElem? a1) a2
      have := List.length_pos_of_ne_nil this
      rw [List.length_append]; omega
    have hlb : ∀ w : List Char, w.length ≤ bytes w := by
      intro w
      induction w with
      | nil => simp [bytes]
      | cons c w ih =>
        have := Char.utf8Size_pos c
        simp only [bytes, List.map_cons, List.sum_cons, List.length_cons] at ih ⊢
        omega
    have hgo : st.go t nl ws (fuel + 1) = TokenFun.skip t nl ws (fuel + 1) (.token j) { st with lexer := l' } := by
      unfold TokenFun.go
      rw [nextUnwrap_of hn (.inl ⟨j, rfl⟩), res_ok_bind]
    by_cases hj : j = nl
    · subst hj
      have hdone := hlb done
      have hmb := hlb m
      have hml : 1 ≤ m.length := by rw [List.length_append] at hlen; omega
      obtain ⟨tk, st1, done1, m1, c1, c2, c3, c4, c5, c6⟩ := ih (fuel := fuel) (st := ⟨l', 1, st.line + 1⟩) (done := done ++ m) hinv hrest (by rw [hs, List.append_assoc])
        (by dsimp only; omega) (by dsimp only; omega) hε (by simp only [List.length_cons] at hf; omega)
      refine ⟨tk, st1, done1, m1, ?_, c2, c3, c4, c5, ?_⟩
      · rw [hgo]
        unfold TokenFun.go at c1
        obtain ⟨⟨tk2, l2⟩, d1, d2⟩ := res_bind_ok.mp c1
        dsimp only at d1
        unfold TokenFun.skip
        rw [if_pos rfl]
        dsimp only
        rw [d1, res_ok_bind, addU16_of (by omega)]
        exact d2
      · rcases c6 with ⟨k, ts2, e1, e2, e3⟩ | e1
        · exact .inl ⟨k, ts2, e1, e2, by simp only [List.length_cons]; omega⟩
        · exact .inr e1
    · by_cases hw : j = ws
      · subst hw
        obtain ⟨tk, st1, done1, m1, c1, c2, c3, c4, c5, c6⟩ := ih (fuel := fuel) (st := ⟨l', st.col + bytes m, st.line⟩) (done := done ++ m) hinv hrest (by rw [hs, List.append_assoc])
          (by dsimp only; rw [bytes_append]; omega) (by dsimp only; omega) hε (by simp only [List.length_cons] at hf; omega)
        refine ⟨tk, st1, done1, m1, ?_, c2, c3, c4, c5, ?_⟩
        · rw [hgo]
          unfold TokenFun.go at c1
          obtain ⟨⟨tk2, l2⟩, d1, d2⟩ := res_bind_ok.mp c1
          dsimp only at d1
          unfold TokenFun.skip
          rw [if_neg (fun e => hj (by cases e; rfl)), if_pos rfl]
          dsimp only
          have e : (m.map Char.utf8Size).sum % u16Count = bytes m := Nat.mod_eq_of_lt (by simp only [u16Count]; change bytes m < _; omega)
          rw [hslice, res_ok_bind, e, addU16_of (by omega), res_ok_bind, d1]
          exact d2
        · rcases c6 with ⟨k, ts2, e1, e2, e3⟩ | e1
          · exact .inl ⟨k, ts2, e1, e2, by simp only [List.length_cons]; omega⟩
          · exact .inr e1
      · refine ⟨.token j, { st with lexer := l' }, done, m, ?_, by dsimp only; rw [hrest, hs, List.append_assoc], hslice, hc, hl, .inl ⟨j, ts, rfl, by dsimp only; rw [hrest]; exact h5, by simp⟩⟩
        rw [hgo]
        unfold TokenFun.skip
        rw [if_neg (fun e => hj (by cases e; rfl)), if_neg (fun e => hw (by cases e; rfl))]

theorem nextUnwrap_noFuel (h : generateLexer lexFuel rules = .ok (.ok t)) (l : Lexer) : nextUnwrap t l ≠ .error .fuel := by
  obtain ⟨res, l', hn, _⟩ := C10_next_total h l
  unfold nextUnwrap
  rw [hn]
  cases res <;> (intro e; cases e)

theorem nf_addU16 (a b : Nat) : addU16 a b ≠ .error .fuel := by
  unfold addU16
  split <;> (intro e; cases e)

theorem go_noFuel (h : generateLexer lexFuel rules = .ok (.ok t)) (hne : ∀ r ∈ rules, r.NoEmptySeq) (hε : ∀ r ∈ rules, ¬ r.Matches []) : ∀ (fuel : Nat) {st : TokenFun},
    st.lexer.Inv src → st.lexer.rest.length + 1 ≤ fuel → st.go t nl ws fuel ≠ .error .fuel := by
  intro fuel
  induction fuel with
  | zero => intro st _ hf; omega
  | succ fuel ih =>
    intro st hi hf
    unfold TokenFun.go
    cases hu : nextUnwrap t st.lexer with
    | error e => intro e'; cases e'; exact nextUnwrap_noFuel h _ hu
    | ok x =>
      obtain ⟨tk, l'⟩ := x
      rw [res_ok_bind]
      dsimp only
      obtain ⟨hn, hkind⟩ := nextUnwrap_next hu
      unfold TokenFun.skip
      rcases hkind with ⟨j, rfl⟩ | rfl
      · obtain ⟨m, a1, a2, a3, a4, a5, a6, a7⟩ := next_token_spec h hne hi hn
        have hm : m ≠ [] := by
          rintro rfl
          obtain ⟨r, p, b1, b2, _⟩ := a4
          exact hε r (List.mem_of_getElem? b1) b2
        have hml := List.length_pos_of_ne_nil hm
        have hlen : l'.rest.length + m.length = st.lexer.rest.length := by rw [a1, List.length_append]; omega
        split
        · dsimp only
          have key := fun line => ih (st := ⟨l', 1, line⟩) a7 (by dsimp only; omega)
          unfold TokenFun.go at key
          dsimp only at key
          cases hu2 : nextUnwrap t l' with
          | error e => intro e'; cases e'; exact nextUnwrap_noFuel h _ hu2
          | ok y =>
            rw [hu2] at key
            simp only [res_ok_bind] at key ⊢
            exact nf_bind (nf_addU16 _ _) key
        · split
          · dsimp only
            rw [a2, res_ok_bind]
            refine nf_bind (nf_addU16 _ _) fun col => ?_
            exact ih (st := ⟨l', col, st.line⟩) a7 (by dsimp only; omega)
          · exact nf_ok
      · rw [if_neg (by intro e; cases e), if_neg (by intro e; cases e)]
        exact nf_ok

theorem call_noFuel (h : generateLexer lexFuel rules = .ok (.ok t)) (hne : ∀ r ∈ rules, r.NoEmptySeq) (hε : ∀ r ∈ rules, ¬ r.Matches []) (hb : bytes src < 65536) {fuel : Nat} {st : TokenFun}
    (hi : st.lexer.Inv src) (hf : st.lexer.rest.length + 1 ≤ fuel) : st.call t nl ws fuel ≠ .error .fuel := by
  rw [call_eq]
  cases hg : st.go t nl ws fuel with
  | error e => intro e'; cases e'; exact go_noFuel h hne hε fuel hi hf hg
  | ok x =>
    obtain ⟨tk, st1⟩ := x
    obtain ⟨_, ts1, m, _, b3, _⟩ := go_sound h hne hb fuel hi hg
    rw [res_ok_bind]
    dsimp only
    rw [b3, res_ok_bind]
    exact nf_bind (nf_addU16 _ _) fun _ => nf_ok

theorem call_complete (h : generateLexer lexFuel rules = .ok (.ok t)) (hne : ∀ r ∈ rules, r.NoEmptySeq ∧ r.Useful) (hε : ∀ r ∈ rules, ¬ r.Matches []) (hb : bytes src < 65535)
    {ts : List (Nat × List Char)} {fuel : Nat} {st : TokenFun} {done : List Char} (hi : st.lexer.Inv src) (hts : TextTokens rules st.lexer.rest ts) (hs : src = done ++ st.lexer.rest)
    (hc : st.col ≤ 1 + bytes done) (hl : st.line ≤ 1 + done.length) (hf : ts.length + 1 ≤ fuel) :
    ∃ tk d st' done', st.call t nl ws fuel = .ok (tk, d, st') ∧ src = done' ++ st'.lexer.rest ∧ st'.col ≤ 1 + bytes done' ∧ st'.line ≤ 1 + done'.length ∧
        ((∃ j ts2, tk = .token j ∧ TextTokens rules st'.lexer.rest ts2 ∧ ts2.length < ts.length) ∨ tk = .eof) := by
  obtain ⟨tk, st1, done1, m, c1, c2, c3, c4, c5, c6⟩ := go_complete (nl := nl) (ws := ws) h hne hb hts hi rfl hs hc hl hε hf
  have hsum : bytes src = bytes done1 + bytes m + bytes st1.lexer.rest := by rw [c2, bytes_append, bytes_append]
  refine ⟨tk, ⟨m, ⟨⟨st1.line, st1.col⟩, ⟨st1.line, st1.col + bytes m⟩⟩⟩, { st1 with col := st1.col + bytes m }, done1 ++ m, ?_, c2, by dsimp only; rw [bytes_append]; omega, by dsimp only; rw [List.length_append]; omega, c6⟩
  rw [call_eq, c1, res_ok_bind]
  dsimp only
  rw [c3, res_ok_bind, Nat.mod_eq_of_lt (by simp only [u16Count]; omega), addU16_of (by omega), res_ok_bind]

/-! ## the stream of tokens -/

theorem located_skip {ts1 : List (Nat × List Char)} (h : ∀ x ∈ ts1, x.1 = nl ∨ x.1 = ws) (pos : SourcePos) (ts : List (Nat × List Char)) :
    located nl ws pos (ts1 ++ ts) = located nl ws (ts1.foldl (stepPos nl) pos) ts := by
  induction ts1 generalizing pos with
  | nil => rfl
  | cons x ts1 ih =>
    rw [List.cons_append, located, if_pos (h x (by simp))]
    exact ih (fun y hy => h y (by simp [hy])) _

theorem nth_sound (h : generateLexer lexFuel rules = .ok (.ok t)) (hne : ∀ r ∈ rules, r.NoEmptySeq) (hb : bytes src < 65536) {fuel : Nat} : ∀ (w : Tokens) {st : TokenFun},
    st.lexer.Inv src → (∀ i x, w[i]? = some x → st.nth t nl ws fuel i = .ok (.tok x.1, x.2)) → (∃ d, st.nth t nl ws fuel w.length = .ok (.eof, d)) →
    ∃ ts, TextTokens rules st.lexer.rest ts ∧ w = located nl ws st.pos ts := by
  intro w
  induction w with
  | nil =>
    intro st hi _ he
    obtain ⟨d, he⟩ := he
    simp only [List.length_nil, TokenFun.nth] at he
    obtain ⟨⟨tk, d1, st1⟩, h1, h2⟩ := res_bind_ok.mp he
    obtain ⟨_, ts1, b1, b2⟩ := call_sound h hne hb hi h1
    rcases b2 with ⟨j, rfl, _⟩ | ⟨rfl, b3⟩
    · cases h2
    · refine ⟨ts1, b3, ?_⟩
      have := located_skip b1 st.pos []
      simp only [List.append_nil, located] at this
      exact this.symm
  | cons x w ih =>
    intro st hi hx he
    have h0 := hx 0 x rfl
    rw [TokenFun.nth] at h0
    obtain ⟨⟨tk, d1, st1⟩, h1, h2⟩ := res_bind_ok.mp h0
    obtain ⟨c1, ts1, b1, b2⟩ := call_sound h hne hb hi h1
    have hnth : ∀ i, st.nth t nl ws fuel (i + 1) = st1.nth t nl ws fuel i := by
      intro i
      rw [TokenFun.nth, h1, res_ok_bind]
    obtain ⟨ts, d2, d3⟩ := ih c1 (fun i y hy => by rw [← hnth]; exact hx (i + 1) y (by simpa using hy)) (by rw [List.length_cons, hnth] at he; exact he)
    rcases b2 with ⟨j, rfl, b3, b4, b5, b6, b7, b8, b9⟩ | ⟨rfl, b3⟩
    · obtain ⟨x1, x2⟩ := x
      cases h2
      refine ⟨_, b9 ts d2, ?_⟩
      rw [located_skip b1, located, if_neg (by simp [b3, b4]), ← b7, ← d3, ← b8]
    · cases h2

theorem nth_complete (h : generateLexer lexFuel rules = .ok (.ok t)) (hne : ∀ r ∈ rules, r.NoEmptySeq ∧ r.Useful) (hε : ∀ r ∈ rules, ¬ r.Matches []) (hb : bytes src < 65535) {fuel : Nat} :
    ∀ (n : Nat) {ts : List (Nat × List Char)} {st : TokenFun} {done : List Char}, ts.length ≤ n → st.lexer.Inv src → TextTokens rules st.lexer.rest ts → src = done ++ st.lexer.rest →
      st.col ≤ 1 + bytes done → st.line ≤ 1 + done.length → ts.length + 1 ≤ fuel →
      (∀ i x, (located nl ws st.pos ts)[i]? = some x → st.nth t nl ws fuel i = .ok (.tok x.1, x.2)) ∧ ∃ d, st.nth t nl ws fuel (located nl ws st.pos ts).length = .ok (.eof, d) := by
  intro n
  induction n with
  | zero =>
    intro ts st done hn hi hts hs hc hl hf
    obtain rfl : ts = [] := List.eq_nil_of_length_eq_zero (by omega)
    obtain ⟨tk, d, st', done', c1, c2, c3, c4, c5⟩ := call_complete (nl := nl) (ws := ws) h hne hε hb hi hts hs hc hl hf
    refine ⟨by simp [located], d, ?_⟩
    simp only [located, List.length_nil, TokenFun.nth, c1, res_ok_bind]
    rcases c5 with ⟨j, ts2, _, _, hlt⟩ | rfl
    · simp at hlt
    · rfl
  | succ n ih =>
    intro ts st done hn hi hts hs hc hl hf
    obtain ⟨tk, d, st', done', c1, c2, c3, c4, c5⟩ := call_complete (nl := nl) (ws := ws) h hne hε hb hi hts hs hc hl hf
    obtain ⟨e1, ts1, b1, b2⟩ := call_sound h (fun r hr => (hne r hr).1) (by omega) hi c1
    rcases c5 with ⟨j, ts2, rfl, d2, d3⟩ | rfl
    · rcases b2 with ⟨j', hj', b3, b4, b5, b6, b7, b8, b9⟩ | ⟨hj', _⟩
      · cases hj'
        have hu := hts.unique (b9 ts2 d2)
        subst hu
        have hloc : located nl ws st.pos (ts1 ++ (j, d.text) :: ts2) = (j, d) :: located nl ws st'.pos ts2 := by
          rw [located_skip b1, located, if_neg (by simp [b3, b4]), ← b7, ← b8]
        have hnth : ∀ i, st.nth t nl ws fuel (i + 1) = st'.nth t nl ws fuel i := by
          intro i
          rw [TokenFun.nth, c1, res_ok_bind]
        obtain ⟨f1, f2⟩ := ih (ts := ts2) (st := st') (done := done') (by omega) e1 d2 c2 c3 c4 (by omega)
        rw [hloc]
        refine ⟨fun i x hx => ?_, ?_⟩
        · cases i with
          | zero =>
            simp only [List.getElem?_cons_zero, Option.some.injEq] at hx
            subst hx
            rw [TokenFun.nth, c1, res_ok_bind]
            rfl
          | succ i =>
            rw [hnth]
            exact f1 i x (by simpa using hx)
        · obtain ⟨d', f2⟩ := f2
          exact ⟨d', by rw [List.length_cons, hnth]; exact f2⟩
      · cases hj'
    · rcases b2 with ⟨j', hj', _⟩ | ⟨_, b3⟩
      · cases hj'
      · have hu := hts.unique b3
        subst hu
        have := located_skip b1 st.pos []
        simp only [List.append_nil, located] at this
        rw [this]
        refine ⟨by simp, d, ?_⟩
        simp only [List.length_nil, TokenFun.nth, c1, res_ok_bind]
        rfl

theorem nth_noFuel (h : generateLexer lexFuel rules = .ok (.ok t)) (hne : ∀ r ∈ rules, r.NoEmptySeq) (hε : ∀ r ∈ rules, ¬ r.Matches []) (hb : bytes src < 65536) {fuel : Nat}
    (hf : src.length + 1 ≤ fuel) : ∀ (n : Nat) {st : TokenFun}, st.lexer.Inv src → st.nth t nl ws fuel n ≠ .error .fuel := by
  have hlen : ∀ {st : TokenFun}, st.lexer.Inv src → st.lexer.rest.length + 1 ≤ fuel := by
    intro st hi
    obtain ⟨_, done, hd, _⟩ := hi
    rw [hd, List.length_append] at hf
    omega
  intro n
  induction n with
  | zero =>
    intro st hi
    rw [TokenFun.nth]
    exact nf_bind (call_noFuel h hne hε hb hi (hlen hi)) fun _ => nf_ok
  | succ n ih =>
    intro st hi
    rw [TokenFun.nth]
    cases hc : st.call t nl ws fuel with
    | error e => intro e'; cases e'; exact call_noFuel h hne hε hb hi (hlen hi) hc
    | ok x => exact ih (call_sound h hne hb hi hc).1

/-- at some point there is no further token -/
theorem nth_ends (h : generateLexer lexFuel rules = .ok (.ok t)) (hne : ∀ r ∈ rules, r.NoEmptySeq) (hε : ∀ r ∈ rules, ¬ r.Matches []) (hb : bytes src < 65536) {fuel : Nat} :
    ∀ (n : Nat) {st : TokenFun}, st.lexer.Inv src → st.lexer.rest.length ≤ n → ∃ i, ∀ a d, st.nth t nl ws fuel i ≠ .ok (.tok a, d) := by
  intro n
  induction n with
  | zero =>
    intro st hi hl
    refine ⟨0, fun a d he => ?_⟩
    rw [TokenFun.nth] at he
    obtain ⟨⟨tk, d1, st1⟩, h1, h2⟩ := res_bind_ok.mp he
    obtain ⟨c1, ts1, b1, b2⟩ := call_sound h hne hb hi h1
    rcases b2 with ⟨j, rfl, b3, b4, b5, b6, _⟩ | ⟨rfl, b3⟩
    · have : d1.text = [] := List.eq_nil_of_length_eq_zero (by omega)
      obtain ⟨r, p, e1, e2, _⟩ := b6
      rw [this] at e2
      exact hε r (List.mem_of_getElem? e1) e2
    · cases h2
  | succ n ih =>
    intro st hi hl
    cases hc : st.call t nl ws fuel with
    | error e =>
      refine ⟨0, fun a d he => ?_⟩
      rw [TokenFun.nth, hc] at he
      cases he
    | ok x =>
      obtain ⟨tk, d1, st1⟩ := x
      obtain ⟨c1, ts1, b1, b2⟩ := call_sound h hne hb hi hc
      rcases b2 with ⟨j, rfl, b3, b4, b5, b6, _⟩ | ⟨rfl, b3⟩
      · have hm : d1.text ≠ [] := by
          intro hm
          obtain ⟨r, p, e1, e2, _⟩ := b6
          rw [hm] at e2
          exact hε r (List.mem_of_getElem? e1) e2
        have := List.length_pos_of_ne_nil hm
        obtain ⟨i, hi'⟩ := ih c1 (by omega)
        refine ⟨i + 1, fun a d he => hi' a d ?_⟩
        rw [TokenFun.nth, hc, res_ok_bind] at he
        exact he
      · refine ⟨0, fun a d he => ?_⟩
        rw [TokenFun.nth, hc, res_ok_bind] at he
        cases he

end

/-! ## the driver with a token function that may panic -/

section
variable {T : Type} {m : LRMachine} {tokenFun : Nat → Res (Tok × T)}

/-- failing calls replaced -/
def noFail [Inhabited T] (tokenFun : Nat → Res (Tok × T)) (i : Nat) : Tok × T :=
  match tokenFun i with
  | .ok x => x
  | .error _ => (.err, default)

theorem noFail_ok [Inhabited T] {i : Nat} {x : Tok × T} (h : tokenFun i = .ok x) : noFail tokenFun i = x := by unfold noFail; rw [h]

theorem lrStep_local {input input' : Nat → Tok × T} {stack : List StackSym} {pos : Nat} (h : input pos = input' pos) : lrStep m input stack pos = lrStep m input' stack pos := by
  unfold lrStep
  rw [h]

theorem lrRunWith_ok [Inhabited T] : ∀ (fuel : Nat) {stack : List StackSym} {pos : Nat} {events : List (LREvent T)} {r : LRResult T}, lrRunWith m tokenFun fuel stack pos events = .ok r →
    lrRun m (noFail tokenFun) fuel stack pos events = r := by
  intro fuel
  induction fuel with
  | zero => intro stack pos events r h; cases h; rfl
  | succ fuel ih =>
    intro stack pos events r h
    rw [lrRunWith] at h
    obtain ⟨x, h1, h2⟩ := res_bind_ok.mp h
    rw [lrRun, lrStep_local (input' := fun _ => x) (noFail_ok h1)]
    cases hs : lrStep m (fun _ => x) stack pos with
    | done => rw [hs] at h2; cases h2; rfl
    | unexpected expected => rw [hs] at h2; cases h2; rfl
    | panic ev => rw [hs] at h2; cases h2; rfl
    | next stack' pos' ev => rw [hs] at h2; exact ih h2

theorem lrRunWith_error : ∀ (fuel : Nat) {stack : List StackSym} {pos : Nat} {events : List (LREvent T)} {e : Err}, lrRunWith m tokenFun fuel stack pos events = .error e →
    ∃ i, tokenFun i = .error e := by
  intro fuel
  induction fuel with
  | zero => intro stack pos events r h; cases h
  | succ fuel ih =>
    intro stack pos events e h
    rw [lrRunWith] at h
    cases ht : tokenFun pos with
    | error e' => rw [ht] at h; cases h; exact ⟨pos, ht⟩
    | ok x =>
      rw [ht, res_ok_bind] at h
      revert h
      split <;> intro h
      · cases h
      · cases h
      · cases h
      · exact ih h

theorem lrGoto_same {stack stack' : List StackSym} {pos pos' : Nat} {ev ev' : LREvent T} (h : lrGoto m stack pos ev = .next stack' pos' ev') : pos' = pos := by
  unfold lrGoto at h
  split at h
  · split at h
    · cases h
    · cases h; rfl
    · cases h; rfl
  · cases h

theorem lrStep_forward {input : Nat → Tok × T} {stack stack' : List StackSym} {pos pos' : Nat} {ev : LREvent T} (h : lrStep m input stack pos = .next stack' pos' ev) : pos ≤ pos' := by
  unfold lrStep at h
  split at h
  · cases h
  · split at h
    · cases h
    · cases h
    · have := lrGoto_same h; omega
    · split at h
      · cases h
      · split at h
        · cases h
        · have := lrGoto_same h; omega
  · cases h

theorem lrRun_forward {input : Nat → Tok × T} : ∀ (fuel : Nat) {stack : List StackSym} {pos pos' : Nat} {events events' : List (LREvent T)},
    lrRun m input fuel stack pos events = .ok events' pos' → pos ≤ pos' := by
  intro fuel
  induction fuel with
  | zero => intro stack pos pos' events events' h; cases h
  | succ fuel ih =>
    intro stack pos pos' events events' h
    rw [lrRun] at h
    revert h
    split <;> intro h
    · cases h; exact Nat.le_refl _
    · cases h
    · cases h
    · rename_i hs
      exact Nat.le_trans (lrStep_forward hs) (ih h)

theorem lrRunWith_of {input : Nat → Tok × T} : ∀ (fuel : Nat) {stack : List StackSym} {pos pos' : Nat} {events events' : List (LREvent T)},
    lrRun m input fuel stack pos events = .ok events' pos' → (∀ i, i ≤ pos' → tokenFun i = .ok (input i)) →
    lrRunWith m tokenFun fuel stack pos events = .ok (.ok events' pos') := by
  intro fuel
  induction fuel with
  | zero => intro stack pos pos' events events' h; cases h
  | succ fuel ih =>
    intro stack pos pos' events events' h hi
    have hp := lrRun_forward _ h
    rw [lrRun] at h
    rw [lrRunWith, hi pos hp, res_ok_bind, lrStep_local (m := m) (input := fun _ => input pos) (input' := input) (stack := stack) (pos := pos) rfl]
    cases hs : lrStep m input stack pos with
    | done => rw [hs] at h; cases h; rfl
    | unexpected expected => rw [hs] at h; cases h
    | panic ev => rw [hs] at h; cases h
    | next stack' pos' ev => rw [hs] at h; exact ih h hi

theorem lrRunWith_mono : ∀ (fuel : Nat) {stack : List StackSym} {pos : Nat} {events : List (LREvent T)}, (∀ e p, lrRunWith m tokenFun fuel stack pos events ≠ .ok (.running e p)) →
    ∀ fuel', fuel ≤ fuel' → lrRunWith m tokenFun fuel' stack pos events = lrRunWith m tokenFun fuel stack pos events := by
  intro fuel
  induction fuel with
  | zero => intro stack pos events h; exact absurd rfl (h _ _)
  | succ fuel ih =>
    intro stack pos events h fuel' hf
    obtain ⟨fuel', rfl⟩ : ∃ n, fuel' = n + 1 := ⟨fuel' - 1, by omega⟩
    rw [lrRunWith] at h
    rw [lrRunWith, lrRunWith]
    cases ht : tokenFun pos with
    | error e => rfl
    | ok x =>
      rw [ht] at h
      simp only [res_ok_bind] at h ⊢
      cases hs : lrStep m (fun _ => x) stack pos with
      | done => rfl
      | unexpected expected => rfl
      | panic ev => rfl
      | next stack' pos' ev => rw [hs] at h; exact ih h fuel' (by omega)

end

end Verif
