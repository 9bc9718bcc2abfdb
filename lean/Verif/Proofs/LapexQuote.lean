import Verif.Proofs.LapexInput
import Verif.Proofs.LapexLexer
import Verif.Props.Source

/-! # The text of a rule in a lapex file -/

set_option autoImplicit false

namespace Verif

variable {rules : List TokenRule} {nl ws : Nat}

/-- the text of tokens -/
def tokensText (ts : List (Nat × List Char)) : List Char := (ts.map (·.2)).flatten

theorem tokensText_append (a b : List (Nat × List Char)) : tokensText (a ++ b) = tokensText a ++ tokensText b := by simp [tokensText]

theorem tokensText_cons (x : Nat × List Char) (a : List (Nat × List Char)) : tokensText (x :: a) = x.2 ++ tokensText a := by simp [tokensText]

theorem located_append (pos : SourcePos) (a b : List (Nat × List Char)) : located nl ws pos (a ++ b) = located nl ws pos a ++ located nl ws (a.foldl (stepPos nl) pos) b := by
  induction a generalizing pos with
  | nil => rfl
  | cons x a ih =>
    simp only [List.cons_append, located, List.foldl_cons]
    split
    · exact ih _
    · rw [ih]; rfl

/-- a located token is one of the tokens, and what comes before and after it is located likewise -/
theorem located_split : ∀ (ts : List (Nat × List Char)) (pos : SourcePos) (u : Tokens) (x : Nat × TokenData) (v : Tokens), located nl ws pos ts = u ++ x :: v →
    ∃ a b, ts = a ++ (x.1, x.2.text) :: b ∧ located nl ws pos a = u ∧ x.2.span = ⟨a.foldl (stepPos nl) pos, stepPos nl (a.foldl (stepPos nl) pos) (x.1, x.2.text)⟩ ∧
      x.1 ≠ nl ∧ x.1 ≠ ws ∧ located nl ws (stepPos nl (a.foldl (stepPos nl) pos) (x.1, x.2.text)) b = v := by
  intro ts
  induction ts with
  | nil => intro pos u x v h; simp [located] at h
  | cons y ts ih =>
    intro pos u x v h
    rw [located] at h
    split at h
    · rename_i hy
      obtain ⟨a, b, h1, h2, h3, h4, h5, h6⟩ := ih _ u x v h
      refine ⟨y :: a, b, by rw [h1]; rfl, ?_, h3, h4, h5, h6⟩
      rw [located, if_pos hy, h2]
    · rename_i hy
      cases u with
      | nil =>
        simp only [List.nil_append, List.cons.injEq] at h
        obtain ⟨rfl, h⟩ := h
        simp only [not_or] at hy
        exact ⟨[], ts, rfl, rfl, rfl, hy.1, hy.2, h⟩
      | cons z u =>
        simp only [List.cons_append, List.cons.injEq] at h
        obtain ⟨rfl, h⟩ := h
        obtain ⟨a, b, h1, h2, h3, h4, h5, h6⟩ := ih _ u x v h
        refine ⟨y :: a, b, by rw [h1]; rfl, ?_, h3, h4, h5, h6⟩
        rw [located, if_neg hy, h2]

/-- the tokens of a text stand one after another in it -/
theorem textTokens_split (hε : ∀ r ∈ rules, ¬ r.Matches []) {text : List Char} : ∀ {a b : List (Nat × List Char)}, TextTokens rules text (a ++ b) →
    ∃ v, text = tokensText a ++ v ∧ TextTokens rules v b ∧ TextTokens rules (tokensText a) a := by
  intro a
  induction a generalizing text with
  | nil => intro b h; exact ⟨text, rfl, h, .done (.inl rfl)⟩
  | cons x a ih =>
    intro b h
    rw [List.cons_append] at h
    generalize hts : x :: (a ++ b) = ts at h
    cases h with
    | done _ => cases hts
    | @token m rest j ts h1 h2 h3 h4 h5 =>
      cases hts
      obtain ⟨v, h6, h7, h8⟩ := ih h5
      have hm : m ≠ [] := by
        rintro rfl
        obtain ⟨r, _, hr, hm, _⟩ := h3
        exact hε r (List.mem_of_getElem? hr) hm
      refine ⟨v, by rw [tokensText_cons, h6, List.append_assoc], h7, ?_⟩
      rw [tokensText_cons]
      refine .token ?_ h2 h3 ?_ h8
      · rintro (h | ⟨w, h⟩)
        · exact hm (List.append_eq_nil_iff.mp h).1
        · cases m with
          | nil => exact hm rfl
          | cons c m =>
            simp only [List.cons_append, List.cons.injEq] at h
            exact h2 (by simp [h.1])
      · intro p suf hp hn hv
        refine h4 p (suf ++ v) ?_ hn hv
        rw [h6, ← List.append_assoc, hp, List.append_assoc]

theorem textTokens_length (hε : ∀ r ∈ rules, ¬ r.Matches []) {text : List Char} {ts : List (Nat × List Char)} (h : TextTokens rules text ts) : ts.length ≤ text.length := by
  induction h with
  | done _ => simp
  | @token m rest j ts h1 h2 h3 h4 h5 ih =>
    have hm : m ≠ [] := by
      rintro rfl
      obtain ⟨r, _, hr, hm, _⟩ := h3
      exact hε r (List.mem_of_getElem? hr) hm
    have := List.length_pos_iff.mpr hm
    simp
    omega

/-- counting tokens gives the positions of the text -/
theorem stepPos_text {src : List Char} (ha : Ascii src) (hn : NewlineRule rules nl src) : ∀ (ts : List (Nat × List Char)) (done : List Char),
    TextTokens rules (tokensText ts) ts → tokensText ts <:+: src → ts.foldl (stepPos nl) (posAfter done) = posAfter (done ++ tokensText ts) := by
  intro ts
  induction ts with
  | nil => intro done _ _; simp [tokensText]
  | cons x ts ih =>
    intro done h hi
    generalize hw : tokensText (x :: ts) = w at h
    cases h with
    | @token m rest j _ h1 h2 h3 h4 h5 =>
      rw [tokensText_cons] at hw hi
      have hw := List.append_cancel_left hw
      subst hw
      rw [List.foldl_cons]
      have hm : m <:+: src := List.IsInfix.trans ⟨[], tokensText ts, by simp⟩ hi
      have hs : stepPos nl (posAfter done) (j, m) = posAfter (done ++ m) := by
        obtain ⟨r, _, hr, hm1, _⟩ := h3
        have := hn j r m hr hm1 hm
        unfold stepPos
        dsimp only
        split at this
        · rename_i hj
          rw [if_pos hj, this, posAfter_newline]
        · rename_i hj
          rw [if_neg hj, posAfter_noNewline _ _ this, bytes_ascii _ (fun c hc => ha c (hm.subset hc))]
      rw [hs, ih _ h5 (List.IsInfix.trans ⟨m, [], by simp⟩ hi), List.append_assoc]

theorem ruleText_shape {v : Tokens} {r : Spanned RawRule} (h : RuleText joinSeq joinAlt v r) :
    ∃ k mid s, v = k :: mid ++ [s] ∧ r.span = ⟨k.2.span.start, s.2.span.stop⟩ := by
  cases h with
  | entry k n s => exact ⟨_, [_], _, rfl, rfl⟩
  | @prod u w tag p k n e s h1 h2 => exact ⟨(Lx.kwProd, k), [(Lx.ident, n)] ++ u ++ [(Lx.equals, e)] ++ w, (Lx.semi, s), by simp, rfl⟩
  | @token u prec kind k n e d s h1 h2 => exact ⟨(Lx.kwToken, k), [(Lx.ident, n)] ++ u ++ [(Lx.equals, e), (kind, d)], (Lx.semi, s), by simp, rfl⟩

theorem fileText_mem {w : Tokens} {rs : List (Spanned RawRule)} (h : FileText joinSeq joinAlt w rs) : ∀ r ∈ rs, ∃ u v z, w = u ++ v ++ z ∧ RuleText joinSeq joinAlt v r := by
  induction h with
  | one h => intro r hr; simp at hr; subst hr; exact ⟨[], _, [], by simp, h⟩
  | @more u v r rs h1 h2 ih =>
    intro r' hr
    rcases List.mem_cons.mp hr with rfl | hr
    · exact ⟨[], u, v, by simp, h1⟩
    · obtain ⟨u', v', z, h3, h4⟩ := ih r' hr
      exact ⟨u ++ u', v', z, by simp [h3], h4⟩

/-- each rule of a file stands where its span says -/
theorem rule_quoted {text : List Char} (ha : Ascii text) (hn : NewlineRule lapexTokens 19 text) {ts : List (Nat × List Char)} (ht : TextTokens lapexTokens text ts)
    {rs : List (Spanned RawRule)} (hf : FileText joinSeq joinAlt (fileTokens ts) rs) : ∀ r ∈ rs, ∃ pre quoted suf ts', text = pre ++ quoted ++ suf ∧
      r.span = ⟨posAfter pre, posAfter (pre ++ quoted)⟩ ∧ TextTokens lapexTokens quoted ts' ∧ RuleText joinSeq joinAlt (located 19 18 r.span.start ts') r := by
  intro r hr
  obtain ⟨u, v, z, h1, h2⟩ := fileText_mem hf r hr
  obtain ⟨k, mid, s, h3, h4⟩ := ruleText_shape h2
  unfold fileTokens at h1
  have h5 : located 19 18 ⟨1, 1⟩ ts = u ++ k :: (mid ++ s :: z) := by rw [h1, h3]; simp
  obtain ⟨a, b, e1, e2, e3, e4, e5, e6⟩ := located_split _ _ _ _ _ h5
  obtain ⟨c, d, f1, f2, f3, f4, f5, f6⟩ := located_split _ _ _ _ _ e6
  set q := (k.1, k.2.text) :: c ++ [(s.1, s.2.text)] with hq
  have hts : ts = a ++ q ++ d := by rw [e1, f1, hq]; simp
  rw [hts, List.append_assoc] at ht
  obtain ⟨t1, g1, g2, g3⟩ := textTokens_split lapexTokens_nonempty ht
  obtain ⟨t2, g4, g5, g6⟩ := textTokens_split lapexTokens_nonempty g2
  have htext : text = tokensText a ++ tokensText q ++ t2 := by rw [g1, g4, List.append_assoc]
  have p1 := stepPos_text ha hn a [] g3 ⟨[], tokensText q ++ t2, by rw [htext]; simp⟩
  rw [List.nil_append, posAfter_nil] at p1
  have p2 := stepPos_text ha hn q (tokensText a) g6 ⟨tokensText a, t2, htext.symm⟩
  have hspan : r.span = ⟨posAfter (tokensText a), posAfter (tokensText a ++ tokensText q)⟩ := by
    rw [h4, e3, f3, ← p2, ← p1, hq]
    simp
  refine ⟨tokensText a, tokensText q, t2, q, htext, hspan, g6, ?_⟩
  have hl : located 19 18 r.span.start q = v := by
    rw [hspan, hq, h3, ← p1]
    simp only [List.cons_append, located, e4, e5, or_self, if_false]
    rw [located_append, f2]
    simp only [located, f4, f5, or_self, if_false]
    rw [← f3, ← e3]
  rw [hl]
  exact h2

end Verif
