import Verif.Proofs.Generate
import Verif.Props.LapexInput
import Verif.Props.Pipeline

/-! # What the rules of a lapex file are like -/

set_option autoImplicit false

namespace Verif

/-- neither an empty sequence nor an empty alternative -/
def NothingEmpty (p : ProdPattern) : Prop := ¬ Occurs (.sequence []) p ∧ ¬ Occurs (.alternative []) p

theorem nothingEmpty_sequence {ps : List ProdPattern} (hne : ps ≠ []) : NothingEmpty (.sequence ps) ↔ ∀ p ∈ ps, NothingEmpty p := by
  constructor
  · rintro ⟨h1, h2⟩ p hp
    exact ⟨fun h => h1 (.sequence hp h), fun h => h2 (.sequence hp h)⟩
  · intro h
    constructor
    · intro ho
      cases ho with
      | here => exact hne rfl
      | sequence hp ho => exact (h _ hp).1 ho
    · intro ho
      cases ho with
      | sequence hp ho => exact (h _ hp).2 ho

theorem nothingEmpty_alternative {ps : List ProdPattern} (hne : ps ≠ []) : NothingEmpty (.alternative ps) ↔ ∀ p ∈ ps, NothingEmpty p := by
  constructor
  · rintro ⟨h1, h2⟩ p hp
    exact ⟨fun h => h1 (.alternative hp h), fun h => h2 (.alternative hp h)⟩
  · intro h
    constructor
    · intro ho
      cases ho with
      | alternative hp ho => exact (h _ hp).1 ho
    · intro ho
      cases ho with
      | here => exact hne rfl
      | alternative hp ho => exact (h _ hp).2 ho

theorem joinSeq_nothingEmpty {p q : ProdPattern} (hp : NothingEmpty p) (hq : NothingEmpty q) : NothingEmpty (joinSeq p q) := by
  unfold joinSeq
  split
  · rename_i ps
    rw [nothingEmpty_sequence (by simp)]
    intro x hx
    rcases List.mem_cons.mp hx with rfl | hx
    · exact hp
    · exact (nothingEmpty_sequence (List.ne_nil_of_mem hx)).mp hq x hx
  · rw [nothingEmpty_sequence (by simp)]
    intro x hx
    simp at hx
    rcases hx with rfl | rfl
    · exact hp
    · exact hq

theorem joinAlt_nothingEmpty {p q : ProdPattern} (hp : NothingEmpty p) (hq : NothingEmpty q) : NothingEmpty (joinAlt p q) := by
  unfold joinAlt
  split
  · rename_i ps
    rw [nothingEmpty_alternative (by simp)]
    intro x hx
    rcases List.mem_append.mp hx with hx | hx
    · exact (nothingEmpty_alternative (List.ne_nil_of_mem hx)).mp hq x hx
    · simp at hx; subst hx; exact hp
  · rw [nothingEmpty_alternative (by simp)]
    intro x hx
    simp at hx
    rcases hx with rfl | rfl
    · exact hq
    · exact hp

theorem body_nothingEmpty {l : Level} {w : Tokens} {p : ProdPattern} (h : Body joinSeq joinAlt l w p) : NothingEmpty p := by
  induction h with
  | name n => constructor <;> (intro h; cases h)
  | paren _ _ _ ih => exact ih
  | optional _ _ ih => constructor <;> (intro h; cases h with | optional h => first | exact ih.1 h | exact ih.2 h)
  | star _ _ ih => constructor <;> (intro h; cases h with | zeroOrMany h => first | exact ih.1 h | exact ih.2 h)
  | plus _ _ ih => constructor <;> (intro h; cases h with | oneOrMany h => first | exact ih.1 h | exact ih.2 h)
  | item _ ih => exact ih
  | sequence _ _ ih1 ih2 => exact joinSeq_nothingEmpty ih1 ih2
  | unary _ ih => exact ih
  | choice _ _ _ ih1 ih2 => exact joinAlt_nothingEmpty ih1 ih2
  | concatenation _ ih => exact ih
  | alternative _ ih => exact ih
  | nothing n => constructor <;> (intro h; cases h)

theorem forall₂_right {α β : Type} {R : α → β → Prop} {xs : List α} {ys : List β} (h : List.Forall₂ R xs ys) {y : β} (hy : y ∈ ys) : ∃ x ∈ xs, R x y := by
  induction h with
  | nil => cases hy
  | cons a _ ih =>
    rcases List.mem_cons.mp hy with rfl | hy
    · exact ⟨_, by simp, a⟩
    · obtain ⟨x, hx, h⟩ := ih hy
      exact ⟨x, by simp [hx], h⟩

theorem ruleText_length {w : Tokens} {r : Spanned RawRule} (h : RuleText joinSeq joinAlt w r) : 1 ≤ w.length ∧ ∀ n tag p, r.inner = .prod n tag p → NothingEmpty p := by
  cases h with
  | entry => exact ⟨by simp, by intro n tag p h; cases h⟩
  | prod k n e s hb hbody => exact ⟨by simp, by intro n tag p h; cases h; exact body_nothingEmpty hbody⟩
  | token => exact ⟨by simp, by intro n tag p h; cases h⟩

theorem fileText_rules {w : Tokens} {rs : List (Spanned RawRule)} (h : FileText joinSeq joinAlt w rs) :
    rs.length ≤ w.length ∧ ∀ r ∈ rs, ∀ n tag p, r.inner = .prod n tag p → NothingEmpty p := by
  induction h with
  | one h => exact ⟨by simpa using (ruleText_length h).1, by simpa using (ruleText_length h).2⟩
  | more h _ ih =>
    obtain ⟨h1, h2⟩ := ruleText_length h
    refine ⟨by simp; omega, ?_⟩
    intro r hr
    rcases List.mem_cons.mp hr with rfl | hr
    · exact h2
    · exact ih.2 r hr

theorem located_length (nl ws : Nat) : ∀ (ts : List (Nat × List Char)) (pos : SourcePos), (located nl ws pos ts).length ≤ ts.length := by
  intro ts
  induction ts with
  | nil => intro pos; exact Nat.le_refl _
  | cons x ts ih =>
    intro pos
    unfold located
    split
    · exact Nat.le_trans (ih _) (by simp)
    · simp only [List.length_cons]; exact Nat.succ_le_succ (ih _)

/-- of what `RuleSet.Fine` asks for, a file gives everything but the last two -/
theorem fileMeans_rules {syn : List Char → Option Hir} {w : Tokens} {out : SpannedRules} (h : FileMeans syn w out) :
    out.tokens.length ≤ w.length ∧ out.prods.length ≤ w.length ∧ ∀ r ∈ out.prods, NothingEmpty r.inner.pattern := by
  obtain ⟨rs, xs, h1, h2, h3, h4, h5⟩ := h
  obtain ⟨h6, h7⟩ := fileText_rules h1
  have hlen : xs.length = rs.length := h2.length_eq.symm
  refine ⟨?_, ?_, ?_⟩
  · rw [h4, List.length_reverse]
    exact Nat.le_trans (List.length_filterMap_le _ _) (by omega)
  · rw [h5, List.length_reverse]
    exact Nat.le_trans (List.length_filterMap_le _ _) (by omega)
  · intro r hr
    rw [h5, List.mem_reverse] at hr
    obtain ⟨x, hx, he⟩ := List.mem_filterMap.mp hr
    split at he
    · rename_i q hq
      cases he
      obtain ⟨raw, hraw, _, hm⟩ := forall₂_right h2 hx
      rw [hq] at hm
      generalize hri : raw.inner = ri at hm
      cases hm with
      | prod n tag p => exact h7 raw hraw n tag p hri
    · cases he

theorem length_le_bytes (text : List Char) : text.length ≤ bytes text := by
  induction text with
  | nil => exact Nat.le_refl _
  | cons c cs ih =>
    have : bytes (c :: cs) = c.utf8Size + bytes cs := by simp [bytes]
    have := Char.utf8Size_pos c
    simp only [List.length_cons]
    omega

theorem SpannedRules.ruleSet_eq (rules : SpannedRules) : rules.ruleSet = Verif.ruleSet rules.entry.inner (rules.tokens.map (·.inner)) (rules.prods.map (·.inner)) := by
  simp [SpannedRules.ruleSet, Verif.ruleSet, List.map_map, Function.comp_def]

/-- the answer of the input parser for a text of fewer than 65535 bytes -/
theorem parsed_fine {lexFuel : Nat} {t : LexerTables} (hlex : generateLexer lexFuel lapexTokens = .ok (.ok t)) {p : LRProg} (hp : LRParserFor lapexGrammar .lr1 p)
    {syn : List Char → Option Hir} {text : List Char} (hb : bytes text < 65535) {fuel : Nat} {out : SpannedRules} (h : parseLapex syn t p.machine fuel text = .ok out) :
    out.tokens.length ≤ 65536 ∧ out.prods.length ≤ 65536 ∧ out.ruleSet.NoEmptySequence ∧ out.ruleSet.NoEmptyAlternative := by
  obtain ⟨ts, h1, h2⟩ := (C63_answer hlex hp syn text hb out).mp ⟨fuel, h⟩
  obtain ⟨h3, h4, h5⟩ := fileMeans_rules h2
  have hl := textTokens_length lapexTokens_nonempty h1
  have hl2 := located_length 19 18 ts ⟨1, 1⟩
  have hl3 := length_le_bytes text
  unfold fileTokens at h3 h4
  refine ⟨by omega, by omega, ?_, ?_⟩
  · intro q hq
    obtain ⟨r, hr, rfl⟩ := List.mem_map.mp hq
    exact (h5 r hr).1
  · intro q hq
    obtain ⟨r, hr, rfl⟩ := List.mem_map.mp hq
    exact (h5 r hr).2

end Verif
