import Verif.Spec.CppSource
import Verif.Model.Template
import Verif.Model.Names

/-! # Reading generated C++ text: lemmas -/

set_option autoImplicit false

namespace Verif

/-! ## Tokens -/

theorem cLexRun_append (a b : List Char) (st : CLex) :
    cLexRun st (a ++ b) = (cLexRun st a).bind fun r => (cLexRun r.2 b).map fun q => (r.1 ++ q.1, q.2) := by
  induction a generalizing st with
  | nil =>
    simp only [List.nil_append, cLexRun, Option.bind_some]
    cases cLexRun st b <;> simp
  | cons c a ih =>
    simp only [List.cons_append, cLexRun]
    cases h : cLexStep st c with
    | none => simp
    | some r =>
      obtain ⟨ts, st'⟩ := r
      simp only [ih]
      cases h' : cLexRun st' a with
      | none => simp
      | some q =>
        simp only [Option.bind_some]
        cases h'' : cLexRun q.2 b <;> simp

theorem cLexRun_quiet {st st' : CLex} {c : Char} {cs : List Char} (h : cLexStep st c = some ([], st')) : cLexRun st (c :: cs) = cLexRun st' cs := by
  simp only [cLexRun, h]
  cases cLexRun st' cs <;> simp

/-- a text that can stand between tokens and has these tokens -/
def Lexes (s : List Char) (ts : List CTok) : Prop := cLexRun .base s = some (ts, .base)

theorem Lexes.nil : Lexes [] [] := rfl

theorem Lexes.append {a b : List Char} {x y : List CTok} (h : Lexes a x) (h' : Lexes b y) : Lexes (a ++ b) (x ++ y) := by
  unfold Lexes at *
  rw [cLexRun_append, h]
  simp [h']

theorem Lexes.flatMap {α : Type} {f : α → List Char} {g : α → List CTok} (l : List α) (h : ∀ a ∈ l, Lexes (f a) (g a)) :
    Lexes (l.flatMap f) (l.flatMap g) := by
  induction l with
  | nil => exact Lexes.nil
  | cons a l ih =>
    simp only [List.flatMap_cons]
    exact (h a (by simp)).append (ih fun b hb => h b (by simp [hb]))

theorem cLexRun_wordSt (w s : List Char) (hw : ∀ c ∈ w, isCWordChar c = true) (rest : List Char) :
    cLexRun (.word s) (w ++ rest) = cLexRun (.word (s ++ w)) rest := by
  induction w generalizing s with
  | nil => simp
  | cons c w ih =>
    have hc := hw c (by simp)
    simp only [List.cons_append, cLexRun, cLexStep, hc, if_true]
    rw [ih _ (fun d hd => hw d (by simp [hd]))]
    simp only [List.append_assoc, List.cons_append, List.nil_append]
    cases cLexRun (.word (s ++ c :: w)) rest <;> simp

theorem cLexStep_after (w : List Char) (c : Char) (h : isCWordChar c = false) : cLexStep (.word w) c = (cLexBase c).map fun r => (CTok.word w :: r.1, r.2) := by
  simp [cLexStep, h, cLexAfter]

/-- a word, then a text that does not begin with a char of a word -/
theorem Lexes.word {w a : List Char} {c : Char} {ts : List CTok} (hne : w ≠ []) (hw : ∀ d ∈ w, isCWordChar d = true) (hc : isCWordChar c = false)
    (h : Lexes (c :: a) ts) : Lexes (w ++ c :: a) (.word w :: ts) := by
  obtain ⟨d, w, rfl⟩ := List.exists_cons_of_ne_nil hne
  have hd := hw d (by simp)
  unfold Lexes at *
  have h1 : cLexRun .base ((d :: w) ++ c :: a) = cLexRun (.word (d :: w)) (c :: a) := by
    rw [List.cons_append, cLexRun_quiet (st' := .word [d]) (by simp [cLexStep, cLexBase, hd]), cLexRun_wordSt w [d] (fun e he => hw e (by simp [he]))]
    rfl
  rw [h1]
  simp only [cLexRun, cLexStep_after _ _ hc]
  simp only [cLexRun, cLexStep] at h
  cases hb : cLexBase c with
  | none => simp [hb] at h
  | some r =>
    simp only [hb] at h
    simp only [Option.map_some]
    cases hr : cLexRun r.2 a with
    | none => simp [hr] at h
    | some q =>
      simp only [hr, Option.some.injEq, Prod.mk.injEq] at h
      simp [h.1, h.2]

theorem cLexRun_lineSt (s rest : List Char) (h : '\n' ∉ s) (st : CLex) (hst : st = .line ∨ st = .lineEsc) (hlast : s = [] → st = .line) (hb : s.getLast? ≠ some '\\') :
    cLexRun st (s ++ '\n' :: rest) = cLexRun .base rest := by
  induction s generalizing st with
  | nil =>
    rw [hlast rfl]
    simp only [List.nil_append, cLexRun, cLexStep, if_true]
    cases cLexRun .base rest <;> simp
  | cons c s ih =>
    have hc : c ≠ '\n' := fun e => h (by simp [e])
    have hs : '\n' ∉ s := fun e => h (by simp [e])
    have hcases : ∃ st', cLexStep st c = some ([], st') ∧ (st' = .line ∨ st' = .lineEsc) ∧ (c ≠ '\\' → st' = .line) := by
      rcases hst with rfl | rfl
      · by_cases hbs : c = '\\'
        · subst hbs; exact ⟨.lineEsc, by decide, .inr rfl, fun h => absurd rfl h⟩
        · exact ⟨.line, by simp [cLexStep, hc, hbs], .inl rfl, fun _ => rfl⟩
      · by_cases hbs : c = '\\'
        · subst hbs; exact ⟨.lineEsc, by decide, .inr rfl, fun h => absurd rfl h⟩
        · exact ⟨.line, by simp [cLexStep, hbs], .inl rfl, fun _ => rfl⟩
    obtain ⟨st', h1, h2, h3⟩ := hcases
    simp only [List.cons_append, cLexRun, h1]
    rw [ih hs st' h2 ?_ ?_]
    · cases cLexRun .base rest <;> simp
    · rintro rfl
      exact h3 (by rintro rfl; simp at hb)
    · cases s with
      | nil => simp
      | cons d s => simpa using hb

/-- a `//` comment -/
theorem Lexes.comment {s : List Char} (h : '\n' ∉ s) (hb : s.getLast? ≠ some '\\') : Lexes ('/' :: '/' :: (s ++ ['\n'])) [] := by
  unfold Lexes
  have h1 : cLexRun .base ('/' :: '/' :: (s ++ ['\n'])) = cLexRun .line (s ++ ['\n']) := by
    have h2 : cLexStep .base '/' = some ([], .slash) := by decide
    have h3 : cLexStep .slash '/' = some ([], .line) := by decide
    simp only [cLexRun, h2, h3, List.nil_append]
    cases cLexRun .line (s ++ ['\n']) <;> simp
  rw [h1, cLexRun_lineSt s [] h .line (.inl rfl) (fun _ => rfl) hb]
  rfl

/-! ## Statements -/

/-- brackets of all kinds are left alone by a phrase without parentheses out of balance -/
def balanced : Nat → List CTok → Bool
  | d, [] => d = 0
  | d, t :: ts =>
    if t = .sym ['('] then balanced (d + 1) ts
    else if t = .sym [')'] then match d with
      | 0 => false
      | d + 1 => balanced d ts
    else balanced d ts

theorem toParen_balanced (e : List CTok) (d : Nat) (h : balanced d e = true) (rest : List CTok) :
    toParen d (e ++ .sym [')'] :: rest) = some (e, rest) := by
  induction e generalizing d with
  | nil =>
    simp only [balanced, decide_eq_true_eq] at h
    subst h
    simp [toParen]
  | cons t e ih =>
    simp only [List.cons_append, toParen]
    simp only [balanced] at h
    split
    · rename_i ht
      rw [if_pos ht] at h
      rw [ih _ h]; rfl
    · rename_i ht
      rw [if_neg ht] at h
      split
      · rename_i ht'
        rw [if_pos ht'] at h
        cases d with
        | zero => simp at h
        | succ d =>
          simp only at h ⊢
          rw [ih _ h]; rfl
      · rename_i ht'
        rw [if_neg ht'] at h
        rw [ih _ h]; rfl

theorem toSym_append (s : List Char) (a : List CTok) (h : CTok.sym s ∉ a) (rest : List CTok) : toSym s (a ++ .sym s :: rest) = some (a, rest) := by
  induction a with
  | nil => simp [toSym]
  | cons t a ih =>
    simp only [List.cons_append, toSym]
    rw [if_neg (fun e => h (by simp [e])), ih (fun e => h (by simp [e]))]
    rfl

theorem toSym_none (s : List Char) (a : List CTok) (h : CTok.sym s ∉ a) : toSym s a = none := by
  induction a with
  | nil => rfl
  | cons t a ih =>
    simp only [toSym]
    rw [if_neg (fun e => h (by simp [e])), ih (fun e => h (by simp [e]))]
    rfl

/-- words that begin a statement of a special form -/
def stmtWords : List CTok := [.sym ['{'], .sym ['}'], .word "switch".toList, .word "case".toList, .word "default".toList, .word "if".toList, .word "while".toList,
  .word "for".toList, .word "else".toList]

mutual
/-- tokens that form a statement -/
inductive Reads : List CTok → CStmt → Prop
  | label {l : List CTok} : CTok.sym [':'] ∉ l → CTok.sym ['.', '.', '.'] ∉ l → Reads (.word "case".toList :: l ++ [.sym [':']]) (.label l)
  | range {l m : List CTok} : CTok.sym [':'] ∉ l → CTok.sym [':'] ∉ m → CTok.sym ['.', '.', '.'] ∉ l →
      Reads (.word "case".toList :: (l ++ .sym ['.', '.', '.'] :: m) ++ [.sym [':']]) (.range l m)
  | dflt : Reads [.word "default".toList, .sym [':']] .dflt
  | simple {t : CTok} {ts : List CTok} : t ∉ stmtWords → CTok.sym [';'] ∉ t :: ts → Reads (t :: ts ++ [.sym [';']]) (.simple (t :: ts))
  | block {ts : List CTok} {ss : List CStmt} : ReadsL ts ss → Reads (.sym ['{'] :: ts ++ [.sym ['}']]) (.block ss)
  | switch {e ts : List CTok} {ss : List CStmt} : balanced 0 e = true → ReadsL ts ss →
      Reads (.word "switch".toList :: .sym ['('] :: e ++ .sym [')'] :: .sym ['{'] :: ts ++ [.sym ['}']]) (.switch e ss)
  | cond {c ts : List CTok} {s : CStmt} : balanced 0 c = true → Reads ts s → Reads (.word "if".toList :: .sym ['('] :: c ++ .sym [')'] :: ts) (.cond c s (.block []))
  | condElse {c ts ts' : List CTok} {ss : List CStmt} {s' : CStmt} : balanced 0 c = true → ReadsL ts ss → Reads ts' s' →
      Reads (.word "if".toList :: .sym ['('] :: c ++ .sym [')'] :: .sym ['{'] :: ts ++ .sym ['}'] :: .word "else".toList :: ts') (.cond c (.block ss) s')
  | loop {c ts : List CTok} {s : CStmt} : balanced 0 c = true → Reads ts s → Reads (.word "while".toList :: .sym ['('] :: c ++ .sym [')'] :: ts) (.loop c s)
  | count {c ts : List CTok} {s : CStmt} : balanced 0 c = true → Reads ts s → Reads (.word "for".toList :: .sym ['('] :: c ++ .sym [')'] :: ts) (.count c s)
/-- tokens that form statements -/
inductive ReadsL : List CTok → List CStmt → Prop
  | nil : ReadsL [] []
  | cons {ts ts' : List CTok} {s : CStmt} {ss : List CStmt} : Reads ts s → ReadsL ts' ss → ReadsL (ts ++ ts') (s :: ss)
end

theorem Reads.head {ts : List CTok} {s : CStmt} (h : Reads ts s) : ∃ t r, ts = t :: r ∧ t ≠ .sym ['}'] ∧ t ≠ .word "else".toList := by
  cases h with
  | simple h1 h2 => exact ⟨_, _, rfl, fun e => h1 (by rw [e]; decide), fun e => h1 (by rw [e]; decide)⟩
  | _ => exact ⟨_, _, rfl, by decide, by decide⟩

theorem ReadsL.head {ts : List CTok} {ss : List CStmt} (h : ReadsL ts ss) : ts.head? ≠ some (.word "else".toList) := by
  cases h with
  | nil => simp
  | cons h1 h2 =>
    obtain ⟨t, r, rfl, _, ht⟩ := h1.head
    simpa using ht

theorem ReadsL.append {a b : List CTok} {x y : List CStmt} (h : ReadsL a x) (h' : ReadsL b y) : ReadsL (a ++ b) (x ++ y) := by
  induction x generalizing a with
  | nil => cases h; exact h'
  | cons s x ih =>
    cases h with
    | cons h1 h2 =>
      rw [List.append_assoc]
      exact .cons h1 (ih h2)

theorem ReadsL.one {a : List CTok} {s : CStmt} (h : Reads a s) : ReadsL a [s] := by
  simpa using ReadsL.cons h .nil

theorem expect_self (t : CTok) (ts : List CTok) : expect t (t :: ts) = some ts := by simp [expect]

theorem inParens_balanced (e rest : List CTok) (h : balanced 0 e = true) : inParens (.sym ['('] :: (e ++ .sym [')'] :: rest)) = some (e, rest) := by
  simp [inParens, expect_self, toParen_balanced e 0 h]

theorem expect_none {t : CTok} {ts : List CTok} (h : ts.head? ≠ some t) : expect t ts = none := by
  cases ts with
  | nil => rfl
  | cons a ts =>
    simp only [expect]
    rw [if_neg (fun e => h (by simp [e]))]

/-- what may follow statements -/
def stops : List CTok → Prop
  | [] => True
  | t :: _ => t = .sym ['}']

theorem readLabel_label {l : List CTok} (h : CTok.sym ['.', '.', '.'] ∉ l) : readLabel l = .label l := by
  simp [readLabel, toSym_none _ _ h]

theorem readLabel_range {l m : List CTok} (h : CTok.sym ['.', '.', '.'] ∉ l) : readLabel (l ++ .sym ['.', '.', '.'] :: m) = .range l m := by
  simp [readLabel, toSym_append _ _ h]

mutual
theorem readStmt_of {ts : List CTok} {s : CStmt} (h : Reads ts s) (n : Nat) (hn : ts.length ≤ n) (rest : List CTok)
    (hr : rest.head? ≠ some (.word "else".toList)) : readStmt n (ts ++ rest) = some (s, rest) := by
  obtain ⟨n, rfl⟩ : ∃ k, n = k + 1 := by
    obtain ⟨t, r, rfl, _, _⟩ := h.head
    exact ⟨n - 1, by simp at hn; omega⟩
  cases h with
  | @label l h1 h2 =>
    have : CTok.word "case".toList :: l ++ [CTok.sym [':']] ++ rest = .word "case".toList :: (l ++ .sym [':'] :: rest) := by simp
    rw [this]
    unfold readStmt
    rw [if_neg (by decide), if_neg (by decide), if_pos rfl, toSym_append _ _ h1]
    simp [readLabel_label h2]
  | @range l m h1 h2 h3 =>
    have : CTok.word "case".toList :: (l ++ .sym ['.', '.', '.'] :: m) ++ [CTok.sym [':']] ++ rest =
      .word "case".toList :: ((l ++ .sym ['.', '.', '.'] :: m) ++ .sym [':'] :: rest) := by simp
    rw [this]
    unfold readStmt
    rw [if_neg (by decide), if_neg (by decide), if_pos rfl, toSym_append _ _ (by simp [h1, h2])]
    simp [readLabel_range h3]
  | dflt =>
    show readStmt (n + 1) (.word "default".toList :: .sym [':'] :: rest) = _
    unfold readStmt
    rw [if_neg (by decide), if_neg (by decide), if_neg (by decide), if_pos rfl, expect_self]
    rfl
  | @simple t ts h1 h2 =>
    have : t :: ts ++ [CTok.sym [';']] ++ rest = (t :: ts) ++ .sym [';'] :: rest := by simp
    rw [this]
    simp only [stmtWords, List.mem_cons, List.not_mem_nil, or_false, not_or] at h1
    rw [List.cons_append]
    unfold readStmt
    rw [if_neg h1.1, if_neg h1.2.2.1, if_neg h1.2.2.2.1, if_neg h1.2.2.2.2.1, if_neg h1.2.2.2.2.2.1, if_neg h1.2.2.2.2.2.2.1, if_neg h1.2.2.2.2.2.2.2.1,
      ← List.cons_append, toSym_append _ _ h2]
    rfl
  | @block ts ss h1 =>
    have : CTok.sym ['{'] :: ts ++ [CTok.sym ['}']] ++ rest = .sym ['{'] :: (ts ++ .sym ['}'] :: rest) := by simp
    rw [this]
    unfold readStmt
    rw [if_pos rfl, readStmts_of h1 n (by simp at hn; omega) (.sym ['}'] :: rest) rfl]
    simp [expect_self]
  | @switch e ts ss h1 h2 =>
    have : CTok.word "switch".toList :: .sym ['('] :: e ++ .sym [')'] :: .sym ['{'] :: ts ++ [.sym ['}']] ++ rest =
      .word "switch".toList :: .sym ['('] :: (e ++ .sym [')'] :: (.sym ['{'] :: (ts ++ .sym ['}'] :: rest))) := by simp
    rw [this]
    unfold readStmt
    rw [if_neg (by decide), if_pos rfl, inParens_balanced _ _ h1]
    simp only [Option.bind_eq_bind, Option.bind_some, expect_self]
    rw [readStmts_of h2 n (by simp at hn; omega) (.sym ['}'] :: rest) rfl]
    simp [expect_self]
  | @cond c ts s h1 h2 =>
    have : CTok.word "if".toList :: .sym ['('] :: c ++ .sym [')'] :: ts ++ rest = .word "if".toList :: .sym ['('] :: (c ++ .sym [')'] :: (ts ++ rest)) := by simp
    rw [this]
    unfold readStmt
    rw [if_neg (by decide), if_neg (by decide), if_neg (by decide), if_neg (by decide), if_pos rfl, inParens_balanced _ _ h1]
    simp only [Option.bind_eq_bind, Option.bind_some]
    rw [readStmt_of h2 n (by simp at hn; omega) _ hr]
    simp only [Option.bind_some, expect_none hr]
  | @condElse c ts ts' ss s' h1 h2 h3 =>
    have : CTok.word "if".toList :: .sym ['('] :: c ++ .sym [')'] :: .sym ['{'] :: ts ++ .sym ['}'] :: .word "else".toList :: ts' ++ rest =
      .word "if".toList :: .sym ['('] :: (c ++ .sym [')'] :: (.sym ['{'] :: (ts ++ .sym ['}'] :: .word "else".toList :: (ts' ++ rest)))) := by simp
    rw [this]
    obtain ⟨n, rfl⟩ : ∃ k, n = k + 1 := ⟨n - 1, by simp at hn; omega⟩
    have e : readStmt (n + 1) (.sym ['{'] :: (ts ++ .sym ['}'] :: .word "else".toList :: (ts' ++ rest))) = some (.block ss, .word "else".toList :: (ts' ++ rest)) := by
      unfold readStmt
      rw [if_pos rfl, readStmts_of h2 n (by simp at hn; omega) (.sym ['}'] :: .word "else".toList :: (ts' ++ rest)) rfl]
      simp [expect_self]
    unfold readStmt
    rw [if_neg (by decide), if_neg (by decide), if_neg (by decide), if_neg (by decide), if_pos rfl, inParens_balanced _ _ h1]
    simp only [Option.bind_eq_bind, Option.bind_some]
    rw [e]
    simp only [Option.bind_some, expect_self]
    rw [readStmt_of h3 (n + 1) (by simp at hn; omega) rest hr]
    rfl
  | @loop c ts s h1 h2 =>
    have : CTok.word "while".toList :: .sym ['('] :: c ++ .sym [')'] :: ts ++ rest = .word "while".toList :: .sym ['('] :: (c ++ .sym [')'] :: (ts ++ rest)) := by simp
    rw [this]
    unfold readStmt
    rw [if_neg (by decide), if_neg (by decide), if_neg (by decide), if_neg (by decide), if_neg (by decide), if_pos rfl, inParens_balanced _ _ h1]
    simp only [Option.bind_eq_bind, Option.bind_some]
    rw [readStmt_of h2 n (by simp at hn; omega) _ hr]
    rfl
  | @count c ts s h1 h2 =>
    have : CTok.word "for".toList :: .sym ['('] :: c ++ .sym [')'] :: ts ++ rest = .word "for".toList :: .sym ['('] :: (c ++ .sym [')'] :: (ts ++ rest)) := by simp
    rw [this]
    unfold readStmt
    rw [if_neg (by decide), if_neg (by decide), if_neg (by decide), if_neg (by decide), if_neg (by decide), if_neg (by decide), if_pos rfl, inParens_balanced _ _ h1]
    simp only [Option.bind_eq_bind, Option.bind_some]
    rw [readStmt_of h2 n (by simp at hn; omega) _ hr]
    rfl
theorem readStmts_of {ts : List CTok} {ss : List CStmt} (h : ReadsL ts ss) (n : Nat) (hn : ts.length < n) (rest : List CTok) (hr : stops rest) :
    readStmts n (ts ++ rest) = some (ss, rest) := by
  obtain ⟨n, rfl⟩ : ∃ k, n = k + 1 := ⟨n - 1, by omega⟩
  cases h with
  | nil =>
    cases rest with
    | nil => simp [readStmts]
    | cons t rest =>
      have ht : t = .sym ['}'] := hr
      subst ht
      simp [readStmts]
  | @cons ts ts' s ss h1 h3 =>
    obtain ⟨t, r, rfl, ht, _⟩ := h1.head
    have e := readStmt_of h1 n (by simp at hn ⊢; omega) (ts' ++ rest) (by
      cases ts' with
      | nil =>
        cases rest with
        | nil => simp
        | cons t rest =>
          have ht : t = .sym ['}'] := hr
          subst ht
          simp
      | cons => simpa using h3.head)
    simp only [List.cons_append, List.append_assoc] at e ⊢
    unfold readStmts
    rw [if_neg ht, e]
    simp only [Option.bind_eq_bind, Option.bind_some]
    rw [readStmts_of h3 n (by simp at hn; omega) rest hr]
    rfl
end

/-! ## Texts -/

/-- a text that consists of these statements -/
def TextReads (s : List Char) (ss : List CStmt) : Prop := ∃ ts, Lexes s ts ∧ ReadsL ts ss

theorem TextReads.nil : TextReads [] [] := ⟨[], .nil, .nil⟩

theorem TextReads.append {a b : List Char} {x y : List CStmt} (h : TextReads a x) (h' : TextReads b y) : TextReads (a ++ b) (x ++ y) := by
  obtain ⟨ts, h1, h2⟩ := h
  obtain ⟨ts', h3, h4⟩ := h'
  exact ⟨_, h1.append h3, h2.append h4⟩

theorem TextReads.flatMap {α : Type} {f : α → List Char} {g : α → List CStmt} (l : List α) (h : ∀ a ∈ l, TextReads (f a) (g a)) :
    TextReads (l.flatMap f) (l.flatMap g) := by
  induction l with
  | nil => exact TextReads.nil
  | cons a l ih =>
    simp only [List.flatMap_cons]
    exact (h a (by simp)).append (ih fun b hb => h b (by simp [hb]))

theorem TextReads.simple {s : List Char} {t : CTok} {ts : List CTok} (h : Lexes s (t :: ts ++ [.sym [';']])) (h1 : t ∉ stmtWords) (h2 : CTok.sym [';'] ∉ t :: ts) :
    TextReads s [.simple (t :: ts)] := ⟨_, h, .one (.simple h1 h2)⟩

theorem TextReads.label {s : List Char} {l : List CTok} (h : Lexes s (.word "case".toList :: l ++ [.sym [':']])) (h1 : CTok.sym [':'] ∉ l)
    (h2 : CTok.sym ['.', '.', '.'] ∉ l) : TextReads s [.label l] := ⟨_, h, .one (.label h1 h2)⟩

theorem TextReads.range {s : List Char} {l m : List CTok} (h : Lexes s (.word "case".toList :: (l ++ .sym ['.', '.', '.'] :: m) ++ [.sym [':']]))
    (h1 : CTok.sym [':'] ∉ l) (h2 : CTok.sym [':'] ∉ m) (h3 : CTok.sym ['.', '.', '.'] ∉ l) : TextReads s [.range l m] := ⟨_, h, .one (.range h1 h2 h3)⟩

theorem TextReads.dflt {s : List Char} (h : Lexes s [.word "default".toList, .sym [':']]) : TextReads s [.dflt] := ⟨_, h, .one .dflt⟩

theorem TextReads.skip {s : List Char} (h : Lexes s []) : TextReads s [] := ⟨_, h, .nil⟩

theorem TextReads.block {a s b : List Char} {ss : List CStmt} (h : Lexes a [.sym ['{']]) (hs : TextReads s ss) (hb : Lexes b [.sym ['}']]) :
    TextReads (a ++ s ++ b) [.block ss] := by
  obtain ⟨ts, h1, h2⟩ := hs
  exact ⟨_, (h.append h1).append hb, .one (by simpa using Reads.block h2)⟩

theorem TextReads.switch {a s b : List Char} {e : List CTok} {ss : List CStmt} (h : Lexes a (.word "switch".toList :: .sym ['('] :: e ++ [.sym [')'], .sym ['{']]))
    (he : balanced 0 e = true) (hs : TextReads s ss) (hb : Lexes b [.sym ['}']]) : TextReads (a ++ s ++ b) [.switch e ss] := by
  obtain ⟨ts, h1, h2⟩ := hs
  exact ⟨_, (h.append h1).append hb, .one (by simpa using Reads.switch he h2)⟩

/-! ## Execution -/

variable {σ ρ : Type} (m : CMachine σ ρ) (n : Nat)

/-- a statement that is not a label -/
def CStmt.plain : CStmt → Bool
  | .label _ => false
  | .range _ _ => false
  | .dflt => false
  | _ => true

theorem CMachine.execs_drop (k : Nat) (ss : List CStmt) (s : σ) : m.execs n k ss s = m.execs n 0 (ss.drop k) s := by
  induction k generalizing ss with
  | zero => simp
  | succ k ih =>
    cases ss with
    | nil => simp [CMachine.execs]
    | cons a ss => simpa [CMachine.execs] using ih ss

theorem CMachine.execs_nil (s : σ) : m.execs n 0 [] s = .ok (.next s) := by simp [CMachine.execs]

theorem CMachine.execs_cons (a : CStmt) (ss : List CStmt) (s : σ) : m.execs n 0 (a :: ss) s =
    (match m.exec n a s with
    | .ok (.next s') => m.execs n 0 ss s'
    | r => r) := by
  rw [CMachine.execs]
  rfl

theorem CMachine.execs_append (a b : List CStmt) (s : σ) : m.execs n 0 (a ++ b) s =
    (match m.execs n 0 a s with
    | .ok (.next s') => m.execs n 0 b s'
    | r => r) := by
  induction a generalizing s with
  | nil => simp [CMachine.execs_nil]
  | cons x a ih =>
    rw [List.cons_append, CMachine.execs_cons, CMachine.execs_cons]
    cases m.exec n x s with
    | error e => rfl
    | ok r =>
      cases r with
      | next s' => exact ih s'
      | brk s' => rfl
      | exit s' r => rfl

theorem CMachine.targets_none (v k : Nat) (ss : List CStmt) (h : ∀ s ∈ ss, m.applies v s = some false) : m.targets v k ss = some [] := by
  induction ss generalizing k with
  | nil => rfl
  | cons a ss ih =>
    simp [CMachine.targets, h a (by simp), ih (k + 1) (fun s hs => h s (by simp [hs]))]

theorem CMachine.targets_append (v k : Nat) (a b : List CStmt) (h : ∀ s ∈ a, m.applies v s = some false) :
    m.targets v k (a ++ b) = m.targets v (k + a.length) b := by
  induction a generalizing k with
  | nil => rfl
  | cons x a ih =>
    simp only [List.cons_append, CMachine.targets, h x (by simp), ih (k + 1) (fun s hs => h s (by simp [hs]))]
    simp only [List.length_cons, show k + 1 + a.length = k + (a.length + 1) by omega]
    cases m.targets v (k + (a.length + 1)) b <;> simp

theorem CMachine.jump_hit (v : Nat) (pre post : List CStmt) (a : CStmt) (ha : m.applies v a = some true) (hpre : ∀ s ∈ pre, m.applies v s = some false)
    (hpost : ∀ s ∈ post, m.applies v s = some false) : m.jump v (pre ++ a :: post) = some pre.length := by
  unfold CMachine.jump
  rw [m.targets_append v 0 pre _ hpre]
  simp [CMachine.targets, ha, m.targets_none v _ post hpost]

theorem dfltAt_append (k : Nat) (a b : List CStmt) (h : CStmt.dflt ∉ a) : dfltAt k (a ++ b) = dfltAt (k + a.length) b := by
  induction a generalizing k with
  | nil => rfl
  | cons x a ih =>
    have hx : x ≠ .dflt := fun e => h (by simp [e])
    have : dfltAt k (x :: a ++ b) = dfltAt (k + 1) (a ++ b) := by
      cases x <;> first | rfl | exact absurd rfl hx
    rw [this, ih (k + 1) (fun e => h (by simp [e]))]
    simp only [List.length_cons]
    congr 1
    omega

theorem CMachine.jump_miss (v : Nat) (pre post : List CStmt) (hd : CStmt.dflt ∉ pre) (hpre : ∀ s ∈ pre, m.applies v s = some false)
    (hpost : ∀ s ∈ post, m.applies v s = some false) : m.jump v (pre ++ .dflt :: post) = some pre.length := by
  unfold CMachine.jump
  rw [m.targets_append v 0 pre _ hpre, m.targets_none v _ (.dflt :: post) (by
    intro s hs
    rcases List.mem_cons.mp hs with rfl | hs
    · rfl
    · exact hpost s hs)]
  simp [dfltAt_append 0 pre _ hd, dfltAt]

theorem CMachine.applies_plain (v : Nat) {s : CStmt} (h : s.plain = true) : m.applies v s = some false := by
  cases s <;> simp_all [CStmt.plain, CMachine.applies]

/-- the body of a `switch` that consists of cases, each a label and statements, and a default -/
def swBody (cases : List (CStmt × List CStmt)) (d : List CStmt) : List CStmt := cases.flatMap (fun c => c.1 :: c.2) ++ .dflt :: d

/-- leaving a `switch` -/
def afterSwitch : Res (COut σ ρ) → Res (COut σ ρ)
  | .ok (.brk s') => .ok (.next s')
  | r => r

theorem CMachine.exec_switch (e : List CTok) (ss : List CStmt) (s : σ) (v k : Nat) (hv : m.value e s = some v) (hk : m.jump v ss = some k) :
    m.exec n (.switch e ss) s = afterSwitch (m.execs n 0 (ss.drop k) s) := by
  simp only [CMachine.exec, hv, hk]
  rw [m.execs_drop]
  rfl

variable {m}

theorem swPlain {cs : List (CStmt × List CStmt)} {v : Nat} (h : ∀ c ∈ cs, m.applies v c.1 = some false ∧ ∀ a ∈ c.2, a.plain = true) :
    ∀ s ∈ cs.flatMap (fun c => c.1 :: c.2), m.applies v s = some false := by
  intro s hs
  obtain ⟨c, hc, hs⟩ := List.mem_flatMap.mp hs
  rcases List.mem_cons.mp hs with rfl | hs
  · exact (h c hc).1
  · exact m.applies_plain v ((h c hc).2 s hs)

/-- the case that applies is run; it must not fall through -/
theorem CMachine.exec_switch_hit (e : List CTok) (pre post : List (CStmt × List CStmt)) (c : CStmt × List CStmt) (d : List CStmt) (s : σ) (v : Nat) (r : Res (COut σ ρ))
    (hv : m.value e s = some v) (hc : m.applies v c.1 = some true) (hlab : c.1 ≠ .dflt) (hplain : ∀ a ∈ c.2 ++ d, a.plain = true)
    (hpre : ∀ c' ∈ pre, m.applies v c'.1 = some false ∧ ∀ a ∈ c'.2, a.plain = true)
    (hpost : ∀ c' ∈ post, m.applies v c'.1 = some false ∧ ∀ a ∈ c'.2, a.plain = true)
    (hr : m.execs n 0 c.2 s = r) (hn : ∀ s', r ≠ .ok (.next s')) : m.exec n (.switch e (swBody (pre ++ c :: post) d)) s = afterSwitch r := by
  have e1 : swBody (pre ++ c :: post) d = pre.flatMap (fun c => c.1 :: c.2) ++ c.1 :: (c.2 ++ (post.flatMap (fun c => c.1 :: c.2) ++ .dflt :: d)) := by
    simp [swBody]
  rw [e1, m.exec_switch n e _ s v _ hv (m.jump_hit v _ _ c.1 hc (swPlain hpre) (by
    intro a ha
    simp only [List.mem_append, List.mem_cons] at ha
    rcases ha with ha | ha | rfl | ha
    · exact m.applies_plain v (hplain a (by simp [ha]))
    · exact swPlain hpost a ha
    · rfl
    · exact m.applies_plain v (hplain a (by simp [ha])))), List.drop_left, CMachine.execs_cons]
  have hl : m.exec n c.1 s = .ok (.next s) := by
    obtain ⟨l, b⟩ := c
    cases l <;> simp_all [CMachine.applies, CMachine.exec]
  rw [hl]
  simp only
  rw [CMachine.execs_append, hr]
  cases r with
  | error => rfl
  | ok r =>
    cases r with
    | next s' => exact absurd rfl (hn s')
    | brk => rfl
    | exit => rfl

/-- no case applies: the default is run -/
theorem CMachine.exec_switch_miss (e : List CTok) (cs : List (CStmt × List CStmt)) (d : List CStmt) (s : σ) (v : Nat)
    (hv : m.value e s = some v) (hplain : ∀ a ∈ d, a.plain = true) (hcs : ∀ c' ∈ cs, c'.1 ≠ .dflt ∧ m.applies v c'.1 = some false ∧ ∀ a ∈ c'.2, a.plain = true) :
    m.exec n (.switch e (swBody cs d)) s = afterSwitch (m.execs n 0 d s) := by
  unfold swBody
  rw [m.exec_switch n e _ s v _ hv (m.jump_miss v _ d (by
    intro h
    obtain ⟨c, hc, h⟩ := List.mem_flatMap.mp h
    rcases List.mem_cons.mp h with h | h
    · exact (hcs c hc).1 h.symm
    · exact absurd ((hcs c hc).2.2 _ h) (by simp [CStmt.plain])) (swPlain fun c hc => (hcs c hc).2) (fun a ha => m.applies_plain v (hplain a ha))),
    List.drop_left, CMachine.execs_cons]
  simp [CMachine.exec]

/-- A `switch` over distinct constants, where no case falls through, runs the case of the value and otherwise the default. -/
theorem CMachine.exec_switch_find {κ : Type} (lab : κ → CStmt) (val : κ → Nat) (e : List CTok) (cs : List (κ × List CStmt)) (d : List CStmt) (s : σ) (v : Nat)
    (hv : m.value e s = some v) (hnd : (cs.map (fun c => val c.1)).Nodup) (hlab : ∀ k, lab k ≠ .dflt) (happ : ∀ c ∈ cs, m.applies v (lab c.1) = some (decide (val c.1 = v)))
    (hplain : ∀ c ∈ cs, ∀ a ∈ c.2, a.plain = true) (hd : ∀ a ∈ d, a.plain = true) (hb : ∀ c ∈ cs, val c.1 = v → ∀ s', m.execs n 0 c.2 s ≠ .ok (.next s')) :
    m.exec n (.switch e (swBody (cs.map fun c => (lab c.1, c.2)) d)) s =
      afterSwitch (match cs.find? (fun c => val c.1 = v) with
        | some c => m.execs n 0 c.2 s
        | none => m.execs n 0 d s) := by
  cases hf : cs.find? (fun c => val c.1 = v) with
  | none =>
    rw [List.find?_eq_none] at hf
    refine m.exec_switch_miss n e _ d s v hv hd ?_
    intro c' hc'
    obtain ⟨c, hc, rfl⟩ := List.mem_map.mp hc'
    refine ⟨hlab _, ?_, hplain c hc⟩
    rw [happ c hc]
    simpa using hf c hc
  | some c =>
    obtain ⟨hp, pre, post, rfl, -⟩ := List.find?_eq_some_iff_append.mp hf
    simp only [decide_eq_true_eq] at hp
    rw [List.map_append, List.map_cons]
    rw [List.map_append, List.map_cons, List.nodup_append, List.nodup_cons] at hnd
    refine m.exec_switch_hit n e _ _ (lab c.1, c.2) d s v _ hv ?_ (hlab _) ?_ ?_ ?_ rfl (hb c (by simp) hp)
    · rw [happ c (by simp)]; simpa using hp
    · intro a ha
      rcases List.mem_append.mp ha with ha | ha
      · exact hplain c (by simp) a ha
      · exact hd a ha
    · intro c' hc'
      obtain ⟨x, hx, rfl⟩ := List.mem_map.mp hc'
      refine ⟨?_, hplain x (by simp [hx])⟩
      rw [happ x (by simp [hx])]
      have := hnd.2.2 (val x.1) (List.mem_map_of_mem hx) (val c.1) (by simp)
      simp only [Option.some.injEq, decide_eq_false_iff_not]
      intro h; exact this (h.trans hp.symm)
    · intro c' hc'
      obtain ⟨x, hx, rfl⟩ := List.mem_map.mp hc'
      refine ⟨?_, hplain x (by simp [hx])⟩
      rw [happ x (by simp [hx])]
      simp only [Option.some.injEq, decide_eq_false_iff_not]
      intro h
      exact hnd.2.1.1 (List.mem_map.mpr ⟨x, hx, h.trans hp.symm⟩)

/-! ## Reading a function of a file made from a template -/

theorem isPrefixOf_append_right {α : Type} [BEq α] (p a b : List α) (h : p.isPrefixOf a = true) : p.isPrefixOf (a ++ b) = true := by
  induction p generalizing a with
  | nil => simp
  | cons x p ih =>
    cases a with
    | nil => simp at h
    | cons y a =>
      simp only [List.cons_append, List.isPrefixOf, Bool.and_eq_true] at h ⊢
      exact ⟨h.1, ih a h.2⟩

theorem isPrefixOf_length {α : Type} [BEq α] (p a : List α) (h : p.isPrefixOf a = true) : p.length ≤ a.length := by
  induction p generalizing a with
  | nil => simp
  | cons x p ih =>
    cases a with
    | nil => simp at h
    | cons y a =>
      simp only [List.isPrefixOf, Bool.and_eq_true] at h
      have := ih a h.2
      simp; omega

theorem isPrefixOf_append_long {α : Type} [BEq α] (p a b : List α) (hl : p.length ≤ a.length) : p.isPrefixOf (a ++ b) = p.isPrefixOf a := by
  induction p generalizing a with
  | nil => simp
  | cons x p ih =>
    cases a with
    | nil => simp at hl
    | cons y a =>
      simp only [List.cons_append, List.isPrefixOf]
      rw [ih a (by simpa using hl)]

theorem afterPhrase_length {p a r : List CTok} (h : afterPhrase p a = some r) : p.length ≤ a.length := by
  induction a with
  | nil =>
    simp only [afterPhrase] at h
    split at h
    · rename_i hp; simp [hp]
    · simp at h
  | cons t a ih =>
    simp only [afterPhrase] at h
    split at h
    · rename_i hp; exact isPrefixOf_length _ _ hp
    · have := ih h
      simp; omega

/-- A phrase that occurs within the beginning of a file is found there. -/
theorem afterPhrase_append {p a r : List CTok} (b : List CTok) (h : afterPhrase p a = some r) : afterPhrase p (a ++ b) = some (r ++ b) := by
  induction a with
  | nil =>
    simp only [afterPhrase] at h
    split at h
    · rename_i hp; subst hp
      simp only [Option.some.injEq] at h; subst h
      cases b <;> simp [afterPhrase]
    · simp at h
  | cons t a ih =>
    have hl := afterPhrase_length h
    have hb := isPrefixOf_append_long p (t :: a) b hl
    rw [List.cons_append] at hb
    simp only [List.cons_append, afterPhrase] at h ⊢
    rw [hb]
    split at h
    · rename_i hp
      simp only [Option.some.injEq] at h
      rw [if_pos hp, ← h, ← List.cons_append, List.drop_append_of_le_length hl]
    · rename_i hp
      rw [if_neg hp]
      exact ih h

theorem cLex_of {s : List Char} {ts : List CTok} (h : Lexes s ts) : cLex s = some ts := by
  unfold Lexes at h
  simp [cLex, h, cLexEnd]

/-- a function is read when the beginning of the file, which contains its head, and the rest of it are -/
theorem readFunction_of {head a body tail : List CTok} {pre post : List Char} {ts : List CTok} {ss : List CStmt} (h1 : Lexes pre ts) (h2 : afterPhrase head ts = some a)
    (h3 : Lexes post (body ++ .sym ['}'] :: tail)) (h4 : ReadsL (a ++ body) ss) : readFunction head (pre ++ post) = some ss := by
  unfold readFunction
  rw [cLex_of (h1.append h3)]
  simp only [Option.bind_eq_bind, Option.bind_some]
  rw [afterPhrase_append _ h2]
  simp only [Option.bind_some]
  rw [← List.append_assoc, readStmts_of h4 _ (by simp; omega) (.sym ['}'] :: tail) rfl]
  simp [expect_self]

/-- tokens of a simple statement -/
def simpleOk : List CTok → Bool
  | [] => false
  | t :: ts => decide (t ∉ stmtWords) && decide (CTok.sym [';'] ∉ t :: ts)

theorem readsSimple {ts : List CTok} (h : simpleOk ts = true) : Reads (ts ++ [.sym [';']]) (.simple ts) := by
  cases ts with
  | nil => simp [simpleOk] at h
  | cons t ts =>
    simp only [simpleOk, Bool.and_eq_true, decide_eq_true_eq] at h
    exact .simple h.1 h.2

/-! ## Templates with few markers -/

theorem writeTemplate_last {s : Substitutions} {text : List Char} (h : nextMatch text = none) (n : Nat) : replaceAll s n text = (text, .ok) := by
  cases n <;> simp [replaceAll, h]

theorem writeTemplate_next {s : Substitutions} {text b k r w out : List Char} {n : Nat} {st : WriteStatus} (h : nextMatch text = some (b, k, r)) (hw : s.get (trim k) = some (w, true))
    (hr : replaceAll s n r = (out, st)) : replaceAll s (n + 1) text = (b ++ w ++ out, st) := by
  simp [replaceAll, h, hw, hr]

/-! ## String literals -/

/-- a text that can stand in a string literal as it is -/
def StrOk (s : List Char) : Prop := ∀ c ∈ s, c ≠ '"' ∧ c ≠ '\\' ∧ c ≠ '\n'

theorem cLexRun_str (s acc rest : List Char) (h : StrOk s) : cLexRun (.str acc) (s ++ rest) = cLexRun (.str (acc ++ s)) rest := by
  induction s generalizing acc with
  | nil => simp
  | cons c s ih =>
    obtain ⟨h1, h2, h3⟩ := h c (by simp)
    rw [List.cons_append, cLexRun_quiet (st' := .str (acc ++ [c])) (by simp [cLexStep, h1, h2, h3]), ih _ fun d hd => h d (by simp [hd])]
    simp

theorem Lexes.str {s : List Char} (h : StrOk s) : Lexes ('"' :: (s ++ ['"'])) [.str s] := by
  unfold Lexes
  rw [cLexRun_quiet (st' := .str []) (by simp [cLexStep, cLexBase, isCWordChar, isCSpace]), cLexRun_str s [] _ h]
  simp [cLexRun, cLexStep]

/-! ## Tokens that do not occur -/

mutual
/-- all tokens within a statement -/
def CStmt.all (P : CTok → Bool) : CStmt → Bool
  | .label l => l.all P
  | .range l m => l.all P && m.all P
  | .dflt => true
  | .simple ts => ts.all P
  | .block ss => CStmt.allL P ss
  | .switch e ss => e.all P && CStmt.allL P ss
  | .cond c a b => c.all P && a.all P && b.all P
  | .loop c a => c.all P && a.all P
  | .count c a => c.all P && a.all P
/-- all tokens within statements -/
def CStmt.allL (P : CTok → Bool) : List CStmt → Bool
  | [] => true
  | s :: ss => s.all P && CStmt.allL P ss
end

theorem CStmt.allL_append (P : CTok → Bool) (a b : List CStmt) : CStmt.allL P (a ++ b) = (CStmt.allL P a && CStmt.allL P b) := by
  induction a with
  | nil => simp [CStmt.allL]
  | cons s a ih => simp [CStmt.allL, ih, Bool.and_assoc]

theorem CStmt.allL_flatMap {α : Type} (P : CTok → Bool) (f : α → List CStmt) (l : List α) (h : ∀ a ∈ l, CStmt.allL P (f a) = true) : CStmt.allL P (l.flatMap f) = true := by
  induction l with
  | nil => rfl
  | cons a l ih =>
    rw [List.flatMap_cons, CStmt.allL_append, h a (by simp), ih fun b hb => h b (by simp [hb])]
    rfl

/-- words and symbols of the statements themselves -/
def plainToks : List CTok := [.word "case".toList, .sym [':'], .sym ['.', '.', '.'], .word "default".toList, .sym [';'], .sym ['{'], .sym ['}'], .word "switch".toList, .sym ['('], .sym [')'],
  .word "if".toList, .word "else".toList, .word "while".toList, .word "for".toList]

mutual
theorem Reads.all {P : CTok → Bool} (hP : ∀ t ∈ plainToks, P t = true) {ts : List CTok} {s : CStmt} (h : Reads ts s) (hs : s.all P = true) : ts.all P = true := by
  have k : plainToks.all P = true := List.all_eq_true.mpr hP
  simp [plainToks] at k
  cases h with
  | label => simp only [CStmt.all] at hs; simp [k, hs]
  | range => simp only [CStmt.all, Bool.and_eq_true] at hs; simp [k, hs]
  | dflt => simp [k]
  | simple => simp only [CStmt.all, List.all_cons, Bool.and_eq_true] at hs; simp [k, hs]
  | block h1 => simp only [CStmt.all] at hs; simp [k, ReadsL.all hP h1 hs]
  | switch _ h1 => simp only [CStmt.all, Bool.and_eq_true] at hs; simp [k, ReadsL.all hP h1 hs.2, hs.1]
  | cond _ h1 => simp only [CStmt.all, Bool.and_eq_true] at hs; simp [k, Reads.all hP h1 hs.1.2, hs.1.1]
  | condElse _ h1 h2 => simp only [CStmt.all, Bool.and_eq_true] at hs; simp [k, ReadsL.all hP h1 hs.1.2, Reads.all hP h2 hs.2, hs.1.1]
  | loop _ h1 => simp only [CStmt.all, Bool.and_eq_true] at hs; simp [k, Reads.all hP h1 hs.2, hs.1]
  | count _ h1 => simp only [CStmt.all, Bool.and_eq_true] at hs; simp [k, Reads.all hP h1 hs.2, hs.1]
theorem ReadsL.all {P : CTok → Bool} (hP : ∀ t ∈ plainToks, P t = true) {ts : List CTok} {ss : List CStmt} (h : ReadsL ts ss) (hs : CStmt.allL P ss = true) : ts.all P = true := by
  cases h with
  | nil => rfl
  | cons h1 h2 =>
    simp only [CStmt.allL, Bool.and_eq_true] at hs
    simp [Reads.all hP h1 hs.1, ReadsL.all hP h2 hs.2]
end

/-- a phrase is not found where its first token does not occur -/
theorem afterPhrase_skip {t : CTok} {p a b : List CTok} (h : t ∉ a) : afterPhrase (t :: p) (a ++ b) = afterPhrase (t :: p) b := by
  induction a with
  | nil => rfl
  | cons x a ih =>
    simp only [List.mem_cons, not_or] at h
    rw [List.cons_append, afterPhrase, if_neg (by simp [List.isPrefixOf, h.1]), ih h.2]

end Verif
