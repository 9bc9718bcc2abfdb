import Verif.Spec.RustSource

/-! # Reading a printed token stream gives the stream -/

set_option autoImplicit false

namespace Verif

/-- reading a string literal comes to its end only after the last char -/
def strOkFrom : List Char → Prop
  | [] => True
  | '\\' :: cs => match cs with
    | [] => False
    | _ :: cs => strOkFrom cs
  | c :: cs => c ≠ '"' ∧ strOkFrom cs

/-- tokens as they are read -/
def RForest.Ok : RForest → Prop
  | .nil => True
  | .word w f => (w ≠ [] ∧ ∀ c ∈ w, isRWordChar c = true) ∧ f.Ok
  | .life w f => (∀ c ∈ w, isRWordChar c = true) ∧ f.Ok
  | .str w f => strOkFrom w ∧ f.Ok
  | .sym w f => (w ≠ [] ∧ w.head? ≠ some '/' ∧ ∀ c ∈ w, isRSym c = true) ∧ f.Ok
  | .group _ i f => i.Ok ∧ f.Ok

/-- the tokens of a stream -/
def RForest.flatten : RForest → List RTok
  | .nil => []
  | .word w f => .word w :: f.flatten
  | .life w f => .life w :: f.flatten
  | .str w f => .str w :: f.flatten
  | .sym w f => .sym w :: f.flatten
  | .group d i f => .opn d :: (i.flatten ++ .cls d :: f.flatten)

theorem rf_append_nil (f : RForest) : f.append .nil = f := by
  induction f with
  | nil => rfl
  | word _ _ ih => rw [RForest.append, ih]
  | life _ _ ih => rw [RForest.append, ih]
  | str _ _ ih => rw [RForest.append, ih]
  | sym _ _ ih => rw [RForest.append, ih]
  | group _ _ _ _ ih => rw [RForest.append, ih]

theorem rf_append_assoc (f g h : RForest) : (f.append g).append h = f.append (g.append h) := by
  induction f with
  | nil => rfl
  | word _ _ ih => simp only [RForest.append, ih]
  | life _ _ ih => simp only [RForest.append, ih]
  | str _ _ ih => simp only [RForest.append, ih]
  | sym _ _ ih => simp only [RForest.append, ih]
  | group _ _ _ _ ih => simp only [RForest.append, ih]

theorem ok_append {f g : RForest} (hf : f.Ok) (hg : g.Ok) : (f.append g).Ok := by
  induction f with
  | nil => exact hg
  | word _ _ ih => exact ⟨hf.1, ih hf.2⟩
  | life _ _ ih => exact ⟨hf.1, ih hf.2⟩
  | str _ _ ih => exact ⟨hf.1, ih hf.2⟩
  | sym _ _ ih => exact ⟨hf.1, ih hf.2⟩
  | group _ _ _ _ ih => exact ⟨hf.1, ih hf.2⟩

theorem ok_join {fs : List RForest} (h : ∀ f ∈ fs, f.Ok) : (RForest.join fs).Ok := by
  induction fs with
  | nil => trivial
  | cons f fs ih => exact ok_append (h f (by simp)) (ih (fun g hg => h g (by simp [hg])))

theorem rGroups_flatten (f : RForest) (ts : List RTok) : rGroups (f.flatten ++ ts) = (rGroups ts).map fun r => (f.append r.1, r.2) := by
  induction f generalizing ts with
  | nil => simp [RForest.flatten, RForest.append]
  | word _ _ ih => rw [RForest.flatten, List.cons_append, rGroups, ih]; cases rGroups ts <;> rfl
  | life _ _ ih => rw [RForest.flatten, List.cons_append, rGroups, ih]; cases rGroups ts <;> rfl
  | str _ _ ih => rw [RForest.flatten, List.cons_append, rGroups, ih]; cases rGroups ts <;> rfl
  | sym _ _ ih => rw [RForest.flatten, List.cons_append, rGroups, ih]; cases rGroups ts <;> rfl
  | group d i f ih1 ih2 =>
    rw [RForest.flatten, List.cons_append, List.append_assoc, List.cons_append, rGroups, ih1, rGroups, ih2]
    cases rGroups ts with
    | none => rfl
    | some r => simp [rf_append_nil, RForest.append]

/-- what is pending at the end of a text -/
def Pend : RLex → List RTok → Prop
  | .base, p => p = []
  | .word w, p => p = [.word w]
  | .life w, p => p = [.life w]
  | .sym s, p => p = [.sym s]
  | _, _ => False

theorem rLexRun_append (st : RLex) (a b : List Char) : rLexRun st (a ++ b) = (rLexRun st a).bind fun r => (rLexRun r.2 b).map fun r' => (r.1 ++ r'.1, r'.2) := by
  induction a generalizing st with
  | nil => simp [rLexRun]
  | cons c a ih =>
    rw [List.cons_append, rLexRun, rLexRun]
    cases rLexStep st c with
    | none => rfl
    | some r =>
      obtain ⟨ts, st'⟩ := r
      simp only [ih]
      cases rLexRun st' a with
      | none => rfl
      | some r =>
        simp only [Option.bind_some]
        cases rLexRun r.2 b with
        | none => rfl
        | some r' => simp

theorem run_append {st : RLex} {a b : List Char} {ts ts' : List RTok} {st' st'' : RLex} (h : rLexRun st a = some (ts, st')) (h' : rLexRun st' b = some (ts', st'')) :
    rLexRun st (a ++ b) = some (ts ++ ts', st'') := by rw [rLexRun_append, h]; simp [h']

theorem run_cons {st : RLex} {c : Char} {b : List Char} {ts ts' : List RTok} {st' st'' : RLex} (h : rLexStep st c = some (ts, st')) (h' : rLexRun st' b = some (ts', st'')) :
    rLexRun st (c :: b) = some (ts ++ ts', st'') := by rw [rLexRun, h]; simp [h']

theorem pend_step {st : RLex} {p : List RTok} (h : Pend st p) {c : Char} (h1 : isRWordChar c = false) (h2 : isRSym c = false) (h3 : c ≠ '\'') {r : List RTok × RLex} (hb : rLexBase c = some r) :
    rLexStep st c = some (p ++ r.1, r.2) := by
  cases st with
  | base => cases h; simpa [rLexStep] using hb
  | word w => cases h; simp [rLexStep, h1, rLexAfter, hb]
  | life w => cases h; simp [rLexStep, h1, h3, rLexAfter, hb]
  | sym s => cases h; simp [rLexStep, h2, rLexAfter, hb]
  | str _ => cases h
  | strEsc _ => cases h

theorem pend_space {st : RLex} {p : List RTok} (h : Pend st p) : rLexStep st ' ' = some (p, .base) := by
  have := pend_step h (c := ' ') (by decide) (by decide) (by decide) (r := ([], .base)) (by decide)
  simpa using this

theorem pend_newline {st : RLex} {p : List RTok} (h : Pend st p) : rLexStep st '\n' = some (p, .base) := by
  have := pend_step h (c := '\n') (by decide) (by decide) (by decide) (r := ([], .base)) (by decide)
  simpa using this

theorem run_word (v w : List Char) (h : ∀ c ∈ w, isRWordChar c = true) : rLexRun (.word v) w = some ([], .word (v ++ w)) := by
  induction w generalizing v with
  | nil => simp [rLexRun]
  | cons c w ih =>
    have := run_cons (st := .word v) (c := c) (ts := []) (st' := .word (v ++ [c])) (by simp [rLexStep, h c (by simp)]) (ih (v ++ [c]) (fun d hd => h d (by simp [hd])))
    simpa using this

theorem run_life (v w : List Char) (h : ∀ c ∈ w, isRWordChar c = true) : rLexRun (.life v) w = some ([], .life (v ++ w)) := by
  induction w generalizing v with
  | nil => simp [rLexRun]
  | cons c w ih =>
    have := run_cons (st := .life v) (c := c) (ts := []) (st' := .life (v ++ [c])) (by simp [rLexStep, h c (by simp)]) (ih (v ++ [c]) (fun d hd => h d (by simp [hd])))
    simpa using this

theorem run_sym (v w : List Char) (h : ∀ c ∈ w, isRSym c = true) (hv : v ≠ []) (hv' : v.head? ≠ some '/') : rLexRun (.sym v) w = some ([], .sym (v ++ w)) := by
  induction w generalizing v with
  | nil => simp [rLexRun]
  | cons c w ih =>
    have hne : ¬ (v ++ [c] = ['/', '/'] ∨ v ++ [c] = ['/', '*']) := by
      cases v with
      | nil => exact absurd rfl hv
      | cons x v => rintro (e | e) <;> (simp at e; exact hv' (by simp [e.1]))
    have := run_cons (st := .sym v) (c := c) (ts := []) (st' := .sym (v ++ [c])) (by rw [rLexStep, if_pos (h c (by simp)), if_neg hne])
      (ih (v ++ [c]) (fun d hd => h d (by simp [hd])) (by simp) (by cases v with | nil => exact absurd rfl hv | cons x v => simpa using hv'))
    simpa using this

theorem run_str : ∀ (n : Nat) (v w : List Char), w.length ≤ n → strOkFrom w → rLexRun (.str v) (w ++ ['"']) = some ([.str (v ++ w)], .base) := by
  intro n
  induction n with
  | zero =>
    intro v w hw _
    have : w = [] := by simpa using hw
    subst this
    simp [rLexRun, rLexStep]
  | succ n ih =>
    intro v w hw h
    match w, hw, h with
    | [], _, _ => simp [rLexRun, rLexStep]
    | c :: w, hw, h =>
      by_cases hc : c = '\\'
      · subst hc
        match w, hw, h with
        | [], _, h => exact absurd h (by simp [strOkFrom])
        | d :: w, hw, h =>
          have := ih (v ++ ['\\', d]) w (by simp at hw; omega) (by simpa [strOkFrom] using h)
          have h1 := run_cons (st := .strEsc v) (c := d) (ts := []) (by rw [rLexStep]) this
          have h2 := run_cons (st := .str v) (c := '\\') (ts := []) (st' := .strEsc v) (by simp [rLexStep]) h1
          simpa using h2
      · have hh : c ≠ '"' ∧ strOkFrom w := by
          unfold strOkFrom at h
          split at h
          · rename_i heq; cases heq
          · rename_i heq; cases heq; exact absurd rfl hc
          · rename_i heq; cases heq; exact h
        have := ih (v ++ [c]) w (by simp at hw; omega) hh.2
        have h2 := run_cons (st := .str v) (c := c) (ts := []) (st' := .str (v ++ [c])) (by simp [rLexStep, hh.1, hc]) this
        simpa using h2

theorem wordChar_base {c : Char} (h : isRWordChar c = true) : rLexBase c = some ([], .word [c]) := by simp [rLexBase, h]

theorem sym_not_word {c : Char} (h : isRSym c = true) : isRWordChar c = false ∧ isRSpace c = false := by
  simp only [isRSym, decide_eq_true_eq] at h
  revert h
  simp only [List.mem_cons, List.not_mem_nil, or_false]
  intro h
  rcases h with h | h | h | h | h | h | h | h | h | h | h | h | h | h | h | h | h | h | h | h | h <;> (subst h; decide)

theorem sym_base {c : Char} (h : isRSym c = true) : rLexBase c = some ([], .sym [c]) := by
  obtain ⟨h1, h2⟩ := sym_not_word h
  simp [rLexBase, h, h1, h2]

/-- the text of a stream, between tokens -/
theorem lex_print (f : RForest) (h : f.Ok) : ∃ ts st p, rLexRun .base f.print = some (ts, st) ∧ Pend st p ∧ f.flatten = ts ++ p := by
  -- what follows a token
  have after : ∀ (st : RLex) (p : List RTok) (f : RForest), Pend st p → (∃ ts st p, rLexRun .base f.print = some (ts, st) ∧ Pend st p ∧ f.flatten = ts ++ p) →
      ∃ ts st' p', rLexRun st (if f.isNil then [] else ' ' :: f.print) = some (ts, st') ∧ Pend st' p' ∧ p ++ f.flatten = ts ++ p' := by
    rintro st p f hp ⟨ts, st', p', h1, h2, h3⟩
    cases hf : f.isNil with
    | true =>
      cases f <;> simp [RForest.isNil] at hf
      exact ⟨[], st, p, by simp [rLexRun], hp, by simp [RForest.flatten]⟩
    | false =>
      exact ⟨p ++ ts, st', p', by simpa using run_cons (pend_space hp) h1, h2, by rw [h3, List.append_assoc]⟩
  induction f with
  | nil => exact ⟨[], .base, [], rfl, rfl, rfl⟩
  | word w f ih =>
    obtain ⟨⟨h1, h2⟩, h3⟩ := h
    obtain ⟨ts, st, p, a1, a2, a3⟩ := after (.word w) [.word w] f rfl (ih h3)
    refine ⟨ts, st, p, ?_, a2, by rw [← a3]; rfl⟩
    rw [RForest.print]
    cases w with
    | nil => exact absurd rfl h1
    | cons c w =>
      have := run_append (run_word [c] w (fun d hd => h2 d (by simp [hd]))) a1
      have := run_cons (st := .base) (ts := []) (st' := .word [c]) (by rw [rLexStep]; exact wordChar_base (h2 c (by simp))) this
      simpa using this
  | life w f ih =>
    obtain ⟨h2, h3⟩ := h
    obtain ⟨ts, st, p, a1, a2, a3⟩ := after (.life w) [.life w] f rfl (ih h3)
    refine ⟨ts, st, p, ?_, a2, by rw [← a3]; rfl⟩
    rw [RForest.print]
    have := run_append (run_life [] w h2) a1
    simpa using run_cons (st := .base) (c := '\'') (ts := []) (st' := .life []) (by decide) this
  | str w f ih =>
    obtain ⟨h2, h3⟩ := h
    obtain ⟨ts, st, p, a1, a2, a3⟩ := after .base [] f rfl (ih h3)
    refine ⟨.str w :: ts, st, p, ?_, a2, by rw [RForest.flatten, List.cons_append, ← a3]; rfl⟩
    rw [RForest.print]
    have := run_append (run_str w.length [] w (Nat.le_refl _) h2) a1
    simpa using run_cons (st := .base) (c := '"') (ts := []) (st' := .str []) (by decide) this
  | sym w f ih =>
    obtain ⟨⟨h1, h1', h2⟩, h3⟩ := h
    obtain ⟨ts, st, p, a1, a2, a3⟩ := after (.sym w) [.sym w] f rfl (ih h3)
    refine ⟨ts, st, p, ?_, a2, by rw [← a3]; rfl⟩
    rw [RForest.print]
    cases w with
    | nil => exact absurd rfl h1
    | cons c w =>
      have := run_append (run_sym [c] w (fun d hd => h2 d (by simp [hd])) (by simp) (by simpa using h1')) a1
      have := run_cons (st := .base) (ts := []) (st' := .sym [c]) (by rw [rLexStep]; exact sym_base (h2 c (by simp))) this
      simpa using this
  | group d i f ih1 ih2 =>
    obtain ⟨h1, h2⟩ := h
    obtain ⟨ts, st, p, a1, a2, a3⟩ := after .base [] f rfl (ih2 h2)
    obtain ⟨ts', st', p', b1, b2, b3⟩ := ih1 h1
    refine ⟨.opn d :: ts' ++ p' ++ .cls d :: ts, st, p, ?_, a2, ?_⟩
    rotate_left
    · rw [RForest.flatten, b3, show f.flatten = ts ++ p by simpa using a3]
      simp
    · cases d with
      | paren =>
        have s1 := run_cons (pend_step b2 (c := ')') (by decide) (by decide) (by decide) (r := ([.cls .paren], .base)) (by decide)) a1
        have s2 := run_append b1 s1
        have s3 := run_cons (st := .base) (c := '(') (ts := [.opn .paren]) (st' := .base) (by decide) s2
        rw [RForest.print]
        simpa using s3
      | bracket =>
        have s1 := run_cons (pend_step b2 (c := ']') (by decide) (by decide) (by decide) (r := ([.cls .bracket], .base)) (by decide)) a1
        have s2 := run_append b1 s1
        have s3 := run_cons (st := .base) (c := '[') (ts := [.opn .bracket]) (st' := .base) (by decide) s2
        rw [RForest.print]
        simpa using s3
      | brace =>
        rw [RForest.print]
        cases hi : i.isNil with
        | true =>
          cases i <;> simp [RForest.isNil] at hi
          simp only [RForest.print, rLexRun, Option.some.injEq, Prod.mk.injEq] at b1
          obtain ⟨rfl, rfl⟩ := b1
          cases b2
          have s1 := run_cons (st := .base) (c := '}') (ts := [.cls .brace]) (st' := .base) (by decide) a1
          have s2 := run_cons (st := .base) (c := ' ') (ts := []) (st' := .base) (by decide) s1
          have s3 := run_cons (st := .base) (c := '{') (ts := [.opn .brace]) (st' := .base) (by decide) s2
          simpa [RForest.print] using s3
        | false =>
          have s0 := run_cons (st := .base) (c := '}') (ts := [.cls .brace]) (st' := .base) (by decide) a1
          have s1 := run_cons (pend_space b2) s0
          have s2 := run_append b1 s1
          have s3 := run_cons (st := .base) (c := ' ') (ts := []) (st' := .base) (by decide) s2
          have s4 := run_cons (st := .base) (c := '{') (ts := [.opn .brace]) (st' := .base) (by decide) s3
          simpa using s4

theorem pend_end {st : RLex} {p : List RTok} (h : Pend st p) : rLexEnd st = some p := by
  cases st <;> first | (cases h; rfl) | cases h

theorem rRead_of_lex {text : List Char} {f : RForest} (h : rLex text = some f.flatten) : rRead text = some f := by
  unfold rRead
  rw [h]
  have := rGroups_flatten f []
  simp only [List.append_nil] at this
  simp only [Option.bind_some, this]
  simp [rGroups, rf_append_nil]

/-- a printed stream, as it is read; `writeln!` adds a newline -/
theorem rRead_print (f : RForest) (h : f.Ok) : rRead (f.print ++ ['\n']) = some f := by
  obtain ⟨ts, st, p, h1, h2, h3⟩ := lex_print f h
  apply rRead_of_lex
  unfold rLex
  rw [rLexRun_append, h1]
  have := run_cons (pend_newline h2) (b := []) (ts' := []) (st'' := .base) rfl
  simp [this, rLexEnd, h3]

end Verif
