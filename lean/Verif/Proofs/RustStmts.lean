import Verif.Proofs.RustRead
import Verif.Proofs.CppLexText
import Verif.Model.RustText

/-! # Statements and arms of Rust text: lemmas -/

set_option autoImplicit false

namespace Verif

/-! ## Numbers -/

theorem rNumber_decimal (n : Nat) (suf : List Char) (hs : suf ∈ [[], "usize".toList, "u32".toList]) : rNumber (decimal n ++ suf) = some n := by
  have hd : ∀ c ∈ decimal n, isRDigit c = true := fun c hc => by
    have := isDigit_range (decimal_digit hc)
    simp [isRDigit, this.1, this.2]
  have hsuf : suf.takeWhile isRDigit = [] ∧ suf.dropWhile isRDigit = suf := by
    simp only [List.mem_cons, List.not_mem_nil, or_false] at hs
    rcases hs with rfl | rfl | rfl <;> exact ⟨by decide, by decide⟩
  have h1 : (decimal n ++ suf).takeWhile isRDigit = decimal n := by
    rw [List.takeWhile_append_of_pos hd, hsuf.1, List.append_nil]
  have h2 : (decimal n ++ suf).dropWhile isRDigit = suf := by
    rw [List.dropWhile_append_of_pos hd, hsuf.2]
  unfold rNumber
  rw [h1, h2, if_pos ⟨decimal_ne_nil n, hs⟩]
  have := Nat.ofDigitChars_toDigits (b := 10) (n := n) (by omega) (by omega)
  rw [Nat.ofDigitChars_eq_foldl] at this
  exact congrArg some this

theorem rNumber_usize (n : Nat) : rNumber (decimal n ++ ['u', 's', 'i', 'z', 'e']) = some n := rNumber_decimal n ['u', 's', 'i', 'z', 'e'] (by decide)
theorem rNumber_u32 (n : Nat) : rNumber (decimal n ++ ['u', '3', '2']) = some n := rNumber_decimal n ['u', '3', '2'] (by decide)

/-- a word that begins with a digit -/
theorem decimal_ne {w : List Char} (hw : ∀ c, w.head? = some c → c.toNat < 48 ∨ 57 < c.toNat) (n : Nat) (suf : List Char) : decimal n ++ suf ≠ w := by
  intro e
  cases hd : decimal n with
  | nil => exact decimal_ne_nil n hd
  | cons c ds =>
    have h1 := isDigit_range (decimal_digit (n := n) (c := c) (by simp [hd]))
    have h2 := hw c (by rw [← e, hd]; rfl)
    omega

theorem wordPat_num {w : List Char} {n : Nat} (h : rNumber w = some n) : wordPat w = .num n := by
  unfold wordPat
  rw [if_neg (by rintro rfl; rw [show rNumber ['_'] = none by decide] at h; cases h), h]

theorem wordPat_usize (n : Nat) : wordPat (decimal n ++ ['u', 's', 'i', 'z', 'e']) = .num n := wordPat_num (rNumber_usize n)
theorem wordPat_u32 (n : Nat) : wordPat (decimal n ++ ['u', '3', '2']) = .num n := wordPat_num (rNumber_u32 n)

/-! ## Tokens as they are read -/

/-- a word -/
def wordB (w : List Char) : Bool := !w.isEmpty && w.all isRWordChar

/-- an operator -/
def symB (w : List Char) : Bool := !w.isEmpty && decide (w.head? ≠ some '/') && w.all isRSym

/-- the text of a string literal -/
def strB : List Char → Bool
  | [] => true
  | c :: cs => c ≠ '"' && c ≠ '\\' && strB cs

theorem ok_nil : RForest.nil.Ok := trivial

theorem ok_word {w : List Char} {f : RForest} (h : wordB w = true) (hf : f.Ok) : (RForest.word w f).Ok := by
  simp only [wordB, Bool.and_eq_true, Bool.not_eq_true', List.all_eq_true] at h
  exact ⟨⟨by rintro rfl; simp at h, h.2⟩, hf⟩

theorem ok_life {w : List Char} {f : RForest} (h : wordB w = true) (hf : f.Ok) : (RForest.life w f).Ok := by
  simp only [wordB, Bool.and_eq_true, Bool.not_eq_true', List.all_eq_true] at h
  exact ⟨h.2, hf⟩

theorem ok_sym {w : List Char} {f : RForest} (h : symB w = true) (hf : f.Ok) : (RForest.sym w f).Ok := by
  simp only [symB, Bool.and_eq_true, Bool.not_eq_true', List.all_eq_true, decide_eq_true_eq] at h
  exact ⟨⟨by rintro rfl; simp at h, h.1.2, h.2⟩, hf⟩

theorem strB_ok {w : List Char} (h : strB w = true) : strOkFrom w := by
  induction w with
  | nil => trivial
  | cons c w ih =>
    simp only [strB, Bool.and_eq_true, decide_eq_true_eq] at h
    unfold strOkFrom
    split
    · trivial
    · rename_i heq; cases heq; exact absurd rfl h.1.2
    · rename_i heq; cases heq; exact ⟨h.1.1, ih h.2⟩

theorem ok_str {w : List Char} {f : RForest} (h : strB w = true) (hf : f.Ok) : (RForest.str w f).Ok := ⟨strB_ok h, hf⟩

theorem ok_group {d : RDelim} {i f : RForest} (hi : i.Ok) (hf : f.Ok) : (RForest.group d i f).Ok := ⟨hi, hf⟩

/-- token by token -/
macro "rust_ok" : tactic => `(tactic| repeat' (first | assumption | exact ok_nil | refine ok_word (by rfl) ?_ | refine ok_sym (by rfl) ?_ | refine ok_group ?_ ?_ | refine ok_life (by rfl) ?_ | refine ok_str (by rfl) ?_ | refine ok_append ?_ ?_))

theorem wordB_decimal (n : Nat) {suf : List Char} (h : suf.all isRWordChar = true) : wordB (decimal n ++ suf) = true := by
  simp only [wordB, Bool.and_eq_true, Bool.not_eq_true', List.all_append, h, and_true]
  refine ⟨?_, List.all_eq_true.mpr (fun c hc => decimal_word n c hc)⟩
  rw [List.isEmpty_eq_false_iff]
  intro e
  exact decimal_ne_nil n (List.append_eq_nil_iff.mp e).1

theorem ok_usize (n : Nat) : (rUsize n).Ok := ok_word (wordB_decimal n (by decide)) ok_nil
theorem ok_u32 (n : Nat) : (rU32 n).Ok := ok_word (wordB_decimal n (by decide)) ok_nil

theorem ok_joinComma {fs : List RForest} (h : ∀ f ∈ fs, f.Ok) : (RForest.joinComma fs).Ok := by
  unfold RForest.joinComma
  apply ok_join
  intro f hf
  obtain ⟨g, hg, rfl⟩ := List.mem_map.mp hf
  exact ok_append (h g hg) (by rust_ok)

/-! ## Statements -/

theorem rd_simple {n : Nat} {f ts r : RForest} {ss : List RStmt} (h0 : readRStmts (n + 2) f = readSimple (n + 1) f) (h1 : upToSym [';'] f = some (ts, r))
    (h2 : upToWord "match".toList ts = none) (h3 : readRStmts n r = some ss) : readRStmts (n + 2) f = some (.simple ts :: ss) := by
  rw [h0, readSimple]; simp only [h1, h2, h3]; rfl

theorem rd_tail {n : Nat} {f : RForest} (h0 : readRStmts (n + 2) f = readSimple (n + 1) f) (h1 : upToSym [';'] f = none) : readRStmts (n + 2) f = some [.tail f] := by
  rw [h0, readSimple]; simp only [h1]

theorem rd_matching {n : Nat} {f ts r before m e b : RForest} {arms ss : List RStmt} (h0 : readRStmts (n + 2) f = readSimple (n + 1) f) (h1 : upToSym [';'] f = some (ts, r))
    (h2 : upToWord "match".toList ts = some (before, m)) (h4 : upToBrace m = some (e, b, .nil)) (h5 : readArms n b = some arms) (h3 : readRStmts n r = some ss) :
    readRStmts (n + 2) f = some (.matching before e arms :: ss) := by
  rw [h0, readSimple]; simp only [h1, h2, h3, h4, h5, if_pos, Option.bind_eq_bind, Option.bind_some]

theorem rd_loop {n : Nat} {f b r : RForest} {bs ss : List RStmt} (h1 : upToBrace f = some (.nil, b, r)) (h2 : readRStmts n b = some bs) (h3 : readRStmts n r = some ss) :
    readRStmts (n + 1) (.word ['l', 'o', 'o', 'p'] f) = some (.loop bs :: ss) := by
  rw [readRStmts, if_pos (by rfl)]; simp only [h1, h2, h3, if_pos, Option.bind_eq_bind, Option.bind_some]

theorem rd_while {n : Nat} {f c b r : RForest} {bs ss : List RStmt} (h1 : upToBrace f = some (c, b, r)) (h2 : readRStmts n b = some bs) (h3 : readRStmts n r = some ss) :
    readRStmts (n + 1) (.word ['w', 'h', 'i', 'l', 'e'] f) = some (.whileDo c bs :: ss) := by
  rw [readRStmts, if_neg (by decide), if_pos (by rfl)]; simp only [h1, h2, h3, Option.bind_eq_bind, Option.bind_some]

theorem rd_for {n : Nat} {f c b r : RForest} {bs ss : List RStmt} (h1 : upToBrace f = some (c, b, r)) (h2 : readRStmts n b = some bs) (h3 : readRStmts n r = some ss) :
    readRStmts (n + 1) (.word ['f', 'o', 'r'] f) = some (.forDo c bs :: ss) := by
  rw [readRStmts, if_neg (by decide), if_neg (by decide), if_pos (by rfl)]; simp only [h1, h2, h3, Option.bind_eq_bind, Option.bind_some]

theorem rd_tailMatch {n : Nat} {f e b : RForest} {arms : List RStmt} (h1 : upToBrace f = some (e, b, .nil)) (h2 : readArms n b = some arms) :
    readRStmts (n + 1) (.word ['m', 'a', 't', 'c', 'h'] f) = some [.tailMatch e arms] := by
  rw [readRStmts, if_neg (by decide), if_neg (by decide), if_neg (by decide), if_pos (by rfl)]; simp only [h1, h2, if_pos, Option.bind_eq_bind, Option.bind_some]

theorem rd_match {n : Nat} {f e b r : RForest} {arms ss : List RStmt} (h1 : upToBrace f = some (e, b, r)) (h2 : readArms n b = some arms) (hr : r ≠ .nil) (h3 : readRStmts n r = some ss) :
    readRStmts (n + 1) (.word ['m', 'a', 't', 'c', 'h'] f) = some (.matching .nil e arms :: ss) := by
  rw [readRStmts, if_neg (by decide), if_neg (by decide), if_neg (by decide), if_pos (by rfl)]; simp only [h1, h2, h3, if_neg hr, Option.bind_eq_bind, Option.bind_some]

/-! ## Arms -/

theorem rd_arm_block {n : Nat} {f p b r : RForest} {pat : RPat} {bs as : List RStmt} (h1 : upToSym "=>".toList f = some (p, .group .brace b r)) (h2 : readPat 5 p = some pat)
    (h3 : readRStmts n b = some bs) (h4 : readArms n (skipComma r) = some as) : readArms (n + 1) f = some (.arm pat bs :: as) := by
  cases f with
  | nil => cases h1
  | _ => simp only [readArms, h1, h2, h3, h4, Option.bind_eq_bind, Option.bind_some]

/-- not a block -/
def notBlock : RForest → Bool
  | .group .brace _ _ => false
  | _ => true

theorem rd_arm_expr {n : Nat} {f p r e r' : RForest} {pat : RPat} {as : List RStmt} (h1 : upToSym "=>".toList f = some (p, r)) (h0 : notBlock r = true) (h2 : readPat 5 p = some pat)
    (h3 : upToSym [','] r = some (e, r')) (h4 : readArms n r' = some as) : readArms (n + 1) f = some (.arm pat [.tail e] :: as) := by
  have hh : ∀ f' : RForest, f' = f → readArms (n + 1) f' = some (.arm pat [.tail e] :: as) := by
    intro f' hf
    cases f' with
    | nil => subst hf; cases h1
    | _ =>
      rw [← hf] at h1
      rw [readArms]
      · simp only [h1, h2, Option.bind_eq_bind, Option.bind_some]
        cases r with
        | group d _ _ =>
          cases d with
          | brace => simp [notBlock] at h0
          | _ => simp only [h3, h4, Option.bind_some]
        | _ => simp only [h3, h4, Option.bind_some]
      · intro e; cases e
  exact hh f rfl

theorem rd_arm_last {n : Nat} {f p r : RForest} {pat : RPat} (h1 : upToSym "=>".toList f = some (p, r)) (h0 : notBlock r = true) (h2 : readPat 5 p = some pat)
    (h3 : upToSym [','] r = none) : readArms (n + 1) f = some [.arm pat [.tail r]] := by
  have hh : ∀ f' : RForest, f' = f → readArms (n + 1) f' = some [.arm pat [.tail r]] := by
    intro f' hf
    cases f' with
    | nil => subst hf; cases h1
    | _ =>
      rw [← hf] at h1
      rw [readArms]
      · simp only [h1, h2, Option.bind_eq_bind, Option.bind_some]
        cases r with
        | group d _ _ =>
          cases d with
          | brace => simp [notBlock] at h0
          | _ => simp only [h3]
        | _ => simp only [h3]
      · intro e; cases e
  exact hh f rfl

/-- an arm with its text, which is followed by a `,` -/
def ArmReads (f : RForest) (a : RStmt) : Prop := ∀ n r as, readArms (n + 10) r = some as → readArms (n + 11) (f.append (.sym [','] r)) = some (a :: as)

theorem joinComma_cons (f : RForest) (fs : List RForest) (r : RForest) : (RForest.joinComma (f :: fs)).append r = f.append (.sym [','] ((RForest.joinComma fs).append r)) := by
  simp only [RForest.joinComma, List.map_cons, RForest.join, rf_append_assoc]
  rfl

theorem arms_read {fs : List RForest} {as : List RStmt} (h : List.Forall₂ ArmReads fs as) {n : Nat} {r : RForest} {as' : List RStmt} (hr : ∀ n, readArms (n + 10) r = some as') :
    readArms (n + (fs.length + 10)) ((RForest.joinComma fs).append r) = some (as ++ as') := by
  induction h with
  | nil => exact hr n
  | cons h1 _ ih =>
    rw [joinComma_cons]
    have := h1 (n + _) _ _ ih
    rw [List.length_cons]
    exact this

theorem size_pos (f : RForest) : 1 ≤ f.size := by cases f <;> simp [RForest.size]

theorem size_append (f g : RForest) : (f.append g).size + 1 = f.size + g.size := by
  induction f with
  | nil => simp [RForest.append, RForest.size]; omega
  | _ => simp only [RForest.append, RForest.size]; omega

theorem size_joinComma (fs : List RForest) : fs.length ≤ (RForest.joinComma fs).size := by
  induction fs with
  | nil => simp
  | cons f fs ih =>
    have h := joinComma_cons f fs .nil
    rw [rf_append_nil, rf_append_nil] at h
    have h1 := size_append f (.sym [','] (RForest.joinComma fs))
    have h2 := size_pos f
    rw [h, List.length_cons]
    simp only [RForest.size] at h1
    omega

/-! ## Execution -/

section
variable {σ ρ : Type} (m : RMachine σ ρ) (n : Nat) (ctx : RForest)

theorem r_execs_nil (s : σ) : m.execs n ctx [] s = .ok (.next s) := by rw [RMachine.execs]

theorem r_execs_next {a : RStmt} {ss : List RStmt} {s s' : σ} (h : m.exec n ctx a s = .ok (.next s')) : m.execs n ctx (a :: ss) s = m.execs n ctx ss s' := by rw [RMachine.execs, h]

theorem r_execs_ret {a : RStmt} {ss : List RStmt} {s s' : σ} {r : ρ} (h : m.exec n ctx a s = .ok (.ret s' r)) : m.execs n ctx (a :: ss) s = .ok (.ret s' r) := by rw [RMachine.execs, h]

theorem r_execs_err {a : RStmt} {ss : List RStmt} {s : σ} {e : Err} (h : m.exec n ctx a s = .error e) : m.execs n ctx (a :: ss) s = .error e := by rw [RMachine.execs, h]

theorem r_execs_one (a : RStmt) (s : σ) : m.execs n ctx [a] s = m.exec n ctx a s := by
  rw [RMachine.execs]
  split
  · rename_i h; rw [r_execs_nil, h]
  · rfl

theorem r_exec_simple (ts : RForest) (s : σ) : m.exec n ctx (.simple ts) s = m.act ts s := by rw [RMachine.exec]

theorem r_exec_tail (ts : RForest) (s : σ) : m.exec n ctx (.tail ts) s = m.act (ctx.append ts) s := by rw [RMachine.exec]

theorem r_exec_tailMatch {e : RForest} {arms : List RStmt} {s : σ} {v : RVal} (h : m.value e s = some v) : m.exec n ctx (.tailMatch e arms) s = m.execArms n ctx v arms s := by
  rw [RMachine.exec, h]

theorem r_exec_matching {before e : RForest} {arms : List RStmt} {s : σ} {v : RVal} (h : m.value e s = some v) : m.exec n ctx (.matching before e arms) s = m.execArms n before v arms s := by
  rw [RMachine.exec, h]

theorem r_exec_loop (b : List RStmt) (s : σ) : m.exec n ctx (.loop b) s = rLoop (fun _ => some true) (fun s => m.execs n .nil b s) n s := by rw [RMachine.exec]

theorem r_exec_while (c : RForest) (b : List RStmt) (s : σ) : m.exec n ctx (.whileDo c b) s = rLoop (m.test c) (fun s => m.execs n .nil b s) n s := by rw [RMachine.exec]

theorem r_exec_for {c : RForest} {b : List RStmt} {s : σ} {k : Nat} (h : m.rounds c s = some k) : m.exec n ctx (.forDo c b) s = rTimes (fun s => m.execs n .nil b s) k s := by
  rw [RMachine.exec, h]

theorem r_arms_skip {p : RPat} {b as : List RStmt} {v : RVal} {s : σ} (h : p.matches v = none) : m.execArms n ctx v (.arm p b :: as) s = m.execArms n ctx v as s := by
  rw [RMachine.execArms, h]

theorem r_arms_take {p : RPat} {b as : List RStmt} {v : RVal} {s s' : σ} {bs : List (List Char × RVal)} (h : p.matches v = some bs) (hb : m.binds bs s = .ok s') :
    m.execArms n ctx v (.arm p b :: as) s = m.execs n ctx b s' := by
  rw [RMachine.execArms, h]; simp only [hb]

theorem r_binds_nil (s : σ) : m.binds [] s = .ok s := rfl

/-- the first arm that matches -/
theorem r_arms_find {α : Type} (f : α → RStmt) (pat : α → RPat) (body : α → List RStmt) (hf : ∀ a, f a = .arm (pat a) (body a)) (v : RVal) (l : List α) (rest : List RStmt) (s : σ) :
    m.execArms n ctx v (l.map f ++ rest) s = match l.find? (fun a => ((pat a).matches v).isSome) with
      | some a => m.execArms n ctx v [f a] s
      | none => m.execArms n ctx v rest s := by
  induction l with
  | nil => rfl
  | cons a l ih =>
    rw [List.map_cons, List.cons_append, List.find?_cons]
    cases h : (pat a).matches v with
    | none =>
      simp only [Option.isSome_none]
      rw [hf, r_arms_skip m n ctx h, ih]
    | some bs =>
      simp only [Option.isSome_some]
      rw [hf, RMachine.execArms, RMachine.execArms, h]
end

end Verif
