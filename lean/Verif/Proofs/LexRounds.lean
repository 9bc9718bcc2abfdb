import Verif.Spec.Rounds
import Verif.Proofs.RustLexText
import Verif.Proofs.LexRun
import Verif.Proofs.Tables

/-! # How many rounds the loops of the lexers take -/

set_option autoImplicit false

namespace Verif

theorem TakesRounds.unique {α : Type} {f : Nat → Res α} {k k' : Nat} {v v' : α} (h : TakesRounds f k v) (h' : TakesRounds f k' v') : k = k' ∧ v = v' := by
  have a := h (max k k')
  rw [h' (max k k'), if_pos (Nat.le_max_right ..), if_pos (Nat.le_max_left ..)] at a
  refine ⟨?_, by cases a; rfl⟩
  apply Nat.le_antisymm
  · by_contra hc
    have b := h k'
    rw [h' k', if_pos (Nat.le_refl _), if_neg hc] at b
    cases b
  · by_contra hc
    have b := h k
    rw [h' k, if_pos (Nat.le_refl _), if_neg hc] at b
    cases b

section
variable (name : Nat → List Char) (t : LexerTables) {index : Nat → Res (Option Nat)} {range : Nat → Res (Option (Nat × Nat))}
  (hindex : ∀ c, index c = .ok (getAlphabetIndex t.alphabet c)) (hrange : ∀ i, range i = .ok t.alphabet.ranges[i]?)

theorem lexLoop_shorter : ∀ (rest : List Char) (q p : Nat) {r : LexResult} {rest' : List Char} {p' : Nat}, lexLoop t q p rest = .ok (r, rest', p') → rest'.length ≤ rest.length := by
  intro rest
  induction rest with
  | nil =>
    intro q p r rest' p' h
    rw [lexLoop_round] at h
    cases hr : roundOf t q [] with
    | done r => rw [hr] at h; cases h; exact Nat.le_refl _
    | panic => rw [hr] at h; cases h
    | again q' => rw [hr] at h; cases h
  | cons c rest ih =>
    intro q p r rest' p' h
    rw [lexLoop_round] at h
    cases hr : roundOf t q (c :: rest) with
    | done r => rw [hr] at h; cases h; exact Nat.le_refl _
    | panic => rw [hr] at h; cases h
    | again q' => rw [hr] at h; exact Nat.le_succ_of_le (ih q' _ h)

include hindex hrange in
theorem exec_lexRounds (n0 n q : Nat) (s : RNextVars) (hq : s.state = some q) {r : LexResult} {rest : List Char} {p : Nat} (hl : lexLoop t q s.lexer.position s.lexer.rest = .ok (r, rest, p)) :
    (s.lexer.rest.length < n + rest.length → ∃ s', rLoop (fun _ => some true) (fun s => (rNextMachine index range).execs n0 .nil (rLoopStmts (rArms name t)) s) n s = .ok (.ret s' (rustLexResult name r)) ∧
        s'.lexer = { s.lexer with rest := rest, position := p }) ∧
    (n + rest.length ≤ s.lexer.rest.length → rLoop (fun _ => some true) (fun s => (rNextMachine index range).execs n0 .nil (rLoopStmts (rArms name t)) s) n s = .error .fuel) := by
  induction n generalizing q s with
  | zero =>
    have := lexLoop_shorter t _ _ _ hl
    exact ⟨fun h => by omega, fun _ => rfl⟩
  | succ n ih =>
    have h := exec_rRound name t hindex hrange n0 q s hq
    rw [lexLoop_round] at hl
    cases hr : roundOf t q s.lexer.rest with
    | done r =>
      rw [hr] at h hl
      cases hl
      obtain ⟨s', h1, h2⟩ := h
      refine ⟨fun _ => ⟨s', ?_, by rw [h2]⟩, fun hle => by omega⟩
      simp only [rLoop, h1]
    | panic =>
      rw [hr] at hl
      cases hl
    | again q' =>
      rw [hr] at h hl
      obtain ⟨c, rest1, s', h0, h1, h2, h3⟩ := h
      rw [h0] at hl ⊢
      simp only [rLoop, h1]
      have := ih q' s' h2 (by rw [h3]; exact hl)
      rw [h3] at this
      simp only [List.length_cons]
      exact ⟨fun hlt => this.1 (by simp only; omega), fun hle => this.2 (by simp only; omega)⟩

include hindex hrange in
theorem exec_rRounds (n : Nat) (l l' : Lexer) (r : LexResult) (h : Lexer.next t l = .ok (r, l')) :
    (callR (rNextMachine index range) n (rNextStmts (rArms name t)) ⟨l, none, none, none, none, none⟩).map (fun r => (r.2, r.1.lexer)) =
      if l.rest.length + 1 ≤ n + l'.rest.length then .ok (rustLexResult name r, l') else .error .fuel := by
  unfold Lexer.next at h
  cases hl : lexLoop t 0 l.position l.rest with
  | error e => rw [hl] at h; cases h
  | ok x =>
    obtain ⟨r0, rest, p⟩ := x
    rw [hl] at h
    cases h
    unfold callR rNextStmts
    rw [r_execs_next _ _ _ (s' := ⟨l, some 0, none, none, none, none⟩) (by rw [r_exec_simple]; exact act_mut index range _)]
    rw [r_execs_next _ _ _ (s' := ⟨{ l with start := l.position }, some 0, none, none, none, none⟩) (by rw [r_exec_simple]; exact act_start index range _)]
    rw [r_execs_one, r_exec_loop]
    have h := exec_lexRounds name t hindex hrange n n 0 ⟨{ l with start := l.position }, some 0, none, none, none, none⟩ rfl hl
    simp only at h
    by_cases hc : l.rest.length + 1 ≤ n + rest.length
    · obtain ⟨s', h1, h2⟩ := h.1 hc
      simp only [h1]
      rw [if_pos hc]
      show Except.ok (rustLexResult name r, s'.lexer) = _
      rw [h2]
    · simp only [h.2 (by omega)]
      rw [if_neg hc]
      rfl
end

theorem run_rRounds {rules : List TokenRule} {t : LexerTables} {text : List Char} (hn : ∀ r ∈ rules, IsWord r.name.toList) (h : rustLexerFile rules t = .ok text) {name : Nat → List Char}
    (hname : ∀ r w, tokenEnumName (ruleName rules r) = .ok w → name r = w) {l l' : Lexer} {r : LexResult} (hl : Lexer.next t l = .ok (r, l')) (hle : l'.rest.length ≤ l.rest.length) :
    TakesRounds (fun n => rustNext text n l) (l.rest.length - l'.rest.length + 1) (rustLexResult name r, l') := by
  intro n
  simp only
  unfold rustNext
  rw [read_rNext hn h hname]
  simp only
  rw [exec_rRounds name t (call_rIndex hn h) (call_rRange hn h) n l l' r hl]
  congr 1
  simp only [eq_iff_iff]
  omega

/-! ## C++ -/

/-- the bytes that a lexer can still take: those of the stream and the char that it has read ahead -/
def CppLexer.ahead (l : CppLexer) : Nat := l.input.length + (match l.ch with | some c => if c = 0 then 0 else 1 | none => 0)

theorem utf8Decode_end : utf8Decode [] = (0, (utf8Decode []).2.1, []) := rfl

theorem utf8Decode_shorter (x : UInt8) (xs : List UInt8) : (utf8Decode (x :: xs)).2.2.length ≤ xs.length := by
  unfold utf8Decode
  simp only [List.drop_succ_cons, List.drop_zero, List.length_drop]
  omega

theorem cppRead_ahead (l : CppLexer) : (cppRead l).2.ahead ≤ l.ahead ∧ (cppRead l).2.ch = some (cppRead l).1 ∧ (cppRead l).2.position = l.position := by
  unfold cppRead
  cases hc : l.ch with
  | some c => exact ⟨Nat.le_refl _, hc, rfl⟩
  | none =>
    cases hi : l.input with
    | nil =>
      refine ⟨?_, rfl, rfl⟩
      rw [utf8Decode_end]
      generalize (utf8Decode []).2.1 = e
      simp only [CppLexer.ahead, hi]
      exact Nat.zero_le _
    | cons x xs =>
      have := utf8Decode_shorter x xs
      revert this
      generalize utf8Decode (x :: xs) = d
      obtain ⟨c, e, rest⟩ := d
      intro h
      refine ⟨?_, rfl, rfl⟩
      simp only at h
      simp only [CppLexer.ahead, hi, hc, List.length_cons]
      split <;> omega

theorem takes_one {α : Type} {f : Nat → Res α} {v : α} (h0 : f 0 = .error .fuel) (h : ∀ n, f (n + 1) = .ok v) : TakesRounds f 1 v := by
  intro n
  cases n with
  | zero => rw [h0]; rfl
  | succ n => rw [h, if_pos (by omega)]

theorem takes_succ {α : Type} {f g : Nat → Res α} {v : α} {k : Nat} (h0 : f 0 = .error .fuel) (h : ∀ n, f (n + 1) = g n) (hg : TakesRounds g k v) : TakesRounds f (k + 1) v := by
  intro n
  cases n with
  | zero => rw [h0]; rfl
  | succ n =>
    rw [h, hg n]
    simp

theorem switch_zero (d : Dfa Nat Nat) (q q' : Nat) : cppStateSwitch d q 0 ≠ .advance q' := by
  unfold cppStateSwitch
  split
  · simp
  · split
    · simp
    · have : (d.transitionsFrom q).find? (fun tt => tt.1 ≠ 0 ∧ tt.1 = 0) = none := by
        rw [List.find?_eq_none]
        intro x _
        simp
      rw [this]
      simp only
      split <;> simp

theorem switch_token {d : Dfa Nat Nat} {q i j : Nat} {b : Bool} (h : cppStateSwitch d q i = .ret (.token j) b) : d.graph.nodes[q]? = some (.accepting j) := by
  unfold cppStateSwitch at h
  split at h
  · cases h
  · rename_i node hn
    split at h
    · cases h
    · split at h
      · cases h
      · split at h
        · cases h; exact hn
        · cases h

theorem cppLoop_rounds {t : LexerTables} (h0 : getAlphabetIndex t.alphabet 0 = some 0) (m q : Nat) (l : CppLexer) (hm : l.ahead = m) :
    ∃ k tok l', TakesRounds (fun n => cppLoop t n q l) (k + 1) (tok, l') ∧ l'.position = l.position + k ∧ k + l'.ahead ≤ l.ahead ∧
      (k = 0 → ∀ j, tok = .token j → t.dfa.graph.nodes[q]? = some (.accepting j)) := by
  induction m using Nat.strong_induction_on generalizing q l with
  | _ m ih =>
    have hr := cppRead_ahead l
    have hstep : ∀ n, cppLoop t (n + 1) q l = if (cppRead l).2.err ≠ 0 then .ok (.err, (cppRead l).2)
      else match getAlphabetIndex t.alphabet (cppRead l).1 with
        | none => .ok (.err, (cppRead l).2)
        | some i => match cppStateSwitch t.dfa q i with
          | .ret tok setEnd => .ok (tok, if setEnd then { (cppRead l).2 with endPos := (cppRead l).2.position } else (cppRead l).2)
          | .advance state => cppLoop t n state { (cppRead l).2 with ch := none, position := (cppRead l).2.position + 1 } := fun n => rfl
    revert hr hstep
    generalize cppRead l = x
    obtain ⟨c, l1⟩ := x
    simp only
    intro hr hstep
    by_cases he : l1.err ≠ 0
    · simp only [if_pos he] at hstep
      exact ⟨0, .err, l1, takes_one rfl hstep, hr.2.2, by omega, fun _ j hj => by cases hj⟩
    · simp only [if_neg he] at hstep
      cases hi : getAlphabetIndex t.alphabet c with
      | none =>
        simp only [hi] at hstep
        exact ⟨0, .err, l1, takes_one rfl hstep, hr.2.2, by omega, fun _ j hj => by cases hj⟩
      | some i =>
        simp only [hi] at hstep
        cases hs : cppStateSwitch t.dfa q i with
        | ret tok b =>
          simp only [hs] at hstep
          refine ⟨0, tok, _, takes_one rfl hstep, ?_, ?_, fun _ j hj => by subst hj; exact switch_token hs⟩
          · split <;> exact hr.2.2
          · split <;> simp only [CppLexer.ahead] at hr ⊢ <;> omega
        | advance q' =>
          simp only [hs] at hstep
          have hc : c ≠ 0 := by
            rintro rfl
            rw [h0] at hi
            cases hi
            exact switch_zero _ _ _ hs
          have ha : ({ l1 with ch := none, position := l1.position + 1 } : CppLexer).ahead + 1 = l1.ahead := by
            simp only [CppLexer.ahead, hr.2.1, if_neg hc]
          obtain ⟨k, tok, l', h1, h2, h3, _⟩ := ih _ (by omega) q' { l1 with ch := none, position := l1.position + 1 } rfl
          refine ⟨k + 1, tok, l', takes_succ rfl hstep h1, ?_, by omega, fun h => by omega⟩
          rw [h2]
          simp only
          rw [hr.2.2]
          omega

theorem cppNext_rounds {rules : List TokenRule} {t : LexerTables} (ht : TablesOk rules t) (l : CppLexer) :
    ∃ k tok l', TakesRounds (fun n => CppLexer.next t n l) (k + 1) (tok, l') ∧ l'.position = l.position + k ∧ k + l'.ahead ≤ l.ahead ∧
      (k = 0 → ∀ j, tok = .token j → ∃ r ∈ rules, r.Matches []) := by
  obtain ⟨k, tok, l', h1, h2, h3, h4⟩ := cppLoop_rounds ht.index_zero _ 0 { l with startPos := l.position } rfl
  refine ⟨k, tok, l', h1, h2, h3, fun hk j hj => ?_⟩
  obtain ⟨r, _, h5, h6, _⟩ := ht.accepting (w := []) (.refl 0) (h4 hk j hj)
  exact ⟨r, List.mem_of_getElem? h5, h6⟩

end Verif
