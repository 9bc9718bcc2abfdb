import Verif.Proofs.LexRun

/-! # Histories of lexer calls -/

set_option autoImplicit false

namespace Verif

theorem bytes_append (u v : List Char) : bytes (u ++ v) = bytes u + bytes v := by simp [bytes]

theorem bytes_cons (c : Char) (v : List Char) : bytes (c :: v) = c.utf8Size + bytes v := by simp [bytes]

theorem utf8Size_pos (c : Char) : 0 < c.utf8Size := Char.utf8Size_pos c

theorem dropBytes_bytes (u v : List Char) : dropBytes (u ++ v) (bytes u) = some v := by
  induction u with
  | nil => cases v <;> rfl
  | cons c u ih =>
    have hp := utf8Size_pos c
    obtain ⟨n, hn⟩ : ∃ n, bytes (c :: u) = n + 1 := ⟨bytes (c :: u) - 1, by rw [bytes_cons]; omega⟩
    rw [List.cons_append, hn]
    unfold dropBytes
    rw [if_pos (by rw [← hn, bytes_cons]; omega), ← hn, bytes_cons, Nat.add_sub_cancel_left]
    exact ih

theorem takeBytes_bytes (u v : List Char) : takeBytes (u ++ v) (bytes u) = some u := by
  induction u with
  | nil => cases v <;> rfl
  | cons c u ih =>
    have hp := utf8Size_pos c
    obtain ⟨n, hn⟩ : ∃ n, bytes (c :: u) = n + 1 := ⟨bytes (c :: u) - 1, by rw [bytes_cons]; omega⟩
    rw [List.cons_append, hn]
    unfold takeBytes
    rw [if_pos (by rw [← hn, bytes_cons]; omega), ← hn, bytes_cons, Nat.add_sub_cancel_left, ih]
    rfl

theorem byteSlice_mid (u m v : List Char) : byteSlice (u ++ (m ++ v)) (bytes u) (bytes u + bytes m) = .ok m := by
  unfold byteSlice
  rw [if_pos (by omega), dropBytes_bytes, Nat.add_sub_cancel_left]
  simp only [Option.bind_some, takeBytes_bytes]

/-- what holds of every lexer state that can be reached -/
structure Lexer.Inv (src : List Char) (l : Lexer) : Prop where
  src_eq : l.src = src
  pos : ∃ done, src = done ++ l.rest ∧ l.position = bytes done

theorem inv_new (src : List Char) : (Lexer.new src).Inv src := ⟨rfl, [], rfl, rfl⟩

/-- one call -/
theorem next_slice {rules : List TokenRule} {t : LexerTables} (ht : TablesOk rules t) {src : List Char} {l : Lexer} (hi : l.Inv src) :
    ∃ m rest' q res l', l.rest = m ++ rest' ∧ nul ∉ m ∧ t.dfa.Path 0 (m.map (classOf t.alphabet)) q ∧ q < t.dfa.graph.nodes.length ∧
      Stuck t q rest' ∧ StopResult t q rest' res ∧ l.next t = .ok (res, l') ∧ l'.rest = rest' ∧ l'.start = l.position ∧
      l'.position = l.position + bytes m ∧ l'.slice = .ok m ∧ l'.Inv src := by
  obtain ⟨m, rest', q, res, g1, g2, g3, g4, g5, g6, g7⟩ := next_spec ht l
  obtain ⟨h1, done, h2, h3⟩ := hi
  refine ⟨m, rest', q, res, _, g1, g2, g3, g4, g5, g6, g7, rfl, rfl, rfl, ?_, h1, done ++ m, ?_, ?_⟩
  · show byteSlice l.src l.position (l.position + bytes m) = .ok m
    rw [h1, h2, h3, g1]
    exact byteSlice_mid _ _ _
  · rw [h2, g1]; simp
  · show l.position + bytes m = _
    rw [h3, bytes_append]

theorem LexRun.inv {rules : List TokenRule} {t : LexerTables} (ht : TablesOk rules t) {src : List Char} {l l' : Lexer}
    {hs : List (LexResult × Lexer)} (h : LexRun t l hs l') (hi : l.Inv src) : l'.Inv src := by
  induction h with
  | nil => exact hi
  | cons hn _ ih =>
    obtain ⟨m, rest', q, res, l2, _, _, _, _, _, _, g7, _, _, _, _, g12⟩ := next_slice ht hi
    rw [hn] at g7
    cases g7
    exact ih g12

end Verif
