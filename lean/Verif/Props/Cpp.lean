import Verif.Proofs.CppLex
import Verif.Props.Lexer

/-! # Properties C14, C15: the generated C++ lexer -/

set_option autoImplicit false

namespace Verif

/-- **C14**: whatever the Rust lexer returns in a history of calls, the C++ lexer, run on the UTF-8 encoding of the text,
returns the same results in the same order; its positions are char counts of the Rust byte positions (`end` is updated for tokens only). -/
theorem C14_same_results {fuel : Nat} {rules : List TokenRule} {t : LexerTables} (h : generateLexer fuel rules = .ok (.ok t))
    {src : List Char} {l : Lexer} {hs : List (LexResult × Lexer)} (hl : LexRun t (Lexer.new src) hs l)
    {budget : Nat} (hb : src.length < budget) :
    ∃ cs c, CppRun t budget (CppLexer.new (utf8 src)) cs c ∧ cs.map (·.1) = hs.map (fun x => x.1.toCpp) ∧
      List.Forall₂ (fun x y => bytes (src.take y.2.startPos) = x.2.start ∧
        ∀ j, x.1 = .token j → bytes (src.take y.2.endPos) = x.2.position) hs cs := by
  have ht := generateLexer_ok h
  have main : ∀ {l0 l : Lexer} {hs : List (LexResult × Lexer)}, LexRun t l0 hs l → ∀ done c, src = done ++ l0.rest → CppAt done l0.rest c →
      l0.position = bytes done → ∃ cs c', CppRun t budget c cs c' ∧ cs.map (·.1) = hs.map (fun x => x.1.toCpp) ∧
      List.Forall₂ (fun x y => bytes (src.take y.2.startPos) = x.2.start ∧
        ∀ j, x.1 = .token j → bytes (src.take y.2.endPos) = x.2.position) hs cs := by
    intro l0 l hs hl
    induction hl with
    | nil l => exact fun done c _ _ _ => ⟨[], c, .nil c, rfl, .nil⟩
    | @cons l0 l1 l2 r hs hn _ ih =>
      intro done c hsrc hc hp
      have hlen : l0.rest.length < budget := by
        have := congrArg List.length hsrc
        simp at this
        omega
      obtain ⟨m, res, l', c', g1, g2, g3, g4, g5, g6, g7, g8⟩ := next_sim ht hc hp hlen
      rw [hn] at g2
      cases g2
      have hsrc' : src = (done ++ m) ++ l1.rest := by rw [hsrc, g1]; simp
      obtain ⟨cs, c2, i1, i2, i3⟩ := ih (done ++ m) c' hsrc' g4 g5
      refine ⟨(r.toCpp, c') :: cs, c2, .cons g3 i1, by simp [i2], .cons ⟨?_, ?_⟩ i3⟩
      · show bytes (src.take c'.startPos) = l1.start
        rw [g7, g6, hsrc, List.take_left']
        rfl
      · intro j hj
        show bytes (src.take c'.endPos) = l1.position
        rw [g8 j hj, g5, hsrc', List.take_left']
        rfl
  exact main hl [] _ rfl ⟨rfl, rfl, Or.inl ⟨rfl, rfl⟩⟩ rfl

/-- **C14**: the C++ lexer's calls all return (within the budget) whenever its input is valid UTF-8. -/
theorem C14_all_calls_return {fuel : Nat} {rules : List TokenRule} {t : LexerTables} (h : generateLexer fuel rules = .ok (.ok t))
    (src : List Char) (n : Nat) {budget : Nat} (hb : src.length < budget) :
    ∃ cs c, CppRun t budget (CppLexer.new (utf8 src)) cs c ∧ cs.length = n := by
  have hrun : ∀ (n : Nat) (l0 : Lexer), ∃ hs l, LexRun t l0 hs l ∧ hs.length = n := by
    intro n
    induction n with
    | zero => exact fun l0 => ⟨[], l0, .nil l0, rfl⟩
    | succ n ih =>
      intro l0
      obtain ⟨res, l1, hn, _⟩ := C10_next_total h l0
      obtain ⟨hs, l, h1, h2⟩ := ih l1
      exact ⟨_, l, .cons hn h1, by simp [h2]⟩
  obtain ⟨hs, l, h1, h2⟩ := hrun n (Lexer.new src)
  obtain ⟨cs, c, g1, g2, g3⟩ := C14_same_results h h1 hb
  exact ⟨cs, c, g1, by rw [← h2, g3.length_eq]⟩

/-- **C15**: decoding the UTF-8 encoding of a char yields its code point, no error bits, and consumes exactly the encoding. -/
theorem C15_decode_encode (c : Char) (rest : List UInt8) : utf8Decode (String.utf8EncodeChar c ++ rest) = (c.toNat, 0, rest) :=
  decode_encode c rest

/-- **C15**: conversely, whatever is decoded without error bits from a non-empty stream is the UTF-8 encoding of the char returned:
overlong forms, surrogates, values above 0x10FFFF, stray and missing continuation bytes and truncated sequences all set error bits. -/
theorem C15_decode_sound {input rest : List UInt8} {v : Nat} (hne : input ≠ []) (h : utf8Decode input = (v, 0, rest)) :
    ∃ c : Char, c.toNat = v ∧ input = String.utf8EncodeChar c ++ rest :=
  decode_sound h hne

/-- **C15**: the end of the stream is decoded as NUL, without error. -/
theorem C15_decode_end : utf8Decode [] = (0, 0, []) := utf8Decode_nil

/-- **C15**: once the decoder has set error bits every later call of `next` returns the error token. -/
theorem C15_error_sticky {t : LexerTables} {budget : Nat} {l l' : CppLexer} {hs : List (CppToken × CppLexer)} {ch : Nat}
    (hch : l.ch = some ch) (he : l.err ≠ 0) (h : CppRun t budget l hs l') : ∀ x ∈ hs, x.1 = .err := by
  induction h with
  | nil => simp
  | @cons l l1 l2 r hs hn _ ih =>
    have : r = .err ∧ l1.ch = some ch ∧ l1.err ≠ 0 := by
      unfold CppLexer.next at hn
      cases budget with
      | zero => cases hn
      | succ b =>
        unfold cppLoop at hn
        simp only [cppRead, hch] at hn
        rw [if_pos he] at hn
        cases hn
        exact ⟨rfl, rfl, he⟩
    intro x hx
    rcases List.mem_cons.mp hx with rfl | hx
    · exact this.1
    · exact ih this.2.1 this.2.2 x hx

/-- the euro sign; an overlong encoding of `/` and a surrogate -/
example : utf8Decode [0xE2, 0x82, 0xAC, 0x41] = (0x20AC, 0, [0x41]) ∧ (utf8Decode [0xC0, 0xAF]).2.1 ≠ 0 ∧
    (utf8Decode [0xED, 0xA0, 0x80]).2.1 ≠ 0 := by decide

end Verif
