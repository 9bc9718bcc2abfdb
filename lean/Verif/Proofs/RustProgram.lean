import Verif.Proofs.Pipeline
import Verif.Proofs.GlrExact
import Verif.Props.RustText
import Verif.Spec.RustProgram

/-!
# Token functions around the text of the lexer
-/

set_option autoImplicit false

namespace Verif

section
variable {t : LexerTables} {lexer : List Char} {variants : List (List Char)}
variable (hnext : ∀ n l, l.rest.length < n → rustNext lexer n l = (Lexer.next t l).map (fun x => (variantOf variants x.1, x.2)))
variable {skip : List Char → Bool} (heof : skip (variants.getD 0 []) = false)

include hnext in
theorem rustNext_ok {n : Nat} {l l' : Lexer} {r : RustLexResult} (hl : l.rest.length < n) : rustNext lexer n l = .ok (r, l') ↔ ∃ r0, l.next t = .ok (r0, l') ∧ r = variantOf variants r0 := by
  rw [hnext n l hl]
  cases hn : l.next t with
  | error e => simp [Except.map]
  | ok x =>
    obtain ⟨a, b⟩ := x
    simp only [Except.map, Except.ok.injEq, Prod.mk.injEq]
    constructor
    · rintro ⟨rfl, rfl⟩; exact ⟨a, ⟨rfl, rfl⟩, rfl⟩
    · rintro ⟨r0, ⟨rfl, rfl⟩, rfl⟩; exact ⟨rfl, rfl⟩

include hnext heof in
theorem textNext_iff {l l' : Lexer} {r : RustLexResult} : TextNext lexer skip l r l' ↔ ∃ r0, NextKept t (skipped variants skip) l r0 l' ∧ r = variantOf variants r0 := by
  constructor
  · intro h
    induction h with
    | keep hl hn hs =>
      obtain ⟨r0, h1, rfl⟩ := (rustNext_ok hnext hl).mp hn
      refine ⟨r0, .keep h1 ?_, rfl⟩
      rintro j rfl
      exact hs _ rfl
    | skip hl hn hs _ ih =>
      obtain ⟨r0, h1, e⟩ := (rustNext_ok hnext hl).mp hn
      obtain ⟨r', h2, rfl⟩ := ih
      cases r0 with
      | token j =>
        cases e
        exact ⟨r', .skip h1 hs h2, rfl⟩
      | eof =>
        cases e
        rw [heof] at hs
        cases hs
      | invalidChar c => cases e
      | unexpectedAlphabet c => cases e
  · rintro ⟨r0, h, rfl⟩
    induction h with
    | @keep l l' r hn hs =>
      refine .keep (Nat.lt_succ_self _) ((rustNext_ok hnext (Nat.lt_succ_self _)).mpr ⟨r, hn, rfl⟩) ?_
      intro v hv
      cases r with
      | token j => cases hv; exact hs j rfl
      | eof => cases hv; exact heof
      | invalidChar c => cases hv
      | unexpectedAlphabet c => cases hv
    | skip hn hs _ ih => exact .skip (Nat.lt_succ_self _) ((rustNext_ok hnext (Nat.lt_succ_self _)).mpr ⟨_, hn, rfl⟩) hs ih

variable (hnew : ∀ src, rustNew lexer src = .ok (Lexer.new src)) (hslice : ∀ l, rustSlice lexer l = l.slice)

include hnext heof hnew hslice in
/-- a token function around the text is one around the modelled lexer -/
theorem textFed_fed {α : Type} {f : RustLexResult → List Char → α} {src : List Char} {inp : Nat → α} (h : TextFed f lexer skip src inp) :
    ∃ input : Nat → Tok × List Char, FedBy t (skipped variants skip) (Lexer.new src) input ∧
      ∃ rs : Nat → LexResult, ∀ k, (input k).1 = (rs k).tok ∧ inp k = f (variantOf variants (rs k)) (input k).2 := by
  obtain ⟨st, h0, h1⟩ := h
  rw [hnew, Except.ok.injEq] at h0
  choose r s a b c using h1
  choose r0 d e using fun k => (textNext_iff hnext heof).mp (a k)
  refine ⟨fun k => ((r0 k).tok, s k), ⟨st, h0.symm, fun k => ⟨r0 k, s k, d k, by rw [← hslice]; exact b k, rfl⟩⟩, r0, fun k => ⟨rfl, ?_⟩⟩
  rw [c k, e k]

include hnext heof hnew hslice in
theorem textFed_of {α : Type} (f : RustLexResult → List Char → α) {src : List Char} {input : Nat → Tok × List Char} (h : FedBy t (skipped variants skip) (Lexer.new src) input) :
    ∃ inp : Nat → α, TextFed f lexer skip src inp := by
  obtain ⟨st, h0, h1⟩ := h
  choose r s a b c using h1
  exact ⟨fun k => f (variantOf variants (r k)) (s k), st, by rw [hnew, h0], fun k => ⟨_, s k, (textNext_iff hnext heof).mpr ⟨r k, a k, rfl⟩, by rw [hslice]; exact b k, rfl⟩⟩

theorem NextKept.det {skip : Nat → Bool} {l l1 l2 : Lexer} {r1 r2 : LexResult} (h1 : NextKept t skip l r1 l1) (h2 : NextKept t skip l r2 l2) : r1 = r2 ∧ l1 = l2 := by
  induction h1 with
  | keep a b =>
    cases h2 with
    | keep c d => rw [a] at c; cases c; exact ⟨rfl, rfl⟩
    | skip c d e => rw [a] at c; cases c; rw [b _ rfl] at d; cases d
  | skip a b _ ih =>
    cases h2 with
    | keep c d => rw [a] at c; cases c; rw [d _ rfl] at b; cases b
    | skip c d e => rw [a] at c; cases c; exact ih e

include hnext heof in
theorem textFed_unique {α : Type} {f : RustLexResult → List Char → α} {src : List Char} {inp inp' : Nat → α} (h : TextFed f lexer skip src inp) (h' : TextFed f lexer skip src inp') : inp = inp' := by
  obtain ⟨st, a0, a1⟩ := h
  obtain ⟨st', b0, b1⟩ := h'
  have key : ∀ k, st k = st' k := by
    intro k
    induction k with
    | zero => rw [a0] at b0; exact Except.ok.inj b0
    | succ k ih =>
      obtain ⟨r, s, c, _⟩ := a1 k
      obtain ⟨r', s', d, _⟩ := b1 k
      obtain ⟨x, hx, _⟩ := (textNext_iff hnext heof).mp c
      obtain ⟨y, hy, _⟩ := (textNext_iff hnext heof).mp d
      rw [← ih] at hy
      exact (hx.det hy).2
  funext k
  obtain ⟨r, s, c, c1, c2⟩ := a1 k
  obtain ⟨r', s', d, d1, d2⟩ := b1 k
  obtain ⟨x, hx, rfl⟩ := (textNext_iff hnext heof).mp c
  obtain ⟨y, hy, rfl⟩ := (textNext_iff hnext heof).mp d
  rw [← key, ← key] at hy
  rw [← key, c1] at d1
  cases d1
  rw [c2, d2, (hx.det hy).1]

end

/-! ## Streams with an error -/

/-- if the tokens are no stream up to an end, there is a first call that gives an error -/
theorem fed_first_error {rules : List TokenRule} {t : LexerTables} {lexFuel : Nat} (hlex : generateLexer lexFuel rules = .ok (.ok t)) (hε : ∀ r ∈ rules, ¬ r.Matches []) {skip : Nat → Bool} {l : Lexer}
    {input : Nat → Tok × List Char} (hf : FedBy t skip l input) : (∃ w, StreamIs input w) ∨ ∃ k w, Consumes input k w ∧ (input k).1 = .err := by
  classical
  have he := fedBy_ends hlex hε hf
  have hn := Nat.find_spec he
  have hlt : ∀ i < Nat.find he, ∃ a, (input i).1 = .tok a := by
    intro i hi
    have := Nat.find_min he hi
    push Not at this
    exact this
  generalize Nat.find he = n at hn hlt
  choose! f hfi using hlt
  have hc : Consumes input n ((List.range n).map fun i => (f i, (input i).2)) := by
    refine ⟨by simp, fun i p hp => ?_⟩
    rw [List.getElem?_map] at hp
    by_cases hi : i < n
    · rw [List.getElem?_range hi, Option.map_some, Option.some.injEq] at hp
      subst hp
      exact Prod.ext (hfi i hi) rfl
    · rw [List.getElem?_eq_none (by simpa using hi)] at hp
      cases hp
  cases h : (input n).1 with
  | tok a => exact absurd h (hn a)
  | err => exact .inr ⟨n, _, hc, h⟩
  | eof => exact .inl ⟨_, hc.2, by rw [hc.1]; exact h⟩

theorem atEnd_next {rules : List TokenRule} {t : LexerTables} {lexFuel : Nat} (hlex : generateLexer lexFuel rules = .ok (.ok t)) {a b : Lexer} {r : LexResult} (hab : a.next t = .ok (r, b))
    (he : AtEnd a.rest) : r = .eof ∧ AtEnd b.rest := by
  obtain ⟨m, rest', q, res, g1, g2, g3, g4, g5, g6, g7⟩ := next_spec (generateLexer_ok hlex) a
  have := atEnd_no_prefix he g1 g2
  subst this
  cases g3
  rw [List.nil_append] at g1
  rw [g1] at he
  unfold StopResult at g6
  rw [if_pos ⟨rfl, he⟩] at g6
  rw [hab] at g7
  cases g7
  exact ⟨g6, he⟩

/-- after the end only the end comes -/
theorem fed_eof_stays {rules : List TokenRule} {t : LexerTables} {lexFuel : Nat} (hlex : generateLexer lexFuel rules = .ok (.ok t)) {skip : Nat → Bool} {l : Lexer} {input : Nat → Tok × List Char}
    (hf : FedBy t skip l input) {N : Nat} (hN : (input N).1 = .eof) : ∀ n, N ≤ n → (input n).1 = .eof := by
  obtain ⟨st, _, h1⟩ := hf
  have first : AtEnd (st (N + 1)).rest := by
    obtain ⟨r, s, a, _, b⟩ := h1 N
    rw [b] at hN
    have hr : r = .eof := by cases r <;> simp [LexResult.tok] at hN ⊢
    subst hr
    clear b hN
    generalize st N = u at a
    generalize st (N + 1) = v at a
    generalize hx : LexResult.eof = x at a
    induction a with
    | keep hn _ =>
      subst hx
      exact (atEnd_next hlex hn ((C12_eof_iff hlex _).mp ⟨_, hn⟩)).2
    | skip _ _ _ ih => exact ih hx
  have step : ∀ n, AtEnd (st n).rest → (input n).1 = .eof ∧ AtEnd (st (n + 1)).rest := by
    intro n he
    obtain ⟨r, s, a, _, b⟩ := h1 n
    rw [b]
    cases a with
    | keep hn _ =>
      obtain ⟨rfl, h⟩ := atEnd_next hlex hn he
      exact ⟨rfl, h⟩
    | skip hn _ _ =>
      obtain ⟨h, _⟩ := atEnd_next hlex hn he
      cases h
  have all : ∀ k, AtEnd (st (N + 1 + k)).rest := by
    intro k
    induction k with
    | zero => exact first
    | succ k ih => exact (step _ ih).2
  intro n hn
  rcases Nat.eq_or_lt_of_le hn with rfl | hn
  · exact hN
  · obtain ⟨k, rfl⟩ := Nat.exists_eq_add_of_le hn
    exact (step _ (all k)).1

section
variable {T : Type} {g : Grammar} {kind : LRKind} {gr : LRGraph} {m : GlrMachine}

/-- with an error among the tokens a GLR parser returns no `Ok` and does not panic -/
theorem glr_error_stream (hv : LoopInv g kind gr []) (hm : GFollows g gr m) (ha : AcceptEof T g gr) {input : Nat → Tok × T} {k : Nat} {w : List (Nat × T)} (hc : Consumes input k w)
    (he : (input k).1 = .err) (fuel : Nat) (events : List (LREvent T)) (pos : Nat) : glrParse m input fuel ≠ .ok events pos ∧ glrParse m input fuel ≠ .panic events pos := by
  have no : ∀ n e, ¬ GAcc m input n e := by
    intro n e hacc
    obtain ⟨t, _, h2, _⟩ := acc_tree hv hm hacc
    have h3 := acc_eof hv hm ha hacc
    rcases Nat.lt_trichotomy n k with h | h | h
    · have := hc.2 n _ (List.getElem?_eq_getElem (by rw [hc.1]; exact h))
      rw [this] at h3; cases h3
    · rw [h, he] at h3; cases h3
    · have := h2.2 k _ (List.getElem?_eq_getElem (by rw [h2.1]; exact h))
      rw [this] at he; cases he
  have hs := glrParse_spec hv hm input fuel
  constructor
  · intro h
    rw [h] at hs
    obtain ⟨n, _, h1, _⟩ := hs
    exact no _ _ h1
  · intro h
    rw [h] at hs
    rcases hs with ⟨e, _, _, h2, _⟩ | ⟨n, e, _, h1, _⟩
    · exact no _ _ h2
    · exact no _ _ h1

end

end Verif
