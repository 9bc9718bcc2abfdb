import Verif.Proofs.Pipeline

/-! # Lemmas: which part of a text the tokens consumed come from -/

set_option autoImplicit false

namespace Verif

variable {rules : List TokenRule} {t : LexerTables} {fuel : Nat} {skip : Nat → Bool}

theorem FirstTokens.trans {text mid tail : List Char} {ts us : List (Nat × List Char)} (h1 : FirstTokens rules text ts mid) (h2 : FirstTokens rules mid us tail) :
    FirstTokens rules text (ts ++ us) tail := by
  induction h1 with
  | none => exact h2
  | token a b c d _ ih => exact .token a b c d (ih h2)

/-- tokens up to the end -/
theorem FirstTokens.all {text rest : List Char} {ts us : List (Nat × List Char)} (h : FirstTokens rules text ts rest) (h2 : TextTokens rules rest us) :
    TextTokens rules text (ts ++ us) := by
  induction h with
  | none => exact h2
  | token a b c d _ ih => exact .token a b c d (ih h2)

theorem FirstTokens.one (h : generateLexer fuel rules = .ok (.ok t)) (hne : ∀ r ∈ rules, r.NoEmptySeq) {src : List Char} {l l' : Lexer} {j : Nat} (hi : l.Inv src)
    (hn : l.next t = .ok (.token j, l')) : ∃ m, FirstTokens rules l.rest [(j, m)] l'.rest ∧ l'.slice = .ok m ∧ l'.Inv src := by
  obtain ⟨m, c1, c2, c3, c4, c5, c6, c7⟩ := next_token_spec h hne hi hn
  rw [c1] at c5 c6
  exact ⟨m, by rw [c1]; exact .token c6 c3 c4 c5 .none, c2, c7⟩

theorem fed_next (h : generateLexer fuel rules = .ok (.ok t)) (hne : ∀ r ∈ rules, r.NoEmptySeq ∧ r.Useful) {src : List Char} {l l' : Lexer} {r : LexResult} {s : List Char}
    (hk : NextKept t skip l r l') (hi : l.Inv src) (hs : l'.slice = .ok s) :
    ∃ ts rest, FirstTokens rules l.rest ts rest ∧ kept skip ts = [] ∧ GetsNext rules skip rest (r.tok, s) ∧ (∀ j, r = .token j → FirstTokens rules rest [(j, s)] l'.rest) := by
  induction hk with
  | @keep l l' r hn hkeep =>
    refine ⟨[], l.rest, .none, rfl, ?_, ?_⟩
    · cases r with
      | token j =>
        obtain ⟨m, h1, h2, _⟩ := FirstTokens.one h (fun r hr => (hne r hr).1) hi hn
        rw [hs] at h2
        cases h2
        exact .token h1 (hkeep j rfl)
      | eof => exact .eof ((C12_eof_iff h l).mp ⟨l', hn⟩)
      | invalidChar c =>
        obtain ⟨res, l2, hn2, hinv⟩ := C10_next_total h l
        rw [hn] at hn2
        cases hn2
        exact absurd rfl (hinv c)
      | unexpectedAlphabet c =>
        have hend : ¬ AtEnd l.rest := by
          intro he
          obtain ⟨l2, h2⟩ := (C12_eof_iff h l).mpr he
          rw [hn] at h2; cases h2
        refine .error hend fun j m tail hft => ?_
        generalize hr : l.rest = text at hft
        cases hft with
        | token a b c d e =>
          cases e
          obtain ⟨l2, h2, _⟩ := next_token_of h hne hi hr (hr ▸ a) b c (hr ▸ d)
          rw [hn] at h2; cases h2
    · rintro j rfl
      obtain ⟨m, h1, h2, _⟩ := FirstTokens.one h (fun r hr => (hne r hr).1) hi hn
      rw [hs] at h2
      cases h2
      exact h1
  | skip hn hsk _ ih =>
    obtain ⟨m, h1, h2, h3⟩ := FirstTokens.one h (fun r hr => (hne r hr).1) hi hn
    obtain ⟨ts, rest, i1, i2, i3, i4⟩ := ih h3 hs
    exact ⟨_, rest, h1.trans i1, by simpa [kept, hsk] using i2, i3, i4⟩

/-- the first `n` inputs -/
theorem fed_first (h : generateLexer fuel rules = .ok (.ok t)) (hne : ∀ r ∈ rules, r.NoEmptySeq ∧ r.Useful) {src : List Char} {l : Lexer} {input : Nat → Tok × List Char}
    (hi : l.Inv src) (hf : FedBy t skip l input) (n : Nat) (ht : ∀ i < n, ∃ a, (input i).1 = .tok a) :
    ∃ ts rest, FirstTokens rules l.rest ts rest ∧ Consumes input n (kept skip ts) ∧ GetsNext rules skip rest (input n) := by
  obtain ⟨st, h0, h1⟩ := hf
  have key : ∀ n, (∀ i < n, ∃ a, (input i).1 = .tok a) → ∃ ts, FirstTokens rules l.rest ts (st n).rest ∧ Consumes input n (kept skip ts) ∧ (st n).Inv src := by
    intro n
    induction n with
    | zero => exact fun _ => ⟨[], by rw [h0]; exact .none, ⟨rfl, fun i p hp => by simp [kept] at hp⟩, by rw [h0]; exact hi⟩
    | succ n ih =>
      intro ht
      obtain ⟨ts, i1, i2, i3⟩ := ih fun i hi => ht i (by omega)
      obtain ⟨r, s, a1, a2, a3⟩ := h1 n
      obtain ⟨us, rest, f1, f2, f3, f4⟩ := fed_next h hne a1 i3 a2
      obtain ⟨a, ha⟩ := ht n (by omega)
      have hr : r = .token a := by
        rw [a3] at ha
        cases r <;> simp_all [LexResult.tok]
      subst hr
      have hsk : skip a = false := by
        generalize hx : (LexResult.tok (.token a), s) = x at f3
        cases f3 with
        | token _ hsk => cases hx; exact hsk
        | eof => cases hx
        | error => cases hx
      have hkept : kept skip (ts ++ us ++ [(a, s)]) = kept skip ts ++ [(a, s)] := by
        simp only [kept, List.filter_append] at f2 ⊢
        rw [f2]
        simp [hsk]
      refine ⟨ts ++ us ++ [(a, s)], (i1.trans f1).trans (f4 a rfl), ?_, (a1.inv h i3).1⟩
      rw [hkept]
      refine ⟨by simp [i2.1], fun i p hp => ?_⟩
      by_cases hin : i < n
      · rw [List.getElem?_append_left (by rw [i2.1]; exact hin)] at hp
        exact i2.2 i p hp
      · rw [List.getElem?_append_right (by rw [i2.1]; omega), i2.1] at hp
        have : i = n := by
          by_contra hc
          rw [List.getElem?_eq_none (by simp; omega)] at hp
          cases hp
        subst this
        simp at hp
        subst hp
        exact a3
  obtain ⟨ts, i1, i2, i3⟩ := key n ht
  obtain ⟨r, s, a1, a2, a3⟩ := h1 n
  obtain ⟨us, rest, f1, f2, f3, _⟩ := fed_next h hne a1 i3 a2
  refine ⟨ts ++ us, rest, i1.trans f1, ?_, by rw [a3]; exact f3⟩
  have : kept skip (ts ++ us) = kept skip ts := by
    simp only [kept, List.filter_append] at f2 ⊢
    rw [f2, List.append_nil]
  rw [this]
  exact i2

theorem Consumes.toks {T : Type} {input : Nat → Tok × T} {n : Nat} {w : List (Nat × T)} (h : Consumes input n w) : ∀ i < n, ∃ a, (input i).1 = .tok a := by
  intro i hi
  exact ⟨_, by rw [h.2 i _ (List.getElem?_eq_getElem (by rw [h.1]; exact hi))]⟩

theorem Consumes.unique {T : Type} {input : Nat → Tok × T} {n : Nat} {w w' : List (Nat × T)} (h : Consumes input n w) (h' : Consumes input n w') : w = w' := by
  refine List.ext_getElem? fun i => ?_
  by_cases hi : i < n
  · have a1 := h.2 i _ (List.getElem?_eq_getElem (by rw [h.1]; exact hi))
    have a2 := h'.2 i _ (List.getElem?_eq_getElem (by rw [h'.1]; exact hi))
    rw [a1] at a2
    rw [List.getElem?_eq_getElem (by rw [h.1]; exact hi), List.getElem?_eq_getElem (by rw [h'.1]; exact hi)]
    simp at a2
    exact congrArg some (Prod.ext a2.1 a2.2)
  · rw [List.getElem?_eq_none (by rw [h.1]; omega), List.getElem?_eq_none (by rw [h'.1]; omega)]

end Verif
