import Verif.Model.Lapex
import Verif.Proofs.LRCert
import Verif.Props.LR

/-! # The grammar of lapex files has no LR(1) conflicts -/

set_option autoImplicit false

namespace Verif

theorem lapexGrammar_built : Grammar.fromRuleSet lapexRules = .ok lapexGrammar := GRes.of_same (by decide +kernel)

/-- terminals the non-terminals can start with, and which can be empty -/
def lapexFirst : FirstCert := [(14, false), (0, false), (14, false), (0, false), (0, false), (4, false), (8, false), (2, false), (256, false), (256, false), (393216, false), (0, false), (69696, false), (0, false), (65600, false), (0, false), (65600, false), (0, false), (65600, false), (0, false), (0, false), (0, false), (65600, false), (65600, false), (65600, false), (65600, false), (256, true), (256, true)]

/-- the states of an automaton (those of LALR generation) -/
def lapexCert : List CState := [
  ⟨[(none, 0, 1), (some 0, 0, 1), (some 1, 0, 1), (some 2, 0, 15), (some 3, 0, 15), (some 4, 0, 15), (some 5, 0, 15), (some 8, 0, 15), (some 11, 0, 15)], [(.nt 2, 1), (.nt 5, 2), (.nt 6, 3), (.nt 7, 4), (.t 0, 5), (.t 1, 6), (.t 2, 7)]⟩,
  ⟨[(some 0, 0, 1), (some 0, 1, 1), (some 1, 0, 1), (some 1, 1, 1), (some 2, 0, 15), (some 3, 0, 15), (some 4, 0, 15), (some 5, 0, 15), (some 8, 0, 15), (some 11, 0, 15)], [(.nt 0, 48), (.nt 2, 1), (.nt 5, 2), (.nt 6, 3), (.nt 7, 4), (.t 0, 5), (.t 1, 6), (.t 2, 7)]⟩,
  ⟨[(some 2, 1, 15)], []⟩,
  ⟨[(some 3, 1, 15)], []⟩,
  ⟨[(some 4, 1, 15)], []⟩,
  ⟨[(some 11, 1, 15)], [(.t 15, 37)]⟩,
  ⟨[(some 5, 1, 15)], [(.t 15, 35)]⟩,
  ⟨[(some 8, 1, 15)], [(.t 15, 8)]⟩,
  ⟨[(some 6, 0, 16), (some 7, 1, 16), (some 8, 2, 15), (some 13, 0, 16)], [(.nt 9, 9), (.nt 26, 10), (.t 7, 11)]⟩,
  ⟨[(some 6, 1, 16)], []⟩,
  ⟨[(some 8, 3, 15)], [(.t 3, 14)]⟩,
  ⟨[(some 13, 1, 16)], [(.t 15, 12)]⟩,
  ⟨[(some 13, 2, 16)], [(.t 8, 13)]⟩,
  ⟨[(some 13, 3, 16)], []⟩,
  ⟨[(some 8, 4, 15), (some 16, 0, 32), (some 17, 0, 32), (some 18, 0, 32), (some 19, 0, 32), (some 20, 0, 32800), (some 21, 0, 32800), (some 22, 0, 98400), (some 23, 0, 98400), (some 24, 0, 98400), (some 25, 0, 98400), (some 26, 0, 98400), (some 27, 0, 98400), (some 28, 0, 98400), (some 29, 0, 125024), (some 30, 0, 125024)], [(.nt 12, 15), (.nt 14, 16), (.nt 16, 17), (.nt 18, 18), (.nt 22, 19), (.nt 23, 20), (.nt 24, 21), (.nt 25, 22), (.t 5, 23), (.t 11, 24), (.t 15, 25)]⟩,
  ⟨[(some 8, 5, 15)], [(.t 4, 34)]⟩,
  ⟨[(some 16, 1, 160)], []⟩,
  ⟨[(some 18, 1, 160), (some 19, 1, 160)], [(.t 14, 32)]⟩,
  ⟨[(some 20, 0, 32928), (some 20, 1, 32928), (some 21, 0, 32928), (some 21, 1, 32928), (some 22, 0, 98528), (some 23, 0, 98528), (some 24, 0, 98528), (some 25, 0, 98528), (some 26, 0, 98528), (some 27, 0, 98528), (some 28, 0, 98528), (some 29, 0, 125152), (some 30, 0, 125152)], [(.nt 16, 31), (.nt 18, 18), (.nt 22, 19), (.nt 23, 20), (.nt 24, 21), (.nt 25, 22), (.t 5, 23), (.t 15, 25)]⟩,
  ⟨[(some 22, 1, 98528)], []⟩,
  ⟨[(some 24, 1, 98528)], []⟩,
  ⟨[(some 23, 1, 98528)], []⟩,
  ⟨[(some 25, 1, 98528), (some 26, 1, 98528), (some 27, 1, 98528), (some 28, 1, 98528)], [(.t 10, 28), (.t 12, 29), (.t 13, 30)]⟩,
  ⟨[(some 16, 0, 128), (some 17, 0, 128), (some 18, 0, 128), (some 19, 0, 128), (some 20, 0, 32896), (some 21, 0, 32896), (some 22, 0, 98496), (some 23, 0, 98496), (some 24, 0, 98496), (some 25, 0, 98496), (some 26, 0, 98496), (some 27, 0, 98496), (some 28, 0, 98496), (some 29, 0, 125120), (some 30, 0, 125120), (some 30, 1, 125152)], [(.nt 12, 26), (.nt 14, 16), (.nt 16, 17), (.nt 18, 18), (.nt 22, 19), (.nt 23, 20), (.nt 24, 21), (.nt 25, 22), (.t 5, 23), (.t 11, 24), (.t 15, 25)]⟩,
  ⟨[(some 17, 1, 160)], []⟩,
  ⟨[(some 29, 1, 125152)], []⟩,
  ⟨[(some 30, 2, 125152)], [(.t 6, 27)]⟩,
  ⟨[(some 30, 3, 125152)], []⟩,
  ⟨[(some 26, 2, 98528)], []⟩,
  ⟨[(some 27, 2, 98528)], []⟩,
  ⟨[(some 28, 2, 98528)], []⟩,
  ⟨[(some 20, 2, 32928)], []⟩,
  ⟨[(some 18, 0, 160), (some 18, 2, 160), (some 19, 0, 160), (some 20, 0, 32928), (some 21, 0, 32928), (some 22, 0, 98528), (some 23, 0, 98528), (some 24, 0, 98528), (some 25, 0, 98528), (some 26, 0, 98528), (some 27, 0, 98528), (some 28, 0, 98528), (some 29, 0, 125152), (some 30, 0, 125152)], [(.nt 14, 33), (.nt 16, 17), (.nt 18, 18), (.nt 22, 19), (.nt 23, 20), (.nt 24, 21), (.nt 25, 22), (.t 5, 23), (.t 15, 25)]⟩,
  ⟨[(some 18, 3, 160)], []⟩,
  ⟨[(some 8, 6, 15)], []⟩,
  ⟨[(some 5, 2, 15)], [(.t 4, 36)]⟩,
  ⟨[(some 5, 3, 15)], []⟩,
  ⟨[(some 9, 0, 16), (some 10, 1, 16), (some 11, 2, 15), (some 12, 0, 16)], [(.nt 8, 38), (.nt 27, 39), (.t 7, 40)]⟩,
  ⟨[(some 9, 1, 16)], []⟩,
  ⟨[(some 11, 3, 15)], [(.t 3, 43)]⟩,
  ⟨[(some 12, 1, 16)], [(.t 9, 41)]⟩,
  ⟨[(some 12, 2, 16)], [(.t 8, 42)]⟩,
  ⟨[(some 12, 3, 16)], []⟩,
  ⟨[(some 11, 4, 15), (some 14, 0, 32), (some 15, 0, 32)], [(.nt 10, 44), (.t 16, 45), (.t 17, 46)]⟩,
  ⟨[(some 11, 5, 15)], [(.t 4, 47)]⟩,
  ⟨[(some 15, 1, 32)], []⟩,
  ⟨[(some 14, 1, 32)], []⟩,
  ⟨[(some 11, 6, 15)], []⟩,
  ⟨[(some 1, 2, 1)], []⟩]

theorem lapexCert_ok : checkCert lapexGrammar lapexFirst lapexCert = true := by decide +kernel

theorem lapexGrammar_wf : lapexGrammar.WF := C19_well_formed _ _ lapexGrammar_built

theorem lapexGrammar_noEmpty : NoEmptyRhs lapexGrammar := by
  intro r hr
  have : ∀ r ∈ lapexGrammar.rules, r.rhs ≠ [] := by decide
  exact this r hr

theorem lapexGrammar_short : ShortRhs lapexGrammar := by
  have : ∀ r ∈ lapexGrammar.rules, r.rhs.length ≤ 255 := by decide
  exact this

theorem lapexGrammar_eps : EpsLeading lapexGrammar := by
  have : ∀ r ∈ lapexGrammar.rules, Sym.eps ∉ r.rhs.drop (leadingEps r.rhs) := by decide
  exact this

theorem lapexGrammar_entry : EntryNotLeftRecursive lapexGrammar := by
  intro A hA h
  have h0 : A = 0 := by
    have : lapexGrammar.entry = .nt 0 := rfl
    rw [this] at hA
    cases hA
    rfl
  subst h0
  have hno : ∀ r ∈ lapexGrammar.rules, r.rhs[leadingEps r.rhs]? ≠ some (.nt 0) := by decide
  cases h with
  | one h => obtain ⟨r, hr, -, h⟩ := h; exact hno r hr h
  | more _ h => obtain ⟨r, hr, -, h⟩ := h; exact hno r hr h

/-- generation of the parser in build.rs succeeds -/
theorem lapexTable : ∃ bound tb, ∀ fuel, bound ≤ fuel → generateTable lapexGrammar false .lr1 fuel = .ok (.noConflicts tb) :=
  generate_of_cert lapexGrammar_wf lapexGrammar_noEmpty lapexGrammar_short lapexGrammar_eps lapexCert_ok false

end Verif
