import Verif.Proofs.Hir

/-!
# C47: regular expressions keep their language

`Verif/Spec/Hir.lean` says what a regular expression matches (`Hir.Matches`), what its parts are (`Hir.Part`) and which are not supported (`Hir.Unsupported`); what a
pattern matches is in `Verif/Spec/Regex.lean`.
-/

set_option autoImplicit false

namespace Verif

/-- if the conversion succeeds, the pattern matches exactly the strings the regular expression matches -/
theorem C47_language {h : Hir} {p : Pattern} (e : makePattern h = .ok p) (w : List Char) : p.Matches w ↔ Hir.Matches h w := makePattern_matches h p e w

/-- the conversion succeeds exactly if no part is unsupported, and otherwise reports the error of an unsupported part -/
theorem C47_fails (h : Hir) :
    ((∃ p, makePattern h = .ok p) ↔ ∀ x e, Hir.Part x h → ¬ Hir.Unsupported x e) ∧
    ∀ e, makePattern h = .error e → ∃ x, Hir.Part x h ∧ Hir.Unsupported x e := by
  refine ⟨⟨?_, ?_⟩, fun e => makePattern_error h e⟩
  · rintro ⟨p, hp⟩ x e hx hu
    obtain ⟨q, hq⟩ := makePattern_part hx p hp
    rw [unsupported_error hu] at hq
    cases hq
  · intro hn
    cases hm : makePattern h with
    | ok p => exact ⟨p, rfl⟩
    | error e =>
      obtain ⟨x, h1, h2⟩ := makePattern_error h e hm
      exact absurd h2 (hn x e h1)

/-- patterns from regular expressions without empty literals and concatenations meet the condition of the lexer theorems; those for which the lexer generator panics are
those with a repetition whose maximum does not exceed its minimum -/
theorem C47_lexable {h : Hir} {p : Pattern} (e : makePattern h = .ok p) :
    (h.NoEmptyParts → p.NoEmptySeq) ∧
    (p.HasTightCount ↔ ∃ min m greedy sub, m ≤ min ∧ Hir.Part (.repetition min (some m) greedy sub) h) :=
  ⟨makePattern_noEmpty h p e, makePattern_tight h p e⟩

/-! ## the hypotheses hold in real cases -/

/-- `(0|[1-9][0-9]*)`, the regular expression of the token `DIGIT` of lapex -/
def digitHir : Hir := .capture (.alternation [.literal "0".toUTF8, .concat [.classUnicode [('1', '9')], .repetition 0 none true (.classUnicode [('0', '9')])]])

def digitPattern : Pattern := .alternative [.sequence [.char (.single '0')],
  .sequence [.charSet [.range '1' '9'] false, .repetition 0 none (.charSet [.range '0' '9'] false)]]

theorem digit_converted : makePattern digitHir = .ok digitPattern := by
  have : "0".toUTF8.utf8Decode? = some #['0'] := utf8Decode_some.mpr rfl
  simp only [digitHir, digitPattern, makePattern, makePatterns, this]
  rfl

example : Hir.Matches digitHir "120".toList ∧ ¬ Hir.Matches digitHir "01".toList := by
  have e1 : "120".toList = ['1'] ++ (['2'] ++ (['0'] ++ [])) := by decide +kernel
  have e2 : "01".toList = ['0', '1'] := by decide +kernel
  have e3 : ∀ w : List Char, w.utf8Encode = "0".toUTF8 → w = ['0'] := by
    intro w hw
    exact utf8Encode_inj (hw.trans (show "0".toUTF8 = ['0'].utf8Encode from rfl))
  constructor
  · rw [e1]
    refine .capture (.alternation (h := .concat [.classUnicode [('1', '9')], .repetition 0 none true (.classUnicode [('0', '9')])]) (by simp) (.concat (.cons ?_ ?_)))
    · exact .classUnicode (r := ('1', '9')) (by simp) (by decide) (by decide)
    · have : (['2'] ++ (['0'] ++ []) : List Char) = (['2'] ++ (['0'] ++ [])) ++ [] := rfl
      rw [this]
      refine .cons (.repetition (n := 2) (.succ ?_ (.succ ?_ .zero)) (by omega) (by simp)) .nil
      · exact .classUnicode (r := ('0', '9')) (by simp) (by decide) (by decide)
      · exact .classUnicode (r := ('0', '9')) (by simp) (by decide) (by decide)
  · rw [e2]
    rintro (_ | _ | _ | _ | h)
    cases h with
    | alternation hm hw =>
      rcases List.mem_cons.mp hm with rfl | hm
      · cases hw with
        | literal hw => exact absurd (e3 _ hw) (by decide)
      · rw [List.mem_singleton.mp hm] at hw
        generalize hg : ['0', '1'] = w at hw
        cases hw with
        | concat hc =>
          cases hc with
          | cons h1 h2 =>
            cases h1 with
            | classUnicode hr h1 h2 =>
              rw [List.mem_singleton.mp hr] at h1
              simp only [List.singleton_append, List.cons.injEq] at hg
              rw [← hg.1] at h1
              revert h1
              decide

example : makePattern (.concat [.classUnicode [('a', 'b')], .repetition 0 none false .look]) = .error .lazyRepetition := by
  simp [makePattern, makePatterns, bind, Except.bind]

end Verif
