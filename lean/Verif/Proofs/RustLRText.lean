import Verif.Proofs.RustLexText
import Verif.Spec.RustLRText
import Verif.Model.RustLRText

/-! # The text of `parser.rs`: how it is read -/

set_option autoImplicit false

namespace Verif

/-! ## Streams printed one after another -/

theorem rf_flatten_append (f g : RForest) : (f.append g).flatten = f.flatten ++ g.flatten := by
  induction f with
  | nil => rfl
  | group d i f _ ih => simp only [RForest.append, RForest.flatten, ih, List.cons_append, List.append_assoc]
  | _ _ _ ih => simp only [RForest.append, RForest.flatten, ih, List.cons_append]

/-- after a `;` or a `}` a word can follow at once -/
def WordFollows : RLex → Prop
  | .base => True
  | .sym _ => True
  | _ => False

theorem run_follow {st : RLex} {p : List RTok} (h : Pend st p) (hw : WordFollows st) {c : Char} (hc : isRWordChar c = true) {cs : List Char} {ts : List RTok} {st' : RLex}
    (h' : rLexRun .base (c :: cs) = some (ts, st')) : rLexRun st (c :: cs) = some (p ++ ts, st') := by
  have hs : isRSym c = false := by
    cases hs : isRSym c with
    | false => rfl
    | true => rw [(sym_not_word hs).1] at hc; cases hc
  rw [rLexRun] at h' ⊢
  rw [show rLexStep .base c = some ([], .word [c]) from wordChar_base hc] at h'
  cases st with
  | base => cases h; rw [show rLexStep .base c = some ([], .word [c]) from wordChar_base hc]; exact h'
  | sym s =>
    cases h
    rw [show rLexStep (.sym s) c = some ([.sym s], .word [c]) by simp [rLexStep, hs, rLexAfter, wordChar_base hc]]
    simp only at h' ⊢
    cases hr : rLexRun (.word [c]) cs with
    | none => rw [hr] at h'; cases h'
    | some r => rw [hr] at h'; cases h'; rfl
  | word _ => cases hw
  | life _ => cases hw
  | str _ => cases hw
  | strEsc _ => cases hw

theorem run_brace {a : List Char} {st0 st : RLex} {ts p : List RTok} (h : rLexRun st0 (a ++ ['}']) = some (ts, st)) (hp : Pend st p) : st = .base := by
  rw [rLexRun_append] at h
  cases ha : rLexRun st0 a with
  | none => rw [ha] at h; cases h
  | some r =>
    obtain ⟨ts1, st1⟩ := r
    rw [ha] at h
    simp only [Option.bind_some] at h
    have hb : rLexBase '}' = some ([.cls .brace], .base) := by decide
    have hw : isRWordChar '}' = false := by decide
    have hs : isRSym '}' = false := by decide
    rw [rLexRun] at h
    cases st1 with
    | base => rw [show rLexStep .base '}' = _ from hb] at h; cases h; rfl
    | word w => rw [show rLexStep (.word w) '}' = some ([.word w, .cls .brace], .base) by simp [rLexStep, hw, rLexAfter, hb]] at h; cases h; rfl
    | life w => rw [show rLexStep (.life w) '}' = some ([.life w, .cls .brace], .base) by simp [rLexStep, hw, rLexAfter, hb]] at h; cases h; rfl
    | sym w => rw [show rLexStep (.sym w) '}' = some ([.sym w, .cls .brace], .base) by simp [rLexStep, hs, rLexAfter, hb]] at h; cases h; rfl
    | str w => rw [show rLexStep (.str w) '}' = some ([], .str (w ++ ['}'])) by rfl] at h; cases h; cases hp
    | strEsc w => rw [show rLexStep (.strEsc w) '}' = some ([], .str (w ++ ['\\', '}'])) by rfl] at h; cases h; cases hp

/-- ends with a block -/
def lastBrace : RForest → Bool
  | .nil => false
  | .group .brace _ .nil => true
  | .group _ _ f => lastBrace f
  | .word _ f => lastBrace f
  | .life _ f => lastBrace f
  | .str _ f => lastBrace f
  | .sym _ f => lastBrace f

theorem lastBrace_nil {f : RForest} (h : lastBrace f = true) : f.isNil = false := by cases f <;> first | rfl | cases h

theorem print_lastBrace (f : RForest) (h : lastBrace f = true) : ∃ a, f.print = a ++ ['}'] := by
  induction f with
  | nil => cases h
  | word w f ih => obtain ⟨a, ha⟩ := ih h; exact ⟨w ++ ' ' :: a, by simp [RForest.print, lastBrace_nil (f := f) h, ha]⟩
  | life w f ih => obtain ⟨a, ha⟩ := ih h; exact ⟨'\'' :: w ++ ' ' :: a, by simp [RForest.print, lastBrace_nil (f := f) h, ha]⟩
  | str w f ih => obtain ⟨a, ha⟩ := ih h; exact ⟨'"' :: w ++ '"' :: ' ' :: a, by simp [RForest.print, lastBrace_nil (f := f) h, ha]⟩
  | sym w f ih => obtain ⟨a, ha⟩ := ih h; exact ⟨w ++ ' ' :: a, by simp [RForest.print, lastBrace_nil (f := f) h, ha]⟩
  | group d i f _ ih =>
    cases f with
    | nil =>
      cases d with
      | brace => exact ⟨'{' :: ' ' :: i.print ++ (if i.isNil then [] else [' ']), by simp [RForest.print, RForest.isNil]⟩
      | _ => cases h
    | _ =>
      have h' : lastBrace _ = true := (by cases d <;> exact h)
      obtain ⟨a, ha⟩ := ih h'
      cases d with
      | paren => exact ⟨'(' :: i.print ++ ')' :: ' ' :: a, by rw [RForest.print, ha]; simp [RForest.isNil]⟩
      | bracket => exact ⟨'[' :: i.print ++ ']' :: ' ' :: a, by rw [RForest.print, ha]; simp [RForest.isNil]⟩
      | brace => exact ⟨'{' :: ' ' :: i.print ++ (if i.isNil then [] else [' ']) ++ '}' :: ' ' :: a, by rw [RForest.print, ha]; simp [RForest.isNil]⟩

/-- three streams: the first ends in `;`, the second in a block, and the second and third begin with words -/
theorem rRead_three {f1 f2 f3 : RForest} (h1 : f1.Ok) (h2 : f2.Ok) (h3 : f3.Ok) (hw : ∀ ts st, rLexRun .base f1.print = some (ts, st) → WordFollows st)
    (hb : lastBrace f2 = true) {c2 c3 : Char} {r2 r3 : List Char} (e2 : f2.print = c2 :: r2) (e3 : f3.print = c3 :: r3) (w2 : isRWordChar c2 = true) (w3 : isRWordChar c3 = true) :
    rRead (f1.print ++ f2.print ++ f3.print) = some (f1.append (f2.append f3)) := by
  obtain ⟨ts1, st1, p1, l1, q1, s1⟩ := lex_print f1 h1
  obtain ⟨ts2, st2, p2, l2, q2, s2⟩ := lex_print f2 h2
  obtain ⟨ts3, st3, p3, l3, q3, s3⟩ := lex_print f3 h3
  obtain ⟨a, ha⟩ := print_lastBrace f2 hb
  have hst2 : st2 = .base := by rw [ha] at l2; exact run_brace l2 q2
  apply rRead_of_lex
  unfold rLex
  have r2' := run_follow q1 (hw _ _ l1) w2 (by rw [← e2]; exact l2)
  rw [← e2] at r2'
  have r3' := run_follow q2 (by rw [hst2]; trivial) w3 (by rw [← e3]; exact l3)
  rw [← e3] at r3'
  rw [run_append (run_append l1 r2') r3']
  simp only [pend_end q3, Option.map_some, rf_flatten_append, s1, s2, s3, List.append_assoc]

end Verif
