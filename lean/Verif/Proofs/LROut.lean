import Verif.Proofs.Closure

/-! # Reasoning about results that may panic or run out of fuel -/

set_option autoImplicit false

namespace Verif

/-- `Out F S P x`: a value of `x` satisfies `P`; `x` panics only if `S` is false; `x` runs out of fuel only if `F` is false -/
def Out (F S : Prop) {α : Type} (P : α → Prop) : Res α → Prop
  | .ok a => P a
  | .error .panic => ¬ S
  | .error .fuel => ¬ F

variable {F S : Prop} {α β : Type}

theorem Out.ok {P : α → Prop} {x : Res α} {a : α} (h : Out F S P x) (hx : x = .ok a) : P a := by subst hx; exact h

theorem Out.imp {P Q : α → Prop} {x : Res α} (h : Out F S P x) (hi : ∀ a, P a → Q a) : Out F S Q x := by
  match x with
  | .ok a => exact hi a h
  | .error .panic => exact h
  | .error .fuel => exact h

theorem Out.weaken {F' S' : Prop} {P : α → Prop} {x : Res α} (h : Out F' S' P x) (hF : F → F') (hS : S → S') : Out F S P x := by
  match x with
  | .ok a => exact h
  | .error .panic => exact fun s => h (hS s)
  | .error .fuel => exact fun s => h (hF s)

theorem Out.bind {P : α → Prop} {Q : β → Prop} {x : Res α} {f : α → Res β} (h : Out F S P x) (hf : ∀ a, P a → Out F S Q (f a)) :
    Out F S Q (x >>= f) := by
  match x with
  | .ok a => exact hf a h
  | .error .panic => exact h
  | .error .fuel => exact h

/-- an invariant over a `foldlM`, relative to the processed prefix -/
theorem Out.foldlM {f : β → α → Res β} {l : List α} {b : β} (I : List α → β → Prop) (h0 : I [] b)
    (hstep : ∀ pre x post b1, l = pre ++ x :: post → I pre b1 → Out F S (I (pre ++ [x])) (f b1 x)) : Out F S (I l) (l.foldlM f b) := by
  have gen : ∀ (suf pre : List α) (b1 : β), l = pre ++ suf → I pre b1 → Out F S (I l) (suf.foldlM f b1) := by
    intro suf
    induction suf with
    | nil => intro pre b1 hl hI; simp at hl; subst hl; exact hI
    | cons x suf ih =>
      intro pre b1 hl hI
      rw [List.foldlM_cons]
      exact (hstep pre x suf b1 hl hI).bind (fun b2 hb2 => ih (pre ++ [x]) b2 (by simp [hl]) hb2)
  exact gen l [] b rfl h0

theorem Out.total {P : α → Prop} {x : Res α} (h : Out F S P x) (hF : F) (hS : S) : ∃ a, x = .ok a ∧ P a := by
  match x with
  | .ok a => exact ⟨a, rfl, h⟩
  | .error .panic => exact (h hS).elim
  | .error .fuel => exact (h hF).elim

end Verif
