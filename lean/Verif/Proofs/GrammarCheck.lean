import Verif.Spec.GlrTrace
import Verif.Spec.Grammar

/-! # Boolean checks for conditions on grammars -/

set_option autoImplicit false

namespace Verif

/-- the symbol is an explicit epsilon or one of the given non-terminals -/
def emptyAmong (N : List Nat) : Sym → Bool
  | .eps => true
  | .nt A => N.contains A
  | _ => false

/-- every non-terminal that has a rule with only such symbols is among the given ones -/
def emptyClosed (g : Grammar) (N : List Nat) : Bool := g.rules.all fun r => !(r.rhs.all (emptyAmong N)) || N.contains r.lhs

/-- the given numbers become smaller where a non-terminal derives another one alone, do not become larger at the left end, and become smaller at the left end behind symbols that can
become empty -/
def ranksOk (g : Grammar) (N : List Nat) (f : Nat → Nat) (r : Rule) : List Sym → List Sym → Bool
  | _, [] => true
  | before, .nt B :: rest =>
    (if before.all (emptyAmong N) then
      (if rest.all (emptyAmong N) ∨ strip before ≠ [] then decide (f B < f r.lhs) else decide (f B ≤ f r.lhs)) else true) && ranksOk g N f r (before ++ [.nt B]) rest
  | before, X :: rest => ranksOk g N f r (before ++ [X]) rest

def wellRanked (g : Grammar) (N : List Nat) (f : Nat → Nat) : Bool := emptyClosed g N && g.rules.all fun r => ranksOk g N f r [] r.rhs

theorem emptyAmong_of {g : Grammar} {N : List Nat} (hN : emptyClosed g N = true) {α : List Sym} {w : List Nat} (h : Derives g.rules α w) : w = [] → α.all (emptyAmong N) = true := by
  induction h with
  | nil => intro _; rfl
  | term _ _ => intro h; cases h
  | eps _ ih => intro h; simp only [List.all_cons, emptyAmong, Bool.true_and]; exact ih h
  | nonterm hr _ _ ih1 ih2 =>
    intro h
    rw [List.append_eq_nil_iff] at h
    simp only [List.all_cons, Bool.and_eq_true]
    refine ⟨?_, ih2 h.2⟩
    simp only [emptyClosed, List.all_eq_true] at hN
    have := hN _ hr
    rw [Bool.or_eq_true] at this
    rcases this with h1 | h1
    · rw [ih1 h.1] at h1; cases h1
    · simpa [emptyAmong] using h1

theorem ranksOk_spec {g : Grammar} {N : List Nat} {f : Nat → Nat} {r : Rule} : ∀ (rest before : List Sym), ranksOk g N f r before rest = true →
    ∀ α B β, rest = α ++ .nt B :: β → (before ++ α).all (emptyAmong N) = true →
      (β.all (emptyAmong N) = true ∨ strip (before ++ α) ≠ [] → f B < f r.lhs) ∧ f B ≤ f r.lhs := by
  intro rest
  induction rest with
  | nil => intro before _ α B β h; simp at h
  | cons X rest ih =>
    intro before hk α B β h hα
    cases α with
    | nil =>
      simp only [List.nil_append, List.cons.injEq] at h
      obtain ⟨rfl, rfl⟩ := h
      simp only [List.append_nil] at hα ⊢
      simp only [ranksOk, hα, if_true, Bool.and_eq_true] at hk
      have hk := hk.1
      split at hk
      · have := of_decide_eq_true hk
        exact ⟨fun _ => this, Nat.le_of_lt this⟩
      · rename_i hn
        exact ⟨fun h => absurd h hn, of_decide_eq_true hk⟩
    | cons Y α =>
      simp only [List.cons_append, List.cons.injEq] at h
      obtain ⟨rfl, rfl⟩ := h
      have hk' : ranksOk g N f r (before ++ [X]) (α ++ .nt B :: β) = true := by
        cases X with
        | nt A => simp only [ranksOk, Bool.and_eq_true] at hk; exact hk.2
        | t a => exact hk
        | eps => exact hk
        | eof => exact hk
      have := ih (before ++ [X]) hk' α B β rfl (by simpa using hα)
      simpa using this

theorem wellRanked_spec {g : Grammar} {N : List Nat} {f : Nat → Nat} (h : wellRanked g N f = true) : NoCycle g ∧ NoHiddenLeftRecursion g := by
  simp only [wellRanked, Bool.and_eq_true, List.all_eq_true (p := fun r => ranksOk g N f r [] r.rhs)] at h
  obtain ⟨hN, hr⟩ := h
  constructor
  · have one : ∀ A B, SelfStep g A B → f B < f A := by
      rintro A B ⟨r, h1, α, β, rfl, e, ha, hb⟩
      exact (ranksOk_spec r.rhs [] (hr r h1) α B β e (by simpa using emptyAmong_of hN ha rfl)).1 (.inl (emptyAmong_of hN hb rfl))
    have many : ∀ A B, Relation.TransGen (SelfStep g) A B → f B < f A := by
      intro A B h
      induction h with
      | single h => exact one _ _ h
      | tail _ h ih => exact Nat.lt_trans (one _ _ h) ih
    exact fun A h => Nat.lt_irrefl _ (many A A h)
  · rintro A B ⟨r, h1, α, β, rfl, e, ha, hs⟩ hcon
    have hlt := (ranksOk_spec r.rhs [] (hr r h1) α B β e (by simpa using emptyAmong_of hN ha rfl)).1 (.inr (by simpa using hs))
    have many : ∀ C, Relation.ReflTransGen (LeftStep g) B C → f C ≤ f B := by
      intro C h
      induction h with
      | refl => exact Nat.le_refl _
      | tail _ h ih =>
        obtain ⟨r', h1', α', β', rfl, e', ha'⟩ := h
        exact Nat.le_trans (ranksOk_spec r'.rhs [] (hr r' h1') α' _ β' e' (by simpa using emptyAmong_of hN ha' rfl)).2 ih
    have := many _ hcon
    omega

end Verif
