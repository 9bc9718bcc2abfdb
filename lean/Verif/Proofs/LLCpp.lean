import Verif.Proofs.LLRun

/-! # The generated C++ dispatch compared with the table -/

set_option autoImplicit false

namespace Verif

variable {T : Type}

/-- the enum ordinals of the non-terminals are their symbol numbers -/
def NoGaps (g : Grammar) : Prop := ∀ A, Sym.nt A ∈ g.nonTerminals → ordinal g A = A

/-- all non-terminals on the stack are declared -/
def StackDeclared (g : Grammar) (s : List LLSym) : Prop := ∀ A, LLSym.nonTerminal A ∈ s → Sym.nt A ∈ g.nonTerminals

theorem llPush_congr {f h : Nat → Nat} {ss : List Sym} (he : ∀ A, Sym.nt A ∈ ss → f A = h A) : llPush f ss = llPush h ss := by
  induction ss with
  | nil => rfl
  | cons s ss ih =>
    have ih := ih (fun A hA => he A (List.mem_cons_of_mem _ hA))
    cases s with
    | eps => exact ih
    | eof => exact ih
    | t a => simp only [llPush, ih]
    | nt A => simp only [llPush, ih, he A List.mem_cons_self]

theorem mem_llPush {ss : List Sym} {A : Nat} (h : LLSym.nonTerminal A ∈ llPush id ss) : Sym.nt A ∈ ss := by
  induction ss with
  | nil => simp [llPush] at h
  | cons s ss ih =>
    cases s with
    | eps => exact List.mem_cons_of_mem _ (ih h)
    | eof => exact List.mem_cons_of_mem _ (ih h)
    | t a => simp [llPush] at h; exact List.mem_cons_of_mem _ (ih h)
    | nt B =>
      simp [llPush] at h
      rcases h with rfl | h
      · exact List.mem_cons_self
      · exact List.mem_cons_of_mem _ (ih h)

theorem cpp_disp {g : Grammar} (wf : g.WF) (hgap : NoGaps g) {table : LLTable} (h : TableFor g g.rules table) {A : Nat} (hA : Sym.nt A ∈ g.nonTerminals) (tk : Tok) :
    cppDispatch g table A tk = none ∨ cppDispatch g table A tk = tableDispatch table A tk := by
  simp only [cppDispatch, if_pos hA]
  cases tk with
  | eof => exact .inl rfl
  | err => exact .inl rfl
  | tok a =>
    simp only
    split
    · right
      simp only [tableDispatch, Tok.sym]
      cases hp : table.getProduction A (.t a) with
      | none => rfl
      | some p =>
        obtain ⟨r, h1, h2, h3, h4⟩ := (h.entries A (.t a) p trivial).mp hp
        simp only [Option.map_some, Option.some.injEq]
        refine llPush_congr (fun B hB => hgap B (wf.nt_declared r h1 B (h3 ▸ hB)))
    · exact .inl rfl

theorem cpp_run {g : Grammar} (wf : g.WF) (hgap : NoGaps g) {table : LLTable} (h : TableFor g g.rules table) (visible : Nat → Bool) (input : Nat → Tok × T) :
    ∀ (fuel : Nat) (s : List LLSym) (pos : Nat) (ev : List (LLEvent T)), StackDeclared g s →
      (∃ ev' pos', llRun (cppDispatch g table) visible input fuel s pos ev = .error ev' pos') ∨
      llRun (cppDispatch g table) visible input fuel s pos ev = llRun (tableDispatch table) visible input fuel s pos ev := by
  intro fuel
  induction fuel with
  | zero => intro s pos ev _; exact .inr rfl
  | succ fuel ih =>
    intro s pos ev hs
    cases s with
    | nil => exact .inr rfl
    | cons x s =>
      have hs' : StackDeclared g s := fun A hA => hs A (List.mem_cons_of_mem _ hA)
      cases x with
      | exit A => simp only [llRun, llStep]; exact ih _ _ _ hs'
      | terminal t =>
        simp only [llRun, llStep]
        split
        · exact .inr rfl
        · exact .inr rfl
        · rename_i h1
          split at h1
          · simp at h1
            obtain ⟨rfl, rfl, rfl⟩ := h1
            exact ih _ _ _ hs'
          · simp at h1
      | nonTerminal A =>
        rcases cpp_disp wf hgap h (hs A List.mem_cons_self) (input pos).1 with h1 | h1
        · exact .inl ⟨ev, pos, by simp only [llRun, llStep, h1]⟩
        · cases h2 : tableDispatch table A (input pos).1 with
          | none => exact .inr (by simp only [llRun, llStep, h1, h2])
          | some syms =>
            simp only [llRun, llStep, h1, h2]
            obtain ⟨r, hr, _, rfl, _⟩ := (table_exact h).2 _ _ _ h2
            refine ih _ _ _ ?_
            intro B hB
            rcases List.mem_append.mp hB with hB | hB
            · exact wf.nt_declared r hr B (mem_llPush hB)
            · simp at hB; exact hs' B hB

end Verif
