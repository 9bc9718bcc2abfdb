import Verif.Proofs.LLTree
import Verif.Proofs.Online
import Verif.Spec.LLReach
import Verif.Proofs.GrammarLang

/-!
# Where LL parsers report errors: helper lemmas
-/

set_option autoImplicit false

namespace Verif

variable {T : Type} {g : Grammar} {disp : Dispatch} {visible : Nat → Bool} {input : Nat → Tok × T}

/-- the grammar symbols on the stack -/
def stackSyms : List LLSym → List Sym
  | [] => []
  | .nonTerminal A :: s => .nt A :: stackSyms s
  | .terminal (.tok a) :: s => .t a :: stackSyms s
  | _ :: s => stackSyms s

theorem stackSyms_append (s s' : List LLSym) : stackSyms (s ++ s') = stackSyms s ++ stackSyms s' := by
  induction s with
  | nil => rfl
  | cons x s ih =>
    cases x with
    | terminal t => cases t <;> simp [stackSyms, ih]
    | nonTerminal A => simp [stackSyms, ih]
    | exit A => simp [stackSyms, ih]

theorem derives_push {ss ts : List Sym} {v : List Nat} (hne : Sym.eof ∉ ss) (h : Derives g.rules (stackSyms (llPush id ss) ++ ts) v) : Derives g.rules (ss ++ ts) v := by
  induction ss generalizing v with
  | nil => exact h
  | cons x ss ih =>
    have ih' := fun {v} => ih (v := v) (fun hm => hne (List.mem_cons_of_mem _ hm))
    cases x with
    | nt A =>
      simp only [llPush, stackSyms, List.cons_append, id_eq] at h ⊢
      cases h with
      | nonterm hr hu hv => exact .nonterm hr hu (ih' hv)
    | t a =>
      simp only [llPush, stackSyms, List.cons_append] at h ⊢
      cases h with
      | term h => exact .term (ih' h)
    | eps => exact .eps (ih' h)
    | eof => exact absurd List.mem_cons_self hne

/-- symbols other than the end of file and an error -/
def InnerSyms (s : List LLSym) : Prop := LLSym.terminal .eof ∉ s ∧ LLSym.terminal .err ∉ s

theorem llPush_inner (ss : List Sym) : InnerSyms (llPush id ss) := by
  constructor <;> induction ss with
  | nil => simp [llPush]
  | cons s ss ih => cases s <;> simp [llPush, ih]

theorem consumes_snoc {n : Nat} {w : List (Nat × T)} {a : Nat} (h : Consumes input n w) (ha : (input n).1 = .tok a) : Consumes input (n + 1) (w ++ [(a, (input n).2)]) := by
  refine ⟨by simp [h.1], fun i p hp => ?_⟩
  by_cases hi : i < w.length
  · rw [List.getElem?_append_left hi] at hp
    exact h.2 i p hp
  · rw [List.getElem?_append_right (by omega)] at hp
    have h0 : i - w.length = 0 := by
      by_contra hc
      rw [List.getElem?_eq_none (by simp; omega)] at hp
      simp at hp
    rw [h0] at hp
    simp at hp
    subst hp
    obtain rfl : i = n := by have := h.1; omega
    rw [← ha]

/-- what has been read, and what the stack may still read -/
structure LLInv (g : Grammar) (input : Nat → Tok × T) (E : Nat) (s : List LLSym) (pos : Nat) (ev : List (LLEvent T)) : Prop where
  reads : ∃ w, Consumes input pos w ∧ tokensOf ev = w.map (fun x => (Tok.tok x.1, x.2)) ∧ ∀ v, Derives g.rules (stackSyms s) v → Derives g.rules [.nt E] (w.map (·.1) ++ v)
  declared : StackDeclared g s
  bottom : ∃ s', s = s' ++ [.terminal .eof] ∧ InnerSyms s'

theorem inv_start (wf : g.WF) {E : Nat} (hE : g.entry = .nt E) : LLInv g input E [.nonTerminal E, .terminal .eof] 0 [] := by
  refine ⟨⟨[], ⟨rfl, by simp⟩, rfl, fun v hv => hv⟩, ?_, [.nonTerminal E], rfl, by simp [InnerSyms]⟩
  intro A hA
  simp at hA
  subst hA
  obtain ⟨E', hE', hd⟩ := wf.entry_declared
  rw [hE] at hE'; simp at hE'; subst hE'
  exact hd

theorem inv_step (wf : g.WF) (hs : SoundDispatch g disp) {E : Nat} {s s' : List LLSym} {pos pos' : Nat} {ev : List (LLEvent T)} {e : Option (LLEvent T)}
    (hi : LLInv g input E s pos ev) (h : llStep disp visible input s pos = .next s' pos' e) : s' = [] ∨ LLInv g input E s' pos' (ev ++ e.toList) := by
  obtain ⟨⟨w, h1, h2, h3⟩, h4, s0, rfl, h5⟩ := hi
  cases s0 with
  | nil =>
    left
    simp only [List.nil_append, llStep] at h
    split at h
    · cases h; rfl
    · cases h
  | cons x s0 =>
    right
    have h5' : InnerSyms s0 := ⟨fun hm => h5.1 (List.mem_cons_of_mem _ hm), fun hm => h5.2 (List.mem_cons_of_mem _ hm)⟩
    have h4' : StackDeclared g (s0 ++ [.terminal .eof]) := fun A hA => h4 A (List.mem_cons_of_mem _ hA)
    cases x with
    | exit A =>
      simp only [List.cons_append, llStep] at h
      cases h
      refine ⟨⟨w, h1, ?_, h3⟩, h4', s0, rfl, h5'⟩
      split <;> simp [tokensOf] at h2 ⊢ <;> exact h2
    | terminal t =>
      simp only [List.cons_append, llStep] at h
      split at h
      · rename_i ht
        cases h
        cases t with
        | eof => exact absurd List.mem_cons_self h5.1
        | err => exact absurd List.mem_cons_self h5.2
        | tok a =>
          refine ⟨⟨w ++ [(a, (input pos).2)], consumes_snoc h1 ht.symm, ?_, fun v hv => ?_⟩, h4', s0, rfl, h5'⟩
          · simp [tokensOf] at h2 ⊢; exact h2
          · have := h3 (a :: v) (.term hv)
            simpa using this
      · cases h
    | nonTerminal A =>
      simp only [List.cons_append, llStep] at h
      cases hd : disp A (input pos).1 with
      | none => rw [hd] at h; cases h
      | some syms =>
        rw [hd] at h
        cases h
        obtain ⟨r, hr, rfl, rfl⟩ := hs _ _ _ hd
        refine ⟨⟨w, h1, ?_, fun v hv => ?_⟩, ?_, llPush id r.rhs ++ .exit r.lhs :: s0, by simp, ?_⟩
        · split <;> simp [tokensOf] at h2 ⊢ <;> exact h2
        · refine h3 v ?_
          rw [stackSyms_append] at hv
          have h6 := derives_push (wf.no_eof r hr) hv
          obtain ⟨u, v', he, hu, hv'⟩ := h6.split
          show Derives g.rules (.nt r.lhs :: stackSyms (s0 ++ [.terminal .eof])) v
          rw [he]
          exact .nonterm hr hu hv'
        · intro B hB
          rcases List.mem_append.mp hB with hB | hB
          · exact wf.nt_declared r hr B (mem_llPush hB)
          · simp only [List.mem_cons, reduceCtorEq, false_or] at hB
            exact h4' B (by simpa using hB)
        · have := llPush_inner r.rhs
          constructor
          · simp only [List.mem_append, List.mem_cons, reduceCtorEq, false_or, not_or]; exact ⟨this.1, h5'.1⟩
          · simp only [List.mem_append, List.mem_cons, reduceCtorEq, false_or, not_or]; exact ⟨this.2, h5'.2⟩

theorem stack_productive (hp : Productive g) : ∀ s : List LLSym, StackDeclared g s → ∃ v, Derives g.rules (stackSyms s) v
  | [], _ => ⟨[], .nil⟩
  | x :: s, hs => by
    obtain ⟨v, hv⟩ := stack_productive hp s (fun A hA => hs A (List.mem_cons_of_mem _ hA))
    cases x with
    | nonTerminal A =>
      obtain ⟨u, hu⟩ := hp A (hs A List.mem_cons_self)
      exact ⟨u ++ v, Derives.append (s1 := [.nt A]) hu hv⟩
    | terminal t =>
      cases t with
      | tok a => exact ⟨a :: v, .term hv⟩
      | eof => exact ⟨v, hv⟩
      | err => exact ⟨v, hv⟩
    | exit A => exact ⟨v, hv⟩

theorem reaches_inv_ll (wf : g.WF) (hs : SoundDispatch g disp) {E : Nat} (hE : g.entry = .nt E) {s : List LLSym} {pos : Nat} {ev : List (LLEvent T)}
    (h : LLReaches disp visible input E s pos ev) : s = [] ∨ LLInv g input E s pos ev := by
  induction h with
  | start => exact .inr (inv_start wf hE)
  | step h1 h2 ih =>
    rcases ih with rfl | ih
    · simp [llStep] at h2
    · exact inv_step wf hs ih h2

/-- a run that ends with an error has come to a state without a step -/
theorem error_reaches {E : Nat} : ∀ (fuel : Nat) (s : List LLSym) (pos : Nat) (ev : List (LLEvent T)) (ev' : List (LLEvent T)) (pos' : Nat), LLReaches disp visible input E s pos ev →
    llRun disp visible input fuel s pos ev = .error ev' pos' → ∃ s', LLReaches disp visible input E s' pos' ev' ∧ llStep disp visible input s' pos' = .error := by
  intro fuel
  induction fuel with
  | zero => intro s pos ev ev' pos' _ h; simp [llRun] at h
  | succ fuel ih =>
    intro s pos ev ev' pos' hr h
    unfold llRun at h
    cases hs : llStep disp visible input s pos with
    | done => rw [hs] at h; simp at h
    | error =>
      rw [hs] at h
      simp at h
      obtain ⟨rfl, rfl⟩ := h
      exact ⟨s, hr, hs⟩
    | next s1 p1 e =>
      rw [hs] at h
      exact ih _ _ _ _ _ (.step hr hs) h

/-- at a token the generated C++ parser reports an error only where the table-driven one does -/
theorem cpp_error_tok (wf : g.WF) (hgap : NoGaps g) {table : LLTable} (h : TableFor g g.rules table) {a : Nat} {ev' : List (LLEvent T)} {pos' : Nat} (ha : (input pos').1 = .tok a) :
    ∀ (fuel : Nat) (s : List LLSym) (pos : Nat) (ev : List (LLEvent T)), StackDeclared g s → llRun (cppDispatch g table) visible input fuel s pos ev = .error ev' pos' →
      llRun (tableDispatch table) visible input fuel s pos ev = .error ev' pos' := by
  intro fuel
  induction fuel with
  | zero => intro s pos ev _ hr; simp [llRun] at hr
  | succ fuel ih =>
    intro s pos ev hs hr
    cases s with
    | nil => simp [llRun, llStep] at hr
    | cons x s =>
      have hs' : StackDeclared g s := fun A hA => hs A (List.mem_cons_of_mem _ hA)
      cases x with
      | exit A => simp only [llRun, llStep] at hr ⊢; exact ih _ _ _ hs' hr
      | terminal t =>
        simp only [llRun, llStep] at hr ⊢
        by_cases ht : t = (input pos).1
        · simp only [if_pos ht] at hr ⊢
          exact ih _ _ _ hs' hr
        · simp only [if_neg ht] at hr ⊢
          exact hr
      | nonTerminal A =>
        have hA := hs A List.mem_cons_self
        cases h2 : tableDispatch table A (input pos).1 with
        | none =>
          have h1 : cppDispatch g table A (input pos).1 = none := by
            rcases cpp_disp wf hgap h hA (input pos).1 with h1 | h1
            · exact h1
            · rw [h1, h2]
          simp only [llRun, llStep, h1, h2] at hr ⊢
          exact hr
        | some syms =>
          by_cases he : (input pos).1 = .eof
          · simp only [llRun, llStep, he, cppDispatch, if_pos hA] at hr
            simp at hr
            rw [← hr.2, he] at ha
            cases ha
          · have h1 := cpp_disp_tok wf hgap h hA h2 he
            simp only [llRun, llStep, h1, h2] at hr ⊢
            obtain ⟨r, hr', _, rfl, _⟩ := (table_exact h).2 _ _ _ h2
            refine ih _ _ _ ?_ hr
            intro B hB
            rcases List.mem_append.mp hB with hB | hB
            · exact wf.nt_declared r hr' B (mem_llPush hB)
            · simp at hB; exact hs' B hB

/-- the stream that goes on with other tokens -/
def goOn (input : Nat → Tok × T) (pos : Nat) (v : List Nat) : Nat → Tok × T := fun i =>
  if i ≤ pos then input i else match v[i - (pos + 1)]? with
    | some a => (.tok a, (input pos).2)
    | none => (.eof, (input pos).2)

theorem goOn_is {pos : Nat} {w : List (Nat × T)} {a : Nat} (hw : Consumes input pos w) (ha : (input pos).1 = .tok a) (v : List Nat) :
    StreamIs (goOn input pos v) (w ++ (a, (input pos).2) :: v.map (fun b => (b, (input pos).2))) := by
  have hl := hw.1
  constructor
  · intro i p hp
    rcases Nat.lt_trichotomy i pos with hi | hi | hi
    · rw [List.getElem?_append_left (by omega)] at hp
      simp only [goOn, if_pos (Nat.le_of_lt hi)]
      exact hw.2 i p hp
    · subst hi
      rw [List.getElem?_append_right (by omega), hl] at hp
      simp at hp
      subst hp
      simp only [goOn, Nat.le_refl, if_true]
      rw [← ha]
    · rw [List.getElem?_append_right (by omega), hl, show i - pos = (i - (pos + 1)) + 1 by omega, List.getElem?_cons_succ, List.getElem?_map] at hp
      obtain ⟨b, hb, rfl⟩ := Option.map_eq_some_iff.mp hp
      simp only [goOn, if_neg (show ¬ i ≤ pos by omega), hb]
  · simp only [goOn, List.length_append, List.length_cons, List.length_map]
    rw [if_neg (by omega), List.getElem?_eq_none (by omega)]

/-- the state after some steps -/
def llState (disp : Dispatch) (visible : Nat → Bool) (input : Nat → Tok × T) : Nat → List LLSym × Nat × List (LLEvent T) → Option (List LLSym × Nat × List (LLEvent T))
  | 0, x => some x
  | n + 1, (s, pos, ev) =>
    match llStep disp visible input s pos with
    | .next s' pos' e => llState disp visible input n (s', pos', ev ++ e.toList)
    | _ => none

theorem reaches_of_state {E : Nat} : ∀ (n : Nat) (s : List LLSym) (pos : Nat) (ev : List (LLEvent T)) (s' : List LLSym) (pos' : Nat) (ev' : List (LLEvent T)),
    LLReaches disp visible input E s pos ev → llState disp visible input n (s, pos, ev) = some (s', pos', ev') → LLReaches disp visible input E s' pos' ev' := by
  intro n
  induction n with
  | zero => intro s pos ev s' pos' ev' h he; simp [llState] at he; obtain ⟨rfl, rfl, rfl⟩ := he; exact h
  | succ n ih =>
    intro s pos ev s' pos' ev' h he
    unfold llState at he
    cases hs : llStep disp visible input s pos with
    | done => simp [hs] at he
    | error => simp [hs] at he
    | next s1 p1 e =>
      simp only [hs] at he
      exact ih _ _ _ _ _ _ (.step h hs) he

end Verif
