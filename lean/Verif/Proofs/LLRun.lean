import Verif.Spec.LLTrace
import Verif.Proofs.LLTable

/-! # The LL driver -/

set_option autoImplicit false

namespace Verif

variable {T : Type}

theorem forest_derives {rules : List Rule} {ss : List Sym} {ts : List (PTree T)} (h : Forest rules ss ts) :
    Derives rules ss ((PTree.tokensList ts).map (·.1)) := by
  induction h with
  | nil => exact .nil
  | eps _ ih => exact .eps ih
  | term _ ih => simpa [PTree.tokensList, PTree.tokens] using Derives.term ih
  | nonterm hr _ _ ih1 ih2 => simpa [PTree.tokensList, PTree.tokens] using Derives.nonterm hr ih1 ih2

/-! ## Soundness -/

/-- successful runs, with their number of steps -/
inductive Acc (disp : Dispatch) (visible : Nat → Bool) (input : Nat → Tok × T) : Nat → List LLSym → Nat → List (LLEvent T) → Nat → Prop
  | nil {pos : Nat} : Acc disp visible input 0 [] pos [] pos
  | exit {n id pos pos' : Nat} {s : List LLSym} {ev : List (LLEvent T)} : Acc disp visible input n s pos ev pos' →
      Acc disp visible input (n + 1) (.exit id :: s) pos ((if visible id then [.exit id] else []) ++ ev) pos'
  | term {n pos pos' : Nat} {t : Tok} {s : List LLSym} {ev : List (LLEvent T)} : (input pos).1 = t → Acc disp visible input n s (pos + 1) ev pos' →
      Acc disp visible input (n + 1) (.terminal t :: s) pos (.token t (input pos).2 :: ev) pos'
  | nonterm {n id pos pos' : Nat} {s syms : List LLSym} {ev : List (LLEvent T)} : disp id (input pos).1 = some syms →
      Acc disp visible input n (syms ++ .exit id :: s) pos ev pos' →
      Acc disp visible input (n + 1) (.nonTerminal id :: s) pos ((if visible id then [.enter id] else []) ++ ev) pos'

variable {disp : Dispatch} {visible : Nat → Bool} {input : Nat → Tok × T}

theorem llRun_acc : ∀ (fuel : Nat) (s : List LLSym) (pos : Nat) (ev ev' : List (LLEvent T)) (pos' : Nat),
    llRun disp visible input fuel s pos ev = .ok ev' pos' → ∃ n ev1, ev' = ev ++ ev1 ∧ Acc disp visible input n s pos ev1 pos' := by
  intro fuel
  induction fuel with
  | zero => intro s pos ev ev' pos' h; simp [llRun] at h
  | succ fuel ih =>
    intro s pos ev ev' pos' h
    rw [llRun] at h
    cases s with
    | nil =>
      simp only [llStep, LLResult.ok.injEq] at h
      obtain ⟨rfl, rfl⟩ := h
      exact ⟨0, [], by simp, .nil⟩
    | cons x s =>
      cases x with
      | terminal t =>
        simp only [llStep] at h
        split at h
        · rename_i h1; split at h1 <;> simp at h1
        · simp at h
        · rename_i h1
          split at h1
          · rename_i he
            simp at h1
            obtain ⟨rfl, rfl, rfl⟩ := h1
            obtain ⟨n, ev1, h2, h3⟩ := ih _ _ _ _ _ h
            exact ⟨n + 1, _, by rw [h2, List.append_assoc]; rfl, .term he.symm h3⟩
          · simp at h1
      | nonTerminal id =>
        simp only [llStep] at h
        split at h
        · rename_i h1; split at h1 <;> simp at h1
        · simp at h
        · rename_i h1
          split at h1
          · simp at h1
          · rename_i syms hd
            simp at h1
            obtain ⟨rfl, rfl, rfl⟩ := h1
            obtain ⟨n, ev1, h2, h3⟩ := ih _ _ _ _ _ h
            refine ⟨n + 1, _, ?_, .nonterm hd h3⟩
            rw [h2, List.append_assoc]
            split <;> rfl
      | exit id =>
        simp only [llStep] at h
        obtain ⟨n, ev1, h2, h3⟩ := ih _ _ _ _ _ h
        refine ⟨n + 1, _, ?_, .exit h3⟩
        rw [h2, List.append_assoc]
        split <;> rfl

theorem acc_llRun {n pos pos' : Nat} {s : List LLSym} {ev : List (LLEvent T)} (h : Acc disp visible input n s pos ev pos') :
    ∀ fuel, n < fuel → ∀ ev0, llRun disp visible input fuel s pos ev0 = .ok (ev0 ++ ev) pos' := by
  induction h with
  | nil =>
    intro fuel hf ev0
    obtain ⟨k, rfl⟩ : ∃ k, fuel = k + 1 := ⟨fuel - 1, by omega⟩
    simp [llRun, llStep]
  | @exit n id pos pos' s ev _ ih =>
    intro fuel hf ev0
    obtain ⟨k, rfl⟩ : ∃ k, fuel = k + 1 := ⟨fuel - 1, by omega⟩
    simp only [llRun, llStep]
    rw [ih k (by omega)]
    split <;> simp
  | @term n pos pos' t s ev ht _ ih =>
    intro fuel hf ev0
    obtain ⟨k, rfl⟩ : ∃ k, fuel = k + 1 := ⟨fuel - 1, by omega⟩
    simp only [llRun, llStep, ht.symm, if_true]
    rw [ih k (by omega)]
    simp
  | @nonterm n id pos pos' s syms ev hd _ ih =>
    intro fuel hf ev0
    obtain ⟨k, rfl⟩ : ∃ k, fuel = k + 1 := ⟨fuel - 1, by omega⟩
    simp only [llRun, llStep, hd]
    rw [ih k (by omega)]
    split <;> simp

theorem Acc.split {n pos pos' : Nat} {s : List LLSym} {ev : List (LLEvent T)} (h : Acc disp visible input n s pos ev pos') :
    ∀ a b, s = a ++ b → ∃ n1 n2 ev1 ev2 mid, n = n1 + n2 ∧ ev = ev1 ++ ev2 ∧ Acc disp visible input n1 a pos ev1 mid ∧ Acc disp visible input n2 b mid ev2 pos' := by
  induction h with
  | nil =>
    intro a b he
    simp at he
    obtain ⟨rfl, rfl⟩ := he
    exact ⟨0, 0, [], [], _, rfl, rfl, .nil, .nil⟩
  | @exit n id pos pos' s ev h0 ih =>
    intro a b he
    cases a with
    | nil => simp at he; subst he; exact ⟨0, n + 1, [], _, pos, by omega, rfl, .nil, .exit h0⟩
    | cons x a =>
      simp at he
      obtain ⟨rfl, he⟩ := he
      obtain ⟨n1, n2, ev1, ev2, mid, rfl, rfl, h1, h2⟩ := ih a b he
      exact ⟨n1 + 1, n2, _, ev2, mid, by omega, by rw [← List.append_assoc], .exit h1, h2⟩
  | @term n pos pos' t s ev ht h0 ih =>
    intro a b he
    cases a with
    | nil => simp at he; subst he; exact ⟨0, n + 1, [], _, pos, by omega, rfl, .nil, .term ht h0⟩
    | cons x a =>
      simp at he
      obtain ⟨rfl, he⟩ := he
      obtain ⟨n1, n2, ev1, ev2, mid, rfl, rfl, h1, h2⟩ := ih a b he
      exact ⟨n1 + 1, n2, _, ev2, mid, by omega, by rw [← List.cons_append], .term ht h1, h2⟩
  | @nonterm n id pos pos' s syms ev hd h0 ih =>
    intro a b he
    cases a with
    | nil => simp at he; subst he; exact ⟨0, n + 1, [], _, pos, by omega, rfl, .nil, .nonterm hd h0⟩
    | cons x a =>
      simp at he
      obtain ⟨rfl, rfl⟩ := he
      obtain ⟨n1, n2, ev1, ev2, mid, rfl, rfl, h1, h2⟩ := ih (syms ++ .exit id :: a) b (by simp)
      exact ⟨n1 + 1, n2, _, ev2, mid, by omega, by rw [← List.append_assoc], .nonterm hd h1, h2⟩

theorem Acc.append {n1 n2 pos mid pos' : Nat} {a b : List LLSym} {ev1 ev2 : List (LLEvent T)} (h1 : Acc disp visible input n1 a pos ev1 mid)
    (h2 : Acc disp visible input n2 b mid ev2 pos') : Acc disp visible input (n1 + n2) (a ++ b) pos (ev1 ++ ev2) pos' := by
  induction h1 with
  | nil => simpa using h2
  | @exit n id pos pos' s ev _ ih =>
    have := Acc.exit (id := id) (ih h2)
    rw [List.append_assoc, Nat.add_right_comm]; exact this
  | term ht _ ih =>
    have := Acc.term ht (ih h2)
    rw [Nat.add_right_comm]; exact this
  | @nonterm n id pos pos' s syms ev hd _ ih =>
    have h3 := ih h2
    rw [List.append_assoc, List.cons_append] at h3
    have := Acc.nonterm hd h3
    rw [List.append_assoc, Nat.add_right_comm]; exact this

/-- a dispatch that only pushes right sides of rules -/
def SoundDispatch (g : Grammar) (disp : Dispatch) : Prop :=
  ∀ A tk syms, disp A tk = some syms → ∃ r ∈ g.rules, r.lhs = A ∧ syms = llPush id r.rhs

/-- the tokens of the stream between two positions are exactly these -/
def Slice (input : Nat → Tok × T) (pos pos' : Nat) (w : List (Nat × T)) : Prop :=
  pos' = pos + w.length ∧ ∀ i p, w[i]? = some p → input (pos + i) = (.tok p.1, p.2)

theorem slice_nil (pos : Nat) : Slice input pos pos [] := ⟨by simp, by simp⟩

theorem Slice.append {pos mid pos' : Nat} {u v : List (Nat × T)} (h1 : Slice input pos mid u) (h2 : Slice input mid pos' v) :
    Slice input pos pos' (u ++ v) := by
  refine ⟨by rw [h2.1, h1.1, List.length_append]; omega, ?_⟩
  intro i p h
  by_cases hi : i < u.length
  · rw [List.getElem?_append_left hi] at h
    exact h1.2 i p h
  · rw [List.getElem?_append_right (by omega)] at h
    have := h2.2 _ p h
    rw [h1.1] at this
    rwa [show pos + u.length + (i - u.length) = pos + i by omega] at this

theorem acc_forest {g : Grammar} (wf : g.WF) (hd : SoundDispatch g disp) : ∀ (n : Nat) (ss : List Sym) (pos : Nat) (ev : List (LLEvent T)) (pos' : Nat),
    Sym.eof ∉ ss → Acc disp visible input n (llPush id ss) pos ev pos' →
    ∃ ts, Forest g.rules ss ts ∧ ev = PTree.callbacksList visible ts ∧ Slice input pos pos' (PTree.tokensList ts) := by
  intro n
  induction n using Nat.strongRecOn with
  | ind n ih =>
    -- the number of steps does not decrease for epsilon symbols, so recurse on the string as well
    intro ss
    induction ss with
    | nil =>
      intro pos ev pos' _ h
      cases h
      exact ⟨[], .nil, rfl, slice_nil _⟩
    | cons s ss ihs =>
      intro pos ev pos' hne h
      have hne' : Sym.eof ∉ ss := fun h => hne (List.mem_cons_of_mem _ h)
      cases s with
      | eof => exact absurd List.mem_cons_self hne
      | eps =>
        obtain ⟨ts, h1, h2, h3⟩ := ihs pos ev pos' hne' h
        exact ⟨ts, .eps h1, h2, h3⟩
      | t a =>
        simp only [llPush] at h
        cases h with
        | @term n _ _ _ _ ev ht h0 =>
          obtain ⟨ts, h1, h2, h3⟩ := ih n (by omega) ss _ _ _ hne' h0
          refine ⟨.leaf a (input pos).2 :: ts, .term h1, by rw [h2]; rfl, ?_⟩
          have : Slice input pos (pos + 1) [(a, (input pos).2)] := by
            refine ⟨rfl, ?_⟩
            intro i p hp
            cases i with
            | zero => simp at hp; subst hp; simp only [Nat.add_zero]; rw [← ht]
            | succ i => simp at hp
          simpa [PTree.tokensList, PTree.tokens] using this.append h3
      | nt A =>
        simp only [llPush] at h
        cases h with
        | @nonterm n _ _ _ _ syms ev hdp h0 =>
          obtain ⟨r, hr, hl, rfl⟩ := hd _ _ _ hdp
          obtain ⟨n1, n2, ev1, ev2, mid, rfl, rfl, h1, h2⟩ := h0.split _ _ rfl
          obtain ⟨cs, c1, c2, c3⟩ := ih n1 (by omega) r.rhs _ _ _ (wf.no_eof r hr) h1
          cases h2 with
          | @exit n2 _ _ _ _ ev2 h2 =>
            obtain ⟨ts, t1, t2, t3⟩ := ih n2 (by omega) ss _ _ _ hne' h2
            simp only [id_eq] at hl
            subst hl
            refine ⟨.node r cs :: ts, .nonterm hr c1 t1, ?_, ?_⟩
            · rw [c2, t2]
              simp [PTree.callbacksList, PTree.callbacks]
            · simpa [PTree.tokensList, PTree.tokens] using c3.append t3

/-! ## Completeness -/

theorem derives_nul {rules : List Rule} {ss : List Sym} {w : List Nat} (h : Derives rules ss w) (hw : w = []) : Nul rules ss := by
  induction h with
  | nil => exact .nil
  | eps _ ih => exact .eps (ih hw)
  | term _ _ => simp at hw
  | nonterm hr _ _ ih1 ih2 => simp at hw; exact .nt hr (ih1 hw.1) (ih2 hw.2)

theorem derives_first {rules : List Rule} {ss : List Sym} {w : List Nat} (h : Derives rules ss w) : ∀ a v, w = a :: v → FirstIn rules (.t a) ss := by
  induction h with
  | nil => intro a v hw; simp at hw
  | eps _ ih => intro a v hw; exact .eps (ih a v hw)
  | term _ _ => intro a v hw; simp at hw; rw [hw.1]; exact .here
  | @nonterm r ss u v hr h1 _ ih1 ih2 =>
    intro a v' hw
    cases u with
    | nil => exact .ntSkip hr (derives_nul h1 rfl) (ih2 a v' hw)
    | cons b u => simp at hw; exact .ntHere hr (ih1 a u (by rw [hw.1]))

/-- a dispatch that pushes the predicted rule -/
def PredictiveDispatch (g : Grammar) (disp : Dispatch) : Prop :=
  ∀ r ∈ g.rules, ∀ tk x, Tok.sym tk = some x → (PF g r x ∨ PO g r x) → disp r.lhs tk = some (llPush id r.rhs)

/-- what may follow the non-terminals of a string that is itself followed by `y` -/
def InContext (g : Grammar) (ss : List Sym) (y : Sym) : Prop :=
  ∀ α A β, ss = α ++ .nt A :: β → (∀ x : Sym, x.isTerm → FirstIn g.rules x β → FollowIn g x A) ∧ (Nul g.rules β → FollowIn g y A)

theorem InContext.tail {g : Grammar} {s : Sym} {ss : List Sym} {y : Sym} (h : InContext g (s :: ss) y) : InContext g ss y :=
  fun α A β he => h (s :: α) A β (by rw [he]; rfl)

theorem inContext_rhs {g : Grammar} {r : Rule} (hr : r ∈ g.rules) {y : Sym} (hy : FollowIn g y r.lhs) : InContext g r.rhs y :=
  fun _ _ _ he => ⟨fun _ _ hf => .ctx hr he hf, fun hn => .up hr he hn hy⟩

/-- the stream from a position on -/
def StreamAt (input : Nat → Tok × T) (pos : Nat) (w : List Nat) (y : Sym) : Prop :=
  (∀ i a, w[i]? = some a → (input (pos + i)).1 = .tok a) ∧ (input (pos + w.length)).1.sym = some y

theorem derives_acc {g : Grammar} (hd : PredictiveDispatch g disp) (visible : Nat → Bool) {ss : List Sym} {w : List Nat} (h : Derives g.rules ss w) :
    ∀ pos y, y.isTerm → InContext g ss y → StreamAt input pos w y → ∃ n ev, Acc disp visible input n (llPush id ss) pos ev (pos + w.length) := by
  induction h with
  | nil => intro pos y _ _ _; exact ⟨0, [], .nil⟩
  | eps _ ih => intro pos y hy hc hs; exact ih pos y hy hc.tail hs
  | @term a ss w _ ih =>
    intro pos y hy hc hs
    obtain ⟨n, ev, h1⟩ := ih (pos + 1) y hy hc.tail ⟨fun i b hb => by
      have := hs.1 (i + 1) b (by simpa using hb)
      rwa [show pos + (i + 1) = pos + 1 + i by omega] at this, by
      have := hs.2
      rwa [List.length_cons, show pos + (w.length + 1) = pos + 1 + w.length by omega] at this⟩
    have h0 := hs.1 0 a (by simp)
    rw [show pos + (a :: w).length = pos + 1 + w.length by simp; omega]
    exact ⟨n + 1, _, .term (t := .tok a) h0 h1⟩
  | @nonterm r ss u v hr hu hv ih1 ih2 =>
    intro pos y hy hc hs
    -- the symbol after `u`
    have hmid : ∃ y', y'.isTerm ∧ (input (pos + u.length)).1.sym = some y' ∧ FollowIn g y' r.lhs := by
      cases hv' : v with
      | nil =>
        subst hv'
        exact ⟨y, hy, by simpa using hs.2, (hc [] r.lhs ss rfl).2 (derives_nul hv rfl)⟩
      | cons b v =>
        subst hv'
        refine ⟨.t b, trivial, ?_, (hc [] r.lhs ss rfl).1 _ trivial (derives_first hv b v rfl)⟩
        rw [hs.1 u.length b (by simp)]
        rfl
    obtain ⟨y', hy', hy1, hy2⟩ := hmid
    have hsu : StreamAt input pos u y' := ⟨fun i a ha => hs.1 i a (by
      rw [List.getElem?_append_left (List.getElem?_eq_some_iff.mp ha).1]; exact ha), hy1⟩
    obtain ⟨n1, ev1, a1⟩ := ih1 pos y' hy' (inContext_rhs hr hy2) hsu
    have hsv : StreamAt input (pos + u.length) v y := ⟨fun i a ha => by
      have := hs.1 (u.length + i) a (by rw [List.getElem?_append_right (by omega), show u.length + i - u.length = i by omega]; exact ha)
      rwa [← Nat.add_assoc] at this, by
      have := hs.2
      rwa [List.length_append, ← Nat.add_assoc] at this⟩
    obtain ⟨n2, ev2, a2⟩ := ih2 (pos + u.length) y hy hc.tail hsv
    have hdisp : disp r.lhs (input pos).1 = some (llPush id r.rhs) := by
      cases hu' : u with
      | nil =>
        subst hu'
        exact hd r hr _ y' (by simpa using hy1) (.inr ⟨derives_nul hu rfl, hy2⟩)
      | cons b u =>
        subst hu'
        have h0 := hsu.1 0 b (by simp)
        simp only [Nat.add_zero] at h0
        rw [h0]
        exact hd r hr _ (.t b) rfl (.inl (derives_first hu b u rfl))
    have := a1.append (.exit (id := r.lhs) a2)
    rw [List.length_append, ← Nat.add_assoc]
    exact ⟨n1 + (n2 + 1) + 1, _, .nonterm hdisp this⟩

/-! ## Termination -/

/-- the run continues in the same way from the second configuration -/
def Reaches (disp : Dispatch) (visible : Nat → Bool) (input : Nat → Tok × T) (s : List LLSym) (pos : Nat) (s' : List LLSym) (pos' : Nat) : Prop :=
  ∃ k ev, ∀ fuel ev0, llRun disp visible input (fuel + k) s pos ev0 = llRun disp visible input fuel s' pos' (ev0 ++ ev)

theorem Reaches.refl (s : List LLSym) (pos : Nat) : Reaches disp visible input s pos s pos := ⟨0, [], by simp⟩

theorem Reaches.trans {s1 s2 s3 : List LLSym} {p1 p2 p3 : Nat} (h1 : Reaches disp visible input s1 p1 s2 p2) (h2 : Reaches disp visible input s2 p2 s3 p3) :
    Reaches disp visible input s1 p1 s3 p3 := by
  obtain ⟨k1, e1, h1⟩ := h1
  obtain ⟨k2, e2, h2⟩ := h2
  exact ⟨k2 + k1, e1 ++ e2, fun fuel ev0 => by rw [← Nat.add_assoc, h1, h2, List.append_assoc]⟩

theorem reaches_nt {A pos : Nat} {s syms : List LLSym} (h : disp A (input pos).1 = some syms) :
    Reaches disp visible input (.nonTerminal A :: s) pos (syms ++ .exit A :: s) pos :=
  ⟨1, (if visible A then some (LLEvent.enter A) else none).toList, fun fuel ev0 => by simp only [llRun, llStep, h]⟩

theorem reaches_exit {A pos : Nat} {s : List LLSym} : Reaches disp visible input (.exit A :: s) pos s pos :=
  ⟨1, (if visible A then some (LLEvent.exit A) else none).toList, fun fuel ev0 => by simp only [llRun, llStep]⟩

theorem reaches_term {t : Tok} {pos : Nat} {s : List LLSym} (h : (input pos).1 = t) : Reaches disp visible input (.terminal t :: s) pos s (pos + 1) :=
  ⟨1, [.token t (input pos).2], fun fuel ev0 => by simp [llRun, llStep, h.symm]⟩

/-- a nullable string whose non-terminals may be followed by the lookahead is erased -/
theorem reaches_erase {g : Grammar} (hd : PredictiveDispatch g disp) {x : Sym} {pos : Nat} (hx : (input pos).1.sym = some x) {ss : List Sym}
    (h : Nul g.rules ss) : (∀ A, Sym.nt A ∈ ss → FollowIn g x A) → ∀ s, Reaches disp visible input (llPush id ss ++ s) pos s pos := by
  induction h with
  | nil => intro _ s; exact .refl _ _
  | eps _ ih => intro hf s; exact ih (fun A hA => hf A (List.mem_cons_of_mem _ hA)) s
  | @nt r ss hr hn _ ih1 ih2 =>
    intro hf s
    have hfl := hf r.lhs List.mem_cons_self
    have hdisp := hd r hr _ x hx (.inr ⟨hn, hfl⟩)
    refine (reaches_nt hdisp).trans ((ih1 ?_ _).trans (reaches_exit.trans (ih2 (fun A hA => hf A (List.mem_cons_of_mem _ hA)) s)))
    intro A hA
    obtain ⟨α, β, he⟩ := List.append_of_mem hA
    have hnβ : Nul g.rules β := by
      rw [he, nul_append] at hn
      cases hn.2 with
      | nt _ _ h => exact h
    exact .up hr he hnβ hfl

/-- symbols of grammar rules on the stack -/
def NoEnd (s : List LLSym) : Prop := ∀ x ∈ s, x ≠ .terminal .eof

theorem noEnd_push (ss : List Sym) : NoEnd (llPush id ss) := by
  induction ss with
  | nil => simp [llPush, NoEnd]
  | cons a ss ih =>
    have hc : ∀ x, x ≠ LLSym.terminal .eof → NoEnd (x :: llPush id ss) := by
      intro x hx y hy
      rcases List.mem_cons.mp hy with rfl | hy
      · exact hx
      · exact ih y hy
    cases a with
    | eps => exact ih
    | eof => exact ih
    | nt A => exact hc _ (by simp)
    | t a => exact hc _ (by simp)

/-- a string that can start with the lookahead leads to its consumption -/
theorem reaches_consume {g : Grammar} (hd : PredictiveDispatch g disp) {a pos : Nat} (hx : (input pos).1 = .tok a) {ss : List Sym}
    (h : FirstIn g.rules (.t a) ss) : (∀ α A β, ss = α ++ .nt A :: β → FirstIn g.rules (.t a) β → FollowIn g (.t a) A) →
    ∃ s', NoEnd s' ∧ ∀ s, Reaches disp visible input (llPush id ss ++ s) pos (s' ++ s) (pos + 1) := by
  have hsym : (input pos).1.sym = some (.t a) := by rw [hx]; rfl
  have htail : ∀ {y : Sym} {ss : List Sym}, (∀ α A β, y :: ss = α ++ .nt A :: β → FirstIn g.rules (.t a) β → FollowIn g (.t a) A) →
      ∀ α A β, ss = α ++ .nt A :: β → FirstIn g.rules (.t a) β → FollowIn g (.t a) A :=
    fun {y _} h α A β he => h (y :: α) A β (by rw [he]; rfl)
  induction h with
  | @here ss => intro _; exact ⟨llPush id ss, noEnd_push ss, fun s => reaches_term hx⟩
  | eps _ ih => intro hc; exact ih (htail hc)
  | @ntHere r ss hr hf ih =>
    intro hc
    obtain ⟨s', h1, h2⟩ := ih (fun α A β he hf => .ctx hr he hf)
    refine ⟨s' ++ .exit r.lhs :: llPush id ss, ?_, ?_⟩
    · intro x hxm
      rcases List.mem_append.mp hxm with h | h
      · exact h1 x h
      · rcases List.mem_cons.mp h with rfl | h
        · simp
        · exact noEnd_push ss x h
    · intro s
      have := (reaches_nt (s := llPush id ss ++ s) (visible := visible) (hd r hr _ _ hsym (.inl hf))).trans (h2 _)
      simpa [llPush] using this
  | @ntSkip r ss hr hn hf ih =>
    intro hc
    obtain ⟨s', h1, h2⟩ := ih (htail hc)
    refine ⟨s', h1, fun s => ?_⟩
    have hfl := hc [] r.lhs ss rfl hf
    have he := reaches_erase (visible := visible) hd hsym (Nul.nt hr hn .nil) (by simpa using hfl) (llPush id ss ++ s)
    exact he.trans (h2 s)

theorem firstIn_eof_rhs {g : Grammar} (wf : g.WF) {ss : List Sym} (h : FirstIn g.rules .eof ss) : Sym.eof ∈ ss := by
  induction h with
  | here => simp
  | eps _ ih => exact List.mem_cons_of_mem _ ih
  | ntHere hr _ ih => exact absurd ih (wf.no_eof _ hr)
  | ntSkip _ _ _ ih => exact List.mem_cons_of_mem _ ih

/-- every dispatch result comes from a rule predicted by the lookahead -/
def ExactDispatch (g : Grammar) (disp : Dispatch) : Prop :=
  PredictiveDispatch g disp ∧ ∀ A tk syms, disp A tk = some syms → ∃ r ∈ g.rules, r.lhs = A ∧ syms = llPush id r.rhs ∧ ∃ x, Tok.sym tk = some x ∧ (PF g r x ∨ PO g r x)

theorem llRun_mono : ∀ (n m : Nat) (s : List LLSym) (pos : Nat) (ev : List (LLEvent T)), n ≤ m → llRun disp visible input n s pos ev ≠ .fuel →
    llRun disp visible input m s pos ev = llRun disp visible input n s pos ev := by
  intro n
  induction n with
  | zero => intro m s pos ev _ h; exact absurd rfl h
  | succ n ih =>
    intro m s pos ev hm h
    obtain ⟨k, rfl⟩ : ∃ k, m = k + 1 := ⟨m - 1, by omega⟩
    rw [llRun] at h ⊢
    rw [llRun]
    cases hst : llStep disp visible input s pos with
    | done => rfl
    | error => rfl
    | next s' pos' e =>
      rw [hst] at h
      exact ih k _ _ _ (by omega) h

theorem llRun_terminates {g : Grammar} (wf : g.WF) (hd : ExactDispatch g disp) {N : Nat} (hN : (input N).1 = .eof) :
    ∀ (m : Nat) (l : Nat) (s : List LLSym) (pos : Nat), NoEnd s → N - pos ≤ m → s.length ≤ l → pos ≤ N → ∀ ev,
      ∃ fuel, llRun disp visible input fuel (s ++ [.terminal .eof]) pos ev ≠ .fuel := by
  intro m
  induction m using Nat.strongRecOn with
  | ind m ihm =>
  intro l
  induction l with
  | zero =>
    intro s pos hs hm hl hp ev
    have : s = [] := by cases s with
      | nil => rfl
      | cons _ _ => simp at hl
    subst this
    refine ⟨2, ?_⟩
    simp only [List.nil_append, llRun, llStep]
    split
    · simp
    · simp
    · rename_i h
      split at h
      · simp at h; obtain ⟨rfl, _, _⟩ := h; simp
      · simp at h
  | succ l ihl =>
    intro s pos hs hm hl hp ev
    have finish : ∀ s' pos', Reaches disp visible input (s ++ [.terminal .eof]) pos s' pos' →
        (∀ ev, ∃ fuel, llRun disp visible input fuel s' pos' ev ≠ .fuel) → ∃ fuel, llRun disp visible input fuel (s ++ [.terminal .eof]) pos ev ≠ .fuel := by
      rintro s' pos' ⟨k, e, h⟩ hf
      obtain ⟨fuel, h1⟩ := hf (ev ++ e)
      exact ⟨fuel + k, by rw [h]; exact h1⟩
    -- consuming a token that is not the end
    have consumed : ∀ s' , NoEnd s' → (input pos).1 ≠ .eof → ∀ ev, ∃ fuel, llRun disp visible input fuel (s' ++ [.terminal .eof]) (pos + 1) ev ≠ .fuel := by
      intro s' hs' hne ev
      have hlt : pos < N := by
        rcases Nat.lt_or_eq_of_le hp with h | h
        · exact h
        · subst h; exact absurd hN hne
      exact ihm (N - (pos + 1)) (by omega) s'.length s' (pos + 1) hs' (Nat.le_refl _) (Nat.le_refl _) (by omega) ev
    cases s with
    | nil => exact ihl [] pos hs hm (by simp) hp ev
    | cons x s =>
      have hs' : NoEnd s := fun y hy => hs y (List.mem_cons_of_mem _ hy)
      have hl' : s.length ≤ l := by simpa using hl
      cases x with
      | exit A => exact finish _ _ reaches_exit (fun ev => ihl s pos hs' hm hl' hp ev)
      | terminal t =>
        by_cases ht : (input pos).1 = t
        · refine finish _ _ (reaches_term ht) (consumed s hs' ?_)
          rintro he
          exact hs _ List.mem_cons_self (by rw [← ht, he])
        · refine ⟨1, ?_⟩
          simp only [List.cons_append, llRun, llStep, if_neg (fun h => ht (Eq.symm h))]
          simp
      | nonTerminal A =>
        cases hdp : disp A (input pos).1 with
        | none => exact ⟨1, by simp [llRun, llStep, hdp]⟩
        | some syms =>
          obtain ⟨r, hr, hl2, rfl, x, hx, hp'⟩ := hd.2 _ _ _ hdp
          by_cases hnf : PO g r x
          · -- the right side is erased
            have he := reaches_erase (visible := visible) hd.1 hx hnf.1 (fun B hB => by
              obtain ⟨α, β, he⟩ := List.append_of_mem hB
              have hnβ : Nul g.rules β := by
                have := hnf.1
                rw [he, nul_append] at this
                cases this.2 with
                | nt _ _ h => exact h
              exact .up hr he hnβ hnf.2) (.exit A :: (s ++ [.terminal .eof]))
            refine finish (s ++ [.terminal .eof]) pos ?_ (fun ev => ihl s pos hs' hm hl' hp ev)
            exact (reaches_nt (s := s ++ [.terminal .eof]) hdp).trans (he.trans reaches_exit)
          · have hpf : PF g r x := hp'.resolve_right hnf
            cases hin : (input pos).1 with
            | err => rw [hin] at hx; simp [Tok.sym] at hx
            | eof =>
              rw [hin] at hx
              simp [Tok.sym] at hx
              subst hx
              exact absurd (firstIn_eof_rhs wf hpf) (wf.no_eof r hr)
            | tok a =>
              have hxa : x = .t a := by rw [hin] at hx; simpa [Tok.sym] using hx.symm
              subst hxa
              obtain ⟨s1, h1, h2⟩ := reaches_consume (visible := visible) hd.1 hin hpf (fun α B β he hf => .ctx hr he hf)
              have h3 := (reaches_nt (s := s ++ [.terminal .eof]) (visible := visible) hdp).trans (h2 (.exit A :: (s ++ [.terminal .eof])))
              refine finish ((s1 ++ .exit A :: s) ++ [.terminal .eof]) (pos + 1) (by simpa using h3) (consumed _ ?_ (by rw [hin]; simp))
              intro y hy
              rcases List.mem_append.mp hy with h | h
              · exact h1 y h
              · rcases List.mem_cons.mp h with rfl | h
                · simp
                · exact hs' y h

/-! ## The dispatch by the table -/

theorem table_exact {g : Grammar} {table : LLTable} (h : TableFor g g.rules table) : ExactDispatch g (tableDispatch table) := by
  have hterm : ∀ {tk : Tok} {x : Sym}, tk.sym = some x → x.isTerm := by
    intro tk x h
    cases tk <;> simp [Tok.sym] at h <;> subst h <;> trivial
  constructor
  · intro r hr tk x hx hp
    simp only [tableDispatch, hx]
    rw [(h.entries r.lhs x r.rhs (hterm hx)).mpr ⟨r, hr, rfl, rfl, hp⟩]
    rfl
  · intro A tk syms hd
    simp only [tableDispatch] at hd
    split at hd
    · simp at hd
    · rename_i x hx
      obtain ⟨p, h1, h2⟩ := Option.map_eq_some_iff.mp hd
      obtain ⟨r, h3, h4, h5, h6⟩ := (h.entries A x p (hterm hx)).mp h1
      exact ⟨r, h3, h4, by rw [h5]; exact h2.symm, x, hx, h6⟩

theorem ExactDispatch.sound {g : Grammar} (h : ExactDispatch g disp) : SoundDispatch g disp := fun A tk syms hd => by
  obtain ⟨r, h1, h2, h3, _⟩ := h.2 A tk syms hd
  exact ⟨r, h1, h2, h3⟩

end Verif
