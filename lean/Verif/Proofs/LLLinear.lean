import Verif.Proofs.LLRun
import Verif.Proofs.LRClosure
import Verif.Proofs.GlrTermEps

/-! # The number of steps of an LL(1) parser -/

set_option autoImplicit false

namespace Verif

variable {disp : Dispatch} {g : Grammar}

/-- with lookahead `tk` the driver gets from `s` to `s'` in `k` steps and consumes `c` tokens -/
def ReachesIn (disp : Dispatch) (k : Nat) (tk : Tok) (s : List LLSym) (c : Nat) (s' : List LLSym) : Prop :=
  ∀ (T : Type) (visible : Nat → Bool) (input : Nat → Tok × T) (pos : Nat), (input pos).1 = tk →
    ∃ ev, ∀ fuel ev0, llRun disp visible input (fuel + k) s pos ev0 = llRun disp visible input fuel s' (pos + c) (ev0 ++ ev)

theorem ReachesIn.refl (tk : Tok) (s : List LLSym) : ReachesIn disp 0 tk s 0 s := fun _ _ _ _ _ => ⟨[], by simp⟩

theorem ReachesIn.trans {tk : Tok} {s1 s2 s3 : List LLSym} {k1 k2 c : Nat} (h1 : ReachesIn disp k1 tk s1 0 s2) (h2 : ReachesIn disp k2 tk s2 c s3) :
    ReachesIn disp (k1 + k2) tk s1 c s3 := by
  intro T visible input pos hp
  obtain ⟨e1, h1⟩ := h1 T visible input pos hp
  obtain ⟨e2, h2⟩ := h2 T visible input pos hp
  exact ⟨e1 ++ e2, fun fuel ev0 => by rw [Nat.add_comm k1 k2, ← Nat.add_assoc, h1, Nat.add_zero, h2, List.append_assoc]⟩

theorem reachesIn_nt {A : Nat} {tk : Tok} {s syms : List LLSym} (h : disp A tk = some syms) : ReachesIn disp 1 tk (.nonTerminal A :: s) 0 (syms ++ .exit A :: s) :=
  fun _ visible _ _ hp => ⟨(if visible A then some (LLEvent.enter A) else none).toList, fun fuel ev0 => by subst hp; simp only [llRun, llStep, h, Nat.add_zero]⟩

theorem reachesIn_exit {A : Nat} {tk : Tok} {s : List LLSym} : ReachesIn disp 1 tk (.exit A :: s) 0 s :=
  fun _ visible _ _ _ => ⟨(if visible A then some (LLEvent.exit A) else none).toList, fun fuel ev0 => by simp only [llRun, llStep, Nat.add_zero]⟩

theorem reachesIn_term {t : Tok} {s : List LLSym} : ReachesIn disp 1 t (.terminal t :: s) 1 s :=
  fun _ _ input pos hp => ⟨[.token t (input pos).2], fun fuel ev0 => by simp [llRun, llStep, hp.symm]⟩

theorem erase_in (hd : PredictiveDispatch g disp) {x : Sym} {tk : Tok} (hx : tk.sym = some x) {ss : List Sym}
    (h : Nul g.rules ss) : (∀ A, Sym.nt A ∈ ss → FollowIn g x A) → ∃ k, ∀ s, ReachesIn disp k tk (llPush id ss ++ s) 0 s := by
  induction h with
  | nil => intro _; exact ⟨0, fun s => .refl _ _⟩
  | eps _ ih => intro hf; exact ih (fun A hA => hf A (List.mem_cons_of_mem _ hA))
  | @nt r ss hr hn _ ih1 ih2 =>
    intro hf
    have hfl := hf r.lhs List.mem_cons_self
    have hdisp := hd r hr _ x hx (.inr ⟨hn, hfl⟩)
    obtain ⟨k1, h1⟩ := ih1 (fun A hA => by
      obtain ⟨α, β, he⟩ := List.append_of_mem hA
      have hnβ : Nul g.rules β := by
        rw [he, nul_append] at hn
        cases hn.2 with
        | nt _ _ h => exact h
      exact .up hr he hnβ hfl)
    obtain ⟨k2, h2⟩ := ih2 (fun A hA => hf A (List.mem_cons_of_mem _ hA))
    exact ⟨_, fun s => (reachesIn_nt hdisp).trans ((h1 _).trans (reachesIn_exit.trans (h2 s)))⟩

theorem consume_in (hd : PredictiveDispatch g disp) {a : Nat} {ss : List Sym}
    (h : FirstIn g.rules (.t a) ss) : (∀ α A β, ss = α ++ .nt A :: β → FirstIn g.rules (.t a) β → FollowIn g (.t a) A) →
    ∃ k s', NoEnd s' ∧ ∀ s, ReachesIn disp k (.tok a) (llPush id ss ++ s) 1 (s' ++ s) := by
  have hsym : (Tok.tok a).sym = some (.t a) := rfl
  have htail : ∀ {y : Sym} {ss : List Sym}, (∀ α A β, y :: ss = α ++ .nt A :: β → FirstIn g.rules (.t a) β → FollowIn g (.t a) A) →
      ∀ α A β, ss = α ++ .nt A :: β → FirstIn g.rules (.t a) β → FollowIn g (.t a) A :=
    fun {y _} h α A β he => h (y :: α) A β (by rw [he]; rfl)
  induction h with
  | @here ss => intro _; exact ⟨1, llPush id ss, noEnd_push ss, fun s => reachesIn_term⟩
  | eps _ ih => intro hc; exact ih (htail hc)
  | @ntHere r ss hr hf ih =>
    intro hc
    obtain ⟨k, s', h1, h2⟩ := ih (fun α A β he hf => .ctx hr he hf)
    refine ⟨1 + k, s' ++ .exit r.lhs :: llPush id ss, ?_, ?_⟩
    · intro x hxm
      rcases List.mem_append.mp hxm with h | h
      · exact h1 x h
      · rcases List.mem_cons.mp h with rfl | h
        · simp
        · exact noEnd_push ss x h
    · intro s
      have := (reachesIn_nt (s := llPush id ss ++ s) (hd r hr _ _ hsym (.inl hf))).trans (h2 _)
      simpa [llPush] using this
  | @ntSkip r ss hr hn hf ih =>
    intro hc
    obtain ⟨k, s', h1, h2⟩ := ih (htail hc)
    have hfl := hc [] r.lhs ss rfl hf
    obtain ⟨k0, he⟩ := erase_in hd hsym (Nul.nt hr hn .nil) (by simpa using hfl)
    exact ⟨k0 + k, s', h1, fun s => (he (llPush id ss ++ s)).trans (h2 s)⟩

/-- what becomes of a non-terminal on the stack: it is erased, or a token is consumed -/
structure LLOutcome (disp : Dispatch) (A : Nat) (tk : Tok) (n : Nat) : Prop where
  out : ∃ k ≤ n, (∀ s, ReachesIn disp k tk (.nonTerminal A :: s) 0 s) ∨ (tk ≠ .eof ∧ ∃ s', NoEnd s' ∧ s'.length ≤ n ∧ ∀ s, ReachesIn disp k tk (.nonTerminal A :: s) 1 (s' ++ s))

theorem ll_outcome (wf : g.WF) (hd : ExactDispatch g disp) (A : Nat) (tk : Tok) : ∃ n, ∀ syms, disp A tk = some syms → LLOutcome disp A tk n := by
  cases hdp : disp A tk with
  | none => exact ⟨0, by simp⟩
  | some syms =>
    obtain ⟨r, hr, hl2, rfl, x, hx, hp'⟩ := hd.2 _ _ _ hdp
    by_cases hnf : PO g r x
    · obtain ⟨k, he⟩ := erase_in hd.1 hx hnf.1 (fun B hB => by
        obtain ⟨α, β, he⟩ := List.append_of_mem hB
        have hnβ : Nul g.rules β := by
          have := hnf.1
          rw [he, nul_append] at this
          cases this.2 with
          | nt _ _ h => exact h
        exact .up hr he hnβ hnf.2)
      exact ⟨_, fun _ _ => ⟨_, Nat.le_refl _, .inl fun s => (reachesIn_nt (s := s) hdp).trans ((he _).trans reachesIn_exit)⟩⟩
    · have hpf : PF g r x := hp'.resolve_right hnf
      cases tk with
      | err => simp [Tok.sym] at hx
      | eof =>
        simp [Tok.sym] at hx
        subst hx
        exact absurd (firstIn_eof_rhs wf hpf) (wf.no_eof r hr)
      | tok a =>
        have hxa : x = .t a := by simpa [Tok.sym] using hx.symm
        subst hxa
        obtain ⟨k, s1, h1, h2⟩ := consume_in hd.1 hpf (fun α B β he hf => .ctx hr he hf)
        refine ⟨1 + k + (s1 ++ [LLSym.exit A]).length, fun _ _ => ⟨1 + k, by omega, .inr ⟨by simp, s1 ++ [.exit A], ?_, by omega, fun s => ?_⟩⟩⟩
        · intro y hy
          rcases List.mem_append.mp hy with h | h
          · exact h1 y h
          · simp at h; subst h; simp
        · have h3 := (reachesIn_nt (s := s) hdp).trans (h2 (.exit A :: s))
          simpa using h3

/-- the number of steps from a stack -/
theorem llRun_linear {T : Type} {visible : Nat → Bool} {input : Nat → Tok × T} {K G : Nat} (hK : 1 ≤ K) (hG : K * K + 2 ≤ G) (hout : ∀ A tk syms, disp A tk = some syms → LLOutcome disp A tk K)
    {N : Nat} (hN : (input N).1 = .eof) : ∀ (m l : Nat) (s : List LLSym) (pos : Nat), NoEnd s → pos + m = N → s.length = l → ∀ fuel ev,
      K * l + G * (m + 1) ≤ fuel → llRun disp visible input fuel (s ++ [.terminal .eof]) pos ev ≠ .fuel := by
  intro m
  induction m with
  | zero => ?_
  | succ m ihm => ?_
  all_goals
    intro l
    induction l with
    | zero => ?_
    | succ l ihl => ?_
    all_goals
      intro s pos hs hm hl fuel ev hf
      simp only [Nat.mul_add, Nat.mul_one] at hf
      obtain ⟨fuel, rfl⟩ : ∃ f, fuel = f + 2 := ⟨fuel - 2, by omega⟩
  case zero.zero | succ.zero =>
    have : s = [] := List.eq_nil_of_length_eq_zero hl
    subst this
    simp only [List.nil_append, llRun, llStep]
    split
    · simp
    · simp
    · rename_i h
      split at h
      · simp at h; obtain ⟨rfl, _, _⟩ := h; simp
      · simp at h
  all_goals
    obtain ⟨x, s, rfl⟩ : ∃ x s', s = x :: s' := by cases s with
      | nil => simp at hl
      | cons x s => exact ⟨x, s, rfl⟩
    have hs' : NoEnd s := fun y hy => hs y (List.mem_cons_of_mem _ hy)
    have hl' : s.length = l := by simpa using hl
    have hgo : ∀ (k c : Nat) (s' : List LLSym), ReachesIn disp k (input pos).1 (x :: s ++ [.terminal .eof]) c s' → k ≤ fuel + 2 →
        (∀ ev, llRun disp visible input (fuel + 2 - k) s' (pos + c) ev ≠ .fuel) → llRun disp visible input (fuel + 2) (x :: s ++ [.terminal .eof]) pos ev ≠ .fuel := by
      intro k c s' hr hle h
      obtain ⟨e, he⟩ := hr T visible input pos rfl
      have := he (fuel + 2 - k) ev
      rw [Nat.sub_add_cancel hle] at this
      rw [this]
      exact h _
    cases x with
    | exit A => exact hgo 1 0 _ reachesIn_exit (by omega) (fun ev => ihl s pos hs' hm hl' _ _ (by simp only [Nat.mul_add, Nat.mul_one]; omega))
    | terminal t =>
      by_cases ht : (input pos).1 = t
      · first
        | (have : pos = N := by omega
           subst this
           exact absurd (by rw [← ht, hN]) (hs _ List.mem_cons_self))
        | (refine hgo 1 1 (s ++ [.terminal .eof]) (by rw [ht]; exact reachesIn_term) (by omega) (fun ev => ?_)
           refine ihm s.length s (pos + 1) hs' (by omega) rfl _ _ ?_
           simp only [hl', Nat.mul_add, Nat.mul_one]
           omega)
      · simp only [List.cons_append, llRun, llStep, if_neg (fun h => ht (Eq.symm h))]
        simp
    | nonTerminal A =>
      cases hdp : disp A (input pos).1 with
      | none => simp [llRun, llStep, hdp]
      | some syms =>
        obtain ⟨k, hk, h | ⟨hne, s1, h1, h2, h3⟩⟩ := (hout _ _ _ hdp).out
        · exact hgo k 0 _ (h _) (by omega) (fun ev => ihl s pos hs' hm hl' _ _ (by simp only [Nat.mul_add, Nat.mul_one]; omega))
        · first
          | (have : pos = N := by omega
             subst this
             exact absurd hN hne)
          | (refine hgo k 1 ((s1 ++ s) ++ [.terminal .eof]) (by simpa using h3 _) (by omega) (fun ev => ?_)
             refine ihm (s1 ++ s).length (s1 ++ s) (pos + 1) ?_ (by omega) rfl _ _ ?_
             · intro y hy
               rcases List.mem_append.mp hy with h | h
               · exact h1 y h
               · exact hs' y h
             · have := Nat.mul_le_mul_left K h2
               simp only [List.length_append, hl', Nat.mul_add, Nat.mul_one]
               omega)

theorem followIn_declared (wf : g.WF) {x : Sym} (hx : x.isTerm) {A : Nat} (h : FollowIn g x A) : x = .eof ∨ x ∈ g.terminals := by
  induction h with
  | entry _ h => exact .inl h
  | ctx hr he hf =>
    rcases firstIn_declared wf hx hf with h | h
    · right
      have hm := he ▸ List.mem_append_right _ (List.mem_cons_of_mem _ h)
      match x, hx with
      | .eof, _ => exact (wf.no_eof _ hr hm).elim
      | .t a, _ => exact wf.t_declared _ hr a hm
    · exact .inr h
  | up _ _ _ _ ih => exact ih

theorem ll_linear (wf : g.WF) (hd : ExactDispatch g disp) : ∃ K, ∀ (T : Type) (visible : Nat → Bool) (E : Nat) (input : Nat → Tok × T) (N : Nat), (input N).1 = .eof →
    ∀ fuel, K * (N + 1) ≤ fuel → llParse disp visible E input fuel ≠ .fuel := by
  choose n hn using ll_outcome wf hd
  let toks := Tok.eof :: g.terminals.filterMap (fun s => match s with | .t a => some (Tok.tok a) | _ => none)
  let K := 1 + ((g.rules.map Rule.lhs).flatMap (fun A => toks.map (n A))).sum
  have hK : ∀ A tk syms, disp A tk = some syms → LLOutcome disp A tk K := by
    intro A tk syms h
    obtain ⟨k, hk, h2⟩ := (hn A tk syms h).out
    have hle : n A tk ≤ K := by
      obtain ⟨r, hr, rfl, -, x, hx, hp⟩ := hd.2 _ _ _ h
      have hterm : x.isTerm := by cases tk <;> simp [Tok.sym] at hx <;> subst hx <;> trivial
      have hmem : x = .eof ∨ x ∈ g.terminals := by
        rcases hp with hp | hp
        · rcases firstIn_declared wf hterm hp with h | h
          · match x, hterm with
            | .eof, _ => exact .inl rfl
            | .t a, _ => exact .inr (wf.t_declared _ hr a h)
          · exact .inr h
        · exact followIn_declared wf hterm hp.2
      have htk : tk ∈ toks := by
        cases tk with
        | err => simp [Tok.sym] at hx
        | eof => exact List.mem_cons_self
        | tok a =>
          simp only [Tok.sym, Option.some.injEq] at hx
          subst hx
          rcases hmem with h | h
          · cases h
          · exact List.mem_cons_of_mem _ (List.mem_filterMap.mpr ⟨.t a, h, rfl⟩)
      have := le_sum_mem (List.mem_flatMap (f := fun A => toks.map (n A)).mpr ⟨r.lhs, List.mem_map_of_mem hr, List.mem_map_of_mem (f := n r.lhs) htk⟩)
      exact Nat.le_trans this (Nat.le_add_left _ _)
    refine ⟨k, Nat.le_trans hk hle, ?_⟩
    rcases h2 with h | ⟨h1, s', h2, h3, h4⟩
    · exact .inl h
    · exact .inr ⟨h1, s', h2, Nat.le_trans h3 hle, h4⟩
  refine ⟨K + K * K + 2, fun T visible E input N hN fuel hf => ?_⟩
  have h1 : 1 ≤ K := Nat.le_add_right _ _
  refine llRun_linear (G := K * K + 2) h1 (Nat.le_refl _) hK hN N 1 [.nonTerminal E] 0 (by intro x hx; simp at hx; subst hx; simp) (by omega) rfl fuel [] ?_
  rw [show K + K * K + 2 = K + (K * K + 2) by omega, Nat.add_mul, Nat.mul_add K] at hf
  omega

end Verif
