import Mathlib.Logic.Relation
import Verif.Spec.Online
import Verif.Spec.Lexing
import Verif.Proofs.LexRun

/-! # Proofs for C83 -/

set_option autoImplicit false

namespace Verif

/-! ## One stream for a run -/

section generic
variable {σ L : Type}

/-- In a run in which the token in the queue changes only when the position grows, the tokens are those of a stream. -/
theorem stream_of_run (R : σ → σ → Prop) (hu : Relator.RightUnique R) (pos : σ → Nat) (look : σ → L)
    (hR : ∀ s s', R s s' → pos s ≤ pos s' ∧ (pos s' = pos s → look s' = look s)) (s0 : σ) :
    ∃ input : Nat → L, ∀ s, Relation.ReflTransGen R s0 s → look s = input (pos s) := by
  classical
  have key : ∀ s s', Relation.ReflTransGen R s s' → pos s ≤ pos s' ∧ (pos s' = pos s → look s' = look s) := by
    intro s s' h
    induction h with
    | refl => exact ⟨Nat.le_refl _, fun _ => rfl⟩
    | tail _ hs ih =>
      obtain ⟨h1, h2⟩ := hR _ _ hs
      exact ⟨Nat.le_trans ih.1 h1, fun he => (h2 (by omega)).trans (ih.2 (by omega))⟩
  refine ⟨fun k => if h : ∃ s, Relation.ReflTransGen R s0 s ∧ pos s = k then look h.choose else look s0, fun s hs => ?_⟩
  have hex : ∃ s', Relation.ReflTransGen R s0 s' ∧ pos s' = pos s := ⟨s, hs, rfl⟩
  dsimp only
  rw [dif_pos hex]
  obtain ⟨h1, h2⟩ := hex.choose_spec
  rcases Relation.ReflTransGen.total_of_right_unique hu hs h1 with h | h
  · exact ((key _ _ h).2 h2).symm
  · exact (key _ _ h).2 h2.symm

end generic

variable {T : Type}

/-! ## LR -/

theorem lrGoto_pos {m : LRMachine} {stack stack' : List StackSym} {pos pos' : Nat} {ev ev' : LREvent T}
    (h : lrGoto m stack pos ev = .next stack' pos' ev') : pos' = pos ∧ ev' = ev := by
  unfold lrGoto at h
  split at h
  · split at h
    · simp at h
    · simp at h; exact ⟨h.2.1.symm, h.2.2.symm⟩
    · simp at h; exact ⟨h.2.1.symm, h.2.2.symm⟩
  · simp at h

theorem lrStep_pos_le {m : LRMachine} {input : Nat → Tok × T} {stack stack' : List StackSym} {pos pos' : Nat} {ev : LREvent T}
    (h : lrStep m input stack pos = .next stack' pos' ev) : pos ≤ pos' := by
  unfold lrStep at h
  repeat' split at h
  all_goals first
    | (obtain ⟨h1, _⟩ := lrGoto_pos h; omega)
    | simp at h

theorem lrStep_look (m : LRMachine) {input : Nat → Tok × T} {look : Tok × T} (stack : List StackSym) {pos : Nat} (h : look = input pos) :
    lrStep m (fun _ => look) stack pos = lrStep m input stack pos := by
  subst h; rfl

/-- a state of the loop of the LR parser -/
structure LRFeedState (T : Type) where
  stk : List StackSym
  look : Tok × T
  pos : Nat
  events : List (LREvent T)

/-- a round of the loop -/
def LRFeedStep (m : LRMachine) (F : TokenSource (LREvent T) T) (a b : LRFeedState T) : Prop :=
  ∃ ev, lrStep m (fun _ => a.look) a.stk a.pos = .next b.stk b.pos ev ∧ b.events = a.events ++ [ev] ∧
    b.look = if b.pos = a.pos then a.look else F b.pos (a.events ++ [ev])

theorem lrFeed_stream (m : LRMachine) (F : TokenSource (LREvent T) T) : ∃ input, ∀ n, lrFeed m F n = lrParse m input n := by
  obtain ⟨input, hin⟩ := stream_of_run (LRFeedStep m F) (by
    intro a b c hab hac
    obtain ⟨ev, h1, h2, h3⟩ := hab
    obtain ⟨ev', h1', h2', h3'⟩ := hac
    rw [h1] at h1'
    simp only [LRStep.next.injEq] at h1'
    obtain ⟨e1, e2, e3⟩ := h1'
    obtain ⟨bs, bl, bp, be⟩ := b
    obtain ⟨cs, cl, cp, ce⟩ := c
    simp only at *
    subst e1 e2 e3 h2 h2' h3 h3'
    rfl) LRFeedState.pos LRFeedState.look (by
    intro a b ⟨ev, h1, h2, h3⟩
    exact ⟨lrStep_pos_le h1, fun he => by rw [h3, if_pos he]⟩) ⟨[.state m.entry], F 0 [], 0, []⟩
  refine ⟨input, fun n => ?_⟩
  have key : ∀ n stk look pos events, Relation.ReflTransGen (LRFeedStep m F) ⟨[.state m.entry], F 0 [], 0, []⟩ ⟨stk, look, pos, events⟩ →
      lrFeedRun m F n stk look pos events = lrRun m input n stk pos events := by
    intro n
    induction n with
    | zero => intros; rfl
    | succ n ih =>
      intro stk look pos events hr
      have hl := hin _ hr
      simp only at hl
      unfold lrFeedRun lrRun
      rw [lrStep_look m stk hl]
      cases hs : lrStep m input stk pos with
      | done => rfl
      | unexpected e => rfl
      | panic ev => rfl
      | next stk' pos' ev =>
        refine ih _ _ _ _ (hr.tail ⟨ev, ?_, rfl, rfl⟩)
        rw [← hs]
        exact lrStep_look m stk hl
  exact key n _ _ _ _ .refl

theorem lrRun_asked_le (m : LRMachine) (input : Nat → Tok × T) : ∀ n stk pos (ev : List (LREvent T)), pos ≤ (lrRun m input n stk pos ev).asked := by
  intro n
  induction n with
  | zero => intros; exact Nat.le_refl _
  | succ n ih =>
    intro stk pos ev
    unfold lrRun
    split
    · exact Nat.le_refl _
    · exact Nat.le_refl _
    · exact Nat.le_refl _
    · rename_i hs; exact Nat.le_trans (lrStep_pos_le hs) (ih _ _ _)

theorem lrRun_online (m : LRMachine) {input input' : Nat → Tok × T} : ∀ n stk pos (ev : List (LREvent T)),
    (∀ i, i ≤ (lrRun m input n stk pos ev).asked → input' i = input i) → lrRun m input' n stk pos ev = lrRun m input n stk pos ev := by
  intro n
  induction n with
  | zero => intros; rfl
  | succ n ih =>
    intro stk pos ev h
    have hp := h pos (lrRun_asked_le _ _ _ _ _ _)
    have hs : lrStep m input' stk pos = lrStep m input stk pos := (lrStep_look m stk hp.symm).symm.trans (lrStep_look m stk rfl)
    unfold lrRun at h ⊢
    rw [hs]
    cases hs' : lrStep m input stk pos with
    | done => rfl
    | unexpected e => rfl
    | panic ev => rfl
    | next stk' pos' ev' =>
      rw [hs'] at h
      exact ih _ _ _ h

theorem lrFeedRun_stream (m : LRMachine) (input : Nat → Tok × T) : ∀ n stk pos (ev : List (LREvent T)),
    lrFeedRun m (fun k _ => input k) n stk (input pos) pos ev = lrRun m input n stk pos ev := by
  intro n
  induction n with
  | zero => intros; rfl
  | succ n ih =>
    intro stk pos ev
    unfold lrFeedRun lrRun
    rw [lrStep_look m stk rfl]
    cases hs : lrStep m input stk pos with
    | done => rfl
    | unexpected e => rfl
    | panic ev => rfl
    | next stk' pos' ev' =>
      simp only
      rw [show (if pos' = pos then input pos else input pos') = input pos' by split <;> simp_all]
      exact ih _ _ _

theorem lrStep_event {m : LRMachine} {input : Nat → Tok × T} {stack stack' : List StackSym} {pos pos' : Nat} {ev : LREvent T}
    (h : lrStep m input stack pos = .next stack' pos' ev) : (pos' = pos ∧ ∃ i, ev = .reduce i) ∨ (pos' = pos + 1 ∧ ∃ t d, ev = .shift t d) := by
  unfold lrStep at h
  repeat' split at h
  all_goals first
    | (obtain ⟨h1, h2⟩ := lrGoto_pos h; first | exact .inl ⟨h1, _, h2⟩ | exact .inr ⟨h1, _, _, h2⟩)
    | simp at h

theorem lrFeedRun_calls (m : LRMachine) {F F' : TokenSource (LREvent T) T}
    (hF : ∀ ev t d, F ((shiftsOf ev).length + 1) (ev ++ [.shift t d]) = F' ((shiftsOf ev).length + 1) (ev ++ [.shift t d])) :
    ∀ n stk look pos (ev : List (LREvent T)), (shiftsOf ev).length = pos → lrFeedRun m F n stk look pos ev = lrFeedRun m F' n stk look pos ev := by
  intro n
  induction n with
  | zero => intros; rfl
  | succ n ih =>
    intro stk look pos ev hp
    unfold lrFeedRun
    cases hs : lrStep m (fun _ => look) stk pos with
    | done => rfl
    | unexpected e => rfl
    | panic ev => rfl
    | next stk' pos' ev' =>
      simp only
      rcases lrStep_event hs with ⟨rfl, i, rfl⟩ | ⟨rfl, t, d, rfl⟩
      · rw [if_pos rfl, if_pos rfl]
        exact ih _ _ _ _ (by simpa [shiftsOf] using hp)
      · rw [if_neg (by omega), if_neg (by omega), ← hp, hF ev t d]
        exact ih _ _ _ _ (by simp [shiftsOf])

/-! ## LL -/

theorem llStep_event {disp : Dispatch} {visible : Nat → Bool} {input : Nat → Tok × T} {stack stack' : List LLSym} {pos pos' : Nat} {ev : Option (LLEvent T)}
    (h : llStep disp visible input stack pos = .next stack' pos' ev) :
    (pos' = pos ∧ ∀ t d, ev ≠ some (.token t d)) ∨ (pos' = pos + 1 ∧ ∃ t d, ev = some (.token t d)) := by
  unfold llStep at h
  repeat' split at h
  all_goals first
    | (simp only [LLStep.next.injEq] at h
       first
       | exact .inr ⟨h.2.1.symm, _, _, h.2.2.symm⟩
       | exact .inl ⟨h.2.1.symm, fun t d => by rw [← h.2.2]; simp⟩)
    | simp at h

theorem llFeedRun_calls (disp : Dispatch) (visible : Nat → Bool) {F F' : TokenSource (LLEvent T) T}
    (hF : ∀ ev t d, F ((tokensOf ev).length + 1) (ev ++ [.token t d]) = F' ((tokensOf ev).length + 1) (ev ++ [.token t d])) :
    ∀ n stk look pos (ev : List (LLEvent T)), (tokensOf ev).length = pos → llFeedRun disp visible F n stk look pos ev = llFeedRun disp visible F' n stk look pos ev := by
  intro n
  induction n with
  | zero => intros; rfl
  | succ n ih =>
    intro stk look pos ev hp
    unfold llFeedRun
    cases hs : llStep disp visible (fun _ => look) stk pos with
    | done => rfl
    | error => rfl
    | next stk' pos' ev' =>
      simp only
      rcases llStep_event hs with ⟨rfl, hne⟩ | ⟨rfl, t, d, rfl⟩
      · rw [if_pos rfl, if_pos rfl]
        refine ih _ _ _ _ ?_
        rw [← hp]
        cases ev' with
        | none => simp
        | some e =>
          cases e with
          | token t d => exact absurd rfl (hne t d)
          | enter i => simp [tokensOf]
          | exit i => simp [tokensOf]
      · rw [if_neg (by omega), if_neg (by omega), ← hp, Option.toList_some, hF ev t d]
        exact ih _ _ _ _ (by simp [tokensOf])

theorem llFeedRun_stream (disp : Dispatch) (visible : Nat → Bool) (input : Nat → Tok × T) : ∀ n stk pos (ev : List (LLEvent T)),
    llFeedRun disp visible (fun k _ => input k) n stk (input pos) pos ev = llRun disp visible input n stk pos ev := by
  intro n
  induction n with
  | zero => intros; rfl
  | succ n ih =>
    intro stk pos ev
    unfold llFeedRun llRun
    rw [show llStep disp visible (fun _ => input pos) stk pos = llStep disp visible input stk pos from rfl]
    cases hs : llStep disp visible input stk pos with
    | done => rfl
    | error => rfl
    | next stk' pos' ev' =>
      simp only
      rw [show (if pos' = pos then input pos else input pos') = input pos' by split <;> simp_all]
      exact ih _ _ _

theorem llStep_pos_le {disp : Dispatch} {visible : Nat → Bool} {input : Nat → Tok × T} {stack stack' : List LLSym} {pos pos' : Nat} {ev : Option (LLEvent T)}
    (h : llStep disp visible input stack pos = .next stack' pos' ev) : pos ≤ pos' := by
  unfold llStep at h
  repeat' split at h
  all_goals first
    | (simp only [LLStep.next.injEq] at h; omega)
    | simp at h

theorem llStep_look (disp : Dispatch) (visible : Nat → Bool) {input : Nat → Tok × T} {look : Tok × T} (stack : List LLSym) {pos : Nat} (h : look = input pos) :
    llStep disp visible (fun _ => look) stack pos = llStep disp visible input stack pos := by
  subst h; rfl

/-- a state of the loop of the LL parser -/
structure LLFeedState (T : Type) where
  stk : List LLSym
  look : Tok × T
  pos : Nat
  events : List (LLEvent T)

/-- a round of the loop -/
def LLFeedStep (disp : Dispatch) (visible : Nat → Bool) (F : TokenSource (LLEvent T) T) (a b : LLFeedState T) : Prop :=
  ∃ ev, llStep disp visible (fun _ => a.look) a.stk a.pos = .next b.stk b.pos ev ∧ b.events = a.events ++ ev.toList ∧
    b.look = if b.pos = a.pos then a.look else F b.pos (a.events ++ ev.toList)

theorem llFeed_stream (disp : Dispatch) (visible : Nat → Bool) (entry : Nat) (F : TokenSource (LLEvent T) T) :
    ∃ input, ∀ n, llFeed disp visible entry F n = llParse disp visible entry input n := by
  obtain ⟨input, hin⟩ := stream_of_run (LLFeedStep disp visible F) (by
    intro a b c hab hac
    obtain ⟨ev, h1, h2, h3⟩ := hab
    obtain ⟨ev', h1', h2', h3'⟩ := hac
    rw [h1] at h1'
    simp only [LLStep.next.injEq] at h1'
    obtain ⟨e1, e2, e3⟩ := h1'
    obtain ⟨bs, bl, bp, be⟩ := b
    obtain ⟨cs, cl, cp, ce⟩ := c
    simp only at *
    subst e1 e2 e3 h2 h2' h3 h3'
    rfl) LLFeedState.pos LLFeedState.look (by
    intro a b ⟨ev, h1, h2, h3⟩
    exact ⟨llStep_pos_le h1, fun he => by rw [h3, if_pos he]⟩) ⟨[.nonTerminal entry, .terminal .eof], F 0 [], 0, []⟩
  refine ⟨input, fun n => ?_⟩
  have key : ∀ n stk look pos events, Relation.ReflTransGen (LLFeedStep disp visible F) ⟨[.nonTerminal entry, .terminal .eof], F 0 [], 0, []⟩ ⟨stk, look, pos, events⟩ →
      llFeedRun disp visible F n stk look pos events = llRun disp visible input n stk pos events := by
    intro n
    induction n with
    | zero => intros; rfl
    | succ n ih =>
      intro stk look pos events hr
      have hl := hin _ hr
      simp only at hl
      unfold llFeedRun llRun
      rw [llStep_look disp visible stk hl]
      cases hs : llStep disp visible input stk pos with
      | done => rfl
      | error => rfl
      | next stk' pos' ev =>
        refine ih _ _ _ _ (hr.tail ⟨ev, ?_, rfl, rfl⟩)
        rw [← hs]
        exact llStep_look disp visible stk hl
  exact key n _ _ _ _ .refl

theorem llRun_asked_le (disp : Dispatch) (visible : Nat → Bool) (input : Nat → Tok × T) : ∀ n stk pos (ev : List (LLEvent T)) p,
    (llRun disp visible input n stk pos ev).asked? = some p → pos ≤ p := by
  intro n
  induction n with
  | zero => intro stk pos ev p h; simp [llRun, LLResult.asked?] at h
  | succ n ih =>
    intro stk pos ev p h
    unfold llRun at h
    split at h
    · simp [LLResult.asked?] at h; omega
    · simp [LLResult.asked?] at h; omega
    · rename_i hs; exact Nat.le_trans (llStep_pos_le hs) (ih _ _ _ _ h)

theorem llRun_online (disp : Dispatch) (visible : Nat → Bool) {input input' : Nat → Tok × T} : ∀ n stk pos (ev : List (LLEvent T)) p,
    (llRun disp visible input n stk pos ev).asked? = some p → (∀ i, i ≤ p → input' i = input i) →
    llRun disp visible input' n stk pos ev = llRun disp visible input n stk pos ev := by
  intro n
  induction n with
  | zero => intros; rfl
  | succ n ih =>
    intro stk pos ev p hp h
    have hp' := h pos (llRun_asked_le _ _ _ _ _ _ _ _ hp)
    have hs : llStep disp visible input' stk pos = llStep disp visible input stk pos :=
      (llStep_look disp visible stk hp'.symm).symm.trans (llStep_look disp visible stk rfl)
    unfold llRun at hp ⊢
    rw [hs]
    cases hs' : llStep disp visible input stk pos with
    | done => rfl
    | error => rfl
    | next stk' pos' ev' =>
      rw [hs'] at hp
      exact ih _ _ _ _ hp h

/-! ## GLR -/

theorem applyReduces_fuel_mono (m : GlrMachine) (tk : Tok) : ∀ (f : Nat) (h : GlrHeap T) (red stks : List GNode) (r : Reduced T),
    applyReduces m tk f h red stks = .ok r → ∀ f', f ≤ f' → applyReduces m tk f' h red stks = .ok r := by
  intro f
  induction f with
  | zero =>
    intro h red stks r hr f' _
    cases stks with
    | nil => unfold applyReduces at hr ⊢; exact hr
    | cons s ss => simp [applyReduces] at hr
  | succ f ih =>
    intro h red stks r hr f' hf
    cases stks with
    | nil => unfold applyReduces at hr ⊢; exact hr
    | cons s ss =>
      cases f' with
      | zero => omega
      | succ f' =>
        unfold applyReduces at hr ⊢
        cases hfold : (s :: ss).foldlM (reduceStack m tk) (⟨h, red, []⟩, []) with
        | error e => rw [hfold] at hr; simp [bind, Except.bind] at hr
        | ok st =>
          rw [hfold] at hr
          simp only [bind, Except.bind] at hr ⊢
          split
          · rename_i hc; rw [if_pos hc] at hr; exact hr
          · rename_i hc; rw [if_neg hc] at hr; exact ih _ _ _ _ hr _ (by omega)

/-- a state of the loop of the GLR parser -/
structure GlrFeedState (T : Type) where
  heap : GlrHeap T
  stks : List GNode
  look : Tok × T
  pos : Nat
  events : List (LREvent T)

/-- a round of the loop -/
def GlrFeedStep (m : GlrMachine) (F : TokenSource (LREvent T) T) (a b : GlrFeedState T) : Prop :=
  ∃ rfuel h1 red h2, applyReduces m a.look.1 rfuel a.heap [] a.stks = .ok (.ok h1 red) ∧ shiftPhase m a.look.1 a.look.2 h1 red = .ok (h2, b.stks) ∧
    b.heap = (reportPhase h2 b.stks).1 ∧ b.events = a.events ++ (reportPhase h2 b.stks).2 ∧ b.pos = a.pos + 1 ∧ b.look = F (a.pos + 1) a.events

theorem glrFeedStep_unique (m : GlrMachine) (F : TokenSource (LREvent T) T) : Relator.RightUnique (GlrFeedStep m F) := by
  intro a b c hab hac
  obtain ⟨f, h1, red, h2, e1, e2, e3, e4, e5, e6⟩ := hab
  obtain ⟨f', h1', red', h2', e1', e2', e3', e4', e5', e6'⟩ := hac
  have g1 := applyReduces_fuel_mono _ _ _ _ _ _ _ e1 (f + f') (by omega)
  have g2 := applyReduces_fuel_mono _ _ _ _ _ _ _ e1' (f + f') (by omega)
  rw [g1] at g2
  simp only [Except.ok.injEq, Reduced.ok.injEq] at g2
  obtain ⟨r1, r2⟩ := g2
  subst r1 r2
  rw [e2] at e2'
  simp only [Except.ok.injEq, Prod.mk.injEq] at e2'
  obtain ⟨r1, r2⟩ := e2'
  subst r1
  obtain ⟨bh, bs, bl, bp, be⟩ := b
  obtain ⟨ch, cs, cl, cp, ce⟩ := c
  simp only at *
  subst r2 e3 e3' e4 e4' e5 e5' e6 e6'
  rfl

theorem glrFeed_stream (m : GlrMachine) (F : TokenSource (LREvent T) T) : ∃ input, ∀ n, glrFeed m F n = glrParse m input n := by
  obtain ⟨h0, hh0⟩ : ∃ x : GlrHeap T × GNode, x = (let (h, root) := (⟨[], []⟩ : GlrHeap T).root; h.push root (some m.entry) none) := ⟨_, rfl⟩
  obtain ⟨input, hin⟩ := stream_of_run (GlrFeedStep m F) (glrFeedStep_unique m F) GlrFeedState.pos GlrFeedState.look (by
    intro a b ⟨_, _, _, _, _, _, _, _, e5, _⟩
    exact ⟨by omega, fun he => by omega⟩) ⟨h0.1, [h0.2], F 0 [], 0, []⟩
  refine ⟨input, fun n => ?_⟩
  have key : ∀ rfuel n heap stks look pos events, Relation.ReflTransGen (GlrFeedStep m F) ⟨h0.1, [h0.2], F 0 [], 0, []⟩ ⟨heap, stks, look, pos, events⟩ →
      glrFeedRun m F rfuel n heap stks look pos events = glrRun m input rfuel n heap stks pos events := by
    intro rfuel n
    induction n with
    | zero => intros; rfl
    | succ n ih =>
      intro heap stks look pos events hr
      have hl := hin _ hr
      simp only at hl
      unfold glrFeedRun glrRun
      rw [← hl]
      split
      · rfl
      · cases ha : applyReduces m look.1 rfuel heap [] stks with
        | error e => cases e <;> rfl
        | ok r =>
          cases r with
          | unexpected e => rfl
          | ok h1 red =>
            simp only
            cases hsh : shiftPhase m look.1 look.2 h1 red with
            | error e => rfl
            | ok x =>
              obtain ⟨h2, stks'⟩ := x
              exact ih _ _ _ _ _ (hr.tail ⟨rfuel, h1, red, h2, ha, hsh, rfl, rfl, rfl, rfl⟩)
  have := key n n h0.1 [h0.2] (F 0 []) 0 [] .refl
  rw [hh0] at this
  exact this

theorem glrRun_asked_le (m : GlrMachine) (input : Nat → Tok × T) (rfuel : Nat) : ∀ n h stks pos (ev : List (LREvent T)),
    pos ≤ (glrRun m input rfuel n h stks pos ev).asked := by
  intro n
  induction n with
  | zero => intros; exact Nat.le_refl _
  | succ n ih =>
    intro h stks pos ev
    unfold glrRun
    split
    · exact Nat.le_refl _
    · split
      · exact Nat.le_refl _
      · exact Nat.le_refl _
      · exact Nat.le_refl _
      · split
        · exact Nat.le_refl _
        · exact Nat.le_trans (Nat.le_succ _) (ih _ _ _ _)

theorem glrRun_online (m : GlrMachine) {input input' : Nat → Tok × T} (rfuel : Nat) : ∀ n h stks pos (ev : List (LREvent T)),
    (∀ i, i ≤ (glrRun m input rfuel n h stks pos ev).asked → input' i = input i) → glrRun m input' rfuel n h stks pos ev = glrRun m input rfuel n h stks pos ev := by
  intro n
  induction n with
  | zero => intros; rfl
  | succ n ih =>
    intro h stks pos ev ha
    have hp := ha pos (glrRun_asked_le _ _ _ _ _ _ _ _)
    unfold glrRun at ha ⊢
    rw [hp]
    split
    · rfl
    · rename_i hc
      rw [if_neg hc] at ha
      cases hr : applyReduces m (input pos).1 rfuel h [] stks with
      | error e => cases e <;> rfl
      | ok r =>
        cases r with
        | unexpected e => rfl
        | ok h1 red =>
          rw [hr] at ha
          simp only at ha ⊢
          cases hsh : shiftPhase m (input pos).1 (input pos).2 h1 red with
          | error e => rfl
          | ok x =>
            obtain ⟨h2, stks'⟩ := x
            rw [hsh] at ha
            exact ih _ _ _ _ ha

theorem glrFeedRun_stream (m : GlrMachine) (input : Nat → Tok × T) (rfuel : Nat) : ∀ n h stks pos (ev : List (LREvent T)),
    glrFeedRun m (fun k _ => input k) rfuel n h stks (input pos) pos ev = glrRun m input rfuel n h stks pos ev := by
  intro n
  induction n with
  | zero => intros; rfl
  | succ n ih =>
    intro h stks pos ev
    unfold glrFeedRun glrRun
    split
    · rfl
    · cases ha : applyReduces m (input pos).1 rfuel h [] stks with
      | error e => cases e <;> rfl
      | ok r =>
        cases r with
        | unexpected e => rfl
        | ok h1 red =>
          simp only
          cases hsh : shiftPhase m (input pos).1 (input pos).2 h1 red with
          | error e => rfl
          | ok x => exact ih _ _ _ _

/-! ## Lexer -/

theorem lexLoop_position_le (t : LexerTables) : ∀ (s : List Char) (q p : Nat) (r : LexResult) (rest : List Char) (p' : Nat),
    lexLoop t q p s = .ok (r, rest, p') → p ≤ p' := by
  intro s
  induction s with
  | nil =>
    intro q p r rest p' h
    unfold lexLoop at h
    repeat' split at h
    all_goals first | (simp at h; omega) | simp at h
  | cons c s ih =>
    intro q p r rest p' h
    unfold lexLoop at h
    repeat' split at h
    all_goals first | exact Nat.le_trans (Nat.le_add_right _ _) (ih _ _ _ _ _ h) | (simp at h; omega) | simp at h

theorem lexLoop_online (t : LexerTables) (v v' : List Char) : ∀ (u : List Char) (q p : Nat) (r : LexResult) (rest : List Char) (p' : Nat),
    lexLoop t q p (u ++ v) = .ok (r, rest, p') → p' < p + bytes u →
    ∃ u', rest = u' ++ v ∧ lexLoop t q p (u ++ v') = .ok (r, u' ++ v', p') ∧ p' + bytes u' = p + bytes u := by
  intro u
  induction u with
  | nil =>
    intro q p r rest p' h hp
    have := lexLoop_position_le _ _ _ _ _ _ _ h
    simp [bytes] at hp
    omega
  | cons c u ih =>
    intro q p r rest p' h hp
    have hb : bytes (c :: u) = c.utf8Size + bytes u := by simp [bytes]
    simp only [List.cons_append] at h ⊢
    unfold lexLoop at h ⊢
    cases ha : getAlphabetIndex t.alphabet c.toNat with
    | none =>
      rw [ha] at h
      simp only [Except.ok.injEq, Prod.mk.injEq] at h
      obtain ⟨h1, h2, h3⟩ := h
      subst h1 h2 h3
      exact ⟨c :: u, rfl, rfl, rfl⟩
    | some sym =>
      rw [ha] at h
      simp only at h ⊢
      cases hf : (lexArms t.dfa).find? (LexArm.applies q sym) with
      | none => rw [hf] at h; simp at h
      | some arm =>
        rw [hf] at h
        cases arm with
        | eof _ =>
          simp only [Except.ok.injEq, Prod.mk.injEq] at h
          obtain ⟨h1, h2, h3⟩ := h
          subst h1 h2 h3
          exact ⟨c :: u, rfl, rfl, rfl⟩
        | accept _ rule =>
          simp only [Except.ok.injEq, Prod.mk.injEq] at h
          obtain ⟨h1, h2, h3⟩ := h
          subst h1 h2 h3
          exact ⟨c :: u, rfl, rfl, rfl⟩
        | advance _ _ target =>
          obtain ⟨u', g1, g2, g3⟩ := ih _ _ _ _ _ h (by omega)
          exact ⟨u', g1, g2, by omega⟩
        | reject _ =>
          simp only at h ⊢
          cases hr : t.alphabet.ranges[sym]? with
          | none => rw [hr] at h; simp at h
          | some x =>
            rw [hr] at h
            simp only [Except.ok.injEq, Prod.mk.injEq] at h
            obtain ⟨h1, h2, h3⟩ := h
            subst h1 h2 h3
            exact ⟨c :: u, rfl, rfl, rfl⟩

theorem next_parts {t : LexerTables} {l l1 : Lexer} {r : LexResult} (h : l.next t = .ok (r, l1)) :
    lexLoop t 0 l.position l.rest = .ok (r, l1.rest, l1.position) ∧ l1.start = l.position ∧ l1.src = l.src := by
  unfold Lexer.next at h
  cases hl : lexLoop t 0 l.position l.rest with
  | error e => rw [hl] at h; simp [bind, Except.bind] at h
  | ok x =>
    obtain ⟨a, b, c⟩ := x
    rw [hl] at h
    simp only [bind, Except.bind, Except.ok.injEq, Prod.mk.injEq] at h
    obtain ⟨h1, h2⟩ := h
    subst h1 h2
    exact ⟨rfl, rfl, rfl⟩

theorem lexRun_position_le {t : LexerTables} {l l' : Lexer} {hs : List (LexResult × Lexer)} (h : LexRun t l hs l') : l.position ≤ l'.position := by
  induction h with
  | nil => exact Nat.le_refl _
  | cons h1 _ ih => exact Nat.le_trans (lexLoop_position_le _ _ _ _ _ _ _ (next_parts h1).1) ih

theorem lexRun_online {t : LexerTables} (v v' : List Char) {l l' : Lexer} {hs : List (LexResult × Lexer)} (h : LexRun t l hs l') :
    ∀ (u : List Char) (k : Lexer), l.rest = u ++ v → k.rest = u ++ v' → k.position = l.position → l'.position < l.position + bytes u →
    ∃ hs' k', LexRun t k hs' k' ∧ hs'.map seen = hs.map seen ∧ k'.position = l'.position := by
  induction h with
  | nil l => intro u k _ _ h3 _; exact ⟨[], k, .nil _, rfl, h3⟩
  | @cons l l1 l2 r hs h1 h2 ih =>
    intro u k g1 g2 g3 g4
    obtain ⟨e1, e2, e3⟩ := next_parts h1
    have hle := lexRun_position_le h2
    rw [g1] at e1
    obtain ⟨u', p1, p2, p3⟩ := lexLoop_online t v v' u _ _ _ _ _ e1 (by omega)
    have hk : k.next t = .ok (r, { k with rest := u' ++ v', start := k.position, position := l1.position }) := by
      unfold Lexer.next
      rw [g2, g3, p2]
      rfl
    obtain ⟨hs', k', q1, q2, q3⟩ := ih u' { k with rest := u' ++ v', start := k.position, position := l1.position } p1 rfl rfl (by omega)
    refine ⟨_ :: hs', k', .cons hk q1, ?_, q3⟩
    simp [seen, q2, e2, g3]

end Verif
