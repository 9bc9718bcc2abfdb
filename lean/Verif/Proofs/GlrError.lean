import Verif.Proofs.GlrAgree

/-! # Where errors are reported -/

set_option autoImplicit false

namespace Verif

variable {T : Type} {g : Grammar} {kind : LRKind} {gr : LRGraph} {m : GlrMachine} {input input' : Nat → Tok × T}

theorem heads_congr {n : Nat} {c : GConf T} (h : Heads m input n c) (hj : ∀ j, j < n → input j = input' j) : Heads m input' n c := by
  induction h with
  | start => exact .start
  | @shift pos c c' h1 h2 h3 ih =>
    rw [hj pos (by omega)] at h2 ⊢
    exact .shift (ih fun j h => hj j (by omega)) h2 h3

theorem lives_congr {n : Nat} (h : Lives m input n) (hj : ∀ j, j ≤ n → input j = input' j) : Lives m input' n := by
  obtain ⟨c, c', h1, h2, h3⟩ := h
  rw [hj n (by omega)] at h2
  exact ⟨c, c', heads_congr h1 fun j h => hj j (by omega), h2, h3⟩

theorem gacc_congr {n : Nat} {e : List (LREvent T)} (h : GAcc m input n e) (hj : ∀ j, j ≤ n → input j = input' j) : GAcc m input' n e := by
  obtain ⟨c, h1, h2⟩ := h
  rw [hj n (by omega)] at h2
  exact ⟨c, heads_congr h1 fun j h => hj j (by omega), h2⟩

/-- stacks read prefixes of sentences -/
theorem heads_prefix (wf : g.WF) (hv : LoopInv g kind gr []) (hm : GFollows g gr m) (hp : Productive g) {n : Nat} {c : GConf T} (h : Heads m input n c) :
    PrefixViable g input n := by
  obtain ⟨h1, h2⟩ := heads_inv hv hm h
  cases c with
  | root _ => simp [GConf.isRoot] at h1
  | live stk ev =>
    obtain ⟨ts, h3, h4⟩ := h2
    obtain ⟨v, h5⟩ := stack_prefix wf hv.base hp h3
    exact ⟨_, v, h4.consumed, h5⟩

/-- a token that can come next is shifted, or the input is accepted -/
theorem next_lives (wf : g.WF) (hv : LoopInv g kind gr []) (hm : GFollows g gr m) (hel : EpsLeading g) (hl : EntryNotLeftRecursive g) {n : Nat} (h : NextViable g input n) :
    Lives m input n ∨ ∃ e, GAcc m input n e := by
  obtain ⟨E, hE, _⟩ := wf.entry_declared
  obtain ⟨w, ⟨hw1, hw2⟩, h⟩ := h
  have main : ∀ (w' : List (Nat × T)) (inp : Nat → Tok × T), StreamIs inp w' → Derives g.rules [g.entry] (w'.map (·.1)) → n ≤ w'.length → (∀ j, j ≤ n → inp j = input j) →
      Lives m input n ∨ ∃ e, GAcc m input n e := by
    intro w' inp hs hd hn hj
    rw [hE] at hd
    obtain ⟨t, ht, rfl⟩ := derives_tree hd
    rw [← hE] at ht
    obtain ⟨evs, ha, _⟩ := glr_complete wf hv hm hel hl ht hs
    rcases Nat.lt_or_eq_of_le hn with h | h
    · obtain ⟨c, h1, _⟩ := ha
      exact .inl (lives_congr (heads_lives h1 n h) hj)
    · rw [← h] at ha
      exact .inr ⟨_, gacc_congr ha hj⟩
  rcases h with ⟨a, v, ha, hd⟩ | ⟨he, hd⟩
  · let d := (input n).2
    let w' : List (Nat × T) := w ++ (a, d) :: v.map (fun x => (x, d))
    let inp : Nat → Tok × T := fun i => match w'[i]? with | some p => (.tok p.1, p.2) | none => (.eof, d)
    have hlen : n ≤ w'.length := by simp only [w', List.length_append]; omega
    refine main w' inp ⟨fun i p h => by simp [inp, h], by simp [inp]⟩ ?_ hlen ?_
    · have : w'.map (·.1) = w.map (·.1) ++ a :: v := by
        simp only [w', List.map_append, List.map_cons, List.map_map]
        congr 2
        exact (List.map_congr_left (fun _ _ => rfl)).trans (List.map_id v)
      rw [this]; exact hd
    · intro j hj
      rcases Nat.lt_or_eq_of_le hj with h | rfl
      · have h1 : j < w.length := by omega
        have h2 : w'[j]? = some w[j] := by simp only [w', List.getElem?_append_left h1]; simp [h1]
        simp only [inp, h2]
        exact (hw2 j w[j] (by simp [h1])).symm
      · have h2 : w'[j]? = some (a, d) := by
          simp only [w']
          rw [List.getElem?_append_right (by omega)]
          simp [hw1]
        simp only [inp, h2]
        rw [← ha]
  · refine main w input ⟨hw2, by rw [hw1]; exact he⟩ hd (by omega) (fun _ _ => rfl)

theorem glr_error (wf : g.WF) (hv : LoopInv g kind gr []) (hm : GFollows g gr m) (hel : EpsLeading g) (hl : EntryNotLeftRecursive g) {ev : List (LREvent T)} {n : Nat}
    {errs : List (List (Option Nat))} (h : Outcome m input (.unexpected ev n errs)) : ¬ NextViable g input n ∧ (Productive g → PrefixViable g input n) := by
  obtain ⟨h1, h2, _, c, h4⟩ := h
  refine ⟨fun hn => ?_, fun hp => heads_prefix wf hv hm hp h4⟩
  rcases next_lives wf hv hm hel hl hn with h | ⟨e, h⟩
  · exact h2 h
  · exact h1 n (Nat.le_refl _) e h

/-! ## Transfer to LR parsers -/

theorem lrRun_mono {lm : LRMachine} : ∀ (f : Nat) (stk : List StackSym) (pos : Nat) (ev : List (LREvent T)), (∀ e p, lrRun lm input f stk pos ev ≠ .running e p) →
    ∀ f', f ≤ f' → lrRun lm input f' stk pos ev = lrRun lm input f stk pos ev := by
  intro f
  induction f with
  | zero => intro stk pos ev h; exact absurd rfl (h _ _)
  | succ f ih =>
    intro stk pos ev h f' hf
    obtain ⟨f', rfl⟩ : ∃ k, f' = k + 1 := ⟨f' - 1, by omega⟩
    unfold lrRun at h ⊢
    cases hs : lrStep lm input stk pos with
    | done => rfl
    | unexpected _ => rfl
    | panic _ => rfl
    | next a b c =>
      simp only [hs] at h ⊢
      exact ih _ _ _ h f' (by omega)

/-- a GLR parser can be generated from the table of every LR parser -/
theorem lr_sameTable (wf : g.WF) (hne : NoEmptyRhs g) {p : LRProg} (h : LRParserFor g kind p) : ∃ p', SameTable g kind p p' := by
  obtain ⟨allow, fuel, tb, h, hp⟩ := h
  have key : ∃ gr, LoopInv g kind gr [] ∧ tb = buildTable g gr := by
    rcases h with h | ⟨cs, h⟩
    · obtain ⟨gr, h1, _, h2⟩ := generateTable_inv wf hne h
      exact ⟨gr, h1, h2⟩
    · obtain ⟨gr, h1, _, _, h2, _⟩ := generateTable_inv wf hne h
      exact ⟨gr, h1, h2⟩
  obtain ⟨gr, h1, rfl⟩ := key
  obtain ⟨p', hp'⟩ := genGlr_graph wf h1
  exact ⟨p', allow, fuel, _, h, hp, hp'⟩

theorem lr_stops_of (wf : g.WF) (hne : NoEmptyRhs g) {p : LRProg} (h : LRParserFor g kind p)
    (hstop : ∀ gr m, LoopInv g kind gr [] → GFollows g gr m → ∃ fuel, ∀ ev p, glrParse m input fuel ≠ .running ev p) :
    ∃ bound, ∀ fuel, bound ≤ fuel → ∀ ev n, lrParse p.machine input fuel ≠ .running ev n := by
  obtain ⟨p', hs⟩ := lr_sameTable wf hne h
  obtain ⟨gr, hv, hm, hr⟩ := sameTable_inv wf hne hs
  obtain ⟨f0, h1⟩ := hstop gr _ hv hm
  obtain ⟨f, hf⟩ := lr_agrees_glr (input := input) hv hm hr _ h1
  have hnr : ∀ e q, lrParse p.machine input f ≠ .running e q := by
    intro e q h
    rw [h] at hf
    cases hf
  refine ⟨f, fun fuel hfuel ev n h => ?_⟩
  unfold lrParse at h hnr
  rw [lrRun_mono f _ _ _ hnr fuel hfuel] at h
  exact hnr _ _ h

theorem lr_stops (wf : g.WF) (hne : NoEmptyRhs g) {p : LRProg} (h : LRParserFor g kind p) (he : EpsFree g) (hu : NoUnitCycle g) {w : List (Nat × T)} (hin : StreamIs input w) :
    ∃ bound, ∀ fuel, bound ≤ fuel → ∀ ev n, lrParse p.machine input fuel ≠ .running ev n :=
  lr_stops_of wf hne h fun _ _ hv hm => ⟨_, glr_stops hv hm he hu hin (Nat.le_refl _)⟩

theorem lr_error (wf : g.WF) (hne : NoEmptyRhs g) {p : LRProg} (h : LRParserFor g kind p) (hel : EpsLeading g) (hl : EntryNotLeftRecursive g) {fuel : Nat}
    {ev : List (LREvent T)} {n : Nat} {exp : List Sym} (hr : lrParse p.machine input fuel = .unexpected ev n exp) :
    ¬ NextViable g input n ∧ (Productive g → PrefixViable g input n) := by
  obtain ⟨p', hs⟩ := lr_sameTable wf hne h
  obtain ⟨gr, hv, hm, hrel⟩ := sameTable_inv wf hne hs
  have hag := glr_agrees_lr (input := input) hv hm hrel fuel (fuel + 1) (by omega) (by rw [hr]; intro e p h; cases h)
  have hout := glrParse_spec hv hm input (fuel + 1)
  rw [hr] at hag
  generalize glrParse p'.machine input (fuel + 1) = r at hag hout
  cases hag with
  | unexpected _ _ => exact glr_error wf hv hm hel hl hout

theorem lr_eof (wf : g.WF) (hne : NoEmptyRhs g) {p : LRProg} (h : LRParserFor g kind p) (hk : kind.hasLa = true) (hf : EntryFresh g) {fuel : Nat}
    {ev : List (LREvent T)} {n : Nat} (hr : lrParse p.machine input fuel = .ok ev n) : (input n).1 = .eof := by
  obtain ⟨p', hs⟩ := lr_sameTable wf hne h
  obtain ⟨gr, hv, hm, hrel⟩ := sameTable_inv wf hne hs
  have hag := glr_agrees_lr (input := input) hv hm hrel fuel (fuel + 1) (by omega) (by rw [hr]; intro e p h; cases h)
  have hout := glrParse_spec hv hm input (fuel + 1)
  rw [hr] at hag
  generalize glrParse p'.machine input (fuel + 1) = r at hag hout
  cases hag with
  | ok =>
    obtain ⟨n', h1, h2, _⟩ := hout
    obtain rfl : n = n' := by omega
    exact acc_eof hv hm (acceptEof_fresh wf hv hk hf) h2

end Verif
