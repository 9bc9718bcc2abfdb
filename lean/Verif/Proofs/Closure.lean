import Verif.Proofs.Collections
import Verif.Spec.Automata

/-! Epsilon closures: correctness and termination. -/

set_option linter.unusedSectionVars false

namespace Verif

variable {σ τ : Type} [Key τ]

/-- an epsilon edge -/
def Nfa.Eps (a : Nfa σ τ) (x y : Nat) : Prop := (⟨x, y, .epsilon⟩ : Edge (NfaEdge τ)) ∈ a.graph.edges

theorem mem_edgesFrom {ν ω : Type} {g : Graph ν ω} {n : Nat} {e : Edge ω} : e ∈ g.edgesFrom n ↔ e ∈ g.edges ∧ e.src = n := by
  simp [Graph.edgesFrom]

theorem res_bind_ok {ε α β : Type} {x : Except ε α} {f : α → Except ε β} {b : β} :
    (x >>= f) = .ok b ↔ ∃ a, x = .ok a ∧ f a = .ok b := by
  cases x with
  | error e => simp [bind, Except.bind]
  | ok a => simp [bind, Except.bind]

theorem res_bind_eq {ε α β : Type} {x : Except ε α} {f : α → Except ε β} {a : α} (h : x = .ok a) : (x >>= f) = f a := by
  rw [h]; rfl

/-- `foldlM` over `Except`: an invariant on the accumulator relative to the processed prefix -/
theorem foldlM_ok_inv {α β ε : Type} {f : β → α → Except ε β} {l : List α} {b b' : β} (I : List α → β → Prop)
    (h0 : I [] b) (hstep : ∀ pre x b1 b2, (∃ post, l = pre ++ x :: post) → I pre b1 → f b1 x = .ok b2 → I (pre ++ [x]) b2)
    (h : l.foldlM f b = .ok b') : I l b' := by
  have gen : ∀ (suf pre : List α) (b1 : β), l = pre ++ suf → I pre b1 → suf.foldlM f b1 = .ok b' → I l b' := by
    intro suf
    induction suf with
    | nil =>
      intro pre b1 hl hI hf
      simp only [List.foldlM_nil, pure, Except.pure, Except.ok.injEq] at hf
      subst hf
      simp only [List.append_nil] at hl
      subst hl
      exact hI
    | cons x suf ih =>
      intro pre b1 hl hI hf
      rw [List.foldlM_cons] at hf
      rcases hx : f b1 x with e | b2
      · rw [hx] at hf; cases hf
      · rw [hx] at hf
        exact ih (pre ++ [x]) b2 (by simp [hl]) (hstep pre x b1 b2 ⟨suf, hl⟩ hI hx) hf
  exact gen l [] b rfl h0 h

/-- `foldlM` over `Except` succeeds if every step does, under an invariant -/
theorem foldlM_total {α β ε : Type} {f : β → α → Except ε β} {l : List α} {b : β} (I : β → Prop)
    (h0 : I b) (hstep : ∀ x b1, x ∈ l → I b1 → ∃ b2, f b1 x = .ok b2 ∧ I b2) :
    ∃ b', l.foldlM f b = .ok b' ∧ I b' := by
  induction l generalizing b with
  | nil => exact ⟨b, rfl, h0⟩
  | cons x l ih =>
    obtain ⟨b2, h1, h2⟩ := hstep x b (by simp) h0
    obtain ⟨b', h3, h4⟩ := ih h2 (fun y b1 hy => hstep y b1 (List.mem_cons_of_mem _ hy))
    exact ⟨b', by rw [List.foldlM_cons, h1]; exact h3, h4⟩

/-- epsilon reachability -/
inductive Nfa.EpsReach (a : Nfa σ τ) : Nat → Nat → Prop
  | refl (x : Nat) : EpsReach a x x
  | step {x y z : Nat} : a.Eps x y → EpsReach a y z → EpsReach a x z

theorem Nfa.EpsReach.snoc {a : Nfa σ τ} {x y z : Nat} (h : a.EpsReach x y) (e : a.Eps y z) : a.EpsReach x z := by
  induction h with
  | refl x => exact .step e (.refl z)
  | step e' _ ih => exact .step e' (ih e)

theorem Nfa.EpsReach.path {a : Nfa σ τ} {x y z : Nat} {w : List τ} (h : a.EpsReach x y) (hp : a.Path y w z) : a.Path x w z := by
  induction h with
  | refl x => exact hp
  | step e' _ ih => exact .eps e' (ih hp)

/-- result of a closure call -/
structure ClosureOk (a : Nfa σ τ) (starts cl cl' : List Nat) : Prop where
  sub : ∀ x ∈ cl, x ∈ cl'
  begins : ∀ x ∈ starts, x ∈ cl'
  sound : ∀ x ∈ cl', x ∈ cl ∨ ∃ s ∈ starts, a.EpsReach s x
  closed : ∀ x ∈ cl', (x ∈ cl ∧ x ∉ starts) ∨ ∀ y, a.Eps x y → y ∈ cl'
  sorted : SSorted cl → SSorted cl'

theorem epsilonClosure_ok (a : Nfa σ τ) : ∀ fuel starts cl cl', a.epsilonClosure fuel starts cl = .ok cl' →
    ClosureOk a starts cl cl' := by
  intro fuel
  induction fuel with
  | zero => intro starts cl cl' h; simp [Nfa.epsilonClosure] at h
  | succ fuel ih =>
    intro starts cl cl' h
    simp only [Nfa.epsilonClosure] at h
    refine foldlM_ok_inv (fun pre c => ClosureOk a pre cl c) ?_ ?_ h
    · exact ⟨fun x h => h, by simp, fun x h => Or.inl h, fun x h => Or.inl ⟨h, by simp⟩, id⟩
    · intro pre s c1 c2 _ hI hs
      have inner := foldlM_ok_inv (fun done c => (∀ x ∈ sinsert s c1, x ∈ c) ∧
          (∀ e ∈ done, e.weight = .epsilon → e.dst ∈ c) ∧
          (∀ x ∈ c, x ∈ sinsert s c1 ∨ a.EpsReach s x) ∧
          (∀ x ∈ c, x ∈ sinsert s c1 ∨ ∀ y, a.Eps x y → y ∈ c) ∧
          (SSorted (sinsert s c1) → SSorted c)) (by
            exact ⟨fun x h => h, by simp, fun x h => Or.inl h, fun x h => Or.inl h, id⟩) (by
            intro done e d1 d2 he hd hf
            obtain ⟨post, hpost⟩ := he
            have hmem : e ∈ a.graph.edgesFrom s := by rw [hpost]; simp
            have hed := mem_edgesFrom.mp hmem
            obtain ⟨src, dst, wt⟩ := e
            simp only at hed
            obtain ⟨hed1, rfl⟩ := hed
            cases wt with
            | transition t =>
              simp only [Except.ok.injEq] at hf
              subst hf
              refine ⟨hd.1, ?_, hd.2.2.1, hd.2.2.2.1, hd.2.2.2.2⟩
              intro e he hw
              rcases List.mem_append.mp he with h1 | h1
              · exact hd.2.1 e h1 hw
              · simp at h1; subst h1; simp at hw
            | epsilon =>
              simp only at hf
              split at hf
              · rename_i hin
                simp only [Except.ok.injEq] at hf
                subst hf
                refine ⟨hd.1, ?_, hd.2.2.1, hd.2.2.2.1, hd.2.2.2.2⟩
                intro e he hw
                rcases List.mem_append.mp he with h1 | h1
                · exact hd.2.1 e h1 hw
                · simp at h1; subst h1; exact hin
              · have r := ih _ _ _ hf
                refine ⟨fun x hx => r.sub x (hd.1 x hx), ?_, ?_, ?_, fun h => r.sorted (hd.2.2.2.2 h)⟩
                · intro e he hw
                  rcases List.mem_append.mp he with h1 | h1
                  · exact r.sub _ (hd.2.1 e h1 hw)
                  · simp at h1; subst h1; exact r.begins _ (by simp)
                · intro x hx
                  rcases r.sound x hx with h1 | ⟨s', h1, h2⟩
                  · exact hd.2.2.1 x h1
                  · simp only [List.mem_singleton] at h1
                    subst h1
                    exact Or.inr (.step hed1 h2)
                · intro x hx
                  rcases r.closed x hx with ⟨h1, _⟩ | h1
                  · rcases hd.2.2.2.1 x h1 with h2 | h2
                    · exact Or.inl h2
                    · exact Or.inr (fun y hy => r.sub y (h2 y hy))
                  · exact Or.inr h1) hs
      obtain ⟨i1, i2, i3, i4, i5⟩ := inner
      have hcl : ∀ y, a.Eps s y → y ∈ c2 := fun y hy => i2 _ (mem_edgesFrom.mpr ⟨hy, rfl⟩) rfl
      refine ⟨?_, ?_, ?_, ?_, ?_⟩
      · intro x hx; exact i1 x (mem_sinsert.mpr (Or.inr (hI.sub x hx)))
      · intro x hx
        rcases List.mem_append.mp hx with h1 | h1
        · exact i1 x (mem_sinsert.mpr (Or.inr (hI.begins x h1)))
        · simp at h1; subst h1; exact i1 x (mem_sinsert.mpr (Or.inl rfl))
      · intro x hx
        rcases i3 x hx with h1 | h1
        · rcases mem_sinsert.mp h1 with rfl | h1
          · exact Or.inr ⟨x, by simp, .refl x⟩
          · rcases hI.sound x h1 with h2 | ⟨s', h2, h3⟩
            · exact Or.inl h2
            · exact Or.inr ⟨s', by simp [h2], h3⟩
        · exact Or.inr ⟨s, by simp, h1⟩
      · intro x hx
        by_cases hxs : x = s
        · subst hxs; exact Or.inr hcl
        · rcases i4 x hx with h1 | h1
          · rcases mem_sinsert.mp h1 with h1 | h1
            · exact absurd h1 hxs
            · rcases hI.closed x h1 with ⟨h2, h3⟩ | h2
              · exact Or.inl ⟨h2, by simp [h3, hxs]⟩
              · exact Or.inr (fun y hy => i1 y (mem_sinsert.mpr (Or.inr (h2 y hy))))
          · exact Or.inr h1
      · intro h; exact i5 (sinsert_sorted (hI.sorted h))

/-- number of nodes not yet in the closure -/
def missing (n : Nat) (cl : List Nat) : Nat := (List.range n).countP (fun x => ¬ x ∈ cl)

theorem missing_mono {n : Nat} {c1 c2 : List Nat} (h : ∀ x ∈ c1, x ∈ c2) : missing n c2 ≤ missing n c1 := by
  apply List.countP_mono_left
  intro x _ hx
  simp only [decide_eq_true_eq] at *
  exact fun h' => hx (h x h')

theorem countP_lt_of_mem {α : Type} {p q : α → Bool} {l : List α} (h : ∀ x ∈ l, p x = true → q x = true) {a : α} (ha : a ∈ l)
    (hp : p a = false) (hq : q a = true) : l.countP p < l.countP q := by
  induction l with
  | nil => simp at ha
  | cons b l ih =>
    rcases List.mem_cons.mp ha with rfl | ha'
    · have := List.countP_mono_left (fun x hx => h x (List.mem_cons_of_mem _ hx))
      rw [List.countP_cons_of_neg (by simp [hp]), List.countP_cons_of_pos hq]
      omega
    · have := ih (fun x hx => h x (List.mem_cons_of_mem _ hx)) ha'
      rw [List.countP_cons, List.countP_cons]
      have hb := h b (by simp)
      by_cases hpb : p b = true
      · simp [hpb, hb hpb]; exact this
      · simp [hpb]; omega

theorem missing_lt {n x : Nat} {c1 c2 : List Nat} (h : ∀ y ∈ c1, y ∈ c2) (hx : x < n) (h1 : x ∉ c1) (h2 : x ∈ c2) :
    missing n c2 < missing n c1 := by
  apply countP_lt_of_mem (a := x)
  · intro y _ hy
    simp only [decide_eq_true_eq] at *
    exact fun h' => hy (h y h')
  · simpa using hx
  · simpa using h2
  · simpa using h1

theorem epsilonClosure_total_aux (a : Nfa σ τ) (hw : a.WF) : ∀ fuel cl,
    (∀ x, x < a.graph.nodes.length → x ∉ cl → missing a.graph.nodes.length cl ≤ fuel →
      ∃ cl', a.epsilonClosure fuel [x] cl = .ok cl') ∧
    (∀ starts, missing a.graph.nodes.length cl < fuel → ∃ cl', a.epsilonClosure fuel starts cl = .ok cl') := by
  intro fuel
  induction fuel with
  | zero =>
    intro cl
    refine ⟨?_, fun _ h => absurd h (Nat.not_lt_zero _)⟩
    intro x hx hxc hm
    have : missing a.graph.nodes.length (sinsert x cl) < missing a.graph.nodes.length cl :=
      missing_lt (fun y hy => mem_sinsert.mpr (Or.inr hy)) hx hxc (mem_sinsert.mpr (Or.inl rfl))
    omega
  | succ fuel ih =>
    intro cl
    have inner : ∀ s cl1, missing a.graph.nodes.length (sinsert s cl1) ≤ fuel →
        ∃ cl', ((a.graph.edgesFrom s).foldlM (fun closure edge =>
          match edge.weight with
          | .epsilon => if edge.dst ∈ closure then .ok closure else a.epsilonClosure fuel [edge.dst] closure
          | .transition _ => .ok closure) (sinsert s cl1) : Res (List Nat)) = .ok cl' ∧
          ∀ x ∈ sinsert s cl1, x ∈ cl' := by
      intro s cl1 hm
      apply foldlM_total (fun c => ∀ x ∈ sinsert s cl1, x ∈ c) (fun x h => h)
      intro e c1 he hc1
      have hed := mem_edgesFrom.mp he
      obtain ⟨src, dst, wt⟩ := e
      cases wt with
      | transition t => exact ⟨c1, rfl, hc1⟩
      | epsilon =>
        simp only
        split
        · exact ⟨c1, rfl, hc1⟩
        · rename_i hnin
          have hlt : dst < a.graph.nodes.length := (hw _ hed.1).2
          obtain ⟨cl', h1⟩ := (ih c1).1 dst hlt hnin (Nat.le_trans (missing_mono hc1) hm)
          exact ⟨cl', h1, fun x hx => (epsilonClosure_ok a _ _ _ _ h1).sub x (hc1 x hx)⟩
    constructor
    · intro x hx hxc hm
      have hlt : missing a.graph.nodes.length (sinsert x cl) < missing a.graph.nodes.length cl :=
        missing_lt (fun y hy => mem_sinsert.mpr (Or.inr hy)) hx hxc (mem_sinsert.mpr (Or.inl rfl))
      obtain ⟨cl', h1, _⟩ := inner x cl (by omega)
      refine ⟨cl', ?_⟩
      have h2 := congrArg (fun r : Res (List Nat) => Except.bind r (fun v => Except.ok v)) h1
      simp only [Nfa.epsilonClosure, List.foldlM_cons, List.foldlM_nil]
      exact h2
    · intro starts hm
      simp only [Nfa.epsilonClosure]
      obtain ⟨b, h1, _⟩ := foldlM_total (l := starts) (b := cl)
        (f := fun closure startNode => ((a.graph.edgesFrom startNode).foldlM (fun closure edge =>
          match edge.weight with
          | .epsilon => if edge.dst ∈ closure then .ok closure else a.epsilonClosure fuel [edge.dst] closure
          | .transition _ => .ok closure) (sinsert startNode closure) : Res (List Nat)))
        (fun c => ∀ x ∈ cl, x ∈ c) (fun x h => h) (by
          intro s c1 _ hc1
          have hmm : missing a.graph.nodes.length (sinsert s c1) ≤ fuel := by
            have := missing_mono (n := a.graph.nodes.length) (c1 := cl) (c2 := sinsert s c1)
              (fun x hx => mem_sinsert.mpr (Or.inr (hc1 x hx)))
            omega
          obtain ⟨cl', h2, h3⟩ := inner s c1 hmm
          exact ⟨cl', h2, fun x hx => h3 x (mem_sinsert.mpr (Or.inr (hc1 x hx)))⟩)
      exact ⟨b, h1⟩

theorem missing_le (n : Nat) (cl : List Nat) : missing n cl ≤ n := by
  have := List.countP_le_length (p := fun x => decide (¬ x ∈ cl)) (l := List.range n)
  simpa [missing] using this

/-- the closure call of the powerset construction never runs out of fuel -/
theorem epsilonClosure_total (a : Nfa σ τ) (hw : a.WF) (starts : List Nat) :
    ∃ cl, a.epsilonClosure (a.graph.nodes.length + 1) starts [] = .ok cl := by
  apply (epsilonClosure_total_aux a hw _ _).2
  have := missing_le a.graph.nodes.length []
  omega

/-- the result of the closure call -/
def Nfa.clo (a : Nfa σ τ) (starts : List Nat) : List Nat :=
  match a.epsilonClosure (a.graph.nodes.length + 1) starts [] with
  | .ok cl => cl
  | .error _ => []

theorem clo_eq (a : Nfa σ τ) (hw : a.WF) (starts : List Nat) :
    a.epsilonClosure (a.graph.nodes.length + 1) starts [] = .ok (a.clo starts) := by
  obtain ⟨cl, h⟩ := epsilonClosure_total a hw starts
  simp [Nfa.clo, h]

theorem mem_clo (a : Nfa σ τ) (hw : a.WF) (starts : List Nat) (x : Nat) :
    x ∈ a.clo starts ↔ ∃ s ∈ starts, a.EpsReach s x := by
  have h := epsilonClosure_ok a _ _ _ _ (clo_eq a hw starts)
  constructor
  · intro hx
    rcases h.sound x hx with h1 | h1
    · simp at h1
    · exact h1
  · rintro ⟨s, hs, hr⟩
    have hs' := h.begins s hs
    have hc : ∀ x ∈ a.clo starts, ∀ y, a.Eps x y → y ∈ a.clo starts := by
      intro x hx
      rcases h.closed x hx with ⟨h1, _⟩ | h1
      · simp at h1
      · exact h1
    clear hs
    induction hr with
    | refl x => exact hs'
    | step e _ ih => exact ih (hc _ hs' _ e)

theorem clo_sorted (a : Nfa σ τ) (hw : a.WF) (starts : List Nat) : SSorted (a.clo starts) :=
  (epsilonClosure_ok a _ _ _ _ (clo_eq a hw starts)).sorted List.Pairwise.nil

theorem Nfa.EpsReach.lt {a : Nfa σ τ} (hw : a.WF) {x y : Nat} (h : a.EpsReach x y) (hx : x < a.graph.nodes.length) :
    y < a.graph.nodes.length := by
  induction h with
  | refl x => exact hx
  | step e _ ih => exact ih (hw _ e).2

end Verif
