import Verif.Proofs.LRStops

/-! # The number of steps of an LR parser -/

set_option autoImplicit false

namespace Verif

/-! ## Counting -/

/-- height after steps that leave `x.1` elements and push one -/
def heightAfter : Nat → List (Nat × Nat) → Nat
  | h, [] => h
  | _, x :: xs => heightAfter (x.1 + 1) xs

theorem heightAfter_append (h : Nat) (a b : List (Nat × Nat)) : heightAfter h (a ++ b) = heightAfter (heightAfter h a) b := by
  induction a generalizing h with
  | nil => rfl
  | cons x a ih => exact ih _

/-- steps that stay above where they start are at most `B`, steps that come back to one level are at most `N` -/
def Amortized (B N h : Nat) (xs : List (Nat × Nat)) : Prop :=
  ∀ a b c, xs = a ++ (b ++ c) → ((∀ x ∈ b, heightAfter h a ≤ x.1) → b.length ≤ B) ∧ (∀ L, (∀ x ∈ b, L ≤ x.1) → (b.filter (fun x => x.1 = L)).length ≤ N)

theorem Amortized.tail {B N h : Nat} {a b : List (Nat × Nat)} (H : Amortized B N h (a ++ b)) : Amortized B N (heightAfter h a) b := by
  intro x y z e
  have := H (a ++ x) y z (by rw [e]; simp)
  rwa [heightAfter_append] at this

theorem Amortized.front {B N h : Nat} {a b : List (Nat × Nat)} (H : Amortized B N h (a ++ b)) : Amortized B N h a := by
  intro x y z e
  exact H x y (z ++ b) (by rw [e]; simp)

theorem split_first {α : Type} (P : α → Prop) [DecidablePred P] (xs : List α) : (∀ x ∈ xs, P x) ∨ ∃ a x c, xs = a ++ x :: c ∧ (∀ y ∈ a, P y) ∧ ¬ P x := by
  induction xs with
  | nil => exact .inl (by simp)
  | cons x xs ih =>
    by_cases hx : P x
    · rcases ih with h | ⟨a, y, c, rfl, h1, h2⟩
      · exact .inl (by simp [hx]; exact h)
      · exact .inr ⟨x :: a, y, c, rfl, by simp [hx]; exact h1, h2⟩
    · exact .inr ⟨[], x, xs, rfl, by simp, hx⟩

theorem level_count {B N : Nat} : ∀ (k h : Nat) (xs : List (Nat × Nat)), Amortized B N h xs → (∀ x ∈ xs, h ≤ x.1 + 1) → (xs.filter (fun x => x.1 + 1 = h)).length ≤ k →
    xs.length ≤ (k + 1) * (B + 1) := by
  intro k
  induction k with
  | zero => ?_
  | succ k ih => ?_
  all_goals
    intro h xs H hlo hk
    rcases split_first (fun x : Nat × Nat => h ≤ x.1) xs with hall | ⟨a, x, c, rfl, h1, h2⟩
    · have := (H [] xs [] (by simp)).1 hall
      rw [Nat.add_mul]
      omega
    · have hx := hlo x (by simp)
      have e : x.1 + 1 = h := by omega
      have ha : a.length ≤ B := (H [] a (x :: c) rfl).1 h1
      rw [List.filter_append, List.filter_cons, if_pos (by simpa using e)] at hk
      simp only [List.length_append, List.length_cons] at hk ⊢
      first
      | omega
      | (have hc := ih h c (by
            have := Amortized.tail (a := a ++ [x]) (b := c) (h := h) (B := B) (N := N) (by simpa using H)
            rwa [heightAfter_append, heightAfter, heightAfter, e] at this) (fun y hy => hlo y (by simp [hy])) (by omega)
         rw [Nat.add_mul (k + 1)]
         omega)

theorem heightAfter_le (xs : List (Nat × Nat)) : ∀ (h : Nat), (∀ a x c, xs = a ++ x :: c → x.1 ≤ heightAfter h a) → heightAfter h xs ≤ h + xs.length := by
  induction xs with
  | nil => intro h _; simp [heightAfter]
  | cons x xs ih =>
    intro h hle
    have h1 := hle [] x xs rfl
    have h2 := ih (x.1 + 1) (fun a y c e => by have := hle (x :: a) y c (by rw [e]; rfl); exact this)
    simp only [heightAfter, List.length_cons] at h1 h2 ⊢
    omega

/-- the number of steps, with the height as potential -/
theorem amortized_count {B N C : Nat} (hC : C = (N + 1) * (B + 1)) : ∀ (h : Nat) (xs : List (Nat × Nat)), Amortized B N h xs →
    (∀ a x c, xs = a ++ x :: c → x.1 ≤ heightAfter h a) → xs.length + (C + 1) * heightAfter h xs ≤ (C + 1) * h + (C + (C + 1) * C) := by
  intro h
  induction h using Nat.strongRecOn with
  | _ h ih =>
    intro xs H hle
    have key : ∀ a : List (Nat × Nat), Amortized B N h a → (∀ x ∈ a, h ≤ x.1 + 1) → a.length ≤ C := by
      intro a Ha hlo
      rw [hC]
      refine level_count N h a Ha hlo ?_
      by_cases h0 : h = 0
      · subst h0; simp
      · have := (Ha [] a [] (by simp)).2 (h - 1) (fun x hx => by have := hlo x hx; omega)
        have e : (fun x : Nat × Nat => decide (x.1 + 1 = h)) = fun x => decide (x.1 = h - 1) := by
          funext x; congr 1; exact propext (by omega)
        rw [e]; exact this
    rcases split_first (fun x : Nat × Nat => h ≤ x.1 + 1) xs with hall | ⟨a, x, c, rfl, h1, h2⟩
    · have l1 := key xs H hall
      have l2 := heightAfter_le xs h hle
      have l3 : heightAfter h xs ≤ h + C := by omega
      have := Nat.mul_le_mul_left (C + 1) l3
      rw [Nat.mul_add] at this
      omega
    · have l1 := key a H.front h1
      have e : heightAfter h (a ++ [x]) = x.1 + 1 := by rw [heightAfter_append]; rfl
      have H' := Amortized.tail (a := a ++ [x]) (b := c) (h := h) (B := B) (N := N) (by simpa using H)
      rw [e] at H'
      have l2 := ih (x.1 + 1) (by omega) c H' (fun a' y c' hc => by
        have := hle (a ++ x :: a') y c' (by rw [hc]; simp)
        rwa [show a ++ x :: a' = (a ++ [x]) ++ a' by simp, heightAfter_append, e] at this)
      have e2 : heightAfter h (a ++ x :: c) = heightAfter (x.1 + 1) c := by
        rw [show a ++ x :: c = (a ++ [x]) ++ c by simp, heightAfter_append, e]
      rw [e2]
      simp only [List.length_append, List.length_cons]
      have l3 : x.1 + 1 + 1 ≤ h := by omega
      have := Nat.mul_le_mul_left (C + 1) l3
      rw [Nat.mul_add] at this
      omega

/-! ## Finite sequences of reductions -/

variable {T : Type} {g : Grammar} {kind : LRKind} {gr : LRGraph} {m : LRMachine} {input : Nat → Tok × T} {tk : Tok}

/-- reductions at the token `tk`, each with the number of trees it does not touch and its non-terminal -/
inductive Reds (g : Grammar) (gr : LRGraph) (m : LRMachine) (tk : Tok) : List StackSym → List (PTree T) → List (Nat × Nat) → List StackSym → List (PTree T) → Prop
  | nil (stk : List StackSym) (ts : List (PTree T)) : Reds g gr m tk stk ts [] stk ts
  | cons {stk stk1 stk2 : List StackSym} {ts ts1 ts2 : List (PTree T)} {q0 i : Nat} {r : Rule} {cs tt : List (PTree T)} {p : Nat} {rest : List StackSym} {q' : Nat}
      {xs : List (Nat × Nat)} (h : RedAt g gr m tk stk ts stk1 ts1 q0 i r cs tt p rest q') (hs : Reds g gr m tk stk1 ts1 xs stk2 ts2) :
      Reds g gr m tk stk ts ((tt.length, r.lhs) :: xs) stk2 ts2

variable {stk stk' : List StackSym} {ts ts' : List (PTree T)} {xs ys : List (Nat × Nat)}

theorem Reds.split (h : Reds g gr m tk stk ts (xs ++ ys) stk' ts') : ∃ stk1 ts1, Reds g gr m tk stk ts xs stk1 ts1 ∧ Reds g gr m tk stk1 ts1 ys stk' ts' := by
  induction xs generalizing stk ts with
  | nil => exact ⟨stk, ts, .nil _ _, h⟩
  | cons x xs ih =>
    rw [List.cons_append] at h
    cases h with
    | cons h hs =>
      obtain ⟨s1, t1, h1, h2⟩ := ih hs
      exact ⟨s1, t1, .cons h h1, h2⟩

theorem Reds.snoc (h : Reds g gr m tk stk ts xs stk' ts') {stk1 : List StackSym} {ts1 : List (PTree T)} {q0 i : Nat} {r : Rule} {cs tt : List (PTree T)} {p : Nat}
    {rest : List StackSym} {q' : Nat} (hr : RedAt g gr m tk stk' ts' stk1 ts1 q0 i r cs tt p rest q') : Reds g gr m tk stk ts (xs ++ [(tt.length, r.lhs)]) stk1 ts1 := by
  induction h with
  | nil => exact .cons hr (.nil _ _)
  | cons h _ ih => exact .cons h (ih hr)

theorem Reds.height (h : Reds g gr m tk stk ts xs stk' ts') : ts'.length = heightAfter ts.length xs := by
  induction h with
  | nil => rfl
  | cons h _ ih => rw [ih, h.trees']; rfl

theorem Reds.low (h : Reds g gr m tk stk ts xs stk' ts') {a c : List (Nat × Nat)} {x : Nat × Nat} (e : xs = a ++ x :: c) : x.1 ≤ heightAfter ts.length a := by
  rw [e] at h
  obtain ⟨s1, t1, h1, h2⟩ := h.split
  rw [← h1.height]
  cases h2 with
  | cons hr _ => rw [hr.trees]; simp

theorem Reds.ok (h : Reds g gr m tk stk ts xs stk' ts') (hok : StackOk g gr stk ts) : StackOk g gr stk' ts' := by
  induction h with
  | nil => exact hok
  | cons h _ ih => exact ih h.ok'

theorem Reds.keeps (h : Reds g gr m tk stk ts xs stk' ts') {τ0 base : List (PTree T)} (hb : ts = τ0 ++ base) (hlo : ∀ x ∈ xs, base.length ≤ x.1) : ∃ τ, ts' = τ ++ base := by
  induction h generalizing τ0 with
  | nil => exact ⟨τ0, hb⟩
  | @cons _ _ _ ts _ _ _ _ _ _ tt _ _ _ _ h _ ih =>
    have s2 : base <:+ tt := by
      refine List.suffix_of_suffix_length_le (l₃ := ts) ?_ ?_ (hlo _ (List.mem_cons_self ..))
      · rw [hb]; exact List.suffix_append _ _
      · rw [h.trees]; exact List.suffix_append _ _
    obtain ⟨τ', e2⟩ := s2
    exact ih (by rw [h.trees', ← e2]; rfl) (τ0 := _ :: τ') (fun x hx => hlo x (List.mem_cons_of_mem _ hx))

theorem Reds.tokens (h : Reds g gr m tk stk ts xs stk' ts') :
    PTree.tokensList ts'.reverse = PTree.tokensList ts.reverse ∧ PTree.innerList ts' = PTree.innerList ts + xs.length := by
  induction h with
  | nil => exact ⟨rfl, rfl⟩
  | cons h _ ih =>
    rw [ih.1, ih.2, h.trees', h.trees]
    refine ⟨by simp [tokensList_append', PTree.tokensList, PTree.tokens], ?_⟩
    rw [innerList_append, innerList_reverse]
    simp only [PTree.innerList, PTree.inner, List.length_cons]
    omega

/-- the part of the stack that is not touched can be exchanged -/
theorem Reds.transplant (h : Reds g gr m tk stk ts xs stk' ts') {q : Nat} {σ0 R1 : List StackSym} (hq : stk = σ0 ++ .state q :: R1) {b : Nat}
    (hb : (StackSym.state q :: R1).length = 2 * b + 1) (hlo : ∀ x ∈ xs, b ≤ x.1) {inp : Nat → Tok × T} {pos : Nat}
    (hact : ∀ q0 i, q0 < gr.sets.length → m.nextAction q0 tk = .act (.reduce i) → m.nextAction q0 (inp pos).1 = .act (.reduce i)) (R2 : List StackSym) (ev : List (LREvent T)) :
    ∃ σ ev', stk' = σ ++ .state q :: R1 ∧ ∀ fuel, lrRun m inp (fuel + xs.length) (σ0 ++ .state q :: R2) pos ev = lrRun m inp fuel (σ ++ .state q :: R2) pos ev' := by
  induction h generalizing σ0 ev with
  | nil => exact ⟨σ0, ev, hq, fun fuel => rfl⟩
  | @cons stk stk1 stk2 ts ts1 ts2 q0 i r cs tt p rest q' xs hs hrest ih =>
    have h3 := hlo _ (List.mem_cons_self ..)
    have l1 := stackOk_length hs.okPop
    have l3 := stackOk_length hs.ok
    have hlen : 2 * cs.length ≤ σ0.length := by
      have e1 := congrArg List.length hq
      have e2 := congrArg List.length hs.trees
      simp only [List.length_append, List.length_cons, List.length_reverse] at e1 e2 hb
      simp only at h3
      omega
    have hdrop : ∀ R : List StackSym, (σ0 ++ R).drop (2 * cs.length) = σ0.drop (2 * cs.length) ++ R := fun R => List.drop_append_of_le_length hlen
    have hpop := hs.pop
    rw [hq, hdrop] at hpop
    obtain ⟨rest0, htop⟩ := hs.top
    rw [hq] at htop
    obtain ⟨Y, hY⟩ := head_swap (R2 := R2) htop
    obtain ⟨Z, hZ⟩ := head_swap (R2 := R2) hpop
    obtain ⟨σ, ev', h1, h2⟩ := ih (σ0 := .state q' :: .nonTerminal r.lhs :: σ0.drop (2 * cs.length)) (by rw [hs.pushed, ← hpop]; simp)
      (fun x hx => hlo x (List.mem_cons_of_mem _ hx)) (ev ++ [.reduce i])
    refine ⟨σ, ev', h1, fun fuel => ?_⟩
    rw [List.length_cons, ← Nat.add_assoc, lrRun, ← h2 fuel]
    have hle : 2 * cs.length ≤ (StackSym.state q0 :: Y).length := by rw [← hY, List.length_append]; omega
    have hstep : lrStep m inp (σ0 ++ .state q :: R2) pos = .next (.state q' :: .nonTerminal r.lhs :: (σ0.drop (2 * cs.length) ++ .state q :: R2)) pos (.reduce i) := by
      rw [hY, lrStep_reduce (hact _ _ hs.range hs.act) hs.red hle, ← hY, hdrop, hZ]
      simp only [lrGoto, hs.goto]
    rw [hstep]
    rfl

/-- how long the stack can stay above a state -/
theorem growth_bound (wf : g.WF) (hv : LoopInv g kind gr []) (hj : Justified g kind gr) (hm : Follows g gr m) (hm' : Obeys g gr m) (hel : EpsLeading g)
    (hl : EntryNotLeftRecursive g) (hp : Productive g) (d : T) (tk : Tok) (q : Nat) : ∃ N, ∀ (R1 stk' : List StackSym) (ts ts' : List (PTree T)) (xs : List (Nat × Nat)),
    Reds g gr m tk (.state q :: R1) ts xs stk' ts' → (∀ x ∈ xs, ts.length ≤ x.1) → xs.length ≤ N := by
  by_cases hex : q < gr.sets.length ∧ ∃ i, m.nextAction q tk = .act (.reduce i)
  · obtain ⟨hrange, i, hact⟩ := hex
    obtain ⟨s, it, x, h1, h2, h3, h4, h5, h6⟩ := hm.reduce _ _ _ hrange hact
    obtain ⟨γ, k1, k2⟩ := hj _ _ h1 _ h2
    obtain ⟨q1, R2, s1, u, e1, e2, e3, e4, e5⟩ := item_reached wf hv hm' hel hl hp d k2
    have := leads_det hv.base e1 k1
    subst this
    obtain ⟨δ, hδ⟩ := (fits_of_after wf k2).rest wf
    have hdrop : (ruleRhs g it.rule).drop it.dot = [] := by
      unfold Item.after at h4
      exact List.drop_eq_nil_of_le (List.getElem?_eq_none_iff.mp h4)
    rw [hdrop] at hδ
    have hla := k2.la wf
    have main : ∃ (b : Sym) (tk' : Tok), b ∈ g.terminals ++ [Sym.eof] ∧ tk'.sym = some b ∧ CanContinue g (u.map (·.1)) b ∧ NextOk g it b ∧
        ∀ q0 i, q0 < gr.sets.length → m.nextAction q0 tk = .act (.reduce i) → m.nextAction q0 tk' = .act (.reduce i) := by
      cases hi : it.la with
      | some l =>
        rw [hi] at h6 hδ hla
        simp only [LaMatch] at h6
        subst h6
        have hmem : l ∈ g.terminals ++ [Sym.eof] := by
          unfold LaOk at hla
          split at hla
          · obtain ⟨a, e, ha⟩ := hla
            cases e
            rcases ha with rfl | ha <;> simp [*]
          · cases hla
        have hlt := isTerm_declared wf hmem
        refine ⟨l, tk, hmem, h5, continue_of_derives wf hp e4 hlt (δ := δ) (by simpa [strip] using hδ), ?_, fun _ _ _ h => h⟩
        intro l' hl'
        rw [hi] at hl'
        cases hl'
        rw [hdrop]
        refine ⟨[], ?_⟩
        have : strip ([] ++ [l]) = [l] := by rw [List.nil_append, strip_cons (by rintro rfl; exact hlt)]; rfl
        rw [this]
        exact .refl
      | none =>
        rw [hi] at hδ hla
        have hk : kind.hasLa = false := by
          unfold LaOk at hla
          split at hla
          · obtain ⟨a, e, _⟩ := hla; cases e
          · rename_i hh; simpa using hh
        obtain ⟨b, hb, hc⟩ := continue_some wf hp e4 (δ := δ) (by simpa [strip] using hδ)
        obtain ⟨tk', htk⟩ := sym_of_mem wf hb
        refine ⟨b, tk', hb, htk, hc, (fun l hl => by rw [hi] at hl; cases hl), fun q0 i hq ha => ?_⟩
        obtain ⟨s', it', x', a1, a2, a3, a4, _, _⟩ := hm.reduce q0 _ i hq ha
        have hla' := (hv.base.items q0 s' a1 it' a2).la
        unfold LaOk at hla'
        rw [if_neg (by simp [hk])] at hla'
        refine hm'.reduce q0 tk' i s' it' b a1 a2 a3 a4 htk hb ?_
        rw [hla']
        simp only [LaMatch]
        simp only [Grammar.symbols, List.mem_append] at hb ⊢; tauto
    obtain ⟨b, tk', b1, b2, b3, b4, b5⟩ := main
    let inp0 : Nat → Tok × T := fun i => match u[i]? with | some p => (.tok p.1, p.2) | none => (tk', d)
    have hr0 : ∀ i p, u[i]? = some p → inp0 i = (.tok p.1, p.2) := fun i p h => by simp [inp0, h]
    have ht0 : (inp0 u.length).1 = tk' := by simp [inp0]
    obtain ⟨inp, hsame, N, ev, ps, hN⟩ := viable_accepts wf hv hm' hel hl (nextViable_of_continue (input := inp0) ⟨rfl, hr0⟩ (by rw [ht0]; exact b2) b3)
    have ht : (inp u.length).1 = tk' := by rw [← hsame _ (Nat.le_refl _)]; exact ht0
    obtain ⟨evs, n1, hg⟩ := e5 inp b (fun i p hp => by rw [Nat.zero_add, ← hsame i (Nat.le_of_lt (getElem?_lt hp))]; exact hr0 i p hp) (by rw [ht]; exact b2) b1 b4
    refine ⟨N, fun R1 stk' ts ts' xs hred hlo => ?_⟩
    by_contra hlt
    have hne : xs ≠ [] := by rintro rfl; simp at hlt
    have hlen : (StackSym.state q1 :: R1).length = 2 * ts.length + 1 := by
      cases hred with
      | nil => exact absurd rfl hne
      | cons h _ => exact stackOk_length h.ok
    obtain ⟨σ, ev', _, hrun⟩ := hred.transplant (σ0 := []) rfl hlen hlo (inp := inp) (pos := u.length) (by rw [ht]; exact b5) R2 evs
    have r1 := hN (xs.length + n1) (by omega)
    unfold lrParse at r1
    rw [hm.entry, hg, List.nil_append] at r1
    have r2 := hrun 0
    rw [Nat.zero_add, List.nil_append, r1] at r2
    cases r2
  · refine ⟨0, fun R1 stk' ts ts' xs hred _ => ?_⟩
    cases hred with
    | nil => simp
    | cons h _ =>
      obtain ⟨_, htop⟩ := h.top
      simp only [List.cons.injEq, StackSym.state.injEq] at htop
      exact absurd ⟨by rw [htop.1]; exact h.range, _, by rw [htop.1]; exact h.act⟩ hex

/-- a tree on the stack is determined up to its size by its root, its tokens and what is below -/
theorem top_inner (wf : g.WF) (hv : LoopInv g kind gr []) (hm' : Obeys g gr m) (hel : EpsLeading g) (hl : EntryNotLeftRecursive g) (hp : Productive g) (d : T)
    {stk1 stk2 : List StackSym} {t1 t2 : PTree T} {tt : List (PTree T)} (ok : StackOk g gr stk1 (t1 :: tt)) (ok2 : StackOk g gr stk2 (t2 :: tt))
    (hroot : t1.root = t2.root) (htok : t1.tokens = t2.tokens) : t1.inner = t2.inner := by
  obtain ⟨qq, R, hqq⟩ := ok.head
  rw [hqq] at ok
  obtain ⟨s, hs⟩ := ok.range hv.base
  obtain ⟨it, hit⟩ := List.exists_mem_of_ne_nil _ (hv.base.nonempty _ _ hs)
  obtain ⟨δ, hδ⟩ := stack_viable wf hv.base ok qq R s rfl hs (it.rule, it.dot) ⟨it, hit, rfl, rfl⟩
  have hdecl := rewrites_declared wf hδ (by
    intro s hs
    simp at hs; subst hs
    obtain ⟨A, h1, h2⟩ := wf.entry_declared
    rw [h1]; exact List.mem_append_right _ h2)
  rw [List.append_assoc] at hδ hdecl
  obtain ⟨v, hv'⟩ := derives_some wf hp _ (fun s hs => hdecl s (List.mem_append_right _ hs))
  obtain ⟨F, hF, -⟩ := derives_forest hv' (v.map (fun x => (x, d))) (by simp [Function.comp_def])
  have f1 := forest_append (stackOk_forest ok) hF
  have f2 := forest_append (stackOk_forest ok2) hF
  have hroots : ((t2 :: tt).reverse.map PTree.root) = ((t1 :: tt).reverse.map PTree.root) := by simp [hroot]
  rw [hroots] at f2
  obtain ⟨K, hK⟩ := forest_rewrites (T := T) hδ
  obtain ⟨F1, a1, a2, a3⟩ := hK _ f1
  obtain ⟨F2, b1, b2, b3⟩ := hK _ f2
  obtain ⟨E, hE, _⟩ := wf.entry_declared
  rw [hE] at a1 b1
  obtain ⟨x1, rfl⟩ := forest_one a1
  obtain ⟨x2, rfl⟩ := forest_one b1
  rw [← hE] at a1 b1
  have hi := same_inner wf hv hm' hel hl d a1 b1 (by
    simp only [PTree.tokensList, List.append_nil] at a2 b2
    rw [a2, b2]
    simp [tokensList_append', PTree.tokensList, htok])
  simp only [PTree.innerList, innerList_append, innerList_reverse, List.reverse_cons, Nat.add_zero] at a3 b3
  omega

/-- no non-terminal comes twice at one level -/
theorem Reds.pairwise (wf : g.WF) (hv : LoopInv g kind gr []) (hm' : Obeys g gr m) (hel : EpsLeading g) (hl : EntryNotLeftRecursive g) (hp : Productive g) (d : T) {L : Nat}
    (h : Reds g gr m tk stk ts xs stk' ts') (hlo : ∀ x ∈ xs, L ≤ x.1) : xs.Pairwise (fun x y => x.1 = L → y.1 = L → x.2 ≠ y.2) := by
  induction h with
  | nil => exact .nil
  | @cons stk stk1 stk2 ts ts1 ts2 q0 i r cs tt p rest q' xs h hs ih =>
    refine .cons (fun y hy h1 h2 h3 => ?_) (ih (fun x hx => hlo x (List.mem_cons_of_mem _ hx)))
    obtain ⟨v, w, rfl⟩ := List.append_of_mem hy
    obtain ⟨sa, ta, ra, rb⟩ := hs.split
    simp only at h1 h3
    obtain ⟨τ, hτ⟩ := ra.keeps (τ0 := [.node r cs]) (base := tt) (by rw [h.trees']; rfl) (fun x hx => by rw [h1]; exact hlo x (by simp [hx]))
    have htok := ra.tokens
    cases rb with
    | @cons _ sb _ _ tb _ q0b ib r' cs' tt' _ _ _ _ hb _ =>
      simp only at h2 h3
      have hlen : tt'.length = tt.length := h2.trans h1.symm
      have he : tt' = tt := by
        have := hb.trees
        rw [hτ] at this
        exact (List.append_inj' this hlen.symm).2.symm
      subst he
      have ok1 := h.ok'
      have ok2 := hb.ok'
      rw [h.trees'] at ok1 htok
      rw [hb.trees'] at ok2
      have hstep := (Reds.cons hb (.nil _ _)).tokens
      rw [hb.trees'] at hstep
      have t1 := hstep.1.trans htok.1
      have t2 := hstep.2
      rw [htok.2] at t2
      simp only [List.reverse_cons, tokensList_append', PTree.tokensList, PTree.innerList, List.append_nil, List.length_cons, List.length_nil] at t1 t2
      have := top_inner wf hv hm' hel hl hp d ok1 ok2 (by simp [PTree.root, h3]) (List.append_cancel_left t1).symm
      omega

theorem count_level {rules : List Rule} {L : Nat} (h : xs.Pairwise (fun x y => x.1 = L → y.1 = L → x.2 ≠ y.2)) (hm : ∀ x ∈ xs, x.2 ∈ rules.map Rule.lhs) :
    (xs.filter (fun x => x.1 = L)).length ≤ rules.length := by
  have hnd : ((xs.filter (fun x => x.1 = L)).map Prod.snd).Nodup := by
    rw [List.Nodup, List.pairwise_map]
    refine List.pairwise_filter.mpr (h.imp ?_)
    intro a b hab ha hb
    exact hab (by simpa using ha) (by simpa using hb)
  have := (List.subperm_of_subset hnd (l₂ := rules.map Rule.lhs) (by
    intro a ha
    obtain ⟨x, hx, rfl⟩ := List.mem_map.mp ha
    exact hm x (List.mem_of_mem_filter hx))).length_le
  simpa using this

theorem Reds.lhs (h : Reds g gr m tk stk ts xs stk' ts') : ∀ x ∈ xs, x.2 ∈ g.rules.map Rule.lhs := by
  induction h with
  | nil => simp
  | cons h _ ih =>
    intro x hx
    rcases List.mem_cons.mp hx with rfl | hx
    · exact List.mem_map_of_mem h.mem
    · exact ih x hx

theorem reduce_sym (wf : g.WF) (hv : LoopInv g kind gr []) (hm : Follows g gr m) {q i : Nat} (hq : q < gr.sets.length) (h : m.nextAction q tk = .act (.reduce i)) :
    tk ∈ Tok.eof :: g.terminals.filterMap (fun s => match s with | .t a => some (.tok a) | _ => none) := by
  obtain ⟨s, it, x, h1, h2, h3, h4, h5, h6⟩ := hm.reduce _ _ _ hq h
  cases tk with
  | eof => simp
  | err => cases h5
  | tok a =>
    simp only [Tok.sym, Option.some.injEq] at h5
    subst h5
    refine List.mem_cons_of_mem _ (List.mem_filterMap.mpr ⟨.t a, ?_, rfl⟩)
    have hla := (hv.base.items q s h1 it h2).la
    cases hi : it.la with
    | some l =>
      rw [hi] at h6 hla
      simp only [LaMatch] at h6
      subst h6
      unfold LaOk at hla
      split at hla
      · obtain ⟨b, e, hb⟩ := hla
        cases e
        rcases hb with h | h
        · cases h
        · exact h
      · cases hla
    | none =>
      rw [hi] at h6
      simp only [LaMatch, Grammar.symbols, List.mem_append] at h6
      rcases h6 with (h | h) | h
      · exact h
      · obtain ⟨_, h⟩ := wf.nts _ h; cases h
      · simp at h

/-- the reductions at one token: their number, with the height of the stack as potential -/
theorem reds_count (wf : g.WF) (hv : LoopInv g kind gr []) (hj : Justified g kind gr) (hm : Follows g gr m) (hm' : Obeys g gr m) (hel : EpsLeading g)
    (hl : EntryNotLeftRecursive g) (hp : Productive g) (d : T) : ∃ C, ∀ (tk : Tok) (stk stk' : List StackSym) (ts ts' : List (PTree T)) (xs : List (Nat × Nat)),
    StackOk g gr stk ts → Reds g gr m tk stk ts xs stk' ts' → xs.length + (C + 1) * ts'.length ≤ (C + 1) * ts.length + (C + (C + 1) * C) := by
  choose N hN using growth_bound wf hv hj hm hm' hel hl hp d
  let toks := Tok.eof :: g.terminals.filterMap (fun s => match s with | .t a => some (Tok.tok a) | _ => none)
  let B := ((List.range gr.sets.length).flatMap (fun q => toks.map (fun tk => N tk q))).sum
  have hB : ∀ tk ∈ toks, ∀ q < gr.sets.length, N tk q ≤ B := by
    intro tk htk q hq
    exact le_sum_mem (List.mem_flatMap.mpr ⟨q, List.mem_range.mpr hq, List.mem_map_of_mem htk⟩)
  refine ⟨(g.rules.length + 1) * (B + 1), fun tk stk stk' ts ts' xs hok hred => ?_⟩
  rw [hred.height]
  refine amortized_count rfl _ _ (fun a b c e => ?_) (fun a x c e => hred.low e)
  rw [e] at hred
  obtain ⟨s1, t1, r1, r2⟩ := hred.split
  obtain ⟨s2, t2, r2, -⟩ := r2.split
  refine ⟨fun hlo => ?_, fun L hlo => count_level (r2.pairwise wf hv hm' hel hl hp d hlo) r2.lhs⟩
  rw [← r1.height] at hlo
  cases b with
  | nil => simp
  | cons x b =>
    obtain ⟨q, R, rfl⟩ := (r1.ok hok).head
    refine Nat.le_trans (hN tk q R s2 t1 t2 _ r2 hlo) ?_
    cases r2 with
    | cons h _ =>
      obtain ⟨_, htop⟩ := h.top
      simp only [List.cons.injEq, StackSym.state.injEq] at htop
      rw [htop.1]
      exact hB tk (reduce_sym wf hv hm h.range h.act) _ h.range

/-- the number of steps from a stack -/
theorem lr_linear_from (hv : LoopInv g kind gr []) (hm : Follows g gr m) {C : Nat}
    (hC : ∀ (tk : Tok) (stk stk' : List StackSym) (ts ts' : List (PTree T)) (xs : List (Nat × Nat)), StackOk g gr stk ts → Reds g gr m tk stk ts xs stk' ts' →
      xs.length + (C + 1) * ts'.length ≤ (C + 1) * ts.length + (C + (C + 1) * C)) {L : Nat} (hL : ∀ a, (input L).1 ≠ .tok a) :
    ∀ (k pos : Nat), pos + k = L → ∀ (stk : List StackSym) (ts : List (PTree T)) (events : List (LREvent T)), StackOk g gr stk ts →
    ∀ fuel, (C + 1) * ts.length + (C + (C + 1) * C + C + 3) * (k + 1) ≤ fuel → ∀ e q, lrRun m input fuel stk pos events ≠ .running e q := by
  intro k
  induction k with
  | zero => ?_
  | succ k ih => ?_
  all_goals
    intro pos hk stk0 ts0 ev0 hok0 fuel0 hfuel
    have key : ∀ (j fuel : Nat) (xs : List (Nat × Nat)) (stk : List StackSym) (ts : List (PTree T)) (ev : List (LREvent T)),
        Reds g gr m (input pos).1 stk0 ts0 xs stk ts → xs.length + j = (C + 1) * ts0.length + (C + (C + 1) * C) → fuel + xs.length = fuel0 →
        ∀ e q, lrRun m input fuel stk pos ev ≠ .running e q := by
      intro j
      induction j with
      | zero => ?_
      | succ j ihj => ?_
      all_goals
        intro fuel xs stk ts ev hred hj hf e q
        have hcnt := hC _ _ _ _ _ _ hok0 hred
        rw [Nat.mul_add] at hfuel
        obtain ⟨fuel, rfl⟩ : ∃ f, fuel = f + 2 := ⟨fuel - 2, by omega⟩
        rcases lrStep_cases (input := input) (pos := pos) hv hm (hred.ok hok0) with ⟨exp, h⟩ | ⟨stk', ts', a, ev', h1, h2, h3, h4⟩ | ⟨ev', h⟩ | ⟨stk', ts', ev', q0, i, r, cs, tt, p, rest, q', h, hr⟩
        · simp [lrRun, h]
        · first
          | (have : pos = L := by omega
             subst this
             exact absurd h1 (hL a))
          | (rw [lrRun, h2]
             refine ih (pos + 1) (by omega) stk' ts' _ h3 (fuel + 1) ?_ e q
             rw [h4, Nat.mul_add]
             omega)
        · rw [lrRun, h]
          simp [lrRun, lrStep]
        · have hcnt' := hC _ _ _ _ _ _ hok0 (hred.snoc hr)
          rw [hr.trees', List.length_append] at hcnt'
          simp only [List.length_cons, List.length_nil, Nat.mul_add] at hcnt'
          first
          | omega
          | (rw [lrRun, h]
             exact ihj (fuel + 1) _ stk' ts' _ (hred.snoc hr) (by simp; omega) (by simp; omega) e q)
    exact key _ fuel0 [] stk0 ts0 ev0 (.nil _ _) (by simp; rfl) rfl

/-- the data of the tokens does not matter -/
theorem lrRun_data (inp' : Nat → Tok × Unit) (hi : ∀ i, (inp' i).1 = (input i).1) : ∀ (fuel : Nat) (stk : List StackSym) (pos : Nat) (ev : List (LREvent T)) (ev' : List (LREvent Unit)),
    (∃ e q, lrRun m input fuel stk pos ev = .running e q) → ∃ e q, lrRun m inp' fuel stk pos ev' = .running e q := by
  intro fuel
  induction fuel with
  | zero => intro stk pos ev ev' _; exact ⟨_, _, rfl⟩
  | succ fuel ih =>
    have hgoto : ∀ (stk : List StackSym) (pos : Nat) (e : LREvent T) (e' : LREvent Unit), (∀ s q ev, lrGoto m stk pos e = .next s q ev → ∃ ev', lrGoto m stk pos e' = .next s q ev') := by
      intro stk pos e e' s q ev h
      unfold lrGoto at h ⊢
      split at h
      · split at h
        · cases h
        · rename_i he
          simp only [LRStep.next.injEq] at h
          exact ⟨e', by simp [h]⟩
        · rename_i he
          simp only [LRStep.next.injEq] at h
          exact ⟨e', by simp [h]⟩
      · cases h
    have hstep : ∀ stk pos s q ev, lrStep m input stk pos = .next s q ev → ∃ ev', lrStep m inp' stk pos = .next s q ev' := by
      intro stk pos s q ev h
      unfold lrStep at h ⊢
      rw [hi]
      split at h
      · cases h
      · split at h
        · cases h
        · cases h
        · rename_i he
          exact hgoto _ _ _ _ _ _ _ h
        · rename_i he
          split at h
          · cases h
          · rename_i hr
            split at h
            · cases h
            · rename_i hlt
              simp only [hlt, if_false]
              exact hgoto _ _ _ _ _ _ _ h
      · cases h
    intro stk pos ev ev' ⟨e, q, h⟩
    rw [lrRun] at h
    cases hs : lrStep m input stk pos with
    | done => rw [hs] at h; cases h
    | unexpected _ => rw [hs] at h; cases h
    | panic _ => rw [hs] at h; cases h
    | next s q' ev1 =>
      rw [hs] at h
      obtain ⟨ev1', h1⟩ := hstep _ _ _ _ _ hs
      rw [lrRun, h1]
      exact ih _ _ _ _ ⟨e, q, h⟩

theorem lr_linear (wf : g.WF) (hne : NoEmptyRhs g) {p : LRProg} (h : LRParserFor g kind p) (hel : EpsLeading g) (hl : EntryNotLeftRecursive g) (hp : Productive g) :
    ∃ K, ∀ (T : Type) (w : List (Nat × T)) (input : Nat → Tok × T), StreamIs input w → ∀ fuel, K * (w.length + 1) ≤ fuel → ∀ events pos, lrParse p.machine input fuel ≠ .running events pos := by
  obtain ⟨gr, hv, hj, hsp⟩ := parser_graph wf hne h
  have hm := prog_follows wf hv.base hsp
  obtain ⟨C, hC⟩ := reds_count wf hv hj hm (prog_obeys wf hv.base hsp) hel hl hp ()
  refine ⟨C + (C + 1) * C + C + 3, fun T w input hin fuel hf events pos he => ?_⟩
  unfold lrParse at he
  rw [hm.entry] at he
  obtain ⟨e, q, he⟩ := lrRun_data (m := p.machine) (input := input) (fun i => ((input i).1, ())) (fun i => rfl) fuel _ 0 _ [] ⟨_, _, he⟩
  refine lr_linear_from (input := fun i => ((input i).1, ())) (L := w.length) hv hm hC (fun a ha => ?_) w.length 0 (by omega) [.state 0] [] [] .base fuel
    (by simpa using hf) e q he
  simp only [hin.2] at ha
  cases ha

end Verif
