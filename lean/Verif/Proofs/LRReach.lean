import Verif.Proofs.GlrTermEps

/-! # The parser gets to the state of every string that items belong to -/

set_option autoImplicit false

namespace Verif

variable {T : Type} {g : Grammar} {kind : LRKind} {gr : LRGraph} {m : LRMachine}

/-- the terminal can come next: it starts what is after the dot, or follows it -/
def NextOk (g : Grammar) (it : Item) (b : Sym) : Prop := ∀ l, it.la = some l → FirstOf g ((ruleRhs g it.rule).drop it.dot ++ [l]) b

theorem isTerm_declared (wf : g.WF) {b : Sym} (hb : b ∈ g.terminals ++ [Sym.eof]) : b.isTerm := by
  rcases List.mem_append.mp hb with h | h
  · obtain ⟨a, rfl⟩ := wf.ts b h; exact trivial
  · simp at h; subst h; exact trivial

theorem firstIn_lead {x : Sym} {rhs : List Sym} : FirstIn g.rules x (rhs.drop (leadingEps rhs)) → FirstIn g.rules x rhs := by
  induction rhs with
  | nil => exact id
  | cons s ss ih =>
    intro h
    by_cases hs : s = .eps
    · subst hs; rw [leadingEps_cons_eps] at h; exact .eps (ih h)
    · rw [leadingEps_cons_ne hs] at h; exact h

theorem nul_lead {rhs : List Sym} : Nul g.rules (rhs.drop (leadingEps rhs)) → Nul g.rules rhs := by
  induction rhs with
  | nil => exact id
  | cons s ss ih =>
    intro h
    by_cases hs : s = .eps
    · subst hs; rw [leadingEps_cons_eps] at h; exact .eps (ih h)
    · rw [leadingEps_cons_ne hs] at h; exact h

theorem nextOk_closure {it it' : Item} {b : Sym} (hb : b.isTerm) (hs : ClosureStep g it it') (h : NextOk g it' b) : NextOk g it b := by
  obtain ⟨A, j, r, x, h1, h2, rfl, h4, rfl⟩ := hs
  intro l hl
  unfold ExpandsWith at h4
  rw [hl] at h4
  obtain ⟨b', rfl, hb', h5⟩ := h4
  have h6 := h b' rfl
  simp only [ruleRhs_some h2] at h6
  rw [firstOf_iff hb, firstIn_append hb] at h6
  unfold Item.after at h1
  rw [firstOf_iff hb, lr_drop_of_get h1, List.cons_append]
  rcases h6 with h6 | ⟨h6, h7⟩
  · exact .ntHere (List.mem_of_getElem? h2) (firstIn_lead h6)
  · have : b = b' := by
      cases h7 with
      | here => rfl
      | eps h => exact absurd hb' (by simp [Sym.isTerm])
      | ntHere => exact absurd hb' (by simp [Sym.isTerm])
      | ntSkip => exact absurd hb' (by simp [Sym.isTerm])
    subst this
    exact .ntSkip (List.mem_of_getElem? h2) (nul_lead h6) ((firstOf_iff hb).mp h5)

/-- parsing one non-terminal after the dot -/
theorem tree_gets (wf : g.WF) (hv : LoopInv g kind gr []) (hm : Obeys g gr m) (hel : EpsLeading g) (hl : EntryNotLeftRecursive g) {input : Nat → Tok × T} {r : Rule}
    {cs : List (PTree T)} (hrm : r ∈ g.rules) (hf : Forest g.rules r.rhs cs) {q : Nat} {rest : List StackSym} {s : List Item} {it : Item} {pos : Nat} {b : Sym}
    (hs : gr.sets[q]? = some s) (hit : it ∈ s) (hr : it.rule ≠ none) (hafter : it.after g = some (.nt r.lhs)) (hreads : ReadsAt input pos (PTree.tokensList cs))
    (hb1 : (input (pos + (PTree.tokensList cs).length)).1.sym = some b) (hb2 : b ∈ g.terminals ++ [Sym.eof]) (hn : NextOk g { it with dot := it.dot + 1 } b) {q2 : Nat}
    (he : (q, .nt r.lhs, q2) ∈ gr.edges) :
    ∃ evs, Gets m input (.state q :: rest) pos (.state q2 :: .nonTerminal r.lhs :: .state q :: rest) (pos + (PTree.tokensList cs).length) evs := by
  have hb3 := isTerm_declared wf hb2
  obtain ⟨j, hj⟩ := List.mem_iff_getElem?.mp hrm
  obtain ⟨x, hx1, hx2⟩ : ∃ x, ExpandsWith g it x ∧ (x = none ∨ x = some b) := by
    cases h : it.la with
    | none => exact ⟨none, by simp [ExpandsWith, h], .inl rfl⟩
    | some l => exact ⟨some b, by simp only [ExpandsWith, h]; exact ⟨b, rfl, hb3, hn l h⟩, .inr rfl⟩
  have hcl := hv.base.closed q s hs it hit ⟨some j, leadingEps r.rhs, x⟩ ⟨r.lhs, j, r, x, hafter, hj, rfl, hx1, rfl⟩
  obtain ⟨q1, rest1, s1, evs1, g1, _, l1, d1, hs1, hit1⟩ := forest_gets wf hv hm hel hl hf q rest s ⟨some j, leadingEps r.rhs, x⟩ pos b hs hcl (by simp)
    (by rw [ruleRhs_some hj]) (hel r hrm) hreads hb1 hb2 hx2
  have hlead : leadingEps r.rhs ≤ r.rhs.length := leadingEps_le _
  have hk : (strip r.rhs).length = r.rhs.length - leadingEps r.rhs := by rw [strip_lead, strip_noEps (hel r hrm), List.length_drop]
  have hact : m.nextAction q1 (input (pos + (PTree.tokensList cs).length)).1 = .act (.reduce j) := by
    refine hm.reduce q1 _ j s1 _ b hs1 hit1 rfl ?_ hb1 hb2 ?_
    · simp only [Item.after, ruleRhs_some hj]
      exact List.getElem?_eq_none (by omega)
    · rcases hx2 with rfl | rfl
      · simp only [LaMatch]
        simp only [Grammar.symbols, List.mem_append] at hb2 ⊢; tauto
      · rfl
  have hred : m.reduction j = some ((strip r.rhs).length, r.lhs) := by rw [hm.red, hj]; rfl
  have hnacc : ¬ (q = 0 ∧ g.entry = .nt r.lhs) := by
    rintro ⟨rfl, hE⟩
    obtain ⟨s0, hs0, hcl0⟩ := hv.base.start
    rw [hs] at hs0; simp at hs0; subst hs0
    have := start_entry_only hE hl ((hcl0 it).mp hit) hafter
    rw [this] at hr
    exact hr rfl
  have hstep : lrStep m input (.state q1 :: rest1) (pos + (PTree.tokensList cs).length) =
      .next (.state q2 :: .nonTerminal r.lhs :: .state q :: rest) (pos + (PTree.tokensList cs).length) (.reduce j) := by
    rw [lrStep_reduce hact hred (by rw [hk]; exact l1), hk, d1]
    simp only [lrGoto, hm.goto q _ q2 he hnacc]
  exact ⟨_, g1.trans (Gets.step hstep)⟩

/-- For every string with an item there are tokens after which the parser has its states on the stack, if a token comes next that suits the item. -/
theorem item_reached (wf : g.WF) (hv : LoopInv g kind gr []) (hm : Obeys g gr m) (hel : EpsLeading g) (hl : EntryNotLeftRecursive g) (hp : Productive g) (d : T)
    {γ : List Sym} {it : Item} (h : ItemAfter g kind γ it) :
    ∃ (q : Nat) (rest : List StackSym) (s : List Item) (u : List (Nat × T)), Leads gr.edges γ q ∧ gr.sets[q]? = some s ∧ it ∈ s ∧ Derives g.rules (strip γ) (u.map (·.1)) ∧
      ∀ (input : Nat → Tok × T) (b : Sym), ReadsAt input 0 u → (input u.length).1.sym = some b → b ∈ g.terminals ++ [Sym.eof] → NextOk g it b →
        ∃ evs, Gets m input [.state 0] 0 (.state q :: rest) u.length evs := by
  induction h with
  | start =>
    obtain ⟨s, h1, h2⟩ := hv.base.start
    exact ⟨0, [], s, [], .nil, h1, (h2 _).mpr .self, .nil, fun _ _ _ _ _ _ => ⟨[], Gets.refl _ _⟩⟩
  | closure _ hs ih =>
    obtain ⟨q, rest, s, u, h1, h2, h3, h4, h5⟩ := ih
    exact ⟨q, rest, s, u, h1, h2, hv.base.closed q s h2 _ h3 _ hs, h4, fun input b a1 a2 a3 a4 => h5 input b a1 a2 a3 (nextOk_closure (isTerm_declared wf a3) hs a4)⟩
  | @goto α it X _ hafter hr ih =>
    obtain ⟨q, rest, s, u, h1, h2, h3, h4, h5⟩ := ih
    obtain ⟨q', s', he, hs', hit'⟩ := hv.done q (getElem?_lt h2) (by simp) s h2 _ h3 _ hafter hr
    have hX : X ≠ .eps := by
      rintro rfl
      obtain ⟨i, hi⟩ := Option.ne_none_iff_exists'.mp hr
      have hlt := (hv.base.items q s h2 it h3).rule i hi
      have hget := List.getElem?_eq_getElem hlt
      have hlead := hv.lead h2 hget (d := it.dot) ⟨it, h3, hi, rfl⟩
      have : (g.rules[i]).rhs[it.dot]? = some .eps := by
        have := hafter
        unfold Item.after at this
        rw [hi, ruleRhs_some hget] at this
        exact this
      refine hel _ (List.getElem_mem hlt) (List.mem_iff_getElem?.mpr ⟨it.dot - leadingEps (g.rules[i]).rhs, ?_⟩)
      rw [List.getElem?_drop, ← this]
      congr 1
      omega
    have hsym : X ∈ g.symbols := (edge_label hv.base wf he).resolve_left hX
    have hstrip : strip (α ++ [X]) = strip α ++ [X] := by rw [strip_append, strip_cons hX]; rfl
    rw [hstrip]
    have hafter' : (ruleRhs g it.rule).drop it.dot = X :: (ruleRhs g it.rule).drop (it.dot + 1) := by
      unfold Item.after at hafter
      exact lr_drop_of_get hafter
    rcases List.mem_append.mp hsym with hsym | hsym
    · obtain ⟨a, rfl⟩ := wf.ts X hsym
      refine ⟨q', .terminal (.tok a) :: .state q :: rest, s', u ++ [(a, d)], h1.snoc he, hs', hit', ?_, ?_⟩
      · rw [List.map_append]
        exact h4.append (.term .nil)
      · intro input b a1 a2 a3 a4
        have h0 := a1.right 0 (a, d) (by simp)
        simp only [Nat.zero_add, Nat.add_zero] at h0
        obtain ⟨evs, hg⟩ := h5 input (.t a) a1.left (by rw [h0]; rfl) (List.mem_append_left _ hsym) (fun l hl => by
          rw [firstOf_iff (by trivial), hafter', List.cons_append]; exact .here)
        obtain ⟨ha1, ha2⟩ := hm.shift q a q' he
        have hstep : lrStep m input (.state q :: rest) u.length = .next (.state q' :: .terminal (.tok a) :: .state q :: rest) (u.length + 1) (.shift (.tok a) d) := by
          rw [lrStep_shift (by rw [h0]; exact ha1), h0]
          simp only [lrGoto, ha2]
        rw [List.length_append]
        exact ⟨_, hg.trans (Gets.step hstep)⟩
    · obtain ⟨A, rfl⟩ := wf.nts X hsym
      obtain ⟨w, hw⟩ := hp A hsym
      obtain ⟨t, ht, htok⟩ := derives_tree (T := T) (w := w.map (fun x => (x, d))) (by rw [List.map_map]; simpa [Function.comp_def] using hw)
      cases ht with
      | @nonterm r cs _ _ hrm hf h0 =>
      cases h0
      have htok' : PTree.tokensList cs = w.map (fun x => (x, d)) := by simpa [PTree.tokens] using htok
      have hmap : (PTree.tokensList cs).map (·.1) = w := by rw [htok', List.map_map]; simp [Function.comp_def]
      refine ⟨q', .nonTerminal r.lhs :: .state q :: rest, s', u ++ PTree.tokensList cs, h1.snoc he, hs', hit', ?_, ?_⟩
      · rw [List.map_append, hmap]
        exact h4.append hw
      · intro input b a1 a2 a3 a4
        have hbt := isTerm_declared wf a3
        rw [List.length_append] at a2 ⊢
        have a1r := a1.right
        rw [Nat.zero_add] at a1r
        obtain ⟨evs2, hg2⟩ := tree_gets (rest := rest) wf hv hm hel hl hrm hf h2 h3 hr hafter a1r a2 a3 a4 he
        obtain ⟨b0, b1, b2, b3⟩ : ∃ b0, (input u.length).1.sym = some b0 ∧ b0 ∈ g.terminals ++ [Sym.eof] ∧ NextOk g it b0 := by
          cases hc : PTree.tokensList cs with
          | nil =>
            rw [hc] at a2 hmap
            refine ⟨b, by simpa using a2, a3, fun l hl => ?_⟩
            simp only [List.map_nil] at hmap
            subst hmap
            have := a4 l hl
            rw [firstOf_iff hbt] at this ⊢
            rw [hafter', List.cons_append]
            have h7 : FirstIn g.rules b ([.nt r.lhs] ++ ((ruleRhs g it.rule).drop (it.dot + 1) ++ [l])) := (firstIn_append hbt).mpr (.inr ⟨derives_nul hw rfl, this⟩)
            exact h7
          | cons p ps =>
            have h0 := a1r 0 p (by rw [hc]; rfl)
            simp only [Nat.add_zero] at h0
            have hpd := forest_declared wf hf (fun a ha => wf.t_declared r hrm a ha) p (by rw [hc]; simp)
            refine ⟨.t p.1, by rw [h0]; rfl, List.mem_append_left _ hpd, fun l hl => ?_⟩
            rw [firstOf_iff (by trivial), hafter', List.cons_append]
            have h7 : FirstIn g.rules (.t p.1) ([.nt r.lhs] ++ ((ruleRhs g it.rule).drop (it.dot + 1) ++ [l])) :=
              (firstIn_append (by trivial)).mpr (.inl (derives_first hw p.1 (ps.map (·.1)) (by rw [← hmap, hc]; rfl)))
            exact h7
        obtain ⟨evs1, hg1⟩ := h5 input b0 a1.left b1 b2 b3
        exact ⟨_, hg1.trans hg2⟩

end Verif
