import Verif.Proofs.LRViable

/-! # Completeness of the LR driver -/

set_option autoImplicit false

namespace Verif

variable {T : Type} {g : Grammar} {kind : LRKind} {gr : LRGraph}

/-- what a machine has to do with a graph to be complete -/
structure Obeys (g : Grammar) (gr : LRGraph) (m : LRMachine) : Prop where
  entry : m.entry = 0
  shift : ∀ q a q', (q, Sym.t a, q') ∈ gr.edges → m.nextAction q (.tok a) = .act .shift ∧ m.nextGoto q (.terminal (.tok a)) = some (.state q')
  reduce : ∀ (q : Nat) (tk : Tok) (i : Nat) (s : List Item) (it : Item) (x : Sym), gr.sets[q]? = some s → it ∈ s → it.rule = some i → it.after g = none →
    tk.sym = some x → x ∈ g.terminals ++ [Sym.eof] → LaMatch g it.la x → m.nextAction q tk = .act (.reduce i)
  goto : ∀ q A q', (q, Sym.nt A, q') ∈ gr.edges → ¬ (q = 0 ∧ g.entry = .nt A) → m.nextGoto q (.nonTerminal A) = some (.state q')
  accept : ∀ A, g.entry = .nt A → m.nextGoto 0 (.nonTerminal A) = some .accept
  red : ∀ i, m.reduction i = (g.rules[i]?).map (fun r => ((strip r.rhs).length, r.lhs))

theorem prog_obeys (wf : g.WF) (hb : Base g kind gr) {p : LRProg} (hp : ProgSpec g (buildTable g gr) p) : Obeys g gr p.machine := by
  have hf := prog_follows wf hb hp
  obtain ⟨hi, hcell⟩ := buildTable_cell (gr := gr) wf
  have hct : (buildTable g gr).stateCount = gr.sets.length := hi.count
  refine ⟨hf.entry, fun q a q' he => ?_, fun q tk i s it x hs h1 h2 h3 h4 h5 h6 => ?_, hf.goto, hf.accept, hf.red⟩
  · obtain ⟨s, hs⟩ := edge_src hb he
    have hq := getElem?_lt hs
    have hsym : Sym.t a ∈ g.symbols := by
      rcases edge_label hb wf he with h | h
      · cases h
      · exact h
    have hterm : Sym.t a ∈ g.terminals := by
      rcases List.mem_append.mp hsym with h | h
      · exact h
      · obtain ⟨_, h⟩ := wf.nts _ h; cases h
    have hin : TableEntry.shift q' ∈ cellContent g gr s q (.t a) := by
      unfold cellContent
      refine List.mem_append_right _ ?_
      rw [if_pos hsym]
      unfold lastEntry
      obtain ⟨E, hE, _⟩ := wf.entry_declared
      rw [if_neg (fun hc => by rw [hE] at hc; cases hc.1), (edgeTarget_iff hb).mpr he]
      simp
    have hget := cellOk_single wf hs (hp.cells q (hct ▸ hq) _ (List.mem_append_left _ hsym)) hin
    constructor
    · show p.nextAction q _ = _
      rw [hp.action q (hct ▸ hq)]
      simp [Tok.sym, hterm, actOf, hget]
    · show p.nextGoto q _ = _
      rw [hp.goto q (hct ▸ hq)]
      simp [StackSym.sym, hsym, gotoOf, hget]
  · have hq := getElem?_lt hs
    have hin : TableEntry.reduce (some i) ∈ cellContent g gr s q x := by
      unfold cellContent
      refine List.mem_append_left _ (mem_redEntries.mpr ⟨it, h1, h3, h6, by rw [h2]⟩)
    have hx : x ∈ g.symbols ++ [Sym.eof] := by
      simp only [Grammar.symbols, List.mem_append] at h5 ⊢; tauto
    have hget := cellOk_single wf hs (hp.cells q (hct ▸ hq) _ hx) hin
    show p.nextAction q _ = _
    rw [hp.action q (hct ▸ hq), h4]
    simp only [Option.bind_some, if_pos h5, actOf, hget]

/-- the driver gets from one configuration to another, making the given callbacks -/
def Gets (m : LRMachine) (input : Nat → Tok × T) (stk : List StackSym) (pos : Nat) (stk' : List StackSym) (pos' : Nat) (evs : List (LREvent T)) : Prop :=
  ∃ n, ∀ fuel ev0, lrRun m input (fuel + n) stk pos ev0 = lrRun m input fuel stk' pos' (ev0 ++ evs)

variable {m : LRMachine} {input : Nat → Tok × T}

theorem Gets.refl (stk : List StackSym) (pos : Nat) : Gets m input stk pos stk pos [] := ⟨0, fun fuel ev0 => by simp⟩

theorem Gets.trans {s1 s2 s3 : List StackSym} {p1 p2 p3 : Nat} {e1 e2 : List (LREvent T)} (h1 : Gets m input s1 p1 s2 p2 e1) (h2 : Gets m input s2 p2 s3 p3 e2) :
    Gets m input s1 p1 s3 p3 (e1 ++ e2) := by
  obtain ⟨n1, h1⟩ := h1
  obtain ⟨n2, h2⟩ := h2
  exact ⟨n2 + n1, fun fuel ev0 => by rw [← Nat.add_assoc, h1, h2, List.append_assoc]⟩

theorem Gets.step {s1 s2 : List StackSym} {p1 p2 : Nat} {ev : LREvent T} (h : lrStep m input s1 p1 = .next s2 p2 ev) : Gets m input s1 p1 s2 p2 [ev] :=
  ⟨1, fun fuel ev0 => by simp only [lrRun, h]⟩

theorem TraceIs.append {e1 e2 : List (LREvent T)} {p1 p2 : List (PEvent T)} (h1 : TraceIs g e1 p1) (h2 : TraceIs g e2 p2) : TraceIs g (e1 ++ e2) (p1 ++ p2) := by
  unfold TraceIs at *; simp [h1, h2]

/-- the stream has these tokens from a position on -/
def ReadsAt (input : Nat → Tok × T) (pos : Nat) (w : List (Nat × T)) : Prop := ∀ i p, w[i]? = some p → input (pos + i) = (.tok p.1, p.2)

theorem ReadsAt.left {pos : Nat} {u v : List (Nat × T)} (h : ReadsAt input pos (u ++ v)) : ReadsAt input pos u := by
  intro i p hp
  exact h i p (by rw [List.getElem?_append_left (getElem?_lt hp)]; exact hp)

theorem ReadsAt.right {pos : Nat} {u v : List (Nat × T)} (h : ReadsAt input pos (u ++ v)) : ReadsAt input (pos + u.length) v := by
  intro i p hp
  rw [Nat.add_assoc]
  exact h (u.length + i) p (by rw [List.getElem?_append_right (by omega)]; simpa using hp)

/-- tokens of a forest are declared -/
theorem forest_declared (wf : g.WF) {ss : List Sym} {ts : List (PTree T)} (h : Forest g.rules ss ts) :
    (∀ a, Sym.t a ∈ ss → Sym.t a ∈ g.terminals) → ∀ p ∈ PTree.tokensList ts, Sym.t p.1 ∈ g.terminals := by
  induction h with
  | nil => intro _ p hp; simp [PTree.tokensList] at hp
  | eps _ ih => intro hd p hp; exact ih (fun a ha => hd a (List.mem_cons_of_mem _ ha)) p hp
  | @term a d ss ts _ ih =>
    intro hd p hp
    simp only [PTree.tokensList, PTree.tokens, List.cons_append, List.nil_append, List.mem_cons] at hp
    rcases hp with rfl | hp
    · exact hd a (by simp)
    · exact ih (fun a ha => hd a (List.mem_cons_of_mem _ ha)) p hp
  | @nonterm r cs ss ts hr _ _ ih1 ih2 =>
    intro hd p hp
    simp only [PTree.tokensList, PTree.tokens, List.mem_append] at hp
    rcases hp with hp | hp
    · exact ih1 (fun a ha => wf.t_declared r hr a ha) p hp
    · exact ih2 (fun a ha => hd a (List.mem_cons_of_mem _ ha)) p hp

theorem leadingEps_of_noEps {l : List Sym} (h : Sym.eps ∉ l) : leadingEps l = 0 := by
  cases l with
  | nil => rfl
  | cons a l =>
    have : a ≠ .eps := by rintro rfl; simp at h
    simp [leadingEps, this]

/-- the symbol read after the tokens of a forest that is followed by `y` -/
theorem next_symbol (wf : g.WF) {ss : List Sym} {ts : List (PTree T)} (h : Forest g.rules ss ts) (hd : ∀ a, Sym.t a ∈ ss → Sym.t a ∈ g.terminals) {pos : Nat}
    (hr : ReadsAt input pos (PTree.tokensList ts)) {y : Sym} (hy : (input (pos + (PTree.tokensList ts).length)).1.sym = some y) (hyd : y ∈ g.terminals ++ [Sym.eof]) :
    ∃ b, (input pos).1.sym = some b ∧ b ∈ g.terminals ++ [Sym.eof] ∧ b.isTerm ∧ FirstOf g (ss ++ [y]) b := by
  have hterm : ∀ b, b ∈ g.terminals ++ [Sym.eof] → b.isTerm := by
    intro b hb
    rcases List.mem_append.mp hb with h | h
    · obtain ⟨a, rfl⟩ := wf.ts b h; exact trivial
    · simp at h; subst h; exact trivial
  have hdv := forest_derives h
  cases hw : PTree.tokensList ts with
  | nil =>
    rw [hw] at hy hdv
    refine ⟨y, by simpa using hy, hyd, hterm y hyd, (firstOf_iff (hterm y hyd)).mpr ((firstIn_append (hterm y hyd)).mpr (.inr ⟨derives_nul hdv (by simp), .here⟩))⟩
  | cons p w =>
    rw [hw] at hdv hr
    have h0 := hr 0 p (by simp)
    have hpd := forest_declared wf h hd p (by rw [hw]; simp)
    have hb : (Sym.t p.1).isTerm := trivial
    refine ⟨.t p.1, ?_, List.mem_append_left _ hpd, hb, (firstOf_iff hb).mpr ((firstIn_append hb).mpr (.inl (derives_first hdv p.1 (w.map (·.1)) rfl)))⟩
    simp at h0
    rw [h0]; rfl

/-- parsing what follows the dot of an item -/
theorem forest_gets (wf : g.WF) (hv : LoopInv g kind gr []) (hm : Obeys g gr m) (hel : EpsLeading g) (hl : EntryNotLeftRecursive g) {ss : List Sym} {ts : List (PTree T)}
    (h : Forest g.rules ss ts) : ∀ (q : Nat) (rest : List StackSym) (s : List Item) (it : Item) (pos : Nat) (y : Sym), gr.sets[q]? = some s → it ∈ s → it.rule ≠ none →
      (ruleRhs g it.rule).drop it.dot = ss.drop (leadingEps ss) → Sym.eps ∉ ss.drop (leadingEps ss) → ReadsAt input pos (PTree.tokensList ts) →
      (input (pos + (PTree.tokensList ts).length)).1.sym = some y → y ∈ g.terminals ++ [Sym.eof] → (it.la = none ∨ it.la = some y) →
      ∃ q' rest' s' evs, Gets m input (.state q :: rest) pos (.state q' :: rest') (pos + (PTree.tokensList ts).length) evs ∧ TraceIs g evs (PTree.postorderList ts) ∧
        2 * (ss.length - leadingEps ss) ≤ (StackSym.state q' :: rest').length ∧
        (StackSym.state q' :: rest').drop (2 * (ss.length - leadingEps ss)) = .state q :: rest ∧ gr.sets[q']? = some s' ∧
        (⟨it.rule, it.dot + (ss.length - leadingEps ss), it.la⟩ : Item) ∈ s' := by
  induction h with
  | nil =>
    intro q rest s it pos y hs hit hr hd hne hreads hy hyd hla
    exact ⟨q, rest, s, [], by simpa [PTree.tokensList] using Gets.refl _ _, by simp [TraceIs, PTree.postorderList], by simp, by simp, hs, by simpa using hit⟩
  | @eps ss ts _ ih =>
    intro q rest s it pos y hs hit hr hd hne hreads hy hyd hla
    have e : leadingEps (Sym.eps :: ss) = leadingEps ss + 1 := by simp [leadingEps]
    rw [e, List.drop_succ_cons] at hd hne
    have := ih q rest s it pos y hs hit hr hd hne hreads hy hyd hla
    rw [e]
    simpa using this
  | @term a d ss ts hf ih =>
    intro q rest s it pos y hs hit hr hd hne hreads hy hyd hla
    have e : leadingEps (Sym.t a :: ss) = 0 := by simp [leadingEps]
    rw [e] at hd hne ⊢
    simp only [List.drop_zero, Nat.sub_zero] at hd hne ⊢
    have hafter : it.after g = some (.t a) := by
      unfold Item.after
      have := congrArg List.head? hd
      simpa using this
    have hd' : (ruleRhs g it.rule).drop (it.dot + 1) = ss := by
      rw [← List.drop_drop, hd]; rfl
    have hne' : Sym.eps ∉ ss := fun h => hne (List.mem_cons_of_mem _ h)
    obtain ⟨q1, s1, he, hs1, hit1⟩ := hv.done q (getElem?_lt hs) (by simp) s hs it hit _ hafter hr
    obtain ⟨ha1, ha2⟩ := hm.shift q a q1 he
    have htok : PTree.tokensList (PTree.leaf a d :: ts) = [(a, d)] ++ PTree.tokensList ts := by simp [PTree.tokensList, PTree.tokens]
    rw [htok] at hreads hy ⊢
    have h0 := hreads.left 0 (a, d) (by simp)
    simp at h0
    have hstep : lrStep m input (.state q :: rest) pos = .next (.state q1 :: .terminal (.tok a) :: .state q :: rest) (pos + 1) (.shift (.tok a) d) := by
      rw [lrStep_shift (by rw [h0]; exact ha1), h0]
      simp only [lrGoto, ha2]
    have hlen : pos + ([(a, d)] ++ PTree.tokensList ts).length = pos + 1 + (PTree.tokensList ts).length := by simp; omega
    rw [hlen] at hy ⊢
    have hl0 := leadingEps_of_noEps hne'
    obtain ⟨q', rest', s', evs, h1, h2, h2', h3, h4, h5⟩ := ih q1 (.terminal (.tok a) :: .state q :: rest) s1 { it with dot := it.dot + 1 } (pos + 1) y hs1 hit1 hr
      (by rw [hl0]; exact hd') (by rw [hl0]; exact hne') (by simpa using hreads.right) hy hyd hla
    rw [hl0] at h2' h3 h5
    simp only [Nat.sub_zero] at h2' h3 h5
    refine ⟨q', rest', s', [.shift (.tok a) d] ++ evs, (Gets.step hstep).trans h1, ?_, ?_, ?_, h4, ?_⟩
    · have : PTree.postorderList (PTree.leaf a d :: ts) = [.shift a d] ++ PTree.postorderList ts := by simp [PTree.postorderList, PTree.postorder]
      rw [this]
      exact TraceIs.append (by simp [TraceIs, LREvent.meaning]) h2
    · have := congrArg List.length h3
      rw [List.length_drop] at this
      simp only [List.length_cons] at this h2' ⊢
      omega
    · rw [List.length_cons, Nat.mul_add, ← List.drop_drop, h3]; simp
    · rw [List.length_cons, Nat.add_comm ss.length 1, ← Nat.add_assoc]; exact h5
  | @nonterm r cs ss ts hrm hf1 hf2 ih1 ih2 =>
    intro q rest s it pos y hs hit hr hd hne hreads hy hyd hla
    have e : leadingEps (Sym.nt r.lhs :: ss) = 0 := by simp [leadingEps]
    rw [e] at hd hne ⊢
    simp only [List.drop_zero, Nat.sub_zero] at hd hne ⊢
    have hafter : it.after g = some (.nt r.lhs) := by
      unfold Item.after
      have := congrArg List.head? hd
      simpa using this
    have hd' : (ruleRhs g it.rule).drop (it.dot + 1) = ss := by
      rw [← List.drop_drop, hd]; rfl
    have hne' : Sym.eps ∉ ss := fun h => hne (List.mem_cons_of_mem _ h)
    have hdecl : ∀ a, Sym.t a ∈ ss → Sym.t a ∈ g.terminals := fun a ha => ruleRhs_t_declared wf (r := it.rule) (List.mem_of_mem_drop (by rw [hd']; exact ha))
    have htok : PTree.tokensList (PTree.node r cs :: ts) = PTree.tokensList cs ++ PTree.tokensList ts := by simp [PTree.tokensList, PTree.tokens]
    rw [htok, List.length_append, ← Nat.add_assoc] at hy
    rw [htok] at hreads
    obtain ⟨b, hb1, hb2, hb3, hb4⟩ := next_symbol wf hf2 hdecl hreads.right hy hyd
    obtain ⟨j, hj⟩ := List.mem_iff_getElem?.mp hrm
    -- the closure item
    obtain ⟨x, hx1, hx2⟩ : ∃ x, ExpandsWith g it x ∧ (x = none ∨ x = some b) := by
      rcases hla with h | h
      · exact ⟨none, by simp [ExpandsWith, h], .inl rfl⟩
      · exact ⟨some b, by simp only [ExpandsWith, h]; exact ⟨b, rfl, hb3, by rw [hd']; exact hb4⟩, .inr rfl⟩
    have hcl := hv.base.closed q s hs it hit ⟨some j, leadingEps r.rhs, x⟩ ⟨r.lhs, j, r, x, hafter, hj, rfl, hx1, rfl⟩
    obtain ⟨q1, rest1, s1, evs1, g1, t1, l1, d1, hs1, hit1⟩ := ih1 q rest s ⟨some j, leadingEps r.rhs, x⟩ pos b hs hcl (by simp)
      (by rw [ruleRhs_some hj]) (hel r hrm) hreads.left hb1 hb2 hx2
    -- the reduction
    have hlead : leadingEps r.rhs ≤ r.rhs.length := by unfold leadingEps; exact (List.takeWhile_sublist _).length_le
    have hk : (strip r.rhs).length = r.rhs.length - leadingEps r.rhs := by rw [strip_lead, strip_noEps (hel r hrm), List.length_drop]
    have hact : m.nextAction q1 (input (pos + (PTree.tokensList cs).length)).1 = .act (.reduce j) := by
      refine hm.reduce q1 _ j s1 _ b hs1 hit1 rfl ?_ hb1 hb2 ?_
      · simp only [Item.after, ruleRhs_some hj]
        exact List.getElem?_eq_none (by omega)
      · rcases hx2 with rfl | rfl
        · simp only [LaMatch]
          simp only [Grammar.symbols, List.mem_append] at hb2 ⊢; tauto
        · rfl
    have hred : m.reduction j = some ((strip r.rhs).length, r.lhs) := by rw [hm.red, hj]; rfl
    obtain ⟨q2, s2, he, hs2, hit2⟩ := hv.done q (getElem?_lt hs) (by simp) s hs it hit _ hafter hr
    have hnacc : ¬ (q = 0 ∧ g.entry = .nt r.lhs) := by
      rintro ⟨rfl, hE⟩
      obtain ⟨s0, hs0, hcl0⟩ := hv.base.start
      rw [hs] at hs0; simp at hs0; subst hs0
      have := start_entry_only hE hl ((hcl0 it).mp hit) hafter
      rw [this] at hr
      exact hr rfl
    have hstep : lrStep m input (.state q1 :: rest1) (pos + (PTree.tokensList cs).length) =
        .next (.state q2 :: .nonTerminal r.lhs :: .state q :: rest) (pos + (PTree.tokensList cs).length) (.reduce j) := by
      rw [lrStep_reduce hact hred (by rw [hk]; exact l1), hk, d1]
      simp only [lrGoto, hm.goto q _ q2 he hnacc]
    have hl0 := leadingEps_of_noEps hne'
    obtain ⟨q', rest', s', evs, h1, h2, h2', h3, h4, h5⟩ := ih2 q2 (.nonTerminal r.lhs :: .state q :: rest) s2 { it with dot := it.dot + 1 } (pos + (PTree.tokensList cs).length) y hs2 hit2 hr
      (by rw [hl0]; exact hd') (by rw [hl0]; exact hne') hreads.right hy hyd hla
    rw [hl0] at h2' h3 h5
    simp only [Nat.sub_zero] at h2' h3 h5
    refine ⟨q', rest', s', evs1 ++ [.reduce j] ++ evs, ?_, ?_, ?_, ?_, h4, ?_⟩
    · rw [htok, List.length_append, ← Nat.add_assoc]
      exact (g1.trans (Gets.step hstep)).trans h1
    · have : PTree.postorderList (PTree.node r cs :: ts) = PTree.postorderList cs ++ [.reduce r] ++ PTree.postorderList ts := by simp [PTree.postorderList, PTree.postorder]
      rw [this]
      exact (TraceIs.append t1 (by simp [TraceIs, LREvent.meaning, hj])).append h2
    · have := congrArg List.length h3
      rw [List.length_drop] at this
      simp only [List.length_cons] at this h2' ⊢
      omega
    · rw [List.length_cons, Nat.mul_add, ← List.drop_drop, h3]; simp
    · rw [List.length_cons, Nat.add_comm ss.length 1, ← Nat.add_assoc]; exact h5

/-- every sentence is accepted, with the callbacks of its parse tree -/
theorem lrParse_complete (wf : g.WF) (hv : LoopInv g kind gr []) (hm : Obeys g gr m) (hel : EpsLeading g) (hl : EntryNotLeftRecursive g) {t : PTree T}
    (ht : IsParseTree g.rules g.entry t) (hin : StreamIs input t.tokens) :
    ∃ n evs, (∀ fuel, n ≤ fuel → lrParse m input fuel = .ok evs t.tokens.length) ∧ TraceIs g evs t.postorder := by
  obtain ⟨E, hE, _⟩ := wf.entry_declared
  rw [hE] at ht
  unfold IsParseTree at ht
  cases ht with
  | @nonterm r cs _ _ hrm hf _ =>
    obtain ⟨s, hs, hcl⟩ := hv.base.start
    obtain ⟨j, hj⟩ := List.mem_iff_getElem?.mp hrm
    have htok : (PTree.node r cs).tokens = PTree.tokensList cs := by simp [PTree.tokens]
    rw [htok] at hin ⊢
    obtain ⟨hin1, hin2⟩ := hin
    have hafter : (entryItem kind).after g = some (.nt r.lhs) := by simp [Item.after, entryItem, ruleRhs, hE]
    have hx : ExpandsWith g (entryItem kind) kind.endLa := by
      cases kind with
      | lr0 => simp [ExpandsWith, entryItem, LRKind.endLa]
      | lr1 => exact ⟨.eof, rfl, trivial, [], by simp [entryItem, ruleRhs, strip]; exact .refl⟩
      | lalr => exact ⟨.eof, rfl, trivial, [], by simp [entryItem, ruleRhs, strip]; exact .refl⟩
    have hitem : (⟨some j, leadingEps r.rhs, kind.endLa⟩ : Item) ∈ s := (hcl _).mpr (.step .self ⟨r.lhs, j, r, _, hafter, hj, rfl, hx, rfl⟩)
    have heof : (input (0 + (PTree.tokensList cs).length)).1.sym = some .eof := by rw [Nat.zero_add, hin2]; rfl
    obtain ⟨q1, rest1, s1, evs1, g1, t1, l1, d1, hs1, hit1⟩ := forest_gets wf hv hm hel hl hf 0 [] s _ 0 .eof hs hitem (by simp) (by rw [ruleRhs_some hj]) (hel r hrm)
      (fun i p hp => by rw [Nat.zero_add]; exact hin1 i p hp) heof (by simp) (by cases kind <;> simp [LRKind.endLa])
    have hlead : leadingEps r.rhs ≤ r.rhs.length := by unfold leadingEps; exact (List.takeWhile_sublist _).length_le
    have hk : (strip r.rhs).length = r.rhs.length - leadingEps r.rhs := by rw [strip_lead, strip_noEps (hel r hrm), List.length_drop]
    have hact : m.nextAction q1 (input (0 + (PTree.tokensList cs).length)).1 = .act (.reduce j) := by
      refine hm.reduce q1 _ j s1 _ .eof hs1 hit1 rfl ?_ heof (by simp) ?_
      · simp only [Item.after, ruleRhs_some hj]
        exact List.getElem?_eq_none (by omega)
      · cases kind <;> simp [LaMatch, LRKind.endLa]
    have hred : m.reduction j = some ((strip r.rhs).length, r.lhs) := by rw [hm.red, hj]; rfl
    have hstep : lrStep m input (.state q1 :: rest1) (0 + (PTree.tokensList cs).length) = .next [] (0 + (PTree.tokensList cs).length) (.reduce j) := by
      rw [lrStep_reduce hact hred (by rw [hk]; exact l1), hk, d1]
      simp only [lrGoto, hm.accept _ hE]
    obtain ⟨n, hn⟩ := g1.trans (Gets.step hstep)
    refine ⟨n + 1, evs1 ++ [.reduce j], fun fuel hfuel => ?_, ?_⟩
    · obtain ⟨f, rfl⟩ : ∃ f, fuel = (f + 1) + n := ⟨fuel - n - 1, by omega⟩
      unfold lrParse
      rw [hm.entry, hn (f + 1) []]
      simp [lrRun, lrStep]
    · have : (PTree.node r cs).postorder = PTree.postorderList cs ++ [.reduce r] := by simp [PTree.postorder]
      rw [this]
      exact t1.append (by simp [TraceIs, LREvent.meaning, hj])

end Verif
