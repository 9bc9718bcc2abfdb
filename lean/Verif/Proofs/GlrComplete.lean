import Verif.Proofs.GlrRun

/-! # Completeness of the GLR driver: every parse tree is found -/

set_option autoImplicit false

namespace Verif

variable {T : Type} {g : Grammar} {kind : LRKind} {gr : LRGraph} {m : GlrMachine} {input : Nat → Tok × T}

/-- steps of one stack: choosing one of its actions each time -/
inductive NStar (m : GlrMachine) (input : Nat → Tok × T) (s : List StackSym) (p : Nat) (e : List (LREvent T)) : List StackSym → Nat → List (LREvent T) → Prop
  | refl : NStar m input s p e s p e
  | reduce {s' s'' : List StackSym} {p' : Nat} {e' e'' : List (LREvent T)} {i : Nat} : NStar m input s p e s' p' e' →
      .reduce i ∈ actsOf m (input p').1 (GConf.live s' e') → linReduce m i s' e' = some (.live s'' e'') → NStar m input s p e s'' p' e''
  | shift {q q' : Nat} {rest : List StackSym} {p' : Nat} {e' : List (LREvent T)} : NStar m input s p e (.state q :: rest) p' e' →
      .shift ∈ actsOf m (input p').1 (GConf.live (.state q :: rest) e') → m.nextGoto q (.terminal (input p').1) = some (.state q') →
      NStar m input s p e (.state q' :: .terminal (input p').1 :: .state q :: rest) (p' + 1) (e' ++ [.shift (input p').1 (input p').2])

theorem NStar.trans {s1 s2 s3 : List StackSym} {p1 p2 p3 : Nat} {e1 e2 e3 : List (LREvent T)} (h1 : NStar m input s1 p1 e1 s2 p2 e2)
    (h2 : NStar m input s2 p2 e2 s3 p3 e3) : NStar m input s1 p1 e1 s3 p3 e3 := by
  induction h2 with
  | refl => exact h1
  | reduce _ h3 h4 ih => exact .reduce ih h3 h4
  | shift _ h3 h4 ih => exact .shift ih h3 h4

/-- steps that do not depend on the visits made before -/
def NGets (m : GlrMachine) (input : Nat → Tok × T) (s : List StackSym) (p : Nat) (s' : List StackSym) (p' : Nat) (evs : List (LREvent T)) : Prop :=
  ∀ ev, NStar m input s p ev s' p' (ev ++ evs)

theorem NGets.refl (s : List StackSym) (p : Nat) : NGets m input s p s p [] := fun ev => by rw [List.append_nil]; exact .refl

theorem NGets.trans {s1 s2 s3 : List StackSym} {p1 p2 p3 : Nat} {e1 e2 : List (LREvent T)} (h1 : NGets m input s1 p1 s2 p2 e1) (h2 : NGets m input s2 p2 s3 p3 e2) :
    NGets m input s1 p1 s3 p3 (e1 ++ e2) := fun ev => by
  rw [← List.append_assoc]
  exact (h1 ev).trans (h2 _)

theorem mem_actsOf_reduce (hm : GFollows g gr m) {q : Nat} {rest : List StackSym} {tk : Tok} {i : Nat} (hq : q < gr.sets.length) (hc : CanReduce g gr q tk i) {ev : List (LREvent T)} :
    .reduce i ∈ actsOf m tk (GConf.live (.state q :: rest) ev) := by
  simp only [actsOf]
  cases hn : m.nextActions q tk with
  | panic => exact absurd hn (hm.noPanic q tk hq)
  | unexpected e => exact absurd hc ((hm.unexpected q tk e hq hn).2 i)
  | acts l => exact ((hm.acts q tk l hq hn).2.2.2 i).mpr hc

theorem mem_actsOf_shift (hm : GFollows g gr m) {q : Nat} {rest : List StackSym} {tk : Tok} (hq : q < gr.sets.length) (hc : CanShift gr q tk) {ev : List (LREvent T)} :
    .shift ∈ actsOf m tk (GConf.live (.state q :: rest) ev) := by
  simp only [actsOf]
  cases hn : m.nextActions q tk with
  | panic => exact absurd hn (hm.noPanic q tk hq)
  | unexpected e => exact absurd hc (hm.unexpected q tk e hq hn).1
  | acts l => exact (hm.acts q tk l hq hn).2.2.1.mpr hc

theorem NGets.shift (hm : GFollows g gr m) {q q' : Nat} {rest : List StackSym} {pos : Nat} (hq : q < gr.sets.length) (hc : CanShift gr q (input pos).1)
    (hg : m.nextGoto q (.terminal (input pos).1) = some (.state q')) :
    NGets m input (.state q :: rest) pos (.state q' :: .terminal (input pos).1 :: .state q :: rest) (pos + 1) [.shift (input pos).1 (input pos).2] :=
  fun _ => .shift .refl (mem_actsOf_shift hm hq hc) hg

theorem NGets.reduce (hm : GFollows g gr m) {q : Nat} {rest s' : List StackSym} {pos i : Nat} (hq : q < gr.sets.length) (hc : CanReduce g gr q (input pos).1 i)
    (hr : ∀ ev : List (LREvent T), linReduce m i (.state q :: rest) ev = some (.live s' (ev ++ [.reduce i]))) :
    NGets m input (.state q :: rest) pos s' pos [.reduce i] :=
  fun ev => .reduce .refl (mem_actsOf_reduce hm hq hc) (hr ev)

theorem nstar_heads {s : List StackSym} {p : Nat} {e : List (LREvent T)} (h : NStar m input [.state m.entry] 0 [] s p e) :
    ∃ c0, Heads m input p c0 ∧ ∀ c', Final m (input p).1 (.live s e) c' → Final m (input p).1 c0 c' := by
  induction h with
  | refl => exact ⟨_, .start, fun _ h => h⟩
  | @reduce s' s'' p' e' e'' i _ h1 h2 ih =>
    obtain ⟨c0, h3, h4⟩ := ih
    refine ⟨c0, h3, fun c' hc => h4 c' (.red h1 ?_ hc)⟩
    simp [newOf, h2]
  | @shift q q' rest p' e' _ h1 h2 ih =>
    obtain ⟨c0, h3, h4⟩ := ih
    have h5 : Final m (input p').1 c0 (.live (.state q :: rest) e') := h4 _ (.fin h1 (by simp [accOf]))
    have h6 := Heads.shift h3 h5 rfl
    simp only [shiftC, h2] at h6
    exact ⟨_, h6, fun _ h => h⟩

theorem nstar_acc {s : List StackSym} {p : Nat} {e e' : List (LREvent T)} {i : Nat} (h : NStar m input [.state m.entry] 0 [] s p e)
    (ha : .reduce i ∈ actsOf m (input p).1 (GConf.live s e)) (hr : linReduce m i s e = some (.root e')) : GAcc m input p e' := by
  obtain ⟨c0, h3, h4⟩ := nstar_heads h
  exact ⟨c0, h3, h4 _ (.fin ha (by simp [accOf, hr]))⟩

/-- parsing what follows the dot of an item -/
theorem forest_ngets (wf : g.WF) (hv : LoopInv g kind gr []) (hm : GFollows g gr m) (hel : EpsLeading g) (hl : EntryNotLeftRecursive g) {ss : List Sym} {ts : List (PTree T)}
    (h : Forest g.rules ss ts) : ∀ (q : Nat) (rest : List StackSym) (s : List Item) (it : Item) (pos : Nat) (y : Sym), gr.sets[q]? = some s → it ∈ s → it.rule ≠ none →
      (ruleRhs g it.rule).drop it.dot = ss.drop (leadingEps ss) → Sym.eps ∉ ss.drop (leadingEps ss) → ReadsAt input pos (PTree.tokensList ts) →
      (input (pos + (PTree.tokensList ts).length)).1.sym = some y → y ∈ g.terminals ++ [Sym.eof] → (it.la = none ∨ it.la = some y) →
      ∃ q' rest' s' evs, NGets m input (.state q :: rest) pos (.state q' :: rest') (pos + (PTree.tokensList ts).length) evs ∧ TraceIs g evs (PTree.postorderList ts) ∧
        2 * (ss.length - leadingEps ss) ≤ (StackSym.state q' :: rest').length ∧
        (StackSym.state q' :: rest').drop (2 * (ss.length - leadingEps ss)) = .state q :: rest ∧ gr.sets[q']? = some s' ∧
        (⟨it.rule, it.dot + (ss.length - leadingEps ss), it.la⟩ : Item) ∈ s' := by
  induction h with
  | nil =>
    intro q rest s it pos y hs hit hr hd hne hreads hy hyd hla
    exact ⟨q, rest, s, [], by simpa [PTree.tokensList] using NGets.refl _ _, by simp [TraceIs, PTree.postorderList], by simp, by simp, hs, by simpa using hit⟩
  | @eps ss ts _ ih =>
    intro q rest s it pos y hs hit hr hd hne hreads hy hyd hla
    have e : leadingEps (Sym.eps :: ss) = leadingEps ss + 1 := by simp [leadingEps]
    rw [e, List.drop_succ_cons] at hd hne
    have := ih q rest s it pos y hs hit hr hd hne hreads hy hyd hla
    rw [e]
    simpa using this
  | @term a d ss ts hf ih =>
    intro q rest s it pos y hs hit hr hd hne hreads hy hyd hla
    have e : leadingEps (Sym.t a :: ss) = 0 := by simp [leadingEps]
    rw [e] at hd hne ⊢
    simp only [List.drop_zero, Nat.sub_zero] at hd hne ⊢
    have hafter : it.after g = some (.t a) := by
      unfold Item.after
      have := congrArg List.head? hd
      simpa using this
    have hd' : (ruleRhs g it.rule).drop (it.dot + 1) = ss := by
      rw [← List.drop_drop, hd]; rfl
    have hne' : Sym.eps ∉ ss := fun h => hne (List.mem_cons_of_mem _ h)
    obtain ⟨q1, s1, he, hs1, hit1⟩ := hv.done q (getElem?_lt hs) (by simp) s hs it hit _ hafter hr
    have ha2 := hm.shift q a q1 he
    have htok : PTree.tokensList (PTree.leaf a d :: ts) = [(a, d)] ++ PTree.tokensList ts := by simp [PTree.tokensList, PTree.tokens]
    rw [htok] at hreads hy ⊢
    have h0 := hreads.left 0 (a, d) (by simp)
    simp at h0
    have hstep : NGets m input (.state q :: rest) pos (.state q1 :: .terminal (.tok a) :: .state q :: rest) (pos + 1) [.shift (.tok a) d] := by
      have h := NGets.shift (m := m) (input := input) (rest := rest) (pos := pos) hm (getElem?_lt hs) (by rw [h0]; exact ⟨a, q1, rfl, he⟩) (by rw [h0]; exact ha2)
      rw [h0] at h
      exact h
    have hlen : pos + ([(a, d)] ++ PTree.tokensList ts).length = pos + 1 + (PTree.tokensList ts).length := by simp; omega
    rw [hlen] at hy ⊢
    have hl0 := leadingEps_of_noEps hne'
    obtain ⟨q', rest', s', evs, h1, h2, h2', h3, h4, h5⟩ := ih q1 (.terminal (.tok a) :: .state q :: rest) s1 { it with dot := it.dot + 1 } (pos + 1) y hs1 hit1 hr
      (by rw [hl0]; exact hd') (by rw [hl0]; exact hne') (by simpa using hreads.right) hy hyd hla
    rw [hl0] at h2' h3 h5
    simp only [Nat.sub_zero] at h2' h3 h5
    refine ⟨q', rest', s', [.shift (.tok a) d] ++ evs, hstep.trans h1, ?_, ?_, ?_, h4, ?_⟩
    · have : PTree.postorderList (PTree.leaf a d :: ts) = [.shift a d] ++ PTree.postorderList ts := by simp [PTree.postorderList, PTree.postorder]
      rw [this]
      exact TraceIs.append (by simp [TraceIs, LREvent.meaning]) h2
    · have := congrArg List.length h3
      rw [List.length_drop] at this
      simp only [List.length_cons] at this h2' ⊢
      omega
    · rw [List.length_cons, Nat.mul_add, ← List.drop_drop, h3]; simp
    · rw [List.length_cons, Nat.add_comm ss.length 1, ← Nat.add_assoc]; exact h5
  | @nonterm r cs ss ts hrm hf1 hf2 ih1 ih2 =>
    intro q rest s it pos y hs hit hr hd hne hreads hy hyd hla
    have e : leadingEps (Sym.nt r.lhs :: ss) = 0 := by simp [leadingEps]
    rw [e] at hd hne ⊢
    simp only [List.drop_zero, Nat.sub_zero] at hd hne ⊢
    have hafter : it.after g = some (.nt r.lhs) := by
      unfold Item.after
      have := congrArg List.head? hd
      simpa using this
    have hd' : (ruleRhs g it.rule).drop (it.dot + 1) = ss := by
      rw [← List.drop_drop, hd]; rfl
    have hne' : Sym.eps ∉ ss := fun h => hne (List.mem_cons_of_mem _ h)
    have hdecl : ∀ a, Sym.t a ∈ ss → Sym.t a ∈ g.terminals := fun a ha => ruleRhs_t_declared wf (r := it.rule) (List.mem_of_mem_drop (by rw [hd']; exact ha))
    have htok : PTree.tokensList (PTree.node r cs :: ts) = PTree.tokensList cs ++ PTree.tokensList ts := by simp [PTree.tokensList, PTree.tokens]
    rw [htok, List.length_append, ← Nat.add_assoc] at hy
    rw [htok] at hreads
    obtain ⟨b, hb1, hb2, hb3, hb4⟩ := next_symbol wf hf2 hdecl hreads.right hy hyd
    obtain ⟨j, hj⟩ := List.mem_iff_getElem?.mp hrm
    -- the closure item
    obtain ⟨x, hx1, hx2⟩ : ∃ x, ExpandsWith g it x ∧ (x = none ∨ x = some b) := by
      rcases hla with h | h
      · exact ⟨none, by simp [ExpandsWith, h], .inl rfl⟩
      · exact ⟨some b, by simp only [ExpandsWith, h]; exact ⟨b, rfl, hb3, by rw [hd']; exact hb4⟩, .inr rfl⟩
    have hcl := hv.base.closed q s hs it hit ⟨some j, leadingEps r.rhs, x⟩ ⟨r.lhs, j, r, x, hafter, hj, rfl, hx1, rfl⟩
    obtain ⟨q1, rest1, s1, evs1, g1, t1, l1, d1, hs1, hit1⟩ := ih1 q rest s ⟨some j, leadingEps r.rhs, x⟩ pos b hs hcl (by simp)
      (by rw [ruleRhs_some hj]) (hel r hrm) hreads.left hb1 hb2 hx2
    -- the reduction
    have hlead : leadingEps r.rhs ≤ r.rhs.length := by unfold leadingEps; exact (List.takeWhile_sublist _).length_le
    have hk : (strip r.rhs).length = r.rhs.length - leadingEps r.rhs := by rw [strip_lead, strip_noEps (hel r hrm), List.length_drop]
    have hact : CanReduce g gr q1 (input (pos + (PTree.tokensList cs).length)).1 j := by
      refine ⟨s1, _, b, hs1, hit1, rfl, ?_, hb1, hb2, ?_⟩
      · simp only [Item.after, ruleRhs_some hj]
        exact List.getElem?_eq_none (by omega)
      · rcases hx2 with rfl | rfl
        · simp only [LaMatch]
          simp only [Grammar.symbols, List.mem_append] at hb2 ⊢; tauto
        · rfl
    have hred : m.reduction j = some ((strip r.rhs).length, r.lhs) := by rw [hm.red, hj]; rfl
    obtain ⟨q2, s2, he, hs2, hit2⟩ := hv.done q (getElem?_lt hs) (by simp) s hs it hit _ hafter hr
    have hnacc : ¬ (q = 0 ∧ g.entry = .nt r.lhs) := by
      rintro ⟨rfl, hE⟩
      obtain ⟨s0, hs0, hcl0⟩ := hv.base.start
      rw [hs] at hs0; simp at hs0; subst hs0
      have := start_entry_only hE hl ((hcl0 it).mp hit) hafter
      rw [this] at hr
      exact hr rfl
    have hstep : NGets m input (.state q1 :: rest1) (pos + (PTree.tokensList cs).length)
        (.state q2 :: .nonTerminal r.lhs :: .state q :: rest) (pos + (PTree.tokensList cs).length) [.reduce j] :=
      NGets.reduce hm (getElem?_lt hs1) hact (fun ev => by simp only [linReduce, hred, hk, d1, hm.goto q _ q2 he hnacc])
    have hl0 := leadingEps_of_noEps hne'
    obtain ⟨q', rest', s', evs, h1, h2, h2', h3, h4, h5⟩ := ih2 q2 (.nonTerminal r.lhs :: .state q :: rest) s2 { it with dot := it.dot + 1 } (pos + (PTree.tokensList cs).length) y hs2 hit2 hr
      (by rw [hl0]; exact hd') (by rw [hl0]; exact hne') hreads.right hy hyd hla
    rw [hl0] at h2' h3 h5
    simp only [Nat.sub_zero] at h2' h3 h5
    refine ⟨q', rest', s', evs1 ++ [.reduce j] ++ evs, ?_, ?_, ?_, ?_, h4, ?_⟩
    · rw [htok, List.length_append, ← Nat.add_assoc]
      exact (g1.trans hstep).trans h1
    · have : PTree.postorderList (PTree.node r cs :: ts) = PTree.postorderList cs ++ [.reduce r] ++ PTree.postorderList ts := by simp [PTree.postorderList, PTree.postorder]
      rw [this]
      exact (TraceIs.append t1 (by simp [TraceIs, LREvent.meaning, hj])).append h2
    · have := congrArg List.length h3
      rw [List.length_drop] at this
      simp only [List.length_cons] at this h2' ⊢
      omega
    · rw [List.length_cons, Nat.mul_add, ← List.drop_drop, h3]; simp
    · rw [List.length_cons, Nat.add_comm ss.length 1, ← Nat.add_assoc]; exact h5

/-- every sentence is accepted, with the callbacks of its parse tree -/
theorem glr_complete (wf : g.WF) (hv : LoopInv g kind gr []) (hm : GFollows g gr m) (hel : EpsLeading g) (hl : EntryNotLeftRecursive g) {t : PTree T}
    (ht : IsParseTree g.rules g.entry t) (hin : StreamIs input t.tokens) :
    ∃ evs, GAcc m input t.tokens.length evs ∧ TraceIs g evs t.postorder := by
  obtain ⟨E, hE, _⟩ := wf.entry_declared
  rw [hE] at ht
  unfold IsParseTree at ht
  cases ht with
  | @nonterm r cs _ _ hrm hf _ =>
    obtain ⟨s, hs, hcl⟩ := hv.base.start
    obtain ⟨j, hj⟩ := List.mem_iff_getElem?.mp hrm
    have htok : (PTree.node r cs).tokens = PTree.tokensList cs := by simp [PTree.tokens]
    rw [htok] at hin ⊢
    obtain ⟨hin1, hin2⟩ := hin
    have hafter : (entryItem kind).after g = some (.nt r.lhs) := by simp [Item.after, entryItem, ruleRhs, hE]
    have hx : ExpandsWith g (entryItem kind) kind.endLa := by
      cases kind with
      | lr0 => simp [ExpandsWith, entryItem, LRKind.endLa]
      | lr1 => exact ⟨.eof, rfl, trivial, [], by simp [entryItem, ruleRhs, strip]; exact .refl⟩
      | lalr => exact ⟨.eof, rfl, trivial, [], by simp [entryItem, ruleRhs, strip]; exact .refl⟩
    have hitem : (⟨some j, leadingEps r.rhs, kind.endLa⟩ : Item) ∈ s := (hcl _).mpr (.step .self ⟨r.lhs, j, r, _, hafter, hj, rfl, hx, rfl⟩)
    have heof : (input (0 + (PTree.tokensList cs).length)).1.sym = some .eof := by rw [Nat.zero_add, hin2]; rfl
    obtain ⟨q1, rest1, s1, evs1, g1, t1, l1, d1, hs1, hit1⟩ := forest_ngets wf hv hm hel hl hf 0 [] s _ 0 .eof hs hitem (by simp) (by rw [ruleRhs_some hj]) (hel r hrm)
      (fun i p hp => by rw [Nat.zero_add]; exact hin1 i p hp) heof (by simp) (by cases kind <;> simp [LRKind.endLa])
    have hlead : leadingEps r.rhs ≤ r.rhs.length := by unfold leadingEps; exact (List.takeWhile_sublist _).length_le
    have hk : (strip r.rhs).length = r.rhs.length - leadingEps r.rhs := by rw [strip_lead, strip_noEps (hel r hrm), List.length_drop]
    have hact : CanReduce g gr q1 (input (0 + (PTree.tokensList cs).length)).1 j := by
      refine ⟨s1, _, .eof, hs1, hit1, rfl, ?_, heof, by simp, ?_⟩
      · simp only [Item.after, ruleRhs_some hj]
        exact List.getElem?_eq_none (by omega)
      · cases kind <;> simp [LaMatch, LRKind.endLa]
    have hred : m.reduction j = some ((strip r.rhs).length, r.lhs) := by rw [hm.red, hj]; rfl
    refine ⟨evs1 ++ [.reduce j], ?_, ?_⟩
    · have h0 := g1 []
      rw [Nat.zero_add, List.nil_append] at h0
      rw [Nat.zero_add] at hact
      refine nstar_acc (m := m) (by rw [hm.entry]; exact h0) (mem_actsOf_reduce hm (getElem?_lt hs1) hact) ?_
      simp only [linReduce, hred, hk, d1, hm.accept _ hE]
    · have : (PTree.node r cs).postorder = PTree.postorderList cs ++ [.reduce r] := by simp [PTree.postorder]
      rw [this]
      exact t1.append (by simp [TraceIs, LREvent.meaning, hj])

end Verif
