import Verif.Proofs.LRReach
import Verif.Proofs.LR1Exact
import Mathlib.Data.Set.Finite.List
import Mathlib.Data.Fintype.Pigeonhole
import Mathlib.Order.Preorder.Finite

/-! # LR parsers without conflicts stop -/

set_option autoImplicit false

namespace Verif

variable {T : Type} {g : Grammar} {kind : LRKind} {gr : LRGraph} {m : LRMachine} {input : Nat → Tok × T}

/-! ## Trees of one sentence have the same size -/

def PEvent.isReduce : PEvent T → Bool
  | .reduce _ => true
  | .shift _ _ => false

theorem forest_inner {rules : List Rule} {ss : List Sym} {ts : List (PTree T)} (h : Forest rules ss ts) :
    PTree.innerList ts = (PTree.postorderList ts).countP PEvent.isReduce := by
  induction h with
  | nil => rfl
  | eps _ ih => exact ih
  | term _ ih => simp [PTree.innerList, PTree.inner, PTree.postorderList, PTree.postorder, PEvent.isReduce, ih]
  | nonterm _ _ _ ih1 ih2 =>
    simp only [PTree.innerList, PTree.inner, PTree.postorderList, PTree.postorder, ih1, ih2, List.countP_append, List.countP_cons, List.countP_nil, PEvent.isReduce]
    simp only [if_true]
    omega

theorem forest_split {rules : List Rule} {a b : List Sym} {ts : List (PTree T)} (h : Forest rules (a ++ b) ts) :
    ∃ t1 t2, ts = t1 ++ t2 ∧ Forest rules a t1 ∧ Forest rules b t2 := by
  induction a generalizing ts with
  | nil => exact ⟨[], ts, rfl, .nil, h⟩
  | cons s a ih =>
    rw [List.cons_append] at h
    cases h with
    | eps h => obtain ⟨t1, t2, rfl, h1, h2⟩ := ih h; exact ⟨t1, t2, rfl, .eps h1, h2⟩
    | term h => obtain ⟨t1, t2, rfl, h1, h2⟩ := ih h; exact ⟨_ :: t1, t2, rfl, .term h1, h2⟩
    | nonterm hr hf h => obtain ⟨t1, t2, rfl, h1, h2⟩ := ih h; exact ⟨_ :: t1, t2, rfl, .nonterm hr hf h1, h2⟩

theorem forest_unstrip {rules : List Rule} {ss : List Sym} {ts : List (PTree T)} (h : Forest rules (strip ss) ts) : Forest rules ss ts := by
  induction ss generalizing ts with
  | nil => exact h
  | cons s ss ih =>
    by_cases hs : s = .eps
    · subst hs
      exact .eps (ih (by simpa [strip] using h))
    · rw [strip_cons hs] at h
      cases h with
      | eps h => exact absurd rfl hs
      | term h => exact .term (ih h)
      | nonterm hr hf h => exact .nonterm hr hf (ih h)

/-- trees for a sentential form are completed to trees for what it comes from -/
theorem forest_rewrites {rules : List Rule} {x y : List Sym} (h : Rewrites rules x y) : ∃ K, ∀ F : List (PTree T), Forest rules y F →
    ∃ F' : List (PTree T), Forest rules x F' ∧ PTree.tokensList F' = PTree.tokensList F ∧ PTree.innerList F' = PTree.innerList F + K := by
  induction h with
  | refl => exact ⟨0, fun F hF => ⟨F, hF, rfl, rfl⟩⟩
  | @step α β r _ hr ih =>
    obtain ⟨K, ih⟩ := ih
    refine ⟨K + 1, fun F hF => ?_⟩
    obtain ⟨F12, F3, rfl, h12, h3⟩ := forest_split hF
    obtain ⟨F1, F2, rfl, h1, h2⟩ := forest_split h12
    obtain ⟨F', e1, e2, e3⟩ := ih (F1 ++ .node r F2 :: F3) (forest_append h1 (.nonterm hr (forest_unstrip h2) h3))
    refine ⟨F', e1, ?_, ?_⟩
    · rw [e2]; simp [tokensList_append', PTree.tokensList, PTree.tokens]
    · rw [e3]; simp only [innerList_append, PTree.innerList, PTree.inner]; omega

theorem same_inner (wf : g.WF) (hv : LoopInv g kind gr []) (hm : Obeys g gr m) (hel : EpsLeading g) (hl : EntryNotLeftRecursive g) (d : T) {t t' : PTree T}
    (ht : IsParseTree g.rules g.entry t) (ht' : IsParseTree g.rules g.entry t') (he : t.tokens = t'.tokens) : t.inner = t'.inner := by
  let inp : Nat → Tok × T := fun i => match t.tokens[i]? with | some p => (.tok p.1, p.2) | none => (.eof, d)
  have hs : StreamIs inp t.tokens := ⟨fun i p h => by simp [inp, h], by simp [inp]⟩
  obtain ⟨N, evs, h1, h2⟩ := lrParse_complete wf hv hm hel hl ht hs
  obtain ⟨N', evs', h1', h2'⟩ := lrParse_complete wf hv hm hel hl ht' (he ▸ hs)
  have e := (h1 (N + N') (by omega)).symm.trans (h1' (N + N') (by omega))
  simp only [LRResult.ok.injEq] at e
  rw [← e.1] at h2'
  have e := traceIs_inj h2 h2'
  have i1 := forest_inner ht
  have i2 := forest_inner ht'
  simp only [PTree.innerList, PTree.postorderList, List.append_nil, Nat.add_zero] at i1 i2
  rw [i1, i2, e]

/-! ## Reductions -/

theorem stackOk_length {stk : List StackSym} {ts : List (PTree T)} (h : StackOk g gr stk ts) : stk.length = 2 * ts.length + 1 := by
  induction h with
  | base => rfl
  | push _ _ _ _ ih => simp only [List.length_cons] at ih ⊢; omega

/-- one reduction: the stack `stk` with trees `ts` becomes `stk'` with trees `ts'` -/
structure RedAt (g : Grammar) (gr : LRGraph) (m : LRMachine) (tk : Tok) (stk : List StackSym) (ts : List (PTree T)) (stk' : List StackSym) (ts' : List (PTree T))
    (q0 i : Nat) (r : Rule) (cs tt : List (PTree T)) (p : Nat) (rest : List StackSym) (q' : Nat) : Prop where
  top : ∃ rest0, stk = .state q0 :: rest0
  range : q0 < gr.sets.length
  act : m.nextAction q0 tk = .act (.reduce i)
  red : m.reduction i = some (cs.length, r.lhs)
  mem : r ∈ g.rules
  pop : stk.drop (2 * cs.length) = .state p :: rest
  trees : ts = cs.reverse ++ tt
  goto : m.nextGoto p (.nonTerminal r.lhs) = some (.state q')
  pushed : stk' = .state q' :: .nonTerminal r.lhs :: .state p :: rest
  trees' : ts' = .node r cs :: tt
  ok : StackOk g gr stk ts
  okPop : StackOk g gr (.state p :: rest) tt
  ok' : StackOk g gr stk' ts'

theorem lrStep_cases (hv : LoopInv g kind gr []) (hm : Follows g gr m) {stk : List StackSym} {ts : List (PTree T)} {pos : Nat} (h : StackOk g gr stk ts) :
    (∃ exp, lrStep m input stk pos = .unexpected exp) ∨
    (∃ (stk' : List StackSym) (ts' : List (PTree T)) (a : Nat) (ev : LREvent T), (input pos).1 = .tok a ∧ lrStep m input stk pos = .next stk' (pos + 1) ev ∧ StackOk g gr stk' ts' ∧ ts'.length = ts.length + 1) ∨
    (∃ ev, lrStep m input stk pos = .next [] pos ev) ∨
    (∃ (stk' : List StackSym) (ts' : List (PTree T)) (ev : LREvent T) (q0 i : Nat) (r : Rule) (cs tt : List (PTree T)) (p : Nat) (rest : List StackSym) (q' : Nat), lrStep m input stk pos = .next stk' pos ev ∧ RedAt g gr m (input pos).1 stk ts stk' ts' q0 i r cs tt p rest q') := by
  obtain ⟨q, rest, rfl⟩ := h.head
  obtain ⟨s, hs⟩ := h.range hv.base
  have hq := getElem?_lt hs
  cases hact : m.nextAction q (input pos).1 with
  | panic => exact absurd hact (hm.noPanic q _ hq)
  | unexpected exp => exact .inl ⟨exp, lrStep_unexpected hact⟩
  | act a =>
    right
    cases a with
    | shift =>
      obtain ⟨a, q', h1, h2, h3⟩ := hm.shift q _ hq hact
      refine .inl ⟨_, .leaf a (input pos).2 :: ts, a, .shift (input pos).1 (input pos).2, h1, ?_, .push (x := .terminal (input pos).1) h h2 (by simp only [h1]; rfl) (isParseTree_term a _), rfl⟩
      rw [lrStep_shift hact]
      simp only [lrGoto, h3]
    | reduce i =>
      right
      obtain ⟨s1, it, x, h1, h2, h3, h4, _, _⟩ := hm.reduce q _ i hq hact
      obtain ⟨r, hi, hrm, hlen, _, _, p, rest', cs, ts', s', hdrop, hts, hst, hf, hs', hcore⟩ := reduce_stack hv h h1 h2 h3 h4
      have hcl := forest_length hf
      have hred : m.reduction i = some ((strip r.rhs).length, r.lhs) := by rw [hm.red, hi]; rfl
      rw [lrStep_reduce hact hred hlen, hdrop]
      rw [← hcl] at hred hdrop
      have htree : IsParseTree g.rules (.nt r.lhs) (.node r cs) := .nonterm hrm hf .nil
      by_cases he : p = 0 ∧ g.entry = .nt r.lhs
      · obtain ⟨rfl, hE⟩ := he
        simp only [lrGoto, hm.accept _ hE]
        obtain ⟨rfl, rfl⟩ := hst.bottom hv.base
        exact .inl ⟨_, rfl⟩
      · rcases goto_exists hv hs' hi hcore with he' | ⟨q', he'⟩
        · exact absurd he' he
        · have hg := hm.goto p _ q' he' he
          simp only [lrGoto, hg]
          exact .inr ⟨_, _, _, q, i, r, cs, ts', p, rest', q', rfl, ⟨_, rfl⟩, hq, hact, hred, hrm, hdrop, hts, hg, rfl, rfl, h, hst, .push (x := .nonTerminal r.lhs) hst he' rfl htree⟩

/-! ## An endless sequence of reductions -/

/-- an endless sequence of reductions at the token `tk` -/
structure RedChain (g : Grammar) (gr : LRGraph) (m : LRMachine) (tk : Tok) (stk : Nat → List StackSym) (ts : Nat → List (PTree T))
    (q0 i : Nat → Nat) (r : Nat → Rule) (cs tt : Nat → List (PTree T)) (p : Nat → Nat) (rest : Nat → List StackSym) (q' : Nat → Nat) : Prop where
  step : ∀ n, RedAt g gr m tk (stk n) (ts n) (stk (n + 1)) (ts (n + 1)) (q0 n) (i n) (r n) (cs n) (tt n) (p n) (rest n) (q' n)

variable {tk : Tok} {stk : Nat → List StackSym} {ts : Nat → List (PTree T)} {q0 i : Nat → Nat} {r : Nat → Rule} {cs tt : Nat → List (PTree T)} {p : Nat → Nat}
  {rest : Nat → List StackSym} {q' : Nat → Nat}

theorem head_swap {σ R1 R2 X : List StackSym} {q a : Nat} (h : σ ++ .state q :: R1 = .state a :: X) : ∃ Y, σ ++ StackSym.state q :: R2 = .state a :: Y := by
  cases σ with
  | nil => simp at h; exact ⟨R2, by simp [h.1]⟩
  | cons c σ => simp at h; exact ⟨σ ++ .state q :: R2, by simp [h.1]⟩

/-- the part of the stack that is not touched can be exchanged -/
theorem chain_transplant (h : RedChain g gr m tk stk ts q0 i r cs tt p rest q') {n : Nat} (hn : ∀ k, n ≤ k → (ts n).length ≤ (tt k).length) {q : Nat} {R1 : List StackSym}
    (hq : stk n = .state q :: R1) {inp : Nat → Tok × T} {pos : Nat} (hact : ∀ q0 i, q0 < gr.sets.length → m.nextAction q0 tk = .act (.reduce i) →
      m.nextAction q0 (inp pos).1 = .act (.reduce i)) (R2 : List StackSym) (ev : List (LREvent T)) :
    ∀ j, ∃ σ ev', stk (n + j) = σ ++ .state q :: R1 ∧ ∀ fuel, lrRun m inp (fuel + j) (.state q :: R2) pos ev = lrRun m inp fuel (σ ++ .state q :: R2) pos ev' := by
  intro j
  induction j with
  | zero => exact ⟨[], ev, by simpa using hq, fun fuel => rfl⟩
  | succ j ih =>
    obtain ⟨σ, ev', h1, h2⟩ := ih
    have hs := h.step (n + j)
    have l1 := stackOk_length hs.okPop
    have l2 := stackOk_length (h.step n).ok
    have l3 := stackOk_length hs.ok
    have h3 := hn (n + j) (by omega)
    have hlen : 2 * (cs (n + j)).length ≤ σ.length := by
      have e1 := congrArg List.length h1
      have e2 := congrArg List.length hs.trees
      rw [hq] at l2
      simp only [List.length_append, List.length_cons, List.length_reverse] at e1 e2 l2
      omega
    have hdrop : ∀ R : List StackSym, (σ ++ R).drop (2 * (cs (n + j)).length) = σ.drop (2 * (cs (n + j)).length) ++ R := fun R =>
      List.drop_append_of_le_length hlen
    have hpop := hs.pop
    rw [h1, hdrop] at hpop
    refine ⟨.state (q' (n + j)) :: .nonTerminal (r (n + j)).lhs :: σ.drop (2 * (cs (n + j)).length), ev' ++ [.reduce (i (n + j))], ?_, fun fuel => ?_⟩
    · rw [← Nat.add_assoc, hs.pushed, ← hpop]; simp
    · obtain ⟨rest0, htop⟩ := hs.top
      rw [h1] at htop
      obtain ⟨Y, hY⟩ := head_swap (R2 := R2) htop
      obtain ⟨Z, hZ⟩ := head_swap (R2 := R2) hpop
      have := h2 (fuel + 1)
      rw [Nat.add_assoc, Nat.add_comm 1 j] at this
      rw [this, lrRun]
      have hstep : lrStep m inp (σ ++ .state q :: R2) pos = .next (.state (q' (n + j)) :: .nonTerminal (r (n + j)).lhs :: (σ.drop (2 * (cs (n + j)).length) ++ .state q :: R2))
          pos (.reduce (i (n + j))) := by
        have hle : 2 * (cs (n + j)).length ≤ (StackSym.state (q0 (n + j)) :: Y).length := by rw [← hY, List.length_append]; omega
        rw [hY, lrStep_reduce (hact _ _ hs.range hs.act) hs.red hle, ← hY, hdrop, hZ]
        simp only [lrGoto, hs.goto]
      rw [hstep]
      rfl

theorem continue_of_derives (wf : g.WF) (hp : Productive g) {γ δ : List Sym} {u : List Nat} (hu : Derives g.rules γ u) {x : Sym} (hx : x.isTerm)
    (hr : Rewrites g.rules [g.entry, .eof] (γ ++ x :: δ)) : CanContinue g u x := by
  obtain ⟨z, h1, h2⟩ := rewrites_end wf hr
  have hdecl := rewrites_declared wf h2 (by
    intro s hs
    simp at hs; subst hs
    obtain ⟨A, h1, h2⟩ := wf.entry_declared
    rw [h1]; exact List.mem_append_right _ h2)
  have heof : Sym.eof ∉ z := by
    intro hm
    have := hdecl _ hm
    rcases List.mem_append.mp this with h | h
    · obtain ⟨_, h⟩ := wf.ts _ h; cases h
    · obtain ⟨_, h⟩ := wf.nts _ h; cases h
  rcases List.eq_nil_or_concat δ with rfl | ⟨δ', c, rfl⟩
  · obtain ⟨rfl, hc⟩ := List.append_inj' h1 rfl
    simp at hc
    subst hc
    exact rewrites_derives h2 hu
  · have e : (γ ++ x :: δ') ++ [c] = z ++ [.eof] := by simpa using h1
    obtain ⟨rfl, -⟩ := List.append_inj' e rfl
    cases x with
    | eof => simp at heof
    | t a =>
      obtain ⟨v, hv⟩ := derives_some wf hp δ' (fun s hs => hdecl s (by simp [hs]))
      exact ⟨v, rewrites_derives h2 (hu.append (.term hv))⟩
    | nt A => exact hx.elim
    | eps => exact hx.elim

/-- some token can come next -/
theorem continue_some (wf : g.WF) (hp : Productive g) {γ δ : List Sym} {u : List Nat} (hu : Derives g.rules γ u)
    (hr : Rewrites g.rules [g.entry, .eof] (γ ++ δ)) : ∃ b ∈ g.terminals ++ [Sym.eof], CanContinue g u b := by
  obtain ⟨z, h1, h2⟩ := rewrites_end wf hr
  have hdecl := rewrites_declared wf h2 (by
    intro s hs
    simp at hs; subst hs
    obtain ⟨A, h1, h2⟩ := wf.entry_declared
    rw [h1]; exact List.mem_append_right _ h2)
  rcases List.eq_nil_or_concat δ with rfl | ⟨δ', c, rfl⟩
  · rw [List.append_nil] at h1
    rw [h1] at hu
    obtain ⟨_, _, _, _, h⟩ := hu.split
    cases h
  · have e : (γ ++ δ') ++ [c] = z ++ [.eof] := by simpa using h1
    obtain ⟨rfl, -⟩ := List.append_inj' e rfl
    obtain ⟨v, hv⟩ := derives_some wf hp δ' (fun s hs => hdecl s (by simp [hs]))
    have hd := rewrites_derives h2 (hu.append hv)
    cases v with
    | nil => exact ⟨.eof, by simp, by simp only [CanContinue]; simpa using hd⟩
    | cons a v =>
      refine ⟨.t a, List.mem_append_left _ ?_, v, hd⟩
      obtain ⟨ts, hf, ht⟩ := derives_forest (T := Unit) hv ((a :: v).map (fun x => (x, ()))) (by simp [Function.comp_def])
      have := forest_declared wf hf (fun a ha => by
        rcases List.mem_append.mp (hdecl (.t a) (List.mem_append_right _ ha)) with h | h
        · exact h
        · obtain ⟨_, h⟩ := wf.nts _ h; cases h) (a, ()) (by rw [ht]; simp)
      exact this

theorem sym_of_mem (wf : g.WF) {b : Sym} (hb : b ∈ g.terminals ++ [Sym.eof]) : ∃ tk : Tok, tk.sym = some b := by
  rcases List.mem_append.mp hb with h | h
  · obtain ⟨a, rfl⟩ := wf.ts b h; exact ⟨.tok a, rfl⟩
  · simp at h; subst h; exact ⟨.eof, rfl⟩

/-- the stack cannot grow for ever -/
theorem no_growth (wf : g.WF) (hv : LoopInv g kind gr []) (hj : Justified g kind gr) (hm : Follows g gr m) (hm' : Obeys g gr m) (hel : EpsLeading g)
    (hl : EntryNotLeftRecursive g) (hp : Productive g) (d : T) (h : RedChain g gr m tk stk ts q0 i r cs tt p rest q') {n : Nat}
    (hn : ∀ k, n ≤ k → (ts n).length ≤ (tt k).length) : False := by
  have hs := h.step n
  obtain ⟨R1, htop⟩ := hs.top
  obtain ⟨s, it, x, h1, h2, h3, h4, h5, h6⟩ := hm.reduce _ _ _ hs.range hs.act
  obtain ⟨γ, k1, k2⟩ := hj _ _ h1 _ h2
  obtain ⟨q1, R2, s1, u, e1, e2, e3, e4, e5⟩ := item_reached wf hv hm' hel hl hp d k2
  have := leads_det hv.base e1 k1
  subst this
  obtain ⟨δ, hδ⟩ := (fits_of_after wf k2).rest wf
  have hdrop : (ruleRhs g it.rule).drop it.dot = [] := by
    unfold Item.after at h4
    exact List.drop_eq_nil_of_le (List.getElem?_eq_none_iff.mp h4)
  rw [hdrop] at hδ
  have hla := k2.la wf
  have main : ∃ (b : Sym) (tk' : Tok), b ∈ g.terminals ++ [Sym.eof] ∧ tk'.sym = some b ∧ CanContinue g (u.map (·.1)) b ∧ NextOk g it b ∧
      ∀ q0 i, q0 < gr.sets.length → m.nextAction q0 tk = .act (.reduce i) → m.nextAction q0 tk' = .act (.reduce i) := by
    cases hi : it.la with
    | some l =>
      rw [hi] at h6 hδ hla
      simp only [LaMatch] at h6
      subst h6
      have hmem : l ∈ g.terminals ++ [Sym.eof] := by
        unfold LaOk at hla
        split at hla
        · obtain ⟨a, e, ha⟩ := hla
          cases e
          rcases ha with rfl | ha <;> simp [*]
        · cases hla
      have hlt := isTerm_declared wf hmem
      refine ⟨l, tk, hmem, h5, continue_of_derives wf hp e4 hlt (δ := δ) (by simpa [strip] using hδ), ?_, fun _ _ _ h => h⟩
      intro l' hl'
      rw [hi] at hl'
      cases hl'
      rw [hdrop]
      refine ⟨[], ?_⟩
      have : strip ([] ++ [l]) = [l] := by rw [List.nil_append, strip_cons (by rintro rfl; exact hlt)]; rfl
      rw [this]
      exact .refl
    | none =>
      rw [hi] at hδ hla
      have hk : kind.hasLa = false := by
        unfold LaOk at hla
        split at hla
        · obtain ⟨a, e, _⟩ := hla; cases e
        · rename_i hh; simpa using hh
      obtain ⟨b, hb, hc⟩ := continue_some wf hp e4 (δ := δ) (by simpa [strip] using hδ)
      obtain ⟨tk', htk⟩ := sym_of_mem wf hb
      refine ⟨b, tk', hb, htk, hc, (fun l hl => by rw [hi] at hl; cases hl), fun q0 i hq ha => ?_⟩
      obtain ⟨s', it', x', a1, a2, a3, a4, _, _⟩ := hm.reduce q0 _ i hq ha
      have hla' := (hv.base.items q0 s' a1 it' a2).la
      unfold LaOk at hla'
      rw [if_neg (by simp [hk])] at hla'
      refine hm'.reduce q0 tk' i s' it' b a1 a2 a3 a4 htk hb ?_
      rw [hla']
      simp only [LaMatch]
      simp only [Grammar.symbols, List.mem_append] at hb ⊢; tauto
  obtain ⟨b, tk', b1, b2, b3, b4, b5⟩ := main
  let inp0 : Nat → Tok × T := fun i => match u[i]? with | some p => (.tok p.1, p.2) | none => (tk', d)
  have hr0 : ∀ i p, u[i]? = some p → inp0 i = (.tok p.1, p.2) := fun i p h => by simp [inp0, h]
  have ht0 : (inp0 u.length).1 = tk' := by simp [inp0]
  obtain ⟨inp, hsame, N, ev, ps, hN⟩ := viable_accepts wf hv hm' hel hl (nextViable_of_continue (input := inp0) ⟨rfl, hr0⟩ (by rw [ht0]; exact b2) b3)
  have ht : (inp u.length).1 = tk' := by rw [← hsame _ (Nat.le_refl _)]; exact ht0
  obtain ⟨evs, n1, hg⟩ := e5 inp b (fun i p hp => by rw [Nat.zero_add, ← hsame i (Nat.le_of_lt (getElem?_lt hp))]; exact hr0 i p hp) (by rw [ht]; exact b2) b1 b4
  obtain ⟨σ, ev', _, hrun⟩ := chain_transplant h hn htop (inp := inp) (pos := u.length) (by rw [ht]; exact b5) R2 evs N
  have r1 := hN (N + n1) (by omega)
  unfold lrParse at r1
  rw [hm.entry, hg, List.nil_append] at r1
  have r2 := hrun 0
  rw [Nat.zero_add, r1] at r2
  cases r2

theorem chain_tokens (h : RedChain g gr m tk stk ts q0 i r cs tt p rest q') (n : Nat) :
    PTree.tokensList (ts n).reverse = PTree.tokensList (ts 0).reverse ∧ PTree.innerList (ts n) = PTree.innerList (ts 0) + n := by
  induction n with
  | zero => exact ⟨rfl, rfl⟩
  | succ n ih =>
    have hs := h.step n
    rw [← ih.1, hs.trees', hs.trees]
    refine ⟨by simp [tokensList_append', PTree.tokensList, PTree.tokens], ?_⟩
    have := ih.2
    rw [hs.trees, innerList_append, innerList_reverse] at this
    simp only [PTree.innerList, PTree.inner]
    omega

/-- what is below all later reductions stays -/
theorem chain_keeps (h : RedChain g gr m tk stk ts q0 i r cs tt p rest q') {n1 : Nat} (hmin : ∀ k, (tt n1).length ≤ (tt k).length) :
    ∀ j, ∃ σ τ, stk (n1 + j + 1) = σ ++ .state (p n1) :: rest n1 ∧ ts (n1 + j + 1) = τ ++ tt n1 ∧
      (.state (p n1) :: rest n1) <:+ (StackSym.state (p (n1 + j)) :: rest (n1 + j)) ∧ tt n1 <:+ tt (n1 + j) := by
  intro j
  induction j with
  | zero =>
    have hs := h.step n1
    exact ⟨[.state (q' n1), .nonTerminal (r n1).lhs], [.node (r n1) (cs n1)], by simpa using hs.pushed, by simpa using hs.trees', List.suffix_refl _, List.suffix_refl _⟩
  | succ j ih =>
    obtain ⟨σ, τ, h1, h2, _, _⟩ := ih
    have hs := h.step (n1 + j + 1)
    have hm1 := hmin (n1 + j + 1)
    have l1 := stackOk_length hs.okPop
    have l2 := stackOk_length (h.step n1).okPop
    have s1 : (.state (p n1) :: rest n1) <:+ (StackSym.state (p (n1 + j + 1)) :: rest (n1 + j + 1)) := by
      refine List.suffix_of_suffix_length_le (l₃ := stk (n1 + j + 1)) ?_ ?_ (by omega)
      · rw [h1]; exact List.suffix_append _ _
      · rw [← hs.pop]; exact List.drop_suffix _ _
    have s2 : tt n1 <:+ tt (n1 + j + 1) := by
      refine List.suffix_of_suffix_length_le (l₃ := ts (n1 + j + 1)) ?_ ?_ hm1
      · rw [h2]; exact List.suffix_append _ _
      · rw [hs.trees]; exact List.suffix_append _ _
    obtain ⟨σ', e1⟩ := s1
    obtain ⟨τ', e2⟩ := s2
    refine ⟨.state (q' (n1 + j + 1)) :: .nonTerminal (r (n1 + j + 1)).lhs :: σ', .node (r (n1 + j + 1)) (cs (n1 + j + 1)) :: τ', ?_, ?_, ⟨σ', e1⟩, ⟨τ', e2⟩⟩
    · have : n1 + (j + 1) + 1 = n1 + j + 1 + 1 := by omega
      rw [this, hs.pushed, ← e1]; simp
    · have : n1 + (j + 1) + 1 = n1 + j + 1 + 1 := by omega
      rw [this, hs.trees', ← e2]; simp

/-- an endless sequence of reductions is not possible -/
theorem no_chain (wf : g.WF) (hv : LoopInv g kind gr []) (hj : Justified g kind gr) (hm : Follows g gr m) (hm' : Obeys g gr m) (hel : EpsLeading g)
    (hl : EntryNotLeftRecursive g) (hp : Productive g) (d : T) (h : RedChain g gr m tk stk ts q0 i r cs tt p rest q') : False := by
  by_cases hA : ∃ n, ∀ k, n ≤ k → (ts n).length ≤ (tt k).length
  · obtain ⟨n, hn⟩ := hA
    exact no_growth wf hv hj hm hm' hel hl hp d h hn
  · -- the lowest point
    have hex : ∃ L n, (tt n).length = L := ⟨_, 0, rfl⟩
    classical
    obtain ⟨n1, hn1⟩ := Nat.find_spec hex
    have hmin : ∀ k, (tt n1).length ≤ (tt k).length := fun k => by rw [hn1]; exact Nat.find_min' hex ⟨k, rfl⟩
    have hnext : ∀ k, n1 ≤ k → (tt k).length = (tt n1).length → ∃ k', k < k' ∧ (tt k').length = (tt n1).length := by
      intro k hk he
      have h1 : (ts (k + 1)).length = (tt n1).length + 1 := by rw [(h.step k).trees', List.length_cons, he]
      by_contra hcon
      refine hA ⟨k + 1, fun k' hk' => ?_⟩
      have h2 : (tt k').length ≠ (tt n1).length := fun e => hcon ⟨k', hk', e⟩
      have h3 := hmin k'
      omega
    have hinf : Set.Infinite {k | n1 ≤ k ∧ (tt k).length = (tt n1).length} := by
      refine Set.infinite_of_forall_exists_gt fun N => ?_
      induction N with
      | zero =>
        obtain ⟨k, h1, h2⟩ := hnext n1 (Nat.le_refl _) rfl
        exact ⟨k, ⟨by omega, h2⟩, by omega⟩
      | succ N ih =>
        obtain ⟨k, ⟨h1, h2⟩, h3⟩ := ih
        obtain ⟨k', h4, h5⟩ := hnext k h1 h2
        exact ⟨k', ⟨by omega, h5⟩, by omega⟩
    have hfin : Set.Finite {a | a ∈ g.rules.map Rule.lhs} := List.finite_toSet _
    obtain ⟨k, ⟨hk1, hk2⟩, k', ⟨hk1', hk2'⟩, hne, hsame⟩ := hinf.exists_ne_map_eq_of_mapsTo (f := fun k => (r k).lhs) (fun k _ => List.mem_map_of_mem (h.step k).mem) hfin
    have htop : ∀ k, n1 ≤ k → (tt k).length = (tt n1).length → tt k = tt n1 := by
      intro k hk he
      obtain ⟨_, _, _, _, _, h4⟩ := chain_keeps h hmin (k - n1)
      have : n1 + (k - n1) = k := by omega
      rw [this] at h4
      exact (h4.eq_of_length he.symm).symm
    have e1 := htop k hk1 hk2
    have e2 := htop k' hk1' hk2'
    have s1 := h.step k
    have s2 := h.step k'
    have t1 := chain_tokens h (k + 1)
    have t2 := chain_tokens h (k' + 1)
    rw [s1.trees', e1] at t1
    rw [s2.trees', e2] at t2
    simp only [List.reverse_cons, tokensList_append', PTree.tokensList, PTree.innerList, List.append_nil] at t1 t2
    have htok : (PTree.node (r k) (cs k)).tokens = (PTree.node (r k') (cs k')).tokens := List.append_cancel_left (t1.1.trans t2.1.symm)
    have hinner : (PTree.node (r k) (cs k)).inner ≠ (PTree.node (r k') (cs k')).inner := by
      intro e
      have h1 := t1.2
      have h2 := t2.2
      omega
    -- both trees fit into one sentence
    have ok := s1.ok'
    have ok2 := s2.ok'
    rw [s1.trees', e1] at ok
    rw [s2.trees', e2] at ok2
    obtain ⟨qq, R, hqq⟩ := ok.head
    rw [hqq] at ok
    obtain ⟨s, hs⟩ := ok.range hv.base
    obtain ⟨it, hit⟩ := List.exists_mem_of_ne_nil _ (hv.base.nonempty _ _ hs)
    obtain ⟨δ, hδ⟩ := stack_viable wf hv.base ok qq R s rfl hs (it.rule, it.dot) ⟨it, hit, rfl, rfl⟩
    have hdecl := rewrites_declared wf hδ (by
      intro s hs
      simp at hs; subst hs
      obtain ⟨A, h1, h2⟩ := wf.entry_declared
      rw [h1]; exact List.mem_append_right _ h2)
    rw [List.append_assoc] at hδ hdecl
    obtain ⟨v, hv'⟩ := derives_some wf hp _ (fun s hs => hdecl s (List.mem_append_right _ hs))
    obtain ⟨F, hF, -⟩ := derives_forest hv' (v.map (fun x => (x, d))) (by simp [Function.comp_def])
    have f1 := forest_append (stackOk_forest ok) hF
    have f2 := forest_append (stackOk_forest ok2) hF
    have hroot : ((PTree.node (r k') (cs k') :: tt n1).reverse.map PTree.root) = ((PTree.node (r k) (cs k) :: tt n1).reverse.map PTree.root) := by
      have hsame' : (r k).lhs = (r k').lhs := hsame
      simp [PTree.root, hsame']
    rw [hroot] at f2
    obtain ⟨K, hK⟩ := forest_rewrites (T := T) hδ
    obtain ⟨F1, a1, a2, a3⟩ := hK _ f1
    obtain ⟨F2, b1, b2, b3⟩ := hK _ f2
    obtain ⟨E, hE, _⟩ := wf.entry_declared
    rw [hE] at a1 b1
    obtain ⟨x1, rfl⟩ := forest_one a1
    obtain ⟨x2, rfl⟩ := forest_one b1
    rw [← hE] at a1 b1
    have hi := same_inner wf hv hm' hel hl d a1 b1 (by
      simp only [PTree.tokensList, List.append_nil] at a2 b2
      rw [a2, b2]
      simp [tokensList_append', PTree.tokensList, htok])
    simp only [PTree.innerList, innerList_append, innerList_reverse, List.reverse_cons, Nat.add_zero] at a3 b3
    omega

/-- every parser without conflicts stops on every stream that ends -/
theorem lr_stops_from (wf : g.WF) (hv : LoopInv g kind gr []) (hj : Justified g kind gr) (hm : Follows g gr m) (hm' : Obeys g gr m) (hel : EpsLeading g)
    (hl : EntryNotLeftRecursive g) (hp : Productive g) {L : Nat} (hL : ∀ a, (input L).1 ≠ .tok a) : ∀ (k pos : Nat), pos + k = L →
    ∀ (stk : List StackSym) (ts : List (PTree T)) (events : List (LREvent T)), StackOk g gr stk ts → Stops m input stk pos events := by
  intro k
  induction k with
  | zero => ?_
  | succ k ih => ?_
  all_goals
    intro pos hk stk0 ts0 ev0 hok0
    by_contra hT0
    let C := { c : List StackSym × List (PTree T) × List (LREvent T) // StackOk g gr c.1 c.2.1 ∧ ¬ Stops m input c.1 pos c.2.2 }
    have key : ∀ c : C, ∃ (c' : C) (q0 i : Nat) (r : Rule) (cs tt : List (PTree T)) (p : Nat) (rest : List StackSym) (q' : Nat),
        RedAt g gr m (input pos).1 c.1.1 c.1.2.1 c'.1.1 c'.1.2.1 q0 i r cs tt p rest q' := by
      rintro ⟨⟨stk, ts, ev⟩, hok, hT⟩
      rcases lrStep_cases (input := input) (pos := pos) hv hm hok with ⟨exp, h⟩ | ⟨stk', ts', a, ev', h1, h2, h3, _⟩ | ⟨ev', h⟩ | ⟨stk', ts', ev', q0, i, r, cs, tt, p, rest, q', h, hred⟩
      · exact absurd ⟨1, fun e p => by simp [lrRun, h]⟩ hT
      · exfalso
        first
        | exact hT (stops_next h2 (ih (pos + 1) (by omega) stk' ts' _ h3))
        | (have : pos = L := by omega
           subst this
           exact hL a h1)
      · exact absurd (stops_next h ⟨1, fun e p => by simp [lrRun, lrStep]⟩) hT
      · exact ⟨⟨(stk', ts', ev ++ [ev']), hred.ok', fun hs => hT (stops_next h hs)⟩, q0, i, r, cs, tt, p, rest, q', hred⟩
    choose nx q0 i r cs tt p rest q' hnx using key
    let f : Nat → C := fun n => nx^[n] ⟨(stk0, ts0, ev0), hok0, hT0⟩
    have hf : ∀ n, f (n + 1) = nx (f n) := fun n => Function.iterate_succ_apply' nx n _
    have hchain : RedChain g gr m (input pos).1 (fun n => (f n).1.1) (fun n => (f n).1.2.1) (fun n => q0 (f n)) (fun n => i (f n)) (fun n => r (f n))
        (fun n => cs (f n)) (fun n => tt (f n)) (fun n => p (f n)) (fun n => rest (f n)) (fun n => q' (f n)) := ⟨fun n => by
      have := hnx (f n)
      rw [← hf] at this
      exact this⟩
    exact no_chain wf hv hj hm hm' hel hl hp (input pos).2 hchain

theorem parser_graph (wf : g.WF) (hne : NoEmptyRhs g) {p : LRProg} (h : LRParserFor g kind p) :
    ∃ gr, LoopInv g kind gr [] ∧ Justified g kind gr ∧ ProgSpec g (buildTable g gr) p := by
  obtain ⟨allow, fuel, tb, h, hp⟩ := h
  rcases h with h | ⟨cs, h⟩
  · obtain ⟨_, gr, _, _, h1, h2, h3⟩ := generateTable_graph wf hne h
    obtain ⟨_, _, rfl⟩ := h3
    exact ⟨gr, h1, h2, genRust_spec hp⟩
  · obtain ⟨_, gr, _, _, h1, h2, h3⟩ := generateTable_graph wf hne h
    obtain ⟨_, _, rfl, _⟩ := h3
    exact ⟨gr, h1, h2, genRust_spec hp⟩

theorem lr_stops_productive (wf : g.WF) (hne : NoEmptyRhs g) {p : LRProg} (h : LRParserFor g kind p) (hel : EpsLeading g) (hl : EntryNotLeftRecursive g) (hp : Productive g)
    {w : List (Nat × T)} (hin : StreamIs input w) : ∃ bound, ∀ fuel, bound ≤ fuel → ∀ events pos, lrParse p.machine input fuel ≠ .running events pos := by
  obtain ⟨gr, hv, hj, hsp⟩ := parser_graph wf hne h
  have hm := prog_follows wf hv.base hsp
  obtain ⟨n, hn⟩ := lr_stops_from (input := input) (L := w.length) wf hv hj hm (prog_obeys wf hv.base hsp) hel hl hp (fun a ha => by rw [hin.2] at ha; cases ha)
    w.length 0 (by omega) [.state 0] [] [] .base
  refine ⟨n, fun fuel hf events pos => ?_⟩
  unfold lrParse
  rw [hm.entry]
  rw [lrRun_mono n _ _ _ hn fuel hf]
  exact hn events pos

theorem consumes_prefix {input : Nat → Tok × T} {w u : List (Nat × T)} {n : Nat} (hin : StreamIs input w) (hc : Consumes input n u) : u <+: w := by
  obtain ⟨h1, h2⟩ := hin
  obtain ⟨h3, h4⟩ := hc
  rw [List.prefix_iff_eq_take]
  have hle : u.length ≤ w.length := by
    by_contra hlt
    have := h4 w.length _ (List.getElem?_eq_getElem (by omega))
    rw [this] at h2; cases h2
  refine List.ext_getElem (by rw [List.length_take]; omega) fun i hi hi' => ?_
  have a1 := h4 i _ (List.getElem?_eq_getElem hi)
  have a2 := h1 i _ (List.getElem?_eq_getElem (show i < w.length by omega))
  rw [a1] at a2
  rw [List.getElem_take]
  simp at a2
  exact Prod.ext a2.1 a2.2

theorem prefix_consumes {input : Nat → Tok × T} {w u : List (Nat × T)} (hin : StreamIs input w) (h : u <+: w) : Consumes input u.length u := by
  obtain ⟨v, rfl⟩ := h
  exact ⟨rfl, fun i p hp => hin.1 i p (by rw [List.getElem?_append_left (getElem?_lt hp)]; exact hp)⟩

theorem isParseTree_derives {rules : List Rule} {X : Sym} {t : PTree T} (h : IsParseTree rules X t) : Derives rules [X] (t.tokens.map (·.1)) := by
  have := forest_derives h
  simpa [PTree.tokensList] using this

end Verif
