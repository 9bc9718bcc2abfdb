import Verif.Proofs.GlrRound
import Verif.Proofs.GlrGraph

/-! # What the GLR driver computes -/

set_option autoImplicit false

namespace Verif

variable {T : Type} {g : Grammar} {kind : LRKind} {gr : LRGraph} {m : GlrMachine} {input : Nat → Tok × T}

/-- invariant of a configuration: trees on the stack, whose leaves are the tokens consumed and whose nodes are the visits made -/
def GCInv (g : Grammar) (gr : LRGraph) (input : Nat → Tok × T) (pos : Nat) : GConf T → Prop
  | .live stk ev => ∃ ts, StackOk g gr stk ts ∧ ConfOk g input ts.reverse pos ev
  | .root ev => ∃ t, IsParseTree g.rules g.entry t ∧ ConfOk g input [t] pos ev

/-- a configuration that is not finished, with its invariant -/
def LInv (g : Grammar) (gr : LRGraph) (input : Nat → Tok × T) (pos : Nat) (c : GConf T) : Prop := c.isRoot = false ∧ GCInv g gr input pos c

theorem actsOf_live {tk : Tok} {q : Nat} {rest : List StackSym} {ev : List (LREvent T)} {a : LRAction} (ha : a ∈ actsOf m tk (.live (.state q :: rest) ev)) :
    ∃ l, m.nextActions q tk = .acts l ∧ a ∈ l := by
  unfold actsOf at ha
  cases hn : m.nextActions q tk with
  | panic => simp [hn] at ha
  | unexpected _ => simp [hn] at ha
  | acts l => simp only [hn] at ha; exact ⟨l, rfl, ha⟩

/-- a reduction keeps the invariant -/
theorem linReduce_inv (hv : LoopInv g kind gr []) (hm : GFollows g gr m) {q : Nat} {rest : List StackSym} {ev : List (LREvent T)} {pos : Nat} {tk : Tok} {i : Nat}
    (h : GCInv g gr input pos (.live (.state q :: rest) ev)) (hc : CanReduce g gr q tk i) :
    ∃ c', linReduce m i (.state q :: rest) ev = some c' ∧ GCInv g gr input pos c' := by
  obtain ⟨ts, hst, hcf⟩ := h
  obtain ⟨r, p, rest', cs, ts', h1, h2, h3, h4, h5, rfl, h7, h8, h9⟩ := glr_reduce hv hm hst hc
  rw [List.reverse_append, List.reverse_reverse] at hcf
  have hcf' := hcf.reduce h1
  rcases h9 with ⟨_, q', he, hg, hst'⟩ | ⟨hE, rfl, hg, rfl, rfl⟩
  · refine ⟨.live (.state q' :: .nonTerminal r.lhs :: .state p :: rest') (ev ++ [.reduce i]), by simp only [linReduce, h3, h5, hg], _, hst', ?_⟩
    simpa using hcf'
  · refine ⟨.root (ev ++ [.reduce i]), by simp only [linReduce, h3, h5, hg], .node r cs, ?_, ?_⟩
    · rw [hE]; exact .nonterm h2 h8 .nil
    · simpa using hcf'

theorem linv_redInv (hv : LoopInv g kind gr []) (hm : GFollows g gr m) (pos : Nat) (tk : Tok) : RedInv m tk (LInv g gr input pos) := by
  refine ⟨fun c ⟨h1, h2⟩ => ?_, fun c ⟨h1, h2⟩ => ?_, fun c ⟨h1, h2⟩ a ha c' hc' => ?_⟩
  · cases c with
    | root _ => simp [GConf.isRoot] at h1
    | live stk ev =>
      obtain ⟨ts, hst, hcf⟩ := id h2
      obtain ⟨q, rest, rfl⟩ := hst.head
      obtain ⟨s, hs⟩ := hst.range hv.base
      refine ⟨q, rest, ev, rfl, hm.noPanic q tk (getElem?_lt hs), fun h => (hm.acts q tk _ (getElem?_lt hs) h).1 rfl, fun l i hl hi => ?_⟩
      obtain ⟨c', h, _⟩ := linReduce_inv hv hm h2 (((hm.acts q tk l (getElem?_lt hs) hl).2.2.2 i).mp hi)
      exact ⟨c', h⟩
  · cases c with
    | root _ => simp [actsOf]
    | live stk ev =>
      obtain ⟨ts, hst, hcf⟩ := h2
      obtain ⟨q, rest, rfl⟩ := hst.head
      obtain ⟨s, hs⟩ := hst.range hv.base
      simp only [actsOf]
      cases hn : m.nextActions q tk with
      | panic => simp only; exact List.nodup_nil
      | unexpected _ => simp only; exact List.nodup_nil
      | acts l => exact (hm.acts q tk l (getElem?_lt hs) hn).2.1
  · cases c with
    | root _ => simp [GConf.isRoot] at h1
    | live stk ev =>
      obtain ⟨ts, hst, hcf⟩ := id h2
      obtain ⟨q, rest, rfl⟩ := hst.head
      obtain ⟨s, hs⟩ := hst.range hv.base
      obtain ⟨l, hl, ha⟩ := actsOf_live ha
      cases a with
      | shift => simp [newOf] at hc'
      | reduce i =>
        obtain ⟨c1, h3, h4⟩ := linReduce_inv hv hm h2 (((hm.acts q tk l (getElem?_lt hs) hl).2.2.2 i).mp ha)
        simp only [newOf, h3] at hc'
        cases c1 with
        | root _ => simp at hc'
        | live s e => simp at hc'; subst hc'; exact ⟨rfl, h4⟩

/-- a stack that shifts the token -/
def Shifts (gr : LRGraph) (m : GlrMachine) (tk : Tok) : GConf T → Prop
  | .live stk _ => ∃ a q rest q', tk = .tok a ∧ stk = .state q :: rest ∧ (q, Sym.t a, q') ∈ gr.edges ∧ m.nextGoto q (.terminal (.tok a)) = some (.state q')
  | .root _ => False

theorem acc_inv (hv : LoopInv g kind gr []) (hm : GFollows g gr m) {pos : Nat} {tk : Tok} {c c' : GConf T} {a : LRAction} (h : LInv g gr input pos c)
    (ha : a ∈ actsOf m tk c) (hc' : c' ∈ accOf m c a) : GCInv g gr input pos c' ∧ (c'.isRoot = false → Shifts gr m tk c') := by
  obtain ⟨h1, h2⟩ := h
  cases c with
  | root _ => simp [GConf.isRoot] at h1
  | live stk ev =>
    obtain ⟨ts, hst, hcf⟩ := id h2
    obtain ⟨q, rest, rfl⟩ := hst.head
    obtain ⟨s, hs⟩ := hst.range hv.base
    obtain ⟨l, hl, ha⟩ := actsOf_live ha
    cases a with
    | shift =>
      simp [accOf] at hc'; subst hc'
      refine ⟨h2, fun _ => ?_⟩
      obtain ⟨a, q', rfl, he⟩ := (hm.acts q tk l (getElem?_lt hs) hl).2.2.1.mp ha
      exact ⟨a, q, rest, q', rfl, rfl, he, hm.shift q a q' he⟩
    | reduce i =>
      obtain ⟨c1, h3, h4⟩ := linReduce_inv hv hm h2 (((hm.acts q tk l (getElem?_lt hs) hl).2.2.2 i).mp ha)
      simp only [accOf, h3] at hc'
      cases c1 with
      | live _ _ => simp at hc'
      | root e => simp at hc'; subst hc'; exact ⟨h4, by simp [GConf.isRoot]⟩

theorem final_inv (hv : LoopInv g kind gr []) (hm : GFollows g gr m) {pos : Nat} {tk : Tok} {c c' : GConf T} (hf : Final m tk c c') (h : LInv g gr input pos c) :
    GCInv g gr input pos c' ∧ (c'.isRoot = false → Shifts gr m tk c') := by
  induction hf with
  | fin ha hc => exact acc_inv hv hm h ha hc
  | red ha hc _ ih => exact ih ((linv_redInv hv hm pos tk).new _ h _ ha _ hc)

/-- the shift of a stack -/
def shiftC (m : GlrMachine) (tk : Tok) (d : T) : GConf T → GConf T
  | .live (.state q :: rest) ev =>
    match m.nextGoto q (.terminal tk) with
    | some (.state q') => .live (.state q' :: .terminal tk :: .state q :: rest) (ev ++ [.shift tk d])
    | _ => .live (.state q :: rest) ev
  | c => c

theorem shiftC_inv {pos : Nat} {c : GConf T} (h : GCInv g gr input pos c) (hs : Shifts gr m (input pos).1 c) :
    LInv g gr input (pos + 1) (shiftC m (input pos).1 (input pos).2 c) := by
  cases c with
  | root _ => exact hs.elim
  | live stk ev =>
    obtain ⟨a, q, rest, q', ha, rfl, he, hg⟩ := hs
    obtain ⟨ts, hst, hcf⟩ := h
    rw [← ha] at hg
    simp only [shiftC, hg]
    refine ⟨rfl, .leaf a (input pos).2 :: ts, .push hst he (by rw [ha]; rfl) (isParseTree_term a _), ?_⟩
    rw [List.reverse_cons]
    exact hcf.shift ha

theorem linShift_eq {tk : Tok} {d : T} {c : GConf T} (hs : Shifts gr m tk c) (cs : List (GConf T)) :
    linShift m tk d cs c = .ok (cs ++ [shiftC m tk d c]) ∧ (shiftC m tk d c).ev = fhist tk d c := by
  cases c with
  | root _ => exact hs.elim
  | live stk ev =>
    obtain ⟨a, q, rest, q', rfl, rfl, he, hg⟩ := hs
    simp only [linShift, shiftC, hg, fhist, GConf.ev]
    exact ⟨trivial, trivial⟩

theorem linShifts_eq {tk : Tok} {d : T} : ∀ (red : List (GConf T)) (cs : List (GConf T)), (∀ c ∈ red, Shifts gr m tk c) →
    red.foldlM (linShift m tk d) cs = .ok (cs ++ red.map (shiftC m tk d)) ∧ (red.map (shiftC m tk d)).map GConf.ev = red.map (fhist tk d) := by
  intro red
  induction red with
  | nil => intro cs _; simp [pure, Except.pure]
  | cons c red ih =>
    intro cs h
    obtain ⟨h1, h2⟩ := linShift_eq (d := d) (h c (by simp)) cs
    simp only [List.foldlM_cons, h1]
    obtain ⟨h3, h4⟩ := ih (cs ++ [shiftC m tk d c]) (fun c hc => h c (by simp [hc]))
    refine ⟨?_, by simp only [List.map_cons, h2, h4]⟩
    show red.foldlM (linShift m tk d) _ = _
    rw [h3]; simp

/-- the stacks right after the shift of a token -/
inductive Heads (m : GlrMachine) (input : Nat → Tok × T) : Nat → GConf T → Prop
  | start : Heads m input 0 (.live [.state m.entry] [])
  | shift {pos : Nat} {c c' : GConf T} : Heads m input pos c → Final m (input pos).1 c c' → c'.isRoot = false →
      Heads m input (pos + 1) (shiftC m (input pos).1 (input pos).2 c')

/-- a stack is finished when the given number of tokens is consumed, with the given visits -/
def GAcc (m : GlrMachine) (input : Nat → Tok × T) (pos : Nat) (e : List (LREvent T)) : Prop := ∃ c, Heads m input pos c ∧ Final m (input pos).1 c (.root e)

/-- a stack shifts the next token -/
def Lives (m : GlrMachine) (input : Nat → Tok × T) (pos : Nat) : Prop := ∃ c c', Heads m input pos c ∧ Final m (input pos).1 c c' ∧ c'.isRoot = false

theorem heads_inv (hv : LoopInv g kind gr []) (hm : GFollows g gr m) {pos : Nat} {c : GConf T} (h : Heads m input pos c) : LInv g gr input pos c := by
  induction h with
  | start => exact ⟨rfl, [], by rw [hm.entry]; exact .base, ⟨by simp [Consumes, PTree.tokensList], by simp [TraceIs, PTree.postorderList]⟩⟩
  | shift _ hf hr ih =>
    obtain ⟨h1, h2⟩ := final_inv hv hm hf ih
    exact shiftC_inv h1 (h2 hr)

theorem acc_tree (hv : LoopInv g kind gr []) (hm : GFollows g gr m) {pos : Nat} {e : List (LREvent T)} (h : GAcc m input pos e) :
    ∃ t, IsParseTree g.rules g.entry t ∧ Consumes input pos t.tokens ∧ TraceIs g e t.postorder := by
  obtain ⟨c, h1, h2⟩ := h
  obtain ⟨⟨t, ht, hc⟩, _⟩ := final_inv hv hm h2 (heads_inv hv hm h1)
  have h3 := hc.consumed
  have h4 := hc.trace
  simp only [PTree.tokensList, PTree.postorderList, List.append_nil] at h3 h4
  exact ⟨t, ht, h3, h4⟩

/-- events of a configuration only grow -/
theorem final_prefix {tk : Tok} {c c' : GConf T} (h : Final m tk c c') : c.ev <+: c'.ev := by
  have hred : ∀ {i stk} {ev : List (LREvent T)} {c' : GConf T}, linReduce m i stk ev = some c' → c'.ev = ev ++ [.reduce i] := by
    intro i stk ev c' hc'
    unfold linReduce at hc'
    split at hc'
    · cases hc'
    · split at hc'
      · split at hc' <;> simp at hc' <;> subst hc' <;> rfl
      · cases hc'
  induction h with
  | @fin c c' a _ h =>
    cases c with
    | root _ => simp [accOf] at h
    | live stk ev =>
      cases a with
      | shift => simp [accOf] at h; subst h; exact List.prefix_refl _
      | reduce i =>
        simp only [accOf] at h
        split at h
        · rename_i e he
          simp at h; subst h
          rw [hred he]
          exact List.prefix_append _ _
        · simp at h
  | @red c c1 c' a _ h _ ih =>
    refine List.IsPrefix.trans ?_ ih
    cases c with
    | root _ => simp [newOf] at h
    | live stk ev =>
      cases a with
      | shift => simp [newOf] at h
      | reduce i =>
        simp only [newOf] at h
        split at h
        · rename_i s e he
          simp at h; subst h
          rw [hred he]
          exact List.prefix_append _ _
        · simp at h

/-- the visits reported so far: those of a stack at an earlier position, all of whose competitors were given up -/
structure Reported (m : GlrMachine) (input : Nat → Tok × T) (pos : Nat) (events : List (LREvent T)) : Prop where
  was : ∃ j stk, j ≤ pos ∧ Heads m input j (.live stk events)
  all : ∀ c, Heads m input pos c → events <+: c.ev

/-- the stacks at a position are exactly the given ones -/
structure RunSt (m : GlrMachine) (input : Nat → Tok × T) (cs : List (GConf T)) (pos : Nat) (events : List (LREvent T)) : Prop where
  exact : ∀ c, c ∈ cs ↔ Heads m input pos c
  anti : Anti (cs.map GConf.ev)
  ne : cs ≠ []
  rep : Reported m input pos events
  single : ∀ c, cs = [c] → events = c.ev
  before : ∀ j, j < pos → ∀ e, ¬ GAcc m input j e

/-- meaning of the results -/
def Outcome (m : GlrMachine) (input : Nat → Tok × T) : GlrResult T → Prop
  | .ok ev p => ∃ n, p = n + 1 ∧ GAcc m input n ev ∧ (∀ e, GAcc m input n e → e = ev) ∧ (∀ j, j < n → ∀ e, ¬ GAcc m input j e) ∧ ¬ Lives m input n
  | .unexpected ev p _ => (∀ j, j ≤ p → ∀ e, ¬ GAcc m input j e) ∧ ¬ Lives m input p ∧ Reported m input p ev ∧ ∃ c, Heads m input p c
  | .panic ev p => (∃ e e', e ≠ e' ∧ GAcc m input p e ∧ GAcc m input p e' ∧ (∀ j, j < p → ∀ e, ¬ GAcc m input j e) ∧ Reported m input p ev) ∨
      (∃ n e, p = n + 1 ∧ GAcc m input n e ∧ Lives m input n ∧ (∀ j, j < n → ∀ e, ¬ GAcc m input j e) ∧ Reported m input n ev)
  | .running _ _ => True

/-- a finished stack next to others makes the next round panic -/
theorem linStacks_root {tk : Tok} : ∀ (cs : List (GConf T)) (st : LinSt T × List (List (Option Nat))), cs.any GConf.isRoot = true →
    cs.foldlM (linStack m tk) st = .error .panic := by
  have hact : ∀ (stk : List StackSym) (ev : List (LREvent T)) (l : List LRAction) (st : LinSt T),
      l.foldlM (linAction m stk ev) st = .error .panic ∨ ∃ st', l.foldlM (linAction m stk ev) st = .ok st' := by
    intro stk ev l
    induction l with
    | nil => intro st; exact .inr ⟨st, rfl⟩
    | cons a l ih =>
      intro st
      simp only [List.foldlM_cons]
      have h1 : linAction m stk ev st a = .error .panic ∨ ∃ st', linAction m stk ev st a = .ok st' := by
        cases a with
        | shift => exact .inr ⟨_, rfl⟩
        | reduce i =>
          simp only [linAction]
          split
          · exact .inl rfl
          · split
            · exact .inl rfl
            · exact .inr ⟨_, rfl⟩
          · exact .inr ⟨_, rfl⟩
      rcases h1 with h | ⟨st', h⟩
      · rw [h]; exact .inl rfl
      · rw [h]; exact ih st'
  have hone : ∀ (st : LinSt T × List (List (Option Nat))) (c : GConf T), linStack m tk st c = .error .panic ∨ ∃ st', linStack m tk st c = .ok st' := by
    intro st c
    unfold linStack
    split
    · split
      · exact .inl rfl
      · exact .inr ⟨_, rfl⟩
      · rename_i q rest ev _ l _
        rcases hact (.state q :: rest) ev l st.1 with h | ⟨st', h⟩
        · rw [h]; exact .inl rfl
        · rw [h]; exact .inr ⟨_, rfl⟩
    · exact .inl rfl
  intro cs
  induction cs with
  | nil => intro st h; simp at h
  | cons c cs ih =>
    intro st h
    simp only [List.foldlM_cons]
    rcases hone st c with h1 | ⟨st', h1⟩
    · rw [h1]; rfl
    · have hc : c.isRoot = false := by
        cases c with
        | live _ _ => rfl
        | root e => simp [linStack] at h1
      rw [h1]
      refine ih st' ?_
      simpa [hc] using h

theorem roots_le_one {red : List (GConf T)} {p : Bool} (h : roots red = cnt p) (hr : red.any GConf.isRoot = true) (hl : ¬ (red.length = 1 ∧ red.all GConf.isRoot = true)) :
    ∃ c ∈ red, c.isRoot = false := by
  by_contra hcon
  push Not at hcon
  have hall : red.all GConf.isRoot = true := by
    rw [List.all_eq_true]
    intro c hc
    simpa using hcon c hc
  have h1 : roots red = red.length := by
    unfold roots
    rw [List.countP_eq_length]
    intro c hc
    simpa using hcon c hc
  refine hl ⟨?_, hall⟩
  have h2 : cnt p ≤ 1 := by unfold cnt; split <;> omega
  have h3 : 0 < roots red := roots_pos.mpr hr
  omega

theorem linReport_one (events : List (LREvent T)) (c : GConf T) : linReport events [c] = c.ev := rfl

theorem linRun_spec (hv : LoopInv g kind gr []) (hm : GFollows g gr m) (rfuel : Nat) : ∀ (fuel : Nat) (cs : List (GConf T)) (pos : Nat) (events : List (LREvent T)),
    RunSt m input cs pos events → Outcome m input (linRun m input rfuel fuel false cs pos events) := by
  intro fuel
  induction fuel with
  | zero => intro cs pos events _; trivial
  | succ fuel ih =>
    intro cs pos events hst
    have hinv : ∀ c ∈ cs, LInv g gr input pos c := fun c hc => heads_inv hv hm ((hst.exact c).mp hc)
    have hspec := linReduces_spec (linv_redInv (input := input) hv hm pos (input pos).1) (input pos).2 rfuel false [] cs hinv rfl (by simpa using hst.anti)
    have hfin : ∀ c, (∃ c0 ∈ cs, Final m (input pos).1 c0 c) ↔ ∃ c0, Heads m input pos c0 ∧ Final m (input pos).1 c0 c := by
      intro c; simp only [hst.exact]
    unfold linRun
    have hnr : ¬ (cs.length = 1 ∧ cs.all GConf.isRoot = true) := by
      rintro ⟨_, h⟩
      obtain ⟨c, cs', rfl⟩ := List.exists_cons_of_ne_nil hst.ne
      have := (hinv c (by simp)).1
      simp [this] at h
    rw [if_neg hnr]
    revert hspec
    cases linReduces m (input pos).1 rfuel false [] cs with
    | error e =>
      cases e with
      | fuel => intro _; trivial
      | panic =>
        rintro ⟨e, e', h1, h2, h3⟩
        simp only [List.not_mem_nil, false_or, hfin] at h2 h3
        exact .inl ⟨e, e', h1, h2, h3, hst.before, hst.rep⟩
    | ok r =>
      cases r with
      | unexpected es =>
        rintro ⟨_, h1⟩
        obtain ⟨c0, hc0⟩ := List.exists_mem_of_ne_nil _ hst.ne
        refine ⟨fun j hj e hacc => ?_, ?_, hst.rep, c0, (hst.exact c0).mp hc0⟩
        · rcases Nat.lt_or_eq_of_le hj with h | rfl
          · exact hst.before j h e hacc
          · obtain ⟨c, hc, hf⟩ := (hfin _).mpr hacc
            exact h1 c hc _ hf
        · rintro ⟨c, c', h2, h3, _⟩
          exact h1 c ((hst.exact c).mpr h2) c' h3
      | ok p red =>
        rintro ⟨h1, h2, h3, h4⟩
        simp only [List.not_mem_nil, false_or, hfin] at h1
        have h4' : red ≠ [] := h4 (.inr hst.ne)
        have hrinv : ∀ c ∈ red, GCInv g gr input pos c ∧ (c.isRoot = false → Shifts gr m (input pos).1 c) := by
          intro c hc
          obtain ⟨c0, h5, h6⟩ := (h1 c).mp hc
          exact final_inv hv hm h6 (heads_inv hv hm h5)
        by_cases hroot : red.any GConf.isRoot = true
        · simp only [linShiftPhase, if_pos hroot]
          cases fuel with
          | zero => trivial
          | succ fuel =>
            unfold linRun
            by_cases hone : red.length = 1 ∧ red.all GConf.isRoot = true
            · rw [if_pos hone]
              obtain ⟨c, rfl⟩ := List.length_eq_one_iff.mp hone.1
              cases c with
              | live _ _ => simp [GConf.isRoot] at hroot
              | root e =>
                refine ⟨pos, rfl, (h1 _).mp (by simp [linReport, GConf.ev]), fun e' he' => ?_, hst.before, ?_⟩
                · have := (h1 _).mpr he'
                  simp at this; simp [linReport, GConf.ev, this]
                · rintro ⟨c, c', h5, h6, h7⟩
                  have := (h1 c').mpr ⟨c, h5, h6⟩
                  simp at this; subst this; simp [GConf.isRoot] at h7
            · rw [if_neg hone]
              obtain ⟨c, cs', rfl⟩ := List.exists_cons_of_ne_nil h4'
              cases rfuel with
              | zero => trivial
              | succ rfuel =>
                unfold linReduces
                rw [linStacks_root _ _ hroot]
                obtain ⟨c', hc', hl⟩ := roots_le_one h2 hroot hone
                obtain ⟨cr, hcr, hcr'⟩ := List.any_eq_true.mp hroot
                cases cr with
                | live _ _ => simp [GConf.isRoot] at hcr'
                | root e =>
                  obtain ⟨c0, h5, h6⟩ := (h1 c').mp hc'
                  refine .inr ⟨pos, e, rfl, (h1 _).mp hcr, ⟨c0, c', h5, h6, hl⟩, hst.before, ?_⟩
                  have hlen : (c :: cs').length ≠ 1 := by
                    intro h
                    simp at h; subst h
                    simp at hc' hcr
                    rw [hc', ← hcr] at hl
                    simp [GConf.isRoot] at hl
                  have : linReport events (c :: cs') = events := by
                    cases cs' with
                    | nil => simp at hlen
                    | cons _ _ => rfl
                  rw [this]
                  exact hst.rep
        · have hroot' : ∀ c ∈ red, c.isRoot = false := by
            intro c hc
            by_contra h
            exact hroot (List.any_eq_true.mpr ⟨c, hc, by simpa using h⟩)
          obtain ⟨h5, h6⟩ := linShifts_eq (d := (input pos).2) red [] (fun c hc => (hrinv c hc).2 (hroot' c hc))
          simp only [linShiftPhase, if_neg hroot, h5, List.nil_append]
          have hp : p = false := by
            cases p with
            | false => rfl
            | true =>
              have : 0 < roots red := by rw [h2]; simp [cnt]
              exact absurd (roots_pos.mp this) hroot
          subst hp
          have hex : ∀ c, c ∈ red.map (shiftC m (input pos).1 (input pos).2) ↔ Heads m input (pos + 1) c := by
            intro c
            rw [List.mem_map]
            constructor
            · rintro ⟨c', hc', rfl⟩
              obtain ⟨c0, h7, h8⟩ := (h1 c').mp hc'
              exact .shift h7 h8 (hroot' c' hc')
            · intro h
              cases h with
              | @shift _ c0 c' h7 h8 h9 => exact ⟨c', (h1 c').mpr ⟨c0, h7, h8⟩, rfl⟩
          have hall : ∀ c, Heads m input (pos + 1) c → events <+: c.ev := by
            intro c h
            cases h with
            | @shift _ c0 c' h7 h8 h9 =>
              have hc' := (h1 c').mpr ⟨c0, h7, h8⟩
              have e := (linShift_eq (d := (input pos).2) ((hrinv c' hc').2 h9) []).2
              rw [e]
              refine ((hst.rep.all c0 h7).trans (final_prefix h8)).trans ?_
              cases c' with
              | root _ => simp [GConf.isRoot] at h9
              | live stk ev => exact List.prefix_append _ _
          refine ih _ _ _ ⟨hex, by rw [h6]; exact h3, by simpa using h4', ?_, ?_, ?_⟩
          · by_cases hl : ∃ c, red.map (shiftC m (input pos).1 (input pos).2) = [c]
            · obtain ⟨c, hc⟩ := hl
              rw [hc, linReport_one]
              have hh := (hex c).mp (by rw [hc]; simp)
              refine ⟨?_, fun c' hc' => ?_⟩
              · have := (heads_inv hv hm hh).1
                cases c with
                | root _ => simp [GConf.isRoot] at this
                | live stk ev => exact ⟨pos + 1, stk, Nat.le_refl _, hh⟩
              · have := (hex c').mpr hc'
                rw [hc] at this; simp at this; subst this
                exact List.prefix_refl _
            · have : linReport events (red.map (shiftC m (input pos).1 (input pos).2)) = events := by
                unfold linReport
                split
                · rename_i c hc; exact absurd ⟨c, hc⟩ hl
                · rfl
              rw [this]
              obtain ⟨j, stk, hj, hh⟩ := hst.rep.was
              exact ⟨⟨j, stk, by omega, hh⟩, hall⟩
          · intro c hc
            rw [hc, linReport_one]
          · intro j hj e hacc
            rcases Nat.lt_or_eq_of_le (Nat.lt_succ_iff.mp hj) with h | rfl
            · exact hst.before j h e hacc
            · have hmem := (h1 _).mpr hacc
              have := hroot' _ hmem
              simp [GConf.isRoot] at this

/-- the results of a generated GLR parser -/
theorem glrParse_spec (hv : LoopInv g kind gr []) (hm : GFollows g gr m) (input : Nat → Tok × T) (fuel : Nat) : Outcome m input (glrParse m input fuel) := by
  rw [glrParse_lin (glr_stackInv (T := Unit) hv hm)]
  refine linRun_spec hv hm fuel fuel _ 0 [] ⟨fun c => ?_, ?_, by simp, ⟨⟨0, _, Nat.le_refl _, .start⟩, fun c _ => List.nil_prefix⟩, ?_, by simp⟩
  · constructor
    · intro h; simp at h; subst h; exact .start
    · intro h
      generalize hp : (0 : Nat) = p at h
      cases h with
      | start => simp
      | shift => simp at hp
  · simp [Anti]
  · intro c h; simp at h; subst h; rfl

end Verif
