import Verif.Proofs.GlrHeap

/-!
# The GLR driver on linear stacks

The same driver, with the graph-structured stack replaced by a list of independent stacks. A configuration carries all visits made since
the start, whether reported or not. The heap driver does the same, as long as stacks satisfy an invariant that excludes stack underflow.
-/

set_option autoImplicit false

namespace Verif

variable {T : Type}

/-- a stack, or a finished one, with all its visits -/
inductive GConf (T : Type) where
  | live (stk : List StackSym) (ev : List (LREvent T))
  | root (ev : List (LREvent T))

/-- all visits -/
def GConf.ev : GConf T → List (LREvent T)
  | .live _ ev => ev
  | .root ev => ev

/-- is it finished -/
def GConf.isRoot : GConf T → Bool
  | .live _ _ => false
  | .root _ => true

/-- a reduction -/
def linReduce (m : GlrMachine) (i : Nat) (stk : List StackSym) (ev : List (LREvent T)) : Option (GConf T) :=
  match m.reduction i with
  | none => none
  | some (k, A) =>
    match stk.drop (2 * k) with
    | .state p :: rest =>
      match m.nextGoto p (.nonTerminal A) with
      | some (.state q') => some (.live (.state q' :: .nonTerminal A :: .state p :: rest) (ev ++ [.reduce i]))
      | some .accept => some (.root (ev ++ [.reduce i]))
      | none => none
    | _ => none

/-- state of a round -/
structure LinSt (T : Type) where
  popped : Bool
  accepted : List (GConf T)
  newTo : List (GConf T)

/-- an action; the second acceptance is a panic -/
def linAction (m : GlrMachine) (stk : List StackSym) (ev : List (LREvent T)) (st : LinSt T) : LRAction → Res (LinSt T)
  | .shift => .ok { st with accepted := st.accepted ++ [.live stk ev] }
  | .reduce i =>
    match linReduce m i stk ev with
    | none => .error .panic
    | some (.root ev') => if st.popped then .error .panic else .ok { st with popped := true, accepted := st.accepted ++ [.root ev'] }
    | some c => .ok { st with newTo := st.newTo ++ [c] }

/-- a stack of a round -/
def linStack (m : GlrMachine) (tk : Tok) (st : LinSt T × List (List (Option Nat))) : GConf T → Res (LinSt T × List (List (Option Nat)))
  | .live (.state q :: rest) ev =>
    match m.nextActions q tk with
    | .panic => .error .panic
    | .unexpected expected => .ok (st.1, st.2 ++ [expected])
    | .acts l => do
      let st' ← l.foldlM (linAction m (.state q :: rest) ev) st.1
      .ok (st', st.2)
  | _ => .error .panic

/-- result of the reductions -/
inductive LinReduced (T : Type) where
  | ok (popped : Bool) (reduced : List (GConf T))
  | unexpected (errors : List (List (Option Nat)))

/-- all reductions -/
def linReduces (m : GlrMachine) (tk : Tok) : Nat → Bool → List (GConf T) → List (GConf T) → Res (LinReduced T)
  | _, p, reduced, [] => .ok (.ok p reduced)
  | 0, _, _, _ :: _ => .error .fuel
  | fuel + 1, p, reduced, toReduce@(_ :: _) => do
    let (st, errors) ← toReduce.foldlM (linStack m tk) (⟨p, reduced, []⟩, [])
    if st.accepted = [] ∧ errors.length = toReduce.length then .ok (.unexpected errors)
    else linReduces m tk fuel st.popped st.accepted st.newTo

/-- shifting a stack -/
def linShift (m : GlrMachine) (tk : Tok) (data : T) (cs : List (GConf T)) : GConf T → Res (List (GConf T))
  | .live (.state q :: rest) ev =>
    match m.nextGoto q (.terminal tk) with
    | some (.state q') => .ok (cs ++ [.live (.state q' :: .terminal tk :: .state q :: rest) (ev ++ [.shift tk data])])
    | some .accept => .error .panic
    | none => .ok cs
  | _ => .error .panic

/-- the shifts of a token -/
def linShiftPhase (m : GlrMachine) (tk : Tok) (data : T) (reduced : List (GConf T)) : Res (List (GConf T)) :=
  if reduced.any GConf.isRoot then .ok reduced else reduced.foldlM (linShift m tk data) []

/-- the visits reported after a token -/
def linReport (reported : List (LREvent T)) : List (GConf T) → List (LREvent T)
  | [c] => c.ev
  | _ => reported

/-- the main loop -/
def linRun (m : GlrMachine) (input : Nat → Tok × T) (rfuel : Nat) : Nat → Bool → List (GConf T) → Nat → List (LREvent T) → GlrResult T
  | 0, _, _, pos, events => .running events pos
  | fuel + 1, p, cs, pos, events =>
    if cs.length = 1 ∧ cs.all GConf.isRoot then .ok events pos
    else
      match linReduces m (input pos).1 rfuel p [] cs with
      | .error .fuel => .running events pos
      | .error .panic => .panic events pos
      | .ok (.unexpected errors) => .unexpected events pos errors
      | .ok (.ok p reduced) =>
        match linShiftPhase m (input pos).1 (input pos).2 reduced with
        | .error _ => .panic events pos
        | .ok cs => linRun m input rfuel fuel p cs (pos + 1) (linReport events cs)

/-- an invariant of stacks that excludes underflow -/
structure StackInv (m : GlrMachine) (Ok : List StackSym → Prop) : Prop where
  start : Ok [.state m.entry]
  shape : ∀ stk, Ok stk → ∃ q rest, stk = .state q :: rest
  reduce : ∀ q rest tk l i, Ok (.state q :: rest) → m.nextActions q tk = .acts l → .reduce i ∈ l → ∃ k A p rest', m.reduction i = some (k, A) ∧
    2 * k < (StackSym.state q :: rest).length ∧ (StackSym.state q :: rest).drop (2 * k) = .state p :: rest' ∧
    ((∃ q', m.nextGoto p (.nonTerminal A) = some (.state q') ∧ Ok (.state q' :: .nonTerminal A :: .state p :: rest')) ∨
      (m.nextGoto p (.nonTerminal A) = some .accept ∧ rest' = []))
  shift : ∀ q rest tk l, Ok (.state q :: rest) → m.nextActions q tk = .acts l → .shift ∈ l →
    ∃ q', m.nextGoto q (.terminal tk) = some (.state q') ∧ Ok (.state q' :: .terminal tk :: .state q :: rest)

/-- the invariant for configurations -/
def ConfInv (Ok : List StackSym → Prop) : GConf T → Prop
  | .live stk _ => Ok stk
  | .root _ => True

/-- a node represents a configuration; `rep` has been reported already -/
def NodeRep (h : GlrHeap T) (rep : List (LREvent T)) (n : GNode) : GConf T → Prop
  | .live stk ev => Chain h n.inner stk ∧ ∃ pend, h.recs[n.recd]? = some pend ∧ ev = rep ++ pend
  | .root ev => n.inner = 0 ∧ ∃ pend, h.recs[n.recd]? = some pend ∧ ev = rep ++ pend

theorem NodeRep.ext {h h' : GlrHeap T} (he : HExt h h') {rep : List (LREvent T)} {n : GNode} {c : GConf T} (hr : NodeRep h rep n c) : NodeRep h' rep n c := by
  cases c with
  | live stk ev => obtain ⟨h1, pend, h2, h3⟩ := hr; exact ⟨h1.ext he, pend, he.recs _ _ h2, h3⟩
  | root ev => obtain ⟨h1, pend, h2, h3⟩ := hr; exact ⟨h1, pend, he.recs _ _ h2, h3⟩

theorem NodeRep.recd_lt {h : GlrHeap T} {rep : List (LREvent T)} {n : GNode} {c : GConf T} (hr : NodeRep h rep n c) : n.recd < h.recs.length := by
  cases c with
  | live stk ev => obtain ⟨h1, pend, h2, h3⟩ := hr; exact getElem?_lt h2
  | root ev => obtain ⟨h1, pend, h2, h3⟩ := hr; exact getElem?_lt h2

/-- nodes represent configurations, in order -/
abbrev Reps (h : GlrHeap T) (rep : List (LREvent T)) (ns : List GNode) (cs : List (GConf T)) : Prop := List.Forall₂ (NodeRep h rep) ns cs

theorem Reps.ext {h h' : GlrHeap T} (he : HExt h h') {rep : List (LREvent T)} {ns : List GNode} {cs : List (GConf T)} (hr : Reps h rep ns cs) : Reps h' rep ns cs :=
  hr.imp fun _ _ h => h.ext he

theorem Reps.snoc {h : GlrHeap T} {rep : List (LREvent T)} {ns : List GNode} {cs : List (GConf T)} {n : GNode} {c : GConf T} (hr : Reps h rep ns cs)
    (h1 : NodeRep h rep n c) : Reps h rep (ns ++ [n]) (cs ++ [c]) := by
  induction hr with
  | nil => exact .cons h1 .nil
  | cons h _ ih => exact .cons h ih

theorem Reps.length {h : GlrHeap T} {rep : List (LREvent T)} {ns : List GNode} {cs : List (GConf T)} (hr : Reps h rep ns cs) : ns.length = cs.length := by
  induction hr with
  | nil => rfl
  | cons _ _ ih => simp [ih]

theorem Reps.recd_lt {h : GlrHeap T} {rep : List (LREvent T)} {ns : List GNode} {cs : List (GConf T)} (hr : Reps h rep ns cs) : ∀ n ∈ ns, n.recd < h.recs.length := by
  induction hr with
  | nil => simp
  | cons h _ ih =>
    intro n hn
    rcases List.mem_cons.mp hn with rfl | hn
    · exact h.recd_lt
    · exact ih n hn

/-- one copied stack, after popping -/
theorem applyReduceTo_pop {m : GlrMachine} {h : GlrHeap T} {p : Bool} (hb : GBase h p) {n : GNode} {stk : List StackSym} (hc : Chain h n.inner stk)
    {pend : List (LREvent T)} (hr : h.recs[n.recd]? = some pend) {i k : Nat} (hk : 2 * k < stk.length) :
    ∃ h1 n1, h.unwind k n = (h1, [n1]) ∧ ∃ h2 t, popTimes k (h1.record n1 (.reduce i)) n1 = .ok (h2, ⟨t, n1.recd⟩) ∧ Keeps h.inners.length h h2 ∧
      h.recs.length ≤ n1.recd ∧ h2.recs[n1.recd]? = some (pend ++ [.reduce i]) ∧ Chain h2 t (stk.drop (2 * k)) ∧ GBase h2 p := by
  obtain ⟨h1, n1, t, e1, k1, r1, r1', i1, c1, f1, ch⟩ := unwind_chain k h n stk hc hk
  refine ⟨h1, n1, e1, ?_⟩
  have hrec := c1 (getElem?_lt hr)
  rw [hr] at hrec
  obtain ⟨h2, p1, p2, p3, p4⟩ := popTimes_fresh k (h1.record n1 (.reduce i)) n1 (f1.keep (B' := h1.inners.length) (fun _ _ => rfl) i1)
  have hkeep : Keeps h.inners.length h h2 := by
    refine ⟨fun a ha => ?_, fun r hr' => ?_, ?_, ?_⟩
    · rw [p3 a ha]; exact k1.inners a ha
    · rw [p2]
      simp only [GHeap.record]
      rw [List.getElem?_set_ne (by omega)]
      exact k1.recs r hr'
    · rw [p4]; exact k1.len
    · rw [p2]; simpa [GHeap.record] using k1.rlen
  refine ⟨h2, t, p1, hkeep, r1, ?_, hkeep.chain ch, hkeep.base hb⟩
  rw [p2]
  simp only [GHeap.record, hrec, Option.getD_some]
  exact List.getElem?_set_self r1'

theorem applyReduce_goto {m : GlrMachine} {h : GlrHeap T} {p : Bool} (hb : GBase h p) {n : GNode} {stk : List StackSym} (hc : Chain h n.inner stk)
    {pend : List (LREvent T)} (hr : h.recs[n.recd]? = some pend) {i k A q q' : Nat} {rest : List StackSym} (hred : m.reduction i = some (k, A)) (hk : 2 * k < stk.length)
    (hd : stk.drop (2 * k) = .state q :: rest) (hg : m.nextGoto q (.nonTerminal A) = some (.state q')) (acc new : List GNode) :
    ∃ h' n', applyReduce m i n ⟨h, acc, new⟩ = .ok ⟨h', acc, new ++ [n']⟩ ∧ HExt h h' ∧ GBase h' p ∧ h.recs.length ≤ n'.recd ∧
      Chain h' n'.inner (.state q' :: .nonTerminal A :: .state q :: rest) ∧ h'.recs[n'.recd]? = some (pend ++ [.reduce i]) := by
  obtain ⟨h1, n1, e1, h2, t, e2, k2, r2, c2, ch, b2⟩ := applyReduceTo_pop (m := m) (i := i) hb hc hr hk
  rw [hd] at ch
  have htop : h2.top ⟨t, n1.recd⟩ = some q := Chain.top (n := ⟨t, n1.recd⟩) ch
  have hpk := push_keeps h2 ⟨t, n1.recd⟩ (some q') (some (.nonTerminal A))
  refine ⟨(h2.push ⟨t, n1.recd⟩ (some q') (some (.nonTerminal A))).1, (h2.push ⟨t, n1.recd⟩ (some q') (some (.nonTerminal A))).2, ?_, k2.hext.trans hpk.hext,
    hpk.base b2, r2, ?_, ?_⟩
  · unfold applyReduce
    simp only [hred, e1, List.foldlM_cons, List.foldlM_nil]
    unfold applyReduceTo
    simp only [e2]
    simp only [bind, Except.bind, pure, Except.pure, htop, hg]
  · refine .push (n := ⟨t, n1.recd⟩) ?_ ?_ (hpk.chain ch)
    · simp [GHeap.push]
    · have := getElem?_lt b2.entry.choose_spec.choose_spec
      simp only [GHeap.push]; omega
  · simpa [GHeap.push] using c2

theorem applyReduce_accept {m : GlrMachine} {h : GlrHeap T} {p : Bool} (hb : GBase h p) {n : GNode} {stk : List StackSym} (hc : Chain h n.inner stk)
    {pend : List (LREvent T)} (hr : h.recs[n.recd]? = some pend) {i k A q : Nat} (hred : m.reduction i = some (k, A)) (hk : 2 * k < stk.length)
    (hd : stk.drop (2 * k) = [.state q]) (hg : m.nextGoto q (.nonTerminal A) = some .accept) (acc new : List GNode) :
    (p = true → applyReduce m i n ⟨h, acc, new⟩ = .error .panic) ∧
    (p = false → ∃ h' n', applyReduce m i n ⟨h, acc, new⟩ = .ok ⟨h', acc ++ [n'], new⟩ ∧ HExt h h' ∧ GBase h' true ∧ h.recs.length ≤ n'.recd ∧
      n'.inner = 0 ∧ h'.recs[n'.recd]? = some (pend ++ [.reduce i])) := by
  obtain ⟨h1, n1, e1, h2, t, e2, k2, r2, c2, ch, b2⟩ := applyReduceTo_pop (m := m) (i := i) hb hc hr hk
  rw [hd] at ch
  have htop : h2.top ⟨t, n1.recd⟩ = some q := Chain.top (n := ⟨t, n1.recd⟩) ch
  have ht := ch.single
  subst ht
  obtain ⟨b0, q0, r0, b1⟩ := b2
  have hap : applyReduce m i n ⟨h, acc, new⟩ = (h2.pop ⟨1, n1.recd⟩).bind (fun x => .ok ⟨x.1, acc ++ [x.2], new⟩) := by
    unfold applyReduce
    simp only [hred, e1, List.foldlM_cons, List.foldlM_nil]
    unfold applyReduceTo
    simp only [e2]
    simp only [bind, Except.bind, pure, Except.pure, htop, hg]
    cases h2.pop ⟨1, n1.recd⟩ <;> rfl
  constructor
  · rintro rfl
    rw [hap]
    simp only [GHeap.pop, b1]
    rfl
  · rintro rfl
    have hpop : h2.pop ⟨1, n1.recd⟩ = .ok ({ h2 with inners := h2.inners.set 1 ⟨some q0, []⟩ }, ⟨0, n1.recd⟩) := by simp [GHeap.pop, b1]
    have hlt := getElem?_lt b1
    refine ⟨{ h2 with inners := h2.inners.set 1 ⟨some q0, []⟩ }, ⟨0, n1.recd⟩, by rw [hap, hpop]; rfl, k2.hext.trans ?_, ?_, r2, rfl, c2⟩
    · refine ⟨fun a c hc hn => ?_, fun v nb hc => ?_, fun _ _ h => h⟩
      · simp only; rw [List.getElem?_set_ne (by omega)]; exact hc
      · rw [b1] at hc
        simp at hc
        refine ⟨[], ?_⟩
        simp only; rw [List.getElem?_set_self hlt, ← hc.1]
    · refine ⟨by simp only; rw [List.getElem?_set_ne (by omega)]; exact b0, q0, r0, ?_⟩
      simp only; rw [List.getElem?_set_self hlt]; simp

/-- the two rounds do the same -/
structure RoundSim (Ok : List StackSym → Prop) (rep : List (LREvent T)) (st : ReduceSt T) (ls : LinSt T) : Prop where
  base : GBase st.heap ls.popped
  acc : Reps st.heap rep st.accepted ls.accepted
  new : Reps st.heap rep st.newToReduce ls.newTo
  nodup : (st.accepted.map GNode.recd).Nodup
  newOk : ∀ c ∈ ls.newTo, ConfInv Ok c ∧ c.isRoot = false

/-- two computations that panic together or succeed with related results -/
def BothRes {α β : Type} (R : α → β → Prop) : Res α → Res β → Prop
  | .ok a, .ok b => R a b
  | .error .panic, .error .panic => True
  | .error .fuel, .error .fuel => True
  | _, _ => False

theorem BothRes.bind {α β γ δ : Type} {R : α → β → Prop} {S : γ → δ → Prop} {x : Res α} {y : Res β} (h : BothRes R x y) {f : α → Res γ} {g : β → Res δ}
    (hf : ∀ a b, R a b → BothRes S (f a) (g b)) : BothRes S (x.bind f) (y.bind g) := by
  match x, y, h with
  | .ok a, .ok b, h => exact hf a b h
  | .error .panic, .error .panic, _ => trivial
  | .error .fuel, .error .fuel, _ => trivial

theorem nodup_snoc {l : List GNode} {h : GlrHeap T} {n : GNode} (hl : ∀ x ∈ l, x.recd < h.recs.length) (hn : h.recs.length ≤ n.recd) (hd : (l.map GNode.recd).Nodup) :
    ((l ++ [n]).map GNode.recd).Nodup := by
  rw [List.map_append, List.nodup_append]
  refine ⟨hd, by simp, ?_⟩
  intro a ha b hb
  simp only [List.mem_map] at ha
  obtain ⟨x, hx, rfl⟩ := ha
  simp at hb
  subst hb
  have := hl x hx
  omega

theorem applyAction_sim {m : GlrMachine} {Ok : List StackSym → Prop} (hi : StackInv m Ok) {rep : List (LREvent T)} {st : ReduceSt T} {ls : LinSt T} (hs : RoundSim Ok rep st ls)
    {n : GNode} {q : Nat} {rest : List StackSym} {ev : List (LREvent T)} (hn : NodeRep st.heap rep n (.live (.state q :: rest) ev)) (hok : Ok (.state q :: rest)) {tk : Tok}
    {l : List LRAction} (hl : m.nextActions q tk = .acts l) (a : LRAction) (ha : a ∈ l) :
    BothRes (fun st' ls' => RoundSim Ok rep st' ls' ∧ HExt st.heap st'.heap) (applyAction m n st a) (linAction m (.state q :: rest) ev ls a) := by
  obtain ⟨h, acc, new⟩ := st
  obtain ⟨hch, pend, hrec, rfl⟩ := hn
  simp only at hch hrec
  cases a with
  | shift =>
    have hk := fork_keeps h n h.inners.length
    refine ⟨⟨hk.base hs.base, (hs.acc.ext hk.hext).snoc ?_, hs.new.ext hk.hext, nodup_snoc (h := h) hs.acc.recd_lt (by simp [GHeap.fork]) hs.nodup, hs.newOk⟩, hk.hext⟩
    exact ⟨hk.chain hch, pend, by simp [GHeap.fork, hrec], rfl⟩
  | reduce i =>
    obtain ⟨k, A, p, rest', h1, h2, h3, h4⟩ := hi.reduce q rest tk l i hok hl ha
    rcases h4 with ⟨q', h4, h5⟩ | ⟨h4, rfl⟩
    · obtain ⟨h', n', e, he, hb, hr, hc, hrec'⟩ := applyReduce_goto hs.base hch hrec h1 h2 h3 h4 acc new
      have : linAction m (.state q :: rest) (rep ++ pend) ls (.reduce i) = .ok { ls with newTo := ls.newTo ++ [.live (.state q' :: .nonTerminal A :: .state p :: rest') (rep ++ pend ++ [.reduce i])] } := by
        simp only [linAction, linReduce, h1, h3, h4]
      rw [this]
      simp only [applyAction, e]
      refine ⟨⟨hb, hs.acc.ext he, (hs.new.ext he).snoc ⟨hc, _, hrec', by simp⟩, hs.nodup, ?_⟩, he⟩
      intro c hc
      rcases List.mem_append.mp hc with hc | hc
      · exact hs.newOk c hc
      · simp at hc; subst hc; exact ⟨h5, rfl⟩
    · obtain ⟨a1, a2⟩ := applyReduce_accept hs.base hch hrec h1 h2 h3 h4 acc new
      have hlin : linAction m (.state q :: rest) (rep ++ pend) ls (.reduce i) =
          if ls.popped then .error .panic else .ok { ls with popped := true, accepted := ls.accepted ++ [.root (rep ++ pend ++ [.reduce i])] } := by
        simp only [linAction, linReduce, h1, h3, h4]
      rw [hlin]
      simp only [applyAction]
      cases hp : ls.popped with
      | true => rw [a1 hp]; trivial
      | false =>
        obtain ⟨h', n', e, he, hb, hr, hc, hrec'⟩ := a2 hp
        rw [e]
        exact ⟨⟨hb, (hs.acc.ext he).snoc ⟨hc, _, hrec', by simp⟩, hs.new.ext he, nodup_snoc (h := h) hs.acc.recd_lt hr hs.nodup, hs.newOk⟩, he⟩

theorem applyActions_sim {m : GlrMachine} {Ok : List StackSym → Prop} (hi : StackInv m Ok) {rep : List (LREvent T)} {n : GNode} {q : Nat} {rest : List StackSym}
    {ev : List (LREvent T)} (hok : Ok (.state q :: rest)) {tk : Tok} {l0 : List LRAction} (hl0 : m.nextActions q tk = .acts l0) :
    ∀ (l : List LRAction) (st : ReduceSt T) (ls : LinSt T), (∀ a ∈ l, a ∈ l0) → RoundSim Ok rep st ls → NodeRep st.heap rep n (.live (.state q :: rest) ev) →
      BothRes (fun st' ls' => RoundSim Ok rep st' ls' ∧ HExt st.heap st'.heap) (l.foldlM (applyAction m n) st) (l.foldlM (linAction m (.state q :: rest) ev) ls) := by
  intro l
  induction l with
  | nil => intro st ls _ hs _; exact ⟨hs, .refl _⟩
  | cons a l ih =>
    intro st ls hsub hs hn
    simp only [List.foldlM_cons]
    refine (applyAction_sim hi hs hn hok hl0 a (hsub a (by simp))).bind fun st' ls' ⟨h1, h2⟩ => ?_
    have := ih st' ls' (fun x hx => hsub x (by simp [hx])) h1 (hn.ext h2)
    revert this
    generalize l.foldlM (applyAction m n) st' = X
    generalize l.foldlM (linAction m (.state q :: rest) ev) ls' = Y
    intro this
    match X, Y, this with
    | .ok a, .ok b, h => exact ⟨h.1, h2.trans h.2⟩
    | .error .panic, .error .panic, _ => trivial
    | .error .fuel, .error .fuel, _ => trivial

theorem reduceStack_sim {m : GlrMachine} {Ok : List StackSym → Prop} (hi : StackInv m Ok) {rep : List (LREvent T)} {tk : Tok} {st : ReduceSt T} {ls : LinSt T}
    {errs : List (List (Option Nat))} (hs : RoundSim Ok rep st ls) {n : GNode} {c : GConf T} (hn : NodeRep st.heap rep n c) (hok : ConfInv Ok c) :
    BothRes (fun x y => RoundSim Ok rep x.1 y.1 ∧ HExt st.heap x.1.heap ∧ x.2 = y.2) (reduceStack m tk (st, errs) n) (linStack m tk (ls, errs) c) := by
  cases c with
  | root ev =>
    obtain ⟨h1, _⟩ := hn
    have : st.heap.top n = none := by simp [GHeap.top, h1, hs.base.root]
    simp only [reduceStack, this, linStack]
    trivial
  | live stk ev =>
    obtain ⟨q, rest, rfl⟩ := hi.shape stk hok
    have htop : st.heap.top n = some q := Chain.top hn.1
    simp only [reduceStack, htop, linStack]
    cases hact : m.nextActions q tk with
    | panic => trivial
    | unexpected e => exact ⟨hs, .refl _, rfl⟩
    | acts l =>
      refine (applyActions_sim hi hok hact l st ls (fun _ h => h) hs hn).bind fun st' ls' h => ?_
      exact ⟨h.1, h.2, rfl⟩

theorem reduceStacks_sim {m : GlrMachine} {Ok : List StackSym → Prop} (hi : StackInv m Ok) {rep : List (LREvent T)} {tk : Tok} :
    ∀ (ns : List GNode) (cs : List (GConf T)) (st : ReduceSt T) (ls : LinSt T) (errs : List (List (Option Nat))), RoundSim Ok rep st ls → Reps st.heap rep ns cs →
      (∀ c ∈ cs, ConfInv Ok c) →
      BothRes (fun x y => RoundSim Ok rep x.1 y.1 ∧ x.2 = y.2) (ns.foldlM (reduceStack m tk) (st, errs)) (cs.foldlM (linStack m tk) (ls, errs)) := by
  intro ns
  induction ns with
  | nil =>
    intro cs st ls errs hs hr hok
    cases hr
    exact ⟨hs, rfl⟩
  | cons n ns ih =>
    intro cs st ls errs hs hr hok
    cases hr with
    | @cons _ c _ cs hn hr =>
      simp only [List.foldlM_cons]
      refine (reduceStack_sim hi hs hn (hok c (by simp))).bind fun x y ⟨h1, h2, h3⟩ => ?_
      obtain ⟨x1, x2⟩ := x
      obtain ⟨y1, y2⟩ := y
      simp only at h1 h2 h3
      subst h3
      exact ih cs x1 y1 x2 h1 (Reps.ext h2 hr) (fun c hc => hok c (by simp [hc]))

/-- results of the reductions agree -/
def ReducedSim (rep : List (LREvent T)) : Reduced T → LinReduced T → Prop
  | .ok h ns, .ok p cs => GBase h p ∧ Reps h rep ns cs ∧ (ns.map GNode.recd).Nodup
  | .unexpected e, .unexpected e' => e = e'
  | _, _ => False

theorem applyReduces_sim {m : GlrMachine} {Ok : List StackSym → Prop} (hi : StackInv m Ok) {rep : List (LREvent T)} {tk : Tok} :
    ∀ (fuel : Nat) (h : GlrHeap T) (p : Bool) (acc ns : List GNode) (lacc cs : List (GConf T)), GBase h p → Reps h rep acc lacc → (acc.map GNode.recd).Nodup →
      Reps h rep ns cs → (∀ c ∈ cs, ConfInv Ok c) →
      BothRes (ReducedSim rep) (applyReduces m tk fuel h acc ns) (linReduces m tk fuel p lacc cs) := by
  intro fuel
  induction fuel with
  | zero =>
    intro h p acc ns lacc cs hb ha hd hr hok
    cases hr with
    | nil => exact ⟨hb, ha, hd⟩
    | cons hn hr => trivial
  | succ fuel ih =>
    intro h p acc ns lacc cs hb ha hd hr hok
    cases hr with
    | nil => exact ⟨hb, ha, hd⟩
    | @cons n c ns cs hn hr =>
      unfold applyReduces linReduces
      refine (reduceStacks_sim hi (n :: ns) (c :: cs) ⟨h, acc, []⟩ ⟨p, lacc, []⟩ [] ⟨hb, ha, .nil, hd, by simp⟩ (.cons hn hr) hok).bind fun x y ⟨h1, h2⟩ => ?_
      obtain ⟨st, e⟩ := x
      obtain ⟨ls, e'⟩ := y
      simp only at h1 h2
      subst h2
      have hlen : (n :: ns).length = (c :: cs).length := by have := Reps.length hr; simp [this]
      have hnil : st.accepted = [] ↔ ls.accepted = [] := by
        have := h1.acc.length
        rw [← List.length_eq_zero_iff, ← List.length_eq_zero_iff, this]
      simp only [hlen, hnil]
      split
      · rfl
      · exact ih _ _ _ _ _ _ h1.base h1.acc h1.nodup h1.new (fun c hc => (h1.newOk c hc).1)

/-- stacks that can be shifted -/
def Shiftable (m : GlrMachine) (Ok : List StackSym → Prop) (tk : Tok) : GConf T → Prop
  | .live stk _ => ∃ q rest, stk = .state q :: rest ∧ Ok stk ∧ ∃ q', m.nextGoto q (.terminal tk) = some (.state q') ∧ Ok (.state q' :: .terminal tk :: stk)
  | .root _ => True

theorem linAction_shiftable {m : GlrMachine} {Ok : List StackSym → Prop} (hi : StackInv m Ok) {q : Nat} {rest : List StackSym} (hok : Ok (.state q :: rest)) {tk : Tok}
    {l : List LRAction} (hl : m.nextActions q tk = .acts l) {ev : List (LREvent T)} {a : LRAction} (ha : a ∈ l) {ls ls' : LinSt T}
    (hs : (∀ c ∈ ls.accepted, Shiftable m Ok tk c) ∧ ∀ c ∈ ls.newTo, ConfInv Ok c ∧ c.isRoot = false) (h : linAction m (.state q :: rest) ev ls a = .ok ls') :
    (∀ c ∈ ls'.accepted, Shiftable m Ok tk c) ∧ ∀ c ∈ ls'.newTo, ConfInv Ok c ∧ c.isRoot = false := by
  cases a with
  | shift =>
    simp only [linAction, Except.ok.injEq] at h
    subst h
    refine ⟨fun c hc => ?_, hs.2⟩
    rcases List.mem_append.mp hc with hc | hc
    · exact hs.1 c hc
    · simp at hc; subst hc
      obtain ⟨q', h1, h2⟩ := hi.shift q rest tk l hok hl ha
      exact ⟨q, rest, rfl, hok, q', h1, h2⟩
  | reduce i =>
    obtain ⟨k, A, p, rest', h1, h2, h3, h4⟩ := hi.reduce q rest tk l i hok hl ha
    rcases h4 with ⟨q', h4, h5⟩ | ⟨h4, rfl⟩
    · simp only [linAction, linReduce, h1, h3, h4, Except.ok.injEq] at h
      subst h
      refine ⟨hs.1, fun c hc => ?_⟩
      rcases List.mem_append.mp hc with hc | hc
      · exact hs.2 c hc
      · simp at hc; subst hc; exact ⟨h5, rfl⟩
    · simp only [linAction, linReduce, h1, h3, h4] at h
      split at h
      · cases h
      · simp only [Except.ok.injEq] at h
        subst h
        refine ⟨fun c hc => ?_, hs.2⟩
        rcases List.mem_append.mp hc with hc | hc
        · exact hs.1 c hc
        · simp at hc; subst hc; trivial

theorem linStack_shiftable {m : GlrMachine} {Ok : List StackSym → Prop} (hi : StackInv m Ok) {tk : Tok} {c : GConf T} (hok : ConfInv Ok c) {st st' : LinSt T × List (List (Option Nat))}
    (hs : (∀ c ∈ st.1.accepted, Shiftable m Ok tk c) ∧ ∀ c ∈ st.1.newTo, ConfInv Ok c ∧ c.isRoot = false) (h : linStack m tk st c = .ok st') :
    (∀ c ∈ st'.1.accepted, Shiftable m Ok tk c) ∧ ∀ c ∈ st'.1.newTo, ConfInv Ok c ∧ c.isRoot = false := by
  cases c with
  | root ev => simp [linStack] at h
  | live stk ev =>
    obtain ⟨q, rest, rfl⟩ := hi.shape stk hok
    simp only [linStack] at h
    cases hact : m.nextActions q tk with
    | panic => simp [hact] at h
    | unexpected e => simp [hact] at h; subst h; exact hs
    | acts l =>
      simp only [hact] at h
      obtain ⟨ls', h1, h2⟩ := res_bind_ok.mp h
      simp at h2; subst h2
      simp only
      clear h
      have : ∀ (l' : List LRAction) (ls : LinSt T), (∀ a ∈ l', a ∈ l) → ((∀ c ∈ ls.accepted, Shiftable m Ok tk c) ∧ ∀ c ∈ ls.newTo, ConfInv Ok c ∧ c.isRoot = false) →
          l'.foldlM (linAction m (.state q :: rest) ev) ls = .ok ls' → (∀ c ∈ ls'.accepted, Shiftable m Ok tk c) ∧ ∀ c ∈ ls'.newTo, ConfInv Ok c ∧ c.isRoot = false := by
        intro l'
        induction l' with
        | nil => intro ls _ hs h; simp [pure, Except.pure] at h; subst h; exact hs
        | cons a l' ih =>
          intro ls hsub hs h
          simp only [List.foldlM_cons] at h
          obtain ⟨ls1, h1, h2⟩ := res_bind_ok.mp h
          exact ih ls1 (fun x hx => hsub x (by simp [hx])) (linAction_shiftable hi hok hact (hsub a (by simp)) hs h1) h2
      exact this l st.1 (fun _ h => h) hs h1

theorem linReduces_shiftable {m : GlrMachine} {Ok : List StackSym → Prop} (hi : StackInv m Ok) {tk : Tok} : ∀ (fuel : Nat) (p p' : Bool) (acc cs reduced : List (GConf T)),
    (∀ c ∈ acc, Shiftable m Ok tk c) → (∀ c ∈ cs, ConfInv Ok c) → linReduces m tk fuel p acc cs = .ok (.ok p' reduced) → ∀ c ∈ reduced, Shiftable m Ok tk c := by
  intro fuel
  induction fuel with
  | zero =>
    intro p p' acc cs reduced ha hok h
    cases cs with
    | nil => simp [linReduces] at h; rw [← h.2]; exact ha
    | cons c cs => simp [linReduces] at h
  | succ fuel ih =>
    intro p p' acc cs reduced ha hok h
    cases cs with
    | nil => simp [linReduces] at h; rw [← h.2]; exact ha
    | cons c cs =>
      unfold linReduces at h
      obtain ⟨⟨st, e⟩, h1, h2⟩ := res_bind_ok.mp h
      have hfold : ∀ (l : List (GConf T)) (s : LinSt T × List (List (Option Nat))), (∀ c ∈ l, ConfInv Ok c) →
          ((∀ c ∈ s.1.accepted, Shiftable m Ok tk c) ∧ ∀ c ∈ s.1.newTo, ConfInv Ok c ∧ c.isRoot = false) → l.foldlM (linStack m tk) s = .ok (st, e) →
          (∀ c ∈ st.accepted, Shiftable m Ok tk c) ∧ ∀ c ∈ st.newTo, ConfInv Ok c ∧ c.isRoot = false := by
        intro l
        induction l with
        | nil => intro s _ hs h; simp [pure, Except.pure] at h; subst h; exact hs
        | cons c l ihl =>
          intro s hok hs h
          simp only [List.foldlM_cons] at h
          obtain ⟨s1, h1, h2⟩ := res_bind_ok.mp h
          exact ihl s1 (fun x hx => hok x (by simp [hx])) (linStack_shiftable hi (hok c (by simp)) hs h1) h2
      obtain ⟨a1, a2⟩ := hfold (c :: cs) _ hok ⟨ha, by simp⟩ h1
      simp only at h2
      split at h2
      · simp at h2
      · exact ih _ _ _ _ _ a1 (fun c hc => (a2 c hc).1) h2

theorem shiftStack_sim {m : GlrMachine} {Ok : List StackSym → Prop} {rep : List (LREvent T)} {tk : Tok} {data : T} : ∀ (ns : List GNode) (cs : List (GConf T))
    (h : GlrHeap T) (p : Bool) (out : List GNode) (lout : List (GConf T)), GBase h p → Reps h rep ns cs → (∀ c ∈ cs, Shiftable m Ok tk c ∧ c.isRoot = false) →
      Reps h rep out lout → (∀ x ∈ ns, ∀ y ∈ out, x.recd ≠ y.recd) → (ns.map GNode.recd).Nodup → (∀ c ∈ lout, ConfInv Ok c) →
      ∃ h' out' lout', ns.foldlM (shiftStack m tk data) (h, out) = .ok (h', out') ∧ cs.foldlM (linShift m tk data) lout = .ok lout' ∧ GBase h' p ∧ Reps h' rep out' lout' ∧
        ∀ c ∈ lout', ConfInv Ok c := by
  intro ns
  induction ns with
  | nil =>
    intro cs h p out lout hb hr _ ho _ _ hok
    cases hr
    exact ⟨h, out, lout, rfl, rfl, hb, ho, hok⟩
  | cons n ns ih =>
    intro cs h p out lout hb hr hsh ho hne hd hok
    cases hr with
    | @cons _ c _ cs hn hr =>
      obtain ⟨hs1, hs2⟩ := hsh c (by simp)
      cases c with
      | root ev => simp [GConf.isRoot] at hs2
      | live stk ev =>
        obtain ⟨q, rest, rfl, hok', q', hg, hok''⟩ := hs1
        obtain ⟨hch, pend, hrec, rfl⟩ := hn
        have htop : h.top n = some q := Chain.top hch
        have hlt := getElem?_lt hrec
        simp only [List.map_cons, List.nodup_cons] at hd
        -- the heap after recording and pushing
        have hrc : ∀ r, r ≠ n.recd → (h.record n (.shift tk data)).recs[r]? = h.recs[r]? := by
          intro r hr
          simp only [GHeap.record]
          rw [List.getElem?_set_ne (fun h => hr h.symm)]
        have hself : (h.record n (.shift tk data)).recs[n.recd]? = some (pend ++ [.shift tk data]) := by
          simp only [GHeap.record, hrec, Option.getD_some]
          exact List.getElem?_set_self hlt
        have hchain : ∀ a stk, Chain h a stk → Chain (h.record n (.shift tk data)) a stk := by
          intro a stk hc
          induction hc with
          | base h => exact .base h
          | push h1 h2 _ ih => exact .push h1 h2 ih
        have hrep : ∀ x c, x.recd ≠ n.recd → NodeRep h rep x c → NodeRep (h.record n (.shift tk data)) rep x c := by
          intro x c hx hr
          cases c with
          | live stk ev => obtain ⟨h1, pend, h2, h3⟩ := hr; exact ⟨hchain _ _ h1, pend, by rw [hrc _ hx]; exact h2, h3⟩
          | root ev => obtain ⟨h1, pend, h2, h3⟩ := hr; exact ⟨h1, pend, by rw [hrc _ hx]; exact h2, h3⟩
        have hreps : ∀ xs cs, (∀ x ∈ xs, x.recd ≠ n.recd) → Reps h rep xs cs → Reps (h.record n (.shift tk data)) rep xs cs := by
          intro xs cs hx hr
          induction hr with
          | nil => exact .nil
          | cons h1 _ ih => exact .cons (hrep _ _ (hx _ (by simp)) h1) (ih (fun x h => hx x (by simp [h])))
        have hb1 : GBase (h.record n (.shift tk data)) p := ⟨hb.root, hb.entry⟩
        have hpk := push_keeps (h.record n (.shift tk data)) n (some q') (some (.terminal tk))
        have hout := Reps.ext hpk.hext (hreps out lout (fun y hy => fun he => hne n (by simp) y hy he.symm) ho)
        have hns := Reps.ext hpk.hext (hreps ns cs (fun x hx => fun he => hd.1 (by simp only [List.mem_map]; exact ⟨x, hx, he⟩)) hr)
        have hnew : NodeRep ((h.record n (.shift tk data)).push n (some q') (some (.terminal tk))).1 rep ((h.record n (.shift tk data)).push n (some q') (some (.terminal tk))).2
            (.live (.state q' :: .terminal tk :: .state q :: rest) (rep ++ pend ++ [.shift tk data])) := by
          refine ⟨.push (n := n) ?_ ?_ (hpk.chain (hchain _ _ hch)), pend ++ [.shift tk data], ?_, by simp⟩
          · simp [GHeap.push]
          · have := getElem?_lt hb1.entry.choose_spec.choose_spec
            simp only [GHeap.push]; omega
          · simpa [GHeap.push] using hself
        obtain ⟨h', out', lout', e1, e2, b', r', k'⟩ := ih cs _ p _ _ (hpk.base hb1) hns (fun c hc => hsh c (by simp [hc])) (Reps.snoc hout hnew)
          (fun x hx y hy => by
            rcases List.mem_append.mp hy with hy | hy
            · exact hne x (by simp [hx]) y hy
            · simp at hy; subst hy
              intro he
              simp only [GHeap.push] at he
              exact hd.1 (by simp only [List.mem_map]; exact ⟨x, hx, he⟩)) hd.2
          (fun c hc => by
            rcases List.mem_append.mp hc with hc | hc
            · exact hok c hc
            · simp at hc; subst hc; exact hok'')
        refine ⟨h', out', lout', ?_, ?_, b', r', k'⟩
        · simp only [List.foldlM_cons]
          have : shiftStack m tk data (h, out) n = .ok (((h.record n (.shift tk data)).push n (some q') (some (.terminal tk))).1, out ++ [((h.record n (.shift tk data)).push n (some q') (some (.terminal tk))).2]) := by
            simp only [shiftStack, htop, hg]
          rw [this]
          exact e1
        · simp only [List.foldlM_cons]
          have : linShift m tk data lout (.live (.state q :: rest) (rep ++ pend)) = .ok (lout ++ [.live (.state q' :: .terminal tk :: .state q :: rest) (rep ++ pend ++ [.shift tk data])]) := by
            simp only [linShift, hg]
          rw [this]
          exact e2

theorem rep_isRoot {h : GlrHeap T} {p : Bool} (hb : GBase h p) {rep : List (LREvent T)} {n : GNode} {c : GConf T} (hn : NodeRep h rep n c) : h.isRoot n = c.isRoot := by
  cases c with
  | live stk ev =>
    obtain ⟨q, rest, rfl⟩ := hn.1.shape
    simp [GHeap.isRoot, Chain.top hn.1, GConf.isRoot]
  | root ev =>
    obtain ⟨h1, _⟩ := hn
    simp [GHeap.isRoot, GHeap.top, h1, hb.root, GConf.isRoot]

theorem reps_any {h : GlrHeap T} {p : Bool} (hb : GBase h p) {rep : List (LREvent T)} {ns : List GNode} {cs : List (GConf T)} (hr : Reps h rep ns cs) :
    ns.any (fun s => h.isRoot s) = cs.any GConf.isRoot := by
  induction hr with
  | nil => rfl
  | cons h1 _ ih => simp only [List.any_cons, rep_isRoot hb h1, ih]

theorem reps_all {h : GlrHeap T} {p : Bool} (hb : GBase h p) {rep : List (LREvent T)} {ns : List GNode} {cs : List (GConf T)} (hr : Reps h rep ns cs) :
    ns.all (fun s => h.isRoot s) = cs.all GConf.isRoot := by
  induction hr with
  | nil => rfl
  | cons h1 _ ih => simp only [List.all_cons, rep_isRoot hb h1, ih]

/-- reporting -/
theorem report_sim {h : GlrHeap T} {p : Bool} (hb : GBase h p) {rep : List (LREvent T)} {ns : List GNode} {cs : List (GConf T)} (hr : Reps h rep ns cs) :
    rep ++ (reportPhase h ns).2 = linReport rep cs ∧ GBase (reportPhase h ns).1 p ∧ Reps (reportPhase h ns).1 (linReport rep cs) ns cs := by
  cases hr with
  | nil => exact ⟨by simp [reportPhase, linReport], hb, .nil⟩
  | @cons n c ns cs hn hr =>
    cases hr with
    | cons hn' hr => exact ⟨by simp [reportPhase, linReport], hb, .cons hn (.cons hn' hr)⟩
    | nil =>
      have hlt := hn.recd_lt
      have hself : (h.popRecorded n).1.recs[n.recd]? = some [] := by
        simp only [GHeap.popRecorded]
        exact List.getElem?_set_self hlt
      have hchain : ∀ a stk, Chain h a stk → Chain (h.popRecorded n).1 a stk := by
        intro a stk hc
        induction hc with
        | base h => exact .base h
        | push h1 h2 _ ih => exact .push h1 h2 ih
      refine ⟨?_, ⟨hb.root, hb.entry⟩, .cons ?_ .nil⟩
      · cases c with
        | live stk ev => obtain ⟨h1, pend, h2, rfl⟩ := hn; simp [reportPhase, linReport, GHeap.popRecorded, h2, GConf.ev]
        | root ev => obtain ⟨h1, pend, h2, rfl⟩ := hn; simp [reportPhase, linReport, GHeap.popRecorded, h2, GConf.ev]
      · cases c with
        | live stk ev => obtain ⟨h1, pend, h2, rfl⟩ := hn; exact ⟨hchain _ _ h1, [], hself, by simp [linReport, GConf.ev]⟩
        | root ev => obtain ⟨h1, pend, h2, rfl⟩ := hn; exact ⟨h1, [], hself, by simp [linReport, GConf.ev]⟩

theorem shiftable_ok {m : GlrMachine} {Ok : List StackSym → Prop} {tk : Tok} {c : GConf T} (h : Shiftable m Ok tk c) : ConfInv Ok c := by
  cases c with
  | live stk ev => obtain ⟨_, _, _, h, _⟩ := h; exact h
  | root ev => trivial

/-- the heap driver and the linear driver do the same -/
theorem glrRun_sim {m : GlrMachine} {Ok : List StackSym → Prop} (hi : StackInv m Ok) (input : Nat → Tok × T) (rfuel : Nat) : ∀ (fuel : Nat) (h : GlrHeap T) (p : Bool)
    (ns : List GNode) (cs : List (GConf T)) (pos : Nat) (events : List (LREvent T)), GBase h p → Reps h events ns cs → (∀ c ∈ cs, ConfInv Ok c) →
      glrRun m input rfuel fuel h ns pos events = linRun m input rfuel fuel p cs pos events := by
  intro fuel
  induction fuel with
  | zero => intro h p ns cs pos events _ _ _; rfl
  | succ fuel ih =>
    intro h p ns cs pos events hb hr hok
    unfold glrRun linRun
    rw [reps_all hb hr, Reps.length hr]
    split
    · rfl
    · have hred := applyReduces_sim hi (tk := (input pos).1) rfuel h p [] ns [] cs hb .nil (by simp) hr hok
      cases hX : applyReduces m (input pos).1 rfuel h [] ns with
      | error e =>
        rw [hX] at hred
        cases hY : linReduces m (input pos).1 rfuel p [] cs with
        | error e' =>
          rw [hY] at hred
          cases e <;> cases e' <;> first | rfl | exact hred.elim
        | ok y => rw [hY] at hred; cases e <;> exact hred.elim
      | ok x =>
        rw [hX] at hred
        cases hY : linReduces m (input pos).1 rfuel p [] cs with
        | error e' => rw [hY] at hred; exact hred.elim
        | ok y =>
          rw [hY] at hred
          cases x with
          | unexpected e =>
            cases y with
            | unexpected e' => change e = e' at hred; subst hred; rfl
            | ok p' cs' => exact hred.elim
          | ok h' ns' =>
            cases y with
            | unexpected e' => exact hred.elim
            | ok p' cs' =>
              obtain ⟨hb', hr', hd'⟩ := hred
              have hsh := linReduces_shiftable hi rfuel p p' [] cs cs' (by simp) hok hY
              simp only
              unfold shiftPhase linShiftPhase
              rw [reps_any hb' hr']
              by_cases hany : cs'.any GConf.isRoot = true
              · simp only [hany, if_true]
                obtain ⟨r1, r2, r3⟩ := report_sim hb' hr'
                rw [r1]
                exact ih _ _ _ _ _ _ r2 r3 (fun c hc => shiftable_ok (hsh c hc))
              · obtain ⟨h2, out, lout, e1, e2, b2, r2, k2⟩ := shiftStack_sim (data := (input pos).2) ns' cs' h' p' [] [] hb' hr'
                  (fun c hc => ⟨hsh c hc, by
                    cases hroot : c.isRoot with
                    | false => rfl
                    | true => exact absurd (List.any_eq_true.mpr ⟨c, hc, hroot⟩) hany⟩) .nil (by simp) hd' (by simp)
                simp only [if_neg hany, e1, e2]
                obtain ⟨r1, r2', r3⟩ := report_sim b2 r2
                rw [r1]
                exact ih _ _ _ _ _ _ r2' r3 k2

theorem glrParse_lin {m : GlrMachine} {Ok : List StackSym → Prop} (hi : StackInv m Ok) (input : Nat → Tok × T) (fuel : Nat) :
    glrParse m input fuel = linRun m input fuel fuel false [.live [.state m.entry] []] 0 [] := by
  unfold glrParse
  refine glrRun_sim hi input fuel fuel _ _ _ _ _ _ ⟨rfl, m.entry, 0, rfl⟩ (.cons ⟨.base (by simp [GHeap.push, GHeap.root]; rfl), [], rfl, rfl⟩ .nil) ?_
  intro c hc
  simp at hc; subst hc
  exact hi.start

end Verif
