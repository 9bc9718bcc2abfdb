import Verif.Proofs.GlrTerm

/-! # GLR and LR drivers on the same table -/

set_option autoImplicit false

namespace Verif

variable {T : Type} {g : Grammar} {kind : LRKind} {gr : LRGraph} {m : GlrMachine} {lm : LRMachine} {input : Nat → Tok × T}

/-- the machines do the same -/
structure MRel (n : Nat) (lm : LRMachine) (m : GlrMachine) : Prop where
  entry : lm.entry = m.entry
  act : ∀ q tk a, q < n → lm.nextAction q tk = .act a → m.nextActions q tk = .acts [a]
  unexpected : ∀ q tk e, q < n → lm.nextAction q tk = .unexpected e → ∃ e', m.nextActions q tk = .unexpected e' ∧ SameExpected e e'
  noPanic : ∀ q tk, q < n → lm.nextAction q tk ≠ .panic
  goto : ∀ q x, q < n → lm.nextGoto q x = m.nextGoto q x
  red : ∀ i, lm.reduction i = m.reduction i

theorem cellActs_ok {tb : LRTable} {q : Nat} {s : Sym} (h : CellOk tb q s) : cellActs tb q s = (actOf tb q s).toList := by
  unfold cellActs LRTable.cell actOf
  rcases h with h | ⟨e, h⟩
  · simp [h]
  · rw [h]
    cases e with
    | shift _ => rfl
    | accept => rfl
    | reduce o => cases o <;> rfl
    | error => rfl

theorem cellGotos_ok {tb : LRTable} {q : Nat} {s : Sym} (h : CellOk tb q s) : (cellGotos tb q s).head? = gotoOf tb q s := by
  unfold cellGotos LRTable.cell gotoOf
  rcases h with h | ⟨e, h⟩
  · simp [h]
  · rw [h]
    cases e with
    | shift _ => rfl
    | accept => rfl
    | reduce o => cases o <;> rfl
    | error => rfl

theorem mem_termEof {s : Sym} (h : s ∈ g.terminals ++ [Sym.eof]) : s ∈ g.symbols ++ [Sym.eof] := by
  simp only [List.mem_append, List.mem_singleton, Grammar.symbols] at h ⊢
  tauto

theorem specs_mrel {tb : LRTable} {p : LRProg} {p' : GlrProg} (h1 : ProgSpec g tb p) (h2 : GlrSpec g tb p') : MRel tb.stateCount p.machine p'.machine := by
  have hopt : ∀ (q : Nat) (tk : Tok), q < tb.stateCount → (tk.sym.bind fun s => if s ∈ g.terminals ++ [Sym.eof] then cellActs? tb q s else none) =
      (tk.sym.bind fun s => if s ∈ g.terminals ++ [Sym.eof] then actOf tb q s else none).map (fun a => [a]) := by
    intro q tk hq
    cases hs : tk.sym with
    | none => rfl
    | some s =>
      simp only [Option.bind_some]
      by_cases hm : s ∈ g.terminals ++ [Sym.eof]
      · rw [if_pos hm, if_pos hm]
        unfold cellActs?
        rw [cellActs_ok (h1.cells q hq s (mem_termEof hm))]
        cases actOf tb q s <;> simp
      · rw [if_neg hm, if_neg hm]; rfl
  refine ⟨by show p.entry = p'.entry; rw [h1.entry, h2.entry], fun q tk a hq h => ?_, fun q tk e hq h => ?_, fun q tk hq h => ?_, fun q x hq => ?_, fun i => ?_⟩
  · change p.nextAction q tk = _ at h
    change p'.nextActions q tk = _
    obtain ⟨exp, _, _, h3⟩ := h2.action q hq
    rw [h3, hopt q tk hq]
    rw [h1.action q hq] at h
    revert h
    cases (tk.sym.bind fun s => if s ∈ g.terminals ++ [Sym.eof] then actOf tb q s else none) with
    | none => intro h; cases h
    | some b => intro h; cases h; rfl
  · change p.nextAction q tk = _ at h
    change ∃ e', p'.nextActions q tk = _ ∧ _
    obtain ⟨exp, _, hexp, h3⟩ := h2.action q hq
    rw [h3, hopt q tk hq]
    rw [h1.action q hq] at h
    revert h
    cases (tk.sym.bind fun s => if s ∈ g.terminals ++ [Sym.eof] then actOf tb q s else none) with
    | some b => intro h; cases h
    | none =>
      intro h
      cases h
      refine ⟨exp, rfl, fun x => ?_⟩
      rw [hexp]
      have hk : ∀ s ∈ g.terminals ++ [Sym.eof], (cellActs tb q s ≠ [] ↔ (actOf tb q s).isSome = true) := by
        intro s hs
        rw [cellActs_ok (h1.cells q hq s (mem_termEof hs))]
        cases actOf tb q s <;> simp
      constructor
      · rintro ⟨s, hs, hx, hc⟩
        have hmem : s ∈ (g.terminals ++ [Sym.eof]).filter (fun s => (actOf tb q s).isSome) := List.mem_filter.mpr ⟨hs, (hk s hs).mp hc⟩
        cases s with
        | t a => simp only [expectedOf, Option.some.injEq] at hx; exact .inl ⟨a, hx.symm, hmem⟩
        | eof => simp only [expectedOf, Option.some.injEq] at hx; exact .inr ⟨hx.symm, hmem⟩
        | nt _ => simp [expectedOf] at hx
        | eps => simp [expectedOf] at hx
      · rintro (⟨a, rfl, hmem⟩ | ⟨rfl, hmem⟩)
        · obtain ⟨hs, hc⟩ := List.mem_filter.mp hmem
          exact ⟨_, hs, rfl, (hk _ hs).mpr hc⟩
        · obtain ⟨hs, hc⟩ := List.mem_filter.mp hmem
          exact ⟨_, hs, rfl, (hk _ hs).mpr hc⟩
  · change p.nextAction q tk = _ at h
    rw [h1.action q hq] at h
    revert h
    cases (tk.sym.bind fun s => if s ∈ g.terminals ++ [Sym.eof] then actOf tb q s else none) <;> simp
  · change p.nextGoto q x = p'.nextGoto q x
    rw [h1.goto q hq, h2.goto q hq]
    cases x.sym with
    | none => rfl
    | some s =>
      simp only [Option.bind_some]
      by_cases hm : s ∈ g.symbols
      · rw [if_pos hm, if_pos hm, cellGotos_ok (h1.cells q hq s (by simp [hm]))]
      · rw [if_neg hm, if_neg hm]
  · change p.reductions[i]? = p'.reductions[i]?
    rw [h1.reductions, h2.reductions]

/-- what comes after the reductions of a token -/
def gcont (m : GlrMachine) (input : Nat → Tok × T) (rfuel fuel pos : Nat) (events : List (LREvent T)) : Res (LinReduced T) → GlrResult T
  | .error .fuel => .running events pos
  | .error .panic => .panic events pos
  | .ok (.unexpected errors) => .unexpected events pos errors
  | .ok (.ok p reduced) =>
    match linShiftPhase m (input pos).1 (input pos).2 reduced with
    | .error _ => .panic events pos
    | .ok cs => linRun m input rfuel fuel p cs (pos + 1) (linReport events cs)

theorem linRun_live (rfuel fuel pos : Nat) (stk : List StackSym) (ev events : List (LREvent T)) :
    linRun m input rfuel (fuel + 1) false [.live stk ev] pos events = gcont m input rfuel fuel pos events (linReduces m (input pos).1 rfuel false [] [.live stk ev]) := by
  conv_lhs => unfold linRun
  rw [if_neg (by simp [GConf.isRoot])]
  unfold gcont
  rfl

theorem linRun_root (rfuel fuel pos : Nat) (p : Bool) (ev events : List (LREvent T)) :
    linRun m input rfuel (fuel + 1) p [.root ev] pos events = .ok events pos := by
  unfold linRun
  rw [if_pos (by simp [GConf.isRoot])]

/-- a step of both drivers on a stack -/
inductive BothStep (m : GlrMachine) (lm : LRMachine) (input : Nat → Tok × T) (g : Grammar) (gr : LRGraph) (pos q : Nat) (rest : List StackSym) : Prop
  | unexpected (e : List Sym) (e' : List (Option Nat)) : m.nextActions q (input pos).1 = .unexpected e' → SameExpected e e' →
      lrStep lm input (.state q :: rest) pos = .unexpected e → BothStep m lm input g gr pos q rest
  | shift (q' : Nat) : m.nextActions q (input pos).1 = .acts [.shift] → m.nextGoto q (.terminal (input pos).1) = some (.state q') →
      lrStep lm input (.state q :: rest) pos = .next (.state q' :: .terminal (input pos).1 :: .state q :: rest) (pos + 1) (.shift (input pos).1 (input pos).2) →
      (∃ ts : List (PTree T), StackOk g gr (.state q' :: .terminal (input pos).1 :: .state q :: rest) ts) → BothStep m lm input g gr pos q rest
  | reduce (i : Nat) (stk' : List StackSym) : m.nextActions q (input pos).1 = .acts [.reduce i] →
      (∀ ev : List (LREvent T), linReduce m i (.state q :: rest) ev = some (.live stk' (ev ++ [.reduce i]))) →
      lrStep lm input (.state q :: rest) pos = .next stk' pos (.reduce i) → (∃ ts : List (PTree T), StackOk g gr stk' ts) → BothStep m lm input g gr pos q rest
  | accept (i : Nat) : m.nextActions q (input pos).1 = .acts [.reduce i] →
      (∀ ev : List (LREvent T), linReduce m i (.state q :: rest) ev = some (.root (ev ++ [.reduce i]))) →
      lrStep lm input (.state q :: rest) pos = .next [] pos (.reduce i) → BothStep m lm input g gr pos q rest

theorem bothStep (hv : LoopInv g kind gr []) (hm : GFollows g gr m) (hr : MRel gr.sets.length lm m) {q : Nat} {rest : List StackSym} {ts : List (PTree T)}
    (h : StackOk g gr (.state q :: rest) ts) (pos : Nat) : BothStep m lm input g gr pos q rest := by
  obtain ⟨s, hs⟩ := h.range hv.base
  have hq := getElem?_lt hs
  cases ha : lm.nextAction q (input pos).1 with
  | panic => exact absurd ha (hr.noPanic q _ hq)
  | unexpected e =>
    obtain ⟨e', h1, h2⟩ := hr.unexpected q _ e hq ha
    exact .unexpected e e' h1 h2 (lrStep_unexpected ha)
  | act a =>
    have h1 := hr.act q _ a hq ha
    cases a with
    | shift =>
      obtain ⟨a, q', htk, he⟩ := (hm.acts q _ _ hq h1).2.2.1.mp (by simp)
      have hg := hm.shift q a q' he
      rw [← htk] at hg
      refine .shift q' h1 hg ?_ ⟨_, .push (t := .leaf a (input pos).2) h he (by rw [htk]; rfl) (isParseTree_term a _)⟩
      rw [lrStep_shift ha]
      simp only [lrGoto, hr.goto q _ hq, hg]
    | reduce i =>
      have hc := ((hm.acts q _ _ hq h1).2.2.2 i).mp (by simp)
      obtain ⟨r, p, rest', cs, ts', h2, h3, h4, h5, h6, h7, h8, h9, h10⟩ := glr_reduce hv hm h hc
      obtain ⟨s', hs'⟩ := h8.range hv.base
      have hp := getElem?_lt hs'
      have hstep : lrStep lm input (.state q :: rest) pos = lrGoto lm (.nonTerminal r.lhs :: .state p :: rest') pos (.reduce i) := by
        simp only [lrStep, ha, hr.red, h4]
        rw [if_neg (by omega), h6]
      rcases h10 with ⟨_, q', he, hg, hst'⟩ | ⟨hE, _, hg, hre, _⟩
      · refine .reduce i _ h1 (fun ev => ?_) ?_ ⟨_, hst'⟩
        · simp only [linReduce, h4, h6, hg]
        · rw [hstep]; simp only [lrGoto, hr.goto p _ hp, hg]
      · refine .accept i h1 (fun ev => ?_) ?_
        · simp only [linReduce, h4, h6, hg]
        · rw [hstep]; simp only [lrGoto, hr.goto p _ hp, hg, hre]

theorem linReduces_unexpected {tk : Tok} {q : Nat} {rest : List StackSym} {e : List (Option Nat)} (h : m.nextActions q tk = .unexpected e) (rf : Nat) (ev : List (LREvent T)) :
    linReduces m tk (rf + 1) false [] [.live (.state q :: rest) ev] = .ok (.unexpected [e]) := by
  unfold linReduces
  simp [linStack, h, bind, Except.bind, pure, Except.pure]

theorem linReduces_shift {tk : Tok} {q : Nat} {rest : List StackSym} (h : m.nextActions q tk = .acts [.shift]) (rf : Nat) (ev : List (LREvent T)) :
    linReduces m tk (rf + 1) false [] [.live (.state q :: rest) ev] = .ok (.ok false [.live (.state q :: rest) ev]) := by
  unfold linReduces
  simp [linStack, linAction, h, bind, Except.bind, pure, Except.pure, linReduces]

theorem linReduces_live {tk : Tok} {q i : Nat} {rest : List StackSym} {c : GConf T} {ev : List (LREvent T)} (h : m.nextActions q tk = .acts [.reduce i])
    (hl : linReduce m i (.state q :: rest) ev = some c) (hc : c.isRoot = false) (rf : Nat) :
    linReduces m tk (rf + 1) false [] [.live (.state q :: rest) ev] = linReduces m tk rf false [] [c] := by
  conv_lhs => unfold linReduces
  cases c with
  | root _ => simp [GConf.isRoot] at hc
  | live s e => simp [linStack, linAction, h, hl, bind, Except.bind, pure, Except.pure]

theorem linReduces_accept {tk : Tok} {q i : Nat} {rest : List StackSym} {ev ev' : List (LREvent T)} (h : m.nextActions q tk = .acts [.reduce i])
    (hl : linReduce m i (.state q :: rest) ev = some (.root ev')) (rf : Nat) :
    linReduces m tk (rf + 1) false [] [.live (.state q :: rest) ev] = .ok (.ok true [.root ev']) := by
  unfold linReduces
  simp [linStack, linAction, h, hl, bind, Except.bind, pure, Except.pure, linReduces]

/-- all visits, and those reported already: only reductions are missing -/
def Pending (ev events : List (LREvent T)) : Prop := ∃ is : List Nat, ev = events ++ is.map .reduce

theorem Pending.reduce {ev events : List (LREvent T)} (h : Pending ev events) (i : Nat) : Pending (ev ++ [.reduce i]) events := by
  obtain ⟨is, rfl⟩ := h
  exact ⟨is ++ [i], by simp⟩

theorem Pending.same (ev : List (LREvent T)) : Pending ev ev := ⟨[], by simp⟩

theorem gcont_shift {rfuel fuel pos q q' : Nat} {rest : List StackSym} {ev events : List (LREvent T)} (hg : m.nextGoto q (.terminal (input pos).1) = some (.state q')) :
    gcont m input rfuel fuel pos events (.ok (.ok false [.live (.state q :: rest) ev])) =
      linRun m input rfuel fuel false [.live (.state q' :: .terminal (input pos).1 :: .state q :: rest) (ev ++ [.shift (input pos).1 (input pos).2])] (pos + 1)
        (ev ++ [.shift (input pos).1 (input pos).2]) := by
  simp [gcont, linShiftPhase, GConf.isRoot, linShift, hg, pure, Except.pure, bind, Except.bind, linReport, GConf.ev]

theorem gcont_accept {rfuel fuel pos : Nat} {ev events : List (LREvent T)} :
    gcont m input rfuel fuel pos events (.ok (.ok true [.root ev])) = linRun m input rfuel fuel true [.root ev] (pos + 1) ev := by
  simp [gcont, linShiftPhase, GConf.isRoot, linReport, GConf.ev]

/-- results of the two drivers that belong together -/
inductive Agree : LRResult T → GlrResult T → Prop
  | ok {ev : List (LREvent T)} {n : Nat} : Agree (.ok ev n) (.ok ev (n + 1))
  | unexpected {ev events : List (LREvent T)} {n : Nat} {e : List Sym} {e' : List (Option Nat)} : SameExpected e e' → Pending ev events →
      Agree (.unexpected ev n e) (.unexpected events n [e'])

/-- the GLR driver follows the LR driver -/
theorem lr_to_glr (hv : LoopInv g kind gr []) (hm : GFollows g gr m) (hr : MRel gr.sets.length lm m) : ∀ (f : Nat) (stk : List StackSym) (pos : Nat) (ev events : List (LREvent T)),
    (∃ ts : List (PTree T), StackOk g gr stk ts) → Pending ev events → ∀ rf rfuel fuel, f ≤ rf → f ≤ rfuel → f ≤ fuel →
      (∃ e p, lrRun lm input f stk pos ev = .running e p) ∨ Agree (lrRun lm input f stk pos ev) (gcont m input rfuel fuel pos events (linReduces m (input pos).1 rf false [] [.live stk ev])) := by
  intro f
  induction f with
  | zero => intro stk pos ev events _ _ rf rfuel fuel _ _ _; exact .inl ⟨_, _, rfl⟩
  | succ f ih =>
    intro stk pos ev events ⟨ts, hst⟩ hp rf rfuel fuel h1 h2 h3
    obtain ⟨q, rest, rfl⟩ := hst.head
    obtain ⟨rf, rfl⟩ : ∃ k, rf = k + 1 := ⟨rf - 1, by omega⟩
    obtain ⟨fuel, rfl⟩ : ∃ k, fuel = k + 1 := ⟨fuel - 1, by omega⟩
    rcases bothStep (input := input) hv hm hr hst pos with ⟨e, e', ha, he, hl⟩ | ⟨q', ha, hg, hl, hst'⟩ | ⟨i, stk', ha, hred, hl, hst'⟩ | ⟨i, ha, hred, hl⟩
    · right
      rw [linReduces_unexpected ha]
      simp only [lrRun, hl, gcont]
      exact .unexpected he hp
    · rw [linReduces_shift ha, gcont_shift hg, linRun_live]
      simp only [lrRun, hl]
      exact ih _ _ _ _ hst' (.same _) rfuel rfuel fuel (by omega) (by omega) (by omega)
    · rw [linReduces_live ha (hred ev) rfl]
      simp only [lrRun, hl]
      exact ih _ _ _ _ hst' (hp.reduce i) rf rfuel (fuel + 1) (by omega) (by omega) (by omega)
    · rw [linReduces_accept ha (hred ev), gcont_accept, linRun_root]
      simp only [lrRun, hl]
      cases f with
      | zero => exact .inl ⟨_, _, rfl⟩
      | succ f => right; simp only [lrRun, lrStep]; exact .ok

/-- the LR driver follows the GLR driver -/
theorem glr_to_lr (hv : LoopInv g kind gr []) (hm : GFollows g gr m) (hr : MRel gr.sets.length lm m) (rfuel : Nat) : ∀ (fuel rf : Nat) (stk : List StackSym) (pos : Nat) (ev events : List (LREvent T)),
    (∃ ts : List (PTree T), StackOk g gr stk ts) → Pending ev events →
      (∃ e p, gcont m input rfuel fuel pos events (linReduces m (input pos).1 rf false [] [.live stk ev]) = .running e p) ∨
      ∃ f, Agree (lrRun lm input f stk pos ev) (gcont m input rfuel fuel pos events (linReduces m (input pos).1 rf false [] [.live stk ev])) := by
  intro fuel
  induction fuel with
  | zero =>
    intro rf
    induction rf with
    | zero => intro stk pos ev events _ _; left; exact ⟨events, pos, by simp [linReduces, gcont]⟩
    | succ rf ihr =>
      intro stk pos ev events ⟨ts, hst⟩ hp
      obtain ⟨q, rest, rfl⟩ := hst.head
      rcases bothStep (input := input) hv hm hr hst pos with ⟨e, e', ha, he, hl⟩ | ⟨q', ha, hg, hl, hst'⟩ | ⟨i, stk', ha, hred, hl, hst'⟩ | ⟨i, ha, hred, hl⟩
      · right
        rw [linReduces_unexpected ha]
        refine ⟨1, ?_⟩
        simp only [lrRun, hl, gcont]
        exact .unexpected he hp
      · left
        rw [linReduces_shift ha, gcont_shift hg]
        exact ⟨_, _, rfl⟩
      · rw [linReduces_live ha (hred ev) rfl]
        rcases ihr _ pos (ev ++ [.reduce i]) events hst' (hp.reduce i) with h | ⟨f, h⟩
        · exact .inl h
        · right
          refine ⟨f + 1, ?_⟩
          simp only [lrRun, hl]
          exact h
      · left
        rw [linReduces_accept ha (hred ev), gcont_accept]
        exact ⟨_, _, rfl⟩
  | succ fuel ih =>
    intro rf
    induction rf with
    | zero => intro stk pos ev events _ _; left; exact ⟨events, pos, by simp [linReduces, gcont]⟩
    | succ rf ihr =>
      intro stk pos ev events ⟨ts, hst⟩ hp
      obtain ⟨q, rest, rfl⟩ := hst.head
      rcases bothStep (input := input) hv hm hr hst pos with ⟨e, e', ha, he, hl⟩ | ⟨q', ha, hg, hl, hst'⟩ | ⟨i, stk', ha, hred, hl, hst'⟩ | ⟨i, ha, hred, hl⟩
      · right
        rw [linReduces_unexpected ha]
        refine ⟨1, ?_⟩
        simp only [lrRun, hl, gcont]
        exact .unexpected he hp
      · rw [linReduces_shift ha, gcont_shift hg, linRun_live]
        rcases ih rfuel _ (pos + 1) _ _ hst' (.same _) with h | ⟨f, h⟩
        · exact .inl h
        · right
          refine ⟨f + 1, ?_⟩
          simp only [lrRun, hl]
          exact h
      · rw [linReduces_live ha (hred ev) rfl]
        rcases ihr _ pos (ev ++ [.reduce i]) events hst' (hp.reduce i) with h | ⟨f, h⟩
        · exact .inl h
        · right
          refine ⟨f + 1, ?_⟩
          simp only [lrRun, hl]
          exact h
      · right
        rw [linReduces_accept ha (hred ev), gcont_accept, linRun_root]
        refine ⟨2, ?_⟩
        simp only [lrRun, hl]
        simp only [lrStep]
        exact .ok

theorem sameTable_inv (wf : g.WF) (hne : NoEmptyRhs g) {p : LRProg} {p' : GlrProg} (h : SameTable g kind p p') :
    ∃ gr, LoopInv g kind gr [] ∧ GFollows g gr p'.machine ∧ MRel gr.sets.length p.machine p'.machine := by
  obtain ⟨allow, fuel, tb, h, hp, hp'⟩ := h
  have key : ∀ gr, LoopInv g kind gr [] → tb = buildTable g gr → GFollows g gr p'.machine ∧ MRel gr.sets.length p.machine p'.machine := by
    rintro gr h1 rfl
    have hct : (buildTable g gr).stateCount = gr.sets.length := (buildTable_cell (gr := gr) wf).1.count
    exact ⟨glr_follows wf h1.base (genGlr_spec hp'), hct ▸ specs_mrel (genRust_spec hp) (genGlr_spec hp')⟩
  rcases h with h | ⟨cs, h⟩
  · obtain ⟨gr, h1, _, h2⟩ := generateTable_inv wf hne h
    exact ⟨gr, h1, key gr h1 h2⟩
  · obtain ⟨gr, h1, _, _, h2, _⟩ := generateTable_inv wf hne h
    exact ⟨gr, h1, key gr h1 h2⟩

/-- for enough fuel the GLR parser agrees with an LR parser that returns -/
theorem glr_agrees_lr (hv : LoopInv g kind gr []) (hm : GFollows g gr m) (hr : MRel gr.sets.length lm m) (f fuel : Nat) (hf : f < fuel)
    (h : ∀ e p, lrParse lm input f ≠ .running e p) : Agree (lrParse lm input f) (glrParse m input fuel) := by
  obtain ⟨fuel, rfl⟩ : ∃ k, fuel = k + 1 := ⟨fuel - 1, by omega⟩
  rw [glrParse_lin (glr_stackInv (T := Unit) hv hm), linRun_live]
  unfold lrParse at h ⊢
  rw [hr.entry] at h ⊢
  rcases lr_to_glr (input := input) hv hm hr f [.state m.entry] 0 [] [] ⟨[], by rw [hm.entry]; exact .base⟩ (.same _) (fuel + 1) (fuel + 1) fuel (by omega) (by omega) (by omega) with ⟨e, p, h1⟩ | h1
  · exact absurd h1 (h e p)
  · exact h1

/-- the LR parser agrees with a GLR parser that returns -/
theorem lr_agrees_glr (hv : LoopInv g kind gr []) (hm : GFollows g gr m) (hr : MRel gr.sets.length lm m) (fuel : Nat)
    (h : ∀ e p, glrParse m input fuel ≠ .running e p) : ∃ f, Agree (lrParse lm input f) (glrParse m input fuel) := by
  rw [glrParse_lin (glr_stackInv (T := Unit) hv hm)] at h ⊢
  cases fuel with
  | zero => exact absurd rfl (h _ _)
  | succ fuel =>
    rw [linRun_live] at h ⊢
    unfold lrParse
    rw [hr.entry]
    rcases glr_to_lr (input := input) hv hm hr (fuel + 1) fuel (fuel + 1) [.state m.entry] 0 [] [] ⟨[], by rw [hm.entry]; exact .base⟩ (.same _) with ⟨e, p, h1⟩ | h1
    · exact absurd h1 (h e p)
    · exact h1

end Verif
