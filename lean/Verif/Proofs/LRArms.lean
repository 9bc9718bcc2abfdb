import Verif.Proofs.LRTable

/-! # The `match` arms generated from a table -/

set_option autoImplicit false

namespace Verif

variable {α β : Type}

theorem mapM_ok {f : α → Res β} : ∀ (xs : List α) (ys : List β), xs.mapM f = .ok ys →
    ys.length = xs.length ∧ ∀ (i : Nat) (x : α), xs[i]? = some x → ∃ y, ys[i]? = some y ∧ f x = .ok y := by
  intro xs
  induction xs with
  | nil => intro ys h; simp [pure, Except.pure] at h; subst h; simp
  | cons x xs ih =>
    intro ys h
    rw [List.mapM_cons] at h
    obtain ⟨y, h1, h2⟩ := res_bind_ok.mp h
    obtain ⟨zs, h3, h4⟩ := res_bind_ok.mp h2
    obtain ⟨h5, h6⟩ := ih zs h3
    simp [pure, Except.pure] at h4
    subst h4
    refine ⟨by simp [h5], fun i x' hx => ?_⟩
    cases i with
    | zero => simp at hx; subst hx; exact ⟨y, by simp, h1⟩
    | succ i => simpa using h6 i x' (by simpa using hx)

theorem mapM_total {f : α → Res β} : ∀ (xs : List α), (∀ x ∈ xs, ∃ y, f x = .ok y) → ∃ ys, xs.mapM f = .ok ys := by
  intro xs
  induction xs with
  | nil => intro _; exact ⟨[], rfl⟩
  | cons x xs ih =>
    intro h
    obtain ⟨y, hy⟩ := h x List.mem_cons_self
    obtain ⟨ys, hys⟩ := ih (fun z hz => h z (List.mem_cons_of_mem _ hz))
    exact ⟨y :: ys, by rw [List.mapM_cons]; exact res_bind_ok.mpr ⟨_, hy, res_bind_ok.mpr ⟨_, hys, rfl⟩⟩⟩

/-- action of a cell with one entry -/
def actOf (tb : LRTable) (q : Nat) (s : Sym) : Option LRAction :=
  match tb.get q s with
  | some [.shift _] => some .shift
  | some [.reduce (some i)] => some (.reduce i)
  | _ => none

/-- goto of a cell with one entry -/
def gotoOf (tb : LRTable) (q : Nat) (s : Sym) : Option LRGoto :=
  match tb.get q s with
  | some [.shift q'] => some (.state q')
  | some [.accept] => some .accept
  | _ => none

/-- a cell the code generator accepts -/
def CellOk (tb : LRTable) (q : Nat) (s : Sym) : Prop := tb.get q s = none ∨ ∃ e, tb.get q s = some [e]

theorem actionArms_ok {tb : LRTable} {q : Nat} : ∀ (ss : List Sym) (acc r : List (Sym × LRAction) × List Sym), actionArms tb q ss acc = .ok r →
    (∀ s ∈ ss, CellOk tb q s ∧ tb.get q s ≠ some [.reduce none]) ∧
    r.1 = acc.1 ++ ss.filterMap (fun s => (actOf tb q s).map (fun a => (s, a))) ∧ r.2 = acc.2 ++ ss.filter (fun s => (actOf tb q s).isSome) := by
  intro ss
  induction ss with
  | nil => intro acc r h; simp [actionArms] at h; subst h; simp
  | cons s ss ih =>
    intro acc r h
    unfold actionArms at h
    split at h
    · rename_i hg
      obtain ⟨h1, h2, h3⟩ := ih _ _ h
      have ha : actOf tb q s = none := by simp [actOf, hg]
      refine ⟨List.forall_mem_cons.mpr ⟨⟨.inl hg, by rw [hg]; simp⟩, h1⟩, ?_, ?_⟩
      · rw [h2, List.filterMap_cons, ha]; rfl
      · rw [h3, List.filter_cons, ha]; rfl
    · rename_i q' hg
      obtain ⟨h1, h2, h3⟩ := ih _ _ h
      have ha : actOf tb q s = some .shift := by simp [actOf, hg]
      refine ⟨List.forall_mem_cons.mpr ⟨⟨.inr ⟨_, hg⟩, by rw [hg]; simp⟩, h1⟩, ?_, ?_⟩
      · rw [h2, List.filterMap_cons, ha]; simp
      · rw [h3, List.filter_cons, ha]; simp
    · rename_i i hg
      obtain ⟨h1, h2, h3⟩ := ih _ _ h
      have ha : actOf tb q s = some (.reduce i) := by simp [actOf, hg]
      refine ⟨List.forall_mem_cons.mpr ⟨⟨.inr ⟨_, hg⟩, by rw [hg]; simp⟩, h1⟩, ?_, ?_⟩
      · rw [h2, List.filterMap_cons, ha]; simp
      · rw [h3, List.filter_cons, ha]; simp
    · simp at h
    · rename_i e n1 n2 n3 hg
      obtain ⟨h1, h2, h3⟩ := ih _ _ h
      have ha : actOf tb q s = none := by
        unfold actOf
        rw [hg]
        split
        · rename_i heq; simp at heq; exact absurd heq (n1 _)
        · rename_i heq; simp at heq; exact absurd heq (n2 _)
        · rfl
      refine ⟨List.forall_mem_cons.mpr ⟨⟨.inr ⟨_, hg⟩, by rw [hg]; simpa using n3⟩, h1⟩, ?_, ?_⟩
      · rw [h2, List.filterMap_cons, ha]; rfl
      · rw [h3, List.filter_cons, ha]; rfl
    · simp at h

theorem actionArms_total {tb : LRTable} {q : Nat} : ∀ (ss : List Sym) (acc : List (Sym × LRAction) × List Sym),
    (∀ s ∈ ss, CellOk tb q s ∧ tb.get q s ≠ some [.reduce none]) → ∃ r, actionArms tb q ss acc = .ok r := by
  intro ss
  induction ss with
  | nil => intro acc _; exact ⟨acc, rfl⟩
  | cons s ss ih =>
    intro acc h
    obtain ⟨⟨hc, hr⟩, hss⟩ := List.forall_mem_cons.mp h
    unfold actionArms
    split
    · exact ih _ hss
    · exact ih _ hss
    · exact ih _ hss
    · rename_i hg; exact absurd hg hr
    · exact ih _ hss
    · rename_i c _ _ _ hn hg
      rcases hc with hc | ⟨e, hc⟩
      · simp [hc] at hg
      · rw [hc] at hg
        simp at hg
        exact absurd hg.symm (hn e)

theorem gotoArms_ok {tb : LRTable} {q : Nat} : ∀ (ss : List Sym) (acc r : List (Sym × LRGoto)), gotoArms tb q ss acc = .ok r →
    (∀ s ∈ ss, CellOk tb q s) ∧
    r = acc ++ ss.filterMap (fun s => if s = .eof then none else (gotoOf tb q s).map (fun a => (s, a))) := by
  intro ss
  induction ss with
  | nil => intro acc r h; simp [gotoArms] at h; subst h; simp
  | cons s ss ih =>
    intro acc r h
    unfold gotoArms at h
    split at h
    · rename_i hg
      obtain ⟨h1, h2⟩ := ih _ _ h
      have ha : gotoOf tb q s = none := by simp [gotoOf, hg]
      exact ⟨List.forall_mem_cons.mpr ⟨.inl hg, h1⟩, by rw [h2, List.filterMap_cons, ha]; simp⟩
    · rename_i q' hg
      obtain ⟨h1, h2⟩ := ih _ _ h
      have ha : gotoOf tb q s = some (.state q') := by simp [gotoOf, hg]
      exact ⟨List.forall_mem_cons.mpr ⟨.inr ⟨_, hg⟩, h1⟩, by rw [h2, List.filterMap_cons, ha]; by_cases hs : s = .eof <;> simp [hs]⟩
    · rename_i hg
      obtain ⟨h1, h2⟩ := ih _ _ h
      have ha : gotoOf tb q s = some .accept := by simp [gotoOf, hg]
      exact ⟨List.forall_mem_cons.mpr ⟨.inr ⟨_, hg⟩, h1⟩, by rw [h2, List.filterMap_cons, ha]; by_cases hs : s = .eof <;> simp [hs]⟩
    · rename_i e n1 n2 hg
      obtain ⟨h1, h2⟩ := ih _ _ h
      have ha : gotoOf tb q s = none := by
        unfold gotoOf
        rw [hg]
        split
        · rename_i heq; simp at heq; exact absurd heq (n1 _)
        · rename_i heq; simp at heq; exact absurd heq n2
        · rfl
      exact ⟨List.forall_mem_cons.mpr ⟨.inr ⟨_, hg⟩, h1⟩, by rw [h2, List.filterMap_cons, ha]; simp⟩
    · simp at h

theorem gotoArms_total {tb : LRTable} {q : Nat} : ∀ (ss : List Sym) (acc : List (Sym × LRGoto)),
    (∀ s ∈ ss, CellOk tb q s) → ∃ r, gotoArms tb q ss acc = .ok r := by
  intro ss
  induction ss with
  | nil => intro acc _; exact ⟨acc, rfl⟩
  | cons s ss ih =>
    intro acc h
    obtain ⟨hc, hss⟩ := List.forall_mem_cons.mp h
    unfold gotoArms
    split
    · exact ih _ hss
    · exact ih _ hss
    · exact ih _ hss
    · exact ih _ hss
    · rename_i c _ _ hn hg
      rcases hc with hc | ⟨e, hc⟩
      · simp [hc] at hg
      · rw [hc] at hg
        simp at hg
        exact absurd hg.symm (hn e)

theorem armLookup_filterMap {γ : Type} (f : Sym → Option γ) (s : Sym) : ∀ (ss : List Sym),
    armLookup s (ss.filterMap (fun s => (f s).map (fun a => (s, a)))) = if s ∈ ss then f s else none := by
  intro ss
  induction ss with
  | nil => simp [armLookup]
  | cons x ss ih =>
    rw [List.filterMap_cons]
    cases hf : f x with
    | none =>
      simp only [Option.map_none]
      rw [ih]
      by_cases hs : s = x
      · subst hs; simp [hf]
      · simp [hs]
    | some a =>
      simp only [Option.map_some, armLookup]
      by_cases hs : x = s
      · subst hs; simp [hf]
      · rw [if_neg hs, ih]; simp [Ne.symm hs]

/-- what a generated program does -/
structure ProgSpec (g : Grammar) (tb : LRTable) (p : LRProg) : Prop where
  entry : p.entry = tb.entryState
  cells : ∀ q, q < tb.stateCount → ∀ s ∈ g.symbols ++ [Sym.eof], CellOk tb q s
  action : ∀ q, q < tb.stateCount → ∀ tk : Tok, p.nextAction q tk =
    match tk.sym.bind (fun s => if s ∈ g.terminals ++ [Sym.eof] then actOf tb q s else none) with
    | some a => .act a
    | none => .unexpected ((g.terminals ++ [Sym.eof]).filter (fun s => (actOf tb q s).isSome))
  goto : ∀ q, q < tb.stateCount → ∀ x : StackSym, p.nextGoto q x =
    x.sym.bind (fun s => if s ∈ g.symbols then gotoOf tb q s else none)
  reductions : p.reductions = g.rules.map (fun r => ((strip r.rhs).length, r.lhs))

theorem genRust_spec {g : Grammar} {tb : LRTable} {p : LRProg} (h : genRust g tb = .ok p) : ProgSpec g tb p := by
  unfold genRust at h
  obtain ⟨acts, ha, h⟩ := res_bind_ok.mp h
  obtain ⟨gts, hg, h⟩ := res_bind_ok.mp h
  simp only [Except.ok.injEq] at h
  subst h
  obtain ⟨la, ga⟩ := mapM_ok _ _ ha
  obtain ⟨lg, gg⟩ := mapM_ok _ _ hg
  have hget : ∀ q, q < tb.stateCount → (List.range tb.stateCount)[q]? = some q := fun q hq => by simp [hq]
  refine ⟨rfl, fun q hq s hs => ?_, fun q hq tk => ?_, fun q hq x => ?_, rfl⟩
  · obtain ⟨y, h1, h2⟩ := gg q q (hget q hq)
    obtain ⟨h3, _⟩ := gotoArms_ok _ _ _ h2
    refine h3 s ?_
    simp only [Grammar.symbols, List.mem_append] at hs ⊢
    tauto
  · obtain ⟨⟨arms, exp⟩, h1, h2⟩ := ga q q (hget q hq)
    obtain ⟨_, h3, h4⟩ := actionArms_ok _ _ _ h2
    simp only [List.nil_append] at h3 h4
    unfold LRProg.nextAction
    simp only [h1, h3, h4, armLookup_filterMap]
    split <;> rename_i he <;> simp only [he]
  · obtain ⟨arms, h1, h2⟩ := gg q q (hget q hq)
    obtain ⟨_, h3⟩ := gotoArms_ok _ _ _ h2
    simp only [List.nil_append] at h3
    unfold LRProg.nextGoto
    simp only [h1, h3]
    have e : ∀ s : Sym, (if s = Sym.eof then none else (gotoOf tb q s).map (fun a => (s, a))) = ((if s = Sym.eof then none else gotoOf tb q s).map (fun a => (s, a))) := by
      intro s; split <;> rfl
    simp only [e, armLookup_filterMap (fun s => if s = Sym.eof then none else gotoOf tb q s)]
    have hx : ∀ s, x.sym = some s → s ≠ .eof := by
      intro s
      unfold StackSym.sym
      split <;> intro hs <;> simp at hs <;> subst hs <;> simp
    cases hsym : x.sym with
    | none => rfl
    | some s =>
      have := hx s hsym
      simp only [Option.bind_some, this, if_false]
      have : (s ∈ g.terminals ++ [Sym.eof] ++ g.nonTerminals) ↔ s ∈ g.symbols := by
        simp only [Grammar.symbols, List.mem_append, List.mem_singleton]
        tauto
      simp only [this]

theorem genRust_total {g : Grammar} {tb : LRTable} (h : ∀ q, q < tb.stateCount → ∀ s ∈ g.symbols ++ [Sym.eof], CellOk tb q s ∧ tb.get q s ≠ some [.reduce none]) :
    ∃ p, genRust g tb = .ok p := by
  obtain ⟨a, ha⟩ := mapM_total (f := fun q => actionArms tb q (g.terminals ++ [Sym.eof]) ([], [])) (List.range tb.stateCount) (fun q hq => by
    refine actionArms_total _ _ (fun s hs => h q (by simpa using hq) s ?_)
    simp only [Grammar.symbols, List.mem_append] at hs ⊢
    tauto)
  obtain ⟨b, hb⟩ := mapM_total (f := fun q => gotoArms tb q (g.terminals ++ [Sym.eof] ++ g.nonTerminals) []) (List.range tb.stateCount) (fun q hq => by
    refine gotoArms_total _ _ (fun s hs => (h q (by simpa using hq) s ?_).1)
    simp only [Grammar.symbols, List.mem_append] at hs ⊢
    tauto)
  exact ⟨_, res_bind_ok.mpr ⟨a, ha, res_bind_ok.mpr ⟨b, hb, rfl⟩⟩⟩

end Verif
