import Verif.Proofs.LRConflict
import Verif.Proofs.GlrLin

/-! # The `match` arms of the generated GLR parser -/

set_option autoImplicit false

namespace Verif

variable {T : Type} {g : Grammar} {kind : LRKind} {gr : LRGraph}

/-- action of a table entry -/
def entryAct : TableEntry → Option LRAction
  | .shift _ => some .shift
  | .reduce (some i) => some (.reduce i)
  | _ => none

/-- goto of a table entry -/
def entryGoto : TableEntry → Option LRGoto
  | .shift q => some (.state q)
  | .accept => some .accept
  | _ => none

theorem glrActions_ok : ∀ (es : List TableEntry) (l : List LRAction), glrActions es = .ok l → l = es.filterMap entryAct ∧ TableEntry.reduce none ∉ es := by
  intro es
  induction es with
  | nil => intro l h; simp [glrActions] at h; subst h; simp
  | cons e es ih =>
    intro l h
    cases e with
    | shift q =>
      obtain ⟨as, h1, h2⟩ := res_bind_ok.mp h
      simp at h2; subst h2
      obtain ⟨h3, h4⟩ := ih _ h1
      exact ⟨by simp [entryAct, h3], by simpa using h4⟩
    | reduce r =>
      cases r with
      | none => simp [glrActions] at h
      | some i =>
        obtain ⟨as, h1, h2⟩ := res_bind_ok.mp h
        simp at h2; subst h2
        obtain ⟨h3, h4⟩ := ih _ h1
        exact ⟨by simp [entryAct, h3], by simpa using h4⟩
    | error =>
      obtain ⟨h3, h4⟩ := ih _ h
      exact ⟨by rw [h3]; rfl, by simpa using h4⟩
    | accept =>
      obtain ⟨h3, h4⟩ := ih _ h
      exact ⟨by rw [h3]; rfl, by simpa using h4⟩

theorem glrActions_total : ∀ (es : List TableEntry), TableEntry.reduce none ∉ es → ∃ l, glrActions es = .ok l := by
  intro es
  induction es with
  | nil => intro _; exact ⟨[], rfl⟩
  | cons e es ih =>
    intro h
    obtain ⟨l, hl⟩ := ih (fun h' => h (List.mem_cons_of_mem _ h'))
    cases e with
    | shift q => exact ⟨_, res_bind_ok.mpr ⟨l, hl, rfl⟩⟩
    | reduce r =>
      cases r with
      | none => simp at h
      | some i => exact ⟨_, res_bind_ok.mpr ⟨l, hl, rfl⟩⟩
    | error => exact ⟨l, hl⟩
    | accept => exact ⟨l, hl⟩

/-- one entry of `glrExpected` -/
def expStep (y : Option (Option Nat)) (exp : List (Option Nat)) (e : TableEntry) : List (Option Nat) :=
  match e, y with
  | .shift _, some x => sinsert x exp
  | .reduce _, some x => sinsert x exp
  | _, _ => exp

theorem glrExpected_eq (s : Sym) (es : List TableEntry) (exp : List (Option Nat)) : glrExpected s es exp = es.foldl (expStep (expectedOf s)) exp := rfl

theorem glrExpected_mem (s : Sym) : ∀ (es : List TableEntry) (exp : List (Option Nat)), TableEntry.reduce none ∉ es → SSorted exp →
    SSorted (glrExpected s es exp) ∧ ∀ x, x ∈ glrExpected s es exp ↔ x ∈ exp ∨ (expectedOf s = some x ∧ es.filterMap entryAct ≠ []) := by
  intro es
  simp only [glrExpected_eq]
  induction es with
  | nil => intro exp _ hs; simpa using hs
  | cons e es ih =>
    intro exp hn hs
    have hn' : TableEntry.reduce none ∉ es := fun h => hn (List.mem_cons_of_mem _ h)
    rw [List.foldl_cons]
    cases hx : expectedOf s with
    | none =>
      have : expStep none exp e = exp := by cases e <;> rfl
      rw [this]
      rw [hx] at ih
      obtain ⟨h1, h2⟩ := ih exp hn' hs
      refine ⟨h1, fun x => ?_⟩
      rw [h2]
      simp
    | some y =>
      rw [hx] at ih
      cases ha : entryAct e with
      | some a =>
        have key : expStep (some y) exp e = sinsert y exp := by
          cases e with
          | shift q => rfl
          | reduce r => rfl
          | error => simp [entryAct] at ha
          | accept => simp [entryAct] at ha
        rw [key]
        obtain ⟨h1, h2⟩ := ih _ hn' (sinsert_sorted hs)
        refine ⟨h1, fun x => ?_⟩
        rw [h2, mem_sinsert, List.filterMap_cons, ha]
        simp only [ne_eq, reduceCtorEq, not_false_eq_true, and_true, Option.some.injEq]
        constructor
        · rintro ((rfl | h) | ⟨h, _⟩)
          · exact .inr rfl
          · exact .inl h
          · exact .inr h
        · rintro (h | rfl)
          · exact .inl (.inr h)
          · exact .inl (.inl rfl)
      | none =>
        have : expStep (some y) exp e = exp := by
          cases e with
          | shift q => simp [entryAct] at ha
          | reduce r =>
            cases r with
            | none => simp at hn
            | some i => simp [entryAct] at ha
          | error => rfl
          | accept => rfl
        rw [this]
        obtain ⟨h1, h2⟩ := ih exp hn' hs
        refine ⟨h1, fun x => ?_⟩
        rw [h2, List.filterMap_cons, ha]

/-- actions of a cell -/
def cellActs (tb : LRTable) (q : Nat) (s : Sym) : List LRAction := (tb.cell q s).filterMap entryAct

/-- actions of a cell, if any -/
def cellActs? (tb : LRTable) (q : Nat) (s : Sym) : Option (List LRAction) := if cellActs tb q s = [] then none else some (cellActs tb q s)

theorem glrActionArms_ok {tb : LRTable} {q : Nat} : ∀ (ss : List Sym) (acc r : List (Sym × List LRAction) × List (Option Nat)), glrActionArms tb q ss acc = .ok r → SSorted acc.2 →
    (∀ s ∈ ss, TableEntry.reduce none ∉ tb.cell q s) ∧ r.1 = acc.1 ++ ss.filterMap (fun s => (cellActs? tb q s).map (fun a => (s, a))) ∧ SSorted r.2 ∧
      ∀ x, x ∈ r.2 ↔ x ∈ acc.2 ∨ ∃ s ∈ ss, expectedOf s = some x ∧ cellActs tb q s ≠ [] := by
  intro ss
  induction ss with
  | nil => intro acc r h hs; simp [glrActionArms] at h; subst h; simpa using hs
  | cons s ss ih =>
    intro acc r h hs
    unfold glrActionArms at h
    cases hg : tb.get q s with
    | none =>
      simp only [hg] at h
      obtain ⟨h1, h2, h3, h4⟩ := ih _ _ h hs
      have hc : tb.cell q s = [] := by simp [LRTable.cell, hg]
      refine ⟨List.forall_mem_cons.mpr ⟨by simp [hc], h1⟩, ?_, h3, fun x => ?_⟩
      · rw [h2]; simp [cellActs?, cellActs, hc]
      · rw [h4]; simp [cellActs, hc]
    | some es =>
      simp only [hg] at h
      obtain ⟨l, h5, h6⟩ := res_bind_ok.mp h
      obtain ⟨h7, h8⟩ := glrActions_ok _ _ h5
      have hc : tb.cell q s = es := by simp [LRTable.cell, hg]
      obtain ⟨e1, e2⟩ := glrExpected_mem s es acc.2 h8 hs
      obtain ⟨h1, h2, h3, h4⟩ := ih _ _ h6 e1
      refine ⟨List.forall_mem_cons.mpr ⟨by rw [hc]; exact h8, h1⟩, ?_, h3, fun x => ?_⟩
      · rw [h2, List.filterMap_cons]
        simp only [cellActs?, cellActs, hc, ← h7]
        by_cases hl : l = []
        · simp [hl]
        · simp [hl]
      · rw [h4]
        simp only
        rw [e2]
        simp only [List.mem_cons, exists_eq_or_imp, cellActs, hc]
        tauto

theorem glrActionArms_total {tb : LRTable} {q : Nat} : ∀ (ss : List Sym) (acc : List (Sym × List LRAction) × List (Option Nat)),
    (∀ s ∈ ss, TableEntry.reduce none ∉ tb.cell q s) → ∃ r, glrActionArms tb q ss acc = .ok r := by
  intro ss
  induction ss with
  | nil => intro acc _; exact ⟨acc, rfl⟩
  | cons s ss ih =>
    intro acc h
    obtain ⟨hc, hss⟩ := List.forall_mem_cons.mp h
    unfold glrActionArms
    cases hg : tb.get q s with
    | none => exact ih _ hss
    | some es =>
      simp only
      have : tb.cell q s = es := by simp [LRTable.cell, hg]
      rw [this] at hc
      obtain ⟨l, hl⟩ := glrActions_total es hc
      obtain ⟨r, hr⟩ := ih (if l = [] then acc.1 else acc.1 ++ [(s, l)], glrExpected s es acc.2) hss
      exact ⟨r, res_bind_ok.mpr ⟨l, hl, hr⟩⟩

theorem glrGotoArm_fold (s : Sym) (hs : s ≠ .eof) : ∀ (es : List TableEntry) (arms : List (Sym × LRGoto)),
    es.foldl (glrGotoArm s) arms = arms ++ (es.filterMap entryGoto).map (fun a => (s, a)) := by
  intro es
  induction es with
  | nil => intro arms; simp
  | cons e es ih =>
    intro arms
    rw [List.foldl_cons, ih]
    unfold glrGotoArm
    rw [if_neg hs]
    cases e <;> simp [entryGoto, List.filterMap_cons]

theorem glrGotoArm_eof : ∀ (es : List TableEntry) (arms : List (Sym × LRGoto)), es.foldl (glrGotoArm .eof) arms = arms := by
  intro es
  induction es with
  | nil => intro arms; rfl
  | cons e es ih => intro arms; rw [List.foldl_cons, ih]; simp [glrGotoArm]

/-- gotos of a cell -/
def cellGotos (tb : LRTable) (q : Nat) (s : Sym) : List LRGoto := (tb.cell q s).filterMap entryGoto

theorem glrGotoArms_eq (tb : LRTable) (q : Nat) (ss : List Sym) :
    glrGotoArms tb q ss = ss.flatMap (fun s => (if s = .eof then [] else cellGotos tb q s).map (fun a => (s, a))) := by
  have gen : ∀ (ss : List Sym) (arms : List (Sym × LRGoto)), ss.foldl (fun arms s => ((tb.get q s).getD []).foldl (glrGotoArm s) arms) arms =
      arms ++ ss.flatMap (fun s => (if s = .eof then [] else cellGotos tb q s).map (fun a => (s, a))) := by
    intro ss
    induction ss with
    | nil => intro arms; simp
    | cons s ss ih =>
      intro arms
      rw [List.foldl_cons, ih]
      by_cases hs : s = .eof
      · subst hs; rw [glrGotoArm_eof]; simp
      · rw [glrGotoArm_fold s hs]; simp [hs, cellGotos, LRTable.cell]
  unfold glrGotoArms
  rw [gen]
  simp

theorem armLookup_map_self {γ : Type} (s : Sym) (l : List γ) (rest : List (Sym × γ)) :
    armLookup s (l.map (fun a => (s, a)) ++ rest) = match l.head? with | some a => some a | none => armLookup s rest := by
  cases l with
  | nil => rfl
  | cons a l => simp [armLookup]

theorem armLookup_map_ne {γ : Type} {s s' : Sym} (h : s' ≠ s) (l : List γ) (rest : List (Sym × γ)) :
    armLookup s (l.map (fun a => (s', a)) ++ rest) = armLookup s rest := by
  induction l with
  | nil => rfl
  | cons a l ih => simp only [List.map_cons, List.cons_append, armLookup, if_neg h, ih]

theorem armLookup_flatMap {γ : Type} (f : Sym → List γ) (s : Sym) : ∀ (ss : List Sym),
    armLookup s (ss.flatMap (fun s => (f s).map (fun a => (s, a)))) = if s ∈ ss then (f s).head? else none := by
  intro ss
  induction ss with
  | nil => simp [armLookup]
  | cons x ss ih =>
    rw [List.flatMap_cons]
    by_cases hs : x = s
    · subst hs
      rw [armLookup_map_self, ih]
      cases hf : (f x).head? with
      | some a => simp
      | none => simp
    · rw [armLookup_map_ne hs, ih]; simp [Ne.symm hs]

/-- what a generated GLR parser does -/
structure GlrSpec (g : Grammar) (tb : LRTable) (p : GlrProg) : Prop where
  entry : p.entry = tb.entryState
  action : ∀ q, q < tb.stateCount → ∃ exp, SSorted exp ∧ (∀ x, x ∈ exp ↔ ∃ s ∈ g.terminals ++ [Sym.eof], expectedOf s = some x ∧ cellActs tb q s ≠ []) ∧
    ∀ tk : Tok, p.nextActions q tk =
      match tk.sym.bind (fun s => if s ∈ g.terminals ++ [Sym.eof] then cellActs? tb q s else none) with
      | some a => .acts a
      | none => .unexpected exp
  goto : ∀ q, q < tb.stateCount → ∀ x : StackSym, p.nextGoto q x =
    x.sym.bind (fun s => if s ∈ g.symbols then (cellGotos tb q s).head? else none)
  reductions : p.reductions = g.rules.map (fun r => ((strip r.rhs).length, r.lhs))

theorem genGlr_spec {tb : LRTable} {p : GlrProg} (h : genGlr g tb = .ok p) : GlrSpec g tb p := by
  unfold genGlr at h
  obtain ⟨acts, ha, h⟩ := res_bind_ok.mp h
  simp only [Except.ok.injEq] at h
  subst h
  obtain ⟨la, ga⟩ := mapM_ok _ _ ha
  have hget : ∀ q, q < tb.stateCount → (List.range tb.stateCount)[q]? = some q := fun q hq => by simp [hq]
  refine ⟨rfl, fun q hq => ?_, fun q hq x => ?_, rfl⟩
  · obtain ⟨⟨arms, exp⟩, h1, h2⟩ := ga q q (hget q hq)
    obtain ⟨_, h3, h4, h5⟩ := glrActionArms_ok _ _ _ h2 List.Pairwise.nil
    simp only [List.nil_append, List.not_mem_nil, false_or] at h3 h4 h5
    refine ⟨exp, h4, h5, fun tk => ?_⟩
    unfold GlrProg.nextActions
    simp only [h1, h3, armLookup_filterMap]
    split <;> rename_i he <;> simp only [he]
  · unfold GlrProg.nextGoto
    simp only [List.getElem?_map, hget q hq, Option.map_some, glrGotoArms_eq, armLookup_flatMap (fun s => if s = Sym.eof then [] else cellGotos tb q s)]
    have hx : ∀ s, x.sym = some s → s ≠ .eof := by
      intro s
      unfold StackSym.sym
      split <;> intro hs <;> simp at hs <;> subst hs <;> simp
    cases hsym : x.sym with
    | none => rfl
    | some s =>
      have := hx s hsym
      simp only [Option.bind_some, this, if_false]
      have : (s ∈ g.terminals ++ [Sym.eof] ++ g.nonTerminals) ↔ s ∈ g.symbols := by
        simp only [Grammar.symbols, List.mem_append, List.mem_singleton]
        tauto
      simp only [this]

theorem genGlr_total {tb : LRTable} (h : ∀ q, q < tb.stateCount → ∀ s ∈ g.terminals ++ [Sym.eof], TableEntry.reduce none ∉ tb.cell q s) : ∃ p, genGlr g tb = .ok p := by
  obtain ⟨a, ha⟩ := mapM_total (f := fun q => glrActionArms tb q (g.terminals ++ [Sym.eof]) ([], [])) (List.range tb.stateCount) (fun q hq =>
    glrActionArms_total _ _ (fun s hs => h q (by simpa using hq) s hs))
  exact ⟨_, res_bind_ok.mpr ⟨a, ha, rfl⟩⟩

end Verif
