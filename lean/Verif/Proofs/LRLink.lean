import Verif.Proofs.LRConflict

/-! # From `generateTable` to the graph's invariants -/

set_option autoImplicit false

namespace Verif

variable {T : Type} {g : Grammar} {kind : LRKind} {gr : LRGraph}

theorem firstSetsLoop_mono : ∀ (f1 f2 : Nat) (fs out : SymSets), firstSetsLoop g f1 fs = .ok out → f1 ≤ f2 → firstSetsLoop g f2 fs = .ok out := by
  intro f1
  induction f1 with
  | zero => intro f2 fs out h; simp [firstSetsLoop] at h
  | succ f1 ih =>
    intro f2 fs out h hle
    obtain ⟨k, rfl⟩ : ∃ k, f2 = k + 1 := ⟨f2 - 1, by omega⟩
    unfold firstSetsLoop at h ⊢
    obtain ⟨⟨fs', any⟩, h1, h2⟩ := res_bind_ok.mp h
    refine res_bind_ok.mpr ⟨(fs', any), h1, ?_⟩
    simp only at h2 ⊢
    split at h2
    · rename_i ha; rw [if_pos ha]; exact ih k fs' out h2 (by omega)
    · rename_i ha; rw [if_neg ha]; exact h2

theorem computeFirstSets_exact (wf : g.WF) (hne : NoEmptyRhs g) {fuel : Nat} {fs : SymSets} (h : computeFirstSets g fuel = .ok fs) : FirstExact g fs := by
  obtain ⟨fs', h1, h2⟩ := computeFirstSets_spec wf hne
  have h3 := firstSetsLoop_mono fuel (fuel + g.nonTerminals.length * (g.terminals.length + 2) + 1) _ _ h (by omega)
  have h4 := h2 (fuel + g.nonTerminals.length * (g.terminals.length + 2) + 1) (by omega)
  unfold computeFirstSets at h4
  rw [h3] at h4
  simp at h4
  exact h4 ▸ h1

/-- what the answer says about the graph -/
def AnswerFor (g : Grammar) (gr : LRGraph) (allow : Bool) : GenResult → Prop
  | .noConflicts tb => findConflicts g gr = [] ∧ tb = buildTable g gr
  | .allowedConflicts tb cs => allow = true ∧ findConflicts g gr ≠ [] ∧ tb = buildTable g gr ∧ cs = findConflicts g gr
  | .badConflicts cs => allow = false ∧ findConflicts g gr ≠ [] ∧ cs = findConflicts g gr

theorem generateTable_inv (wf : g.WF) (hne : NoEmptyRhs g) {allow : Bool} {fuel : Nat} {r : GenResult} (h : generateTable g allow kind fuel = .ok r) :
    ∃ gr, LoopInv g kind gr [] ∧ AnswerFor g gr allow r := by
  unfold generateTable at h
  obtain ⟨fs, h1, h⟩ := res_bind_ok.mp h
  obtain ⟨gr, h2, h⟩ := res_bind_ok.mp h
  have hfs : FsOk g kind fs := by
    intro hk
    rw [lrFirstSets, if_pos hk] at h1
    exact computeFirstSets_exact wf hne h1
  refine ⟨gr, (generateGraph_spec wf hfs fuel fuel).ok h2, ?_⟩
  simp only at h
  split at h
  · rename_i hc
    simp at h; subst h
    simp at hc
    exact ⟨hc.1, hc.2, rfl⟩
  · rename_i hc
    split at h
    · rename_i hc'
      simp at h; subst h
      exact ⟨by simpa using hc', rfl⟩
    · rename_i hc'
      simp at h; subst h
      refine ⟨?_, by simpa using hc', rfl, rfl⟩
      simp at hc hc'
      cases allow
      · exact absurd (hc rfl) hc'
      · rfl

theorem parser_inv (wf : g.WF) (hne : NoEmptyRhs g) {p : LRProg} (h : LRParserFor g kind p) :
    ∃ gr, LoopInv g kind gr [] ∧ ProgSpec g (buildTable g gr) p := by
  obtain ⟨allow, fuel, tb, h, hp⟩ := h
  rcases h with h | ⟨cs, h⟩
  · obtain ⟨gr, h1, _, rfl⟩ := generateTable_inv wf hne h
    exact ⟨gr, h1, genRust_spec hp⟩
  · obtain ⟨gr, h1, _, _, rfl, _⟩ := generateTable_inv wf hne h
    exact ⟨gr, h1, genRust_spec hp⟩

/-- a bound for all loops -/
def lrFuel (g : Grammar) (kind : LRKind) : Nat :=
  g.nonTerminals.length * (g.terminals.length + 2) + 1 + closureFuel g kind + graphFuel g kind

theorem generateTable_mono {allow : Bool} {f1 f2 : Nat} {r : GenResult} (h : generateTable g allow kind f1 = .ok r) (hle : f1 ≤ f2) :
    generateTable g allow kind f2 = .ok r := by
  unfold generateTable at h ⊢
  obtain ⟨fs, h1, h⟩ := res_bind_ok.mp h
  obtain ⟨gr, h2, h⟩ := res_bind_ok.mp h
  refine res_bind_ok.mpr ⟨fs, ?_, res_bind_ok.mpr ⟨gr, generateGraph_mono h2 hle hle, h⟩⟩
  unfold lrFirstSets at h1 ⊢
  split at h1
  · rename_i hk; rw [if_pos hk]; exact firstSetsLoop_mono _ _ _ _ h1 hle
  · rename_i hk; rw [if_neg hk]; exact h1

theorem generateTable_out (wf : g.WF) (hne : NoEmptyRhs g) (allow : Bool) {fuel : Nat} (hf : lrFuel g kind ≤ fuel) :
    Out True (SafeFor g kind) (fun _ => True) (generateTable g allow kind fuel) := by
  unfold generateTable
  have hfirst : ∃ fs, lrFirstSets g kind fuel = .ok fs ∧ FsOk g kind fs := by
    obtain ⟨fs', h1, h2⟩ := computeFirstSets_spec wf hne
    by_cases hk : kind.hasLa = true
    · exact ⟨fs', by rw [lrFirstSets, if_pos hk]; exact h2 fuel (by unfold lrFuel at hf; omega), fun _ => h1⟩
    · exact ⟨[], by rw [lrFirstSets, if_neg hk], fun h => absurd h hk⟩
  obtain ⟨fs, h1, h2⟩ := hfirst
  rw [res_bind_eq h1]
  refine ((generateGraph_spec wf h2 fuel fuel).weaken (fun _ => ?_) id).bind (fun gr _ => ?_)
  · unfold lrFuel at hf
    exact ⟨by omega, by omega⟩
  · simp only
    split
    · trivial
    · split <;> trivial

/-- in a conflict-free LR(0) graph a completed item of the entry state belongs to an entry rule without symbols -/
theorem acceptClear_lr0 (hv : LoopInv g .lr0 gr []) (hn : NoConf g gr) (he : ∀ r ∈ g.rules, g.entry = .nt r.lhs → strip r.rhs ≠ []) : AcceptClear g gr := by
  intro s hs it hit ha _
  have hla : it.la = none := by simpa [LaOk, LRKind.hasLa] using (hv.base.items 0 s hs it hit).la
  have noEdge : ∀ X q', (0, X, q') ∉ gr.edges := by
    intro X q' he
    obtain ⟨a, h1, _⟩ := hn.noShift 0 s hs it hit ha X q' he
    rw [hla] at h1; cases h1
  obtain ⟨s', hs', hc⟩ := hv.base.start
  rw [hs] at hs'; simp at hs'; subst hs'
  rcases closure_cases ((hc it).mp hit) with h | ⟨k, i, r, h1, h2, h3, h4, h5, _⟩
  · subst h; simp [Item.after, entryItem, ruleRhs] at ha
  · have hk := (hc k).mpr h1
    by_cases hr : k.rule = none
    · obtain ⟨_, rfl⟩ := rule_none_zero hv hs hk hr
      have h2' : g.entry = .nt r.lhs := by simpa [Item.after, entryItem, ruleRhs] using h2
      refine he r (List.mem_of_getElem? h3) h2' ?_
      have : r.rhs[leadingEps r.rhs]? = none := by simpa [Item.after, h4, h5, ruleRhs, h3] using ha
      rw [List.getElem?_eq_none_iff] at this
      rw [strip_lead, List.drop_eq_nil_of_le this]
      rfl
    · obtain ⟨q', _, h6, _⟩ := hv.done 0 (getElem?_lt hs) (by simp) s hs k hk _ h2 hr
      exact noEdge _ _ h6

/-- every derivation has a tree, whatever data the tokens carry -/
theorem derives_forest {rules : List Rule} {ss : List Sym} {w : List Nat} (h : Derives rules ss w) : ∀ (w' : List (Nat × T)), w'.map (·.1) = w →
    ∃ ts : List (PTree T), Forest rules ss ts ∧ PTree.tokensList ts = w' := by
  induction h with
  | nil => intro w' h; simp at h; subst h; exact ⟨[], .nil, rfl⟩
  | eps _ ih =>
    intro w' h
    obtain ⟨ts, h1, h2⟩ := ih w' h
    exact ⟨ts, .eps h1, h2⟩
  | @term a ss w _ ih =>
    intro w' h
    cases w' with
    | nil => simp at h
    | cons p w' =>
      simp at h
      obtain ⟨ts, h1, h2⟩ := ih w' h.2
      obtain ⟨b, d⟩ := p
      simp at h
      obtain ⟨rfl, _⟩ := h
      exact ⟨.leaf b d :: ts, .term h1, by simp [PTree.tokensList, PTree.tokens, h2]⟩
  | @nonterm r ss u v hr _ _ ih1 ih2 =>
    intro w' h
    obtain ⟨w1, w2, rfl, h1, h2⟩ := List.map_eq_append_iff.mp h
    obtain ⟨cs, c1, c2⟩ := ih1 w1 h1
    obtain ⟨ts, t1, t2⟩ := ih2 w2 h2
    exact ⟨.node r cs :: ts, .nonterm hr c1 t1, by simp [PTree.tokensList, PTree.tokens, c2, t2]⟩

theorem forest_one {rules : List Rule} {A : Nat} {ts : List (PTree T)} (h : Forest rules [.nt A] ts) : ∃ t, ts = [t] := by
  cases h with
  | nonterm _ _ h => cases h; exact ⟨_, rfl⟩

theorem derives_tree {A : Nat} {w : List (Nat × T)} (h : Derives g.rules [.nt A] (w.map (·.1))) : ∃ t : PTree T, IsParseTree g.rules (.nt A) t ∧ t.tokens = w := by
  obtain ⟨ts, h1, h2⟩ := derives_forest h w rfl
  obtain ⟨t, rfl⟩ := forest_one h1
  exact ⟨t, h1, by simpa [PTree.tokensList] using h2⟩

variable {m : LRMachine} {input : Nat → Tok × T}

theorem lrRun_reaches : ∀ (fuel : Nat) (stk : List StackSym) (pos : Nat) (events : List (LREvent T)), LRReaches m input stk pos events →
    (∀ ev' pos', lrRun m input fuel stk pos events = .ok ev' pos' → LRReaches m input [] pos' ev') ∧
    (∀ ev' pos' exp, lrRun m input fuel stk pos events = .unexpected ev' pos' exp → ∃ stk', LRReaches m input stk' pos' ev' ∧ lrStep m input stk' pos' = .unexpected exp) := by
  intro fuel
  induction fuel with
  | zero => intro stk pos events _; refine ⟨fun _ _ h => ?_, fun _ _ _ h => ?_⟩ <;> simp [lrRun] at h
  | succ fuel ih =>
    intro stk pos events hr
    unfold lrRun
    cases hs : lrStep m input stk pos with
    | done =>
      refine ⟨fun ev' pos' h => ?_, fun _ _ _ h => by simp at h⟩
      simp at h
      obtain ⟨rfl, rfl⟩ := h
      have : stk = [] := by
        cases stk with
        | nil => rfl
        | cons x stk =>
          exfalso
          unfold lrStep at hs
          split at hs
          · rename_i h; cases h
          · split at hs
            · cases hs
            · cases hs
            · unfold lrGoto at hs
              split at hs
              · split at hs <;> cases hs
              · cases hs
            · split at hs
              · cases hs
              · split at hs
                · cases hs
                · unfold lrGoto at hs
                  split at hs
                  · split at hs <;> cases hs
                  · cases hs
          · cases hs
      subst this
      exact hr
    | unexpected exp =>
      refine ⟨fun _ _ h => by simp at h, fun ev' pos' exp' h => ?_⟩
      simp at h
      obtain ⟨rfl, rfl, rfl⟩ := h
      exact ⟨stk, hr, hs⟩
    | panic ev => refine ⟨fun _ _ h => by simp at h, fun _ _ _ h => by simp at h⟩
    | next stk' pos' ev => exact ih stk' pos' (events ++ [ev]) (.step hr hs)

theorem reaches_inv (hv : LoopInv g kind gr []) (hm : Follows g gr m) {stk : List StackSym} {pos : Nat} {events : List (LREvent T)}
    (h : LRReaches m input stk pos events) : RunInv g gr input stk pos events := by
  induction h with
  | start =>
    rw [hm.entry]
    refine .inl ⟨[], .base, ⟨by simp [PTree.tokensList], fun i p h => ?_⟩, by simp [TraceIs, PTree.postorderList]⟩
    simp [PTree.tokensList] at h
  | step _ hs ih =>
    rcases ih with ⟨ts, h1, h2⟩ | ⟨rfl, _⟩
    · obtain ⟨q, rest, rfl⟩ := h1.head
      rcases lrStep_sound hv hm h1 h2 with ⟨exp, he, _⟩ | ⟨stk', pos', ev, he, hi⟩
      · rw [he] at hs; cases hs
      · rw [he] at hs; cases hs; exact hi
    · simp [lrStep] at hs

theorem fsOk_of (wf : g.WF) (hne : NoEmptyRhs g) {n : Nat} {fs : SymSets} (h : lrFirstSets g kind n = .ok fs) : FsOk g kind fs := by
  intro hk
  rw [lrFirstSets, if_pos hk] at h
  exact computeFirstSets_exact wf hne h

theorem actOf_isSome {tb : LRTable} {q : Nat} {s : Sym} :
    (actOf tb q s).isSome = true ↔ (∃ q', tb.get q s = some [.shift q']) ∨ ∃ i, tb.get q s = some [.reduce (some i)] := by
  unfold actOf
  split
  · rename_i q' h; simp [h]
  · rename_i i h; simp [h]
  · rename_i h1 h2
    simp only [Option.isSome_none, Bool.false_eq_true, false_iff]
    rintro (⟨q', h⟩ | ⟨i, h⟩)
    · exact h1 _ h
    · exact h2 _ h

/-- the shifts among callbacks, by meaning -/
def leavesOf (es : List (PEvent T)) : List (Nat × T) := es.filterMap fun | .shift a d => some (a, d) | .reduce _ => none

mutual
theorem leaves_postorder : ∀ t : PTree T, leavesOf t.postorder = t.tokens
  | .leaf a d => by simp [PTree.postorder, PTree.tokens, leavesOf]
  | .node r cs => by
    have := leaves_postorderList cs
    simp only [PTree.postorder, PTree.tokens, leavesOf, List.filterMap_append] at this ⊢
    rw [this]; simp
theorem leaves_postorderList : ∀ ts : List (PTree T), leavesOf (PTree.postorderList ts) = PTree.tokensList ts
  | [] => by simp [PTree.postorderList, PTree.tokensList, leavesOf]
  | t :: ts => by
    have h1 := leaves_postorder t
    have h2 := leaves_postorderList ts
    simp only [PTree.postorderList, PTree.tokensList, leavesOf, List.filterMap_append] at h1 h2 ⊢
    rw [h1, h2]
end

theorem shifts_leaves : ∀ (events : List (LREvent T)) (es : List (PEvent T)), TraceIs g events es → shiftsOf events = (leavesOf es).map (fun x => (Tok.tok x.1, x.2)) := by
  intro events
  induction events with
  | nil => intro es h; cases es with
    | nil => rfl
    | cons _ _ => simp [TraceIs] at h
  | cons e events ih =>
    intro es h
    cases es with
    | nil => simp [TraceIs] at h
    | cons e' es =>
      simp only [TraceIs, List.map_cons, List.cons.injEq] at h
      have hi := ih es h.2
      cases e with
      | shift tk d =>
        cases tk with
        | tok a =>
          simp [LREvent.meaning] at h
          obtain ⟨h, _⟩ := h
          subst h
          simp only [shiftsOf, leavesOf, List.filterMap_cons, List.map_cons] at hi ⊢
          rw [hi]
        | _ => simp [LREvent.meaning] at h
      | reduce i =>
        simp only [LREvent.meaning, Option.map_eq_some_iff] at h
        obtain ⟨⟨r, _, h⟩, _⟩ := h
        subst h
        simp only [shiftsOf, leavesOf, List.filterMap_cons] at hi ⊢
        rw [hi]

theorem shiftsOf_trace {events : List (LREvent T)} {ts : List (PTree T)} (h : TraceIs g events (PTree.postorderList ts)) :
    shiftsOf events = (PTree.tokensList ts).map (fun x => (Tok.tok x.1, x.2)) := by
  rw [shifts_leaves _ _ h, leaves_postorderList]

/-! Changing the data type of trees. -/

mutual
def PTree.lift : PTree T → PTree (Option T)
  | .leaf a d => .leaf a (some d)
  | .node r cs => .node r (PTree.liftList cs)
def PTree.liftList : List (PTree T) → List (PTree (Option T))
  | [] => []
  | t :: ts => t.lift :: PTree.liftList ts
end

theorem forest_lift {rules : List Rule} {ss : List Sym} {ts : List (PTree T)} (h : Forest rules ss ts) : Forest rules ss (PTree.liftList ts) := by
  induction h with
  | nil => exact .nil
  | eps _ ih => exact .eps ih
  | term _ ih => exact .term ih
  | nonterm hr _ _ ih1 ih2 => exact .nonterm hr ih1 ih2

mutual
theorem lift_tokens : ∀ t : PTree T, t.lift.tokens = t.tokens.map (fun x => (x.1, some x.2))
  | .leaf a d => by simp [PTree.lift, PTree.tokens]
  | .node r cs => by simp [PTree.lift, PTree.tokens, lift_tokensList cs]
theorem lift_tokensList : ∀ ts : List (PTree T), PTree.tokensList (PTree.liftList ts) = (PTree.tokensList ts).map (fun x => (x.1, some x.2))
  | [] => by simp [PTree.liftList, PTree.tokensList]
  | t :: ts => by simp [PTree.liftList, PTree.tokensList, lift_tokens t, lift_tokensList ts]
end

mutual
theorem lift_inj : ∀ t t' : PTree T, t.lift = t'.lift → t = t'
  | .leaf a d, .leaf a' d', h => by simpa [PTree.lift] using h
  | .leaf _ _, .node _ _, h => by simp [PTree.lift] at h
  | .node _ _, .leaf _ _, h => by simp [PTree.lift] at h
  | .node r cs, .node r' cs', h => by
    simp [PTree.lift] at h
    rw [h.1, liftList_inj cs cs' h.2]
theorem liftList_inj : ∀ ts ts' : List (PTree T), PTree.liftList ts = PTree.liftList ts' → ts = ts'
  | [], [], _ => rfl
  | [], _ :: _, h => by simp [PTree.liftList] at h
  | _ :: _, [], h => by simp [PTree.liftList] at h
  | t :: ts, t' :: ts', h => by
    simp [PTree.liftList] at h
    rw [lift_inj t t' h.1, liftList_inj ts ts' h.2]
end

theorem unambiguous_lift {rules : List Rule} {X : Sym} (hu : ∀ t t' : PTree (Option T), IsParseTree rules X t → IsParseTree rules X t' → t.tokens = t'.tokens → t = t')
    {t t' : PTree T} (h1 : IsParseTree rules X t) (h2 : IsParseTree rules X t') (h3 : t.tokens = t'.tokens) : t = t' := by
  refine lift_inj t t' (hu _ _ ?_ ?_ ?_)
  · have := forest_lift h1; simpa [PTree.liftList, IsParseTree] using this
  · have := forest_lift h2; simpa [PTree.liftList, IsParseTree] using this
  · rw [lift_tokens, lift_tokens, h3]

end Verif
