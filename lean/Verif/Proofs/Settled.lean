import Verif.Model.Generate

/-! # More steps do not change a result -/

set_option autoImplicit false

namespace Verif

/-- unless the first computation runs out of steps, the second one has the same result -/
def Settled {α : Type} (r r' : Res α) : Prop := r = .error .fuel ∨ r' = r

theorem Settled.refl {α : Type} (r : Res α) : Settled r r := .inr rfl

theorem Settled.bind {α β : Type} {r r' : Res α} {f f' : α → Res β} (h : Settled r r') (hf : ∀ a, Settled (f a) (f' a)) : Settled (r >>= f) (r' >>= f') := by
  rcases h with rfl | rfl
  · exact .inl rfl
  · cases r' with
    | error e => exact .inr rfl
    | ok a => exact hf a

theorem Settled.foldlM {α β : Type} {f f' : β → α → Res β} (h : ∀ b a, Settled (f b a) (f' b a)) : ∀ (l : List α) (b : β), Settled (l.foldlM f b) (l.foldlM f' b) := by
  intro l
  induction l with
  | nil => intro b; exact .inr rfl
  | cons a l ih =>
    intro b
    rw [List.foldlM_cons, List.foldlM_cons]
    exact (h b a).bind fun b => ih b

theorem firstSetsLoop_settled {g : Grammar} : ∀ {n m : Nat}, n ≤ m → ∀ fs, Settled (firstSetsLoop g n fs) (firstSetsLoop g m fs) := by
  intro n
  induction n with
  | zero => intro m _ fs; exact .inl rfl
  | succ n ih =>
    intro m hm fs
    obtain ⟨k, rfl⟩ : ∃ k, m = k + 1 := ⟨m - 1, by omega⟩
    unfold firstSetsLoop
    refine (Settled.refl _).bind fun a => ?_
    by_cases ha : a.2 = true
    · simp only [ha, if_true]
      exact ih (by omega) _
    · simp only [ha]
      exact .inr rfl

theorem followSetsLoop_settled {g : Grammar} {fs : SymSets} : ∀ {n m : Nat}, n ≤ m → ∀ follow, Settled (followSetsLoop g fs n follow) (followSetsLoop g fs m follow) := by
  intro n
  induction n with
  | zero => intro m _ fs; exact .inl rfl
  | succ n ih =>
    intro m hm follow
    obtain ⟨k, rfl⟩ : ∃ k, m = k + 1 := ⟨m - 1, by omega⟩
    unfold followSetsLoop
    refine (Settled.refl _).bind fun a => ?_
    by_cases ha : a.2 = true
    · simp only [ha, if_true]
      exact ih (by omega) _
    · simp only [ha]
      exact .inr rfl

theorem expandLoop_settled {g : Grammar} {fs : SymSets} : ∀ {n m : Nat}, n ≤ m → ∀ set stack, Settled (expandLoop g fs n set stack) (expandLoop g fs m set stack) := by
  intro n
  induction n with
  | zero =>
    intro m _ set stack
    cases stack with
    | nil => cases m <;> exact .inr rfl
    | cons _ _ => exact .inl rfl
  | succ n ih =>
    intro m hm set stack
    obtain ⟨k, rfl⟩ : ∃ k, m = k + 1 := ⟨m - 1, by omega⟩
    cases stack with
    | nil => exact .inr rfl
    | cons top stack =>
      unfold expandLoop
      exact (Settled.refl _).bind fun a => ih (by omega) _ _

theorem transitions_settled {g : Grammar} {fs : SymSets} {n m : Nat} (h : n ≤ m) (items : List Item) : Settled (transitions g fs n items) (transitions g fs m items) := by
  unfold transitions
  refine Settled.foldlM (fun mp it => ?_) _ _
  unfold transStep
  split
  · exact .inr rfl
  · split
    · exact .inr rfl
    · exact (Settled.refl _).bind fun it' => (expandLoop_settled h _ _).bind fun _ => .inr rfl

theorem graphLoop_settled {g : Grammar} {fs : SymSets} {lalr : Bool} {c c' : Nat} (hc : c ≤ c') :
    ∀ {n m : Nat}, n ≤ m → ∀ gr work, Settled (graphLoop g fs c lalr n gr work) (graphLoop g fs c' lalr m gr work) := by
  intro n
  induction n with
  | zero =>
    intro m _ gr work
    cases work with
    | nil => cases m <;> exact .inr rfl
    | cons _ _ => exact .inl rfl
  | succ n ih =>
    intro m hm gr work
    obtain ⟨k, rfl⟩ : ∃ k, m = k + 1 := ⟨m - 1, by omega⟩
    cases work with
    | nil => exact .inr rfl
    | cons q work =>
      unfold graphLoop
      refine Settled.bind ?_ fun a => ih (by omega) _ _
      unfold processState
      split
      · exact .inr rfl
      · exact (transitions_settled hc _).bind fun _ => .inr rfl

theorem generateTable_settled {g : Grammar} {allow : Bool} {kind : LRKind} {n m : Nat} (h : n ≤ m) : Settled (generateTable g allow kind n) (generateTable g allow kind m) := by
  unfold generateTable
  refine Settled.bind ?_ fun fs => Settled.bind ?_ fun gr => .inr rfl
  · unfold lrFirstSets
    split
    · exact firstSetsLoop_settled h _
    · exact .inr rfl
  · unfold generateGraph
    exact (expandLoop_settled h _ _).bind fun a => graphLoop_settled h h _ _

theorem addPowerset_settled {σ τ : Type} [Key τ] {a : Nfa σ τ} : ∀ {n m : Nat}, n ≤ m → ∀ dfa nodes, Settled (a.addPowersetToDfa n dfa nodes) (a.addPowersetToDfa m dfa nodes) := by
  intro n
  induction n with
  | zero => intro m _ dfa nodes; exact .inl rfl
  | succ n ih =>
    intro m hm dfa nodes
    obtain ⟨k, rfl⟩ : ∃ k, m = k + 1 := ⟨m - 1, by omega⟩
    unfold Nfa.addPowersetToDfa
    refine (Settled.refl _).bind fun c => ?_
    split
    · exact .inr rfl
    · exact (Settled.foldlM (fun d tt => (ih (by omega) _ _).bind fun _ => .inr rfl) _ _).bind fun _ => .inr rfl

theorem convertPowerset_settled {σ τ : Type} [Key τ] {a : Nfa σ τ} {pdfa : Graph (List Nat) τ} :
    ∀ {n m : Nat}, n ≤ m → ∀ st node, Settled (a.convertPowersetToDfa pdfa n st node) (a.convertPowersetToDfa pdfa m st node) := by
  intro n
  induction n with
  | zero => intro m _ st node; exact .inl rfl
  | succ n ih =>
    intro m hm st node
    obtain ⟨k, rfl⟩ : ∃ k, m = k + 1 := ⟨m - 1, by omega⟩
    unfold Nfa.convertPowersetToDfa
    split
    · exact .inr rfl
    · refine (Settled.foldlM (fun s edge => Settled.bind ?_ fun _ => .inr rfl) _ _).bind fun _ => .inr rfl
      split
      · exact .inr rfl
      · exact ih (by omega) _ _

theorem generateLexer_settled {n m : Nat} (h : n ≤ m) (rules : List TokenRule) : Settled (generateLexer n rules) (generateLexer m rules) := by
  unfold generateLexer
  refine (Settled.refl _).bind fun a => Settled.bind ?_ fun d => .inr rfl
  unfold Nfa.powersetConstruction
  exact (addPowerset_settled h _ _).bind fun x => (convertPowerset_settled h _ _).bind fun _ => .inr rfl

theorem llGenerateTable_settled {g : Grammar} {n m : Nat} (h : n ≤ m) : llGenerateTable g n = .error .fuel ∨ llGenerateTable g m = llGenerateTable g n := by
  unfold llGenerateTable computeFirstSets
  rcases firstSetsLoop_settled (g := g) h (emptySets g) with h1 | h1
  · exact .inl (by rw [h1]; rfl)
  · rw [h1]
    cases firstSetsLoop g n (emptySets g) with
    | error e => cases e <;> exact .inr rfl
    | ok fs =>
      show (liftRes (followSetsLoop g fs n (emptySets g)) >>= _) = _ ∨ (liftRes (followSetsLoop g fs m (emptySets g)) >>= _) = (liftRes (followSetsLoop g fs n (emptySets g)) >>= _)
      rcases followSetsLoop_settled (g := g) (fs := fs) h (emptySets g) with h2 | h2
      · exact .inl (by rw [h2]; rfl)
      · exact .inr (by rw [h2])

/-- the run is over -/
theorem generateParser_settled {n m : Nat} (h : n ≤ m) (lang : Language) (alg : Algorithm) (genTable : Bool) (path contents : List Char) (rules : SpannedRules) (written : List Written) :
    (generateParser n lang alg genTable path contents rules written).2 = .running ∨
      generateParser m lang alg genTable path contents rules written = generateParser n lang alg genTable path contents rules written := by
  unfold generateParser
  split
  · exact .inr rfl
  · rename_i g _
    have hlr : ∀ kind, (lrArm n lang kind genTable path contents rules g written).2 = .running ∨
        lrArm m lang kind genTable path contents rules g written = lrArm n lang kind genTable path contents rules g written := by
      intro kind
      unfold lrArm
      rcases generateTable_settled (g := g) (allow := false) (kind := kind) h with h1 | h1
      · exact .inl (by rw [h1]; rfl)
      · exact .inr (by rw [h1])
    split
    · unfold llArm
      rcases llGenerateTable_settled (g := g) h with h1 | h1
      · exact .inl (by rw [h1])
      · exact .inr (by rw [h1])
    · exact hlr _
    · exact hlr _
    · exact hlr _
    · unfold glrArm
      rcases generateTable_settled (g := g) (allow := true) (kind := .lalr) h with h1 | h1
      · exact .inl (by rw [h1]; rfl)
      · exact .inr (by rw [h1])

end Verif
