import Verif.Proofs.GlrExact

/-! # Termination of the GLR driver -/

set_option autoImplicit false

namespace Verif

variable {T : Type} {g : Grammar} {kind : LRKind} {gr : LRGraph} {m : GlrMachine} {input : Nat → Tok × T}

/-- a number of steps that bounds the steps a configuration can still make -/
structure Weight (m : GlrMachine) (input : Nat → Tok × T) (W : Nat → Nat → GConf T → Prop) : Prop where
  reduce : ∀ k pos c, W k pos c → ∀ a ∈ actsOf m (input pos).1 c, ∀ c' ∈ newOf m c a, ∃ k', k = k' + 1 ∧ W k' pos c'
  shift : ∀ k pos c, W k pos c → .shift ∈ actsOf m (input pos).1 c → ∃ k', k = k' + 1 ∧ W k' (pos + 1) (shiftC m (input pos).1 (input pos).2 c)

theorem linReduces_noFuel {tk : Tok} {Q : GConf T → Prop} (hq : RedInv m tk Q) {W : Nat → GConf T → Prop}
    (hw : ∀ k c, W k c → ∀ a ∈ actsOf m tk c, ∀ c' ∈ newOf m c a, ∃ k', k = k' + 1 ∧ W k' c') : ∀ (fuel : Nat) (p : Bool) (acc cs : List (GConf T)), (∀ c ∈ cs, Q c) →
    (∀ c ∈ cs, ∃ k, k < fuel ∧ W k c) → linReduces m tk fuel p acc cs ≠ .error .fuel := by
  intro fuel
  induction fuel with
  | zero =>
    intro p acc cs _ h
    cases cs with
    | nil => simp [linReduces]
    | cons c cs => obtain ⟨k, hk, _⟩ := h c (by simp); omega
  | succ fuel ih =>
    intro p acc cs hc h
    by_cases hne : cs = []
    · subst hne; simp [linReduces]
    · rw [linReduces_round fuel p acc cs hne (fun c hx => hq.good c (hc c hx))]
      split
      · simp
      · split
        · simp
        · refine ih _ _ _ (hq.news hc) (fun c hx => ?_)
          obtain ⟨c0, h0, a, h1, h2⟩ := mem_news.mp hx
          obtain ⟨k, hk, hW⟩ := h c0 h0
          obtain ⟨k', rfl, hW'⟩ := hw k c0 hW a h1 c h2
          exact ⟨k', by omega, hW'⟩

theorem final_weight {W : Nat → Nat → GConf T → Prop} (hw : Weight m input W) {pos k : Nat} {c c' : GConf T} (hf : Final m (input pos).1 c c') (hl : c'.isRoot = false)
    (h : W k pos c) : ∃ k', k' < k ∧ W k' (pos + 1) (shiftC m (input pos).1 (input pos).2 c') := by
  induction hf generalizing k with
  | @fin c c' a ha hc =>
    have : a = .shift ∧ c' = c := by
      cases c with
      | root _ => simp [accOf] at hc
      | live stk ev =>
        cases a with
        | shift => simp [accOf] at hc; exact ⟨rfl, hc⟩
        | reduce i =>
          simp only [accOf] at hc
          split at hc
          · simp at hc; subst hc; simp [GConf.isRoot] at hl
          · simp at hc
    obtain ⟨rfl, rfl⟩ := this
    obtain ⟨k', rfl, h'⟩ := hw.shift k pos _ h ha
    exact ⟨k', by omega, h'⟩
  | @red c c1 c' a ha hc _ ih =>
    obtain ⟨k', rfl, h'⟩ := hw.reduce k pos c h a ha c1 hc
    obtain ⟨k'', h1, h2⟩ := ih hl h'
    exact ⟨k'', by omega, h2⟩

theorem linRun_stops (hv : LoopInv g kind gr []) (hm : GFollows g gr m) {W : Nat → Nat → GConf T → Prop} (hw : Weight m input W) (rfuel : Nat) (hrf : 0 < rfuel) :
    ∀ (fuel : Nat) (cs : List (GConf T)) (pos : Nat) (events : List (LREvent T)), (∀ c ∈ cs, LInv g gr input pos c) → cs ≠ [] → Anti (cs.map GConf.ev) →
      (∀ c ∈ cs, ∃ k, k < rfuel ∧ k + 2 ≤ fuel ∧ W k pos c) → ∀ ev p, linRun m input rfuel fuel false cs pos events ≠ .running ev p := by
  intro fuel
  induction fuel with
  | zero =>
    intro cs pos events _ hne _ hW
    obtain ⟨c, cs', rfl⟩ := List.exists_cons_of_ne_nil hne
    obtain ⟨k, _, h, _⟩ := hW c (by simp)
    omega
  | succ fuel ih =>
    intro cs pos events hinv hne hanti hW ev p
    have hri := linv_redInv (input := input) hv hm pos (input pos).1
    have hspec := linReduces_spec hri (input pos).2 rfuel false [] cs hinv rfl (by simpa using hanti)
    have hnf := linReduces_noFuel hri (W := fun k c => W k pos c) (fun k c h => hw.reduce k pos c h) rfuel false [] cs hinv
      (fun c hc => by obtain ⟨k, h1, _, h3⟩ := hW c hc; exact ⟨k, h1, h3⟩)
    obtain ⟨f, rfl⟩ : ∃ f, fuel = f + 1 := by
      obtain ⟨c, cs', rfl⟩ := List.exists_cons_of_ne_nil hne
      obtain ⟨k, _, h, _⟩ := hW c (by simp)
      exact ⟨fuel - 1, by omega⟩
    unfold linRun
    split
    · simp
    · revert hspec hnf
      cases linReduces m (input pos).1 rfuel false [] cs with
      | error e =>
        cases e with
        | fuel => intro _ h; exact absurd rfl h
        | panic => intro _ _; simp
      | ok r =>
        cases r with
        | unexpected es => intro _ _; simp
        | ok p' red =>
          rintro ⟨h1, h2, h3, h4⟩ _
          simp only [List.not_mem_nil, false_or] at h1
          have h4' : red ≠ [] := h4 (.inr hne)
          have hrinv : ∀ c ∈ red, GCInv g gr input pos c ∧ (c.isRoot = false → Shifts gr m (input pos).1 c) := by
            intro c hc
            obtain ⟨c0, h5, h6⟩ := (h1 c).mp hc
            exact final_inv hv hm h6 (hinv c0 h5)
          by_cases hroot : red.any GConf.isRoot = true
          · simp only [linShiftPhase, if_pos hroot]
            unfold linRun
            split
            · simp
            · obtain ⟨c, cs', rfl⟩ := List.exists_cons_of_ne_nil h4'
              obtain ⟨rf, rfl⟩ : ∃ rf, rfuel = rf + 1 := ⟨rfuel - 1, by omega⟩
              unfold linReduces
              rw [linStacks_root _ _ hroot]
              simp [bind, Except.bind]
          · have hroot' : ∀ c ∈ red, c.isRoot = false := by
              intro c hc
              by_contra h
              exact hroot (List.any_eq_true.mpr ⟨c, hc, by simpa using h⟩)
            obtain ⟨h5, h6⟩ := linShifts_eq (d := (input pos).2) red [] (fun c hc => (hrinv c hc).2 (hroot' c hc))
            simp only [linShiftPhase, if_neg hroot, h5, List.nil_append]
            have hp : p' = false := by
              cases p' with
              | false => rfl
              | true =>
                have : 0 < roots red := by rw [h2]; simp [cnt]
                exact absurd (roots_pos.mp this) hroot
            subst hp
            refine ih _ _ _ ?_ (by simpa using h4') (by rw [h6]; exact h3) ?_ ev p
            · intro c hc
              obtain ⟨c', hc', rfl⟩ := List.mem_map.mp hc
              exact shiftC_inv (hrinv c' hc').1 ((hrinv c' hc').2 (hroot' c' hc'))
            · intro c hc
              obtain ⟨c', hc', rfl⟩ := List.mem_map.mp hc
              obtain ⟨c0, h7, h8⟩ := (h1 c').mp hc'
              obtain ⟨k, k1, k2, k3⟩ := hW c0 h7
              obtain ⟨k', k4, k5⟩ := final_weight hw h8 (hroot' c' hc') k3
              exact ⟨k', by omega, by omega, k5⟩

/-- a parser whose stacks can make a bounded number of steps returns -/
theorem glrParse_stops (hv : LoopInv g kind gr []) (hm : GFollows g gr m) {W : Nat → Nat → GConf T → Prop} (hw : Weight m input W) {k : Nat}
    (h0 : W k 0 (.live [.state m.entry] [])) {fuel : Nat} (hf : k + 2 ≤ fuel) (ev : List (LREvent T)) (p : Nat) : glrParse m input fuel ≠ .running ev p := by
  rw [glrParse_lin (glr_stackInv (T := Unit) hv hm)]
  refine linRun_stops hv hm hw fuel (by omega) fuel _ 0 [] (fun c hc => ?_) (by simp) (by simp [Anti]) (fun c hc => ?_) ev p
  · simp at hc; subst hc; exact heads_inv hv hm .start
  · simp at hc; subst hc; exact ⟨k, by omega, hf, h0⟩

/-! ## Grammars without empty rules and unit cycles -/

theorem UnitChain.trans {A B C : Nat} (h1 : UnitChain g A B) (h2 : UnitChain g B C) : UnitChain g A C := by
  induction h1 with
  | one h => exact .more h h2
  | more h _ ih => exact .more h (ih h2)

open Classical in
/-- number of non-terminals below a non-terminal -/
noncomputable def unitRank (g : Grammar) : Sym → Nat
  | .nt A => 1 + (g.rules.filter (fun r => UnitChain g A r.lhs)).length
  | _ => 0

open Classical in
theorem unitRank_lt (hc : NoUnitCycle g) {r : Rule} (hr : r ∈ g.rules) {X : Sym} (h : strip r.rhs = [X]) (hX : (∃ a, X = .t a) ∨ (∃ r' ∈ g.rules, X = .nt r'.lhs)) :
    unitRank g X < unitRank g (.nt r.lhs) := by
  rcases hX with ⟨a, rfl⟩ | ⟨r', hr', rfl⟩
  · simp only [unitRank]; omega
  · have hu : UnitRule g r.lhs r'.lhs := ⟨r, hr, rfl, h⟩
    simp only [unitRank]
    have hsub : (g.rules.filter (fun x => decide (UnitChain g r'.lhs x.lhs))).length < (g.rules.filter (fun x => decide (UnitChain g r.lhs x.lhs))).length := by
      rw [← List.countP_eq_length_filter, ← List.countP_eq_length_filter]
      have hmono : ∀ l : List Rule, l.countP (fun x => decide (UnitChain g r'.lhs x.lhs)) ≤ l.countP (fun x => decide (UnitChain g r.lhs x.lhs)) := by
        intro l
        refine List.countP_mono_left fun x _ hx => ?_
        simp only [decide_eq_true_eq] at hx ⊢
        exact .more hu hx
      obtain ⟨l1, l2, hl⟩ := List.append_of_mem hr'
      rw [hl, List.countP_append, List.countP_append, List.countP_cons_of_neg (by simpa using hc r'.lhs),
        List.countP_cons_of_pos (by simpa using UnitChain.one hu)]
      have h1 := hmono l1
      have h2 := hmono l2
      omega
    omega

theorem unitRank_le (X : Sym) : unitRank g X ≤ g.rules.length + 1 := by
  unfold unitRank
  split
  · rename_i A
    have := List.length_filter_le (fun r : Rule => @decide (UnitChain g A r.lhs) (Classical.propDecidable _)) g.rules
    omega
  · omega

/-- rank of the topmost symbol -/
noncomputable def topRank (g : Grammar) : List StackSym → Nat
  | _ :: x :: _ => match x.sym with | some X => unitRank g X | none => 0
  | _ => 0

/-- number of symbols on the stack -/
def symCount (stk : List StackSym) : Nat := stk.length / 2

theorem stackOk_symCount {stk : List StackSym} {ts : List (PTree T)} (h : StackOk g gr stk ts) : stk.length = 2 * ts.length + 1 := by
  induction h with
  | base => rfl
  | push _ _ _ _ ih => simp only [List.length_cons] at ih ⊢; omega

theorem topRank_le (stk : List StackSym) : topRank g stk ≤ g.rules.length + 1 := by
  unfold topRank
  split
  · split
    · exact unitRank_le _
    · omega
  · omega

/-- bound for the steps of a stack: `L` tokens at most will be consumed -/
noncomputable def stackPot (g : Grammar) (L pos : Nat) (stk : List StackSym) : Nat :=
  (L - pos) * (2 * g.rules.length + 5) + symCount stk * (g.rules.length + 2) + (g.rules.length + 1 - topRank g stk)

/-- symbols on the stack are terminals or left sides -/
theorem stackOk_top {q : Nat} {x : StackSym} {rest : List StackSym} {ts : List (PTree T)} (h : StackOk g gr (.state q :: x :: rest) ts) :
    ∃ X, x.sym = some X ∧ ((∃ a, X = .t a) ∨ ∃ r ∈ g.rules, X = .nt r.lhs) := by
  cases h with
  | @push _ _ _ _ _ X t _ _ hx ht =>
    refine ⟨X, hx, ?_⟩
    unfold IsParseTree at ht
    cases ht with
    | eps h => cases h
    | term _ => exact .inl ⟨_, rfl⟩
    | nonterm hr _ _ => exact .inr ⟨_, hr, rfl⟩

/-- the symbol a tree derives from -/
def PTree.rootSym : PTree T → Sym
  | .leaf a _ => .t a
  | .node r _ => .nt r.lhs

theorem isParseTree_rootSym {rules : List Rule} {X : Sym} {t : PTree T} (h : IsParseTree rules X t) : t.rootSym = X ∧ X ≠ .eps := by
  unfold IsParseTree at h
  cases h with
  | eps h => cases h
  | term _ => exact ⟨rfl, by simp⟩
  | nonterm hr _ _ => exact ⟨rfl, by simp⟩

theorem forest_rootSym {rules : List Rule} {rhs : List Sym} {ts : List (PTree T)} (h : Forest rules rhs ts) : strip rhs = ts.map PTree.rootSym := by
  induction h with
  | nil => rfl
  | eps _ ih => simpa [strip] using ih
  | term _ ih => simp only [strip, List.map_cons, PTree.rootSym] at ih ⊢; simp [← ih]
  | nonterm _ _ _ _ ih => simp only [strip, List.map_cons, PTree.rootSym] at ih ⊢; simp [← ih]

theorem stackOk_rootSym {q : Nat} {x : StackSym} {rest : List StackSym} {t : PTree T} {ts : List (PTree T)} (h : StackOk g gr (.state q :: x :: rest) (t :: ts)) :
    x.sym = some t.rootSym := by
  cases h with
  | @push _ _ _ _ _ X t _ _ hx ht => rw [hx, (isParseTree_rootSym ht).1]

theorem stackPot_reduce (he : EpsFree g) (hu : NoUnitCycle g) {L pos : Nat} {stk rest' : List StackSym} {q' p : Nat} {ts cs ts' : List (PTree T)} {r : Rule} (hr : r ∈ g.rules)
    (h1 : StackOk g gr stk ts) (hts : ts = cs.reverse ++ ts') (hf : Forest g.rules r.rhs cs)
    (h2 : StackOk g gr (.state q' :: .nonTerminal r.lhs :: .state p :: rest') (.node r cs :: ts')) :
    stackPot g L pos (.state q' :: .nonTerminal r.lhs :: .state p :: rest') < stackPot g L pos stk := by
  have l1 := stackOk_symCount h1
  have l2 := stackOk_symCount h2
  have hcs := forest_rootSym hf
  have hne := he r hr
  unfold stackPot symCount
  rw [l1, l2]
  have d1 : (2 * ts.length + 1) / 2 = ts.length := by omega
  have d2 : (2 * (PTree.node r cs :: ts').length + 1) / 2 = ts'.length + 1 := by simp only [List.length_cons]; omega
  rw [d1, d2]
  have ht : ts.length = cs.length + ts'.length := by rw [hts]; simp
  have hk : topRank g stk ≤ g.rules.length + 1 := topRank_le stk
  have htop : topRank g (.state q' :: .nonTerminal r.lhs :: .state p :: rest') = unitRank g (.nt r.lhs) := rfl
  rw [htop]
  match cs, hcs, ht, hts with
  | [], hcs, _, _ => rw [hcs] at hne; exact absurd rfl hne
  | [t], hcs, ht, hts =>
    have hlt : topRank g stk < unitRank g (.nt r.lhs) := by
      simp only [List.reverse_cons, List.reverse_nil, List.nil_append, List.singleton_append] at hts
      subst hts
      match stk, h1 with
      | _, .push (q := _) (rest := _) ha hb hx hy =>
        have := isParseTree_rootSym hy
        simp only [topRank, hx]
        refine unitRank_lt hu hr ?_ ?_
        · rw [hcs]; simp [this.1]
        · obtain ⟨X, h3, h4⟩ := stackOk_top (StackOk.push ha hb hx hy)
          rw [hx] at h3
          cases h3
          exact h4
    have hle := unitRank_le (g := g) (.nt r.lhs)
    have : ts.length = ts'.length + 1 := by simp at ht; omega
    rw [this]
    omega
  | _ :: _ :: cs, _, ht, _ =>
    have h3 : ts'.length + 1 + 1 ≤ ts.length := by simp at ht; omega
    have := Nat.mul_le_mul_right (g.rules.length + 2) h3
    rw [Nat.add_mul (ts'.length + 1)] at this
    omega

theorem stackPot_shift {L pos : Nat} {stk : List StackSym} {q : Nat} {a : Nat} (hp : pos < L) :
    stackPot g L (pos + 1) (.state q :: .terminal (.tok a) :: stk) < stackPot g L pos stk := by
  unfold stackPot symCount
  have d1 : (StackSym.state q :: StackSym.terminal (.tok a) :: stk).length / 2 = stk.length / 2 + 1 := by simp only [List.length_cons]; omega
  rw [d1]
  obtain ⟨d, rfl⟩ : ∃ d, L = pos + 1 + d := ⟨L - (pos + 1), by omega⟩
  have e1 : pos + 1 + d - (pos + 1) = d := by omega
  have e2 : pos + 1 + d - pos = d + 1 := by omega
  rw [e1, e2, Nat.add_mul, Nat.add_mul]
  have : topRank g stk ≤ g.rules.length + 1 := topRank_le stk
  omega

theorem pot_weight (hv : LoopInv g kind gr []) (hm : GFollows g gr m) (he : EpsFree g) (hu : NoUnitCycle g) {w : List (Nat × T)} (hin : StreamIs input w) :
    Weight m input (fun k pos c => ∃ stk ev, c = .live stk ev ∧ (∃ ts : List (PTree T), StackOk g gr stk ts) ∧ pos ≤ w.length ∧ stackPot g w.length pos stk ≤ k) := by
  refine ⟨?_, ?_⟩
  · rintro k pos c ⟨stk, ev, rfl, ⟨ts, hst⟩, hp, hk⟩ a ha c' hc'
    obtain ⟨q, rest, rfl⟩ := hst.head
    obtain ⟨s, hs⟩ := hst.range hv.base
    obtain ⟨l, hl, ha⟩ := actsOf_live ha
    cases a with
    | shift => simp [newOf] at hc'
    | reduce i =>
      have hc := ((hm.acts q _ l (getElem?_lt hs) hl).2.2.2 i).mp ha
      obtain ⟨r, p, rest', cs, ts', h1, h2, h3, h4, h5, h6, h7, h8, h9⟩ := glr_reduce hv hm hst hc
      rcases h9 with ⟨_, q', _, hg, hst'⟩ | ⟨_, _, hg, _, _⟩
      · simp only [newOf, linReduce, h3, h5, hg] at hc'
        simp only [List.mem_singleton] at hc'
        have := stackPot_reduce he hu h2 hst h6 h8 hst' (L := w.length) (pos := pos)
        exact ⟨k - 1, by omega, _, _, hc', ⟨_, hst'⟩, hp, by omega⟩
      · simp [newOf, linReduce, h3, h5, hg] at hc'
  · rintro k pos c ⟨stk, ev, rfl, ⟨ts, hst⟩, hp, hk⟩ ha
    obtain ⟨q, rest, rfl⟩ := hst.head
    obtain ⟨s, hs⟩ := hst.range hv.base
    obtain ⟨l, hl, ha⟩ := actsOf_live ha
    obtain ⟨a, q', htk, hed⟩ := (hm.acts q _ l (getElem?_lt hs) hl).2.2.1.mp ha
    have hlt : pos < w.length := by
      rcases Nat.lt_or_ge pos w.length with h | h
      · exact h
      · obtain rfl : pos = w.length := by omega
        rw [hin.2] at htk; cases htk
    have := stackPot_shift (g := g) (q := q') (a := a) (stk := .state q :: rest) hlt
    refine ⟨k - 1, by omega, .state q' :: .terminal (.tok a) :: .state q :: rest, ev ++ [.shift (.tok a) (input pos).2], ?_, ⟨_, .push (t := .leaf a (input pos).2) hst hed rfl (isParseTree_term a _)⟩, hlt, by omega⟩
    simp only [shiftC, htk, hm.shift q a q' hed]

/-- a parser for a grammar without empty rules and unit cycles returns -/
theorem glr_stops (hv : LoopInv g kind gr []) (hm : GFollows g gr m) (he : EpsFree g) (hu : NoUnitCycle g) {w : List (Nat × T)} (hin : StreamIs input w) {fuel : Nat}
    (hf : (w.length + 1) * (2 * g.rules.length + 5) ≤ fuel) (ev : List (LREvent T)) (p : Nat) : glrParse m input fuel ≠ .running ev p := by
  refine glrParse_stops hv hm (pot_weight hv hm he hu hin) (k := stackPot g w.length 0 [.state m.entry]) ⟨_, _, rfl, ⟨[], by rw [hm.entry]; exact .base⟩, by omega, Nat.le_refl _⟩ ?_ ev p
  simp only [stackPot, symCount, topRank, List.length_cons, List.length_nil, Nat.sub_zero]
  rw [Nat.add_mul] at hf
  omega

end Verif
