import Verif.Proofs.Trim

/-! The transitions of the generated NFA are alphabet indices. -/

set_option autoImplicit false

namespace Verif

/-- all transitions are alphabet indices -/
def WOk (al : Alphabet) (n : LexNfa) : Prop := ∀ ed ∈ n.graph.edges, ∀ i, ed.weight = .transition i → i < al.ranges.length

/-- a builder keeps this -/
def WtOk (al : Alphabet) (b : Builder) : Prop := ∀ ⦃s e n n'⦄, b s e n = .ok n' → WOk al n → WOk al n'

theorem WOk.inter {al : Alphabet} {n : LexNfa} (h : WOk al n) : WOk al n.addIntermediateState.1 := h

theorem WOk.eps {al : Alphabet} {n : LexNfa} (h : WOk al n) (s d : Nat) : WOk al (n.addEpsilonTransition s d) := by
  intro ed hed i hi
  rcases List.mem_append.mp hed with h1 | h1
  · exact h ed h1 i hi
  · simp at h1; subst h1; cases hi

theorem WOk.fold {al : Alphabet} {is : List Nat} (his : ∀ i ∈ is, i < al.ranges.length) {n : LexNfa} (h : WOk al n) (s d : Nat) :
    WOk al (is.foldl (fun nfa i => nfa.addTransition s d i) n) := by
  induction is generalizing n with
  | nil => exact h
  | cons i is ih =>
    refine ih (fun j hj => his j (List.mem_cons_of_mem _ hj)) ?_
    intro ed hed j hj
    rcases List.mem_append.mp hed with h1 | h1
    · exact h ed h1 j hj
    · simp at h1; subst h1; cases hj; exact his i (by simp)

theorem charSetIndices_lt {al : Alphabet} (hg : al.Good) (xs : List Characters) :
    ∀ is js, charSetIndices al xs is = .ok (some js) → (∀ i ∈ is, i < al.ranges.length) → ∀ i ∈ js, i < al.ranges.length := by
  induction xs with
  | nil => intro is js h hi; cases h; exact hi
  | cons x xs ih =>
    intro is js h hi
    cases x with
    | single c =>
      simp only [charSetIndices, hg.findRange] at h
      refine ih _ _ h ?_
      intro i hi'
      rcases mem_sinsert.mp hi' with rfl | hi'
      · exact hg.classOf_lt c
      · exact hi i hi'
    | range c1 c2 =>
      simp only [charSetIndices, hg.findRange] at h
      refine ih _ _ h ?_
      have hr : ∀ i ∈ rangeIncl (classOf al c1) (classOf al c2), i < al.ranges.length := by
        intro i hi'
        have := mem_rangeIncl.mp hi'
        have := hg.classOf_lt c2
        omega
      generalize rangeIncl (classOf al c1) (classOf al c2) = l at hr
      clear h
      induction l generalizing is with
      | nil => exact hi
      | cons a l ihl =>
        rw [List.foldl_cons]
        refine ihl _ ?_ (fun i h => hr i (List.mem_cons_of_mem _ h))
        intro i hi'
        rcases mem_sinsert.mp hi' with rfl | hi'
        · exact hr i (by simp)
        · exact hi i hi'

theorem wtOk_charSet {al : Alphabet} (hg : al.Good) (xs : List Characters) (neg : Bool) : WtOk al (buildCharSet al xs neg) := by
  intro s e n n' h hw
  unfold buildCharSet at h
  obtain ⟨o, h1, h2⟩ := res_bind_ok.mp h
  cases o with
  | none => cases h2; exact hw
  | some is =>
    have := charSetIndices_lt hg xs [] is h1 (by simp)
    simp only at h2
    split at h2
    · cases h2
      refine WOk.fold ?_ hw _ _
      intro i hi
      simp only [List.mem_filter, List.mem_range] at hi
      exact hi.1
    · cases h2
      exact WOk.fold this hw _ _

theorem wtOk_char {al : Alphabet} (hg : al.Good) (x : Characters) : WtOk al (buildChar al x) := by
  intro s e n n' h hw
  cases x with
  | single c =>
    simp only [buildChar, hg.findRange] at h
    cases h
    exact WOk.fold (is := [classOf al c]) (by simp [hg.classOf_lt]) hw s e
  | range c1 c2 =>
    simp only [buildChar, hg.findRange] at h
    cases h
    refine WOk.fold ?_ hw _ _
    intro i hi'
    have := mem_rangeIncl.mp hi'
    have := hg.classOf_lt c2
    omega

theorem wtOk_chain {al : Alphabet} {bs : List Builder} (h : ∀ b ∈ bs, WtOk al b) :
    ∀ {s e n n' is}, chainPatternIterator bs s e n = .ok (n', is) → WOk al n → WOk al n' := by
  induction bs with
  | nil => intro s e n n' is hc; cases hc
  | cons b bs ih =>
    intro s e n n' is hc hw
    cases bs with
    | nil =>
      unfold chainPatternIterator at hc
      obtain ⟨n1, h1, h2⟩ := res_bind_ok.mp hc
      cases h2
      exact h b (by simp) h1 hw
    | cons b' bs' =>
      simp only [chainPatternIterator, addInter_snd] at hc
      obtain ⟨n1, h1, h2⟩ := res_bind_ok.mp hc
      obtain ⟨⟨n2, is2⟩, h3, h4⟩ := res_bind_ok.mp h2
      cases h4
      exact ih (fun x hx => h x (List.mem_cons_of_mem _ hx)) h3 (h b (by simp) h1 hw.inter)

theorem wtOk_alternative {al : Alphabet} {bs : List Builder} (h : ∀ b ∈ bs, WtOk al b) : WtOk al (buildAlternative bs) := by
  induction bs with
  | nil => intro s e n n' hb hw; cases hb; exact hw
  | cons b bs ih =>
    intro s e n n' hb hw
    simp only [buildAlternative, addInter_snd, addInter_len] at hb
    obtain ⟨n1, h1, h2⟩ := res_bind_ok.mp hb
    exact ih (fun x hx => h x (List.mem_cons_of_mem _ hx)) h2 (((h b (by simp) h1 hw).eps _ _).eps _ _)

theorem wtOk_repetition {al : Alphabet} {b : Builder} (h : WtOk al b) (min : Nat) (max : Option Nat) : WtOk al (buildRepetition min max b) := by
  intro s e n n' hb hw
  unfold buildRepetition at hb
  simp only [addInter_snd, addInter_len] at hb
  generalize hn0 : (n.addIntermediateState.1.addIntermediateState.1.addEpsilonTransition s n.graph.nodes.length) = n0 at hb
  have hw0 : WOk al n0 := hn0 ▸ WOk.eps (hw.inter.inter) _ _
  have hchain : ∀ {k : Nat} {s e n n' is}, chainPatternTimes k b s e n = .ok (n', is) → WOk al n → WOk al n' :=
    fun hc hn => wtOk_chain (fun x hx => by rw [List.eq_of_mem_replicate hx]; exact h) hc hn
  split at hb
  · obtain ⟨n1, h1, h2⟩ := res_bind_ok.mp hb
    cases h2
    exact (((h h1 hw0).eps _ _).eps _ _).eps _ _
  · obtain ⟨⟨n1, is⟩, h1, h2⟩ := res_bind_ok.mp hb
    have hw1 : WOk al n1 := by
      unfold buildMandatory at h1
      split at h1
      · cases h1; exact hw0.eps _ _
      · exact hchain h1 hw0
    simp only at h2
    split at h2
    · cases h2
      exact (hw1.eps _ _).eps _ _
    · split at h2
      · cases h2
      · simp only [addInter_len, addEps_nodes] at h2
        obtain ⟨⟨n2, is2⟩, h3, h4⟩ := res_bind_ok.mp h2
        simp only at h4
        cases h4
        have hw2 := hchain h3 (WOk.inter (WOk.eps hw1.inter _ _))
        intro ed hed i hi
        rcases (foldl_eps_edges _ _ _ _).mp hed with g | ⟨m, _, rfl⟩
        · exact hw2 ed g i hi
        · cases hi

mutual
theorem wtOk_pattern {al : Alphabet} (hg : al.Good) : (p : Pattern) → WtOk al (buildNfaFromPattern al p)
  | .sequence ps => by
    intro s e n n' h hw
    unfold buildNfaFromPattern at h
    split at h
    · cases h; exact hw
    · obtain ⟨⟨n1, is⟩, h1, h2⟩ := res_bind_ok.mp h
      cases h2
      exact wtOk_chain (wtOk_patterns hg ps) h1 hw
  | .alternative ps => by
    unfold buildNfaFromPattern
    exact wtOk_alternative (wtOk_patterns hg ps)
  | .repetition min max p => by
    unfold buildNfaFromPattern
    exact wtOk_repetition (wtOk_pattern hg p) min max
  | .charSet xs neg => by
    unfold buildNfaFromPattern
    exact wtOk_charSet hg xs neg
  | .char x => by
    unfold buildNfaFromPattern
    exact wtOk_char hg x
theorem wtOk_patterns {al : Alphabet} (hg : al.Good) : (ps : List Pattern) → ∀ b ∈ buildNfaFromPatterns al ps, WtOk al b
  | [] => by simp [buildNfaFromPatterns]
  | p :: ps => by
    simp only [buildNfaFromPatterns, List.mem_cons, forall_eq_or_imp]
    exact ⟨wtOk_pattern hg p, wtOk_patterns hg ps⟩
end

theorem generateNfaLoop_weights {al : Alphabet} (hg : al.Good) (start : Nat) (rules : List TokenRule) :
    ∀ {i n n'}, generateNfaLoop al start i rules n = .ok n' → WOk al n → WOk al n' := by
  induction rules with
  | nil => intro i n n' h hw; cases h; exact hw
  | cons r rules ih =>
    intro i n n' h hw
    simp only [generateNfaLoop, addInter_snd, addAcc_snd, addInter_len] at h
    obtain ⟨n1, h1, h2⟩ := res_bind_ok.mp h
    refine ih h2 (wtOk_pattern hg _ h1 (WOk.eps ?_ _ _))
    exact hw

theorem generateNfa_weights {rules : List TokenRule} {start : Nat} {nfa : LexNfa}
    (h : generateNfa (generateAlphabet rules) rules = .ok (start, nfa)) : WOk (generateAlphabet rules) nfa := by
  unfold generateNfa at h
  obtain ⟨n1, h1, h2⟩ := res_bind_ok.mp h
  cases h2
  exact generateNfaLoop_weights (generateAlphabet_good rules) _ rules h1 (by intro ed hed; cases hed)

/-- a word of alphabet indices read by the NFA is the encoding of a text, if every range contains a char -/
theorem path_decode {al : Alphabet} (hg : al.Good) (hc : ∀ i < al.ranges.length, ∃ c : Char, classOf al c = i) {nfa : LexNfa} (hw : WOk al nfa)
    {q q' : Nat} {ws : List Nat} (hp : nfa.Path q ws q') : ∃ w : List Char, ws = w.map (classOf al) := by
  induction hp with
  | refl q => exact ⟨[], rfl⟩
  | eps _ _ ih => exact ih
  | step he _ ih =>
    obtain ⟨w, rfl⟩ := ih
    obtain ⟨c, hc⟩ := hc _ (hw _ he _ rfl)
    exact ⟨c :: w, by simp [hc]⟩

end Verif
