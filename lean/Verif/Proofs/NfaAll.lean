import Verif.Proofs.NfaRep

/-! Whole patterns and the whole NFA. -/

namespace Verif

/-! ### patterns -/

mutual
/-- the part of a pattern's language that survives the treatment of empty sequences -/
def Pattern.Live : Pattern → Lang
  | .sequence ps => if ps = [] then fun _ => False else catAll (Pattern.LiveAll ps) (fun v => v = [])
  | .alternative ps => unionAll (Pattern.LiveAll ps)
  | .repetition min max p => Lang.rep min max (Pattern.Live p)
  | .charSet cs neg => Pattern.Matches (.charSet cs neg)
  | .char x => Pattern.Matches (.char x)
/-- list version -/
def Pattern.LiveAll : List Pattern → List Lang
  | [] => []
  | p :: ps => Pattern.Live p :: Pattern.LiveAll ps
end

theorem catAll_matches : (ps : List Pattern) → catAll (ps.map Pattern.Matches) (fun v => v = []) = Pattern.SeqMatches ps
  | [] => rfl
  | p :: ps => by
    funext w
    simp only [List.map_cons, catAll, Pattern.SeqMatches, Lang.cat, catAll_matches ps]

theorem unionAll_matches : (ps : List Pattern) → unionAll (ps.map Pattern.Matches) = Pattern.AltMatches ps
  | [] => rfl
  | p :: ps => by
    funext w
    simp only [List.map_cons, unionAll, Pattern.AltMatches, unionAll_matches ps]

mutual
theorem live_eq : (p : Pattern) → p.NoEmptySeq → p.Live = p.Matches
  | .sequence ps, h => by
    simp only [Pattern.NoEmptySeq] at h
    simp only [Pattern.Live, if_neg h.1, liveAll_eq ps h.2, catAll_matches]
    rfl
  | .alternative ps, h => by
    simp only [Pattern.NoEmptySeq] at h
    simp only [Pattern.Live, liveAll_eq ps h, unionAll_matches]
    rfl
  | .repetition min max p, h => by
    simp only [Pattern.NoEmptySeq] at h
    simp only [Pattern.Live, live_eq p h]
    rfl
  | .charSet _ _, _ => rfl
  | .char _, _ => rfl
theorem liveAll_eq : (ps : List Pattern) → Pattern.AllNoEmptySeq ps → Pattern.LiveAll ps = ps.map Pattern.Matches
  | [], _ => rfl
  | p :: ps, h => by
    simp only [Pattern.AllNoEmptySeq] at h
    simp only [Pattern.LiveAll, List.map_cons, live_eq p h.1, liveAll_eq ps h.2]
end

theorem buildNfaFromPatterns_ne {al : Alphabet} {ps : List Pattern} (h : ps ≠ []) : buildNfaFromPatterns al ps ≠ [] := by
  cases ps with
  | nil => exact absurd rfl h
  | cons p ps => simp [buildNfaFromPatterns]

/-- a builder that does nothing -/
theorem builds_nothing {al : Alphabet} (L : Lang) : Builds al (fun _ _ n => .ok n) L (fun _ => False) where
  ext := by intro s e n n' h _ _; cases h; exact Ext.refl _
  complete := by intro s e n n' h _ _ w hw; exact hw.elim
  sound := by intro s e n n' h _ _ _ F hF _; cases h; exact ⟨F, fun _ _ => rfl, hF⟩

mutual
theorem builds_pattern {al : Alphabet} (hg : al.Good) :
    (p : Pattern) → NamedOk al p.Names → Builds al (buildNfaFromPattern al p) p.Matches p.Live
  | .sequence ps, hn => by
    have hall := builds_patterns hg ps (by simpa only [Pattern.Names] using hn)
    by_cases hps : ps = []
    · subst hps
      simp only [buildNfaFromPattern, Pattern.Live]
      exact builds_nothing _
    · have := builds_sequence hall (buildNfaFromPatterns_ne hps)
      rw [catAll_matches] at this
      simp only [buildNfaFromPattern, Pattern.Live, if_neg hps]
      have hf : ps.isEmpty = false := by cases ps with
        | nil => exact absurd rfl hps
        | cons => rfl
      simp only [hf]
      exact this
  | .alternative ps, hn => by
    have hall := builds_patterns hg ps (by simpa only [Pattern.Names] using hn)
    have := builds_alternative hall
    rw [unionAll_matches] at this
    simp only [buildNfaFromPattern, Pattern.Live]
    exact this
  | .repetition min max p, hn => by
    have := builds_repetition (builds_pattern hg p (by simpa only [Pattern.Names] using hn)) min max
    simp only [buildNfaFromPattern, Pattern.Live]
    exact this
  | .charSet cs neg, hn => by
    simp only [buildNfaFromPattern, Pattern.Live]
    exact builds_charSet hg cs neg (by simpa only [Pattern.Names] using hn)
  | .char x, hn => by
    simp only [buildNfaFromPattern, Pattern.Live]
    exact builds_char hg x (by simpa only [Pattern.Names] using hn)
theorem builds_patterns {al : Alphabet} (hg : al.Good) :
    (ps : List Pattern) → NamedOk al (Pattern.SomeNames ps) →
      BuildsAll al (buildNfaFromPatterns al ps) (ps.map Pattern.Matches) (Pattern.LiveAll ps)
  | [], _ => .nil
  | p :: ps, hn => by
    simp only [buildNfaFromPatterns, Pattern.LiveAll, List.map_cons]
    exact .cons (builds_pattern hg p (fun c hc => hn c (by simp only [Pattern.SomeNames]; exact Or.inl hc)))
      (builds_patterns hg ps (fun c hc => hn c (by simp only [Pattern.SomeNames]; exact Or.inr hc)))
end

/-! ### panics -/

/-- the builder never fails -/
def Total (b : Builder) : Prop := ∀ s e n, ∃ n', b s e n = .ok n'
/-- the builder always panics -/
def Panics (b : Builder) : Prop := ∀ s e n, b s e n = .error .panic

theorem chain_total {bs : List Builder} (hne : bs ≠ []) (h : ∀ b ∈ bs, Total b) :
    ∀ s e n, ∃ r, chainPatternIterator bs s e n = .ok r := by
  induction bs with
  | nil => exact absurd rfl hne
  | cons b bs ih =>
    intro s e n
    cases bs with
    | nil =>
      obtain ⟨n1, h1⟩ := h b (by simp) s e n
      exact ⟨(n1, []), by simp [chainPatternIterator, h1, bind, Except.bind]⟩
    | cons b' bs =>
      obtain ⟨n1, h1⟩ := h b (by simp) s n.graph.nodes.length n.addIntermediateState.1
      obtain ⟨⟨n2, is⟩, h2⟩ := ih (by simp) (fun x hx => h x (List.mem_cons_of_mem _ hx)) n.graph.nodes.length e n1
      refine ⟨(n2, n.graph.nodes.length :: is), ?_⟩
      simp [chainPatternIterator, h1, h2, bind, Except.bind]

theorem chain_panics {bs : List Builder} (h : ∀ b ∈ bs, Total b ∨ Panics b) (hp : ∃ b ∈ bs, Panics b) :
    ∀ s e n, chainPatternIterator bs s e n = .error .panic := by
  induction bs with
  | nil => obtain ⟨b, hb, _⟩ := hp; simp at hb
  | cons b bs ih =>
    intro s e n
    cases bs with
    | nil =>
      obtain ⟨b', hb', hp'⟩ := hp
      simp only [List.mem_singleton] at hb'
      subst hb'
      simp [chainPatternIterator, hp' s e n, bind, Except.bind]
    | cons b' bs =>
      rcases h b (by simp) with ht | hpa
      · have hp' : ∃ x ∈ b' :: bs, Panics x := by
          obtain ⟨x, hx, hx'⟩ := hp
          rcases List.mem_cons.mp hx with rfl | hx
          · obtain ⟨n1, h1⟩ := ht 0 0 {}
            rw [hx' 0 0 {}] at h1; cases h1
          · exact ⟨x, hx, hx'⟩
        obtain ⟨n1, h1⟩ := ht s n.graph.nodes.length n.addIntermediateState.1
        have h2 := ih (fun x hx => h x (List.mem_cons_of_mem _ hx)) hp' n.graph.nodes.length e n1
        simp [chainPatternIterator, h1, h2, bind, Except.bind]
      · simp [chainPatternIterator, hpa s _ _, bind, Except.bind]

theorem alternative_total {bs : List Builder} (h : ∀ b ∈ bs, Total b) : Total (buildAlternative bs) := by
  induction bs with
  | nil => intro s e n; exact ⟨n, rfl⟩
  | cons b bs ih =>
    intro s e n
    obtain ⟨n1, h1⟩ := h b (by simp) n.graph.nodes.length (n.graph.nodes.length + 1)
      n.addIntermediateState.1.addIntermediateState.1
    obtain ⟨n2, h2⟩ := ih (fun x hx => h x (List.mem_cons_of_mem _ hx)) s e
      ((n1.addEpsilonTransition s n.graph.nodes.length).addEpsilonTransition (n.graph.nodes.length + 1) e)
    exact ⟨n2, by simp [buildAlternative, h1, h2, bind, Except.bind]⟩

theorem alternative_panics {bs : List Builder} (h : ∀ b ∈ bs, Total b ∨ Panics b) (hp : ∃ b ∈ bs, Panics b) :
    Panics (buildAlternative bs) := by
  induction bs with
  | nil => obtain ⟨b, hb, _⟩ := hp; simp at hb
  | cons b bs ih =>
    intro s e n
    rcases h b (by simp) with ht | hpa
    · have hp' : ∃ x ∈ bs, Panics x := by
        obtain ⟨x, hx, hx'⟩ := hp
        rcases List.mem_cons.mp hx with rfl | hx
        · obtain ⟨n1, h1⟩ := ht 0 0 {}
          rw [hx' 0 0 {}] at h1; cases h1
        · exact ⟨x, hx, hx'⟩
      obtain ⟨n1, h1⟩ := ht n.graph.nodes.length (n.graph.nodes.length + 1)
        n.addIntermediateState.1.addIntermediateState.1
      have h2 := ih (fun x hx => h x (List.mem_cons_of_mem _ hx)) hp' s e
      simp [buildAlternative, h1, h2, bind, Except.bind]
    · simp [buildAlternative, hpa _ _ _, bind, Except.bind]

theorem repetition_total {b : Builder} {min : Nat} {max : Option Nat} (h : Total b) (hm : ∀ m, max = some m → min < m) :
    Total (buildRepetition min max b) := by
  have hrep : ∀ k, 0 < k → ∀ s e n, ∃ r, chainPatternIterator (List.replicate k b) s e n = .ok r := by
    intro k hk
    apply chain_total
    · cases k with
      | zero => omega
      | succ k => simp
    · intro x hx; rw [List.mem_replicate] at hx; rw [hx.2]; exact h
  have hmand : ∀ s e n, ∃ r, buildMandatory min b s e n = .ok r := by
    intro s e n
    unfold buildMandatory
    by_cases h0 : min = 0
    · rw [if_pos h0]; exact ⟨_, rfl⟩
    · rw [if_neg h0]; exact hrep min (by omega) s e n
  intro s e n
  cases max with
  | none =>
    cases min with
    | zero =>
      obtain ⟨n1, h1⟩ := h n.graph.nodes.length (n.graph.nodes.length + 1)
        (n.addIntermediateState.1.addIntermediateState.1.addEpsilonTransition s n.graph.nodes.length)
      exact ⟨_, by simp [buildRepetition, h1, bind, Except.bind]; rfl⟩
    | succ m =>
      obtain ⟨⟨n1, is⟩, h1⟩ := hmand n.graph.nodes.length (n.graph.nodes.length + 1)
        (n.addIntermediateState.1.addIntermediateState.1.addEpsilonTransition s n.graph.nodes.length)
      exact ⟨_, by simp only [buildRepetition, addInter_snd, addInter_len, h1, bind, Except.bind]; rfl⟩
  | some max =>
    have hm := hm max rfl
    obtain ⟨⟨n1, is⟩, h1⟩ := hmand n.graph.nodes.length (n.graph.nodes.length + 1)
      (n.addIntermediateState.1.addIntermediateState.1.addEpsilonTransition s n.graph.nodes.length)
    have h2 := hrep (max - min) (by omega) n1.graph.nodes.length (n1.graph.nodes.length + 1)
      (n1.addIntermediateState.1.addEpsilonTransition (n.graph.nodes.length + 1) n1.graph.nodes.length).addIntermediateState.1
    obtain ⟨⟨n2, is2⟩, h2⟩ := h2
    exact ⟨_, by
      simp only [buildRepetition, addInter_snd, addInter_len, addEps_nodes, h1, bind, Except.bind,
        if_neg (Nat.not_lt.mpr (Nat.le_of_lt hm)), chainPatternTimes, h2]
      rfl⟩

theorem repetition_panics {b : Builder} {min : Nat} {max : Option Nat} (hb : Total b ∨ Panics b)
    (hp : (∃ m, max = some m ∧ m ≤ min) ∨ Panics b) : Panics (buildRepetition min max b) := by
  intro s e n
  have hmand_p : Panics b → 0 < min → ∀ s e n, buildMandatory min b s e n = .error .panic := by
    intro hp h0 s e n
    unfold buildMandatory
    rw [if_neg (by omega)]
    apply chain_panics
    · intro x hx; rw [List.mem_replicate] at hx; rw [hx.2]; exact Or.inr hp
    · exact ⟨b, by rw [List.mem_replicate]; exact ⟨by omega, rfl⟩, hp⟩
  have hmand : ∀ s e n, (∃ r, buildMandatory min b s e n = .ok r) ∨ buildMandatory min b s e n = .error .panic := by
    intro s e n
    by_cases h0 : min = 0
    · left; unfold buildMandatory; rw [if_pos h0]; exact ⟨_, rfl⟩
    · rcases hb with hb | hb
      · left
        unfold buildMandatory; rw [if_neg h0]
        apply chain_total
        · cases min with
          | zero => omega
          | succ k => simp
        · intro x hx; rw [List.mem_replicate] at hx; rw [hx.2]; exact hb
      · right; exact hmand_p hb (by omega) s e n
  cases max with
  | none =>
    have hpb : Panics b := by
      rcases hp with ⟨m, h, _⟩ | h
      · cases h
      · exact h
    cases min with
    | zero => simp [buildRepetition, hpb _ _ _, bind, Except.bind]
    | succ m =>
      have := hmand_p hpb (by omega)
      simp only [buildRepetition, this, bind, Except.bind]
  | some max =>
    rcases hmand n.graph.nodes.length (n.graph.nodes.length + 1)
      (n.addIntermediateState.1.addIntermediateState.1.addEpsilonTransition s n.graph.nodes.length) with ⟨⟨n1, is⟩, h1⟩ | h1
    · simp only [buildRepetition, addInter_snd, addInter_len, h1, bind, Except.bind]
      by_cases hlt : max < min
      · rw [if_pos hlt]
      · rw [if_neg hlt]
        have hch : ∀ s e n, chainPatternTimes (max - min) b s e n = .error .panic := by
          intro s e n
          unfold chainPatternTimes
          by_cases h0 : max - min = 0
          · rw [h0]; rfl
          · have hpb : Panics b := by
              rcases hp with ⟨m, h, hle⟩ | h
              · cases h; omega
              · exact h
            apply chain_panics
            · intro x hx; rw [List.mem_replicate] at hx; rw [hx.2]; exact Or.inr hpb
            · exact ⟨b, by rw [List.mem_replicate]; exact ⟨h0, rfl⟩, hpb⟩
        simp only [hch]
    · simp only [buildRepetition, addInter_snd, addInter_len, h1, bind, Except.bind]

theorem charSet_total {al : Alphabet} (hg : al.Good) (xs : List Characters) (neg : Bool) : Total (buildCharSet al xs neg) := by
  have : ∀ is, ∃ js, charSetIndices al xs is = .ok (some js) := by
    induction xs with
    | nil => intro is; exact ⟨is, rfl⟩
    | cons x xs ih =>
      intro is
      cases x with
      | single ch =>
        simp only [charSetIndices, hg.findRange]
        exact ih _
      | range c1 c2 =>
        simp only [charSetIndices, hg.findRange]
        exact ih _
  obtain ⟨js, hj⟩ := this []
  intro s e n
  simp only [buildCharSet, hj]
  cases neg with
  | true => exact ⟨_, rfl⟩
  | false => exact ⟨_, rfl⟩

theorem char_total {al : Alphabet} (hg : al.Good) (x : Characters) : Total (buildChar al x) := by
  intro s e n
  cases x with
  | single ch => simp only [buildChar, hg.findRange]; exact ⟨_, rfl⟩
  | range c1 c2 => simp only [buildChar, hg.findRange]; exact ⟨_, rfl⟩

mutual
theorem pattern_total {al : Alphabet} (hg : al.Good) : (p : Pattern) → ¬ p.HasTightCount → Total (buildNfaFromPattern al p)
  | .sequence ps, h => by
    simp only [Pattern.HasTightCount] at h
    have hall := patterns_total hg ps h
    intro s e n
    cases ps with
    | nil => exact ⟨n, rfl⟩
    | cons p ps =>
      obtain ⟨r, hr⟩ := chain_total (buildNfaFromPatterns_ne (by simp)) hall s e n
      exact ⟨r.1, by simp only [buildNfaFromPattern, List.isEmpty, hr, bind, Except.bind]; rfl⟩
  | .alternative ps, h => by
    simp only [Pattern.HasTightCount] at h
    exact alternative_total (patterns_total hg ps h)
  | .repetition min max p, h => by
    simp only [Pattern.HasTightCount, not_or, not_exists, not_and] at h
    exact repetition_total (pattern_total hg p h.2) (fun m hm => Nat.lt_of_not_le (h.1 m hm))
  | .charSet cs neg, _ => charSet_total hg cs neg
  | .char x, _ => char_total hg x
theorem patterns_total {al : Alphabet} (hg : al.Good) :
    (ps : List Pattern) → ¬ Pattern.SomeTightCount ps → ∀ b ∈ buildNfaFromPatterns al ps, Total b
  | [], _ => by simp [buildNfaFromPatterns]
  | p :: ps, h => by
    simp only [Pattern.SomeTightCount, not_or] at h
    simp only [buildNfaFromPatterns, List.mem_cons, forall_eq_or_imp]
    exact ⟨pattern_total hg p h.1, patterns_total hg ps h.2⟩
end

theorem pattern_or {al : Alphabet} (hg : al.Good) (p : Pattern) (h : p.HasTightCount → Panics (buildNfaFromPattern al p)) :
    Total (buildNfaFromPattern al p) ∨ Panics (buildNfaFromPattern al p) := by
  by_cases hp : p.HasTightCount
  · exact Or.inr (h hp)
  · exact Or.inl (pattern_total hg p hp)

mutual
theorem pattern_panics {al : Alphabet} (hg : al.Good) : (p : Pattern) → p.HasTightCount → Panics (buildNfaFromPattern al p)
  | .sequence ps, h => by
    simp only [Pattern.HasTightCount] at h
    have hall := patterns_panics hg ps
    intro s e n
    cases ps with
    | nil => simp [Pattern.SomeTightCount] at h
    | cons p ps =>
      have hr := chain_panics hall.1 (hall.2 h) s e n
      simp only [buildNfaFromPattern, List.isEmpty, hr, bind, Except.bind]
      rfl
  | .alternative ps, h => by
    simp only [Pattern.HasTightCount] at h
    have hall := patterns_panics hg ps
    exact alternative_panics hall.1 (hall.2 h)
  | .repetition min max p, h => by
    simp only [Pattern.HasTightCount] at h
    exact repetition_panics (pattern_or hg p (pattern_panics hg p)) (h.imp id (pattern_panics hg p))
  | .charSet cs neg, h => by simp [Pattern.HasTightCount] at h
  | .char x, h => by simp [Pattern.HasTightCount] at h
theorem patterns_panics {al : Alphabet} (hg : al.Good) :
    (ps : List Pattern) → (∀ b ∈ buildNfaFromPatterns al ps, Total b ∨ Panics b) ∧
      (Pattern.SomeTightCount ps → ∃ b ∈ buildNfaFromPatterns al ps, Panics b)
  | [] => by simp [buildNfaFromPatterns, Pattern.SomeTightCount]
  | p :: ps => by
    have hp := pattern_panics hg p
    have ih := patterns_panics hg ps
    constructor
    · simp only [buildNfaFromPatterns, List.mem_cons, forall_eq_or_imp]
      exact ⟨pattern_or hg p hp, ih.1⟩
    · intro h
      simp only [Pattern.SomeTightCount] at h
      rcases h with h | h
      · exact ⟨_, by simp [buildNfaFromPatterns], hp h⟩
      · obtain ⟨b, hb, hb'⟩ := ih.2 h
        exact ⟨b, by simp [buildNfaFromPatterns, hb], hb'⟩
end

/-! ### rules -/

theorem seqMatches_fromChars (cs w : List Char) :
    Pattern.SeqMatches (cs.map fun c => .char (.single c)) w ↔ w = cs := by
  induction cs generalizing w with
  | nil => simp [Pattern.SeqMatches]
  | cons c cs ih =>
    simp only [List.map_cons, Pattern.SeqMatches, Pattern.Matches, ih, Characters.Has]
    constructor
    · rintro ⟨u, v, rfl, ⟨d, rfl, rfl⟩, rfl⟩; rfl
    · rintro rfl; exact ⟨[c], cs, rfl, ⟨c, rfl, rfl⟩, rfl⟩

theorem TokenRule.toPattern_matches (r : TokenRule) : r.toPattern.Matches = r.Matches := by
  obtain ⟨name, prec, pat⟩ := r
  cases pat with
  | literal cs =>
    funext w
    simp only [TokenRule.toPattern, TokenRule.Matches, Pattern.fromChars, Pattern.Matches, seqMatches_fromChars]
  | pattern p => rfl

theorem noEmptySeq_fromChars (cs : List Char) : Pattern.AllNoEmptySeq (cs.map fun c => .char (.single c)) := by
  induction cs with
  | nil => simp [Pattern.AllNoEmptySeq]
  | cons c cs ih => simp [Pattern.AllNoEmptySeq, Pattern.NoEmptySeq, ih]

theorem TokenRule.toPattern_noEmpty {r : TokenRule} (h : r.NoEmptySeq) : r.toPattern.NoEmptySeq := by
  obtain ⟨name, prec, pat⟩ := r
  cases pat with
  | literal cs =>
    simp only [TokenRule.NoEmptySeq] at h
    simp only [TokenRule.toPattern, Pattern.fromChars, Pattern.NoEmptySeq]
    exact ⟨by simpa using h, noEmptySeq_fromChars cs⟩
  | pattern p => exact h

theorem noTight_fromChars (cs : List Char) : ¬ Pattern.SomeTightCount (cs.map fun c => .char (.single c)) := by
  induction cs with
  | nil => simp [Pattern.SomeTightCount]
  | cons c cs ih => simp [Pattern.SomeTightCount, Pattern.HasTightCount, ih]

theorem TokenRule.toPattern_tight (r : TokenRule) : r.toPattern.HasTightCount ↔ r.HasTightCount := by
  obtain ⟨name, prec, pat⟩ := r
  cases pat with
  | literal cs => simp [TokenRule.toPattern, TokenRule.HasTightCount, Pattern.fromChars, Pattern.HasTightCount, noTight_fromChars]
  | pattern p => rfl

/-- the whole loop over rules -/
theorem Ext.accepting {n n' : LexNfa} (h : Ext n n') {q j : Nat} :
    n'.graph.nodes[q]? = some (.accepting j) ↔ n.graph.nodes[q]? = some (.accepting j) := by
  obtain ⟨ns, e, hns⟩ := h.nodes
  rw [e, List.getElem?_append]
  split
  · rfl
  · rename_i hq
    constructor
    · intro hh
      exact absurd rfl (hns _ (List.mem_of_getElem? hh) j)
    · intro hh
      have := (List.getElem?_eq_some_iff.mp hh).1
      exact absurd this hq

@[simp] theorem addAcc_snd (n : LexNfa) (i : Nat) : (n.addAcceptingState i).2 = n.graph.nodes.length := rfl
@[simp] theorem addAcc_nodes (n : LexNfa) (i : Nat) : (n.addAcceptingState i).1.graph.nodes = n.graph.nodes ++ [.accepting i] := rfl
@[simp] theorem addAcc_edges (n : LexNfa) (i : Nat) : (n.addAcceptingState i).1.graph.edges = n.graph.edges := rfl
@[simp] theorem addInter_nodes (n : LexNfa) : n.addIntermediateState.1.graph.nodes = n.graph.nodes ++ [.intermediate n.intermediateCounter] := rfl

/-- the language a rule's accepting state really gets -/
def TokenRule.Live (r : TokenRule) : Lang := r.toPattern.Live

theorem TokenRule.live_eq {r : TokenRule} (h : r.NoEmptySeq) : r.Live = r.Matches := by
  rw [TokenRule.Live, Verif.live_eq _ (TokenRule.toPattern_noEmpty h), TokenRule.toPattern_matches]

/-- what the loop establishes -/
structure LoopOk (al : Alphabet) (start i : Nat) (rules : List TokenRule) (n n' : LexNfa) : Prop where
  len : n.graph.nodes.length ≤ n'.graph.nodes.length
  old : ∀ q < n.graph.nodes.length, n'.graph.nodes[q]? = n.graph.nodes[q]?
  edges : ∀ e ∈ n.graph.edges, e ∈ n'.graph.edges
  wf : n.WF → n'.WF
  complete : ∀ k r, rules[k]? = some r → ∃ q, n'.graph.nodes[q]? = some (.accepting (i + k)) ∧
    ∀ w, r.Live w → n'.Path start (w.map (classOf al)) q
  sound : n.WF → ∀ (K : Nat → Lang) (F : Nat → Lang), Closed al n F →
    (∀ q j, n.graph.nodes[q]? = some (.accepting j) → F q = K j) →
    (∀ k r, rules[k]? = some r → ∀ w, Lang.cat r.Matches (K (i + k)) w → F start w) →
    ∃ F', Closed al n' F' ∧ (∀ q j, n'.graph.nodes[q]? = some (.accepting j) → F' q = K j) ∧ F' start = F start
  labels : ∀ q j : Nat, n'.graph.nodes[q]? = some (.accepting j) → n.graph.nodes[q]? = some (.accepting j) ∨ (i ≤ j ∧ j < i + rules.length)

theorem path_mono {n n' : LexNfa} (h : ∀ e ∈ n.graph.edges, e ∈ n'.graph.edges) {q q' : Nat} {w : List Nat} (hp : n.Path q w q') :
    n'.Path q w q' := by
  induction hp with
  | refl q => exact .refl q
  | eps he _ ih => exact .eps (h _ he) ih
  | step he _ ih => exact .step (h _ he) ih

theorem generateNfaLoop_ok {al : Alphabet} (hg : al.Good) (start : Nat) (rules : List TokenRule)
    (hn : ∀ r ∈ rules, NamedOk al r.toPattern.Names) :
    ∀ {i n n'}, generateNfaLoop al start i rules n = .ok n' → start < n.graph.nodes.length →
      LoopOk al start i rules n n' := by
  induction rules with
  | nil =>
    intro i n n' h _
    simp only [generateNfaLoop] at h
    cases h
    exact ⟨Nat.le_refl _, fun _ _ => rfl, fun _ h => h, id, by simp, fun _ K F hF hK _ => ⟨F, hF, hK, rfl⟩, fun q j h => Or.inl h⟩
  | cons r rules ih =>
    intro i n n' h hs
    simp only [generateNfaLoop, addInter_snd, addAcc_snd, addInter_len] at h
    generalize hN : n.graph.nodes.length = N at *
    generalize hn0 : (n.addIntermediateState.1.addAcceptingState i).1.addEpsilonTransition start N = n0 at h
    have hl0 : n0.graph.nodes.length = N + 2 := by rw [← hn0]; simp [hN]
    have hnodes0 : n0.graph.nodes = n.graph.nodes ++ [.intermediate n.intermediateCounter, .accepting i] := by
      rw [← hn0]; simp
    have hed0 : n0.graph.edges = n.graph.edges ++ [⟨start, N, .epsilon⟩] := by rw [← hn0]; simp
    have hwf0 : n.WF → n0.WF := by
      intro hw e he
      rw [hed0] at he
      rcases List.mem_append.mp he with h1 | h1
      · have := hw e h1; omega
      · simp at h1; subst h1; simp only; omega
    have hb := builds_pattern hg r.toPattern (hn r (by simp))
    rw [TokenRule.toPattern_matches] at hb
    rcases hn1 : buildNfaFromPattern al r.toPattern N (N + 1) n0 with err | n1
    · rw [hn1] at h; cases h
    · rw [hn1] at h
      simp only [bind, Except.bind] at h
      have hx1 : Ext n0 n1 := hb.ext hn1 (by omega) (by omega)
      have hl1 := hx1.len
      have ihh := ih (fun x hx => hn x (List.mem_cons_of_mem _ hx)) h (by omega)
      have hlen2 := ihh.len
      have hacc1 : ∀ q j, n1.graph.nodes[q]? = some (.accepting j) → (n.graph.nodes[q]? = some (.accepting j)) ∨ (q = N + 1 ∧ j = i) := by
        intro q j hq
        rw [hx1.accepting, hnodes0, List.getElem?_append] at hq
        split at hq
        · exact Or.inl hq
        · right
          rename_i hlt
          have : q = N ∨ q = N + 1 ∨ N + 2 ≤ q := by omega
          rcases this with rfl | rfl | h2
          · simp [hN] at hq
          · simp [hN] at hq; exact ⟨rfl, hq.symm⟩
          · have : 2 ≤ q - n.graph.nodes.length := by omega
            rw [List.getElem?_eq_none (by simpa using this)] at hq
            cases hq
      have hold1 : ∀ q < N, n1.graph.nodes[q]? = n.graph.nodes[q]? := by
        intro q hq
        obtain ⟨ns, e, _⟩ := hx1.nodes
        rw [e, hnodes0, List.append_assoc, List.getElem?_append_left (by omega)]
      refine ⟨by omega, ?_, ?_, fun hw => ihh.wf (hx1.wf (hwf0 hw)), ?_, ?_, ?_⟩
      · intro q hq
        rw [ihh.old q (by omega), hold1 q (by omega)]
      · intro e he
        exact ihh.edges e (hx1.mem (by rw [hed0]; simp [he]))
      · intro k r' hk
        cases k with
        | zero =>
          simp only [List.getElem?_cons_zero, Option.some.injEq] at hk
          subst hk
          refine ⟨N + 1, ?_, ?_⟩
          · rw [ihh.old _ (by omega), hx1.accepting, hnodes0, List.getElem?_append_right (by omega), hN]
            simp
          · intro w hw
            have p1 := hb.complete hn1 (by omega) (by omega) w hw
            exact path_mono ihh.edges (.eps (hx1.mem (by rw [hed0]; simp)) p1)
        | succ k =>
          obtain ⟨q, h1, h2⟩ := ihh.complete k r' (by simpa using hk)
          exact ⟨q, by rw [h1]; congr 2; omega, h2⟩
      · intro hw K F hF hK hM
        let F0 := upd (upd F (N + 1) (K i)) N (Lang.cat r.Matches (K i))
        have h0 : ∀ q < N, F0 q = F q := by
          intro q hq
          simp only [F0]
          rw [upd_ne _ _ (by omega), upd_ne _ _ (by omega)]
        have hN0 : F0 N = Lang.cat r.Matches (K i) := upd_same _ _ _
        have hN1 : F0 (N + 1) = K i := by simp only [F0]; rw [upd_ne _ _ (by omega), upd_same]
        have c0 : Closed al n0 F0 := closed_addSimple hw hF (by rw [hN]; exact h0) hed0 (by
          rw [hN0, h0 start hs]
          exact hM 0 r (by simp))
        obtain ⟨F1, a1, a2⟩ := hb.sound hn1 (by omega) (by omega) (hwf0 hw) F0 c0 (by
          rw [hN0, hN1]; exact fun w h => h)
        have f0 : ∀ q < N, F1 q = F q := fun q hq => by rw [a1 q (by omega), h0 q hq]
        obtain ⟨F2, b1, b2, b3⟩ := ihh.sound (hx1.wf (hwf0 hw)) K F1 a2 (by
          intro q j hq
          rcases hacc1 q j hq with h1 | ⟨rfl, rfl⟩
          · rw [f0 q (by have := (List.getElem?_eq_some_iff.mp h1).1; omega)]
            exact hK q j h1
          · rw [a1 _ (by omega), hN1]) (by
          intro k r' hk w hw
          rw [f0 start hs]
          exact hM (k + 1) r' (by simpa using hk) w (by rw [show i + (k + 1) = i + 1 + k by omega]; exact hw))
        exact ⟨F2, b1, b2, by rw [b3, f0 start hs]⟩
      · intro q j hq
        rcases ihh.labels q j hq with h1 | h1
        · rcases hacc1 q j h1 with h2 | ⟨_, rfl⟩
          · exact Or.inl h2
          · right; simp
        · right; simp; omega

theorem generateNfaLoop_total {al : Alphabet} (hg : al.Good) (start : Nat) (rules : List TokenRule) :
    (∀ i n, (∃ r ∈ rules, r.HasTightCount) → generateNfaLoop al start i rules n = .error .panic) ∧
    (∀ i n, (¬ ∃ r ∈ rules, r.HasTightCount) → ∃ n', generateNfaLoop al start i rules n = .ok n') := by
  induction rules with
  | nil => exact ⟨by simp, fun i n _ => ⟨n, rfl⟩⟩
  | cons r rules ih =>
    constructor
    · rintro i n ⟨x, hx, ht⟩
      simp only [generateNfaLoop, addInter_snd, addAcc_snd, addInter_len]
      by_cases hr : r.HasTightCount
      · rw [pattern_panics hg _ ((TokenRule.toPattern_tight r).mpr hr)]
        rfl
      · obtain ⟨n1, h1⟩ := pattern_total hg r.toPattern (fun h => hr ((TokenRule.toPattern_tight r).mp h))
          n.graph.nodes.length (n.graph.nodes.length + 1)
          ((n.addIntermediateState.1.addAcceptingState i).1.addEpsilonTransition start n.graph.nodes.length)
        rw [h1]
        have : ∃ r ∈ rules, r.HasTightCount := by
          rcases List.mem_cons.mp hx with rfl | hx
          · exact absurd ht hr
          · exact ⟨x, hx, ht⟩
        exact ih.1 _ _ this
    · intro i n h
      have hr : ¬ r.HasTightCount := fun hh => h ⟨r, by simp, hh⟩
      simp only [generateNfaLoop, addInter_snd, addAcc_snd, addInter_len]
      obtain ⟨n1, h1⟩ := pattern_total hg r.toPattern (fun h => hr ((TokenRule.toPattern_tight r).mp h))
          n.graph.nodes.length (n.graph.nodes.length + 1)
          ((n.addIntermediateState.1.addAcceptingState i).1.addEpsilonTransition start n.graph.nodes.length)
      rw [h1]
      exact ih.2 _ _ (fun ⟨x, hx, ht⟩ => h ⟨x, List.mem_cons_of_mem _ hx, ht⟩)

theorem TokenRule.toPattern_names (r : TokenRule) (c : Char) (h : r.toPattern.Names c) : r.Names c := by
  obtain ⟨name, prec, pat⟩ := r
  cases pat with
  | literal cs =>
    simp only [TokenRule.toPattern, Pattern.fromChars, Pattern.Names] at h
    simp only [TokenRule.Names]
    clear prec name
    induction cs with
    | nil => simp [Pattern.SomeNames] at h
    | cons a cs ih =>
      simp only [List.map_cons, Pattern.SomeNames, Pattern.Names, Characters.Names] at h
      rcases h with h | h
      · simp [h]
      · exact List.mem_cons_of_mem _ (ih h)
  | pattern p => exact h

/-- the facts about the generated NFA that everything later uses -/
theorem generateNfa_ok {rules : List TokenRule} {start : Nat} {nfa : LexNfa}
    (h : generateNfa (generateAlphabet rules) rules = .ok (start, nfa)) :
    start = 0 ∧ 0 < nfa.graph.nodes.length ∧ nfa.WF ∧ nfa.graph.nodes[0]? = some (.intermediate 0) ∧
    (∀ q j w, nfa.graph.nodes[q]? = some (.accepting j) → nfa.Path start (w.map (classOf (generateAlphabet rules))) q →
      ∃ r, rules[j]? = some r ∧ r.Matches w) ∧
    (∀ j r, rules[j]? = some r → ∃ q, nfa.graph.nodes[q]? = some (.accepting j) ∧
      ∀ w, r.Live w → nfa.Path start (w.map (classOf (generateAlphabet rules))) q) ∧
    (∀ q j : Nat, nfa.graph.nodes[q]? = some (.accepting j) → j < rules.length) := by
  simp only [generateNfa] at h
  generalize hn0 : ({} : LexNfa).addIntermediateState = p0 at h
  have e0 : p0 = (({} : LexNfa).addIntermediateState) := hn0.symm
  rcases hn1 : generateNfaLoop (generateAlphabet rules) p0.2 0 rules p0.1 with err | n1
  · simp only [hn1, bind, Except.bind] at h; cases h
  · simp only [hn1, bind, Except.bind] at h
    cases h
    have hs : p0.2 = 0 := by rw [e0]; rfl
    have hnd : p0.1.graph.nodes = [.intermediate 0] := by rw [e0]; rfl
    have hed : p0.1.graph.edges = [] := by rw [e0]; rfl
    have hl : p0.1.graph.nodes.length = 1 := by rw [hnd]; rfl
    have hok := generateNfaLoop_ok (generateAlphabet_good rules) p0.2 rules
      (fun r hr c hc => generateAlphabet_named hr (r.toPattern_names c hc)) hn1 (by rw [hs, hl]; exact Nat.zero_lt_one)
    have hwf : p0.1.WF := by intro e he; rw [hed] at he; cases he
    have hlen := hok.len
    refine ⟨hs, by omega, hok.wf hwf, ?_, ?_, ?_, ?_⟩
    · rw [hok.old 0 (by omega), hnd]; rfl
    · intro q j w hq hp
      obtain ⟨F', c1, c2, c3⟩ := hok.sound hwf (fun i => if i = j then (fun v => v = []) else fun _ => False)
        (fun _ w => ∃ k r, rules[k]? = some r ∧ Lang.cat r.Matches (if k = j then (fun v => v = []) else fun _ => False) w)
        (by intro e he; rw [hed] at he; cases he)
        (by
          intro q' j' hq'
          rw [hnd] at hq'
          cases q' with
          | zero => simp at hq'
          | succ q' => simp at hq')
        (by
          intro k r hk w hw
          exact ⟨k, r, hk, by simpa using hw⟩)
      have := c1.path hp w [] rfl (by rw [c2 q j hq]; simp)
      rw [c3] at this
      obtain ⟨k, r, hk, u, v, huv, hu, hv⟩ := this
      by_cases hkj : k = j
      · subst hkj
        simp only [if_true] at hv
        subst hv
        simp only [List.append_nil] at huv
        subst huv
        exact ⟨r, hk, hu⟩
      · rw [if_neg hkj] at hv; exact hv.elim
    · intro j r hj
      obtain ⟨q, h1, h2⟩ := hok.complete j r hj
      exact ⟨q, by simpa using h1, h2⟩
    · intro q j hq
      rcases hok.labels q j hq with h1 | h1
      · rw [hnd] at h1
        cases q with
        | zero => simp at h1
        | succ q => simp at h1
      · omega

/-- accepting states have distinct rules -/
theorem generateNfaLoop_unique {al : Alphabet} (hg : al.Good) (start : Nat) (rules : List TokenRule)
    (hn : ∀ r ∈ rules, NamedOk al r.toPattern.Names) :
    ∀ {i n n'}, generateNfaLoop al start i rules n = .ok n' → start < n.graph.nodes.length →
      (∀ q j : Nat, n.graph.nodes[q]? = some (.accepting j) → j < i) →
      (∀ q q' j : Nat, n.graph.nodes[q]? = some (.accepting j) → n.graph.nodes[q']? = some (.accepting j) → q = q') →
      (∀ q q' j : Nat, n'.graph.nodes[q]? = some (.accepting j) → n'.graph.nodes[q']? = some (.accepting j) → q = q') := by
  induction rules with
  | nil =>
    intro i n n' h _ _ hu
    simp only [generateNfaLoop] at h
    cases h
    exact hu
  | cons r rules ih =>
    intro i n n' h hs hlt hu
    simp only [generateNfaLoop, addInter_snd, addAcc_snd, addInter_len] at h
    generalize hN : n.graph.nodes.length = N at *
    generalize hn0 : (n.addIntermediateState.1.addAcceptingState i).1.addEpsilonTransition start N = n0 at h
    have hl0 : n0.graph.nodes.length = N + 2 := by rw [← hn0]; simp [hN]
    have hnodes0 : n0.graph.nodes = n.graph.nodes ++ [.intermediate n.intermediateCounter, .accepting i] := by
      rw [← hn0]; simp
    have hb := builds_pattern hg r.toPattern (hn r (by simp))
    rcases hn1 : buildNfaFromPattern al r.toPattern N (N + 1) n0 with err | n1
    · rw [hn1] at h; cases h
    · rw [hn1] at h
      simp only [bind, Except.bind] at h
      have hx1 : Ext n0 n1 := hb.ext hn1 (by omega) (by omega)
      have hl1 := hx1.len
      have hacc1 : ∀ q j : Nat, n1.graph.nodes[q]? = some (.accepting j) →
          (n.graph.nodes[q]? = some (.accepting j)) ∨ (q = N + 1 ∧ j = i) := by
        intro q j hq
        rw [hx1.accepting, hnodes0, List.getElem?_append] at hq
        split at hq
        · exact Or.inl hq
        · right
          have : q = N ∨ q = N + 1 ∨ N + 2 ≤ q := by omega
          rcases this with rfl | rfl | h2
          · simp [hN] at hq
          · simp [hN] at hq; exact ⟨rfl, hq.symm⟩
          · have : 2 ≤ q - n.graph.nodes.length := by omega
            rw [List.getElem?_eq_none (by simpa using this)] at hq
            cases hq
      refine ih (fun x hx => hn x (List.mem_cons_of_mem _ hx)) h (by omega) ?_ ?_
      · intro q j hq
        rcases hacc1 q j hq with h1 | ⟨_, rfl⟩
        · have := hlt q j h1; omega
        · omega
      · intro q q' j h1 h2
        rcases hacc1 q j h1 with g1 | ⟨rfl, rfl⟩
        · rcases hacc1 q' j h2 with g2 | ⟨rfl, rfl⟩
          · exact hu q q' j g1 g2
          · have := hlt q _ g1; omega
        · rcases hacc1 q' _ h2 with g2 | ⟨rfl, _⟩
          · have := hlt q' _ g2; omega
          · rfl

theorem generateNfa_unique {rules : List TokenRule} {start : Nat} {nfa : LexNfa}
    (h : generateNfa (generateAlphabet rules) rules = .ok (start, nfa)) :
    ∀ q q' j : Nat, nfa.graph.nodes[q]? = some (.accepting j) → nfa.graph.nodes[q']? = some (.accepting j) → q = q' := by
  simp only [generateNfa] at h
  generalize hn0 : ({} : LexNfa).addIntermediateState = p0 at h
  have e0 : p0 = (({} : LexNfa).addIntermediateState) := hn0.symm
  rcases hn1 : generateNfaLoop (generateAlphabet rules) p0.2 0 rules p0.1 with err | n1
  · simp only [hn1, bind, Except.bind] at h; cases h
  · simp only [hn1, bind, Except.bind] at h
    cases h
    have hs : p0.2 = 0 := by rw [e0]; rfl
    have hnd : p0.1.graph.nodes = [.intermediate 0] := by rw [e0]; rfl
    have hno : ∀ q j : Nat, p0.1.graph.nodes[q]? = some (.accepting j) → False := by
      intro q j hq
      rw [hnd] at hq
      cases q with
      | zero => simp at hq
      | succ q => simp at hq
    exact generateNfaLoop_unique (generateAlphabet_good rules) p0.2 rules
      (fun r hr c hc => generateAlphabet_named hr (r.toPattern_names c hc)) hn1 (by rw [hs, hnd]; exact Nat.zero_lt_one)
      (fun q j hq => (hno q j hq).elim) (fun q q' j hq => (hno q j hq).elim)

theorem inRange_iff {al : Alphabet} (hg : al.Good) (c : Char) (i : Nat) : InRange al.ranges c.toNat i ↔ i = classOf al c := by
  obtain ⟨s, e, h1, h2, h3⟩ := hg.range c
  constructor
  · rintro ⟨lo, hi, g1, g2, g3⟩
    rcases Nat.lt_trichotomy i (classOf al c) with h | h | h
    · have := Tiles.get_mono hg g1 h1 h
      simp only at this; omega
    · exact h
    · have := Tiles.get_mono hg h1 g1 h
      simp only at this; omega
  · rintro rfl
    exact ⟨s, e, h1, h2, h3⟩

theorem encodes_iff {al : Alphabet} (hg : al.Good) (w : List Char) (ws : List Nat) :
    Encodes al.ranges w ws ↔ ws = w.map (classOf al) := by
  induction w generalizing ws with
  | nil =>
    constructor
    · intro h; cases h; rfl
    · rintro rfl; exact .nil
  | cons c w ih =>
    constructor
    · intro h
      cases h with
      | cons h1 h2 => rw [(inRange_iff hg c _).mp h1, (ih _).mp h2]; rfl
    · rintro rfl
      exact .cons ((inRange_iff hg c _).mpr rfl) ((ih _).mpr rfl)

end Verif
