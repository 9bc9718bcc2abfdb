import Verif.Model.Lexer
import Verif.Spec.Alphabet
import Verif.Proofs.Collections

/-! Lemmas about the lexer alphabet. -/

namespace Verif

/-! ### collecting chars -/

theorem mem_getCharsFromCharacters {cs : List Char} {x : Characters} {d : Char} :
    d ∈ getCharsFromCharacters cs x ↔ d ∈ cs ∨ x.Names d := by
  cases x <;> simp [getCharsFromCharacters, Characters.Names] <;> grind

theorem mem_foldl_getChars {xs : List Characters} {cs : List Char} {d : Char} :
    d ∈ xs.foldl getCharsFromCharacters cs ↔ d ∈ cs ∨ ∃ x ∈ xs, x.Names d := by
  induction xs generalizing cs with
  | nil => simp
  | cons x xs ih => simp only [List.foldl_cons, ih, mem_getCharsFromCharacters]; grind

mutual
theorem mem_getCharsFromPattern {cs : List Char} {p : Pattern} {d : Char} :
    d ∈ getCharsFromPattern cs p ↔ d ∈ cs ∨ p.Names d := by
  match p with
  | .sequence ps => simpa [getCharsFromPattern, Pattern.Names] using mem_getCharsFromPatterns
  | .alternative ps => simpa [getCharsFromPattern, Pattern.Names] using mem_getCharsFromPatterns
  | .repetition _ _ q => simpa [getCharsFromPattern, Pattern.Names] using mem_getCharsFromPattern
  | .charSet xs _ => simpa [getCharsFromPattern, Pattern.Names] using mem_foldl_getChars
  | .char x => simpa [getCharsFromPattern, Pattern.Names] using mem_getCharsFromCharacters
theorem mem_getCharsFromPatterns {cs : List Char} {ps : List Pattern} {d : Char} :
    d ∈ getCharsFromPatterns cs ps ↔ d ∈ cs ∨ Pattern.SomeNames ps d := by
  match ps with
  | [] => simp [getCharsFromPatterns, Pattern.SomeNames]
  | p :: ps =>
    simp only [getCharsFromPatterns, Pattern.SomeNames, mem_getCharsFromPatterns (ps := ps),
      mem_getCharsFromPattern (p := p)]
    grind
end

theorem getCharsFromCharacters_sorted {cs : List Char} (h : SSorted cs) (x : Characters) :
    SSorted (getCharsFromCharacters cs x) := by
  cases x
  · exact sinsert_sorted h
  · exact sinsert_sorted (sinsert_sorted h)

mutual
theorem getCharsFromPattern_sorted {cs : List Char} (h : SSorted cs) (p : Pattern) :
    SSorted (getCharsFromPattern cs p) := by
  match p with
  | .sequence ps => simpa [getCharsFromPattern] using getCharsFromPatterns_sorted h ps
  | .alternative ps => simpa [getCharsFromPattern] using getCharsFromPatterns_sorted h ps
  | .repetition _ _ q => simpa [getCharsFromPattern] using getCharsFromPattern_sorted h q
  | .charSet xs _ =>
    simp only [getCharsFromPattern]
    induction xs generalizing cs with
    | nil => exact h
    | cons x xs ih => exact ih (getCharsFromCharacters_sorted h x)
  | .char x => simpa [getCharsFromPattern] using getCharsFromCharacters_sorted h x
theorem getCharsFromPatterns_sorted {cs : List Char} (h : SSorted cs) (ps : List Pattern) :
    SSorted (getCharsFromPatterns cs ps) := by
  match ps with
  | [] => simpa [getCharsFromPatterns] using h
  | p :: ps =>
    simp only [getCharsFromPatterns]
    exact getCharsFromPatterns_sorted (getCharsFromPattern_sorted h p) ps
end

theorem someNames_map_single {cs : List Char} {d : Char} :
    Pattern.SomeNames (cs.map (fun c => .char (.single c))) d ↔ d ∈ cs := by
  induction cs with
  | nil => simp [Pattern.SomeNames]
  | cons c cs ih => simp [Pattern.SomeNames, ih, Pattern.Names, Characters.Names]

theorem toPattern_names {r : TokenRule} {d : Char} : r.toPattern.Names d ↔ r.Names d := by
  obtain ⟨n, q, pat⟩ := r
  cases pat with
  | literal cs => simp [TokenRule.toPattern, TokenRule.Names, Pattern.fromChars, Pattern.Names, someNames_map_single]
  | pattern p => simp [TokenRule.toPattern, TokenRule.Names]

theorem mem_alphabetChars {rules : List TokenRule} {d : Char} :
    d ∈ alphabetChars rules ↔ d = charMax ∨ d = Char.ofNat 0 ∨ ∃ r ∈ rules, r.Names d := by
  have key : ∀ cs : List Char,
      d ∈ rules.foldl (fun cs r => getCharsFromPattern cs r.toPattern) cs ↔ d ∈ cs ∨ ∃ r ∈ rules, r.Names d := by
    induction rules with
    | nil => simp
    | cons r rules ih =>
      intro cs
      simp only [List.foldl_cons, ih, mem_getCharsFromPattern, toPattern_names]
      grind
  simp [alphabetChars, key]

theorem alphabetChars_sorted (rules : List TokenRule) : SSorted (alphabetChars rules) := by
  have key : ∀ cs : List Char, SSorted cs →
      SSorted (rules.foldl (fun cs r => getCharsFromPattern cs r.toPattern) cs) := by
    induction rules with
    | nil => intro cs h; exact h
    | cons r rules ih => intro cs h; exact ih _ (getCharsFromPattern_sorted h _)
  exact sinsert_sorted (sinsert_sorted (key [] List.Pairwise.nil))

theorem charKey_lt {a b : Char} : Key.key a < Key.key b ↔ a.toNat < b.toNat := by
  simp [Key.key, List.cons_lt_cons_iff]

theorem sorted_le_getLast {l : List Nat} (hs : l.Pairwise (· < ·)) (hn : l ≠ []) :
    ∀ x ∈ l, x ≤ l.getLast hn := by
  induction l with
  | nil => simp
  | cons a l ih =>
    have h1 := List.pairwise_cons.mp hs
    intro x hx
    cases l with
    | nil => simp at hx; simp [hx]
    | cons b l =>
      rw [List.getLast_cons (by simp)]
      rcases List.mem_cons.mp hx with rfl | hx
      · have := h1.1 ((b :: l).getLast (by simp)) (List.getLast_mem _)
        omega
      · exact ih h1.2 (by simp) x hx

theorem alphabetNats_sorted (rules : List TokenRule) :
    ((alphabetChars rules).map Char.toNat).Pairwise (· < ·) := by
  rw [List.pairwise_map]
  exact (alphabetChars_sorted rules).imp (fun h => charKey_lt.mp h)

/-! ### the ranges -/

theorem alphabetLoop_tiles {prev : Nat} {rest : List Nat} (h : (prev :: rest).Pairwise (· < ·)) :
    Tiles (prev + 1) (alphabetLoop prev rest) ((prev :: rest).getLast (by simp) + 1) := by
  induction rest generalizing prev with
  | nil => simp [alphabetLoop, Tiles]
  | cons ch rest ih =>
    have h1 := List.pairwise_cons.mp h
    have hlt := h1.1 ch (by simp)
    have ih := ih h1.2
    rw [List.getLast_cons (by simp)]
    simp only [alphabetLoop]
    split
    · simp only [List.singleton_append, Tiles, true_and]
      refine ⟨by omega, by omega, Nat.le_refl _, ih⟩
    · simp only [List.nil_append, Tiles]
      exact ⟨by omega, Nat.le_refl _, ih⟩

theorem mem_alphabetLoop {prev : Nat} {rest : List Nat} {c : Nat} (h : c ∈ rest) :
    (c, c) ∈ alphabetLoop prev rest := by
  induction rest generalizing prev with
  | nil => simp at h
  | cons ch rest ih =>
    simp only [alphabetLoop, List.mem_append, List.mem_cons]
    rcases List.mem_cons.mp h with rfl | h
    · exact Or.inr (Or.inl rfl)
    · exact Or.inr (Or.inr (ih h))

theorem charMax_toNat : charMax.toNat = 0x10FFFF := by decide

theorem char_lt (c : Char) : c.toNat < 0x110000 := by
  have := c.valid
  simp only [Char.toNat]
  rcases this with h | ⟨_, h⟩
  · omega
  · exact h

theorem generateAlphabet_shape (rules : List TokenRule) :
    ∃ rest, (alphabetChars rules).map Char.toNat = 0 :: rest ∧
      generateAlphabet rules = ⟨(0, 0) :: alphabetLoop 0 rest⟩ ∧
      (0 :: rest).getLast (by simp) = 0x10FFFF := by
  have hs := alphabetNats_sorted rules
  have hm0 : 0 ∈ (alphabetChars rules).map Char.toNat :=
    List.mem_map.mpr ⟨Char.ofNat 0, mem_alphabetChars.mpr (Or.inr (Or.inl rfl)), by decide⟩
  have hmx : 0x10FFFF ∈ (alphabetChars rules).map Char.toNat :=
    List.mem_map.mpr ⟨charMax, mem_alphabetChars.mpr (Or.inl rfl), charMax_toNat⟩
  have hle : ∀ x ∈ (alphabetChars rules).map Char.toNat, x ≤ 0x10FFFF := by
    intro x hx
    obtain ⟨c, _, rfl⟩ := List.mem_map.mp hx
    have := char_lt c
    omega
  unfold generateAlphabet
  generalize (alphabetChars rules).map Char.toNat = l at *
  cases l with
  | nil => simp at hm0
  | cons prev rest =>
    have h1 := List.pairwise_cons.mp hs
    have : prev = 0 := by
      rcases List.mem_cons.mp hm0 with h | h
      · exact h.symm
      · have := h1.1 0 h; omega
    subst this
    refine ⟨rest, rfl, rfl, ?_⟩
    have hl := hle _ (List.getLast_mem (by simp : (0 :: rest) ≠ []))
    have h2 := sorted_le_getLast hs (by simp)
    have := h2 _ hmx
    omega

theorem generateAlphabet_tiles (rules : List TokenRule) : Tiles 0 (generateAlphabet rules).ranges 0x110000 := by
  obtain ⟨rest, h1, h2, h3⟩ := generateAlphabet_shape rules
  have hs := alphabetNats_sorted rules
  rw [h1] at hs
  have := alphabetLoop_tiles hs
  rw [h3] at this
  rw [h2]
  exact ⟨rfl, Nat.le_refl _, this⟩

theorem generateAlphabet_named {rules : List TokenRule} {r : TokenRule} {c : Char} (hr : r ∈ rules)
    (hc : r.Names c) : (c.toNat, c.toNat) ∈ (generateAlphabet rules).ranges := by
  obtain ⟨rest, h1, h2, _⟩ := generateAlphabet_shape rules
  have hm : c.toNat ∈ (alphabetChars rules).map Char.toNat :=
    List.mem_map.mpr ⟨c, mem_alphabetChars.mpr (Or.inr (Or.inr ⟨r, hr, hc⟩)), rfl⟩
  rw [h1] at hm
  rw [h2]
  rcases List.mem_cons.mp hm with h | h
  · rw [h]; simp
  · exact List.mem_cons_of_mem _ (mem_alphabetLoop h)

/-! ### lookup -/

theorem Tiles.lo_le {lo hi : Nat} {rs : List (Nat × Nat)} (h : Tiles lo rs hi) : lo ≤ hi := by
  induction rs generalizing lo with
  | nil => simp [Tiles] at h; omega
  | cons r rs ih => obtain ⟨s, e⟩ := r; obtain ⟨h1, h2, h3⟩ := h; have := ih h3; omega

theorem Tiles.mem_lo {lo hi : Nat} {rs : List (Nat × Nat)} (h : Tiles lo rs hi) {r : Nat × Nat} (hr : r ∈ rs) :
    lo ≤ r.1 ∧ r.1 ≤ r.2 ∧ r.2 < hi := by
  induction rs generalizing lo with
  | nil => simp at hr
  | cons q rs ih =>
    obtain ⟨s, e⟩ := q
    obtain ⟨h1, h2, h3⟩ := h
    rcases List.mem_cons.mp hr with rfl | hr
    · have := h3.lo_le; simp; omega
    · have := ih h3 hr; omega

/-- the unique range containing a code point -/
theorem Tiles.lookup {lo hi : Nat} {rs : List (Nat × Nat)} (h : Tiles lo rs hi) {c : Nat} (h1 : lo ≤ c) (h2 : c < hi) :
    ∃ i s e, rs[i]? = some (s, e) ∧ s ≤ c ∧ c ≤ e ∧
      rs.findIdx? (fun r => r.1 ≤ c ∧ c ≤ r.2) = some i ∧
      binarySearchStart rs c = (if s = c then .inl i else .inr (i + 1)) := by
  induction rs generalizing lo with
  | nil => simp [Tiles] at h; omega
  | cons q rs ih =>
    obtain ⟨s, e⟩ := q
    obtain ⟨t1, t2, t3⟩ := h
    by_cases hc : c ≤ e
    · refine ⟨0, s, e, rfl, by omega, hc, ?_, ?_⟩
      · simp only [List.findIdx?_cons]
        have : s ≤ c ∧ c ≤ e := ⟨by omega, hc⟩
        simp [this]
      · by_cases hsc : s = c
        · simp [binarySearchStart, List.findIdx?_cons, hsc]
        · have hn : ∀ r ∈ rs, c < r.1 := fun r hr => by have := t3.mem_lo hr; omega
          have hf : rs.findIdx? (fun r => decide (r.1 = c)) = none := by
            rw [List.findIdx?_eq_none_iff]
            intro r hr
            have := hn r hr
            simp; omega
          have hcount : rs.countP (fun r => decide (r.1 < c)) = 0 := by
            rw [List.countP_eq_zero]
            intro r hr
            have := hn r hr
            simp; omega
          have : s < c := by omega
          simp [binarySearchStart, List.findIdx?_cons, hsc, hf, List.countP_cons, hcount, this]
    · obtain ⟨i, s', e', g1, g2, g3, g4, g5⟩ := ih t3 (by omega)
      refine ⟨i + 1, s', e', by simpa using g1, g2, g3, ?_, ?_⟩
      · simp only [List.findIdx?_cons, g4]
        have : ¬ (s ≤ c ∧ c ≤ e) := by omega
        simp [this]
      · have hs : s ≠ c := by omega
        have hlt : s < c := by omega
        unfold binarySearchStart at g5 ⊢
        simp only [List.findIdx?_cons, hs, decide_false, Bool.false_eq_true, if_false]
        split at g5
        · rename_i j hj
          rw [hj]
          split at g5
          · rename_i hsc; cases g5; simp [hsc]
          · exact absurd g5 (by simp)
        · rename_i hj
          rw [hj]
          split at g5
          · exact absurd g5 (by simp)
          · rename_i hsc
            simp only [Option.map_none, List.countP_cons, hlt, decide_true, if_true, hsc, if_false]
            have g6 : rs.countP (fun r => decide (r.1 < c)) = i + 1 := by
              injection g5
            rw [g6]

theorem Tiles.get_mono {lo hi : Nat} {rs : List (Nat × Nat)} (h : Tiles lo rs hi) {i j : Nat} {r q : Nat × Nat}
    (hi' : rs[i]? = some r) (hj : rs[j]? = some q) (hij : i < j) : r.2 < q.1 := by
  induction rs generalizing lo i j with
  | nil => simp at hi'
  | cons p rs ih =>
    obtain ⟨s, e⟩ := p
    obtain ⟨t1, t2, t3⟩ := h
    cases j with
    | zero => omega
    | succ j =>
      have hj' : rs[j]? = some q := by simpa using hj
      cases i with
      | zero =>
        have : (s, e) = r := by simpa using hi'
        subst this
        have := t3.mem_lo (List.mem_of_getElem? hj')
        simp; omega
      | succ i => exact ih t3 (by simpa using hi') hj' (by omega)

/-- the alphabet index of a char (0 if there is none, which does not happen for generated alphabets) -/
def classOf (a : Alphabet) (c : Char) : Nat := (getAlphabetIndex a c.toNat).getD 0

/-- an alphabet that covers all chars -/
def Alphabet.Good (a : Alphabet) : Prop := Tiles 0 a.ranges 0x110000

theorem Alphabet.Good.spec {a : Alphabet} (h : a.Good) {c : Nat} (hc : c < 0x110000) :
    ∃ i s e, a.ranges[i]? = some (s, e) ∧ s ≤ c ∧ c ≤ e ∧ getAlphabetIndex a c = some i ∧
      a.findRange c = .ok (some i) := by
  obtain ⟨i, s, e, h1, h2, h3, h4, h5⟩ := Tiles.lookup h (Nat.zero_le c) hc
  refine ⟨i, s, e, h1, h2, h3, h4, ?_⟩
  unfold Alphabet.findRange
  rw [h5]
  split
  · rename_i heq
    split at heq
    · cases heq; rfl
    · cases heq
  · rename_i heq
    split at heq <;> cases heq
  · rename_i idx heq
    split at heq
    · cases heq
    · have : i = idx := by
        injection heq with heq
        omega
      subst this
      simp [h1, h2, h3]

theorem Alphabet.Good.findRange {a : Alphabet} (h : a.Good) (c : Char) :
    a.findRange c.toNat = .ok (some (classOf a c)) := by
  obtain ⟨i, s, e, h1, h2, h3, h4, h5⟩ := h.spec (char_lt c)
  rw [h5, classOf, h4]; rfl

theorem Alphabet.Good.index {a : Alphabet} (h : a.Good) (c : Char) :
    getAlphabetIndex a c.toNat = some (classOf a c) := by
  obtain ⟨i, s, e, h1, h2, h3, h4, h5⟩ := h.spec (char_lt c)
  rw [h4, classOf, h4]; rfl

theorem Alphabet.Good.range {a : Alphabet} (h : a.Good) (c : Char) :
    ∃ s e, a.ranges[classOf a c]? = some (s, e) ∧ s ≤ c.toNat ∧ c.toNat ≤ e := by
  obtain ⟨i, s, e, h1, h2, h3, h4, h5⟩ := h.spec (char_lt c)
  exact ⟨s, e, by rw [classOf, h4]; exact h1, h2, h3⟩

theorem Alphabet.Good.classOf_lt {a : Alphabet} (h : a.Good) (c : Char) : classOf a c < a.ranges.length := by
  obtain ⟨s, e, h1, _⟩ := h.range c
  exact (List.getElem?_eq_some_iff.mp h1).1

theorem Alphabet.Good.mono {a : Alphabet} (h : a.Good) {c d : Char} (hcd : c.toNat ≤ d.toNat) :
    classOf a c ≤ classOf a d := by
  obtain ⟨s, e, h1, h2, h3⟩ := h.range c
  obtain ⟨s', e', h1', h2', h3'⟩ := h.range d
  rcases Nat.lt_or_ge (classOf a d) (classOf a c) with hlt | hge
  · have := Tiles.get_mono h h1' h1 hlt
    simp at this; omega
  · exact hge

/-- a char that is a range on its own -/
theorem Alphabet.Good.singleton {a : Alphabet} (h : a.Good) {c d : Char} (hc : (c.toNat, c.toNat) ∈ a.ranges)
    (heq : classOf a d = classOf a c) : d = c := by
  obtain ⟨s, e, h1, h2, h3⟩ := h.range c
  obtain ⟨s', e', h1', h2', h3'⟩ := h.range d
  rw [heq, h1] at h1'
  cases h1'
  obtain ⟨j, hj, hje⟩ := List.getElem_of_mem hc
  have hj' : a.ranges[j]? = some (c.toNat, c.toNat) := by rw [List.getElem?_eq_getElem hj, hje]
  have : j = classOf a c := by
    rcases Nat.lt_trichotomy j (classOf a c) with hlt | he | hlt
    · have := Tiles.get_mono h hj' h1 hlt; simp at this; omega
    · exact he
    · have := Tiles.get_mono h h1 hj' hlt; simp at this; omega
  rw [this, h1] at hj'
  have e1 : s = c.toNat := by injection hj' with e1; injection e1
  have e2 : e = c.toNat := by injection hj' with e1; injection e1
  exact Char.toNat_inj.mp (by omega)

theorem generateAlphabet_good (rules : List TokenRule) : (generateAlphabet rules).Good := generateAlphabet_tiles rules

theorem classOf_eq_zero {rules : List TokenRule} {c : Char} :
    classOf (generateAlphabet rules) c = 0 ↔ c = Char.ofNat 0 := by
  have hg := generateAlphabet_good rules
  obtain ⟨rest, h1, h2, _⟩ := generateAlphabet_shape rules
  have hm : ((Char.ofNat 0).toNat, (Char.ofNat 0).toNat) ∈ (generateAlphabet rules).ranges := by
    rw [h2]; exact List.mem_cons_self
  have h0 : classOf (generateAlphabet rules) (Char.ofNat 0) = 0 := by
    have : getAlphabetIndex (generateAlphabet rules) (Char.ofNat 0).toNat = some 0 := by
      rw [h2, getAlphabetIndex, List.findIdx?_cons]
      simp
    rw [classOf, this]; rfl
  constructor
  · intro h
    exact hg.singleton hm (h.trans h0.symm)
  · rintro rfl; exact h0

end Verif
