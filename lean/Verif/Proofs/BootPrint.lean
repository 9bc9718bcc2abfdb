import Verif.Proofs.BootFile

/-! # The bootstrap parser: bounds of the model, printing -/

set_option autoImplicit false

namespace Verif

/-! ## The bound on the depth of groups -/

section congr
variable {α β : Type}

theorem manyLoop_congr {p q : NomParser α} {m : Nat} (h : ∀ i, i.length ≤ m → p i = q i) (hp : ∀ i a r, p i = some (a, r) → r.length ≤ i.length) :
    ∀ n i, i.length ≤ m → nomManyLoop p n i = nomManyLoop q n i := by
  intro n
  induction n with
  | zero => intro i _; rfl
  | succ n ih =>
    intro i hi
    rw [nomManyLoop, nomManyLoop, ← h i hi]
    cases hpi : p i with
    | none => rfl
    | some r =>
      obtain ⟨a, i'⟩ := r
      have := hp _ _ _ hpi
      simp only [ih i' (by omega)]

theorem many1_congr {p q : NomParser α} {m : Nat} (h : ∀ i, i.length ≤ m → p i = q i) (hp : ∀ i a r, p i = some (a, r) → r.length ≤ i.length) (i : List Char) (hi : i.length ≤ m) :
    nomMany1 p i = nomMany1 q i := by
  rw [nomMany1, nomMany1, ← h i hi]
  cases hpi : p i with
  | none => rfl
  | some r =>
    obtain ⟨a, i'⟩ := r
    have := hp _ _ _ hpi
    simp only [manyLoop_congr h hp _ i' (by omega)]

theorem sepLoop_congr {sep : NomParser β} {p q : NomParser α} {m : Nat} (hs : ∀ i b r, sep i = some (b, r) → r.length ≤ i.length) (h : ∀ i, i.length ≤ m → p i = q i)
    (hp : ∀ i a r, p i = some (a, r) → r.length ≤ i.length) : ∀ n i, i.length ≤ m → nomSepLoop sep p n i = nomSepLoop sep q n i := by
  intro n
  induction n with
  | zero => intro i _; rfl
  | succ n ih =>
    intro i hi
    rw [nomSepLoop, nomSepLoop]
    cases hsi : sep i with
    | none => rfl
    | some r =>
      obtain ⟨b, i'⟩ := r
      have := hs _ _ _ hsi
      simp only [← h i' (by omega)]
      cases hpi : p i' with
      | none => rfl
      | some r =>
        obtain ⟨a, i''⟩ := r
        have := hp _ _ _ hpi
        simp only [ih i'' (by omega)]

theorem sepList_congr {sep : NomParser β} {p q : NomParser α} {m : Nat} (hs : ∀ i b r, sep i = some (b, r) → r.length ≤ i.length) (h : ∀ i, i.length ≤ m → p i = q i)
    (hp : ∀ i a r, p i = some (a, r) → r.length ≤ i.length) (i : List Char) (hi : i.length ≤ m) : nomSepList1 sep p i = nomSepList1 sep q i := by
  rw [nomSepList1, nomSepList1, ← h i hi]
  cases hpi : p i with
  | none => rfl
  | some r =>
    obtain ⟨a, i'⟩ := r
    have := hp _ _ _ hpi
    simp only [sepLoop_congr hs h hp _ i' (by omega)]

end congr

theorem nomTag_length {t i rest : List Char} {u : Unit} (h : nomTag t i = some (u, rest)) : rest.length ≤ i.length := by
  rw [nomTag_some h]; simp

theorem regexSeq_length (d : Nat) (i : List Char) (p : Pattern) (rest : List Char) (h : bootRegexSeq d i = some (p, rest)) : rest.length ≤ i.length := by
  obtain ⟨w, _, rfl, _⟩ := regexSeq_sound _ _ _ _ h
  simp

theorem prodSeq_length (d : Nat) (i : List Char) (p : ProdPattern) (rest : List Char) (h : bootProdSeq d i = some (p, rest)) : rest.length ≤ i.length := by
  obtain ⟨w, _, rfl, _⟩ := prodSeq_sound _ _ _ _ h
  simp

theorem regexRep_length (d : Nat) (i : List Char) (p : Pattern) (rest : List Char) (h : bootRegexRepetition (bootRegexSeq d) i = some (p, rest)) : rest.length ≤ i.length := by
  obtain ⟨w, rfl, _⟩ := regexRep_sound _ _ _ _ h
  simp

theorem prodRep_length (d : Nat) (i : List Char) (p : ProdPattern) (rest : List Char) (h : bootProdRepetition (bootProdSeq d) i = some (p, rest)) : rest.length ≤ i.length := by
  obtain ⟨w, rfl, _⟩ := prodRep_sound _ _ _ _ h
  simp

theorem regexSeq_depth_aux : ∀ m d e : Nat, m < d → m < e → ∀ i : List Char, i.length ≤ m → bootRegexSeq d i = bootRegexSeq e i := by
  intro m
  induction m with
  | zero =>
    intro d e hd he i hi
    obtain ⟨d, rfl⟩ : ∃ k, d = k + 1 := ⟨d - 1, by omega⟩
    obtain ⟨e, rfl⟩ : ∃ k, e = k + 1 := ⟨e - 1, by omega⟩
    obtain rfl : i = [] := List.length_eq_zero_iff.mp (by omega)
    rfl
  | succ m ih =>
    intro d e hd he i hi
    obtain ⟨d, rfl⟩ : ∃ k, d = k + 1 := ⟨d - 1, by omega⟩
    obtain ⟨e, rfl⟩ : ∃ k, e = k + 1 := ⟨e - 1, by omega⟩
    have hg : ∀ j : List Char, j.length ≤ m + 1 → bootRegexGroup (bootRegexSeq d) j = bootRegexGroup (bootRegexSeq e) j := by
      intro j hj
      unfold bootRegexGroup
      cases ht : nomTag ['('] j with
      | none => rfl
      | some r =>
        obtain ⟨_, k⟩ := r
        have hk := nomTag_some ht
        subst hk
        simp only [bind, Option.bind]
        rw [sepList_congr (m := m) (fun i b r h => nomTag_length h) (fun i hi => ih d e (by omega) (by omega) i hi) (regexSeq_length d) k (by simp at hj; omega)]
    have hr : ∀ j : List Char, j.length ≤ m + 1 → bootRegexRepetition (bootRegexSeq d) j = bootRegexRepetition (bootRegexSeq e) j := by
      intro j hj
      simp only [bootRegexRepetition, bootRegexElement, nomAlt, hg j hj]
    rw [bootRegexSeq, bootRegexSeq, nomMap, nomMap, many1_congr hr (regexRep_length d) i hi]

/-- the bound on the depth of groups is no restriction -/
theorem bootRegexSeq_depth {d : Nat} {i : List Char} (h : i.length < d) : bootRegexSeq d i = bootRegexSequence i :=
  regexSeq_depth_aux i.length d (i.length + 1) h (Nat.lt_succ_self _) i (Nat.le_refl _)

theorem prodSeq_depth_aux : ∀ m d e : Nat, m < d → m < e → ∀ i : List Char, i.length ≤ m → bootProdSeq d i = bootProdSeq e i := by
  intro m
  induction m with
  | zero =>
    intro d e hd he i hi
    obtain ⟨d, rfl⟩ : ∃ k, d = k + 1 := ⟨d - 1, by omega⟩
    obtain ⟨e, rfl⟩ : ∃ k, e = k + 1 := ⟨e - 1, by omega⟩
    obtain rfl : i = [] := List.length_eq_zero_iff.mp (by omega)
    rfl
  | succ m ih =>
    intro d e hd he i hi
    obtain ⟨d, rfl⟩ : ∃ k, d = k + 1 := ⟨d - 1, by omega⟩
    obtain ⟨e, rfl⟩ : ∃ k, e = k + 1 := ⟨e - 1, by omega⟩
    have hg : ∀ j : List Char, j.length ≤ m + 1 → bootProdGroup (bootProdSeq d) j = bootProdGroup (bootProdSeq e) j := by
      intro j hj
      unfold bootProdGroup
      cases ht : nomTag ['('] j with
      | none => rfl
      | some r =>
        obtain ⟨_, k⟩ := r
        have hk := nomTag_some ht
        subst hk
        simp only [bind, Option.bind]
        rw [sepList_congr (m := m) (fun i b r h => nomTag_length h) (fun i hi => ih d e (by omega) (by omega) i hi) (prodSeq_length d) k (by simp at hj; omega)]
    have hr : ∀ j : List Char, j.length ≤ m + 1 → bootProdRepetition (bootProdSeq d) j = bootProdRepetition (bootProdSeq e) j := by
      intro j hj
      simp only [bootProdRepetition, bootProdElement, nomAlt, hg j hj]
    rw [bootProdSeq, bootProdSeq, nomMap, nomMap, sepList_congr (fun i b r h => by rw [(spaces_sound h).1]; simp) hr (prodRep_length d) i hi]

/-- the bound on the depth of groups is no restriction -/
theorem bootProdSeq_depth {d : Nat} {i : List Char} (h : i.length < d) : bootProdSeq d i = bootProdPattern i :=
  prodSeq_depth_aux i.length d (i.length + 1) h (Nat.lt_succ_self _) i (Nat.le_refl _)

/-! ## printing -/

theorem digitOf_mem {n : Nat} (h : n < 16) : (digitOf n, n) ∈ hexDigits := by
  interval_cases n <;> decide

theorem hexSix_is {n : Nat} (h : n < 0x110000) : HexIs (hexSix n) n := by
  have m : ∀ k, (digitOf (k % 16), k % 16) ∈ hexDigits := fun k => digitOf_mem (Nat.mod_lt _ (by decide))
  have := ((((((HexIs.nil.snoc (m (n / 1048576))).snoc (m (n / 65536))).snoc (m (n / 4096))).snoc (m (n / 256))).snoc (m (n / 16))).snoc (m n))
  have e : 16 * (16 * (16 * (16 * (16 * (16 * 0 + n / 1048576 % 16) + n / 65536 % 16) + n / 4096 % 16) + n / 256 % 16) + n / 16 % 16) + n % 16 = n := by omega
  rw [e] at this
  exact this

theorem scalar_lt (c : Char) : c.toNat < 0x110000 := by
  have hv : c.toNat < 0xD800 ∨ (0xDFFF < c.toNat ∧ c.toNat < 0x110000) := c.valid
  omega

theorem alnum_plain {c : Char} (h : c.isAlphanum = true) : PlainChar c ∧ c ∉ ['(', '[', '.', '-', '^'] := by
  have key : ∀ n, (65 ≤ n ∧ n ≤ 90) ∨ (97 ≤ n ∧ n ≤ 122) ∨ (48 ≤ n ∧ n ≤ 57) → PlainChar (Char.ofNat n) ∧ Char.ofNat n ∉ ['(', '[', '.', '-', '^'] := by
    intro n hn
    unfold PlainChar
    rcases hn with ⟨h1, h2⟩ | ⟨h1, h2⟩ | ⟨h1, h2⟩ <;> interval_cases n <;> decide
  rw [char_eq_ofNat c]
  refine key _ ?_
  simp only [Char.isAlphanum, Char.isAlpha, Char.isUpper, Char.isLower, Char.isDigit, Bool.or_eq_true, Bool.and_eq_true, decide_eq_true_eq] at h
  have le : ∀ a b : UInt32, a ≤ b → a.toNat ≤ b.toNat := fun a b h => h
  rcases h with (⟨h1, h2⟩ | ⟨h1, h2⟩) | ⟨h1, h2⟩
  · exact .inl ⟨le _ _ h1, le _ _ h2⟩
  · exact .inr (.inl ⟨le _ _ h1, le _ _ h2⟩)
  · exact .inr (.inr ⟨le _ _ h1, le _ _ h2⟩)

theorem printChar_text (c : Char) : CharText (printChar c) c := by
  unfold printChar
  split
  · rename_i h
    exact .plain (alnum_plain h).1
  · exact .unicode (by simp [hexSix]) (by simp [hexSix]) (hexSix_is (scalar_lt c))

theorem printChar_head (c : Char) (rest : List Char) : ∃ d, (printChar c ++ rest).head? = some d ∧ d ∉ ['(', '[', '.', '-', '^'] := by
  unfold printChar
  split
  · rename_i h
    exact ⟨c, rfl, (alnum_plain h).2⟩
  · exact ⟨'\\', rfl, by decide⟩

theorem printItem_text (x : Characters) : SetItem (printItem x) x := by
  cases x with
  | single c => exact .single (printChar_text c)
  | range c d => exact .range (printChar_text c) (printChar_text d)

theorem printItem_head (x : Characters) (rest : List Char) : ∃ d, (printItem x ++ rest).head? = some d ∧ d ∉ ['(', '[', '.', '-', '^'] := by
  cases x with
  | single c => exact printChar_head c rest
  | range c d => unfold printItem; rw [List.append_assoc]; exact printChar_head c _

theorem printSet_text {xs : List Characters} (h : xs ≠ []) : SetText true (xs.flatMap printItem) xs ∧ ∃ d, (xs.flatMap printItem).head? = some d ∧ d ∉ ['(', '[', '.', '-', '^'] := by
  refine ⟨?_, ?_⟩
  · induction xs with
    | nil => exact absurd rfl h
    | cons x xs ih =>
      cases xs with
      | nil => simpa using SetText.one (printItem_text x)
      | cons y ys =>
        rw [List.flatMap_cons]
        refine .more (printItem_text x) (ih (by simp)) fun _ => .inr ?_
        rw [List.flatMap_cons]
        obtain ⟨d, h1, h2⟩ := printItem_head y (ys.flatMap printItem)
        rw [h1]
        rintro e
        cases e
        simp at h2
  · cases xs with
    | nil => exact absurd rfl h
    | cons x xs => rw [List.flatMap_cons]; exact printItem_head x _

theorem printPatterns_text {ps : List Pattern} (h : ps ≠ []) (hp : ∀ p ∈ ps, RegexText true .repetition (printPattern p) [p]) : RegexText true .sequence (printPatterns ps) ps := by
  induction ps with
  | nil => exact absurd rfl h
  | cons p ps ih =>
    cases ps with
    | nil =>
      have := RegexText.last (hp p List.mem_cons_self)
      simpa [printPatterns] using this
    | cons q qs =>
      rw [printPatterns]
      exact .more (hp p List.mem_cons_self) (ih (by simp) fun r hr => hp r (List.mem_cons_of_mem _ hr))

theorem printChoices_text {qs : List Pattern} (h : qs ≠ []) (hq : ∀ q ∈ qs, ∃ ps, q = .sequence ps ∧ RegexText true .sequence (printPatterns ps) ps) :
    RegexText true .alternatives (printChoices qs) qs := by
  induction qs with
  | nil => exact absurd rfl h
  | cons q qs ih =>
    obtain ⟨ps, rfl, hps⟩ := hq q List.mem_cons_self
    cases qs with
    | nil => rw [printChoices]; exact .lastChoice hps
    | cons r rs =>
      rw [printChoices]
      · exact .moreChoices hps (ih (by simp) fun r hr => hq r (List.mem_cons_of_mem _ hr))
      · simp

theorem writable_text {b : Bool} {p : Pattern} (h : Writable b p) : RegexText true (if b then .repetition else .element) (printPattern p) [p] ∧
    ∀ ps, p = .sequence ps → RegexText true .sequence (printPatterns ps) ps := by
  have lift : ∀ {b : Bool} {w : List Char} {p : Pattern}, RegexText true .element w [p] → RegexText true (if b then .repetition else .element) w [p] := by
    intro b w p h
    cases b
    · exact h
    · exact .once h
  induction h with
  | char c =>
    refine ⟨lift (.char (printChar_text c) fun _ => ?_), fun ps hps => by cases hps⟩
    obtain ⟨d, h1, h2⟩ := printChar_head c []
    rw [List.append_nil] at h1
    refine ⟨?_, ?_, ?_⟩ <;> (intro e; simp only [printPattern, printItem] at e; rw [e] at h1; cases h1; simp at h2)
  | any => exact ⟨lift .any, fun ps hps => by cases hps⟩
  | @set b neg xs h =>
    refine ⟨lift ?_, fun ps hps => by cases hps⟩
    obtain ⟨h1, d, h2, h3⟩ := printSet_text h
    cases neg with
    | true => rw [printPattern]; exact .negated h1; exact h
    | false =>
      rw [printPattern]
      · refine .set h1 fun _ e => ?_
        change (xs.flatMap printItem).head? = some '^' at e
        rw [h2] at e
        cases e
        simp at h3
      · exact h
  | sequence hne _ ih =>
    have := printPatterns_text hne fun p hp => (ih p hp).1
    refine ⟨lift ?_, fun ps hps => by cases hps; exact this⟩
    rw [printPattern]
    exact .group (.lastChoice this)
  | @alternative b qs hl hs _ ih =>
    refine ⟨lift ?_, fun ps hps => by cases hps⟩
    rw [printPattern]
    refine .choice (printChoices_text (by rintro rfl; simp at hl) fun q hq => ?_) hl
    obtain ⟨ps, rfl⟩ := hs q hq
    exact ⟨ps, rfl, (ih _ hq).2 ps rfl⟩
  | zeroOrMore _ ih => exact ⟨by rw [printPattern]; exact .zeroOrMore ih.1, fun ps hps => by cases hps⟩
  | oneOrMore _ ih => exact ⟨by rw [printPattern]; exact .oneOrMore ih.1, fun ps hps => by cases hps⟩
  | optional _ ih => exact ⟨by rw [printPattern]; exact .optional ih.1, fun ps hps => by cases hps⟩

theorem oneSpace : Spaces [' '] := ⟨by simp, by simp⟩

theorem printProds_text {ps : List ProdPattern} (h : ps ≠ []) (hp : ∀ p ∈ ps, ProdText .repetition (printProd p) [p]) : ProdText .sequence (printProds ps) ps := by
  induction ps with
  | nil => exact absurd rfl h
  | cons p ps ih =>
    cases ps with
    | nil => rw [printProds]; exact .last (hp p List.mem_cons_self)
    | cons q qs =>
      rw [printProds]
      · exact .more (hp p List.mem_cons_self) oneSpace (ih (by simp) fun r hr => hp r (List.mem_cons_of_mem _ hr))
      · simp

theorem printProdChoices_text {qs : List ProdPattern} (h : qs ≠ []) (hq : ∀ q ∈ qs, ∃ ps, q = .sequence ps ∧ ProdText .sequence (printProds ps) ps) :
    ProdText .alternatives (printProdChoices qs) qs := by
  induction qs with
  | nil => exact absurd rfl h
  | cons q qs ih =>
    obtain ⟨ps, rfl, hps⟩ := hq q List.mem_cons_self
    cases qs with
    | nil => rw [printProdChoices]; exact .lastChoice hps
    | cons r rs =>
      rw [printProdChoices]
      · exact .moreChoices hps (ih (by simp) fun r hr => hq r (List.mem_cons_of_mem _ hr))
      · simp

theorem writableProd_text {b : Bool} {p : ProdPattern} (h : WritableProd b p) : ProdText (if b then .repetition else .element) (printProd p) [p] ∧
    ∀ ps, p = .sequence ps → ProdText .sequence (printProds ps) ps := by
  have lift : ∀ {b : Bool} {w : List Char} {p : ProdPattern}, ProdText .element w [p] → ProdText (if b then .repetition else .element) w [p] := by
    intro b w p h
    cases b
    · exact h
    · exact .once h
  induction h with
  | @rule b n h =>
    refine ⟨lift ?_, fun ps hps => by cases hps⟩
    have := ProdText.name h
    rwa [String.ofList_toList] at this
  | sequence hne _ ih =>
    have := printProds_text hne fun p hp => (ih p hp).1
    refine ⟨lift ?_, fun ps hps => by cases hps; exact this⟩
    rw [printProd]
    exact .group (.lastChoice this)
  | @alternative b qs hl hs _ ih =>
    refine ⟨lift ?_, fun ps hps => by cases hps⟩
    rw [printProd]
    refine .choice (printProdChoices_text (by rintro rfl; simp at hl) fun q hq => ?_) hl
    obtain ⟨ps, rfl⟩ := hs q hq
    exact ⟨ps, rfl, (ih _ hq).2 ps rfl⟩
  | zeroOrMore _ ih => exact ⟨by rw [printProd]; exact .zeroOrMore ih.1, fun ps hps => by cases hps⟩
  | oneOrMore _ ih => exact ⟨by rw [printProd]; exact .oneOrMore ih.1, fun ps hps => by cases hps⟩
  | optional _ ih => exact ⟨by rw [printProd]; exact .optional ih.1, fun ps hps => by cases hps⟩

theorem writableRule_text {r : LapexRule} (h : WritableRule r) : BootRuleText true (printRule r) r := by
  cases h with
  | literal hn h1 h2 =>
    have := BootRuleText.token (strict := true) oneSpace hn oneSpace oneSpace (TokenText.literal h1 h2)
    rwa [String.ofList_toList] at this
  | regex hn h1 h2 =>
    have := BootRuleText.token (strict := true) oneSpace hn oneSpace oneSpace (TokenText.regex (printPatterns_text h1 fun p hp => (writable_text (h2 p hp)).1))
    rwa [String.ofList_toList] at this
  | prod hn h1 h2 =>
    have := BootRuleText.prod (strict := true) oneSpace hn oneSpace oneSpace (printProds_text h1 fun p hp => (writableProd_text (h2 p hp)).1)
    rwa [String.ofList_toList] at this
  | entry hn =>
    have := BootRuleText.entry (strict := true) oneSpace hn
    rwa [String.ofList_toList] at this

theorem printRules_text {rs : List LapexRule} (hne : rs ≠ []) (h : ∀ r ∈ rs, WritableRule r) : BootRulesText true (printRules rs) rs := by
  induction rs with
  | nil => exact absurd rfl hne
  | cons r rs ih =>
    cases rs with
    | nil => exact .one (writableRule_text (h r List.mem_cons_self))
    | cons q qs => exact .more (writableRule_text (h r List.mem_cons_self)) (by simp) (by intro c hc; simp at hc; simp [hc]) (ih (by simp) fun r hr => h r (List.mem_cons_of_mem _ hr))

theorem printFile_text {rs : List LapexRule} (hne : rs ≠ []) (h : ∀ r ∈ rs, WritableRule r) : BootFileText true (printRules rs) rs :=
  ⟨[], printRules rs, [], by simp, (fun _ h => by cases h), printRules_text hne h, (fun _ h => by cases h)⟩

/-! ## what can be read can be written -/

theorem setText_ne {b : Bool} {w : List Char} {xs : List Characters} (h : SetText b w xs) : xs ≠ [] := by cases h <;> simp

/-- every pattern that is read is writable -/
theorem regexText_writable {b : Bool} {l : RegexLevel} {w : List Char} {ps : List Pattern} (h : RegexText b l w ps) :
    ps ≠ [] ∧ match l with
    | .element => ∀ p ∈ ps, Writable false p ∧ Writable true p
    | .repetition => ∀ p ∈ ps, Writable true p
    | .sequence => ∀ p ∈ ps, Writable true p
    | .alternatives => ∀ q ∈ ps, (∃ qs, q = .sequence qs) ∧ Writable false q ∧ Writable true q := by
  induction h with
  | char => refine ⟨by simp, fun p hp => ?_⟩; simp at hp; subst hp; exact ⟨.char _, .char _⟩
  | any => refine ⟨by simp, fun p hp => ?_⟩; simp at hp; subst hp; exact ⟨.any, .any⟩
  | set h => refine ⟨by simp, fun p hp => ?_⟩; simp at hp; subst hp; exact ⟨.set (setText_ne h), .set (setText_ne h)⟩
  | negated h => refine ⟨by simp, fun p hp => ?_⟩; simp at hp; subst hp; exact ⟨.set (setText_ne h), .set (setText_ne h)⟩
  | group _ ih => exact ⟨by simp, fun p hp => (ih.2 p hp).2⟩
  | choice _ hl ih =>
    refine ⟨by simp, fun p hp => ?_⟩
    simp at hp
    subst hp
    exact ⟨.alternative hl (fun q hq => (ih.2 q hq).1) fun q hq => (ih.2 q hq).2.1, .alternative hl (fun q hq => (ih.2 q hq).1) fun q hq => (ih.2 q hq).2.1⟩
  | once _ ih => exact ⟨by simp, fun p hp => (ih.2 p hp).2⟩
  | zeroOrMore _ ih => refine ⟨by simp, fun p hp => ?_⟩; simp at hp; subst hp; exact .zeroOrMore (ih.2 _ List.mem_cons_self).1
  | oneOrMore _ ih => refine ⟨by simp, fun p hp => ?_⟩; simp at hp; subst hp; exact .oneOrMore (ih.2 _ List.mem_cons_self).1
  | optional _ ih => refine ⟨by simp, fun p hp => ?_⟩; simp at hp; subst hp; exact .optional (ih.2 _ List.mem_cons_self).1
  | last _ ih => exact ih
  | more _ _ ih ih' =>
    refine ⟨by simp, fun p hp => ?_⟩
    rcases List.mem_cons.mp hp with rfl | hp
    · exact ih.2 _ List.mem_cons_self
    · exact ih'.2 _ hp
  | lastChoice _ ih => refine ⟨by simp, fun p hp => ?_⟩; simp at hp; subst hp; exact ⟨⟨_, rfl⟩, .sequence ih.1 ih.2, .sequence ih.1 ih.2⟩
  | moreChoices _ _ ih ih' =>
    refine ⟨by simp, fun p hp => ?_⟩
    rcases List.mem_cons.mp hp with rfl | hp
    · exact ⟨⟨_, rfl⟩, .sequence ih.1 ih.2, .sequence ih.1 ih.2⟩
    · exact ih'.2 _ hp

theorem prodText_writable {l : RegexLevel} {w : List Char} {ps : List ProdPattern} (h : ProdText l w ps) :
    ps ≠ [] ∧ match l with
    | .element => ∀ p ∈ ps, WritableProd false p ∧ WritableProd true p
    | .repetition => ∀ p ∈ ps, WritableProd true p
    | .sequence => ∀ p ∈ ps, WritableProd true p
    | .alternatives => ∀ q ∈ ps, (∃ qs, q = .sequence qs) ∧ WritableProd false q ∧ WritableProd true q := by
  induction h with
  | name h =>
    refine ⟨by simp, fun p hp => ?_⟩
    simp at hp
    subst hp
    exact ⟨.rule (by rwa [String.toList_ofList]), .rule (by rwa [String.toList_ofList])⟩
  | group _ ih => exact ⟨by simp, fun p hp => (ih.2 p hp).2⟩
  | choice _ hl ih =>
    refine ⟨by simp, fun p hp => ?_⟩
    simp at hp
    subst hp
    exact ⟨.alternative hl (fun q hq => (ih.2 q hq).1) fun q hq => (ih.2 q hq).2.1, .alternative hl (fun q hq => (ih.2 q hq).1) fun q hq => (ih.2 q hq).2.1⟩
  | once _ ih => exact ⟨by simp, fun p hp => (ih.2 p hp).2⟩
  | zeroOrMore _ ih => refine ⟨by simp, fun p hp => ?_⟩; simp at hp; subst hp; exact .zeroOrMore (ih.2 _ List.mem_cons_self).1
  | oneOrMore _ ih => refine ⟨by simp, fun p hp => ?_⟩; simp at hp; subst hp; exact .oneOrMore (ih.2 _ List.mem_cons_self).1
  | optional _ ih => refine ⟨by simp, fun p hp => ?_⟩; simp at hp; subst hp; exact .optional (ih.2 _ List.mem_cons_self).1
  | last _ ih => exact ih
  | more _ _ _ ih ih' =>
    refine ⟨by simp, fun p hp => ?_⟩
    rcases List.mem_cons.mp hp with rfl | hp
    · exact ih.2 _ List.mem_cons_self
    · exact ih'.2 _ hp
  | lastChoice _ ih => refine ⟨by simp, fun p hp => ?_⟩; simp at hp; subst hp; exact ⟨⟨_, rfl⟩, .sequence ih.1 ih.2, .sequence ih.1 ih.2⟩
  | moreChoices _ _ ih ih' =>
    refine ⟨by simp, fun p hp => ?_⟩
    rcases List.mem_cons.mp hp with rfl | hp
    · exact ⟨⟨_, rfl⟩, .sequence ih.1 ih.2, .sequence ih.1 ih.2⟩
    · exact ih'.2 _ hp

theorem bootRuleText_writable {b : Bool} {w : List Char} {r : LapexRule} (h : BootRuleText b w r) : WritableRule r := by
  cases h with
  | token _ hn _ _ hw =>
    cases hw with
    | literal h1 h2 => exact .literal (by rwa [String.toList_ofList]) h1 h2
    | regex h => exact .regex (by rwa [String.toList_ofList]) (regexText_writable h).1 (regexText_writable h).2
  | prod _ hn _ _ hw => exact .prod (by rwa [String.toList_ofList]) (prodText_writable hw).1 (prodText_writable hw).2
  | entry _ hn => exact .entry (by rwa [String.toList_ofList])

theorem bootFileText_writable {b : Bool} {w : List Char} {rs : List LapexRule} (h : BootFileText b w rs) : rs ≠ [] ∧ ∀ r ∈ rs, WritableRule r := by
  obtain ⟨s1, w, s2, e, _, hw, _⟩ := h
  clear e
  induction hw with
  | one h => refine ⟨by simp, fun r hr => ?_⟩; simp at hr; subst hr; exact bootRuleText_writable h
  | more h _ _ _ ih =>
    refine ⟨by simp, fun r hr => ?_⟩
    rcases List.mem_cons.mp hr with rfl | hr
    · exact bootRuleText_writable h
    · exact ih.2 r hr

end Verif
