import Verif.Proofs.Bootstrap

/-! # The bootstrap parser: productions, rules, files -/

set_option autoImplicit false

namespace Verif

/-! ## productions -/

def isNameChar (c : Char) : Bool := c.isAlpha || c = '_'

/-- no name continues here -/
def NoName (rest : List Char) : Prop := ∀ c, rest.head? = some c → isNameChar c = false

def isSpaceChar (c : Char) : Bool := c = ' ' || c = '\t'

def NoSpace (rest : List Char) : Prop := ∀ c, rest.head? = some c → isSpaceChar c = false

theorem plainName_app {n rest : List Char} (h : PlainName n) (hr : NoName rest) : bootSymbolName (n ++ rest) = some (n, rest) := by
  refine nomTakeWhile1_app h.1 (fun c hc => ?_) hr
  simpa using h.2 c hc

theorem plainName_sound {i n rest : List Char} (h : bootSymbolName i = some (n, rest)) : i = n ++ rest ∧ PlainName n := by
  obtain ⟨h1, h2, h3, _⟩ := nomTakeWhile1_some h
  exact ⟨h1, h2, fun c hc => by simpa using h3 c hc⟩

theorem spaces_app {s rest : List Char} (h : Spaces s) (hr : NoSpace rest) : nomSpace1 (s ++ rest) = some (s, rest) := by
  refine nomTakeWhile1_app h.1 (fun c hc => ?_) hr
  simpa using h.2 c hc

theorem spaces_sound {i s rest : List Char} (h : nomSpace1 i = some (s, rest)) : i = s ++ rest ∧ Spaces s := by
  obtain ⟨h1, h2, h3, _⟩ := nomTakeWhile1_some h
  exact ⟨h1, h2, fun c hc => by simpa using h3 c hc⟩

theorem nameOf_eq (n : List Char) : nameOf n = String.ofList n := rfl

/-- where a right side may end -/
def ProdStop (rest : List Char) : Prop := rest.head? = some ';' ∨ rest.head? = some ')' ∨ ∃ r, rest = ' ' :: '|' :: ' ' :: r

def ProdStart (w : List Char) : Prop := ∃ d, w.head? = some d ∧ (isNameChar d = true ∨ d = '(')

theorem ProdStart.pos {w : List Char} (h : ProdStart w) : 0 < w.length := by
  obtain ⟨d, h, _⟩ := h
  cases w with
  | nil => cases h
  | cons => simp

theorem ProdStart.append {w : List Char} (h : ProdStart w) (v : List Char) : ProdStart (w ++ v) := by
  obtain ⟨d, h1, h2⟩ := h
  exact ⟨d, by rw [head_app (ProdStart.pos ⟨d, h1, h2⟩)]; exact h1, h2⟩

theorem prodText_start {l : RegexLevel} {w : List Char} {ps : List ProdPattern} (h : ProdText l w ps) : ProdStart w := by
  induction h with
  | @name n h =>
    obtain ⟨h1, h2⟩ := h
    cases n with
    | nil => exact absurd rfl h1
    | cons c n => exact ⟨c, rfl, .inl (by simpa [isNameChar] using h2 c List.mem_cons_self)⟩
  | group => exact ⟨'(', rfl, .inr rfl⟩
  | choice => exact ⟨'(', rfl, .inr rfl⟩
  | once _ ih => exact ih
  | zeroOrMore _ ih => exact ih.append _
  | oneOrMore _ ih => exact ih.append _
  | optional _ ih => exact ih.append _
  | last _ ih => exact ih
  | more _ _ _ ih _ => rw [List.append_assoc]; exact ih.append _
  | lastChoice _ ih => exact ih
  | moreChoices _ _ ih _ => rw [List.append_assoc]; exact ih.append _

theorem isNameChar_ne {c d : Char} (h : isNameChar c = true) (hd : isNameChar d = false) : c ≠ d := by
  rintro rfl
  rw [h] at hd
  cases hd

theorem ProdStart.noSpace {w : List Char} (h : ProdStart w) (rest : List Char) : NoSpace (w ++ rest) := by
  intro c hc
  rw [head_app h.pos] at hc
  obtain ⟨d, h1, h2⟩ := h
  rw [hc] at h1
  cases h1
  rcases h2 with h2 | rfl
  · have a1 := isNameChar_ne h2 (d := ' ') (by decide)
    have a2 := isNameChar_ne h2 (d := '\t') (by decide)
    simp [isSpaceChar, a1, a2]
  · decide

theorem noName_of {rest : List Char} {c : Char} (h : rest.head? = some c) (hc : isNameChar c = false) : NoName rest := by
  intro d hd
  rw [h] at hd
  cases hd
  exact hc

theorem noRep_of {rest : List Char} {c : Char} (h : rest.head? = some c) (hc : c ∉ ['*', '+', '?']) : NoRep rest := by
  intro d hd
  rw [h] at hd
  cases hd
  exact hc

theorem noSpace_of {rest : List Char} {c : Char} (h : rest.head? = some c) (hc : isSpaceChar c = false) : NoSpace rest := by
  intro d hd
  rw [h] at hd
  cases hd
  exact hc

theorem ProdStop.ends {rest : List Char} (h : ProdStop rest) : NoName rest ∧ NoRep rest := by
  rcases h with h | h | ⟨r, rfl⟩
  · exact ⟨noName_of h (by decide), noRep_of h (by decide)⟩
  · exact ⟨noName_of h (by decide), noRep_of h (by decide)⟩
  · exact ⟨noName_of (c := ' ') rfl (by decide), noRep_of (c := ' ') rfl (by decide)⟩

theorem Spaces.ends {s : List Char} (h : Spaces s) (rest : List Char) : NoName (s ++ rest) ∧ NoRep (s ++ rest) := by
  obtain ⟨h1, h2⟩ := h
  cases s with
  | nil => exact absurd rfl h1
  | cons c s =>
    rcases h2 c List.mem_cons_self with rfl | rfl
    · exact ⟨noName_of (c := ' ') rfl (by decide), noRep_of (c := ' ') rfl (by decide)⟩
    · exact ⟨noName_of (c := '\t') rfl (by decide), noRep_of (c := '\t') rfl (by decide)⟩

theorem prodRep_none (seq : NomParser ProdPattern) {c : Char} {rest : List Char} (h : rest.head? = some c) (h1 : isNameChar c = false) (h2 : c ≠ '(') : bootProdRepetition seq rest = none := by
  have a1 : bootProdGroup seq rest = none := by simp [bootProdGroup, nomTag_one (c := '(') (i := rest) (by rw [h]; simpa using h2), bind, Option.bind]
  have a2 : bootSymbolName rest = none := nomTakeWhile1_none (noName_of h h1)
  simp [bootProdRepetition, bootProdElement, nomAlt, bootRuleName, nomMap, a1, a2, bind, Option.bind]

theorem prodStop_stops (seq : NomParser ProdPattern) (rest : List Char) (h : ProdStop rest) :
    nomSpace1 rest = none ∨ ∃ b r, nomSpace1 rest = some (b, r) ∧ r.length ≠ rest.length ∧ bootProdRepetition seq r = none := by
  rcases h with h | h | ⟨r, rfl⟩
  · exact .inl (nomTakeWhile1_none (noSpace_of h (by decide)))
  · exact .inl (nomTakeWhile1_none (noSpace_of h (by decide)))
  · refine .inr ⟨[' '], '|' :: ' ' :: r, ?_, by simp, prodRep_none seq (c := '|') rfl (by decide) (by decide)⟩
    exact spaces_app (s := [' ']) ⟨by simp, by simp⟩ (noSpace_of (c := '|') rfl (by decide))

/-- what is read at each level -/
def ProdReads : RegexLevel → List Char → List ProdPattern → Prop
  | .element, w, ps => ∀ d p rest, ps = [p] → w.length ≤ d → NoName rest → bootProdElement (bootProdSeq d) (w ++ rest) = some (p, rest)
  | .repetition, w, ps => ∀ d p rest, ps = [p] → w.length ≤ d → NoName rest → NoRep rest → bootProdRepetition (bootProdSeq d) (w ++ rest) = some (p, rest)
  | .sequence, w, ps => ∀ d, w.length ≤ d → ReadsSep nomSpace1 (bootProdRepetition (bootProdSeq d)) ProdStop w ps
  | .alternatives, w, ps => ∀ d, w.length < d → ReadsSep (nomTag " | ".toList) (bootProdSeq d) (fun rest => rest.head? = some ')') w ps

theorem prodSeq_reads {w : List Char} {ps : List ProdPattern} (h : ProdReads .sequence w ps) {d : Nat} (hd : w.length < d) {rest : List Char} (hr : ProdStop rest) :
    bootProdSeq d (w ++ rest) = some (.sequence ps, rest) := by
  obtain ⟨d, rfl⟩ : ∃ k, d = k + 1 := ⟨d - 1, by omega⟩
  have := sepList_reads (prodStop_stops _) (h d (by omega)) rest hr
  simp [bootProdSeq, nomMap, this]

/-- what a group stands for -/
def prodGroupOf : List ProdPattern → ProdPattern
  | [p] => p
  | ps => .alternative ps

theorem prodGroup_reads {w : List Char} {ps : List ProdPattern} (h : ProdReads .alternatives w ps) {d : Nat} (hd : w.length < d) (rest : List Char) :
    bootProdElement (bootProdSeq d) ('(' :: w ++ [')'] ++ rest) = some (prodGroupOf ps, rest) := by
  have h1 := sepList_reads (stop := fun r => r.head? = some ')') (fun r hr => .inl (by
    cases r with
    | nil => cases hr
    | cons c r => simp at hr; subst hr; rfl)) (h d hd) (')' :: rest) rfl
  have h2 : bootProdGroup (bootProdSeq d) ('(' :: w ++ [')'] ++ rest) = some (prodGroupOf ps, rest) := by
    unfold bootProdGroup
    simp only [List.cons_append, List.append_assoc, List.nil_append, bind, Option.bind, nomTag_cons, h1]
    unfold prodGroupOf
    split
    · rfl
    · rename_i hn
      split
      · exact absurd rfl (hn _)
      · rfl
  simp only [bootProdElement, nomAlt, h2]

theorem prodText_reads {l : RegexLevel} {w : List Char} {ps : List ProdPattern} (h : ProdText l w ps) : ProdReads l w ps := by
  induction h with
  | @name n h =>
    intro d p rest hp hd hr
    cases hp
    have a1 : bootProdGroup (bootProdSeq d) (n ++ rest) = none := by
      have : (n ++ rest).head? ≠ some '(' := by
        rw [head_app (List.length_pos_iff.mpr h.1)]
        obtain ⟨h1, h2⟩ := h
        cases n with
        | nil => exact absurd rfl h1
        | cons c n =>
          intro hc
          simp at hc
          subst hc
          have := h2 _ List.mem_cons_self
          revert this
          decide
      simp [bootProdGroup, nomTag_one this, bind, Option.bind]
    simp [bootProdElement, nomAlt, a1, bootRuleName, nomMap, plainName_app h hr, nameOf_eq]
  | group _ ih =>
    intro d p rest hp hd _
    cases hp
    exact prodGroup_reads ih (by simp at hd; omega) rest
  | @choice w ps _ hl ih =>
    intro d p rest hp hd _
    cases hp
    have := prodGroup_reads ih (d := d) (by simp at hd; omega) rest
    match ps, hl with
    | a :: b :: ps, _ => exact this
  | once _ ih =>
    intro d p rest hp hd hr hr'
    cases hp
    simp only [bootProdRepetition, bind, Option.bind, ih d _ rest rfl hd hr, repKind_none hr']
  | zeroOrMore _ ih =>
    intro d p rest hp hd hr hr'
    cases hp
    simp only [bootProdRepetition, bind, Option.bind, List.append_assoc, List.cons_append, List.nil_append,
      ih d _ ('*' :: rest) rfl (by simp at hd; omega) (noName_of (c := '*') rfl (by decide)), repKind_star]
  | oneOrMore _ ih =>
    intro d p rest hp hd hr hr'
    cases hp
    simp only [bootProdRepetition, bind, Option.bind, List.append_assoc, List.cons_append, List.nil_append,
      ih d _ ('+' :: rest) rfl (by simp at hd; omega) (noName_of (c := '+') rfl (by decide)), repKind_plus]
  | optional _ ih =>
    intro d p rest hp hd hr hr'
    cases hp
    simp only [bootProdRepetition, bind, Option.bind, List.append_assoc, List.cons_append, List.nil_append,
      ih d _ ('?' :: rest) rfl (by simp at hd; omega) (noName_of (c := '?') rfl (by decide)), repKind_opt]
  | @last w p h ih =>
    intro d hd
    exact .one fun rest hr => ih d p rest rfl hd hr.ends.1 hr.ends.2
  | @more w s v p ps h hs h' ih ih' =>
    intro d hd
    simp only [List.length_append] at hd
    refine .more hs.1 (fun rest hr => ⟨ih d p _ rfl (by omega) (hs.ends _).1 (hs.ends _).2, s, spaces_app hs ((prodText_start h').noSpace rest)⟩) (ih' d (by omega))
  | lastChoice _ ih =>
    intro d hd
    exact .one fun rest hr => prodSeq_reads ih hd (.inr (.inl hr))
  | @moreChoices w v ps qs _ _ ih ih' =>
    intro d hd
    simp only [List.length_append, List.length_cons, List.length_nil] at hd
    exact .more (by simp) (fun rest hr => ⟨prodSeq_reads ih (by omega) (.inr (.inr ⟨v ++ rest, rfl⟩)), (), nomTag_app _ _⟩) (ih' d (by omega))

/-! what is accepted -/

theorem separated_prodAlternatives {w : List Char} {qs : List ProdPattern}
    (h : Separated (fun s => s = [' ', '|', ' ']) (fun w p => ∃ ps, p = .sequence ps ∧ ProdText .sequence w ps) w qs) : ProdText .alternatives w qs := by
  induction h with
  | one h => obtain ⟨ps, rfl, h⟩ := h; exact .lastChoice h
  | more h hs _ ih => obtain ⟨ps, rfl, h⟩ := h; subst hs; exact .moreChoices h ih

theorem separated_prodSequence {w : List Char} {qs : List ProdPattern} (h : Separated Spaces (fun w p => ProdText .repetition w [p]) w qs) : ProdText .sequence w qs := by
  induction h with
  | one h => exact .last h
  | more h hs _ ih => exact .more h hs ih

theorem prodRep_of_seq {d : Nat} (ih : ∀ (i rest : List Char) (p : ProdPattern), bootProdSeq d i = some (p, rest) → ∃ w ps, i = w ++ rest ∧ p = .sequence ps ∧ ProdText .sequence w ps) :
    ∀ i p rest, bootProdRepetition (bootProdSeq d) i = some (p, rest) → ∃ w, i = w ++ rest ∧ ProdText .repetition w [p] := by
  have helem : ∀ i p rest, bootProdElement (bootProdSeq d) i = some (p, rest) → ∃ w, i = w ++ rest ∧ ProdText .element w [p] := by
    intro i p rest h
    simp only [bootProdElement, nomAlt] at h
    split at h
    · rename_i r hr
      cases h
      unfold bootProdGroup at hr
      obtain ⟨⟨_, i1⟩, h1, h'⟩ := option_bind_some.mp hr
      obtain ⟨⟨seqs, i2⟩, h2, h''⟩ := option_bind_some.mp h'
      obtain ⟨⟨_, i3⟩, h3, h⟩ := option_bind_some.mp h''
      clear h' h''
      have e1 := nomTag_some h1
      have e3 := nomTag_some h3
      obtain ⟨w, rfl, hw⟩ := sepList_some (S := fun s => s = [' ', '|', ' ']) (R := fun w p => ∃ ps, p = .sequence ps ∧ ProdText .sequence w ps)
        (fun i b rest h => ⟨[' ', '|', ' '], nomTag_some h, rfl⟩) (fun i a rest h => by obtain ⟨w, ps, h1, h2, h3⟩ := ih _ _ _ h; exact ⟨w, h1, ps, h2, h3⟩) h2
      have ha := separated_prodAlternatives hw
      subst e1 e3
      clear h1 h2 h3 hr
      simp only at h
      split at h
      · simp only [Option.some.injEq, Prod.mk.injEq] at h
        obtain ⟨rfl, rfl⟩ := h
        exact ⟨'(' :: w ++ [')'], by simp, .group ha⟩
      · rename_i hn
        simp only [Option.some.injEq, Prod.mk.injEq] at h
        obtain ⟨rfl, rfl⟩ := h
        refine ⟨'(' :: w ++ [')'], by simp, .choice ha ?_⟩
        match seqs, hn, ha with
        | [], _, ha => cases ha
        | [s], hn, _ => exact absurd rfl (hn s)
        | _ :: _ :: _, _, _ => simp
    · simp only [bootRuleName, nomMap, Option.map_eq_some_iff] at h
      obtain ⟨⟨c, r⟩, h1, h2⟩ := h
      cases h2
      obtain ⟨rfl, hn⟩ := plainName_sound h1
      exact ⟨c, rfl, .name hn⟩
  intro i p rest h
  unfold bootProdRepetition at h
  obtain ⟨⟨inner, i1⟩, h1, h⟩ := option_bind_some.mp h
  obtain ⟨⟨k, i2⟩, h2, h⟩ := option_bind_some.mp h
  cases h
  obtain ⟨w, rfl, hw⟩ := helem _ _ _ h1
  rcases repKind_sound h2 with ⟨rfl, rfl⟩ | ⟨rfl, rfl⟩ | ⟨rfl, rfl⟩ | ⟨rfl, rfl⟩
  · exact ⟨w, rfl, .once hw⟩
  · exact ⟨w ++ ['*'], by simp, .zeroOrMore hw⟩
  · exact ⟨w ++ ['+'], by simp, .oneOrMore hw⟩
  · exact ⟨w ++ ['?'], by simp, .optional hw⟩

theorem prodSeq_sound : ∀ (d : Nat) (i rest : List Char) (p : ProdPattern), bootProdSeq d i = some (p, rest) →
    ∃ w ps, i = w ++ rest ∧ p = .sequence ps ∧ ProdText .sequence w ps := by
  intro d
  induction d with
  | zero => intro i rest p h; simp [bootProdSeq] at h
  | succ d ih =>
    intro i rest p h
    simp only [bootProdSeq, nomMap, Option.map_eq_some_iff] at h
    obtain ⟨⟨ps, r⟩, h1, h2⟩ := h
    cases h2
    have hrep := prodRep_of_seq ih
    obtain ⟨w, rfl, hw⟩ := sepList_some (fun i b rest h => ⟨b, spaces_sound h⟩) hrep h1
    exact ⟨w, ps, rfl, rfl, separated_prodSequence hw⟩

theorem prodRep_sound (d : Nat) (i rest : List Char) (p : ProdPattern) (h : bootProdRepetition (bootProdSeq d) i = some (p, rest)) : ∃ w, i = w ++ rest ∧ ProdText .repetition w [p] :=
  prodRep_of_seq (prodSeq_sound d) i p rest h

/-! ## rules -/

theorem tokenText_reads {w : List Char} {p : TokenPattern} (h : TokenText true w p) (rest : List Char) : bootPattern (w ++ rest) = some (p, rest) := by
  cases h with
  | @literal cs h0 h1 =>
    have a := nomTakeWhile1_app (pred := fun c => c ≠ '"' && isAscii c) (rest := '"' :: rest) h0 (fun c hc => by simpa [isAscii] using h1 c hc) (by simp)
    have b : bootLiteralPattern ('"' :: cs ++ ['"'] ++ rest) = some (.literal cs, rest) := by
      simp only [bootLiteralPattern, List.cons_append, List.append_assoc, List.nil_append, bind, Option.bind, nomTag_cons, a]
    simp only [bootPattern, nomAlt, b]
  | @regex w ps h =>
    have b : bootLiteralPattern ('/' :: w ++ ['/'] ++ rest) = none := by simp [bootLiteralPattern, nomTag, bind, Option.bind]
    simp only [bootPattern, nomAlt, b, bootRegexPattern_reads h]

theorem tokenText_sound {i rest : List Char} {p : TokenPattern} (h : bootPattern i = some (p, rest)) : ∃ w, i = w ++ rest ∧ TokenText false w p := by
  simp only [bootPattern, nomAlt] at h
  split at h
  · rename_i r hr
    cases h
    unfold bootLiteralPattern at hr
    obtain ⟨⟨_, i1⟩, h1, h'⟩ := option_bind_some.mp hr
    obtain ⟨⟨cs, i2⟩, h2, h''⟩ := option_bind_some.mp h'
    obtain ⟨⟨_, i3⟩, h3, h⟩ := option_bind_some.mp h''
    cases h
    have e1 := nomTag_some h1
    have e3 := nomTag_some h3
    obtain ⟨e2, n1, n2, _⟩ := nomTakeWhile1_some h2
    subst e1 e2 e3
    exact ⟨'"' :: cs ++ ['"'], by simp, .literal n1 fun c hc => by simpa [isAscii] using n2 c hc⟩
  · unfold bootRegexPattern at h
    obtain ⟨⟨_, i1⟩, h1, h'⟩ := option_bind_some.mp h
    obtain ⟨⟨q, i2⟩, h2, h''⟩ := option_bind_some.mp h'
    obtain ⟨⟨_, i3⟩, h3, h4⟩ := option_bind_some.mp h''
    cases h4
    have e1 := nomTag_some h1
    have e3 := nomTag_some h3
    obtain ⟨w, ps, e2, rfl, hw⟩ := regexSeq_sound _ _ _ _ h2
    subst e1 e2 e3
    exact ⟨'/' :: w ++ ['/'], by simp, .regex hw⟩

theorem PlainName.noSpace {n : List Char} (h : PlainName n) (rest : List Char) : NoSpace (n ++ rest) :=
  (prodText_start (.name h)).noSpace rest

theorem tokenText_noSpace {b : Bool} {w : List Char} {p : TokenPattern} (h : TokenText b w p) (rest : List Char) : NoSpace (w ++ rest) := by
  cases h with
  | literal => exact noSpace_of (c := '"') rfl (by decide)
  | regex => exact noSpace_of (c := '/') rfl (by decide)

theorem bootRule_reads {w : List Char} {r : LapexRule} (h : BootRuleText true w r) (rest : List Char) : bootRule (w ++ rest) = some (r, rest) := by
  cases h with
  | @token s1 n s2 s3 w p h1 hn h2 h3 hw =>
    have e : "token".toList ++ s1 ++ n ++ s2 ++ ['='] ++ s3 ++ w ++ [';'] ++ rest = "token".toList ++ (s1 ++ (n ++ (s2 ++ '=' :: (s3 ++ (w ++ ';' :: rest))))) := by simp
    rw [e]
    have a : bootTokenRule ("token".toList ++ (s1 ++ (n ++ (s2 ++ '=' :: (s3 ++ (w ++ ';' :: rest)))))) = some (⟨String.ofList n, none, p⟩, rest) := by
      simp only [bootTokenRule, bind, Option.bind, nomTag_app, spaces_app h1 (hn.noSpace _), plainName_app hn (h2.ends _).1, spaces_app h2 (noSpace_of (rest := '=' :: (s3 ++ (w ++ ';' :: rest))) (c := '=') rfl (by decide)),
        nomTag_cons, spaces_app h3 (tokenText_noSpace hw _), tokenText_reads hw, nameOf_eq]
    simp only [bootRule, nomAlt, nomMap, a, Option.map]
  | @prod s1 n s2 s3 w ps h1 hn h2 h3 hw =>
    have e : "prod".toList ++ s1 ++ n ++ s2 ++ ['='] ++ s3 ++ w ++ [';'] ++ rest = "prod".toList ++ (s1 ++ (n ++ (s2 ++ '=' :: (s3 ++ (w ++ ';' :: rest))))) := by simp
    rw [e]
    have t : ∀ i, bootTokenRule ("prod".toList ++ i) = none := by
      intro i
      have : nomTag "token".toList ("prod".toList ++ i) = none := rfl
      simp only [bootTokenRule, bind, Option.bind, this]
    have b : bootProdPattern (w ++ ';' :: rest) = some (.sequence ps, ';' :: rest) := prodSeq_reads (prodText_reads hw) (by simp; omega) (.inl rfl)
    have a : bootProdRule ("prod".toList ++ (s1 ++ (n ++ (s2 ++ '=' :: (s3 ++ (w ++ ';' :: rest)))))) = some (⟨String.ofList n, none, .sequence ps⟩, rest) := by
      simp only [bootProdRule, bind, Option.bind, nomTag_app, spaces_app h1 (hn.noSpace _), plainName_app hn (h2.ends _).1, spaces_app h2 (noSpace_of (rest := '=' :: (s3 ++ (w ++ ';' :: rest))) (c := '=') rfl (by decide)),
        nomTag_cons, spaces_app h3 ((prodText_start hw).noSpace _), b, nameOf_eq]
    simp only [bootRule, nomAlt, nomMap, t, a, Option.map]
  | @entry s1 n h1 hn =>
    have e : "entry".toList ++ s1 ++ n ++ [';'] ++ rest = "entry".toList ++ (s1 ++ (n ++ ';' :: rest)) := by simp
    rw [e]
    have t : ∀ i, bootTokenRule ("entry".toList ++ i) = none := by
      intro i
      have : nomTag "token".toList ("entry".toList ++ i) = none := rfl
      simp only [bootTokenRule, bind, Option.bind, this]
    have t' : ∀ i, bootProdRule ("entry".toList ++ i) = none := by
      intro i
      have : nomTag "prod".toList ("entry".toList ++ i) = none := rfl
      simp only [bootProdRule, bind, Option.bind, this]
    have a : bootEntryRule ("entry".toList ++ (s1 ++ (n ++ ';' :: rest))) = some (String.ofList n, rest) := by
      simp only [bootEntryRule, bind, Option.bind, nomTag_app, spaces_app h1 (hn.noSpace _), plainName_app hn (noName_of (rest := ';' :: rest) (c := ';') rfl (by decide)), nomTag_cons, nameOf_eq]
    simp only [bootRule, nomAlt, nomMap, t, t', a, Option.map]

theorem bootRule_sound {i rest : List Char} {r : LapexRule} (h : bootRule i = some (r, rest)) : ∃ w, i = w ++ rest ∧ BootRuleText false w r := by
  simp only [bootRule, nomAlt] at h
  split at h
  · rename_i x hx
    cases h
    simp only [nomMap, Option.map_eq_some_iff] at hx
    obtain ⟨⟨t, r⟩, h1, h2⟩ := hx
    cases h2
    unfold bootTokenRule at h1
    obtain ⟨⟨_, i1⟩, g1, h1⟩ := option_bind_some.mp h1
    obtain ⟨⟨s1, i2⟩, g2, h1⟩ := option_bind_some.mp h1
    obtain ⟨⟨n, i3⟩, g3, h1⟩ := option_bind_some.mp h1
    obtain ⟨⟨s2, i4⟩, g4, h1⟩ := option_bind_some.mp h1
    obtain ⟨⟨_, i5⟩, g5, h1⟩ := option_bind_some.mp h1
    obtain ⟨⟨s3, i6⟩, g6, h1⟩ := option_bind_some.mp h1
    obtain ⟨⟨p, i7⟩, g7, h1⟩ := option_bind_some.mp h1
    obtain ⟨⟨_, i8⟩, g8, h1⟩ := option_bind_some.mp h1
    cases h1
    have e1 := nomTag_some g1
    obtain ⟨e2, k2⟩ := spaces_sound g2
    obtain ⟨e3, k3⟩ := plainName_sound g3
    obtain ⟨e4, k4⟩ := spaces_sound g4
    have e5 := nomTag_some g5
    obtain ⟨e6, k6⟩ := spaces_sound g6
    obtain ⟨w, e7, k7⟩ := tokenText_sound g7
    have e8 := nomTag_some g8
    refine ⟨_, ?_, .token k2 k3 k4 k6 k7⟩
    rw [e1, e2, e3, e4, e5, e6, e7, e8]
    simp
  · split at h
    · rename_i x hx
      cases h
      simp only [nomMap, Option.map_eq_some_iff] at hx
      obtain ⟨⟨t, r⟩, h1, h2⟩ := hx
      cases h2
      unfold bootProdRule at h1
      obtain ⟨⟨_, i1⟩, g1, h1⟩ := option_bind_some.mp h1
      obtain ⟨⟨s1, i2⟩, g2, h1⟩ := option_bind_some.mp h1
      obtain ⟨⟨n, i3⟩, g3, h1⟩ := option_bind_some.mp h1
      obtain ⟨⟨s2, i4⟩, g4, h1⟩ := option_bind_some.mp h1
      obtain ⟨⟨_, i5⟩, g5, h1⟩ := option_bind_some.mp h1
      obtain ⟨⟨s3, i6⟩, g6, h1⟩ := option_bind_some.mp h1
      obtain ⟨⟨p, i7⟩, g7, h1⟩ := option_bind_some.mp h1
      obtain ⟨⟨_, i8⟩, g8, h1⟩ := option_bind_some.mp h1
      cases h1
      have e1 := nomTag_some g1
      obtain ⟨e2, k2⟩ := spaces_sound g2
      obtain ⟨e3, k3⟩ := plainName_sound g3
      obtain ⟨e4, k4⟩ := spaces_sound g4
      have e5 := nomTag_some g5
      obtain ⟨e6, k6⟩ := spaces_sound g6
      obtain ⟨w, ps, e7, rfl, k7⟩ := prodSeq_sound _ _ _ _ g7
      have e8 := nomTag_some g8
      refine ⟨_, ?_, .prod k2 k3 k4 k6 k7⟩
      rw [e1, e2, e3, e4, e5, e6, e7, e8]
      simp
    · simp only [nomMap, Option.map_eq_some_iff] at h
      obtain ⟨⟨t, r⟩, h1, h2⟩ := h
      cases h2
      unfold bootEntryRule at h1
      obtain ⟨⟨_, i1⟩, g1, h1⟩ := option_bind_some.mp h1
      obtain ⟨⟨s1, i2⟩, g2, h1⟩ := option_bind_some.mp h1
      obtain ⟨⟨n, i3⟩, g3, h1⟩ := option_bind_some.mp h1
      obtain ⟨⟨_, i8⟩, g8, h1⟩ := option_bind_some.mp h1
      cases h1
      have e1 := nomTag_some g1
      obtain ⟨e2, k2⟩ := spaces_sound g2
      obtain ⟨e3, k3⟩ := plainName_sound g3
      have e8 := nomTag_some g8
      refine ⟨_, ?_, .entry k2 k3⟩
      rw [e1, e2, e3, e8]
      simp

/-! ## files -/

theorem blank_iff (c : Char) : isMultispace c = true ↔ c = ' ' ∨ c = '\t' ∨ c = '\r' ∨ c = '\n' := by simp [isMultispace, or_assoc]

theorem bootRuleText_head {b : Bool} {w : List Char} {r : LapexRule} (h : BootRuleText b w r) : ∃ c, w.head? = some c ∧ isMultispace c = false := by
  cases h with
  | token => exact ⟨'t', by simp, by decide⟩
  | prod => exact ⟨'p', by simp, by decide⟩
  | entry => exact ⟨'e', by simp, by decide⟩

theorem bootRulesText_head {b : Bool} {w : List Char} {rs : List LapexRule} (h : BootRulesText b w rs) : ∃ c, w.head? = some c ∧ isMultispace c = false := by
  cases h with
  | one h => exact bootRuleText_head h
  | more h =>
    obtain ⟨c, h1, h2⟩ := bootRuleText_head h
    refine ⟨c, ?_, h2⟩
    rw [List.append_assoc, head_app]
    · exact h1
    · rw [List.length_pos_iff]
      rintro rfl
      cases h1

theorem bootRule_nil : bootRule [] = none := rfl

theorem bootRules_reads {w : List Char} {rs : List LapexRule} (h : BootRulesText true w rs) : ReadsSep nomMultispace1 bootRule Blank w rs := by
  induction h with
  | one h => exact .one fun rest _ => bootRule_reads h rest
  | @more w s v r rs h hs hb hv ih =>
    refine .more hs (fun rest _ => ⟨bootRule_reads h _, s, ?_⟩) ih
    refine nomTakeWhile1_app hs (fun c hc => (blank_iff c).mpr (hb c hc)) fun c hc => ?_
    obtain ⟨d, h1, h2⟩ := bootRulesText_head hv
    rw [head_app (List.length_pos_iff.mpr (by rintro rfl; cases h1)), h1] at hc
    cases hc
    exact h2

theorem blank_take {s rest : List Char} (h : Blank s) (hr : ∀ c, rest.head? = some c → isMultispace c = false) : nomMultispace0 (s ++ rest) = some (s, rest) := by
  obtain ⟨h1, h2⟩ := takeWhile_app (fun c hc => (blank_iff c).mpr (h c hc)) hr
  simp [nomMultispace0, h1, h2]

theorem bootFileRaw_reads {src : List Char} {rs : List LapexRule} (h : BootFileText true src rs) : bootFileRaw src = some (rs, []) := by
  obtain ⟨s1, w, s2, rfl, h1, hw, h2⟩ := h
  have a : nomMultispace0 (s1 ++ (w ++ s2)) = some (s1, w ++ s2) := by
    refine blank_take h1 fun c hc => ?_
    obtain ⟨d, g1, g2⟩ := bootRulesText_head hw
    rw [head_app (List.length_pos_iff.mpr (by rintro rfl; cases g1)), g1] at hc
    cases hc
    exact g2
  have b := sepList_reads (stop := Blank) (fun rest hr => by
    cases rest with
    | nil => exact .inl rfl
    | cons c rest =>
      refine .inr ⟨c :: rest, [], ?_, by simp, bootRule_nil⟩
      have := nomTakeWhile1_app (pred := isMultispace) (n := c :: rest) (rest := []) (by simp) (fun c hc => (blank_iff c).mpr (hr c hc)) (by simp)
      rwa [List.append_nil] at this) (bootRules_reads hw) s2 h2
  have c := blank_take h2 (rest := []) (by simp)
  rw [List.append_nil] at c
  simp only [bootFileRaw, List.append_assoc, bind, Option.bind, a, b, c]

theorem separated_rules {w : List Char} {rs : List LapexRule} (h : Separated (fun s => s ≠ [] ∧ Blank s) (BootRuleText false) w rs) : BootRulesText false w rs := by
  induction h with
  | one h => exact .one h
  | more h hs _ ih => exact .more h hs.1 hs.2 ih

theorem bootFileRaw_sound {i rest : List Char} {rs : List LapexRule} (h : bootFileRaw i = some (rs, rest)) : ∃ w, i = w ++ rest ∧ BootFileText false w rs := by
  unfold bootFileRaw at h
  obtain ⟨⟨s1, i1⟩, h1, h⟩ := option_bind_some.mp h
  obtain ⟨⟨rs', i2⟩, h2, h⟩ := option_bind_some.mp h
  obtain ⟨⟨s2, i3⟩, h3, h⟩ := option_bind_some.mp h
  cases h
  unfold nomMultispace0 at h1 h3
  simp only [Option.some.injEq, Prod.mk.injEq] at h1 h3
  obtain ⟨rfl, rfl⟩ := h1
  obtain ⟨rfl, rfl⟩ := h3
  obtain ⟨a1, a2, _⟩ := takeWhile_split isMultispace i
  obtain ⟨b1, b2, _⟩ := takeWhile_split isMultispace i2
  obtain ⟨w, e, hw⟩ := sepList_some (S := fun s => s ≠ [] ∧ Blank s) (fun i b rest h => by
    obtain ⟨k1, k2, k3, _⟩ := nomTakeWhile1_some h
    exact ⟨b, k1, k2, fun c hc => (blank_iff c).mp (k3 c hc)⟩) (fun i a rest h => bootRule_sound h) h2
  refine ⟨i.takeWhile isMultispace ++ w ++ i2.takeWhile isMultispace, ?_, _, w, _, rfl, fun c hc => (blank_iff c).mp (a2 c hc), separated_rules hw, fun c hc => (blank_iff c).mp (b2 c hc)⟩
  rw [List.append_assoc, ← b1, List.append_assoc, ← e, ← a1]

/-! ## bytes -/

def AsciiText (w : List Char) : Prop := ∀ c ∈ w, c.toNat < 128

theorem encode_ascii {c : Char} (h : c.toNat < 128) : (String.utf8EncodeChar c).map (fun b => Char.ofNat b.toNat) = [c] := by
  unfold String.utf8EncodeChar
  have hc : c.val.toNat = c.toNat := rfl
  simp only [hc]
  rw [if_pos (by omega)]
  simp only [List.map_cons, List.map_nil, UInt8.toNat_ofNat']
  rw [Nat.mod_eq_of_lt (by omega), ← char_eq_ofNat]

theorem asBytes_ascii {w : List Char} (h : AsciiText w) : asBytes w = w := by
  induction w with
  | nil => rfl
  | cons c w ih =>
    have := ih fun d hd => h d (List.mem_cons_of_mem _ hd)
    unfold asBytes at this ⊢
    rw [List.flatMap_cons, encode_ascii (h c List.mem_cons_self), this]
    rfl

theorem byte_char {n : Nat} (h : n < 256) : (Char.ofNat (UInt8.ofNat n).toNat).toNat = n := by
  rw [UInt8.toNat_ofNat', Nat.mod_eq_of_lt (by omega)]
  have hv : n.isValidChar := by unfold Nat.isValidChar; omega
  simp [Char.ofNat, hv, Char.ofNatAux, Char.toNat]

theorem ascii_of_asBytes {w : List Char} (h : AsciiText (asBytes w)) : AsciiText w := by
  intro c hc
  by_contra hn
  have hsub : ∀ b ∈ (String.utf8EncodeChar c).map (fun b => Char.ofNat b.toNat), b.toNat < 128 := fun b hb => h b (List.mem_flatMap.mpr ⟨c, hc, hb⟩)
  have hv : c.toNat < 0xD800 ∨ (0xDFFF < c.toNat ∧ c.toNat < 0x110000) := c.valid
  unfold String.utf8EncodeChar at hsub
  have hcv : c.val.toNat = c.toNat := rfl
  simp only [hcv] at hsub
  generalize c.toNat = v at *
  rw [if_neg (by omega)] at hsub
  split at hsub
  · have := hsub _ (by simp only [List.map_cons]; exact List.mem_cons_self)
    rw [byte_char (by omega)] at this
    omega
  · split at hsub
    · have := hsub _ (by simp only [List.map_cons]; exact List.mem_cons_self)
      rw [byte_char (by omega)] at this
      omega
    · have := hsub _ (by simp only [List.map_cons]; exact List.mem_cons_self)
      rw [byte_char (by omega)] at this
      omega

theorem AsciiText.append {w v : List Char} (h : AsciiText w) (h' : AsciiText v) : AsciiText (w ++ v) := by
  intro c hc
  rcases List.mem_append.mp hc with hc | hc
  · exact h c hc
  · exact h' c hc

theorem AsciiText.cons {c : Char} {w : List Char} (h : c.toNat < 128) (h' : AsciiText w) : AsciiText (c :: w) := by
  intro d hd
  rcases List.mem_cons.mp hd with rfl | hd
  · exact h
  · exact h' d hd

theorem ascii_nil : AsciiText [] := fun _ h => by cases h

theorem charText_ascii {w : List Char} {c : Char} (h : CharText w c) : AsciiText w := by
  cases h with
  | plain h => exact .cons h.1 ascii_nil
  | @unicode ds _ h1 h2 h =>
    refine .append (.append ?_ ?_) ?_
    · unfold AsciiText; decide
    · intro d hd
      have := hexDigit_mem ((hexIs_value h).2 d hd)
      have all : ∀ x ∈ hexDigits, x.1.toNat < 128 := by decide
      exact all _ this
    · unfold AsciiText; decide
  | _ => unfold AsciiText; decide

theorem setText_ascii {b : Bool} {w : List Char} {xs : List Characters} (h : SetText b w xs) : AsciiText w := by
  have item : ∀ {w x}, SetItem w x → AsciiText w := by
    intro w x h
    cases h with
    | single h => exact charText_ascii h
    | range h1 h2 => exact (charText_ascii h1).append (.cons (by decide) (charText_ascii h2))
  induction h with
  | one h => exact item h
  | more h _ _ ih => exact (item h).append ih

theorem regexText_ascii {b : Bool} {l : RegexLevel} {w : List Char} {ps : List Pattern} (h : RegexText b l w ps) : AsciiText w := by
  induction h with
  | char h _ => exact charText_ascii h
  | any => unfold AsciiText; decide
  | set h _ => exact .cons (by decide) ((setText_ascii h).append (.cons (by decide) ascii_nil))
  | negated h => exact .cons (by decide) (.cons (by decide) ((setText_ascii h).append (.cons (by decide) ascii_nil)))
  | group _ ih => exact .cons (by decide) (ih.append (.cons (by decide) ascii_nil))
  | choice _ _ ih => exact .cons (by decide) (ih.append (.cons (by decide) ascii_nil))
  | once _ ih => exact ih
  | zeroOrMore _ ih => exact ih.append (.cons (by decide) ascii_nil)
  | oneOrMore _ ih => exact ih.append (.cons (by decide) ascii_nil)
  | optional _ ih => exact ih.append (.cons (by decide) ascii_nil)
  | last _ ih => exact ih
  | more _ _ ih ih' => exact ih.append ih'
  | lastChoice _ ih => exact ih
  | moreChoices _ _ ih ih' => exact ih.append (.cons (by decide) ih')

theorem Spaces.ascii {s : List Char} (h : Spaces s) : AsciiText s := by
  intro c hc
  rcases h.2 c hc with rfl | rfl <;> decide

theorem Blank.ascii {s : List Char} (h : Blank s) : AsciiText s := by
  intro c hc
  rcases h c hc with rfl | rfl | rfl | rfl <;> decide

theorem PlainName.ascii {n : List Char} (h : PlainName n) : AsciiText n := by
  intro c hc
  rcases h.2 c hc with h | rfl
  · simp only [Char.isAlpha, Char.isUpper, Char.isLower, Bool.or_eq_true, Bool.and_eq_true, decide_eq_true_eq] at h
    have le : ∀ a b : UInt32, a ≤ b → a.toNat ≤ b.toNat := fun a b h => h
    show c.val.toNat < 128
    rcases h with ⟨_, h⟩ | ⟨_, h⟩ <;> have := le _ _ h <;> revert this <;> simp <;> omega
  · decide

theorem prodText_ascii {l : RegexLevel} {w : List Char} {ps : List ProdPattern} (h : ProdText l w ps) : AsciiText w := by
  induction h with
  | name h => exact h.ascii
  | group _ ih => exact .cons (by decide) (ih.append (.cons (by decide) ascii_nil))
  | choice _ _ ih => exact .cons (by decide) (ih.append (.cons (by decide) ascii_nil))
  | once _ ih => exact ih
  | zeroOrMore _ ih => exact ih.append (.cons (by decide) ascii_nil)
  | oneOrMore _ ih => exact ih.append (.cons (by decide) ascii_nil)
  | optional _ ih => exact ih.append (.cons (by decide) ascii_nil)
  | last _ ih => exact ih
  | more _ hs _ ih ih' => exact (ih.append hs.ascii).append ih'
  | lastChoice _ ih => exact ih
  | moreChoices _ _ ih ih' => exact (ih.append (.cons (by decide) (.cons (by decide) (.cons (by decide) ascii_nil)))).append ih'

theorem bootRuleText_ascii {b : Bool} {w : List Char} {r : LapexRule} (h : BootRuleText b w r) : AsciiText w := by
  have lit : AsciiText "token".toList ∧ AsciiText "prod".toList ∧ AsciiText "entry".toList ∧ AsciiText ['='] ∧ AsciiText [';'] := by unfold AsciiText; decide
  cases h with
  | token h1 hn h2 h3 hw =>
    refine ((((((lit.1.append h1.ascii).append hn.ascii).append h2.ascii).append lit.2.2.2.1).append h3.ascii).append ?_).append lit.2.2.2.2
    cases hw with
    | literal _ h => exact .cons (by decide) (AsciiText.append (fun c hc => (h c hc).2) (.cons (by decide) ascii_nil))
    | regex h => exact .cons (by decide) ((regexText_ascii h).append (.cons (by decide) ascii_nil))
  | prod h1 hn h2 h3 hw =>
    exact ((((((lit.2.1.append h1.ascii).append hn.ascii).append h2.ascii).append lit.2.2.2.1).append h3.ascii).append (prodText_ascii hw)).append lit.2.2.2.2
  | entry h1 hn => exact ((lit.2.2.1.append h1.ascii).append hn.ascii).append lit.2.2.2.2

theorem bootFileText_ascii {b : Bool} {w : List Char} {rs : List LapexRule} (h : BootFileText b w rs) : AsciiText w := by
  obtain ⟨s1, w, s2, rfl, h1, hw, h2⟩ := h
  refine (h1.ascii.append ?_).append h2.ascii
  induction hw with
  | one h => exact bootRuleText_ascii h
  | more h _ hs _ ih => exact ((bootRuleText_ascii h).append hs.ascii).append ih

end Verif
