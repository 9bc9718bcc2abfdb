import Verif.Spec.Names
import Verif.Proofs.Collections
import Verif.Proofs.GrammarLang
import Verif.Proofs.Closure

/-! # Names in generated code -/

set_option autoImplicit false

namespace Verif

/-! ## ASCII case -/

def upNat (n : Nat) : Nat := if 97 ≤ n ∧ n ≤ 122 then n - 32 else n
def lowNat (n : Nat) : Nat := if 65 ≤ n ∧ n ≤ 90 then n + 32 else n

theorem toNat_ofNat_small {n : Nat} (h : n < 128) : (Char.ofNat n).toNat = n := by
  have hv : n.isValidChar := Or.inl (by omega)
  simp only [Char.ofNat, hv, dite_true]
  rfl

theorem toNat_upper (c : Char) : (asciiUpper c).toNat = upNat c.toNat := by
  unfold asciiUpper upNat
  split
  · rw [toNat_ofNat_small (by omega)]
  · rfl

theorem toNat_lower (c : Char) : (asciiLower c).toNat = lowNat c.toNat := by
  unfold asciiLower lowNat
  split
  · rw [toNat_ofNat_small (by omega)]
  · rfl

theorem char_eq_of_toNat {c d : Char} (h : c.toNat = d.toNat) : c = d := Char.toNat_inj.mp h

theorem underscore_toNat : ('_' : Char).toNat = 95 := rfl

theorem eq_underscore {c : Char} : c = '_' ↔ c.toNat = 95 := ⟨fun h => by rw [h]; rfl, fun h => char_eq_of_toNat (h.trans underscore_toNat.symm)⟩

theorem lower_underscore {c : Char} : asciiLower c = '_' ↔ c = '_' := by
  rw [eq_underscore, eq_underscore, toNat_lower]
  unfold lowNat
  split <;> omega

theorem upper_of_lower {c d : Char} (h : asciiLower c = asciiLower d) : asciiUpper c = asciiUpper d := by
  apply char_eq_of_toNat
  have := congrArg Char.toNat h
  rw [toNat_lower, toNat_lower] at this
  rw [toNat_upper, toNat_upper]
  unfold lowNat at this
  unfold upNat
  split at this <;> split at this <;> split <;> split <;> omega

theorem lower_of_upper {c d : Char} (h : asciiUpper c = asciiUpper d) : asciiLower c = asciiLower d := by
  apply char_eq_of_toNat
  have := congrArg Char.toNat h
  rw [toNat_upper, toNat_upper] at this
  rw [toNat_lower, toNat_lower]
  unfold upNat at this
  unfold lowNat
  split at this <;> split at this <;> split <;> split <;> omega

theorem utf8Size_one {c : Char} : c.utf8Size = 1 ↔ c.toNat < 128 := by
  have hdef : c.utf8Size = if c.val ≤ 0x7f then 1 else if c.val ≤ 0x7ff then 2 else if c.val ≤ 0xffff then 3 else 4 := rfl
  have : c.toNat = c.val.toNat := rfl
  rw [this, hdef]
  have h127 : c.val ≤ 0x7f ↔ c.val.toNat ≤ 127 := by rw [UInt32.le_iff_toNat_le]; rfl
  constructor
  · intro h
    split at h
    · rename_i hc; have := h127.mp hc; omega
    · split at h
      · cases h
      · split at h <;> cases h
  · intro h
    rw [if_pos (h127.mpr (by omega))]

/-! ## camel case -/

/-- `upperCamel` char by char; the flag tells whether a segment starts -/
def camelGo : Bool → List Char → Res (List Char)
  | true, [] => .error .panic
  | false, [] => .ok []
  | true, c :: cs =>
    if c = '_' then .error .panic
    else if c.utf8Size = 1 then (camelGo false cs).map (asciiUpper c :: ·) else .error .panic
  | false, c :: cs => if c = '_' then camelGo true cs else (camelGo false cs).map (asciiLower c :: ·)

theorem split_ne_nil (cs : List Char) : splitUnderscore cs ≠ [] := by
  cases cs with
  | nil => simp [splitUnderscore]
  | cons c cs =>
    unfold splitUnderscore
    split
    · simp
    · split <;> simp

theorem camelSegment_error {s : List Char} {e : Err} (h : camelSegment s = .error e) : e = .panic := by
  unfold camelSegment at h
  split at h
  · cases h; rfl
  · split at h <;> cases h
    rfl

theorem mapM_camel_error : ∀ {l : List (List Char)} {e : Err}, l.mapM camelSegment = .error e → e = .panic := by
  intro l
  induction l with
  | nil => intro e h; cases h
  | cons s l ih =>
    intro e h
    rw [List.mapM_cons] at h
    simp only [bind, Except.bind] at h
    split at h
    · rename_i h1
      cases h
      exact camelSegment_error h1
    · split at h
      · rename_i h1
        cases h
        exact ih h1
      · cases h

theorem camelGo_spec : ∀ (cs : List Char), camelGo true cs = upperCamel cs ∧
    ∀ s ss, splitUnderscore cs = s :: ss → camelGo false cs = (ss.mapM camelSegment).map (fun r => s.map asciiLower ++ r.flatten) := by
  intro cs
  induction cs with
  | nil =>
    refine ⟨rfl, ?_⟩
    intro s ss h
    simp only [splitUnderscore, List.cons.injEq] at h
    obtain ⟨rfl, rfl⟩ := h
    rfl
  | cons c cs ih =>
    obtain ⟨ih1, ih2⟩ := ih
    constructor
    · unfold upperCamel
      unfold camelGo splitUnderscore
      split
      · simp only [List.mapM_cons, camelSegment, bind, Except.bind]
      · obtain ⟨s, ss, hs⟩ := List.exists_cons_of_ne_nil (split_ne_nil cs)
        rw [hs]
        simp only [List.mapM_cons, camelSegment, bind, Except.bind]
        split
        · rw [ih2 s ss hs]
          cases ss.mapM camelSegment with
          | error e => rfl
          | ok r => simp [Except.map, pure, Except.pure]
        · rfl
    · intro s ss h
      unfold splitUnderscore at h
      unfold camelGo
      split at h
      · rename_i hc
        simp only [List.cons.injEq] at h
        obtain ⟨rfl, rfl⟩ := h
        rw [if_pos hc, ih1]
        unfold upperCamel
        cases (splitUnderscore cs).mapM camelSegment with
        | error e => rfl
        | ok r => simp [Except.map, bind, Except.bind]
      · rename_i hc
        rw [if_neg hc]
        obtain ⟨s', ss', hs⟩ := List.exists_cons_of_ne_nil (split_ne_nil cs)
        rw [hs] at h
        simp only [List.cons.injEq] at h
        obtain ⟨rfl, rfl⟩ := h
        rw [ih2 s' ss' hs]
        cases ss'.mapM camelSegment with
        | error e => rfl
        | ok r => simp [Except.map]

theorem upperCamel_go (cs : List Char) : upperCamel cs = camelGo true cs := (camelGo_spec cs).1.symm

theorem camelGo_error : ∀ (cs : List Char) (b : Bool) (e : Err), camelGo b cs = .error e → e = .panic := by
  intro cs
  induction cs with
  | nil => intro b e h; cases b <;> simp [camelGo] at h; exact h.symm
  | cons c cs ih =>
    intro b e h
    cases b with
    | true =>
      unfold camelGo at h
      split at h
      · cases h; rfl
      · split at h
        · cases hg : camelGo false cs with
          | error e' => rw [hg] at h; cases h; exact ih _ _ hg
          | ok o => rw [hg] at h; cases h
        · cases h; rfl
    | false =>
      unfold camelGo at h
      split at h
      · exact ih _ _ h
      · cases hg : camelGo false cs with
        | error e' => rw [hg] at h; cases h; exact ih _ _ hg
        | ok o => rw [hg] at h; cases h

/-- what remains at the start of a segment, when the name is continued (`b = false`) or starts one -/
def SegStart (b : Bool) (name rest : List Char) : Prop := ∃ a, name = a ++ rest ∧ ((a = [] ∧ b = true) ∨ ∃ a', a = a' ++ ['_'])

theorem segStart_true {name rest : List Char} : SegStart true name rest ↔ SegmentStart name rest := by
  unfold SegStart SegmentStart
  simp

theorem segStart_cons {b : Bool} {c : Char} {cs rest : List Char} : SegStart b (c :: cs) rest ↔ (b = true ∧ rest = c :: cs) ∨ SegStart (decide (c = '_')) cs rest := by
  constructor
  · rintro ⟨a, h, ⟨rfl, hb⟩ | ⟨a', rfl⟩⟩
    · exact .inl ⟨hb, h.symm⟩
    · right
      cases a' with
      | nil =>
        simp only [List.nil_append, List.cons_append, List.cons.injEq] at h
        obtain ⟨rfl, rfl⟩ := h
        exact ⟨[], rfl, .inl ⟨rfl, by decide⟩⟩
      | cons x a' =>
        simp only [List.cons_append, List.cons.injEq] at h
        exact ⟨a' ++ ['_'], h.2, .inr ⟨a', rfl⟩⟩
  · rintro (⟨hb, rfl⟩ | ⟨a, rfl, ⟨rfl, hc⟩ | ⟨a', rfl⟩⟩)
    · exact ⟨[], rfl, .inl ⟨rfl, hb⟩⟩
    · have hc : c = '_' := by simpa using hc
      subst hc
      exact ⟨['_'], rfl, .inr ⟨[], rfl⟩⟩
    · exact ⟨c :: (a' ++ ['_']), rfl, .inr ⟨c :: a', rfl⟩⟩

theorem segStart_nil {b : Bool} {rest : List Char} : SegStart b [] rest ↔ b = true ∧ rest = [] := by
  constructor
  · rintro ⟨a, h, h'⟩
    have ha : a = [] ∧ rest = [] := by simpa using h
    obtain ⟨rfl, rfl⟩ := ha
    rcases h' with h' | ⟨a', h'⟩
    · exact ⟨h'.2, rfl⟩
    · simp at h'
  · rintro ⟨rfl, rfl⟩
    exact ⟨[], rfl, .inl ⟨rfl, rfl⟩⟩

def BadAt (rest : List Char) : Prop := rest = [] ∨ (∃ b', rest = '_' :: b') ∨ ∃ c b', rest = c :: b' ∧ 128 ≤ c.toNat

theorem map_error_iff {α β : Type} {x : Res α} {f : α → β} {e : Err} : x.map f = .error e ↔ x = .error e := by
  cases x <;> simp [Except.map]

theorem camelGo_panics : ∀ (cs : List Char) (b : Bool), camelGo b cs = .error .panic ↔ ∃ rest, SegStart b cs rest ∧ BadAt rest := by
  intro cs
  induction cs with
  | nil =>
    intro b
    cases b with
    | true => simp only [camelGo, true_iff]; exact ⟨[], segStart_nil.mpr ⟨rfl, rfl⟩, .inl rfl⟩
    | false =>
      simp only [camelGo, reduceCtorEq, false_iff, not_exists, not_and]
      intro rest h
      have := (segStart_nil.mp h).1
      cases this
  | cons c cs ih =>
    intro b
    cases b with
    | true =>
      unfold camelGo
      split
      · rename_i hc
        simp only [true_iff]
        exact ⟨c :: cs, segStart_cons.mpr (.inl ⟨rfl, rfl⟩), .inr (.inl ⟨cs, by rw [hc]⟩)⟩
      · rename_i hc
        split
        · rename_i hu
          rw [map_error_iff, ih false]
          constructor
          · rintro ⟨rest, h1, h2⟩
            exact ⟨rest, segStart_cons.mpr (.inr (by simpa [hc] using h1)), h2⟩
          · rintro ⟨rest, h1, h2⟩
            rcases segStart_cons.mp h1 with ⟨_, rfl⟩ | h1
            · rcases h2 with h2 | ⟨b', h2⟩ | ⟨c', b', h2, h3⟩
              · cases h2
              · cases h2; exact absurd rfl hc
              · cases h2
                have := utf8Size_one.mp hu
                omega
            · exact ⟨rest, by simpa [hc] using h1, h2⟩
        · rename_i hu
          simp only [true_iff]
          refine ⟨c :: cs, segStart_cons.mpr (.inl ⟨rfl, rfl⟩), .inr (.inr ⟨c, cs, rfl, ?_⟩)⟩
          rw [utf8Size_one] at hu
          omega
    | false =>
      unfold camelGo
      have key : ∀ rest, SegStart false (c :: cs) rest ↔ SegStart (decide (c = '_')) cs rest := by
        intro rest
        rw [segStart_cons]
        simp
      split
      · rename_i hc
        simp only [key]
        rw [ih true]
        simp only [hc, decide_true]
      · rename_i hc
        rw [map_error_iff, ih false]
        simp only [key, hc, decide_false]

def GoodFrom (b : Bool) (cs : List Char) : Prop := ∀ rest, SegStart b cs rest → ∃ c b', rest = c :: b' ∧ IsLetter c

theorem goodName_iff {cs : List Char} : GoodName cs ↔ GoodFrom true cs := by
  unfold GoodName GoodFrom
  simp only [segStart_true]

theorem GoodFrom.tail {b : Bool} {c : Char} {cs : List Char} (h : GoodFrom b (c :: cs)) : GoodFrom (decide (c = '_')) cs :=
  fun rest hr => h rest (segStart_cons.mpr (.inr hr))

theorem GoodFrom.head {c : Char} {cs : List Char} (h : GoodFrom true (c :: cs)) : IsLetter c := by
  obtain ⟨c', b', e, hl⟩ := h (c :: cs) (segStart_cons.mpr (.inl ⟨rfl, rfl⟩))
  cases e
  exact hl

theorem IsLetter.not_underscore {c : Char} (h : IsLetter c) : c ≠ '_' := by
  intro e
  rw [eq_underscore] at e
  unfold IsLetter at h
  omega

theorem IsLetter.utf8Size {c : Char} (h : IsLetter c) : c.utf8Size = 1 := by
  rw [utf8Size_one]
  unfold IsLetter at h
  omega

theorem camelGo_good : ∀ (cs : List Char) (b : Bool), GoodFrom b cs → ∃ out, camelGo b cs = .ok out := by
  intro cs b h
  cases hg : camelGo b cs with
  | ok out => exact ⟨out, rfl⟩
  | error e =>
    have := camelGo_error _ _ _ hg
    subst this
    obtain ⟨rest, h1, h2⟩ := (camelGo_panics cs b).mp hg
    obtain ⟨c, b', rfl, hl⟩ := h rest h1
    rcases h2 with h2 | ⟨b'', h2⟩ | ⟨c', b'', h2, h3⟩
    · cases h2
    · cases h2; exact absurd rfl hl.not_underscore
    · cases h2; unfold IsLetter at hl; omega

theorem camelGo_head {cs out : List Char} (hg : GoodFrom true cs) (h : camelGo true cs = .ok out) : ∃ u out', out = u :: out' ∧ 65 ≤ u.toNat ∧ u.toNat ≤ 90 := by
  cases cs with
  | nil => cases h
  | cons c cs =>
    have hl := hg.head
    unfold camelGo at h
    rw [if_neg hl.not_underscore, if_pos hl.utf8Size] at h
    cases hr : camelGo false cs with
    | error e => rw [hr] at h; cases h
    | ok o =>
      rw [hr] at h
      cases h
      refine ⟨_, _, rfl, ?_⟩
      rw [toNat_upper]
      unfold IsLetter at hl
      unfold upNat
      split <;> omega

theorem lower_not_upper (c : Char) : ¬ (65 ≤ (asciiLower c).toNat ∧ (asciiLower c).toNat ≤ 90) := by
  rw [toNat_lower]
  unfold lowNat
  split <;> omega

theorem camelGo_inj : ∀ (cs cs' : List Char) (b : Bool) (out : List Char), GoodFrom b cs → GoodFrom b cs' → camelGo b cs = .ok out → camelGo b cs' = .ok out →
    cs.map asciiLower = cs'.map asciiLower := by
  intro cs
  induction cs with
  | nil =>
    intro cs' b out hg hg' h h'
    cases b with
    | true => cases h
    | false =>
      cases h
      cases cs' with
      | nil => rfl
      | cons c cs' =>
        unfold camelGo at h'
        split at h'
        · rename_i hc
          obtain ⟨u, o, e, _⟩ := camelGo_head (by simpa [hc] using hg'.tail) h'
          cases e
        · cases hr : camelGo false cs' with
          | error e => rw [hr] at h'; cases h'
          | ok o => rw [hr] at h'; cases h'
  | cons c cs ih =>
    intro cs' b out hg hg' h h'
    cases b with
    | true =>
      cases cs' with
      | nil => cases h'
      | cons c' cs' =>
        have hl := hg.head
        have hl' := hg'.head
        unfold camelGo at h h'
        rw [if_neg hl.not_underscore, if_pos hl.utf8Size] at h
        rw [if_neg hl'.not_underscore, if_pos hl'.utf8Size] at h'
        cases hr : camelGo false cs with
        | error e => rw [hr] at h; cases h
        | ok o =>
          cases hr' : camelGo false cs' with
          | error e => rw [hr'] at h'; cases h'
          | ok o' =>
            rw [hr] at h
            rw [hr'] at h'
            cases h
            simp only [Except.map, Except.ok.injEq, List.cons.injEq] at h'
            obtain ⟨h1, rfl⟩ := h'
            have := ih cs' false o' (by simpa [hl.not_underscore] using hg.tail) (by simpa [hl'.not_underscore] using hg'.tail) hr hr'
            simp only [List.map_cons, this, lower_of_upper h1]
    | false =>
      by_cases hc : c = '_'
      · have hg1 : GoodFrom true cs := by simpa [hc] using hg.tail
        unfold camelGo at h
        rw [if_pos hc] at h
        obtain ⟨u, o, rfl, hu⟩ := camelGo_head hg1 h
        cases cs' with
        | nil => cases h'
        | cons c' cs' =>
          unfold camelGo at h'
          split at h'
          · rename_i hc'
            have := ih cs' true _ hg1 (by simpa [hc'] using hg'.tail) h h'
            simp only [List.map_cons, this, hc, hc']
          · cases hr' : camelGo false cs' with
            | error e => rw [hr'] at h'; cases h'
            | ok o' =>
              rw [hr'] at h'
              simp only [Except.map, Except.ok.injEq, List.cons.injEq] at h'
              exact absurd (h'.1 ▸ hu) (lower_not_upper c')
      · have hg1 : GoodFrom false cs := by simpa [hc] using hg.tail
        unfold camelGo at h
        rw [if_neg hc] at h
        cases hr : camelGo false cs with
        | error e => rw [hr] at h; cases h
        | ok o =>
          rw [hr] at h
          cases h
          cases cs' with
          | nil => cases h'
          | cons c' cs' =>
            unfold camelGo at h'
            split at h'
            · rename_i hc'
              obtain ⟨u, o', e, hu⟩ := camelGo_head (by simpa [hc'] using hg'.tail) h'
              simp only [List.cons.injEq] at e
              exact absurd (e.1 ▸ hu) (lower_not_upper c)
            · rename_i hc'
              cases hr' : camelGo false cs' with
              | error e => rw [hr'] at h'; cases h'
              | ok o' =>
                rw [hr'] at h'
                simp only [Except.map, Except.ok.injEq, List.cons.injEq] at h'
                obtain ⟨h1, rfl⟩ := h'
                have := ih cs' false o' hg1 (by simpa [hc'] using hg'.tail) hr hr'
                simp only [List.map_cons, this, h1]

theorem utf8Size_lower {c d : Char} (h : asciiLower c = asciiLower d) : c.utf8Size = 1 ↔ d.utf8Size = 1 := by
  rw [utf8Size_one, utf8Size_one]
  have := congrArg Char.toNat h
  rw [toNat_lower, toNat_lower] at this
  unfold lowNat at this
  split at this <;> split at this <;> omega

theorem camelGo_same : ∀ (cs cs' : List Char) (b : Bool), cs.map asciiLower = cs'.map asciiLower → camelGo b cs = camelGo b cs' := by
  intro cs
  induction cs with
  | nil => intro cs' b h; simp at h; rw [h]
  | cons c cs ih =>
    intro cs' b h
    cases cs' with
    | nil => simp at h
    | cons c' cs' =>
      simp only [List.map_cons, List.cons.injEq] at h
      obtain ⟨h1, h2⟩ := h
      have hu : c = '_' ↔ c' = '_' := by rw [← lower_underscore, h1, lower_underscore]
      cases b with
      | true =>
        unfold camelGo
        rw [ih cs' false h2, upper_of_lower h1]
        simp only [hu, utf8Size_lower h1]
      | false =>
        unfold camelGo
        rw [ih cs' false h2, ih cs' true h2, h1]
        simp only [hu]

/-! ## callbacks -/

/-- the rules of a non-terminal, by number -/
def rulesOf (g : Grammar) (A : Nat) : List Nat := ((g.rules.zipIdx).filter (fun r => r.1.lhs = A)).map (·.2)

theorem rulesFold (l : List (Rule × Nat)) : ∀ m : List (Nat × List Nat), MSorted m →
    MSorted (l.foldl (fun m r => mpush r.1.lhs r.2 m) m) ∧
    ∀ A, mget? A (l.foldl (fun m r => mpush r.1.lhs r.2 m) m) =
      if (l.filter (fun r => r.1.lhs = A)) = [] then mget? A m else some ((mget? A m).getD [] ++ (l.filter (fun r => r.1.lhs = A)).map (·.2)) := by
  induction l with
  | nil => intro m hm; exact ⟨hm, fun A => by simp⟩
  | cons r l ih =>
    intro m hm
    obtain ⟨h1, h2⟩ := ih (mpush r.1.lhs r.2 m) (mpush_sorted hm)
    refine ⟨h1, fun A => ?_⟩
    rw [List.foldl_cons, h2 A]
    by_cases hA : r.1.lhs = A
    · subst hA
      rw [mget?_mpush_self _ _ _ hm]
      simp only [List.filter_cons, decide_true, if_true]
      by_cases hf : l.filter (fun x => x.1.lhs = r.1.lhs) = []
      · simp [hf]
      · simp [hf]
    · rw [mget?_mpush_ne _ _ (fun e => hA e.symm)]
      simp only [List.filter_cons, hA, decide_false]
      rfl

theorem rulesByNt_sorted (g : Grammar) : MSorted (rulesByNt g) := (rulesFold _ [] (by simp [MSorted])).1

theorem mget?_rulesByNt (g : Grammar) (A : Nat) : mget? A (rulesByNt g) = if rulesOf g A = [] then none else some (rulesOf g A) := by
  unfold rulesByNt
  rw [(rulesFold _ [] (by simp [MSorted])).2 A]
  unfold rulesOf
  by_cases hf : (g.rules.zipIdx).filter (fun x => x.1.lhs = A) = []
  · simp [hf, mget?]
  · simp [hf, mget?]

theorem mem_rulesByNt {g : Grammar} {A : Nat} {l : List Nat} : (A, l) ∈ rulesByNt g ↔ l = rulesOf g A ∧ rulesOf g A ≠ [] := by
  constructor
  · intro h
    have := mem_mget? (rulesByNt_sorted g) h
    rw [mget?_rulesByNt] at this
    split at this
    · cases this
    · cases this
      exact ⟨rfl, by assumption⟩
  · rintro ⟨rfl, h⟩
    apply mget?_mem
    rw [mget?_rulesByNt, if_neg h]

theorem position_aux (p : Rule → Bool) : ∀ (l : List Rule) (k j r i : Nat),
    (r, i) ∈ ((((l.zipIdx k).filter (fun x => p x.1)).map (·.2)).zipIdx j) ↔
      k ≤ r ∧ ∃ x, l[r - k]? = some x ∧ p x = true ∧ i = j + ((l.take (r - k)).filter p).length := by
  intro l
  induction l with
  | nil => intro k j r i; simp
  | cons y l ih =>
    intro k j r i
    rw [List.zipIdx_cons]
    by_cases hp : p y = true
    · rw [List.filter_cons_of_pos (by simpa using hp), List.map_cons, List.zipIdx_cons, List.mem_cons, ih]
      constructor
      · rintro (h | ⟨h1, x, h2, h3, h4⟩)
        · cases h
          exact ⟨Nat.le_refl _, y, by simp, hp, by simp⟩
        · refine ⟨by omega, x, ?_, h3, ?_⟩
          · have : r - k = (r - (k + 1)) + 1 := by omega
            rw [this, List.getElem?_cons_succ]
            exact h2
          · have : r - k = (r - (k + 1)) + 1 := by omega
            rw [this, List.take_succ_cons, List.filter_cons_of_pos hp, List.length_cons]
            omega
      · rintro ⟨h1, x, h2, h3, h4⟩
        by_cases hr : r = k
        · left
          subst hr
          simp at h4
          rw [h4]
        · right
          have : r - k = (r - (k + 1)) + 1 := by omega
          rw [this, List.getElem?_cons_succ] at h2
          rw [this, List.take_succ_cons, List.filter_cons_of_pos hp, List.length_cons] at h4
          exact ⟨by omega, x, h2, h3, by omega⟩
    · rw [List.filter_cons_of_neg (by simpa using hp), ih]
      constructor
      · rintro ⟨h1, x, h2, h3, h4⟩
        refine ⟨by omega, x, ?_, h3, ?_⟩
        · have : r - k = (r - (k + 1)) + 1 := by omega
          rw [this, List.getElem?_cons_succ]
          exact h2
        · have : r - k = (r - (k + 1)) + 1 := by omega
          rw [this, List.take_succ_cons, List.filter_cons_of_neg hp]
          exact h4
      · rintro ⟨h1, x, h2, h3, h4⟩
        by_cases hr : r = k
        · subst hr
          simp at h2
          subst h2
          exact absurd h3 hp
        · have : r - k = (r - (k + 1)) + 1 := by omega
          rw [this, List.getElem?_cons_succ] at h2
          rw [this, List.take_succ_cons, List.filter_cons_of_neg hp] at h4
          exact ⟨by omega, x, h2, h3, h4⟩

theorem mem_rulesOf_idx {g : Grammar} {A r i : Nat} :
    (r, i) ∈ (rulesOf g A).zipIdx ↔ ∃ rule, g.rules[r]? = some rule ∧ rule.lhs = A ∧ i = rulesBefore g A r := by
  have := position_aux (fun x => decide (x.lhs = A)) g.rules 0 0 r i
  unfold rulesOf
  rw [this]
  unfold rulesBefore
  simp only [Nat.zero_le, true_and, Nat.sub_zero, Nat.zero_add, decide_eq_true_eq]

theorem length_filter_zipIdx (p : Rule → Bool) : ∀ (l : List Rule) (k : Nat), ((l.zipIdx k).filter (fun x => p x.1)).length = (l.filter p).length := by
  intro l
  induction l with
  | nil => intro k; rfl
  | cons y l ih =>
    intro k
    rw [List.zipIdx_cons]
    by_cases hp : p y = true
    · rw [List.filter_cons_of_pos (by simpa using hp), List.filter_cons_of_pos hp, List.length_cons, List.length_cons, ih]
    · rw [List.filter_cons_of_neg (by simpa using hp), List.filter_cons_of_neg hp, ih]

theorem length_rulesOf (g : Grammar) (A : Nat) : (rulesOf g A).length = ruleCount g A := by
  unfold rulesOf ruleCount
  rw [List.length_map, length_filter_zipIdx (fun x => decide (x.lhs = A))]

theorem rulesOf_ne_nil {g : Grammar} {r : Nat} {rule : Rule} (h : g.rules[r]? = some rule) : rulesOf g rule.lhs ≠ [] := by
  intro e
  have := mem_rulesOf_idx.mpr ⟨rule, h, rfl, rfl⟩
  rw [e] at this
  simp at this

theorem mem_ruleVisits {rs : RuleSet} {g : Grammar} {r : Nat} {name : List Char} : (r, name) ∈ ruleVisits rs g ↔
    ∃ rule, g.rules[r]? = some rule ∧ name = callbackName rs g rule.lhs (ruleCount g rule.lhs) (rulesBefore g rule.lhs r) r := by
  unfold ruleVisits
  simp only [List.mem_flatMap, List.mem_map, Prod.mk.injEq]
  constructor
  · rintro ⟨⟨A, l⟩, h1, ⟨r', i⟩, h2, rfl, rfl⟩
    obtain ⟨rfl, h3⟩ := mem_rulesByNt.mp h1
    obtain ⟨rule, h4, rfl, rfl⟩ := mem_rulesOf_idx.mp h2
    exact ⟨rule, h4, by rw [length_rulesOf]⟩
  · rintro ⟨rule, h, rfl⟩
    refine ⟨(rule.lhs, rulesOf g rule.lhs), mem_rulesByNt.mpr ⟨rfl, rulesOf_ne_nil h⟩, (r, rulesBefore g rule.lhs r), mem_rulesOf_idx.mpr ⟨rule, h, rfl, rfl⟩, rfl, ?_⟩
    rw [length_rulesOf]

theorem visits_callback {rs : RuleSet} {g : Grammar} {r : Nat} {name : List Char} : (r, name) ∈ ruleVisits rs g ↔ IsCallback rs g r name := by
  rw [mem_ruleVisits]
  unfold IsCallback callbackName
  constructor
  · rintro ⟨rule, h, rfl⟩
    refine ⟨rule, h, ?_⟩
    by_cases hc : ruleCount g rule.lhs = 1
    · exact .inl ⟨hc, by simp [hc]⟩
    · right
      cases ht : tagOf rs g r with
      | some tag => exact .inl ⟨hc, tag, rfl, by simp [hc]⟩
      | none => exact .inr ⟨hc, rfl, by simp [hc]⟩
  · rintro ⟨rule, h, ⟨hc, rfl⟩ | ⟨hc, tag, ht, rfl⟩ | ⟨hc, ht, rfl⟩⟩
    · exact ⟨rule, h, by simp [hc]⟩
    · exact ⟨rule, h, by simp [hc, ht]⟩
    · exact ⟨rule, h, by simp [hc, ht]⟩

theorem ruleVisits_fst (rs : RuleSet) (g : Grammar) : (ruleVisits rs g).map (·.1) = (rulesByNt g).flatMap (·.2) := by
  unfold ruleVisits
  induction rulesByNt g with
  | nil => rfl
  | cons e m ih =>
    rw [List.flatMap_cons, List.flatMap_cons, List.map_append, ih, List.map_map]
    congr 1
    have : ((fun x : Nat × List Char => x.1) ∘ fun r : Nat × Nat => (r.1, callbackName rs g e.1 e.2.length r.2 r.1)) = Prod.fst := rfl
    rw [this]
    have : ∀ (l : List Nat) k, (l.zipIdx k).map Prod.fst = l := by
      intro l
      induction l with
      | nil => intro k; rfl
      | cons x l ih => intro k; rw [List.zipIdx_cons, List.map_cons, ih]
    exact this _ _

theorem zipIdx_filter_nodup (p : Rule × Nat → Bool) : ∀ (l : List Rule) (k : Nat), (((l.zipIdx k).filter p).map (·.2)).Nodup ∧ ∀ x ∈ ((l.zipIdx k).filter p).map (·.2), k ≤ x := by
  intro l
  induction l with
  | nil => intro k; simp
  | cons y l ih =>
    intro k
    obtain ⟨h1, h2⟩ := ih (k + 1)
    rw [List.zipIdx_cons]
    by_cases hp : p (y, k) = true
    · rw [List.filter_cons_of_pos hp, List.map_cons]
      refine ⟨List.nodup_cons.mpr ⟨fun h => ?_, h1⟩, fun x hx => ?_⟩
      · have := h2 _ h
        simp at this
        omega
      · rcases List.mem_cons.mp hx with rfl | hx
        · exact Nat.le_refl _
        · have := h2 x hx
          omega
    · rw [List.filter_cons_of_neg hp]
      exact ⟨h1, fun x hx => by have := h2 x hx; omega⟩

theorem mem_rulesOf {g : Grammar} {A r : Nat} : r ∈ rulesOf g A ↔ ∃ rule, g.rules[r]? = some rule ∧ rule.lhs = A := by
  constructor
  · intro h
    obtain ⟨i, hi, e⟩ := List.mem_iff_getElem.mp h
    have : (r, i) ∈ (rulesOf g A).zipIdx := by
      rw [List.mem_zipIdx_iff_getElem?]
      simp [List.getElem?_eq_getElem hi, e]
    obtain ⟨rule, h1, h2, _⟩ := mem_rulesOf_idx.mp this
    exact ⟨rule, h1, h2⟩
  · rintro ⟨rule, h1, h2⟩
    have := mem_rulesOf_idx.mpr ⟨rule, h1, h2, rfl⟩
    rw [List.mem_zipIdx_iff_getElem?] at this
    exact List.mem_of_getElem? this

theorem visits_nodup (rs : RuleSet) (g : Grammar) : ((ruleVisits rs g).map (·.1)).Nodup := by
  rw [ruleVisits_fst]
  have hk := (rulesByNt_sorted g).keys_nodup
  have hm : ∀ e ∈ rulesByNt g, e.2 = rulesOf g e.1 := fun e he => (mem_rulesByNt.mp he).1
  revert hk hm
  induction rulesByNt g with
  | nil => intro _ _; simp
  | cons e m ih =>
    intro hk hm
    rw [List.map_cons, List.nodup_cons] at hk
    rw [List.flatMap_cons, List.nodup_append]
    refine ⟨?_, ih hk.2 (fun e' he => hm e' (List.mem_cons_of_mem _ he)), ?_⟩
    · rw [hm e List.mem_cons_self]
      exact (zipIdx_filter_nodup _ _ _).1
    · intro a ha b hb hab
      subst hab
      obtain ⟨e', he', ha'⟩ := List.mem_flatMap.mp hb
      rw [hm e List.mem_cons_self] at ha
      rw [hm e' (List.mem_cons_of_mem _ he')] at ha'
      obtain ⟨r1, h1, h2⟩ := mem_rulesOf.mp ha
      obtain ⟨r2, h3, h4⟩ := mem_rulesOf.mp ha'
      rw [h1] at h3
      cases h3
      exact hk.1 (List.mem_map.mpr ⟨e', he', by rw [← h4, h2]⟩)

theorem methods_visits (rs : RuleSet) (g : Grammar) : visitorMethods rs g = (ruleVisits rs g).map (·.2) := by
  unfold visitorMethods ruleVisits
  rw [List.map_flatMap]
  congr 1
  funext e
  rw [List.map_map]
  rfl

/-- different rules have different callbacks exactly if the methods are distinct -/
theorem methods_nodup_iff {rs : RuleSet} {g : Grammar} : (visitorMethods rs g).Nodup ↔
    ∀ r r' name, IsCallback rs g r name → IsCallback rs g r' name → r = r' := by
  rw [methods_visits]
  have hn := visits_nodup rs g
  constructor
  · intro h r r' name h1 h2
    rw [← visits_callback] at h1 h2
    obtain ⟨i, hi, e1⟩ := List.mem_iff_getElem.mp h1
    obtain ⟨j, hj, e2⟩ := List.mem_iff_getElem.mp h2
    have : i = j := by
      apply (List.getElem_inj (h₀ := by simpa using hi) (h₁ := by simpa using hj) h).mp
      simp only [List.getElem_map, e1, e2]
    subst this
    rw [e1] at e2
    cases e2
    rfl
  · intro h
    have : ∀ l : List (Nat × List Char), (l.map (·.1)).Nodup → (∀ r r' name, (r, name) ∈ l → (r', name) ∈ l → r = r') → (l.map (·.2)).Nodup := by
      intro l
      induction l with
      | nil => intro _ _; simp
      | cons x l ih =>
        intro h1 h2
        rw [List.map_cons, List.nodup_cons] at h1 ⊢
        refine ⟨fun hx => ?_, ih h1.2 (fun r r' n a b => h2 r r' n (List.mem_cons_of_mem _ a) (List.mem_cons_of_mem _ b))⟩
        obtain ⟨y, hy, e⟩ := List.mem_map.mp hx
        have := h2 x.1 y.1 x.2 List.mem_cons_self (List.mem_cons_of_mem _ (by rw [← e]; exact hy))
        exact h1.1 (List.mem_map.mpr ⟨y, hy, this.symm⟩)
    exact this _ hn (fun r r' name h1 h2 => h r r' name (visits_callback.mp h1) (visits_callback.mp h2))

/-! ## decimals and underscores -/

theorem decimal_inj {n m : Nat} (h : decimal n = decimal m) : n = m := by
  unfold decimal at h
  have h1 := Nat.ofDigitChars_toDigits (b := 10) (n := n) (by omega) (by omega)
  have h2 := Nat.ofDigitChars_toDigits (b := 10) (n := m) (by omega) (by omega)
  rw [← h1, h, h2]

theorem decimal_underscore (n : Nat) : '_' ∉ decimal n := Nat.underscore_not_in_toDigits

theorem last_underscore {a a' d d' : List Char} (hd : '_' ∉ d) (hd' : '_' ∉ d') (h : a ++ ['_'] ++ d = a' ++ ['_'] ++ d') : a = a' ∧ d = d' := by
  simp only [List.append_assoc, List.singleton_append] at h
  rcases List.append_eq_append_iff.mp h with ⟨x, h1, h2⟩ | ⟨x, h1, h2⟩
  · cases x with
    | nil => simp at h1 h2; exact ⟨h1.symm, h2⟩
    | cons y x =>
      simp only [List.cons_append, List.cons.injEq] at h2
      exact absurd (h2.2 ▸ by simp) hd
  · cases x with
    | nil => simp at h1 h2; exact ⟨h1, h2.symm⟩
    | cons y x =>
      simp only [List.cons_append, List.cons.injEq] at h2
      exact absurd (h2.2 ▸ by simp) hd'

theorem ntName_underscore_anon (n : Nat) : '_' ∉ "anon".toList ++ decimal n := by
  intro h
  rcases List.mem_append.mp h with h | h
  · revert h; decide
  · exact decimal_underscore n h

/-! ## names of non-terminals -/

theorem resolve_prod {rs : RuleSet} {n : String} {A : Nat} (h : resolve rs n = some (.nt A)) : ∃ p ∈ rs.prods, p.name = n := by
  have hd := (resolve_defined (rs := rs) (n := n)).mp (by rw [h]; simp)
  unfold resolve at h
  cases hq : tokEntry 0 rs.tokens n with
  | none =>
    unfold Defined at hd
    rcases hd with hd | hd
    · exact absurd hd (tokEntry_none.mp hq)
    · exact hd
  | some v =>
    rw [hq] at h
    simp only [tokEntry, Option.map_eq_some_iff] at hq
    obtain ⟨k, hk, e⟩ := hq
    rw [← e] at h
    simp at h

/-- the production of a name -/
theorem named {rs : RuleSet} {g : Grammar} (h : Grammar.fromRuleSet rs = .ok g) (hl : rs.prods.length ≤ u16Size) {A : Nat} {n : String}
    (hn : g.productionName (.nt A) = some n) : resolve rs n = some (.nt A) ∧ ∃ p ∈ rs.prods, p.name = n := by
  obtain ⟨base, pats, ok⟩ := grammarOk h
  have := (ok.prodN hl n A).mp hn
  exact ⟨this, resolve_prod this⟩

theorem string_toList_inj {a b : String} (h : a.toList = b.toList) : a = b := String.toList_inj.mp h

theorem ntName_inj {rs : RuleSet} {g : Grammar} (h : Grammar.fromRuleSet rs = .ok g) (hl : rs.prods.length ≤ u16Size)
    (ha : ∀ p ∈ rs.prods, ¬ IsAnon p.name.toList) {A B : Nat} (e : ntName g A = ntName g B) : A = B := by
  unfold ntName at e
  cases hA : g.productionName (.nt A) with
  | some n =>
    obtain ⟨h1, p, hp, h2⟩ := named h hl hA
    cases hB : g.productionName (.nt B) with
    | some m =>
      obtain ⟨h3, -⟩ := named h hl hB
      rw [hA, hB] at e
      have := string_toList_inj e
      subst this
      rw [h1] at h3
      cases h3
      rfl
    | none =>
      rw [hA, hB] at e
      exact absurd ⟨B, by rw [h2]; exact e⟩ (ha p hp)
  | none =>
    cases hB : g.productionName (.nt B) with
    | some m =>
      obtain ⟨-, p, hp, h2⟩ := named h hl hB
      rw [hA, hB] at e
      exact absurd ⟨A, by rw [h2]; exact e.symm⟩ (ha p hp)
    | none =>
      rw [hA, hB] at e
      exact decimal_inj (List.append_cancel_left e)

theorem ntName_not_number {rs : RuleSet} {g : Grammar} (h : Grammar.fromRuleSet rs = .ok g) (hl : rs.prods.length ≤ u16Size)
    (hn : ∀ p ∈ rs.prods, ¬ EndsInNumber p.name.toList) (A : Nat) : ¬ EndsInNumber (ntName g A) := by
  unfold ntName
  cases hA : g.productionName (.nt A) with
  | some n =>
    obtain ⟨-, p, hp, h2⟩ := named h hl hA
    rw [← h2]
    exact hn p hp
  | none =>
    rintro ⟨a, n, e⟩
    apply ntName_underscore_anon A
    rw [show ("anon".toList ++ decimal A) = a ++ ['_'] ++ decimal n from e]
    simp

/-- rules of one non-terminal have different positions -/
theorem rulesBefore_inj {g : Grammar} {r r' : Nat} {x y : Rule} (h : g.rules[r]? = some x) (h' : g.rules[r']? = some y) (hl : x.lhs = y.lhs)
    (e : rulesBefore g x.lhs r = rulesBefore g y.lhs r') : r = r' := by
  have key : ∀ (a b : Nat) (z : Rule), g.rules[a]? = some z → a < b → rulesBefore g z.lhs a < rulesBefore g z.lhs b := by
    intro a b z hz hab
    unfold rulesBefore
    have : g.rules.take b = g.rules.take a ++ z :: (g.rules.drop (a + 1)).take (b - a - 1) := by
      have h1 : b = a + (1 + (b - a - 1)) := by omega
      rw [h1, List.take_add, List.take_add, List.drop_drop]
      congr 1
      obtain ⟨hlt, rfl⟩ := List.getElem?_eq_some_iff.mp hz
      have : a + (1 + (b - a - 1)) - a - 1 = b - a - 1 := by omega
      rw [this, List.drop_eq_getElem_cons hlt]
      rfl
    rw [this, List.filter_append, List.length_append, List.filter_cons_of_pos (by simp), List.length_cons]
    omega
  rcases Nat.lt_trichotomy r r' with hlt | rfl | hlt
  · have := key r r' x h hlt
    rw [hl] at this e
    omega
  · rfl
  · have := key r' r y h' hlt
    rw [← hl] at this e
    omega

theorem ruleCount_one {g : Grammar} {r r' : Nat} {x y : Rule} (h : g.rules[r]? = some x) (h' : g.rules[r']? = some y) (hl : x.lhs = y.lhs)
    (hc : ruleCount g x.lhs = 1) : r = r' := by
  have h1 := mem_rulesOf.mpr ⟨x, h, rfl⟩
  have h2 : r' ∈ rulesOf g x.lhs := mem_rulesOf.mpr ⟨y, h', hl.symm⟩
  rw [← length_rulesOf] at hc
  obtain ⟨z, hz⟩ := List.length_eq_one_iff.mp hc
  rw [hz, List.mem_singleton] at h1 h2
  rw [h1, h2]

theorem reduce_cancel {a b : List Char} (h : "reduce_".toList ++ a = "reduce_".toList ++ b) : a = b := List.append_cancel_left h

theorem callbacks_untagged {rs : RuleSet} {g : Grammar} (h : Grammar.fromRuleSet rs = .ok g) (hl : rs.prods.length ≤ u16Size)
    (ha : ∀ p ∈ rs.prods, ¬ IsAnon p.name.toList) (hn : ∀ p ∈ rs.prods, ¬ EndsInNumber p.name.toList) {r r' : Nat} {name : List Char}
    (h1 : IsCppCallback g r name) (h2 : IsCppCallback g r' name) : r = r' := by
  obtain ⟨x, hx, hX⟩ := h1
  obtain ⟨y, hy, hY⟩ := h2
  rcases hX with ⟨c1, e1⟩ | ⟨c1, e1⟩ <;> rcases hY with ⟨c2, e2⟩ | ⟨c2, e2⟩
  · have hxy := ntName_inj h hl ha (reduce_cancel (e1.symm.trans e2))
    exact ruleCount_one hx hy hxy c1
  · have := e1.symm.trans e2
    rw [List.append_assoc, List.append_assoc] at this
    exact absurd ⟨_, _, (reduce_cancel this).trans (List.append_assoc _ _ _).symm⟩ (ntName_not_number h hl hn x.lhs)
  · have := e2.symm.trans e1
    rw [List.append_assoc, List.append_assoc] at this
    exact absurd ⟨_, _, (reduce_cancel this).trans (List.append_assoc _ _ _).symm⟩ (ntName_not_number h hl hn y.lhs)
  · obtain ⟨h3, h4⟩ := last_underscore (decimal_underscore _) (decimal_underscore _) (e1.symm.trans e2)
    have hxy := ntName_inj h hl ha (reduce_cancel h3)
    have := decimal_inj h4
    exact rulesBefore_inj hx hy hxy (by omega)

theorem cpp_of_callback {rs : RuleSet} {g : Grammar} {r : Nat} {name : List Char} (ht : tagOf rs g r = none) : IsCallback rs g r name ↔ IsCppCallback g r name := by
  unfold IsCallback IsCppCallback
  simp only [ht, reduceCtorEq, false_and, exists_false, and_false, false_or, true_and]

/-- the callbacks with tags, when no name of a non-terminal is the beginning of another one -/
theorem callbacks_tagged {rs : RuleSet} {g : Grammar} (h : Grammar.fromRuleSet rs = .ok g) (hl : rs.prods.length ≤ u16Size)
    (ha : ∀ p ∈ rs.prods, ¬ IsAnon p.name.toList)
    (hp : ∀ A B s, ntName g A ≠ ntName g B ++ ['_'] ++ s)
    (hd : ∀ r tag n, tagOf rs g r = some tag → tag ≠ decimal n)
    (ht : ∀ (r r' : Nat) (x y : Rule) (tag : List Char), g.rules[r]? = some x → g.rules[r']? = some y → x.lhs = y.lhs → tagOf rs g r = some tag →
      tagOf rs g r' = some tag → r = r')
    {r r' : Nat} {name : List Char} (h1 : IsCallback rs g r name) (h2 : IsCallback rs g r' name) : r = r' := by
  have pre : ∀ {A B : Nat} {s t : List Char}, ntName g A ++ ['_'] ++ s = ntName g B ++ ['_'] ++ t → A = B ∧ s = t := by
    intro A B s t e
    simp only [List.append_assoc, List.singleton_append] at e
    rcases List.append_eq_append_iff.mp e with ⟨x, h1, h2⟩ | ⟨x, h1, h2⟩
    · cases x with
      | nil =>
        simp at h1 h2
        exact ⟨ntName_inj h hl ha h1.symm, h2⟩
      | cons y x =>
        simp only [List.cons_append, List.cons.injEq] at h2
        refine absurd ?_ (hp B A x)
        rw [h1, ← h2.1]
        simp
    · cases x with
      | nil =>
        simp at h1 h2
        exact ⟨ntName_inj h hl ha h1, h2.symm⟩
      | cons y x =>
        simp only [List.cons_append, List.cons.injEq] at h2
        refine absurd ?_ (hp A B x)
        rw [h1, ← h2.1]
        simp
  have cancel : ∀ {a b s : List Char}, "reduce_".toList ++ a = "reduce_".toList ++ b ++ ['_'] ++ s → a = b ++ ['_'] ++ s := by
    intro a b s e
    apply reduce_cancel
    rw [e]
    simp only [List.append_assoc]
  obtain ⟨x, hx, hX⟩ := h1
  obtain ⟨y, hy, hY⟩ := h2
  have two : ∀ {s t : List Char}, name = "reduce_".toList ++ ntName g x.lhs ++ ['_'] ++ s → name = "reduce_".toList ++ ntName g y.lhs ++ ['_'] ++ t → x.lhs = y.lhs ∧ s = t := by
    intro s t e1 e2
    apply pre
    apply reduce_cancel
    rw [← List.append_assoc, ← List.append_assoc, ← e1, ← List.append_assoc, ← List.append_assoc, ← e2]
  rcases hX with ⟨c1, e1⟩ | ⟨c1, t1, ht1, e1⟩ | ⟨c1, ht1, e1⟩ <;> rcases hY with ⟨c2, e2⟩ | ⟨c2, t2, ht2, e2⟩ | ⟨c2, ht2, e2⟩
  · exact ruleCount_one hx hy (ntName_inj h hl ha (reduce_cancel (e1.symm.trans e2))) c1
  · exact absurd (cancel (e1.symm.trans e2)) (hp _ _ _)
  · exact absurd (cancel (e1.symm.trans e2)) (hp _ _ _)
  · exact absurd (cancel (e2.symm.trans e1)) (hp _ _ _)
  · obtain ⟨h3, rfl⟩ := two e1 e2
    exact ht r r' x y _ hx hy h3 ht1 ht2
  · obtain ⟨h3, h4⟩ := two e1 e2
    exact absurd h4 (hd r _ _ ht1)
  · exact absurd (cancel (e2.symm.trans e1)) (hp _ _ _)
  · obtain ⟨h3, h4⟩ := two e1 e2
    exact absurd h4.symm (hd r' _ _ ht2)
  · obtain ⟨h3, h4⟩ := two e1 e2
    have := decimal_inj h4
    exact rulesBefore_inj hx hy h3 (by omega)

/-! ## C++ -/

def noTags : RuleSet := { tokens := [], prods := [], entry := "" }

theorem tagOf_noTags (g : Grammar) (r : Nat) : tagOf noTags g r = none := by
  unfold tagOf noTags
  cases g.rules[r]? <;> simp

theorem cpp_methods (g : Grammar) : cppVisitorMethods g = visitorMethods noTags g := by
  unfold cppVisitorMethods visitorMethods
  congr 1
  funext e
  congr 1
  funext r
  unfold cppCallbackName callbackName
  rw [tagOf_noTags]

theorem mem_cpp_methods {g : Grammar} {name : List Char} : name ∈ cppVisitorMethods g ↔ ∃ r, IsCppCallback g r name := by
  rw [cpp_methods, methods_visits, List.mem_map]
  constructor
  · rintro ⟨⟨r, n⟩, h, rfl⟩
    exact ⟨r, (cpp_of_callback (tagOf_noTags g r)).mp (visits_callback.mp h)⟩
  · rintro ⟨r, h⟩
    exact ⟨(r, name), visits_callback.mpr ((cpp_of_callback (tagOf_noTags g r)).mpr h), rfl⟩

theorem rulesOf_findIdx {g : Grammar} {r : Nat} {rule : Rule} (h : g.rules[r]? = some rule) :
    (rulesOf g rule.lhs).findIdx? (fun x => x = r) = some (rulesBefore g rule.lhs r) := by
  have hm := mem_rulesOf_idx.mpr ⟨rule, h, rfl, rfl⟩
  rw [List.mem_zipIdx_iff_getElem?] at hm
  simp only [] at hm
  obtain ⟨hlt, e⟩ := List.getElem?_eq_some_iff.mp hm
  rw [List.findIdx?_eq_some_iff_getElem]
  refine ⟨hlt, by simpa using e, ?_⟩
  intro j hj
  simp only [decide_eq_true_eq]
  intro e'
  have hn : (rulesOf g rule.lhs).Nodup := (zipIdx_filter_nodup _ _ _).1
  have := (List.getElem_inj (h₀ := by omega) (h₁ := hlt) hn).mp (e'.trans e.symm)
  omega

theorem mapM_ok_of {α β : Type} {f : α → Res β} {k : α → β} : ∀ {l : List α}, (∀ x ∈ l, f x = .ok (k x)) → l.mapM f = .ok (l.map k) := by
  intro l
  induction l with
  | nil => intro _; rfl
  | cons x l ih =>
    intro h
    rw [List.mapM_cons, h x List.mem_cons_self, ih (fun y hy => h y (List.mem_cons_of_mem _ hy))]
    rfl

theorem cpp_switch (g : Grammar) : ∃ l, cppReduceSwitch g = .ok l ∧ l.map (·.1) = List.range g.rules.length ∧ ∀ r name, (r, name) ∈ l ↔ IsCppCallback g r name := by
  refine ⟨(g.rules.zipIdx).map (fun r => (r.2, cppCallbackName g r.1.lhs (ruleCount g r.1.lhs) (rulesBefore g r.1.lhs r.2))), ?_, ?_, ?_⟩
  · unfold cppReduceSwitch
    apply mapM_ok_of
    rintro ⟨rule, r⟩ hr
    rw [List.mem_zipIdx_iff_getElem?] at hr
    have hne := rulesOf_ne_nil hr
    simp only [mget?_rulesByNt, if_neg hne, rulesOf_findIdx hr, length_rulesOf]
  · rw [List.map_map]
    have : ∀ (l : List Rule) k, (l.zipIdx k).map (fun x : Rule × Nat => x.2) = List.range' k l.length := by
      intro l
      induction l with
      | nil => intro k; rfl
      | cons x l ih => intro k; rw [List.zipIdx_cons, List.map_cons, ih, List.length_cons, List.range'_succ]
    rw [List.range_eq_range']
    exact this _ _
  · intro r name
    simp only [List.mem_map, Prod.mk.injEq]
    unfold IsCppCallback cppCallbackName
    constructor
    · rintro ⟨⟨rule, r'⟩, h, rfl, rfl⟩
      rw [List.mem_zipIdx_iff_getElem?] at h
      refine ⟨rule, h, ?_⟩
      by_cases hc : ruleCount g rule.lhs = 1
      · exact .inl ⟨hc, by simp [hc]⟩
      · exact .inr ⟨hc, by simp [hc]⟩
    · rintro ⟨rule, h, ⟨hc, rfl⟩ | ⟨hc, rfl⟩⟩
      · exact ⟨(rule, r), List.mem_zipIdx_iff_getElem?.mpr h, rfl, by simp [hc]⟩
      · exact ⟨(rule, r), List.mem_zipIdx_iff_getElem?.mpr h, rfl, by simp [hc]⟩

/-! ## enum names -/

theorem decimal_good (n : Nat) : ∀ c ∈ decimal n, c ≠ '_' := fun c hc e => decimal_underscore n (e ▸ hc)

theorem goodFrom_false {cs : List Char} (h : '_' ∉ cs) : GoodFrom false cs := by
  rintro rest ⟨a, rfl, ⟨-, hb⟩ | ⟨a', rfl⟩⟩
  · cases hb
  · simp at h

theorem anon_good (n : Nat) : GoodFrom true ("anon".toList ++ decimal n) := by
  have e : "anon".toList ++ decimal n = 'a' :: (['n', 'o', 'n'] ++ decimal n) := rfl
  intro rest h
  rw [e, segStart_cons] at h
  rcases h with ⟨-, rfl⟩ | h
  · exact ⟨_, _, rfl, .inr (by decide)⟩
  · rw [show decide ('a' = '_') = false by decide] at h
    refine goodFrom_false ?_ rest h
    intro hm
    apply ntName_underscore_anon n
    rw [e]
    exact List.mem_cons_of_mem _ hm

theorem camelGo_digits : ∀ (cs : List Char), (∀ c ∈ cs, c ≠ '_' ∧ asciiLower c = c) → camelGo false cs = .ok cs := by
  intro cs
  induction cs with
  | nil => intro _; rfl
  | cons c cs ih =>
    intro h
    obtain ⟨h1, h2⟩ := h c List.mem_cons_self
    unfold camelGo
    rw [if_neg h1, ih (fun d hd => h d (List.mem_cons_of_mem _ hd)), h2]
    rfl

theorem isDigit_toNat {c : Char} (h : c.isDigit = true) : 48 ≤ c.toNat ∧ c.toNat ≤ 57 := by
  unfold Char.isDigit at h
  simp only [ge_iff_le, Bool.and_eq_true, decide_eq_true_eq, UInt32.le_iff_toNat_le] at h
  exact h

theorem anon_camel (n : Nat) : upperCamel ("anon".toList ++ decimal n) = .ok ("Anon".toList ++ decimal n) := by
  rw [upperCamel_go]
  have e : "anon".toList ++ decimal n = 'a' :: (['n', 'o', 'n'] ++ decimal n) := rfl
  rw [e]
  unfold camelGo
  rw [if_neg (by decide), if_pos (by decide), camelGo_digits]
  · rfl
  · intro c hc
    rcases List.mem_append.mp hc with hc | hc
    · have : ∀ c ∈ ['n', 'o', 'n'], c ≠ '_' ∧ asciiLower c = c := by decide
      exact this c hc
    · refine ⟨decimal_good n c hc, ?_⟩
      have hd := isDigit_toNat (Nat.isDigit_of_mem_toDigits (b := 10) (by omega) (by omega) hc)
      unfold asciiLower
      rw [if_neg (by omega)]

end Verif
