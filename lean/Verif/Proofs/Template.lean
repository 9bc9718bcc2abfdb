import Verif.Spec.Template

/-! # Templates -/

set_option autoImplicit false

namespace Verif

theorem closing_some : ∀ (cs key rest : List Char), closing cs = some (key, rest) → cs = key ++ ['}', '*', '/'] ++ rest ∧ IsKey key := by
  intro cs
  induction cs with
  | nil => intro key rest h; simp [closing] at h
  | cons c cs ih =>
    intro key rest h
    unfold closing at h
    split at h
    · simp only [Option.some.injEq, Prod.mk.injEq] at h
      obtain ⟨rfl, rfl⟩ := h
      rename_i heq
      refine ⟨by rw [heq]; rfl, by simp, ?_⟩
      intro a b hab
      have := congrArg List.length hab
      simp at this
      exact List.eq_nil_of_length_eq_zero (by omega)
    · cases ‹_ :: _ = []›
    · rename_i c' rest' hn heq
      cases heq
      split at h
      · cases h
      · rename_i hnl
        obtain ⟨⟨k, r⟩, h1, h2⟩ := Option.map_eq_some_iff.mp h
        simp only [Prod.mk.injEq] at h2
        obtain ⟨rfl, rfl⟩ := h2
        obtain ⟨h3, h4, h5⟩ := ih k r h1
        refine ⟨by rw [h3]; rfl, ?_, ?_⟩
        · simp only [List.mem_cons, not_or]
          exact ⟨fun e => hnl e.symm, h4⟩
        · intro a b hab
          cases a with
          | nil =>
            simp only [List.nil_append, List.cons_append, List.cons.injEq] at hab
            obtain ⟨rfl, hab⟩ := hab
            rw [h3] at hn
            have : k ++ ['}', '*', '/'] ++ r = '*' :: '/' :: (b ++ r) := by rw [hab]; rfl
            exact (hn (b ++ r) rfl this).elim
          | cons x a =>
            simp only [List.cons_append, List.cons.injEq] at hab
            exact h5 a b hab.2

theorem closing_none : ∀ (cs : List Char), closing cs = none → ∀ key rest, '\n' ∉ key → cs ≠ key ++ ['}', '*', '/'] ++ rest := by
  intro cs
  induction cs with
  | nil => intro _ key rest _ h; simp at h
  | cons c cs ih =>
    intro h key rest hk he
    unfold closing at h
    split at h
    · cases h
    · cases ‹_ :: _ = []›
    · rename_i c' rest' hn heq
      cases heq
      cases key with
      | nil =>
        simp only [List.nil_append, List.cons_append, List.cons.injEq] at he
        obtain ⟨rfl, rfl⟩ := he
        exact hn _ rfl rfl
      | cons x key =>
        simp only [List.cons_append, List.cons.injEq] at he
        obtain ⟨rfl, rfl⟩ := he
        simp only [List.mem_cons, not_or] at hk
        rw [if_neg (fun e => hk.1 e.symm)] at h
        have h' : closing (key ++ ['}', '*', '/'] ++ rest) = none := by simpa using h
        exact ih h' key rest hk.2 rfl

theorem key_unique {k k' r r' : List Char} (hk : IsKey k) (hk' : IsKey k') (h : k ++ ['}', '*', '/'] ++ r = k' ++ ['}', '*', '/'] ++ r') : k = k' ∧ r = r' := by
  have main : ∀ {k k' r r' : List Char}, IsKey k → (k ++ ['}', '*', '/']) ++ r = (k' ++ ['}', '*', '/']) ++ r' → k.length < k'.length → IsKey k' → False := by
    intro k k' r r' hk h hl hk'
    have : k ++ ['}', '*', '/'] <+: k' ++ ['}', '*', '/'] :=
      List.prefix_of_prefix_length_le (l₃ := (k ++ ['}', '*', '/']) ++ r) ⟨r, rfl⟩ ⟨r', h.symm⟩ (by simp; omega)
    obtain ⟨b, hb⟩ := this
    have := hk'.2 k b hb.symm
    subst this
    simp at hb
    subst hb
    omega
  rcases Nat.lt_trichotomy k.length k'.length with hl | hl | hl
  · exact (main hk h hl hk').elim
  · have := List.append_inj h (by simp; omega)
    refine ⟨?_, this.2⟩
    exact List.append_cancel_right this.1
  · exact (main hk' h.symm hl hk).elim

theorem markerAt_some {cs key rest : List Char} (h : markerAt cs = some (key, rest)) : cs = marker key ++ rest ∧ IsKey key := by
  unfold markerAt at h
  split at h
  · obtain ⟨h1, h2⟩ := closing_some _ _ _ h
    exact ⟨by rw [h1]; simp [marker], h2⟩
  · cases h

theorem markerAt_none {cs : List Char} (h : markerAt cs = none) : ¬ StartsMarker cs := by
  rintro ⟨key, rest, hk, rfl⟩
  have : marker key ++ rest = '/' :: '*' :: '{' :: (key ++ ['}', '*', '/'] ++ rest) := by simp [marker]
  rw [this] at h
  simp only [markerAt] at h
  exact closing_none _ h key rest hk.1 rfl

theorem markerAt_marker {key rest : List Char} (hk : IsKey key) : markerAt (marker key ++ rest) = some (key, rest) := by
  cases h : markerAt (marker key ++ rest) with
  | none => exact absurd ⟨key, rest, hk, rfl⟩ (markerAt_none h)
  | some x =>
    obtain ⟨k, r⟩ := x
    obtain ⟨h1, h2⟩ := markerAt_some h
    have : key ++ ['}', '*', '/'] ++ rest = k ++ ['}', '*', '/'] ++ r := by simpa [marker] using h1
    obtain ⟨rfl, rfl⟩ := key_unique hk h2 this
    rfl

theorem nextMatch_some : ∀ (cs lit key rest : List Char), nextMatch cs = some (lit, key, rest) →
    cs = lit ++ marker key ++ rest ∧ IsKey key ∧ NoMarkerIn lit (marker key ++ rest) := by
  intro cs
  induction cs with
  | nil => intro lit key rest h; simp [nextMatch, markerAt] at h
  | cons c cs ih =>
    intro lit key rest h
    unfold nextMatch at h
    split at h
    · rename_i k r hm
      simp only [Option.some.injEq, Prod.mk.injEq] at h
      obtain ⟨rfl, rfl, rfl⟩ := h
      obtain ⟨h1, h2⟩ := markerAt_some hm
      refine ⟨by rw [h1]; rfl, h2, ?_⟩
      intro a b hab hb
      simp at hab
      exact absurd hab.2 hb
    · rename_i hm
      obtain ⟨⟨l, k, r⟩, h1, h2⟩ := Option.map_eq_some_iff.mp h
      simp only [Prod.mk.injEq] at h2
      obtain ⟨rfl, rfl, rfl⟩ := h2
      obtain ⟨h3, h4, h5⟩ := ih l k r h1
      refine ⟨by rw [h3]; rfl, h4, ?_⟩
      intro a b hab hb
      cases a with
      | nil =>
        simp only [List.nil_append] at hab
        subst hab
        have : (c :: l) ++ (marker k ++ r) = c :: cs := by rw [h3]; simp
        rw [this]
        exact markerAt_none hm
      | cons x a =>
        simp only [List.cons_append, List.cons.injEq] at hab
        exact h5 a b hab.2 hb

theorem nextMatch_none : ∀ (cs : List Char), nextMatch cs = none → NoMarkerIn cs [] := by
  intro cs
  induction cs with
  | nil =>
    intro _ a b hab hb
    simp at hab
    exact absurd hab.2 hb
  | cons c cs ih =>
    intro h a b hab hb
    unfold nextMatch at h
    split at h
    · cases h
    · rename_i hm
      cases a with
      | nil =>
        simp only [List.nil_append] at hab
        subst hab
        rw [List.append_nil]
        exact markerAt_none hm
      | cons x a =>
        simp only [List.cons_append, List.cons.injEq] at hab
        exact ih (by simpa using h) a b hab.2 hb

/-- where the first marker is, is determined -/
theorem first_unique {lit key rest lit' key' rest' : List Char} (h : lit ++ marker key ++ rest = lit' ++ marker key' ++ rest') (hk : IsKey key) (hk' : IsKey key')
    (hn : NoMarkerIn lit (marker key ++ rest)) (hn' : NoMarkerIn lit' (marker key' ++ rest')) : lit = lit' ∧ key = key' ∧ rest = rest' := by
  have main : ∀ {lit key rest lit' key' rest' : List Char}, lit ++ (marker key ++ rest) = lit' ++ (marker key' ++ rest') → IsKey key' → IsKey key →
      NoMarkerIn lit' (marker key' ++ rest') → ¬ lit.length < lit'.length := by
    intro lit key rest lit' key' rest' h hk' hk hn' hlt
    obtain ⟨b, rfl⟩ : lit <+: lit' := List.prefix_of_prefix_length_le (l₃ := lit ++ (marker key ++ rest)) ⟨_, rfl⟩ ⟨_, h.symm⟩ (by omega)
    rw [List.append_assoc] at h
    have h := List.append_cancel_left h
    have hb : b ≠ [] := by rintro rfl; simp at hlt
    exact hn' lit b rfl hb ⟨key, rest, hk, h.symm⟩
  simp only [List.append_assoc] at h
  have e : lit.length = lit'.length := by
    have h1 := main h hk' hk hn'
    have h2 := main h.symm hk hk' hn
    omega
  obtain ⟨rfl, h⟩ := List.append_inj h e
  have : key ++ ['}', '*', '/'] ++ rest = key' ++ ['}', '*', '/'] ++ rest' := by simpa [marker] using h
  obtain ⟨rfl, rfl⟩ := key_unique hk hk' this
  exact ⟨rfl, rfl, rfl⟩

theorem no_marker_split {lit key rest : List Char} (hk : IsKey key) : ¬ NoMarkerIn (lit ++ marker key ++ rest) [] := by
  intro h
  refine h lit (marker key ++ rest) (by simp) (by simp [marker]) ⟨key, rest, hk, by simp⟩

/-! ## trim -/

theorem dropWhile_spec (p : Char → Bool) : ∀ (l : List Char), ∃ a, l = a ++ l.dropWhile p ∧ (∀ c ∈ a, p c = true) ∧ ∀ c, (l.dropWhile p).head? = some c → p c = false := by
  intro l
  induction l with
  | nil => exact ⟨[], rfl, by simp, by simp⟩
  | cons x l ih =>
    by_cases hx : p x = true
    · obtain ⟨a, h1, h2, h3⟩ := ih
      refine ⟨x :: a, ?_, ?_, ?_⟩
      · rw [List.dropWhile_cons_of_pos hx, List.cons_append, ← h1]
      · intro c hc
        rcases List.mem_cons.mp hc with rfl | hc
        · exact hx
        · exact h2 c hc
      · rw [List.dropWhile_cons_of_pos hx]; exact h3
    · refine ⟨[], by simp [List.dropWhile_cons_of_neg hx], by simp, ?_⟩
      rw [List.dropWhile_cons_of_neg hx]
      intro c hc
      simp at hc
      subst hc
      simpa using hx

theorem isWhitespace_iff (c : Char) : isWhitespace c = true ↔ WhiteSpace c := by
  simp only [isWhitespace, WhiteSpace, Bool.or_eq_true, Bool.and_eq_true, decide_eq_true_eq, List.mem_cons, List.not_mem_nil, or_false]
  omega

theorem isTrim_iff (key key' : List Char) : IsTrim key key' ↔
    ∃ a b, key = a ++ key' ++ b ∧ (∀ c ∈ a ++ b, isWhitespace c = true) ∧ (∀ c, key'.head? = some c → isWhitespace c = false) ∧
      (∀ c, key'.getLast? = some c → isWhitespace c = false) := by
  have h2 : ∀ c, isWhitespace c = false ↔ ¬ WhiteSpace c := fun c => by rw [← isWhitespace_iff, Bool.not_eq_true]
  simp only [isWhitespace_iff, h2]
  rfl

theorem trim_spec (key : List Char) : IsTrim key (trim key) := by
  rw [isTrim_iff]
  obtain ⟨a, h1, h2, h3⟩ := dropWhile_spec isWhitespace key
  obtain ⟨b, k1, k2, k3⟩ := dropWhile_spec isWhitespace (key.dropWhile isWhitespace).reverse
  have e : key.dropWhile isWhitespace = trim key ++ b.reverse := by
    have := congrArg List.reverse k1
    simpa [trim] using this
  refine ⟨a, b.reverse, ?_, ?_, ?_, ?_⟩
  · rw [List.append_assoc, ← e, ← h1]
  · intro c hc
    rcases List.mem_append.mp hc with hc | hc
    · exact h2 c hc
    · exact k2 c (by simpa using hc)
  · intro c hc
    apply h3
    rw [e]
    cases ht : trim key with
    | nil => rw [ht] at hc; cases hc
    | cons x t => rw [ht] at hc; simpa using hc
  · intro c hc
    apply k3
    have : trim key = ((key.dropWhile isWhitespace).reverse.dropWhile isWhitespace).reverse := rfl
    rw [this, List.getLast?_reverse] at hc
    exact hc

theorem trim_unique {key k k' : List Char} (h : IsTrim key k) (h' : IsTrim key k') : k = k' := by
  have main : ∀ {key k : List Char}, IsTrim key k → k = trim key := by
    intro key k hk
    obtain ⟨a, b, rfl, h1, h2, h3⟩ := (isTrim_iff _ _).mp hk
    have hall : ∀ (x y : List Char), (∀ c ∈ x, isWhitespace c = true) → (∀ c, y.head? = some c → isWhitespace c = false) → (x ++ y).dropWhile isWhitespace = y := by
      intro x y hx hy
      induction x with
      | nil =>
        cases y with
        | nil => rfl
        | cons c y => rw [List.nil_append, List.dropWhile_cons_of_neg (by simp [hy c rfl])]
      | cons c x ih =>
        rw [List.cons_append, List.dropWhile_cons_of_pos (hx c (by simp))]
        exact ih (fun d hd => hx d (by simp [hd]))
    have hws : ∀ (x : List Char), (∀ c ∈ x, isWhitespace c = true) → x.dropWhile isWhitespace = [] := by
      intro x hx
      have := hall x [] hx (by simp)
      simpa using this
    unfold trim
    cases k with
    | nil =>
      rw [List.append_nil, hws _ h1]
      rfl
    | cons x k =>
      rw [List.append_assoc, hall a _ (fun c hc => h1 c (by simp [hc])) (by intro c hc; exact h2 c (by simpa using hc))]
      rw [List.reverse_append, hall b.reverse _ (fun c hc => h1 c (by simp at hc; simp [hc])) (by
        intro c hc
        rw [List.head?_reverse] at hc
        exact h3 c hc)]
      simp
  rw [main h, main h']

/-! ## the loop -/

theorem rendered_fun {σ : List Char → Option (List Char × Bool)} {text out out' : List Char} {st st' : WriteStatus} (h : Rendered σ text out st) (h' : Rendered σ text out' st') :
    out = out' ∧ st = st' := by
  have inv : ∀ {text lit key rest out : List Char} {st : WriteStatus}, Rendered σ text out st → text = lit ++ marker key ++ rest → NoMarkerIn lit (marker key ++ rest) → IsKey key →
      ∀ key', IsTrim key key' →
      (∃ w o, σ key' = some (w, true) ∧ Rendered σ rest o st ∧ out = lit ++ w ++ o) ∨ (∃ w, σ key' = some (w, false) ∧ out = lit ++ w ∧ st = .ioError) ∨
        (σ key' = none ∧ out = lit ∧ st = .panic) := by
    intro text lit key rest out st h he hn hk key' ht
    cases h with
    | plain hp => subst he; exact absurd hp (no_marker_split hk)
    | marker h1 h2 h3 h4 h5 =>
      obtain ⟨rfl, rfl, rfl⟩ := first_unique he h2 hk h1 hn
      rw [trim_unique h3 ht] at h4
      exact .inl ⟨_, _, h4, h5, rfl⟩
    | failed h1 h2 h3 h4 =>
      obtain ⟨rfl, rfl, rfl⟩ := first_unique he h2 hk h1 hn
      rw [trim_unique h3 ht] at h4
      exact .inr (.inl ⟨_, h4, rfl, rfl⟩)
    | missing h1 h2 h3 h4 =>
      obtain ⟨rfl, rfl, rfl⟩ := first_unique he h2 hk h1 hn
      rw [trim_unique h3 ht] at h4
      exact .inr (.inr ⟨h4, rfl, rfl⟩)
  induction h generalizing out' st' with
  | plain hp =>
    cases h' with
    | plain _ => exact ⟨rfl, rfl⟩
    | marker h1 h2 h3 h4 h5 => exact absurd hp (no_marker_split h2)
    | failed h1 h2 h3 h4 => exact absurd hp (no_marker_split h2)
    | missing h1 h2 h3 h4 => exact absurd hp (no_marker_split h2)
  | marker h1 h2 h3 h4 h5 ih =>
    rcases inv h' rfl h1 h2 _ h3 with ⟨w, o, k1, k2, k3⟩ | ⟨w, k1, k2, k3⟩ | ⟨k1, k2, k3⟩
    · rw [h4] at k1
      cases k1
      obtain ⟨rfl, rfl⟩ := ih k2
      exact ⟨k3.symm, rfl⟩
    · rw [h4] at k1; cases k1
    · rw [h4] at k1; cases k1
  | failed h1 h2 h3 h4 =>
    rcases inv h' rfl h1 h2 _ h3 with ⟨w, o, k1, k2, k3⟩ | ⟨w, k1, k2, k3⟩ | ⟨k1, k2, k3⟩
    · rw [h4] at k1; cases k1
    · rw [h4] at k1; cases k1; exact ⟨k2.symm, k3.symm⟩
    · rw [h4] at k1; cases k1
  | missing h1 h2 h3 h4 =>
    rcases inv h' rfl h1 h2 _ h3 with ⟨w, o, k1, k2, k3⟩ | ⟨w, k1, k2, k3⟩ | ⟨k1, k2, k3⟩
    · rw [h4] at k1; cases k1
    · rw [h4] at k1; cases k1
    · exact ⟨k2.symm, k3.symm⟩

theorem replaceAll_rendered (s : Substitutions) : ∀ (n : Nat) (text : List Char), text.length ≤ n → Rendered s.get text (replaceAll s n text).1 (replaceAll s n text).2 := by
  intro n
  induction n with
  | zero =>
    intro text h
    have : text = [] := List.eq_nil_of_length_eq_zero (by omega)
    subst this
    exact .plain (by intro a b hab hb; simp at hab; exact absurd hab.2 hb)
  | succ n ih =>
    intro text h
    unfold replaceAll
    split
    · rename_i hm
      exact .plain (nextMatch_none _ hm)
    · rename_i lit key rest hm
      obtain ⟨rfl, h1, h2⟩ := nextMatch_some _ _ _ _ hm
      split
      · rename_i hs
        exact .missing h2 h1 (trim_spec key) hs
      · rename_i w hs
        exact .failed h2 h1 (trim_spec key) hs
      · rename_i w hs
        exact .marker h2 h1 (trim_spec key) hs (ih rest (by simp [marker] at h; omega))

/-! ## the markers of a text -/

/-- the markers of a text, computed -/
def markersOf : Nat → List Char → List (List Char)
  | 0, _ => []
  | n + 1, text =>
    match nextMatch text with
    | none => []
    | some (_, key, rest) => trim key :: markersOf n rest

theorem markersOf_spec : ∀ (n : Nat) (text : List Char), text.length ≤ n → Markers text (markersOf n text) := by
  intro n
  induction n with
  | zero =>
    intro text h
    have : text = [] := List.eq_nil_of_length_eq_zero (by omega)
    subst this
    exact .none (by intro a b hab hb; simp at hab; exact absurd hab.2 hb)
  | succ n ih =>
    intro text h
    unfold markersOf
    split
    · rename_i hm
      exact .none (nextMatch_none _ hm)
    · rename_i lit key rest hm
      obtain ⟨rfl, h1, h2⟩ := nextMatch_some _ _ _ _ hm
      exact .some h2 h1 (trim_spec key) (ih rest (by simp [marker] at h; omega))

theorem markers_fun {text : List Char} {ks ks' : List (List Char)} (h : Markers text ks) (h' : Markers text ks') : ks = ks' := by
  induction h generalizing ks' with
  | none hp =>
    cases h' with
    | none _ => rfl
    | some _ h2 _ _ => exact absurd hp (no_marker_split h2)
  | @some lit key key' rest ks h1 h2 h3 h4 ih =>
    generalize ht : lit ++ marker key ++ rest = text at h'
    cases h' with
    | none hp => subst ht; exact absurd hp (no_marker_split h2)
    | some k1 k2 k3 k4 =>
      obtain ⟨rfl, rfl, rfl⟩ := first_unique ht h2 k2 h1 k1
      rw [trim_unique h3 k3, ih k4]

/-- how writing ends, by the markers -/
theorem rendered_status {σ : List Char → Option (List Char × Bool)} {text out : List Char} {st : WriteStatus} {ks : List (List Char)} (h : Rendered σ text out st)
    (hm : Markers text ks) :
    (st = .ok ↔ ∀ k ∈ ks, ∃ w, σ k = some (w, true)) ∧
    (st = .panic ↔ ∃ pre k post, ks = pre ++ k :: post ∧ σ k = none ∧ ∀ k' ∈ pre, ∃ w, σ k' = some (w, true)) := by
  induction h generalizing ks with
  | plain hp =>
    cases hm with
    | none _ => simp
    | some _ h2 _ _ => exact absurd hp (no_marker_split h2)
  | @marker lit key key' rest written out status h1 h2 h3 h4 h5 ih =>
    generalize ht : lit ++ Verif.marker key ++ rest = text at hm
    cases hm with
    | none hp => subst ht; exact absurd hp (no_marker_split h2)
    | @some _ _ k _ ks k1 k2 k3 k4 =>
      obtain ⟨rfl, rfl, rfl⟩ := first_unique ht h2 k2 h1 k1
      cases trim_unique h3 k3
      obtain ⟨i1, i2⟩ := ih k4
      refine ⟨?_, ?_⟩
      · rw [i1]
        constructor
        · intro h k hk
          rcases List.mem_cons.mp hk with rfl | hk
          · exact ⟨_, h4⟩
          · exact h k hk
        · intro h k hk
          exact h k (List.mem_cons_of_mem _ hk)
      · rw [i2]
        constructor
        · rintro ⟨pre, k, post, rfl, hn, hp⟩
          refine ⟨key' :: pre, k, post, rfl, hn, ?_⟩
          intro k' hk'
          rcases List.mem_cons.mp hk' with rfl | hk'
          · exact ⟨_, h4⟩
          · exact hp k' hk'
        · rintro ⟨pre, k, post, he, hn, hp⟩
          cases pre with
          | nil =>
            simp only [List.nil_append, List.cons.injEq] at he
            obtain ⟨rfl, rfl⟩ := he
            rw [h4] at hn; cases hn
          | cons x pre =>
            simp only [List.cons_append, List.cons.injEq] at he
            obtain ⟨rfl, rfl⟩ := he
            exact ⟨pre, k, post, rfl, hn, fun k' hk' => hp k' (List.mem_cons_of_mem _ hk')⟩
  | @failed lit key key' rest written h1 h2 h3 h4 =>
    generalize ht : lit ++ Verif.marker key ++ rest = text at hm
    cases hm with
    | none hp => subst ht; exact absurd hp (no_marker_split h2)
    | @some _ _ k _ ks k1 k2 k3 k4 =>
      obtain ⟨rfl, rfl, rfl⟩ := first_unique ht h2 k2 h1 k1
      cases trim_unique h3 k3
      refine ⟨⟨(fun h => by cases h), fun h => ?_⟩, ⟨(fun h => by cases h), ?_⟩⟩
      · obtain ⟨w, hw⟩ := h key' (by simp)
        rw [h4] at hw; cases hw
      · rintro ⟨pre, k, post, he, hn, hp⟩
        cases pre with
        | nil =>
          simp only [List.nil_append, List.cons.injEq] at he
          obtain ⟨rfl, rfl⟩ := he
          rw [h4] at hn; cases hn
        | cons x pre =>
          simp only [List.cons_append, List.cons.injEq] at he
          obtain ⟨rfl, rfl⟩ := he
          obtain ⟨w, hw⟩ := hp key' (by simp)
          rw [h4] at hw; cases hw
  | @missing lit key key' rest h1 h2 h3 h4 =>
    generalize ht : lit ++ Verif.marker key ++ rest = text at hm
    cases hm with
    | none hp => subst ht; exact absurd hp (no_marker_split h2)
    | @some _ _ k _ ks k1 k2 k3 k4 =>
      obtain ⟨rfl, rfl, rfl⟩ := first_unique ht h2 k2 h1 k1
      cases trim_unique h3 k3
      refine ⟨⟨(fun h => by cases h), fun h => ?_⟩, ⟨fun _ => ⟨[], key', ks, rfl, h4, by simp⟩, fun _ => rfl⟩⟩
      obtain ⟨w, hw⟩ := h key' (by simp)
      rw [h4] at hw; cases hw

/-- a text without `/*{` in it, followed by a marker, contains no marker -/
theorem no_marker_of {lit rest : List Char} (h : ∀ a b, lit ++ ['/', '*'] ≠ a ++ ['/', '*', '{'] ++ b) (hr : rest = [] ∨ ∃ k r, rest = marker k ++ r) : NoMarkerIn lit rest := by
  rintro a b rfl hb ⟨key, rest', hk, he⟩
  have he' : b ++ rest = '/' :: '*' :: '{' :: (key ++ ['}', '*', '/'] ++ rest') := by rw [he]; simp [marker]
  match b, hb with
  | [x], _ =>
    rcases hr with rfl | ⟨k, r, rfl⟩
    · simp at he'
    · simp [marker] at he'
  | [x, y], _ =>
    rcases hr with rfl | ⟨k, r, rfl⟩
    · simp at he'
    · simp [marker] at he'
  | x :: y :: z :: b, _ =>
    simp only [List.cons_append, List.cons.injEq] at he'
    obtain ⟨rfl, rfl, rfl, _⟩ := he'
    exact h a (b ++ ['/', '*']) (by simp)

theorem substitute_get (key : List Char) (w : List Char × Bool) (s : Substitutions) (k : List Char) :
    (substitute key w s).get k = if k = key then some w else s.get k := by
  unfold substitute Substitutions.get
  by_cases h : k = key
  · subst h
    rw [List.find?_cons_of_pos (by simp), if_pos rfl]
    rfl
  · rw [List.find?_cons_of_neg (by simpa using fun e => h e.symm), if_neg h]
    congr 1
    rw [List.find?_filter]
    congr 1
    funext x
    by_cases hx : x.1 = k
    · simp [hx, h]
    · simp [hx]

/-- only the substitutions for the markers matter -/
theorem rendered_congr {σ σ' : List Char → Option (List Char × Bool)} {text out : List Char} {st : WriteStatus} {ks : List (List Char)} (h : Rendered σ text out st)
    (hm : Markers text ks) (hs : ∀ k ∈ ks, σ k = σ' k) : Rendered σ' text out st := by
  induction h generalizing ks with
  | plain hp => exact .plain hp
  | @marker lit key key' rest written out status h1 h2 h3 h4 h5 ih =>
    generalize ht : lit ++ Verif.marker key ++ rest = text at hm
    cases hm with
    | none hp => subst ht; exact absurd hp (no_marker_split h2)
    | @some _ _ k _ ks k1 k2 k3 k4 =>
      obtain ⟨rfl, rfl, rfl⟩ := first_unique ht h2 k2 h1 k1
      cases trim_unique h3 k3
      rw [← ht]
      exact .marker h1 h2 h3 (by rw [← hs key' (by simp)]; exact h4) (ih k4 (fun k hk => hs k (by simp [hk])))
  | @failed lit key key' rest written h1 h2 h3 h4 =>
    generalize ht : lit ++ Verif.marker key ++ rest = text at hm
    cases hm with
    | none hp => subst ht; exact absurd hp (no_marker_split h2)
    | @some _ _ k _ ks k1 k2 k3 k4 =>
      obtain ⟨rfl, rfl, rfl⟩ := first_unique ht h2 k2 h1 k1
      cases trim_unique h3 k3
      rw [← ht]
      exact .failed h1 h2 h3 (by rw [← hs key' (by simp)]; exact h4)
  | @missing lit key key' rest h1 h2 h3 h4 =>
    generalize ht : lit ++ Verif.marker key ++ rest = text at hm
    cases hm with
    | none hp => subst ht; exact absurd hp (no_marker_split h2)
    | @some _ _ k _ ks k1 k2 k3 k4 =>
      obtain ⟨rfl, rfl, rfl⟩ := first_unique ht h2 k2 h1 k1
      cases trim_unique h3 k3
      rw [← ht]
      exact .missing h1 h2 h3 (by rw [← hs key' (by simp)]; exact h4)

/-- the text after the last marker -/
def afterLast : Nat → List Char → List Char
  | 0, text => text
  | n + 1, text =>
    match nextMatch text with
    | none => text
    | some (_, _, rest) => afterLast n rest

theorem replaceAll_afterLast (s : Substitutions) : ∀ (n : Nat) (text out : List Char), replaceAll s n text = (out, .ok) → afterLast n text <:+ out := by
  intro n
  induction n with
  | zero =>
    intro text out h
    simp only [replaceAll, Prod.mk.injEq] at h
    rw [← h.1]; exact List.suffix_rfl
  | succ n ih =>
    intro text out h
    unfold replaceAll at h
    unfold afterLast
    split at h
    · rename_i hm
      rw [hm]
      simp only [Prod.mk.injEq] at h
      rw [← h.1]; exact List.suffix_rfl
    · rename_i lit key rest hm
      rw [hm]
      split at h
      · simp at h
      · simp at h
      · simp only [Prod.mk.injEq] at h
        obtain ⟨rfl, h2⟩ := h
        exact (ih rest _ (Prod.ext rfl h2)).trans (List.suffix_append _ _)

end Verif
