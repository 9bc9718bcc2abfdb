import Verif.Model.Bootstrap
import Verif.Spec.Bootstrap
import Verif.Proofs.Lapex
import Mathlib.Tactic.IntervalCases

/-! # The bootstrap parser reads the texts of the specification -/

set_option autoImplicit false

namespace Verif

/-! ## combinators -/

theorem option_bind_some {α β : Type} {x : Option α} {f : α → Option β} {b : β} : (x >>= f) = some b ↔ ∃ a, x = some a ∧ f a = some b := by
  cases x <;> simp [bind, Option.bind]

theorem nomTag_app (t i : List Char) : nomTag t (t ++ i) = some ((), i) := by
  induction t with
  | nil => rfl
  | cons c t ih => simp [nomTag, ih]

theorem nomTag_some {t i rest : List Char} {u : Unit} (h : nomTag t i = some (u, rest)) : i = t ++ rest := by
  induction t generalizing i with
  | nil => simp [nomTag] at h; exact h
  | cons c t ih =>
    cases i with
    | nil => simp [nomTag] at h
    | cons d i =>
      simp only [nomTag] at h
      split at h
      · rename_i hc; subst hc; simp [ih h]
      · cases h

theorem nomTag_one {c : Char} {i : List Char} (h : i.head? ≠ some c) : nomTag [c] i = none := by
  cases i with
  | nil => rfl
  | cons d i =>
    simp only [nomTag]
    rw [if_neg]
    rintro rfl
    exact h rfl

theorem nomTag_cons (c : Char) (i : List Char) : nomTag [c] (c :: i) = some ((), i) := by simp [nomTag]

theorem takeWhile_app {pred : Char → Bool} {n rest : List Char} (h1 : ∀ c ∈ n, pred c = true) (h2 : ∀ c, rest.head? = some c → pred c = false) :
    (n ++ rest).takeWhile pred = n ∧ (n ++ rest).dropWhile pred = rest := by
  induction n with
  | nil =>
    cases rest with
    | nil => simp
    | cons c rest => simp [h2 c rfl]
  | cons c n ih =>
    have := ih fun c h => h1 c (List.mem_cons_of_mem _ h)
    simp [h1 c List.mem_cons_self, this.1, this.2]

theorem nomTakeWhile1_app {pred : Char → Bool} {n rest : List Char} (h0 : n ≠ []) (h1 : ∀ c ∈ n, pred c = true) (h2 : ∀ c, rest.head? = some c → pred c = false) :
    nomTakeWhile1 pred (n ++ rest) = some (n, rest) := by
  obtain ⟨h3, h4⟩ := takeWhile_app h1 h2
  simp [nomTakeWhile1, h3, h4, h0]

theorem takeWhile_split (pred : Char → Bool) (i : List Char) : i = i.takeWhile pred ++ i.dropWhile pred ∧ (∀ c ∈ i.takeWhile pred, pred c = true) ∧
    ∀ c, (i.dropWhile pred).head? = some c → pred c = false := by
  induction i with
  | nil => simp
  | cons c i ih =>
    simp only [List.takeWhile_cons, List.dropWhile_cons]
    split
    · rename_i hc
      refine ⟨by simp only [List.cons_append]; rw [← ih.1], fun d hd => ?_, ih.2.2⟩
      rcases List.mem_cons.mp hd with rfl | hd
      · exact hc
      · exact ih.2.1 d hd
    · rename_i hc
      refine ⟨by simp, by simp, fun d hd => ?_⟩
      simp at hd
      subst hd
      simpa using hc

theorem nomTakeWhile1_some {pred : Char → Bool} {i n rest : List Char} (h : nomTakeWhile1 pred i = some (n, rest)) :
    i = n ++ rest ∧ n ≠ [] ∧ (∀ c ∈ n, pred c = true) ∧ ∀ c, rest.head? = some c → pred c = false := by
  unfold nomTakeWhile1 at h
  simp only at h
  split at h
  · cases h
  · rename_i hn
    simp at h
    obtain ⟨rfl, rfl⟩ := h
    obtain ⟨h1, h2, h3⟩ := takeWhile_split pred i
    exact ⟨h1, hn, h2, h3⟩

theorem nomTakeWhile1_none {pred : Char → Bool} {i : List Char} (h : ∀ c, i.head? = some c → pred c = false) : nomTakeWhile1 pred i = none := by
  cases i with
  | nil => rfl
  | cons c i => simp [nomTakeWhile1, h c rfl]

/-! ## chars -/

theorem plain_unescaped (c : Char) : isUnescaped c = true ↔ PlainChar c := by
  simp [isUnescaped, PlainChar, isAscii, and_assoc]

theorem hexDigits_ok : ∀ x ∈ hexDigits, hexDigit x.1 = x.2 ∧ isHexDigit x.1 = true := by decide

theorem char_eq_ofNat (c : Char) : c = Char.ofNat c.toNat := by simp

theorem hexDigit_mem {c : Char} (h : isHexDigit c = true) : (c, hexDigit c) ∈ hexDigits := by
  have key : ∀ n, (48 ≤ n ∧ n ≤ 57) ∨ (97 ≤ n ∧ n ≤ 102) ∨ (65 ≤ n ∧ n ≤ 70) → (Char.ofNat n, hexDigit (Char.ofNat n)) ∈ hexDigits := by
    intro n hn
    rcases hn with ⟨h1, h2⟩ | ⟨h1, h2⟩ | ⟨h1, h2⟩ <;> interval_cases n <;> decide
  rw [char_eq_ofNat c]
  refine key _ ?_
  simp only [isHexDigit, Bool.or_eq_true, Bool.and_eq_true, decide_eq_true_eq] at h
  have le : ∀ a b : Char, a ≤ b → a.toNat ≤ b.toNat := fun a b h => h
  rcases h with (⟨h1, h2⟩ | ⟨h1, h2⟩) | ⟨h1, h2⟩
  · exact .inl ⟨le _ _ h1, le _ _ h2⟩
  · exact .inr (.inl ⟨le _ _ h1, le _ _ h2⟩)
  · exact .inr (.inr ⟨le _ _ h1, le _ _ h2⟩)

theorem hexIs_value {ds : List Char} {n : Nat} (h : HexIs ds n) : hexValue ds = n ∧ ∀ d ∈ ds, isHexDigit d = true := by
  induction h with
  | nil => exact ⟨rfl, by simp⟩
  | @snoc ds n d v _ hd ih =>
    obtain ⟨h1, h2⟩ := hexDigits_ok _ hd
    refine ⟨?_, fun x hx => ?_⟩
    · unfold hexValue at ih ⊢
      rw [List.foldl_append, ih.1]
      simp only [List.foldl_cons, List.foldl_nil]
      simp only at h1
      rw [h1]
    · rcases List.mem_append.mp hx with hx | hx
      · exact ih.2 x hx
      · simp at hx; subst hx; exact h2

theorem hexIs_of {ds : List Char} (h : ∀ d ∈ ds, isHexDigit d = true) : HexIs ds (hexValue ds) := by
  induction ds using List.reverseRecOn with
  | nil => exact .nil
  | append_singleton ds d ih =>
    have h1 : hexValue (ds ++ [d]) = 16 * hexValue ds + hexDigit d := by simp [hexValue, List.foldl_append]
    rw [h1]
    exact .snoc (ih fun x hx => h x (by simp [hx])) (hexDigit_mem (h d (by simp)))

theorem charFromU32_toNat (c : Char) : charFromU32 c.toNat = some c := by
  have : c.toNat.isValidChar := c.valid
  simp [charFromU32, this]

theorem charFromU32_some {n : Nat} {c : Char} (h : charFromU32 n = some c) : c.toNat = n := by
  unfold charFromU32 at h
  split at h
  · rename_i hv
    simp at h
    subst h
    simp [Char.ofNat, hv, Char.toNat, Char.ofNatAux]
  · cases h

theorem nomTakeWhileMN_app {m n : Nat} {pred : Char → Bool} {ds rest : List Char} (hm : m ≤ ds.length) (hn : ds.length ≤ n) (h1 : ∀ c ∈ ds, pred c = true)
    (h2 : ∀ c, rest.head? = some c → pred c = false) : nomTakeWhileMN m n pred (ds ++ rest) = some (ds, rest) := by
  have h3 : ((ds ++ rest).take n).takeWhile pred = ds := by
    rw [List.take_append, List.take_of_length_le hn]
    refine (takeWhile_app h1 fun c hc => ?_).1
    refine h2 c ?_
    rw [List.head?_take] at hc
    split at hc
    · cases hc
    · exact hc
  simp [nomTakeWhileMN, h3, hm]

theorem nomTakeWhileMN_some {m n : Nat} {pred : Char → Bool} {i ds rest : List Char} (h : nomTakeWhileMN m n pred i = some (ds, rest)) :
    i = ds ++ rest ∧ m ≤ ds.length ∧ ds.length ≤ n ∧ ∀ c ∈ ds, pred c = true := by
  unfold nomTakeWhileMN at h
  simp only at h
  split at h
  · rename_i hm
    simp at h
    obtain ⟨rfl, rfl⟩ := h
    obtain ⟨h1, h2, _⟩ := takeWhile_split pred (i.take n)
    refine ⟨?_, hm, ?_, h2⟩
    · have hp : ((i.take n).takeWhile pred) <+: i := (List.takeWhile_prefix pred).trans (List.take_prefix n i)
      exact (List.prefix_iff_eq_append.mp hp).symm
    · exact Nat.le_trans (List.takeWhile_prefix pred).length_le (by simp)
  · cases h

theorem bootChar_of_text {w : List Char} {c : Char} (h : CharText w c) (rest : List Char) : bootChar (w ++ rest) = some (c, rest) := by
  cases h with
  | plain h => simp [bootChar, nomAlt, bootCharUnescaped, (plain_unescaped c).mpr h]
  | newline => simp [bootChar, nomAlt, bootCharUnescaped, isUnescaped, bootCharEscaped]
  | carriageReturn => simp [bootChar, nomAlt, bootCharUnescaped, isUnescaped, bootCharEscaped]
  | tab => simp [bootChar, nomAlt, bootCharUnescaped, isUnescaped, bootCharEscaped]
  | backslash => simp [bootChar, nomAlt, bootCharUnescaped, isUnescaped, bootCharEscaped]
  | slash => simp [bootChar, nomAlt, bootCharUnescaped, isUnescaped, bootCharEscaped]
  | @unicode ds c h4 h6 h =>
    obtain ⟨h1, h2⟩ := hexIs_value h
    have hu : bootCharUnicode ('{' :: (ds ++ ('}' :: rest))) = some (c, rest) := by
      unfold bootCharUnicode
      simp only [nomTag_cons, bind, Option.bind]
      rw [nomTakeWhileMN_app h4 h6 h2 (by intro c hc; simp at hc; subst hc; decide)]
      simp only [nomTag_cons, h1, charFromU32_toNat]
    simp [bootChar, nomAlt, bootCharUnescaped, isUnescaped, bootCharEscaped, hu]

theorem bootChar_text {i rest : List Char} {c : Char} (h : bootChar i = some (c, rest)) : ∃ w, i = w ++ rest ∧ CharText w c := by
  unfold bootChar nomAlt at h
  split at h
  · rename_i r hr
    cases h
    unfold bootCharUnescaped at hr
    split at hr
    · split at hr
      · rename_i c' i' hu
        cases hr
        exact ⟨[c], rfl, .plain ((plain_unescaped c).mp hu)⟩
      · cases hr
    · cases hr
  · unfold bootCharEscaped at h
    split at h
    · cases h; exact ⟨_, rfl, .newline⟩
    · cases h; exact ⟨_, rfl, .carriageReturn⟩
    · cases h; exact ⟨_, rfl, .tab⟩
    · cases h; exact ⟨_, rfl, .backslash⟩
    · cases h; exact ⟨_, rfl, .slash⟩
    · rename_i i'
      unfold bootCharUnicode at h
      obtain ⟨⟨_, i1⟩, h1, h⟩ := option_bind_some.mp h
      obtain ⟨⟨ds, i2⟩, h2, h⟩ := option_bind_some.mp h
      obtain ⟨⟨_, i3⟩, h3, h⟩ := option_bind_some.mp h
      obtain ⟨c', h4, h⟩ := option_bind_some.mp h
      cases h
      have e1 := nomTag_some h1
      obtain ⟨e2, hm, hn, hp⟩ := nomTakeWhileMN_some h2
      have e3 := nomTag_some h3
      subst e1 e2 e3
      refine ⟨['\\', 'u', '{'] ++ ds ++ ['}'], by simp, .unicode hm hn ?_⟩
      rw [charFromU32_some h4]
      exact hexIs_of hp
    · cases h

theorem bootChar_iff (i rest : List Char) (c : Char) : bootChar i = some (c, rest) ↔ ∃ w, i = w ++ rest ∧ CharText w c :=
  ⟨bootChar_text, by rintro ⟨w, rfl, h⟩; exact bootChar_of_text h rest⟩

theorem charText_length {w : List Char} {c : Char} (h : CharText w c) : 0 < w.length := by
  cases h <;> simp

theorem charText_head {w : List Char} {c : Char} (h : CharText w c) : ∃ d, w.head? = some d ∧ (PlainChar d ∨ d = '\\') := by
  cases h with
  | plain h => exact ⟨_, rfl, .inl h⟩
  | unicode => exact ⟨'\\', rfl, .inr rfl⟩
  | _ => exact ⟨'\\', rfl, .inr rfl⟩

/-- no char starts here -/
theorem bootChar_none {i : List Char} (h : ∀ d, i.head? = some d → ¬ PlainChar d ∧ d ≠ '\\') : bootChar i = none := by
  cases hb : bootChar i with
  | none => rfl
  | some r =>
    obtain ⟨c, rest⟩ := r
    obtain ⟨w, rfl, hw⟩ := bootChar_text hb
    obtain ⟨d, h1, h2⟩ := charText_head hw
    have hh : (w ++ rest).head? = some d := by
      cases w with
      | nil => simp at h1
      | cons x w => simpa using h1
    obtain ⟨h3, h4⟩ := h d hh
    rcases h2 with h2 | h2
    · exact absurd h2 h3
    · exact absurd h2 h4

theorem head_app {w rest : List Char} (h : 0 < w.length) : (w ++ rest).head? = w.head? := by
  cases w with
  | nil => simp at h
  | cons c w => rfl

/-! ## loops -/

section loops
variable {α β : Type}

/-- `w` is read as `a`, whatever follows it, as long as the next char is fine -/
def ReadsAs (p : NomParser α) (w : List Char) (a : α) (ok : List Char → Prop) : Prop := ∀ rest, ok rest → p (w ++ rest) = some (a, rest)

inductive ReadsMany (p : NomParser α) (stop : List Char → Prop) : List Char → List α → Prop
  | nil : ReadsMany p stop [] []
  | cons {w v : List Char} {a : α} {as : List α} : w ≠ [] → (∀ rest, stop rest → p (w ++ (v ++ rest)) = some (a, v ++ rest)) → ReadsMany p stop v as → ReadsMany p stop (w ++ v) (a :: as)

theorem manyLoop_reads {p : NomParser α} {stop : List Char → Prop} (hstop : ∀ rest, stop rest → p rest = none) {w : List Char} {as : List α} (h : ReadsMany p stop w as) :
    ∀ (n : Nat) (rest : List Char), w.length < n → stop rest → nomManyLoop p n (w ++ rest) = some (as, rest) := by
  induction h with
  | nil =>
    intro n rest hn hr
    obtain ⟨n, rfl⟩ : ∃ k, n = k + 1 := ⟨n - 1, by omega⟩
    simp [nomManyLoop, hstop rest hr]
  | @cons w v a as hw hp _ ih =>
    intro n rest hn hr
    obtain ⟨n, rfl⟩ : ∃ k, n = k + 1 := ⟨n - 1, by omega⟩
    have hl : 0 < w.length := List.length_pos_iff.mpr hw
    rw [List.length_append] at hn
    rw [List.append_assoc, nomManyLoop, hp rest hr]
    simp only
    rw [if_neg (by simp only [List.length_append]; omega), ih n rest (by omega) hr]
    rfl

theorem many1_reads {p : NomParser α} {stop : List Char → Prop} (hstop : ∀ rest, stop rest → p rest = none) {w : List Char} {as : List α} (h : ReadsMany p stop w as) (hne : as ≠ [])
    (rest : List Char) (hr : stop rest) : nomMany1 p (w ++ rest) = some (as, rest) := by
  cases h with
  | nil => exact absurd rfl hne
  | @cons w v a as hw hp h =>
    unfold nomMany1
    rw [List.append_assoc, hp rest hr]
    simp only
    rw [manyLoop_reads hstop h _ rest (by simp; omega) hr]
    rfl

/-- soundness of the loop -/
theorem manyLoop_some {p : NomParser α} {R : List Char → α → Prop} (hp : ∀ i a rest, p i = some (a, rest) → ∃ w, i = w ++ rest ∧ R w a) : ∀ (n : Nat) (i rest : List Char) (as : List α),
    nomManyLoop p n i = some (as, rest) → ∃ ws : List (List Char), i = ws.flatten ++ rest ∧ List.Forall₂ R ws as := by
  intro n
  induction n with
  | zero => intro i rest as h; simp [nomManyLoop] at h; obtain ⟨rfl, rfl⟩ := h; exact ⟨[], rfl, .nil⟩
  | succ n ih =>
    intro i rest as h
    rw [nomManyLoop] at h
    split at h
    · simp at h; obtain ⟨rfl, rfl⟩ := h; exact ⟨[], rfl, .nil⟩
    · rename_i a i' hi
      split at h
      · cases h
      · simp only [Option.map_eq_some_iff] at h
        obtain ⟨⟨as', r⟩, h1, h2⟩ := h
        cases h2
        obtain ⟨w, rfl, hw⟩ := hp _ _ _ hi
        obtain ⟨ws, rfl, hws⟩ := ih _ _ _ h1
        exact ⟨w :: ws, by simp, .cons hw hws⟩

theorem many1_some {p : NomParser α} {R : List Char → α → Prop} (hp : ∀ i a rest, p i = some (a, rest) → ∃ w, i = w ++ rest ∧ R w a) {i rest : List Char} {as : List α}
    (h : nomMany1 p i = some (as, rest)) : ∃ (ws : List (List Char)), ws ≠ [] ∧ i = ws.flatten ++ rest ∧ List.Forall₂ R ws as := by
  unfold nomMany1 at h
  split at h
  · cases h
  · rename_i a i' hi
    simp only [Option.map_eq_some_iff] at h
    obtain ⟨⟨as', r⟩, h1, h2⟩ := h
    cases h2
    obtain ⟨w, rfl, hw⟩ := hp _ _ _ hi
    obtain ⟨ws, rfl, hws⟩ := manyLoop_some hp _ _ _ _ h1
    exact ⟨w :: ws, by simp, by simp, .cons hw hws⟩

inductive ReadsSep (sep : NomParser β) (p : NomParser α) (stop : List Char → Prop) : List Char → List α → Prop
  | one {w : List Char} {a : α} : (∀ rest, stop rest → p (w ++ rest) = some (a, rest)) → ReadsSep sep p stop w [a]
  | more {w s v : List Char} {a : α} {as : List α} : s ≠ [] →
      (∀ rest, stop rest → p (w ++ (s ++ (v ++ rest))) = some (a, s ++ (v ++ rest)) ∧ ∃ b, sep (s ++ (v ++ rest)) = some (b, v ++ rest)) →
      ReadsSep sep p stop v as → ReadsSep sep p stop (w ++ s ++ v) (a :: as)

theorem sepLoop_reads {sep : NomParser β} {p : NomParser α} {stop : List Char → Prop}
    (hstop : ∀ rest, stop rest → sep rest = none ∨ ∃ b r, sep rest = some (b, r) ∧ r.length ≠ rest.length ∧ p r = none) {w : List Char} {as : List α} (h : ReadsSep sep p stop w as) :
    ∀ (rest : List Char), stop rest → ∃ a as' i, as = a :: as' ∧ p (w ++ rest) = some (a, i) ∧ i.length ≤ (w ++ rest).length ∧ ∀ n, i.length < n → nomSepLoop sep p n i = some (as', rest) := by
  induction h with
  | @one w a hp =>
    intro rest hr
    refine ⟨a, [], rest, rfl, hp rest hr, by simp, fun n hn => ?_⟩
    obtain ⟨n, rfl⟩ : ∃ k, n = k + 1 := ⟨n - 1, by omega⟩
    rw [nomSepLoop]
    rcases hstop rest hr with h | ⟨b, r, h1, h2, h3⟩
    · simp [h]
    · simp [h1, h2, h3]
  | @more w s v a as hs hp _ ih =>
    intro rest hr
    obtain ⟨h1, b, h2⟩ := hp rest hr
    obtain ⟨a', as', i, rfl, h3, h4, h5⟩ := ih rest hr
    have hl : 0 < s.length := List.length_pos_iff.mpr hs
    refine ⟨a, a' :: as', s ++ (v ++ rest), rfl, by rw [List.append_assoc, List.append_assoc]; exact h1, by simp, fun n hn => ?_⟩
    obtain ⟨n, rfl⟩ : ∃ k, n = k + 1 := ⟨n - 1, by omega⟩
    simp only [List.length_append] at hn h4
    rw [nomSepLoop, h2]
    simp only
    rw [if_neg (by simp only [List.length_append]; omega), h3]
    simp only
    rw [h5 n (by omega)]
    rfl

theorem sepList_reads {sep : NomParser β} {p : NomParser α} {stop : List Char → Prop}
    (hstop : ∀ rest, stop rest → sep rest = none ∨ ∃ b r, sep rest = some (b, r) ∧ r.length ≠ rest.length ∧ p r = none) {w : List Char} {as : List α} (h : ReadsSep sep p stop w as)
    (rest : List Char) (hr : stop rest) : nomSepList1 sep p (w ++ rest) = some (as, rest) := by
  obtain ⟨a, as', i, rfl, h1, h2, h3⟩ := sepLoop_reads hstop h rest hr
  unfold nomSepList1
  rw [h1]
  simp only
  rw [h3 _ (Nat.lt_succ_self _)]
  rfl

/-- what a separated list consists of -/
inductive Separated (S : List Char → Prop) (R : List Char → α → Prop) : List Char → List α → Prop
  | one {w : List Char} {a : α} : R w a → Separated S R w [a]
  | more {w s v : List Char} {a : α} {as : List α} : R w a → S s → Separated S R v as → Separated S R (w ++ s ++ v) (a :: as)

theorem sepLoop_some {sep : NomParser β} {p : NomParser α} {S : List Char → Prop} {R : List Char → α → Prop} (hs : ∀ i b rest, sep i = some (b, rest) → ∃ s, i = s ++ rest ∧ S s)
    (hp : ∀ i a rest, p i = some (a, rest) → ∃ w, i = w ++ rest ∧ R w a) : ∀ (n : Nat) (i rest : List Char) (as : List α), nomSepLoop sep p n i = some (as, rest) →
      ∀ w a, R w a → ∃ v, i = v ++ rest ∧ Separated S R (w ++ v) (a :: as) := by
  intro n
  induction n with
  | zero => intro i rest as h w a hw; simp [nomSepLoop] at h; obtain ⟨rfl, rfl⟩ := h; exact ⟨[], rfl, by simpa using .one hw⟩
  | succ n ih =>
    intro i rest as h w a hw
    rw [nomSepLoop] at h
    split at h
    · simp at h; obtain ⟨rfl, rfl⟩ := h; exact ⟨[], rfl, by simpa using .one hw⟩
    · rename_i b i' hi
      split at h
      · cases h
      · split at h
        · simp at h; obtain ⟨rfl, rfl⟩ := h; exact ⟨[], rfl, by simpa using .one hw⟩
        · rename_i a' i'' hi'
          simp only [Option.map_eq_some_iff] at h
          obtain ⟨⟨as', r⟩, h1, h2⟩ := h
          cases h2
          obtain ⟨s, rfl, hs'⟩ := hs _ _ _ hi
          obtain ⟨w', rfl, hw'⟩ := hp _ _ _ hi'
          obtain ⟨v, rfl, hv⟩ := ih _ _ _ h1 w' a' hw'
          refine ⟨s ++ (w' ++ v), by simp, ?_⟩
          have := Separated.more (S := S) hw hs' hv
          rwa [List.append_assoc] at this

theorem sepList_some {sep : NomParser β} {p : NomParser α} {S : List Char → Prop} {R : List Char → α → Prop} (hs : ∀ i b rest, sep i = some (b, rest) → ∃ s, i = s ++ rest ∧ S s)
    (hp : ∀ i a rest, p i = some (a, rest) → ∃ w, i = w ++ rest ∧ R w a) {i rest : List Char} {as : List α} (h : nomSepList1 sep p i = some (as, rest)) :
    ∃ w, i = w ++ rest ∧ Separated S R w as := by
  unfold nomSepList1 at h
  split at h
  · cases h
  · rename_i a i' hi
    simp only [Option.map_eq_some_iff] at h
    obtain ⟨⟨as', r⟩, h1, h2⟩ := h
    cases h2
    obtain ⟨w, rfl, hw⟩ := hp _ _ _ hi
    obtain ⟨v, rfl, hv⟩ := sepLoop_some hs hp _ _ _ _ h1 w a hw
    exact ⟨w ++ v, by simp, hv⟩

end loops

/-! ## sets -/

theorem setItem_length {w : List Char} {x : Characters} (h : SetItem w x) : 0 < w.length := by
  cases h with
  | single h => exact charText_length h
  | range h _ => simp

theorem item_single {w : List Char} {c : Char} (h : CharText w c) {rest : List Char} (hr : rest.head? ≠ some '-') : bootCharOrRange (w ++ rest) = some (.single c, rest) := by
  have h1 : bootCharRange (w ++ rest) = none := by
    unfold bootCharRange
    rw [bootChar_of_text h]
    simp [bind, Option.bind, nomTag_one hr]
  simp [bootCharOrRange, nomAlt, h1, nomMap, bootChar_of_text h]

theorem item_range {w v : List Char} {c d : Char} (h : CharText w c) (h' : CharText v d) (rest : List Char) : bootCharOrRange ((w ++ '-' :: v) ++ rest) = some (.range c d, rest) := by
  have h1 : bootCharRange ((w ++ '-' :: v) ++ rest) = some (.range c d, rest) := by
    unfold bootCharRange
    rw [List.append_assoc, bootChar_of_text h]
    simp only [bind, Option.bind, List.cons_append, nomTag_cons, bootChar_of_text h']
  simp only [bootCharOrRange, nomAlt, h1]

theorem setItem_sound {i rest : List Char} {x : Characters} (h : bootCharOrRange i = some (x, rest)) : ∃ w, i = w ++ rest ∧ SetItem w x := by
  unfold bootCharOrRange nomAlt at h
  split at h
  · rename_i r hr
    cases h
    unfold bootCharRange at hr
    obtain ⟨⟨c1, i1⟩, h1, h⟩ := option_bind_some.mp hr
    obtain ⟨⟨_, i2⟩, h2, h⟩ := option_bind_some.mp h
    obtain ⟨⟨c2, i3⟩, h3, h⟩ := option_bind_some.mp h
    cases h
    obtain ⟨w, rfl, hw⟩ := bootChar_text h1
    have e := nomTag_some h2
    obtain ⟨v, rfl, hv⟩ := bootChar_text h3
    subst e
    exact ⟨w ++ '-' :: v, by simp, .range hw hv⟩
  · simp only [nomMap, Option.map_eq_some_iff] at h
    obtain ⟨⟨c, r⟩, h1, h2⟩ := h
    cases h2
    obtain ⟨w, rfl, hw⟩ := bootChar_text h1
    exact ⟨w, rfl, .single hw⟩

theorem setText_reads {w : List Char} {xs : List Characters} (h : SetText true w xs) : ReadsMany bootCharOrRange (fun r => r.head? = some ']') w xs ∧ xs ≠ [] := by
  induction h with
  | @one w x h =>
    have : ReadsMany bootCharOrRange (fun r => r.head? = some ']') (w ++ []) [x] := by
      refine .cons (List.ne_nil_of_length_pos (setItem_length h)) (fun rest hr => ?_) .nil
      cases h with
      | single h => exact item_single h (by simp [hr])
      | range h h' => exact item_range h h' _
    rw [List.append_nil] at this
    exact ⟨this, by simp⟩
  | @more w v x xs h hv hc ih =>
    refine ⟨.cons (List.ne_nil_of_length_pos (setItem_length h)) (fun rest hr => ?_) ih.1, by simp⟩
    cases h with
    | single h =>
      have hvl : 0 < v.length := by
        cases hv with
        | one h => exact setItem_length h
        | more h _ _ => rw [List.length_append]; have := setItem_length h; omega
      refine item_single h ?_
      rw [head_app hvl]
      rcases hc rfl with ⟨_, _, h⟩ | h
      · cases h
      · exact h
    | range h h' => exact item_range h h' _

theorem notPlain_of_mem {d : Char} (h : d ∈ [']', '/', ')', '|', '+', '*', '?', '\t', '\r', '\n']) : ¬ PlainChar d ∧ d ≠ '\\' := by
  constructor
  · rintro ⟨_, h2⟩
    apply h2
    simp only [List.mem_cons, List.not_mem_nil, or_false] at h ⊢
    tauto
  · rintro rfl
    simp at h

theorem orRange_stop {rest : List Char} (h : rest.head? = some ']') : bootCharOrRange rest = none := by
  have h1 : bootChar rest = none := bootChar_none (by intro d hd; rw [h] at hd; cases hd; exact notPlain_of_mem (by simp))
  simp [bootCharOrRange, nomAlt, bootCharRange, h1, nomMap, bind, Option.bind]

theorem setText_flatten {ws : List (List Char)} {xs : List Characters} (hne : ws ≠ []) (h : List.Forall₂ SetItem ws xs) : SetText false ws.flatten xs := by
  induction h with
  | nil => exact absurd rfl hne
  | @cons w x ws xs h1 h2 ih =>
    cases h2 with
    | nil => simpa using SetText.one h1
    | cons h3 h4 => exact .more h1 (ih (by simp)) (by simp)

/-- sets -/
theorem set_reads {w : List Char} {xs : List Characters} (h : SetText true w xs) (hc : w.head? ≠ some '^') (rest : List Char) :
    bootCharSet ('[' :: w ++ [']'] ++ rest) = some (.charSet xs false, rest) := by
  obtain ⟨h1, h2⟩ := setText_reads h
  have hl : 0 < w.length := by
    cases h with
    | one h => exact setItem_length h
    | more h _ _ => rw [List.length_append]; have := setItem_length h; omega
  have h3 := many1_reads (stop := fun r => r.head? = some ']') (fun r hr => orRange_stop hr) h1 h2 (']' :: rest) rfl
  have h4 : nomTag ['^'] (w ++ ']' :: rest) = none := nomTag_one (by rw [head_app hl]; exact hc)
  unfold bootCharSet
  simp only [List.cons_append, List.append_assoc, List.nil_append, bind, Option.bind, nomTag_cons, nomOpt, h4, h3, Option.isSome_none]

theorem negated_reads {w : List Char} {xs : List Characters} (h : SetText true w xs) (rest : List Char) :
    bootCharSet ('[' :: '^' :: w ++ [']'] ++ rest) = some (.charSet xs true, rest) := by
  obtain ⟨h1, h2⟩ := setText_reads h
  have h3 := many1_reads (stop := fun r => r.head? = some ']') (fun r hr => orRange_stop hr) h1 h2 (']' :: rest) rfl
  unfold bootCharSet
  simp only [List.cons_append, List.append_assoc, List.nil_append, bind, Option.bind, nomTag_cons, nomOpt, h3, Option.isSome_some]

theorem set_sound {i rest : List Char} {p : Pattern} (h : bootCharSet i = some (p, rest)) : ∃ w, i = w ++ rest ∧ RegexText false .element w [p] := by
  unfold bootCharSet at h
  obtain ⟨⟨_, i1⟩, h1, h⟩ := option_bind_some.mp h
  obtain ⟨⟨neg, i2⟩, h2, h⟩ := option_bind_some.mp h
  obtain ⟨⟨xs, i3⟩, h3, h⟩ := option_bind_some.mp h
  obtain ⟨⟨_, i4⟩, h4, h⟩ := option_bind_some.mp h
  cases h
  obtain ⟨ws, hne, rfl, hws⟩ := many1_some (R := SetItem) (fun i a rest h => setItem_sound h) h3
  have e1 := nomTag_some h1
  have e4 := nomTag_some h4
  subst e1 e4
  have hs := setText_flatten hne hws
  unfold nomOpt at h2
  split at h2
  · rename_i r hr
    obtain ⟨_, r⟩ := r
    have e := nomTag_some hr
    simp only [Option.some.injEq, Prod.mk.injEq] at h2
    obtain ⟨rfl, rfl⟩ := h2
    exact ⟨'[' :: '^' :: ws.flatten ++ [']'], by simp [e], .negated hs⟩
  · cases h2
    exact ⟨'[' :: ws.flatten ++ [']'], by simp, .set hs (by simp)⟩

/-! ## regular expressions -/

/-- nothing of a sequence starts here -/
def RegexStop (rest : List Char) : Prop := ∃ c, rest.head? = some c ∧ c ∈ [')', '|', '/']

/-- no repetition sign -/
def NoRep (rest : List Char) : Prop := ∀ c, rest.head? = some c → c ∉ ['*', '+', '?']

theorem repKind_none {rest : List Char} (h : NoRep rest) : bootRepetitionKind rest = some (none, rest) := by
  have h1 : nomTag ['*'] rest = none := nomTag_one fun hc => h _ hc (by simp)
  have h2 : nomTag ['+'] rest = none := nomTag_one fun hc => h _ hc (by simp)
  have h3 : nomTag ['?'] rest = none := nomTag_one fun hc => h _ hc (by simp)
  simp [bootRepetitionKind, nomOpt, nomAlt, nomMap, h1, h2, h3]

theorem repKind_star (rest : List Char) : bootRepetitionKind ('*' :: rest) = some (some 0, rest) := by simp [bootRepetitionKind, nomOpt, nomAlt, nomMap, nomTag]
theorem repKind_plus (rest : List Char) : bootRepetitionKind ('+' :: rest) = some (some 1, rest) := by simp [bootRepetitionKind, nomOpt, nomAlt, nomMap, nomTag]
theorem repKind_opt (rest : List Char) : bootRepetitionKind ('?' :: rest) = some (some 2, rest) := by simp [bootRepetitionKind, nomOpt, nomAlt, nomMap, nomTag]

theorem repKind_sound {i rest : List Char} {k : Option Nat} (h : bootRepetitionKind i = some (k, rest)) :
    (k = none ∧ rest = i) ∨ (k = some 0 ∧ i = '*' :: rest) ∨ (k = some 1 ∧ i = '+' :: rest) ∨ (k = some 2 ∧ i = '?' :: rest) := by
  cases i with
  | nil => simp [bootRepetitionKind, nomOpt, nomAlt, nomMap, nomTag] at h; obtain ⟨rfl, rfl⟩ := h; exact .inl ⟨rfl, rfl⟩
  | cons c i =>
    by_cases h1 : c = '*'
    · subst h1; rw [repKind_star] at h; cases h; exact .inr (.inl ⟨rfl, rfl⟩)
    · by_cases h2 : c = '+'
      · subst h2; rw [repKind_plus] at h; cases h; exact .inr (.inr (.inl ⟨rfl, rfl⟩))
      · by_cases h3 : c = '?'
        · subst h3; rw [repKind_opt] at h; cases h; exact .inr (.inr (.inr ⟨rfl, rfl⟩))
        · rw [repKind_none (by intro d hd; simp at hd; subst hd; simp [h1, h2, h3])] at h
          cases h
          exact .inl ⟨rfl, rfl⟩

/-- nothing starts at a `)`, `|` or `/` -/
theorem regexRep_stop (seq : NomParser Pattern) {rest : List Char} (h : RegexStop rest) : bootRegexRepetition seq rest = none := by
  obtain ⟨c, h1, h2⟩ := h
  have hne : ∀ d, d ∈ ['(', '[', '.'] → rest.head? ≠ some d := by
    rintro d hd he
    rw [h1] at he
    cases he
    simp only [List.mem_cons, List.not_mem_nil, or_false] at h2 hd
    rcases h2 with rfl | rfl | rfl <;> simp at hd
  have a1 : bootRegexGroup seq rest = none := by simp [bootRegexGroup, nomTag_one (hne '(' (by simp)), bind, Option.bind]
  have a2 : bootCharSet rest = none := by simp [bootCharSet, nomTag_one (hne '[' (by simp)), bind, Option.bind]
  have a3 : nomTag ['.'] rest = none := nomTag_one (hne '.' (by simp))
  have a4 : bootChar rest = none := bootChar_none (by
    intro d hd
    rw [h1] at hd
    cases hd
    exact notPlain_of_mem (by simp only [List.mem_cons, List.not_mem_nil, or_false] at h2 ⊢; tauto))
  simp [bootRegexRepetition, bootRegexElement, nomAlt, nomMap, a1, a2, a3, a4, bind, Option.bind]

/-- the first char of a text -/
def RegexStart (w : List Char) : Prop := ∃ d, w.head? = some d ∧ (PlainChar d ∨ d = '\\')

theorem RegexStart.pos {w : List Char} (h : RegexStart w) : 0 < w.length := by
  obtain ⟨d, h, _⟩ := h
  cases w with
  | nil => cases h
  | cons => simp

theorem RegexStart.append {w : List Char} (h : RegexStart w) (v : List Char) : RegexStart (w ++ v) := by
  obtain ⟨d, h1, h2⟩ := h
  exact ⟨d, by rw [head_app (RegexStart.pos ⟨d, h1, h2⟩)]; exact h1, h2⟩

theorem regexText_start {b : Bool} {l : RegexLevel} {w : List Char} {ps : List Pattern} (h : RegexText b l w ps) : RegexStart w := by
  have hp : PlainChar '(' ∧ PlainChar '[' ∧ PlainChar '.' := by unfold PlainChar; decide
  induction h with
  | char h _ => exact charText_head h
  | any => exact ⟨'.', rfl, .inl hp.2.2⟩
  | set => exact ⟨'[', rfl, .inl hp.2.1⟩
  | negated => exact ⟨'[', rfl, .inl hp.2.1⟩
  | group => exact ⟨'(', rfl, .inl hp.1⟩
  | choice => exact ⟨'(', rfl, .inl hp.1⟩
  | once _ ih => exact ih
  | zeroOrMore _ ih => exact ih.append _
  | oneOrMore _ ih => exact ih.append _
  | optional _ ih => exact ih.append _
  | last _ ih => exact ih
  | more _ _ ih _ => exact ih.append _
  | lastChoice _ ih => exact ih
  | moreChoices _ _ ih _ => exact ih.append _

theorem RegexStart.noRep {w : List Char} (h : RegexStart w) (rest : List Char) : NoRep (w ++ rest) := by
  intro c hc hm
  rw [head_app h.pos] at hc
  obtain ⟨d, h1, h2⟩ := h
  rw [hc] at h1
  cases h1
  have := notPlain_of_mem (d := c) (by simp only [List.mem_cons, List.not_mem_nil, or_false] at hm ⊢; tauto)
  rcases h2 with h2 | h2
  · exact this.1 h2
  · exact this.2 h2

theorem RegexStop.noRep {rest : List Char} (h : RegexStop rest) : NoRep rest := by
  obtain ⟨c, h1, h2⟩ := h
  intro d hd hm
  rw [h1] at hd
  cases hd
  simp only [List.mem_cons, List.not_mem_nil, or_false] at h2 hm
  rcases h2 with rfl | rfl | rfl <;> simp at hm

/-- what is read at each level -/
def RegexReads : RegexLevel → List Char → List Pattern → Prop
  | .element, w, ps => ∀ d p rest, ps = [p] → w.length ≤ d → bootRegexElement (bootRegexSeq d) (w ++ rest) = some (p, rest)
  | .repetition, w, ps => ∀ d p rest, ps = [p] → w.length ≤ d → NoRep rest → bootRegexRepetition (bootRegexSeq d) (w ++ rest) = some (p, rest)
  | .sequence, w, ps => ps ≠ [] ∧ ∀ d, w.length ≤ d → ReadsMany (bootRegexRepetition (bootRegexSeq d)) RegexStop w ps
  | .alternatives, w, ps => ∀ d, w.length < d → ReadsSep (nomTag ['|']) (bootRegexSeq d) (fun rest => rest.head? = some ')') w ps

theorem regexSeq_reads {w : List Char} {ps : List Pattern} (h : RegexReads .sequence w ps) {d : Nat} (hd : w.length < d) {rest : List Char} (hr : RegexStop rest) :
    bootRegexSeq d (w ++ rest) = some (.sequence ps, rest) := by
  obtain ⟨d, rfl⟩ : ∃ k, d = k + 1 := ⟨d - 1, by omega⟩
  have := many1_reads (stop := RegexStop) (fun r hr => regexRep_stop _ hr) (h.2 d (by omega)) h.1 rest hr
  simp [bootRegexSeq, nomMap, this]

/-- what a group stands for -/
def groupOf : List Pattern → Pattern
  | [p] => p
  | ps => .alternative ps

theorem regexGroup_reads {w : List Char} {ps : List Pattern} (h : RegexReads .alternatives w ps) {d : Nat} (hd : w.length < d) (rest : List Char) :
    bootRegexElement (bootRegexSeq d) ('(' :: w ++ [')'] ++ rest) = some (groupOf ps, rest) := by
  have h1 := sepList_reads (stop := fun r => r.head? = some ')') (fun r hr => .inl (nomTag_one (by rw [hr]; simp))) (h d hd) (')' :: rest) rfl
  have h2 : bootRegexGroup (bootRegexSeq d) ('(' :: w ++ [')'] ++ rest) = some (groupOf ps, rest) := by
    unfold bootRegexGroup
    simp only [List.cons_append, List.append_assoc, List.nil_append, bind, Option.bind, nomTag_cons, h1]
    unfold groupOf
    split
    · rfl
    · rename_i hn
      split
      · exact absurd rfl (hn _)
      · rfl
  simp only [bootRegexElement, nomAlt, h2]

theorem regexText_reads {l : RegexLevel} {w : List Char} {ps : List Pattern} (h : RegexText true l w ps) : RegexReads l w ps := by
  induction h with
  | @char w c h hc =>
    intro d p rest hp hd
    cases hp
    obtain ⟨h1, h2, h3⟩ := hc rfl
    have hne : ∀ x, w ≠ [x] → x ∈ ['(', '[', '.'] → (w ++ rest).head? ≠ some x := by
      intro x hx hm he
      rw [head_app (charText_length h)] at he
      cases h with
      | plain h => simp at he; subst he; exact hx rfl
      | unicode => simp at he; subst he; simp at hm
      | _ => simp at he; subst he; simp at hm
    have a1 : bootRegexGroup (bootRegexSeq d) (w ++ rest) = none := by simp [bootRegexGroup, nomTag_one (hne '(' h1 (by simp)), bind, Option.bind]
    have a2 : bootCharSet (w ++ rest) = none := by simp [bootCharSet, nomTag_one (hne '[' h2 (by simp)), bind, Option.bind]
    have a3 : nomTag ['.'] (w ++ rest) = none := nomTag_one (hne '.' h3 (by simp))
    simp [bootRegexElement, nomAlt, nomMap, a1, a2, a3, bootChar_of_text h]
  | any =>
    intro d p rest hp hd
    cases hp
    simp [bootRegexElement, nomAlt, nomMap, bootRegexGroup, bootCharSet, nomTag, bind, Option.bind]
  | @set w xs h hc =>
    intro d p rest hp hd
    cases hp
    have a1 : bootRegexGroup (bootRegexSeq d) ('[' :: w ++ [']'] ++ rest) = none := by simp [bootRegexGroup, nomTag, bind, Option.bind]
    simp only [bootRegexElement, nomAlt, a1, set_reads h (hc rfl)]
  | @negated w xs h =>
    intro d p rest hp hd
    cases hp
    have a1 : bootRegexGroup (bootRegexSeq d) ('[' :: '^' :: w ++ [']'] ++ rest) = none := by simp [bootRegexGroup, nomTag, bind, Option.bind]
    simp only [bootRegexElement, nomAlt, a1, negated_reads h]
  | group _ ih =>
    intro d p rest hp hd
    cases hp
    exact regexGroup_reads ih (by simp at hd; omega) rest
  | @choice w ps _ hl ih =>
    intro d p rest hp hd
    cases hp
    have := regexGroup_reads ih (d := d) (by simp at hd; omega) rest
    match ps, hl with
    | a :: b :: ps, _ => exact this
  | once _ ih =>
    intro d p rest hp hd hr
    cases hp
    simp only [bootRegexRepetition, bind, Option.bind, ih d _ rest rfl hd, repKind_none hr]
  | zeroOrMore _ ih =>
    intro d p rest hp hd hr
    cases hp
    simp only [bootRegexRepetition, bind, Option.bind, List.append_assoc, List.cons_append, List.nil_append, ih d _ ('*' :: rest) rfl (by simp at hd; omega), repKind_star]
  | oneOrMore _ ih =>
    intro d p rest hp hd hr
    cases hp
    simp only [bootRegexRepetition, bind, Option.bind, List.append_assoc, List.cons_append, List.nil_append, ih d _ ('+' :: rest) rfl (by simp at hd; omega), repKind_plus]
  | optional _ ih =>
    intro d p rest hp hd hr
    cases hp
    simp only [bootRegexRepetition, bind, Option.bind, List.append_assoc, List.cons_append, List.nil_append, ih d _ ('?' :: rest) rfl (by simp at hd; omega), repKind_opt]
  | @last w p h ih =>
    refine ⟨by simp, fun d hd => ?_⟩
    have : ReadsMany (bootRegexRepetition (bootRegexSeq d)) RegexStop (w ++ []) [p] :=
      .cons (List.ne_nil_of_length_pos (regexText_start h).pos) (fun rest hr => ih d p _ rfl hd hr.noRep) .nil
    rwa [List.append_nil] at this
  | @more w v p ps h h' ih ih' =>
    refine ⟨by simp, fun d hd => ?_⟩
    rw [List.length_append] at hd
    exact .cons (List.ne_nil_of_length_pos (regexText_start h).pos) (fun rest hr => ih d p _ rfl (by omega) ((regexText_start h').noRep rest)) (ih'.2 d (by omega))
  | lastChoice _ ih =>
    intro d hd
    exact .one fun rest hr => regexSeq_reads ih hd ⟨')', hr, by simp⟩
  | @moreChoices w v ps qs _ _ ih ih' =>
    intro d hd
    rw [List.length_append, List.length_cons] at hd
    have := ReadsSep.more (sep := nomTag ['|']) (p := bootRegexSeq d) (stop := fun rest => rest.head? = some ')') (w := w) (s := ['|']) (v := v) (a := .sequence ps) (by simp)
      (fun rest hr => ⟨regexSeq_reads ih (by omega) ⟨'|', rfl, by simp⟩, (), nomTag_cons _ _⟩) (ih' d (by omega))
    simpa using this

/-- a regular expression is read as it should be -/
theorem bootRegexPattern_reads {w : List Char} {ps : List Pattern} (h : RegexText true .sequence w ps) (rest : List Char) :
    bootRegexPattern ('/' :: w ++ ['/'] ++ rest) = some (.pattern (.sequence ps), rest) := by
  have h1 := regexSeq_reads (regexText_reads h) (d := (w ++ '/' :: rest).length + 1) (by simp; omega) (rest := '/' :: rest) ⟨'/', rfl, by simp⟩
  simp only [bootRegexPattern, List.cons_append, List.append_assoc, List.nil_append, bind, Option.bind, nomTag_cons, bootRegexSequence, h1]

/-! what is accepted -/

theorem separated_alternatives {w : List Char} {qs : List Pattern} (h : Separated (fun s => s = ['|']) (fun w p => ∃ ps, p = .sequence ps ∧ RegexText false .sequence w ps) w qs) :
    RegexText false .alternatives w qs := by
  induction h with
  | one h => obtain ⟨ps, rfl, h⟩ := h; exact .lastChoice h
  | more h hs _ ih => obtain ⟨ps, rfl, h⟩ := h; subst hs; simpa using RegexText.moreChoices h ih

theorem regexRep_of_seq {d : Nat} (ih : ∀ (i rest : List Char) (p : Pattern), bootRegexSeq d i = some (p, rest) → ∃ w ps, i = w ++ rest ∧ p = .sequence ps ∧ RegexText false .sequence w ps) :
    ∀ i p rest, bootRegexRepetition (bootRegexSeq d) i = some (p, rest) → ∃ w, i = w ++ rest ∧ RegexText false .repetition w [p] := by
  have helem : ∀ i p rest, bootRegexElement (bootRegexSeq d) i = some (p, rest) → ∃ w, i = w ++ rest ∧ RegexText false .element w [p] := by
    intro i p rest h
    simp only [bootRegexElement, nomAlt] at h
    split at h
    · rename_i r hr
      cases h
      unfold bootRegexGroup at hr
      obtain ⟨⟨_, i1⟩, h1, h'⟩ := option_bind_some.mp hr
      obtain ⟨⟨seqs, i2⟩, h2, h''⟩ := option_bind_some.mp h'
      obtain ⟨⟨_, i3⟩, h3, h⟩ := option_bind_some.mp h''
      clear h' h''
      have e1 := nomTag_some h1
      have e3 := nomTag_some h3
      obtain ⟨w, rfl, hw⟩ := sepList_some (S := fun s => s = ['|']) (R := fun w p => ∃ ps, p = .sequence ps ∧ RegexText false .sequence w ps)
        (fun i b rest h => ⟨['|'], nomTag_some h, rfl⟩) (fun i a rest h => by obtain ⟨w, ps, h1, h2, h3⟩ := ih _ _ _ h; exact ⟨w, h1, ps, h2, h3⟩) h2
      have ha := separated_alternatives hw
      subst e1 e3
      clear h1 h2 h3 hr
      simp only at h
      split at h
      · simp only [Option.some.injEq, Prod.mk.injEq] at h
        obtain ⟨rfl, rfl⟩ := h
        exact ⟨'(' :: w ++ [')'], by simp, .group ha⟩
      · rename_i hn
        simp only [Option.some.injEq, Prod.mk.injEq] at h
        obtain ⟨rfl, rfl⟩ := h
        refine ⟨'(' :: w ++ [')'], by simp, .choice ha ?_⟩
        match seqs, hn, ha with
        | [], _, ha => cases ha
        | [s], hn, _ => exact absurd rfl (hn s)
        | _ :: _ :: _, _, _ => simp
    · split at h
      · rename_i r hr
        cases h
        exact set_sound hr
      · split at h
        · rename_i r hr
          cases h
          simp only [nomMap, Option.map_eq_some_iff] at hr
          obtain ⟨⟨_, r⟩, h1, h2⟩ := hr
          cases h2
          exact ⟨['.'], nomTag_some h1, .any⟩
        · simp only [nomMap, Option.map_eq_some_iff] at h
          obtain ⟨⟨c, r⟩, h1, h2⟩ := h
          cases h2
          obtain ⟨w, rfl, hw⟩ := bootChar_text h1
          exact ⟨w, rfl, .char hw (by simp)⟩
  intro i p rest h
  unfold bootRegexRepetition at h
  obtain ⟨⟨inner, i1⟩, h1, h⟩ := option_bind_some.mp h
  obtain ⟨⟨k, i2⟩, h2, h⟩ := option_bind_some.mp h
  cases h
  obtain ⟨w, rfl, hw⟩ := helem _ _ _ h1
  rcases repKind_sound h2 with ⟨rfl, rfl⟩ | ⟨rfl, rfl⟩ | ⟨rfl, rfl⟩ | ⟨rfl, rfl⟩
  · exact ⟨w, rfl, .once hw⟩
  · exact ⟨w ++ ['*'], by simp, .zeroOrMore hw⟩
  · exact ⟨w ++ ['+'], by simp, .oneOrMore hw⟩
  · exact ⟨w ++ ['?'], by simp, .optional hw⟩

theorem regexSeq_sound : ∀ (d : Nat) (i rest : List Char) (p : Pattern), bootRegexSeq d i = some (p, rest) →
    ∃ w ps, i = w ++ rest ∧ p = .sequence ps ∧ RegexText false .sequence w ps := by
  intro d
  induction d with
  | zero => intro i rest p h; simp [bootRegexSeq] at h
  | succ d ih =>
    intro i rest p h
    simp only [bootRegexSeq, nomMap, Option.map_eq_some_iff] at h
    obtain ⟨⟨ps, r⟩, h1, h2⟩ := h
    cases h2
    have hrep := regexRep_of_seq ih
    obtain ⟨ws, hne, rfl, hws⟩ := many1_some hrep h1
    refine ⟨ws.flatten, ps, rfl, rfl, ?_⟩
    clear h1
    induction hws with
    | nil => exact absurd rfl hne
    | @cons w x ws xs h1 h2 ih =>
      cases h2 with
      | nil => simpa using RegexText.last h1
      | cons h3 h4 => exact .more h1 (ih (by simp))

theorem regexRep_sound (d : Nat) (i rest : List Char) (p : Pattern) (h : bootRegexRepetition (bootRegexSeq d) i = some (p, rest)) : ∃ w, i = w ++ rest ∧ RegexText false .repetition w [p] :=
  regexRep_of_seq (regexSeq_sound d) i p rest h

end Verif
