import Verif.Model.CppLexer

/-! # The branchless UTF-8 decoder -/

set_option autoImplicit false

namespace Verif

theorem or_shift {a b k : Nat} (h : b < 2 ^ k) : a <<< k ||| b = a * 2 ^ k + b := by
  rw [Nat.shiftLeft_eq, Nat.mul_comm, Nat.two_pow_add_eq_or_of_lt h]

theorem and63 (s : Nat) : s &&& 0x3f = s % 64 := Nat.and_two_pow_sub_one_eq_mod s 6

theorem utf8Value_eq (len s0 s1 s2 s3 : Nat) :
    utf8Value len s0 s1 s2 s3 =
      ((s0 &&& utf8Masks.getD len 0) * 262144 + (s1 % 64) * 4096 + (s2 % 64) * 64 + s3 % 64) / 2 ^ utf8Shiftc.getD len 0 := by
  unfold utf8Value
  rw [Nat.shiftRight_eq_div_pow, and63, and63, and63]
  congr 1
  have h3 : s3 % 64 < 64 := Nat.mod_lt _ (by omega)
  have h2 : s2 % 64 < 64 := Nat.mod_lt _ (by omega)
  have h1 : s1 % 64 < 64 := Nat.mod_lt _ (by omega)
  rw [Nat.shiftLeft_zero, Nat.or_assoc, Nat.or_assoc]
  have e1 : (s2 % 64) <<< 6 ||| s3 % 64 = (s2 % 64) * 64 + s3 % 64 := or_shift h3
  rw [e1]
  have e2 : (s1 % 64) <<< 12 ||| ((s2 % 64) * 64 + s3 % 64) = (s1 % 64) * 4096 + ((s2 % 64) * 64 + s3 % 64) := or_shift (by omega)
  rw [e2]
  generalize s0 &&& utf8Masks.getD len 0 = x
  have e3 : x <<< 18 ||| ((s1 % 64) * 4096 + ((s2 % 64) * 64 + s3 % 64)) = x * 262144 + ((s1 % 64) * 4096 + ((s2 % 64) * 64 + s3 % 64)) :=
    or_shift (by omega)
  rw [e3]
  omega

set_option maxRecDepth 4000 in
theorem and_c0 : ∀ s : Fin 256, (s.val &&& 0xc0) >>> 2 = s.val / 64 * 16 ∧ (s.val &&& 0xc0) >>> 4 = s.val / 64 * 4 := by decide

theorem err_table : ∀ a b c : Fin 4, ∀ x y z : Fin 2,
    ((((((x.val <<< 6 ||| y.val <<< 7) ||| z.val <<< 8) ||| a.val * 16) ||| b.val * 4) ||| c.val) ^^^ 0x2a) =
      (z.val * 4 + y.val * 2 + x.val) * 64 + ((a.val * 16 + b.val * 4 + c.val) ^^^ 0x2a) := by decide

theorem err_zero : ∀ a b c : Fin 4,
    ((a.val * 16 + b.val * 4 + c.val) ^^^ 0x2a < 64) ∧
    (((a.val * 16 + b.val * 4 + c.val) ^^^ 0x2a) / 1 = 0 ↔ a.val = 2 ∧ b.val = 2 ∧ c.val = 2) ∧
    (((a.val * 16 + b.val * 4 + c.val) ^^^ 0x2a) / 4 = 0 ↔ a.val = 2 ∧ b.val = 2) ∧
    (((a.val * 16 + b.val * 4 + c.val) ^^^ 0x2a) / 16 = 0 ↔ a.val = 2) := by decide

theorem utf8Error_eq_zero {len c s1 s2 s3 : Nat} (hl : len ≤ 4) (h1 : s1 < 256) (h2 : s2 < 256) (h3 : s3 < 256) :
    utf8Error len c s1 s2 s3 = 0 ↔ utf8Mins.getD len 0 ≤ c ∧ ¬ (0xD800 ≤ c ∧ c ≤ 0xDFFF) ∧ c ≤ 0x10FFFF ∧
      (len = 2 → s1 / 64 = 2) ∧ (len = 3 → s1 / 64 = 2 ∧ s2 / 64 = 2) ∧
      ((len = 4 ∨ len = 0) → s1 / 64 = 2 ∧ s2 / 64 = 2 ∧ s3 / 64 = 2) := by
  unfold utf8Error
  simp only
  rw [(and_c0 ⟨s1, h1⟩).1, (and_c0 ⟨s2, h2⟩).2, Nat.shiftRight_eq_div_pow s3 6, Nat.shiftRight_eq_div_pow c 11]
  have ha : s1 / 64 < 4 := by omega
  have hb : s2 / 64 < 4 := by omega
  have hc : s3 / 64 < 4 := by omega
  have surr : (c / 2 ^ 11 = 0x1b) ↔ (0xD800 ≤ c ∧ c ≤ 0xDFFF) := by
    have : (2:Nat) ^ 11 = 2048 := rfl
    omega
  obtain ⟨x, hx⟩ : ∃ x : Fin 2, (if c < utf8Mins.getD len 0 then 1 else 0) = x.val ∧ (x.val = 0 ↔ utf8Mins.getD len 0 ≤ c) := by
    generalize utf8Mins.getD len 0 = k
    split
    · exact ⟨1, rfl, by simp; omega⟩
    · exact ⟨0, rfl, by simp; omega⟩
  obtain ⟨y, hy⟩ : ∃ y : Fin 2, (if c / 2 ^ 11 = 0x1b then 1 else 0) = y.val ∧ (y.val = 0 ↔ ¬ (0xD800 ≤ c ∧ c ≤ 0xDFFF)) := by
    rw [← surr]
    split
    · rename_i h; exact ⟨1, rfl, by simp [h]⟩
    · rename_i h; exact ⟨0, rfl, by simp [h]⟩
  obtain ⟨z, hz⟩ : ∃ z : Fin 2, (if c > 0x10FFFF then 1 else 0) = z.val ∧ (z.val = 0 ↔ c ≤ 0x10FFFF) := by
    split
    · exact ⟨1, rfl, by simp; omega⟩
    · exact ⟨0, rfl, by simp; omega⟩
  rw [hx.1, hy.1, hz.1]
  have e := err_table ⟨s1 / 64, ha⟩ ⟨s2 / 64, hb⟩ ⟨s3 / 64, hc⟩ x y z
  simp only at e
  have e6 : (2 : Nat) ^ 6 = 64 := rfl
  rw [e6, e, Nat.shiftRight_eq_div_pow]
  obtain ⟨k1, k2, k3, k4⟩ := err_zero ⟨s1 / 64, ha⟩ ⟨s2 / 64, hb⟩ ⟨s3 / 64, hc⟩
  simp only at k1 k2 k3 k4
  generalize (s1 / 64 * 16 + s2 / 64 * 4 + s3 / 64) ^^^ 42 = X at *
  rw [← hx.2, ← hy.2, ← hz.2]
  have hx2 := x.isLt
  have hy2 := y.isLt
  have hz2 := z.isLt
  generalize x.val = x at *
  generalize y.val = y at *
  generalize z.val = z at *
  match len, hl with
  | 0, _ => simp [utf8Shifte] at *; omega
  | 1, _ => simp [utf8Shifte] at *; omega
  | 2, _ => simp [utf8Shifte] at *; omega
  | 3, _ => simp [utf8Shifte] at *; omega
  | 4, _ => simp [utf8Shifte] at *; omega

set_option maxRecDepth 8000 in
/-- the length table by leading byte -/
theorem lengths_table : ∀ s : Fin 256, utf8Lengths.getD (s.val >>> 3) 0 =
    if s.val < 128 then 1 else if s.val < 192 then 0 else if s.val < 224 then 2 else if s.val < 240 then 3 else if s.val < 248 then 4 else 0 := by
  decide

set_option maxRecDepth 8000 in
theorem masks_table : ∀ s : Fin 256, (s.val &&& 0x7f = s.val % 128) ∧ (s.val &&& 0x1f = s.val % 32) ∧ (s.val &&& 0x0f = s.val % 16) ∧
    (s.val &&& 0x07 = s.val % 8) := by decide

theorem utf8Decode_nil : utf8Decode [] = (0, 0, []) := by decide

/-- the four buffer bytes after reading a char of length `len` -/
theorem utf8Decode_cons (b : UInt8) (r : List UInt8) :
    ∃ len s1 s2 s3, len = utf8Lengths.getD (b.toNat >>> 3) 0 ∧
      (s1 = if len > 1 then bufAt r 0 else 0) ∧ (s2 = if len > 2 then bufAt r 1 else 0) ∧ (s3 = if len > 3 then bufAt r 2 else 0) ∧
      utf8Decode (b :: r) = (utf8Value len b.toNat s1 s2 s3, utf8Error len (utf8Value len b.toNat s1 s2 s3) s1 s2 s3, r.drop (len - 1)) := by
  have hlen : utf8Lengths.getD (b.toNat >>> 3) 0 ≤ 4 := by
    have := lengths_table ⟨b.toNat, b.toNat_lt⟩
    simp only at this
    rw [this]
    split <;> (try split) <;> (try split) <;> (try split) <;> (try split) <;> omega
  generalize hl : utf8Lengths.getD (b.toNat >>> 3) 0 = len at hlen
  have hb : bufAt ([b] : List UInt8) 0 = b.toNat := rfl
  have key : ∀ n, (if len > 1 then len - 1 else 0) = n →
      bufAt ([b] ++ r.take n) 1 = (if len > 1 then bufAt r 0 else 0) ∧
      bufAt ([b] ++ r.take n) 2 = (if len > 2 then bufAt r 1 else 0) ∧
      bufAt ([b] ++ r.take n) 3 = (if len > 3 then bufAt r 2 else 0) := by
    intro n hn
    simp only [bufAt, List.singleton_append, List.getElem?_cons_succ, List.getElem?_take]
    refine ⟨?_, ?_, ?_⟩
    · by_cases h : len > 1
      · have : 0 < n := by rw [← hn, if_pos (by omega)]; omega
        simp [h, this]
      · have : ¬ 0 < n := by rw [← hn]; split <;> omega
        simp [h, this]
    · by_cases h : len > 2
      · have : 1 < n := by rw [← hn, if_pos (by omega)]; omega
        simp [h, this]
      · have : ¬ 1 < n := by rw [← hn]; split <;> omega
        simp [h, this]
    · by_cases h : len > 3
      · have : 2 < n := by rw [← hn, if_pos (by omega)]; omega
        simp [h, this]
      · have : ¬ 2 < n := by rw [← hn]; split <;> omega
        simp [h, this]
  obtain ⟨k1, k2, k3⟩ := key _ rfl
  refine ⟨len, _, _, _, rfl, rfl, rfl, rfl, ?_⟩
  unfold utf8Decode
  simp only [List.take_succ_cons, List.take_zero, List.drop_succ_cons, List.drop_zero, hb, hl, k1, k2, k3]
  congr 2
  split
  · rfl
  · have : len - 1 = 0 := by omega
    rw [this]

theorem bufAt_lt (r : List UInt8) (i : Nat) : bufAt r i < 256 := by
  unfold bufAt
  cases h : r[i]? with
  | none => simp
  | some b => simpa using b.toNat_lt

theorem byte_eq {b : UInt8} {n : Nat} (h : b.toNat = n) : b = UInt8.ofNat n := by
  rw [← h]; simp

theorem charNat (c : Char) : c.val.toNat = c.toNat := rfl

/-- decoding an encoded char -/
theorem decode_encode (c : Char) (rest : List UInt8) : utf8Decode (String.utf8EncodeChar c ++ rest) = (c.toNat, 0, rest) := by
  have hv : c.toNat < 0xD800 ∨ (0xDFFF < c.toNat ∧ c.toNat < 0x110000) := c.valid
  unfold String.utf8EncodeChar
  simp only [charNat]
  have nb : ∀ n, n < 256 → (UInt8.ofNat n).toNat = n := fun n hn => by rw [UInt8.toNat_ofNat']; exact Nat.mod_eq_of_lt hn
  generalize c.toNat = v at *
  split
  · obtain ⟨len, s1, s2, s3, h0, h1, h2, h3, h4⟩ := utf8Decode_cons (UInt8.ofNat v) rest
    rw [nb v (by omega)] at h0 h4
    have hlt := lengths_table ⟨v, by omega⟩
    have hm := masks_table ⟨v, by omega⟩
    simp only at hlt hm
    rw [hlt, if_pos (by omega)] at h0
    subst h0
    simp only [Nat.lt_irrefl, gt_iff_lt, if_false, show ¬ (2 < 1) by omega, show ¬ (3 < 1) by omega] at h1 h2 h3
    subst h1; subst h2; subst h3
    have hval : utf8Value 1 v 0 0 0 = v := by
      rw [utf8Value_eq]
      simp only [utf8Masks, utf8Shiftc, List.getD_cons_succ, List.getD_cons_zero, hm.1]
      omega
    rw [hval] at h4
    have he : utf8Error 1 v 0 0 0 = 0 := by
      rw [utf8Error_eq_zero (by omega) (by omega) (by omega) (by omega)]
      simp only [utf8Mins, List.getD_cons_succ, List.getD_cons_zero]
      omega
    rw [he] at h4
    exact h4
  · split
    · obtain ⟨len, s1, s2, s3, h0, h1, h2, h3, h4⟩ := utf8Decode_cons (UInt8.ofNat (v / 64 % 0x20 + 0xc0)) ([UInt8.ofNat (v % 0x40 + 0x80)] ++ rest)
      rw [nb _ (by omega)] at h0 h4
      have hlt := lengths_table ⟨v / 64 % 0x20 + 0xc0, by omega⟩
      have hm := masks_table ⟨v / 64 % 0x20 + 0xc0, by omega⟩
      simp only at hlt hm
      rw [hlt, if_neg (by omega), if_neg (by omega), if_pos (by omega)] at h0
      subst h0
      have b0 : bufAt ([UInt8.ofNat (v % 0x40 + 0x80)] ++ rest) 0 = v % 0x40 + 0x80 := nb _ (by omega)
      simp only [gt_iff_lt, Nat.lt_irrefl, if_false, show (1 < 2) by omega, if_true, show ¬ (3 < 2) by omega, b0] at h1 h2 h3
      subst h1; subst h2; subst h3
      have hval : utf8Value 2 (v / 64 % 0x20 + 0xc0) (v % 0x40 + 0x80) 0 0 = v := by
        rw [utf8Value_eq]
        simp only [utf8Masks, utf8Shiftc, List.getD_cons_succ, List.getD_cons_zero, hm.2.1]
        omega
      rw [hval] at h4
      have he : utf8Error 2 v (v % 0x40 + 0x80) 0 0 = 0 := by
        rw [utf8Error_eq_zero (by omega) (by omega) (by omega) (by omega)]
        simp only [utf8Mins, List.getD_cons_succ, List.getD_cons_zero]
        omega
      rw [he] at h4
      exact h4
    · split
      · obtain ⟨len, s1, s2, s3, h0, h1, h2, h3, h4⟩ := utf8Decode_cons (UInt8.ofNat (v / 4096 % 0x10 + 0xe0))
          ([UInt8.ofNat (v / 64 % 0x40 + 0x80), UInt8.ofNat (v % 0x40 + 0x80)] ++ rest)
        rw [nb _ (by omega)] at h0 h4
        have hlt := lengths_table ⟨v / 4096 % 0x10 + 0xe0, by omega⟩
        have hm := masks_table ⟨v / 4096 % 0x10 + 0xe0, by omega⟩
        simp only at hlt hm
        rw [hlt, if_neg (by omega), if_neg (by omega), if_neg (by omega), if_pos (by omega)] at h0
        subst h0
        have b0 : bufAt ([UInt8.ofNat (v / 64 % 0x40 + 0x80), UInt8.ofNat (v % 0x40 + 0x80)] ++ rest) 0 = v / 64 % 0x40 + 0x80 := nb _ (by omega)
        have b1 : bufAt ([UInt8.ofNat (v / 64 % 0x40 + 0x80), UInt8.ofNat (v % 0x40 + 0x80)] ++ rest) 1 = v % 0x40 + 0x80 := nb _ (by omega)
        simp only [gt_iff_lt, Nat.lt_irrefl, if_false, show (1 < 3) by omega, if_true, show (2 < 3) by omega, b0, b1] at h1 h2 h3
        subst h1; subst h2; subst h3
        have hval : utf8Value 3 (v / 4096 % 0x10 + 0xe0) (v / 64 % 0x40 + 0x80) (v % 0x40 + 0x80) 0 = v := by
          rw [utf8Value_eq]
          simp only [utf8Masks, utf8Shiftc, List.getD_cons_succ, List.getD_cons_zero, hm.2.2.1]
          omega
        rw [hval] at h4
        have he : utf8Error 3 v (v / 64 % 0x40 + 0x80) (v % 0x40 + 0x80) 0 = 0 := by
          rw [utf8Error_eq_zero (by omega) (by omega) (by omega) (by omega)]
          simp only [utf8Mins, List.getD_cons_succ, List.getD_cons_zero]
          omega
        rw [he] at h4
        exact h4
      · obtain ⟨len, s1, s2, s3, h0, h1, h2, h3, h4⟩ := utf8Decode_cons (UInt8.ofNat (v / 262144 % 0x08 + 0xf0))
          ([UInt8.ofNat (v / 4096 % 0x40 + 0x80), UInt8.ofNat (v / 64 % 0x40 + 0x80), UInt8.ofNat (v % 0x40 + 0x80)] ++ rest)
        rw [nb _ (by omega)] at h0 h4
        have hlt := lengths_table ⟨v / 262144 % 0x08 + 0xf0, by omega⟩
        have hm := masks_table ⟨v / 262144 % 0x08 + 0xf0, by omega⟩
        simp only at hlt hm
        rw [hlt, if_neg (by omega), if_neg (by omega), if_neg (by omega), if_neg (by omega), if_pos (by omega)] at h0
        subst h0
        have b0 : bufAt ([UInt8.ofNat (v / 4096 % 0x40 + 0x80), UInt8.ofNat (v / 64 % 0x40 + 0x80), UInt8.ofNat (v % 0x40 + 0x80)] ++ rest) 0 = v / 4096 % 0x40 + 0x80 := nb _ (by omega)
        have b1 : bufAt ([UInt8.ofNat (v / 4096 % 0x40 + 0x80), UInt8.ofNat (v / 64 % 0x40 + 0x80), UInt8.ofNat (v % 0x40 + 0x80)] ++ rest) 1 = v / 64 % 0x40 + 0x80 := nb _ (by omega)
        have b2 : bufAt ([UInt8.ofNat (v / 4096 % 0x40 + 0x80), UInt8.ofNat (v / 64 % 0x40 + 0x80), UInt8.ofNat (v % 0x40 + 0x80)] ++ rest) 2 = v % 0x40 + 0x80 := nb _ (by omega)
        simp only [gt_iff_lt, show (1 < 4) by omega, if_true, show (2 < 4) by omega, show (3 < 4) by omega, b0, b1, b2] at h1 h2 h3
        subst h1; subst h2; subst h3
        have hval : utf8Value 4 (v / 262144 % 0x08 + 0xf0) (v / 4096 % 0x40 + 0x80) (v / 64 % 0x40 + 0x80) (v % 0x40 + 0x80) = v := by
          rw [utf8Value_eq]
          simp only [utf8Masks, utf8Shiftc, List.getD_cons_succ, List.getD_cons_zero, hm.2.2.2]
          omega
        rw [hval] at h4
        have he : utf8Error 4 v (v / 4096 % 0x40 + 0x80) (v / 64 % 0x40 + 0x80) (v % 0x40 + 0x80) = 0 := by
          rw [utf8Error_eq_zero (by omega) (by omega) (by omega) (by omega)]
          simp only [utf8Mins, List.getD_cons_succ, List.getD_cons_zero]
          omega
        rw [he] at h4
        exact h4

theorem bufAt_some {r : List UInt8} {i : Nat} (h : bufAt r i ≠ 0) : ∃ b, r[i]? = some b ∧ b.toNat = bufAt r i := by
  unfold bufAt at h ⊢
  cases hb : r[i]? with
  | none => rw [hb] at h; simp at h
  | some b => exact ⟨b, rfl, by simp⟩

theorem drop_of_get {r : List UInt8} {i : Nat} {b : UInt8} (h : r[i]? = some b) : r.drop i = b :: r.drop (i + 1) := by
  obtain ⟨hlt, rfl⟩ := List.getElem?_eq_some_iff.mp h
  exact List.drop_eq_getElem_cons hlt

theorem char_exists {v : Nat} (h : v.isValidChar) : ∃ c : Char, c.toNat = v := by
  exact ⟨Char.ofNatAux v h, rfl⟩

/-- what is decoded without error is the encoding of a char -/
theorem decode_sound {input rest : List UInt8} {v : Nat} (h : utf8Decode input = (v, 0, rest)) (hne : input ≠ []) :
    ∃ c : Char, c.toNat = v ∧ input = String.utf8EncodeChar c ++ rest := by
  cases input with
  | nil => exact absurd rfl hne
  | cons b r =>
    obtain ⟨len, s1, s2, s3, h0, h1, h2, h3, h4⟩ := utf8Decode_cons b r
    rw [h] at h4
    simp only [Prod.mk.injEq] at h4
    obtain ⟨hv, he, hr⟩ := h4
    have hb := b.toNat_lt
    have hlt := lengths_table ⟨b.toNat, hb⟩
    have hm := masks_table ⟨b.toNat, hb⟩
    simp only at hlt hm
    rw [hlt] at h0
    rw [← hv] at he
    have hs : s1 < 256 ∧ s2 < 256 ∧ s3 < 256 := by
      have a0 := bufAt_lt r 0
      have a1 := bufAt_lt r 1
      have a2 := bufAt_lt r 2
      refine ⟨?_, ?_, ?_⟩
      · rw [h1]; split <;> omega
      · rw [h2]; split <;> omega
      · rw [h3]; split <;> omega
    have hl4 : len ≤ 4 := by
      rw [h0]
      split <;> (try split) <;> (try split) <;> (try split) <;> (try split) <;> omega
    have he := (utf8Error_eq_zero hl4 hs.1 hs.2.1 hs.2.2).mp he.symm
    obtain ⟨e1, e2, e3, e4, e5, e6⟩ := he
    have hvalid : v.isValidChar := by
      unfold Nat.isValidChar
      omega
    obtain ⟨c, hcv⟩ : ∃ c : Char, c.toNat = v := char_exists hvalid
    refine ⟨c, hcv, ?_⟩
    unfold String.utf8EncodeChar
    simp only [charNat, hcv]
    rw [utf8Value_eq] at hv
    have hcases : len = 0 ∨ len = 1 ∨ len = 2 ∨ len = 3 ∨ len = 4 := by omega
    rcases hcases with rfl | rfl | rfl | rfl | rfl
    · simp only [utf8Mins, List.getD_cons_zero] at e1
      omega
    · simp only [utf8Masks, utf8Shiftc, List.getD_cons_succ, List.getD_cons_zero, hm.1] at hv
      have hb' : b.toNat < 128 := by
        by_contra hc
        rw [if_neg hc] at h0
        split at h0 <;> (try split at h0) <;> (try split at h0) <;> (try split at h0) <;> omega
      have : v = b.toNat := by omega
      rw [if_pos (by omega), hr, this]
      simp
    · simp only [utf8Masks, utf8Shiftc, utf8Mins, List.getD_cons_succ, List.getD_cons_zero, hm.2.1] at hv e1
      have hb' : 192 ≤ b.toNat ∧ b.toNat < 224 := by
        split at h0 <;> (try split at h0) <;> (try split at h0) <;> (try split at h0) <;> (try split at h0) <;> omega
      rw [if_pos (by omega)] at h1
      have c1 := e4 rfl
      obtain ⟨b1, g1, g2⟩ := bufAt_some (r := r) (i := 0) (by rw [← h1]; omega)
      have hr1 := drop_of_get g1
      rw [List.drop_zero] at hr1
      rw [if_neg (by omega), if_pos (by omega), hr]
      have x0 : b = UInt8.ofNat (v / 64 % 0x20 + 0xc0) := byte_eq (by omega)
      have x1 : b1 = UInt8.ofNat (v % 0x40 + 0x80) := byte_eq (by omega)
      rw [← x0, ← x1]
      show b :: r = b :: b1 :: r.drop 1
      rw [← hr1]
    · simp only [utf8Masks, utf8Shiftc, utf8Mins, List.getD_cons_succ, List.getD_cons_zero, hm.2.2.1] at hv e1
      have hb' : 224 ≤ b.toNat ∧ b.toNat < 240 := by
        split at h0 <;> (try split at h0) <;> (try split at h0) <;> (try split at h0) <;> (try split at h0) <;> omega
      rw [if_pos (by omega)] at h1 h2
      obtain ⟨c1, c2⟩ := e5 rfl
      obtain ⟨b1, g1, g2⟩ := bufAt_some (r := r) (i := 0) (by rw [← h1]; omega)
      obtain ⟨b2, g3, g4⟩ := bufAt_some (r := r) (i := 1) (by rw [← h2]; omega)
      have hr1 := drop_of_get g1
      rw [List.drop_zero] at hr1
      have hr2 := drop_of_get g3
      rw [if_neg (by omega), if_neg (by omega), if_pos (by omega), hr]
      have x0 : b = UInt8.ofNat (v / 4096 % 0x10 + 0xe0) := byte_eq (by omega)
      have x1 : b1 = UInt8.ofNat (v / 64 % 0x40 + 0x80) := byte_eq (by omega)
      have x2 : b2 = UInt8.ofNat (v % 0x40 + 0x80) := byte_eq (by omega)
      rw [← x0, ← x1, ← x2]
      show b :: r = b :: b1 :: b2 :: r.drop 2
      rw [← hr2, ← hr1]
    · simp only [utf8Masks, utf8Shiftc, utf8Mins, List.getD_cons_succ, List.getD_cons_zero, hm.2.2.2] at hv e1
      have hb' : 240 ≤ b.toNat ∧ b.toNat < 248 := by
        split at h0 <;> (try split at h0) <;> (try split at h0) <;> (try split at h0) <;> (try split at h0) <;> omega
      rw [if_pos (by omega)] at h1 h2 h3
      obtain ⟨c1, c2, c3⟩ := e6 (Or.inl rfl)
      obtain ⟨b1, g1, g2⟩ := bufAt_some (r := r) (i := 0) (by rw [← h1]; omega)
      obtain ⟨b2, g3, g4⟩ := bufAt_some (r := r) (i := 1) (by rw [← h2]; omega)
      obtain ⟨b3, g5, g6⟩ := bufAt_some (r := r) (i := 2) (by rw [← h3]; omega)
      have hr1 := drop_of_get g1
      rw [List.drop_zero] at hr1
      have hr2 := drop_of_get g3
      have hr3 := drop_of_get g5
      rw [if_neg (by omega), if_neg (by omega), if_neg (by omega), hr]
      have x0 : b = UInt8.ofNat (v / 262144 % 0x08 + 0xf0) := byte_eq (by omega)
      have x1 : b1 = UInt8.ofNat (v / 4096 % 0x40 + 0x80) := byte_eq (by omega)
      have x2 : b2 = UInt8.ofNat (v / 64 % 0x40 + 0x80) := byte_eq (by omega)
      have x3 : b3 = UInt8.ofNat (v % 0x40 + 0x80) := byte_eq (by omega)
      rw [← x0, ← x1, ← x2, ← x3]
      show b :: r = b :: b1 :: b2 :: b3 :: r.drop 3
      rw [← hr3, ← hr2, ← hr1]

end Verif
