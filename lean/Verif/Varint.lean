import Verif.Basic

/-!
# Variable length integers — src/varint.rs

`VarInt64(u64)` is represented by the number. First the computations of the
code, then an independent description of the format, then their equality.
-/

namespace Verif

/-! ## Transcription of the code -/

/-- `leading_zeros` of a `w`-bit number. -/
def leadingZeros (w v : Nat) : Nat := if v = 0 then w else w - 1 - Nat.log2 v

/-- `u64::to_le` (identity on little-endian hosts, `swap_bytes` on others). -/
def toLe (h : Host) (v : Nat) : Nat :=
  match h.native with
  | .little => v
  | .big => swapBytes 8 v

/-- `(!first_byte).leading_zeros()` — src/varint.rs:109. -/
def viLength (first : UInt8) : Nat := leadingZeros 8 (255 - first.toNat)

/-- `upper_mask`, `upper_bits` — src/varint.rs:111-112.  `wrapping_shl` takes
the shift amount modulo 64 and drops high bits. -/
def viUpper (first : UInt8) (length : Nat) : Nat :=
  let upperMask := 255 >>> length
  ((upperMask &&& first.toNat) <<< (length * 8 % 64)) % 2 ^ 64

/-- The value assembled from the bytes after the first one: they are stored
at the lowest addresses of a zeroed `u64`, then `to_le`, then `upper_bits |
value` — src/varint.rs:114-124. -/
def viCombine (h : Host) (first : UInt8) (rest : Bytes) : Nat :=
  viUpper first (viLength first) |||
    toLe h (h.native.num (rest ++ List.replicate (8 - rest.length) 0))

/-- `get_length` — src/varint.rs:188-193. -/
def getLength (lz : Nat) : Nat :=
  let bits := 64 - lz
  let x := bits >>> 3
  ((x + bits) ^^^ x) >>> 3

/-- Number of bytes after the first one: `get_length(value.leading_zeros())`. -/
def viExtra (v : Nat) : Nat := getLength (leadingZeros 64 v)

/-- The first byte written — src/varint.rs:213-262. -/
def viFirst (v : Nat) : UInt8 :=
  match viExtra v with
  | 0 => UInt8.ofNat v
  | 1 => (0b10000000 : UInt8) ||| UInt8.ofNat (v >>> 8)
  | 2 => (0b11000000 : UInt8) ||| UInt8.ofNat (v >>> 16)
  | 3 => (0b11100000 : UInt8) ||| UInt8.ofNat (v >>> 24)
  | 4 => (0b11110000 : UInt8) ||| UInt8.ofNat (v >>> 32)
  | 5 => (0b11111000 : UInt8) ||| UInt8.ofNat (v >>> 40)
  | 6 => (0b11111100 : UInt8) ||| UInt8.ofNat (v >>> 48)
  | 7 => (0b11111110 : UInt8) ||| UInt8.ofNat (v >>> 56)
  | _ => 0b11111111

/-- The bytes written after the first one: the lowest addresses of
`value.to_le()` — src/varint.rs:215-262. -/
def viRest (h : Host) (v : Nat) : Bytes := (h.native.bytes 8 (toLe h v)).take (viExtra v)

/-- `From<i64> for VarInt64`, and for `i32`, `i16`, `i8` (`w` = 64, 32, 16, 8) —
src/varint.rs:59-89; arguments and results are two's complement bit patterns of
`w` bits.  `(value << 1) ^ (value >> (w - 1))`, the second shift being
arithmetic (sign extension). -/
def zigzag (w v : Nat) : Nat :=
  ((v <<< 1) % 2 ^ w) ^^^ (if v < 2 ^ (w - 1) then 0 else 2 ^ w - 1)

/-- `From<VarInt64> for i64` — src/varint.rs:98-104. -/
def unzigzag64 (v : Nat) : Nat := (v >>> 1) ^^^ ((v <<< 15) % 2 ^ 64)

/-! ## Specification of the format (src/varint.rs:11-25, in words) -/

/-- The number of extra bytes: the value has `7 + 7k` bits for `k` extra bytes,
except that eight extra bytes hold any value. -/
def specExtra (v : Nat) : Nat :=
  if v < 2 ^ 7 then 0 else if v < 2 ^ 14 then 1 else if v < 2 ^ 21 then 2
  else if v < 2 ^ 28 then 3 else if v < 2 ^ 35 then 4 else if v < 2 ^ 42 then 5
  else if v < 2 ^ 49 then 6 else if v < 2 ^ 56 then 7 else 8

/-- The encoding: the first byte has as many leading one bits as there are
extra bytes, a zero bit, and the highest bits of the value; the extra bytes
are the low bytes in little-endian order. -/
def specVarint (v : Nat) : Bytes :=
  let k := specExtra v
  if k = 8 then 255 :: leBytes 8 v
  else UInt8.ofNat (256 - 2 ^ (8 - k) + v / 256 ^ k) :: leBytes k v

/-- Number of leading one bits of a byte. -/
def leadingOnes (b : Nat) : Nat :=
  if b < 128 then 0 else if b < 192 then 1 else if b < 224 then 2 else if b < 240 then 3
  else if b < 248 then 4 else if b < 252 then 5 else if b < 254 then 6 else if b < 255 then 7 else 8

/-- The value of a first byte and the extra bytes. -/
def specVarintVal (first : UInt8) (rest : Bytes) : Nat :=
  let k := leadingOnes first.toNat
  if k = 8 then ofLe rest
  else (first.toNat - (256 - 2 ^ (8 - k))) * 256 ^ k + ofLe rest

/-! ## The code meets the specification -/

theorem Nat.bits_bound {v : Nat} (h : v < 2 ^ 64) :
    64 - leadingZeros 64 v ≤ 64 ∧ v < 2 ^ (64 - leadingZeros 64 v) ∧
    (0 < 64 - leadingZeros 64 v → 2 ^ (64 - leadingZeros 64 v - 1) ≤ v) := by
  unfold leadingZeros
  by_cases hv : v = 0
  · simp [hv]
  · simp only [hv, if_false]
    have h1 := Nat.log2_self_le hv
    have h2 := Nat.lt_log2_self (n := v)
    have h3 : Nat.log2 v < 64 := (Nat.log2_lt hv).mpr h
    have e : 64 - (64 - 1 - v.log2) = v.log2 + 1 := by omega
    rw [e]
    exact ⟨by omega, h2, fun _ => by simpa using h1⟩

theorem getLength_table : ∀ b, b ≤ 64 → getLength (64 - b) =
    (if b ≤ 7 then 0 else if b ≤ 14 then 1 else if b ≤ 21 then 2 else if b ≤ 28 then 3
     else if b ≤ 35 then 4 else if b ≤ 42 then 5 else if b ≤ 49 then 6 else if b ≤ 56 then 7 else 8) := by
  intro b hb
  have : ∀ b : Fin 65, getLength (64 - b.val) =
    (if b.val ≤ 7 then 0 else if b.val ≤ 14 then 1 else if b.val ≤ 21 then 2 else if b.val ≤ 28 then 3
     else if b.val ≤ 35 then 4 else if b.val ≤ 42 then 5 else if b.val ≤ 49 then 6 else if b.val ≤ 56 then 7 else 8) := by
    decide
  exact this ⟨b, by omega⟩

theorem bits_le_iff {v : Nat} (h : v < 2 ^ 64) (k : Nat) :
    64 - leadingZeros 64 v ≤ k ↔ v < 2 ^ k := by
  obtain ⟨h1, h2, h3⟩ := Nat.bits_bound h
  constructor
  · intro hk
    exact Nat.lt_of_lt_of_le h2 (Nat.pow_le_pow_right (by decide) hk)
  · intro hk
    by_cases hc : 64 - leadingZeros 64 v ≤ k
    · exact hc
    · exfalso
      have h4 := h3 (by omega)
      have h5 : 2 ^ k ≤ 2 ^ (64 - leadingZeros 64 v - 1) := Nat.pow_le_pow_right (by decide) (by omega)
      omega

theorem viExtra_eq {v : Nat} (h : v < 2 ^ 64) : viExtra v = specExtra v := by
  unfold viExtra specExtra
  have hb := (Nat.bits_bound h).1
  have hz : leadingZeros 64 v = 64 - (64 - leadingZeros 64 v) := by
    have : leadingZeros 64 v ≤ 64 := by unfold leadingZeros; split <;> omega
    omega
  rw [hz, getLength_table _ hb]
  simp only [bits_le_iff h]

theorem specExtra_le (v : Nat) : specExtra v ≤ 8 := by
  unfold specExtra
  repeat' split
  all_goals omega

theorem specExtra_bound {v : Nat} (h : v < 2 ^ 64) (hk : specExtra v < 8) :
    v < 2 ^ (7 * specExtra v + 7) := by
  unfold specExtra at hk ⊢
  repeat' split at hk
  all_goals simp only [*, if_true, if_false]
  all_goals omega

theorem specExtra_lower {v : Nat} (hk : 0 < specExtra v) : 2 ^ (7 * specExtra v) ≤ v := by
  unfold specExtra at hk ⊢
  repeat' split at hk
  all_goals simp only [*, if_true, if_false]
  all_goals omega

theorem viLength_eq (b : UInt8) : viLength b = leadingOnes b.toNat := by
  have : ∀ n : Fin 256, leadingZeros 8 (255 - n.val) = leadingOnes n.val := by decide +kernel
  exact this ⟨b.toNat, u8_toNat_lt b⟩

theorem leadingOnes_le (b : Nat) : leadingOnes b ≤ 8 := by
  unfold leadingOnes
  repeat' split
  all_goals omega

theorem toLe_num (h : Host) (bs : Bytes) (hl : bs.length = 8) : toLe h (h.native.num bs) = ofLe bs := by
  unfold toLe
  cases h.native with
  | little => rfl
  | big =>
    simp only
    have := swapBytes_num .big bs
    rw [hl] at this
    rw [this]
    simp [Endian.num]

theorem bytes_toLe (h : Host) (v : Nat) : h.native.bytes 8 (toLe h v) = leBytes 8 v := by
  unfold toLe
  cases h.native with
  | little => rfl
  | big => simp [Endian.bytes, leBytes_swapBytes]

theorem leBytes_take (n k v : Nat) (h : k ≤ n) : (leBytes n v).take k = leBytes k v := by
  induction n generalizing k v with
  | zero =>
    have : k = 0 := by omega
    subst this; rfl
  | succ n ih =>
    cases k with
    | zero => rfl
    | succ k => simp [leBytes, ih k (v / 256) (by omega)]

theorem viRest_eq (h : Host) {v : Nat} (hv : v < 2 ^ 64) : viRest h v = leBytes (specExtra v) v := by
  unfold viRest
  rw [bytes_toLe, viExtra_eq hv, leBytes_take _ _ _ (specExtra_le v)]

theorem ofLe_append_zeros (bs : Bytes) (n : Nat) : ofLe (bs ++ List.replicate n 0) = ofLe bs := by
  induction bs with
  | nil =>
    induction n with
    | zero => rfl
    | succ n ih => simp [List.replicate_succ, ofLe] at ih ⊢; rw [ih]
  | cons b bs ih => simp only [List.cons_append, ofLe, ih]

/-- High bits of the first byte. -/
theorem viUpper_table : ∀ n : Fin 256, ∀ k : Fin 9, leadingOnes n.val = k.val →
    (255 >>> k.val) &&& n.val = if k.val = 8 then 0 else n.val - (256 - 2 ^ (8 - k.val)) := by
  decide +kernel

theorem or_eq_add {a k b : Nat} (h : b < 2 ^ k) : (a <<< k) ||| b = a * 2 ^ k + b := by
  rw [← Nat.shiftLeft_add_eq_or_of_lt h, Nat.shiftLeft_eq]

theorem viUpper_eq (b : UInt8) :
    viUpper b (leadingOnes b.toNat) =
      if leadingOnes b.toNat = 8 then 0
      else (b.toNat - (256 - 2 ^ (8 - leadingOnes b.toNat))) * 256 ^ leadingOnes b.toNat := by
  unfold viUpper
  have hb := u8_toNat_lt b
  have hk := leadingOnes_le b.toNat
  have ht := viUpper_table ⟨b.toNat, hb⟩ ⟨leadingOnes b.toNat, by omega⟩ rfl
  simp only at ht
  simp only [ht]
  generalize hkk : leadingOnes b.toNat = k at *
  by_cases h8 : k = 8
  · simp [h8]
  · simp only [h8, if_false]
    have h1 : k * 8 % 64 = 8 * k := by omega
    rw [h1, Nat.shiftLeft_eq]
    have h2 : (256 : Nat) ^ k = 2 ^ (8 * k) := by
      rw [show (256 : Nat) = 2 ^ 8 from rfl, ← Nat.pow_mul]
    rw [h2, Nat.mod_eq_of_lt]
    have h3 : 8 * k ≤ 56 := by omega
    have h4 : 2 ^ (8 * k) ≤ 2 ^ 56 := Nat.pow_le_pow_right (by decide) h3
    have h5 : b.toNat - (256 - 2 ^ (8 - k)) < 2 ^ 8 := by omega
    calc (b.toNat - (256 - 2 ^ (8 - k))) * 2 ^ (8 * k)
        < 2 ^ 8 * 2 ^ (8 * k) := by
          apply Nat.mul_lt_mul_of_pos_right h5; exact Nat.two_pow_pos _
      _ ≤ 2 ^ 8 * 2 ^ 56 := Nat.mul_le_mul_left _ h4
      _ = 2 ^ 64 := by decide

/-- Reading: the code computes the value of the format. -/
theorem viCombine_eq (h : Host) (b : UInt8) (rest : Bytes) (hl : rest.length = leadingOnes b.toNat) :
    viCombine h b rest = specVarintVal b rest := by
  unfold viCombine specVarintVal
  have hk := leadingOnes_le b.toNat
  rw [viLength_eq, viUpper_eq, toLe_num h _ (by simp; omega), ofLe_append_zeros]
  simp only
  by_cases h8 : leadingOnes b.toNat = 8
  · simp [h8]
  · simp only [h8, if_false]
    have hlt := ofLe_lt rest
    rw [hl] at hlt
    have h2 : (256 : Nat) ^ leadingOnes b.toNat = 2 ^ (8 * leadingOnes b.toNat) := by
      rw [show (256 : Nat) = 2 ^ 8 from rfl, ← Nat.pow_mul]
    rw [h2] at hlt ⊢
    rw [← Nat.shiftLeft_eq, or_eq_add hlt]
    rw [Nat.shiftLeft_eq]

theorem first_or_table : ∀ k : Fin 8, ∀ x : Fin 128, x.val < 2 ^ (7 - k.val) →
    ((256 - 2 ^ (8 - k.val)) ||| x.val) = 256 - 2 ^ (8 - k.val) + x.val := by
  decide +kernel

theorem specExtra_hi {v : Nat} (h : v < 2 ^ 64) (hk : specExtra v < 8) :
    v / 256 ^ specExtra v < 2 ^ (7 - specExtra v) := by
  have hb := specExtra_bound h hk
  rw [Nat.div_lt_iff_lt_mul (Nat.pow_pos (by decide))]
  have h2 : (256 : Nat) ^ specExtra v = 2 ^ (8 * specExtra v) := by
    rw [show (256 : Nat) = 2 ^ 8 from rfl, ← Nat.pow_mul]
  rw [h2, ← Nat.pow_add]
  have : 7 - specExtra v + 8 * specExtra v = 7 * specExtra v + 7 := by omega
  rw [this]
  exact hb

/-- Writing: the first byte. -/
theorem viFirst_eq {v : Nat} (h : v < 2 ^ 64) :
    viFirst v = if specExtra v = 8 then 255
      else UInt8.ofNat (256 - 2 ^ (8 - specExtra v) + v / 256 ^ specExtra v) := by
  unfold viFirst
  rw [viExtra_eq h]
  have hle := specExtra_le v
  by_cases h8 : specExtra v = 8
  · simp [h8]
  · have hlt : specExtra v < 8 := by omega
    have hhi := specExtra_hi h hlt
    simp only [h8, if_false]
    have hx : v / 256 ^ specExtra v < 128 := by
      have : 2 ^ (7 - specExtra v) ≤ 2 ^ 7 := Nat.pow_le_pow_right (by decide) (by omega)
      omega
    have ht := first_or_table ⟨specExtra v, hlt⟩ ⟨v / 256 ^ specExtra v, hx⟩ hhi
    simp only at ht
    generalize hkk : specExtra v = k at *
    have key : ∀ (p : UInt8) (s : Nat), p.toNat = 256 - 2 ^ (8 - k) → v >>> s = v / 256 ^ k →
        p ||| UInt8.ofNat (v >>> s) = UInt8.ofNat (256 - 2 ^ (8 - k) + v / 256 ^ k) := by
      intro p s hp hs
      apply UInt8.toNat_inj.mp
      rw [UInt8.toNat_or, UInt8.toNat_ofNat', UInt8.toNat_ofNat', hs, hp,
        Nat.mod_eq_of_lt (a := v / 256 ^ k) (by omega), ht]
      rw [Nat.mod_eq_of_lt]
      have : 2 ^ (7 - k) ≤ 2 ^ (8 - k) := Nat.pow_le_pow_right (by decide) (by omega)
      have : 2 ^ (8 - k) ≤ 2 ^ 8 := Nat.pow_le_pow_right (by decide) (by omega)
      omega
    match k, hlt with
    | 0, _ => simp
    | 1, _ => exact key 128 8 (by decide) (by rw [Nat.shiftRight_eq_div_pow])
    | 2, _ => exact key 192 16 (by decide) (by rw [Nat.shiftRight_eq_div_pow])
    | 3, _ => exact key 224 24 (by decide) (by rw [Nat.shiftRight_eq_div_pow])
    | 4, _ => exact key 240 32 (by decide) (by rw [Nat.shiftRight_eq_div_pow])
    | 5, _ => exact key 248 40 (by decide) (by rw [Nat.shiftRight_eq_div_pow])
    | 6, _ => exact key 252 48 (by decide) (by rw [Nat.shiftRight_eq_div_pow])
    | 7, _ => exact key 254 56 (by decide) (by rw [Nat.shiftRight_eq_div_pow])

theorem specVarint_eq (h : Host) {v : Nat} (hv : v < 2 ^ 64) : viFirst v :: viRest h v = specVarint v := by
  rw [viFirst_eq hv, viRest_eq h hv]
  unfold specVarint
  simp only
  by_cases h8 : specExtra v = 8
  · simp [h8]
  · simp [h8]

theorem leadingOnes_table : ∀ k : Fin 8, ∀ x : Fin 128, x.val < 2 ^ (7 - k.val) →
    leadingOnes (256 - 2 ^ (8 - k.val) + x.val) = k.val ∧ 256 - 2 ^ (8 - k.val) + x.val < 256 := by
  decide +kernel

/-- The format is decodable. -/
theorem specVarint_cons {v : Nat} (hv : v < 2 ^ 64) :
    ∃ b, specVarint v = b :: leBytes (specExtra v) v ∧ leadingOnes b.toNat = specExtra v ∧
      specVarintVal b (leBytes (specExtra v) v) = v := by
  unfold specVarint
  simp only
  by_cases h8 : specExtra v = 8
  · refine ⟨255, by simp [h8], by rw [h8]; rfl, ?_⟩
    unfold specVarintVal
    have : leadingOnes (255 : UInt8).toNat = 8 := by rfl
    simp only [this, if_true, h8]
    exact ofLe_leBytes_of_lt (by rw [show (256 : Nat) ^ 8 = 2 ^ 64 from by decide]; exact hv)
  · have hlt : specExtra v < 8 := by have := specExtra_le v; omega
    have hhi := specExtra_hi hv hlt
    have hx : v / 256 ^ specExtra v < 128 := by
      have : 2 ^ (7 - specExtra v) ≤ 2 ^ 7 := Nat.pow_le_pow_right (by decide) (by omega)
      omega
    have ht := leadingOnes_table ⟨specExtra v, hlt⟩ ⟨v / 256 ^ specExtra v, hx⟩ hhi
    simp only at ht
    have hb : (UInt8.ofNat (256 - 2 ^ (8 - specExtra v) + v / 256 ^ specExtra v)).toNat =
        256 - 2 ^ (8 - specExtra v) + v / 256 ^ specExtra v := by
      rw [UInt8.toNat_ofNat', Nat.mod_eq_of_lt ht.2]
    refine ⟨UInt8.ofNat (256 - 2 ^ (8 - specExtra v) + v / 256 ^ specExtra v), by rw [if_neg h8], by rw [hb]; exact ht.1, ?_⟩
    unfold specVarintVal
    rw [hb, ht.1]
    simp only [h8, if_false]
    rw [ofLe_leBytes, Nat.add_sub_cancel_left, Nat.mul_comm]
    exact Nat.div_add_mod v (256 ^ specExtra v)

theorem specVarint_length {v : Nat} (hv : v < 2 ^ 64) : (specVarint v).length = specExtra v + 1 := by
  obtain ⟨b, h, _⟩ := specVarint_cons hv
  rw [h]; simp

theorem specVarintVal_lt (b : UInt8) (rest : Bytes) (hl : rest.length = leadingOnes b.toNat) :
    specVarintVal b rest < 2 ^ 64 := by
  unfold specVarintVal
  have hlt := ofLe_lt rest
  have hk := leadingOnes_le b.toNat
  rw [hl] at hlt
  have hb := u8_toNat_lt b
  simp only
  by_cases h8 : leadingOnes b.toNat = 8
  · simp only [h8, if_true]; rw [h8] at hlt
    exact Nat.lt_of_lt_of_le hlt (by decide)
  · simp only [h8, if_false]
    generalize leadingOnes b.toNat = k at *
    have h1 : b.toNat - (256 - 2 ^ (8 - k)) < 256 := by omega
    have h2 : 256 ^ k ≤ 256 ^ 7 := Nat.pow_le_pow_right (by decide) (by omega)
    have : (b.toNat - (256 - 2 ^ (8 - k))) * 256 ^ k + ofLe rest < 256 * 256 ^ k := by
      have : (b.toNat - (256 - 2 ^ (8 - k)) + 1) * 256 ^ k ≤ 256 * 256 ^ k := Nat.mul_le_mul_right _ h1
      rw [Nat.add_mul, Nat.one_mul] at this
      omega
    have h3 : 256 * 256 ^ k ≤ 256 * 256 ^ 7 := Nat.mul_le_mul_left _ h2
    have h4 : 256 * 256 ^ 7 = 2 ^ 64 := by decide
    omega

end Verif
