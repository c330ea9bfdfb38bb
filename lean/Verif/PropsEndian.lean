import Verif.Refine
import Verif.Samples

/-!
# The functions of `Endianness` (C81)

`speedy::Endianness` is public, with functions of its own: `read_u16` … `read_f64`, `swap_u16` … `swap_f64` and
`swap_slice_u8` … `swap_slice_f64` (src/endianness.rs). A number is its bits; signed numbers are in two's complement
(`signed`), floating point numbers are never computed with (`from_bits`, casts of pointers to integers of the same size).
-/

namespace Verif

/-- `read_u16` … `read_i128` (`n` is the size of the type) — src/endianness.rs:28-49: the bytes are copied into the memory of a
number. `none` is a panic (`assert!`). `read_f32` and `read_f64` — 80-88 — are those for 4 and 8 bytes. -/
def Endian.readSlice (h : Host) (e : Endian) (n : Nat) (slice : Bytes) : Option Nat :=
  if slice.length = n then
    let value := h.native.num slice
    some (if e.conv h then swapBytes n value else value)
  else none

/-- `swap_u16` … `swap_i128` — src/endianness.rs:51-56; `swap_f32`, `swap_f64` — 90-106. -/
def Endian.swap (h : Host) (e : Endian) (n value : Nat) : Nat := if e.conv h then swapBytes n value else value

/-- `swap_slice_u16` … `swap_slice_i128` — src/endianness.rs:58-65; `swap_slice_f32`, `swap_slice_f64` — 108-124;
`swap_slice_u8`, `swap_slice_i8` — 21-25 (which do nothing, as for `n = 1`: `C81_bytes`). The loop over the slice: the
`i`-th round changes the `i`-th element. -/
def Endian.swapSlice (h : Host) (e : Endian) (n : Nat) (slice : List Nat) : List Nat :=
  if e.conv h then go slice.length 0 slice else slice
where
  go : Nat → Nat → List Nat → List Nat
    | 0, _, l => l
    | fuel + 1, i, l => match l[i]? with
      | none => l
      | some v => go fuel (i + 1) (l.set i (swapBytes n v))

/-- The meaning of `n` bytes of bits as a signed number. -/
def signed (n : Nat) (v : Nat) : Int := if v < 2 ^ (8 * n - 1) then v else (v : Int) - 2 ^ (8 * n)

/-- The bits of a signed number. -/
def bitsOf (n : Nat) (i : Int) : Nat := (i % 2 ^ (8 * n)).toNat

theorem swapSlice_go (n : Nat) : ∀ (fuel i : Nat) (l : List Nat), l.length ≤ i + fuel →
    Endian.swapSlice.go n fuel i l = l.take i ++ (l.drop i).map (swapBytes n)
  | 0, i, l, hl => by
    rw [Endian.swapSlice.go, List.drop_eq_nil_of_le (by omega), List.take_of_length_le (by omega)]; simp
  | fuel + 1, i, l, hl => by
    rw [Endian.swapSlice.go]
    by_cases hi : i < l.length
    · rw [List.getElem?_eq_getElem hi]
      simp only
      rw [swapSlice_go n fuel (i + 1) _ (by simp; omega)]
      rw [List.drop_set_of_lt (by omega), List.take_set, List.drop_eq_getElem_cons hi, List.take_succ_eq_append_getElem hi]
      rw [List.set_append_right _ _ (by simp; omega)]
      simp [Nat.min_eq_left (Nat.le_of_lt hi)]
      rw [List.drop_eq_getElem_cons (i := i) (by simpa using hi), List.getElem_map]
    · rw [List.getElem?_eq_none (by omega)]
      simp only
      rw [List.drop_eq_nil_of_le (by omega), List.take_of_length_le (by omega)]; simp

section
variable {h : Host} {e : Endian} {n : Nat}

/-- **C81**: `read_u16` etc. give the number whose bytes in this byte order are those of the slice, on any machine, and panic
exactly if the slice has another length. -/
theorem C81_read (slice : Bytes) :
    (slice.length ≠ n → e.readSlice h n slice = none) ∧
    (slice.length = n → ∃ v, e.readSlice h n slice = some v ∧ v < 256 ^ n ∧ e.bytes n v = slice) := by
  unfold Endian.readSlice
  refine ⟨fun hn => if_neg hn, ?_⟩
  rintro rfl
  rw [if_pos rfl]
  refine ⟨_, rfl, ?_⟩
  rw [conv_num]
  exact ⟨e.num_lt slice, e.bytes_num slice⟩

/-- **C81**: in particular they read what has been written, and signed numbers keep their value. -/
theorem C81_read_back {v : Nat} (hv : v < 256 ^ n) : e.readSlice h n (e.bytes n v) = some v := by
  obtain ⟨w, h1, h2, h3⟩ := (C81_read (h := h) (e := e) (n := n) (e.bytes n v)).2 (by simp)
  have := congrArg e.num h3
  rw [Endian.num_bytes h2, Endian.num_bytes hv] at this
  rw [h1, this]

/-- **C81**: what is a signed number to the writer is the same number to the reader. -/
theorem C81_signed {i : Int} (hn : 0 < n) (h1 : -2 ^ (8 * n - 1) ≤ i) (h2 : i < 2 ^ (8 * n - 1)) :
    ∃ v, e.readSlice h n (e.bytes n (bitsOf n i)) = some v ∧ signed n v = i := by
  have hp : (2 : Int) ^ (8 * n) = 2 * 2 ^ (8 * n - 1) := by
    rw [show 8 * n = (8 * n - 1) + 1 by omega, Int.pow_succ]; simp; omega
  have hpn : (2 : Nat) ^ (8 * n) = 2 * 2 ^ (8 * n - 1) := by
    rw [show 8 * n = (8 * n - 1) + 1 by omega, Nat.pow_succ]; simp; omega
  have hc : (256 : Nat) ^ n = 2 ^ (8 * n) := by rw [Nat.pow_mul]
  have hcast : ((2 ^ (8 * n - 1) : Nat) : Int) = (2 : Int) ^ (8 * n - 1) := by simp
  have hpos : (0 : Int) < 2 ^ (8 * n - 1) := by rw [← hcast]; exact_mod_cast Nat.two_pow_pos _
  have hb0 : 0 ≤ i % 2 ^ (8 * n) := Int.emod_nonneg _ (by omega)
  have hb1 : i % 2 ^ (8 * n) < 2 ^ (8 * n) := Int.emod_lt_of_pos _ (by omega)
  have hbits : (bitsOf n i : Int) = i % 2 ^ (8 * n) := Int.toNat_of_nonneg hb0
  refine ⟨bitsOf n i, C81_read_back (by rw [hc, hpn]; omega), ?_⟩
  unfold signed
  by_cases hi : 0 ≤ i
  · rw [Int.emod_eq_of_lt hi (by omega)] at hbits
    rw [if_pos (by omega), hbits]
  · have hm : i % 2 ^ (8 * n) = i + 2 ^ (8 * n) := by
      rw [← Int.add_emod_right, Int.emod_eq_of_lt (by omega) (by omega)]
    rw [hm] at hbits
    rw [if_neg (by omega), hbits]
    omega

/-- **C81**: after `swap_u16` etc. the memory of the number holds the bytes of the old number in this byte order, on any
machine. -/
theorem C81_swap (v : Nat) : h.native.bytes n (e.swap h n v) = e.bytes n v := by
  unfold Endian.swap
  by_cases hc : e.conv h = true
  · rw [if_pos hc, bytes_swapBytes, Endian.conv_flip hc]
    cases h.native <;> simp [Endian.flip, Endian.bytes]
  · rw [if_neg hc, ← Endian.not_conv (e := e) (h := h) (by simpa using hc)]

/-- **C81**: swapping twice changes nothing. -/
theorem C81_swap_twice {v : Nat} (hv : v < 256 ^ n) : e.swap h n (e.swap h n v) = v ∧ e.swap h n v < 256 ^ n := by
  unfold Endian.swap
  by_cases hc : e.conv h = true
  · simp only [if_pos hc]
    exact ⟨swapBytes_swapBytes hv, swapBytes_lt _ _⟩
  · simp only [if_neg hc]
    exact ⟨trivial, hv⟩

/-- **C81**: `swap_slice_u16` etc. do this to each element. -/
theorem C81_slice (slice : List Nat) : e.swapSlice h n slice = slice.map (e.swap h n) := by
  unfold Endian.swapSlice Endian.swap
  by_cases hc : e.conv h = true
  · rw [if_pos hc, swapSlice_go n _ 0 slice (by omega)]
    simp [hc]
  · rw [if_neg hc]
    simp [hc]

/-- **C81**: single bytes are not changed. -/
theorem C81_bytes {v : Nat} (hv : v < 256) : e.swap h 1 v = v := by
  unfold Endian.swap
  split
  · show ofLe (leBytes 1 v).reverse = v
    rw [show (leBytes 1 v).reverse = leBytes 1 v from rfl, ofLe_leBytes_of_lt (by simpa using hv)]
  · rfl

end

/-! ## Examples -/

example : Endian.big.readSlice Host.x64 2 [0xFF, 0xFE] = some 0xFFFE ∧ signed 2 0xFFFE = -2 := by decide

example : Endian.big.readSlice Host.x64 2 [0xFF, 0xFE, 0] = none := by decide

example : Endian.big.swapSlice Host.x64 4 [1, 0x12345678] = [0x01000000, 0x78563412] := by decide

example : Endian.little.swapSlice Host.x64 4 [1, 0x12345678] = [1, 0x12345678] := by decide

example : ∃ v, Endian.big.readSlice Host.x64 4 (Endian.big.bytes 4 (bitsOf 4 (-7))) = some v ∧ signed 4 v = -7 :=
  C81_signed (by decide) (by decide) (by decide)

/-! ## Cases -/

section Cases
open Samples

example : Endian.big.swap Host.x64 4 (Endian.big.swap Host.x64 4 0x12345678) = 0x12345678 := (C81_swap_twice (by decide)).1
example : Endian.big.swap Host.x64 1 0xAB = 0xAB := C81_bytes (by decide)
example : Host.x64.native.bytes 2 (Endian.big.swap Host.x64 2 0x0102) = [1, 2] := (C81_swap _).trans (by decide)
example : Endian.big.swapSlice Host.x64 2 [1, 258] = [256, 513] := (C81_slice _).trans (by decide)
example : Endian.big.readSlice Host.x64 3 [1, 2] = none := (C81_read [1, 2]).1 (by decide)
example : ∃ v, Endian.big.readSlice Host.x64 2 [1, 2] = some v ∧ v < 256 ^ 2 ∧ Endian.big.bytes 2 v = [1, 2] := (C81_read [1, 2]).2 rfl
example : Endian.big.readSlice Host.x64 4 [0x12, 0x34, 0x56, 0x78] = some 0x12345678 := C81_read_back (v := 0x12345678) (by decide)

end Cases

end Verif
