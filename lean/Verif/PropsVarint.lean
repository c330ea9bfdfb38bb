import Verif.PropsRoundTrip

/-!
# Variable length integers: C16, C17, C18, C19

A `VarInt64` (and a `u64` with `#[speedy(varint)]`, and a varint length) is the
type `.varint64`.
-/

namespace Verif

theorem varint_written {T : Target} (hT : T.Ok) {e : Endian} {v : Nat} (hv : v < 2 ^ 64) (junk : Nat → UInt8) :
    writeToVec T e .varint64 (.num v) junk = .ok (specVarint v) := by
  refine vec_ok hT rfl rfl rfl (by simpa [hasTy] using hv) (by simp [wire]) ?_
  rw [specVarint_length hv]
  have := specExtra_le v
  have := hT.toOk.isize
  have := hT.toOk.lower
  omega

/-- What reading a varint from any bytes does. -/
theorem varint_parse (T : Target) (e : Endian) (b : UInt8) (rest : Bytes) :
    parse T e .varint64 Cx.std (b :: rest) =
      if leadingOnes b.toNat ≤ rest.length then
        .ok (.num (specVarintVal b (rest.take (leadingOnes b.toNat)))) (rest.drop (leadingOnes b.toNat))
      else .fail .unexpectedEndOfInput := by
  simp only [parse, pVarint, P.map, P.bind, pTake, P.pure, List.length_cons, Nat.le_add_left, if_true,
    List.take_succ_cons, List.take_zero, List.drop_succ_cons, List.drop_zero, hd, List.headD]
  by_cases h : leadingOnes b.toNat ≤ rest.length
  · simp [h]
  · simp [h]

/-! ## C16 -/

/-- **C16**: any `u64`, written as a varint in any byte order on any machine, is read
back in any byte order on any machine, whatever follows, and exactly its bytes
are consumed. -/
theorem C16_varint_round_trip {T T' : Target} (hT : T.Ok) (hT' : T'.Ok) {e e' : Endian} {v : Nat} (hv : v < 2 ^ 64)
    (junk : Nat → UInt8) :
    ∃ bs, writeToVec T e .varint64 (.num v) junk = .ok bs ∧
      ∀ (rest : Bytes) (base : Nat), InMem T' base (bs ++ rest) →
        readWithLengthFromBuffer T' e' .varint64 base (bs ++ rest) = (.ok (.num v), bs.length) := by
  refine ⟨specVarint v, varint_written hT hv junk, fun rest base hm => ?_⟩
  exact C06_self_delimiting_partial hT' rfl rfl rfl (by simpa [hasTy] using hv) (by simp [canon])
    (varint_written hT' (e := e') hv junk) rfl hm

open Samples in
example : ∃ bs, writeToVec x64 .little .varint64 (.num (2 ^ 64 - 1)) (fun _ => 0) = .ok bs ∧
    ∀ (rest : Bytes) (base : Nat), InMem be64 base (bs ++ rest) →
      readWithLengthFromBuffer be64 .big .varint64 base (bs ++ rest) = (.ok (.num (2 ^ 64 - 1)), bs.length) :=
  C16_varint_round_trip x64_ok be64_ok (by decide) _

/-! ## C18 -/

/-- **C18**: reading a varint from a buffer, completely: the number `k` of leading one
bits of the first byte says how many bytes follow; if they are there, the
result is the number made of them and nothing else, otherwise there is an
end-of-input error. -/
theorem C18_varint_reading_total {T : Target} (hT : T.Ok) {e : Endian} {base : Nat} {b : UInt8} {rest : Bytes}
    (hm : InMem T base (b :: rest)) :
    (leadingOnes b.toNat ≤ rest.length → readWithLengthFromBuffer T e .varint64 base (b :: rest) =
      (.ok (.num (specVarintVal b (rest.take (leadingOnes b.toNat)))), leadingOnes b.toNat + 1)) ∧
    (rest.length < leadingOnes b.toNat → ∃ er, readFromBuffer T e .varint64 base (b :: rest) = .error er ∧
      er.isEof = true) := by
  have hp := varint_parse T e b rest
  constructor
  · intro h
    rw [if_pos h] at hp
    rw [buffer_ok hT rfl hm (by simp [minBytes]) hp]
    simp only [List.length_drop, List.length_cons, Prod.mk.injEq, true_and]
    omega
  · intro h
    rw [if_neg (by omega)] at hp
    obtain ⟨er, h1, h2⟩ := buffer_fail hT rfl hm hp
    refine ⟨er, h1, ?_⟩
    rcases h2 with h2 | h2
    · have h3 : ¬ (b :: rest).length < minBytes T .varint64 := by simp [minBytes]
      unfold readFromBuffer readWithLengthFromBuffer at h1
      rw [if_neg h3] at h1
      have h4 := buffer_outcome hT (e := e) (t := .varint64) rfl hm
      rw [hp] at h4
      obtain ⟨er', g1, g2, _⟩ := h4
      rw [g1] at h1
      simp only [Except.error.injEq] at h1
      subst h1
      simpa [Err.isEof] using g2
    · simpa [Err.isEof] using h2

/-- C18: nine bytes are always enough. -/
theorem C18_nine_bytes {T : Target} (hT : T.Ok) {e : Endian} {base : Nat} {bs : Bytes} (hb : 9 ≤ bs.length)
    (hm : InMem T base bs) :
    ∃ v n, v < 2 ^ 64 ∧ 1 ≤ n ∧ n ≤ 9 ∧ readWithLengthFromBuffer T e .varint64 base bs = (.ok (.num v), n) := by
  match bs, hb with
  | b :: rest, hb =>
    have := leadingOnes_le b.toNat
    simp only [List.length_cons] at hb
    refine ⟨_, _, ?_, ?_, ?_, (C18_varint_reading_total hT hm).1 (by omega)⟩
    · exact specVarintVal_lt _ _ (by rw [List.length_take]; omega)
    · omega
    · omega

example : readWithLengthFromBuffer Samples.x64 .little .varint64 0 [0x81, 0x2c, 7] = (.ok (.num 300), 2) :=
  (C18_varint_reading_total Samples.x64_ok ⟨by decide, by decide, by decide⟩).1 (by decide)

example : ∃ er, readFromBuffer Samples.x64 .little .varint64 0 [0xff, 1, 2, 3] = .error er ∧ er.isEof = true :=
  (C18_varint_reading_total Samples.x64_ok ⟨by decide, by decide, by decide⟩).2 (by decide)

example : ∃ v n, v < 2 ^ 64 ∧ 1 ≤ n ∧ n ≤ 9 ∧
    readWithLengthFromBuffer Samples.x64 .big .varint64 0 (List.replicate 9 255) = (.ok (.num v), n) :=
  C18_nine_bytes Samples.x64_ok (by decide) ⟨by decide, by decide, by decide⟩

/-! ## C17 -/

theorem specExtra_le_iff {v : Nat} {k : Nat} (hk : k < 8) : specExtra v ≤ k ↔ v < 2 ^ (7 * (k + 1)) := by
  have : k = 0 ∨ k = 1 ∨ k = 2 ∨ k = 3 ∨ k = 4 ∨ k = 5 ∨ k = 6 ∨ k = 7 := by omega
  unfold specExtra
  rcases this with rfl | rfl | rfl | rfl | rfl | rfl | rfl | rfl <;> simp only [Nat.reduceAdd, Nat.reduceMul,
    Nat.reducePow] <;> repeat' split
  all_goals omega

/-- **C17**: a varint takes at most `k` bytes (for `k` from 1 to 8) exactly if the
number has at most `7 * k` bits; it never takes more than nine; and
`bytes_needed` says so. -/
theorem C17_varint_length {T : Target} (hT : T.Ok) {e : Endian} {v : Nat} (hv : v < 2 ^ 64) (junk : Nat → UInt8) :
    ∃ bs, writeToVec T e .varint64 (.num v) junk = .ok bs ∧ bytesNeeded T .varint64 (.num v) = .ok bs.length ∧
      1 ≤ bs.length ∧ bs.length ≤ 9 ∧
      ∀ k, 1 ≤ k → k ≤ 8 → (bs.length ≤ k ↔ v < 2 ^ (7 * k)) := by
  have hw := varint_written (e := e) hT hv junk
  refine ⟨specVarint v, hw, ?_, ?_, ?_, ?_⟩
  · exact needed_ok (F := Fmt.doc e) hT rfl rfl rfl (by simpa [hasTy] using hv) (by simp [wire])
      (by rw [specVarint_length hv]; have := specExtra_le v; have := hT.lower; omega)
  · rw [specVarint_length hv]; omega
  · rw [specVarint_length hv]; have := specExtra_le v; omega
  · intro k h1 h2
    rw [specVarint_length hv]
    have := specExtra_le_iff (v := v) (k := k - 1) (by omega)
    rw [show k - 1 + 1 = k from by omega] at this
    rw [← this]
    omega

/-- The value of a varint of `k + 1` bytes. -/
theorem specVarintVal_bound (b : UInt8) (rest : Bytes) (hl : rest.length = leadingOnes b.toNat)
    (hk : leadingOnes b.toNat < 8) : specVarintVal b rest < 2 ^ (7 * (leadingOnes b.toNat + 1)) := by
  unfold specVarintVal
  have hlt := ofLe_lt rest
  rw [hl] at hlt
  have hb := u8_toNat_lt b
  have hb2 : ∀ n : Fin 256, leadingOnes n.val < 8 →
      n.val - (256 - 2 ^ (8 - leadingOnes n.val)) < 2 ^ (7 - leadingOnes n.val) := by decide +kernel
  have hb3 := hb2 ⟨b.toNat, hb⟩ hk
  simp only at hb3 ⊢
  rw [if_neg (by omega)]
  generalize leadingOnes b.toNat = k at *
  have h1 : (b.toNat - (256 - 2 ^ (8 - k)) + 1) * 256 ^ k ≤ 2 ^ (7 - k) * 256 ^ k := Nat.mul_le_mul_right _ hb3
  rw [Nat.add_mul, Nat.one_mul] at h1
  have h2 : 2 ^ (7 - k) * 256 ^ k = 2 ^ (7 * (k + 1)) := by
    rw [show (256 : Nat) = 2 ^ 8 from rfl, ← Nat.pow_mul, ← Nat.pow_add]
    congr 1
    omega
  omega

/-- C17: no sequence of bytes which is read as `v` is shorter than what is written
for `v`. -/
theorem C17_varint_minimal {T T' : Target} (hT : T.Ok) (hT' : T'.Ok) {e e' : Endian} {v n base : Nat} {bs buf : Bytes}
    {junk : Nat → UInt8} (hv : v < 2 ^ 64) (hm : InMem T' base buf)
    (hw : writeToVec T e .varint64 (.num v) junk = .ok bs)
    (hr : readWithLengthFromBuffer T' e' .varint64 base buf = (.ok (.num v), n)) : bs.length ≤ n := by
  rw [varint_written hT hv junk] at hw
  simp only [Except.ok.injEq] at hw
  subst hw
  rw [specVarint_length hv]
  match buf with
  | [] => simp [readWithLengthFromBuffer, minBytes] at hr
  | b :: rest =>
    have h1 := C18_varint_reading_total hT' (e := e') hm
    by_cases h : leadingOnes b.toNat ≤ rest.length
    · rw [h1.1 h] at hr
      simp only [Prod.mk.injEq, Except.ok.injEq, Val.num.injEq] at hr
      rw [← hr.2]
      by_cases h8 : leadingOnes b.toNat < 8
      · have := specVarintVal_bound b (rest.take (leadingOnes b.toNat)) (by rw [List.length_take]; omega) h8
        rw [hr.1] at this
        have := (specExtra_le_iff h8).2 this
        omega
      · have := specExtra_le v; omega
    · obtain ⟨er, h2, _⟩ := h1.2 (by omega)
      unfold readFromBuffer at h2
      rw [hr] at h2
      simp at h2

/-- C17: larger numbers do not take fewer bytes. -/
theorem C17_varint_monotone {T : Target} (hT : T.Ok) {e : Endian} {v w : Nat} {bs cs : Bytes} {junk : Nat → UInt8}
    (hvw : v ≤ w) (hw : w < 2 ^ 64) (h1 : writeToVec T e .varint64 (.num v) junk = .ok bs)
    (h2 : writeToVec T e .varint64 (.num w) junk = .ok cs) : bs.length ≤ cs.length := by
  rw [varint_written hT (by omega) junk] at h1
  rw [varint_written hT hw junk] at h2
  simp only [Except.ok.injEq] at h1 h2
  subst h1 h2
  rw [specVarint_length hw, specVarint_length (by omega)]
  by_cases h8 : specExtra w < 8
  · have h3 := (specExtra_le_iff h8).1 (Nat.le_refl _)
    have h4 := (specExtra_le_iff (v := v) h8).2 (by omega)
    omega
  · have := specExtra_le v; omega

example : ∃ bs, writeToVec Samples.x64 .little .varint64 (.num 300) (fun _ => 0) = .ok bs ∧
    bytesNeeded Samples.x64 .varint64 (.num 300) = .ok bs.length ∧ 1 ≤ bs.length ∧ bs.length ≤ 9 ∧
      ∀ k, 1 ≤ k → k ≤ 8 → (bs.length ≤ k ↔ 300 < 2 ^ (7 * k)) :=
  C17_varint_length Samples.x64_ok (by decide) _

/-- `300` can be written in three bytes, but not shorter than in two. -/
example : [0x81, 0x2c].length ≤ 3 :=
  C17_varint_minimal Samples.x64_ok Samples.x64_ok (e := .little) (e' := .little) (v := 300) (base := 0)
    (bs := [0x81, 0x2c]) (n := 3)
    (buf := [0xc0, 0x2c, 0x01, 0x00]) (junk := fun _ => 0) (by decide) ⟨by decide, by decide, by decide⟩
    (by decide) (by decide)

example : [0x81, 0x2c].length ≤ [0xc1, 0, 0].length :=
  C17_varint_monotone Samples.x64_ok (e := .little) (v := 300) (w := 65536) (bs := [0x81, 0x2c])
    (cs := [0xc1, 0, 0]) (junk := fun _ => 0) (by decide)
    (by decide) (by decide) (by decide)

/-! ## C19

`i64` values are represented by their bit patterns: `x` stands for `x` if `x <
2^63`, otherwise for `x - 2^64`. -/

theorem xor_ones {w x : Nat} (hx : x < 2 ^ w) : x ^^^ (2 ^ w - 1) = 2 ^ w - 1 - x := by
  have h := congrArg BitVec.toNat (BitVec.xor_allOnes (x := BitVec.ofNat w x))
  rw [BitVec.toNat_xor, BitVec.toNat_allOnes, BitVec.toNat_not, BitVec.toNat_ofNat, Nat.mod_eq_of_lt hx] at h
  exact h

/-- **C19**, the part that holds: the conversion to `VarInt64` maps `x ≥ 0` to `2 x` and
`x < 0` to `-2 x - 1` (so it is one-to-one, and small magnitudes give small
numbers). -/
theorem C19_zigzag_partial {w x : Nat} (hw : 0 < w) (hx : x < 2 ^ w) :
    zigzag w x = if x < 2 ^ (w - 1) then 2 * x else 2 * (2 ^ w - x) - 1 := by
  have h2 : 2 ^ w = 2 * 2 ^ (w - 1) := by rw [← Nat.pow_succ']; congr 1; omega
  unfold zigzag
  rw [Nat.shiftLeft_eq, Nat.pow_one]
  split
  · rw [Nat.xor_zero, Nat.mod_eq_of_lt (by omega), Nat.mul_comm]
  · rename_i h
    have : x * 2 % 2 ^ w = x * 2 - 2 ^ w := by
      rw [Nat.mod_eq_sub_mod (by omega), Nat.mod_eq_of_lt (by omega)]
    rw [this, xor_ones (by omega)]
    omega

/-- C19, the part that holds: different numbers are converted to different ones. -/
theorem C19_injective_partial {w x y : Nat} (hw : 0 < w) (hx : x < 2 ^ w) (hy : y < 2 ^ w)
    (h : zigzag w x = zigzag w y) : x = y := by
  rw [C19_zigzag_partial hw hx, C19_zigzag_partial hw hy] at h
  split at h <;> split at h <;> omega

/-- C19, the part that holds: numbers from `-2^(7k-1)` to `2^(7k-1) - 1` take at most
`k` bytes. -/
theorem C19_short_partial {T : Target} (hT : T.Ok) {e : Endian} {x k : Nat} {bs : Bytes} {junk : Nat → UInt8}
    (hx : x < 2 ^ 64) (hk : 1 ≤ k) (hk' : k ≤ 8)
    (hs : x < 2 ^ (7 * k - 1) ∨ 2 ^ 64 - 2 ^ (7 * k - 1) ≤ x)
    (hw : writeToVec T e .varint64 (.num (zigzag 64 x)) junk = .ok bs) : bs.length ≤ k := by
  have hz := C19_zigzag_partial (w := 64) (by decide) hx
  have h2 : 2 ^ (7 * k) = 2 * 2 ^ (7 * k - 1) := by rw [← Nat.pow_succ']; congr 1; omega
  have h3 : 2 ^ (7 * k - 1) ≤ 2 ^ 55 := Nat.pow_le_pow_right (by decide) (by omega)
  have hlt : zigzag 64 x < 2 ^ (7 * k) := by
    rw [hz]
    split <;> omega
  have hb : zigzag 64 x < 2 ^ 64 := by
    rw [hz]; split <;> omega
  obtain ⟨bs', h4, _, _, _, h5⟩ := C17_varint_length (e := e) hT hb junk
  rw [hw] at h4
  simp only [Except.ok.injEq] at h4
  subst h4
  exact (h5 k hk hk').2 hlt

/-- C19 is false: `i64::from(VarInt64::from(x)) == x` only for `x ≥ 0` divisible by
`2^48`.  For example, `1` comes back as `65537` and `-1` as `32768`. -/
theorem C19_false_exactly {x : Nat} (hx : x < 2 ^ 64) :
    unzigzag64 (zigzag 64 x) = x ↔ x < 2 ^ 63 ∧ x % 2 ^ 48 = 0 := by
  have hz := C19_zigzag_partial (w := 64) (by decide) hx
  unfold unzigzag64
  rw [hz]
  simp only [Nat.reduceSub]
  split
  · rename_i h
    rw [show (2 * x) >>> 1 = x from by rw [Nat.shiftRight_eq_div_pow]; omega]
    constructor
    · intro h1
      refine ⟨h, ?_⟩
      have h2 : (2 * x) <<< 15 % 2 ^ 64 = 0 := by
        have : x ^^^ (x ^^^ ((2 * x) <<< 15 % 2 ^ 64)) = x ^^^ x := by rw [h1]
        rw [← Nat.xor_assoc, Nat.xor_self, Nat.zero_xor] at this
        exact this
      rw [Nat.shiftLeft_eq] at h2
      omega
    · intro h1
      have h2 : (2 * x) <<< 15 % 2 ^ 64 = 0 := by
        rw [Nat.shiftLeft_eq]; omega
      rw [h2, Nat.xor_zero]
  · rename_i h
    constructor
    · intro h1
      exfalso
      have hv : (2 * (2 ^ 64 - x) - 1) >>> 1 = 2 ^ 64 - 1 - x := by
        rw [Nat.shiftRight_eq_div_pow]; omega
      rw [hv] at h1
      have h0 := congrArg (fun n => n.testBit 0) h1
      simp only [Nat.testBit_xor] at h0
      have ha : ((2 * (2 ^ 64 - x) - 1) <<< 15 % 2 ^ 64).testBit 0 = false := by
        rw [Nat.testBit_zero, Nat.shiftLeft_eq]
        simp only [decide_eq_false_iff_not]
        omega
      rw [ha, Bool.xor_false, Nat.testBit_zero, Nat.testBit_zero] at h0
      simp only [decide_eq_decide] at h0
      omega
    · omega

example : unzigzag64 (zigzag 64 1) = 65537 := by decide

example : unzigzag64 (zigzag 64 (2 ^ 64 - 1)) = 32768 := by decide

example : [(1 : UInt8)].length ≤ 1 :=
  C19_short_partial Samples.x64_ok (e := .little) (x := 2 ^ 64 - 1) (bs := [1]) (junk := fun _ => 0) (by decide) (by decide)
    (by decide) (.inr (by decide)) (by decide)

example : zigzag 8 0xfe = 3 := C19_zigzag_partial (w := 8) (by decide) (by decide)

example : ∀ y < 2 ^ 16, zigzag 16 5 = zigzag 16 y → 5 = y := fun _ hy =>
  C19_injective_partial (by decide) (by decide) hy

end Verif
