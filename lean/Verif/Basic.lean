/-!
# Bytes, byte orders, errors and hosts

Basic vocabulary of the model.
-/

namespace Verif

/-- A sequence of bytes (`&[u8]`, `Vec<u8>`). -/
abbrev Bytes := List UInt8

/-- `speedy::Endianness` — src/endianness.rs:1-5. -/
inductive Endian where
  | little
  | big
  deriving DecidableEq, Repr

/-- The machine the code was compiled for.

* `native` is `Endianness::NATIVE` — src/endianness.rs:7-13 (`cfg(target_endian)`).
* `usizeMax` is `usize::MAX`; the code runs on 32 and 64 bit targets.
* `isizeMax` is `isize::MAX`, the largest size in bytes of a single
  allocation in Rust; `Vec::with_capacity` panics beyond it. -/
structure Host where
  native : Endian
  usizeMax : Nat
  isizeMax : Nat
  deriving DecidableEq, Repr

/-- Hosts that Rust supports (16 to 64 bit pointers; at least 32 bits for
this crate since it converts `u32` lengths to `usize` losslessly,
src/utils.rs:1-18). -/
structure Host.Ok (h : Host) : Prop where
  lower : 2 ^ 32 - 1 ≤ h.usizeMax
  upper : h.usizeMax ≤ 2 ^ 64 - 1
  isize : 2 * h.isizeMax + 1 = h.usizeMax

/-- Arithmetic on `usize` as in a release build, where it wraps around. -/
def Host.wrap (h : Host) (n : Nat) : Nat := n % (h.usizeMax + 1)

theorem Host.wrap_add_left (h : Host) (a b : Nat) : h.wrap (h.wrap a + b) = h.wrap (a + b) := by simp [Host.wrap]
theorem Host.wrap_add_right (h : Host) (a b : Nat) : h.wrap (a + h.wrap b) = h.wrap (a + b) := by simp [Host.wrap]
theorem Host.wrap_of_le {h : Host} {n : Nat} (hn : n ≤ h.usizeMax) : h.wrap n = n := Nat.mod_eq_of_lt (by omega)
theorem Host.wrap_le (h : Host) (n : Nat) : h.wrap n ≤ n := Nat.mod_le _ _
theorem Host.wrap_le_max (h : Host) (n : Nat) : h.wrap n ≤ h.usizeMax := Nat.le_of_lt_succ (Nat.mod_lt _ (Nat.succ_pos _))
theorem Host.wrap_small {h : Host} (hh : h.Ok) {n : Nat} (hn : n < 2 ^ 32) : h.wrap n = n :=
  Host.wrap_of_le (by have := hh.lower; omega)

/-- x86_64. -/
def Host.x64 : Host := ⟨.little, 2 ^ 64 - 1, 2 ^ 63 - 1⟩
/-- A 64-bit big-endian machine (e.g. s390x). -/
def Host.be64 : Host := ⟨.big, 2 ^ 64 - 1, 2 ^ 63 - 1⟩
/-- A 32-bit little-endian machine (e.g. armv7). -/
def Host.le32 : Host := ⟨.little, 2 ^ 32 - 1, 2 ^ 31 - 1⟩

theorem Host.x64_ok : Host.x64.Ok := ⟨by decide, by decide, by decide⟩
theorem Host.be64_ok : Host.be64.Ok := ⟨by decide, by decide, by decide⟩
theorem Host.le32_ok : Host.le32.Ok := ⟨by decide, by decide, by decide⟩

/-- `Endianness::conversion_necessary` — src/endianness.rs:15-20. -/
def Endian.conv (e : Endian) (h : Host) : Bool := e != h.native

/-- `std::io::ErrorKind`, as far as it matters; `other` stands for all kinds
without special treatment. -/
inductive IoKind where
  | unexpectedEof
  | interrupted
  | writeZero
  | other (code : Nat)
  deriving DecidableEq, Repr

/-- Reasons for a panic. -/
inductive Panic where
  | assertFailed
  | sliceIndex
  | divByZero
  | capacityOverflow
  | arithOverflow
  | notImplemented
  | unwrapNone
  | undefined
  deriving DecidableEq, Repr

/-- `speedy::Error` / `ErrorKind` — src/error.rs:7-38, plus outcomes that are
not `Err` in Rust: a panic, and a loop that did not finish within the given
number of iterations (`diverge`).  `illTyped` marks applications of the model
to a value which is not of the type in question; it cannot be written in
Rust.  Simplification: `InvalidUtf8`, `InvalidSystemTime` etc. carry no
payload; the field name in `LengthIsNotTheSameAsLengthAttribute` is dropped. -/
inductive Err where
  | invalidChar
  | invalidEnumVariant
  | invalidUtf8
  | invalidSystemTime
  | zeroNonZero
  | outOfRangeLength
  | outOfRangeUsize
  | unexpectedEndOfInput
  | unexpectedEndOfOutputBuffer
  | inputBufferIsTooSmall (actual expected : Nat)
  | outputBufferIsTooSmall (actual expected : Nat)
  | lengthMismatch
  | expectedConstant (constant : Bytes)
  | unsized
  | endiannessMismatch
  | io (kind : IoKind)
  | panic (p : Panic)
  | diverge
  | illTyped
  deriving DecidableEq, Repr

/-- `Error::custom` — src/error.rs:46-53.  Simplification: the message is a number. -/
def Err.custom (msg : Nat) : Err := .io (.other msg)

/-- `Error::is_eof` / `IsEof for Error` — src/error.rs:127-139. -/
def Err.isEof : Err → Bool
  | .unexpectedEndOfInput => true
  | .unexpectedEndOfOutputBuffer => true
  | .io k => k == .unexpectedEof
  | _ => false

/-- Kind of the `std::io::Error` obtained by `From<Error>` —
src/error.rs:65-80.  (`none` for outcomes that are not errors in Rust.) -/
inductive IoErrKind where
  | same (k : IoKind)
  | unexpectedEof
  | invalidData
  deriving DecidableEq, Repr

/-- src/error.rs:65-80. -/
def Err.toIo : Err → IoErrKind
  | .io k => .same k
  | e => if e.isEof then .unexpectedEof else .invalidData

/-! ## Numbers as bytes -/

/-- The `n` lowest bytes of `v`, lowest first. -/
def leBytes : Nat → Nat → Bytes
  | 0, _ => []
  | n + 1, v => UInt8.ofNat v :: leBytes n (v / 256)

/-- The number whose little-endian bytes are given. -/
def ofLe : Bytes → Nat
  | [] => 0
  | b :: bs => b.toNat + 256 * ofLe bs

/-- The `n` lowest bytes of `v` in the given byte order. -/
def Endian.bytes (e : Endian) (n v : Nat) : Bytes :=
  match e with
  | .little => leBytes n v
  | .big => (leBytes n v).reverse

/-- The number given by bytes in the given byte order. -/
def Endian.num (e : Endian) (bs : Bytes) : Nat :=
  match e with
  | .little => ofLe bs
  | .big => ofLe bs.reverse

/-- `swap_bytes` of an `n`-byte number — src/endianness.rs:28-68 (macro
`emit_wrapper`), src/utils.rs:35-69 for floats (through their bits). -/
def swapBytes (n v : Nat) : Nat := ofLe (leBytes n v).reverse

@[simp] theorem leBytes_length (n v : Nat) : (leBytes n v).length = n := by
  induction n generalizing v with
  | zero => rfl
  | succ n ih => simp [leBytes, ih]

@[simp] theorem Endian.bytes_length (e : Endian) (n v : Nat) : (e.bytes n v).length = n := by
  cases e <;> simp [Endian.bytes]

theorem u8_toNat_lt (b : UInt8) : b.toNat < 256 := UInt8.toNat_lt b

theorem ofLe_lt (bs : Bytes) : ofLe bs < 256 ^ bs.length := by
  induction bs with
  | nil => simp [ofLe]
  | cons b bs ih =>
    have := u8_toNat_lt b
    simp only [ofLe, List.length_cons, Nat.pow_succ]
    omega

theorem ofLe_leBytes (n v : Nat) : ofLe (leBytes n v) = v % 256 ^ n := by
  induction n generalizing v with
  | zero => simp [leBytes, ofLe, Nat.mod_one]
  | succ n ih =>
    have h1 : (256 : Nat) ^ (n + 1) = 256 * 256 ^ n := Nat.pow_succ'
    simp only [leBytes, ofLe, ih, UInt8.toNat_ofNat', h1, Nat.mod_mul (a := 256)]

theorem ofLe_leBytes_of_lt {n v : Nat} (h : v < 256 ^ n) : ofLe (leBytes n v) = v := by
  rw [ofLe_leBytes, Nat.mod_eq_of_lt h]

theorem leBytes_ofLe (bs : Bytes) : leBytes bs.length (ofLe bs) = bs := by
  induction bs with
  | nil => rfl
  | cons b bs ih =>
    have hb := u8_toNat_lt b
    simp only [List.length_cons, leBytes, ofLe]
    have h1 : (b.toNat + 256 * ofLe bs) / 256 = ofLe bs := by omega
    rw [h1, ih]
    congr 1
    apply UInt8.toNat_inj.mp
    rw [UInt8.toNat_ofNat']
    omega

theorem Endian.num_bytes {e : Endian} {n v : Nat} (h : v < 256 ^ n) : e.num (e.bytes n v) = v := by
  cases e <;> simp [Endian.num, Endian.bytes, ofLe_leBytes_of_lt h]

theorem Endian.bytes_num (e : Endian) (bs : Bytes) : e.bytes bs.length (e.num bs) = bs := by
  cases e
  · exact leBytes_ofLe bs
  · simp only [Endian.num, Endian.bytes]
    have := leBytes_ofLe bs.reverse
    rw [List.length_reverse] at this
    rw [this, List.reverse_reverse]

theorem Endian.num_lt (e : Endian) (bs : Bytes) : e.num bs < 256 ^ bs.length := by
  cases e
  · exact ofLe_lt bs
  · have := ofLe_lt bs.reverse
    simpa [Endian.num] using this

theorem leBytes_inj {n a b : Nat} (ha : a < 256 ^ n) (hb : b < 256 ^ n)
    (h : leBytes n a = leBytes n b) : a = b := by
  rw [← ofLe_leBytes_of_lt ha, ← ofLe_leBytes_of_lt hb, h]

theorem swapBytes_lt (n v : Nat) : swapBytes n v < 256 ^ n := by
  have := ofLe_lt (leBytes n v).reverse
  simpa [swapBytes] using this

/-- Swapping the value and storing it in one byte order is storing it in the
other one. -/
theorem leBytes_swapBytes (n v : Nat) : leBytes n (swapBytes n v) = (leBytes n v).reverse := by
  have := leBytes_ofLe (leBytes n v).reverse
  simpa [swapBytes] using this

theorem bytes_swapBytes (e : Endian) (n v : Nat) :
    e.bytes n (swapBytes n v) = (e.bytes n v).reverse := by
  cases e <;> simp [Endian.bytes, leBytes_swapBytes]

theorem swapBytes_num (e : Endian) (bs : Bytes) :
    swapBytes bs.length (e.num bs) = e.num bs.reverse := by
  cases e
  · simp [swapBytes, Endian.num, leBytes_ofLe]
  · simp only [swapBytes, Endian.num]
    have := leBytes_ofLe bs.reverse
    rw [List.length_reverse] at this
    rw [this]

theorem swapBytes_swapBytes {n v : Nat} (h : v < 256 ^ n) : swapBytes n (swapBytes n v) = v := by
  rw [swapBytes, leBytes_swapBytes, List.reverse_reverse, ofLe_leBytes_of_lt h]

end Verif
