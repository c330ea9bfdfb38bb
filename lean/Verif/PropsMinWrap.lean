import Verif.PropsSafe
import Verif.PropsDebug

/-!
# C08 and C68: computing `minimum_bytes_needed`

`minBytes` computes without bounds.  `minBytesR` and `minBytesD` compute with `usize` as a release build and a debug build do.
-/

namespace Verif

mutual
/-- `minimum_bytes_needed`, as a release build computes it: as `minBytes` (the same lines), but sums and products wrap around. -/
def minBytesR (T : Target) : Ty → Nat
  | .array n t => T.wrap (minBytesR T t * n)
  | .refArray n t => T.wrap (sizeOf T t * n)
  | .range t => T.wrap (minBytesR T t * 2)
  | .rangeInc t => T.wrap (minBytesR T t * 2)
  | .pair a b => T.wrap (minBytesR T a + minBytesR T b)
  | .box t | .via _ t => minBytesR T t
  | .struct _ fs => fieldsMinR T fs 0
  | t => minBytes T t
/-- `get_minimum_bytes` and `sum` — speedy-derive/src/lib.rs:1972-2041; `out` is the sum so far. -/
def fieldsMinR (T : Target) : Fields → Nat → Nat
  | .nil, out => out
  | .cons a t fs, out =>
    let own :=
      if a.defaultOnEof || a.skip then 0
      else match a.len with
        | some (.expr _) | some .untilEof => 0
        | some (.typed lt) =>
          T.wrap ((match t with | .option _ => 1 | _ => lt.minSize) + a.pre.length)
        | none => T.wrap ((if a.varint then 1 else minBytesR T t) + a.pre.length)
    fieldsMinR T fs (T.wrap (out + own))
end

/-- A checked number. -/
def fit (T : Target) (n : Nat) : Option Nat := if n ≤ T.usizeMax then some n else none

mutual
/-- `minimum_bytes_needed`, as a debug build computes it: it panics (`none`) if a sum or product does not fit in `usize`. -/
def minBytesD (T : Target) : Ty → Option Nat
  | .array n t => (minBytesD T t).bind fun m => fit T (m * n)
  | .refArray n t => fit T (sizeOf T t * n)
  | .range t => (minBytesD T t).bind fun m => fit T (m * 2)
  | .rangeInc t => (minBytesD T t).bind fun m => fit T (m * 2)
  | .pair a b => (minBytesD T a).bind fun m => (minBytesD T b).bind fun n => fit T (m + n)
  | .box t | .via _ t => minBytesD T t
  | .struct _ fs => fieldsMinD T fs 0
  | t => some (minBytes T t)
/-- The fields of a struct. -/
def fieldsMinD (T : Target) : Fields → Nat → Option Nat
  | .nil, out => some out
  | .cons a t fs, out =>
    let own :=
      if a.defaultOnEof || a.skip then some 0
      else match a.len with
        | some (.expr _) | some .untilEof => some 0
        | some (.typed lt) =>
          fit T ((match t with | .option _ => 1 | _ => lt.minSize) + a.pre.length)
        | none => (if a.varint then some 1 else minBytesD T t).bind fun m => fit T (m + a.pre.length)
    own.bind fun m => (fit T (out + m)).bind fun out => fieldsMinD T fs out
end

mutual
/-- No arrays of length 0. -/
def fullArrays : Ty → Bool
  | .array n t => n != 0 && fullArrays t
  | .range t | .rangeInc t | .box t | .via _ t => fullArrays t
  | .pair a b => fullArrays a && fullArrays b
  | .struct _ fs => fullFields fs
  | _ => true
/-- The fields of a struct. -/
def fullFields : Fields → Bool
  | .nil => true
  | .cons _ t fs => fullArrays t && fullFields fs
end

theorem wrap_mul_left (h : Host) (a b : Nat) : h.wrap (h.wrap a * b) = h.wrap (a * b) := by simp [Host.wrap, Nat.mod_mul_mod]

section
set_option linter.unusedSectionVars false
variable {T : Target} (hT : T.Ok)
include hT

theorem leaf_wrap {n : Nat} (h : n ≤ 16) : n = T.wrap n := (Host.wrap_small hT.toOk (by omega)).symm

mutual
theorem minBytesR_eq : ∀ t : Ty, minBytesR T t = T.wrap (minBytes T t)
  | .array n t => by simp only [minBytesR, minBytes, minBytesR_eq t, wrap_mul_left]
  | .refArray n t => by simp only [minBytesR, minBytes]
  | .range t => by simp only [minBytesR, minBytes, minBytesR_eq t, wrap_mul_left]
  | .rangeInc t => by simp only [minBytesR, minBytes, minBytesR_eq t, wrap_mul_left]
  | .pair a b => by simp only [minBytesR, minBytes, minBytesR_eq a, minBytesR_eq b, Host.wrap_add_left, Host.wrap_add_right]
  | .box t => by simp only [minBytesR, minBytes, minBytesR_eq t]
  | .via _ t => by simp only [minBytesR, minBytes, minBytesR_eq t]
  | .struct _ fs => by simp only [minBytesR, minBytes, fieldsMinR_eq fs (Nat.zero_le _), Nat.zero_add]
  | .prim p | .nonZero p | .atomic p => by
    simp only [minBytesR, minBytes]
    exact leaf_wrap hT (by cases p <;> decide)
  | .enum ⟨tt, pk, _⟩ _ => by
    simp only [minBytesR, minBytes]
    exact leaf_wrap hT (by cases tt <;> cases pk <;> decide)
  | .usize | .bool | .char | .ipv4 | .ipv6 | .ipAddr | .duration | .systemTime | .endianness | .varint64 | .uuid | .str _ | .seq _ _
  | .set _ | .map _ _ | .option _ | .result _ _ | .unit => by
    simp only [minBytesR, minBytes]
    exact leaf_wrap hT (by omega)
/-- Fields. -/
theorem fieldsMinR_eq : ∀ (fs : Fields) {out : Nat}, out ≤ T.usizeMax → fieldsMinR T fs out = T.wrap (out + fieldsMin T fs)
  | .nil, out, h => by simp only [fieldsMinR, fieldsMin, Nat.add_zero, Host.wrap_of_le h]
  | .cons a t fs, out, h => by
    simp only [fieldsMinR, fieldsMin]
    rw [fieldsMinR_eq fs (Host.wrap_le_max _ _), Host.wrap_add_left, ← Nat.add_assoc]
    have key : ∀ {x y : Nat}, T.wrap (out + x) = T.wrap (out + y) → T.wrap (out + x + fieldsMin T fs) = T.wrap (out + y + fieldsMin T fs) := by
      intro x y hxy
      rw [← Host.wrap_add_left, hxy, Host.wrap_add_left]
    apply key
    split
    · rfl
    · rcases a.len with _ | lt | f | _
      · simp only
        rw [Host.wrap_add_right, Nat.add_comm a.pre.length]
        split
        · rfl
        · rw [minBytesR_eq t, ← Host.wrap_add_right T.toHost out (T.wrap (minBytes T t) + a.pre.length), Host.wrap_add_left,
            Host.wrap_add_right]
      · simp only
        rw [Host.wrap_add_right, Nat.add_comm a.pre.length]
        rfl
      · rfl
      · rfl
end

omit hT in
theorem fit_some {n : Nat} (h : n ≤ T.usizeMax) : fit T n = some n := if_pos h

omit hT in
/-- One sum or product of parts which are not larger. -/
theorem fit_bind {m r : Nat} {f : Nat → Option Nat} (h : m ≤ r) (hf : f m = fit T r) : (fit T m).bind f = fit T r := by
  unfold fit
  by_cases hm : m ≤ T.usizeMax
  · rw [if_pos hm]; exact hf
  · rw [if_neg hm, if_neg (by omega)]; rfl

mutual
theorem minBytesD_eq : ∀ t : Ty, fullArrays t = true → minBytesD T t = fit T (minBytes T t)
  | .array n t, h => by
    simp only [fullArrays, Bool.and_eq_true, bne_iff_ne, ne_eq] at h
    simp only [minBytesD, minBytes, minBytesD_eq t h.2]
    exact fit_bind (Nat.le_mul_of_pos_right _ (by omega)) rfl
  | .refArray n t, _ => by simp only [minBytesD, minBytes]
  | .range t, h | .rangeInc t, h => by
    simp only [fullArrays] at h
    simp only [minBytesD, minBytes, minBytesD_eq t h]
    exact fit_bind (by omega) rfl
  | .pair a b, h => by
    simp only [fullArrays, Bool.and_eq_true] at h
    simp only [minBytesD, minBytes, minBytesD_eq a h.1, minBytesD_eq b h.2]
    exact fit_bind (by omega) (fit_bind (by omega) rfl)
  | .box t, h | .via _ t, h => by
    simp only [fullArrays] at h
    simp only [minBytesD, minBytes, minBytesD_eq t h]
  | .struct _ fs, h => by
    simp only [fullArrays] at h
    simp only [minBytesD, minBytes, fieldsMinD_eq fs (Nat.zero_le _) h, Nat.zero_add]
  | .prim p, _ | .nonZero p, _ | .atomic p, _ => by
    have := hT.lower
    simp only [minBytesD, minBytes]
    exact (fit_some (Nat.le_trans (show _ ≤ 16 by cases p <;> decide) (by omega))).symm
  | .enum ⟨tt, pk, _⟩ _, _ => by
    have := hT.lower
    simp only [minBytesD, minBytes]
    exact (fit_some (Nat.le_trans (show _ ≤ 16 by cases tt <;> cases pk <;> decide) (by omega))).symm
  | .usize, _ | .bool, _ | .char, _ | .ipv4, _ | .ipv6, _ | .ipAddr, _ | .duration, _ | .systemTime, _ | .endianness, _ | .varint64, _
  | .uuid, _ | .str _, _ | .seq _ _, _ | .set _, _ | .map _ _, _ | .option _, _ | .result _ _, _ | .unit, _ => by
    have := hT.lower
    simp only [minBytesD, minBytes]
    exact (fit_some (by omega)).symm
/-- Fields. -/
theorem fieldsMinD_eq : ∀ (fs : Fields) {out : Nat}, out ≤ T.usizeMax → fullFields fs = true →
    fieldsMinD T fs out = fit T (out + fieldsMin T fs)
  | .nil, out, h, _ => by simp only [fieldsMinD, fieldsMin, Nat.add_zero, fit_some h]
  | .cons a t fs, out, h, hf => by
    simp only [fullFields, Bool.and_eq_true] at hf
    simp only [fieldsMinD, fieldsMin]
    have key : ∀ x : Nat, ((fit T x).bind fun m => (fit T (out + m)).bind fun out => fieldsMinD T fs out) =
        fit T (out + (x + fieldsMin T fs)) := by
      intro x
      refine fit_bind (by omega) ?_
      by_cases hx : out + x ≤ T.usizeMax
      · rw [fit_some hx, Option.bind_some, fieldsMinD_eq fs hx hf.2, Nat.add_assoc]
      · unfold fit
        rw [if_neg hx, if_neg (by omega)]
        rfl
    have h0 : (some 0 : Option Nat) = fit T 0 := (fit_some (Nat.zero_le _)).symm
    split
    · rw [h0, key]
    · rcases a.len with _ | lt | f | _
      · simp only
        have : ((if a.varint = true then some 1 else minBytesD T t).bind fun m => fit T (m + a.pre.length)) =
            fit T (a.pre.length + if a.varint = true then 1 else minBytes T t) := by
          split
          · rw [Option.bind_some, Nat.add_comm]
          · rw [minBytesD_eq t hf.1]
            exact fit_bind (by omega) (by rw [Nat.add_comm])
        rw [this, key]
      · simp only
        rw [key, Nat.add_comm a.pre.length]
        rfl
      · simp only [h0, key]
      · simp only [h0, key]
end

/-- **C08**: a release build computes the minimum modulo the size of `usize`: it is the true one if that fits, and never greater. -/
theorem C08_computed (t : Ty) : minBytesR T t = minBytes T t % (T.usizeMax + 1) ∧ minBytesR T t ≤ minBytes T t := by
  rw [minBytesR_eq hT t]
  exact ⟨rfl, Host.wrap_le _ _⟩

/-- **C68**: a debug build computes the same minimum; or the true minimum does not fit in `usize`, and it panics.

Full claim: it never panics.  Missing: minima which do not fit in `usize` (`C68_false_minimum`); arrays of length 0. -/
theorem C68_minimum_partial {t : Ty} (hf : fullArrays t = true) :
    minBytesD T t = if minBytes T t ≤ T.usizeMax then some (minBytesR T t) else none := by
  rw [minBytesD_eq hT t hf, minBytesR_eq hT t]
  unfold fit
  split
  · rw [Host.wrap_of_le (by assumption)]
  · rfl

end

/-! ## Reading with the minimum as it is computed -/

/-- `read_with_length_from_buffer` — src/readable.rs:498-510 — with the minimum as a release build computes it. -/
def readWithLengthFromBufferR (T : Target) (e : Endian) (t : Ty) (base : Nat) (buf : Bytes) : Except Err Val × Nat :=
  if buf.length < minBytesR T t then (.error (.inputBufferIsTooSmall buf.length (minBytesR T t)), 0)
  else
    let r := (decode T e t Cx.std).run (bufferReader T.toHost) (BufSt.init base buf)
    (r.1, wsub T.toHost r.2.ptr base)

section
variable {T : Target} (hT : T.Ok) {e : Endian} {t : Ty} (hl : layoutOk T t = true) (hd : declOk t = true) (hs : sane T t)
  (hm : minOk T t = true) {base : Nat} {buf : Bytes} (htop : base + buf.length ≤ T.usizeMax)
include hT hl hd hs hm htop

/-- **C08**: where the minimum as it is computed rejects less than the true one, reading fails anyway: the same inputs are read, as the same values
and from the same number of bytes.

Missing: as in `C08_minimum_buffer_partial`; and the minima of the elements of a slice, with which its length is checked. -/
theorem C08_computed_read_partial (v : Val) (n : Nat) :
    readWithLengthFromBufferR T e t base buf = (.ok v, n) ↔ readWithLengthFromBuffer T e t base buf = (.ok v, n) := by
  have hc := C08_computed hT t
  constructor
  · intro h
    unfold readWithLengthFromBufferR at h
    split at h
    · cases h
    · simp only [Prod.mk.injEq] at h
      obtain ⟨ha, hp, _⟩ := buffer_run (decode_uses (e := e) hT hl hd hs hm buf.length true) rfl (Nat.le_refl _) htop (.inl rfl)
      rw [h.1] at hp
      have h1 := hp.2.1 rfl
      have h2 := ha.consumed
      unfold readWithLengthFromBuffer
      rw [if_neg (by omega)]
      simp only [h.1, h.2]
  · intro h
    unfold readWithLengthFromBuffer at h
    split at h
    · cases h
    · unfold readWithLengthFromBufferR
      rw [if_neg (by omega)]
      exact h

/-- **C68**: a debug build which reads a buffer of which a release build can make a value does not panic because of the minimum. -/
theorem C68_minimum_read_partial (hf : fullArrays t = true) {v : Val} {n : Nat} (h : readWithLengthFromBuffer T e t base buf = (.ok v, n)) :
    minBytesD T t = some (minBytesR T t) := by
  have h1 := C08_minimum_buffer_partial hT hl hd hs hm htop (.inl h)
  rw [C68_minimum_partial hT hf, if_pos (by omega)]

end

/-! ## Examples -/

namespace MinWrapExamples

open Samples

/-- `#[derive(Readable)] struct Marked( #[speedy(constant_prefix = b"ab")] () )` -/
def marked : Ty := .struct ⟨.rust, 0, 1, [0], false⟩ (.cons { pre := [97, 98] } .unit .nil)

/-- `[Marked; 9223372036854775808]`, a type without size, of which each element is read from two bytes. -/
def many : Ty := .array (2 ^ 63) marked

/-- **C68 is false** for the minimum of `many`: a release build takes it for 0, a debug build panics. -/
theorem _root_.Verif.C68_false_minimum : (layoutOk x64 many = true ∧ declOk many = true) ∧ minBytes x64 many = 2 ^ 64 ∧ minBytesR x64 many = 0 ∧
    minBytesD x64 many = none := by decide

example : minBytesD x64 (.array 3 marked) = some 6 := C68_minimum_partial x64_ok (by decide)

example : readWithLengthFromBufferR x64 .little (.array 2 marked) 4096 [97, 98, 97, 98, 1] =
    (.ok (.list [.pair .unit .unit, .pair .unit .unit]), 4) :=
  (C08_computed_read_partial x64_ok (by decide) (by decide) (by simp [marked, sane, saneFields]) (by decide) (by decide) _ _).mpr (by decide)

end MinWrapExamples

/-! ## Cases -/

section Cases
open Samples

example : minBytesR Samples.x64 Samples.message = 7 ∧ minBytes Samples.x64 Samples.message = 7 := by
  have h := (C08_computed Samples.x64_ok Samples.message).1
  have h2 : minBytes Samples.x64 Samples.message = 7 := by decide
  exact ⟨by rw [h, h2]; decide, h2⟩

open Samples MinWrapExamples in
example : minBytesD x64 (.array 2 marked) = some (minBytesR x64 (.array 2 marked)) :=
  C68_minimum_read_partial x64_ok (e := .little) (by decide) (by decide) (by simp [marked, sane, saneFields]) (by decide) (base := 4096)
    (buf := [97, 98, 97, 98, 1]) (by decide) (by decide) (v := .list [.pair .unit .unit, .pair .unit .unit]) (n := 4) (by decide)

end Cases

end Verif
