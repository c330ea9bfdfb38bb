import Verif.Lent
import Verif.PropsRecode
import Verif.PropsAnyWrite

/-!
# Numbers which are borrowed have the byte order of the machine: C84

A `&[u16]` shows the bytes of the input as they are. In the other byte order its numbers would be wrong, so that reading it is refused.
-/

namespace Verif

open Samples

/-- References to elements of other sizes than one byte. -/
def wideRef (T : Target) : Ty → Bool
  | .seq .ref t | .refArray _ t => sizeOf T t != 1
  | _ => false

/-- They are refused without any call of the reader. -/
theorem decode_wideRef {T : Target} {e : Endian} (hc : e.conv T.toHost = true) {t : Ty} (ht : wideRef T t = true) (cx : Cx) :
    decode T e t cx = M.fail .endiannessMismatch := by
  unfold wideRef at ht
  split at ht
  · unfold decode
    simp only [beq_self_eq_true, Bool.true_and, hc, Bool.and_true]
    rw [if_pos ht]
  · unfold decode
    simp only [hc, Bool.and_true]
    rw [if_pos ht]
  · cases ht

theorem wideRef_refused {T : Target} {e : Endian} (hc : e.conv T.toHost = true) : Refused true (wideRef T) T e := by
  intro t cx _ ht
  rw [decode_wideRef hc ht]
  exact yield_fail _

/-- **C84**: whatever type is read, by whatever reader (also a hand-written one) and from whatever bytes: in the byte order which is
not that of the machine, what is read contains no `&[T]` and no `&[T; N]` of elements of another size than one byte. -/
theorem C84_reader {σ : Type} (R : ReaderOps σ) {T : Target} {e : Endian} (hc : e.conv T.toHost = true) {t : Ty} {cx : Cx} {s : σ} {v : Val}
    (h : ((decode T e t cx).run R s).1 = .ok v) : ¬ holds (wideRef T) t v :=
  (decode_unlent (wideRef_refused hc) t cx).run (fun h => by cases h) (s := s) v h

/-- **C84** for `read_from_buffer`. -/
theorem C84_buffer {T : Target} {e : Endian} (hc : e.conv T.toHost = true) {t : Ty} {base : Nat} {buf : Bytes} {v : Val}
    (h : readFromBuffer T e t base buf = .ok v) : ¬ holds (wideRef T) t v := by
  unfold readFromBuffer readWithLengthFromBuffer at h
  split at h
  · cases h
  · exact C84_reader (bufferReader T.toHost) hc h

/-- **C84**: the references themselves are refused with `EndiannessMismatch`, and nothing is read: not even the length. -/
theorem C84_refused {T : Target} {e : Endian} (hc : e.conv T.toHost = true) {t : Ty} (ht : wideRef T t = true) {base : Nat} {buf : Bytes}
    (hm : InMem T base buf) :
    readWithLengthFromBuffer T e t base buf =
      (.error (if buf.length < minBytes T t then .inputBufferIsTooSmall buf.length (minBytes T t) else .endiannessMismatch), 0) := by
  unfold readWithLengthFromBuffer
  split
  · rfl
  · rw [decode_wideRef hc ht]
    exact Prod.ext rfl (by show wsub T.toHost base base = 0; rw [wsub_eq (Nat.le_refl _) (by have := hm.top; omega)]; omega)

/-- **C84**: in the byte order of the machine, and for numbers of one byte in both, the slice holds the numbers which were written. -/
theorem C84_native {T : Target} (hT : T.Ok) {e : Endian} {p : Prim} (hp : e.conv T.toHost = false ∨ p.size = 1) {v : Val}
    (hv : hasTy T (.seq .ref (.prim p)) v) {bs : Bytes} {junk : Nat → UInt8} (hw : writeToVec T e (.seq .ref (.prim p)) v junk = .ok bs)
    {base : Nat} (hm : InMem T base bs) : readFromBuffer T e (.seq .ref (.prim p)) base bs = .ok v := by
  refine C01_round_trip_partial hT (by simp [layoutOk]) (by simp [declOk]) ?_ hv ?_ hw (by simp [ends]) hm
  · have := p.size_pos
    rcases hp with hp | hp <;> simp [regular, hp, vecOk, bulkOk, convOk, isPrimitive, sizeOf, bulkPlain]
    omega
  · cases v <;> simp [canon, hasTy] at hv ⊢

/-- `struct Samples<'a> { rate: u32, channels: Option<&'a [i16]> }` -/
def samplesTy : Ty := .struct ⟨.rust, 24, 8, [16, 0], true⟩
  (.cons {} (.prim .u32) (.cons {} (.option (.seq .ref (.prim .i16))) .nil))

/-- On a little-endian machine it can be read in little-endian order; … -/
example : readFromBuffer x64 .little samplesTy 4096 [1, 0, 0, 0, 1, 1, 0, 0, 0, 2, 1] =
      .ok (.pair (.num 1) (.pair (.some (.list [.num 258])) .unit)) ∧
    holds (wideRef x64) samplesTy (.pair (.num 1) (.pair (.some (.list [.num 258])) .unit)) :=
  ⟨by decide, by simp [holdsFields, holds, samplesTy, wideRef, sizeOf, Prim.size]⟩

/-- … in the other one only without samples. -/
example : Endian.big.conv x64.toHost = true ∧
    readFromBuffer x64 .big samplesTy 4096 [0, 0, 0, 1, 1, 0, 0, 0, 1, 1, 2] = .error .endiannessMismatch ∧
    readFromBuffer x64 .big samplesTy 4096 [0, 0, 0, 1, 0] = .ok (.pair (.num 1) (.pair .none .unit)) := by
  decide

/-- Nothing is read. -/
example : wideRef x64 (.seq .ref (.prim .u16)) = true ∧
    readWithLengthFromBuffer x64 .big (.seq .ref (.prim .u16)) 4096 [0, 0, 0, 1, 1, 2] = (.error .endiannessMismatch, 0) := by
  decide

/-- Bytes may be borrowed in both. -/
example : readFromBuffer x64 .big (.seq .ref (.prim .i8)) 4096 [0, 0, 0, 1, 7] = .ok (.list [.num 7]) := by decide

/-! ## Cases -/

section Cases
open Samples

example : ¬ holds (wideRef x64) samplesTy (.pair (.num 1) (.pair .none .unit)) :=
  C84_buffer (e := .big) (base := 4096) (buf := [0, 0, 0, 1, 0]) (by decide) (by decide)
example : ¬ holds (wideRef x64) samplesTy (.pair (.num 1) (.pair .none .unit)) :=
  C84_reader (copyingReader Host.x64) (e := .big) (by decide) (cx := Cx.std) (s := BufSt.init 4096 [0, 0, 0, 1, 0]) (by decide)
example : readWithLengthFromBuffer x64 .big (.seq .ref (.prim .u16)) 4096 [0, 0, 0, 1, 1, 2] = (.error .endiannessMismatch, 0) :=
  C84_refused (by decide) (by decide) ⟨by decide, by decide, by decide⟩
/-- Fewer bytes than any slice takes: this is checked first. -/
example : readWithLengthFromBuffer x64 .big (.seq .ref (.prim .u16)) 4096 [0] = (.error (.inputBufferIsTooSmall 1 4), 0) :=
  C84_refused (by decide) (by decide) ⟨by decide, by decide, by decide⟩
example : readFromBuffer x64 .little (.seq .ref (.prim .u16)) 4096 [1, 0, 0, 0, 2, 1] = .ok (.list [.num 258]) :=
  C84_native x64_ok (.inl (by decide)) (by simp [hasTy, Prim.size]; decide) (junk := fun _ => 0) (by decide) ⟨by decide, by decide, by decide⟩

end Cases

end Verif
