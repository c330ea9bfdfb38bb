import Verif.Twin
import Verif.PropsBugs
import Verif.PropsCount

/-!
# C10: zero-copy and copying buffer reads
-/

namespace Verif

open Samples

/-- **C10**: for types without references `read_with_length_from_buffer` and
`read_with_length_from_buffer_copying_data` return the same — the value or the error, and the number of bytes —
wherever the input is in memory.  This includes fields which depend on the end of the input, `peek_tag`,
elements of size zero and types whose bulk copies are not what writing single values gives.

Full claim: for all owned types.  Missing: `Cow<[T]>` for the element types excluded by `lendable`, for which it is
false (`C10_false`, `C10_false_32`, `C10_false_empty`, `C10_false_prefix`, `C10_false_panic`). -/
theorem C10_buffers_partial {T : Target} (hT : T.Ok) {e : Endian} {t : Ty} (hl : layoutOk T t = true)
    (hn : noRefs t = true) (hc : lendable T e (Lim.std T.toHost) t = true) {base base' : Nat} {buf : Bytes}
    (hm : InMem T base buf) (hm' : InMem T base' buf) :
    readWithLengthFromBuffer T e t base buf = readWithLengthFromBufferCopying T e t base' buf := by
  unfold readWithLengthFromBuffer readWithLengthFromBufferCopying
  split
  · rfl
  · have h := decode_twin hT (e := e) (B := buf.length) hm.fits.mem t Cx.std (Lim.std T.toHost) hl hn (std_admits _)
      (LenTy.cap_le _ _) hc (BufSt.init base buf) (BufSt.init base' buf)
      ⟨BufSt.init_inv hm.top, BufSt.init_inv hm'.top, by rw [BufSt.init_pend, BufSt.init_pend], by
        rw [BufSt.init_pend]; exact Nat.le_refl _⟩
    have h1 := ((bufferReader_at T.toHost base buf).run_inv (decode T e t Cx.std) _ (BufAt.init hm.top)).consumed.1
    have h2 := ((copyingReader_at T.toHost base' buf).run_inv (decode T e t Cx.std) _ (BufAt.init hm'.top)).consumed.1
    refine Prod.ext h.1 ?_
    simp only
    rw [h1, h2, h.2.same]

/-- A field read to the end of the input, behind an optional one and one with a default. -/
def logEntry : Ty := .struct ⟨.rust, 56, 8, [0, 24, 32], true⟩ (.cons { pre := [0x4c] } (.option (.seq .cow (.prim .u16)))
  (.cons { defaultOnEof := true, dflt := .num 7 } (.prim .u16) (.cons { len := some .untilEof } (.str .cow) .nil)))

example (base base' : Nat) (buf : Bytes) (hm : InMem x64 base buf) (hm' : InMem x64 base' buf) :
    readWithLengthFromBuffer x64 .little logEntry base buf =
      readWithLengthFromBufferCopying x64 .little logEntry base' buf :=
  C10_buffers_partial x64_ok (by decide) (by decide) (by decide) hm hm'

/-- It is read from aligned and misaligned memory. -/
example : readWithLengthFromBuffer x64 .little logEntry 4096 [0x4c, 1, 1, 0, 0, 0, 5, 0, 9, 0, 0x61] =
      (.ok (.pair (.some (.list [.num 5])) (.pair (.num 9) (.pair (.bytes [0x61]) .unit))), 11) ∧
    readWithLengthFromBufferCopying x64 .little logEntry 4097 [0x4c, 1, 1, 0, 0, 0, 5, 0, 9, 0, 0x61] =
      (.ok (.pair (.some (.list [.num 5])) (.pair (.num 9) (.pair (.bytes [0x61]) .unit))), 11) := by
  decide

/-- `#[derive(Readable)] #[repr(C)] struct Empty {}`: primitive, of size zero. -/
def emptyC : Ty := .struct ⟨.c, 0, 1, [], true⟩ .nil

/-- **C10 is false** for `Cow<[T]>` with a primitive `T` of size zero: the zero-copy reader divides by the size. -/
theorem C10_false_empty : Real (.seq .cow emptyC) (.list [.unit]) ∧
    readFromBuffer x64 .little (.seq .cow emptyC) 4096 [1, 0, 0, 0] = .error (.panic .divByZero) ∧
    readFromBufferCopying x64 .little (.seq .cow emptyC) 4096 [1, 0, 0, 0] = .ok (.list [.unit]) := by
  refine ⟨⟨by decide, by decide, ?_⟩, by decide⟩
  simp [hasTy, hasTyFields, emptyC]; decide

/-- **C10 is false** for `Cow<[T]>` with a transparent `T` which has attributes: the zero-copy reader ignores the
prefix, the other one demands room for it. -/
theorem C10_false_prefix : Real (.seq .cow tagged16) (.list [.pair (.num 5) .unit]) ∧
    readFromBuffer x64 .little (.seq .cow tagged16) 4096 [1, 0, 0, 0, 5, 0] = .ok (.list [.pair (.num 5) .unit]) ∧
    readFromBufferCopying x64 .little (.seq .cow tagged16) 4096 [1, 0, 0, 0, 5, 0] = .error .unexpectedEndOfInput := by
  refine ⟨by real, by decide⟩

/-- `#[repr(C)] struct Outer { b: Inner }` with `#[repr(transparent)] struct Inner(u8)`. -/
def outer8 : Ty := .struct ⟨.c, 1, 1, [0], true⟩
  (.cons {} (.struct ⟨.transparent, 1, 1, [0], true⟩ (.cons {} (.prim .u8) .nil)) .nil)

/-- **C10 is false** for `Cow<[T]>` with a `T` of size one around a transparent struct, in the other byte order: the
copying reader calls the unimplemented `speedy_flip_endianness`. -/
theorem C10_false_panic : Real (.seq .cow outer8) (.list [.pair (.pair (.num 5) .unit) .unit]) ∧
    readFromBuffer x64 .big (.seq .cow outer8) 4096 [0, 0, 0, 1, 5] =
      .ok (.list [.pair (.pair (.num 5) .unit) .unit]) ∧
    readFromBufferCopying x64 .big (.seq .cow outer8) 4096 [0, 0, 0, 1, 5] = .error (.panic .notImplemented) := by
  refine ⟨⟨by decide, by decide, ?_⟩, by decide⟩
  simp [hasTy, hasTyFields, outer8, Prim.size, sizeOf]; decide

end Verif
