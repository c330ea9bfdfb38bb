import Verif.PropsBulk

/-!
# `#[speedy(unsafe_is_primitive = always)]`

The attribute makes `speedy_is_primitive()` return `true` for a struct without any check.  It is a promise of the user.  If the promise is kept, the struct
is treated as the model treats structs with `simpleOrSmall`, so that all theorems hold of it.
-/

namespace Verif

/-- What containers see of a struct with the attribute: `is_forced`, `is_ty_potentially_primitive` and `speedy_is_primitive()` are true —
speedy-derive/src/lib.rs:2057-2059, 2126-2136, 2188-2235.  Transparent structs ignore the attribute (2166). -/
def forcedElem (T : Target) (d : StructDesc) (fs : Fields) (rd : M Val) : Elem :=
  { elemOf T (.struct d fs) rd with prim := isPrimitive T (.struct d fs) || !(d.repr == .transparent && fs.length == 1) }

/-- What has to be promised for a struct without `repr(transparent)`: no attributes, fields of which the same is true, and no bytes between them. -/
structure Promise (T : Target) (d : StructDesc) (fs : Fields) : Prop where
  attrs : fs.canBePrimitive = true
  fields : fieldsPrimitive T fs = true
  size : fs.sizeSum T = d.size
  order : d.repr = .packed ∨ d.repr = .c ∨ sortedOffsets d.offsets = true

/-- **C28**: a struct for which the promise is kept is treated like one which speedy recognises itself. -/
theorem C28_forced {T : Target} {d : StructDesc} {fs : Fields} (h : Promise T d fs) (rd : M Val) :
    forcedElem T d fs rd = elemOf T (.struct { d with simpleOrSmall := true } fs) rd := by
  have hc : ∀ m, convMem T (.struct d fs) m = convMem T (.struct { d with simpleOrSmall := true } fs) m := fun m => by
    match fs with
    | .nil => simp only [convMem, flipMem]
    | .cons a t .nil => simp only [convMem, flipMem]
    | .cons a t (.cons _ _ _) => simp only [convMem, flipMem]
  have hp : (isPrimitive T (.struct d fs) || !(d.repr == .transparent && fs.length == 1)) =
      isPrimitive T (.struct { d with simpleOrSmall := true } fs) := by
    simp only [isPrimitive]
    by_cases ht : (d.repr == .transparent && fs.length == 1) = true
    · simp only [ht, if_true, Bool.not_true, Bool.or_false]
    · have ht : (d.repr == .transparent && fs.length == 1) = false := by simpa using ht
      rw [ht]
      simp only [Bool.not_false, Bool.or_true, Bool.false_eq_true, if_false, h.attrs, Bool.true_and, if_true, h.fields, h.size, beq_self_eq_true]
      symm
      simp only [Bool.or_eq_true, beq_iff_eq]
      rcases h.order with h | h | h <;> simp [h]
  simp only [forcedElem, elemOf]
  congr 1
  exact funext hc

/-- Five numbers and a generic parameter: speedy does not look at the layout by itself, but may be told. -/
def fiveZeros : Fields := .cons {} (.prim .u16) (.cons {} (.prim .u16) (.cons {} (.prim .u16) (.cons {} (.prim .u16) (.cons {} (.prim .u16) .nil))))

example : isPrimitive Samples.x64 (.struct ⟨.rust, 10, 2, [0, 2, 4, 6, 8], false⟩ fiveZeros) = false ∧
    Promise Samples.x64 ⟨.rust, 10, 2, [0, 2, 4, 6, 8], false⟩ fiveZeros :=
  ⟨by decide, by decide, by decide, by decide, .inr (.inr (by decide))⟩

/-- `#[speedy(unsafe_is_primitive = always)] struct ForcedPrimitive(char)`, of the crate's own tests (tests/serialization_tests.rs:2603-2605).  In the host's
byte order its memory is its encoding. -/
def forcedChar : StructDesc := ⟨.rust, 4, 4, [0], true⟩

/-- `Vec<ForcedPrimitive>` in a buffer (`readVec`, with the length in front). -/
def readForced (T : Target) (e : Endian) (forced : Bool) (buf : Bytes) : Except Err (List Val) :=
  let t : Ty := .struct forcedChar (.cons {} .char .nil)
  let el := if forced then forcedElem T forcedChar (.cons {} .char .nil) (decode T e t Cx.std) else elemOf T t (decode T e t Cx.std)
  ((M.bind (readNum T.toHost e 4) (readVec T.toHost e el)).run (bufferReader T.toHost) (BufSt.init 4096 buf)).1

/-- **C28, C31, C32 are false** with `unsafe_is_primitive = always` for fields of types which are not numbers, even if the memory is the encoding: in the other
byte order reading panics (`char` does not implement `speedy_flip_endianness`), and in the host's byte order values come out which do not exist (here the
character U+D800).  Without the attribute both are read as they should be. -/
theorem C28_false_forced :
    readForced Samples.x64 .big true [0, 0, 0, 1, 0, 0, 0, 0x61] = .error (.panic .notImplemented) ∧
    readForced Samples.x64 .big false [0, 0, 0, 1, 0, 0, 0, 0x61] = .ok [.pair (.num 0x61) .unit] ∧
    readForced Samples.x64 .little true [1, 0, 0, 0, 0, 0xd8, 0, 0] = .ok [.pair (.num 0xd800) .unit] ∧
    ¬ hasTy Samples.x64 .char (.num 0xd800) ∧
    readForced Samples.x64 .little false [1, 0, 0, 0, 0, 0xd8, 0, 0] = .error .invalidChar := by
  refine ⟨by decide, by decide, by decide, ?_, by decide⟩
  simp [hasTy, isScalar]

/-! ## Cases -/

section Cases
open Samples

example (rd : M Val) := C28_forced (T := Samples.x64) (d := ⟨.rust, 10, 2, [0, 2, 4, 6, 8], false⟩) (fs := fiveZeros)
  ⟨by decide, by decide, by decide, .inr (.inr (by decide))⟩ rd

end Cases

end Verif
