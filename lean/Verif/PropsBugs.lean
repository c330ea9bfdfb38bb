import Verif.PropsSafe
import Verif.PropsAgree
import Verif.PropsWrite

/-!
# Counterexamples to round trips

Why the theorems on round trips (C01, C03, C04, C06, C07, C40, C41) exclude some types and values: for
each excluded class a concrete type and value for which the claim is false.
-/

namespace Verif

open Samples

/-- `#[repr(transparent)] struct Tagged { #[speedy(constant_prefix = b"x")] n: u16 }` -/
def tagged16 : Ty := .struct ⟨.transparent, 2, 2, [0], true⟩ (.cons { pre := [0x78] } (.prim .u16) .nil)

/-- `#[repr(transparent)] struct Wrapped { #[speedy(skip)] n: u16 }` -/
def skipped16 : Ty := .struct ⟨.transparent, 2, 2, [0], true⟩ (.cons { skip := true, dflt := .num 9 } (.prim .u16) .nil)

/-- `#[speedy(peek_tag, tag_type = u8)] enum Peek { #[speedy(tag = 1)] A { x: u8 }, #[speedy(tag = 2)] B { x: u8, y: u8 } }` -/
def peekEnum : Ty := .enum ⟨.u8, true, 0⟩ (.cons 1 (.cons {} (.prim .u8) .nil) (.cons 2 (.cons {} (.prim .u8) (.cons {} (.prim .u8) .nil)) .nil))

/-- The type can be declared (its layout is one rustc may choose, the derive macro accepts it) and the value is one of it: what a
counterexample must satisfy to say something about the code. -/
def Real (t : Ty) (v : Val) : Prop := layoutOk x64 t = true ∧ declOk t = true ∧ hasTy x64 t v

/-- Proves `Real` of closed terms. -/
macro "real" : tactic => `(tactic|
  (refine ⟨by decide, by decide, ?_⟩
   simp [hasTy, hasTyFields, hasTyVariants, tagged16, skipped16, peekEnum, only, lenient] <;> decide))

/-- **C01 is false** for slices of transparent structs with attributes (excluded by `regular`): a `Vec<Tagged>` of one
element is written without the prefix, which the length check at reading counts, so that reading fails. -/
theorem C01_false_transparent :
    Real (.seq .vec tagged16) (.list [.pair (.num 5) .unit]) ∧
    writeToVec x64 .little (.seq .vec tagged16) (.list [.pair (.num 5) .unit]) (fun _ => 0) = .ok [1, 0, 0, 0, 5, 0] ∧
    readFromBuffer x64 .little (.seq .vec tagged16) 4096 [1, 0, 0, 0, 5, 0] = .error .unexpectedEndOfInput := by
  refine ⟨by real, ?_⟩
  decide

/-- **C03 and C04 are false** for them in the other byte order: `bytes_needed` does not count the prefix, which is written in
this case: writing to a stream succeeds with 7 bytes, and writing to a vector fails. -/
theorem C03_C04_false :
    Real (.seq .vec tagged16) (.list [.pair (.num 5) .unit]) ∧
    bytesNeeded x64 (.seq .vec tagged16) (.list [.pair (.num 5) .unit]) = .ok 6 ∧
    (writeToStream x64 .big (.seq .vec tagged16) (.list [.pair (.num 5) .unit]) ⟨[], []⟩) =
      (.ok (), ⟨[0, 0, 0, 1, 0x78, 0, 5], []⟩) ∧
    writeToVec x64 .big (.seq .vec tagged16) (.list [.pair (.num 5) .unit]) (fun _ => 0) =
      .error .unexpectedEndOfOutputBuffer := by
  refine ⟨by real, ?_⟩
  decide

/-- Where writing to a vector succeeds for such a type, a buffer and a stream get the same. -/
example : ∃ n, bytesNeeded x64 (.seq .vec tagged16) (.list [.pair (.num 5) .unit]) = .ok n ∧ [1, 0, 0, 0, 5, 0].length ≤ n ∧
    (∀ junk', writeToVec x64 .little (.seq .vec tagged16) (.list [.pair (.num 5) .unit]) junk' = .ok [1, 0, 0, 0, 5, 0]) ∧
    (∀ buf : Bytes, n ≤ buf.length → writeToBuffer x64 .little (.seq .vec tagged16) (.list [.pair (.num 5) .unit]) buf =
      (.ok (), [1, 0, 0, 0, 5, 0] ++ buf.drop 6)) ∧
    (∀ s : Sink, s.Works → ∃ s', writeToStream x64 .little (.seq .vec tagged16) (.list [.pair (.num 5) .unit]) s = (.ok (), s') ∧
      s'.got = s.got ++ [1, 0, 0, 0, 5, 0]) :=
  C04_same_bytes C01_false_transparent.2.1

/-- **C01 is false** for a struct of transparent structs in the other byte order: reading a `Vec` of them panics
(`speedy_flip_endianness` is not implemented for transparent structs). -/
theorem C01_false_panic : ∃ t : Ty, ∃ v : Val, ∃ bs : Bytes, Real t v ∧
    writeToVec x64 .big t v (fun _ => 0) = .ok bs ∧ readFromBuffer x64 .big t 4096 bs = .error (.panic .notImplemented) := by
  refine ⟨.seq .vec (.struct ⟨.c, 4, 2, [0, 2], true⟩ (.cons {} (.prim .u16)
    (.cons {} (.struct ⟨.transparent, 2, 2, [0], true⟩ (.cons {} (.prim .u16) .nil)) .nil))),
    .list [.pair (.num 1) (.pair (.pair (.num 2) .unit) .unit)], [0, 0, 0, 1, 0, 1, 0, 2], ?_, by decide, by decide⟩
  refine ⟨by decide, by decide, ?_⟩
  simp [hasTy, hasTyFields, Prim.size, sizeOf]
  decide

/-- **C01 is false** for `HashSet`s of empty structs: reading panics. -/
theorem C01_false_empty_struct : ∃ v : Val, ∃ bs : Bytes, Real (.set (.struct ⟨.rust, 0, 1, [], true⟩ .nil)) v ∧
    writeToVec x64 .little (.set (.struct ⟨.rust, 0, 1, [], true⟩ .nil)) v (fun _ => 0) = .ok bs ∧
    readFromBuffer x64 .little (.set (.struct ⟨.rust, 0, 1, [], true⟩ .nil)) 4096 bs = .error (.panic .divByZero) := by
  exact ⟨.list [.unit], [1, 0, 0, 0], by real, by decide, by decide⟩

/-- **C06 is false** for a `Vec` of a type of size zero with an encoding (an enum with one variant): the tags are written and not read, and
whatever follows is read from the wrong place. -/
theorem C06_false_zst :
    Real (.pair (.seq .vec only) (.pair (.prim .u8) .unit)) (.pair (.list [.variant 0 .unit]) (.pair (.num 7) .unit)) ∧
    writeToVec x64 .little (.pair (.seq .vec only) (.pair (.prim .u8) .unit))
      (.pair (.list [.variant 0 .unit]) (.pair (.num 7) .unit)) (fun _ => 0) = .ok [1, 0, 0, 0, 0, 0, 0, 0, 7] ∧
    readFromBuffer x64 .little (.pair (.seq .vec only) (.pair (.prim .u8) .unit)) 4096 [1, 0, 0, 0, 0, 0, 0, 0, 7] =
      .ok (.pair (.list [.variant 0 .unit]) (.pair (.num 0) .unit)) := by
  refine ⟨by real, ?_⟩
  decide

/-- **C01 is false** for an exhausted `RangeInclusive` (excluded by `canon`): iterating `1..=1` once makes it empty, and
writing and reading it makes it `1..=1` again. -/
theorem C01_false_exhausted :
    Real (.rangeInc (.prim .u8)) (.pair (.num 1) (.pair (.num 1) (.bool true))) ∧
    writeToVec x64 .little (.rangeInc (.prim .u8)) (.pair (.num 1) (.pair (.num 1) (.bool true))) (fun _ => 0) = .ok [1, 1] ∧
    readFromBuffer x64 .little (.rangeInc (.prim .u8)) 4096 [1, 1] =
      .ok (.pair (.num 1) (.pair (.num 1) (.bool false))) := by
  refine ⟨by real, ?_⟩
  decide

/-- **C01 is false** for skipped fields without their default (by design), and so is **C40**: two values have the same encoding. -/
theorem C01_C40_false_skip :
    Real (skipped16) (.pair (.num 5) .unit) ∧ Real skipped16 (.pair (.num 9) .unit) ∧
    writeToVec x64 .little skipped16 (.pair (.num 5) .unit) (fun _ => 0) = .ok [] ∧
    writeToVec x64 .little skipped16 (.pair (.num 9) .unit) (fun _ => 0) = .ok [] ∧
    readFromBuffer x64 .little skipped16 4096 [] = .ok (.pair (.num 9) .unit) := by
  refine ⟨by real, by real, ?_⟩
  decide

/-- **C01 is false** for enums with `peek_tag` whose first field is not the tag: `B { x: 1, y: 5 }` is read as `A { x: 1 }`. -/
theorem C01_false_peek :
    Real (peekEnum) (.variant 1 (.pair (.num 1) (.pair (.num 5) .unit))) ∧
    writeToVec x64 .little peekEnum (.variant 1 (.pair (.num 1) (.pair (.num 5) .unit))) (fun _ => 0) = .ok [1, 5] ∧
    readFromBuffer x64 .little peekEnum 4096 [1, 5] = .ok (.variant 0 (.pair (.num 1) .unit)) := by
  refine ⟨by real, ?_⟩
  decide

/-- **C01 is false** for references to numbers in the other byte order: they are written, and cannot be read. -/
theorem C01_false_reference :
    Real (.seq .ref (.prim .u16)) (.list [.num 1]) ∧
    writeToVec x64 .big (.seq .ref (.prim .u16)) (.list [.num 1]) (fun _ => 0) = .ok [0, 0, 0, 1, 0, 1] ∧
    readFromBuffer x64 .big (.seq .ref (.prim .u16)) 4096 [0, 0, 0, 1, 0, 1] = .error .endiannessMismatch := by
  refine ⟨by real, ?_⟩
  decide

/-- `struct Names<'a> { names: &'a [String] }` -/
def names : Ty := .struct ⟨.rust, 24, 8, [0], false⟩ (.cons {} (.seq .ref (.str .owned)) .nil)

/-- **C01 is false** for references to elements which are not plain memory, in fields of derived structs (elsewhere the compiler
rejects them): one after another they are written, but at reading the bytes are taken for the memory of the elements
(speedy-derive/src/lib.rs:1571-1602).  Here there are not enough of them; were there more, they would be taken for pointers. -/
theorem C01_false_reference_elements :
    Real names (.pair (.list [.bytes [97, 98, 99]]) .unit) ∧
    writeToVec x64 .little names (.pair (.list [.bytes [97, 98, 99]]) .unit) (fun _ => 0) = .ok [1, 0, 0, 0, 3, 0, 0, 0, 97, 98, 99] ∧
    readFromBuffer x64 .little names 4096 [1, 0, 0, 0, 3, 0, 0, 0, 97, 98, 99] = .error .unexpectedEndOfInput := by
  refine ⟨⟨by decide, by decide, ?_⟩, ?_⟩
  · simp [names, hasTy, hasTyFields] <;> decide
  · decide

/-- **C07 is false** for fields with `default_on_eof`, by design (excluded by `ends`): a proper part of an encoding is read as another
value. -/
theorem C07_false_eof :
    Real (lenient) (.pair (.num 5) (.pair (.num 6) .unit)) ∧
    writeToVec x64 .little lenient (.pair (.num 5) (.pair (.num 6) .unit)) (fun _ => 0) = .ok [5, 0, 0, 0, 6] ∧
    readFromBuffer x64 .little lenient 4096 [5, 0, 0, 0] = .ok (.pair (.num 5) (.pair (.num 0) .unit)) := by
  refine ⟨by real, ?_⟩
  decide

/-- A trailing part of an element is lost with `length = ..`: five bytes are read as one `u32`, without an error. -/
theorem C07_false_rest :
    readWithLengthFromBuffer x64 .little (.struct ⟨.rust, 24, 8, [0], false⟩ (.cons { len := some .untilEof } (.seq .vec (.prim .u32)) .nil))
      4096 [1, 0, 0, 0, 2] = (.ok (.pair (.list [.num 1]) .unit), 4) := by
  decide

/-- **C03 is false** in the other direction: `bytes_needed` succeeds for a time before the epoch, which cannot be written. -/
theorem C03_false_time :
    Real (.systemTime) (.pair (.num (2 ^ 64 - 1)) (.num 0)) ∧
    bytesNeeded x64 .systemTime (.pair (.num (2 ^ 64 - 1)) (.num 0)) = .ok 12 ∧
    writeToVec x64 .little .systemTime (.pair (.num (2 ^ 64 - 1)) (.num 0)) (fun _ => 0) = .error .invalidSystemTime := by
  refine ⟨by real, ?_⟩
  decide

/-- Several inputs give one value: any flag but 0 is `true`, varints may have leading zeros.  (So reading and writing again may change the
bytes.) -/
theorem several_inputs :
    readFromBuffer x64 .little .bool 4096 [1] = .ok (.bool true) ∧ readFromBuffer x64 .little .bool 4096 [2] = .ok (.bool true) ∧
    readFromBuffer x64 .little .varint64 4096 [5] = .ok (.num 5) ∧ readFromBuffer x64 .little .varint64 4096 [0x80, 5] = .ok (.num 5) := by
  decide

end Verif
