import Verif.Connect

/-!
# Concrete targets, types and values for the examples
-/

deriving instance DecidableEq for Except

namespace Verif.Samples

/-- A target with the given host: types without defined layout have 24 bytes,
primitive types are aligned to their size. -/
def onHost (h : Host) : Target := { h with opaqueSize := fun _ => 24, primAlign := Prim.size, fuel := 100000 }

/-- x86-64. -/
def x64 : Target := onHost Host.x64

/-- A 64-bit big-endian machine. -/
def be64 : Target := onHost Host.be64

/-- A 32-bit little-endian machine. -/
def le32 : Target := onHost Host.le32

theorem x64_ok : x64.Ok := ⟨Host.x64_ok, fun _ => Nat.zero_lt_succ 23⟩
theorem be64_ok : be64.Ok := ⟨Host.be64_ok, fun _ => Nat.zero_lt_succ 23⟩
theorem le32_ok : le32.Ok := ⟨Host.le32_ok, fun _ => Nat.zero_lt_succ 23⟩

/-- `#[repr(C)] struct Point { x: u16, y: u16 }` -/
def point : Ty := .struct ⟨.c, 4, 2, [0, 2], true⟩
  (.cons {} (.prim .u16) (.cons {} (.prim .u16) .nil))

/-- `enum Shape { #[speedy(tag = 3)] Nothing, #[speedy(tag = 7)] Poly(Vec<Point>) }` with
`tag_type = u8`. -/
def shape : Ty := .enum ⟨.u8, false, 0⟩
  (.cons 3 .nil (.cons 7 (.cons {} (.seq .vec point) .nil) .nil))

/-- `struct Message { #[speedy(length_type = u8)] name: String, id: u32,
#[speedy(constant_prefix = b"S")] shape: Shape }` -/
def message : Ty := .struct ⟨.rust, 64, 8, [0, 24, 32], true⟩
  (.cons { len := some (.typed .u8) } (.str .owned)
  (.cons {} (.prim .u32)
  (.cons { pre := [0x53] } shape .nil)))

/-- `Message { name: "hi", id: 0x01020304, shape: Poly([Point { 5, 6 }, Point { 7, 8 }]) }` -/
def msg : Val := .pair (.bytes [0x68, 0x69]) (.pair (.num 0x01020304) (.pair
  (.variant 1 (.pair (.list [.pair (.num 5) (.pair (.num 6) .unit), .pair (.num 7) (.pair (.num 8) .unit)]) .unit))
  .unit))

/-- Its encoding in little endian. -/
def msgLe : Bytes :=
  [2, 0x68, 0x69, 4, 3, 2, 1, 0x53, 7, 2, 0, 0, 0, 5, 0, 6, 0, 7, 0, 8, 0]

/-- Its encoding in big endian. -/
def msgBe : Bytes :=
  [2, 0x68, 0x69, 1, 2, 3, 4, 0x53, 7, 0, 0, 0, 2, 0, 5, 0, 6, 0, 7, 0, 8]

theorem msg_ty : hasTy x64 message msg := by
  simp [message, msg, shape, point, hasTy, hasTyFields, hasTyVariants, Prim.size]
  decide

theorem msg_ty_be : hasTy be64 message msg := by
  simp [message, msg, shape, point, hasTy, hasTyFields, hasTyVariants, Prim.size]
  decide

theorem msg_canon (F : Fmt) : canon F message msg := by
  simp [message, msg, shape, point, canon, canonFields, canonVariants]

theorem message_layout : layoutOk x64 message = true := by decide
theorem message_decl : declOk message = true := by decide
theorem message_regular (e : Endian) : regular x64 e message = true := by cases e <;> decide
theorem message_ends : ends true false message = true := by decide
theorem message_strict : ends false true message = true := by decide

theorem msg_vec (junk : Nat → UInt8) : writeToVec x64 .little message msg junk = .ok msgLe :=
  vec_ok x64_ok message_layout message_decl (regular_slice (e := .little) _ (message_regular _)) msg_ty
    (by rfl) (by decide)

theorem msg_mem : InMem x64 4096 msgLe := ⟨by decide, by decide, by decide⟩

end Verif.Samples
