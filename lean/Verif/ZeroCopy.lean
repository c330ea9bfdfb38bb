import Verif.Types

/-!
# Which elements a borrowed slice may have

The trait `ZeroCopyable`: `&[T]` and `&[T; N]` are `Readable` only if `T` implements it (src/readable_unsized_impl.rs:36, 64).
-/

namespace Verif

/-- The type of the context as far as the trait tells contexts apart: `NativeContext`, which is the one of `LittleEndian` and
`BigEndian` which is the byte order of the host (src/context.rs:41-45), or any other type. -/
inductive ContextTy where
  | native | other
  deriving DecidableEq, Repr

/-- `parse_primitive_ty(ty).is_some()` — speedy-derive/src/lib.rs:257-284.  (It looks at how the type is written; here a number is taken to be
written by its own name and not by a `type` alias or a path.) -/
def Ty.namesPrim : Ty → Bool
  | .prim _ => true
  | _ => false

mutual
/-- `T: ZeroCopyable<C, _>`: numbers — src/utils.rs:22-33; derived structs — speedy-derive/src/lib.rs:316-322 (the `where` clause), 2121-2122, 2140
and 2239-2246: those which are `repr(packed)`, or `repr(transparent)` with one field, whatever the attributes of the fields.  Structs
with `unsafe_is_primitive` are left out (they implement it without any condition); no other type implements it. -/
def zeroCopy (c : ContextTy) : Ty → Bool
  | .prim .u8 | .prim .i8 => true
  | .prim _ => c == .native
  | .struct d fs => (d.repr == .packed || (d.repr == .transparent && fs.length == 1)) && zeroCopyFields c (d.repr == .packed) fs
  | _ => false
/-- The constraints of the fields — speedy-derive/src/lib.rs:316-322. -/
def zeroCopyFields (c : ContextTy) (packed : Bool) : Fields → Bool
  | .nil => true
  | .cons _ t fs => ((packed && t.namesPrim) || zeroCopy c t) && zeroCopyFields c packed fs
end

mutual
/-- Guarantees of the Rust reference (type layout) which `structOk` leaves out: a `repr(packed)` struct has no padding and alignment 1
(the macro does not take `repr(packed(2))` for `repr(packed)`, speedy-derive/src/lib.rs:566-588); a `repr(transparent)` struct has the
alignment of its field; `u8` and `i8` have alignment 1. -/
def tight (T : Target) : Ty → Bool
  | .prim p => T.primAlign p == 1 || p.size != 1
  | .struct d fs =>
    (if d.repr == .packed then d.size == fs.sizeSum T && d.align == 1
     else if d.repr == .transparent then (match fs with | .cons _ t .nil => d.align == alignOf T t | _ => true) else true) &&
      tightFields T fs
  | _ => true
/-- Fields. -/
def tightFields (T : Target) : Fields → Bool
  | .nil => true
  | .cons _ t fs => tight T t && tightFields T fs
end

end Verif
