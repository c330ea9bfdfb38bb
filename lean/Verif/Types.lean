import Verif.Basic

/-!
# Rust types and values

A deep embedding of the types for which speedy implements `Readable` and
`Writable`, of the declarations accepted by its derive macros, and of the
values of these types.
-/

namespace Verif

/-- Values.  Numbers (integers, floats, `char`, `Ipv4Addr`) are bit patterns;
tuples, struct fields and ranges are right-nested pairs ending in `unit`
(a map entry is `pair key (pair value unit)`; a `RangeInclusive` ends in
`bool exhausted` instead, its private flag which takes part in `==`);
sets and maps are lists in iteration order. -/
inductive Val where
  | unit
  | num (n : Nat)
  | bool (b : Bool)
  /-- A string (its UTF-8 bytes), `Ipv6Addr` octets or a UUID. -/
  | bytes (bs : Bytes)
  | list (vs : List Val)
  | pair (a b : Val)
  | none
  | some (v : Val)
  /-- A value of an enum (also `Result`: 0 = Err, 1 = Ok; `IpAddr`; `Endianness`):
  index of the variant in its declaration, and its fields. -/
  | variant (i : Nat) (v : Val)
  deriving Repr

mutual
/-- Equality of values. -/
def Val.beq : Val → Val → Bool
  | .unit, .unit => true
  | .num a, .num b => a == b
  | .bool a, .bool b => a == b
  | .bytes a, .bytes b => a == b
  | .list a, .list b => Val.beqL a b
  | .pair a b, .pair c d => Val.beq a c && Val.beq b d
  | .none, .none => true
  | .some a, .some b => Val.beq a b
  | .variant i a, .variant j b => i == j && Val.beq a b
  | _, _ => false
/-- Equality of lists of values. -/
def Val.beqL : List Val → List Val → Bool
  | [], [] => true
  | a :: as, b :: bs => Val.beq a b && Val.beqL as bs
  | _, _ => false
end

mutual
theorem Val.eq_of_beq : ∀ (a b : Val), Val.beq a b = true → a = b
  | .unit, b, h => by cases b <;> simp [Val.beq] at h ⊢
  | .num a, b, h => by cases b <;> simp [Val.beq] at h ⊢; assumption
  | .bool a, b, h => by cases b <;> simp [Val.beq] at h ⊢; assumption
  | .bytes a, b, h => by cases b <;> simp [Val.beq] at h ⊢; assumption
  | .list a, b, h => by
    cases b <;> simp [Val.beq] at h ⊢
    exact Val.eq_of_beqL _ _ h
  | .pair a b, c, h => by
    cases c <;> simp [Val.beq] at h ⊢
    exact ⟨Val.eq_of_beq _ _ h.1, Val.eq_of_beq _ _ h.2⟩
  | .none, b, h => by cases b <;> simp [Val.beq] at h ⊢
  | .some a, b, h => by
    cases b <;> simp [Val.beq] at h ⊢
    exact Val.eq_of_beq _ _ h
  | .variant i a, b, h => by
    cases b <;> simp [Val.beq] at h ⊢
    exact ⟨h.1, Val.eq_of_beq _ _ h.2⟩
theorem Val.eq_of_beqL : ∀ (a b : List Val), Val.beqL a b = true → a = b
  | [], b, h => by cases b <;> simp [Val.beqL] at h ⊢
  | a :: as, b, h => by
    cases b <;> simp [Val.beqL] at h ⊢
    exact ⟨Val.eq_of_beq _ _ h.1, Val.eq_of_beqL _ _ h.2⟩
end

mutual
theorem Val.beq_refl : ∀ (a : Val), Val.beq a a = true
  | .unit | .num a | .bool a | .bytes a | .none => by simp [Val.beq]
  | .list a => by simp [Val.beq, Val.beqL_refl a]
  | .pair a b => by simp [Val.beq, Val.beq_refl a, Val.beq_refl b]
  | .some a => by simp [Val.beq, Val.beq_refl a]
  | .variant i a => by simp [Val.beq, Val.beq_refl a]
theorem Val.beqL_refl : ∀ (a : List Val), Val.beqL a a = true
  | [] => by simp [Val.beqL]
  | a :: as => by simp [Val.beqL, Val.beq_refl a, Val.beqL_refl as]
end

instance : DecidableEq Val := fun a b =>
  if h : Val.beq a b = true then isTrue (Val.eq_of_beq a b h)
  else isFalse (fun hab => h (hab ▸ Val.beq_refl a))

/-- Primitive number types — the list in src/readable_impl.rs:173-184. -/
inductive Prim where
  | u8 | i8 | u16 | i16 | u32 | i32 | u64 | i64 | u128 | i128 | f32 | f64
  deriving DecidableEq, Repr

/-- `size_of`. -/
def Prim.size : Prim → Nat
  | .u8 | .i8 => 1
  | .u16 | .i16 => 2
  | .u32 | .i32 | .f32 => 4
  | .u64 | .i64 | .f64 => 8
  | .u128 | .i128 => 16

/-- `BasicType` of the derive macro (speedy-derive/src/lib.rs:345-360): types
of length prefixes and of enum tags. -/
inductive LenTy where
  | u7 | u8 | u16 | u32 | u64 | varint
  deriving DecidableEq, Repr

/-- Largest number allowed by a length type (src/private.rs:58-120) or tag type
(speedy-derive/src/lib.rs:1864-1871). -/
def LenTy.max : LenTy → Nat
  | .u7 => 127
  | .u8 => 255
  | .u16 => 65535
  | .u32 => 4294967295
  | .u64 | .varint => 18446744073709551615

/-- Smallest encoded size — speedy-derive/src/lib.rs:1996-2001, 2273-2280. -/
def LenTy.minSize : LenTy → Nat
  | .u7 | .u8 | .varint => 1
  | .u16 => 2
  | .u32 => 4
  | .u64 => 8

/-- `LengthKind` and `length_type` of the derive macro —
speedy-derive/src/lib.rs:813-816, 1404-1432.  `expr` is the expression of
`#[speedy(length = expr)]`, a function of the preceding fields which are not
skipped. -/
inductive LenKind where
  | typed (t : LenTy)
  | expr (f : List Val → Nat)
  | untilEof

/-- Kinds of strings. -/
inductive StrKind where
  | owned   -- String, Box<str>
  | cow     -- Cow<str>
  | ref     -- &str
  deriving DecidableEq, Repr

/-- Kinds of slices. -/
inductive SeqKind where
  | vec     -- Vec<T>, Box<[T]>
  | cow     -- Cow<[T]>
  | ref     -- &[T]
  deriving DecidableEq, Repr

/-- `#[repr(...)]` of a struct — speedy-derive/src/lib.rs:582-594. -/
inductive Repr' where
  | rust | c | packed | transparent
  deriving DecidableEq, Repr

/-- A struct declaration as far as the macro and compiler treat it
specially: representation, compiler-chosen layout (`size_of`, `align_of`,
`offset_of!` of each field), and whether
`is_ty_simple || (!uses_generics && fields.len() <= 4)`
(speedy-derive/src/lib.rs:2134-2139; a syntactic matter, left open here).
`unsafe_is_primitive = always` is `simpleOrSmall` if its promise is kept (`C28_forced`), and otherwise not modelled. -/
structure StructDesc where
  repr : Repr'
  size : Nat
  align : Nat
  offsets : List Nat
  simpleOrSmall : Bool

/-- An enum declaration: `tag_type` and `peek_tag` attributes.  `name` tells declarations apart; nothing depends on it. -/
structure EnumDesc where
  tagTy : LenTy
  peek : Bool
  name : Nat
  deriving DecidableEq, Repr

/-- Field attributes — speedy-derive/src/lib.rs:739-751.
* `dflt` is the value of `Default::default()` for the field's type (a user
  supplied value, needed for `skip` and `default_on_eof`).
* `opaqueTy`: the macro does not recognise the type as a container
  syntactically (`Ty::Ty`), e.g. behind a type alias or a `[T; N]` with
  symbolic `N`.
* `pre` is `constant_prefix`; empty means none (lib.rs:1345-1352). -/
structure Attrs where
  skip : Bool := false
  defaultOnEof : Bool := false
  dflt : Val := .unit
  len : Option LenKind := Option.none
  varint : Bool := false
  pre : Bytes := []
  opaqueTy : Bool := false

/-- Conversions done by hand-written implementations of `Readable` with the representation they have read.  Values are
identified with their representation, i.e. with what the `Writable` implementation writes.
* `dateTime`: `chrono::DateTime<Utc>`, read as `(i64, u32)` — src/ext_chrono.rs:15-45.  `ok` tells for which seconds (as an
  `u64` with the same bits) and nanoseconds `timestamp_opt` is not `None`; otherwise `Utc.timestamp` panics.  Relied upon:
  `timestamp()` and `timestamp_subsec_nanos()` of the result are what was given.
* `regex`: `regex::Regex`, read as `Cow<str>` — src/ext_regex.rs:13-45.  `ok` tells which strings `Regex::new` accepts.
* `mask`: `glam::BVec2/3/4`, read as `u8`, of which the lowest `n` bits count — src/ext_glam.rs:79-122.
* `user`: any other implementation which reads a value and then converts it or fails with `Error::custom`. -/
inductive Conv where
  | dateTime (ok : Nat → Nat → Bool)
  | regex (ok : Bytes → Bool)
  | mask (n : Nat)
  | user (f : Val → Except Nat Val)

/-- What the conversion makes of a representation; see `Conv`. -/
def Conv.apply : Conv → Val → Except Err Val
  | .dateTime ok, .pair (.num s) (.num n) => if ok s n then .ok (.pair (.num s) (.num n)) else .error (.panic .unwrapNone)
  | .regex ok, .bytes bs => if ok bs then .ok (.bytes bs) else .error (.custom 0)
  | .mask n, .num m => .ok (.num (m % 2 ^ n))
  | .user f, v => match f v with
    | .ok w => .ok w
    | .error msg => .error (.custom msg)
  | _, _ => .error .illTyped

mutual
/-- Types with `Readable` and `Writable` implementations
(src/readable_impl.rs, src/writable_impl.rs, src/readable_unsized_impl.rs)
and derived ones. An `n`-tuple is a right-nested `pair` ending in `unit`
(src/readable_impl.rs:379-426: elements in order, minimum sizes added). -/
inductive Ty where
  | prim (p : Prim)
  | usize
  | bool
  | char
  | nonZero (p : Prim)
  | atomic (p : Prim)
  | ipv4
  | ipv6
  | ipAddr
  | duration
  | systemTime
  | endianness
  | varint64
  | uuid
  | str (k : StrKind)
  | seq (k : SeqKind) (t : Ty)
  | set (t : Ty)
  | map (k v : Ty)
  | array (n : Nat) (t : Ty)
  | refArray (n : Nat) (t : Ty)
  | option (t : Ty)
  | result (t e : Ty)
  | range (t : Ty)
  | rangeInc (t : Ty)
  | unit
  | pair (a b : Ty)
  | box (t : Ty)
  | via (c : Conv) (t : Ty)
  | struct (d : StructDesc) (fs : Fields)
  | enum (d : EnumDesc) (vs : Variants)
/-- Fields of a struct or variant. -/
inductive Fields where
  | nil
  | cons (a : Attrs) (t : Ty) (fs : Fields)
/-- Variants of an enum, with their tags (as assigned by `Enum::new`). -/
inductive Variants where
  | nil
  | cons (tag : Nat) (fs : Fields) (vs : Variants)
end

/-- What the compiler decides for a target, besides `Host`: the sizes of the
types without a defined layout (`String`, `Option<T>`, enums, ...) and the
alignment of the primitive types.  `fuel` is not part of the target: it bounds
the number of iterations of the loops without a counter (`length = ..`), after
which the model gives up with `Err.diverge`. -/
structure Target extends Host where
  opaqueSize : Ty → Nat
  primAlign : Prim → Nat
  fuel : Nat

/-- A lawful target: only zero-sized types have size zero. -/
structure Target.Ok (T : Target) : Prop extends T.toHost.Ok where
  opaque_pos : ∀ t, 0 < T.opaqueSize t

/-- Number of fields. -/
def Fields.length : Fields → Nat
  | .nil => 0
  | .cons _ _ fs => fs.length + 1

mutual
/-- Is this a zero-sized type?  (Rust reference, type layout.) -/
def Ty.isZst : Ty → Bool
  | .unit => true
  | .pair a b => a.isZst && b.isZst
  | .array n t => n == 0 || t.isZst
  | .range t => t.isZst
  | .struct d _ => d.size == 0
  | .enum _ vs => vs.isZst
  | _ => false
/-- All fields are zero-sized. -/
def Fields.isZst : Fields → Bool
  | .nil => true
  | .cons _ t fs => t.isZst && fs.isZst
/-- An enum is zero-sized if it has at most one variant and no payload. -/
def Variants.isZst : Variants → Bool
  | .nil => true
  | .cons _ fs .nil => fs.isZst
  | .cons _ _ (.cons _ _ _) => false
end

/-- `core::mem::size_of::<T>()`.  Exact for the types which can be copied in
bulk; the target decides the others, except that zero-sized types are known. -/
def sizeOf (T : Target) (t : Ty) : Nat :=
  match t with
  | .prim p => p.size
  | .struct d _ => d.size
  | t => if t.isZst then 0 else T.opaqueSize t

/-- `core::mem::align_of::<T>()` of types which can be copied in bulk. -/
def alignOf (T : Target) (t : Ty) : Nat :=
  match t with
  | .prim p => T.primAlign p
  | .struct d _ => d.align
  | _ => 1

/-- `Field::can_be_primitive` — speedy-derive/src/lib.rs:753-760. -/
def Attrs.canBePrimitive (a : Attrs) : Bool :=
  !a.defaultOnEof && a.len.isNone && !a.skip && !a.varint && a.pre.isEmpty

/-- All fields satisfy `can_be_primitive`. -/
def Fields.canBePrimitive : Fields → Bool
  | .nil => true
  | .cons a _ fs => a.canBePrimitive && fs.canBePrimitive

/-- Sum of the `size_of` the fields — speedy-derive/src/lib.rs:2082-2084. -/
def Fields.sizeSum (T : Target) : Fields → Nat
  | .nil => 0
  | .cons _ t fs => sizeOf T t + fs.sizeSum T

/-- `offset_of` of each field ≤ that of the next —
speedy-derive/src/lib.rs:2094-2103. -/
def sortedOffsets : List Nat → Bool
  | a :: b :: rest => a ≤ b && sortedOffsets (b :: rest)
  | _ => true

mutual
/-- `speedy_is_primitive` — src/readable_impl.rs:129-184 (`true` for
primitives), default `false` (src/readable.rs:660-664), derived structs:
speedy-derive/src/lib.rs:2166-2172 (transparent), 2056-2108, 2119-2143. -/
def isPrimitive (T : Target) : Ty → Bool
  | .prim _ => true
  | .struct d fs =>
    if d.repr == .transparent && fs.length == 1 then
      fieldsPrimitive T fs
    else if fs.canBePrimitive && (d.repr == .packed || d.repr == .c || d.simpleOrSmall) then
      (match fs with | .nil => true | _ => false) ||
        (fieldsPrimitive T fs && fs.sizeSum T == d.size &&
          ((d.repr == .packed || d.repr == .c) || sortedOffsets d.offsets))
    else false
  | _ => false
/-- All fields are primitive. -/
def fieldsPrimitive (T : Target) : Fields → Bool
  | .nil => true
  | .cons _ t fs => isPrimitive T t && fieldsPrimitive T fs
end

end Verif
