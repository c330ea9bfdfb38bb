import Verif.Syntax

/-!
# The derive macro: bounds of the generated implementations

What the generated code asks of the types in a declaration (`readNeeds`, `writeNeeds`), and what its `where` clause and its header
give.  Only `Readable` and `Writable` are looked at; other traits needed by the types themselves (`Hash`, `Ord`, `Clone`, `Default`) have
to be required by the user, and are taken to be.
-/

namespace Verif

/-! ## Declarations -/

/-- A field with its attributes (collected by `synCollect`) and its type. -/
structure GenField where
  attrs : Collected := {}
  ty : SynTy

/-- What is in an `Option`, or the type itself. -/
def GenField.inner (f : GenField) : SynTy := (f.ty.optionInner).getD f.ty

/-- A kind of generic parameter. -/
inductive ParamKind where
  | lifetime
  | type
  | const
  deriving DecidableEq, Repr

/-- A struct with its parameters, `#[repr(…)]` and `#[speedy(unsafe_is_primitive)]`. -/
structure GenStruct where
  params : List (ParamKind × String) := []
  transparent : Bool := false
  packed : Bool := false
  reprC : Bool := false
  forced : Bool := false
  fields : List GenField

/-- The names of the type parameters — speedy-derive/src/lib.rs:307. -/
def typeParams (ps : List (ParamKind × String)) : List String :=
  (ps.filter fun p => p.1 == .type).map (·.2)

/-- The parameters of the implementation, and the arguments of the type it is for — lib.rs:286-305. -/
def headerParams (ps : List (ParamKind × String)) : List (ParamKind × String) :=
  ps.filter (fun p => p.1 == .lifetime) ++ ps.filter (fun p => p.1 == .type)

/-- `Field::can_be_primitive` — lib.rs:753-760 (an empty `constant_prefix` is none: 1251-1255). -/
def GenField.canBePrimitive (f : GenField) : Bool :=
  !f.attrs.defaultOnEof && f.attrs.length.isNone && f.attrs.lengthType.isNone && !f.attrs.skip && !f.attrs.varint &&
    (f.attrs.pre.getD []).isEmpty

/-- `is_ty_transparent` — lib.rs:2121. -/
def GenStruct.isTransparent (s : GenStruct) : Bool := s.fields.length == 1 && s.transparent

/-- `is_ty_potentially_primitive` — lib.rs:2119-2143; `uses_generics` — lib.rs:71-75. -/
def GenStruct.mayBePrimitive (s : GenStruct) : Bool :=
  (s.forced || s.fields.all (·.canBePrimitive)) &&
    (s.forced || s.isTransparent || s.packed || s.reprC || s.fields.all (fun f => (parsePrim f.ty).isSome) ||
      (s.params.isEmpty && s.fields.length ≤ 4))

/-! ## What the generated code asks for -/

/-- A pair. -/
def SynTy.pair (t u : SynTy) : SynTy := .tuple (.cons t (.cons u .nil))

/-- The types which have to be `Readable` for the code reading a field — `read_field_body`, lib.rs:1400-1680; what the functions of the
reader ask for: src/reader.rs:510-700.  The cast in `read_ref_slice` asks for nothing. -/
def readBody (f : GenField) : List SynTy :=
  if f.attrs.skip then []
  else match (parseOpt f.ty).2 with
    | .string | .cowStr => [.name "u8"]
    | .vec t | .cowSlice t | .hashSet t | .btreeSet t | .cowHashSet t | .cowBtreeSet t | .array t _ => [t]
    | .hashMap k v | .btreeMap k v | .cowHashMap k v | .cowBtreeMap k v =>
      match f.attrs.length with
      | some none => [.pair k v]
      | _ => [k, v]
    | .refSliceU8 | .refSlice _ | .refStr => []
    | .primitive _ => if f.attrs.varint then [] else [f.inner]
    | .ty t => [t]

/-- The types whose `minimum_bytes_needed` is called — `get_minimum_bytes`, lib.rs:1972-2028. -/
def minBody (f : GenField) : List SynTy :=
  if f.attrs.defaultOnEof || f.attrs.length.isSome || f.attrs.skip then []
  else if (parseOpt f.ty).1 then []
  else match (parseOpt f.ty).2 with
    | .array t _ => [t]
    | .primitive _ => if f.attrs.varint then [] else [f.ty]
    | .ty _ => [f.ty]
    | _ => []

/-- The types which have to be `Writable` for the code writing a field — `write_field_body`, lib.rs:1710-1815 (skipped fields: 1823);
src/writer.rs:94-120.  Collections are written from iterators over references. -/
def writeBody (f : GenField) : List SynTy :=
  if f.attrs.skip then []
  else match (parseOpt f.ty).2 with
    | .string | .cowStr | .refStr | .refSliceU8 => [.name "u8"]
    | .vec t | .cowSlice t | .refSlice t | .array t _ => [t]
    | .hashSet t | .btreeSet t | .cowHashSet t | .cowBtreeSet t => [.ref none false t]
    | .hashMap k v | .btreeMap k v | .cowHashMap k v | .cowBtreeMap k v => [.pair (.ref none false k) (.ref none false v)]
    | .primitive _ => if f.attrs.varint then [] else [f.inner]
    | .ty t => [t]

/-- The types asked whether they are plain memory, or to change their byte order — lib.rs:2056-2108, 2166-2232. -/
def GenStruct.readPrim (s : GenStruct) : List SynTy :=
  if s.isTransparent || s.mayBePrimitive then s.fields.map (·.ty) else []

/-- The same for writing — lib.rs:2056-2108, 2372-2410. -/
def GenStruct.writePrim (s : GenStruct) : List SynTy :=
  if s.isTransparent || (s.mayBePrimitive && !s.forced) then s.fields.map (·.ty) else []

/-- All types which have to be `Readable` for the implementation of `Readable`. -/
def GenStruct.readNeeds (s : GenStruct) : List SynTy :=
  s.fields.flatMap readBody ++ s.fields.flatMap minBody ++ s.readPrim

/-- All types which have to be `Writable` for the implementation of `Writable`. -/
def GenStruct.writeNeeds (s : GenStruct) : List SynTy :=
  s.fields.flatMap writeBody ++ s.writePrim

/-! ## What it has -/

/-- The types for which bounds are considered — `readable_body`, lib.rs:1678-1692 (also for skipped fields). -/
def GenStruct.readTypes (s : GenStruct) : List SynTy := s.fields.flatMap fun f => boundTypes f.ty

/-- The types for which bounds are considered — `writable_body`, lib.rs:1818-1830. -/
def GenStruct.writeTypes (s : GenStruct) : List SynTy := (s.fields.filter fun f => !f.attrs.skip).flatMap fun f => boundTypes f.ty

/-- The types in the `where` clause — `common_tokens`, lib.rs:308-345. -/
def GenStruct.readBounds (s : GenStruct) : List SynTy := s.readTypes.filter (usesGeneric (typeParams s.params))

/-- The types in the `where` clause — `common_tokens`, lib.rs:308-345. -/
def GenStruct.writeBounds (s : GenStruct) : List SynTy := s.writeTypes.filter (usesGeneric (typeParams s.params))

/-! ## Variants of enums -/

/-- The fields in the pattern for a variant when it is written — `writable_body`, lib.rs:1818-1841, used in 2437-2447: those which are
not skipped, without `..`. -/
def variantPattern (fs : List (String × GenField)) : List String :=
  (fs.filter fun f => !f.2.attrs.skip).map (·.1)

end Verif
