import Verif.Layout
import Verif.Spec
import Verif.EncodeWire

/-!
# Restrictions on types and values under which the format is faithful

Each of them is there because the property fails without it; the
counterexamples are in the `Props…` files and listed in DESIGN.md.
-/

namespace Verif

/-! ## Types -/

mutual
/-- Zero-sized types without encoding (`Vec` does not read elements of size
zero: src/reader.rs:546-571). -/
def zstEmpty : Ty → Bool
  | .unit => true
  | .pair a b => zstEmpty a && zstEmpty b
  | .array n t => n == 0 || zstEmpty t
  | .range t => zstEmpty t
  | .struct _ fs => zstEmptyFields fs
  | _ => false
/-- Fields. -/
def zstEmptyFields : Fields → Bool
  | .nil => true
  | .cons a t fs => zstEmpty t && !a.varint && a.pre.isEmpty && zstEmptyFields fs
end

/-- Elements of a `Vec`: bulk copies are possible for plain types only; elements
of size zero are not read. -/
def vecOk (T : Target) (e : Endian) (t : Ty) : Bool :=
  if isPrimitive T t then bulkOk T e t else sizeOf T t != 0 || zstEmpty t

mutual
/-- Types which are read as they are written:
* element types copied in bulk have no attributes inside `repr(transparent)`
  structs, and none of those nested in other structs if bytes are swapped;
* non-primitive elements of a `Vec` have a size or no encoding;
* primitive elements of sets, maps, `Cow` and references have a size;
* references only in native byte order or for bytes, to primitive elements. -/
def regular (T : Target) (e : Endian) : Ty → Bool
  | .seq k t => vecOk T e t && regular T e t && (match k with
      | .vec => true
      | .cow => !isPrimitive T t || sizeOf T t != 0
      | .ref => isPrimitive T t && sizeOf T t != 0 && (sizeOf T t == 1 || !e.conv T.toHost))
  | .array _ t => (!isPrimitive T t || bulkOk T e t) && regular T e t
  | .refArray _ t => isPrimitive T t && bulkPlain t && (sizeOf T t == 1 || !e.conv T.toHost) && regular T e t
  | .set t => (!isPrimitive T t || (bulkPlain t && sizeOf T t != 0)) && regular T e t
  | .map k v => (!isPrimitive T k || bulkPlain k) && (!isPrimitive T v || bulkPlain v) &&
      (!(isPrimitive T k && isPrimitive T v) || sizeOf T k + sizeOf T v != 0) && regular T e k && regular T e v
  | .option t | .range t | .rangeInc t | .box t | .via _ t => regular T e t
  | .result a b | .pair a b => regular T e a && regular T e b
  | .struct _ fs => regularFields T e fs
  | .enum _ vs => regularVariants T e vs
  | _ => true
/-- Fields.  (A constant is in the memory of the program, so that it has at most
`isize::MAX` bytes.) -/
def regularFields (T : Target) (e : Endian) : Fields → Bool
  | .nil => true
  | .cons a t fs => (decide (a.pre.length ≤ T.isizeMax) && regular T e t) && regularFields T e fs
/-- Variants. -/
def regularVariants (T : Target) (e : Endian) : Variants → Bool
  | .nil => true
  | .cons _ fs vs => regularFields T e fs && regularVariants T e vs
end

mutual
/-- Reading needs at least one byte. -/
def starts : Ty → Bool
  | .array n t => n != 0 && starts t
  | .refArray _ _ => false
  | .range t | .rangeInc t | .box t | .via _ t => starts t
  | .unit => false
  | .pair a _ => starts a
  | .struct _ fs => startsFields fs
  | _ => true
/-- The first field which is read needs at least one byte. -/
def startsFields : Fields → Bool
  | .nil => false
  | .cons a t fs =>
    if a.skip then startsFields fs
    else if a.defaultOnEof then false
    else if a.pre.isEmpty then
      a.varint || (starts t && match a.len with | some (.expr _) | some .untilEof => false | _ => true)
    else true
end

/-- Every element needs at least one byte. -/
def Ty.elemStarts : Ty → Bool
  | .seq _ t => starts t
  | .set t => starts t
  | .map k _ => starts k
  | _ => true

/-- Is this the empty tuple (or the end of a tuple)? -/
def Ty.isUnit : Ty → Bool
  | .unit => true
  | _ => false

/-- Is this the end? -/
def Fields.isNil : Fields → Bool
  | .nil => true
  | _ => false

/-- How the attributes depend on the end of the input. -/
def Attrs.ends (tail strict : Bool) (a : Attrs) (t : Ty) : Bool :=
  !(strict && a.defaultOnEof) &&
  (match a.len with | some .untilEof => tail && !strict && t.elemStarts | _ => true)

mutual
/-- Dependence on the end of the input:
* `length = ..` is allowed only if `tail`, at the end of the value, for
  elements of at least one byte;
* if `strict`, neither `length = ..` nor `default_on_eof` occurs. -/
def ends (tail strict : Bool) : Ty → Bool
  | .seq _ t | .set t | .array _ t | .refArray _ t => ends false strict t
  | .map k v => ends false strict k && ends false strict v
  | .option t => ends tail strict t
  | .range t | .rangeInc t => ends false strict t
  | .box t | .via _ t => ends tail strict t
  | .result a b => ends tail strict a && ends tail strict b
  | .pair a b => ends (tail && b.isUnit) strict a && ends tail strict b
  | .struct _ fs => endsFields tail strict fs
  | .enum _ vs => endsVariants tail strict vs
  | _ => true
/-- Fields. -/
def endsFields (tail strict : Bool) : Fields → Bool
  | .nil => true
  | .cons a t fs => (a.skip || (a.ends (tail && fs.isNil) strict t && ends (tail && fs.isNil) strict t)) &&
      endsFields tail strict fs
/-- Variants. -/
def endsVariants (tail strict : Bool) : Variants → Bool
  | .nil => true
  | .cons _ fs vs => endsFields tail strict fs && endsVariants tail strict vs
end

/-! ## Values -/

mutual
/-- Values which are represented by their encoding: skipped fields have their
default, a `RangeInclusive` has not been iterated to its end, and the payload
of an enum with `peek_tag` begins with the tag. -/
def canon (F : Fmt) : Ty → Val → Prop
  | .seq _ t, .list vs | .set t, .list vs | .array _ t, .list vs | .refArray _ t, .list vs =>
      ∀ v ∈ vs, canon F t v
  | .map k v, .list vs => ∀ a b, Val.pair a (.pair b .unit) ∈ vs → canon F k a ∧ canon F v b
  | .option t, .some v => canon F t v
  | .result t _, .variant 1 v => canon F t v
  | .result _ er, .variant 0 v => canon F er v
  | .range t, .pair a (.pair b _) => canon F t a ∧ canon F t b
  | .rangeInc t, .pair a (.pair b (.bool exhausted)) => exhausted = false ∧ canon F t a ∧ canon F t b
  | .pair a b, .pair x y => canon F a x ∧ canon F b y
  | .box t, v | .via _ t, v => canon F t v
  | .struct _ fs, v => canonFields F fs v
  | .enum d vs, .variant i v => canonVariants F d vs i v
  | _, _ => True
/-- Fields. -/
def canonFields (F : Fmt) : Fields → Val → Prop
  | .cons a t fs, .pair v rest => (if a.skip then v = a.dflt else canon F t v) ∧ canonFields F fs rest
  | _, _ => True
/-- Variants. `peek_u64_varint` works for tags below 128 only. -/
def canonVariants (F : Fmt) (d : EnumDesc) : Variants → Nat → Val → Prop
  | .nil, _, _ => True
  | .cons tag fs _, 0, v => canonFields F fs v ∧ (d.peek = true → (d.tagTy = .varint → tag < 128) ∧
      ∃ bs, wireFields F fs [] v = .ok (wireNum F.e d.tagTy tag ++ bs))
  | .cons _ _ vs, i + 1, v => canonVariants F d vs i v
end

/-- The bytes fit into memory (and the fuel of the model suffices). -/
structure Fits (T : Target) (bs : Bytes) : Prop where
  mem : bs.length ≤ T.isizeMax
  fuel : bs.length < T.fuel

end Verif
