import Verif.Types
import Verif.Varint
import Verif.Utf8
import Verif.Decode

/-!
# Specification: the documented format, values of a type, accepted declarations

Nothing here refers to readers, writers or memory.
-/

namespace Verif

/-! ## The format (README.md:56-102) -/

/-- Byte order, and whether the octets of an `Ipv6Addr` are reversed. -/
structure Fmt where
  e : Endian
  rev6 : Bool
  deriving DecidableEq, Repr

/-- The documented format: an `Ipv6Addr` is an `u128` (README.md:91), that is,
its octets in network order are reversed in little endian. -/
def Fmt.doc (e : Endian) : Fmt := ⟨e, e == .little⟩

/-- One thing after another. -/
def cat (a b : Except Err Bytes) : Except Err Bytes :=
  match a, b with
  | .ok x, .ok y => .ok (x ++ y)
  | .error er, _ => .error er
  | .ok _, .error er => .error er

/-- Many things one after another. -/
def catAll (f : Val → Except Err Bytes) : List Val → Except Err Bytes
  | [] => .ok []
  | v :: vs => cat (f v) (catAll f vs)

/-- A length or tag (README.md:104-123). -/
def wireNum (e : Endian) : LenTy → Nat → Bytes
  | .varint, n => specVarint n
  | lt, n => e.bytes lt.minSize n

/-- The length of a container with `n` elements. -/
def wireLen (e : Endian) (n : Nat) : LenR → Except Err Bytes
  | .typed lt _ => if n > lt.max then .error .outOfRangeLength else .ok (wireNum e lt n)
  | .fixed m => if n = m then .ok [] else .error .lengthMismatch
  | .untilEof => .ok []

/-- Default: an `u32`. -/
def LenR.std : LenR := .typed .u32 false

/-- The length of a field's container. -/
def Attrs.wlen (a : Attrs) (prev : List Val) : LenR :=
  if a.opaqueTy then LenR.std
  else match a.len with
    | some (.typed lt) => .typed lt a.defaultOnEof
    | some (.expr f) => .fixed (f prev)
    | some .untilEof => .untilEof
    | none => .typed .u32 a.defaultOnEof

/-- The length attribute of an `Option` is for what is directly in it. -/
def LenR.opt (l : LenR) : Ty → LenR
  | .option _ => LenR.std
  | _ => l

mutual
/-- The encoding of a value — README.md:56-102. -/
def wire (F : Fmt) : Ty → LenR → Val → Except Err Bytes
  | .prim p, _, .num v => .ok (F.e.bytes p.size v)
  | .usize, _, .num v => .ok (F.e.bytes 8 v)
  | .bool, _, .bool b => .ok [if b then 1 else 0]
  | .char, _, .num v => .ok (F.e.bytes 4 v)
  | .nonZero p, _, .num v => .ok (F.e.bytes p.size v)
  | .atomic p, _, .num v => .ok (F.e.bytes p.size v)
  | .ipv4, _, .num v => .ok (F.e.bytes 4 v)
  | .ipv6, _, .bytes bs => .ok (if F.rev6 then bs.reverse else bs)
  | .ipAddr, _, .variant 0 (.num v) => .ok ([0] ++ F.e.bytes 4 v)
  | .ipAddr, _, .variant 1 (.bytes bs) => .ok ([1] ++ if F.rev6 then bs.reverse else bs)
  | .duration, _, .pair (.num s) (.num n) => .ok (F.e.bytes 8 s ++ F.e.bytes 4 n)
  | .systemTime, _, .pair (.num s) (.num n) =>
      if s < 2 ^ 63 then .ok (F.e.bytes 8 s ++ F.e.bytes 4 n) else .error .invalidSystemTime
  | .endianness, _, .variant 0 .unit => .ok [0]
  | .endianness, _, .variant 1 .unit => .ok [1]
  | .varint64, _, .num v => .ok (specVarint v)
  | .uuid, _, .bytes bs => .ok bs
  | .str _, l, .bytes bs => cat (wireLen F.e bs.length l) (.ok bs)
  | .seq _ t, l, .list vs => cat (wireLen F.e vs.length l) (catAll (wire F t LenR.std) vs)
  | .set t, l, .list vs => cat (wireLen F.e vs.length l) (catAll (wire F t LenR.std) vs)
  | .map k v, l, .list vs => cat (wireLen F.e vs.length l) (catAll (fun kv => match kv with
      | .pair a (.pair b .unit) => cat (wire F k LenR.std a) (wire F v LenR.std b)
      | _ => .error .illTyped) vs)
  | .array n t, _, .list vs =>
      if vs.length ≠ n then .error .illTyped else catAll (wire F t LenR.std) vs
  | .refArray n t, _, .list vs =>
      if vs.length ≠ n then .error .illTyped else catAll (wire F t LenR.std) vs
  | .option _, _, .none => .ok [0]
  | .option t, l, .some v => cat (.ok [1]) (wire F t (l.opt t) v)
  | .result t _, _, .variant 1 v => cat (.ok [1]) (wire F t LenR.std v)
  | .result _ er, _, .variant 0 v => cat (.ok [0]) (wire F er LenR.std v)
  | .range t, _, .pair a (.pair b .unit) => cat (wire F t LenR.std a) (wire F t LenR.std b)
  | .rangeInc t, _, .pair a (.pair b (.bool _)) => cat (wire F t LenR.std a) (wire F t LenR.std b)
  | .unit, _, .unit => .ok []
  | .pair a b, _, .pair x y => cat (wire F a LenR.std x) (wire F b LenR.std y)
  | .box t, _, v | .via _ t, _, v => wire F t LenR.std v
  | .struct _ fs, _, v => wireFields F fs [] v
  | .enum d vs, _, .variant i v => wireVariants F d vs i v
  | _, _, _ => .error .illTyped
/-- Fields in order, each after its constant prefix; skipped ones are left out. -/
def wireFields (F : Fmt) : Fields → List Val → Val → Except Err Bytes
  | .nil, _, .unit => .ok []
  | .cons a t fs, prev, .pair v rest =>
    if a.skip then wireFields F fs prev rest
    else
      let body :=
        if a.varint then (match v with | .num n => .ok (specVarint n) | _ => .error .illTyped)
        else wire F t (a.wlen prev) v
      cat (cat (.ok a.pre) body) (wireFields F fs (prev ++ [v]) rest)
  | _, _, _ => .error .illTyped
/-- Tag (unless `peek_tag`) and fields of the `i`-th variant. -/
def wireVariants (F : Fmt) (d : EnumDesc) : Variants → Nat → Val → Except Err Bytes
  | .nil, _, _ => .error .illTyped
  | .cons tag fs _, 0, v =>
    cat (.ok (if d.peek then [] else wireNum F.e d.tagTy tag)) (wireFields F fs [] v)
  | .cons _ _ vs, i + 1, v => wireVariants F d vs i v
end

/-! ## Values of a type -/

/-- The keys of the entries of a map. -/
def keys : List Val → List Val
  | [] => []
  | .pair k _ :: es => k :: keys es
  | _ :: es => keys es

mutual
/-- The values of a type which exist in the memory of a program on the given
target: objects have at most `isize::MAX` bytes. -/
def hasTy (T : Target) : Ty → Val → Prop
  | .prim p, .num v => v < 256 ^ p.size
  | .usize, .num v => v ≤ T.usizeMax
  | .bool, .bool _ => True
  | .char, .num v => isScalar v = true
  | .nonZero p, .num v => v < 256 ^ p.size ∧ v ≠ 0
  | .atomic p, .num v => v < 256 ^ p.size
  | .ipv4, .num v => v < 256 ^ 4
  | .ipv6, .bytes bs => bs.length = 16
  | .ipAddr, .variant 0 (.num v) => v < 256 ^ 4
  | .ipAddr, .variant 1 (.bytes bs) => bs.length = 16
  | .duration, .pair (.num s) (.num n) => s < 2 ^ 64 ∧ n < 1000000000
  /- seconds since the epoch, as an `i64` bit pattern -/
  | .systemTime, .pair (.num s) (.num n) => s < 2 ^ 64 ∧ n < 1000000000
  | .endianness, .variant 0 .unit => True
  | .endianness, .variant 1 .unit => True
  | .varint64, .num v => v < 2 ^ 64
  | .uuid, .bytes bs => bs.length = 16
  | .str _, .bytes bs => utf8Valid bs = true ∧ bs.length ≤ T.isizeMax
  | .seq _ t, .list vs =>
      (∀ v ∈ vs, hasTy T t v) ∧ vs.length ≤ T.usizeMax ∧ vs.length * sizeOf T t ≤ T.isizeMax
  | .set t, .list vs =>
      (∀ v ∈ vs, hasTy T t v) ∧ vs.Nodup ∧ vs.length ≤ T.usizeMax ∧ vs.length * sizeOf T t ≤ T.isizeMax
  | .map k v, .list vs =>
      (∀ kv ∈ vs, ∃ a b, kv = .pair a (.pair b .unit) ∧ hasTy T k a ∧ hasTy T v b) ∧
      (keys vs).Nodup ∧ vs.length ≤ T.usizeMax ∧ vs.length * (sizeOf T k + sizeOf T v) ≤ T.isizeMax
  | .array n t, .list vs => vs.length = n ∧ ∀ v ∈ vs, hasTy T t v
  | .refArray n t, .list vs => vs.length = n ∧ ∀ v ∈ vs, hasTy T t v
  | .option _, .none => True
  | .option t, .some v => hasTy T t v
  | .result t _, .variant 1 v => hasTy T t v
  | .result _ er, .variant 0 v => hasTy T er v
  | .range t, .pair a (.pair b .unit) => hasTy T t a ∧ hasTy T t b
  | .rangeInc t, .pair a (.pair b (.bool _)) => hasTy T t a ∧ hasTy T t b
  | .unit, .unit => True
  | .pair a b, .pair x y => hasTy T a x ∧ hasTy T b y
  | .box t, v => hasTy T t v
  | .via c t, v => hasTy T t v ∧ c.apply v = .ok v
  | .struct _ fs, v => hasTyFields T fs v
  | .enum _ vs, .variant i v => hasTyVariants T vs i v
  | _, _ => False
/-- Fields. -/
def hasTyFields (T : Target) : Fields → Val → Prop
  | .nil, .unit => True
  | .cons _ t fs, .pair v rest => hasTy T t v ∧ hasTyFields T fs rest
  | _, _ => False
/-- The `i`-th variant. -/
def hasTyVariants (T : Target) : Variants → Nat → Val → Prop
  | .nil, _, _ => False
  | .cons _ fs _, 0, v => hasTyFields T fs v
  | .cons _ _ vs, i + 1, v => hasTyVariants T vs i v
end

/-! ## Declarations accepted by the derive macro -/

/-- `Vec`, `String`, sets, maps, slices: types with a length attribute. -/
def Ty.isContainer : Ty → Bool
  | .str _ | .seq _ _ | .set _ | .map _ _ => true
  | _ => false

/-- Checks of attributes against the type of the field —
speedy-derive/src/lib.rs:1238-1246, 1272-1385. -/
def Attrs.declOk (a : Attrs) (t : Ty) : Bool :=
  (match a.len with
   | none => true
   | some (.typed _) => !a.opaqueTy && (match t with | .option t => t.isContainer | t => t.isContainer)
   | some _ => !a.opaqueTy && t.isContainer) &&
  (!a.varint || match t with | .prim .u64 => true | _ => false)

/-- The tags of all variants. -/
def Variants.tags : Variants → List Nat
  | .nil => []
  | .cons tag _ vs => tag :: vs.tags

mutual
/-- All declarations in a type are accepted by the derive macro: attributes fit
the types, `length = ..` is on the last field (lib.rs:1188-1192), tags are
distinct and fit the tag type (lib.rs:1855-1970, see `Derive.lean`). -/
def declOk : Ty → Bool
  | .seq _ t | .set t | .array _ t | .refArray _ t | .option t | .range t | .rangeInc t | .box t | .via _ t => declOk t
  | .map a b | .result a b | .pair a b => declOk a && declOk b
  | .struct _ fs => declOkFields fs
  | .enum d vs => decide vs.tags.Nodup && vs.tags.all (· ≤ d.tagTy.max) && declOkVariants vs
  | _ => true
/-- Fields. -/
def declOkFields : Fields → Bool
  | .nil => true
  | .cons a t fs => a.declOk t && declOk t && declOkFields fs &&
      (match a.len, fs with | some .untilEof, .cons _ _ _ => false | _, _ => true)
/-- Variants. -/
def declOkVariants : Variants → Bool
  | .nil => true
  | .cons _ fs vs => declOkFields fs && declOkVariants vs
end

end Verif
