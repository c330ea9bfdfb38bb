import Verif.ReaderApi

/-!
# Memory representation of types which can be copied in bulk

Values of primitive number types and derived structs as sequences of bytes in
memory, and the in-place change of endianness.
-/

namespace Verif

/-- Replace a part of the memory of a value, starting at `off`. -/
def splice (mem : Bytes) (off : Nat) (bs : Bytes) : Bytes :=
  mem.take off ++ bs ++ mem.drop (off + bs.length)

mutual
/-- The value in memory: numbers in the byte order of the host, structs as their fields at their offsets.  Memory is taken for
a value for types with `speedy_is_primitive()` and, without any check, for elements of `&[T]`; the latter may be of any type in
a field of a derived struct (speedy-derive/src/lib.rs:1571-1602).  Memory which is not a value of the type (undefined
behaviour in Rust) is given as a number.  Simplification: for types whose memory contains pointers or is not specified the result is
`unit`, which is not a value of these types. -/
def ofMem (T : Target) : Ty → Bytes → Val
  | .prim _, bs => .num (T.native.num bs)
  | .bool, bs => if bs = [0] then .bool false else if bs = [1] then .bool true else .num (T.native.num bs)
  | .char, bs => .num (T.native.num bs)
  | .nonZero _, bs => .num (T.native.num bs)
  | .struct d fs, bs => ofMemFields T fs d.offsets bs
  | _, _ => .unit
/-- The fields of a struct in memory. -/
def ofMemFields (T : Target) : Fields → List Nat → Bytes → Val
  | .cons _ t fs, off :: offs, bs =>
    .pair (ofMem T t ((bs.drop off).take (sizeOf T t))) (ofMemFields T fs offs bs)
  | _, _, _ => .unit
end

mutual
/-- The memory of a value, for types with `speedy_is_primitive()`.  Bytes not
covered by a field (there are none if the type is primitive) are 0. -/
def toMem (T : Target) : Ty → Val → Bytes
  | .prim p, .num n => T.native.bytes p.size n
  | .struct d fs, v => toMemFields T fs d.offsets v (List.replicate d.size 0)
  | _, _ => []
/-- Write fields at their offsets. -/
def toMemFields (T : Target) : Fields → List Nat → Val → Bytes → Bytes
  | .cons _ t fs, off :: offs, .pair v vs, mem =>
    toMemFields T fs offs vs (splice mem off (toMem T t v))
  | _, _, _, mem => mem
end

mutual
/-- `speedy_flip_endianness` — src/readable_impl.rs:156-162 (swap the bytes),
derived structs: speedy-derive/src/lib.rs:2189-2202, 2218-2222 (all fields).
`repr(transparent)` structs do not define it (lib.rs:2166-2187), so that the
default applies, as for all other types; it panics (src/readable.rs:672-676). -/
def flipMem (T : Target) : Ty → Bytes → Except Panic Bytes
  | .prim _, bs => .ok bs.reverse
  | .struct d fs, bs =>
    if d.repr == .transparent && fs.length == 1 then .error .notImplemented
    else flipFields T fs d.offsets bs
  | _, _ => .error .notImplemented
/-- All fields in turn. -/
def flipFields (T : Target) : Fields → List Nat → Bytes → Except Panic Bytes
  | .cons _ t fs, off :: offs, bs =>
    match flipMem T t ((bs.drop off).take (sizeOf T t)) with
    | .error p => .error p
    | .ok b => flipFields T fs offs (splice bs off b)
  | _, _, bs => .ok bs
end

/-- What `speedy_convert_slice_endianness` does to each element if a conversion
is necessary — src/readable_impl.rs:164-168, src/endianness.rs:44-67; derived:
speedy-derive/src/lib.rs:2180-2186 (transparent: that of the field's type),
2224-2233; default: panic (src/readable.rs:678-682). -/
def convMem (T : Target) : Ty → Bytes → Except Panic Bytes
  | .prim p, bs => flipMem T (.prim p) bs
  | .struct d (.cons a t .nil), bs =>
    if d.repr == .transparent then convMem T t bs
    else flipMem T (.struct d (.cons a t .nil)) bs
  | .struct d fs, bs => flipMem T (.struct d fs) bs
  | _, _ => .error .notImplemented

mutual
/-- The value of a zero-sized type. (An empty enum has none; the result is then
arbitrary.) -/
def zstVal : Ty → Val
  | .pair a b => .pair (zstVal a) (zstVal b)
  | .array n t => .list (List.replicate n (zstVal t))
  | .range t => .pair (zstVal t) (.pair (zstVal t) .unit)
  | .struct _ fs => zstFields fs
  | .enum _ (.cons _ fs _) => .variant 0 (zstFields fs)
  | _ => .unit
/-- The values of zero-sized fields. -/
def zstFields : Fields → Val
  | .nil => .unit
  | .cons _ t fs => .pair (zstVal t) (zstFields fs)
end

mutual
/-- `Readable::minimum_bytes_needed()` — src/readable_impl.rs (at each type),
src/readable_unsized_impl.rs, src/varint.rs:154-158, src/ext_uuid.rs; derived
structs: the sum over the fields; derived enums: `min` (lib.rs:2043-2054) is
always 0, then the size of the tag is added or, with `peek_tag`, the maximum
taken (lib.rs:2305-2311).  Without overflow of `usize`; with it: `minBytesR`, `minBytesD`. -/
def minBytes (T : Target) : Ty → Nat
  | .prim p => p.size
  | .usize => 8
  | .bool => 1
  | .char => 4
  | .nonZero p => p.size
  | .atomic p => p.size
  | .ipv4 => 4
  | .ipv6 => 16
  | .ipAddr => 5
  | .duration => 12
  | .systemTime => 12
  | .endianness => 1
  | .varint64 => 1
  | .uuid => 16
  | .str _ => 4
  | .seq _ _ => 4
  | .set _ => 4
  | .map _ _ => 4
  | .array n t => minBytes T t * n
  | .refArray n t => sizeOf T t * n
  | .option _ => 1
  | .result _ _ => 1
  | .range t => minBytes T t * 2
  | .rangeInc t => minBytes T t * 2
  | .unit => 0
  | .pair a b => minBytes T a + minBytes T b
  | .box t | .via _ t => minBytes T t
  | .struct _ fs => fieldsMin T fs
  | .enum d _ => if !d.peek then 0 + d.tagTy.minSize else max 0 d.tagTy.minSize
/-- `get_minimum_bytes` and `sum` — speedy-derive/src/lib.rs:1972-2041.  Options
count 1, containers count the size of their length. -/
def fieldsMin (T : Target) : Fields → Nat
  | .nil => 0
  | .cons a t fs =>
    let own :=
      if a.defaultOnEof || a.skip then 0
      else match a.len with
        | some (.expr _) | some .untilEof => 0
        | some (.typed lt) =>
          a.pre.length + (match t with | .option _ => 1 | _ => lt.minSize)
        | none => a.pre.length + (if a.varint then 1 else minBytes T t)
    own + fieldsMin T fs
end

/-- The operations of an element type used by containers. -/
def elemOf (T : Target) (t : Ty) (rd : M Val) : Elem where
  min := minBytes T t
  size := sizeOf T t
  align := alignOf T t
  prim := isPrimitive T t
  read := rd
  ofMem := ofMem T t
  flip := convMem T t
  zst := zstVal t

end Verif
