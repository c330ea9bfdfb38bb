import Verif.Mem
import Verif.Utf8

/-!
# `Readable::read_from`

All implementations of `Readable` (src/readable_impl.rs,
src/readable_unsized_impl.rs, src/varint.rs, src/ext_uuid.rs) and those
generated by the derive macro (speedy-derive/src/lib.rs), as one recursive
function on types.

The derive macro does not call `read_from` for fields of a container type
which it recognises, but emits code for the container (`read_field_body`,
speedy-derive/src/lib.rs:1402-1678).  That code is the same as in the
implementation of the trait except for the treatment of the length and of
arrays; the parameter `Cx` says which of them applies.
-/

namespace Verif

/-- Where the length of a container comes from: a prefix (with the field's
`default_on_eof`), the value of the expression in `length = expr`, or
`length = ..`. -/
inductive LenR where
  | typed (lt : LenTy) (deof : Bool)
  | fixed (n : Nat)
  | untilEof

/-- Source of the length, and whether the derive macro emits the code (`inl`). -/
structure Cx where
  len : LenR
  inl : Bool

/-- The trait implementations: `private::read_length`, that is `u32`. -/
def Cx.std : Cx := ⟨.typed .u32 false, false⟩

/-- The context for a field when writing: types not recognised by the macro use
the trait — speedy-derive/src/lib.rs:1409-1432, 1652-1657, 1711-1733.  `prev`
are the preceding fields (which are not skipped), usable in the length
expression; its value is converted to `usize` without loss
(src/private.rs:200-231). -/
def Attrs.wcx (a : Attrs) (prev : List Val) : Cx :=
  if a.opaqueTy then Cx.std
  else match a.len with
    | some (.typed lt) => ⟨.typed lt a.defaultOnEof, true⟩
    | some (.expr f) => ⟨.fixed (f prev), true⟩
    | some .untilEof => ⟨.untilEof, true⟩
    | none => ⟨.typed .u32 a.defaultOnEof, true⟩

/-- The cast `as usize` — speedy-derive/src/lib.rs:1410. -/
def LenR.cast (h : Host) : LenR → LenR
  | .fixed n => .fixed (n % (h.usizeMax + 1))
  | l => l

/-- The context for a field when reading. -/
def Attrs.cx (h : Host) (a : Attrs) (prev : List Val) : Cx :=
  ⟨(a.wcx prev).len.cast h, (a.wcx prev).inl⟩

/-- The macro looks through one `Option` — speedy-derive/src/lib.rs:1263-1267. -/
def Cx.opt (cx : Cx) : Ty → Cx
  | .option _ => Cx.std
  | _ => cx

/-- `default_on_eof_body` — speedy-derive/src/lib.rs:1392-1400. -/
def onEof {α : Type} (p : M α) (d : α) : M α :=
  Prog.bind p fun
    | .ok v => M.pure v
    | .error er => if er.isEof then M.pure d else M.fail er

/-- The length of a container; `none` for `length = ..`. -/
def readLenR (h : Host) (e : Endian) : LenR → M (Option Nat)
  | .typed lt false => M.map some (readLen h e lt)
  | .typed lt true => M.map some (onEof (readLen h e lt) 0)
  | .fixed n => M.pure (some n)
  | .untilEof => M.pure none

/-- The bytes of a `Vec<u8>`. -/
def toBytes (vs : List Val) : Bytes :=
  vs.map fun | .num n => UInt8.ofNat n | _ => 0

/-- `String::from_utf8`, `core::str::from_utf8` — src/private.rs:36-55. -/
def asStr (bs : Bytes) : M Val :=
  if utf8Valid bs then M.pure (.bytes bs) else M.fail .invalidUtf8

/-- Collecting into a set; the order is that of first insertion. -/
def setOf (vs : List Val) : List Val :=
  vs.foldl (fun acc v => if v ∈ acc then acc else acc ++ [v]) []

/-- Insertion into a map: replaces the value of a present key. -/
def mapInsert (k v : Val) : List Val → List Val
  | [] => [.pair k v]
  | .pair k' v' :: rest => if k' = k then .pair k' v :: rest else .pair k' v' :: mapInsert k v rest
  | x :: rest => x :: mapInsert k v rest

/-- Insertion of an entry. -/
def mapStep (acc : List Val) : Val → List Val
  | .pair k v => mapInsert k v acc
  | _ => acc

/-- Collecting entries into a map: the last value of a key wins. -/
def mapOf (vs : List Val) : List Val := vs.foldl mapStep []

/-- `Duration::new` (standard library): carries nanoseconds into seconds and
panics if the seconds overflow. -/
def durationNew (secs nanos : Nat) : M (Nat × Nat) :=
  if secs + nanos / 1000000000 < 2 ^ 64 then
    M.pure (secs + nanos / 1000000000, nanos % 1000000000)
  else M.fail (.panic .arithOverflow)

/-- `Duration::read_from` — src/readable_impl.rs:560-566. -/
def readDuration (h : Host) (e : Endian) : M (Nat × Nat) :=
  M.bind (readNum h e 8) fun secs => M.bind (readNum h e 4) fun nanos => durationNew secs nanos

/-- `Ipv6Addr::read_from` — src/readable_impl.rs:525-535. -/
def readIpv6 (h : Host) (e : Endian) : M Val :=
  M.map (fun octets => .bytes (if !e.conv h then octets.reverse else octets)) (readBytes 16)

/-- `bool::read_from` — src/readable_impl.rs:99-108. -/
def readBool (h : Host) (e : Endian) : M Bool := M.map (fun n => n != 0) (readNum h e 1)

/-- `Vec<u8>` elements. -/
def u8Elem (T : Target) (e : Endian) : Elem :=
  elemOf T (.prim .u8) (M.map .num (readNum T.toHost e 1))

/-- Strings: `String` and `Box<str>` (src/readable_impl.rs:203-216, 684-697),
`Cow<str>` (218-232), `&str` (src/readable_unsized_impl.rs:13-33),
`Reader::read_string` (src/reader.rs:633-638) and fields
(speedy-derive/src/lib.rs:1434-1445, 1473-1484, 1551-1569). -/
def readStr (T : Target) (e : Endian) (k : StrKind) (len : Option Nat) : M Val :=
  match k, len with
  | .owned, some n => M.bind (readVec T.toHost e (u8Elem T e) n) fun vs => asStr (toBytes vs)
  | .owned, none => M.bind (readUntilEof T.fuel (u8Elem T e).read) fun vs => asStr (toBytes vs)
  | .cow, some n => M.bind (readCow T.toHost e (u8Elem T e) n) fun c => asStr (toBytes c.vals)
  | .cow, none => M.bind (readUntilEof T.fuel (u8Elem T e).read) fun vs => asStr (toBytes vs)
  | .ref, some n => M.bind (borrowBytes n) fun r => asStr r.2
  | .ref, none => M.bind borrowRest fun r => asStr r.2

/-- Slices: `Vec` and `Box<[T]>` (src/readable_impl.rs:234-245, 667-681),
`Cow<[T]>` (248-260), `&[T]` (src/readable_unsized_impl.rs:35-55; see `decode`
for the endianness check) and fields (speedy-derive/src/lib.rs:1447-1471,
1538-1549, 1571-1602). -/
def readSeq (T : Target) (e : Endian) (k : SeqKind) (el : Elem) (len : Option Nat) : M Val :=
  match k, len with
  | .vec, some n => M.map .list (readVec T.toHost e el n)
  | .vec, none => M.map .list (readUntilEof T.fuel el.read)
  | .cow, some n => M.map (fun c => .list c.vals) (readCow T.toHost e el n)
  | .cow, none => M.map .list (readUntilEof T.fuel el.read)
  | .ref, some n => M.map (fun r => .list r.2) (readRefSlice T.toHost el n)
  | .ref, none => M.map (fun r => .list r.2) (readRefSliceRest el)

/-- `[T; N]::read_from` — src/readable_impl.rs:588-642 (the second part of the
function reads one value after another); fields: speedy-derive/src/lib.rs:
1604-1616. -/
def readArray (T : Target) (e : Endian) (inl : Bool) (el : Elem) (n : Nat) : M Val :=
  if !inl && el.prim then
    M.bind (readBytes (n * el.size)) fun mem =>
      M.map .list (liftVals el (convSlice T.toHost e el (chunks el.size n mem)))
  else M.map .list (repeatM n el.read)

/-- The tag of an enum — speedy-derive/src/lib.rs:2282-2299. -/
def readTag (h : Host) (e : Endian) (d : EnumDesc) : M Nat :=
  match d.peek, d.tagTy with
  | false, .varint => readVarint h e
  | false, lt => readNum h e lt.minSize
  | true, .varint => peekVarint h e
  | true, lt => peekNum h e lt.minSize

/-- The conversion of what has been read — src/ext_chrono.rs:23, src/ext_regex.rs:19-21, src/ext_glam.rs:89-97. -/
def convert (c : Conv) (v : Val) : M Val :=
  match c.apply v with
  | .ok w => M.pure w
  | .error er => M.fail er

mutual
/-- `Readable::read_from`, by type:
primitives — src/readable_impl.rs:129-135; `usize` — 186-194; `bool` — 99-108;
`char` — 116-121; `NonZero…` — 445-452; atomics — 471-478; `Ipv4Addr` —
512-517; `Ipv6Addr` — 525-535; `IpAddr` — 543-552; `Duration` — 560-566;
`SystemTime` — 575-580 (for a Unix system: seconds since the epoch are an
`i64`); `Endianness` — 428-437; `VarInt64` — src/varint.rs:149-152; `Uuid` —
src/ext_uuid.rs; sets and maps — 28-97, 262-311 and speedy-derive/src/lib.rs:
1486-1536; `&[T; N]` — src/readable_unsized_impl.rs:64-74; `Option` — 341-352
and speedy-derive/src/lib.rs:1624-1633; `Result` — 360-371; ranges — 313-339;
`()` — 379-384; tuples — 391-412; `Box<T>` — 651-658; structs —
speedy-derive/src/lib.rs:1680-1707, 2155-2159; enums — 2254-2304. -/
def decode (T : Target) (e : Endian) : Ty → Cx → M Val
  | .prim p, _ => M.map .num (readNum T.toHost e p.size)
  | .usize, _ => M.bind (readNum T.toHost e 8) fun n =>
      if n > T.usizeMax then M.fail .outOfRangeUsize else M.pure (.num n)
  | .bool, _ => M.map .bool (readBool T.toHost e)
  | .char, _ => M.bind (readNum T.toHost e 4) fun n =>
      if isScalar n then M.pure (.num n) else M.fail .invalidChar
  | .nonZero p, _ => M.bind (readNum T.toHost e p.size) fun n =>
      if n = 0 then M.fail .zeroNonZero else M.pure (.num n)
  | .atomic p, _ => M.map .num (readNum T.toHost e p.size)
  | .ipv4, _ => M.map .num (readNum T.toHost e 4)
  | .ipv6, _ => readIpv6 T.toHost e
  | .ipAddr, _ => M.bind (readNum T.toHost e 1) fun kind =>
      if kind = 0 then M.map (fun n => .variant 0 (.num n)) (readNum T.toHost e 4)
      else if kind = 1 then M.map (.variant 1) (readIpv6 T.toHost e)
      else M.fail .invalidEnumVariant
  | .duration, _ => M.map (fun d => .pair (.num d.1) (.num d.2)) (readDuration T.toHost e)
  | .systemTime, _ => M.bind (readDuration T.toHost e) fun d =>
      if d.1 < 2 ^ 63 then M.pure (.pair (.num d.1) (.num d.2)) else M.fail .invalidSystemTime
  | .endianness, _ => M.bind (readNum T.toHost e 1) fun n =>
      if n = 0 then M.pure (.variant 0 .unit)
      else if n = 1 then M.pure (.variant 1 .unit)
      else M.fail .invalidEnumVariant
  | .varint64, _ => M.map .num (readVarint T.toHost e)
  | .uuid, _ => M.map .bytes (readBytes 16)
  | .str k, cx => M.bind (readLenR T.toHost e cx.len) fun len => readStr T e k len
  | .seq k t, cx =>
      if k == .ref && sizeOf T t != 1 && e.conv T.toHost then M.fail .endiannessMismatch
      else M.bind (readLenR T.toHost e cx.len) fun len =>
        readSeq T e k (elemOf T t (decode T e t Cx.std)) len
  | .set t, cx => M.bind (readLenR T.toHost e cx.len) fun
      | some n => M.map (fun vs => .list (setOf vs))
          (readCollection T.toHost e (elemOf T t (decode T e t Cx.std)) n)
      | none => M.map (fun vs => .list (setOf vs)) (readUntilEof T.fuel (decode T e t Cx.std))
  | .map k v, cx => M.bind (readLenR T.toHost e cx.len) fun
      | some n => M.map (fun vs => .list (mapOf vs))
          (readKV T.toHost e (elemOf T k (decode T e k Cx.std)) (elemOf T v (decode T e v Cx.std)) n)
      | none => M.map (fun vs => .list (mapOf vs)) (readUntilEof T.fuel
          (readPair (elemOf T k (decode T e k Cx.std)) (elemOf T v (decode T e v Cx.std))))
  | .array n t, cx => readArray T e cx.inl (elemOf T t (decode T e t Cx.std)) n
  | .refArray n t, _ =>
      if sizeOf T t != 1 && e.conv T.toHost then M.fail .endiannessMismatch
      else M.map (fun r => .list ((chunks (sizeOf T t) n r.2).map (ofMem T t)))
        (borrowBytes (sizeOf T t * n))
  | .option t, cx => M.bind (readBool T.toHost e) fun flag =>
      if flag then M.map .some (decode T e t (cx.opt t)) else M.pure .none
  | .result t er, _ => M.bind (readBool T.toHost e) fun flag =>
      if flag then M.map (.variant 1) (decode T e t Cx.std)
      else M.map (.variant 0) (decode T e er Cx.std)
  | .range t, _ => M.bind (decode T e t Cx.std) fun a => M.bind (decode T e t Cx.std) fun b =>
      M.pure (.pair a (.pair b .unit))
  | .rangeInc t, _ => M.bind (decode T e t Cx.std) fun a => M.bind (decode T e t Cx.std) fun b =>
      M.pure (.pair a (.pair b (.bool false)))
  | .unit, _ => M.pure .unit
  | .pair a b, _ => M.bind (decode T e a Cx.std) fun x => M.bind (decode T e b Cx.std) fun y =>
      M.pure (.pair x y)
  | .box t, _ => decode T e t Cx.std
  | .via c t, _ => M.bind (decode T e t Cx.std) fun v => convert c v
  | .struct _ fs, _ => decodeFields T e fs []
  | .enum d vs, _ => M.bind (readTag T.toHost e d) fun tag => decodeVariants T e vs tag 0
/-- `readable_body` and `read_field_body` — speedy-derive/src/lib.rs:1680-1707,
1402-1678. -/
def decodeFields (T : Target) (e : Endian) : Fields → List Val → M Val
  | .nil, _ => M.pure .unit
  | .cons a t fs, prev =>
    if a.skip then M.map (.pair a.dflt) (decodeFields T e fs prev)
    else
      let body :=
        if a.varint then M.map .num (readVarint T.toHost e) else decode T e t (a.cx T.toHost prev)
      let body :=
        if a.pre.isEmpty then body
        else M.bind (readConstant T.toHost e (u8Elem T e) a.pre) fun _ => body
      let body := if a.defaultOnEof then onEof body a.dflt else body
      M.bind body fun v => M.map (.pair v) (decodeFields T e fs (prev ++ [v]))
/-- The match on the tag — speedy-derive/src/lib.rs:2254-2264, 2300-2303. -/
def decodeVariants (T : Target) (e : Endian) : Variants → Nat → Nat → M Val
  | .nil, _, _ => M.fail .invalidEnumVariant
  | .cons tag' fs vs, tag, i =>
    if tag = tag' then M.map (.variant i) (decodeFields T e fs [])
    else decodeVariants T e vs tag (i + 1)
end

end Verif
