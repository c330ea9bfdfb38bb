import Verif.Decode
import Verif.Writers

/-!
# `Writable::write_to`, `bytes_needed` and the entry points

All implementations of `Writable` (src/writable_impl.rs, src/varint.rs,
src/ext_uuid.rs) and those generated by the derive macro
(speedy-derive/src/lib.rs), as in `Decode`.
-/

namespace Verif

/-- `write_length_u7` … `write_length_u64_varint` — src/private.rs:57-128 — and
writing a tag (speedy-derive/src/lib.rs:2422-2429) without the check. -/
def writeLenRaw (h : Host) : LenTy → Nat → WProg
  | .varint, n =>
    .room (viExtra n + 1) <| .num 1 (viFirst n).toNat <|
      if viExtra n = 0 then .ok else .bytes (viRest h n) .ok
  | lt, n => .num lt.minSize n .ok

/-- `VarInt64::write_to` — src/varint.rs:203-275. -/
def writeVarint (h : Host) (v : Nat) : WProg := writeLenRaw h .varint v

/-- `write_length_…` — src/private.rs:57-128.  A `usize` fits into a `u64`. -/
def writeLen (h : Host) (lt : LenTy) (n : Nat) : WProg :=
  match lt with
  | .u64 | .varint => writeLenRaw h lt n
  | _ => if n > lt.max then .fail .outOfRangeLength else writeLenRaw h lt n

/-- `write_length_body` — speedy-derive/src/lib.rs:1711-1733: check against the
`length` attribute, nothing for `length = ..`, or write a length. -/
def writeLenR (h : Host) (n : Nat) : LenR → WProg
  | .typed lt _ => writeLen h lt n
  | .fixed m => if n = m then .ok else .fail .lengthMismatch
  | .untilEof => .ok

/-- One value after another: `write_collection` — src/writer.rs:113-122, and
`for value in slice` — 105-108. -/
def writeEach (f : Val → WProg) : List Val → WProg
  | [] => .ok
  | v :: vs => (f v).seq (writeEach f vs)

/-- `write_slice` — src/writer.rs:98-111. -/
def writeSlice (T : Target) (e : Endian) (t : Ty) (f : Val → WProg) (vs : List Val) : WProg :=
  if isPrimitive T t && (sizeOf T t == 1 || !e.conv T.toHost) then
    .bytes (vs.map (toMem T t)).flatten .ok
  else writeEach f vs

/-- `Ipv6Addr::write_to` — src/writable_impl.rs:614-623. -/
def writeIpv6 (h : Host) (e : Endian) (octets : Bytes) : WProg :=
  .bytes (if !e.conv h then octets.reverse else octets) .ok

/-- `Duration::write_to` — src/writable_impl.rs:655-660. -/
def writeDuration (s n : Nat) : WProg := .num 8 s (.num 4 n .ok)

mutual
/-- `Writable::write_to`, by type (src/writable_impl.rs): primitives — 125-130,
`usize` — 168-172, `bool` — 180-184, `char` — 192-196, `NonZero…` — 536-542,
atomics — 561-567, `Ipv4Addr` — 601-606, `Ipv6Addr` — 614-623, `IpAddr` —
631-643, `Duration` — 655-660, `SystemTime` — 669-674 (Unix: seconds since the
epoch are an `i64`, negative before it), `Endianness` — 495-505, `VarInt64` —
src/varint.rs:203, `Uuid` — src/ext_uuid.rs, strings — 205-252, slices —
254-302, 357-360, sets and maps — 28-108, 305-354, arrays — 682-689 and
speedy-derive/src/lib.rs:1753-1756, `Option` — 395-404 and
speedy-derive/src/lib.rs:1763-1771, `Result` — 416-430, `()` — 444, ranges —
369-391, tuples — 456-468, `Box` — 702-748, structs and enums —
speedy-derive/src/lib.rs:1817-1841, 2365-2455.  Values not of the type give
`Err.illTyped`. -/
def encode (T : Target) (e : Endian) : Ty → Cx → Val → WProg
  | .prim p, _, .num v => .num p.size v .ok
  | .usize, _, .num v => .num 8 v .ok
  | .bool, _, .bool b => .num 1 (if b then 1 else 0) .ok
  | .char, _, .num v => .num 4 v .ok
  | .nonZero p, _, .num v => .num p.size v .ok
  | .atomic p, _, .num v => .num p.size v .ok
  | .ipv4, _, .num v => .num 4 v .ok
  | .ipv6, _, .bytes bs => writeIpv6 T.toHost e bs
  | .ipAddr, _, .variant 0 (.num v) => .num 1 0 (.num 4 v .ok)
  | .ipAddr, _, .variant 1 (.bytes bs) => .num 1 1 (writeIpv6 T.toHost e bs)
  | .duration, _, .pair (.num s) (.num n) => writeDuration s n
  | .systemTime, _, .pair (.num s) (.num n) =>
      if s < 2 ^ 63 then writeDuration s n else .fail .invalidSystemTime
  | .endianness, _, .variant 0 .unit => .num 1 0 .ok
  | .endianness, _, .variant 1 .unit => .num 1 1 .ok
  | .varint64, _, .num v => writeVarint T.toHost v
  | .uuid, _, .bytes bs => .bytes bs .ok
  | .str _, cx, .bytes bs => (writeLenR T.toHost bs.length cx.len).seq (.bytes bs .ok)
  | .seq _ t, cx, .list vs =>
      (writeLenR T.toHost vs.length cx.len).seq (writeSlice T e t (encode T e t Cx.std) vs)
  | .set t, cx, .list vs =>
      (writeLenR T.toHost vs.length cx.len).seq (writeEach (encode T e t Cx.std) vs)
  | .map k v, cx, .list vs =>
      (writeLenR T.toHost vs.length cx.len).seq (writeEach (fun kv => match kv with
        | .pair a (.pair b .unit) => (encode T e k Cx.std a).seq (encode T e v Cx.std b)
        | _ => .fail .illTyped) vs)
  | .array n t, cx, .list vs =>
      if vs.length ≠ n then .fail .illTyped
      else if cx.inl then writeSlice T e t (encode T e t Cx.std) vs
      else writeEach (encode T e t Cx.std) vs
  | .refArray n t, _, .list vs =>
      if vs.length ≠ n then .fail .illTyped else writeEach (encode T e t Cx.std) vs
  | .option _, _, .none => .num 1 0 .ok
  | .option t, cx, .some v => .num 1 1 (encode T e t (cx.opt t) v)
  | .result t _, _, .variant 1 v => .num 1 1 (encode T e t Cx.std v)
  | .result _ er, _, .variant 0 v => .num 1 0 (encode T e er Cx.std v)
  | .range t, _, .pair a (.pair b .unit) => (encode T e t Cx.std a).seq (encode T e t Cx.std b)
  | .rangeInc t, _, .pair a (.pair b (.bool _)) => (encode T e t Cx.std a).seq (encode T e t Cx.std b)
  | .unit, _, .unit => .ok
  | .pair a b, _, .pair x y => (encode T e a Cx.std x).seq (encode T e b Cx.std y)
  | .box t, _, v | .via _ t, _, v => encode T e t Cx.std v
  | .struct _ fs, _, v => encodeFields T e fs [] v
  | .enum d vs, _, .variant i v => encodeVariants T e d vs i v
  | _, _, _ => .fail .illTyped
/-- `writable_body` and `write_field_body` — speedy-derive/src/lib.rs:
1817-1841, 1709-1815. -/
def encodeFields (T : Target) (e : Endian) : Fields → List Val → Val → WProg
  | .nil, _, .unit => .ok
  | .cons a t fs, prev, .pair v rest =>
    if a.skip then encodeFields T e fs prev rest
    else
      let body :=
        if a.varint then (match v with | .num n => writeVarint T.toHost n | _ => .fail .illTyped)
        else encode T e t (a.wcx prev) v
      let body := if a.pre.isEmpty then body else .bytes a.pre body
      body.seq (encodeFields T e fs (prev ++ [v]) rest)
  | _, _, _ => .fail .illTyped
/-- Tag (unless `peek_tag`) and fields of the `i`-th variant —
speedy-derive/src/lib.rs:2422-2455. -/
def encodeVariants (T : Target) (e : Endian) (d : EnumDesc) : Variants → Nat → Val → WProg
  | .nil, _, _ => .fail .illTyped
  | .cons tag fs _, 0, v =>
    (if d.peek then .ok else writeLenRaw T.toHost d.tagTy tag).seq (encodeFields T e fs [] v)
  | .cons _ _ vs, i + 1, v => encodeVariants T e d vs i v
end

/-- `for element in .. { sum += element.bytes_needed()? }`, beginning with `sum`. -/
def sumNeeded (h : Host) (f : Val → Except Err Nat) : Nat → List Val → Except Err Nat
  | sum, [] => .ok sum
  | sum, v :: vs => match f v with
    | .ok a => sumNeeded h f (h.wrap (sum + a)) vs
    | .error er => .error er

/-- Add, with the operator `?`. -/
def addNeeded (h : Host) (a b : Except Err Nat) : Except Err Nat :=
  match a, b with
  | .ok a, .ok b => .ok (h.wrap (a + b))
  | .error er, _ => .error er
  | .ok _, .error er => .error er

/-- The default method: run `write_to` with a `SizeCalculatorCollector`, whose
endianness is `Endianness::NATIVE` — src/writable.rs:243-251, 127-130. -/
def sizeNeeded (T : Target) (t : Ty) (v : Val) : Except Err Nat :=
  match (encode T T.native t Cx.std v).run (sizeCalculator T.toHost) 0 with
  | (.ok _, n) => .ok n
  | (.error er, _) => .error er

/-- `unsafe_is_length!` — src/utils.rs:1-18: `unreachable_unchecked` is called, which is undefined behaviour, if the length is
at least `0x7FFFFFFF_FFFFFFFF`. -/
def isLength (n : Nat) (r : Except Err Nat) : Except Err Nat :=
  if n ≥ 0x7FFFFFFFFFFFFFFF then .error (.panic .undefined) else r

/-- `Writable::bytes_needed`, by type (src/writable_impl.rs): sets and maps — 39-122, 311-354, primitives — 133-136, `usize` — 174-177,
`bool` — 186-189, `char` — 198-201, strings — 211-251, 743-747, slices — 261-301, 363-366, 727-731, ranges — 376-392, `Option` — 406-413,
`Result` — 431-441, `()` — 450-453, tuples — 469-475, `Endianness` — 506-509, references — 518-533, `NonZero…` — 544-547, atomics —
569-572, addresses — 608-652, times — 662-679, arrays — 691-698, `Box` — 711-714; `VarInt64` — src/varint.rs:277-280, `Uuid` —
src/ext_uuid.rs:40-43; derived types use the default.  A release build: sums wrap around (a debug build panics). -/
def bytesNeeded (T : Target) : Ty → Val → Except Err Nat
  | .prim p, .num _ => .ok p.size
  | .usize, .num _ => .ok 8
  | .bool, .bool _ => .ok 1
  | .char, .num _ => .ok 4
  | .nonZero p, .num _ => .ok p.size
  | .atomic p, .num _ => .ok p.size
  | .ipv4, .num _ => .ok 4
  | .ipv6, .bytes _ => .ok 16
  | .ipAddr, .variant 0 _ => .ok (4 + 1)
  | .ipAddr, .variant 1 _ => .ok (16 + 1)
  | .duration, _ => .ok 12
  | .systemTime, _ => .ok 12
  | .endianness, _ => .ok 1
  | .varint64, .num v => .ok (viExtra v + 1)
  | .uuid, _ => .ok 16
  | .str _, .bytes bs => isLength bs.length (.ok (T.wrap (4 + T.wrap (bs.length * 1))))
  | .seq _ t, .list vs =>
      isLength vs.length <|
        if isPrimitive T t then .ok (T.wrap (4 + T.wrap (vs.length * sizeOf T t)))
        else sumNeeded T.toHost (bytesNeeded T t) 4 vs
  | .set t, .list vs => isLength vs.length (sumNeeded T.toHost (bytesNeeded T t) 4 vs)
  | .map k v, .list vs => isLength vs.length (sumNeeded T.toHost (fun kv => match kv with
      | .pair a (.pair b .unit) => addNeeded T.toHost (bytesNeeded T k a) (bytesNeeded T v b)
      | _ => .error .illTyped) 4 vs)
  | .array _ t, .list vs => sumNeeded T.toHost (bytesNeeded T t) 0 vs
  | .refArray _ t, .list vs => sumNeeded T.toHost (bytesNeeded T t) 0 vs
  | .option _, .none => .ok 1
  | .option t, .some v => addNeeded T.toHost (.ok 1) (bytesNeeded T t v)
  | .result t _, .variant 1 v => addNeeded T.toHost (.ok 1) (bytesNeeded T t v)
  | .result _ er, .variant 0 v => addNeeded T.toHost (.ok 1) (bytesNeeded T er v)
  | .range t, .pair a (.pair b _) => addNeeded T.toHost (bytesNeeded T t a) (bytesNeeded T t b)
  | .rangeInc t, .pair a (.pair b _) => addNeeded T.toHost (bytesNeeded T t a) (bytesNeeded T t b)
  | .unit, _ => .ok 0
  | .pair a b, .pair x y => addNeeded T.toHost (bytesNeeded T a x) (bytesNeeded T b y)
  | .box t, v | .via _ t, v => bytesNeeded T t v
  | .struct d fs, v => sizeNeeded T (.struct d fs) v
  | .enum d vs, v => sizeNeeded T (.enum d vs) v
  | _, _ => .error .illTyped

/-! ## Entry points — src/writable.rs:144-241 -/

/-- `write_to_buffer` — src/writable.rs:174-187: the result, and the buffer
afterwards.  The `BufferCollector` only gets the first `bytes_needed` bytes. -/
def writeToBuffer (T : Target) (e : Endian) (t : Ty) (v : Val) (buf : Bytes) : Except Err Unit × Bytes :=
  match bytesNeeded T t v with
  | .error er => (.error er, buf)
  | .ok n =>
    if n ≤ buf.length then
      let r := (encode T e t Cx.std v).run (bufferCollector T.toHost e) ⟨buf.take n, 0⟩
      (r.1, r.2.buf ++ buf.drop n)
    else (.error (.outputBufferIsTooSmall buf.length n), buf)

/-- `write_to_vec` — src/writable.rs:195-219.  `junk` is the content of the
uninitialised vector, of `bytes_needed` bytes.  A release build: the
`debug_assert_eq!` of position and capacity (line 217) is left out. -/
def writeToVec (T : Target) (e : Endian) (t : Ty) (v : Val) (junk : Nat → UInt8) : Except Err Bytes :=
  match bytesNeeded T t v with
  | .error er => .error er
  | .ok n =>
    if n > T.isizeMax then .error (.panic .capacityOverflow)
    else match (encode T e t Cx.std v).run (bufferCollector T.toHost e) ⟨(List.range n).map junk, 0⟩ with
      | (.ok _, s) => .ok (s.buf.take s.pos)
      | (.error er, _) => .error er

/-- `write_to_stream` — src/writable.rs:221-230. -/
def writeToStream (T : Target) (e : Endian) (t : Ty) (v : Val) (s : Sink) : Except Err Unit × Sink :=
  (encode T e t Cx.std v).run (writingCollector T.toHost e) s

/-- `write_to_file` — src/writable.rs:232-241. `create` is the error of
`File::create`, if any; otherwise the file is a sink.  Dropping the
`BufWriter` writes the remaining bytes and ignores errors.  Results: result,
content of the file. -/
def writeToFile (T : Target) (e : Endian) (t : Ty) (v : Val) (create : Option IoKind)
    (evs : List SinkEv) : Except Err Unit × Bytes :=
  match create with
  | some k => (.error (.io k), [])
  | none =>
    let r := (encode T e t Cx.std v).run (fileCollector T.toHost e) ⟨[], ⟨[], evs⟩⟩
    (r.1, r.2.flush.2.sink.got)

end Verif
