import Verif.Prog
import Verif.Types
import Verif.Varint

/-!
# Default methods of trait `Reader` (src/reader.rs) and reading of lengths and
constants (src/private.rs)

Arithmetic on `usize` is that of release builds: multiplication wraps.
-/

namespace Verif

/-- Multiplication of `usize` values (wrapping). -/
def wmul (h : Host) (a b : Nat) : Nat := (a * b) % (h.usizeMax + 1)

/-- `read_u8` … `read_u128`, `read_i8` … `read_f64` — src/reader.rs:114-507:
check `can_read_at_least`, read into the memory of a number, swap the bytes
if necessary.  `n` is the size of the number; results are bit patterns. -/
def readNum (h : Host) (e : Endian) (n : Nat) : M Nat :=
  .canRead n fun r =>
    if r = some false then M.fail .unexpectedEndOfInput
    else .read n fun
      | .error er => M.fail er
      | .ok bs =>
        let v := h.native.num bs
        M.pure (if e.conv h then swapBytes n v else v)

/-- `peek_u8` … `peek_f64` — src/reader.rs:127-507. -/
def peekNum (h : Host) (e : Endian) (n : Nat) : M Nat :=
  .canRead n fun r =>
    if r = some false then M.fail .unexpectedEndOfInput
    else .peek n fun
      | .error er => M.fail er
      | .ok bs =>
        let v := h.native.num bs
        M.pure (if e.conv h then swapBytes n v else v)

/-- `read_bytes` into a slice of `n` bytes. -/
def readBytes (n : Nat) : M Bytes := .read n .ret

/-- `peek_bytes` into a slice of `n` bytes. -/
def peekBytes (n : Nat) : M Bytes := .peek n .ret

/-- `VarInt64::read_from` — src/varint.rs:106-159 and `read_u64_varint` —
src/reader.rs:702-706. -/
def readVarint (h : Host) (e : Endian) : M Nat :=
  M.bind (readNum h e 1) fun first =>
    let first := UInt8.ofNat first
    M.bind (readBytes (viLength first)) fun rest => M.pure (viCombine h first rest)

/-- `VarInt64::peek_from` — src/varint.rs:106-147, 161-169 and
`peek_u64_varint` — src/reader.rs:708-712.  The second peek starts at the same
position as the first one. -/
def peekVarint (h : Host) (e : Endian) : M Nat :=
  M.bind (peekNum h e 1) fun first =>
    let first := UInt8.ofNat first
    M.bind (peekBytes (viLength first)) fun rest => M.pure (viCombine h first rest)

/-- `read_length_u7` … `read_length_u64_varint` — src/private.rs:130-198. -/
def readLen (h : Host) (e : Endian) : LenTy → M Nat
  | .u7 => M.bind (readNum h e 1) fun n => if n > 0b01111111 then M.fail .outOfRangeLength else M.pure n
  | .u8 => readNum h e 1
  | .u16 => readNum h e 2
  | .u32 => readNum h e 4
  | .u64 => M.bind (readNum h e 8) fun n => if n > h.usizeMax then M.fail .outOfRangeLength else M.pure n
  | .varint => M.bind (readVarint h e) fun n => if n > h.usizeMax then M.fail .outOfRangeLength else M.pure n

/-- Read `n` values one after another. -/
def repeatM {α : Type} : Nat → M α → M (List α)
  | 0, _ => M.pure []
  | n + 1, p => M.bind p fun v => M.bind (repeatM n p) fun vs => M.pure (v :: vs)

/-- `n` consecutive pieces of `size` bytes: a slice of `n` values in memory. -/
def chunks (size : Nat) : Nat → Bytes → List Bytes
  | 0, _ => []
  | n + 1, bs => bs.take size :: chunks size n (bs.drop size)

/-- What the methods for containers use of the element type `T: Readable`:
`minimum_bytes_needed()`, `size_of`, `align_of`, `speedy_is_primitive()`,
`read_from`, the meaning of the memory of a value (`ofMem`), what
`speedy_convert_slice_endianness` does to the memory of one value if a
conversion is necessary (`flip`; it panics for some types), and the value of a
zero-sized type. -/
structure Elem where
  min : Nat
  size : Nat
  align : Nat
  prim : Bool
  read : M Val
  ofMem : Bytes → Val
  flip : Bytes → Except Panic Bytes
  zst : Val

/-- All elements through a function that may panic. -/
def mapPanic (f : Bytes → Except Panic Bytes) : List Bytes → Except Panic (List Bytes)
  | [] => .ok []
  | a :: as => match f a with
    | .error p => .error p
    | .ok b => match mapPanic f as with
      | .error p => .error p
      | .ok bs => .ok (b :: bs)

/-- `speedy_convert_slice_endianness` on the memory of a slice: nothing if no
conversion is necessary (src/endianness.rs:44-58, derived:
speedy-derive/src/lib.rs:2218-2227), otherwise every element. -/
def convSlice (h : Host) (e : Endian) (el : Elem) (mems : List Bytes) : Except Panic (List Bytes) :=
  if e.conv h then mapPanic el.flip mems else .ok mems

/-- The result of a conversion as values. -/
def liftVals (el : Elem) : Except Panic (List Bytes) → M (List Val)
  | .error p => M.fail (.panic p)
  | .ok ms => M.pure (ms.map el.ofMem)

/-- `read_vec` — src/reader.rs:519-574.  `Vec::with_capacity(length)` panics if
the size exceeds `isize::MAX` bytes and otherwise allocates exactly `length`
elements (it may allocate more only for zero-sized types).  The loop `while p
< e` does not run for zero-sized types; `set_len` then makes `length` values
of them. -/
def readVec (h : Host) (e : Endian) (el : Elem) (length : Nat) : M (List Val) :=
  if el.min * length > h.usizeMax then M.fail .unexpectedEndOfInput
  else .canRead (el.min * length) fun r =>
    if r = some false then M.fail .unexpectedEndOfInput
    else if length * el.size > h.isizeMax then M.fail (.panic .capacityOverflow)
    else .alloc length el.min <|
      if el.prim then
        M.bind (readBytes (length * el.size)) fun mem =>
          liftVals el (convSlice h e el (chunks el.size length mem))
      else if el.size = 0 then M.pure (List.replicate length el.zst)
      else repeatM length el.read

/-- `read_vec_until_eof` — src/reader.rs:576-593, and
`read_collection_until_eof` — src/reader.rs:688-700 (which collects the same
values).  `fuel` bounds the number of iterations. -/
def readUntilEof : Nat → M Val → M (List Val)
  | 0, _ => M.fail .diverge
  | fuel + 1, p => Prog.bind p fun
    | .ok v => M.bind (readUntilEof fuel p) fun vs => M.pure (v :: vs)
    | .error er => if er.isEof then M.pure [] else M.fail er

/-- A slice behind a `Cow`: borrowed from the input (with its address) or owned. -/
inductive CowVal where
  | borrowed (addr : Nat) (bs : Bytes) (vs : List Val)
  | owned (vs : List Val)
  deriving DecidableEq

/-- The elements. -/
def CowVal.vals : CowVal → List Val
  | .borrowed _ _ vs => vs
  | .owned vs => vs

/-- `read_cow` — src/reader.rs:595-621. The multiplication `length *
size_of::<T>()` is unchecked (it wraps in release builds); the assertion
compares with the same wrapped product.  `speedy_slice_from_bytes` gives
`bytes.len() / size_of` elements and so divides by zero for a primitive type
of size zero (an empty derived struct). -/
def readCow (h : Host) (e : Endian) (el : Elem) (length : Nat) : M CowVal :=
  if el.prim && (el.size == 1 || !e.conv h) then
    .borrow (wmul h length el.size) fun
      | some (.error er) => M.fail er
      | some (.ok (addr, bs)) =>
        if bs.length ≠ wmul h length el.size then M.fail (.panic .assertFailed)
        else if el.align == 1 || addr % el.align == 0 then
          if el.size = 0 then M.fail (.panic .divByZero)
          else M.pure (.borrowed addr bs ((chunks el.size (bs.length / el.size) bs).map el.ofMem))
        else if length * el.size > h.isizeMax then M.fail (.panic .capacityOverflow)
        else .alloc length el.min (M.pure (.owned ((chunks el.size length bs).map el.ofMem)))
      | none => M.map .owned (readVec h e el length)
  else M.map .owned (readVec h e el length)

/-- `read_collection`, before `collect()` — src/reader.rs:640-660.
`RawCopyIter::len` (lines 49-52; called by `size_hint`) divides by the size, also
for no elements: this is what `HashSet` and `IndexSet` call first.  (`BTreeSet`
asks for an element first, there is none of a zero-sized type, and the result is
empty instead.)  The memory which `HashSet` reserves for the elements which have
been borrowed already is not recorded with `alloc`. -/
def readCollection (h : Host) (e : Endian) (el : Elem) (length : Nat) : M (List Val) :=
  if el.prim && (el.size == 1 || !e.conv h) then
    if length * el.size > h.usizeMax then M.fail .outOfRangeUsize
    else .borrowR (length * el.size) fun
      | some (.error er) => M.fail er
      | some (.ok (_, bs)) =>
        if el.size = 0 then M.fail (.panic .divByZero)
        else M.pure ((chunks el.size length bs).map el.ofMem)
      | none => repeatM length el.read
  else repeatM length el.read

/-- A pair of values in a packed struct — src/reader.rs:668-669.  Assumption: `#[repr(packed)]` keeps the order of the two fields, which
rustc does although the reference does not promise it (as for derived structs: `C28_false_packed`). -/
def ofMemPair (ek ev : Elem) (bs : Bytes) : Val :=
  .pair (ek.ofMem (bs.take ek.size)) (.pair (ev.ofMem (bs.drop ek.size)) .unit)

/-- `(K, V)::read_from` — src/readable_impl.rs:391-412. -/
def readPair (ek ev : Elem) : M Val :=
  M.bind ek.read fun a => M.bind ev.read fun b => M.pure (.pair a (.pair b .unit))

/-- `read_key_value_collection`, before `collect()` — src/reader.rs:662-686.
Tuples are not primitive, so that the call of `read_collection` reads the
pairs one at a time. -/
def readKV (h : Host) (e : Endian) (ek ev : Elem) (length : Nat) : M (List Val) :=
  if ek.prim && ev.prim && ((ek.size == 1 && ev.size == 1) || !e.conv h) then
    if length * (ek.size + ev.size) > h.usizeMax then M.fail .outOfRangeUsize
    else .borrowR (length * (ek.size + ev.size)) fun
      | some (.error er) => M.fail er
      | some (.ok (_, bs)) =>
        if ek.size + ev.size = 0 then M.fail (.panic .divByZero)
        else M.pure ((chunks (ek.size + ev.size) length bs).map (ofMemPair ek ev))
      | none => repeatM length (readPair ek ev)
  else repeatM length (readPair ek ev)

/-- `read_constant` — src/private.rs:233-253. -/
def readConstant (h : Host) (e : Endian) (u8el : Elem) (constant : Bytes) : M Unit :=
  .borrow constant.length fun
    | some (.error er) => M.fail er
    | some (.ok (_, bs)) => if bs = constant then M.pure () else M.fail (.expectedConstant constant)
    | none => M.bind (readVec h e u8el constant.length) fun data =>
        if data = constant.map (fun b => .num b.toNat) then M.pure ()
        else M.fail (.expectedConstant constant)

/-- `read_bytes_borrowed(n).ok_or_else(error_unsized)` as used for references —
src/readable_unsized_impl.rs:17, 44, 71 and speedy-derive/src/lib.rs:1538-1569. -/
def borrowBytes (n : Nat) : M (Nat × Bytes) :=
  .borrow n fun
    | none => M.fail .unsized
    | some (.error er) => M.fail er
    | some (.ok r) => M.pure r

/-- `read_bytes_borrowed_until_eof().ok_or_else(error_unsized)` —
speedy-derive/src/lib.rs:1538-1569, 1585-1593. -/
def borrowRest : M (Nat × Bytes) :=
  .borrowEof fun
    | none => M.fail .unsized
    | some r => M.pure r

/-- Reading `&[T]`, after the endianness check and the length: checked
multiplication, borrow, cast — src/readable_unsized_impl.rs:43-48,
speedy-derive/src/lib.rs:1571-1584. -/
def readRefSlice (h : Host) (el : Elem) (length : Nat) : M (Nat × List Val) :=
  if length * el.size > h.usizeMax then M.fail .outOfRangeLength
  else M.bind (borrowBytes (length * el.size)) fun (addr, bs) =>
    M.pure (addr, (chunks el.size length bs).map el.ofMem)

/-- `&[T]` with `length = ..`: `slice.len() / size_of::<T>()` elements —
speedy-derive/src/lib.rs:1585-1593. -/
def readRefSliceRest (el : Elem) : M (Nat × List Val) :=
  M.bind borrowRest fun (addr, bs) =>
    if el.size = 0 then M.fail (.panic .divByZero)
    else M.pure (addr, (chunks el.size (bs.length / el.size) bs).map el.ofMem)

end Verif
