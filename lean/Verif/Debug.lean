import Verif.Uninit
import Verif.Entry
import Verif.Encode

/-!
# Debug builds

With `debug_assertions` and overflow checks (the profile `dev` of cargo) `+`, `-` and `*` on integers panic instead of wrapping around,
`debug_assert_eq!` is checked, and `CircularBuffer::with_capacity` fills its memory.  Here are those functions again in which
this happens; the others are used as they are.  Shifts are by constants or by at most 8 bits (src/varint.rs:59-112), so that their checks
cannot fail.  Arithmetic on constants of a type (`size_of::<T>() * N`, `minimum_bytes_needed`) is left out: it is assumed to fit in `usize` in
every build.
-/

namespace Verif

/-- `a + b`. -/
def Host.addD (h : Host) (a b : Nat) : Except Panic Nat := if a + b ≤ h.usizeMax then .ok (a + b) else .error .arithOverflow

/-- `a - b`. -/
def subD (a b : Nat) : Except Panic Nat := if b ≤ a then .ok (a - b) else .error .arithOverflow

/-- `a * b`. -/
def Host.mulD (h : Host) (a b : Nat) : Except Panic Nat := if a * b ≤ h.usizeMax then .ok (a * b) else .error .arithOverflow

/-- `debug_assert_eq!( a, b )`. -/
def assertEqD (a b : Nat) : Except Panic Unit := if a = b then .ok () else .error .assertFailed

/-! ## The circular buffer -/

/-- `occupied` — src/circular_buffer.rs:15-29. -/
def occupiedD (h : Host) (position length capacity : Nat) : Except Panic (Rng × Option Rng) := do
  let stop ← h.addD position length
  if stop ≤ capacity then
    let stop ← h.addD position length
    let a : Rng := ⟨position, stop⟩
    assertEqD a.len length
    .ok (a, none)
  else
    let a : Rng := ⟨position, capacity⟩
    let n ← subD length a.len
    let b : Rng := ⟨0, n⟩
    let sum ← h.addD a.len b.len
    assertEqD sum length
    .ok (a, some b)

/-- `empty` — src/circular_buffer.rs:31-73. -/
def emptyRangeD (h : Host) (position length capacity max : Nat) : Except Panic (Rng × Option Rng) :=
  if position = 0 then do
    let a : Rng := ⟨length, capacity⟩
    let free ← subD capacity length
    assertEqD a.len free
    if max < a.len then
      let stop ← h.addD a.start max
      .ok (⟨a.start, stop⟩, none)
    else .ok (a, none)
  else do
    let stop ← h.addD position length
    if stop ≥ capacity then
      let right ← subD capacity position
      let left ← subD length right
      let stop ← subD capacity right
      let a : Rng := ⟨left, stop⟩
      let free ← subD capacity length
      assertEqD a.len free
      if max < a.len then
        let stop ← h.addD a.start max
        .ok (⟨a.start, stop⟩, none)
      else .ok (a, none)
    else
      let start ← h.addD position length
      let a : Rng := ⟨start, capacity⟩
      let b : Rng := ⟨0, position⟩
      let sum ← h.addD a.len b.len
      let free ← subD capacity length
      assertEqD sum free
      if max ≤ a.len then
        let stop ← h.addD a.start max
        .ok (⟨a.start, stop⟩, none)
      else
        let max ← subD max a.len
        if max ≤ b.len then
          let stop ← h.addD b.start max
          .ok (a, some ⟨b.start, stop⟩)
        else .ok (a, some b)

/-- `as_slices` — src/circular_buffer.rs:299-304. -/
def CBuf.asSlicesD (h : Host) (c : CBuf) : Except Panic (Bytes × Option Bytes) := do
  let (a, b) ← occupiedD h c.position c.length c.capacity
  assertEqD a.start c.position
  let sa ← sliceOf c.buffer a
  match b with
  | none => .ok (sa, none)
  | some b =>
    let sb ← sliceOf c.buffer b
    .ok (sa, some sb)

/-- `reserve_impl` with `is_exact = false` — src/circular_buffer.rs:252-287. -/
def CBuf.reserveOnD (h : Host) (new : Nat → Bytes) (grow : Nat → Nat) (c : CBuf) (size : Nat) : Except Panic CBuf := do
  let newCapacity ← h.addD c.length size
  if c.capacity ≥ newCapacity then .ok c
  else
    let newBuffer : Bytes := new (grow newCapacity)
    let (a, b) ← occupiedD h c.position c.length c.capacity
    let sa ← sliceOf c.buffer a
    let newBuffer := overwrite newBuffer 0 sa
    match b with
    | none => .ok ⟨newBuffer, 0, c.length⟩
    | some b =>
      let sb ← sliceOf c.buffer b
      .ok ⟨overwrite newBuffer a.len sb, 0, c.length⟩

/-- `as_slices_of_length` — src/circular_buffer.rs:306-315. -/
def CBuf.asSlicesOfLengthD (h : Host) (c : CBuf) (length : Nat) : Except Panic (Bytes × Option Bytes) :=
  if length ≤ c.length then do
    let (a, b) ← c.asSlicesD h
    if length ≤ a.length then .ok (a.take length, none)
    else
      match b with
      | none => .ok (a, none)
      | some b =>
        let n ← subD length a.length
        .ok (a, some (b.take n))
  else .error .assertFailed

/-- `consume` — src/circular_buffer.rs:343-352. -/
def CBuf.consumeD (h : Host) (c : CBuf) (length : Nat) : Except Panic CBuf :=
  if length ≤ c.length then do
    let sum ← h.addD c.position length
    if c.capacity = 0 then .error .divByZero
    else
      let position := sum % c.capacity
      let newLength ← subD c.length length
      .ok ⟨c.buffer, if newLength = 0 then 0 else position, newLength⟩
  else .error .assertFailed

/-- `consume_into_slow` — src/circular_buffer.rs:371-386. -/
def CBuf.consumeIntoSlowD (h : Host) (c : CBuf) (n : Nat) : Except Panic (Bytes × CBuf) :=
  if n = 0 then .ok ([], c)
  else if n ≤ c.length then do
    let (a, b) ← c.asSlicesOfLengthD h n
    let out ← copyOut n a b
    let c ← c.consumeD h n
    .ok (out, c)
  else .error .assertFailed

/-- `consume_into` — src/circular_buffer.rs:354-369. -/
def CBuf.consumeIntoD (h : Host) (c : CBuf) (n : Nat) : Except Panic (Bytes × CBuf) := do
  let length := min c.length n
  let stop ← h.addD c.position length
  if stop < c.capacity then
    let stop ← h.addD c.position length
    let out ← sliceOf c.buffer ⟨c.position, stop⟩
    let position ← h.addD c.position length
    let newLength ← subD c.length length
    .ok (out, ⟨c.buffer, if newLength = 0 then 0 else position, newLength⟩)
  else c.consumeIntoSlowD h n

/-! ## The stream reader -/

section
variable {σ : Type} (h : Host) (D : Device σ) (junk : Nat → UInt8) (grow : Nat → Nat)

/-- `try_append_with` — src/circular_buffer.rs:289-297. -/
def DevSt.appendD (size : Nat) (s : DevSt σ) : Except Panic (Except IoKind Nat × DevSt σ) := do
  let c ← s.buf.reserveOnD h (fresh junk s.used) grow size
  let used := s.used + if s.buf.capacity ≥ s.buf.length + size then 0 else grow (s.buf.length + size)
  let (range, _) ← emptyRangeD h c.position c.length c.capacity size
  let sl ← sliceOf c.buffer range
  match D.read sl s.dev with
  | (.error k, sl, dev) => .ok (.error k, ⟨dev, ⟨overwrite c.buffer range.start sl, c.position, c.length⟩, s.buffering, used⟩)
  | (.ok n, sl, dev) =>
    let length ← h.addD c.length n
    .ok (.ok n, ⟨dev, ⟨overwrite c.buffer range.start sl, c.position, length⟩, s.buffering, used⟩)

/-- The loop of `read_bytes_slow` — src/readable.rs:304-324. -/
def devFillD (n : Nat) : Nat → DevSt σ → Except Err Unit × DevSt σ
  | 0, s => (.error .diverge, s)
  | fuel + 1, s =>
    if s.buf.length < s.buf.capacity then
      match subD s.buf.capacity s.buf.length with
      | .error p => (.error (.panic p), s)
      | .ok free =>
        match s.appendD h D junk grow free with
        | .error p => (.error (.panic p), s)
        | .ok (.error k, s) => (.error (.io k), s)
        | .ok (.ok w, s) =>
          if w = 0 then
            if s.buf.length < n then (.error .unexpectedEndOfInput, s) else (.ok (), s)
          else if s.buf.length ≥ n then (.ok (), s)
          else devFillD n fuel s
    else (.ok (), s)

/-- Second half of `read_bytes_slow` — src/readable.rs:326-340. -/
def devTakeD (out : Bytes) (s : DevSt σ) : Except Err Bytes × DevSt σ :=
  let length := min s.buf.length out.length
  let r : Except Panic (Bytes × CBuf) :=
    if s.buf.length > 0 then s.buf.consumeIntoD h length else .ok ([], s.buf)
  match r with
  | .error p => (.error (.panic p), s)
  | .ok (d, buf) =>
    let s := { s with buf := buf }
    if out.length - d.length = 0 then (.ok d, s)
    else match D.readExact (out.drop d.length) s.dev with
      | (.error k, _, dev) => (.error (.io k), { s with dev := dev })
      | (.ok _, rest, dev) => (.ok (d ++ rest), { s with dev := dev })

/-- `read_bytes` — src/readable.rs:301-354. -/
def devReadD (n : Nat) (s : DevSt σ) : Except Err Bytes × DevSt σ :=
  let out := fresh junk s.used n
  let s := { s with used := s.used + n }
  if s.buf.length ≥ n then
    match s.buf.consumeIntoD h n with
    | .error p => (.error (.panic p), s)
    | .ok (d, buf) => (.ok d, { s with buf := buf })
  else if s.buffering && decide (n < s.buf.capacity) then
    match devFillD h D junk grow n (s.buf.capacity + 1) s with
    | (.error e, s) => (.error e, s)
    | (.ok (), s) => devTakeD h D out s
  else devTakeD h D out s

/-- The loop of `peek_bytes` — src/readable.rs:357-377. -/
def devPeekFillD (n : Nat) : Nat → DevSt σ → Except Err Unit × DevSt σ
  | 0, s => (.error .diverge, s)
  | fuel + 1, s =>
    if s.buf.length < n then
      let chunk : Except Panic Nat := do
        let chunk ← subD n s.buf.length
        if s.buffering then
          let free ← subD s.buf.capacity s.buf.length
          .ok (max chunk free)
        else .ok chunk
      match chunk with
      | .error p => (.error (.panic p), s)
      | .ok chunk =>
        match s.appendD h D junk grow chunk with
        | .error p => (.error (.panic p), s)
        | .ok (.error k, s) => (.error (.io k), s)
        | .ok (.ok w, s) =>
          if w = 0 then (.error .unexpectedEndOfInput, s)
          else devPeekFillD n fuel s
    else (.ok (), s)

/-- `peek_bytes` — src/readable.rs:356-387. -/
def devPeekD (n : Nat) (s : DevSt σ) : Except Err Bytes × DevSt σ :=
  match devPeekFillD h D junk grow n (n + 1) s with
  | (.error e, s) => (.error e, s)
  | (.ok (), s) =>
    match s.buf.asSlicesOfLengthD h n with
    | .error p => (.error (.panic p), s)
    | .ok (a, b) =>
      match copyOut n a b with
      | .error p => (.error (.panic p), s)
      | .ok out => (.ok out, s)

/-- `Reader::skip_bytes` (default) — src/reader.rs:76-91. -/
def skipLoopD {σ : Type} (read : Nat → σ → Except Err Bytes × σ) : Nat → Nat → σ → Except Err Unit × σ
  | 0, _, s => (.error .diverge, s)
  | fuel + 1, n, s =>
    if n > 0 then
      let chunk := if n < 1024 then n else 1024
      match read chunk s with
      | (.error e, s) => (.error e, s)
      | (.ok _, s) => match subD n chunk with
        | .error p => (.error (.panic p), s)
        | .ok n => skipLoopD read fuel n s
    else (.ok (), s)

/-- `impl Reader for StreamReader` — src/readable.rs:344-396, and the defaults of the trait (src/reader.rs:76-112). -/
def devReaderD : ReaderOps (DevSt σ) where
  read := devReadD h D junk grow
  peek := devPeekD h D junk grow
  skip := fun n s => skipLoopD (devReadD h D junk grow) (n + 1) n s
  canRead := fun _ _ => none
  borrow := fun _ s => (none, s)
  borrowR := fun _ s => (none, s)
  borrowEof := fun s => (none, s)

/-- `StreamReader::deserialize` — src/readable.rs:401-417, with `CircularBuffer::with_capacity`
(src/circular_buffer.rs:217-231), which fills its memory with `0xFF`. -/
def DevSt.initD (buffering : Bool) (dev : σ) : DevSt σ :=
  let n := if buffering then 8 * 1024 else 0
  ⟨dev, ⟨List.replicate n 0xFF, 0, 0⟩, buffering, n⟩

end

/-! ## The readers of buffers -/

/-- An operation which begins with `self.end as usize - self.ptr as usize` (in `can_read_at_least` — src/readable.rs:157-160,
276-279). -/
def inOrder {α : Type} (op : BufSt → Except Err α × BufSt) (s : BufSt) : Except Err α × BufSt :=
  match subD s.stop s.ptr with
  | .error p => (.error (.panic p), s)
  | .ok _ => op s

/-- The same for operations which return an `Option`. -/
def inOrderOpt {α : Type} (op : BufSt → Option (Except Err α) × BufSt) (s : BufSt) : Option (Except Err α) × BufSt :=
  match subD s.stop s.ptr with
  | .error p => (some (.error (.panic p)), s)
  | .ok _ => op s

/-- `impl Reader for BufferReader` — src/readable.rs:47-171.  A panic of `can_read_at_least` itself and of `read_bytes_borrowed_until_eof`
cannot be expressed here; their subtractions are the same as that of `read_bytes`. -/
def bufferReaderD (h : Host) : ReaderOps BufSt where
  read n := inOrder (bufRead h n)
  peek n := inOrder (bufPeek h n)
  skip n := inOrder (bufSkip h n)
  canRead := bufCanRead h
  borrow n := inOrderOpt (bufBorrow h n)
  borrowR n := inOrderOpt (bufBorrow h n)
  borrowEof := bufBorrowEof h

/-- `impl Reader for CopyingBufferReader` — src/readable.rs:193-289. -/
def copyingReaderD (h : Host) : ReaderOps BufSt where
  read n := inOrder (bufRead h n)
  peek n := inOrder (bufPeek h n)
  skip n := inOrder (bufSkip h n)
  canRead := bufCanRead h
  borrow := fun _ s => (none, s)
  borrowR n := inOrderOpt (bufBorrow h n)
  borrowEof := fun s => (none, s)

/-! ## `Readable::read_from` -/

/-- A computation which may panic. -/
def M.lift {α : Type} : Except Panic α → M α
  | .ok a => M.pure a
  | .error p => M.fail (.panic p)

/-- `read_vec` — src/reader.rs:519-574: `vec.capacity() * size_of::<T>()` (line 532); the capacity of a vector of zero-sized values is
`usize::MAX`. -/
def readVecD (h : Host) (e : Endian) (el : Elem) (length : Nat) : M (List Val) :=
  if el.min * length > h.usizeMax then M.fail .unexpectedEndOfInput
  else .canRead (el.min * length) fun r =>
    if r = some false then M.fail .unexpectedEndOfInput
    else if length * el.size > h.isizeMax then M.fail (.panic .capacityOverflow)
    else .alloc length el.min <|
      if el.prim then
        M.bind (M.lift (h.mulD (if el.size = 0 then h.usizeMax else length) el.size)) fun n =>
        M.bind (readBytes n) fun mem =>
          liftVals el (convSlice h e el (chunks el.size length mem))
      else if el.size = 0 then M.pure (List.replicate length el.zst)
      else repeatM length el.read

/-- `read_cow` — src/reader.rs:595-621: `length * size_of::<T>()` (lines 602 and 604). -/
def readCowD (h : Host) (e : Endian) (el : Elem) (length : Nat) : M CowVal :=
  if el.prim && (el.size == 1 || !e.conv h) then
    M.bind (M.lift (h.mulD length el.size)) fun n =>
    .borrow n fun
      | some (.error er) => M.fail er
      | some (.ok (addr, bs)) =>
        if bs.length ≠ n then M.fail (.panic .assertFailed)
        else if el.align == 1 || addr % el.align == 0 then
          if el.size = 0 then M.fail (.panic .divByZero)
          else M.pure (.borrowed addr bs ((chunks el.size (bs.length / el.size) bs).map el.ofMem))
        else if length * el.size > h.isizeMax then M.fail (.panic .capacityOverflow)
        else .alloc length el.min (M.pure (.owned ((chunks el.size length bs).map el.ofMem)))
      | none => M.map .owned (readVecD h e el length)
  else M.map .owned (readVecD h e el length)

/-- `read_constant` — src/private.rs:233-253. -/
def readConstantD (h : Host) (e : Endian) (u8el : Elem) (constant : Bytes) : M Unit :=
  .borrow constant.length fun
    | some (.error er) => M.fail er
    | some (.ok (_, bs)) => if bs = constant then M.pure () else M.fail (.expectedConstant constant)
    | none => M.bind (readVecD h e u8el constant.length) fun data =>
        if data = constant.map (fun b => .num b.toNat) then M.pure ()
        else M.fail (.expectedConstant constant)

/-- Strings: see `readStr`. -/
def readStrD (T : Target) (e : Endian) (k : StrKind) (len : Option Nat) : M Val :=
  match k, len with
  | .owned, some n => M.bind (readVecD T.toHost e (u8Elem T e) n) fun vs => asStr (toBytes vs)
  | .owned, none => M.bind (readUntilEof T.fuel (u8Elem T e).read) fun vs => asStr (toBytes vs)
  | .cow, some n => M.bind (readCowD T.toHost e (u8Elem T e) n) fun c => asStr (toBytes c.vals)
  | .cow, none => M.bind (readUntilEof T.fuel (u8Elem T e).read) fun vs => asStr (toBytes vs)
  | .ref, some n => M.bind (borrowBytes n) fun r => asStr r.2
  | .ref, none => M.bind borrowRest fun r => asStr r.2

/-- Slices: see `readSeq`. -/
def readSeqD (T : Target) (e : Endian) (k : SeqKind) (el : Elem) (len : Option Nat) : M Val :=
  match k, len with
  | .vec, some n => M.map .list (readVecD T.toHost e el n)
  | .vec, none => M.map .list (readUntilEof T.fuel el.read)
  | .cow, some n => M.map (fun c => .list c.vals) (readCowD T.toHost e el n)
  | .cow, none => M.map .list (readUntilEof T.fuel el.read)
  | .ref, some n => M.map (fun r => .list r.2) (readRefSlice T.toHost el n)
  | .ref, none => M.map (fun r => .list r.2) (readRefSliceRest el)

mutual
/-- `Readable::read_from`, by type: as `decode`, with the functions above. -/
def decodeD (T : Target) (e : Endian) : Ty → Cx → M Val
  | .prim p, _ => M.map .num (readNum T.toHost e p.size)
  | .usize, _ => M.bind (readNum T.toHost e 8) fun n =>
      if n > T.usizeMax then M.fail .outOfRangeUsize else M.pure (.num n)
  | .bool, _ => M.map .bool (readBool T.toHost e)
  | .char, _ => M.bind (readNum T.toHost e 4) fun n =>
      if isScalar n then M.pure (.num n) else M.fail .invalidChar
  | .nonZero p, _ => M.bind (readNum T.toHost e p.size) fun n =>
      if n = 0 then M.fail .zeroNonZero else M.pure (.num n)
  | .atomic p, _ => M.map .num (readNum T.toHost e p.size)
  | .ipv4, _ => M.map .num (readNum T.toHost e 4)
  | .ipv6, _ => readIpv6 T.toHost e
  | .ipAddr, _ => M.bind (readNum T.toHost e 1) fun kind =>
      if kind = 0 then M.map (fun n => .variant 0 (.num n)) (readNum T.toHost e 4)
      else if kind = 1 then M.map (.variant 1) (readIpv6 T.toHost e)
      else M.fail .invalidEnumVariant
  | .duration, _ => M.map (fun d => .pair (.num d.1) (.num d.2)) (readDuration T.toHost e)
  | .systemTime, _ => M.bind (readDuration T.toHost e) fun d =>
      if d.1 < 2 ^ 63 then M.pure (.pair (.num d.1) (.num d.2)) else M.fail .invalidSystemTime
  | .endianness, _ => M.bind (readNum T.toHost e 1) fun n =>
      if n = 0 then M.pure (.variant 0 .unit)
      else if n = 1 then M.pure (.variant 1 .unit)
      else M.fail .invalidEnumVariant
  | .varint64, _ => M.map .num (readVarint T.toHost e)
  | .uuid, _ => M.map .bytes (readBytes 16)
  | .str k, cx => M.bind (readLenR T.toHost e cx.len) fun len => readStrD T e k len
  | .seq k t, cx =>
      if k == .ref && sizeOf T t != 1 && e.conv T.toHost then M.fail .endiannessMismatch
      else M.bind (readLenR T.toHost e cx.len) fun len =>
        readSeqD T e k (elemOf T t (decodeD T e t Cx.std)) len
  | .set t, cx => M.bind (readLenR T.toHost e cx.len) fun
      | some n => M.map (fun vs => .list (setOf vs))
          (readCollection T.toHost e (elemOf T t (decodeD T e t Cx.std)) n)
      | none => M.map (fun vs => .list (setOf vs)) (readUntilEof T.fuel (decodeD T e t Cx.std))
  | .map k v, cx => M.bind (readLenR T.toHost e cx.len) fun
      | some n => M.map (fun vs => .list (mapOf vs))
          (readKV T.toHost e (elemOf T k (decodeD T e k Cx.std)) (elemOf T v (decodeD T e v Cx.std)) n)
      | none => M.map (fun vs => .list (mapOf vs)) (readUntilEof T.fuel
          (readPair (elemOf T k (decodeD T e k Cx.std)) (elemOf T v (decodeD T e v Cx.std))))
  | .array n t, cx => readArray T e cx.inl (elemOf T t (decodeD T e t Cx.std)) n
  | .refArray n t, _ =>
      if sizeOf T t != 1 && e.conv T.toHost then M.fail .endiannessMismatch
      else M.map (fun r => .list ((chunks (sizeOf T t) n r.2).map (ofMem T t)))
        (borrowBytes (sizeOf T t * n))
  | .option t, cx => M.bind (readBool T.toHost e) fun flag =>
      if flag then M.map .some (decodeD T e t (cx.opt t)) else M.pure .none
  | .result t er, _ => M.bind (readBool T.toHost e) fun flag =>
      if flag then M.map (.variant 1) (decodeD T e t Cx.std)
      else M.map (.variant 0) (decodeD T e er Cx.std)
  | .range t, _ => M.bind (decodeD T e t Cx.std) fun a => M.bind (decodeD T e t Cx.std) fun b =>
      M.pure (.pair a (.pair b .unit))
  | .rangeInc t, _ => M.bind (decodeD T e t Cx.std) fun a => M.bind (decodeD T e t Cx.std) fun b =>
      M.pure (.pair a (.pair b (.bool false)))
  | .unit, _ => M.pure .unit
  | .pair a b, _ => M.bind (decodeD T e a Cx.std) fun x => M.bind (decodeD T e b Cx.std) fun y =>
      M.pure (.pair x y)
  | .box t, _ => decodeD T e t Cx.std
  | .via c t, _ => M.bind (decodeD T e t Cx.std) fun v => convert c v
  | .struct _ fs, _ => decodeFieldsD T e fs []
  | .enum d vs, _ => M.bind (readTag T.toHost e d) fun tag => decodeVariantsD T e vs tag 0
/-- Fields — speedy-derive/src/lib.rs:1680-1707, 1402-1678. -/
def decodeFieldsD (T : Target) (e : Endian) : Fields → List Val → M Val
  | .nil, _ => M.pure .unit
  | .cons a t fs, prev =>
    if a.skip then M.map (.pair a.dflt) (decodeFieldsD T e fs prev)
    else
      let body :=
        if a.varint then M.map .num (readVarint T.toHost e) else decodeD T e t (a.cx T.toHost prev)
      let body :=
        if a.pre.isEmpty then body
        else M.bind (readConstantD T.toHost e (u8Elem T e) a.pre) fun _ => body
      let body := if a.defaultOnEof then onEof body a.dflt else body
      M.bind body fun v => M.map (.pair v) (decodeFieldsD T e fs (prev ++ [v]))
/-- The match on the tag — speedy-derive/src/lib.rs:2254-2264, 2300-2303. -/
def decodeVariantsD (T : Target) (e : Endian) : Variants → Nat → Nat → M Val
  | .nil, _, _ => M.fail .invalidEnumVariant
  | .cons tag' fs vs, tag, i =>
    if tag = tag' then M.map (.variant i) (decodeFieldsD T e fs [])
    else decodeVariantsD T e vs tag (i + 1)
end

/-! ## Entry points for reading -/

/-- `read_with_length_from_buffer` — src/readable.rs:498-510. -/
def readWithLengthFromBufferD (T : Target) (e : Endian) (t : Ty) (base : Nat) (buf : Bytes) : Except Err Val × Except Panic Nat :=
  if buf.length < minBytes T t then
    (.error (.inputBufferIsTooSmall buf.length (minBytes T t)), .ok 0)
  else
    let r := (decodeD T e t Cx.std).run (bufferReaderD T.toHost) (BufSt.init base buf)
    (r.1, subD r.2.ptr base)

/-- `read_with_length_from_buffer_copying_data` — src/readable.rs:517-534. -/
def readWithLengthFromBufferCopyingD (T : Target) (e : Endian) (t : Ty) (base : Nat) (buf : Bytes) :
    Except Err Val × Except Panic Nat :=
  if buf.length < minBytes T t then
    (.error (.inputBufferIsTooSmall buf.length (minBytes T t)), .ok 0)
  else
    let r := (decodeD T e t Cx.std).run (copyingReaderD T.toHost) (BufSt.init base buf)
    (r.1, subD r.2.ptr base)

/-- `read_from_stream_unbuffered` and `read_from_stream_buffered` — src/readable.rs:538-546, with any implementation of `Read`: the
result and the state of the stream. -/
def readFromDeviceD {σ : Type} (T : Target) (e : Endian) (t : Ty) (grow : Nat → Nat) (D : Device σ) (buffered : Bool) (dev : σ)
    (junk : Nat → UInt8) : Except Err Val × σ :=
  let r := (decodeD T e t Cx.std).run (devReaderD T.toHost D junk grow) (DevSt.initD buffered dev)
  (r.1, r.2.dev)

/-! ## `Writable` -/

/-- `for element in .. { sum += element.bytes_needed()? }`. -/
def sumNeededD (h : Host) (f : Val → Except Err Nat) : Nat → List Val → Except Err Nat
  | sum, [] => .ok sum
  | sum, v :: vs => match f v with
    | .ok a => match h.addD sum a with
      | .ok sum => sumNeededD h f sum vs
      | .error p => .error (.panic p)
    | .error er => .error er

/-- Add, with the operator `?`. -/
def addNeededD (h : Host) (a b : Except Err Nat) : Except Err Nat :=
  match a, b with
  | .ok a, .ok b => match h.addD a b with
    | .ok n => .ok n
    | .error p => .error (.panic p)
  | .error er, _ => .error er
  | .ok _, .error er => .error er

/-- `4 + len * size` — src/writable_impl.rs:266. -/
def sliceNeededD (h : Host) (len size : Nat) : Except Err Nat :=
  match h.mulD len size with
  | .ok n => addNeededD h (.ok 4) (.ok n)
  | .error p => .error (.panic p)

/-- `SizeCalculatorCollector` — src/writable.rs:87-142. -/
def sizeCalculatorD (h : Host) : WriterOps Nat where
  bytes bs s := match h.addD s bs.length with
    | .ok n => (.ok (), n)
    | .error p => (.error (.panic p), s)
  num n _ s := match h.addD s n with
    | .ok n => (.ok (), n)
    | .error p => (.error (.panic p), s)
  canWrite _ _ := none

/-- The default method — src/writable.rs:243-251. -/
def sizeNeededD (T : Target) (t : Ty) (v : Val) : Except Err Nat :=
  match (encode T T.native t Cx.std v).run (sizeCalculatorD T.toHost) 0 with
  | (.ok _, n) => .ok n
  | (.error er, _) => .error er

/-- `Writable::bytes_needed`, by type: see `bytesNeeded`.  Simplification: the sum of a tuple is taken from the right, so that for a tuple
of which one component overflows and another is refused the model may give the other failure. -/
def bytesNeededD (T : Target) : Ty → Val → Except Err Nat
  | .prim p, .num _ => .ok p.size
  | .usize, .num _ => .ok 8
  | .bool, .bool _ => .ok 1
  | .char, .num _ => .ok 4
  | .nonZero p, .num _ => .ok p.size
  | .atomic p, .num _ => .ok p.size
  | .ipv4, .num _ => .ok 4
  | .ipv6, .bytes _ => .ok 16
  | .ipAddr, .variant 0 _ => .ok (4 + 1)
  | .ipAddr, .variant 1 _ => .ok (16 + 1)
  | .duration, _ => .ok 12
  | .systemTime, _ => .ok 12
  | .endianness, _ => .ok 1
  | .varint64, .num v => .ok (viExtra v + 1)
  | .uuid, _ => .ok 16
  | .str _, .bytes bs => isLength bs.length (sliceNeededD T.toHost bs.length 1)
  | .seq _ t, .list vs =>
      isLength vs.length <|
        if isPrimitive T t then sliceNeededD T.toHost vs.length (sizeOf T t)
        else sumNeededD T.toHost (bytesNeededD T t) 4 vs
  | .set t, .list vs => isLength vs.length (sumNeededD T.toHost (bytesNeededD T t) 4 vs)
  | .map k v, .list vs => isLength vs.length (sumNeededD T.toHost (fun kv => match kv with
      | .pair a (.pair b .unit) => addNeededD T.toHost (bytesNeededD T k a) (bytesNeededD T v b)
      | _ => .error .illTyped) 4 vs)
  | .array _ t, .list vs => sumNeededD T.toHost (bytesNeededD T t) 0 vs
  | .refArray _ t, .list vs => sumNeededD T.toHost (bytesNeededD T t) 0 vs
  | .option _, .none => .ok 1
  | .option t, .some v => addNeededD T.toHost (.ok 1) (bytesNeededD T t v)
  | .result t _, .variant 1 v => addNeededD T.toHost (.ok 1) (bytesNeededD T t v)
  | .result _ er, .variant 0 v => addNeededD T.toHost (.ok 1) (bytesNeededD T er v)
  | .range t, .pair a (.pair b _) => addNeededD T.toHost (bytesNeededD T t a) (bytesNeededD T t b)
  | .rangeInc t, .pair a (.pair b _) => addNeededD T.toHost (bytesNeededD T t a) (bytesNeededD T t b)
  | .unit, _ => .ok 0
  | .pair a b, .pair x y => addNeededD T.toHost (bytesNeededD T a x) (bytesNeededD T b y)
  | .box t, v | .via _ t, v => bytesNeededD T t v
  | .struct d fs, v => sizeNeededD T (.struct d fs) v
  | .enum d vs, v => sizeNeededD T (.enum d vs) v
  | _, _ => .error .illTyped

/-- `write_bytes` of `BufferCollector` — src/writable.rs:34-40. -/
def BufC.writeD (h : Host) (bs : Bytes) (s : BufC) : Except Err Unit × BufC :=
  match h.addD s.pos bs.length with
  | .ok _ => BufC.write bs s
  | .error p => (.error (.panic p), s)

/-- `BufferCollector` (`can_write_at_least` is called with at most 9, after the size has been checked). -/
def bufferCollectorD (h : Host) (e : Endian) : WriterOps BufC :=
  defaultOps h e (BufC.writeD h) BufC.canWrite

/-- `write_to_buffer` — src/writable.rs:174-187. -/
def writeToBufferD (T : Target) (e : Endian) (t : Ty) (v : Val) (buf : Bytes) : Except Err Unit × Bytes :=
  match bytesNeededD T t v with
  | .error er => (.error er, buf)
  | .ok n =>
    if n ≤ buf.length then
      let r := (encode T e t Cx.std v).run (bufferCollectorD T.toHost e) ⟨buf.take n, 0⟩
      (r.1, r.2.buf ++ buf.drop n)
    else (.error (.outputBufferIsTooSmall buf.length n), buf)

/-- `write_to_vec` — src/writable.rs:195-219, with `debug_assert_eq!( position, capacity )` (line 217). -/
def writeToVecD (T : Target) (e : Endian) (t : Ty) (v : Val) (junk : Nat → UInt8) : Except Err Bytes :=
  match bytesNeededD T t v with
  | .error er => .error er
  | .ok n =>
    if n > T.isizeMax then .error (.panic .capacityOverflow)
    else match (encode T e t Cx.std v).run (bufferCollectorD T.toHost e) ⟨(List.range n).map junk, 0⟩ with
      | (.ok _, s) => match assertEqD s.pos n with
        | .ok _ => .ok (s.buf.take s.pos)
        | .error p => .error (.panic p)
      | (.error er, _) => .error er

end Verif
