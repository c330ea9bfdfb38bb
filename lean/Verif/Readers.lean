import Verif.Prog
import Verif.CircularBuffer

/-!
# The readers — src/readable.rs
-/

namespace Verif

/-! ## `BufferReader` and `CopyingBufferReader` -/

/-- State of `BufferReader` (src/readable.rs:28-45) and `CopyingBufferReader`
(lines 173-191): addresses `ptr` and `stop` (the field `end`).  `base` and
`buf` are the address and contents of the borrowed input; `trace` is a ghost
variable which records every access to input memory (address, length). -/
structure BufSt where
  base : Nat
  buf : Bytes
  ptr : Nat
  stop : Nat
  trace : List (Nat × Nat)

/-- `BufferReader::new` — src/readable.rs:35-45, 181-190. -/
def BufSt.init (base : Nat) (buf : Bytes) : BufSt := ⟨base, buf, base, base + buf.length, []⟩

/-- Subtraction of `usize` values (wrapping, as in release builds). -/
def wsub (h : Host) (a b : Nat) : Nat := (a + (h.usizeMax + 1) - b) % (h.usizeMax + 1)

/-- `can_read_at_least` — src/readable.rs:157-160, 276-279. -/
def bufCanRead (h : Host) (n : Nat) (s : BufSt) : Option Bool :=
  some (decide (wsub h s.stop s.ptr ≥ n))

/-- The bytes at `[a, a+n)`: those of the input buffer, as far as inside. -/
def BufSt.load (s : BufSt) (a n : Nat) : Bytes := (s.buf.drop (a - s.base)).take n

/-- `read_bytes`, `read_bytes_into_ptr` — src/readable.rs:48-75, 194-221. -/
def bufRead (h : Host) (n : Nat) (s : BufSt) : Except Err Bytes × BufSt :=
  if bufCanRead h n s = some false then (.error .unexpectedEndOfInput, s)
  else (.ok (s.load s.ptr n), { s with ptr := s.ptr + n, trace := (s.ptr, n) :: s.trace })

/-- `peek_bytes`, `peek_bytes_into_ptr` — src/readable.rs:77-101, 223-247. -/
def bufPeek (h : Host) (n : Nat) (s : BufSt) : Except Err Bytes × BufSt :=
  if bufCanRead h n s = some false then (.error .unexpectedEndOfInput, s)
  else (.ok (s.load s.ptr n), { s with trace := (s.ptr, n) :: s.trace })

/-- `skip_bytes` — src/readable.rs:103-113, 249-259. -/
def bufSkip (h : Host) (n : Nat) (s : BufSt) : Except Err Unit × BufSt :=
  if bufCanRead h n s = some false then (.error .unexpectedEndOfInput, s)
  else (.ok (), { s with ptr := s.ptr + n })

/-- `read_bytes_borrowed`, `read_bytes_borrowed_from_reader` —
src/readable.rs:115-143, 261-274. -/
def bufBorrow (h : Host) (n : Nat) (s : BufSt) : Option (Except Err (Nat × Bytes)) × BufSt :=
  if bufCanRead h n s = some false then (some (.error .unexpectedEndOfInput), s)
  else (some (.ok (s.ptr, s.load s.ptr n)), { s with ptr := s.ptr + n, trace := (s.ptr, n) :: s.trace })

/-- `read_bytes_borrowed_until_eof` — src/readable.rs:145-155. -/
def bufBorrowEof (h : Host) (s : BufSt) : Option (Nat × Bytes) × BufSt :=
  let n := wsub h s.stop s.ptr
  (some (s.ptr, s.load s.ptr n), { s with ptr := s.ptr + n, trace := (s.ptr, n) :: s.trace })

/-- `impl Reader for BufferReader` — src/readable.rs:47-171. -/
def bufferReader (h : Host) : ReaderOps BufSt where
  read := bufRead h
  peek := bufPeek h
  skip := bufSkip h
  canRead := bufCanRead h
  borrow := bufBorrow h
  borrowR := bufBorrow h
  borrowEof := bufBorrowEof h

/-- `impl Reader for CopyingBufferReader` — src/readable.rs:193-289; it does
not override `read_bytes_borrowed` and `read_bytes_borrowed_until_eof`
(defaults: `None`, src/reader.rs:98-111). -/
def copyingReader (h : Host) : ReaderOps BufSt where
  read := bufRead h
  peek := bufPeek h
  skip := bufSkip h
  canRead := bufCanRead h
  borrow := fun _ s => (none, s)
  borrowR := bufBorrow h
  borrowEof := fun s => (none, s)

/-! ## Streams: `std::io::Read` -/

/-- One call of `Read::read`: how many bytes the source is willing to give
(0 is a spurious end of file), or an error. -/
inductive Ev where
  | give (n : Nat)
  | fault (k : IoKind)
  deriving DecidableEq, Repr

/-- A source of bytes: what is left of its data and its behaviour in the
next calls.  After the listed events it gives as much as it is asked for.
Sources that return more bytes than fit in the given slice (a violation of
the contract of `Read`) are not considered. -/
structure Src where
  data : Bytes
  evs : List Ev
  deriving DecidableEq, Repr

/-- `Read::read` into a slice of `n` bytes. -/
def Src.read (n : Nat) (s : Src) : Except IoKind Bytes × Src :=
  match s.evs with
  | [] => (.ok (s.data.take n), ⟨s.data.drop n, []⟩)
  | .give m :: evs => (.ok (s.data.take (min m n)), ⟨s.data.drop (min m n), evs⟩)
  | .fault k :: evs => (.error k, ⟨s.data, evs⟩)

/-- The loop of `std::io::default_read_exact`: `Interrupted` is retried, a
read of 0 bytes ends it.  The number of iterations is bounded by
the number of events plus the number of bytes wanted (`readExact`). -/
def Src.readExactLoop : Nat → Nat → Bytes → Src → Except Err Bytes × Src
  | 0, _, _, s => (.error .diverge, s)
  | fuel + 1, n, acc, s =>
    if n = 0 then (.ok acc, s)
    else match s.read n with
      | (.error .interrupted, s) => Src.readExactLoop fuel n acc s
      | (.error k, s) => (.error (.io k), s)
      | (.ok d, s) =>
        if d = [] then (.error (.io .unexpectedEof), s)
        else Src.readExactLoop fuel (n - d.length) (acc ++ d) s

/-- `Read::read_exact` (default implementation), with the mapping of
errors by `Error::from_io_error` (src/error.rs:53-57). -/
def Src.readExact (n : Nat) (s : Src) : Except Err Bytes × Src :=
  Src.readExactLoop (s.evs.length + n + 2) n [] s

/-! ## `StreamReader` -/

/-- State of `StreamReader` — src/readable.rs:291-297. -/
structure StreamSt where
  src : Src
  buf : CBuf
  buffering : Bool

/-- The loop of `read_bytes_slow` — src/readable.rs:304-324.  Every iteration
that does not leave the loop adds a byte to the buffer, which bounds their
number (`capacity` is passed as fuel). -/
def streamFill (grow : Nat → Nat) (n : Nat) : Nat → StreamSt → Except Err Unit × StreamSt
  | 0, s => (.error .diverge, s)
  | fuel + 1, s =>
    if s.buf.length < s.buf.capacity then
      match s.buf.tryAppendWith grow (s.buf.capacity - s.buf.length) Src.read s.src with
      | .error p => (.error (.panic p), s)
      | .ok (.error k, buf, src) => (.error (.io k), { s with buf := buf, src := src })
      | .ok (.ok w, buf, src) =>
        let s := { s with buf := buf, src := src }
        if w = 0 then
          if s.buf.length < n then (.error .unexpectedEndOfInput, s) else (.ok (), s)
        else if s.buf.length ≥ n then (.ok (), s)
        else streamFill grow n fuel s
    else (.ok (), s)

/-- Second half of `read_bytes_slow` — src/readable.rs:326-340. -/
def streamTake (n : Nat) (s : StreamSt) : Except Err Bytes × StreamSt :=
  let length := min s.buf.length n
  let r : Except Panic (Bytes × CBuf) :=
    if s.buf.length > 0 then s.buf.consumeInto length else .ok ([], s.buf)
  match r with
  | .error p => (.error (.panic p), s)
  | .ok (out, buf) =>
    let s := { s with buf := buf }
    if n - out.length = 0 then (.ok out, s)
    else match s.src.readExact (n - out.length) with
      | (.error e, src) => (.error e, { s with src := src })
      | (.ok d, src) => (.ok (out ++ d), { s with src := src })

/-- `read_bytes_slow` — src/readable.rs:301-341. -/
def streamReadSlow (grow : Nat → Nat) (n : Nat) (s : StreamSt) : Except Err Bytes × StreamSt :=
  if s.buffering && decide (n < s.buf.capacity) then
    match streamFill grow n (s.buf.capacity + 1) s with
    | (.error e, s) => (.error e, s)
    | (.ok (), s) => streamTake n s
  else streamTake n s

/-- `read_bytes` — src/readable.rs:346-354. -/
def streamRead (grow : Nat → Nat) (n : Nat) (s : StreamSt) : Except Err Bytes × StreamSt :=
  if s.buf.length ≥ n then
    match s.buf.consumeInto n with
    | .error p => (.error (.panic p), s)
    | .ok (out, buf) => (.ok out, { s with buf := buf })
  else streamReadSlow grow n s

/-- The loop of `peek_bytes` — src/readable.rs:357-377.  Each iteration adds a
byte or leaves. -/
def streamPeekFill (grow : Nat → Nat) (n : Nat) : Nat → StreamSt → Except Err Unit × StreamSt
  | 0, s => (.error .diverge, s)
  | fuel + 1, s =>
    if s.buf.length < n then
      let chunk := n - s.buf.length
      let chunk := if s.buffering then max chunk (s.buf.capacity - s.buf.length) else chunk
      match s.buf.tryAppendWith grow chunk Src.read s.src with
      | .error p => (.error (.panic p), s)
      | .ok (.error k, buf, src) => (.error (.io k), { s with buf := buf, src := src })
      | .ok (.ok w, buf, src) =>
        let s := { s with buf := buf, src := src }
        if w = 0 then (.error .unexpectedEndOfInput, s)
        else streamPeekFill grow n fuel s
    else (.ok (), s)

/-- `peek_bytes` — src/readable.rs:356-387. -/
def streamPeek (grow : Nat → Nat) (n : Nat) (s : StreamSt) : Except Err Bytes × StreamSt :=
  match streamPeekFill grow n (n + 1) s with
  | (.error e, s) => (.error e, s)
  | (.ok (), s) =>
    match s.buf.asSlicesOfLength n with
    | .error p => (.error (.panic p), s)
    | .ok (a, b) =>
      match copyOut n a b with
      | .error p => (.error (.panic p), s)
      | .ok out => (.ok out, s)

/-- `Reader::skip_bytes` (default) — src/reader.rs:76-91: chunks of 1024 bytes. -/
def skipLoop {σ : Type} (read : Nat → σ → Except Err Bytes × σ) : Nat → Nat → σ → Except Err Unit × σ
  | 0, _, s => (.error .diverge, s)
  | fuel + 1, n, s =>
    if n > 0 then
      let chunk := if n < 1024 then n else 1024
      match read chunk s with
      | (.error e, s) => (.error e, s)
      | (.ok _, s) => skipLoop read fuel (n - chunk) s
    else (.ok (), s)

/-- `impl Reader for StreamReader` — src/readable.rs:344-396; the remaining
methods are the defaults of the trait (src/reader.rs:76-112). -/
def streamReader (grow : Nat → Nat) : ReaderOps StreamSt where
  read := streamRead grow
  peek := streamPeek grow
  skip := fun n s => skipLoop (streamRead grow) (n + 1) n s
  canRead := fun _ _ => none
  borrow := fun _ s => (none, s)
  borrowR := fun _ s => (none, s)
  borrowEof := fun s => (none, s)

/-- `StreamReader::deserialize`, initial state — src/readable.rs:401-417. -/
def StreamSt.init (buffering : Bool) (src : Src) : StreamSt :=
  ⟨src, CBuf.withCapacity (if buffering then 8 * 1024 else 0), buffering⟩

end Verif
