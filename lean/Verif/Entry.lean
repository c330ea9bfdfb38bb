import Verif.Decode
import Verif.Readers

/-!
# Entry points for reading — src/readable.rs:418-656
-/

namespace Verif

/-- `read_with_length_from_buffer(_with_ctx)` — src/readable.rs:498-510. `base`
is the address of the buffer. -/
def readWithLengthFromBuffer (T : Target) (e : Endian) (t : Ty) (base : Nat) (buf : Bytes) :
    Except Err Val × Nat :=
  if buf.length < minBytes T t then
    (.error (.inputBufferIsTooSmall buf.length (minBytes T t)), 0)
  else
    let r := (decode T e t Cx.std).run (bufferReader T.toHost) (BufSt.init base buf)
    (r.1, wsub T.toHost r.2.ptr base)

/-- `read_from_buffer(_with_ctx)` — src/readable.rs:493-496. -/
def readFromBuffer (T : Target) (e : Endian) (t : Ty) (base : Nat) (buf : Bytes) : Except Err Val :=
  (readWithLengthFromBuffer T e t base buf).1

/-- `read_with_length_from_buffer_copying_data(_with_ctx, _with_ctx_mut)` —
src/readable.rs:517-534. -/
def readWithLengthFromBufferCopying (T : Target) (e : Endian) (t : Ty) (base : Nat) (buf : Bytes) :
    Except Err Val × Nat :=
  if buf.length < minBytes T t then
    (.error (.inputBufferIsTooSmall buf.length (minBytes T t)), 0)
  else
    let r := (decode T e t Cx.std).run (copyingReader T.toHost) (BufSt.init base buf)
    (r.1, wsub T.toHost r.2.ptr base)

/-- `read_from_buffer_copying_data(_with_ctx)` — src/readable.rs:512-515; also
`read_from_file` on x86-64 Linux once the file is mapped (lines 559-655; for opening
and mapping see `File.lean`). -/
def readFromBufferCopying (T : Target) (e : Endian) (t : Ty) (base : Nat) (buf : Bytes) :
    Except Err Val :=
  (readWithLengthFromBufferCopying T e t base buf).1

/-- `read_from_stream_unbuffered` (`buffering = false`) and
`read_from_stream_buffered` (`true`) — src/readable.rs:398-416, 536-546; the
state afterwards contains what is left of the stream.  `grow` is how the
allocator rounds up capacities.  Also `read_from_file` on other platforms
(lines 550-559). -/
def readFromStream (T : Target) (e : Endian) (t : Ty) (grow : Nat → Nat) (buffering : Bool) (src : Src) :
    Except Err Val × StreamSt :=
  (decode T e t Cx.std).run (streamReader grow) (StreamSt.init buffering src)

end Verif
