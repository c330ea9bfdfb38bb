import Verif.Varint

/-!
# Writers (src/writer.rs, src/writable.rs)

`write_to` only calls methods of the writer and stops at the first error, so
it is represented by the sequence of calls it makes (`WProg`), which is then
run with one of the writers.
-/

namespace Verif

/-- The calls made on a `Writer`:
* `bytes`: `write_bytes`;
* `num n v`: `write_u8` … `write_u128` (and `write_i8` … `write_f64`, which call
  those — src/writer.rs:53-86) for a number of `n` bytes;
* `room n`: `if let Some(false) = can_write_at_least(n)` return
  `error_end_of_output_buffer` (src/varint.rs:209-211).
It ends with `Ok(())` or an error. -/
inductive WProg where
  | done (r : Except Err Unit)
  | bytes (bs : Bytes) (k : WProg)
  | num (n v : Nat) (k : WProg)
  | room (n : Nat) (k : WProg)

/-- One program after another (the operator `?`). -/
def WProg.seq : WProg → WProg → WProg
  | .done (.ok _), q => q
  | .done (.error er), _ => .done (.error er)
  | .bytes bs k, q => .bytes bs (k.seq q)
  | .num n v k, q => .num n v (k.seq q)
  | .room n k, q => .room n (k.seq q)

/-- Nothing to write. -/
def WProg.ok : WProg := .done (.ok ())

/-- Return an error. -/
def WProg.fail (er : Err) : WProg := .done (.error er)

/-- The methods of a `Writer`. -/
structure WriterOps (σ : Type) where
  bytes : Bytes → σ → Except Err Unit × σ
  num : Nat → Nat → σ → Except Err Unit × σ
  canWrite : Nat → σ → Option Bool

/-- Run with a writer. -/
def WProg.run {σ : Type} (W : WriterOps σ) : WProg → σ → Except Err Unit × σ
  | .done r, s => (r, s)
  | .bytes bs k, s => match W.bytes bs s with
    | (.ok _, s') => k.run W s'
    | (.error er, s') => (.error er, s')
  | .num n v k, s => match W.num n v s with
    | (.ok _, s') => k.run W s'
    | (.error er, s') => (.error er, s')
  | .room n k, s =>
    if W.canWrite n s = some false then (.error .unexpectedEndOfOutputBuffer, s) else k.run W s

/-- The bytes of `write_u8` … `write_u128` — src/writer.rs:19-51: swap if
necessary, then the bytes of the number in memory. -/
def numBytes (h : Host) (e : Endian) (n v : Nat) : Bytes :=
  h.native.bytes n (if e.conv h then swapBytes n v else v)

/-- A writer which defines `write_bytes` and `can_write_at_least` only. -/
def defaultOps {σ : Type} (h : Host) (e : Endian) (wr : Bytes → σ → Except Err Unit × σ)
    (can : Nat → σ → Option Bool) : WriterOps σ where
  bytes := wr
  num n v s := wr (numBytes h e n v) s
  canWrite := can

/-! ## `BufferCollector` — src/writable.rs:28-57 -/

/-- Buffer and position. -/
structure BufC where
  buf : Bytes
  pos : Nat
  deriving DecidableEq, Repr

/-- `write_bytes` — src/writable.rs:34-40.  (`position + len` cannot overflow:
the slice lies in memory besides the buffer.) -/
def BufC.write (bs : Bytes) (s : BufC) : Except Err Unit × BufC :=
  if s.pos + bs.length ≤ s.buf.length then
    (.ok (), ⟨s.buf.take s.pos ++ bs ++ s.buf.drop (s.pos + bs.length), s.pos + bs.length⟩)
  else (.error .unexpectedEndOfOutputBuffer, s)

/-- `can_write_at_least` — src/writable.rs:53-56. -/
def BufC.canWrite (n : Nat) (s : BufC) : Option Bool := some (s.pos + n ≤ s.buf.length)

/-- `BufferCollector`. -/
def bufferCollector (h : Host) (e : Endian) : WriterOps BufC :=
  defaultOps h e BufC.write BufC.canWrite

/-! ## `SizeCalculatorCollector` — src/writable.rs:87-142 -/

/-- `SizeCalculatorCollector`. A release build: `size` wraps around (a debug build panics). -/
def sizeCalculator (h : Host) : WriterOps Nat where
  bytes bs s := (.ok (), h.wrap (s + bs.length))
  num n _ s := (.ok (), h.wrap (s + n))
  canWrite _ _ := none

/-! ## `WritingCollector` — src/writable.rs:60-85 -/

/-- What a call of `write` on a stream does: accept at most `n` bytes or fail. -/
inductive SinkEv where
  | accept (n : Nat)
  | fault (k : IoKind)
  deriving DecidableEq, Repr

/-- A `std::io::Write`: the bytes received so far and the behaviour of future
calls of `write` (afterwards it accepts everything). -/
structure Sink where
  got : Bytes
  evs : List SinkEv
  deriving DecidableEq, Repr

/-- `std::io::Write::write_all` (standard library): repeats `write` until all
bytes are accepted; `Ok(0)` is the error `WriteZero`; `Interrupted` is
retried. -/
def Sink.writeAll : List SinkEv → Bytes → Bytes → Except Err Unit × Sink
  | evs, got, [] => (.ok (), ⟨got, evs⟩)
  | [], got, bs => (.ok (), ⟨got ++ bs, []⟩)
  | .accept 0 :: evs, got, _ :: _ => (.error (.io .writeZero), ⟨got, evs⟩)
  | .accept (n + 1) :: evs, got, b :: bs =>
    Sink.writeAll evs (got ++ (b :: bs).take (n + 1)) ((b :: bs).drop (n + 1))
  | .fault .interrupted :: evs, got, b :: bs => Sink.writeAll evs got (b :: bs)
  | .fault k :: evs, got, _ :: _ => (.error (.io k), ⟨got, evs⟩)

/-- `write_bytes` of `WritingCollector` — src/writable.rs:68-73. -/
def Sink.write (bs : Bytes) (s : Sink) : Except Err Unit × Sink := Sink.writeAll s.evs s.got bs

/-- `WritingCollector` on a stream. -/
def writingCollector (h : Host) (e : Endian) : WriterOps Sink :=
  defaultOps h e Sink.write (fun _ _ => none)

/-! ## `std::io::BufWriter<File>` (standard library), used by `write_to_file` -/

/-- Buffered bytes and the file. -/
structure BufW where
  buf : Bytes
  sink : Sink
  deriving DecidableEq, Repr

/-- `BufWriter::flush_buf`: writes the buffer; on an error the part not yet
written stays in the buffer. -/
def BufW.flush (w : BufW) : Except Err Unit × BufW :=
  match Sink.writeAll w.sink.evs w.sink.got w.buf with
  | (.ok _, s) => (.ok (), ⟨[], s⟩)
  | (.error er, s) => (.error er, ⟨w.buf.drop (s.got.length - w.sink.got.length), s⟩)

/-- Default capacity of a `BufWriter`. -/
def bufWriterCap : Nat := 8192

/-- `BufWriter::write_all` (and `write_all_cold`). -/
def BufW.write (bs : Bytes) (w : BufW) : Except Err Unit × BufW :=
  if bs.length < bufWriterCap - w.buf.length then (.ok (), ⟨w.buf ++ bs, w.sink⟩)
  else
    let flushed := if bs.length > bufWriterCap - w.buf.length then w.flush else (.ok (), w)
    match flushed with
    | (.error er, w) => (.error er, w)
    | (.ok _, w) =>
      if bs.length ≥ bufWriterCap then
        match Sink.writeAll w.sink.evs w.sink.got bs with
        | (r, s) => (r, ⟨w.buf, s⟩)
      else (.ok (), ⟨w.buf ++ bs, w.sink⟩)

/-- `WritingCollector` on a `BufWriter`. -/
def fileCollector (h : Host) (e : Endian) : WriterOps BufW :=
  defaultOps h e BufW.write (fun _ _ => none)

/-! ## Meaning independent of the writer -/

/-- All bytes written (up to the first error) and the result, if the writer
itself never fails. -/
def WProg.out (h : Host) (e : Endian) : WProg → Bytes × Except Err Unit
  | .done r => ([], r)
  | .bytes bs k => let r := k.out h e; (bs ++ r.1, r.2)
  | .num n v k => let r := k.out h e; (numBytes h e n v ++ r.1, r.2)
  | .room _ k => k.out h e

end Verif
