import Verif.Context

/-!
# Hand-written implementations of `Readable` — src/readable.rs, src/reader.rs

`Context.lean` has pairs of implementations which read values one after another and pass errors on.  Here `read_from` is any program
which uses the methods of `Reader`, and `minimum_bytes_needed` returns anything.
-/

namespace Verif

/-- `read_from`, written by hand: the required and overridable methods of `Reader` (src/reader.rs:56-112) as in `Prog`, and
* `look k`: `context()`;
* `change f k`: `let c = context_mut(); *c = f(c)`.
Errors need not be passed on.  Simplification: the error type of the context is the default one. -/
inductive Reading (γ α : Type) where
  | done (a : α)
  | read (n : Nat) (k : Except Err Bytes → Reading γ α)
  | peek (n : Nat) (k : Except Err Bytes → Reading γ α)
  | skip (n : Nat) (k : Except Err Unit → Reading γ α)
  | ask (n : Nat) (k : Option Bool → Reading γ α)
  | borrow (n : Nat) (k : Option (Except Err (Nat × Bytes)) → Reading γ α)
  | borrowR (n : Nat) (k : Option (Except Err (Nat × Bytes)) → Reading γ α)
  | borrowEof (k : Option (Nat × Bytes) → Reading γ α)
  | look (k : γ → Reading γ α)
  | change (f : γ → γ) (k : Reading γ α)

/-- Run with a reader and a context.  All readers return their context from `context()` and `context_mut()`: src/readable.rs:162-170,
280-288, 388-396. -/
def Reading.run {γ α σ : Type} (R : ReaderOps σ) : Reading γ α → γ → σ → α × γ × σ
  | .done a, c, s => (a, c, s)
  | .read n k, c, s => let r := R.read n s; (k r.1).run R c r.2
  | .peek n k, c, s => let r := R.peek n s; (k r.1).run R c r.2
  | .skip n k, c, s => let r := R.skip n s; (k r.1).run R c r.2
  | .ask n k, c, s => (k (R.canRead n s)).run R c s
  | .borrow n k, c, s => let r := R.borrow n s; (k r.1).run R c r.2
  | .borrowR n k, c, s => let r := R.borrowR n s; (k r.1).run R c r.2
  | .borrowEof k, c, s => let r := R.borrowEof s; (k r.1).run R c r.2
  | .look k, c, s => (k c).run R c s
  | .change f k, c, s => k.run R (f c) s

/-- A call of one of speedy's own functions within a hand-written one. -/
def Reading.call {γ α β : Type} : Prog β → (β → Reading γ α) → Reading γ α
  | .ret b, k => k b
  | .read n q, k => .read n fun r => Reading.call (q r) k
  | .peek n q, k => .peek n fun r => Reading.call (q r) k
  | .skip n q, k => .skip n fun r => Reading.call (q r) k
  | .canRead n q, k => .ask n fun r => Reading.call (q r) k
  | .borrow n q, k => .borrow n fun r => Reading.call (q r) k
  | .borrowR n q, k => .borrowR n fun r => Reading.call (q r) k
  | .borrowEof q, k => .borrowEof fun r => Reading.call (q r) k
  | .alloc _ _ q, k => Reading.call q k

/-- `reader.read_u8()` … `reader.read_u128()`, a number of `n` bytes: the byte order is asked of the context each time —
src/reader.rs:114-517.  `en` is `Context::endianness`. -/
def Reading.num {γ α : Type} (h : Host) (en : γ → Endian) (n : Nat) (k : Except Err Nat → Reading γ α) : Reading γ α :=
  .look fun c => .call (readNum h (en c) n) k

/-- `reader.read_value::<T>()` — src/reader.rs:509-512. -/
def Reading.value {γ α : Type} (T : Target) (en : γ → Endian) (t : Ty) (k : Except Err Val → Reading γ α) : Reading γ α :=
  .look fun c => .call (decode T (en c) t Cx.std) k

/-- `read_with_length_from_buffer_with_ctx` — src/readable.rs:498-510; `min` is what `minimum_bytes_needed` returns.  (The context is
given away; it is part of the result for the proofs.) -/
def Reading.readBuffer {γ α : Type} (h : Host) (min : Nat) (p : Reading γ (Except Err α)) (c : γ) (base : Nat) (buf : Bytes) :
    (Except Err α × Nat) × γ :=
  if buf.length < min then ((.error (.inputBufferIsTooSmall buf.length min), 0), c)
  else match p.run (bufferReader h) c (BufSt.init base buf) with
    | (r, c, s) => ((r, wsub h s.ptr base), c)

/-- `read_with_length_from_buffer_copying_data_with_ctx_mut` — src/readable.rs:521-534. -/
def Reading.readCopying {γ α : Type} (h : Host) (min : Nat) (p : Reading γ (Except Err α)) (c : γ) (base : Nat) (buf : Bytes) :
    (Except Err α × Nat) × γ :=
  if buf.length < min then ((.error (.inputBufferIsTooSmall buf.length min), 0), c)
  else match p.run (copyingReader h) c (BufSt.init base buf) with
    | (r, c, s) => ((r, wsub h s.ptr base), c)

/-- `read_from_stream_unbuffered_with_ctx`, `read_from_stream_buffered_with_ctx` — src/readable.rs:398-416, 536-546: the result, the
context, and the state of the reader. -/
def Reading.readStream {γ α : Type} (grow : Nat → Nat) (buffering : Bool) (p : Reading γ (Except Err α)) (c : γ) (src : Src) :
    Except Err α × γ × StreamSt :=
  p.run (streamReader grow) c (StreamSt.init buffering src)

end Verif
