import Verif.Context

/-!
# Hand-written implementations of `Writable` — src/writable.rs, src/writer.rs

`Context.lean` has pairs of implementations which write values one after another and pass errors on.  Here `write_to` is any program which
uses the methods of `Writer`, and `bytes_needed` returns anything.
-/

namespace Verif

/-- `write_to`, written by hand: which calls it makes may depend on the results of earlier ones.
* `bytes bs k`: `write_bytes(bs)`; errors need not be passed on;
* `num n v k`: `write_u8` … `write_u128`, a number of `n` bytes;
* `ask n k`: `can_write_at_least(n)`;
* `look k`: `context()`;
* `change f k`: `let c = context_mut(); *c = f(c)`.
Simplification: the error type of the context is the default one. -/
inductive Custom (γ : Type) where
  | done (r : Except Err Unit)
  | bytes (bs : Bytes) (k : Except Err Unit → Custom γ)
  | num (n v : Nat) (k : Except Err Unit → Custom γ)
  | ask (n : Nat) (k : Option Bool → Custom γ)
  | look (k : γ → Custom γ)
  | change (f : γ → γ) (k : Custom γ)

/-- Run with a writer and a context. -/
def Custom.run {γ σ : Type} (W : CtxWriter γ σ) : Custom γ → γ → σ → Except Err Unit × γ × σ
  | .done r, c, s => (r, c, s)
  | .bytes bs k, c, s => let r := (W.ops (W.endianness c)).bytes bs s; (k r.1).run W c r.2
  | .num n v k, c, s => let r := (W.ops (W.endianness c)).num n v s; (k r.1).run W c r.2
  | .ask n k, c, s => (k ((W.ops (W.endianness c)).canWrite n s)).run W c s
  | .look k, c, s => if W.context then (k c).run W c s else (.error (.panic .notImplemented), c, s)
  | .change f k, c, s => if W.context then k.run W (f c) s else (.error (.panic .notImplemented), c, s)

/-- A call of `write_to` of one of speedy's implementations, within a hand-written one. -/
def Custom.call {γ : Type} : WProg → (Except Err Unit → Custom γ) → Custom γ
  | .done r, k => k r
  | .bytes bs q, k => .bytes bs fun
    | .ok _ => Custom.call q k
    | .error er => k (.error er)
  | .num n v q, k => .num n v fun
    | .ok _ => Custom.call q k
    | .error er => k (.error er)
  | .room n q, k => .ask n fun r => if r = some false then k (.error .unexpectedEndOfOutputBuffer) else Custom.call q k

/-- `can_write_at_least` of `BufferCollector`, with any number: `self.buffer.get( self.position..self.position + size ).is_some()`
— src/writable.rs:53-56.  A release build: the sum wraps around.  `get` returns nothing if the range ends before it starts. -/
def BufC.canWriteWrap (h : Host) (n : Nat) (s : BufC) : Option Bool :=
  some (decide (s.pos ≤ h.wrap (s.pos + n) ∧ h.wrap (s.pos + n) ≤ s.buf.length))

/-- `BufferCollector` — src/writable.rs:28-57. -/
def CtxWriter.anyBuffer {γ : Type} (h : Host) (en : γ → Endian) : CtxWriter γ BufC :=
  ⟨fun e => defaultOps h e BufC.write (BufC.canWriteWrap h), en, true⟩

/-- `write_to_vec_with_ctx_mut` — src/writable.rs:195-219, with the context afterwards.  `needed` is what `bytes_needed` has returned.  A
release build: without the `debug_assert_eq!` in line 217. -/
def Custom.writeVec {γ : Type} (h : Host) (en : γ → Endian) (needed : Except Err Nat) (p : Custom γ) (c : γ) (junk : Nat → UInt8) :
    Except Err Bytes × γ :=
  match needed with
  | .error er => (.error er, c)
  | .ok n =>
    if n > h.isizeMax then (.error (.panic .capacityOverflow), c)
    else match p.run (CtxWriter.anyBuffer h en) c ⟨(List.range n).map junk, 0⟩ with
      | (.ok _, c, s) => (.ok (s.buf.take s.pos), c)
      | (.error er, c, _) => (.error er, c)

/-- `write_to_buffer_with_ctx_mut` — src/writable.rs:174-187: the result, the context and the buffer afterwards. -/
def Custom.writeBuffer {γ : Type} (h : Host) (en : γ → Endian) (needed : Except Err Nat) (p : Custom γ) (c : γ) (buf : Bytes) :
    Except Err Unit × γ × Bytes :=
  match needed with
  | .error er => (.error er, c, buf)
  | .ok n =>
    if n ≤ buf.length then
      match p.run (CtxWriter.anyBuffer h en) c ⟨buf.take n, 0⟩ with
      | (r, c, s) => (r, c, s.buf ++ buf.drop n)
    else (.error (.outputBufferIsTooSmall buf.length n), c, buf)

/-- `write_to_stream_with_ctx` — src/writable.rs:221-230. -/
def Custom.writeStream {γ : Type} (h : Host) (en : γ → Endian) (p : Custom γ) (c : γ) (s : Sink) : Except Err Unit × Sink :=
  match p.run (CtxWriter.stream h en) c s with
  | (r, _, s) => (r, s)

/-- The default of `bytes_needed` — src/writable.rs:243-251. -/
def Custom.defaultNeeded {γ : Type} (h : Host) (p : Custom γ) (c : γ) : Except Err Nat :=
  match p.run (CtxWriter.size h) c 0 with
  | (.ok _, _, n) => .ok n
  | (.error er, _, _) => .error er

/-- `write_to` of one of speedy's types, as a hand-written program would call it; its context is the endianness. -/
def Custom.encode (T : Target) (e : Endian) (t : Ty) (w : Val) : Custom Endian := .call (Verif.encode T e t Cx.std w) .done

/-- `write_to_vec` for a value of one of speedy's types which changes between the calls of `bytes_needed` (value `v`) and `write_to`
(value `w`), for instance because it contains an atomic number — src/writable.rs:195-219. -/
def writeChanging (T : Target) (e : Endian) (t : Ty) (v w : Val) (junk : Nat → UInt8) : Except Err Bytes :=
  (Custom.writeVec T.toHost id (bytesNeeded T t v) (.encode T e t w) e junk).1

end Verif
