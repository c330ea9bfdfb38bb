import Verif.Entry
import Verif.Encode

/-!
# Contexts — src/context.rs, and the parts of src/readable.rs and src/writable.rs which hold them

Elsewhere in the model the context is constant and only its byte order matters.  Here it is a value which hand-written
implementations of `Readable` and `Writable` look at and change, for instance to switch the byte order after a header.
-/

namespace Verif

/-- A hand-written pair of implementations of `Readable` and `Writable` which use the same format: a sequence of values, each read
with `reader.read_value::<T>()` (src/reader.rs:509-512) and written with `writer.write_value(&v)` (src/writer.rs:93-96).  Which
type comes next may depend on the values so far and on the context.
* `item t next`: a value of type `t`;
* `look next`: `context()`;
* `update f next`: `let c = context_mut(); *c = f(c)`.
Simplifications: errors are passed on (`?`), and the error type of the context is the default one. -/
inductive Script (γ : Type) where
  | stop
  | item (t : Ty) (next : Val → Script γ)
  | look (next : γ → Script γ)
  | update (f : γ → γ) (next : Script γ)

/-- `read_from`.  `en` is `Context::endianness` (src/context.rs:3-6); `reader.endianness()` asks the context each time
(src/reader.rs:514-517).  All readers return their context from `context()` and `context_mut()` (src/readable.rs:162-170, 280-288,
388-396).  The result is the values, the context afterwards and the reader. -/
def Script.read {γ σ : Type} (T : Target) (en : γ → Endian) (R : ReaderOps σ) : Script γ → γ → σ → Except Err (List Val) × γ × σ
  | .stop, c, s => (.ok [], c, s)
  | .item t next, c, s => match (decode T (en c) t Cx.std).run R s with
    | (.error er, s) => (.error er, c, s)
    | (.ok v, s) => match (next v).read T en R c s with
      | (.error er, c, s) => (.error er, c, s)
      | (.ok vs, c, s) => (.ok (v :: vs), c, s)
  | .look next, c, s => (next c).read T en R c s
  | .update f next, c, s => next.read T en R (f c) s

/-- `read_with_length_from_buffer_copying_data_with_ctx_mut` — src/readable.rs:521-534, for a type with the default
`minimum_bytes_needed` (0: src/readable.rs:423-426): result, length, context afterwards. -/
def Script.readBuffer {γ : Type} (T : Target) (en : γ → Endian) (p : Script γ) (c : γ) (base : Nat) (buf : Bytes) :
    (Except Err (List Val) × Nat) × γ :=
  match p.read T en (copyingReader T.toHost) c (BufSt.init base buf) with
  | (r, c, s) => ((r, wsub T.toHost s.ptr base), c)

/-- A writer together with what it does about the context:
* `ops`: its methods, if its `endianness()` is given;
* `endianness`: `Writer::endianness`;
* `context`: do `context()` and `context_mut()` return?  (Otherwise they panic.) -/
structure CtxWriter (γ σ : Type) where
  ops : Endian → WriterOps σ
  endianness : γ → Endian
  context : Bool

/-- `WritingCollector` — src/writable.rs:60-85; `endianness()` is the default of src/writer.rs:88-91. -/
def CtxWriter.stream {γ : Type} (h : Host) (en : γ → Endian) : CtxWriter γ Sink := ⟨writingCollector h, en, true⟩

/-- `BufferCollector` — src/writable.rs:28-57. -/
def CtxWriter.buffer {γ : Type} (h : Host) (en : γ → Endian) : CtxWriter γ BufC := ⟨bufferCollector h, en, true⟩

/-- `SizeCalculatorCollector` — src/writable.rs:87-142: its `endianness()` is `NATIVE` (lines 127-130), and it has no context
(lines 132-140: `panic!()`). -/
def CtxWriter.size {γ : Type} (h : Host) : CtxWriter γ Nat := ⟨fun _ => sizeCalculator h, fun _ => h.native, false⟩

/-- `write_to` of a value consisting of these values. -/
def Script.write {γ σ : Type} (T : Target) (W : CtxWriter γ σ) : Script γ → List Val → γ → σ → Except Err Unit × γ × σ
  | .stop, [], c, s => (.ok (), c, s)
  | .item t next, v :: vs, c, s => match (encode T (W.endianness c) t Cx.std v).run (W.ops (W.endianness c)) s with
    | (.error er, s) => (.error er, c, s)
    | (.ok _, s) => (next v).write T W vs c s
  | .look next, vs, c, s => if W.context then (next c).write T W vs c s else (.error (.panic .notImplemented), c, s)
  | .update f next, vs, c, s =>
    if W.context then next.write T W vs (f c) s else (.error (.panic .notImplemented), c, s)
  | _, _, c, s => (.error .illTyped, c, s)

/-- `write_to_stream_with_ctx` — src/writable.rs:221-230.  (The context is given away; it is part of the result for the proofs.) -/
def Script.writeStream {γ : Type} (T : Target) (en : γ → Endian) (p : Script γ) (vs : List Val) (c : γ) (s : Sink) :
    Except Err Unit × γ × Sink :=
  p.write T (CtxWriter.stream T.toHost en) vs c s

/-- `Writable::bytes_needed`: the default (src/writable.rs:243-251), unless the implementation defines it. -/
def Script.bytesNeeded {γ : Type} (T : Target) (p : Script γ) (own : Option (List Val → Except Err Nat)) (vs : List Val) (c : γ) :
    Except Err Nat :=
  match own with
  | some f => f vs
  | none => match p.write T (CtxWriter.size T.toHost) vs c 0 with
    | (.ok _, _, n) => .ok n
    | (.error er, _, _) => .error er

/-- `write_to_vec_with_ctx_mut` — src/writable.rs:195-219; with the context afterwards. -/
def Script.writeVec {γ : Type} (T : Target) (en : γ → Endian) (p : Script γ) (own : Option (List Val → Except Err Nat))
    (vs : List Val) (c : γ) (junk : Nat → UInt8) : Except Err Bytes × γ :=
  match p.bytesNeeded T own vs c with
  | .error er => (.error er, c)
  | .ok n =>
    if n > T.isizeMax then (.error (.panic .capacityOverflow), c)
    else match p.write T (CtxWriter.buffer T.toHost en) vs c ⟨(List.range n).map junk, 0⟩ with
      | (.ok _, c, s) => (.ok (s.buf.take s.pos), c)
      | (.error er, c, _) => (.error er, c)

end Verif
