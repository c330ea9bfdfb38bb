import Verif.Entry

/-!
# Error types of user-supplied contexts

`Context::Error` is any type with `From<speedy::Error>` and `IsEof` (src/context.rs:3-6).  All errors of the library are converted by
`From` where they arise (`.into()`), and are passed on as they are.  The library looks at an error in three places only, each time with
`is_eof`: `default_on_eof_body` (speedy-derive/src/lib.rs:1392-1400), `read_vec_until_eof` and `read_collection_until_eof`
(src/reader.rs:576-593, 688-700).  The functions of `Decode.lean` are repeated here with the `is_eof` of the context's error type in these places; the
errors of the model remain those before the conversion, which is applied to the result.
-/

namespace Verif

/-- An error type: its values, `From<speedy::Error>` and `IsEof::is_eof` — src/context.rs:3-6, src/error.rs:123-125. -/
structure ErrTy where
  E : Type
  conv : Err → E
  isEof : E → Bool

/-- `speedy::Error` itself — src/context.rs:8-10, src/error.rs:127-139. -/
def ErrTy.speedy : ErrTy := ⟨Err, id, Err.isEof⟩

/-- Outcomes of the model which are not errors of the program: panics, endless loops. -/
def Err.fault : Err → Bool
  | .panic _ | .diverge | .illTyped => true
  | _ => false

/-- What a function with this error type ends with instead of a value. -/
inductive Thrown (E : Type) where
  | err (x : E)
  | fault (f : Err)
  deriving DecidableEq

/-- The conversion. -/
def ErrTy.thrown (X : ErrTy) (er : Err) : Thrown X.E := if er.fault then .fault er else .err (X.conv er)

/-- The conversion of a result. -/
def ErrTy.result (X : ErrTy) {α : Type} : Except Err α → Except (Thrown X.E) α
  | .ok a => .ok a
  | .error er => .error (X.thrown er)

/-- Does `error.is_eof()` hold for the converted error?  (A panic is not an error: it is not caught.) -/
def ErrTy.eof (X : ErrTy) (er : Err) : Bool := !er.fault && X.isEof (X.conv er)

section
variable (X : ErrTy)

/-- `default_on_eof_body` — speedy-derive/src/lib.rs:1392-1400. -/
def onEofC {α : Type} (p : M α) (d : α) : M α :=
  Prog.bind p fun
    | .ok v => M.pure v
    | .error er => if X.eof er then M.pure d else M.fail er

/-- `read_vec_until_eof`, `read_collection_until_eof` — src/reader.rs:576-593, 688-700. -/
def readUntilEofC : Nat → M Val → M (List Val)
  | 0, _ => M.fail .diverge
  | fuel + 1, p => Prog.bind p fun
    | .ok v => M.bind (readUntilEofC fuel p) fun vs => M.pure (v :: vs)
    | .error er => if X.eof er then M.pure [] else M.fail er

/-- `readLenR`. -/
def readLenRC (h : Host) (e : Endian) : LenR → M (Option Nat)
  | .typed lt false => M.map some (readLen h e lt)
  | .typed lt true => M.map some (onEofC X (readLen h e lt) 0)
  | .fixed n => M.pure (some n)
  | .untilEof => M.pure none

/-- `readStr` — the sources are cited there. -/
def readStrC (T : Target) (e : Endian) (k : StrKind) (len : Option Nat) : M Val :=
  match k, len with
  | .owned, some n => M.bind (readVec T.toHost e (u8Elem T e) n) fun vs => asStr (toBytes vs)
  | .owned, none => M.bind (readUntilEofC X T.fuel (u8Elem T e).read) fun vs => asStr (toBytes vs)
  | .cow, some n => M.bind (readCow T.toHost e (u8Elem T e) n) fun c => asStr (toBytes c.vals)
  | .cow, none => M.bind (readUntilEofC X T.fuel (u8Elem T e).read) fun vs => asStr (toBytes vs)
  | .ref, some n => M.bind (borrowBytes n) fun r => asStr r.2
  | .ref, none => M.bind borrowRest fun r => asStr r.2

/-- `readSeq` — the sources are cited there. -/
def readSeqC (T : Target) (e : Endian) (k : SeqKind) (el : Elem) (len : Option Nat) : M Val :=
  match k, len with
  | .vec, some n => M.map .list (readVec T.toHost e el n)
  | .vec, none => M.map .list (readUntilEofC X T.fuel el.read)
  | .cow, some n => M.map (fun c => .list c.vals) (readCow T.toHost e el n)
  | .cow, none => M.map .list (readUntilEofC X T.fuel el.read)
  | .ref, some n => M.map (fun r => .list r.2) (readRefSlice T.toHost el n)
  | .ref, none => M.map (fun r => .list r.2) (readRefSliceRest el)

mutual
/-- `Readable::read_from` in a context with this error type — the sources are cited at `decode`. -/
def decodeC (T : Target) (e : Endian) : Ty → Cx → M Val
  | .prim p, _ => M.map .num (readNum T.toHost e p.size)
  | .usize, _ => M.bind (readNum T.toHost e 8) fun n =>
      if n > T.usizeMax then M.fail .outOfRangeUsize else M.pure (.num n)
  | .bool, _ => M.map .bool (readBool T.toHost e)
  | .char, _ => M.bind (readNum T.toHost e 4) fun n =>
      if isScalar n then M.pure (.num n) else M.fail .invalidChar
  | .nonZero p, _ => M.bind (readNum T.toHost e p.size) fun n =>
      if n = 0 then M.fail .zeroNonZero else M.pure (.num n)
  | .atomic p, _ => M.map .num (readNum T.toHost e p.size)
  | .ipv4, _ => M.map .num (readNum T.toHost e 4)
  | .ipv6, _ => readIpv6 T.toHost e
  | .ipAddr, _ => M.bind (readNum T.toHost e 1) fun kind =>
      if kind = 0 then M.map (fun n => .variant 0 (.num n)) (readNum T.toHost e 4)
      else if kind = 1 then M.map (.variant 1) (readIpv6 T.toHost e)
      else M.fail .invalidEnumVariant
  | .duration, _ => M.map (fun d => .pair (.num d.1) (.num d.2)) (readDuration T.toHost e)
  | .systemTime, _ => M.bind (readDuration T.toHost e) fun d =>
      if d.1 < 2 ^ 63 then M.pure (.pair (.num d.1) (.num d.2)) else M.fail .invalidSystemTime
  | .endianness, _ => M.bind (readNum T.toHost e 1) fun n =>
      if n = 0 then M.pure (.variant 0 .unit)
      else if n = 1 then M.pure (.variant 1 .unit)
      else M.fail .invalidEnumVariant
  | .varint64, _ => M.map .num (readVarint T.toHost e)
  | .uuid, _ => M.map .bytes (readBytes 16)
  | .str k, cx => M.bind (readLenRC X T.toHost e cx.len) fun len => readStrC X T e k len
  | .seq k t, cx =>
      if k == .ref && sizeOf T t != 1 && e.conv T.toHost then M.fail .endiannessMismatch
      else M.bind (readLenRC X T.toHost e cx.len) fun len =>
        readSeqC X T e k (elemOf T t (decodeC T e t Cx.std)) len
  | .set t, cx => M.bind (readLenRC X T.toHost e cx.len) fun
      | some n => M.map (fun vs => .list (setOf vs))
          (readCollection T.toHost e (elemOf T t (decodeC T e t Cx.std)) n)
      | none => M.map (fun vs => .list (setOf vs)) (readUntilEofC X T.fuel (decodeC T e t Cx.std))
  | .map k v, cx => M.bind (readLenRC X T.toHost e cx.len) fun
      | some n => M.map (fun vs => .list (mapOf vs))
          (readKV T.toHost e (elemOf T k (decodeC T e k Cx.std)) (elemOf T v (decodeC T e v Cx.std)) n)
      | none => M.map (fun vs => .list (mapOf vs)) (readUntilEofC X T.fuel
          (readPair (elemOf T k (decodeC T e k Cx.std)) (elemOf T v (decodeC T e v Cx.std))))
  | .array n t, cx => readArray T e cx.inl (elemOf T t (decodeC T e t Cx.std)) n
  | .refArray n t, _ =>
      if sizeOf T t != 1 && e.conv T.toHost then M.fail .endiannessMismatch
      else M.map (fun r => .list ((chunks (sizeOf T t) n r.2).map (ofMem T t)))
        (borrowBytes (sizeOf T t * n))
  | .option t, cx => M.bind (readBool T.toHost e) fun flag =>
      if flag then M.map .some (decodeC T e t (cx.opt t)) else M.pure .none
  | .result t er, _ => M.bind (readBool T.toHost e) fun flag =>
      if flag then M.map (.variant 1) (decodeC T e t Cx.std)
      else M.map (.variant 0) (decodeC T e er Cx.std)
  | .range t, _ => M.bind (decodeC T e t Cx.std) fun a => M.bind (decodeC T e t Cx.std) fun b =>
      M.pure (.pair a (.pair b .unit))
  | .rangeInc t, _ => M.bind (decodeC T e t Cx.std) fun a => M.bind (decodeC T e t Cx.std) fun b =>
      M.pure (.pair a (.pair b (.bool false)))
  | .unit, _ => M.pure .unit
  | .pair a b, _ => M.bind (decodeC T e a Cx.std) fun x => M.bind (decodeC T e b Cx.std) fun y =>
      M.pure (.pair x y)
  | .box t, _ => decodeC T e t Cx.std
  | .via c t, _ => M.bind (decodeC T e t Cx.std) fun v => convert c v
  | .struct _ fs, _ => decodeFieldsC T e fs []
  | .enum d vs, _ => M.bind (readTag T.toHost e d) fun tag => decodeVariantsC T e vs tag 0
/-- Fields — speedy-derive/src/lib.rs:1680-1707, 1402-1678. -/
def decodeFieldsC (T : Target) (e : Endian) : Fields → List Val → M Val
  | .nil, _ => M.pure .unit
  | .cons a t fs, prev =>
    if a.skip then M.map (.pair a.dflt) (decodeFieldsC T e fs prev)
    else
      let body :=
        if a.varint then M.map .num (readVarint T.toHost e) else decodeC T e t (a.cx T.toHost prev)
      let body :=
        if a.pre.isEmpty then body
        else M.bind (readConstant T.toHost e (u8Elem T e) a.pre) fun _ => body
      let body := if a.defaultOnEof then onEofC X body a.dflt else body
      M.bind body fun v => M.map (.pair v) (decodeFieldsC T e fs (prev ++ [v]))
/-- Variants — speedy-derive/src/lib.rs:2254-2264, 2300-2303. -/
def decodeVariantsC (T : Target) (e : Endian) : Variants → Nat → Nat → M Val
  | .nil, _, _ => M.fail .invalidEnumVariant
  | .cons tag' fs vs, tag, i =>
    if tag = tag' then M.map (.variant i) (decodeFieldsC T e fs [])
    else decodeVariantsC T e vs tag (i + 1)
end

/-- `read_with_length_from_buffer_with_ctx` — src/readable.rs:498-510. -/
def readWithLengthFromBufferC (T : Target) (e : Endian) (t : Ty) (base : Nat) (buf : Bytes) : Except (Thrown X.E) Val × Nat :=
  if buf.length < minBytes T t then
    (X.result (.error (.inputBufferIsTooSmall buf.length (minBytes T t))), 0)
  else
    let r := (decodeC X T e t Cx.std).run (bufferReader T.toHost) (BufSt.init base buf)
    (X.result r.1, wsub T.toHost r.2.ptr base)

/-- `read_with_length_from_buffer_copying_data_with_ctx` — src/readable.rs:517-534. -/
def readWithLengthFromBufferCopyingC (T : Target) (e : Endian) (t : Ty) (base : Nat) (buf : Bytes) :
    Except (Thrown X.E) Val × Nat :=
  if buf.length < minBytes T t then
    (X.result (.error (.inputBufferIsTooSmall buf.length (minBytes T t))), 0)
  else
    let r := (decodeC X T e t Cx.std).run (copyingReader T.toHost) (BufSt.init base buf)
    (X.result r.1, wsub T.toHost r.2.ptr base)

/-- `read_from_stream_unbuffered_with_ctx`, `read_from_stream_buffered_with_ctx` — src/readable.rs:398-416, 536-546. -/
def readFromStreamC (T : Target) (e : Endian) (t : Ty) (grow : Nat → Nat) (buffering : Bool) (src : Src) :
    Except (Thrown X.E) Val × StreamSt :=
  let r := (decodeC X T e t Cx.std).run (streamReader grow) (StreamSt.init buffering src)
  (X.result r.1, r.2)

end

end Verif
