import Verif.Entry

/-!
# What reading means, independently of the reader

A parser on byte strings: elements of containers one at a time, no bulk
copies, no borrowing, no buffers.  `Refine.lean` proves that `decode`, run with
any of the readers, behaves as the parser says.

Where the readers (or zero-copy and copying reading) do not agree on one
outcome, the result is
* `amb e`: some readers fail with `e`, others with an end-of-input error;
* `unspec`: no claim.
-/

namespace Verif

/-- Result of parsing. -/
inductive PRes (α : Type) where
  | ok (a : α) (rest : Bytes)
  | fail (e : Err)
  | amb (e : Err)
  | unspec
  deriving DecidableEq

/-- Parsers. -/
def P (α : Type) := Bytes → PRes α

/-- Succeed. -/
def P.pure {α : Type} (a : α) : P α := fun bs => .ok a bs
/-- Fail. -/
def P.fail {α : Type} (e : Err) : P α := fun _ => .fail e
/-- No claim. -/
def P.unspec {α : Type} : P α := fun _ => .unspec
/-- Fail in one of two ways. -/
def P.amb {α : Type} (e : Err) : P α := fun _ => .amb e
/-- Sequence. -/
def P.bind {α β : Type} (p : P α) (f : α → P β) : P β := fun bs =>
  match p bs with
  | .ok a rest => f a rest
  | .fail e => .fail e
  | .amb e => .amb e
  | .unspec => .unspec
/-- Map. -/
def P.map {α β : Type} (f : α → β) (p : P α) : P β := P.bind p fun a => P.pure (f a)

/-- The next `n` bytes. -/
def pTake (n : Nat) : P Bytes := fun bs =>
  if n ≤ bs.length then .ok (bs.take n) (bs.drop n) else .fail .unexpectedEndOfInput

/-- All remaining bytes. -/
def pRest : P Bytes := fun bs => .ok bs []

/-- The next `n` bytes, which stay in the input. -/
def pPeek (n : Nat) : P Bytes := fun bs =>
  if n ≤ bs.length then .ok (bs.take n) bs else .fail .unexpectedEndOfInput

/-- A number of `n` bytes. -/
def pNum (e : Endian) (n : Nat) : P Nat := P.map e.num (pTake n)

/-- A number of `n` bytes, which stays in the input. -/
def pPeekNum (e : Endian) (n : Nat) : P Nat := P.map e.num (pPeek n)

/-- First byte of some bytes. -/
def hd (bs : Bytes) : UInt8 := bs.headD 0

/-- A variable length integer. -/
def pVarint : P Nat :=
  P.bind (pTake 1) fun b => P.map (specVarintVal (hd b)) (pTake (leadingOnes (hd b).toNat))

/-- What `peek_u64_varint` computes: the extra bytes are taken from the start,
that is, they include the first byte. -/
def pPeekVarint : P Nat :=
  P.bind (pPeek 1) fun b => P.map (specVarintVal (hd b)) (pPeek (leadingOnes (hd b).toNat))

/-- A length. -/
def pLen (h : Host) (e : Endian) : LenTy → P Nat
  | .u7 => P.bind (pNum e 1) fun n => if n > 127 then P.fail .outOfRangeLength else P.pure n
  | .u8 => pNum e 1
  | .u16 => pNum e 2
  | .u32 => pNum e 4
  | .u64 => P.bind (pNum e 8) fun n => if n > h.usizeMax then P.fail .outOfRangeLength else P.pure n
  | .varint => P.bind pVarint fun n => if n > h.usizeMax then P.fail .outOfRangeLength else P.pure n

/-- `n` times. -/
def pRep {α : Type} : Nat → P α → P (List α)
  | 0, _ => P.pure []
  | n + 1, p => P.bind p fun v => P.bind (pRep n p) fun vs => P.pure (v :: vs)

/-- Until the end of the input, which must come between two elements. -/
def pUntilEof : Nat → P Val → P (List Val)
  | 0, _ => P.unspec
  | fuel + 1, p => fun bs =>
    match p bs with
    | .ok v rest => if rest.length < bs.length then
        match pUntilEof fuel p rest with
        | .ok vs rest' => .ok (v :: vs) rest'
        | r => r
      else .unspec
    | .fail e => if e.isEof then (if bs = [] then .ok [] [] else .unspec) else .fail e
    | _ => .unspec

/-- `default_on_eof`: specified if the input ends before the field. -/
def pOnEof {α : Type} (p : P α) (d : α) : P α := fun bs =>
  match p bs with
  | .fail e => if e.isEof then (if bs = [] then .ok d [] else .unspec) else .fail e
  | .amb _ => .unspec
  | r => r

/-- The length of a container. -/
def pLenR (h : Host) (e : Endian) : LenR → P (Option Nat)
  | .typed lt false => P.map some (pLen h e lt)
  | .typed lt true => P.map some (pOnEof (pLen h e lt) 0)
  | .fixed n => P.pure (some n)
  | .untilEof => P.pure none

mutual
/-- No attributes which change the encoding on the fields of the
`repr(transparent)` structs in a type which can be copied in bulk (other
structs with such attributes are not). -/
def bulkPlain : Ty → Bool
  | .struct _ fs => fs.canBePrimitive && bulkPlainFields fs
  | _ => true
/-- The same for fields. -/
def bulkPlainFields : Fields → Bool
  | .nil => true
  | .cons _ t fs => bulkPlain t && bulkPlainFields fs
end

mutual
/-- No `repr(transparent)` struct: `speedy_flip_endianness` is defined. -/
def flipOk : Ty → Bool
  | .prim _ => true
  | .struct d fs => !(d.repr == .transparent && fs.length == 1) && flipOkFields fs
  | _ => false
/-- The same for fields. -/
def flipOkFields : Fields → Bool
  | .nil => true
  | .cons _ t fs => flipOk t && flipOkFields fs
end

/-- `speedy_convert_slice_endianness` is defined. -/
def convOk : Ty → Bool
  | .prim _ => true
  | .struct d (.cons a t .nil) =>
    if d.repr == .transparent then convOk t else flipOk (.struct d (.cons a t .nil))
  | .struct d fs => flipOk (.struct d fs)
  | _ => false

/-- A bulk copy gives the same values as reading elements. -/
def bulkOk (T : Target) (e : Endian) (t : Ty) : Bool :=
  bulkPlain t && (!e.conv T.toHost || convOk t)

/-- Outcome for readers which check in advance that enough bytes are left. -/
def precheck {α : Type} : PRes α → PRes α
  | .fail e => if e.isEof then .fail e else .amb e
  | .amb e => .amb e
  | _ => .unspec

/-- `n` elements of a `Vec`. -/
def pVec (T : Target) (e : Endian) (t : Ty) (p : P Val) (n : Nat) : P (List Val) := fun bs =>
  if isPrimitive T t && !bulkOk T e t then .unspec
  else if minBytes T t * n > T.usizeMax then .fail .unexpectedEndOfInput
  else
    let core := fun bs =>
      if n * sizeOf T t > T.isizeMax then .fail (.panic .capacityOverflow)
      else if !isPrimitive T t && sizeOf T t == 0 then .ok (List.replicate n (zstVal t)) bs
      else pRep n p bs
    if minBytes T t * n > bs.length then precheck (core bs) else core bs

/-- `n` elements of a `Cow<[T]>`. -/
def pCow (T : Target) (e : Endian) (t : Ty) (p : P Val) (n : Nat) : P (List Val) :=
  if isPrimitive T t && (sizeOf T t == 1 || !e.conv T.toHost) &&
      (n * sizeOf T t > T.usizeMax || sizeOf T t == 0) then P.unspec
  else pVec T e t p n

/-- `n` elements of a set. -/
def pColl (T : Target) (e : Endian) (t : Ty) (p : P Val) (n : Nat) : P (List Val) :=
  if isPrimitive T t && (sizeOf T t == 1 || !e.conv T.toHost) then
    if n * sizeOf T t > T.usizeMax then P.fail .outOfRangeUsize
    else if !bulkPlain t || sizeOf T t == 0 then P.unspec
    else pRep n p
  else pRep n p

/-- A key and a value. -/
def pPair (p q : P Val) : P Val :=
  P.bind p fun a => P.bind q fun b => P.pure (.pair a (.pair b .unit))

/-- `n` entries of a map. -/
def pKV (T : Target) (e : Endian) (k v : Ty) (pk pv : P Val) (n : Nat) : P (List Val) :=
  if isPrimitive T k && isPrimitive T v &&
      ((sizeOf T k == 1 && sizeOf T v == 1) || !e.conv T.toHost) then
    if n * (sizeOf T k + sizeOf T v) > T.usizeMax then P.fail .outOfRangeUsize
    else if !(bulkPlain k && bulkPlain v) || sizeOf T k + sizeOf T v == 0 then P.unspec
    else pRep n (pPair pk pv)
  else pRep n (pPair pk pv)

/-- `n` elements of a `&[T]`. -/
def pRef (T : Target) (t : Ty) (p : P Val) (n : Nat) : P (List Val) :=
  if n * sizeOf T t > T.usizeMax then P.fail .outOfRangeLength
  else if isPrimitive T t && bulkPlain t then pRep n p else P.unspec

/-- A `&[T]` until the end of the input: an incomplete element is ignored. -/
def pRefRest (T : Target) (t : Ty) (p : P Val) : P (List Val) := fun bs =>
  if sizeOf T t = 0 then .fail (.panic .divByZero)
  else if isPrimitive T t && bulkPlain t then
    match pRep (bs.length / sizeOf T t) p bs with
    | .ok vs _ => .ok vs []
    | r => r
  else .unspec

/-- UTF-8 check. -/
def pStrVal (bs : Bytes) : P Val :=
  if utf8Valid bs then P.pure (.bytes bs) else P.fail .invalidUtf8

/-- A string. -/
def pStr (T : Target) (len : Option Nat) : P Val :=
  match len with
  | some n =>
    if n > T.usizeMax then P.unspec
    else if n > T.isizeMax then P.amb (.panic .capacityOverflow)
    else P.bind (pTake n) pStrVal
  | none => P.bind pRest pStrVal

/-- A slice. -/
def pSeq (T : Target) (e : Endian) (k : SeqKind) (t : Ty) (p : P Val) (len : Option Nat) : P Val :=
  match k, len with
  | .vec, some n => P.map .list (pVec T e t p n)
  | .cow, some n => P.map .list (pCow T e t p n)
  | .ref, some n => P.map .list (pRef T t p n)
  | .ref, none => P.map .list (pRefRest T t p)
  | _, none => P.map .list (pUntilEof T.fuel p)

/-- An array. -/
def pArray (T : Target) (e : Endian) (inl : Bool) (t : Ty) (p : P Val) (n : Nat) : P Val :=
  if !inl && isPrimitive T t && !bulkOk T e t then P.unspec
  else P.map .list (pRep n p)

/-- A constant. -/
def pConst (T : Target) (c : Bytes) : P Unit :=
  if c.length > T.isizeMax then P.unspec
  else P.bind (pTake c.length) fun bs => if bs = c then P.pure () else P.fail (.expectedConstant c)

/-- A tag. -/
def pTag (e : Endian) (d : EnumDesc) : P Nat :=
  match d.peek, d.tagTy with
  | false, .varint => pVarint
  | false, lt => pNum e lt.minSize
  | true, .varint => pPeekVarint
  | true, lt => pPeekNum e lt.minSize

/-- Seconds and nanoseconds. -/
def pDuration (e : Endian) : P (Nat × Nat) :=
  P.bind (pNum e 8) fun secs => P.bind (pNum e 4) fun nanos =>
    if secs + nanos / 1000000000 < 2 ^ 64 then
      P.pure (secs + nanos / 1000000000, nanos % 1000000000)
    else P.fail (.panic .arithOverflow)

/-- The octets of an IPv6 address, reversed if the byte order is the native one. -/
def pIpv6 (T : Target) (e : Endian) : P Val :=
  P.map (fun octets => .bytes (if !e.conv T.toHost then octets.reverse else octets)) (pTake 16)

/-- A flag. -/
def pBool (e : Endian) : P Bool := P.map (fun n => n != 0) (pNum e 1)

/-- A conversion. -/
def pConvert (c : Conv) (v : Val) : P Val :=
  match c.apply v with
  | .ok w => P.pure w
  | .error er => P.fail er

mutual
/-- Values by type. -/
def parse (T : Target) (e : Endian) : Ty → Cx → P Val
  | .prim p, _ => P.map .num (pNum e p.size)
  | .usize, _ => P.bind (pNum e 8) fun n =>
      if n > T.usizeMax then P.fail .outOfRangeUsize else P.pure (.num n)
  | .bool, _ => P.map .bool (pBool e)
  | .char, _ => P.bind (pNum e 4) fun n =>
      if isScalar n then P.pure (.num n) else P.fail .invalidChar
  | .nonZero p, _ => P.bind (pNum e p.size) fun n =>
      if n = 0 then P.fail .zeroNonZero else P.pure (.num n)
  | .atomic p, _ => P.map .num (pNum e p.size)
  | .ipv4, _ => P.map .num (pNum e 4)
  | .ipv6, _ => pIpv6 T e
  | .ipAddr, _ => P.bind (pNum e 1) fun kind =>
      if kind = 0 then P.map (fun n => .variant 0 (.num n)) (pNum e 4)
      else if kind = 1 then P.map (.variant 1) (pIpv6 T e)
      else P.fail .invalidEnumVariant
  | .duration, _ => P.map (fun d => .pair (.num d.1) (.num d.2)) (pDuration e)
  | .systemTime, _ => P.bind (pDuration e) fun d =>
      if d.1 < 2 ^ 63 then P.pure (.pair (.num d.1) (.num d.2)) else P.fail .invalidSystemTime
  | .endianness, _ => P.bind (pNum e 1) fun n =>
      if n = 0 then P.pure (.variant 0 .unit)
      else if n = 1 then P.pure (.variant 1 .unit)
      else P.fail .invalidEnumVariant
  | .varint64, _ => P.map .num pVarint
  | .uuid, _ => P.map .bytes (pTake 16)
  | .str _, cx => P.bind (pLenR T.toHost e cx.len) fun len => pStr T len
  | .seq k t, cx =>
      if k == .ref && sizeOf T t != 1 && e.conv T.toHost then P.fail .endiannessMismatch
      else P.bind (pLenR T.toHost e cx.len) fun len => pSeq T e k t (parse T e t Cx.std) len
  | .set t, cx => P.bind (pLenR T.toHost e cx.len) fun
      | some n => P.map (fun vs => .list (setOf vs)) (pColl T e t (parse T e t Cx.std) n)
      | none => P.map (fun vs => .list (setOf vs)) (pUntilEof T.fuel (parse T e t Cx.std))
  | .map k v, cx => P.bind (pLenR T.toHost e cx.len) fun
      | some n => P.map (fun vs => .list (mapOf vs))
          (pKV T e k v (parse T e k Cx.std) (parse T e v Cx.std) n)
      | none => P.map (fun vs => .list (mapOf vs))
          (pUntilEof T.fuel (pPair (parse T e k Cx.std) (parse T e v Cx.std)))
  | .array n t, cx => pArray T e cx.inl t (parse T e t Cx.std) n
  | .refArray n t, _ =>
      if sizeOf T t != 1 && e.conv T.toHost then P.fail .endiannessMismatch
      else if isPrimitive T t && bulkPlain t then P.map .list (pRep n (parse T e t Cx.std))
      else P.unspec
  | .option t, cx => P.bind (pBool e) fun flag =>
      if flag then P.map .some (parse T e t (cx.opt t)) else P.pure .none
  | .result t er, _ => P.bind (pBool e) fun flag =>
      if flag then P.map (.variant 1) (parse T e t Cx.std)
      else P.map (.variant 0) (parse T e er Cx.std)
  | .range t, _ => P.bind (parse T e t Cx.std) fun a => P.bind (parse T e t Cx.std) fun b =>
      P.pure (.pair a (.pair b .unit))
  | .rangeInc t, _ => P.bind (parse T e t Cx.std) fun a => P.bind (parse T e t Cx.std) fun b =>
      P.pure (.pair a (.pair b (.bool false)))
  | .unit, _ => P.pure .unit
  | .pair a b, _ => P.bind (parse T e a Cx.std) fun x => P.bind (parse T e b Cx.std) fun y =>
      P.pure (.pair x y)
  | .box t, _ => parse T e t Cx.std
  | .via c t, _ => P.bind (parse T e t Cx.std) fun v => pConvert c v
  | .struct _ fs, _ => parseFields T e fs []
  | .enum d vs, _ => P.bind (pTag e d) fun tag => parseVariants T e vs tag 0
/-- Fields. -/
def parseFields (T : Target) (e : Endian) : Fields → List Val → P Val
  | .nil, _ => P.pure .unit
  | .cons a t fs, prev =>
    if a.skip then P.map (.pair a.dflt) (parseFields T e fs prev)
    else
      let body := if a.varint then P.map .num pVarint else parse T e t (a.cx T.toHost prev)
      let body := if a.pre.isEmpty then body else P.bind (pConst T a.pre) fun _ => body
      let body := if a.defaultOnEof then pOnEof body a.dflt else body
      P.bind body fun v => P.map (.pair v) (parseFields T e fs (prev ++ [v]))
/-- Variants. -/
def parseVariants (T : Target) (e : Endian) : Variants → Nat → Nat → P Val
  | .nil, _, _ => P.fail .invalidEnumVariant
  | .cons tag' fs vs, tag, i =>
    if tag = tag' then P.map (.variant i) (parseFields T e fs [])
    else parseVariants T e vs tag (i + 1)
end

end Verif
