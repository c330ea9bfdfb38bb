import Verif.ZeroCopy
import Verif.PropsBulk
import Verif.PropsExact

/-!
# Borrowed slices (C93)

`zeroCopy c t` says that the compiler accepts `&[T]` and `&[T; N]` for contexts of the type `c` (`ZeroCopy.lean`).  What is read then is compared to what
is read as a `Vec<T>` or `[T; N]`, from the same bytes.
-/

namespace Verif

open Samples

mutual
theorem zeroCopy_raw {c : ContextTy} : ∀ (t : Ty), zeroCopy c t = true → raw t = true
  | .prim _, _ => rfl
  | .struct d fs, h => by
    simp only [zeroCopy, Bool.and_eq_true] at h
    simp only [raw]
    exact zeroCopy_rawFields _ fs h.2
  | .usize, hp | .bool, hp | .char, hp | .nonZero _, hp | .atomic _, hp | .ipv4, hp | .ipv6, hp | .ipAddr, hp
  | .duration, hp | .systemTime, hp | .endianness, hp | .varint64, hp | .uuid, hp | .str _, hp | .seq _ _, hp
  | .set _, hp | .map _ _, hp | .array _ _, hp | .refArray _ _, hp | .option _, hp | .result _ _, hp | .range _, hp
  | .rangeInc _, hp | .unit, hp | .pair _ _, hp | .box _, hp | .via _ _, hp | .enum _ _, hp => by simp [zeroCopy] at hp
theorem zeroCopy_rawFields {c : ContextTy} (p : Bool) : ∀ (fs : Fields), zeroCopyFields c p fs = true → rawFields fs = true
  | .nil, _ => rfl
  | .cons a t fs, h => by
    simp only [zeroCopyFields, Bool.and_eq_true, Bool.or_eq_true] at h
    simp only [rawFields, zeroCopy_rawFields p fs h.2, Bool.and_true]
    rcases h.1 with h1 | h1
    · cases t <;> simp_all [Ty.namesPrim, raw]
    · exact zeroCopy_raw t h1
end

mutual
theorem zeroCopy_prim {T : Target} {c : ContextTy} : ∀ (t : Ty), zeroCopy c t = true → tight T t = true → bulkPlain t = true →
    isPrimitive T t = true
  | .prim _, _, _, _ => rfl
  | .struct d fs, h, ht, hb => by
    simp only [zeroCopy, Bool.and_eq_true, Bool.or_eq_true] at h
    simp only [tight, Bool.and_eq_true] at ht
    simp only [bulkPlain, Bool.and_eq_true] at hb
    have hf := zeroCopy_primFields (T := T) _ fs h.2 ht.2 hb.2
    unfold isPrimitive
    split
    · exact hf
    · rename_i hn
      have hk : (d.repr == .packed) = true := by
        rcases h.1 with h1 | h1
        · exact h1
        · exact absurd (by simpa using h1) hn
      have hs := ht.1
      rw [if_pos hk] at hs
      simp only [Bool.and_eq_true, beq_iff_eq] at hs
      simp [hb.1, hk, hf, hs.1]
  | .usize, hp, _, _ | .bool, hp, _, _ | .char, hp, _, _ | .nonZero _, hp, _, _ | .atomic _, hp, _, _ | .ipv4, hp, _, _ | .ipv6, hp, _, _
  | .ipAddr, hp, _, _ | .duration, hp, _, _ | .systemTime, hp, _, _ | .endianness, hp, _, _ | .varint64, hp, _, _ | .uuid, hp, _, _
  | .str _, hp, _, _ | .seq _ _, hp, _, _ | .set _, hp, _, _ | .map _ _, hp, _, _ | .array _ _, hp, _, _ | .refArray _ _, hp, _, _
  | .option _, hp, _, _ | .result _ _, hp, _, _ | .range _, hp, _, _ | .rangeInc _, hp, _, _ | .unit, hp, _, _ | .pair _ _, hp, _, _
  | .box _, hp, _, _ | .via _ _, hp, _, _ | .enum _ _, hp, _, _ => by simp [zeroCopy] at hp
theorem zeroCopy_primFields {T : Target} {c : ContextTy} (p : Bool) : ∀ (fs : Fields), zeroCopyFields c p fs = true → tightFields T fs = true →
    bulkPlainFields fs = true → fieldsPrimitive T fs = true
  | .nil, _, _, _ => rfl
  | .cons a t fs, h, ht, hb => by
    simp only [zeroCopyFields, Bool.and_eq_true, Bool.or_eq_true] at h
    simp only [tightFields, Bool.and_eq_true] at ht
    simp only [bulkPlainFields, Bool.and_eq_true] at hb
    simp only [fieldsPrimitive, zeroCopy_primFields p fs h.2 ht.2 hb.2, Bool.and_true]
    rcases h.1 with h1 | h1
    · cases t <;> simp_all [Ty.namesPrim, isPrimitive]
    · exact zeroCopy_prim t h1 ht.1 hb.1
end

/-- A borrowed and a copied slice are read alike: the same elements, and as many bytes are consumed; or both fail, because the input ends
too early (or, for the borrowed one, because the length makes no sense). -/
def ReadAlike (borrowed copied : Except Err Val × Nat) : Prop :=
  (∃ v k, borrowed = (.ok v, k) ∧ copied = (.ok v, k)) ∨
  (∃ a b, borrowed.1 = .error a ∧ copied.1 = .error b ∧
    (a.isEof = true ∨ a = .outOfRangeLength ∨ ∃ x y, a = .inputBufferIsTooSmall x y) ∧
    (b.isEof = true ∨ ∃ x y, b = .inputBufferIsTooSmall x y))

theorem short_borrow {h : Host} {s : BufSt} (hs : s.Inv h) {n : Nat} (hn : s.pend.length < n) {α : Type} {f : Nat × Bytes → M α} :
    ((M.bind (borrowBytes n) f).run (bufferReader h) s).1 = .error .unexpectedEndOfInput := by
  have h1 : (borrowBytes n).run (bufferReader h) s = (.error .unexpectedEndOfInput, s) := by
    rcases bufBorrow_cases hs n with ⟨h1, _⟩ | ⟨_, h1⟩
    · omega
    · unfold borrowBytes
      show Prog.run _ (match (bufBorrow h n s).1 with | none => M.fail .unsized | some (.error er) => M.fail er | some (.ok r) => M.pure r)
        (bufBorrow h n s).2 = _
      rw [h1]
      rfl
  rw [M.run_bind_err h1]

section
variable {T : Target} (hT : T.Ok) {e : Endian} {t : Ty} (hl : layoutOk T t = true) (hg : tight T t = true) {c : ContextTy}
  (hz : zeroCopy c t = true) (hb : bulkPlain t = true)
include hT hl hg hz hb

section
variable (he : e.conv T.toHost = false ∨ (sizeOf T t = 1 ∧ convOk t = true)) {base : Nat} {buf : Bytes} (hm : InMem T base buf)
include he hm

/-- **C93**, slices: where the compiler accepts `&[T]`, reading it from a buffer gives the elements which reading a `Vec<T>` gives, and consumes as
many bytes; and one fails only if the other does.

Full claim: all element types.  Missing: elements with attributes, for which it is false (`C93_false`), and one-byte elements in the
other byte order for which `Vec<T>` panics (`C27_false`); elements which are larger in the other byte order: `C93_mismatch`. -/
theorem C93_slice_partial :
    ReadAlike (readWithLengthFromBuffer T e (.seq .ref t) base buf) (readWithLengthFromBuffer T e (.seq .vec t) base buf) := by
  have hp := zeroCopy_prim t hz hg hb
  have hc : bulkOk T e t = true := by
    simp only [bulkOk, hb, Bool.true_and, Bool.or_eq_true, Bool.not_eq_true']
    rcases he with h | h
    · exact .inl h
    · exact .inr h.2
  have hx : (SeqKind.ref == .ref && sizeOf T t != 1 && e.conv T.toHost) = false := by
    rcases he with h | h
    · simp [h]
    · simp [h.1]
  by_cases h4 : buf.length < 4
  · exact .inr ⟨_, _, by unfold readWithLengthFromBuffer; rw [if_pos (by simp only [minBytes]; exact h4)],
      by unfold readWithLengthFromBuffer; rw [if_pos (by simp only [minBytes]; exact h4)],
      .inr (.inr ⟨_, _, rfl⟩), .inr ⟨_, _, rfl⟩⟩
  obtain ⟨n, s, h1, h2, hn, hr⟩ := std_length e hm (by omega)
  have hf := hm.fits.mem
  have hu := hT.toOk.isize
  have hmin := minBytes_prim t hp hl hb
  obtain ⟨r1, r2⟩ := pRep_prim (e := e) (cx := Cx.std) hp hl hb n (buf.drop 4)
  have hlen : (buf.drop 4).length = buf.length - 4 := by simp
  have hq : P.map some (pLen T.toHost e .u32) buf = .ok (some n) (buf.drop 4) := by
    show P.map some (P.map e.num (pTake 4)) buf = _
    have : pTake 4 buf = .ok (buf.take 4) (buf.drop 4) := by unfold pTake; rw [if_pos (by omega)]
    simp only [P.map, P.bind, this, P.pure, hn]
  by_cases h5 : n * sizeOf T t ≤ (buf.drop 4).length
  · have k1 : pVec T e t (parse T e t Cx.std) n (buf.drop 4) = _ := vec_rep hp hl hb hT hc (by omega) _
    rw [r1 h5] at k1
    have k2 : pRef T t (parse T e t Cx.std) n (buf.drop 4) = pRep n (parse T e t Cx.std) (buf.drop 4) := by
      unfold pRef
      rw [if_neg (by omega), if_pos (by simp [hp, hb])]
    rw [r1 h5] at k2
    have p1 : parse T e (.seq .ref t) Cx.std buf = .ok (.list ((chunks (sizeOf T t) n (buf.drop 4)).map (seqVal T e t)))
        ((buf.drop 4).drop (n * sizeOf T t)) := by
      simp only [parse, hx]
      rw [if_neg (by simp)]
      show P.bind (P.map some (pLen T.toHost e .u32)) _ buf = _
      rw [P.bind_ok hq]
      exact P.map_ok k2
    have p2 : parse T e (.seq .vec t) Cx.std buf = .ok (.list ((chunks (sizeOf T t) n (buf.drop 4)).map (seqVal T e t)))
        ((buf.drop 4).drop (n * sizeOf T t)) := by
      simp only [parse]
      rw [if_neg (by simp)]
      show P.bind (P.map some (pLen T.toHost e .u32)) _ buf = _
      rw [P.bind_ok hq]
      exact P.map_ok k1
    exact .inl ⟨_, _, buffer_ok hT (t := .seq .ref t) hl hm (by simp only [minBytes]; omega) p1,
      buffer_ok hT (t := .seq .vec t) hl hm (by simp only [minBytes]; omega) p2⟩
  · have h6 : sizeOf T t * n > s.pend.length := by rw [hr, Nat.mul_comm]; omega
    refine .inr ?_
    unfold readWithLengthFromBuffer
    rw [if_neg (by simp only [minBytes]; omega), if_neg (by simp only [minBytes]; omega)]
    simp only [decode, hx]
    rw [if_neg (by simp), if_neg (by simp), M.run_bind_ok h1, M.run_bind_ok h1]
    simp only [readSeq]
    rw [M.run_map, M.run_map]
    have k1 : ((readVec T.toHost e (elemOf T t (decode T e t Cx.std)) n).run (bufferReader T.toHost) s).1 = .error .unexpectedEndOfInput := by
      unfold readVec
      simp only [elemOf, hmin]
      split
      · rfl
      · have k3 : (bufferReader T.toHost).canRead (sizeOf T t * n) s = some false := by
          rcases (bufferReader_orderly T.toHost).canRead (sizeOf T t * n) s h2 with h | h
          · cases h.1
          · rw [h, decide_eq_false (by omega)]
        simp only [Prog.run]
        rw [k3]
        rfl
    have k2 : ∃ a, ((readRefSlice T.toHost (elemOf T t (decode T e t Cx.std)) n).run (bufferReader T.toHost) s).1 = .error a ∧
        (a.isEof = true ∨ a = .outOfRangeLength) := by
      unfold readRefSlice
      by_cases h7 : n * sizeOf T t > T.usizeMax
      · exact ⟨.outOfRangeLength, by rw [if_pos (by exact h7)]; rfl, .inr rfl⟩
      · rw [if_neg (by exact h7)]
        refine ⟨.unexpectedEndOfInput, ?_, .inl rfl⟩
        exact short_borrow h2 (by rw [hr]; show _ < n * sizeOf T t; omega)
    obtain ⟨a, k3, k4⟩ := k2
    rw [k1, k3]
    refine ⟨a, .unexpectedEndOfInput, rfl, rfl, ?_, .inl rfl⟩
    rcases k4 with h | h
    · exact .inl h
    · exact .inr (.inl h)

/-- **C93**, arrays: the same of `&[T; N]` and `[T; N]`. -/
theorem C93_array_partial (n : Nat) :
    ReadAlike (readWithLengthFromBuffer T e (.refArray n t) base buf) (readWithLengthFromBuffer T e (.array n t) base buf) := by
  have hp := zeroCopy_prim t hz hg hb
  have hc : bulkOk T e t = true := by
    simp only [bulkOk, hb, Bool.true_and, Bool.or_eq_true, Bool.not_eq_true']
    rcases he with h | h
    · exact .inl h
    · exact .inr h.2
  have hx : (sizeOf T t != 1 && e.conv T.toHost) = false := by
    rcases he with h | h
    · simp [h]
    · simp [h.1]
  have hmin := minBytes_prim t hp hl hb
  have m1 : minBytes T (.refArray n t) = sizeOf T t * n := by simp only [minBytes]
  have m2 : minBytes T (.array n t) = sizeOf T t * n := by simp only [minBytes, hmin]
  by_cases h4 : buf.length < sizeOf T t * n
  · exact .inr ⟨_, _, by unfold readWithLengthFromBuffer; rw [if_pos (by rw [m1]; exact h4)],
      by unfold readWithLengthFromBuffer; rw [if_pos (by rw [m2]; exact h4)], .inr (.inr ⟨_, _, rfl⟩), .inr ⟨_, _, rfl⟩⟩
  · have r1 := (pRep_prim (e := e) (cx := Cx.std) hp hl hb n buf).1 (by rw [Nat.mul_comm]; omega)
    have p1 : parse T e (.refArray n t) Cx.std buf = .ok (.list ((chunks (sizeOf T t) n buf).map (seqVal T e t))) (buf.drop (n * sizeOf T t)) := by
      simp only [parse]
      rw [if_neg (by rw [hx]; simp), if_pos (by simp [hp, hb])]
      exact P.map_ok r1
    have p2 : parse T e (.array n t) Cx.std buf = .ok (.list ((chunks (sizeOf T t) n buf).map (seqVal T e t))) (buf.drop (n * sizeOf T t)) := by
      simp only [parse, pArray]
      rw [if_neg (by simp [hc])]
      exact P.map_ok r1
    exact .inl ⟨_, _, buffer_ok hT (t := .refArray n t) hl hm (by rw [m1]; omega) p1, buffer_ok hT (t := .array n t) hl hm (by rw [m2]; omega) p2⟩

end
end

/-- **C93**, the byte order: elements of more than one byte are never taken for others: in the other byte order they are refused, whatever the
type of the elements and whatever is in the buffer. -/
theorem C93_mismatch {T : Target} {e : Endian} {t : Ty} (hc : e.conv T.toHost = true) (h1 : sizeOf T t ≠ 1) (base : Nat) (buf : Bytes) :
    (∀ v, readFromBuffer T e (.seq .ref t) base buf ≠ .ok v) ∧ (∀ n v, readFromBuffer T e (.refArray n t) base buf ≠ .ok v) ∧
    (4 ≤ buf.length → readFromBuffer T e (.seq .ref t) base buf = .error .endiannessMismatch) ∧
    ∀ n, sizeOf T t * n ≤ buf.length → readFromBuffer T e (.refArray n t) base buf = .error .endiannessMismatch := by
  have a1 : ∀ {s : BufSt}, ((decode T e (.seq .ref t) Cx.std).run (bufferReader T.toHost) s).1 = .error .endiannessMismatch := by
    intro s
    simp only [decode]
    rw [if_pos (by simp [hc, h1])]
    rfl
  have a2 : ∀ {n : Nat} {s : BufSt}, ((decode T e (.refArray n t) Cx.std).run (bufferReader T.toHost) s).1 = .error .endiannessMismatch := by
    intro n s
    simp only [decode]
    rw [if_pos (by simp [hc, h1])]
    rfl
  unfold readFromBuffer readWithLengthFromBuffer
  refine ⟨?_, ?_, ?_, ?_⟩
  · intro v h
    split at h
    · cases h
    · rw [a1] at h; cases h
  · intro n v h
    split at h
    · cases h
    · rw [a2] at h; cases h
  · intro h4
    rw [if_neg (by simp only [minBytes]; omega)]
    exact a1
  · intro n h4
    rw [if_neg (by simp only [minBytes]; omega)]
    exact a2

/-- **C93**, contexts of the type `NativeContext`, for which all numbers are accepted, have the byte order of the host: there is no mismatch.  In contexts of other
types a number which is accepted has one byte. -/
theorem C93_numbers {T : Target} {e : Endian} {c : ContextTy} {p : Prim} (hz : zeroCopy c (.prim p) = true) (hn : c = .native → e = T.native) :
    p.size = 1 ∨ e.conv T.toHost = false := by
  cases c
  · exact .inr (by rw [hn rfl]; simp [Endian.conv])
  · left
    cases p <;> first | rfl | simp [zeroCopy] at hz

/-- **C93**, validity: what is read is made of valid values, whatever the attributes, the byte order and the bytes: every sequence of bytes is a value
of a type which the compiler accepts. -/
theorem C93_valid {T : Target} (hT : T.Ok) {e : Endian} {t : Ty} (hl : layoutOk T t = true) (hd : declOk t = true) (hs : sane T t) {c : ContextTy}
    (hz : zeroCopy c t = true) {base : Nat} {buf : Bytes} (htop : base + buf.length ≤ T.usizeMax) :
    (∀ v, readFromBuffer T e (.seq .ref t) base buf = .ok v → Valid T (.seq .ref t) v) ∧
    ∀ n v, readFromBuffer T e (.refArray n t) base buf = .ok v → Valid T (.refArray n t) v := by
  have hr := zeroCopy_raw t hz
  constructor
  · intro v h
    exact C31_valid_buffer_partial hT (t := .seq .ref t) hl (by simpa [declOk] using hd) ⟨hr, hs⟩ htop (.inl h)
  · intro n v h
    exact C31_valid_buffer_partial hT (t := .refArray n t) hl (by simpa [declOk] using hd) (by simpa [sane] using hr) htop (.inl h)

mutual
/-- **C93**, alignment: in contexts other than `NativeContext` only types with alignment 1 are accepted, so that the slice is aligned wherever it is in the
buffer.  (In `NativeContext` it need not be: `C45_false`.) -/
theorem C93_aligned {T : Target} : ∀ (t : Ty), tight T t = true → zeroCopy .other t = true → alignOf T t = 1
  | .prim p, ht, hz => by
    simp only [tight, Bool.or_eq_true, beq_iff_eq, bne_iff_ne] at ht
    simp only [alignOf]
    cases p <;> first | (simp [zeroCopy] at hz; done) | simpa [Prim.size] using ht
  | .struct d fs, ht, hz => by
    simp only [zeroCopy, Bool.and_eq_true, Bool.or_eq_true, beq_iff_eq] at hz
    simp only [tight, Bool.and_eq_true] at ht
    simp only [alignOf]
    rcases hz.1 with h | h
    · have := ht.1
      simp only [h, beq_self_eq_true, if_true, Bool.and_eq_true, beq_iff_eq] at this
      exact this.2
    · match fs, h with
      | .cons a t .nil, h =>
        have h1 := ht.1
        have h2 := hz.2
        simp only [h.1, zeroCopyFields, Bool.and_true] at h1 h2
        simp only [tightFields, Bool.and_eq_true] at ht
        rw [show d.align = alignOf T t by simpa using h1]
        exact C93_aligned t ht.2.1 (by simpa using h2)
      | .nil, h => simp [Fields.length] at h
      | .cons a t (.cons b u fs), h => simp [Fields.length] at h
  | .usize, _, hp | .bool, _, hp | .char, _, hp | .nonZero _, _, hp | .atomic _, _, hp | .ipv4, _, hp | .ipv6, _, hp | .ipAddr, _, hp
  | .duration, _, hp | .systemTime, _, hp | .endianness, _, hp | .varint64, _, hp | .uuid, _, hp | .str _, _, hp | .seq _ _, _, hp
  | .set _, _, hp | .map _ _, _, hp | .array _ _, _, hp | .refArray _ _, _, hp | .option _, _, hp | .result _ _, _, hp | .range _, _, hp
  | .rangeInc _, _, hp | .unit, _, hp | .pair _ _, _, hp | .box _, _, hp | .via _ _, _, hp | .enum _ _, _, hp => by simp [zeroCopy] at hp
end

/-! ## Where it fails -/

/-- `#[repr(packed)] struct Marked { #[speedy(constant_prefix = "x")] a: u8 }` -/
def markedByte : Ty := .struct ⟨.packed, 1, 1, [0], true⟩ (.cons { pre := [0x78] } (.prim .u8) .nil)

/-- `#[repr(packed)] struct Cached { a: u8, #[speedy(skip)] hits: u8 }` -/
def cachedPair : Ty := .struct ⟨.packed, 2, 1, [0, 1], true⟩ (.cons {} (.prim .u8) (.cons { skip := true, dflt := .num 0 } (.prim .u8) .nil))

/-- **C93 is false** for `repr(packed)` structs with attributes: they are `ZeroCopyable` although they are not written as plain memory.  The macro looks at the attributes
to decide whether a struct is copied in bulk, but not to decide whether it may be borrowed.  A `Vec<Marked>` of one element is written as the length, the
prefix and the byte; read as a `&[Marked]` the prefix is taken for the value.  Of a `Vec<Cached>` the second field is not written; to read a `&[Cached]` it is needed. -/
theorem C93_false :
    (zeroCopy .other markedByte = true ∧ layoutOk x64 markedByte = true ∧ tight x64 markedByte = true ∧ declOk markedByte = true ∧
      writeToVec x64 .little (.seq .vec markedByte) (.list [.pair (.num 7) .unit]) (fun _ => 0) = .ok [1, 0, 0, 0, 0x78, 7] ∧
      readFromBuffer x64 .little (.seq .vec markedByte) 4096 [1, 0, 0, 0, 0x78, 7] = .ok (.list [.pair (.num 7) .unit]) ∧
      readFromBuffer x64 .little (.seq .ref markedByte) 4096 [1, 0, 0, 0, 0x78, 7] = .ok (.list [.pair (.num 0x78) .unit]) ∧
      readFromBuffer x64 .little (.array 1 markedByte) 4096 [0x78, 7] = .ok (.list [.pair (.num 7) .unit]) ∧
      readFromBuffer x64 .little (.refArray 1 markedByte) 4096 [0x78, 7] = .ok (.list [.pair (.num 0x78) .unit])) ∧
    (zeroCopy .other cachedPair = true ∧ layoutOk x64 cachedPair = true ∧ tight x64 cachedPair = true ∧ declOk cachedPair = true ∧
      writeToVec x64 .little (.seq .vec cachedPair) (.list [.pair (.num 7) (.pair (.num 0) .unit)]) (fun _ => 0) = .ok [1, 0, 0, 0, 7] ∧
      readFromBuffer x64 .little (.seq .vec cachedPair) 4096 [1, 0, 0, 0, 7] = .ok (.list [.pair (.num 7) (.pair (.num 0) .unit)]) ∧
      readFromBuffer x64 .little (.seq .ref cachedPair) 4096 [1, 0, 0, 0, 7] = .error .unexpectedEndOfInput) := by
  decide

/-! ## Cases -/

/-- `#[repr(packed)] struct Point { x: u16, kind: u8 }` -/
def kindPoint : Ty := .struct ⟨.packed, 3, 1, [0, 2], true⟩ (.cons {} (.prim .u16) (.cons {} (.prim .u8) .nil))

/-- `#[repr(transparent)] struct Wrap(Point);` -/
def wrapPoint : Ty := .struct ⟨.transparent, 3, 1, [0], true⟩ (.cons {} kindPoint .nil)

/-- It is accepted in every context, and read alike. -/
example : zeroCopy .other wrapPoint = true ∧
    readWithLengthFromBuffer x64 .little (.seq .ref wrapPoint) 4097 [2, 0, 0, 0, 1, 2, 3, 4, 5, 6, 9] =
      (.ok (.list [.pair (.pair (.num 0x201) (.pair (.num 3) .unit)) .unit, .pair (.pair (.num 0x504) (.pair (.num 6) .unit)) .unit]), 10) ∧
    ReadAlike (readWithLengthFromBuffer x64 .little (.seq .ref wrapPoint) 4097 [2, 0, 0, 0, 1, 2, 3, 4, 5, 6, 9])
      (readWithLengthFromBuffer x64 .little (.seq .vec wrapPoint) 4097 [2, 0, 0, 0, 1, 2, 3, 4, 5, 6, 9]) :=
  ⟨by decide, by decide, C93_slice_partial x64_ok (by decide) (by decide) (c := .other) (by decide) (by decide) (.inl (by decide))
    ⟨by decide, ⟨by decide, by decide⟩⟩⟩

/-- An array. -/
example : ReadAlike (readWithLengthFromBuffer x64 .little (.refArray 2 wrapPoint) 4097 [1, 2, 3, 4, 5, 6, 9])
    (readWithLengthFromBuffer x64 .little (.array 2 wrapPoint) 4097 [1, 2, 3, 4, 5, 6, 9]) :=
  C93_array_partial x64_ok (by decide) (by decide) (c := .other) (by decide) (by decide) (.inl (by decide)) ⟨by decide, ⟨by decide, by decide⟩⟩ 2

/-- In the other byte order it is refused. -/
example : readFromBuffer x64 .big (.seq .ref wrapPoint) 4097 [0, 0, 0, 1, 1, 2, 3] = .error .endiannessMismatch :=
  (C93_mismatch (T := x64) (e := .big) (t := wrapPoint) (by decide) (by decide) _ _).2.2.1 (by decide)

/-- `u16` is accepted in `NativeContext` only. -/
example : zeroCopy .native (.prim .u16) = true ∧ zeroCopy .other (.prim .u16) = false ∧ Endian.little.conv x64.toHost = false :=
  ⟨by decide, by decide, (C93_numbers (T := x64) (c := .native) (p := .u16) (by decide) (fun _ => rfl)).resolve_left (by decide)⟩

/-- `bool` is never accepted; an arbitrary byte is a valid `Marked`. -/
example : zeroCopy .native .bool = false ∧ Valid x64 (.seq .ref markedByte) (.list [.pair (.num 0x78) .unit]) :=
  ⟨by decide, (C93_valid x64_ok (e := .little) (t := markedByte) (by decide) (by decide) (by simp [markedByte, sane, saneFields]) (c := .other) (by decide)
    (base := 4096) (buf := [1, 0, 0, 0, 0x78, 7]) (by decide)).1 _ (by decide)⟩

example : alignOf x64 wrapPoint = 1 := C93_aligned wrapPoint (by decide) (by decide)

end Verif
