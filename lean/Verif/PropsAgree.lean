import Verif.Total
import Verif.PropsSafe

/-!
# All ways of reading agree: C09, C10, C11, C12

Hypotheses on types, besides those of the other files:
* `ends false true t`: no field depends on the end of the input (`length = ..`, `default_on_eof`);
* `peekOk T t`: in enums with `peek_tag` every variant needs at least the bytes of the tag;
* `cowOk T l t`: lengths of `Cow<[T]>` times the size of `T` do not overflow (on 64-bit machines: all lengths of at most
  32 bits);
* `noRefs t`: no references (which only `read_from_buffer` can return).
-/

namespace Verif

/-- The types for which all readers agree. -/
structure Agreeable (T : Target) (e : Endian) (t : Ty) : Prop where
  layout : layoutOk T t = true
  decl : declOk t = true
  reg : regular T e t = true
  strict : ends false true t = true
  peek : peekOk T t = true
  cow : cowOk T (Lim.std T.toHost) t = true

section
variable {T : Target} (hT : T.Ok) {e : Endian} {t : Ty} (ha : Agreeable T e t)
include hT ha

theorem Agreeable.tot : Tot (parse T e t Cx.std) :=
  parse_tot hT t Cx.std (Lim.std T.toHost) ha.layout ha.decl ha.peek ha.reg ha.strict rfl (std_admits _)
    (LenTy.cap_le _ _) ha.cow

omit hT in
theorem Agreeable.sound : Sound true (minBytes T t) (parse T e t Cx.std) := by
  rw [← lowAt_std]
  exact parse_sound t Cx.std ha.layout ha.decl ha.peek fun _ => ⟨ha.reg, ha.strict, rfl⟩

/-- A reader which succeeds does so as the parser says. -/
theorem Agreeable.inv {σ : Type} {Inv : σ → Prop} {pend : σ → Bytes} {s : σ} {bs : Bytes} {v : Val}
    {r : Except Err Val × σ} (ho : Outcome Inv pend s (parse T e t Cx.std bs) r) (hr : r.1 = .ok v) :
    parse T e t Cx.std bs = .ok v (pend r.2) := by
  cases h : parse T e t Cx.std bs with
  | ok a rest => rw [h] at ho; obtain ⟨h1, _, h2, _⟩ := ho; rw [hr] at h1; cases h1; rw [h2]
  | fail er => rw [h] at ho; obtain ⟨_, h1, _⟩ := ho; rw [hr] at h1; cases h1
  | amb er => rw [h] at ho; obtain ⟨_, h1, _⟩ := ho; rw [hr] at h1; cases h1
  | unspec => exact absurd h (ha.tot hT bs)

omit hT in
theorem Agreeable.min_le {bs rest : Bytes} {v : Val} (h : parse T e t Cx.std bs = .ok v rest) :
    minBytes T t ≤ bs.length := by
  obtain ⟨u, h1, h2, _⟩ := ha.sound bs v rest h
  rw [h1, List.length_append]; omega

/-- What `read_with_length_from_buffer` returns on any buffer. -/
theorem Agreeable.buffer_iff {base : Nat} {buf : Bytes} (hm : InMem T base buf) (v : Val) (n : Nat) :
    readWithLengthFromBuffer T e t base buf = (.ok v, n) ↔
      ∃ rest, parse T e t Cx.std buf = .ok v rest ∧ n = buf.length - rest.length := by
  constructor
  · intro h
    have ho := buffer_outcome hT ha.layout (e := e) hm
    have h0 := h
    unfold readWithLengthFromBuffer at h
    split at h
    · cases h
    · rename_i hmin
      simp only [Prod.mk.injEq] at h
      have hp := ha.inv hT ho h.1
      refine ⟨_, hp, ?_⟩
      rw [buffer_ok hT ha.layout hm (by omega) hp] at h0
      cases h0
      rfl
  · rintro ⟨rest, h1, rfl⟩
    exact buffer_ok hT ha.layout hm (ha.min_le h1) h1

/-- The same for copying. -/
theorem Agreeable.copying_iff {base : Nat} {buf : Bytes} (hm : InMem T base buf) (hn : noRefs t = true) (v : Val) (n : Nat) :
    readWithLengthFromBufferCopying T e t base buf = (.ok v, n) ↔
      ∃ rest, parse T e t Cx.std buf = .ok v rest ∧ n = buf.length - rest.length := by
  constructor
  · intro h
    have ho := copying_outcome hT ha.layout (e := e) hm hn
    have h0 := h
    unfold readWithLengthFromBufferCopying at h
    split at h
    · cases h
    · rename_i hmin
      simp only [Prod.mk.injEq] at h
      have hp := ha.inv hT ho h.1
      refine ⟨_, hp, ?_⟩
      rw [copying_ok hT ha.layout hm hn (by omega) hp] at h0
      cases h0
      rfl
  · rintro ⟨rest, h1, rfl⟩
    exact copying_ok hT ha.layout hm hn (ha.min_le h1) h1

/-- **C09**: the reported length is at most the length of the buffer, and the bytes up to it give the same
result — and so do they followed by anything else.

Missing for the full claim: the types excluded by `regular`, `peekOk` and `cowOk`. -/
theorem C09_reported_length_partial {base : Nat} {buf : Bytes} (hm : InMem T base buf) {v : Val} {n : Nat}
    (h : readWithLengthFromBuffer T e t base buf = (.ok v, n)) :
    n ≤ buf.length ∧ readWithLengthFromBuffer T e t base (buf.take n) = (.ok v, n) ∧
      ∀ more, InMem T base (buf.take n ++ more) →
        readWithLengthFromBuffer T e t base (buf.take n ++ more) = (.ok v, n) := by
  obtain ⟨rest, h1, h2⟩ := (ha.buffer_iff hT hm v n).mp h
  obtain ⟨u, h3, _, h4⟩ := ha.sound buf v rest h1
  have hu : buf.take n = u ∧ n = u.length := by
    have : n = u.length := by rw [h2, h3, List.length_append]; omega
    exact ⟨by rw [h3, this]; simp, this⟩
  have key : ∀ more, InMem T base (buf.take n ++ more) →
        readWithLengthFromBuffer T e t base (buf.take n ++ more) = (.ok v, n) := by
    intro more hi
    rw [hu.1] at hi ⊢
    refine (ha.buffer_iff hT hi v n).mpr ⟨more, h4 rfl more, ?_⟩
    rw [List.length_append]; omega
  refine ⟨by omega, ?_, key⟩
  have := key [] (by
    rw [List.append_nil, hu.1]
    rw [h3] at hm
    exact hm.prefix)
  rwa [List.append_nil] at this

/-- **C09** for `read_with_length_from_buffer_copying_data`. -/
theorem C09_reported_length_copying_partial {base : Nat} {buf : Bytes} (hm : InMem T base buf) (hn : noRefs t = true)
    {v : Val} {n : Nat} (h : readWithLengthFromBufferCopying T e t base buf = (.ok v, n)) :
    n ≤ buf.length ∧ readWithLengthFromBufferCopying T e t base (buf.take n) = (.ok v, n) := by
  have h' := (ha.buffer_iff hT hm v n).mpr ((ha.copying_iff hT hm hn v n).mp h)
  obtain ⟨h1, h2, _⟩ := C09_reported_length_partial hT ha hm h'
  have hi : InMem T base (buf.take n) := by
    have : InMem T base (buf.take n ++ buf.drop n) := by rwa [List.take_append_drop]
    exact this.prefix
  exact ⟨h1, (ha.copying_iff hT hi hn v n).mpr ((ha.buffer_iff hT hi v n).mp h2)⟩

/-- **C10**: zero-copy and copying reads succeed on the same inputs, wherever these are in memory, with
the same value and length.

Missing for the full claim: as for C09, and types with fields depending on the end of the input. -/
theorem C10_copying_agrees_partial {base base' : Nat} {buf : Bytes} (hm : InMem T base buf) (hm' : InMem T base' buf)
    (hn : noRefs t = true) (v : Val) (n : Nat) :
    readWithLengthFromBuffer T e t base buf = (.ok v, n) ↔
      readWithLengthFromBufferCopying T e t base' buf = (.ok v, n) :=
  (ha.buffer_iff hT hm v n).trans (ha.copying_iff hT hm' hn v n).symm

/-- What a stream reader returns. -/
theorem Agreeable.stream_iff {grow : Nat → Nat} (hg : ∀ n, n ≤ grow n) (b : Bool) {src : Src} (hs : src.Clean)
    (hf : Fits T src.data) (hn : noRefs t = true) (v : Val) :
    (readFromStream T e t grow b src).1 = .ok v ↔ ∃ rest, parse T e t Cx.std src.data = .ok v rest := by
  have ho := stream_outcome hT ha.layout (e := e) hg (b := b) hs hf hn
  constructor
  · exact fun h => ⟨_, ha.inv hT ho h⟩
  · rintro ⟨rest, h⟩
    rw [h] at ho
    exact ho.1

theorem stream_agrees {grow : Nat → Nat} (hg : ∀ n, n ≤ grow n) (b : Bool) {src : Src} (hs : src.Clean)
    {base : Nat} (hm : InMem T base src.data) (hn : noRefs t = true) (v : Val) :
    (readFromStream T e t grow b src).1 = .ok v ↔ readFromBuffer T e t base src.data = .ok v := by
  rw [ha.stream_iff hT hg b hs hm.fits hn v]
  unfold readFromBuffer
  constructor
  · rintro ⟨rest, h⟩
    rw [(ha.buffer_iff hT hm v _).mpr ⟨rest, h, rfl⟩]
  · intro h
    obtain ⟨rest, h1, _⟩ := (ha.buffer_iff hT hm v _).mp (Prod.ext h rfl)
    exact ⟨rest, h1⟩

/-- **C11**: the unbuffered stream reader returns a value exactly when reading the whole contents from a
buffer does, in whatever pieces they are delivered.

Missing for the full claim: the types excluded by `regular`, `peekOk` and `cowOk`. -/
theorem C11_unbuffered_agrees_partial {grow : Nat → Nat} (hg : ∀ n, n ≤ grow n) {src : Src} (hs : src.Clean)
    {base : Nat} (hm : InMem T base src.data) (hn : noRefs t = true) (v : Val) :
    (readFromStream T e t grow false src).1 = .ok v ↔ readFromBuffer T e t base src.data = .ok v :=
  stream_agrees hT ha hg false hs hm hn v

/-- **C12**: the same with buffering, however the buffer grows. -/
theorem C12_buffered_agrees_partial {grow : Nat → Nat} (hg : ∀ n, n ≤ grow n) {src : Src} (hs : src.Clean)
    {base : Nat} (hm : InMem T base src.data) (hn : noRefs t = true) (v : Val) :
    (readFromStream T e t grow true src).1 = .ok v ↔ readFromBuffer T e t base src.data = .ok v :=
  stream_agrees hT ha hg true hs hm hn v
end

/-! ## Cases, and where the claims are false -/

open Samples

theorem message_agreeable (e : Endian) : Agreeable x64 e message :=
  ⟨message_layout, message_decl, message_regular e, message_strict, by decide, by decide⟩

example (v : Val) (src : Src) (hs : src.Clean) (hm : InMem x64 4096 src.data) :=
  C12_buffered_agrees_partial x64_ok (message_agreeable .big) (grow := (· * 2)) (fun n => by omega) hs hm
    (by decide) v

example : readWithLengthFromBuffer x64 .little message 4096 msgLe = (.ok msg, 21) := by decide

/-- **C11 is false** for structs of enums with `peek_tag` and unit variants: `minimum_bytes_needed` is too large, and the
buffer is rejected. -/
theorem C11_false_peek :
    (readFromStream x64 .little (.pair opcode (.pair opcode .unit)) (· + 100) false ⟨[3], []⟩).1 =
        .ok (.pair (.variant 0 .unit) (.pair (.variant 0 .unit) .unit)) ∧
      readFromBuffer x64 .little (.pair opcode (.pair opcode .unit)) 4096 [3] =
        .error (.inputBufferIsTooSmall 1 2) := by
  decide

/-- `enum Only { A }`, which has size zero but an encoding. -/
def only : Ty := .enum ⟨.u32, false, 0⟩ (.cons 0 .nil .nil)

/-- **C11 is false** for a `Vec` of a zero-sized type with an encoding: its elements are not read. -/
theorem C11_false_zst :
    (readFromStream x64 .little (.seq .vec only) (· + 100) false ⟨[1, 0, 0, 0], []⟩).1 =
        .ok (.list [.variant 0 .unit]) ∧
      readFromBuffer x64 .little (.seq .vec only) 4096 [1, 0, 0, 0] = .error .unexpectedEndOfInput := by
  decide

/-- `struct { #[speedy(default_on_eof)] a: u32, #[speedy(default_on_eof)] b: u8 }` -/
def lenient : Ty := .struct ⟨.rust, 8, 4, [0, 4], true⟩
  (.cons { defaultOnEof := true, dflt := .num 0 } (.prim .u32)
    (.cons { defaultOnEof := true, dflt := .num 0 } (.prim .u8) .nil))

/-- Fields depending on the end of the input must be excluded from C11: if the input ends within such a field, a
buffer reader keeps the bytes and a stream reader drops them. -/
theorem C11_false_eof :
    (readFromStream x64 .little lenient (· + 100) false ⟨[1, 2], []⟩).1 =
        .ok (.pair (.num 0) (.pair (.num 0) .unit)) ∧
      readFromBuffer x64 .little lenient 4096 [1, 2] = .ok (.pair (.num 0) (.pair (.num 1) .unit)) := by
  decide

/-- `struct { #[speedy(length_type = u64)] a: Cow<[u32]> }` -/
def wideCow : Ty := .struct ⟨.rust, 24, 8, [0], true⟩
  (.cons { len := some (.typed .u64) } (.seq .cow (.prim .u32)) .nil)

/-- **C10 is false** if `length * size_of::<T>()` overflows in `read_cow`: a length of 2^62 gives an empty slice
from a buffer and an error by copying. -/
theorem C10_false :
    readFromBuffer x64 .little wideCow 4096 [0, 0, 0, 0, 0, 0, 0, 0x40] = .ok (.pair (.list []) .unit) ∧
      readFromBufferCopying x64 .little wideCow 4096 [0, 0, 0, 0, 0, 0, 0, 0x40] =
        .error .unexpectedEndOfInput := by
  decide

/-- On a 32-bit machine this happens for plain `Cow<[u32]>`. -/
theorem C10_false_32 :
    readFromBuffer le32 .little (.seq .cow (.prim .u32)) 4096 [0, 0, 0, 0x40] = .ok (.list []) ∧
      readFromBufferCopying le32 .little (.seq .cow (.prim .u32)) 4096 [0, 0, 0, 0x40] =
        .error .unexpectedEndOfInput := by
  decide

/-- **C09 is false** for enums with `peek_tag` and unit variants: nothing is consumed, but the tag is necessary. -/
theorem C09_false :
    readWithLengthFromBuffer x64 .little opcode 4096 [3, 9] = (.ok (.variant 0 .unit), 0) ∧
      readWithLengthFromBuffer x64 .little opcode 4096 ([3, 9].take 0) = (.error (.inputBufferIsTooSmall 0 1), 0) := by
  decide

/-! ## Cases -/

section Cases
open Samples

/-- The message followed by other data: the first 21 bytes are enough, and what follows does not matter. -/
example := C09_reported_length_partial x64_ok (message_agreeable .little) (buf := msgLe ++ [1, 2, 3]) (base := 4096)
  ⟨by decide, by decide, by decide⟩ (v := msg) (n := 21)
  (C06_self_delimiting_partial x64_ok message_layout message_decl (message_regular _) msg_ty (msg_canon _)
    (msg_vec fun _ => 0) (by decide) ⟨by decide, by decide, by decide⟩)

example := C09_reported_length_copying_partial x64_ok (message_agreeable .little) (buf := msgLe ++ [1, 2, 3]) (base := 4096)
  ⟨by decide, by decide, by decide⟩ (by decide) (v := msg) (n := 21)
  (C06_self_delimiting_copying_partial x64_ok message_layout message_decl (message_regular _) msg_ty (msg_canon _)
    (msg_vec fun _ => 0) (by decide) (by decide) ⟨by decide, by decide, by decide⟩)

/-- From another address. -/
example : readWithLengthFromBufferCopying x64 .little message 5001 msgLe = (.ok msg, 21) :=
  (C10_copying_agrees_partial x64_ok (message_agreeable .little) (base := 4096) msg_mem ⟨by decide, by decide, by decide⟩ (by decide)
    msg 21).mp (by decide)

example : (readFromStream x64 .little message (· + 100) false ⟨msgLe, [.give 1, .give 3]⟩).1 = .ok msg :=
  (C11_unbuffered_agrees_partial x64_ok (message_agreeable .little) (grow := (· + 100)) (fun n => by omega) (src := ⟨msgLe, [.give 1, .give 3]⟩)
    (by simp [Src.Clean]) (base := 4096) msg_mem (by decide) msg).mpr (congrArg Prod.fst
      (show readWithLengthFromBuffer x64 .little message 4096 msgLe = (.ok msg, 21) by decide))

end Cases

end Verif
