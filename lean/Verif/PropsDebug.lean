import Verif.DebugWrite
import Verif.PropsUninit
import Verif.PropsBugs

/-!
# C68: debug builds behave as release builds

The definitions with a `D` at the end of their names (Debug.lean) are those of a build with overflow checks and debug assertions.
-/

namespace Verif

/-! ## Reading -/

section
variable {T : Target} (hT : T.Ok) {e : Endian} {t : Ty} {base : Nat} {buf : Bytes} (hb : base + buf.length ≤ T.usizeMax)
include hT hb

/-- **C68**, `read_from_buffer` and `read_with_length_from_buffer`: a debug build gives the same result and the same number of bytes as a
release build; or it panics, and then the type contains a `Cow` of a slice of which the size may exceed `usize`.

Full claim: it never panics where a release build does not.  It is false: `C68_false_read`. -/
theorem C68_read_partial :
    ((readWithLengthFromBufferD T e t base buf).1 = (readWithLengthFromBuffer T e t base buf).1 ∧
      (readWithLengthFromBufferD T e t base buf).2 = .ok (readWithLengthFromBuffer T e t base buf).2) ∨
    (cowFits T 4294967295 t = false ∧ (readWithLengthFromBufferD T e t base buf).1 = .error (.panic .arithOverflow) ∧
      ∃ n, (readWithLengthFromBufferD T e t base buf).2 = .ok n) := by
  unfold readWithLengthFromBufferD readWithLengthFromBuffer
  split
  · exact .inl ⟨rfl, rfl⟩
  · have ha : AgreeD T.toHost (cowFits T 4294967295 t = false) Any (decodeD T e t Cx.std) (decode T e t Cx.std) :=
      decode_agree hT e t Cx.std_most hT.lower (by cases cowFits T 4294967295 t <;> simp)
    obtain ⟨h1, h2⟩ := ha.run bufferReaderD_matches (BufSt.At.init hb)
    have hlo : base ≤ ((decodeD T e t Cx.std).run (bufferReaderD T.toHost) (BufSt.init base buf)).2.ptr :=
      Nat.le_trans (Nat.le_of_eq h2.base_eq.symm) h2.lo
    rcases h1 with h1 | ⟨hp, h1⟩
    · refine .inl ⟨by simp only [h1], ?_⟩
      simp only
      rw [subD_ok hlo, ← h1, wsub_eq hlo (Nat.le_trans h2.hi h2.fits)]
    · exact .inr ⟨hp, h1, _, subD_ok hlo⟩

/-- **C68**, `read_from_buffer_copying_data` (and files which are mapped into memory): the same.

Full claim and missing: as in `C68_read_partial`. -/
theorem C68_read_copying_partial :
    ((readWithLengthFromBufferCopyingD T e t base buf).1 = (readWithLengthFromBufferCopying T e t base buf).1 ∧
      (readWithLengthFromBufferCopyingD T e t base buf).2 = .ok (readWithLengthFromBufferCopying T e t base buf).2) ∨
    (cowFits T 4294967295 t = false ∧ (readWithLengthFromBufferCopyingD T e t base buf).1 = .error (.panic .arithOverflow) ∧
      ∃ n, (readWithLengthFromBufferCopyingD T e t base buf).2 = .ok n) := by
  unfold readWithLengthFromBufferCopyingD readWithLengthFromBufferCopying
  split
  · exact .inl ⟨rfl, rfl⟩
  · have ha : AgreeD T.toHost (cowFits T 4294967295 t = false) Any (decodeD T e t Cx.std) (decode T e t Cx.std) :=
      decode_agree hT e t Cx.std_most hT.lower (by cases cowFits T 4294967295 t <;> simp)
    obtain ⟨h1, h2⟩ := ha.run copyingReaderD_matches (BufSt.At.init hb)
    have hlo : base ≤ ((decodeD T e t Cx.std).run (copyingReaderD T.toHost) (BufSt.init base buf)).2.ptr :=
      Nat.le_trans (Nat.le_of_eq h2.base_eq.symm) h2.lo
    rcases h1 with h1 | ⟨hp, h1⟩
    · refine .inl ⟨by simp only [h1], ?_⟩
      simp only
      rw [subD_ok hlo, ← h1, wsub_eq hlo (Nat.le_trans h2.hi h2.fits)]
    · exact .inr ⟨hp, h1, _, subD_ok hlo⟩

end

/-- **C68**, `can_read_at_least` and `read_bytes_borrowed_until_eof` of the readers of buffers: `self.end as usize - self.ptr as usize`
does not overflow, whatever has been read before. -/
theorem C68_pointers {T : Target} (hT : T.Ok) {e : Endian} {t : Ty} {base : Nat} {buf : Bytes} (hb : base + buf.length ≤ T.usizeMax) :
    (∃ n, subD ((decodeD T e t Cx.std).run (bufferReaderD T.toHost) (BufSt.init base buf)).2.stop
      ((decodeD T e t Cx.std).run (bufferReaderD T.toHost) (BufSt.init base buf)).2.ptr = .ok n) ∧
    ∃ n, subD ((decodeD T e t Cx.std).run (copyingReaderD T.toHost) (BufSt.init base buf)).2.stop
      ((decodeD T e t Cx.std).run (copyingReaderD T.toHost) (BufSt.init base buf)).2.ptr = .ok n := by
  have ha : AgreeD T.toHost True Any (decodeD T e t Cx.std) (decode T e t Cx.std) :=
    decode_agree hT e t Cx.std_most hT.lower (.inr trivial)
  exact ⟨⟨_, subD_ok (ha.run bufferReaderD_matches (BufSt.At.init hb)).2.hi⟩,
    ⟨_, subD_ok (ha.run copyingReaderD_matches (BufSt.At.init hb)).2.hi⟩⟩

theorem initD_sane {σ : Type} {h : Host} (hh : h.Ok) (buffered : Bool) (dev : σ) : (DevSt.initD buffered dev).buf.Sane h := by
  have := hh.lower
  have := hh.isize
  refine ⟨⟨Nat.zero_le _, fun _ => rfl, .inr rfl⟩, ?_⟩
  simp only [DevSt.initD, CBuf.capacity, List.length_replicate]
  split <;> omega

theorem initD_like {σ : Type} (junk : Nat → UInt8) (b : Bool) (dev : σ) : (DevSt.initD b dev).Like (DevSt.init junk b dev) :=
  ⟨rfl, ⟨⟨Nat.zero_le _, fun _ => rfl, .inr rfl⟩, ⟨Nat.zero_le _, fun _ => rfl, .inr rfl⟩, rfl, rfl,
    by simp [DevSt.init, DevSt.initD, CBuf.capacity], by simp [DevSt.init, DevSt.initD, CBuf.content]⟩, rfl, rfl⟩

/-- **C68**, `read_from_stream_buffered` and `read_from_stream_unbuffered`, any stream which obeys the contract of `Read`: a debug build
gives the same result and leaves the stream in the same state, or it panics, as above.  None of the assertions and none of the
subtractions of the circular buffer fail.

Full claim and missing: as in `C68_read_partial`. -/
theorem C68_stream_partial {σ : Type} {T : Target} (hT : T.Ok) {D : Device σ} (hD : D.Honest) {grow : Nat → Nat}
    (hg : ∀ n, n ≤ grow n) (hi : ∀ n, n ≤ T.isizeMax → grow n ≤ T.isizeMax) (e : Endian) (t : Ty) (buffered : Bool) (dev : σ)
    (junk junk' : Nat → UInt8) :
    readFromDeviceD T e t grow D buffered dev junk = readFromDevice T e t grow D buffered dev junk' ∨
    (cowFits T 4294967295 t = false ∧ (readFromDeviceD T e t grow D buffered dev junk).1 = .error (.panic .arithOverflow)) := by
  have ha : AgreeD T.toHost (cowFits T 4294967295 t = false) Any (decodeD T e t Cx.std) (decode T e t Cx.std) :=
    decode_agree hT e t Cx.std_most hT.lower (by cases cowFits T 4294967295 t <;> simp)
  obtain ⟨h1, -⟩ := ha.run (devReaderD_matches hT.toOk hD hg hi junk) (initD_sane hT.toOk buffered dev)
  rcases h1 with h1 | ⟨hp, h1⟩
  · refine .inl ?_
    obtain ⟨h2, h3⟩ := run_like (junk := junk) (junk' := junk') hD hg (decode T e t Cx.std) (initD_like junk' buffered dev)
    unfold readFromDeviceD readFromDevice
    rw [h1]
    exact Prod.ext h2 h3.dev
  · exact .inr ⟨hp, h1⟩

/-! ## Writing -/

/-- **C68**, `bytes_needed`, every type and value: a debug build gives the same number or fails in the same way, or it panics.

Full claim: it does not panic where a release build gives a number.  It is false: `C68_false_write`. -/
theorem C68_bytes_needed_only_partial (T : Target) (t : Ty) (v : Val) :
    bytesNeededD T t v = bytesNeeded T t v ∨ bytesNeededD T t v = .error (.panic .arithOverflow) := bytesNeededD_only T t v

/-- Where the position is after a successful write. -/
theorem vec_pos {T : Target} {e : Endian} {t : Ty} {v : Val} {n : Nat} {junk : Nat → UInt8}
    (hr : ((encode T e t Cx.std v).run (bufferCollector T.toHost e) ⟨(List.range n).map junk, 0⟩).1 = .ok ()) :
    ((encode T e t Cx.std v).run (bufferCollector T.toHost e) ⟨(List.range n).map junk, 0⟩).2.pos ≤
      ((encode T e t Cx.std v).run (bufferCollector T.toHost e) ⟨(List.range n).map junk, 0⟩).2.buf.length := by
  have hf := (run_buffer_fits (h := T.toHost) (e := e) _ _ hr (Nat.zero_le _)).2
  rw [run_buffer_length, run_buffer (encode_room t Cx.std v) _ hf]
  exact hf

/-- **C68**, `write_to_vec`, every type and value: a debug build gives the same result, or it panics because of an overflow, or it
panics because `bytes_needed` is not the number of bytes which a release build returns.

Full claim: it does not panic where a release build returns bytes.  It is false: `C68_false_assert`. -/
theorem C68_vec_only_partial (T : Target) (e : Endian) (t : Ty) (v : Val) (junk : Nat → UInt8) :
    writeToVecD T e t v junk = writeToVec T e t v junk ∨ writeToVecD T e t v junk = .error (.panic .arithOverflow) ∨
    (writeToVecD T e t v junk = .error (.panic .assertFailed) ∧
      ∃ bs n, writeToVec T e t v junk = .ok bs ∧ bytesNeeded T t v = .ok n ∧ bs.length ≠ n) := by
  unfold writeToVecD writeToVec
  rcases bytesNeededD_only T t v with h | h <;> rw [h]
  · cases hn : bytesNeeded T t v with
    | error er => exact .inl rfl
    | ok n =>
      simp only
      split
      · exact .inl rfl
      · rcases run_bufferD_only (h := T.toHost) (e := e) (encode T e t Cx.std v) ⟨(List.range n).map junk, 0⟩ with h1 | h1
        · rw [h1]
          have hpos := vec_pos (T := T) (e := e) (t := t) (v := v) (n := n) (junk := junk)
          generalize (encode T e t Cx.std v).run (bufferCollector T.toHost e) ⟨(List.range n).map junk, 0⟩ = r at hpos ⊢
          obtain ⟨x, s⟩ := r
          cases x with
          | error er => exact .inl rfl
          | ok u =>
            simp only [assertEqD]
            by_cases hp : s.pos = n
            · exact .inl (by rw [if_pos hp])
            · refine .inr (.inr ⟨by rw [if_neg hp], _, _, rfl, rfl, ?_⟩)
              have := hpos rfl
              simp only at this
              rw [List.length_take]
              omega
        · refine .inr (.inl ?_)
          generalize (encode T e t Cx.std v).run (bufferCollectorD T.toHost e) ⟨(List.range n).map junk, 0⟩ = r at h1
          obtain ⟨x, s⟩ := r
          simp only at h1
          subst h1
          rfl
  · exact .inr (.inl rfl)

section
variable {T : Target} (hT : T.Ok) {e : Endian} {t : Ty} {v : Val}
  (hl : layoutOk T t = true) (hd : declOk t = true) (hs : sliceOk T t = true) (hv : hasTy T t v)
include hT hl hd hs hv

/-- **C68**, `bytes_needed`: the same number, unless the encoding has more bytes than `usize` can count; then it panics.

Full claim and missing: as in `C68_bytes_needed_only_partial`; also `sliceOk`. -/
theorem C68_bytes_needed_partial {s s' : Sink} (hw : writeToStream T e t v s = (.ok (), s')) :
    bytesNeededD T t v = if s'.got.length ≤ s.got.length + T.usizeMax then bytesNeeded T t v else .error (.panic .arithOverflow) := by
  obtain ⟨bs, h1, h2⟩ := stream_inv hT hl hd hs hv hw
  rw [bytesNeededD_eq hT t LenR.std v bs (fun _ => rfl) hl hd hs hv h1, h2, List.length_append]
  by_cases hn : bs.length ≤ T.usizeMax
  · rw [need_fits hn, if_pos (by omega), needed_ok hT hl hd hs hv h1 hn]
  · rw [need_large hn, if_neg (by omega)]

/-- **C68**, `write_to_vec`: where a release build returns bytes, a debug build returns the same bytes.

Full claim: as in `C68_vec_only_partial`.  Missing: `sliceOk`. -/
theorem C68_vec_partial {bs : Bytes} {junk junk' : Nat → UInt8} (hw : writeToVec T e t v junk = .ok bs) :
    writeToVecD T e t v junk' = .ok bs := by
  obtain ⟨h1, hm⟩ := vec_inv hT hl hd hs hv hw
  have hi := hT.isize
  have hnD := bytesNeededD_eq hT t LenR.std v bs (fun _ => rfl) hl hd hs hv h1
  rw [need_fits (show bs.length ≤ T.usizeMax by omega)] at hnD
  have hout := out_ok hT hl hd hs hv h1
  have hrun := run_buffer (h := T.toHost) (e := e) (encode_room t Cx.std v) ⟨(List.range bs.length).map junk', 0⟩
    (by rw [hout]; simp)
  rw [hout] at hrun
  unfold writeToVecD
  rw [hnD]
  simp only
  rw [if_neg (by omega), run_bufferD_ok _ _ (by simp only [List.length_map, List.length_range]; omega) (by rw [hrun]), hrun]
  simp [assertEqD_ok]

/-- **C68**, `write_to_buffer`: where a release build succeeds, a debug build does the same.

Full claim: it never panics where a release build does not.  Missing: `sliceOk`; and values of which the size does not fit in `usize`,
where a release build gives an error (`C68_false_write`). -/
theorem C68_buffer_partial {buf : Bytes} (hw : (writeToBuffer T e t v buf).1 = .ok ()) :
    writeToBufferD T e t v buf = writeToBuffer T e t v buf := by
  obtain ⟨n, hn, hle, hr⟩ : ∃ n, bytesNeeded T t v = .ok n ∧ n ≤ buf.length ∧
      ((encode T e t Cx.std v).run (bufferCollector T.toHost e) ⟨buf.take n, 0⟩).1 = .ok () := by
    unfold writeToBuffer at hw
    cases hn : bytesNeeded T t v with
    | error er => rw [hn] at hw; cases hw
    | ok n =>
      rw [hn] at hw
      simp only at hw
      by_cases hle : n ≤ buf.length
      · rw [if_pos hle] at hw
        exact ⟨n, rfl, hle, hw⟩
      · rw [if_neg hle] at hw
        cases hw
  obtain ⟨ho, hf⟩ := run_buffer_fits (h := T.toHost) (e := e) (encode T e t Cx.std v) ⟨buf.take n, 0⟩ hr (Nat.zero_le _)
  cases hw' : wire (Fmt.code T.toHost e) t LenR.std v with
  | error er =>
    rw [out_err hT hl hd hs hv hw'] at ho
    cases ho
  | ok bs =>
    rw [out_ok hT hl hd hs hv hw'] at hf
    rw [needed_wrap hT hl hd hs hv hw'] at hn
    have hfit : bs.length ≤ T.usizeMax := by
      cases hn
      have : T.wrap bs.length < T.usizeMax + 1 := Nat.mod_lt _ (Nat.succ_pos T.usizeMax)
      simp only [List.length_take, Nat.zero_add] at hf
      omega
    have hnD := bytesNeededD_eq hT t LenR.std v bs (fun _ => rfl) hl hd hs hv hw'
    rw [need_fits hfit] at hnD
    rw [Host.wrap_of_le hfit] at hn
    cases hn
    unfold writeToBufferD writeToBuffer
    rw [hnD, needed_ok hT hl hd hs hv hw' hfit]
    simp only
    rw [if_pos hle, if_pos hle, run_bufferD_ok _ _ (by simp only [List.length_take]; omega) hr]

end

/-! ## Where they differ -/

open Samples

/-- **C68 is false** for `Cow<[u64]>` on a 32-bit machine: the prefix says that there are `2^29 + 1` elements, of which the size wraps around to
8 bytes.  A release build returns one element; a debug build panics. -/
theorem C68_false_read : (layoutOk le32 (.seq .cow (.prim .u64)) = true ∧ declOk (.seq .cow (.prim .u64)) = true) ∧
    readFromBuffer le32 .little (.seq .cow (.prim .u64)) 4 [1, 0, 0, 0x20, 7, 0, 0, 0, 0, 0, 0, 0] = .ok (.list [.num 7]) ∧
    (readWithLengthFromBufferD le32 .little (.seq .cow (.prim .u64)) 4 [1, 0, 0, 0x20, 7, 0, 0, 0, 0, 0, 0, 0]).1 =
      .error (.panic .arithOverflow) := by
  refine ⟨by decide, by decide, by decide⟩

/-- **C68 is false** for `Vec<&str>` on a 32-bit machine: `bytes_needed` of a release build gives 16388, that of a debug build panics; and
`write_to_vec` of a release build returns an error, that of a debug build panics. -/
theorem C68_false_write : ∃ v, hasTy le32 (.seq .vec (.str .ref)) v ∧
    bytesNeeded le32 (.seq .vec (.str .ref)) v = .ok 16388 ∧
    bytesNeededD le32 (.seq .vec (.str .ref)) v = .error (.panic .arithOverflow) ∧
    ∀ junk, writeToVec le32 .little (.seq .vec (.str .ref)) v junk = .error .unexpectedEndOfOutputBuffer ∧
      writeToVecD le32 .little (.seq .vec (.str .ref)) v junk = .error (.panic .arithOverflow) := by
  obtain ⟨v, hv, hn, ⟨s, hs, hlen⟩, hvec⟩ := C03_C04_false_overflow
  have hD : bytesNeededD le32 (.seq .vec (.str .ref)) v = .error (.panic .arithOverflow) := by
    rw [C68_bytes_needed_partial le32_ok (by decide) (by decide) (by decide) hv hs, hlen]
    exact if_neg (by decide)
  refine ⟨v, hv, hn, hD, fun junk => ⟨hvec junk, ?_⟩⟩
  unfold writeToVecD
  rw [hD]

/-- **C68 is false** for vectors of a transparent struct with a field with `skip`, written in the other byte order: `bytes_needed` counts the
memory of the elements, but they are written one by one, without the field.  A release build returns the shorter bytes; in a debug build
`debug_assert_eq!` fails. -/
theorem C68_false_assert : Real (.seq .vec skipped16) (.list [.pair (.num 9) .unit]) ∧
    writeToVec x64 .big (.seq .vec skipped16) (.list [.pair (.num 9) .unit]) (fun _ => 0) = .ok [0, 0, 0, 1] ∧
    writeToVecD x64 .big (.seq .vec skipped16) (.list [.pair (.num 9) .unit]) (fun _ => 0) = .error (.panic .assertFailed) := by
  refine ⟨by real, by decide, by decide⟩

/-! ## Examples -/

/-- On a 64-bit machine the types of the library never overflow. -/
example : cowFits x64 4294967295 (.pair message (.seq .cow (.prim .u64))) = true := by decide

example : cowFits le32 4294967295 (.seq .cow (.prim .u64)) = false := by decide

example : (readWithLengthFromBufferD x64 .little message 4096 msgLe).1 = .ok msg := by decide

example (junk : Nat → UInt8) : writeToVecD x64 .little message msg junk = .ok msgLe :=
  C68_vec_partial x64_ok message_layout message_decl (by decide) msg_ty (junk := fun _ => 0) (by decide)

example : writeToBufferD x64 .little message msg (msgLe ++ [1, 2]) = writeToBuffer x64 .little message msg (msgLe ++ [1, 2]) :=
  C68_buffer_partial x64_ok message_layout message_decl (by decide) msg_ty (by decide)

/-- A stream which gives one byte at a time. -/
example (junk junk' : Nat → UInt8) (b : Bool) :
    readFromDeviceD x64 .little message id srcDevice b ⟨msgLe, [.give 1, .give 1]⟩ junk =
      readFromDevice x64 .little message id srcDevice b ⟨msgLe, [.give 1, .give 1]⟩ junk' :=
  (C68_stream_partial x64_ok srcDevice_honest (fun _ => Nat.le_refl _) (fun _ h => h) .little message b _ junk junk').resolve_right
    fun h => absurd h.1 (by decide)

/-! ## Cases -/

section Cases
open Samples

example : bytesNeededD x64 message msg = .ok 21 :=
  (C68_bytes_needed_partial (e := .little) x64_ok message_layout message_decl (by decide) msg_ty (s := ⟨[], []⟩) (Prod.ext (by decide) rfl)).trans
    (by decide)

/-- Any input, for types of the library on a 64-bit machine. -/
example (base : Nat) (buf : Bytes) (h : base + buf.length ≤ x64.usizeMax) :
    (readWithLengthFromBufferD x64 .little message base buf).1 = (readWithLengthFromBuffer x64 .little message base buf).1 ∧
    (readWithLengthFromBufferCopyingD x64 .little message base buf).1 = (readWithLengthFromBufferCopying x64 .little message base buf).1 :=
  ⟨((C68_read_partial x64_ok h).resolve_right fun h => absurd h.1 (by decide)).1,
    ((C68_read_copying_partial x64_ok h).resolve_right fun h => absurd h.1 (by decide)).1⟩

/-- At the end of the address space. -/
example := C68_pointers x64_ok (e := .little) (t := message) (base := 2 ^ 64 - 22) (buf := msgLe) (by decide)

end Cases

end Verif
