import Verif.File
import Verif.PropsAgree
import Verif.PropsRoundTrip
import Verif.PropsWrite

/-!
# C53: files

`readFromFileMapped` is `read_from_file` on x86-64 Linux, which maps the file into memory; `readFromFileStreamed` is
`read_from_file` elsewhere, which uses a buffered stream.  `writeToFile … = (result, content)`.
-/

namespace Verif

/-- A regular file with this content, which does not change while it is read, and calls which do not fail. -/
structure OsFile.Holds (f : OsFile) (content : Bytes) : Prop where
  opened : f.openErr = none
  stat : f.statErr = none
  map : f.mapErr = none
  seq : f.seqErr = none
  need : f.needErr = none
  size : f.size = content.length
  data : f.src.data = content
  clean : f.src.Clean

/-- The address at which a file with some content appears. -/
def OsFile.at (f : OsFile) : Nat := if f.size = 0 then emptyAddr else f.addr

/-- Mapping such a file shows its content. -/
theorem mapped_eq {T : Target} {e : Endian} {t : Ty} {f : OsFile} {bs : Bytes} (hf : f.Holds bs)
    (hm : bs.length ≤ T.usizeMax) : (readFromFileMapped T e t f).1 = readFromBufferCopying T e t f.at bs := by
  unfold readFromFileMapped Mmap.open
  simp only [hf.opened, hf.stat, hf.map, hf.seq, hf.need]
  have h1 : ¬ f.size > T.usizeMax := by rw [hf.size]; omega
  rw [if_neg h1]
  by_cases h0 : f.size = 0
  · have : bs = [] := List.eq_nil_of_length_eq_zero (by rw [← hf.size]; exact h0)
    subst this
    simp [h0, Mmap.madvise, Mmap.bytes, OsFile.at]
  · simp only [if_neg h0, Mmap.madvise, Mmap.bytes, OsFile.at]
    rw [if_neg (by rw [hf.data, hf.size]; omega)]
    simp [hf.size, hf.data]

/-- The content is in memory where the file is mapped. -/
def OsFile.InMem (T : Target) (f : OsFile) : Prop := Verif.InMem T f.at f.src.data

section
variable {T : Target} (hT : T.Ok) {e : Endian} {t : Ty} {v : Val}
  (hl : layoutOk T t = true) (hd : declOk t = true) (hr : regular T e t = true) (hv : hasTy T t v)
  (hc : canon (Fmt.code T.toHost e) t v) (hn : noRefs t = true)
include hT hl hd hr hv hc hn

/-- What `write_to_file` has to do with `write_to_vec`. -/
theorem file_vec {evs : List SinkEv} {content bs : Bytes} (hw : writeToFile T e t v none evs = (.ok (), content))
    (hb : ∀ s : Sink, s.Works → (writeToStream T e t v s).1 = .ok () ∧ (writeToStream T e t v s).2.got = s.got ++ bs)
    (hi : bs.length ≤ T.isizeMax) : writeToVec T e t v (fun _ => 0) = .ok bs := by
  obtain ⟨h1, h2⟩ := hb ⟨[], []⟩ (by simp [Sink.Works])
  obtain ⟨b', h3, h4⟩ := stream_inv hT hl hd (regular_slice t hr) hv (Prod.ext h1 rfl)
  rw [h2] at h4
  simp only [List.nil_append] at h4
  subst h4
  exact vec_ok hT hl hd (regular_slice t hr) hv h3 hi

/-- **C53**: what `write_to_file` has written to a disk which works is read back by `read_from_file`, by either
implementation.

Full claim: for all types and values.  Missing: the exceptions of C01. -/
theorem C53_file_round_trip_partial {evs : List SinkEv} {content : Bytes}
    (hw : writeToFile T e t v none evs = (.ok (), content)) (hok : (Sink.mk [] evs).Works) (he : ends true false t = true)
    {f : OsFile} (hf : f.Holds content) (hm : f.InMem T) :
    (readFromFileMapped T e t f).1 = .ok v ∧
      ∀ grow : Nat → Nat, (∀ n, n ≤ grow n) → readFromFileStreamed T e t grow f = .ok v := by
  obtain ⟨bs, h1, _, _, h2⟩ := C34_write_to_file_partial hw
  have h2 := h2 hok
  subst h2
  unfold OsFile.InMem at hm
  rw [hf.data] at hm
  have hv' := file_vec hT hl hd hr hv hc hn hw h1 hm.fits.mem
  refine ⟨?_, fun grow hg => ?_⟩
  · rw [mapped_eq hf (by have := hm.top; omega)]
    exact C01_round_trip_copying_partial hT hl hd hr hv hc hv' he hn hm
  · unfold readFromFileStreamed
    rw [hf.opened]
    exact C01_round_trip_stream_partial hT hl hd hr hv hc hv' hg he hn hf.clean hf.data hm.fits

/-- C53: even if the disk failed after `write_to_file` had returned `Ok` (see `C34_false`), reading the file never gives a
different value: it gives the value or an error.

Full claim: for all types without `length = ..` and `default_on_eof`.  Missing: the exceptions of C01. -/
theorem C53_no_other_value_partial {evs : List SinkEv} {content : Bytes}
    (hw : writeToFile T e t v none evs = (.ok (), content)) (he : ends false true t = true) {f : OsFile}
    (hf : f.Holds content) (hm : f.InMem T)
    (hbig : content.length + 8192 ≤ T.isizeMax ∧ content.length + 8192 < T.fuel ∧ f.at + content.length + 8192 ≤ T.usizeMax) :
    (readFromFileMapped T e t f).1 = .ok v ∨ ∃ er, (readFromFileMapped T e t f).1 = .error er ∧
      (er.isEof = true ∨ er = .inputBufferIsTooSmall content.length (minBytes T t)) := by
  obtain ⟨bs, h1, ⟨y, h2⟩, h3, _⟩ := C34_write_to_file_partial hw
  unfold OsFile.InMem at hm
  rw [hf.data] at hm
  have hv' := file_vec hT hl hd hr hv hc hn hw h1 (by omega)
  have hmb : InMem T f.at bs := ⟨by omega, by omega, by omega⟩
  rw [mapped_eq hf (by have := hm.top; omega)]
  by_cases hy : y = []
  · subst hy
    rw [List.append_nil] at h2
    subst h2
    obtain ⟨g1, g2⟩ := written_codes hT hl hd hr hv hc hv' he hmb.fits
    have g3 := g2.1 [] (by simp)
    simp only [List.append_nil] at g3
    left
    unfold readFromBufferCopying
    rw [copying_ok hT hl hmb hn g1 g3]
  · exact .inr (C07_truncated_copying_partial hT hl hd hr hv hc hv' he hn h2.symm hy hmb)
end

/-- C53: on any content, mapping the file gives a value exactly if streaming it does, and the same one.

Missing: the exceptions of C10 and C12. -/
theorem C53_platforms_agree_partial {T : Target} (hT : T.Ok) {e : Endian} {t : Ty} (ha : Agreeable T e t)
    (hn : noRefs t = true) {f : OsFile} {content : Bytes} (hf : f.Holds content) (hm : f.InMem T)
    {grow : Nat → Nat} (hg : ∀ n, n ≤ grow n) (v : Val) :
    (readFromFileMapped T e t f).1 = .ok v ↔ readFromFileStreamed T e t grow f = .ok v := by
  unfold OsFile.InMem at hm
  unfold readFromFileStreamed
  rw [hf.opened]
  simp only
  rw [C12_buffered_agrees_partial hT ha hg hf.clean hm hn v]
  rw [hf.data] at hm ⊢
  rw [mapped_eq hf (by have := hm.top; omega)]
  unfold readFromBuffer readFromBufferCopying
  constructor
  · intro h
    rw [(C10_copying_agrees_partial hT ha hm hm hn v _).2 (Prod.ext h rfl)]
  · intro h
    rw [(C10_copying_agrees_partial hT ha hm hm hn v _).1 (Prod.ext h rfl)]

/-- C53: whatever fails, a mapping is released exactly once, with the address and size it was made with, and there is no mapping
of size zero. -/
theorem C53_unmapped (T : Target) (e : Endian) (t : Ty) (f : OsFile) :
    (readFromFileMapped T e t f).2 = [] ∨
      (f.size ≠ 0 ∧ (readFromFileMapped T e t f).2 = [.mmap f.addr f.size, .munmap f.addr f.size]) := by
  unfold readFromFileMapped Mmap.open
  cases f.openErr with
  | some k => exact .inl rfl
  | none =>
    cases f.statErr with
    | some k => exact .inl rfl
    | none =>
      dsimp only
      by_cases h1 : f.size > T.usizeMax
      · rw [if_pos h1]; exact .inl rfl
      · rw [if_neg h1]
        by_cases h0 : f.size = 0
        · rw [if_pos h0]
          simp [Mmap.madvise, Mmap.drop, Mmap.bytes]
        · rw [if_neg h0]
          cases f.mapErr with
          | some k => exact .inl rfl
          | none =>
            refine .inr ⟨h0, ?_⟩
            simp only [Mmap.madvise, if_neg h0]
            cases f.seqErr <;> cases f.needErr <;> simp [Mmap.drop, h0]
            cases h : Mmap.bytes ⟨f.addr, f.size⟩ f <;> simp

/-- C53: an error of the operating system is what is returned, before anything is read. -/
theorem C53_os_errors (T : Target) (e : Endian) (t : Ty) (f : OsFile) (k : IoKind)
    (h : f.openErr = some k ∨
      (f.openErr = none ∧ f.statErr = some k) ∨
      (f.openErr = none ∧ f.statErr = none ∧ 0 < f.size ∧ f.size ≤ T.usizeMax ∧ (f.mapErr = some k ∨
        (f.mapErr = none ∧ (f.seqErr = some k ∨ (f.seqErr = none ∧ f.needErr = some k)))))) :
    (readFromFileMapped T e t f).1 = .error (.io k) := by
  unfold readFromFileMapped Mmap.open
  rcases h with h | ⟨h1, h⟩ | ⟨h1, h2, h3, h4, h⟩
  · rw [h]
  · rw [h1, h]
  · rw [h1, h2]
    dsimp only
    rw [if_neg (by omega), if_neg (by omega)]
    rcases h with h | ⟨h5, h | ⟨h6, h⟩⟩
    · rw [h]
    · rw [h5]
      dsimp only
      rw [h, Mmap.madvise, if_neg (by dsimp only; omega)]
    · rw [h5]
      dsimp only
      rw [h6, h, Mmap.madvise, if_neg (by dsimp only; omega)]
      dsimp only
      rw [Mmap.madvise, if_neg (by dsimp only; omega)]

/-- C53: a file larger than the address space (of a 32-bit target) is refused, and nothing is mapped. -/
theorem C53_too_large (T : Target) (e : Endian) (t : Ty) (f : OsFile) (h1 : f.openErr = none) (h2 : f.statErr = none) (h3 : f.size > T.usizeMax) :
    readFromFileMapped T e t f = (.error .outOfRangeUsize, []) := by
  unfold readFromFileMapped Mmap.open
  rw [h1, h2]
  dsimp only
  rw [if_pos h3]

/-- A file of 4 GiB on a 32-bit target. -/
example : readFromFileMapped Samples.le32 .little (.prim .u32) { size := 2 ^ 32, src := ⟨[7, 0, 0, 0], []⟩, addr := 4096 } =
    (.error .outOfRangeUsize, []) :=
  C53_too_large _ _ _ _ rfl rfl (by decide)

/-- C53: a file which cannot be opened is reported as such on all platforms. -/
theorem C53_not_opened (T : Target) (e : Endian) (t : Ty) (grow : Nat → Nat) (f : OsFile) (k : IoKind) (h : f.openErr = some k) :
    readFromFileStreamed T e t grow f = .error (.io k) ∧ (readFromFileMapped T e t f).1 = .error (.io k) :=
  ⟨by unfold readFromFileStreamed; rw [h], C53_os_errors T e t f k (.inl h)⟩

open Samples in
/-- **C53 is false** for files without a size of their own, e.g. pipes and files in `/proc`: `metadata` says 0, so that nothing is
read on Linux, though reading gives the value. -/
theorem C53_false : ∃ f : OsFile, f.openErr = none ∧ f.size = 0 ∧
    readFromFileStreamed x64 .little (.prim .u32) (· + 100) f = .ok (.num 7) ∧
    (readFromFileMapped x64 .little (.prim .u32) f).1 = .error (.inputBufferIsTooSmall 0 4) :=
  ⟨{ size := 0, src := ⟨[7, 0, 0, 0], []⟩, addr := 4096 }, rfl, rfl,
    C01_round_trip_stream_partial x64_ok (t := .prim .u32) (v := .num 7) (e := .little) (bs := [7, 0, 0, 0]) (junk := fun _ => 0) rfl rfl rfl
      (by simp [hasTy, Prim.size]) trivial (by decide) (fun n => by omega) rfl rfl (by simp [Src.Clean]) rfl ⟨by decide, by decide⟩,
    by decide⟩

/-! The hypotheses can be met. -/

section
open Samples

/-- A file with the encoding of `msg`, delivered in pieces if it is streamed. -/
def msgFile : OsFile := { size := 21, src := ⟨msgLe, [.give 1, .give 7]⟩, addr := 4096 }

/-- A missing file (`ENOENT`). -/
example : readFromFileStreamed x64 .little message (· * 2) { msgFile with openErr := some (.other 2) } = .error (.io (.other 2)) :=
  (C53_not_opened _ _ _ _ _ _ rfl).1

theorem msgFile_holds : msgFile.Holds msgLe :=
  ⟨rfl, rfl, rfl, rfl, rfl, by decide, rfl, by simp [Src.Clean, msgFile]⟩

example : (readFromFileMapped x64 .little message msgFile).1 = .ok msg ∧
    ∀ grow : Nat → Nat, (∀ n, n ≤ grow n) → readFromFileStreamed x64 .little message grow msgFile = .ok msg :=
  C53_file_round_trip_partial x64_ok message_layout message_decl (message_regular _) msg_ty (msg_canon _) (by decide)
    (evs := [.accept 3]) (by decide) (by simp [Sink.Works]) message_ends msgFile_holds msg_mem

/-- The disk is full after three bytes. -/
example : ∃ content, writeToFile x64 .little message msg none [.accept 3, .fault (.other 28)] = (.ok (), content) ∧
    ∀ f : OsFile, f.Holds content → f.at = 4096 → f.InMem x64 →
    ((readFromFileMapped x64 .little message f).1 = .ok msg ∨ ∃ er, (readFromFileMapped x64 .little message f).1 = .error er ∧
      (er.isEof = true ∨ er = .inputBufferIsTooSmall content.length (minBytes x64 message))) :=
  ⟨[2, 0x68, 0x69], by decide, fun f hf ha hm =>
    C53_no_other_value_partial x64_ok message_layout message_decl (message_regular _) msg_ty (msg_canon _) (by decide)
    (evs := [.accept 3, .fault (.other 28)]) (by decide) message_strict hf hm (by rw [ha]; decide)⟩

example (f : OsFile) (content : Bytes) (hf : f.Holds content) (hm : f.InMem x64) (v : Val) :=
  C53_platforms_agree_partial x64_ok (message_agreeable .big) (by decide) hf hm (grow := (· * 2)) (fun n => by omega) v

example : (readFromFileMapped x64 .little message { msgFile with needErr := some (.other 22) }) =
    (.error (.io (.other 22)), [.mmap 4096 21, .munmap 4096 21]) := by decide
end

/-! ## Cases -/

section Cases
open Samples

section
open Samples
example : (readFromFileMapped x64 .little message { msgFile with seqErr := some (.other 22) }).1 = .error (.io (.other 22)) :=
  C53_os_errors _ _ _ _ _ (.inr (.inr ⟨rfl, rfl, by decide, by decide, .inr ⟨rfl, .inl rfl⟩⟩))
end

end Cases

end Verif
