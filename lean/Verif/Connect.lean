import Verif.RefineTy
import Verif.ReadersLawful
import Verif.Entry
import Verif.RoundTripTy
import Verif.WireLen

/-!
# The entry points in terms of the parser and the format
-/

namespace Verif

/-! ## Reading from a buffer -/

/-- A further invariant. -/
theorem Lawful.and {σ : Type} {R : ReaderOps σ} {Inv K : σ → Prop} {pend : σ → Bytes} (L : Lawful R Inv pend)
    (k1 : ∀ n s, K s → K (R.read n s).2) (k2 : ∀ n s, K s → K (R.peek n s).2)
    (k3 : ∀ n s, K s → K (R.skip n s).2) (k4 : ∀ n s, K s → K (R.borrow n s).2)
    (k5 : ∀ n s, K s → K (R.borrowR n s).2) (k6 : ∀ s, K s → K (R.borrowEof s).2) :
    Lawful R (fun s => Inv s ∧ K s) pend where
  read_ok n s hs hn := by
    obtain ⟨s', h1, h2, h3⟩ := L.read_ok n s hs.1 hn
    exact ⟨s', h1, ⟨h2, by have := k1 n s hs.2; rwa [h1] at this⟩, h3⟩
  read_err n s hs hn := by
    obtain ⟨er, s', h1, h2, h3, h4⟩ := L.read_err n s hs.1 hn
    exact ⟨er, s', h1, h2, ⟨h3, by have := k1 n s hs.2; rwa [h1] at this⟩, h4⟩
  peek_ok n s hs hn := by
    obtain ⟨s', h1, h2, h3⟩ := L.peek_ok n s hs.1 hn
    exact ⟨s', h1, ⟨h2, by have := k2 n s hs.2; rwa [h1] at this⟩, h3⟩
  peek_err n s hs hn := by
    obtain ⟨er, s', h1, h2, h3, h4⟩ := L.peek_err n s hs.1 hn
    exact ⟨er, s', h1, h2, ⟨h3, by have := k2 n s hs.2; rwa [h1] at this⟩, h4⟩
  skip_ok n s hs hn := by
    obtain ⟨s', h1, h2, h3⟩ := L.skip_ok n s hs.1 hn
    exact ⟨s', h1, ⟨h2, by have := k3 n s hs.2; rwa [h1] at this⟩, h3⟩
  skip_err n s hs hn := by
    obtain ⟨er, s', h1, h2, h3, h4⟩ := L.skip_err n s hs.1 hn
    exact ⟨er, s', h1, h2, ⟨h3, by have := k3 n s hs.2; rwa [h1] at this⟩, h4⟩
  canRead n s hs := L.canRead n s hs.1
  borrow n s hs := by
    rcases L.borrow n s hs.1 with h | ⟨h, a, s', h1, h2, h3⟩ | ⟨h, er, s', h1, h2, h3, h4⟩
    · exact .inl h
    · exact .inr (.inl ⟨h, a, s', h1, ⟨h2, by have := k4 n s hs.2; rwa [h1] at this⟩, h3⟩)
    · exact .inr (.inr ⟨h, er, s', h1, h2, ⟨h3, by have := k4 n s hs.2; rwa [h1] at this⟩, h4⟩)
  borrowR n s hs := by
    rcases L.borrowR n s hs.1 with h | ⟨h, a, s', h1, h2, h3⟩ | ⟨h, er, s', h1, h2, h3, h4⟩
    · exact .inl h
    · exact .inr (.inl ⟨h, a, s', h1, ⟨h2, by have := k5 n s hs.2; rwa [h1] at this⟩, h3⟩)
    · exact .inr (.inr ⟨h, er, s', h1, h2, ⟨h3, by have := k5 n s hs.2; rwa [h1] at this⟩, h4⟩)
  borrowEof s hs := by
    rcases L.borrowEof s hs.1 with h | ⟨a, s', h1, h2, h3⟩
    · exact .inl h
    · exact .inr ⟨a, s', h1, ⟨h2, by have := k6 s hs.2; rwa [h1] at this⟩, h3⟩

/-- The state of a buffer reader on a given buffer. -/
def BufAt (h : Host) (base : Nat) (buf : Bytes) (s : BufSt) : Prop := s.Inv h ∧ s.base = base ∧ s.buf = buf

theorem bufferReader_at (h : Host) (base : Nat) (buf : Bytes) :
    Lawful (bufferReader h) (BufAt h base buf) BufSt.pend := by
  refine (bufferReader_lawful h).and (K := fun s => s.base = base ∧ s.buf = buf) ?_ ?_ ?_ ?_ ?_ ?_
  all_goals first
    | (intro n s hs; simp only [bufferReader, bufRead, bufPeek, bufSkip, bufBorrow]; split <;> exact hs)
    | (intro s hs; exact hs)

theorem copyingReader_at (h : Host) (base : Nat) (buf : Bytes) :
    Lawful (copyingReader h) (BufAt h base buf) BufSt.pend := by
  refine (copyingReader_lawful h).and (K := fun s => s.base = base ∧ s.buf = buf) ?_ ?_ ?_ ?_ ?_ ?_
  all_goals first
    | (intro n s hs; simp only [copyingReader, bufRead, bufPeek, bufSkip, bufBorrow]; split <;> exact hs)
    | (intro n s hs; exact hs)
    | (intro s hs; exact hs)

theorem bufferReader_borrows (h : Host) (Inv : BufSt → Prop) : Borrows (bufferReader h) Inv := by
  intro s _
  refine ⟨fun n => ?_, by simp [bufferReader, bufBorrowEof]⟩
  simp only [bufferReader, bufBorrow]
  split <;> simp

theorem BufAt.init {h : Host} {base : Nat} {buf : Bytes} (hb : base + buf.length ≤ h.usizeMax) :
    BufAt h base buf (BufSt.init base buf) := ⟨BufSt.init_inv hb, rfl, rfl⟩

/-- The reported length. -/
theorem BufAt.consumed {h : Host} {base : Nat} {buf : Bytes} {s : BufSt} (hs : BufAt h base buf s) :
    wsub h s.ptr base = buf.length - s.pend.length ∧ s.pend.length ≤ buf.length := by
  obtain ⟨hi, h1, h2⟩ := hs
  have a1 := hi.lo; have a2 := hi.hi; have a3 := hi.stop_eq; have a4 := hi.fits
  rw [← h1, wsub_eq a1 (by omega), ← h2]
  simp only [BufSt.pend, List.length_drop]
  omega

/-- A buffer in memory: it ends before the end of the address space, it is not
larger than an object can be, and the fuel of the model suffices. -/
structure InMem (T : Target) (base : Nat) (buf : Bytes) : Prop where
  top : base + buf.length ≤ T.usizeMax
  fits : Fits T buf

theorem InMem.prefix {T : Target} {base : Nat} {x y : Bytes} (h : InMem T base (x ++ y)) : InMem T base x :=
  ⟨by have := h.top; simp only [List.length_append] at this; omega, h.fits.left⟩

section
variable {T : Target} (hT : T.Ok) {e : Endian} {t : Ty} (hl : layoutOk T t = true) {base : Nat} {buf : Bytes}
include hT hl

theorem buffer_outcome (hm : InMem T base buf) :
    Outcome (BufAt T.toHost base buf) BufSt.pend (BufSt.init base buf) (parse T e t Cx.std buf)
      ((decode T e t Cx.std).run (bufferReader T.toHost) (BufSt.init base buf)) := by
  have := decode_refines (bufferReader_at T.toHost base buf) hT (B := buf.length) hm.fits.mem hm.fits.fuel (e := e)
    t Cx.std hl (.inr (bufferReader_borrows _ _)) (BufSt.init base buf) (BufAt.init hm.top)
    (by rw [BufSt.init_pend]; exact Nat.le_refl _)
  rwa [BufSt.init_pend] at this

theorem copying_outcome (hm : InMem T base buf) (hn : noRefs t = true) :
    Outcome (BufAt T.toHost base buf) BufSt.pend (BufSt.init base buf) (parse T e t Cx.std buf)
      ((decode T e t Cx.std).run (copyingReader T.toHost) (BufSt.init base buf)) := by
  have := decode_refines (copyingReader_at T.toHost base buf) hT (B := buf.length) hm.fits.mem hm.fits.fuel (e := e)
    t Cx.std hl (.inl hn) (BufSt.init base buf) (BufAt.init hm.top)
    (by rw [BufSt.init_pend]; exact Nat.le_refl _)
  rwa [BufSt.init_pend] at this

theorem buffer_ok (hm : InMem T base buf) (hmin : minBytes T t ≤ buf.length) {v : Val} {rest : Bytes}
    (h : parse T e t Cx.std buf = .ok v rest) :
    readWithLengthFromBuffer T e t base buf = (.ok v, buf.length - rest.length) := by
  have h1 := buffer_outcome hT hl (e := e) hm
  rw [h] at h1
  obtain ⟨h2, h3, h4, _⟩ := h1
  unfold readWithLengthFromBuffer
  rw [if_neg (by omega)]
  simp only [h2, h3.consumed.1, h4]

theorem copying_ok (hm : InMem T base buf) (hn : noRefs t = true) (hmin : minBytes T t ≤ buf.length)
    {v : Val} {rest : Bytes} (h : parse T e t Cx.std buf = .ok v rest) :
    readWithLengthFromBufferCopying T e t base buf = (.ok v, buf.length - rest.length) := by
  have h1 := copying_outcome hT hl (e := e) hm hn
  rw [h] at h1
  obtain ⟨h2, h3, h4, _⟩ := h1
  unfold readWithLengthFromBufferCopying
  rw [if_neg (by omega)]
  simp only [h2, h3.consumed.1, h4]

theorem buffer_fail (hm : InMem T base buf) {er : Err} (h : parse T e t Cx.std buf = .fail er) :
    ∃ er', readFromBuffer T e t base buf = .error er' ∧
      (er' = .inputBufferIsTooSmall buf.length (minBytes T t) ∨
        if er.isEof then er'.isEof = true else er' = er) := by
  have h1 := buffer_outcome hT hl (e := e) hm
  rw [h] at h1
  obtain ⟨er', h2, h3, _⟩ := h1
  unfold readFromBuffer readWithLengthFromBuffer
  split
  · exact ⟨_, rfl, .inl rfl⟩
  · exact ⟨er', h2, .inr h3⟩

theorem copying_fail (hm : InMem T base buf) (hn : noRefs t = true) {er : Err}
    (h : parse T e t Cx.std buf = .fail er) :
    ∃ er', readFromBufferCopying T e t base buf = .error er' ∧
      (er' = .inputBufferIsTooSmall buf.length (minBytes T t) ∨
        if er.isEof then er'.isEof = true else er' = er) := by
  have h1 := copying_outcome hT hl (e := e) hm hn
  rw [h] at h1
  obtain ⟨er', h2, h3, _⟩ := h1
  unfold readFromBufferCopying readWithLengthFromBufferCopying
  split
  · exact ⟨_, rfl, .inl rfl⟩
  · exact ⟨er', h2, .inr h3⟩

theorem stream_outcome {grow : Nat → Nat} (hg : ∀ n, n ≤ grow n) {b : Bool} {src : Src} (hc : src.Clean)
    (hf : Fits T src.data) (hn : noRefs t = true) :
    Outcome StreamSt.Inv StreamSt.pend (StreamSt.init b src) (parse T e t Cx.std src.data)
      (readFromStream T e t grow b src) := by
  have := decode_refines (streamReader_lawful hg) hT (B := src.data.length) hf.mem hf.fuel (e := e)
    t Cx.std hl (.inl hn) (StreamSt.init b src) (StreamSt.init_inv hc)
    (by rw [StreamSt.init_pend]; exact Nat.le_refl _)
  rwa [StreamSt.init_pend] at this

end

/-! ## Writing -/

mutual
theorem regular_slice {T : Target} {e : Endian} : ∀ (t : Ty), regular T e t = true → sliceOk T t = true
  | .prim _, _ | .usize, _ | .bool, _ | .char, _ | .nonZero _, _ | .atomic _, _ | .ipv4, _ | .ipv6, _ | .ipAddr, _
  | .duration, _ | .systemTime, _ | .endianness, _ | .varint64, _ | .uuid, _ | .str _, _ | .unit, _ => by
    simp [sliceOk]
  | .seq _ t, h => by
    simp only [regular, Bool.and_eq_true] at h
    simp only [sliceOk, regular_slice t h.1.2, Bool.and_true]
    have := h.1.1
    unfold vecOk at this
    split at this
    · rename_i hp; simp only [bulkOk, Bool.and_eq_true] at this; simp [this.1]
    · rename_i hp; simp only [Bool.not_eq_true] at hp; simp [hp]
  | .array _ t, h => by
    simp only [regular, Bool.and_eq_true, Bool.or_eq_true] at h
    simp only [sliceOk, regular_slice t h.2, Bool.and_true, Bool.or_eq_true]
    rcases h.1 with h1 | h1
    · exact .inl h1
    · simp only [bulkOk, Bool.and_eq_true] at h1; exact .inr h1.1
  | .refArray _ t, h => by
    simp only [regular, Bool.and_eq_true] at h
    simp [sliceOk, regular_slice t h.2, h.1.1.2]
  | .set t, h => by
    simp only [regular, Bool.and_eq_true, Bool.or_eq_true] at h
    simp only [sliceOk, regular_slice t h.2, Bool.and_true, Bool.or_eq_true]
    rcases h.1 with h1 | h1
    · exact .inl h1
    · exact .inr h1.1
  | .map k t, h => by
    simp only [regular, Bool.and_eq_true] at h
    simp only [sliceOk, regular_slice t h.2, regular_slice k h.1.2, Bool.and_true, Bool.and_eq_true]
    exact ⟨h.1.1.1.1, h.1.1.1.2⟩
  | .option t, h | .range t, h | .rangeInc t, h | .box t, h | .via _ t, h => by
    simp only [regular] at h
    simp only [sliceOk, regular_slice t h]
  | .result a b, h | .pair a b, h => by
    simp only [regular, Bool.and_eq_true] at h
    simp only [sliceOk, regular_slice a h.1, regular_slice b h.2, Bool.and_self]
  | .struct _ fs, h => by
    simp only [regular] at h
    simp only [sliceOk, regular_sliceFields fs h]
  | .enum _ vs, h => by
    simp only [regular] at h
    simp only [sliceOk, regular_sliceVariants vs h]
theorem regular_sliceFields {T : Target} {e : Endian} : ∀ (fs : Fields), regularFields T e fs = true →
    sliceOkFields T fs = true
  | .nil, _ => by simp [sliceOkFields]
  | .cons a t fs, h => by
    simp only [regularFields, Bool.and_eq_true] at h
    simp only [sliceOkFields, regular_slice t h.1.2, regular_sliceFields fs h.2, Bool.and_self]
theorem regular_sliceVariants {T : Target} {e : Endian} : ∀ (vs : Variants), regularVariants T e vs = true →
    sliceOkVariants T vs = true
  | .nil, _ => by simp [sliceOkVariants]
  | .cons _ fs vs, h => by
    simp only [regularVariants, Bool.and_eq_true] at h
    simp only [sliceOkVariants, regular_sliceFields fs h.1, regular_sliceVariants vs h.2, Bool.and_self]
end

section
variable {T : Target} (hT : T.Ok) {e : Endian} {t : Ty} {v : Val} (hl : layoutOk T t = true)
  (hd : declOk t = true) (hs : sliceOk T t = true) (hv : hasTy T t v)
include hT hl hd hs hv

/-- Output of `write_to`. -/
theorem out_ok {bs : Bytes} (hw : wire (Fmt.code T.toHost e) t LenR.std v = .ok bs) :
    (encode T e t Cx.std v).out T.toHost e = (bs, .ok ()) := by
  have := encode_wire (e := e) hT t Cx.std v hl hd hs hv
  have h2 : Cx.std.len = LenR.std := rfl
  rw [h2, hw] at this
  exact this

theorem out_err {er : Err} (hw : wire (Fmt.code T.toHost e) t LenR.std v = .error er) :
    ((encode T e t Cx.std v).out T.toHost e).2 = .error er := by
  have := encode_wire (e := e) hT t Cx.std v hl hd hs hv
  have h2 : Cx.std.len = LenR.std := rfl
  rw [h2, hw] at this
  exact this

theorem needed_wrap {F : Fmt} {bs : Bytes} (hw : wire F t LenR.std v = .ok bs) :
    bytesNeeded T t v = .ok (T.wrap bs.length) :=
  bytesNeeded_eq hT t LenR.std v bs (fun _ => rfl) hl hd hs hv hw

theorem needed_ok {F : Fmt} {bs : Bytes} (hw : wire F t LenR.std v = .ok bs) (hm : bs.length ≤ T.usizeMax) :
    bytesNeeded T t v = .ok bs.length := by
  rw [needed_wrap hT hl hd hs hv hw, Host.wrap_of_le hm]

theorem vec_ok {junk : Nat → UInt8} {bs : Bytes} (hw : wire (Fmt.code T.toHost e) t LenR.std v = .ok bs)
    (hm : bs.length ≤ T.isizeMax) : writeToVec T e t v junk = .ok bs := by
  unfold writeToVec
  rw [needed_ok hT hl hd hs hv hw (by have := hT.isize; omega)]
  have ho := out_ok hT hl hd hs hv hw
  simp only
  rw [if_neg (by omega), run_buffer (encode_room t Cx.std v) _ (by rw [ho]; simp)]
  rw [ho]
  simp

theorem vec_err {junk : Nat → UInt8} {er : Err} (hw : wire (Fmt.code T.toHost e) t LenR.std v = .error er) :
    ∃ er', writeToVec T e t v junk = .error er' := by
  unfold writeToVec
  cases bytesNeeded T t v with
  | error er' => exact ⟨er', rfl⟩
  | ok n =>
    simp only
    split
    · exact ⟨_, rfl⟩
    · obtain ⟨er', h⟩ := run_buffer_err _ ⟨(List.range n).map junk, 0⟩ er (out_err hT hl hd hs hv hw)
      generalize WProg.run _ _ _ = r at h
      obtain ⟨r1, r2⟩ := r
      simp only at h
      subst h
      exact ⟨er', rfl⟩

/-- What `write_to_vec` returns is the encoding. -/
theorem vec_inv {junk : Nat → UInt8} {bs : Bytes} (h : writeToVec T e t v junk = .ok bs) :
    wire (Fmt.code T.toHost e) t LenR.std v = .ok bs ∧ bs.length ≤ T.isizeMax := by
  cases hw : wire (Fmt.code T.toHost e) t LenR.std v with
  | error er =>
    obtain ⟨er', h'⟩ := vec_err hT hl hd hs hv hw (junk := junk)
    rw [h] at h'; simp at h'
  | ok bs' =>
    by_cases hm : bs'.length ≤ T.isizeMax
    · have := vec_ok hT hl hd hs hv (junk := junk) hw hm
      rw [h] at this
      simp only [Except.ok.injEq] at this
      subst this
      exact ⟨rfl, hm⟩
    · unfold writeToVec at h
      rw [needed_wrap hT hl hd hs hv hw] at h
      simp only at h
      split at h
      · simp at h
      · have h1 := run_buffer_fits (h := T.toHost) (e := e) (encode T e t Cx.std v)
          ⟨(List.range (T.wrap bs'.length)).map junk, 0⟩
        rw [out_ok hT hl hd hs hv hw] at h1
        generalize (encode T e t Cx.std v).run (bufferCollector T.toHost e) _ = r at h1 h
        obtain ⟨r1, r2⟩ := r
        cases r1 with
        | ok u =>
          have := (h1 rfl (Nat.zero_le _)).2
          simp only [List.length_map, List.length_range, Nat.zero_add] at this
          omega
        | error er => simp at h

theorem buf_ok {buf bs : Bytes} (hw : wire (Fmt.code T.toHost e) t LenR.std v = .ok bs)
    (hb : bs.length ≤ buf.length) (hm : bs.length ≤ T.usizeMax) :
    writeToBuffer T e t v buf = (.ok (), bs ++ buf.drop bs.length) := by
  unfold writeToBuffer
  rw [needed_ok hT hl hd hs hv hw hm]
  have ho := out_ok hT hl hd hs hv hw
  simp only
  have hlen : (buf.take bs.length).length = bs.length := by simp; omega
  rw [if_pos hb, run_buffer (encode_room t Cx.std v) _ (by rw [ho]; simp; omega)]
  rw [ho]
  simp

end

end Verif
