import Verif.CustomRead
import Verif.ReadersLawful
import Verif.Samples

/-!
# C72: hand-written implementations of `Readable` see a list of bytes
-/

namespace Verif

open Samples

/-! ## What a program means -/

/-- What a kind of reader offers: `knows`: it knows how much input there is, so that `can_read_at_least` and
`read_bytes_borrowed_from_reader` work; `lends`: slices of the input may be kept (`read_bytes_borrowed`,
`read_bytes_borrowed_until_eof`). -/
structure Offers where
  knows : Bool
  lends : Bool
  deriving DecidableEq

/-- Slices. -/
def Offers.slice : Offers := ⟨true, true⟩
/-- Slices, with copying. -/
def Offers.copying : Offers := ⟨true, false⟩
/-- Streams. -/
def Offers.stream : Offers := ⟨false, false⟩

/-- The meaning of a program, by a list of bytes `input` (which begins at the address `base`) and a position `p` in it: the result, the
context, the position.  What goes beyond the end fails and changes nothing. -/
def Reading.meaning {γ α : Type} (o : Offers) (base : Nat) (input : Bytes) : Reading γ α → γ → Nat → α × γ × Nat
  | .done a, c, p => (a, c, p)
  | .read n k, c, p =>
    if p + n ≤ input.length then (k (.ok ((input.drop p).take n))).meaning o base input c (p + n)
    else (k (.error .unexpectedEndOfInput)).meaning o base input c p
  | .peek n k, c, p =>
    if p + n ≤ input.length then (k (.ok ((input.drop p).take n))).meaning o base input c p
    else (k (.error .unexpectedEndOfInput)).meaning o base input c p
  | .skip n k, c, p =>
    if p + n ≤ input.length then (k (.ok ())).meaning o base input c (p + n)
    else (k (.error .unexpectedEndOfInput)).meaning o base input c p
  | .ask n k, c, p => (k (if o.knows then some (decide (p + n ≤ input.length)) else none)).meaning o base input c p
  | .borrow n k, c, p =>
    if o.lends then
      if p + n ≤ input.length then (k (some (.ok (base + p, (input.drop p).take n)))).meaning o base input c (p + n)
      else (k (some (.error .unexpectedEndOfInput))).meaning o base input c p
    else (k none).meaning o base input c p
  | .borrowR n k, c, p =>
    if o.knows then
      if p + n ≤ input.length then (k (some (.ok (base + p, (input.drop p).take n)))).meaning o base input c (p + n)
      else (k (some (.error .unexpectedEndOfInput))).meaning o base input c p
    else (k none).meaning o base input c p
  | .borrowEof k, c, p =>
    if o.lends then (k (some (base + p, input.drop p))).meaning o base input c input.length
    else (k none).meaning o base input c p
  | .look k, c, p => (k c).meaning o base input c p
  | .change f k, c, p => k.meaning o base input (f c) p

/-- No program gets beyond the end of the input, or back. -/
theorem Reading.meaning_le {γ α : Type} (o : Offers) (base : Nat) (input : Bytes) (q : Reading γ α) (c : γ) (p : Nat)
    (hp : p ≤ input.length) : p ≤ (q.meaning o base input c p).2.2 ∧ (q.meaning o base input c p).2.2 ≤ input.length := by
  induction q generalizing c p with
  | done a => exact ⟨Nat.le_refl _, hp⟩
  | look k ih => exact ih _ _ _ hp
  | change f k ih => exact ih _ _ hp
  | ask n k ih => exact ih _ _ _ hp
  | peek n k ih => simp only [Reading.meaning]; split <;> exact ih _ _ _ hp
  | read n k ih =>
    simp only [Reading.meaning]; split
    · rename_i h; have := ih (.ok ((input.drop p).take n)) c (p + n) h; omega
    · exact ih _ _ _ hp
  | skip n k ih =>
    simp only [Reading.meaning]; split
    · rename_i h; have := ih (.ok ()) c (p + n) h; omega
    · exact ih _ _ _ hp
  | borrow n k ih =>
    simp only [Reading.meaning]; split
    · split
      · rename_i h; have := ih (some (.ok (base + p, (input.drop p).take n))) c (p + n) h; omega
      · exact ih _ _ _ hp
    · exact ih _ _ _ hp
  | borrowR n k ih =>
    simp only [Reading.meaning]; split
    · split
      · rename_i h; have := ih (some (.ok (base + p, (input.drop p).take n))) c (p + n) h; omega
      · exact ih _ _ _ hp
    · exact ih _ _ _ hp
  | borrowEof k ih =>
    simp only [Reading.meaning]; split
    · have := ih (some (base + p, input.drop p)) c input.length (Nat.le_refl _); omega
    · exact ih _ _ _ hp

/-! ## Slices -/

/-- The state of a reader of the slice `input` at `base` which is at position `p`. -/
structure BufSt.Stands (h : Host) (base : Nat) (input : Bytes) (p : Nat) (s : BufSt) : Prop where
  inv : s.Inv h
  base_eq : s.base = base
  buf_eq : s.buf = input
  ptr_eq : s.ptr = base + p

namespace BufSt.Stands

variable {h : Host} {base : Nat} {input : Bytes} {p : Nat} {s : BufSt}

theorem pend_eq (hs : s.Stands h base input p) : s.pend = input.drop p := by
  simp [BufSt.pend, hs.base_eq, hs.buf_eq, hs.ptr_eq]

theorem le (hs : s.Stands h base input p) : p ≤ input.length := by
  have h1 := hs.inv.hi; have h2 := hs.inv.stop_eq
  rw [h2, hs.base_eq, hs.buf_eq, hs.ptr_eq] at h1; omega

theorem fits (hs : s.Stands h base input p) (n : Nat) : n ≤ s.pend.length ↔ p + n ≤ input.length := by
  have := hs.le
  rw [hs.pend_eq, List.length_drop]; omega

theorem can (hs : s.Stands h base input p) (n : Nat) : bufCanRead h n s = some (decide (p + n ≤ input.length)) := by
  rw [bufCanRead_eq hs.inv]; simp only [hs.fits]

theorem moved (hs : s.Stands h base input p) {n : Nat} (hn : p + n ≤ input.length) (tr : List (Nat × Nat))
    (htr : tr = s.trace ∨ tr = (s.ptr, n) :: s.trace) : ({ s with ptr := s.ptr + n, trace := tr } : BufSt).Stands h base input (p + n) :=
  ⟨(BufSt.advance_inv hs.inv ((hs.fits n).2 hn) htr).1, hs.base_eq, hs.buf_eq, by simp only [hs.ptr_eq]; omega⟩

theorem read_ok (hs : s.Stands h base input p) {n : Nat} (hn : p + n ≤ input.length) :
    (bufRead h n s).1 = .ok ((input.drop p).take n) ∧ (bufRead h n s).2.Stands h base input (p + n) := by
  unfold bufRead
  rw [hs.can, if_neg (by simp [hn]), BufSt.load_eq, hs.pend_eq]
  exact ⟨rfl, hs.moved hn _ (.inr rfl)⟩

theorem read_no (hs : s.Stands h base input p) {n : Nat} (hn : ¬ p + n ≤ input.length) : bufRead h n s = (.error .unexpectedEndOfInput, s) := by
  unfold bufRead; rw [hs.can, if_pos (by simp [hn])]

theorem peek_ok (hs : s.Stands h base input p) {n : Nat} (hn : p + n ≤ input.length) :
    (bufPeek h n s).1 = .ok ((input.drop p).take n) ∧ (bufPeek h n s).2.Stands h base input p := by
  unfold bufPeek
  rw [hs.can, if_neg (by simp [hn]), BufSt.load_eq, hs.pend_eq]
  exact ⟨rfl, BufSt.touch_inv hs.inv ((hs.fits n).2 hn), hs.base_eq, hs.buf_eq, hs.ptr_eq⟩

theorem peek_no (hs : s.Stands h base input p) {n : Nat} (hn : ¬ p + n ≤ input.length) : bufPeek h n s = (.error .unexpectedEndOfInput, s) := by
  unfold bufPeek; rw [hs.can, if_pos (by simp [hn])]

theorem skip_ok (hs : s.Stands h base input p) {n : Nat} (hn : p + n ≤ input.length) :
    (bufSkip h n s).1 = .ok () ∧ (bufSkip h n s).2.Stands h base input (p + n) := by
  unfold bufSkip
  rw [hs.can, if_neg (by simp [hn])]
  exact ⟨rfl, hs.moved hn _ (.inl rfl)⟩

theorem skip_no (hs : s.Stands h base input p) {n : Nat} (hn : ¬ p + n ≤ input.length) : bufSkip h n s = (.error .unexpectedEndOfInput, s) := by
  unfold bufSkip; rw [hs.can, if_pos (by simp [hn])]

theorem borrow_ok (hs : s.Stands h base input p) {n : Nat} (hn : p + n ≤ input.length) :
    (bufBorrow h n s).1 = some (.ok (base + p, (input.drop p).take n)) ∧ (bufBorrow h n s).2.Stands h base input (p + n) := by
  unfold bufBorrow
  rw [hs.can, if_neg (by simp [hn]), BufSt.load_eq, hs.pend_eq]
  exact ⟨by rw [hs.ptr_eq], hs.moved hn _ (.inr rfl)⟩

theorem borrow_no (hs : s.Stands h base input p) {n : Nat} (hn : ¬ p + n ≤ input.length) :
    bufBorrow h n s = (some (.error .unexpectedEndOfInput), s) := by
  unfold bufBorrow; rw [hs.can, if_pos (by simp [hn])]

theorem rest (hs : s.Stands h base input p) :
    (bufBorrowEof h s).1 = some (base + p, input.drop p) ∧ (bufBorrowEof h s).2.Stands h base input input.length := by
  have hl := hs.le
  unfold bufBorrowEof
  simp only [hs.inv.wsub, BufSt.load_eq, hs.pend_eq, List.length_drop]
  refine ⟨by rw [hs.ptr_eq, List.take_of_length_le (by simp)], ?_⟩
  have := hs.moved (n := input.length - p) (by omega) ((s.ptr, input.length - p) :: s.trace) (.inr rfl)
  rwa [show p + (input.length - p) = input.length by omega] at this

end BufSt.Stands

/-- `BufferReader` does what the list does. -/
theorem run_buffer_meaning {γ α : Type} {h : Host} {base : Nat} {input : Bytes} (q : Reading γ α) (c : γ) (p : Nat) (s : BufSt)
    (hs : s.Stands h base input p) :
    let m := q.meaning .slice base input c p
    ∃ s', q.run (bufferReader h) c s = (m.1, m.2.1, s') ∧ s'.Stands h base input m.2.2 := by
  induction q generalizing c p s with
  | done a => exact ⟨s, rfl, hs⟩
  | look k ih => exact ih _ _ _ _ hs
  | change f k ih => exact ih _ _ _ hs
  | ask n k ih => simp only [Reading.run, bufferReader, hs.can n]; exact ih _ _ _ _ hs
  | read n k ih =>
    simp only [Reading.run, Reading.meaning, bufferReader]
    by_cases hn : p + n ≤ input.length
    · obtain ⟨h1, h2⟩ := hs.read_ok hn; rw [if_pos hn, h1]; exact ih _ _ _ _ h2
    · rw [if_neg hn, hs.read_no hn]; exact ih _ _ _ _ hs
  | peek n k ih =>
    simp only [Reading.run, Reading.meaning, bufferReader]
    by_cases hn : p + n ≤ input.length
    · obtain ⟨h1, h2⟩ := hs.peek_ok hn; rw [if_pos hn, h1]; exact ih _ _ _ _ h2
    · rw [if_neg hn, hs.peek_no hn]; exact ih _ _ _ _ hs
  | skip n k ih =>
    simp only [Reading.run, Reading.meaning, bufferReader]
    by_cases hn : p + n ≤ input.length
    · obtain ⟨h1, h2⟩ := hs.skip_ok hn; rw [if_pos hn, h1]; exact ih _ _ _ _ h2
    · rw [if_neg hn, hs.skip_no hn]; exact ih _ _ _ _ hs
  | borrow n k ih =>
    simp only [Reading.run, Reading.meaning, bufferReader, Offers.slice, if_true]
    by_cases hn : p + n ≤ input.length
    · obtain ⟨h1, h2⟩ := hs.borrow_ok hn; rw [if_pos hn, h1]; exact ih _ _ _ _ h2
    · rw [if_neg hn, hs.borrow_no hn]; exact ih _ _ _ _ hs
  | borrowR n k ih =>
    simp only [Reading.run, Reading.meaning, bufferReader, Offers.slice, if_true]
    by_cases hn : p + n ≤ input.length
    · obtain ⟨h1, h2⟩ := hs.borrow_ok hn; rw [if_pos hn, h1]; exact ih _ _ _ _ h2
    · rw [if_neg hn, hs.borrow_no hn]; exact ih _ _ _ _ hs
  | borrowEof k ih =>
    simp only [Reading.run, Reading.meaning, bufferReader, Offers.slice, if_true]
    obtain ⟨h1, h2⟩ := hs.rest; rw [h1]; exact ih _ _ _ _ h2

/-- `CopyingBufferReader` does what the list does. -/
theorem run_copying_meaning {γ α : Type} {h : Host} {base : Nat} {input : Bytes} (q : Reading γ α) (c : γ) (p : Nat) (s : BufSt)
    (hs : s.Stands h base input p) :
    let m := q.meaning .copying base input c p
    ∃ s', q.run (copyingReader h) c s = (m.1, m.2.1, s') ∧ s'.Stands h base input m.2.2 := by
  induction q generalizing c p s with
  | done a => exact ⟨s, rfl, hs⟩
  | look k ih => exact ih _ _ _ _ hs
  | change f k ih => exact ih _ _ _ hs
  | ask n k ih => simp only [Reading.run, copyingReader, hs.can n]; exact ih _ _ _ _ hs
  | read n k ih =>
    simp only [Reading.run, Reading.meaning, copyingReader]
    by_cases hn : p + n ≤ input.length
    · obtain ⟨h1, h2⟩ := hs.read_ok hn; rw [if_pos hn, h1]; exact ih _ _ _ _ h2
    · rw [if_neg hn, hs.read_no hn]; exact ih _ _ _ _ hs
  | peek n k ih =>
    simp only [Reading.run, Reading.meaning, copyingReader]
    by_cases hn : p + n ≤ input.length
    · obtain ⟨h1, h2⟩ := hs.peek_ok hn; rw [if_pos hn, h1]; exact ih _ _ _ _ h2
    · rw [if_neg hn, hs.peek_no hn]; exact ih _ _ _ _ hs
  | skip n k ih =>
    simp only [Reading.run, Reading.meaning, copyingReader]
    by_cases hn : p + n ≤ input.length
    · obtain ⟨h1, h2⟩ := hs.skip_ok hn; rw [if_pos hn, h1]; exact ih _ _ _ _ h2
    · rw [if_neg hn, hs.skip_no hn]; exact ih _ _ _ _ hs
  | borrow n k ih => exact ih _ _ _ _ hs
  | borrowR n k ih =>
    simp only [Reading.run, Reading.meaning, copyingReader, Offers.copying, if_true]
    by_cases hn : p + n ≤ input.length
    · obtain ⟨h1, h2⟩ := hs.borrow_ok hn; rw [if_pos hn, h1]; exact ih _ _ _ _ h2
    · rw [if_neg hn, hs.borrow_no hn]; exact ih _ _ _ _ hs
  | borrowEof k ih => exact ih _ _ _ _ hs

theorem BufSt.init_at {h : Host} {base : Nat} {buf : Bytes} (hb : base + buf.length ≤ h.usizeMax) :
    (BufSt.init base buf).Stands h base buf 0 :=
  ⟨BufSt.init_inv hb, rfl, rfl, rfl⟩

theorem BufSt.Stands.length {h : Host} {base : Nat} {input : Bytes} {p : Nat} {s : BufSt} (hs : s.Stands h base input p) :
    wsub h s.ptr base = p := by
  have := hs.ptr_eq; have := hs.inv.hi; have := hs.inv.fits
  rw [wsub_eq (by omega) (by omega)]; omega

/-- **C72**, slices: whatever a hand-written `read_from` does, and whatever `minimum_bytes_needed` says, the functions
`read_from_buffer…` return what the program means by the list of bytes, and the position it has reached; this is not beyond
the end.  If the buffer is shorter than the promised minimum, the error says so and the program is not run. -/
theorem C72_slice {γ α : Type} {h : Host} (min : Nat) (p : Reading γ (Except Err α)) (c : γ) {base : Nat} {buf : Bytes}
    (hb : base + buf.length ≤ h.usizeMax) :
    let m := p.meaning .slice base buf c 0
    (min ≤ buf.length → p.readBuffer h min c base buf = ((m.1, m.2.2), m.2.1) ∧ m.2.2 ≤ buf.length) ∧
    (buf.length < min → p.readBuffer h min c base buf = ((.error (.inputBufferIsTooSmall buf.length min), 0), c)) := by
  intro m
  refine ⟨fun hm => ⟨?_, (p.meaning_le .slice base buf c 0 (Nat.zero_le _)).2⟩, fun hm => by rw [Reading.readBuffer, if_pos hm]⟩
  obtain ⟨s', h1, h2⟩ := run_buffer_meaning p c 0 _ (BufSt.init_at (h := h) hb)
  rw [Reading.readBuffer, if_neg (by omega), h1]
  simp only [h2.length, m]

/-- **C72**, slices with copying: the same, but nothing is lent out. -/
theorem C72_copying {γ α : Type} {h : Host} (min : Nat) (p : Reading γ (Except Err α)) (c : γ) {base : Nat} {buf : Bytes}
    (hb : base + buf.length ≤ h.usizeMax) :
    let m := p.meaning .copying base buf c 0
    (min ≤ buf.length → p.readCopying h min c base buf = ((m.1, m.2.2), m.2.1) ∧ m.2.2 ≤ buf.length) ∧
    (buf.length < min → p.readCopying h min c base buf = ((.error (.inputBufferIsTooSmall buf.length min), 0), c)) := by
  intro m
  refine ⟨fun hm => ⟨?_, (p.meaning_le .copying base buf c 0 (Nat.zero_le _)).2⟩, fun hm => by rw [Reading.readCopying, if_pos hm]⟩
  obtain ⟨s', h1, h2⟩ := run_copying_meaning p c 0 _ (BufSt.init_at (h := h) hb)
  rw [Reading.readCopying, if_neg (by omega), h1]
  simp only [h2.length, m]

/-! ## Streams -/

/-- The same result, or two errors which say that the input has ended. -/
def EndAlike {α : Type} (a b : Except Err α) : Prop :=
  a = b ∨ ∃ e e', a = .error e ∧ b = .error e' ∧ e.isEof = true ∧ e'.isEof = true

/-- Two programs which do not use the reader and have the same effect. -/
inductive Reading.Closing {γ α : Type} : Reading γ (Except Err α) → Reading γ (Except Err α) → Prop where
  | done {a b : Except Err α} : EndAlike a b → Closing (.done a) (.done b)
  | look {k l : γ → Reading γ (Except Err α)} : (∀ c, Closing (k c) (l c)) → Closing (.look k) (.look l)
  | change {f : γ → γ} {k l : Reading γ (Except Err α)} : Closing k l → Closing (.change f k) (.change f l)

/-- The program leaves the reader alone once a call of `read_bytes` or `skip_bytes` has failed (it may still use the context and choose
its result), does not care which end-of-input error it got, and knows that streams offer nothing.  After a failed `peek_bytes` it may go
on. -/
inductive Reading.Quits {γ α : Type} : Reading γ (Except Err α) → Prop where
  | done (a : Except Err α) : Quits (.done a)
  | read {n : Nat} {k : Except Err Bytes → Reading γ (Except Err α)} : (∀ bs, bs.length = n → Quits (k (.ok bs))) →
      (∀ e, e.isEof = true → Closing (k (.error .unexpectedEndOfInput)) (k (.error e))) → Quits (.read n k)
  | peek {n : Nat} {k : Except Err Bytes → Reading γ (Except Err α)} : (∀ bs, bs.length = n → Quits (k (.ok bs))) →
      (∀ e, e.isEof = true → k (.error e) = k (.error .unexpectedEndOfInput)) → Quits (k (.error .unexpectedEndOfInput)) →
      Quits (.peek n k)
  | skip {n : Nat} {k : Except Err Unit → Reading γ (Except Err α)} : Quits (k (.ok ())) →
      (∀ e, e.isEof = true → Closing (k (.error .unexpectedEndOfInput)) (k (.error e))) → Quits (.skip n k)
  | ask {n : Nat} {k : Option Bool → Reading γ (Except Err α)} : Quits (k none) → Quits (.ask n k)
  | borrow {n : Nat} {k : Option (Except Err (Nat × Bytes)) → Reading γ (Except Err α)} : Quits (k none) → Quits (.borrow n k)
  | borrowR {n : Nat} {k : Option (Except Err (Nat × Bytes)) → Reading γ (Except Err α)} : Quits (k none) → Quits (.borrowR n k)
  | borrowEof {k : Option (Nat × Bytes) → Reading γ (Except Err α)} : Quits (k none) → Quits (.borrowEof k)
  | look {k : γ → Reading γ (Except Err α)} : (∀ c, Quits (k c)) → Quits (.look k)
  | change {f : γ → γ} {k : Reading γ (Except Err α)} : Quits k → Quits (.change f k)

theorem Reading.Closing.run {γ α σ : Type} {R : ReaderOps σ} {q r : Reading γ (Except Err α)} (hq : q.Closing r) (o : Offers) (base : Nat)
    (input : Bytes) (c : γ) (p : Nat) (s : σ) :
    let m := q.meaning o base input c p
    let x := r.run R c s
    EndAlike m.1 x.1 ∧ x.2.1 = m.2.1 ∧ x.2.2 = s := by
  induction hq generalizing c with
  | done h => exact ⟨h, rfl, rfl⟩
  | look _ ih => exact ih _ _
  | change _ ih => exact ih _

/-- With a stream: does a call of `read_bytes` or `skip_bytes` fail because the input is too short? -/
def Reading.meetsEnd {γ α : Type} (input : Bytes) : Reading γ α → γ → Nat → Bool
  | .done _, _, _ => false
  | .read n k, c, p => if p + n ≤ input.length then (k (.ok ((input.drop p).take n))).meetsEnd input c (p + n) else true
  | .peek n k, c, p =>
    if p + n ≤ input.length then (k (.ok ((input.drop p).take n))).meetsEnd input c p
    else (k (.error .unexpectedEndOfInput)).meetsEnd input c p
  | .skip n k, c, p => if p + n ≤ input.length then (k (.ok ())).meetsEnd input c (p + n) else true
  | .ask _ k, c, p => (k none).meetsEnd input c p
  | .borrow _ k, c, p => (k none).meetsEnd input c p
  | .borrowR _ k, c, p => (k none).meetsEnd input c p
  | .borrowEof k, c, p => (k none).meetsEnd input c p
  | .look k, c, p => (k c).meetsEnd input c p
  | .change f k, c, p => k.meetsEnd input (f c) p

theorem run_stream_meaning {γ α : Type} {grow : Nat → Nat} (hg : ∀ n, n ≤ grow n) {base : Nat} {input : Bytes}
    {q : Reading γ (Except Err α)} (hq : q.Quits) (c : γ) (p : Nat) (s : StreamSt) (hp : p ≤ input.length) (hi : s.Inv)
    (hs : s.pend = input.drop p) :
    let m := q.meaning .stream base input c p
    let x := q.run (streamReader grow) c s
    EndAlike m.1 x.1 ∧ x.2.1 = m.2.1 ∧ (q.meetsEnd input c p = false → x.1 = m.1 ∧ x.2.2.pend = input.drop m.2.2) := by
  have L := streamReader_lawful (grow := grow) hg
  have hlen : s.pend.length = input.length - p := by rw [hs, List.length_drop]
  induction hq generalizing c p s with
  | done a => exact ⟨.inl rfl, rfl, fun _ => ⟨rfl, hs⟩⟩
  | look _ ih => exact ih _ _ _ _ hp hi hs hlen
  | change _ ih => exact ih _ _ _ hp hi hs hlen
  | ask _ ih => exact ih _ _ _ hp hi hs hlen
  | borrow _ ih => exact ih _ _ _ hp hi hs hlen
  | borrowR _ ih => exact ih _ _ _ hp hi hs hlen
  | borrowEof _ ih => exact ih _ _ _ hp hi hs hlen
  | @read n k _ hc ih =>
    simp only [Reading.run, Reading.meaning, Reading.meetsEnd]
    by_cases hn : p + n ≤ input.length
    · obtain ⟨s', h1, h2, h3⟩ := L.read_ok n s hi (by omega)
      rw [if_pos hn, if_pos hn, h1, hs]
      have h3' : s'.pend = input.drop (p + n) := by rw [h3, hs, List.drop_drop]
      exact ih _ (by simp; omega) _ _ _ hn h2 h3' (by rw [h3', List.length_drop])
    · obtain ⟨e, s', h1, h2, _⟩ := L.read_err n s hi (by omega)
      rw [if_neg hn, if_neg hn, h1]
      obtain ⟨a, b, _⟩ := (hc e h2).run (R := streamReader grow) .stream base input c p s'
      exact ⟨a, b, fun h => by simp at h⟩
  | @peek n k _ he _ ih ih' =>
    simp only [Reading.run, Reading.meaning, Reading.meetsEnd]
    by_cases hn : p + n ≤ input.length
    · obtain ⟨s', h1, h2, h3⟩ := L.peek_ok n s hi (by omega)
      rw [if_pos hn, if_pos hn, h1, hs]
      exact ih _ (by simp; omega) _ _ _ hp h2 (h3.trans hs) (by rw [h3, hlen])
    · obtain ⟨e, s', h1, h2, h3, h4⟩ := L.peek_err n s hi (by omega)
      rw [if_neg hn, if_neg hn, h1]
      simp only [he e h2]
      exact ih' _ _ _ hp h3 (h4.trans hs) (by rw [h4, hlen])
  | @skip n k _ hc ih =>
    simp only [Reading.run, Reading.meaning, Reading.meetsEnd]
    by_cases hn : p + n ≤ input.length
    · obtain ⟨s', h1, h2, h3⟩ := L.skip_ok n s hi (by omega)
      rw [if_pos hn, if_pos hn, h1]
      have h3' : s'.pend = input.drop (p + n) := by rw [h3, hs, List.drop_drop]
      exact ih _ _ _ hn h2 h3' (by rw [h3', List.length_drop])
    · obtain ⟨e, s', h1, h2, _⟩ := L.skip_err n s hi (by omega)
      rw [if_neg hn, if_neg hn, h1]
      obtain ⟨a, b, _⟩ := (hc e h2).run (R := streamReader grow) .stream base input c p s'
      exact ⟨a, b, fun h => by simp at h⟩

/-- **C72**, streams, unbuffered and buffered, however the input is split up: a hand-written `read_from` which leaves the reader alone
once reading or skipping has failed has the result it means by the list of bytes (for an error at the end of the input: some error
which says so) and changes the context in the same way.  If no call met the end of the input, the bytes which are left are
those after the position reached. -/
theorem C72_stream {γ α : Type} {grow : Nat → Nat} (hg : ∀ n, n ≤ grow n) (buffering : Bool) {p : Reading γ (Except Err α)}
    (hp : p.Quits) (c : γ) (base : Nat) {src : Src} (hc : src.Clean) :
    let m := p.meaning .stream base src.data c 0
    let x := p.readStream grow buffering c src
    EndAlike m.1 x.1 ∧ x.2.1 = m.2.1 ∧ (p.meetsEnd src.data c 0 = false → x.1 = m.1 ∧ x.2.2.pend = src.data.drop m.2.2) :=
  run_stream_meaning hg hp c 0 _ (Nat.zero_le _) (StreamSt.init_inv hc) (by rw [StreamSt.init_pend]; rfl)

/-! ## Calls of speedy's functions -/

/-- What one of speedy's functions means: its result and the position afterwards. -/
theorem Reading.meaning_call {γ α β : Type} (o : Offers) (base : Nat) (input : Bytes) (q : Prog β) (k : β → Reading γ α) (c : γ) (p : Nat) :
    (Reading.call q k).meaning o base input c p =
      (let m := (Reading.call (γ := γ) q .done).meaning o base input c p
       (k m.1).meaning o base input c m.2.2) := by
  induction q generalizing p with
  | ret b => rfl
  | read n q ih => simp only [Reading.call, Reading.meaning]; split <;> exact ih _ _
  | peek n q ih => simp only [Reading.call, Reading.meaning]; split <;> exact ih _ _
  | skip n q ih => simp only [Reading.call, Reading.meaning]; split <;> exact ih _ _
  | canRead n q ih => exact ih _ _
  | borrow n q ih =>
    simp only [Reading.call, Reading.meaning]
    split
    · split <;> exact ih _ _
    · exact ih _ _
  | borrowR n q ih =>
    simp only [Reading.call, Reading.meaning]
    split
    · split <;> exact ih _ _
    · exact ih _ _
  | borrowEof q ih => simp only [Reading.call, Reading.meaning]; split <;> exact ih _ _
  | alloc n m q ih => exact ih _

/-- **C72**, numbers: `read_u8` … `read_u128` in a hand-written program, with every reader: the next `n` bytes in the byte order which
the context has at this moment, or an error at the end of the input, where nothing is consumed. -/
theorem C72_number {γ α : Type} (h : Host) (en : γ → Endian) (n : Nat) (k : Except Err Nat → Reading γ α) (o : Offers) (base : Nat)
    (input : Bytes) (c : γ) (p : Nat) :
    (Reading.num h en n k).meaning o base input c p =
      if p + n ≤ input.length then (k (.ok ((en c).num ((input.drop p).take n)))).meaning o base input c (p + n)
      else (k (.error .unexpectedEndOfInput)).meaning o base input c p := by
  by_cases hn : p + n ≤ input.length
  · have hv : (if (en c).conv h then swapBytes n (h.native.num ((input.drop p).take n)) else h.native.num ((input.drop p).take n))
        = (en c).num ((input.drop p).take n) := by
      have hl : ((input.drop p).take n).length = n := by simp; omega
      have := swapBytes_num h.native ((input.drop p).take n)
      rw [hl] at this
      cases hc : en c <;> cases hh : h.native <;> simp_all [Endian.conv, Endian.num]
    have ha : ¬ (if o.knows = true then some (decide (p + n ≤ input.length)) else none) = some false := by split <;> simp [hn]
    simp only [Reading.num, Reading.meaning, readNum, Reading.call, if_neg ha, if_pos hn, M.pure, hv]
  · by_cases ho : o.knows = true <;>
      simp only [Reading.num, Reading.meaning, readNum, Reading.call, ho, if_true, if_false, hn, decide_false, M.fail, reduceCtorEq]

/-! ## Agreement -/

/-- The program uses only what every reader has: no `can_read_at_least`, and nothing is borrowed, unless within functions which mean the
same with all readers (such as those which read numbers: `readNum_settled`). -/
inductive Reading.Modest {γ α : Type} : Reading γ α → Prop where
  | done (a : α) : Modest (.done a)
  | read {n : Nat} {k : Except Err Bytes → Reading γ α} : (∀ r, Modest (k r)) → Modest (.read n k)
  | peek {n : Nat} {k : Except Err Bytes → Reading γ α} : (∀ r, Modest (k r)) → Modest (.peek n k)
  | skip {n : Nat} {k : Except Err Unit → Reading γ α} : (∀ r, Modest (k r)) → Modest (.skip n k)
  | call {β : Type} {q : Prog β} {k : β → Reading γ α} : (∀ o base input c p, (Reading.call (γ := γ) q .done).meaning o base input c p =
      (Reading.call q .done).meaning .slice 0 input c p) → (∀ b, Modest (k b)) → Modest (.call q k)
  | look {k : γ → Reading γ α} : (∀ c, Modest (k c)) → Modest (.look k)
  | change {f : γ → γ} {k : Reading γ α} : Modest k → Modest (.change f k)

theorem readNum_settled {γ : Type} (h : Host) (e : Endian) (n : Nat) (o : Offers) (base : Nat) (input : Bytes) (c : γ) (p : Nat) :
    (Reading.call (γ := γ) (readNum h e n) .done).meaning o base input c p =
      (Reading.call (readNum h e n) .done).meaning .slice 0 input c p := by
  have := C72_number h (fun _ : γ => e) n .done o base input c p
  have := C72_number h (fun _ : γ => e) n .done .slice 0 input c p
  simp_all [Reading.num, Reading.meaning]

theorem Reading.Modest.num {γ α : Type} (h : Host) (en : γ → Endian) (n : Nat) {k : Except Err Nat → Reading γ α}
    (hk : ∀ r, (k r).Modest) : (Reading.num h en n k).Modest :=
  .look fun _ => .call (readNum_settled h _ n) hk

theorem Reading.Quits.num {γ α : Type} (h : Host) (en : γ → Endian) (n : Nat) {k : Except Err Nat → Reading γ (Except Err α)}
    (hk : ∀ v, (k (.ok v)).Quits) (he : ∀ e, e.isEof = true → (k (.error .unexpectedEndOfInput)).Closing (k (.error e))) :
    (Reading.num h en n k).Quits := by
  refine .look fun c => .ask ?_
  exact .read (fun bs _ => hk _) he

theorem Reading.Modest.same {γ α : Type} {q : Reading γ α} (hq : q.Modest) (o o' : Offers) (base base' : Nat) (input : Bytes) (c : γ)
    (p : Nat) : q.meaning o base input c p = q.meaning o' base' input c p := by
  induction hq generalizing c p with
  | done a => rfl
  | read _ ih => simp only [Reading.meaning, ih]
  | peek _ ih => simp only [Reading.meaning, ih]
  | skip _ ih => simp only [Reading.meaning, ih]
  | call hq _ ih =>
    rw [Reading.meaning_call, Reading.meaning_call o']
    simp only [hq o base, hq o' base', ih]
  | look _ ih => simp only [Reading.meaning, ih]
  | change _ ih => simp only [Reading.meaning, ih]

/-- **C72**, agreement: a program which uses only what every reader has gives the same results, lengths and contexts with both kinds of
slices, wherever they lie; if it leaves the reader alone once reading or skipping has failed, also with streams. -/
theorem C72_agree {γ α : Type} {h : Host} (min : Nat) {p : Reading γ (Except Err α)} (hm : p.Modest) (c : γ) {base base' : Nat} {buf : Bytes}
    (hb : base + buf.length ≤ h.usizeMax) (hb' : base' + buf.length ≤ h.usizeMax) :
    p.readBuffer h min c base buf = p.readCopying h min c base' buf ∧
    (p.Quits → min ≤ buf.length → ∀ (grow : Nat → Nat), (∀ n, n ≤ grow n) → ∀ (buffering : Bool) (evs : List Ev), (Src.mk buf evs).Clean →
      let b := p.readBuffer h min c base buf
      let x := p.readStream grow buffering c ⟨buf, evs⟩
      EndAlike b.1.1 x.1 ∧ x.2.1 = b.2) := by
  have h1 := C72_slice (h := h) min p c hb
  have h2 := C72_copying (h := h) min p c hb'
  by_cases hl : min ≤ buf.length
  · rw [(h1.1 hl).1, (h2.1 hl).1]
    refine ⟨by rw [hm.same .slice .copying base base'], fun hq _ grow hg buffering evs hc => ?_⟩
    have h3 := C72_stream hg buffering hq c base hc
    rw [hm.same .slice .stream base base]
    exact ⟨h3.1, h3.2.1⟩
  · rw [h1.2 (by omega), h2.2 (by omega)]
    exact ⟨rfl, fun _ hl' => absurd hl' hl⟩

/-! ## Calls of other functions -/

/-- A call of one of speedy's functions does with any reader what the function does, and goes on with its result. -/
theorem Reading.run_call {γ α β σ : Type} (R : ReaderOps σ) (q : Prog β) (k : β → Reading γ α) (c : γ) (s : σ) :
    (Reading.call q k).run R c s = (k (q.run R s).1).run R c (q.run R s).2 := by
  induction q generalizing s with
  | ret b => rfl
  | read n q ih => exact ih _ _
  | peek n q ih => exact ih _ _
  | skip n q ih => exact ih _ _
  | canRead n q ih => exact ih _ _
  | borrow n q ih => exact ih _ _
  | borrowR n q ih => exact ih _ _
  | borrowEof q ih => exact ih _ _
  | alloc _ _ q ih => exact ih _

/-- **C72**, `reader.read_value::<T>()` within a hand-written function: with every reader, the value which the reader's pending input has for
`T`'s own `read_from`, in the byte order which the context has at that moment; the context stays. -/
theorem C72_value {γ α σ : Type} (R : ReaderOps σ) (T : Target) (en : γ → Endian) (t : Ty) (k : Except Err Val → Reading γ α) (c : γ) (s : σ) :
    (Reading.value T en t k).run R c s =
      (k ((decode T (en c) t Cx.std).run R s).1).run R c ((decode T (en c) t Cx.std).run R s).2 := Reading.run_call R _ k c s

/-- A length which the context's byte order decides, then a vector in that order. -/
example :
    let p : Reading Endian (Except Err Val) := .num x64.toHost id 1 fun
      | .error er => .done (.error er)
      | .ok b => .change (fun _ => if b = 0 then .little else .big) <| .value x64 id (.prim .u16) .done
    p.readBuffer x64.toHost 1 .little 100 [1, 2, 3, 9] = ((.ok (.num 0x0203), 3), .big) ∧
    p.readBuffer x64.toHost 1 .little 100 [0, 2, 3, 9] = ((.ok (.num 0x0302), 3), .little) := ⟨rfl, rfl⟩

/-! ## Examples -/

/-- A header whose first byte chooses the byte order, then a number; if the number is missing it is 7. -/
def sampleHeader : Reading Endian (Except Err Nat) :=
  .num x64.toHost id 1 fun
    | .error er => .done (.error er)
    | .ok b => .change (fun _ => if b = 0 then .little else .big) <| .num x64.toHost id 2 fun
      | .ok v => .done (.ok v)
      | .error er => if er.isEof then .done (.ok 7) else .done (.error er)

theorem sampleHeader_quits : sampleHeader.Quits := by
  refine .num _ _ _ (fun b => .change (.num _ _ _ (fun v => .done _) fun e he => ?_)) fun e he => .done (.inr ⟨_, _, rfl, rfl, rfl, he⟩)
  simp only [he, if_true]
  exact .done (.inl rfl)

theorem sampleHeader_modest : sampleHeader.Modest := by
  refine .num _ _ _ fun b => ?_
  split
  · exact .done _
  · refine .change (.num _ _ _ fun r => ?_)
    split
    · exact .done _
    · split <;> exact .done _

/-- `C72_slice`, `C72_copying`, `C72_stream`, `C72_agree`: with all readers, complete, cut off in the number (which is not consumed), and
empty. -/
example :
    sampleHeader.meaning .slice 100 [1, 2, 3, 9] .little 0 = (.ok 0x0203, .big, 3) ∧
    sampleHeader.readBuffer x64.toHost 1 .little 100 [1, 2, 3, 9] = ((.ok 0x0203, 3), .big) ∧
    sampleHeader.readBuffer x64.toHost 1 .little 100 [0, 2, 3, 9] = ((.ok 0x0302, 3), .little) ∧
    sampleHeader.readCopying x64.toHost 1 .little 100 [1, 2] = ((.ok 7, 1), .big) ∧
    sampleHeader.readCopying x64.toHost 1 .little 100 [] = ((.error (.inputBufferIsTooSmall 0 1), 0), .little) ∧
    (sampleHeader.readStream id false .little ⟨[1, 2, 3, 9], [.give 1, .give 1]⟩).1 = .ok 0x0203 ∧
    (sampleHeader.readStream id false .little ⟨[1, 2, 3, 9], [.give 1, .give 1]⟩).2.2.pend = [9] ∧
    (sampleHeader.readStream id true .little ⟨[1, 2], [.give 1]⟩).1 = .ok 7 ∧
    sampleHeader.meetsEnd [1, 2, 3, 9] .little 0 = false ∧ sampleHeader.meetsEnd [1, 2] .little 0 = true := by decide +kernel

example : EndAlike (sampleHeader.readBuffer x64.toHost 0 .little 100 []).1.1 (sampleHeader.readStream id true .little ⟨[], []⟩).1 :=
  ((C72_agree (h := x64.toHost) 0 sampleHeader_modest .little (base := 100) (base' := 7) (buf := []) (by decide) (by decide)).2
    sampleHeader_quits (by decide) id (fun _ => Nat.le_refl _) true [] (by simp [Src.Clean])).1

/-- Borrowing, and what to do if the reader does not lend: a reference is lent from the address at which the bytes lie. -/
def sampleBorrow : Reading Endian (Except Err (Nat × Bytes)) :=
  .skip 1 fun _ => .ask 3 fun r => if r = some false then .done (.ok (0, [])) else .borrow 2 fun
    | some r => .done r
    | none => .read 2 fun r => .done (r.map fun bs => (0, bs))

example :
    sampleBorrow.readBuffer x64.toHost 0 .little 100 [1, 2, 3, 9] = ((.ok (101, [2, 3]), 3), .little) ∧
    sampleBorrow.readCopying x64.toHost 0 .little 100 [1, 2, 3, 9] = ((.ok (0, [2, 3]), 3), .little) ∧
    sampleBorrow.readBuffer x64.toHost 0 .little 100 [1, 2, 3] = ((.ok (0, []), 1), .little) ∧
    (sampleBorrow.readStream id false .little ⟨[1, 2, 3], []⟩).1 = .ok (0, [2, 3]) :=
  ⟨rfl, rfl, rfl, rfl⟩

/-! ## What does not hold -/

/-- Tries to read four bytes and, should there be fewer, one. -/
def sampleGoesOn : Reading Endian (Except Err Bytes) :=
  .read 4 fun
    | .ok bs => .done (.ok bs)
    | .error _ => .read 1 .done

/-- **C72 is false** for programs which go on after a failed read and an unbuffered stream, where the bytes which were there are lost
(`Read::read_exact`): slices and the buffered reader return a byte, the unbuffered one fails.  The program uses only what every
reader has. -/
theorem C72_false_goes_on :
    sampleGoesOn.Modest ∧
    sampleGoesOn.meaning .stream 100 [1, 2] .little 0 = (.ok [1], .little, 1) ∧
    (sampleGoesOn.readBuffer x64.toHost 0 .little 100 [1, 2]).1 = (.ok [1], 1) ∧
    (sampleGoesOn.readStream id true .little ⟨[1, 2], []⟩).1 = .ok [1] ∧
    (sampleGoesOn.readStream id false .little ⟨[1, 2], []⟩).1 = .error (.io .unexpectedEof) := by
  refine ⟨.read fun r => ?_, by decide +kernel⟩
  split
  · exact .done _
  · exact .read fun _ => .done _

/-! ## Cases -/

section Cases
open Samples

example : sampleHeader.readBuffer x64.toHost 1 .little 100 [1, 2, 3, 9] = ((.ok 0x0203, 3), .big) :=
  ((C72_slice 1 sampleHeader .little (base := 100) (buf := [1, 2, 3, 9]) (by decide)).1 (by decide)).1.trans (by decide)

/-- Fewer bytes than the type needs. -/
example : sampleHeader.readCopying x64.toHost 1 .little 100 [] = ((.error (.inputBufferIsTooSmall 0 1), 0), .little) :=
  (C72_copying 1 sampleHeader .little (base := 100) (buf := []) (by decide)).2 (by decide)

example : (sampleHeader.readStream id false .little ⟨[1, 2, 3, 9], [.give 1, .give 1]⟩).1 = .ok 0x0203 :=
  ((C72_stream (grow := id) (fun _ => Nat.le_refl _) false sampleHeader_quits .little 100 (src := ⟨[1, 2, 3, 9], [.give 1, .give 1]⟩)
    (by simp [Src.Clean])).2.2 (by decide)).1.trans (by decide)

example : ((Reading.num x64.toHost id 2 .done : Reading Endian (Except Err Nat)).meaning .slice 100 [1, 2, 3] .big 1) = (.ok 0x0203, .big, 3) :=
  (C72_number _ _ _ _ _ _ _ _ _).trans (by decide)

/-- A vector within it. -/
example : ((Reading.value x64 id (.seq .vec (.prim .u16)) .done : Reading Endian (Except Err Val)).run (bufferReader x64.toHost) .big
    (BufSt.init 100 [0, 0, 0, 1, 1, 2])).1 = .ok (.list [.num 258]) :=
  (congrArg Prod.fst (C72_value _ _ _ _ _ _ _)).trans (by decide)

end Cases

end Verif
