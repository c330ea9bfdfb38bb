import Verif.Strict
import Verif.Connect
import Verif.Samples

/-!
# Readers: C14, C15, C30, C35, C36, C48
-/

namespace Verif

/-! ## C14: the circular buffer is a queue -/

/-- What the stream reader does with its buffer.
* `append size accept` — `try_append_with(size + 1, callback)`, where the callback
  offered a slice of `n` bytes stores `accept n` in it (as much as fits) or fails;
* `reserve n`;
* `take n` — `consume_into` a slice of `n` bytes, or of all there are if less;
* `look` — `as_slices`;
* `peek n` — `as_slices_of_length(n)`, or of all there are if less;
* `extend d` — `extend_from_slice`. -/
inductive QOp where
  | append (size : Nat) (accept : Nat → Option Bytes)
  | reserve (n : Nat)
  | take (n : Nat)
  | look
  | peek (n : Nat)
  | extend (d : Bytes)

/-- What is observed: the size of the slice offered and the bytes stored
(`none` if the callback failed); nothing; bytes. -/
inductive QOut where
  | stored (offered : Nat) (d : Option Bytes)
  | done
  | bytes (d : Bytes)
  deriving DecidableEq

/-- An operation on the circular buffer (the functions of
src/circular_buffer.rs). -/
def CBuf.step (grow : Nat → Nat) (c : CBuf) : QOp → Except Panic (QOut × CBuf)
  | .append size accept =>
    match c.tryAppendWith (σ := Nat) (ε := Unit) grow (size + 1)
      (fun n _ => match accept n with
        | none => (.error (), n)
        | some d => (.ok (d.take n), n)) 0 with
    | .error p => .error p
    | .ok (.error (), c, n) => .ok (.stored n none, c)
    | .ok (.ok _, c, n) => .ok (.stored n ((accept n).map (·.take n)), c)
  | .reserve n => match c.reserve grow n with
    | .error p => .error p
    | .ok c => .ok (.done, c)
  | .take n => match c.consumeInto (min c.length n) with
    | .error p => .error p
    | .ok (out, c) => .ok (.bytes out, c)
  | .look => match c.asSlices with
    | .error p => .error p
    | .ok (a, b) => .ok (.bytes (a ++ b.getD []), c)
  | .peek n => match c.asSlicesOfLength (min c.length n) with
    | .error p => .error p
    | .ok (a, b) => match copyOut (min c.length n) a b with
      | .error p => .error p
      | .ok d => .ok (.bytes d, c)
  | .extend d => match c.extendFromSlice grow d with
    | .error p => .error p
    | .ok c => .ok (.done, c)

/-- A history of operations. -/
def CBuf.steps (grow : Nat → Nat) (c : CBuf) : List QOp → Except Panic (List QOut × CBuf)
  | [] => .ok ([], c)
  | op :: ops => match c.step grow op with
    | .error p => .error p
    | .ok (out, c) => match c.steps grow ops with
      | .error p => .error p
      | .ok (outs, c) => .ok (out :: outs, c)

/-- The specification: a queue of bytes `q`. -/
inductive QStep : Bytes → QOp → QOut → Bytes → Prop where
  | append {q size accept n d} : 0 < n → n ≤ size + 1 → accept n = some d →
      QStep q (.append size accept) (.stored n (some (d.take n))) (q ++ d.take n)
  | fail {q size accept n} : 0 < n → n ≤ size + 1 → accept n = none →
      QStep q (.append size accept) (.stored n none) q
  | reserve {q n} : QStep q (.reserve n) .done q
  | take {q n} : QStep q (.take n) (.bytes (q.take n)) (q.drop n)
  | look {q} : QStep q .look (.bytes q) q
  | peek {q n} : QStep q (.peek n) (.bytes (q.take n)) q
  | extend {q d} : QStep q (.extend d) .done (q ++ d)

/-- Histories of the specification. -/
inductive QRun : Bytes → List QOp → List QOut → Bytes → Prop where
  | nil {q} : QRun q [] [] q
  | cons {q op out q' ops outs q''} : QStep q op out q' → QRun q' ops outs q'' →
      QRun q (op :: ops) (out :: outs) q''

theorem CBuf.step_ok {grow : Nat → Nat} (hg : ∀ n, n ≤ grow n) {c : CBuf} (hc : c.Inv) (op : QOp) :
    ∃ out c', c.step grow op = .ok (out, c') ∧ c'.Inv ∧ QStep c.content op out c'.content := by
  have hmin : ∀ n, c.content.take (min c.length n) = c.content.take n := fun n => by
    rw [Nat.min_comm, ← List.take_take, List.take_of_length_le (l := c.content) (by simp)]
  cases op with
  | append size accept =>
    obtain ⟨n, h1, h2, h3⟩ := CBuf.tryAppendWith_ok hg hc (size := size + 1) (by omega)
      (fun n (_ : Nat) => match accept n with
        | none => ((.error () : Except Unit Bytes), n)
        | some d => (.ok (d.take n), n))
      (by
        intro n s d s' h
        cases ha : accept n with
        | none => simp [ha] at h
        | some d' =>
          simp only [ha, Prod.mk.injEq, Except.ok.injEq] at h
          rw [← h.1]; simp; omega) 0
    simp only [CBuf.step]
    cases ha : accept n with
    | none =>
      simp only [ha] at h3
      obtain ⟨c', g1, g2, g3, _⟩ := h3
      simp only [g1]
      exact ⟨_, c', rfl, g2, g3 ▸ .fail h1 h2 ha⟩
    | some d =>
      simp only [ha] at h3
      obtain ⟨c', g1, g2, g3, _⟩ := h3
      simp only [g1, ha]
      exact ⟨_, c', rfl, g2, g3 ▸ .append h1 h2 ha⟩
  | reserve n =>
    obtain ⟨c', h1, h2, h3, _⟩ := CBuf.reserve_ok hg hc n
    simp only [CBuf.step, h1]
    exact ⟨_, c', rfl, h2, h3 ▸ .reserve⟩
  | take n =>
    obtain ⟨c', h1, h2, h3, _⟩ := CBuf.consumeInto_ok hc (Nat.min_le_left c.length n)
    simp only [CBuf.step, h1]
    refine ⟨_, c', rfl, h2, ?_⟩
    have hd : c.content.drop (min c.length n) = c.content.drop n := by
      rcases Nat.le_total c.length n with h | h
      · rw [Nat.min_eq_left h, List.drop_of_length_le (by simp), List.drop_of_length_le (by simpa using h)]
      · rw [Nat.min_eq_right h]
    rw [h3, hmin, hd]
    exact .take
  | look =>
    obtain ⟨a, b, h1, h2, _⟩ := CBuf.asSlices_ok hc
    simp only [CBuf.step, h1, h2]
    exact ⟨_, c, rfl, hc, .look⟩
  | peek n =>
    obtain ⟨a, b, h1, h2⟩ := CBuf.asSlicesOfLength_ok hc (Nat.min_le_left c.length n)
    simp only [CBuf.step, h1, h2]
    exact ⟨_, c, rfl, hc, by rw [hmin]; exact .peek⟩
  | extend d =>
    obtain ⟨c', h1, h2, h3⟩ := CBuf.extendFromSlice_ok hg hc d
    simp only [CBuf.step, h1]
    exact ⟨_, c', rfl, h2, h3 ▸ .extend⟩

/-- **C14**: for every history of operations on a new circular buffer of any
capacity, with any growth policy, nothing panics and every operation observes
what it would with a queue; in particular room of at least one byte is offered
by every append. -/
theorem C14_circular_buffer_is_a_queue {grow : Nat → Nat} (hg : ∀ n, n ≤ grow n) (capacity : Nat) (ops : List QOp) :
    ∃ outs c, (CBuf.withCapacity capacity).steps grow ops = .ok (outs, c) ∧ QRun [] ops outs c.content := by
  suffices H : ∀ c : CBuf, c.Inv → ∃ outs c', c.steps grow ops = .ok (outs, c') ∧ c'.Inv ∧
      QRun c.content ops outs c'.content by
    obtain ⟨outs, c, h1, _, h2⟩ := H _ (CBuf.withCapacity_inv capacity)
    rw [CBuf.withCapacity_content] at h2
    exact ⟨outs, c, h1, h2⟩
  induction ops with
  | nil => exact fun c hc => ⟨[], c, rfl, hc, .nil⟩
  | cons op ops ih =>
    intro c hc
    obtain ⟨out, c1, h1, h2, h3⟩ := CBuf.step_ok hg hc op
    obtain ⟨outs, c2, g1, g2, g3⟩ := ih c1 h2
    exact ⟨out :: outs, c2, by simp [CBuf.steps, h1, g1], g2, .cons h3 g3⟩

/-- The bytes put into a queue in a history. -/
def stored : List QOp → List QOut → Bytes
  | .append _ _ :: ops, .stored _ (some d) :: outs => d ++ stored ops outs
  | .extend d :: ops, _ :: outs => d ++ stored ops outs
  | _ :: ops, _ :: outs => stored ops outs
  | _, _ => []

/-- The bytes taken out of a queue in a history. -/
def taken : List QOp → List QOut → Bytes
  | .take _ :: ops, .bytes d :: outs => d ++ taken ops outs
  | _ :: ops, _ :: outs => taken ops outs
  | _, _ => []

/-- **C14**, first in first out: after any history the bytes stored are, in order, the
ones taken out followed by the ones still there. -/
theorem C14_first_in_first_out {grow : Nat → Nat} (hg : ∀ n, n ≤ grow n) (capacity : Nat) (ops : List QOp) :
    ∃ outs c, (CBuf.withCapacity capacity).steps grow ops = .ok (outs, c) ∧
      stored ops outs = taken ops outs ++ c.content := by
  obtain ⟨outs, c, h1, h2⟩ := C14_circular_buffer_is_a_queue hg capacity ops
  refine ⟨outs, c, h1, ?_⟩
  suffices H : ∀ q q', QRun q ops outs q' → q ++ stored ops outs = taken ops outs ++ q' by
    simpa using H _ _ h2
  intro q q' h
  clear h1 h2
  induction h with
  | nil => simp [stored, taken]
  | cons hs _ ih =>
    cases hs with
    | append _ _ _ => simp only [stored, taken, ← List.append_assoc]; exact ih
    | fail _ _ _ => exact ih
    | reserve => exact ih
    | take =>
      simp only [stored, taken, List.append_assoc]
      rw [← ih, ← List.append_assoc, List.take_append_drop]
    | look => exact ih
    | peek => exact ih
    | extend => simp only [stored, taken, ← List.append_assoc]; exact ih

/-- The queue at work: a buffer of capacity 4 whose contents wrap around and which has to
grow. -/
example : ((CBuf.withCapacity 4).steps id
      [.append 3 (fun _ => some [1, 2, 3]), .take 2, .append 2 (fun _ => some [4, 5, 6]), .append 1 (fun _ => some [5]),
        .look, .append 3 (fun _ => none), .append 1 (fun _ => some [6, 7, 8]), .peek 3, .take 9,
        .extend [9, 10, 11], .take 2, .extend [12, 13, 14], .look]).map (·.1) =
      .ok [.stored 4 (some [1, 2, 3]), .bytes [1, 2], .stored 1 (some [4]), .stored 2 (some [5]), .bytes [3, 4, 5],
        .stored 4 none, .stored 2 (some [6, 7]), .bytes [3, 4, 5], .bytes [3, 4, 5, 6, 7],
        .done, .bytes [9, 10], .done, .bytes [11, 12, 13, 14]] := by
  decide

/-! ## C30: memory accesses of the buffer readers -/

/-- A reader keeps an invariant which all its operations keep. -/
theorem run_inv {α σ : Type} {R : ReaderOps σ} {I : σ → Prop}
    (hread : ∀ n s, I s → I (R.read n s).2) (hpeek : ∀ n s, I s → I (R.peek n s).2)
    (hskip : ∀ n s, I s → I (R.skip n s).2) (hborrow : ∀ n s, I s → I (R.borrow n s).2)
    (hborrowR : ∀ n s, I s → I (R.borrowR n s).2) (heof : ∀ s, I s → I (R.borrowEof s).2)
    (p : Prog α) (s : σ) (hs : I s) : I (p.run R s).2 := by
  induction p generalizing s with
  | ret a => exact hs
  | read n k ih => exact ih _ _ (hread n s hs)
  | peek n k ih => exact ih _ _ (hpeek n s hs)
  | skip n k ih => exact ih _ _ (hskip n s hs)
  | canRead n k ih => exact ih _ _ hs
  | borrow n k ih => exact ih _ _ (hborrow n s hs)
  | borrowR n k ih => exact ih _ _ (hborrowR n s hs)
  | borrowEof k ih => exact ih _ _ (heof s hs)
  | alloc n m k ih => exact ih _ hs

/-- Every lawful reader keeps its invariant under every program. -/
theorem Lawful.run_inv {α σ : Type} {R : ReaderOps σ} {Inv : σ → Prop} {pend : σ → Bytes}
    (L : Lawful R Inv pend) (p : Prog α) (s : σ) (hs : Inv s) : Inv (p.run R s).2 := by
  refine Verif.run_inv ?_ ?_ ?_ ?_ ?_ ?_ p s hs
  · intro n s hs
    by_cases h : n ≤ (pend s).length
    · obtain ⟨s', h1, h2, _⟩ := L.read_ok n s hs h; rw [h1]; exact h2
    · obtain ⟨e, s', h1, _, h2, _⟩ := L.read_err n s hs (by omega); rw [h1]; exact h2
  · intro n s hs
    by_cases h : n ≤ (pend s).length
    · obtain ⟨s', h1, h2, _⟩ := L.peek_ok n s hs h; rw [h1]; exact h2
    · obtain ⟨e, s', h1, _, h2, _⟩ := L.peek_err n s hs (by omega); rw [h1]; exact h2
  · intro n s hs
    by_cases h : n ≤ (pend s).length
    · obtain ⟨s', h1, h2, _⟩ := L.skip_ok n s hs h; rw [h1]; exact h2
    · obtain ⟨e, s', h1, _, h2, _⟩ := L.skip_err n s hs (by omega); rw [h1]; exact h2
  · intro n s hs
    rcases L.borrow n s hs with h | ⟨_, a, s', h1, h2, _⟩ | ⟨_, e, s', h1, _, h2, _⟩
    · rw [h]; exact hs
    · rw [h1]; exact h2
    · rw [h1]; exact h2
  · intro n s hs
    rcases L.borrowR n s hs with h | ⟨_, a, s', h1, h2, _⟩ | ⟨_, e, s', h1, _, h2, _⟩
    · rw [h]; exact hs
    · rw [h1]; exact h2
    · rw [h1]; exact h2
  · intro s hs
    rcases L.borrowEof s hs with h | ⟨a, s', h1, h2, _⟩
    · rw [h]; exact hs
    · rw [h1]; exact h2

/-- **C30**, `BufferReader`: whatever program is run, whatever lengths it asks for,
all accesses to memory (recorded in `trace` as address and length) lie inside
the input buffer.  The only assumption is that the buffer lies in the address
space, as every Rust slice does. -/
theorem C30_buffer_accesses_inside {α : Type} (h : Host) (base : Nat) (buf : Bytes)
    (hm : base + buf.length ≤ h.usizeMax) (p : Prog α) :
    ∀ a ∈ (p.run (bufferReader h) (BufSt.init base buf)).2.trace, base ≤ a.1 ∧ a.1 + a.2 ≤ base + buf.length := by
  have hinv := (bufferReader_at h base buf).run_inv p _ (BufAt.init hm)
  intro a ha
  have := hinv.1.trace_ok a ha
  rwa [hinv.2.1, hinv.2.2] at this

/-- **C30**, `CopyingBufferReader`. -/
theorem C30_copying_accesses_inside {α : Type} (h : Host) (base : Nat) (buf : Bytes)
    (hm : base + buf.length ≤ h.usizeMax) (p : Prog α) :
    ∀ a ∈ (p.run (copyingReader h) (BufSt.init base buf)).2.trace, base ≤ a.1 ∧ a.1 + a.2 ≤ base + buf.length := by
  have hinv := (copyingReader_at h base buf).run_inv p _ (BufAt.init hm)
  intro a ha
  have := hinv.1.trace_ok a ha
  rwa [hinv.2.1, hinv.2.2] at this

/-- A program with a huge length, at the end of the address space: it touches
the two bytes it reads at first, then nothing. -/
example : let p : M Bytes := .read 2 fun _ => .read (2 ^ 64 - 1) .ret
    (p.run (bufferReader Host.x64) (BufSt.init (2 ^ 64 - 4) [1, 2, 3])).2.trace = [(2 ^ 64 - 4, 2)] ∧
    (p.run (bufferReader Host.x64) (BufSt.init (2 ^ 64 - 4) [1, 2, 3])).1 = .error .unexpectedEndOfInput := by
  decide

/-! ## C35: errors -/

/-- **C35**, `is_eof`: true exactly for the errors of the readers and of the in-memory writer
which ran out of bytes, and for io errors of this kind. -/
theorem C35_is_eof_partial (e : Err) :
    e.isEof = true ↔ e = .unexpectedEndOfInput ∨ e = .unexpectedEndOfOutputBuffer ∨ e = .io .unexpectedEof := by
  cases e <;> simp [Err.isEof]

/-- **C35**, conversion to `std::io::Error`: an io error stays what it is, an end-of-input error
becomes `UnexpectedEof`, any other `InvalidData`. -/
theorem C35_conversion (e : Err) :
    (∀ k, e = .io k → e.toIo = .same k) ∧
    ((∀ k, e ≠ .io k) → e.toIo = if e.isEof then .unexpectedEof else .invalidData) := by
  cases e <;> simp [Err.toIo]

/-- The full statement of **C35** is false: a buffer which is shorter than the minimal length of the
type runs out of input, and the error says so, but `is_eof()` is false for it. -/
theorem C35_false : ∃ e, readFromBuffer Samples.x64 .little (.prim .u32) 0 [1, 2, 3] = .error e ∧
    e = .inputBufferIsTooSmall 3 4 ∧ e.isEof = false ∧ e.toIo = .invalidData :=
  ⟨_, by decide, rfl, rfl, rfl⟩

example : (Err.io .unexpectedEof).isEof = true ∧ (Err.io .interrupted).isEof = false ∧
    Err.unexpectedEndOfInput.toIo = .unexpectedEof ∧ Err.invalidUtf8.toIo = .invalidData ∧
    (Err.io .interrupted).toIo = .same .interrupted := by decide

/-! ## C36: skipping -/

/-- **C36** for every lawful reader: `skip_bytes(n)` succeeds exactly if
reading `n` bytes does, and then the bytes to come are the same in both
cases. -/
theorem C36_skip {σ : Type} {R : ReaderOps σ} {Inv : σ → Prop} {pend : σ → Bytes} (L : Lawful R Inv pend)
    (n : Nat) (s : σ) (hs : Inv s) :
    ((R.skip n s).1 = .ok () ↔ ∃ bs, (R.read n s).1 = .ok bs) ∧
    ((R.skip n s).1 = .ok () → pend (R.skip n s).2 = pend (R.read n s).2 ∧
      pend (R.skip n s).2 = (pend s).drop n ∧ Inv (R.skip n s).2) := by
  by_cases h : n ≤ (pend s).length
  · obtain ⟨s1, h1, h2, h3⟩ := L.skip_ok n s hs h
    obtain ⟨s2, g1, g2, g3⟩ := L.read_ok n s hs h
    rw [h1, g1]
    exact ⟨by simp, fun _ => ⟨by rw [h3, g3], h3, h2⟩⟩
  · obtain ⟨e, s1, h1, _⟩ := L.skip_err n s hs (by omega)
    obtain ⟨e', s2, g1, _⟩ := L.read_err n s hs (by omega)
    rw [h1, g1]
    exact ⟨by simp, by simp⟩

/-- **C36** for the three readers of the crate. -/
theorem C36_skip_readers (h : Host) {grow : Nat → Nat} (hg : ∀ n, n ≤ grow n) :
    (∀ n s, BufSt.Inv h s → (((bufferReader h).skip n s).1 = .ok () ↔ ∃ bs, ((bufferReader h).read n s).1 = .ok bs) ∧
      (((bufferReader h).skip n s).1 = .ok () →
        ((bufferReader h).skip n s).2.ptr = ((bufferReader h).read n s).2.ptr)) ∧
    (∀ n s, BufSt.Inv h s → (((copyingReader h).skip n s).1 = .ok () ↔ ∃ bs, ((copyingReader h).read n s).1 = .ok bs) ∧
      (((copyingReader h).skip n s).1 = .ok () →
        ((copyingReader h).skip n s).2.ptr = ((copyingReader h).read n s).2.ptr)) ∧
    (∀ n s, StreamSt.Inv s →
      (((streamReader grow).skip n s).1 = .ok () ↔ ∃ bs, ((streamReader grow).read n s).1 = .ok bs) ∧
      (((streamReader grow).skip n s).1 = .ok () →
        ((streamReader grow).skip n s).2.pend = ((streamReader grow).read n s).2.pend)) := by
  have hbuf : ∀ n s, (bufSkip h n s).1 = .ok () → (bufSkip h n s).2.ptr = (bufRead h n s).2.ptr := by
    intro n s
    unfold bufSkip bufRead
    split <;> simp
  refine ⟨fun n s hs => ⟨(C36_skip (bufferReader_lawful h) n s hs).1, hbuf n s⟩,
    fun n s hs => ⟨(C36_skip (copyingReader_lawful h) n s hs).1, hbuf n s⟩, fun n s hs => ?_⟩
  have := C36_skip (streamReader_lawful hg) n s hs
  exact ⟨this.1, fun h => (this.2 h).1⟩

/-- Skipping all but one of the bytes of an unbuffered stream which gives them one by one. -/
example : ((streamReader id).skip 4 (StreamSt.init false ⟨[1, 2, 3, 4, 5], [.give 1, .give 1, .give 2]⟩)).1 = .ok () ∧
    ((streamReader id).skip 4 (StreamSt.init false ⟨[1, 2, 3, 4, 5], [.give 1, .give 1, .give 2]⟩)).2.pend = [5] := by
  decide

/-! ## C48: buffering loses nothing -/

/-- The calls of a program which move in the input, with their results. -/
inductive Call where
  | read (n : Nat) (r : Except Err Bytes)
  | peek (n : Nat) (r : Except Err Bytes)
  | skip (n : Nat) (r : Except Err Unit)

/-- The calls a program makes on a reader. -/
def Prog.calls {α σ : Type} (R : ReaderOps σ) : Prog α → σ → List Call
  | .ret _, _ => []
  | .read n k, s => .read n (R.read n s).1 :: (k (R.read n s).1).calls R (R.read n s).2
  | .peek n k, s => .peek n (R.peek n s).1 :: (k (R.peek n s).1).calls R (R.peek n s).2
  | .skip n k, s => .skip n (R.skip n s).1 :: (k (R.skip n s).1).calls R (R.skip n s).2
  | .canRead n k, s => (k (R.canRead n s)).calls R s
  | .borrow n k, s => (k (R.borrow n s).1).calls R (R.borrow n s).2
  | .borrowR n k, s => (k (R.borrowR n s).1).calls R (R.borrowR n s).2
  | .borrowEof k, s => (k (R.borrowEof s).1).calls R (R.borrowEof s).2
  | .alloc _ _ k, s => k.calls R s

/-- The calls are the ones of a reader going through the bytes `d`, which
afterwards has `rest` to deliver: every successful read hands out the next
bytes, every successful peek shows them, and only a failing read or skip may lose bytes.
`lossy` tells if that happened. -/
inductive Explains (lossy : Bool) : Bytes → List Call → Bytes → Prop where
  | nil {d} : Explains lossy d [] d
  | read {d n cs r} : n ≤ d.length → Explains lossy (d.drop n) cs r →
      Explains lossy d (.read n (.ok (d.take n)) :: cs) r
  | peek {d n cs r} : n ≤ d.length → Explains lossy d cs r → Explains lossy d (.peek n (.ok (d.take n)) :: cs) r
  | skip {d n cs r} : n ≤ d.length → Explains lossy (d.drop n) cs r → Explains lossy d (.skip n (.ok ()) :: cs) r
  | peekErr {d n e cs r} : Explains lossy d cs r → Explains lossy d (.peek n (.error e) :: cs) r
  | readErr {d n e cs r} (k : Nat) : lossy = true → Explains lossy (d.drop k) cs r →
      Explains lossy d (.read n (.error e) :: cs) r
  | skipErr {d n e cs r} (k : Nat) : lossy = true → Explains lossy (d.drop k) cs r →
      Explains lossy d (.skip n (.error e) :: cs) r

/-- No read and no skip failed. -/
def allTaken : List Call → Bool
  | [] => true
  | .read _ (.error _) :: _ => false
  | .skip _ (.error _) :: _ => false
  | _ :: cs => allTaken cs

/-- The number of bytes handed out or skipped. -/
def movedBy : List Call → Nat
  | [] => 0
  | .read n (.ok _) :: cs => n + movedBy cs
  | .skip n (.ok _) :: cs => n + movedBy cs
  | _ :: cs => movedBy cs

theorem explains_any {α : Type} {grow : Nat → Nat} (hg : ∀ n, n ≤ grow n) (p : Prog α) (s : StreamSt)
    (hs : s.buf.Inv) :
    Explains true s.pend (p.calls (streamReader grow) s) (p.run (streamReader grow) s).2.pend ∧
    (p.run (streamReader grow) s).2.buf.Inv := by
  induction p generalizing s with
  | ret a => exact ⟨.nil, hs⟩
  | read n k ih =>
    simp only [Prog.run, Prog.calls]
    rcases streamRead_any hg n s hs with ⟨s1, h1, h2, h3, h4, _⟩ | ⟨e, s1, k', h1, h2, h3, _⟩
    · simp only [show (streamReader grow).read n s = _ from h1]
      have := ih (.ok (s.pend.take n)) s1 h3
      rw [h4] at this
      exact ⟨.read h2 this.1, this.2⟩
    · simp only [show (streamReader grow).read n s = _ from h1]
      have := ih (.error e) s1 h2
      rw [h3] at this
      exact ⟨.readErr k' rfl this.1, this.2⟩
  | peek n k ih =>
    simp only [Prog.run, Prog.calls]
    rcases streamPeek_any hg n s hs with ⟨s1, h1, h2, h3, h4, _⟩ | ⟨e, s1, h1, h2, h3, _⟩
    · simp only [show (streamReader grow).peek n s = _ from h1]
      have := ih (.ok (s.pend.take n)) s1 h3
      rw [h4] at this
      exact ⟨.peek h2 this.1, this.2⟩
    · simp only [show (streamReader grow).peek n s = _ from h1]
      have := ih (.error e) s1 h2
      rw [h3] at this
      exact ⟨.peekErr this.1, this.2⟩
  | skip n k ih =>
    simp only [Prog.run, Prog.calls]
    rcases skipLoop_any hg (n + 1) n s hs (by omega) with ⟨s1, h1, h2, h3, h4, _⟩ | ⟨e, s1, k', h1, h2, h3, _⟩
    · simp only [show (streamReader grow).skip n s = _ from h1]
      have := ih (.ok ()) s1 h3
      rw [h4] at this
      exact ⟨.skip h2 this.1, this.2⟩
    · simp only [show (streamReader grow).skip n s = _ from h1]
      have := ih (.error e) s1 h2
      rw [h3] at this
      exact ⟨.skipErr k' rfl this.1, this.2⟩
  | canRead n k ih => exact ih _ s hs
  | borrow n k ih => exact ih _ s hs
  | borrowR n k ih => exact ih _ s hs
  | borrowEof k ih => exact ih _ s hs
  | alloc n m k ih => exact ih s hs

theorem Explains.exact {d : Bytes} {cs : List Call} {r : Bytes} (h : Explains true d cs r) (ha : allTaken cs = true) :
    Explains false d cs r ∧ r = d.drop (movedBy cs) ∧ movedBy cs ≤ d.length := by
  induction h with
  | nil => exact ⟨.nil, rfl, Nat.zero_le _⟩
  | read hn _ ih =>
    obtain ⟨h1, h2, h3⟩ := ih ha
    rw [List.length_drop] at h3
    exact ⟨.read hn h1, by rw [h2, List.drop_drop]; rfl, by simp only [movedBy]; omega⟩
  | peek hn _ ih => obtain ⟨h1, h2, h3⟩ := ih ha; exact ⟨.peek hn h1, h2, h3⟩
  | skip hn _ ih =>
    obtain ⟨h1, h2, h3⟩ := ih ha
    rw [List.length_drop] at h3
    exact ⟨.skip hn h1, by rw [h2, List.drop_drop]; rfl, by simp only [movedBy]; omega⟩
  | peekErr _ ih => obtain ⟨h1, h2, h3⟩ := ih ha; exact ⟨.peekErr h1, h2, h3⟩
  | readErr => cases ha
  | skipErr => cases ha

/-- **C48**, as long as no read or skip has failed: whatever program runs on a
stream reader and whatever the stream does (pieces of any size, failures, interruptions,
spurious ends of file), each successful read hands out the next bytes of the
stream in order, and the bytes handed out (or skipped) so far followed by the internally
buffered ones are exactly the bytes taken from the stream so far.

Missing: the moments after a failing read (`C48_false`). -/
theorem C48_no_loss_partial {α : Type} {grow : Nat → Nat} (hg : ∀ n, n ≤ grow n) (buffering : Bool) (src : Src)
    (p : Prog α) (ha : allTaken (p.calls (streamReader grow) (StreamSt.init buffering src)) = true) :
    let cs := p.calls (streamReader grow) (StreamSt.init buffering src)
    let s' := (p.run (streamReader grow) (StreamSt.init buffering src)).2
    Explains false src.data cs (s'.buf.content ++ s'.src.data) ∧
    src.data = src.data.take (movedBy cs) ++ s'.buf.content ++ s'.src.data := by
  intro cs s'
  have h := (explains_any hg p (StreamSt.init buffering src) (CBuf.withCapacity_inv _)).1
  rw [StreamSt.init_pend] at h
  obtain ⟨h1, h2, h3⟩ := h.exact ha
  refine ⟨h1, ?_⟩
  have h2' : s'.buf.content ++ s'.src.data = src.data.drop (movedBy cs) := h2
  rw [List.append_assoc, h2', List.take_append_drop]

/-- **C48**, at all moments: bytes never come out of order or twice; a failing
read or skip may drop bytes. -/
theorem C48_in_order {α : Type} {grow : Nat → Nat} (hg : ∀ n, n ≤ grow n) (buffering : Bool) (src : Src) (p : Prog α) :
    Explains true src.data (p.calls (streamReader grow) (StreamSt.init buffering src))
      (p.run (streamReader grow) (StreamSt.init buffering src)).2.pend := by
  have h := (explains_any hg p (StreamSt.init buffering src) (CBuf.withCapacity_inv _)).1
  rwa [StreamSt.init_pend] at h

/-- The full statement of **C48** is false: `read_exact` of three bytes from a stream which fails
after giving one loses that byte; the next read gets the second byte. -/
theorem C48_false : ((Prog.read 3 fun _ => .read 1 .ret : M Bytes).run (streamReader id)
    (StreamSt.init false ⟨[1, 2, 3], [.give 1, .fault (.other 5)]⟩)).1 = .ok [2] := by decide

/-- A program continuing after a failing peek, on a stream failing in between. -/
example : let p : M Bytes := .read 1 fun _ => .peek 2 fun _ => .peek 2 fun _ => .read 2 .ret
    let s := StreamSt.init false ⟨[1, 2, 3], [.give 1, .give 1, .fault (.other 5)]⟩
    allTaken (p.calls (streamReader id) s) = true ∧ (p.run (streamReader id) s).1 = .ok [2, 3] := by decide

/-! ## C15: peeking -/

/-- **C15**: on every lawful reader in every state, `peek_X` succeeds exactly if `read_X` does, then
with the same result, and the bytes to come are not changed by it, nor what a read
returns. `n` is the size of the number. -/
theorem C15_peek_shows_read {σ : Type} {R : ReaderOps σ} {Inv : σ → Prop} {pend : σ → Bytes} (L : Lawful R Inv pend)
    (h : Host) (e : Endian) (n : Nat) (s : σ) (hs : Inv s) :
    let peeked := (peekNum h e n).run R s
    (∀ v, peeked.1 = .ok v ↔ ((readNum h e n).run R s).1 = .ok v) ∧
    (∀ v, peeked.1 = .ok v ↔ ((readNum h e n).run R peeked.2).1 = .ok v) ∧
    Inv peeked.2 ∧ pend peeked.2 = pend s := by
  intro peeked
  have hread : ∀ s, Inv s → ∀ v, ((readNum h e n).run R s).1 = .ok v ↔
      n ≤ (pend s).length ∧ v = (if e.conv h then swapBytes n (h.native.num ((pend s).take n))
        else h.native.num ((pend s).take n)) := by
    intro s hs v
    simp only [readNum, Prog.run]
    by_cases hn : n ≤ (pend s).length
    · have : R.canRead n s ≠ some false := by
        rcases L.canRead n s hs with hc | hc <;> rw [hc] <;> simp [hn]
      obtain ⟨s', h1, _⟩ := L.read_ok n s hs hn
      simp only [this, if_false, Prog.run, h1, M.pure]
      constructor
      · intro hv; exact ⟨hn, (Except.ok.inj hv).symm⟩
      · intro hv; rw [hv.2]
    · rcases L.canRead n s hs with hc | hc
      · obtain ⟨er, s', h1, _⟩ := L.read_err n s hs (by omega)
        simp [hc, Prog.run, h1, M.fail, hn]
      · simp [hc, hn, Prog.run, M.fail]
  have hpeek : (∀ v, peeked.1 = .ok v ↔ n ≤ (pend s).length ∧
      v = (if e.conv h then swapBytes n (h.native.num ((pend s).take n)) else h.native.num ((pend s).take n))) ∧
      Inv peeked.2 ∧ pend peeked.2 = pend s := by
    simp only [peeked, peekNum, Prog.run]
    by_cases hn : n ≤ (pend s).length
    · have : R.canRead n s ≠ some false := by
        rcases L.canRead n s hs with hc | hc <;> rw [hc] <;> simp [hn]
      obtain ⟨s', h1, h2, h3⟩ := L.peek_ok n s hs hn
      simp only [this, if_false, Prog.run, h1, M.pure]
      refine ⟨fun v => ⟨fun hv => ⟨hn, (Except.ok.inj hv).symm⟩, fun hv => by rw [hv.2]⟩, h2, h3⟩
    · rcases L.canRead n s hs with hc | hc
      · obtain ⟨er, s', h1, _, h2, h3⟩ := L.peek_err n s hs (by omega)
        simp only [hc, reduceCtorEq, if_false, Prog.run, h1, M.fail]
        exact ⟨by simp [hn], h2, h3⟩
      · rw [if_pos (by rw [hc]; simp [hn])]
        exact ⟨by simp [Prog.run, M.fail, hn], hs, rfl⟩
  refine ⟨fun v => ?_, fun v => ?_, hpeek.2⟩
  · rw [hpeek.1, hread s hs]
  · rw [hpeek.1, hread _ hpeek.2.1, hpeek.2.2]

/-- Two readers whose operations agree, on related states, agree on all programs. -/
theorem run_sim {α σ σ' : Type} {R : ReaderOps σ} {R' : ReaderOps σ'} {Rel : σ → σ' → Prop}
    (hread : ∀ n s s', Rel s s' → (R.read n s).1 = (R'.read n s').1 ∧ Rel (R.read n s).2 (R'.read n s').2)
    (hpeek : ∀ n s s', Rel s s' → (R.peek n s).1 = (R'.peek n s').1 ∧ Rel (R.peek n s).2 (R'.peek n s').2)
    (hskip : ∀ n s s', Rel s s' → (R.skip n s).1 = (R'.skip n s').1 ∧ Rel (R.skip n s).2 (R'.skip n s').2)
    (hcan : ∀ n s s', Rel s s' → R.canRead n s = R'.canRead n s')
    (hborrow : ∀ n s s', Rel s s' → (R.borrow n s).1 = (R'.borrow n s').1 ∧ Rel (R.borrow n s).2 (R'.borrow n s').2)
    (hborrowR : ∀ n s s', Rel s s' →
      (R.borrowR n s).1 = (R'.borrowR n s').1 ∧ Rel (R.borrowR n s).2 (R'.borrowR n s').2)
    (heof : ∀ s s', Rel s s' → (R.borrowEof s).1 = (R'.borrowEof s').1 ∧ Rel (R.borrowEof s).2 (R'.borrowEof s').2)
    (p : Prog α) (s : σ) (s' : σ') (hs : Rel s s') :
    (p.run R s).1 = (p.run R' s').1 ∧ Rel (p.run R s).2 (p.run R' s').2 := by
  induction p generalizing s s' with
  | ret a => exact ⟨rfl, hs⟩
  | read n k ih => simp only [Prog.run]; rw [(hread n s s' hs).1]; exact ih _ _ _ (hread n s s' hs).2
  | peek n k ih => simp only [Prog.run]; rw [(hpeek n s s' hs).1]; exact ih _ _ _ (hpeek n s s' hs).2
  | skip n k ih => simp only [Prog.run]; rw [(hskip n s s' hs).1]; exact ih _ _ _ (hskip n s s' hs).2
  | canRead n k ih => simp only [Prog.run]; rw [hcan n s s' hs]; exact ih _ _ _ hs
  | borrow n k ih => simp only [Prog.run]; rw [(hborrow n s s' hs).1]; exact ih _ _ _ (hborrow n s s' hs).2
  | borrowR n k ih => simp only [Prog.run]; rw [(hborrowR n s s' hs).1]; exact ih _ _ _ (hborrowR n s s' hs).2
  | borrowEof k ih => simp only [Prog.run]; rw [(heof s s' hs).1]; exact ih _ _ _ (heof s s' hs).2
  | alloc n m k ih => exact ih _ _ hs

/-- The same position in the same buffer. -/
def BufSt.Same (s s' : BufSt) : Prop :=
  s.base = s'.base ∧ s.buf = s'.buf ∧ s.ptr = s'.ptr ∧ s.stop = s'.stop

theorem bufCan_same (h : Host) (n : Nat) (s s' : BufSt) (hs : s.Same s') : bufCanRead h n s = bufCanRead h n s' := by
  unfold bufCanRead; rw [hs.2.2.1, hs.2.2.2]

theorem load_same (s s' : BufSt) (hs : s.Same s') (n : Nat) : s.load s.ptr n = s'.load s'.ptr n := by
  unfold BufSt.load; rw [hs.1, hs.2.1, hs.2.2.1]

theorem bufRead_same (h : Host) (n : Nat) (s s' : BufSt) (hs : s.Same s') :
    (bufRead h n s).1 = (bufRead h n s').1 ∧ (bufRead h n s).2.Same (bufRead h n s').2 := by
  unfold bufRead
  rw [bufCan_same h n s s' hs, load_same s s' hs n]
  split
  · exact ⟨rfl, hs⟩
  · exact ⟨rfl, hs.1, hs.2.1, congrArg (· + n) hs.2.2.1, hs.2.2.2⟩

theorem bufPeek_same (h : Host) (n : Nat) (s s' : BufSt) (hs : s.Same s') :
    (bufPeek h n s).1 = (bufPeek h n s').1 ∧ (bufPeek h n s).2.Same (bufPeek h n s').2 := by
  unfold bufPeek
  rw [bufCan_same h n s s' hs, load_same s s' hs n]
  split
  · exact ⟨rfl, hs⟩
  · exact ⟨rfl, hs⟩

theorem bufSkip_same (h : Host) (n : Nat) (s s' : BufSt) (hs : s.Same s') :
    (bufSkip h n s).1 = (bufSkip h n s').1 ∧ (bufSkip h n s).2.Same (bufSkip h n s').2 := by
  unfold bufSkip
  rw [bufCan_same h n s s' hs]
  split
  · exact ⟨rfl, hs⟩
  · exact ⟨rfl, hs.1, hs.2.1, congrArg (· + n) hs.2.2.1, hs.2.2.2⟩

theorem bufBorrow_same (h : Host) (n : Nat) (s s' : BufSt) (hs : s.Same s') :
    (bufBorrow h n s).1 = (bufBorrow h n s').1 ∧ (bufBorrow h n s).2.Same (bufBorrow h n s').2 := by
  unfold bufBorrow
  rw [bufCan_same h n s s' hs, load_same s s' hs n]
  split
  · exact ⟨rfl, hs⟩
  · exact ⟨by rw [hs.2.2.1], hs.1, hs.2.1, congrArg (· + n) hs.2.2.1, hs.2.2.2⟩

theorem bufEof_same (h : Host) (s s' : BufSt) (hs : s.Same s') :
    (bufBorrowEof h s).1 = (bufBorrowEof h s').1 ∧ (bufBorrowEof h s).2.Same (bufBorrowEof h s').2 := by
  unfold bufBorrowEof
  simp only
  rw [load_same s s' hs, hs.2.2.1, hs.2.2.2]
  exact ⟨rfl, hs.1, hs.2.1, rfl, rfl⟩

/-- **C15**, later reads, on the readers of buffers: after a peek every program does exactly
what it would have done without it. -/
theorem C15_peek_invisible_buffer {α : Type} (h : Host) (n : Nat) (p : Prog α) (s : BufSt) :
    (p.run (bufferReader h) ((bufferReader h).peek n s).2).1 = (p.run (bufferReader h) s).1 ∧
    (p.run (copyingReader h) ((copyingReader h).peek n s).2).1 = (p.run (copyingReader h) s).1 := by
  have key := fun (s s' : BufSt) (hs : BufSt.Same s s') => And.intro
    (run_sim (R := bufferReader h) (R' := bufferReader h) (bufRead_same h) (bufPeek_same h) (bufSkip_same h) (bufCan_same h)
      (bufBorrow_same h) (bufBorrow_same h) (bufEof_same h) p s s' hs).1
    (run_sim (R := copyingReader h) (R' := copyingReader h) (bufRead_same h) (bufPeek_same h) (bufSkip_same h) (bufCan_same h)
      (fun _ _ _ hs => ⟨rfl, hs⟩) (bufBorrow_same h) (fun _ _ hs => ⟨rfl, hs⟩) p s s' hs).1
  have hk : ∀ s : BufSt, (bufPeek h n s).2.base = s.base ∧ (bufPeek h n s).2.buf = s.buf ∧
      (bufPeek h n s).2.ptr = s.ptr ∧ (bufPeek h n s).2.stop = s.stop := by
    intro s; unfold bufPeek; split <;> simp
  obtain ⟨a, b, c, d⟩ := hk s
  exact key _ _ ⟨a, b, c, d⟩

/-- **C15**, later reads, on stream readers: after a peek every program which passes errors on
(reads, peeks and skips in any adaptive order) returns the same value as it would have without it and
leaves the same bytes, or fails in both cases with the same error — or one
end-of-input error in place of another. -/
theorem C15_peek_invisible_stream {α : Type} {grow : Nat → Nat} (hg : ∀ n, n ≤ grow n) (n : Nat) {p : M α}
    (hp : Strict true p) (s : StreamSt) (hs : s.Inv) :
    let with_ := p.run (streamReader grow) ((streamReader grow).peek n s).2
    let without := p.run (streamReader grow) s
    (∃ a, with_.1 = .ok a ∧ without.1 = .ok a ∧ with_.2.pend = without.2.pend) ∨
    (∃ e e', with_.1 = .error e ∧ without.1 = .error e' ∧ e.Alike e') := by
  have L := streamReader_lawful hg
  have h : StreamSt.Inv ((streamReader grow).peek n s).2 ∧ ((streamReader grow).peek n s).2.pend = s.pend := by
    by_cases hn : n ≤ s.pend.length
    · obtain ⟨s', h1, h2, h3⟩ := L.peek_ok n s hs hn; rw [h1]; exact ⟨h2, h3⟩
    · obtain ⟨e, s', h1, _, h2, h3⟩ := L.peek_err n s hs (by omega); rw [h1]; exact ⟨h2, h3⟩
  intro with_ without
  rcases hp.run_lawful L (streamReader_plain grow) _ h.1 with ⟨a, s1, h1, h2, h3⟩ | ⟨e, e1, s1, r, h1, h2, h3, h4⟩
  · rcases hp.run_lawful L (streamReader_plain grow) s hs with ⟨a', s2, g1, g2, g3⟩ | ⟨e, e2, s2, r, g1, g2, g3, g4⟩
    · rw [h.2, g3] at h3
      simp only [Prod.mk.injEq, Except.ok.injEq] at h3
      refine .inl ⟨a, by simp only [with_, h1], by simp only [without, g1, h3.1], ?_⟩
      simp only [with_, without, h1, g1, h3.2]
    · rw [h.2, g3] at h3; simp at h3
  · rcases hp.run_lawful L (streamReader_plain grow) s hs with ⟨a', s2, g1, g2, g3⟩ | ⟨e', e2, s2, r', g1, g2, g3, g4⟩
    · rw [h.2, g3] at h3; simp at h3
    · rw [h.2, g3] at h3
      simp only [Prod.mk.injEq, Except.error.injEq] at h3
      refine .inr ⟨e1, e2, by simp only [with_, h1], by simp only [without, g1], ?_⟩
      exact h4.symm.trans (h3.1 ▸ g4)

/-- Peeking at four bytes of an unbuffered stream, then reading two and then one. -/
example : let p : M (Bytes × Bytes) := .read 2 fun
      | .error e => .ret (.error e)
      | .ok a => .read 1 fun
        | .error e => .ret (.error e)
        | .ok b => .ret (.ok (a, b))
    Strict true p ∧
    (p.run (streamReader id) ((streamReader id).peek 4 (StreamSt.init false ⟨[1, 2, 3, 4, 5], [.give 1, .give 2]⟩)).2).1 =
      .ok ([1, 2], [3]) := by
  refine ⟨?_, by decide⟩
  refine .read _ _ (fun e => rfl) (fun bs _ => ?_)
  refine .read _ _ (fun e => rfl) (fun bs _ => ?_)
  exact .ret _

/-- **C15** for varints below 128, which take one byte: on every lawful reader
`peek_u64_varint` returns what `read_u64_varint` does and leaves the bytes.
Missing: larger ones (`C15_false`). -/
theorem C15_peek_varint_partial {σ : Type} {R : ReaderOps σ} {Inv : σ → Prop} {pend : σ → Bytes} (L : Lawful R Inv pend)
    (h : Host) (e : Endian) (s : σ) (hs : Inv s) {b : UInt8} {rest : Bytes} (hp : pend s = b :: rest)
    (hb : b.toNat < 128) :
    ((peekVarint h e).run R s).1 = .ok b.toNat ∧ ((readVarint h e).run R s).1 = .ok b.toNat ∧
    pend ((peekVarint h e).run R s).2 = b :: rest ∧ pend ((readVarint h e).run R s).2 = rest := by
  have h1 := refines_peekVarint L (B := (pend s).length) h e s hs (Nat.le_refl _)
  have h2 := refines_readVarint L (B := (pend s).length) h e s hs (Nat.le_refl _)
  have hl : leadingOnes b.toNat = 0 := by unfold leadingOnes; rw [if_pos hb]
  have e1 : pPeekVarint (pend s) = .ok b.toNat (b :: rest) := by
    simp [hp, pPeekVarint, P.bind, P.map, pPeek, hd, hl, specVarintVal, ofLe, P.pure]
  have e2 : pVarint (pend s) = .ok b.toNat rest := by
    simp [hp, pVarint, P.bind, P.map, pTake, hd, hl, specVarintVal, ofLe, P.pure]
  rw [e1] at h1
  rw [e2] at h2
  exact ⟨h1.1, h2.1, h1.2.2.1, h2.2.2.1⟩

example : ((peekVarint Host.be64 .big).run (streamReader id) (StreamSt.init true ⟨[100, 5], []⟩)).1 = .ok 100 := by
  exact (C15_peek_varint_partial (streamReader_lawful (grow := id) (fun _ => Nat.le_refl _)) Host.be64 .big _
    (StreamSt.init_inv (by simp [Src.Clean])) (b := 100) (rest := [5]) (StreamSt.init_pend _ _) (by decide)).1

/-- The full statement of **C15** is false for `peek_u64_varint`: it includes the first byte
in the rest.  The varint 129 is read as 129 and peeked as 128. -/
theorem C15_false :
    ((peekVarint Host.x64 .little).run (bufferReader Host.x64) (BufSt.init 0 [0x80, 0x81])).1 = .ok 128 ∧
    ((readVarint Host.x64 .little).run (bufferReader Host.x64) (BufSt.init 0 [0x80, 0x81])).1 = .ok 129 := by decide

/-! ## Cases -/

section Cases
open Samples

/-- Capacity 4, contents which wrap around. -/
example := C14_circular_buffer_is_a_queue (grow := id) (fun _ => Nat.le_refl _) 4
  [.extend [1, 2, 3], .take 2, .extend [4, 5], .look, .extend [6, 7, 8], .peek 3, .take 9]

example := C14_first_in_first_out (grow := id) (fun _ => Nat.le_refl _) 4
  [.extend [1, 2, 3], .take 2, .extend [4, 5], .look, .extend [6, 7, 8], .peek 3, .take 9]

example : (Prog.run (bufferReader Host.x64) (.read 2 .ret : M Bytes)
    ((bufferReader Host.x64).peek 3 (BufSt.init 4096 [1, 2, 3, 4])).2).1 = .ok [1, 2] :=
  (C15_peek_invisible_buffer Host.x64 3 (.read 2 .ret : M Bytes) (BufSt.init 4096 [1, 2, 3, 4])).1.trans (by decide)

example := C15_peek_invisible_stream (grow := id) (fun _ => Nat.le_refl _) 4 (p := .read 2 .ret)
  (.read 2 _ (fun _ => rfl) (fun _ _ => .ret _)) (StreamSt.init false ⟨[1, 2, 3, 4, 5], [.give 1, .give 2]⟩)
  (StreamSt.init_inv (by simp [Src.Clean]))

example : ((peekNum Host.x64 .big 2).run (bufferReader Host.x64) (BufSt.init 4096 [1, 2, 3])).1 = .ok 0x0102 :=
  ((C15_peek_shows_read (bufferReader_lawful Host.x64) Host.x64 .big 2 (BufSt.init 4096 [1, 2, 3])
    (BufSt.init_inv (by decide))).1 0x0102).mpr (by decide)

example : 0x1000 ≤ 0x1000 ∧ 0x1000 + 2 ≤ 0x1000 + 3 :=
  C30_buffer_accesses_inside Host.x64 0x1000 [1, 2, 3] (by decide) (.read 2 fun _ => .read 5 .ret : M Bytes) (0x1000, 2) (by decide)

example : 0x1000 ≤ 0x1000 ∧ 0x1000 + 2 ≤ 0x1000 + 3 :=
  C30_copying_accesses_inside Host.x64 0x1000 [1, 2, 3] (by decide) (.read 2 fun _ => .read 5 .ret : M Bytes) (0x1000, 2) (by decide)

example : ((copyingReader Host.x64).skip 2 (BufSt.init 4096 [1, 2, 3])).2.pend = [3] :=
  ((C36_skip (copyingReader_lawful Host.x64) 2 (BufSt.init 4096 [1, 2, 3]) (BufSt.init_inv (by decide))).2 (by decide)).2.1

example : ((streamReader (· + 100)).skip 2 (StreamSt.init true ⟨[1, 2, 3], [.give 1]⟩)).1 = .ok () ↔
    ∃ bs, ((streamReader (· + 100)).read 2 (StreamSt.init true ⟨[1, 2, 3], [.give 1]⟩)).1 = .ok bs :=
  ((C36_skip_readers Host.x64 (grow := (· + 100)) (fun n => by omega)).2.2 2 _ (StreamSt.init_inv (by simp [Src.Clean]))).1

/-- The program from above, continuing after a failing peek. -/
example := C48_in_order (grow := id) (fun _ => Nat.le_refl _) false ⟨[1, 2, 3], [.give 1, .give 1, .fault (.other 5)]⟩
  (.read 1 fun _ => .peek 2 fun _ => .peek 2 fun _ => .read 2 .ret : M Bytes)
example := C48_no_loss_partial (grow := id) (fun _ => Nat.le_refl _) false ⟨[1, 2, 3], [.give 1, .give 1, .fault (.other 5)]⟩
  (.read 1 fun _ => .peek 2 fun _ => .peek 2 fun _ => .read 2 .ret : M Bytes) (by decide)

end Cases

end Verif
