import Verif.Uninit
import Verif.Decode
import Verif.Entry
import Verif.WriterRun
import Verif.StreamAny
import Verif.Samples

/-!
# Uninitialised memory: C60

`junk` stands for what uninitialised memory happens to contain.  Where the result of a function is the same for all `junk`, it has not
used any of it.
-/

namespace Verif

/-- `read_from_stream_unbuffered` and `read_from_stream_buffered` — src/readable.rs:538-546, with any implementation of `Read`.
Returned are the result and the state of the stream. -/
def readFromDevice {σ : Type} (T : Target) (e : Endian) (t : Ty) (grow : Nat → Nat) (D : Device σ) (buffered : Bool) (dev : σ)
    (junk : Nat → UInt8) : Except Err Val × σ :=
  let r := (decode T e t Cx.std).run (devReader D junk grow) (DevSt.init junk buffered dev)
  (r.1, r.2.dev)

section
variable {σ : Type} {D : Device σ} (hD : D.Honest) {grow : Nat → Nat} (hg : ∀ n, n ≤ grow n)
include hD hg

/-- **C60**, streams: for a stream which keeps the contract of `Read`, what is read does not depend on what uninitialised memory
contains.

Full claim: all implementations of the safe trait `Read`.  Missing: those which break its contract (`C60_false`, `C60_false_seen`). -/
theorem C60_stream_partial (T : Target) (e : Endian) (t : Ty) (buffered : Bool) (dev : σ) (junk junk' : Nat → UInt8) :
    readFromDevice T e t grow D buffered dev junk = readFromDevice T e t grow D buffered dev junk' := by
  obtain ⟨h1, h2⟩ := run_like (junk := junk) (junk' := junk') hD hg (decode T e t Cx.std) (init_like junk junk' buffered dev)
  exact Prod.ext h1 h2.dev

/-- **C60**, streams: the same for hand-written implementations of `Readable`.

Full claim and missing: as in `C60_stream_partial`. -/
theorem C60_program_partial {α : Type} (p : M α) (buffered : Bool) (dev : σ) (junk junk' : Nat → UInt8) :
    (p.run (devReader D junk grow) (DevSt.init junk buffered dev)).1 =
      (p.run (devReader D junk' grow) (DevSt.init junk' buffered dev)).1 :=
  (run_like (junk := junk) (junk' := junk') hD hg p (init_like junk junk' buffered dev)).1

end

/-! ## Vectors -/

theorem run_vec_like {h : Host} {e : Endian} (p : WProg) : ∀ {s t : BufC}, s.pos = t.pos → s.buf.length = t.buf.length →
    s.buf.take s.pos = t.buf.take t.pos →
    (p.run (bufferCollector h e) s).1 = (p.run (bufferCollector h e) t).1 ∧
    (p.run (bufferCollector h e) s).2.buf.take (p.run (bufferCollector h e) s).2.pos =
      (p.run (bufferCollector h e) t).2.buf.take (p.run (bufferCollector h e) t).2.pos := by
  have key : ∀ (bs : Bytes) {s t : BufC}, s.pos = t.pos → s.buf.length = t.buf.length → s.buf.take s.pos = t.buf.take t.pos →
      (BufC.write bs s).1 = (BufC.write bs t).1 ∧ (BufC.write bs s).2.pos = (BufC.write bs t).2.pos ∧
      (BufC.write bs s).2.buf.length = (BufC.write bs t).2.buf.length ∧
      (BufC.write bs s).2.buf.take (BufC.write bs s).2.pos = (BufC.write bs t).2.buf.take (BufC.write bs t).2.pos := by
    intro bs s t h1 h2 h3
    unfold BufC.write
    rw [← h1, ← h2]
    rw [← h1] at h3
    split
    · refine ⟨rfl, rfl, by simp [h2], ?_⟩
      simp only
      have e1 : (s.buf.take s.pos ++ bs).length = s.pos + bs.length := by simp; omega
      have e2 : (t.buf.take s.pos ++ bs).length = s.pos + bs.length := by simp; omega
      rw [List.take_left' e1, List.take_left' e2, h3]
    · exact ⟨rfl, h1, h2, by rw [← h1]; exact h3⟩
  induction p with
  | done r => intro s t h1 h2 h3; exact ⟨rfl, h3⟩
  | bytes bs k ih =>
    intro s t h1 h2 h3
    obtain ⟨g1, g2, g3, g4⟩ := key bs h1 h2 h3
    rw [run_bytes, run_bytes]
    simp only [bufferCollector, defaultOps] at *
    generalize BufC.write bs s = r at *
    generalize BufC.write bs t = r' at *
    obtain ⟨x, s1⟩ := r
    obtain ⟨y, t1⟩ := r'
    simp only at g1 g2 g3 g4
    subst g1
    cases x with
    | error er => exact ⟨rfl, g4⟩
    | ok _ => exact ih g2 g3 g4
  | num n v k ih =>
    intro s t h1 h2 h3
    obtain ⟨g1, g2, g3, g4⟩ := key (numBytes h e n v) h1 h2 h3
    rw [run_num, run_num]
    simp only [bufferCollector, defaultOps] at *
    generalize BufC.write (numBytes h e n v) s = r at *
    generalize BufC.write (numBytes h e n v) t = r' at *
    obtain ⟨x, s1⟩ := r
    obtain ⟨y, t1⟩ := r'
    simp only at g1 g2 g3 g4
    subst g1
    cases x with
    | error er => exact ⟨rfl, g4⟩
    | ok _ => exact ih g2 g3 g4
  | room n k ih =>
    intro s t h1 h2 h3
    have hc : (bufferCollector h e).canWrite n s = (bufferCollector h e).canWrite n t := by
      simp only [bufferCollector, defaultOps, BufC.canWrite, h1, h2]
    unfold WProg.run
    rw [hc]
    split
    · exact ⟨rfl, h3⟩
    · exact ih h1 h2 h3

/-- **C60**, `write_to_vec`: the vector is not initialised before it is written to, but what is returned does not depend on what is in
it.  For all types and values. -/
theorem C60_vec (T : Target) (e : Endian) (t : Ty) (v : Val) (junk junk' : Nat → UInt8) :
    writeToVec T e t v junk = writeToVec T e t v junk' := by
  unfold writeToVec
  cases bytesNeeded T t v with
  | error er => rfl
  | ok n =>
    simp only
    split
    · rfl
    · obtain ⟨h1, h2⟩ := run_vec_like (h := T.toHost) (e := e) (encode T e t Cx.std v)
        (s := ⟨(List.range n).map junk, 0⟩) (t := ⟨(List.range n).map junk', 0⟩) rfl (by simp) (by simp)
      generalize (encode T e t Cx.std v).run (bufferCollector T.toHost e) ⟨(List.range n).map junk, 0⟩ = r at *
      generalize (encode T e t Cx.std v).run (bufferCollector T.toHost e) ⟨(List.range n).map junk', 0⟩ = r' at *
      obtain ⟨x, s⟩ := r
      obtain ⟨y, s'⟩ := r'
      simp only at h1 h2
      subst h1
      cases x with
      | error er => rfl
      | ok u => simp only [h2]

/-! ## The streams of the other theorems -/

/-- The streams considered elsewhere (`Src`) as implementations of `Read`. -/
def srcDevice : Device Src where
  read sl s := match s.read sl.length with
    | (.ok d, s') => (.ok (d.take sl.length).length, d.take sl.length ++ sl.drop d.length, s')
    | (.error k, s') => (.error k, sl, s')
  readExact sl s := match s.readExact sl.length with
    | (.ok d, s') => (.ok (), d.take sl.length ++ sl.drop d.length, s')
    | (.error (.io k), s') => (.error k, sl, s')
    | (.error _, s') => (.error .unexpectedEof, sl, s')
  read_len sl s := by split <;> simp; omega
  exact_len sl s := by split <;> simp; omega

theorem srcDevice_read (sl : Bytes) (s : Src) : srcDevice.read sl s = match s.read sl.length with
    | (.ok d, s') => (.ok d.length, d ++ sl.drop d.length, s')
    | (.error k, s') => (.error k, sl, s') := by
  simp only [srcDevice]
  cases h : s.read sl.length with
  | mk r s' =>
    cases r with
    | error k => rfl
    | ok d =>
      have := Src.read_len h
      simp only [List.take_of_length_le this]


theorem readExactLoop_err : ∀ (fuel n : Nat) (acc : Bytes) (s s' : Src) (er : Err),
    Src.readExactLoop fuel n acc s = (.error er, s') → er = .diverge ∨ ∃ k, er = .io k
  | 0, _, _, _, _, _, h => by
    simp only [Src.readExactLoop, Prod.mk.injEq, Except.error.injEq] at h
    exact .inl h.1.symm
  | fuel + 1, n, acc, s, s', er, h => by
    rw [Src.readExactLoop] at h
    split at h
    · simp at h
    · split at h
      · exact readExactLoop_err fuel _ _ _ _ _ h
      · simp only [Prod.mk.injEq, Except.error.injEq] at h
        exact .inr ⟨_, h.1.symm⟩
      · split at h
        · simp only [Prod.mk.injEq, Except.error.injEq] at h
          exact .inr ⟨_, h.1.symm⟩
        · exact readExactLoop_err fuel _ _ _ _ _ h

theorem srcDevice_exact (sl : Bytes) (s : Src) :
    (∃ s', s.readExact sl.length = (.ok (s.data.take sl.length), s') ∧
      srcDevice.readExact sl s = (.ok (), s.data.take sl.length, s')) ∨
    (∃ k s', s.readExact sl.length = (.error (.io k), s') ∧ srcDevice.readExact sl s = (.error k, sl, s')) := by
  rcases Src.readExact_any sl.length s with ⟨s', h1, h2, _⟩ | ⟨er, s', k, h1, _, h3, _⟩
  · refine .inl ⟨s', h1, ?_⟩
    simp only [srcDevice, h1]
    rw [List.take_of_length_le (by simp; omega), List.drop_eq_nil_of_le (by simp; omega)]
    simp
  · have hio : ∃ k, er = .io k := by
      rcases readExactLoop_err _ _ _ _ _ _ h1 with h | h
      · rcases h3 with ⟨h3 | h3, _⟩ | ⟨k, h3, _⟩
        · rw [h] at h3; cases h3
        · exact ⟨_, h3⟩
        · exact ⟨k, h3⟩
      · exact h
    obtain ⟨k, rfl⟩ := hio
    exact .inr ⟨k, s', h1, by simp only [srcDevice, h1]⟩

/-- The hypotheses of `C60_stream_partial` can be met: these streams keep the contract. -/
theorem srcDevice_honest : srcDevice.Honest where
  read a b s h := by
    simp only [srcDevice_read, h]
    have hl := fun d s' (h' : s.read b.length = (.ok d, s')) => Src.read_len h'
    generalize s.read b.length = r at *
    obtain ⟨r, s'⟩ := r
    cases r with
    | error k => simp
    | ok d =>
      have := hl d s' rfl
      simp
      omega
  exact a b s h := by
    rcases srcDevice_exact a s with ⟨s', h1, h2⟩ | ⟨k, s', h1, h2⟩ <;>
      rcases srcDevice_exact b s with ⟨s'', g1, g2⟩ | ⟨k', s'', g1, g2⟩ <;>
      rw [h, g1] at h1 <;> simp only [Prod.mk.injEq, reduceCtorEq, false_and, Except.error.injEq, Err.io.injEq] at h1
    · obtain ⟨_, rfl⟩ := h1
      simp [h2, g2, h]
    · obtain ⟨rfl, rfl⟩ := h1
      simp [h2, g2]

/-- A state of `StreamReader` in both models. -/
structure SameSt (d : DevSt Src) (s : StreamSt) : Prop where
  dev : d.dev = s.src
  buf : d.buf = s.buf
  buffering : d.buffering = s.buffering


theorem overwrite_same {bs sl : Bytes} {r : Rng} (h : sliceOf bs r = .ok sl) : overwrite bs r.start sl = bs := by
  unfold sliceOf at h
  split at h <;> simp only [Except.ok.injEq, reduceCtorEq] at h
  rename_i hr
  subst h
  unfold overwrite
  have : (List.take r.len (List.drop r.start bs)).length = r.len := by simp [Rng.len]; omega
  rw [this, ← List.drop_drop, List.append_assoc, List.take_append_drop, List.take_append_drop]

theorem overwrite_part {bs sl d : Bytes} {r : Rng} (h : sliceOf bs r = .ok sl) (hd : d.length ≤ sl.length) :
    overwrite bs r.start (d ++ sl.drop d.length) = overwrite bs r.start d := by
  unfold sliceOf at h
  split at h <;> simp only [Except.ok.injEq, reduceCtorEq] at h
  rename_i hr
  have hl : sl.length = r.len := by rw [← h]; simp [Rng.len]; omega
  unfold overwrite
  have e1 : (d ++ sl.drop d.length).length = r.len := by simp; omega
  rw [e1]
  simp only [List.append_assoc]
  congr 2
  rw [← h, ← List.drop_drop, ← List.drop_drop, ← List.drop_append_of_le_length (by rw [h]; exact hd), List.take_append_drop]

theorem reserve_same (grow : Nat → Nat) (c : CBuf) (size used : Nat) :
    c.reserveOn (fresh (fun _ => 0) used) grow size = c.reserve grow size := by
  have : ∀ n, fresh (fun _ => 0) used n = List.replicate n 0 := by
    intro n
    simp [fresh, List.map_const']
  unfold CBuf.reserveOn CBuf.reserve
  simp only [this]
  rfl

theorem append_same {grow : Nat → Nat} (d : DevSt Src) (s : StreamSt) (h : SameSt d s) (size : Nat) :
    (∃ p, d.append srcDevice (fun _ => 0) grow size = .error p ∧ s.buf.tryAppendWith grow size Src.read s.src = .error p) ∨
    ∃ r d' buf src, d.append srcDevice (fun _ => 0) grow size = .ok (r, d') ∧
      s.buf.tryAppendWith grow size Src.read s.src = .ok (r, buf, src) ∧ SameSt d' { s with buf := buf, src := src } := by
  unfold DevSt.append CBuf.tryAppendWith
  rw [reserve_same, h.buf, h.dev]
  cases s.buf.reserve grow size with
  | error p => exact .inl ⟨p, rfl, rfl⟩
  | ok c =>
    simp only [bind, Except.bind]
    generalize emptyRange c.position c.length c.capacity size = rg
    cases hsl : sliceOf c.buffer rg.1 with
    | error p => exact .inl ⟨p, rfl, rfl⟩
    | ok sl =>
      have hl : sl.length = rg.1.len := by
        unfold sliceOf at hsl
        split at hsl <;> simp only [Except.ok.injEq, reduceCtorEq] at hsl
        rw [← hsl]; simp [Rng.len]; omega
      simp only [srcDevice_read, hl]
      cases hr : s.src.read rg.1.len with
      | mk r src =>
        cases r with
        | error k => exact .inr ⟨_, _, _, _, rfl, rfl, rfl, by simp only [overwrite_same hsl], h.buffering⟩
        | ok dd =>
          have := Src.read_len hr
          exact .inr ⟨_, _, _, _, rfl, rfl, rfl, by simp only [overwrite_part hsl (show dd.length ≤ sl.length by omega)], h.buffering⟩

/-- The same result, and the same state. -/
def SameRes {α : Type} (r : α × DevSt Src) (r' : α × StreamSt) : Prop := r.1 = r'.1 ∧ SameSt r.2 r'.2

section
variable {grow : Nat → Nat}

theorem devFill_same (n : Nat) : ∀ (fuel : Nat) {d : DevSt Src} {s : StreamSt}, SameSt d s →
    SameRes (devFill srcDevice (fun _ => 0) grow n fuel d) (streamFill grow n fuel s)
  | 0, _, _, h => ⟨rfl, h⟩
  | fuel + 1, d, s, h => by
    unfold devFill streamFill
    rw [h.buf]
    split
    · rcases append_same (grow := grow) d s h (s.buf.capacity - s.buf.length) with ⟨p, h1, h2⟩ | ⟨r, d', buf, src, h1, h2, h3⟩
      · rw [h1, h2]; exact ⟨rfl, h⟩
      · rw [h1, h2]
        cases r with
        | error k => exact ⟨rfl, h3⟩
        | ok w =>
          have hb := h3.buf
          simp only at hb
          simp only [hb]
          split
          · split <;> exact ⟨rfl, h3⟩
          · split
            · exact ⟨rfl, h3⟩
            · exact devFill_same n fuel h3
    · exact ⟨rfl, h⟩

theorem devPeekFill_same (n : Nat) : ∀ (fuel : Nat) {d : DevSt Src} {s : StreamSt}, SameSt d s →
    SameRes (devPeekFill srcDevice (fun _ => 0) grow n fuel d) (streamPeekFill grow n fuel s)
  | 0, _, _, h => ⟨rfl, h⟩
  | fuel + 1, d, s, h => by
    unfold devPeekFill streamPeekFill
    rw [h.buf, h.buffering]
    split
    · rcases append_same (grow := grow) d s h (if s.buffering then max (n - s.buf.length) (s.buf.capacity - s.buf.length)
        else n - s.buf.length) with ⟨p, h1, h2⟩ | ⟨r, d', buf, src, h1, h2, h3⟩
      · simp only [h1, h2]; exact ⟨rfl, h⟩
      · simp only [h1, h2]
        cases r with
        | error k => exact ⟨rfl, h3⟩
        | ok w =>
          simp only
          split
          · exact ⟨rfl, h3⟩
          · exact devPeekFill_same n fuel h3
    · exact ⟨rfl, h⟩

theorem devTake_same (out : Bytes) {d : DevSt Src} {s : StreamSt} (h : SameSt d s) (hs : s.buf.Inv) :
    SameRes (devTake srcDevice out d) (streamTake out.length s) := by
  have key : ∃ x c, (if s.buf.length > 0 then s.buf.consumeInto (min s.buf.length out.length) else .ok ([], s.buf)) = .ok (x, c) ∧
      x.length ≤ out.length := by
    split
    · obtain ⟨c', h1, _⟩ := CBuf.consumeInto_ok hs (n := min s.buf.length out.length) (Nat.min_le_left _ _)
      exact ⟨_, _, h1, by simp; omega⟩
    · exact ⟨_, _, rfl, by simp⟩
  obtain ⟨x, c, h1, hx⟩ := key
  unfold devTake streamTake
  rw [h.buf]
  simp only [h1]
  split
  · exact ⟨rfl, h.dev, rfl, h.buffering⟩
  · have hl : (out.drop x.length).length = out.length - x.length := by simp
    rw [h.dev]
    rcases srcDevice_exact (out.drop x.length) s.src with ⟨s', g1, g2⟩ | ⟨k, s', g1, g2⟩
    · rw [hl] at g1
      simp only [g1, g2, hl]
      exact ⟨rfl, rfl, rfl, h.buffering⟩
    · rw [hl] at g1
      simp only [g1, g2]
      exact ⟨rfl, rfl, rfl, h.buffering⟩

variable (hg : ∀ n, n ≤ grow n)
include hg

theorem devRead_same (n : Nat) {d : DevSt Src} {s : StreamSt} (h : SameSt d s) (hs : s.buf.Inv) :
    SameRes (devRead srcDevice (fun _ => 0) grow n d) (streamRead grow n s) := by
  have h' : SameSt ⟨d.dev, s.buf, s.buffering, d.used + n⟩ s := ⟨h.dev, rfl, rfl⟩
  unfold devRead streamRead
  simp only [h.buf, h.buffering]
  split
  · obtain ⟨c', h1, _⟩ := CBuf.consumeInto_ok hs ‹_›
    rw [h1]
    exact ⟨rfl, h.dev, rfl, rfl⟩
  · rename_i hn
    unfold streamReadSlow
    split
    · rename_i hb
      simp only [Bool.and_eq_true, decide_eq_true_eq] at hb
      obtain ⟨h1, h2⟩ := devFill_same (grow := grow) n (s.buf.capacity + 1) h'
      have hi := streamFill_any hg n (s.buf.capacity + 1) s hs hb.2 (by omega) (by omega)
      generalize devFill srcDevice (fun _ => 0) grow n (s.buf.capacity + 1) _ = r at *
      generalize streamFill grow n (s.buf.capacity + 1) s = r' at *
      obtain ⟨x, d1⟩ := r
      obtain ⟨y, s1⟩ := r'
      simp only at h1 h2
      subst h1
      cases x with
      | error e => exact ⟨rfl, h2⟩
      | ok u =>
        have hi1 : s1.buf.Inv := by
          rcases hi with ⟨s', g1, g2, _⟩ | ⟨e, s', g1, _⟩
          · simp only [Prod.mk.injEq] at g1; rw [g1.2]; exact g2
          · simp at g1
        have := devTake_same (fresh (fun _ => 0) d.used n) h2 hi1
        rw [fresh_length] at this
        exact this
    · have := devTake_same (fresh (fun _ => 0) d.used n) h' hs
      rw [fresh_length] at this
      exact this

omit hg in
theorem devPeek_same (n : Nat) {d : DevSt Src} {s : StreamSt} (h : SameSt d s) :
    SameRes (devPeek srcDevice (fun _ => 0) grow n d) (streamPeek grow n s) := by
  unfold devPeek streamPeek
  obtain ⟨h1, h2⟩ := devPeekFill_same (grow := grow) n (n + 1) h
  generalize devPeekFill srcDevice (fun _ => 0) grow n (n + 1) d = r at *
  generalize streamPeekFill grow n (n + 1) s = r' at *
  obtain ⟨x, d1⟩ := r
  obtain ⟨y, s1⟩ := r'
  simp only at h1 h2
  subst h1
  cases x with
  | error e => exact ⟨rfl, h2⟩
  | ok u =>
    simp only [h2.buf]
    cases s1.buf.asSlicesOfLength n with
    | error p => exact ⟨rfl, h2⟩
    | ok ab =>
      simp only
      cases copyOut n ab.1 ab.2 with
      | error p => exact ⟨rfl, h2⟩
      | ok out => exact ⟨rfl, h2⟩

theorem devSkip_same : ∀ (fuel n : Nat) {d : DevSt Src} {s : StreamSt}, SameSt d s → s.buf.Inv →
    SameRes (skipLoop (devRead srcDevice (fun _ => 0) grow) fuel n d) (skipLoop (streamRead grow) fuel n s) ∧
    (skipLoop (streamRead grow) fuel n s).2.buf.Inv
  | 0, _, _, _, h, hs => ⟨⟨rfl, h⟩, hs⟩
  | fuel + 1, n, d, s, h, hs => by
    unfold skipLoop
    split
    · obtain ⟨h1, h2⟩ := devRead_same hg (if n < 1024 then n else 1024) h hs
      have hi := streamRead_any hg (if n < 1024 then n else 1024) s hs
      simp only
      generalize devRead srcDevice (fun _ => 0) grow _ d = r at *
      generalize streamRead grow _ s = r' at *
      obtain ⟨x, d1⟩ := r
      obtain ⟨y, s1⟩ := r'
      have hi1 : s1.buf.Inv := by
        rcases hi with ⟨s', g1, _, g2, _⟩ | ⟨e, s', _, g1, g2, _⟩ <;>
          (simp only [Prod.mk.injEq] at g1; rw [g1.2]; exact g2)
      simp only at h1 h2
      subst h1
      cases x with
      | error e => exact ⟨⟨rfl, h2⟩, hi1⟩
      | ok u => exact devSkip_same fuel _ h2 hi1
    · exact ⟨⟨rfl, h⟩, hs⟩

theorem run_same {α : Type} (p : Prog α) : ∀ {d : DevSt Src} {s : StreamSt}, SameSt d s → s.buf.Inv →
    SameRes (p.run (devReader srcDevice (fun _ => 0) grow) d) (p.run (streamReader grow) s) := by
  induction p with
  | ret a => intro d s h hs; exact ⟨rfl, h⟩
  | read n k ih =>
    intro d s h hs
    obtain ⟨h1, h2⟩ := devRead_same hg n h hs
    show SameRes ((k (devRead srcDevice (fun _ => 0) grow n d).1).run _ (devRead srcDevice (fun _ => 0) grow n d).2)
      ((k (streamRead grow n s).1).run _ (streamRead grow n s).2)
    rw [h1]
    refine ih _ h2 ?_
    rcases streamRead_any hg n s hs with ⟨s', g1, _, g2, _⟩ | ⟨e, s', _, g1, g2, _⟩ <;> rw [g1] <;> exact g2
  | peek n k ih =>
    intro d s h hs
    obtain ⟨h1, h2⟩ := devPeek_same (grow := grow) n h
    show SameRes ((k (devPeek srcDevice (fun _ => 0) grow n d).1).run _ (devPeek srcDevice (fun _ => 0) grow n d).2)
      ((k (streamPeek grow n s).1).run _ (streamPeek grow n s).2)
    rw [h1]
    refine ih _ h2 ?_
    rcases streamPeek_any hg n s hs with ⟨s', g1, _, g2, _⟩ | ⟨e, s', g1, g2, _⟩ <;> rw [g1] <;> exact g2
  | skip n k ih =>
    intro d s h hs
    obtain ⟨⟨h1, h2⟩, h3⟩ := devSkip_same hg (n + 1) n h hs
    show SameRes ((k (skipLoop (devRead srcDevice (fun _ => 0) grow) (n + 1) n d).1).run _
      (skipLoop (devRead srcDevice (fun _ => 0) grow) (n + 1) n d).2)
      ((k (skipLoop (streamRead grow) (n + 1) n s).1).run _ (skipLoop (streamRead grow) (n + 1) n s).2)
    rw [h1]
    exact ih _ h2 h3
  | canRead n k ih => intro d s h hs; exact ih none h hs
  | borrow n k ih => intro d s h hs; exact ih none h hs
  | borrowR n k ih => intro d s h hs; exact ih none h hs
  | borrowEof k ih => intro d s h hs; exact ih none h hs
  | alloc n m k ih => intro d s h hs; exact ih h hs

/-- **C60**: with the streams considered in the other theorems, and whatever uninitialised memory contains, the result and what is left
in the stream are as computed there (where uninitialised memory is taken to be zero). -/
theorem C60_same_model (T : Target) (e : Endian) (t : Ty) (buffered : Bool) (src : Src) (junk : Nat → UInt8) :
    readFromDevice T e t grow srcDevice buffered src junk =
      ((readFromStream T e t grow buffered src).1, (readFromStream T e t grow buffered src).2.src) := by
  rw [C60_stream_partial srcDevice_honest hg T e t buffered src junk fun _ => 0]
  have hi : SameSt (DevSt.init (fun _ => 0) buffered src) (StreamSt.init buffered src) :=
    ⟨rfl, by simp [DevSt.init, StreamSt.init, CBuf.withCapacity, fresh, List.map_const'], rfl⟩
  obtain ⟨h1, h2⟩ := run_same hg (decode T e t Cx.std) hi (CBuf.withCapacity_inv _)
  exact Prod.ext h1 h2.dev

end

/-! ## Streams which break the contract -/

/-- `fn read( &mut self, buffer: &mut [u8] ) -> io::Result< usize > { Ok( buffer.len() ) }`, and `read_exact` likewise. -/
def idle : Device Unit := ⟨fun sl s => (.ok sl.length, sl, s), fun sl s => (.ok (), sl, s), fun _ _ => rfl, fun _ _ => rfl⟩

theorem idle_buffered (junk : Nat → UInt8) :
    (devRead idle junk id 1 (DevSt.init junk true ())).1 = .ok [junk 0] := by
  have hf : (fresh junk 0 8192).length = 8192 := fresh_length _ _ _
  have h0 : (fresh junk 0 8192).take 1 = [junk 0] := by
    have : (List.range 8192).take 1 = [0] := by rw [List.take_range]; rfl
    rw [fresh, ← List.map_take, this]
    rfl
  unfold DevSt.init
  simp only [if_true, show 8 * 1024 = 8192 from rfl]
  generalize fresh junk 0 8192 = m at hf h0
  have hs : sliceOf m ⟨0, 8192⟩ = .ok m := by
    unfold sliceOf
    rw [if_pos (by simp [hf])]
    simp only [Rng.len, List.drop_zero, Nat.sub_zero]
    rw [← hf, List.take_length]
  have hr : (⟨m, 0, 0⟩ : CBuf).reserveOn (fresh junk (8192 + 1)) id 8192 = .ok ⟨m, 0, 0⟩ := by
    unfold CBuf.reserveOn
    rw [if_pos (by simp [CBuf.capacity, hf])]
  have ha : (⟨(), ⟨m, 0, 0⟩, true, 8192 + 1⟩ : DevSt Unit).append idle junk id 8192 =
      .ok (.ok 8192, ⟨(), ⟨m, 0, 8192⟩, true, 8192 + 1⟩) := by
    unfold DevSt.append
    simp only [hr, bind, Except.bind, CBuf.capacity, hf, emptyRange, if_true, Rng.len]
    simp [idle, overwrite, hs, hf]
  have hfill : devFill idle junk id 1 (8192 + 1) ⟨(), ⟨m, 0, 0⟩, true, 8192 + 1⟩ =
      (.ok (), ⟨(), ⟨m, 0, 8192⟩, true, 8192 + 1⟩) := by
    unfold devFill
    simp only [CBuf.capacity, hf, Nat.sub_zero, ha]
    simp
  unfold devRead
  simp only [CBuf.capacity, hf, hfill]
  simp only [devTake, fresh_length, CBuf.consumeInto, CBuf.capacity, hf, sliceOf, Rng.len, bind, Except.bind]
  simp [h0]

theorem read_u8 {σ : Type} {R : ReaderOps σ} {s s' : σ} {b : UInt8} (hc : R.canRead 1 s = none) (h : R.read 1 s = (.ok [b], s')) :
    ((decode Samples.x64 .little (.prim .u8) Cx.std).run R s).1 = .ok (.num b.toNat) := by
  have h1 : (readNum Samples.x64.toHost .little 1).run R s = (.ok b.toNat, s') := by
    unfold readNum
    rw [run_canRead, hc, if_neg (by simp), run_read, h]
    simp [M.pure, Prog.run, Endian.conv, Samples.x64, Samples.onHost, Host.x64, Endian.num, ofLe]
  simp only [decode, M.map, Prim.size]
  rw [M.run_bind_ok h1]
  rfl

/-- **C60** is false: a stream which claims to have read bytes, without `unsafe`, makes the result depend on what uninitialised memory
contains, with and without buffering.  (This is undefined behaviour.) -/
theorem C60_false : ∀ buffered, ∃ junk junk' : Nat → UInt8,
    readFromDevice Samples.x64 .little (.prim .u8) id idle buffered () junk ≠
      readFromDevice Samples.x64 .little (.prim .u8) id idle buffered () junk' := by
  intro b
  refine ⟨fun _ => 1, fun _ => 2, ?_⟩
  cases b with
  | false => decide
  | true =>
    have key : ∀ junk, (readFromDevice Samples.x64 .little (.prim .u8) id idle true () junk).1 = .ok (.num (junk 0).toNat) := by
      intro junk
      have h := idle_buffered junk
      generalize hr : devRead idle junk id 1 (DevSt.init junk true ()) = r at h
      obtain ⟨x, s'⟩ := r
      simp only at h
      subst h
      simp only [readFromDevice]
      generalize DevSt.init junk true () = s at hr ⊢
      exact read_u8 (R := devReader idle junk id) rfl hr
    intro h
    have h1 := key fun _ => 1
    rw [h, key fun _ => 2] at h1
    simp at h1

/-- `read_exact` which looks at what is in the slice. -/
def spy : Device Unit :=
  ⟨fun sl s => (.ok 0, sl, s), fun sl s => (.error (.other (sl.headD 0).toNat), sl, s), fun _ _ => rfl, fun _ _ => rfl⟩

/-- **C60** is false: uninitialised memory is shown to the stream. -/
theorem C60_false_seen : ∃ junk junk' : Nat → UInt8,
    readFromDevice Samples.x64 .little (.prim .u8) id spy false () junk ≠
      readFromDevice Samples.x64 .little (.prim .u8) id spy false () junk' :=
  ⟨fun _ => 1, fun _ => 2, by decide⟩

/-- An honest stream: the bytes are those of the stream, not of `junk`. -/
example : readFromDevice Samples.x64 .little (.prim .u16) id srcDevice false ⟨[1, 2, 3], [.give 1]⟩ (fun _ => 9) =
    (.ok (.num 0x0201), ⟨[3], []⟩) := by decide

/-! ## Cases -/

section Cases
open Samples

/-- The same with any memory. -/
example (junk : Nat → UInt8) : readFromDevice Samples.x64 .little (.prim .u16) id srcDevice false ⟨[1, 2, 3], [.give 1]⟩ junk =
    (.ok (.num 0x0201), ⟨[3], []⟩) :=
  (C60_stream_partial srcDevice_honest (fun _ => Nat.le_refl _) _ _ _ _ _ _ (fun _ => 9)).trans (by decide)

example (junk : Nat → UInt8) := C60_same_model (grow := id) (fun _ => Nat.le_refl _) Samples.x64 .little Samples.message true
  ⟨Samples.msgLe, [.give 1]⟩ junk

example (junk junk' : Nat → UInt8) := C60_program_partial srcDevice_honest (grow := id) (fun _ => Nat.le_refl _)
  (.peek 2 fun _ => .read 2 .ret : M Bytes) true ⟨[1, 2, 3], [.give 1]⟩ junk junk'

end Cases

end Verif
