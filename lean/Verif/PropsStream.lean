import Verif.NoPeek
import Verif.PropsRoundTrip
import Verif.PropsWrite

/-!
# Streams: C13, C38, C41, C42

`readFromStream T e t grow buffered src` is `read_from_stream_buffered` or
`read_from_stream_unbuffered`; it returns the result and the final state, in which
`src.data` is what the stream has left.  The behaviour of the stream is
`src.evs`: every call of `read` gives some bytes or fails.  `Src.Clean`: it never fails and
gives no empty pieces before its end.
-/

namespace Verif

/-! ## C13 -/

section
variable {T : Target} (hT : T.Ok) {e : Endian} {t : Ty} {v : Val} {bs : Bytes} {junk : Nat → UInt8}
  (hl : layoutOk T t = true) (hd : declOk t = true) (hr : regular T e t = true) (hv : hasTy T t v)
  (hc : canon (Fmt.code T.toHost e) t v) (hw : writeToVec T e t v junk = .ok bs)
include hT hl hd hr hv hc hw

/-- **C13**: reading from a stream which contains an encoding followed by other
bytes, without buffering, returns the value and leaves exactly the other bytes in
the stream, in whatever pieces it delivers them.

Full claim: all types and values.  Missing: the exceptions of C01, and enums with
`peek_tag` (for which it is false: `C13_false`). -/
theorem C13_exact_position_partial {grow : Nat → Nat} (hg : ∀ n, n ≤ grow n) {src : Src} {rest : Bytes}
    (hs : src.Clean) (hb : src.data = bs ++ rest) (he : ends false false t = true) (hn : noRefs t = true)
    (hk : noPeek t = true) (hf : Fits T src.data) :
    ∃ st, readFromStream T e t grow false src = (.ok v, st) ∧ st.src.data = rest ∧ st.src.Clean := by
  have hp : (StreamSt.init false src).pend = bs ++ rest := by rw [StreamSt.init_pend, hb]
  obtain ⟨st, h1, h2, h3⟩ := C06_self_delimiting_reader_partial hT hl hd hr hv hc hw (streamReader_lawful hg)
    (StreamSt.init_inv (b := false) hs) hp he (.inl hn) (hb ▸ hf)
  have h4 := run_direct grow (decode_noPeek (T := T) (e := e) t Cx.std hk) _ (StreamSt.init_direct src)
  rw [h1] at h4
  exact ⟨st, h1, by rw [← h3, h4.pend], h2.2⟩

end

/-- `#[speedy(tag_type = u8, peek_tag)] enum Opcode { #[speedy(tag = 3)] Halt }` -/
def opcode : Ty := .enum ⟨.u8, true, 0⟩ (.cons 3 .nil .nil)

/-- C13 is false for `peek_tag`: the variant `Halt` is written as no bytes at all and reading it
uses none, yet a byte is taken from the stream and lost. -/
theorem C13_false :
    ∃ st, readFromStream Samples.x64 .little opcode (· + 100) false ⟨[3, 9], []⟩ = (.ok (.variant 0 .unit), st) ∧
      st.src.data = [9] ∧
      readWithLengthFromBuffer Samples.x64 .little opcode 4096 [3, 9] = (.ok (.variant 0 .unit), 0) := by
  refine ⟨_, Prod.ext (by decide) rfl, by decide, by decide⟩

open Samples in
/-- A message and three more bytes, delivered in pieces of 1, 30, 2, … bytes. -/
example : ∃ st, readFromStream x64 .little message (· + 100) false ⟨msgLe ++ [1, 2, 3], [.give 1, .give 30, .give 2]⟩ =
    (.ok msg, st) ∧ st.src.data = [1, 2, 3] ∧ st.src.Clean :=
  C13_exact_position_partial x64_ok message_layout message_decl (message_regular _) msg_ty (msg_canon _)
    (msg_vec fun _ => 0) (fun n => by omega) (by simp [Src.Clean]) rfl (by decide) (by decide) (by decide)
    ⟨by decide, by decide⟩

/-! ## C38 -/

/-- **C38**: reading from a stream without buffering gives the same result, and
leaves the same bytes in the stream, as if no call of `read` had been interrupted
(`src.calm` is `src` without the interruptions).  This holds for all bytes and all
other failures of the stream.

Full claim: for both stream readers and all types.  Missing: buffered reading and enums
with `peek_tag`, for which it is false (`C38_false`). -/
theorem C38_interruptions_retried_partial (T : Target) (e : Endian) (t : Ty) (hk : noPeek t = true) (grow : Nat → Nat)
    (src : Src) :
    (readFromStream T e t grow false src).1 = (readFromStream T e t grow false src.calm).1 ∧
    (readFromStream T e t grow false src).2.src.data = (readFromStream T e t grow false src.calm).2.src.data := by
  have := run_calm grow (decode_noPeek (T := T) (e := e) t Cx.std hk) src
  exact ⟨this.1, by unfold readFromStream; rw [← this.2]; rfl⟩

/-- A failing stream makes the buffered reader fail, whatever the kind of the failure. -/
theorem bufferedRead_fault {grow : Nat → Nat} (hg : ∀ n, n ≤ grow n) {n : Nat} {s : StreamSt} (hs : s.buf.Inv)
    (hb : s.buffering = true) (hn : s.buf.length < n) (hc : n < s.buf.capacity) {k : IoKind} {evs : List Ev}
    (hev : s.src.evs = .fault k :: evs) : (streamRead grow n s).1 = .error (.io k) := by
  unfold streamRead
  rw [if_neg (by omega)]
  unfold streamReadSlow
  rw [if_pos (by simp [hb, hc])]
  unfold streamFill
  rw [if_pos (by omega)]
  obtain ⟨m, _, _, h⟩ := CBuf.tryAppendWith_ok hg hs (size := s.buf.capacity - s.buf.length) (by omega) Src.read
    (fun n s d s' h => Src.read_len h) s.src
  have hr : Src.read m s.src = (.error k, ⟨s.src.data, evs⟩) := by simp [Src.read, hev]
  rw [hr] at h
  obtain ⟨c', h, _⟩ := h
  rw [h]

/-- C38 is false for buffered reading and for `peek_tag`: the interruption is returned as an
error, although all bytes are there. -/
theorem C38_false :
    (readFromStream Samples.x64 .little (.prim .u8) (· + 100) true ⟨[3], [.fault .interrupted]⟩).1 =
      .error (.io .interrupted) ∧
    (readFromStream Samples.x64 .little (.prim .u8) (· + 100) false ⟨[3], [.fault .interrupted]⟩).1 = .ok (.num 3) ∧
    (readFromStream Samples.x64 .little opcode (· + 100) false ⟨[3], [.fault .interrupted]⟩).1 =
      .error (.io .interrupted) := by
  refine ⟨?_, by decide, by decide⟩
  have h := bufferedRead_fault (grow := (· + 100)) (fun n => by omega) (n := 1)
    (s := StreamSt.init true ⟨[3], [.fault .interrupted]⟩) (CBuf.withCapacity_inv _) rfl (by decide)
    (by
      show 1 < (List.replicate _ _).length
      rw [List.length_replicate]; decide) rfl
  unfold readFromStream decode readNum M.map M.bind
  simp only [Prog.bind, Prog.run, streamReader]
  rw [if_neg (by simp)]
  simp only [Prog.bind, Prog.run]
  rw [show Prim.u8.size = 1 from rfl, h]
  rfl

open Samples in
/-- Interrupted between the bytes of a number. -/
example : (readFromStream x64 .little message (· + 100) false
      ⟨msgLe, [.give 4, .fault .interrupted, .give 1, .fault .interrupted, .fault .interrupted]⟩).1 =
    (readFromStream x64 .little message (· + 100) false ⟨msgLe, [.give 4, .give 1]⟩).1 :=
  (C38_interruptions_retried_partial x64 .little message (by decide) (· + 100)
    ⟨msgLe, [.give 4, .fault .interrupted, .give 1, .fault .interrupted, .fault .interrupted]⟩).1

/-! ## C41 -/

/-- A value of some type, written in some byte order as `bs`. -/
structure Message where
  e : Endian
  t : Ty
  v : Val
  bs : Bytes

/-- The hypotheses of the round trip (see `PropsRoundTrip.lean`). -/
structure Message.Ok (T : Target) (m : Message) : Prop where
  layout : layoutOk T m.t = true
  decl : declOk m.t = true
  regular : regular T m.e m.t = true
  ty : hasTy T m.t m.v
  canon : canon (Fmt.code T.toHost m.e) m.t m.v
  ends : ends false false m.t = true
  written : ∃ junk, writeToVec T m.e m.t m.v junk = .ok m.bs

/-- `write_to_stream` of one value after another, to the same stream. -/
def writeMessages (T : Target) : List Message → Sink → Except Err Unit × Sink
  | [], s => (.ok (), s)
  | m :: ms, s => match writeToStream T m.e m.t m.v s with
    | (.ok _, s) => writeMessages T ms s
    | (.error er, s) => (.error er, s)

/-- `read_from_stream_unbuffered` of one type after another, from the same stream. -/
def readMessages (T : Target) (grow : Nat → Nat) : List (Endian × Ty) → Src → Except Err (List Val) × Src
  | [], src => (.ok [], src)
  | (e, t) :: ts, src => match readFromStream T e t grow false src with
    | (.error er, st) => (.error er, st.src)
    | (.ok v, st) => match readMessages T grow ts st.src with
      | (.error er, src) => (.error er, src)
      | (.ok vs, src) => (.ok (v :: vs), src)

/-- `read_with_length_from_buffer` of one type after another, each from where the one
before ended. -/
def readMessagesBuf (T : Target) : List (Endian × Ty) → Nat → Bytes → Except Err (List Val) × Nat
  | [], _, _ => (.ok [], 0)
  | (e, t) :: ts, base, buf => match readWithLengthFromBuffer T e t base buf with
    | (.error er, n) => (.error er, n)
    | (.ok v, n) => match readMessagesBuf T ts (base + n) (buf.drop n) with
      | (.error er, m) => (.error er, n + m)
      | (.ok vs, m) => (.ok (v :: vs), n + m)

/-- The bytes of all messages. -/
def messageBytes (ms : List Message) : Bytes := (ms.map Message.bs).flatten

theorem messageBytes_cons (m : Message) (ms : List Message) : messageBytes (m :: ms) = m.bs ++ messageBytes ms := by
  simp [messageBytes]

/-- **C41**, writing: a working stream receives the encodings one after another. -/
theorem C41_messages_written_partial {T : Target} (hT : T.Ok) (ms : List Message) (h : ∀ m ∈ ms, m.Ok T) (s : Sink)
    (hs : s.Works) : ∃ s', writeMessages T ms s = (.ok (), s') ∧ s'.got = s.got ++ messageBytes ms := by
  suffices H : ∃ s', writeMessages T ms s = (.ok (), s') ∧ s'.got = s.got ++ messageBytes ms ∧ s'.Works from
    let ⟨s', h1, h2, _⟩ := H; ⟨s', h1, h2⟩
  induction ms generalizing s with
  | nil => exact ⟨s, rfl, by simp [messageBytes], hs⟩
  | cons m ms ih =>
    obtain ⟨junk, hw⟩ := (h m List.mem_cons_self).written
    have hm := h m List.mem_cons_self
    obtain ⟨h1, h2⟩ := vec_inv hT hm.layout hm.decl (regular_slice _ hm.regular) hm.ty hw
    obtain ⟨s1, h3, h4⟩ := (C04_same_bytes_partial hT hm.layout hm.decl (regular_slice _ hm.regular) hm.ty hw).2.2 s hs
    have h5 : s1.Works := by
      have := (run_stream (h := T.toHost) (e := m.e) (encode T m.e m.t Cx.std m.v) s).2.2
      rw [show (encode T m.e m.t Cx.std m.v).run (writingCollector T.toHost m.e) s = (.ok (), s1) from h3] at this
      exact fun ev hev => hs ev (this ev hev)
    obtain ⟨s2, h6, h7, h8⟩ := ih (fun m' hm' => h m' (List.mem_cons_of_mem _ hm')) s1 h5
    refine ⟨s2, ?_, ?_, h8⟩
    · simp only [writeMessages, h3, h6]
    · rw [h7, h4, messageBytes_cons, List.append_assoc]

/-- **C41**, streams: messages written one after another are read back by repeated
`read_from_stream_unbuffered`, whatever the pieces in which the stream delivers them; what
follows is left in the stream.

Full claim: all types and values.  Missing: the exceptions of C13. -/
theorem C41_messages_stream_partial {T : Target} (hT : T.Ok) {grow : Nat → Nat} (hg : ∀ n, n ≤ grow n)
    (ms : List Message) (h : ∀ m ∈ ms, m.Ok T ∧ noRefs m.t = true ∧ noPeek m.t = true) (src : Src) (hs : src.Clean)
    (rest : Bytes) (hd : src.data = messageBytes ms ++ rest) (hf : Fits T src.data) :
    ∃ src', readMessages T grow (ms.map fun m => (m.e, m.t)) src = (.ok (ms.map Message.v), src') ∧
      src'.data = rest := by
  induction ms generalizing src with
  | nil => exact ⟨src, rfl, by simpa [messageBytes] using hd⟩
  | cons m ms ih =>
    obtain ⟨hm, hn, hk⟩ := h m List.mem_cons_self
    obtain ⟨junk, hw⟩ := hm.written
    rw [messageBytes_cons, List.append_assoc] at hd
    obtain ⟨st, h1, h2, h3⟩ := C13_exact_position_partial hT hm.layout hm.decl hm.regular hm.ty hm.canon hw hg hs hd
      hm.ends hn hk hf
    obtain ⟨src', h4, h5⟩ := ih (fun m' hm' => h m' (List.mem_cons_of_mem _ hm')) st.src h3 h2 (by
      rw [h2]; rw [hd] at hf
      exact ⟨by have := hf.mem; simp only [List.length_append] at this ⊢; omega,
        by have := hf.fuel; simp only [List.length_append] at this ⊢; omega⟩)
    exact ⟨src', by simp only [List.map_cons, readMessages, h1, h4], h5⟩

/-- **C41**, buffers: the same by repeated `read_with_length_from_buffer`; the lengths
add up. -/
theorem C41_messages_buffer_partial {T : Target} (hT : T.Ok) (ms : List Message) (h : ∀ m ∈ ms, m.Ok T) (base : Nat)
    (rest : Bytes) (hm : InMem T base (messageBytes ms ++ rest)) :
    readMessagesBuf T (ms.map fun m => (m.e, m.t)) base (messageBytes ms ++ rest) =
      (.ok (ms.map Message.v), (messageBytes ms).length) := by
  induction ms generalizing base with
  | nil => rfl
  | cons m ms ih =>
    have ho := h m List.mem_cons_self
    obtain ⟨junk, hw⟩ := ho.written
    rw [messageBytes_cons, List.append_assoc] at hm ⊢
    have h1 := C06_self_delimiting_partial hT ho.layout ho.decl ho.regular ho.ty ho.canon hw ho.ends hm
    have h2 := ih (fun m' hm' => h m' (List.mem_cons_of_mem _ hm')) (base + m.bs.length)
      ⟨by have := hm.top; simp only [List.length_append] at this ⊢; omega,
       by have := hm.fits.mem; simp only [List.length_append] at this ⊢; omega,
       by have := hm.fits.fuel; simp only [List.length_append] at this ⊢; omega⟩
    simp only [List.map_cons, readMessagesBuf, h1, List.drop_left, h2, List.length_append]

section
open Samples

/-- The message of `Samples`, and a `u16`. -/
def twoMessages : List Message := [⟨.little, message, msg, msgLe⟩, ⟨.big, .prim .u16, .num 0x0102, [1, 2]⟩]

theorem twoMessages_ok : ∀ m ∈ twoMessages, m.Ok x64 := by
  intro m hm
  simp only [twoMessages, List.mem_cons, List.not_mem_nil, or_false] at hm
  rcases hm with rfl | rfl
  · exact ⟨message_layout, message_decl, message_regular _, msg_ty, msg_canon _, by decide,
      fun _ => 0, msg_vec fun _ => 0⟩
  · exact ⟨by decide, by decide, by decide, by simp [hasTy, Prim.size], by simp [canon], by decide,
      fun _ => 0, by decide⟩

example : readMessagesBuf x64 [(.little, message), (.big, .prim .u16)] 4096 (msgLe ++ [1, 2] ++ [7]) =
    (.ok [msg, .num 0x0102], 23) :=
  C41_messages_buffer_partial x64_ok twoMessages twoMessages_ok 4096 [7] ⟨by decide, by decide, by decide⟩

example : ∃ src', readMessages x64 (· + 100) [(.little, message), (.big, .prim .u16)]
      ⟨msgLe ++ [1, 2] ++ [7], [.give 20, .give 2]⟩ = (.ok [msg, .num 0x0102], src') ∧ src'.data = [7] :=
  C41_messages_stream_partial x64_ok (fun n => by omega) twoMessages
    (fun m hm => ⟨twoMessages_ok m hm, by
      simp only [twoMessages, List.mem_cons, List.not_mem_nil, or_false] at hm
      rcases hm with rfl | rfl <;> decide⟩) _ (by simp [Src.Clean]) [7] rfl ⟨by decide, by decide⟩

example : ∃ s', writeMessages x64 twoMessages ⟨[], [.accept 3]⟩ = (.ok (), s') ∧ s'.got = [] ++ messageBytes twoMessages :=
  C41_messages_written_partial x64_ok twoMessages twoMessages_ok ⟨[], [.accept 3]⟩ (by simp [Sink.Works])

end

/-! ## C42 -/

/-- A stream with the same bytes which never fails. -/
def Src.perfect (s : Src) : Src := ⟨s.data, []⟩

theorem Src.perfect_clean (s : Src) : s.perfect.Clean := by simp [Src.Clean, Src.perfect]

section
variable {T : Target} {e : Endian} {t : Ty} (he : ends false true t = true) {grow : Nat → Nat}
  (hg : ∀ n, n ≤ grow n) (buffered : Bool)
include he hg

/-- **C42**: a stream which fails never makes reading return a wrong value: a value
returned is that which a stream with the same bytes gives without failing, and the bytes
left are the same. -/
theorem C42_no_wrong_value (src : Src) {v : Val} {st : StreamSt}
    (h : readFromStream T e t grow buffered src = (.ok v, st)) :
    ∃ st', readFromStream T e t grow buffered src.perfect = (.ok v, st') ∧ st'.pend = st.pend := by
  have hp := decode_strict (pk := true) (T := T) (e := e) t Cx.std he rfl (.inl rfl)
  rcases hp.run_any hg (StreamSt.init buffered src) (CBuf.withCapacity_inv _) with
    ⟨a, s1, h1, _, h3, _⟩ | ⟨er, s1, _, h1, _⟩
  · have h1' : readFromStream T e t grow buffered src = _ := h1
    rw [h] at h1'
    simp only [Prod.mk.injEq, Except.ok.injEq] at h1'
    obtain ⟨rfl, rfl⟩ := h1'
    rcases hp.run_lawful (streamReader_lawful hg) (streamReader_plain grow) (StreamSt.init buffered src.perfect)
        (StreamSt.init_inv src.perfect_clean) with ⟨a, s2, g1, _, g3⟩ | ⟨er, er', s2, r, g1, _, g3, _⟩
    · rw [StreamSt.init_pend] at h3 g3
      rw [show src.perfect.data = src.data from rfl, h3] at g3
      simp only [Prod.mk.injEq, Except.ok.injEq] at g3
      exact ⟨s2, by rw [g3.1]; exact g1, g3.2.symm⟩
    · rw [StreamSt.init_pend] at h3 g3
      rw [show src.perfect.data = src.data from rfl, h3] at g3
      simp at g3
  · have h1' : readFromStream T e t grow buffered src = _ := h1
    rw [h] at h1'
    simp at h1'

/-- **C42**: why reading fails.  The bytes would give an error like it on a stream which does not
fail; or the stream pretended to end (`give 0`) and the error says so; or the error is
exactly the one with which the last call of the stream failed. -/
theorem C42_cause (src : Src) {er : Err} {st : StreamSt}
    (h : readFromStream T e t grow buffered src = (.error er, st)) :
    (∃ er', (readFromStream T e t grow buffered src.perfect).1 = .error er' ∧ er.Alike er') ∨
    (er.isEof = true ∧ .give 0 ∈ src.evs) ∨
    (∃ k before, er = .io k ∧ src.evs = before ++ .fault k :: st.src.evs ∧
      ∀ k', .fault k' ∈ before → k' = .interrupted) := by
  have hp := decode_strict (pk := true) (T := T) (e := e) t Cx.std he rfl (.inl rfl)
  rcases hp.run_any hg (StreamSt.init buffered src) (CBuf.withCapacity_inv _) with
    ⟨a, s1, h1, _⟩ | ⟨er1, s1, _, h1, _, _, hb, _⟩
  · have h1' : readFromStream T e t grow buffered src = _ := h1
    rw [h] at h1'; simp at h1'
  · have h1' : readFromStream T e t grow buffered src = _ := h1
    rw [h] at h1'
    simp only [Prod.mk.injEq, Except.error.injEq] at h1'
    obtain ⟨rfl, rfl⟩ := h1'
    rcases hb with ⟨er', h2, h3⟩ | h2 | ⟨k, h2, before, h3, h4⟩
    · refine .inl ?_
      rcases hp.run_lawful (streamReader_lawful hg) (streamReader_plain grow) (StreamSt.init buffered src.perfect)
          (StreamSt.init_inv src.perfect_clean) with ⟨a, s2, g1, _, g3⟩ | ⟨er1, er2, s2, r, g1, _, g3, g4⟩
      · rw [StreamSt.init_pend] at h2 g3
        rw [show src.perfect.data = src.data from rfl] at g3
        rw [g3] at h2; simp at h2
      · rw [StreamSt.init_pend] at h2 g3
        rw [show src.perfect.data = src.data from rfl] at g3
        rw [g3] at h2
        simp only [Except.error.injEq] at h2
        subst h2
        exact ⟨er2, by unfold readFromStream; rw [g1], h3.symm.trans g4⟩
    · exact .inr (.inl h2)
    · exact .inr (.inr ⟨k, before, h2, h3, h4⟩)

/-- **C42**: if the stream, perhaps after interruptions, fails before it gave the bytes which the value needs, then reading returns
that error, unchanged, unless it already returned one of the interruptions, unchanged.  (`before` is what the stream does
before it fails: it gives pieces, none empty, of altogether fewer bytes than a perfect stream would have to give.) -/
theorem C42_interrupted_failure (src : Src) {v : Val} {st : StreamSt}
    (hok : readFromStream T e t grow buffered src.perfect = (.ok v, st)) {before after : List Ev} {k : IoKind}
    (hev : src.evs = before ++ .fault k :: after) (hi : k ≠ .interrupted) (hpieces : ∀ k', .fault k' ∈ before → k' = .interrupted)
    (h0 : .give 0 ∉ src.evs) (hfew : gives before + st.pend.length < src.data.length) :
    (readFromStream T e t grow buffered src).1 = .error (.io k) ∨
      ((readFromStream T e t grow buffered src).1 = .error (.io .interrupted) ∧ .fault .interrupted ∈ before) := by
  rcases h : readFromStream T e t grow buffered src with ⟨r, st'⟩
  cases r with
  | ok v' =>
    exfalso
    have hp := decode_strict (pk := true) (T := T) (e := e) t Cx.std he rfl (.inl rfl)
    obtain ⟨st2, h1, h2⟩ := C42_no_wrong_value he hg buffered src h
    rw [hok] at h1
    simp only [Prod.mk.injEq] at h1
    obtain ⟨_, rfl⟩ := h1
    have hq : Quiet src.evs st'.src.evs := by
      rcases hp.run_any hg (StreamSt.init buffered src) (CBuf.withCapacity_inv _) with
        ⟨a, s1, g1, _, _, g4, _⟩ | ⟨er, s1, _, g1, _⟩
      · have g1' : readFromStream T e t grow buffered src = _ := g1
        rw [h] at g1'
        simp only [Prod.mk.injEq] at g1'
        rw [g1'.2]; exact g4
      · have g1' : readFromStream T e t grow buffered src = _ := g1
        rw [h] at g1'; simp at g1'
    have hb := run_src (J := Bounded k before after src.data.length) (fun n s => Bounded.read n s) grow
      (decode T e t Cx.std) (StreamSt.init buffered src) (.inr ⟨before, hev, Nat.le_refl _⟩)
    rw [show ((decode T e t Cx.std).run (streamReader grow) (StreamSt.init buffered src)).2 = st' from
      congrArg Prod.snd h] at hb
    rcases hb with hb | ⟨pre', hb1, hb2⟩
    · obtain ⟨q, hq1, hq2⟩ := hq
      rw [hev] at hq1
      have : .fault k ∈ q := by
        have hlen := congrArg List.length hq1
        simp only [List.length_append, List.length_cons] at hlen
        have h3 : (before ++ .fault k :: after)[before.length]? = (q ++ st'.src.evs)[before.length]? := by rw [hq1]
        rw [List.getElem?_append_right (Nat.le_refl _), List.getElem?_append_left (by omega)] at h3
        simp only [Nat.sub_self, List.getElem?_cons_zero] at h3
        exact List.mem_of_getElem? h3.symm
      exact hi (hq2 k this)
    · have : st'.src.data.length ≤ st'.pend.length := by simp [StreamSt.pend]
      rw [h2] at hfew
      omega
  | error er =>
    rcases C42_cause he hg buffered src h with ⟨er', h1, _⟩ | ⟨_, h1⟩ | ⟨k', before', h1, h2, h3⟩
    · rw [hok] at h1; simp at h1
    · exact absurd h1 h0
    · rw [hev] at h2
      have hlen := congrArg List.length h2
      simp only [List.length_append, List.length_cons] at hlen
      rcases Nat.lt_trichotomy before'.length before.length with hlt | heq | hgt
      · have h4 : (before ++ .fault k :: after)[before'.length]? = (before' ++ .fault k' :: st'.src.evs)[before'.length]? := by
          rw [h2]
        rw [List.getElem?_append_right (Nat.le_refl before'.length), List.getElem?_append_left hlt] at h4
        simp only [Nat.sub_self, List.getElem?_cons_zero] at h4
        have h5 := List.mem_of_getElem? h4
        have h6 := hpieces k' h5
        rw [h6] at h5 h1
        rw [h1]
        exact .inr ⟨rfl, h5⟩
      · have h4 : (before ++ .fault k :: after)[before.length]? = (before' ++ .fault k' :: st'.src.evs)[before.length]? := by
          rw [h2]
        rw [List.getElem?_append_right (Nat.le_refl _), List.getElem?_append_right (by omega)] at h4
        simp only [Nat.sub_self, heq, List.getElem?_cons_zero, Option.some.injEq, Ev.fault.injEq] at h4
        rw [h4, h1]
        exact .inl rfl
      · have h4 : (before ++ .fault k :: after)[before.length]? = (before' ++ .fault k' :: st'.src.evs)[before.length]? := by
          rw [h2]
        rw [List.getElem?_append_right (Nat.le_refl before.length), List.getElem?_append_left hgt] at h4
        simp only [Nat.sub_self, List.getElem?_cons_zero] at h4
        exact absurd (h3 k (List.mem_of_getElem? h4.symm)) hi

/-- **C42**: without interruptions, reading returns the error with which the stream failed. -/
theorem C42_failure_surfaces (src : Src) {v : Val} {st : StreamSt}
    (hok : readFromStream T e t grow buffered src.perfect = (.ok v, st)) {before after : List Ev} {k : IoKind}
    (hev : src.evs = before ++ .fault k :: after) (hi : k ≠ .interrupted) (hpieces : ∀ k', .fault k' ∉ before)
    (h0 : .give 0 ∉ src.evs) (hfew : gives before + st.pend.length < src.data.length) :
    (readFromStream T e t grow buffered src).1 = .error (.io k) := by
  rcases C42_interrupted_failure he hg buffered src hok hev hi (fun k' hk => absurd hk (hpieces k')) h0 hfew with h | ⟨_, h⟩
  · exact h
  · exact absurd h (hpieces _)

/-- **C38**, both stream readers: interruptions never change a value.  Reading a stream whose calls are interrupted gives the value, or an error
like that, which it gives without interruptions; or it returns the interruption, unchanged, as an error (which the unbuffered reader
does for `peek_tag` only: `C38_interruptions_retried_partial`, `C38_false`). -/
theorem C38_reported_partial (src : Src) (hev : ∀ ev ∈ src.evs, ev = .fault .interrupted ∨ ∃ n, 0 < n ∧ ev = .give n) :
    (∃ v, (readFromStream T e t grow buffered src).1 = .ok v ∧ (readFromStream T e t grow buffered src.perfect).1 = .ok v) ∨
    (∃ er er', (readFromStream T e t grow buffered src).1 = .error er ∧ (readFromStream T e t grow buffered src.perfect).1 = .error er' ∧
      er.Alike er') ∨
    ((readFromStream T e t grow buffered src).1 = .error (.io .interrupted) ∧ .fault .interrupted ∈ src.evs) := by
  rcases h : readFromStream T e t grow buffered src with ⟨er | v, st⟩
  · rcases C42_cause he hg buffered src h with ⟨er', h1, h2⟩ | ⟨_, h0⟩ | ⟨k, before, rfl, h2, _⟩
    · exact .inr (.inl ⟨er, er', rfl, h1, h2⟩)
    · rcases hev _ h0 with h0 | ⟨n, hn, h0⟩
      · cases h0
      · cases h0; omega
    · have hm : Ev.fault k ∈ src.evs := by rw [h2]; simp
      rcases hev _ hm with h0 | ⟨n, _, h0⟩
      · cases h0; exact .inr (.inr ⟨rfl, hm⟩)
      · cases h0
  · obtain ⟨st', h1, _⟩ := C42_no_wrong_value he hg buffered src h
    exact .inl ⟨v, rfl, by rw [h1]⟩

end

open Samples in
/-- A message in pieces, interrupted twice, read with buffering. -/
example : (readFromStream x64 .little message (· + 100) true ⟨msgLe, [.give 4, .fault .interrupted, .give 3, .fault .interrupted]⟩).1 =
      (readFromStream x64 .little message (· + 100) true ⟨msgLe, []⟩).1 ∨
    (∃ er, (readFromStream x64 .little message (· + 100) true ⟨msgLe, [.give 4, .fault .interrupted, .give 3, .fault .interrupted]⟩).1 =
      .error er) := by
  rcases C38_reported_partial message_strict (grow := (· + 100)) (fun n => by omega) true
    ⟨msgLe, [.give 4, .fault .interrupted, .give 3, .fault .interrupted]⟩ (by simp) with ⟨v, h1, h2⟩ | ⟨er, _, h1, _⟩ | ⟨h1, _⟩
  · exact .inl (h1.trans h2.symm)
  · exact .inr ⟨er, h1⟩
  · exact .inr ⟨_, h1⟩

open Samples in
/-- The stream breaks after 7 of the 21 bytes of a message. -/
example : (readFromStream x64 .little message (· + 100) true
    ⟨msgLe, [.give 4, .give 3, .fault (.other 104)]⟩).1 = .error (.io (.other 104)) := by
  have hs : (StreamSt.init true ⟨msgLe, []⟩).pend = msgLe ++ [] := by rw [StreamSt.init_pend, List.append_nil]
  obtain ⟨st, h1, _, h2⟩ := C06_self_delimiting_reader_partial x64_ok message_layout message_decl (message_regular _)
    msg_ty (msg_canon _) (msg_vec fun _ => 0) (streamReader_lawful (grow := (· + 100)) (fun n => by omega))
    (StreamSt.init_inv (b := true) (src := ⟨msgLe, []⟩) (by simp [Src.Clean])) hs (by decide) (.inl (by decide))
    ⟨by decide, by decide⟩
  exact C42_failure_surfaces message_strict (fun n => by omega) true
    ⟨msgLe, [.give 4, .give 3, .fault (.other 104)]⟩ h1 (before := [.give 4, .give 3]) (after := []) rfl (by decide)
    (by simp) (by simp) (by rw [h2]; decide)

open Samples in
/-- An interruption, then a failure. -/
example : (readFromStream x64 .little (.prim .u16) (· + 100) false
      ⟨[1, 2], [.give 1, .fault .interrupted, .fault (.other 104)]⟩).1 = .error (.io (.other 104)) ∨
    ((readFromStream x64 .little (.prim .u16) (· + 100) false
      ⟨[1, 2], [.give 1, .fault .interrupted, .fault (.other 104)]⟩).1 = .error (.io .interrupted) ∧
      .fault .interrupted ∈ [Ev.give 1, .fault .interrupted]) := by
  obtain ⟨st, h, h'⟩ : ∃ st, readFromStream x64 .little (.prim .u16) (· + 100) false ⟨[1, 2], []⟩ = (.ok (.num 513), st) ∧
      st.pend = [] := ⟨_, Prod.ext (by decide) rfl, by decide⟩
  exact C42_interrupted_failure (by decide) (fun n => by omega) false _ h (before := [.give 1, .fault .interrupted]) (after := [])
    rfl (by decide) (by simp) (by simp) (by rw [h']; decide)

open Samples in
/-- An interruption, and a failure after the value is complete, do not matter. -/
example : ∃ st', readFromStream x64 .little (.prim .u16) (· + 100) false ⟨[1, 2, 3], []⟩ = (.ok (.num 513), st') ∧
    st'.pend = [3] := by
  obtain ⟨st, h, h'⟩ : ∃ st, readFromStream x64 .little (.prim .u16) (· + 100) false
      ⟨[1, 2, 3], [.give 1, .fault .interrupted, .give 1, .fault (.other 1)]⟩ = (.ok (.num 513), st) ∧
      st.pend = [3] := ⟨_, Prod.ext (by decide) rfl, by decide⟩
  obtain ⟨st', h1, h2⟩ := C42_no_wrong_value (by decide) (fun n => by omega) false _ h
  exact ⟨st', h1, h2.trans h'⟩

open Samples in
/-- The error of the stream, not one about the end of the input. -/
example : ∀ er st, readFromStream x64 .little (.prim .u16) (· + 100) false ⟨[1], [.give 1, .fault (.other 1)]⟩ =
    (.error er, st) → (∃ er', (readFromStream x64 .little (.prim .u16) (· + 100) false ⟨[1], []⟩).1 = .error er' ∧
      er.Alike er') ∨ (er.isEof = true ∧ .give 0 ∈ [Ev.give 1, .fault (.other 1)]) ∨
    (∃ k before, er = .io k ∧ [Ev.give 1, .fault (.other 1)] = before ++ .fault k :: st.src.evs ∧
      ∀ k', .fault k' ∈ before → k' = .interrupted) := fun _ _ h =>
  C42_cause (by decide) (fun n => by omega) false _ h

end Verif
