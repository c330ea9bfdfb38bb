import Verif.Samples

/-!
# Writing: C02, C03, C04, C05, C33, C34, C43, C77

`sliceOk T t` excludes slices, maps and sets of structs which are copied in
bulk although their fields have attributes (`repr(transparent)`, see
`PropsBugs.lean`).
-/

namespace Verif

/-! ## C02 -/

section
variable {T : Target} (hT : T.Ok) {e : Endian} {t : Ty} {v : Val} {bs : Bytes} {junk : Nat → UInt8}
  (hl : layoutOk T t = true) (hd : declOk t = true) (hs : sliceOk T t = true) (hv : hasTy T t v)
include hT hl hd hs hv

/-- **C02**: on a little-endian machine, `write_to_vec` returns exactly the bytes
of the documented format, and succeeds if there are any (and they fit into
memory).

Full claim: on all machines and for all types.  Missing: `sliceOk`; for
big-endian machines see `C02_format_partial` and `C02_ipv6_depends_on_host`. -/
theorem C02_format_little_host_partial (hh : T.native = .little) :
    writeToVec T e t v junk = .ok bs ↔ wire (Fmt.doc e) t LenR.std v = .ok bs ∧ bs.length ≤ T.isizeMax := by
  have hF : Fmt.code T.toHost e = Fmt.doc e := by
    unfold Fmt.code Fmt.doc Endian.conv
    rw [hh]; cases e <;> rfl
  rw [← hF]
  exact ⟨fun h => vec_inv hT hl hd hs hv h, fun h => vec_ok hT hl hd hs hv h.1 h.2⟩

/-- C02 on any machine, for types without `Ipv6Addr`. -/
theorem C02_format_partial (h6 : fmtOk (fun _ => true) false t (some .u32) = true) :
    writeToVec T e t v junk = .ok bs ↔ wire (Fmt.doc e) t LenR.std v = .ok bs ∧ bs.length ≤ T.isizeMax := by
  have hF : wire (Fmt.code T.toHost e) t LenR.std v = wire (Fmt.doc e) t LenR.std v := by
    refine wire_rel (F := Fmt.code T.toHost e) (F' := Fmt.doc e) (R := Eq)
      ⟨fun _ => rfl, fun h1 h2 => by rw [h1, h2], fun _ _ _ => rfl, by simp⟩ t LenR.std v h6
  rw [← hF]
  exact ⟨fun h => vec_inv hT hl hd hs hv h, fun h => vec_ok hT hl hd hs hv h.1 h.2⟩

end

/-- C02: two machines write the same bytes. -/
theorem C02_host_independent_partial {T T' : Target} (hT : T.Ok) (hT' : T'.Ok) {e : Endian} {t : Ty} {v : Val}
    {bs bs' : Bytes} {junk junk' : Nat → UInt8}
    (hl : layoutOk T t = true) (hl' : layoutOk T' t = true) (hd : declOk t = true)
    (hs : sliceOk T t = true) (hs' : sliceOk T' t = true) (hv : hasTy T t v) (hv' : hasTy T' t v)
    (h6 : T.native = T'.native ∨ fmtOk (fun _ => true) false t (some .u32) = true)
    (hw : writeToVec T e t v junk = .ok bs) (hw' : writeToVec T' e t v junk' = .ok bs') : bs = bs' := by
  have h1 := (vec_inv hT hl hd hs hv hw).1
  have h2 := (vec_inv hT' hl' hd hs' hv' hw').1
  rcases h6 with h6 | h6
  · have : Fmt.code T.toHost e = Fmt.code T'.toHost e := by unfold Fmt.code Endian.conv; rw [h6]
    rw [this, h2] at h1
    simp at h1; exact h1.symm
  · have h3 := (C02_format_partial (e := e) (junk := junk) hT hl hd hs hv h6).1 hw
    have h4 := (C02_format_partial (e := e) (junk := junk') hT' hl' hd hs' hv' h6).1 hw'
    rw [h3.1] at h4
    simpa using h4.1

/-- C02 is false for `Ipv6Addr`: a big-endian machine writes different bytes for
`::1`, and they are not the documented ones. -/
theorem C02_ipv6_depends_on_host :
    ∃ bs bs' : Bytes, writeToVec Samples.x64 .little .ipv6 (.bytes (List.replicate 15 0 ++ [1])) (fun _ => 0) = .ok bs ∧
      writeToVec Samples.be64 .little .ipv6 (.bytes (List.replicate 15 0 ++ [1])) (fun _ => 0) = .ok bs' ∧
      bs ≠ bs' ∧ wire (Fmt.doc .little) .ipv6 LenR.std (.bytes (List.replicate 15 0 ++ [1])) ≠ .ok bs' :=
  ⟨[1, 0, 0, 0, 0, 0, 0, 0, 0, 0, 0, 0, 0, 0, 0, 0], [0, 0, 0, 0, 0, 0, 0, 0, 0, 0, 0, 0, 0, 0, 0, 1],
    by decide, by decide, by decide, by decide⟩

open Samples in
example : writeToVec x64 .little message msg (fun _ => 0) = .ok msgLe :=
  (C02_format_little_host_partial x64_ok message_layout message_decl (by decide) msg_ty rfl).2 ⟨rfl, by decide⟩

open Samples in
example : writeToVec be64 .little message msg (fun _ => 0) = .ok msgLe :=
  (C02_format_partial be64_ok (by decide) message_decl (by decide) msg_ty_be (by decide)).2 ⟨rfl, by decide⟩

open Samples in
example : writeToVec x64 .big message msg (fun _ => 0) = .ok msgBe :=
  (C02_format_partial x64_ok (by decide) message_decl (by decide) msg_ty (by decide)).2 ⟨rfl, by decide⟩

open Samples in
example : ∀ bs bs', writeToVec x64 .big message msg (fun _ => 0) = .ok bs →
    writeToVec be64 .big message msg (fun _ => 9) = .ok bs' → bs = bs' := fun _ _ =>
  C02_host_independent_partial x64_ok be64_ok (by decide) (by decide) (by decide) (by decide) (by decide) msg_ty
    msg_ty_be (.inr (by decide))

/-! ## C03 -/

section
variable {T : Target} (hT : T.Ok) {e : Endian} {t : Ty} {v : Val}
  (hl : layoutOk T t = true) (hd : declOk t = true) (hs : sliceOk T t = true) (hv : hasTy T t v)
include hT hl hd hs hv

/-- **C03**: `bytes_needed` is the number of bytes which `write_to_vec` returns.

Missing for the full claim: `sliceOk`. -/
theorem C03_bytes_needed_vec_partial {bs : Bytes} {junk : Nat → UInt8} (hw : writeToVec T e t v junk = .ok bs) :
    bytesNeeded T t v = .ok bs.length := by
  obtain ⟨h1, h2⟩ := vec_inv hT hl hd hs hv hw
  exact needed_ok hT hl hd hs hv h1 (by have := hT.isize; omega)

/-- A stream which received everything received the encoding. -/
theorem stream_inv {s s' : Sink} (hw : writeToStream T e t v s = (.ok (), s')) :
    ∃ bs, wire (Fmt.code T.toHost e) t LenR.std v = .ok bs ∧ s'.got = s.got ++ bs := by
  have h1 := run_stream (h := T.toHost) (e := e) (encode T e t Cx.std v) s
  unfold writeToStream at hw
  simp only [hw] at h1
  rcases h1.2.1 with ⟨h2, h3⟩ | ⟨h2, _⟩ | ⟨_, h2, _⟩
  · cases hc : wire (Fmt.code T.toHost e) t LenR.std v with
    | error er => rw [out_err hT hl hd hs hv hc] at h2; simp at h2
    | ok bs => rw [out_ok hT hl hd hs hv hc] at h3; exact ⟨bs, rfl, h3⟩
  · simp at h2
  · simp at h2

/-- C03 for `write_to_stream`.

Missing: `sliceOk`, and values of which the encoding has more than `usize::MAX` bytes, for which it is false (`C03_C04_false_overflow`). -/
theorem C03_bytes_needed_stream_partial {s s' : Sink} (hw : writeToStream T e t v s = (.ok (), s'))
    (hm : s'.got.length ≤ s.got.length + T.usizeMax) :
    ∃ n, bytesNeeded T t v = .ok n ∧ s'.got.length = s.got.length + n := by
  obtain ⟨bs, h1, h2⟩ := stream_inv hT hl hd hs hv hw
  rw [h2, List.length_append] at hm ⊢
  exact ⟨bs.length, needed_ok hT hl hd hs hv h1 (by omega), rfl⟩

/-- C03 for `write_to_buffer`, if the value can be written at all: it succeeds
exactly if the buffer has `bytes_needed` bytes. -/
theorem C03_bytes_needed_buffer_partial {bs buf : Bytes} {junk : Nat → UInt8}
    (hw : writeToVec T e t v junk = .ok bs) :
    (writeToBuffer T e t v buf).1 = .ok () ↔ bs.length ≤ buf.length := by
  obtain ⟨h1, hm⟩ := vec_inv hT hl hd hs hv hw
  have hm : bs.length ≤ T.usizeMax := by have := hT.isize; omega
  constructor
  · intro h
    unfold writeToBuffer at h
    rw [needed_ok hT hl hd hs hv h1 hm] at h
    simp only at h
    split at h
    · assumption
    · simp at h
  · intro h
    rw [buf_ok hT hl hd hs hv h1 h hm]

open Samples in
example : bytesNeeded x64 message msg = .ok 21 :=
  C03_bytes_needed_vec_partial x64_ok message_layout message_decl (by decide) msg_ty (msg_vec fun _ => 0)

open Samples in
example : ∀ s', writeToStream x64 .little message msg ⟨[], [.accept 2]⟩ = (.ok (), s') → s'.got.length ≤ 0 + x64.usizeMax →
    ∃ n, bytesNeeded x64 message msg = .ok n ∧ s'.got.length = 0 + n := fun _ h =>
  C03_bytes_needed_stream_partial x64_ok message_layout message_decl (by decide) msg_ty h

open Samples in
example : (writeToBuffer x64 .little message msg (List.replicate 25 0)).1 = .ok () :=
  (C03_bytes_needed_buffer_partial x64_ok message_layout message_decl (by decide) msg_ty (msg_vec fun _ => 0)).2
    (by decide)

/-! ## C04 -/

/-- A stream which does not fail: it accepts at least one byte each time or is
interrupted. -/
def Sink.Works (s : Sink) : Prop := ∀ ev ∈ s.evs, (∃ m, ev = .accept (m + 1)) ∨ ev = .fault .interrupted

omit hT hl hd hs hv in
theorem works_run {s : Sink} (hw : s.Works) (p : WProg) :
    (p.run (writingCollector T.toHost e) s).1 = (p.out T.toHost e).2 ∧
    (p.run (writingCollector T.toHost e) s).2.got = s.got ++ (p.out T.toHost e).1 := by
  rcases (run_stream (h := T.toHost) (e := e) p s).2.1 with h | ⟨_, h⟩ | ⟨k, _, h1, h2⟩
  · exact h
  · rcases hw _ h with ⟨m, h⟩ | h <;> simp at h
  · rcases hw _ h2 with ⟨m, h⟩ | h
    · simp at h
    · simp only [SinkEv.fault.injEq] at h; exact absurd h h1

omit hT hl hd hs hv in
/-- **C04**, for all types and values: if `write_to_vec` returns bytes, then `write_to_buffer` puts the same bytes in front of every buffer of
at least `bytes_needed` bytes, and `write_to_stream` gives the same bytes to every stream which does not fail. -/
theorem C04_same_bytes {bs : Bytes} {junk : Nat → UInt8} (hw : writeToVec T e t v junk = .ok bs) :
    ∃ n, bytesNeeded T t v = .ok n ∧ bs.length ≤ n ∧
    (∀ junk', writeToVec T e t v junk' = .ok bs) ∧
    (∀ buf : Bytes, n ≤ buf.length → writeToBuffer T e t v buf = (.ok (), bs ++ buf.drop bs.length)) ∧
    (∀ s : Sink, s.Works → ∃ s', writeToStream T e t v s = (.ok (), s') ∧ s'.got = s.got ++ bs) := by
  cases hn : bytesNeeded T t v with
  | error er => unfold writeToVec at hw; rw [hn] at hw; simp at hw
  | ok n =>
    have hmax : ¬ n > T.isizeMax := by
      intro h; unfold writeToVec at hw; rw [hn] at hw; simp only [if_pos h] at hw; simp at hw
    have hfit : ((encode T e t Cx.std v).out T.toHost e).2 = .ok () ∧ ((encode T e t Cx.std v).out T.toHost e).1.length ≤ n := by
      unfold writeToVec at hw
      rw [hn] at hw
      simp only [if_neg hmax] at hw
      have h1 := run_buffer_fits (h := T.toHost) (e := e) (encode T e t Cx.std v) ⟨(List.range n).map junk, 0⟩
      generalize (encode T e t Cx.std v).run (bufferCollector T.toHost e) ⟨(List.range n).map junk, 0⟩ = r at h1 hw
      obtain ⟨r1, r2⟩ := r
      cases r1 with
      | ok u => simpa using h1 rfl (Nat.zero_le _)
      | error er => simp at hw
    have hvec : ∀ junk', writeToVec T e t v junk' = .ok ((encode T e t Cx.std v).out T.toHost e).1 := by
      intro junk'
      unfold writeToVec
      rw [hn]
      simp only [if_neg hmax]
      rw [run_buffer (encode_room t Cx.std v) _ (by simpa using hfit.2), hfit.1]
      simp
    rw [hvec junk, Except.ok.injEq] at hw
    subst hw
    refine ⟨n, rfl, hfit.2, hvec, ?_, ?_⟩
    · intro buf hb
      unfold writeToBuffer
      rw [hn]
      simp only [if_pos hb]
      rw [run_buffer (encode_room t Cx.std v) _ (by simp; have := hfit.2; omega), hfit.1]
      simp only [List.take_zero, List.nil_append, Nat.zero_add, List.append_assoc, Prod.mk.injEq, true_and, List.append_cancel_left_eq]
      rw [List.drop_take]
      have h2 := List.take_append_drop (n - ((encode T e t Cx.std v).out T.toHost e).1.length)
        (buf.drop ((encode T e t Cx.std v).out T.toHost e).1.length)
      rw [List.drop_drop, Nat.add_sub_cancel' hfit.2] at h2
      exact h2
    · intro s hw
      have h3 := works_run (T := T) (e := e) hw (encode T e t Cx.std v)
      rw [hfit.1] at h3
      exact ⟨_, Prod.ext h3.1 rfl, h3.2⟩

/-- C04: if the derive macro's bulk copies respect attributes, `bytes_needed` bytes are precisely the encoding. -/
theorem C04_same_bytes_partial {bs : Bytes} {junk : Nat → UInt8} (hw : writeToVec T e t v junk = .ok bs) :
    (∀ junk', writeToVec T e t v junk' = .ok bs) ∧
    (∀ buf : Bytes, bs.length ≤ buf.length → writeToBuffer T e t v buf = (.ok (), bs ++ buf.drop bs.length)) ∧
    (∀ s : Sink, s.Works → ∃ s', writeToStream T e t v s = (.ok (), s') ∧ s'.got = s.got ++ bs) := by
  obtain ⟨h1, h2⟩ := vec_inv hT hl hd hs hv hw
  refine ⟨fun j => vec_ok hT hl hd hs hv h1 h2, fun buf hb => buf_ok hT hl hd hs hv h1 hb (by have := hT.isize; omega), fun s hw => ?_⟩
  have h3 := works_run (T := T) (e := e) hw (encode T e t Cx.std v)
  rw [out_ok hT hl hd hs hv h1] at h3
  exact ⟨_, Prod.ext h3.1 rfl, h3.2⟩

/-- C04: they fail together. If `write_to_vec` fails (other than for lack of
memory), then so do the others, whatever the buffer or the stream.

Missing: `sliceOk`, and values of which the encoding has more than `usize::MAX` bytes (false: `C03_C04_false_overflow`). -/
theorem C04_fail_together_partial {er : Err} {junk : Nat → UInt8} (hw : writeToVec T e t v junk = .error er)
    (her : er ≠ .panic .capacityOverflow)
    (hmax : ∀ s', writeToStream T e t v ⟨[], []⟩ = (.ok (), s') → s'.got.length ≤ T.usizeMax) :
    (∀ buf : Bytes, ∃ er', (writeToBuffer T e t v buf).1 = .error er') ∧
    (∀ s : Sink, ∃ er', (writeToStream T e t v s).1 = .error er') := by
  have key : ∃ er', wire (Fmt.code T.toHost e) t LenR.std v = .error er' := by
    cases hc : wire (Fmt.code T.toHost e) t LenR.std v with
    | error er' => exact ⟨er', rfl⟩
    | ok bs =>
      by_cases hm : bs.length ≤ T.isizeMax
      · rw [vec_ok hT hl hd hs hv hc hm] at hw; simp at hw
      · have hn : bs.length ≤ T.usizeMax := by
          have h3 := works_run (T := T) (e := e) (s := ⟨[], []⟩) (by intro ev h; cases h) (encode T e t Cx.std v)
          rw [out_ok hT hl hd hs hv hc] at h3
          have h4 := hmax _ (Prod.ext h3.1 rfl)
          have h5 : (writeToStream T e t v ⟨[], []⟩).2.got = [] ++ bs := h3.2
          rw [h5] at h4
          exact h4
        unfold writeToVec at hw
        rw [needed_ok hT hl hd hs hv hc hn] at hw
        simp only at hw
        rw [if_pos (by omega)] at hw
        simp only [Except.error.injEq] at hw
        exact absurd hw.symm her
  obtain ⟨er', hc⟩ := key
  have ho := out_err hT hl hd hs hv hc
  constructor
  · intro buf
    unfold writeToBuffer
    cases bytesNeeded T t v with
    | error er2 => exact ⟨er2, rfl⟩
    | ok n =>
      simp only
      split
      · exact run_buffer_err _ _ er' ho
      · exact ⟨_, rfl⟩
  · intro s
    rcases (run_stream (h := T.toHost) (e := e) (encode T e t Cx.std v) s).2.1 with h | ⟨h, _⟩ | ⟨k, h, _⟩
    · exact ⟨er', h.1.trans ho⟩
    · exact ⟨_, h⟩
    · exact ⟨_, h⟩

end

open Samples in
example : (∀ junk', writeToVec x64 .little message msg junk' = .ok msgLe) ∧
    (∀ buf : Bytes, 21 ≤ buf.length → writeToBuffer x64 .little message msg buf = (.ok (), msgLe ++ buf.drop 21)) ∧
    (∀ s : Sink, s.Works → ∃ s', writeToStream x64 .little message msg s = (.ok (), s') ∧ s'.got = s.got ++ msgLe) :=
  C04_same_bytes_partial x64_ok message_layout message_decl (by decide) msg_ty (msg_vec fun _ => 0)

/-- A system time before the epoch cannot be written. -/
example : (∀ buf : Bytes, ∃ er', (writeToBuffer Samples.x64 .little .systemTime
      (.pair (.num (2 ^ 64 - 1)) (.num 0)) buf).1 = .error er') ∧
    (∀ s : Sink, ∃ er', (writeToStream Samples.x64 .little .systemTime
      (.pair (.num (2 ^ 64 - 1)) (.num 0)) s).1 = .error er') :=
  C04_fail_together_partial (er := .invalidSystemTime) (junk := fun _ => 0) Samples.x64_ok (by decide) (by decide)
    (by decide) (by simp [hasTy]) (by decide) (by decide) (fun s' h => absurd (congrArg Prod.fst h) (by
      rw [show (writeToStream Samples.x64 .little .systemTime (.pair (.num (2 ^ 64 - 1)) (.num 0)) ⟨[], []⟩).1
        = .error .invalidSystemTime from by decide]
      intro h; cases h))

/-! ## C05 -/

/-- **C05**: if the buffer is too small, `write_to_buffer` says so and leaves the
buffer as it is; in no case does it change the length of the buffer or a byte
after the first `bytes_needed` ones. For all types and values. -/
theorem C05_write_to_buffer_bounds (T : Target) (e : Endian) (t : Ty) (v : Val) (buf : Bytes) :
    (∀ n, bytesNeeded T t v = .ok n → buf.length < n →
      writeToBuffer T e t v buf = (.error (.outputBufferIsTooSmall buf.length n), buf)) ∧
    (∀ er, bytesNeeded T t v = .error er → writeToBuffer T e t v buf = (.error er, buf)) ∧
    (writeToBuffer T e t v buf).2.length = buf.length ∧
    (∀ n, bytesNeeded T t v = .ok n → ∀ i, n ≤ i → (writeToBuffer T e t v buf).2[i]? = buf[i]?) := by
  have hlen : ∀ n, n ≤ buf.length →
      ((encode T e t Cx.std v).run (bufferCollector T.toHost e) ⟨buf.take n, 0⟩).2.buf.length = n := by
    intro n hn
    rw [run_buffer_length]
    simp; omega
  refine ⟨?_, ?_, ?_, ?_⟩
  · intro n hn hlt
    unfold writeToBuffer
    rw [hn]
    simp only
    rw [if_neg (by omega)]
  · intro er her
    unfold writeToBuffer
    rw [her]
  · unfold writeToBuffer
    split
    · rfl
    · rename_i n _
      split
      · rename_i hn
        simp only [List.length_append, hlen n hn, List.length_drop]; omega
      · rfl
  · intro n hn i hi
    unfold writeToBuffer
    rw [hn]
    simp only
    split
    · rename_i hb
      simp only
      rw [List.getElem?_append_right (by rw [hlen n hb]; exact hi), hlen n hb, List.getElem?_drop]
      congr 1
      omega
    · rfl

example : writeToBuffer Samples.x64 .little (.prim .u32) (.num 7) [9, 9, 9] =
    (.error (.outputBufferIsTooSmall 3 4), [9, 9, 9]) :=
  (C05_write_to_buffer_bounds _ _ _ _ _).1 4 (by decide) (by decide)

/-! ## C33 -/

/-- **C33**: whatever the stream does, what it received is a prefix of the
encoding; if `write_to_stream` fails, then because the stream failed, with that
error, which is never `Interrupted`.

Missing for the full claim: `sliceOk`. -/
theorem C33_failing_stream_prefix_partial {T : Target} (hT : T.Ok) {e : Endian} {t : Ty} {v : Val} {bs : Bytes}
    {junk : Nat → UInt8} (hl : layoutOk T t = true) (hd : declOk t = true) (hs : sliceOk T t = true)
    (hv : hasTy T t v) (hw : writeToVec T e t v junk = .ok bs) (s : Sink) :
    ∃ r s' p, writeToStream T e t v s = (r, s') ∧ s'.got = s.got ++ p ∧ p <+: bs ∧
      ((r = .ok () ∧ p = bs) ∨ (r = .error (.io .writeZero) ∧ .accept 0 ∈ s.evs) ∨
        ∃ k, r = .error (.io k) ∧ k ≠ .interrupted ∧ .fault k ∈ s.evs) := by
  have h1 := (vec_inv hT hl hd hs hv hw).1
  have ho := out_ok hT hl hd hs hv h1
  have h2 := run_stream (h := T.toHost) (e := e) (encode T e t Cx.std v) s
  rw [ho] at h2
  obtain ⟨⟨n, hn⟩, h3, _⟩ := h2
  rcases h3 with ⟨h3, h4⟩ | h3 | h3
  · exact ⟨_, _, bs, rfl, h4, List.prefix_refl _, .inl ⟨h3, rfl⟩⟩
  · exact ⟨_, _, bs.take n, rfl, hn, List.take_prefix _ _, .inr (.inl h3)⟩
  · exact ⟨_, _, bs.take n, rfl, hn, List.take_prefix _ _, .inr (.inr h3)⟩

open Samples in
example : ∃ r s' p, writeToStream x64 .little message msg ⟨[], [.accept 2, .fault .interrupted, .fault (.other 5)]⟩ = (r, s') ∧
    s'.got = [] ++ p ∧ p <+: msgLe ∧
      ((r = .ok () ∧ p = msgLe) ∨ (r = .error (.io .writeZero) ∧
        .accept 0 ∈ [SinkEv.accept 2, .fault .interrupted, .fault (.other 5)]) ∨
        ∃ k, r = .error (.io k) ∧ k ≠ .interrupted ∧ .fault k ∈ [SinkEv.accept 2, .fault .interrupted, .fault (.other 5)]) :=
  C33_failing_stream_prefix_partial x64_ok message_layout message_decl (by decide) msg_ty (msg_vec fun _ => 0) _

/-- Without the interruptions. -/
def Sink.calm (s : Sink) : Sink := ⟨s.got, s.evs.filter (· ≠ .fault .interrupted)⟩

theorem writeAll_calm : ∀ (evs : List SinkEv) (got bs : Bytes),
    (Sink.writeAll (evs.filter (· ≠ .fault .interrupted)) got bs).1 = (Sink.writeAll evs got bs).1 ∧
    (Sink.writeAll (evs.filter (· ≠ .fault .interrupted)) got bs).2 = (Sink.writeAll evs got bs).2.calm
  | evs, got, [] => by unfold Sink.writeAll; exact ⟨rfl, rfl⟩
  | [], got, b :: bs => by simp [Sink.writeAll, Sink.calm]
  | .accept 0 :: evs, got, b :: bs => by simp [Sink.writeAll, Sink.calm]
  | .accept (n + 1) :: evs, got, b :: bs => by
    rw [List.filter_cons_of_pos (by simp)]
    unfold Sink.writeAll
    exact writeAll_calm evs _ _
  | .fault .interrupted :: evs, got, b :: bs => by
    rw [List.filter_cons_of_neg (by simp)]
    have h : Sink.writeAll (.fault .interrupted :: evs) got (b :: bs) = Sink.writeAll evs got (b :: bs) := by
      rw [Sink.writeAll]
    rw [h]
    exact writeAll_calm evs got (b :: bs)
  | .fault .unexpectedEof :: evs, got, b :: bs => by simp [Sink.writeAll, Sink.calm]
  | .fault .writeZero :: evs, got, b :: bs => by simp [Sink.writeAll, Sink.calm]
  | .fault (.other c) :: evs, got, b :: bs => by simp [Sink.writeAll, Sink.calm]

theorem wrun_calm {h : Host} {e : Endian} (p : WProg) (s : Sink) :
    (p.run (writingCollector h e) s.calm).1 = (p.run (writingCollector h e) s).1 ∧
    (p.run (writingCollector h e) s.calm).2 = (p.run (writingCollector h e) s).2.calm := by
  have key : ∀ (bs : Bytes) (k : WProg), (∀ s : Sink,
      (k.run (writingCollector h e) s.calm).1 = (k.run (writingCollector h e) s).1 ∧
      (k.run (writingCollector h e) s.calm).2 = (k.run (writingCollector h e) s).2.calm) → ∀ s : Sink,
      (wnext (Sink.write bs s.calm) (k.run (writingCollector h e))).1 =
        (wnext (Sink.write bs s) (k.run (writingCollector h e))).1 ∧
      (wnext (Sink.write bs s.calm) (k.run (writingCollector h e))).2 =
        (wnext (Sink.write bs s) (k.run (writingCollector h e))).2.calm := by
    intro bs k ih s
    have h1 := writeAll_calm s.evs s.got bs
    unfold Sink.write
    rw [show s.calm.got = s.got from rfl, show s.calm.evs = s.evs.filter (· ≠ .fault .interrupted) from rfl]
    generalize Sink.writeAll s.evs s.got bs = w at h1
    generalize Sink.writeAll (s.evs.filter (· ≠ .fault .interrupted)) s.got bs = w' at h1
    obtain ⟨w1, w2⟩ := w
    obtain ⟨w1', w2'⟩ := w'
    obtain ⟨h1, h2⟩ := h1
    dsimp only at h1 h2
    subst h1 h2
    cases w1' with
    | ok u => exact ih w2
    | error er => exact ⟨rfl, rfl⟩
  induction p generalizing s with
  | done r => exact ⟨rfl, rfl⟩
  | bytes bs k ih => rw [run_bytes, run_bytes]; exact key bs k ih s
  | num n v k ih => rw [run_num, run_num]; exact key _ k ih s
  | room n k ih =>
    simp only [WProg.run, writingCollector, defaultOps, reduceCtorEq, if_false]
    exact ih s

/-- **C33**, for all types and values: let a stream which works (`w`) receive `bs`.  Then any other stream receives a prefix
of `bs`.  Either all of it, with the same result; or writing fails, with an error of that stream which is not
`Interrupted`. -/
theorem C33_failing_stream_prefix (T : Target) (e : Endian) (t : Ty) (v : Val) {w w' : Sink} (hw : w.Works)
    {r : Except Err Unit} {bs : Bytes} (hr : writeToStream T e t v w = (r, w')) (hbs : w'.got = w.got ++ bs) (s : Sink) :
    ∃ r' s' p, writeToStream T e t v s = (r', s') ∧ s'.got = s.got ++ p ∧ p <+: bs ∧
      ((r' = r ∧ p = bs) ∨ (r' = .error (.io .writeZero) ∧ .accept 0 ∈ s.evs) ∨
        ∃ k, r' = .error (.io k) ∧ k ≠ .interrupted ∧ .fault k ∈ s.evs) := by
  have h1 := works_run (T := T) (e := e) hw (encode T e t Cx.std v)
  unfold writeToStream at hr
  rw [hr] at h1
  obtain ⟨g1, g2⟩ := h1
  dsimp only at g1 g2
  rw [hbs, List.append_cancel_left_eq] at g2
  have h2 := run_stream (h := T.toHost) (e := e) (encode T e t Cx.std v) s
  rw [← g1, ← g2] at h2
  obtain ⟨⟨n, hn⟩, h3, _⟩ := h2
  rcases h3 with ⟨h3, h4⟩ | h3 | h3
  · exact ⟨_, _, bs, rfl, h4, List.prefix_refl _, .inl ⟨h3, rfl⟩⟩
  · exact ⟨_, _, bs.take n, rfl, hn, List.take_prefix _ _, .inr (.inl h3)⟩
  · exact ⟨_, _, bs.take n, rfl, hn, List.take_prefix _ _, .inr (.inr h3)⟩

/-- **C33**: interrupted writes are retried: without the interruptions the result and the bytes received are the same, for all
types and values, whether the stream fails or not. -/
theorem C33_interruptions (T : Target) (e : Endian) (t : Ty) (v : Val) (s : Sink) :
    (writeToStream T e t v s).1 = (writeToStream T e t v s.calm).1 ∧
    (writeToStream T e t v s).2.got = (writeToStream T e t v s.calm).2.got := by
  have h := wrun_calm (h := T.toHost) (e := e) (encode T e t Cx.std v) s
  exact ⟨h.1.symm, (congrArg Sink.got h.2).symm⟩

open Samples in
/-- The third byte of four is not accepted. -/
example : ∃ r' s' p, writeToStream x64 .little (.prim .u32) (.num 7) ⟨[9], [.accept 2, .fault (.other 5)]⟩ = (r', s') ∧
    s'.got = [9] ++ p ∧ p <+: [7, 0, 0, 0] ∧ ((r' = .ok () ∧ p = [7, 0, 0, 0]) ∨
      (r' = .error (.io .writeZero) ∧ .accept 0 ∈ [SinkEv.accept 2, .fault (.other 5)]) ∨
      ∃ k, r' = .error (.io k) ∧ k ≠ .interrupted ∧ .fault k ∈ [SinkEv.accept 2, .fault (.other 5)]) :=
  C33_failing_stream_prefix x64 .little (.prim .u32) (.num 7) (w := ⟨[], []⟩) (w' := ⟨[7, 0, 0, 0], []⟩) (by simp [Sink.Works])
    (by decide) rfl ⟨[9], [.accept 2, .fault (.other 5)]⟩

open Samples in
example : (writeToStream x64 .little (.prim .u32) (.num 7) ⟨[], [.fault .interrupted, .accept 2, .fault .interrupted]⟩) =
    (.ok (), ⟨[7, 0, 0, 0], []⟩) := by decide

/-! ## C34 -/

/-- C34 is false: the file cannot be written to at all, yet `write_to_file`
returns `Ok`. -/
theorem C34_false : ∃ (t : Ty) (v : Val) (evs : List SinkEv) (bs : Bytes),
    writeToFile Samples.x64 .little t v none evs = (.ok (), []) ∧
    writeToVec Samples.x64 .little t v (fun _ => 0) = .ok bs ∧ bs ≠ [] :=
  ⟨.prim .u32, .num 7, [.fault (.other 5)], [7, 0, 0, 0], by decide, by decide, by decide⟩

/-- Everything given to a `BufWriter` is in the file or in its buffer as long as
there was no error, and the buffer is at most full. -/
theorem bufW_write (bs : Bytes) (w : BufW) (hb : w.buf.length ≤ bufWriterCap) :
    ((BufW.write bs w).1 = .ok () → (BufW.write bs w).2.sink.got ++ (BufW.write bs w).2.buf =
      w.sink.got ++ w.buf ++ bs ∧ (BufW.write bs w).2.buf.length ≤ bufWriterCap) ∧
    (∀ ev ∈ (BufW.write bs w).2.sink.evs, ev ∈ w.sink.evs) ∧
    (w.sink.Works → (BufW.write bs w).1 = .ok ()) := by
  have works : ∀ (s : Sink) (bs : Bytes), s.Works → (Sink.writeAll s.evs s.got bs).1 = .ok () := by
    intro s bs hw
    obtain ⟨_, _, h, _⟩ := writeAll_prefix s.evs s.got bs
    cases hr : (Sink.writeAll s.evs s.got bs).1 with
    | ok u => rfl
    | error er =>
      rcases h er hr with ⟨_, h⟩ | ⟨k, _, h1, h2⟩
      · rcases hw _ h with ⟨m, h⟩ | h <;> simp at h
      · rcases hw _ h2 with ⟨m, h⟩ | h
        · simp at h
        · simp only [SinkEv.fault.injEq] at h; exact absurd h h1
  have flush : ((w.flush).1 = .ok () → w.flush.2.buf = [] ∧ w.flush.2.sink.got = w.sink.got ++ w.buf) ∧
      (∀ ev ∈ w.flush.2.sink.evs, ev ∈ w.sink.evs) ∧ (w.sink.Works → w.flush.1 = .ok ()) := by
    obtain ⟨_, h1, _, h2⟩ := writeAll_prefix w.sink.evs w.sink.got w.buf
    have h3 := works w.sink w.buf
    unfold BufW.flush
    generalize Sink.writeAll w.sink.evs w.sink.got w.buf = r at h1 h2 h3
    rcases r with ⟨r, s⟩
    cases r with
    | ok u => exact ⟨fun _ => ⟨rfl, h1 rfl⟩, h2, fun _ => rfl⟩
    | error er => exact ⟨by simp, h2, by simpa using h3⟩
  unfold BufW.write
  split
  · exact ⟨fun _ => ⟨by simp, by simp; omega⟩, fun _ h => h, fun _ => rfl⟩
  · rename_i h1
    have direct : ∀ w' : BufW, (w'.buf = [] ∨ bs.length < bufWriterCap) →
        w'.buf.length + (if bs.length ≥ bufWriterCap then 0 else bs.length) ≤ bufWriterCap →
        w'.sink.got ++ w'.buf = w.sink.got ++ w.buf → (∀ ev ∈ w'.sink.evs, ev ∈ w.sink.evs) →
        (let r := (if bs.length ≥ bufWriterCap then
          match Sink.writeAll w'.sink.evs w'.sink.got bs with
          | (r, s) => (r, (⟨w'.buf, s⟩ : BufW))
        else (.ok (), ⟨w'.buf ++ bs, w'.sink⟩))
        (r.1 = .ok () → r.2.sink.got ++ r.2.buf = w.sink.got ++ w.buf ++ bs ∧ r.2.buf.length ≤ bufWriterCap) ∧
        (∀ ev ∈ r.2.sink.evs, ev ∈ w.sink.evs) ∧ (w.sink.Works → r.1 = .ok ())) := by
      intro w' hbuf hfit hgot hev
      dsimp only
      split
      · rename_i hbig
        obtain ⟨_, h1, _, h2⟩ := writeAll_prefix w'.sink.evs w'.sink.got bs
        have hnil : w'.buf = [] := by
          rcases hbuf with h | h
          · exact h
          · omega
        refine ⟨fun h => ⟨?_, by rw [hnil]; simp⟩, fun ev h => hev ev (h2 ev h), fun h => ?_⟩
        · have := h1 h
          simp only [hnil, List.append_nil] at hgot ⊢
          rw [this, hgot]
        · exact works w'.sink bs fun ev hm => h ev (hev ev hm)
      · rename_i hsmall
        rw [if_neg hsmall] at hfit
        refine ⟨fun _ => ⟨?_, ?_⟩, hev, fun _ => rfl⟩
        · simp only; rw [← List.append_assoc, hgot]
        · simp; omega
    by_cases hgt : bs.length > bufWriterCap - w.buf.length
    · simp only [hgt, if_true]
      rcases hfl : w.flush with ⟨r, w'⟩
      rw [hfl] at flush
      cases r with
      | error er =>
        refine ⟨by simp, flush.2.1, fun h => ?_⟩
        have := flush.2.2 h; simp at this
      | ok u =>
        obtain ⟨f1, f2⟩ := flush.1 rfl
        exact direct w' (.inl f1) (by
          simp only at f1
          rw [f1]; split <;> simp_all <;> omega) (by simp only at f1 f2; rw [f1, f2]; simp) flush.2.1
    · simp only [hgt, if_false]
      refine direct w ?_ ?_ rfl fun _ h => h
      · by_cases hbig : bs.length < bufWriterCap
        · exact .inr hbig
        · left
          exact List.eq_nil_of_length_eq_zero (by omega)
      · split <;> omega

theorem run_file {h : Host} {e : Endian} (p : WProg) (w : BufW) (hb : w.buf.length ≤ bufWriterCap) :
    let r := p.run (fileCollector h e) w
    (r.1 = .ok () → (p.out h e).2 = .ok () ∧ r.2.sink.got ++ r.2.buf = w.sink.got ++ w.buf ++ (p.out h e).1 ∧
      r.2.buf.length ≤ bufWriterCap) ∧
    (w.sink.Works → r.1 = (p.out h e).2 ∧ r.2.sink.Works) := by
  have key : ∀ (bs : Bytes) (k : WProg), (∀ w : BufW, w.buf.length ≤ bufWriterCap →
      let r := k.run (fileCollector h e) w
      (r.1 = .ok () → (k.out h e).2 = .ok () ∧ r.2.sink.got ++ r.2.buf = w.sink.got ++ w.buf ++ (k.out h e).1 ∧
        r.2.buf.length ≤ bufWriterCap) ∧ (w.sink.Works → r.1 = (k.out h e).2 ∧ r.2.sink.Works)) →
      ∀ w : BufW, w.buf.length ≤ bufWriterCap →
      let r := wnext (BufW.write bs w) (k.run (fileCollector h e))
      (r.1 = .ok () → (k.out h e).2 = .ok () ∧
        r.2.sink.got ++ r.2.buf = w.sink.got ++ w.buf ++ (bs ++ (k.out h e).1) ∧
        r.2.buf.length ≤ bufWriterCap) ∧ (w.sink.Works → r.1 = (k.out h e).2 ∧ r.2.sink.Works) := by
    intro bs k ih w hb
    have h1 := bufW_write bs w hb
    generalize BufW.write bs w = r at h1
    obtain ⟨r, w'⟩ := r
    cases r with
    | error er =>
      simp only [wnext]
      exact ⟨by simp, fun hw => by have := h1.2.2 hw; simp at this⟩
    | ok u =>
      simp only [wnext]
      obtain ⟨g1, g2⟩ := h1.1 rfl
      have := ih w' g2
      refine ⟨fun hr => ?_, fun hw => this.2 fun ev hm => hw ev (h1.2.1 ev hm)⟩
      obtain ⟨a, b, c⟩ := this.1 hr
      refine ⟨a, ?_, c⟩
      rw [b]
      simp only at g1
      rw [g1, List.append_assoc, List.append_assoc]
  induction p generalizing w with
  | done r => exact ⟨fun hr => ⟨hr, by simp [WProg.run, WProg.out], hb⟩, fun hw => ⟨rfl, hw⟩⟩
  | bytes bs k ih => dsimp only; rw [run_bytes]; exact key bs k ih w hb
  | num n v k ih => dsimp only; rw [run_num]; exact key _ k ih w hb
  | room n k ih => exact ih w hb

/-- Whatever happens, what is in the file and in the buffer of a `BufWriter` is the beginning of what it was given. -/
theorem bufW_prefix (bs : Bytes) (w : BufW) (hb : w.buf.length ≤ bufWriterCap) :
    (BufW.write bs w).2.sink.got ++ (BufW.write bs w).2.buf <+: w.sink.got ++ w.buf ++ bs := by
  have flush : w.flush.2.sink.got ++ w.flush.2.buf = w.sink.got ++ w.buf ∧ (w.flush.1 = .ok () → w.flush.2.buf = []) := by
    obtain ⟨⟨n, h0⟩, h1, _⟩ := writeAll_prefix w.sink.evs w.sink.got w.buf
    unfold BufW.flush
    generalize Sink.writeAll w.sink.evs w.sink.got w.buf = r at h0 h1
    rcases r with ⟨er | u, s⟩
    · simp only at h0
      refine ⟨?_, by simp⟩
      simp only [h0, List.length_append, List.length_take, Nat.add_sub_cancel_left, List.append_assoc, List.append_cancel_left_eq]
      rcases Nat.le_total n w.buf.length with hn | hn
      · rw [Nat.min_eq_left hn, List.take_append_drop]
      · rw [Nat.min_eq_right hn, List.take_of_length_le hn, List.drop_length, List.append_nil]
    · simp only at h1
      simp [h1 trivial]
  have direct : ∀ w' : BufW, (w'.buf = [] ∨ bs.length < bufWriterCap) → w'.sink.got ++ w'.buf = w.sink.got ++ w.buf →
      (let r : Except Err Unit × BufW := (if bs.length ≥ bufWriterCap then
          match Sink.writeAll w'.sink.evs w'.sink.got bs with
          | (r, s) => (r, (⟨w'.buf, s⟩ : BufW))
        else (.ok (), ⟨w'.buf ++ bs, w'.sink⟩))
      r.2.sink.got ++ r.2.buf <+: w.sink.got ++ w.buf ++ bs) := by
    intro w' hbuf hgot
    dsimp only
    split
    · rename_i hbig
      have hnil : w'.buf = [] := by
        rcases hbuf with h | h
        · exact h
        · omega
      obtain ⟨⟨n, h0⟩, _⟩ := writeAll_prefix w'.sink.evs w'.sink.got bs
      simp only [h0, hnil, List.append_nil] at hgot ⊢
      rw [hgot]
      exact (List.prefix_append_right_inj _).2 (List.take_prefix _ _)
    · simp only
      rw [← List.append_assoc, hgot]
      exact List.prefix_refl _
  unfold BufW.write
  split
  · rw [List.append_assoc]; exact List.prefix_refl _
  · rename_i h1
    by_cases hgt : bs.length > bufWriterCap - w.buf.length
    · simp only [hgt, if_true]
      rcases hfl : w.flush with ⟨r, w'⟩
      rw [hfl] at flush
      cases r with
      | error er => simp only at flush ⊢; rw [flush.1]; exact List.prefix_append _ _
      | ok u => exact direct w' (.inl (flush.2 rfl)) flush.1
    · simp only [hgt, if_false]
      refine direct w ?_ rfl
      by_cases hbig : bs.length < bufWriterCap
      · exact .inr hbig
      · exact .inl (List.eq_nil_of_length_eq_zero (by omega))

theorem run_file_prefix {h : Host} {e : Endian} (p : WProg) (w : BufW) (hb : w.buf.length ≤ bufWriterCap) :
    (p.run (fileCollector h e) w).2.sink.got ++ (p.run (fileCollector h e) w).2.buf <+: w.sink.got ++ w.buf ++ (p.out h e).1 := by
  have key : ∀ (bs : Bytes) (k : WProg), (∀ w : BufW, w.buf.length ≤ bufWriterCap →
      (k.run (fileCollector h e) w).2.sink.got ++ (k.run (fileCollector h e) w).2.buf <+: w.sink.got ++ w.buf ++ (k.out h e).1) →
      ∀ w : BufW, w.buf.length ≤ bufWriterCap →
      let r := wnext (BufW.write bs w) (k.run (fileCollector h e))
      r.2.sink.got ++ r.2.buf <+: w.sink.got ++ w.buf ++ (bs ++ (k.out h e).1) := by
    intro bs k ih w hb
    have h1 := bufW_write bs w hb
    have h2 := bufW_prefix bs w hb
    generalize BufW.write bs w = r at h1 h2
    obtain ⟨r, w'⟩ := r
    cases r with
    | error er =>
      simp only [wnext]
      rw [← List.append_assoc]
      exact h2.trans (List.prefix_append _ _)
    | ok u =>
      simp only [wnext]
      obtain ⟨g1, g2⟩ := h1.1 rfl
      have := ih w' g2
      simp only at g1
      rwa [g1, List.append_assoc _ bs] at this
  induction p generalizing w with
  | done r => simp only [WProg.run, WProg.out, List.append_nil]; exact List.prefix_refl _
  | bytes bs k ih => rw [run_bytes]; exact key bs k ih w hb
  | num n v k ih => rw [run_num]; exact key _ k ih w hb
  | room n k ih => exact ih w hb

/-- An error of a `BufWriter` is one of the file. -/
theorem bufW_error (bs : Bytes) (w : BufW) :
    (∀ er, (BufW.write bs w).1 = .error er → (er = .io .writeZero ∧ .accept 0 ∈ w.sink.evs) ∨
      ∃ k, er = .io k ∧ k ≠ .interrupted ∧ .fault k ∈ w.sink.evs) ∧
    ∀ ev ∈ (BufW.write bs w).2.sink.evs, ev ∈ w.sink.evs := by
  have flush : (∀ er, w.flush.1 = .error er → (er = .io .writeZero ∧ .accept 0 ∈ w.sink.evs) ∨
      ∃ k, er = .io k ∧ k ≠ .interrupted ∧ .fault k ∈ w.sink.evs) ∧ ∀ ev ∈ w.flush.2.sink.evs, ev ∈ w.sink.evs := by
    obtain ⟨_, _, h1, h2⟩ := writeAll_prefix w.sink.evs w.sink.got w.buf
    unfold BufW.flush
    generalize Sink.writeAll w.sink.evs w.sink.got w.buf = r at h1 h2
    rcases r with ⟨er | u, s⟩
    · refine ⟨fun er' h => h1 er' ?_, h2⟩
      simpa using h
    · exact ⟨by simp, h2⟩
  have direct : ∀ w' : BufW, (∀ ev ∈ w'.sink.evs, ev ∈ w.sink.evs) →
      (let r : Except Err Unit × BufW := (if bs.length ≥ bufWriterCap then
          match Sink.writeAll w'.sink.evs w'.sink.got bs with
          | (r, s) => (r, (⟨w'.buf, s⟩ : BufW))
        else (.ok (), ⟨w'.buf ++ bs, w'.sink⟩))
      (∀ er, r.1 = .error er → (er = .io .writeZero ∧ .accept 0 ∈ w.sink.evs) ∨
        ∃ k, er = .io k ∧ k ≠ .interrupted ∧ .fault k ∈ w.sink.evs) ∧ ∀ ev ∈ r.2.sink.evs, ev ∈ w.sink.evs) := by
    intro w' hw
    dsimp only
    split
    · obtain ⟨_, _, h1, h2⟩ := writeAll_prefix w'.sink.evs w'.sink.got bs
      refine ⟨fun er h => ?_, fun ev h => hw _ (h2 ev h)⟩
      rcases h1 er h with ⟨a, b⟩ | ⟨k, a, b, c⟩
      · exact .inl ⟨a, hw _ b⟩
      · exact .inr ⟨k, a, b, hw _ c⟩
    · exact ⟨by simp, hw⟩
  unfold BufW.write
  split
  · exact ⟨by simp, fun _ h => h⟩
  · by_cases hgt : bs.length > bufWriterCap - w.buf.length
    · simp only [hgt, if_true]
      rcases hfl : w.flush with ⟨r, w'⟩
      rw [hfl] at flush
      cases r with
      | error er => exact ⟨fun er' h => flush.1 er' (by simpa using h), flush.2⟩
      | ok u => exact direct w' flush.2
    · simp only [hgt, if_false]
      exact direct w fun _ h => h

theorem run_file_error {h : Host} {e : Endian} (p : WProg) (w : BufW) :
    (p.run (fileCollector h e) w).1 = (p.out h e).2 ∨
      ((p.run (fileCollector h e) w).1 = .error (.io .writeZero) ∧ .accept 0 ∈ w.sink.evs) ∨
      ∃ k, (p.run (fileCollector h e) w).1 = .error (.io k) ∧ k ≠ .interrupted ∧ .fault k ∈ w.sink.evs := by
  have key : ∀ (bs : Bytes) (k : WProg), (∀ w : BufW, (k.run (fileCollector h e) w).1 = (k.out h e).2 ∨
      ((k.run (fileCollector h e) w).1 = .error (.io .writeZero) ∧ .accept 0 ∈ w.sink.evs) ∨
      ∃ i, (k.run (fileCollector h e) w).1 = .error (.io i) ∧ i ≠ .interrupted ∧ .fault i ∈ w.sink.evs) →
      ∀ w : BufW, let r := wnext (BufW.write bs w) (k.run (fileCollector h e))
      r.1 = (k.out h e).2 ∨ (r.1 = .error (.io .writeZero) ∧ .accept 0 ∈ w.sink.evs) ∨
      ∃ i, r.1 = .error (.io i) ∧ i ≠ .interrupted ∧ .fault i ∈ w.sink.evs := by
    intro bs k ih w
    have h1 := bufW_error bs w
    generalize BufW.write bs w = r at h1
    obtain ⟨r, w'⟩ := r
    cases r with
    | error er =>
      simp only [wnext]
      rcases h1.1 er rfl with ⟨a, b⟩ | ⟨i, a, b, c⟩
      · exact .inr (.inl ⟨by rw [a], b⟩)
      · exact .inr (.inr ⟨i, by rw [a], b, c⟩)
    | ok u =>
      simp only [wnext]
      rcases ih w' with a | ⟨a, b⟩ | ⟨i, a, b, c⟩
      · exact .inl a
      · exact .inr (.inl ⟨a, h1.2 _ b⟩)
      · exact .inr (.inr ⟨i, a, b, h1.2 _ c⟩)
  induction p generalizing w with
  | done r => exact .inl rfl
  | bytes bs k ih => rw [run_bytes]; exact key bs k ih w
  | num n v k ih => rw [run_num]; exact key _ k ih w
  | room n k ih => exact ih w

/-- **C77**: let a stream which works (`w`) receive `bs`.  Then whatever the file system does and whatever `write_to_file` returns, the file holds a prefix of
`bs` afterwards: nothing is missing in between, nothing is there twice, also after an error in the middle of a buffer, when dropping the `BufWriter` writes what was
left.  The result is the one of the stream, or an error of the file which is not `Interrupted`. -/
theorem C77_file_prefix (T : Target) (e : Endian) (t : Ty) (v : Val) {w w' : Sink} (hw : w.Works)
    {r : Except Err Unit} {bs : Bytes} (hr : writeToStream T e t v w = (r, w')) (hbs : w'.got = w.got ++ bs)
    (create : Option IoKind) (evs : List SinkEv) :
    ∃ r' file, writeToFile T e t v create evs = (r', file) ∧ file <+: bs ∧
      ((r' = r ∧ create = none) ∨ (∃ k, create = some k ∧ r' = .error (.io k) ∧ file = []) ∨
        (r' = .error (.io .writeZero) ∧ .accept 0 ∈ evs) ∨
        ∃ k, r' = .error (.io k) ∧ k ≠ .interrupted ∧ .fault k ∈ evs) := by
  have h0 := works_run (T := T) (e := e) hw (encode T e t Cx.std v)
  unfold writeToStream at hr
  rw [hr] at h0
  obtain ⟨g1, g2⟩ := h0
  dsimp only at g1 g2
  rw [hbs, List.append_cancel_left_eq] at g2
  subst g1 g2
  cases create with
  | some k => exact ⟨_, _, rfl, List.nil_prefix, .inr (.inl ⟨k, rfl, rfl, rfl⟩)⟩
  | none =>
    refine ⟨_, _, rfl, ?_, ?_⟩
    · have h1 := run_file_prefix (h := T.toHost) (e := e) (encode T e t Cx.std v) ⟨[], ⟨[], evs⟩⟩ (by simp)
      generalize (encode T e t Cx.std v).run (fileCollector T.toHost e) ⟨[], ⟨[], evs⟩⟩ = r at h1
      obtain ⟨⟨n, f1⟩, _⟩ := writeAll_prefix r.2.sink.evs r.2.sink.got r.2.buf
      have hgot : r.2.flush.2.sink = (Sink.writeAll r.2.sink.evs r.2.sink.got r.2.buf).2 := by
        unfold BufW.flush
        split <;> (rename_i hh; rw [hh])
      rw [hgot, f1]
      exact List.IsPrefix.trans ((List.prefix_append_right_inj _).2 (List.take_prefix _ _)) h1
    · rcases run_file_error (h := T.toHost) (e := e) (encode T e t Cx.std v) ⟨[], ⟨[], evs⟩⟩ with a | a | a
      · exact .inl ⟨a, rfl⟩
      · exact .inr (.inr (.inl a))
      · exact .inr (.inr (.inr a))

open Samples in
/-- The file accepts two bytes and then nothing for a while: the result is an error only if the write did not happen on drop. -/
example : ∃ r' file, writeToFile x64 .little message msg none [.accept 2, .fault (.other 5), .accept 3] = (r', file) ∧ file <+: msgLe ∧
    ((r' = .ok () ∧ (none : Option IoKind) = none) ∨ (∃ k, (none : Option IoKind) = some k ∧ r' = .error (.io k) ∧ file = []) ∨
      (r' = .error (.io .writeZero) ∧ .accept 0 ∈ [SinkEv.accept 2, .fault (.other 5), .accept 3]) ∨
      ∃ k, r' = .error (.io k) ∧ k ≠ .interrupted ∧ .fault k ∈ [SinkEv.accept 2, .fault (.other 5), .accept 3]) :=
  C77_file_prefix x64 .little message msg (w := ⟨[], []⟩) (w' := ⟨msgLe, []⟩) (by simp [Sink.Works]) (by decide) rfl none _

/-- A buffer of 8191 bytes which is written because two more come: the file takes one byte and fails.  The rest stays in the buffer and is written on drop: every byte is there
once. -/
example (b : UInt8) (rest : Bytes) (hlen : rest.length = 8190) :
    let w := BufW.write [8, 9] ⟨b :: rest, ⟨[], [.accept 1, .fault (.other 5)]⟩⟩
    w = (.error (.io (.other 5)), ⟨rest, ⟨[b], []⟩⟩) ∧ w.2.sink.got ++ w.2.buf <+: (b :: rest) ++ [8, 9] := by
  refine ⟨?_, bufW_prefix [8, 9] ⟨b :: rest, ⟨[], [.accept 1, .fault (.other 5)]⟩⟩ (by simp [bufWriterCap, hlen])⟩
  cases rest with
  | nil => simp at hlen
  | cons c rest =>
    simp only [List.length_cons] at hlen
    simp [BufW.write, BufW.flush, bufWriterCap, Sink.writeAll, hlen]

/-- What holds of C34, for all types and values: if `write_to_file` returns `Ok`, then writing to a stream which works succeeds, too, and
gives it `bs`; the file has `bs` except for, possibly, its last 8192 bytes; and it has all of it if no write fails.

Full claim: it has all of it in any case, which is false (`C34_false`). -/
theorem C34_write_to_file_partial {T : Target} {e : Endian} {t : Ty} {v : Val}
    {evs : List SinkEv} {file : Bytes} (hw : writeToFile T e t v none evs = (.ok (), file)) :
    ∃ bs, (∀ s : Sink, s.Works → (writeToStream T e t v s).1 = .ok () ∧ (writeToStream T e t v s).2.got = s.got ++ bs) ∧
      file <+: bs ∧ bs.length ≤ file.length + 8192 ∧ ((Sink.mk [] evs).Works → file = bs) := by
  unfold writeToFile at hw
  simp only [Prod.mk.injEq] at hw
  have h1 := run_file (h := T.toHost) (e := e) (encode T e t Cx.std v) ⟨[], ⟨[], evs⟩⟩ (by simp)
  generalize (encode T e t Cx.std v).run (fileCollector T.toHost e) ⟨[], ⟨[], evs⟩⟩ = r at h1 hw
  obtain ⟨r1, w⟩ := r
  obtain ⟨hr, hfile⟩ := hw
  dsimp only at hr hfile
  subst hr
  obtain ⟨a, b, c⟩ := h1.1 rfl
  simp only [List.nil_append] at b c
  refine ⟨((encode T e t Cx.std v).out T.toHost e).1, ?_, ?_⟩
  · intro s hs
    have h2 := works_run (T := T) (e := e) hs (encode T e t Cx.std v)
    exact ⟨h2.1.trans a, h2.2⟩
  · obtain ⟨⟨n, f1⟩, f2, f3, _⟩ := writeAll_prefix w.sink.evs w.sink.got w.buf
    have hgot : w.flush.2.sink = (Sink.writeAll w.sink.evs w.sink.got w.buf).2 := by
      unfold BufW.flush
      split <;> (rename_i hh; rw [hh])
    rw [hgot] at hfile
    rw [f1] at hfile
    refine ⟨?_, ?_, ?_⟩
    · rw [← hfile, ← b]
      exact (List.prefix_append_right_inj _).2 (List.take_prefix _ _)
    · rw [← hfile, ← b]
      simp only [List.length_append]
      simp only [bufWriterCap] at c
      omega
    · intro hw
      have hw' := (h1.2 hw).2
      have hok : (Sink.writeAll w.sink.evs w.sink.got w.buf).1 = .ok () := by
        cases hr : (Sink.writeAll w.sink.evs w.sink.got w.buf).1 with
        | ok u => rfl
        | error er =>
          rcases f3 er hr with ⟨_, h⟩ | ⟨k, _, g1, g2⟩
          · rcases hw' _ h with ⟨m, h⟩ | h <;> simp at h
          · rcases hw' _ g2 with ⟨m, h⟩ | h
            · simp at h
            · simp only [SinkEv.fault.injEq] at h; exact absurd h g1
      have := f2 hok
      rw [f1] at this
      rw [← hfile, this, b]

open Samples in
example : ∃ bs, (∀ s : Sink, s.Works → (writeToStream x64 .little message msg s).1 = .ok () ∧
      (writeToStream x64 .little message msg s).2.got = s.got ++ bs) ∧ msgLe <+: bs ∧
    bs.length ≤ 21 + 8192 ∧ ((Sink.mk [] [.accept 4]).Works → msgLe = bs) :=
  C34_write_to_file_partial (e := .little) (by decide)

/-! ## C43 -/

/-- **C43**: the encodings in both byte orders have the same length, and they
fail together. For all types and values. -/
theorem C43_same_length (e e' : Endian) (t : Ty) (v : Val) :
    match wire (Fmt.doc e) t LenR.std v, wire (Fmt.doc e') t LenR.std v with
    | .ok bs, .ok bs' => bs.length = bs'.length
    | .error er, .error er' => er = er'
    | _, _ => False := by
  have := wire_sameLen (Fmt.doc e) (Fmt.doc e') t LenR.std v
  unfold SameLen at this
  exact this

/-- C43 for `write_to_vec`. -/
theorem C43_same_length_vec_partial {T : Target} (hT : T.Ok) {t : Ty} {v : Val}
    (hl : layoutOk T t = true) (hd : declOk t = true) (hs : sliceOk T t = true) (hv : hasTy T t v)
    {e : Endian} {bs : Bytes} {junk : Nat → UInt8} (hw : writeToVec T e t v junk = .ok bs) (e' : Endian)
    (junk' : Nat → UInt8) :
    ∃ bs', writeToVec T e' t v junk' = .ok bs' ∧ bs'.length = bs.length := by
  obtain ⟨h1, h2⟩ := vec_inv hT hl hd hs hv hw
  have := wire_sameLen (Fmt.code T.toHost e) (Fmt.code T.toHost e') t LenR.std v
  rw [h1] at this
  unfold SameLen at this
  split at this
  · rename_i b1 b2 e1 e2
    simp only [Except.ok.injEq] at e1
    subst e1
    exact ⟨b2, vec_ok hT hl hd hs hv e2 (by omega), this.symm⟩
  · rename_i e1 _; simp at e1
  · exact this.elim

/-- C43: types made of single bytes, flags, varints, and containers with one-byte
or varint lengths are encoded alike in both byte orders. -/
theorem C43_bytes_only_partial {T : Target} (hT : T.Ok) {t : Ty} {v : Val}
    (hl : layoutOk T t = true) (hd : declOk t = true) (hs : sliceOk T t = true) (hv : hasTy T t v)
    (hb : fmtOk (fun n => decide (n ≤ 1)) false t (some .u32) = true)
    {e : Endian} {bs : Bytes} {junk : Nat → UInt8} (hw : writeToVec T e t v junk = .ok bs) (e' : Endian)
    (junk' : Nat → UInt8) : writeToVec T e' t v junk' = .ok bs := by
  obtain ⟨h1, h2⟩ := vec_inv hT hl hd hs hv hw
  have h3 : wire (Fmt.code T.toHost e) t LenR.std v = wire (Fmt.code T.toHost e') t LenR.std v := by
    refine wire_rel (R := Eq) ⟨fun _ => rfl, fun h1 h2 => by rw [h1, h2], fun n v hn => ?_, by simp⟩ t LenR.std v hb
    have : n = 0 ∨ n = 1 := by simp at hn; omega
    rcases this with rfl | rfl <;> cases e <;> cases e' <;> simp [Fmt.code, Endian.bytes, leBytes]
  rw [h3] at h1
  exact vec_ok hT hl hd hs hv h1 h2

open Samples in
example : ∃ bs', writeToVec x64 .big message msg (fun _ => 1) = .ok bs' ∧ bs'.length = 21 :=
  C43_same_length_vec_partial x64_ok message_layout message_decl (by decide) msg_ty (msg_vec fun _ => 0) _ _

/-- A struct with a string of one-byte length and a varint. -/
example : writeToVec Samples.x64 .big (.struct ⟨.rust, 32, 8, [0, 24], true⟩
    (.cons { len := some (.typed .u8) } (.str .owned) (.cons { varint := true } (.prim .u64) .nil)))
    (.pair (.bytes [0x68, 0x69]) (.pair (.num 300) .unit)) (fun _ => 0) = .ok [2, 0x68, 0x69, 0x81, 0x2c] :=
  C43_bytes_only_partial Samples.x64_ok (by decide) (by decide) (by decide)
    (by simp [hasTy, hasTyFields, Prim.size]; decide) (by decide) (e := .little) (junk := fun _ => 0) (by decide) _ _

/-- The second sequence is the first one with the bytes of some numbers (2, 4, 8 or 16 bytes each) reversed. -/
inductive Swapped : Bytes → Bytes → Prop where
  | nil : Swapped [] []
  | same (b : UInt8) {x y : Bytes} : Swapped x y → Swapped (b :: x) (b :: y)
  | number (n : Bytes) {x y : Bytes} : n.length = 2 ∨ n.length = 4 ∨ n.length = 8 ∨ n.length = 16 → Swapped x y →
      Swapped (n ++ x) (n.reverse ++ y)

theorem Swapped.refl : ∀ x, Swapped x x
  | [] => .nil
  | b :: x => .same b (Swapped.refl x)

theorem Swapped.append {a b c d : Bytes} (h : Swapped a b) (h' : Swapped c d) : Swapped (a ++ c) (b ++ d) := by
  induction h with
  | nil => exact h'
  | same b _ ih => exact .same b ih
  | number n hn _ ih => rw [List.append_assoc, List.append_assoc]; exact .number n hn ih

/-- For results of writing. -/
def SwappedRes : Except Err Bytes → Except Err Bytes → Prop
  | .ok a, .ok b => Swapped a b
  | .error a, .error b => a = b
  | _, _ => False

/-- **C43**: the big-endian encoding is the little-endian one with the bytes of numbers reversed, everything else being
at the same place and the same.

Missing: IPv6 addresses, whose bytes in either order depend on the host (see C02), and `sliceOk`. -/
theorem C43_swapped_partial {T : Target} (hT : T.Ok) {t : Ty} {v : Val}
    (hl : layoutOk T t = true) (hd : declOk t = true) (hs : sliceOk T t = true) (hv : hasTy T t v)
    (hb : fmtOk (fun n => n == 1 || n == 2 || n == 4 || n == 8 || n == 16) false t (some .u32) = true)
    {bs : Bytes} {junk : Nat → UInt8} (hw : writeToVec T .little t v junk = .ok bs) (junk' : Nat → UInt8) :
    ∃ bs', writeToVec T .big t v junk' = .ok bs' ∧ Swapped bs bs' := by
  obtain ⟨h1, h2⟩ := vec_inv hT hl hd hs hv hw
  have h3 : SwappedRes (wire (Fmt.code T.toHost .little) t LenR.std v) (wire (Fmt.code T.toHost .big) t LenR.std v) := by
    refine wire_rel ⟨?_, ?_, ?_, by simp⟩ t LenR.std v hb
    · intro w; cases w
      · rfl
      · exact Swapped.refl _
    · intro a b c d h1 h2
      cases a <;> cases b <;> cases c <;> cases d <;> simp_all [SwappedRes, cat]
      exact h1.append h2
    · intro n v hn
      simp only [Bool.or_eq_true, beq_iff_eq] at hn
      show Swapped (leBytes n v) ((leBytes n v).reverse)
      have hlen : (leBytes n v).length = n := by simp
      by_cases h1 : n = 1
      · subst h1; exact Swapped.refl _
      · have := Swapped.number (leBytes n v) (by rw [hlen]; omega) .nil
        simpa using this
  rw [h1] at h3
  have h4 := wire_sameLen (Fmt.code T.toHost .little) (Fmt.code T.toHost .big) t LenR.std v
  rw [h1] at h4
  cases hw' : wire (Fmt.code T.toHost .big) t LenR.std v with
  | error er => rw [hw'] at h3; exact h3.elim
  | ok bs' =>
    rw [hw'] at h3 h4
    have h4 : bs.length = bs'.length := h4
    exact ⟨bs', vec_ok hT hl hd hs hv hw' (by omega), h3⟩

open Samples in
example : ∃ bs', writeToVec x64 .big message msg (fun _ => 1) = .ok bs' ∧ Swapped msgLe bs' :=
  C43_swapped_partial x64_ok message_layout message_decl (by decide) msg_ty (by decide) (msg_vec fun _ => 0) _

/-- **C43 is false** as far as strings are concerned: their length is a number. -/
theorem C43_false : writeToVec Samples.x64 .little (.str .owned) (.bytes [0x68]) (fun _ => 0) = .ok [1, 0, 0, 0, 0x68] ∧
    writeToVec Samples.x64 .big (.str .owned) (.bytes [0x68]) (fun _ => 0) = .ok [0, 0, 0, 1, 0x68] := by
  decide

end Verif
