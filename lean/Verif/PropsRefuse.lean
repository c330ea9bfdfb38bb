import Verif.Refuse
import Verif.Connect
import Verif.PropsWrite
import Verif.PropsAttrs
import Verif.Samples

/-!
# C52: writing fails only for the documented reasons

and the limits of `bytes_needed` (C03, C04).
-/

namespace Verif

section
variable {T : Target} {e : Endian} {t : Ty} {v : Val}

/-- **C52**, `write_to`: with any writer, every error is a refusal of the value or comes from the writer. In particular there are no
panics but those of the writer. -/
theorem C52_write_to (hd : declOk t = true) (hv : hasTy T t v) {σ : Type} (W : WriterOps σ) (s : σ) {er : Err}
    (h : ((encode T e t Cx.std v).run W s).1 = .error er) :
    Refusal er ∨ (∃ bs s, (W.bytes bs s).1 = .error er) ∨ (∃ n v s, (W.num n v s).1 = .error er) ∨
      (er = .unexpectedEndOfOutputBuffer ∧ ∃ n s, W.canWrite n s = some false) :=
  WProg.Ends.run (Q := fun er => (∃ bs s, (W.bytes bs s).1 = .error er) ∨ (∃ n v s, (W.num n v s).1 = .error er) ∨
      (er = .unexpectedEndOfOutputBuffer ∧ ∃ n s, W.canWrite n s = some false))
    (fun bs s _ h => .inl ⟨bs, s, h⟩) (fun n v s _ h => .inr (.inl ⟨n, v, s, h⟩)) (fun n s h => .inr (.inr ⟨rfl, n, s, h⟩))
    (encode_ends t Cx.std v hd hv) h

theorem writeAll_io : ∀ {evs : List SinkEv} {got bs : Bytes} {er : Err},
    (Sink.writeAll evs got bs).1 = .error er → ∃ k, er = .io k := by
  intro evs
  induction evs with
  | nil => intro got bs er h; cases bs <;> cases h
  | cons ev evs ih =>
    intro got bs er h
    cases bs with
    | nil => cases h
    | cons b bs =>
      unfold Sink.writeAll at h
      split at h
      · cases h
      · cases h
      · cases h; exact ⟨_, rfl⟩
      · rename_i h1 h2; cases h1; exact ih h
      · rename_i h1 h2; cases h1; exact ih h
      · cases h; exact ⟨_, rfl⟩

/-- **C52**, `write_to_stream`: every error is a refusal of the value or an io error. -/
theorem C52_stream (hd : declOk t = true) (hv : hasTy T t v) {s : Sink} {er : Err}
    (h : (writeToStream T e t v s).1 = .error er) : Refusal er ∨ ∃ k, er = .io k :=
  WProg.Ends.run (Q := fun er => ∃ k, er = .io k) (fun _ _ _ h => writeAll_io h) (fun _ _ _ _ h => writeAll_io h)
    (fun _ _ h => by cases h) (encode_ends t Cx.std v hd hv) h

theorem bufW_flush_io {w : BufW} {er : Err} (h : w.flush.1 = .error er) : ∃ k, er = .io k := by
  unfold BufW.flush at h
  cases hw : Sink.writeAll w.sink.evs w.sink.got w.buf with
  | mk r s =>
    rw [hw] at h
    cases r with
    | ok _ => cases h
    | error er' => cases h; exact writeAll_io (by rw [hw])

theorem bufW_write_io {bs : Bytes} {w : BufW} {er : Err} (h : (w.write bs).1 = .error er) : ∃ k, er = .io k := by
  unfold BufW.write at h
  split at h
  · cases h
  · simp only at h
    split at h
    · rename_i er' w' hf
      cases h
      split at hf
      · exact bufW_flush_io (by rw [hf])
      · cases hf
    · split at h
      · exact writeAll_io h
      · cases h

/-- **C52**, `write_to_file`. -/
theorem C52_file (hd : declOk t = true) (hv : hasTy T t v) {create : Option IoKind} {evs : List SinkEv} {er : Err}
    (h : (writeToFile T e t v create evs).1 = .error er) : Refusal er ∨ ∃ k, er = .io k := by
  cases create with
  | some k => cases h; exact .inr ⟨k, rfl⟩
  | none =>
    unfold writeToFile at h
    exact WProg.Ends.run (W := fileCollector T.toHost e) (Q := fun er => ∃ k, er = .io k)
      (fun _ _ _ h => bufW_write_io h) (fun _ _ _ _ h => bufW_write_io h)
      (fun _ _ h => by cases h) (encode_ends t Cx.std v hd hv) h

/-- **C52**, `bytes_needed`: every error is a refusal.

Missing: values with a container of `2^63 - 1` elements or more, for which there is undefined behaviour (`C52_false`); on a 64-bit
machine they are made of elements of size zero (or are slices of exactly `isize::MAX` bytes). -/
theorem C52_bytes_needed_partial (hT : T.Ok) (hd : declOk t = true) (hv : hasTy T t v)
    (hs : T.usizeMax < 2 ^ 63 - 1 ∨ v.Short) {er : Err} (h : bytesNeeded T t v = .error er) : Refusal er :=
  bytesNeeded_err hT t v er hd hv hs h

theorem bufC_write_eof {bs : Bytes} {s : BufC} {er : Err} (h : (s.write bs).1 = .error er) :
    er = .unexpectedEndOfOutputBuffer := by
  unfold BufC.write at h
  split at h
  · cases h
  · cases h; rfl

theorem run_buffer_errs {p : WProg} {P : Err → Prop} {h : Host} (hp : p.Ends P) {s : BufC} {er : Err}
    (hr : (p.run (bufferCollector h e) s).1 = .error er) : P er ∨ er = .unexpectedEndOfOutputBuffer :=
  WProg.Ends.run (Q := fun er => er = .unexpectedEndOfOutputBuffer) (fun _ _ _ h => bufC_write_eof h)
    (fun _ _ _ _ h => bufC_write_eof h) (fun _ _ _ => rfl) hp hr

/-- **C52**, `write_to_vec`: every error is a refusal; or the vector would have more than `isize::MAX` bytes (a panic of `Vec`); or
`bytes_needed` was too small.

Missing: as for `C52_bytes_needed_partial`. -/
theorem C52_vec_partial (hT : T.Ok) (hd : declOk t = true) (hv : hasTy T t v) (hs : T.usizeMax < 2 ^ 63 - 1 ∨ v.Short)
    {junk : Nat → UInt8} {er : Err} (h : writeToVec T e t v junk = .error er) :
    Refusal er ∨ (er = .panic .capacityOverflow ∧ ∃ n, bytesNeeded T t v = .ok n ∧ T.isizeMax < n) ∨
      er = .unexpectedEndOfOutputBuffer := by
  unfold writeToVec at h
  cases hn : bytesNeeded T t v with
  | error er' => rw [hn] at h; cases h; exact .inl (bytesNeeded_err hT t v er hd hv hs hn)
  | ok n =>
    rw [hn] at h
    simp only at h
    split at h
    · cases h; exact .inr (.inl ⟨rfl, n, rfl, by assumption⟩)
    · split at h
      · cases h
      · rename_i hr
        cases h
        rcases run_buffer_errs (encode_ends t Cx.std v hd hv) (by rw [hr]) with h | h
        · exact .inl h
        · exact .inr (.inr h)

/-- **C52**, `write_to_buffer`: every error is a refusal; or the buffer is smaller than `bytes_needed`; or `bytes_needed` was too
small.

Missing: as for `C52_bytes_needed_partial`. -/
theorem C52_buffer_partial (hT : T.Ok) (hd : declOk t = true) (hv : hasTy T t v) (hs : T.usizeMax < 2 ^ 63 - 1 ∨ v.Short)
    {buf : Bytes} {er : Err} (h : (writeToBuffer T e t v buf).1 = .error er) :
    Refusal er ∨ (∃ n, er = .outputBufferIsTooSmall buf.length n ∧ bytesNeeded T t v = .ok n ∧ buf.length < n) ∨
      er = .unexpectedEndOfOutputBuffer := by
  unfold writeToBuffer at h
  cases hn : bytesNeeded T t v with
  | error er' => rw [hn] at h; cases h; exact .inl (bytesNeeded_err hT t v er hd hv hs hn)
  | ok n =>
    rw [hn] at h
    simp only at h
    split at h
    · rcases run_buffer_errs (encode_ends t Cx.std v hd hv) h with h | h
      · exact .inl h
      · exact .inr (.inr h)
    · cases h; exact .inr (.inl ⟨n, rfl, rfl, by omega⟩)

end

/-- C20 at the entry points: a container with `2^32` items or more which is written by itself gives `OutOfRangeLength` on a stream,
without a byte written; `write_to_buffer` and `write_to_vec` do not succeed either, and leave the buffer as it is.

Missing: that the error is `OutOfRangeLength` there; `bytes_needed` comes first and has others, and undefined behaviour for `2^63 - 1`
items (`C52_false`). -/
theorem C20_entry_partial {T : Target} (hT : T.Ok) {e : Endian} {t : Ty} {v : Val} {n : Nat} (hc : Counts t v n)
    (hu : n ≤ T.usizeMax) (hn : 2 ^ 32 ≤ n) :
    (∀ s, writeToStream T e t v s = (.error .outOfRangeLength, s)) ∧
    (∀ junk, ∃ er, writeToVec T e t v junk = .error er) ∧
    ∀ buf, ∃ er, writeToBuffer T e t v buf = (.error er, buf) := by
  have key : ∀ {σ : Type} (W : WriterOps σ) (s : σ), (encode T e t Cx.std v).run W s = (.error .outOfRangeLength, s) :=
    fun W s => C20_too_long hT W s (lt := .u32) (d := false) (inl := Cx.std.inl) hc hu (by simp only [LenTy.max]; omega)
  refine ⟨fun s => key _ s, fun junk => ?_, fun buf => ?_⟩
  · unfold writeToVec
    cases bytesNeeded T t v with
    | error er => exact ⟨er, rfl⟩
    | ok m =>
      simp only
      split
      · exact ⟨_, rfl⟩
      · rw [key]; exact ⟨_, rfl⟩
  · unfold writeToBuffer
    cases bytesNeeded T t v with
    | error er => exact ⟨er, rfl⟩
    | ok m =>
      simp only
      split
      · rw [key]; exact ⟨_, by rw [List.take_append_drop]⟩
      · exact ⟨_, rfl⟩

/-- A vector of `2^32` units. -/
example {vs : List Val} (h : vs.length = 2 ^ 32) (s : Sink) :
    writeToStream Samples.x64 .little (.seq .vec .unit) (.list vs) s = (.error .outOfRangeLength, s) :=
  (C20_entry_partial Samples.x64_ok (.seq vs) (by rw [h]; decide) (by omega)).1 s

/-! ## Examples and limits -/

open Samples

/-- A short value: a message. -/
theorem msg_short : msg.Short := by
  refine .pair (.bytes (by decide)) (.pair .num (.pair (.variant (.pair (.list (by decide) ?_) .unit)) .unit))
  intro v hv
  simp only [List.mem_cons, List.not_mem_nil, or_false] at hv
  rcases hv with rfl | rfl <;> exact .pair .num (.pair .num .unit)

example {junk : Nat → UInt8} {er : Err} (h : writeToVec x64 .little message msg junk = .error er) : Refusal er ∨
    (er = .panic .capacityOverflow ∧ ∃ n, bytesNeeded x64 message msg = .ok n ∧ x64.isizeMax < n) ∨
      er = .unexpectedEndOfOutputBuffer := C52_vec_partial x64_ok message_decl msg_ty (.inr msg_short) h

/-- A system time before 1970 is refused. -/
example : Refusal .invalidSystemTime ∧
    (writeToStream x64 .little .systemTime (.pair (.num (2 ^ 64 - 1)) (.num 0)) ⟨[], []⟩).1 = .error .invalidSystemTime :=
  ⟨.inr (.inr rfl), by decide⟩

/-- **C52 is false** for a vector of `2^63 - 1` units, which takes no memory: `bytes_needed`, and so `write_to_vec` and
`write_to_buffer`, have undefined behaviour (src/utils.rs:1-18); `write_to_stream` gives `OutOfRangeLength`. -/
theorem C52_false : ∃ v, hasTy x64 (.seq .vec .unit) v ∧ bytesNeeded x64 (.seq .vec .unit) v = .error (.panic .undefined) ∧
    (∀ junk, writeToVec x64 .little (.seq .vec .unit) v junk = .error (.panic .undefined)) ∧
    (∀ buf, writeToBuffer x64 .little (.seq .vec .unit) v buf = (.error (.panic .undefined), buf)) ∧
    ∀ s, writeToStream x64 .little (.seq .vec .unit) v s = (.error .outOfRangeLength, s) := by
  obtain ⟨vs, hlen, hall⟩ : ∃ vs : List Val, vs.length = 2 ^ 63 - 1 ∧ ∀ v ∈ vs, v = .unit :=
    ⟨_, List.length_replicate, fun _ => List.eq_of_mem_replicate⟩
  have hn : bytesNeeded x64 (.seq .vec .unit) (.list vs) = .error (.panic .undefined) := by
    rw [bytesNeeded, isLength, hlen, if_pos (by decide)]
  refine ⟨.list vs, ?_, hn, ?_, ?_, ?_⟩
  · simp only [hasTy, hlen]
    refine ⟨fun v hv => ?_, by decide, by decide⟩
    rw [hall v hv]
    trivial
  · intro junk
    unfold writeToVec
    rw [hn]
  · intro buf
    unfold writeToBuffer
    rw [hn]
  · intro s
    unfold writeToStream
    rw [encode, hlen]
    rfl

theorem utf8Valid_ascii : ∀ {bs : Bytes}, (∀ b ∈ bs, b = 0) → utf8Valid bs = true
  | [], _ => rfl
  | b :: bs, h => by
    have h1 := h b (List.mem_cons_self ..)
    subst h1
    unfold utf8Valid
    rw [if_pos (by decide)]
    exact utf8Valid_ascii fun b hb => h b (List.mem_cons_of_mem _ hb)

theorem catAll_replicate {f : Val → Except Err Bytes} {v : Val} {b : Bytes} (h : f v = .ok b) :
    ∀ n, catAll f (List.replicate n v) = .ok (List.replicate n b).flatten
  | 0 => rfl
  | n + 1 => by
    rw [List.replicate_succ, catAll, h, catAll_replicate h n, List.replicate_succ, List.flatten_cons]
    rfl

theorem ends_of_out {h : Host} {e : Endian} : ∀ {p : WProg}, (p.out h e).2 = .ok () → p.Ends fun _ => False
  | .done r, hr => fun er h' => by subst h'; cases hr
  | .bytes _ k, hr => ends_of_out (p := k) hr
  | .num _ _ k, hr => ends_of_out (p := k) hr
  | .room _ k, hr => ends_of_out (p := k) hr

/-- **C03 and C04 are false** on a 32-bit machine for values of which the encoding has more than `usize::MAX` bytes, here a vector of
4096 references to one string of 1 MiB: in a release build `bytes_needed` wraps around, writing to a stream succeeds with
`2^32 + 16388` bytes, and writing to a vector fails, saying that its buffer is too short. (A debug build panics.) -/
theorem C03_C04_false_overflow : ∃ v, hasTy le32 (.seq .vec (.str .ref)) v ∧
    bytesNeeded le32 (.seq .vec (.str .ref)) v = .ok 16388 ∧
    (∃ s, writeToStream le32 .little (.seq .vec (.str .ref)) v ⟨[], []⟩ = (.ok (), s) ∧ s.got.length = 2 ^ 32 + 16388) ∧
    ∀ junk, writeToVec le32 .little (.seq .vec (.str .ref)) v junk = .error .unexpectedEndOfOutputBuffer := by
  obtain ⟨bs, hbs, hall⟩ : ∃ bs : Bytes, bs.length = 2 ^ 20 ∧ ∀ b ∈ bs, b = 0 :=
    ⟨_, List.length_replicate, fun _ => List.eq_of_mem_replicate⟩
  obtain ⟨vs, hvs, hlen⟩ : ∃ vs : List Val, vs = List.replicate 4096 (.bytes bs) ∧ vs.length = 4096 :=
    ⟨_, rfl, List.length_replicate⟩
  have hl : layoutOk le32 (.seq .vec (.str .ref)) = true := by decide
  have hd : declOk (.seq .vec (.str .ref)) = true := by decide
  have hs : sliceOk le32 (.seq .vec (.str .ref)) = true := by decide
  have hv : hasTy le32 (.seq .vec (.str .ref)) (.list vs) := by
    rw [hasTy, hlen]
    refine ⟨fun v hv => ?_, by decide, by decide⟩
    rw [hvs] at hv
    rw [List.eq_of_mem_replicate hv, hasTy, hbs]
    exact ⟨utf8Valid_ascii hall, by decide⟩
  have hw : ∀ F, ∃ out, wire F (.seq .vec (.str .ref)) LenR.std (.list vs) = .ok out ∧ out.length = 2 ^ 32 + 16388 := by
    intro F
    have hw : wireLen F.e 4096 LenR.std = .ok (wireNum F.e .u32 4096) := rfl
    have hx : wire F (.str .ref) LenR.std (.bytes bs) = .ok (wireNum F.e .u32 bs.length ++ bs) := by
      rw [wire, LenR.std, wireLen, if_neg (by rw [hbs]; decide)]
      rfl
    have hc := catAll_replicate (f := wire F (.str .ref) LenR.std) hx 4096
    refine ⟨wireNum F.e .u32 4096 ++ (List.replicate 4096 (wireNum F.e .u32 bs.length ++ bs)).flatten, ?_, ?_⟩
    · rw [wire, hlen, hw, hvs, hc]
      rfl
    · rw [List.length_append, List.length_flatten]
      simp only [List.map_replicate, List.sum_replicate_nat, List.length_append, hbs, wireNum, Endian.bytes_length]
      decide
  obtain ⟨out, ho, hol⟩ := hw (Fmt.code le32.toHost .little)
  have hn : bytesNeeded le32 (.seq .vec (.str .ref)) (.list vs) = .ok 16388 := by
    rw [needed_wrap le32_ok hl hd hs hv ho, hol]
    rfl
  have hout := out_ok le32_ok hl hd hs hv ho
  refine ⟨.list vs, hv, hn, ?_, ?_⟩
  · have h3 := works_run (T := le32) (e := .little) (s := ⟨[], []⟩) (by intro ev h; cases h)
      (encode le32 .little (.seq .vec (.str .ref)) Cx.std (.list vs))
    rw [hout] at h3
    refine ⟨_, Prod.ext h3.1 rfl, ?_⟩
    have h5 : (writeToStream le32 .little (.seq .vec (.str .ref)) (.list vs) ⟨[], []⟩).2.got = [] ++ out := h3.2
    rw [h5, List.nil_append, hol]
  · intro junk
    cases hr : writeToVec le32 .little (.seq .vec (.str .ref)) (.list vs) junk with
    | ok bs' =>
      obtain ⟨h1, h2⟩ := vec_inv le32_ok hl hd hs hv hr
      rw [ho] at h1
      cases h1
      rw [hol] at h2
      exact absurd h2 (by decide)
    | error er =>
      unfold writeToVec at hr
      rw [hn] at hr
      simp only at hr
      rw [if_neg (by decide)] at hr
      split at hr
      · cases hr
      · rename_i hr'
        cases hr
        rcases run_buffer_errs (h := le32.toHost) (e := .little) (ends_of_out (by rw [hout])) (by rw [hr']) with h | h
        · exact h.elim
        · rw [h]

/-! ## Cases -/

section Cases
open Samples

/-- The same time, through all writers which give other errors as well. -/
example : Refusal .invalidSystemTime ∨ ∃ k, Err.invalidSystemTime = .io k :=
  C52_stream (T := x64) (e := .little) (t := .systemTime) (v := .pair (.num (2 ^ 64 - 1)) (.num 0)) rfl (by simp [hasTy])
    (s := ⟨[], []⟩) (by decide)

/-- The disk is full after three bytes. -/
example : Refusal (.io (.other 28)) ∨ ∃ k, Err.io (.other 28) = .io k :=
  C52_stream (T := x64) (e := .little) message_decl msg_ty (s := ⟨[], [.accept 3, .fault (.other 28)]⟩) (by decide)

example : Refusal (.io (.other 13)) ∨ ∃ k, Err.io (.other 13) = .io k :=
  C52_file (T := x64) (e := .little) message_decl msg_ty (create := some (.other 13)) (evs := []) (by decide)

example := C52_write_to (T := x64) (e := .little) (t := .systemTime) (v := .pair (.num (2 ^ 64 - 1)) (.num 0)) rfl
  (by simp [hasTy]) (writingCollector Host.x64 .little) ⟨[], []⟩ (er := .invalidSystemTime) (by decide)

/-- A buffer of three bytes. -/
example := C52_buffer_partial (e := .little) x64_ok message_decl msg_ty (.inr msg_short) (buf := [0, 0, 0])
  (er := .outputBufferIsTooSmall 3 21) (by decide)

/-- `struct { #[speedy(length = 2)] data: Vec<u8> }` with three elements. -/
example : Refusal .lengthMismatch :=
  C52_bytes_needed_partial (t := .struct ⟨.rust, 24, 8, [0], true⟩ (.cons { len := some (.expr fun _ => 2) } (.seq .vec (.prim .u8)) .nil))
    (v := .pair (.list [.num 1, .num 2, .num 3]) .unit) x64_ok (by decide) (by simp [hasTy, hasTyFields, Prim.size, sizeOf]; decide)
    (.inr (.pair (.list (by decide) (by simp; exact ⟨.num, .num, .num⟩)) .unit)) (by decide)

end Cases

end Verif
