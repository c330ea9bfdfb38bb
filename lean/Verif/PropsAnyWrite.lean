import Verif.AnyWrite
import Verif.PropsWrite
import Verif.PropsRefuse

/-!
# C63: writing to any stream, and with any writer
-/

namespace Verif

section
variable (T : Target) (e : Endian) (t : Ty) (v : Val)

/-- **C63**, the calls: which slices `write_to_stream` gives to `write_all`, and in which order, depends on the value only, not on
the stream; the first error of the stream ends it and is returned.  If `write_to_vec` returns bytes then those are the slices one
after another. -/
theorem C63_calls : ∃ (calls : List Bytes) (r : Except Err Unit),
    (∀ (σ : Type) (wr : Bytes → σ → Except Err Unit × σ) (s : σ), writeToDevice T e t v wr s = sendAll wr calls r s) ∧
    ∀ bs junk, writeToVec T e t v junk = .ok bs → r = .ok () ∧ calls.flatten = bs := by
  refine ⟨((encode T e t Cx.std v).calls T.toHost e).1, ((encode T e t Cx.std v).calls T.toHost e).2,
    fun σ wr s => run_calls .., fun bs junk hw => ?_⟩
  obtain ⟨n, _, _, _, _, h⟩ := C04_same_bytes hw
  obtain ⟨s', h1, h2⟩ := h ⟨[], []⟩ (by intro ev h; cases h)
  have h3 := works_run (T := T) (e := e) (s := ⟨[], []⟩) (by intro ev h; cases h) (encode T e t Cx.std v)
  unfold writeToStream at h1
  rw [h1] at h3
  obtain ⟨g1, g2⟩ := calls_out T.toHost e (encode T e t Cx.std v)
  dsimp only at h3
  refine ⟨by rw [g2, ← h3.1], ?_⟩
  rw [g1]
  have h4 := h3.2
  rw [h2] at h4
  simpa using h4.symm

/-- **C63**, own writers: with an implementation of `Writer` which defines `write_bytes` (`wr`) and `can_write_at_least` (`can`)
the calls are the same, except that they end early with `UnexpectedEndOfOutputBuffer` if it says that there is no room. -/
theorem C63_writer : ∃ (calls : List Bytes) (r : Except Err Unit),
    (∀ (σ : Type) (wr : Bytes → σ → Except Err Unit × σ) (can : Nat → σ → Option Bool) (s : σ),
      (encode T e t Cx.std v).run (defaultOps T.toHost e wr can) s = sendAll wr calls r s ∨
      ∃ pre n s', pre <+: calls ∧ sendAll wr pre (.ok ()) s = (.ok (), s') ∧ can n s' = some false ∧
        (encode T e t Cx.std v).run (defaultOps T.toHost e wr can) s = (.error .unexpectedEndOfOutputBuffer, s')) ∧
    ∀ bs junk, writeToVec T e t v junk = .ok bs → r = .ok () ∧ calls.flatten = bs := by
  refine ⟨((encode T e t Cx.std v).calls T.toHost e).1, ((encode T e t Cx.std v).calls T.toHost e).2,
    fun σ wr can s => run_calls_room .., fun bs junk hw => ?_⟩
  obtain ⟨n, _, _, _, _, h⟩ := C04_same_bytes hw
  obtain ⟨s', h3, h4⟩ := h ⟨[], []⟩ (by intro ev h; cases h)
  have h5 := works_run (T := T) (e := e) (s := ⟨[], []⟩) (by intro ev h; cases h) (encode T e t Cx.std v)
  unfold writeToStream at h3
  rw [h3] at h5
  obtain ⟨g1, g2⟩ := calls_out T.toHost e (encode T e t Cx.std v)
  refine ⟨by rw [g2, ← h5.1], ?_⟩
  rw [g1]
  have h6 := h5.2
  dsimp only at h6
  rw [h4] at h6
  simpa using h6.symm

variable {σ : Type} {w : WriteFn σ}

/-- **C63**, replay: let a stream answer `write` as it likes, only that it does not claim to have accepted more than it got, and
let `write_all` be that of the standard library.  Either `write_to_stream` does not end, or what it returns and what was accepted
is the same as with a `Sink`, which does a list of things and does not look at the bytes.  So C04, C33 and C52 are about all
implementations of `Write`. -/
theorem C63_replay (hw : ∀ bs s n, (w bs s).1 = .ok n → n ≤ bs.length) (s : σ) (got : Bytes) :
    (writeToDevice T e t v (stdWriteAll w) (s, got)).1 = .error .diverge ∨
    ∃ evs, writeToStream T e t v ⟨got, evs⟩ = ((writeToDevice T e t v (stdWriteAll w) (s, got)).1,
      ⟨(writeToDevice T e t v (stdWriteAll w) (s, got)).2.2, []⟩) := by
  rcases record_run hw T.toHost e (encode T e t Cx.std v) s got with h | ⟨evs, h⟩
  · exact .inl h
  · refine .inr ⟨evs, ?_⟩
    have := h []
    rw [List.append_nil] at this
    exact this

end

section
variable {T : Target} {e : Endian} {t : Ty} {v : Val} {σ : Type} {w : WriteFn σ}

/-- **C63**, the end: `write_to_stream` ends unless the stream interrupts the same call for ever. -/
theorem C63_ends (hd : declOk t = true) (hv : hasTy T t v) (s : σ) (got : Bytes)
    (h : (writeToDevice T e t v (stdWriteAll w) (s, got)).1 = .error .diverge) :
    ∃ (bs : Bytes) (st : Nat → σ), bs ≠ [] ∧ ∀ i, w bs (st i) = (.error .interrupted, st (i + 1)) := by
  refine run_endless T.toHost e (encode T e t Cx.std v) (fun hc => ?_) (s, got) h
  rw [(calls_out _ _ _).2] at hc
  have h1 := works_run (T := T) (e := e) (s := ⟨[], []⟩) (by intro ev h; cases h) (encode T e t Cx.std v)
  rw [hc] at h1
  rcases C52_stream (T := T) (e := e) hd hv (s := ⟨[], []⟩) h1.1 with h2 | ⟨k, h2⟩
  · rcases h2 with h2 | h2 | h2 <;> cases h2
  · cases h2

/-- And it does not end if it does. -/
theorem C63_endless {bs : Bytes} (hb : bs ≠ []) {st : Nat → σ} (hi : ∀ i, w bs (st i) = (.error .interrupted, st (i + 1))) (got : Bytes) :
    stdWriteAll w bs (st 0, got) = (.error .diverge, (st 0, got)) := by
  rw [stdWriteAll, dif_neg]
  rintro ⟨x, hx⟩
  exact Interrupted.endless ⟨hb, hi⟩ (i := 0) rfl hx

/-- **C63**, what is received: if `write_to_vec` returns `bs`, then a stream has accepted a prefix of `bs` when `write_to_stream` returns;
all of it, if it returns `Ok`. Otherwise it returns an error which `write` returned, but not `Interrupted`, or `WriteZero` if `write`
returned zero. -/
theorem C63_accepted (hw : ∀ bs s n, (w bs s).1 = .ok n → n ≤ bs.length) {bs : Bytes} {junk : Nat → UInt8}
    (hv : writeToVec T e t v junk = .ok bs) (s : σ) (got : Bytes) {r : Except Err Unit} {s' : σ} {got' : Bytes}
    (h : writeToDevice T e t v (stdWriteAll w) (s, got) = (r, (s', got'))) (hr : r ≠ .error .diverge) :
    ∃ p, got' = got ++ p ∧ p <+: bs ∧ (r = .ok () ∧ p = bs ∨ ∃ k, r = .error (.io k) ∧ k ≠ .interrupted ∧
      ∃ c s, c ≠ [] ∧ ((w c s).1 = .error k ∨ (w c s).1 = .ok 0 ∧ k = .writeZero)) := by
  rcases C63_replay T e t v hw s got with h1 | ⟨evs, h1⟩
  · rw [h] at h1; exact absurd h1 hr
  · rw [h] at h1
    obtain ⟨n, _, _, _, _, hs⟩ := C04_same_bytes hv
    obtain ⟨w', h2, h3⟩ := hs ⟨[], []⟩ (by intro ev h; cases h)
    obtain ⟨r', s1, p, h4, h5, h6, h7⟩ := C33_failing_stream_prefix T e t v (w := ⟨[], []⟩) (by intro ev h; cases h) h2 h3 ⟨got, evs⟩
    rw [h4] at h1
    obtain ⟨rfl, rfl⟩ := Prod.mk.inj h1
    refine ⟨p, h5, h6, ?_⟩
    have cause : ∀ er, r' = .error er → ∃ k, er = .io k ∧ k ≠ .interrupted ∧
        ∃ c s, c ≠ [] ∧ ((w c s).1 = .error k ∨ (w c s).1 = .ok 0 ∧ k = .writeZero) := by
      intro er her
      obtain ⟨calls, r1, g1, g2⟩ := C63_calls T e t v
      rw [g1, (g2 bs junk hv).1] at h
      obtain ⟨c, s2, g3⟩ := sendAll_cause (er := er) (by rw [h]; exact her)
      by_cases hx : ∃ x : Bytes × Except Err Unit × σ, StdWriteAll w c s2.1 x.1 x.2.1 x.2.2
      · obtain ⟨x, hx⟩ := hx
        have h8 := stdWriteAll_eq (got := s2.2) hx
        rw [show (s2.1, s2.2) = s2 from rfl] at h8
        rw [h8] at g3
        exact hx.cause hw g3
      · rw [stdWriteAll, dif_neg hx] at g3
        cases g3
        exact absurd her hr
    cases r' with
    | ok u =>
      rcases h7 with h7 | ⟨h7, _⟩ | ⟨k, h7, _⟩
      · exact .inl h7
      · cases h7
      · cases h7
    | error er =>
      obtain ⟨k, rfl, h8⟩ := cause er rfl
      exact .inr ⟨k, rfl, h8⟩

end

/-- A stream which is interrupted every other time, refuses to accept more than two bytes at once, and is full after `n` bytes. -/
def disk : WriteFn (Bool × Nat) := fun bs s =>
  if s.1 then (.error .interrupted, (false, s.2)) else (.ok (min (min 2 bs.length) s.2), (true, s.2 - min 2 bs.length))

theorem disk_counts (bs : Bytes) (s : Bool × Nat) (n : Nat) (h : (disk bs s).1 = .ok n) : n ≤ bs.length := by
  unfold disk at h
  split at h
  · simp at h
  · simp only [Except.ok.injEq] at h; omega

/-- Three bytes of four fit. -/
theorem disk_three : StdWriteAll disk [7, 0, 0, 0] (true, 3) [7, 0, 0] (.error (.io .writeZero)) (true, 0) := by
  refine .again rfl (.some (n := 1) rfl (by decide) (.again rfl ?_) (acc := [0]))
  exact .some (n := 0) rfl (by decide) (.again rfl (.zero rfl)) (acc := [])

open Samples in
example : writeToDevice x64 .little (.prim .u32) (.num 7) (stdWriteAll disk) ((true, 3), [9]) =
    (.error (.io .writeZero), ((true, 0), [9, 7, 0, 0])) := by
  have h : (collectorOn x64.toHost .little (stdWriteAll disk)).num 4 7 ((true, 3), [9]) = _ := stdWriteAll_eq (got := [9]) disk_three
  show (WProg.num 4 7 WProg.ok).run (collectorOn x64.toHost .little (stdWriteAll disk)) _ = _
  rw [run_num, h]
  rfl

open Samples in
example (s : Bool × Nat) {r : Except Err Unit} {s' : Bool × Nat} {got' : Bytes}
    (h : writeToDevice x64 .little (.prim .u32) (.num 7) (stdWriteAll disk) (s, []) = (r, (s', got'))) (hr : r ≠ .error .diverge) :
    ∃ p, got' = [] ++ p ∧ p <+: [7, 0, 0, 0] ∧ (r = .ok () ∧ p = [7, 0, 0, 0] ∨
      ∃ k, r = .error (.io k) ∧ k ≠ .interrupted ∧ ∃ c s, c ≠ [] ∧ ((disk c s).1 = .error k ∨ (disk c s).1 = .ok 0 ∧ k = .writeZero)) :=
  C63_accepted disk_counts (junk := fun _ => 0) (by decide) s [] h hr

/-! ## Cases -/

section Cases
open Samples

section
open Samples
example (s : Bool × Nat) := C63_replay x64 .little message msg disk_counts s [9]

/-- A device which is always interrupted. -/
example : stdWriteAll (fun _ (n : Nat) => (.error .interrupted, n + 1)) [7] (0, []) = (.error .diverge, (0, [])) :=
  C63_endless (w := fun _ (n : Nat) => (.error .interrupted, n + 1)) (st := id) (by decide) (fun _ => rfl) []

/-- A disk does not do that. -/
example (s : Bool × Nat) (h : (writeToDevice x64 .little message msg (stdWriteAll disk) (s, [])).1 = .error .diverge) :
    ∃ bs, ∃ st : Nat → Bool × Nat, bs ≠ [] ∧ ∀ i, disk bs (st i) = (.error .interrupted, st (i + 1)) :=
  C63_ends message_decl msg_ty s [] h
end

end Cases

end Verif
