import Verif.PropsRoundTrip

/-!
# Durations and system times (C39)

A duration is `pair (num seconds) (num nanoseconds)`; a system time is the time since the epoch, the seconds being the
bit pattern of an `i64`: times before the epoch have `2 ^ 63 ≤ seconds`.
-/

namespace Verif

open Samples

section
variable {T : Target} {e : Endian} {σ : Type} {R : ReaderOps σ} {Inv : σ → Prop} {pend : σ → Bytes}
  (L : Lawful R Inv pend) {s : σ} (hs : Inv s) {secs nanos : Nat} (h1 : secs < 2 ^ 64) (h2 : nanos < 2 ^ 32) {rest : Bytes}
  (hp : pend s = e.bytes 8 secs ++ e.bytes 4 nanos ++ rest)
include L hs h1 h2 hp

theorem duration_outcome : Outcome Inv pend s
    (if secs + nanos / 1000000000 < 2 ^ 64 then .ok (secs + nanos / 1000000000, nanos % 1000000000) rest
      else .fail (.panic .arithOverflow)) ((readDuration T.toHost e).run R s) := by
  have h := refines_duration (B := (pend s).length) L T.toHost (e := e) s hs (Nat.le_refl _)
  have hq : pDuration e (pend s) = if secs + nanos / 1000000000 < 2 ^ 64 then
      .ok (secs + nanos / 1000000000, nanos % 1000000000) rest else .fail (.panic .arithOverflow) := by
    have a := (codes_num (tl := false) (st := false) (e := e) (n := 8) (v := secs) (by omega)).1 (e.bytes 4 nanos ++ rest) (by simp)
    have b := (codes_num (tl := false) (st := false) (e := e) (n := 4) (v := nanos) (by omega)).1 rest (by simp)
    rw [hp, List.append_assoc]
    unfold pDuration
    rw [P.bind_ok a, P.bind_ok b]
    split <;> rfl
  rwa [hq] at h

/-- **C39**: reading a duration from any reader gives the normalised duration.

Missing: when the seconds overflow, reading panics (`C39_false`). -/
theorem C39_normalised_partial {cx : Cx} (hno : secs + nanos / 1000000000 < 2 ^ 64) :
    ∃ s', (decode T e .duration cx).run R s =
      (.ok (.pair (.num (secs + nanos / 1000000000)) (.num (nanos % 1000000000))), s') ∧ Inv s' ∧ pend s' = rest := by
  have h := duration_outcome (T := T) L hs h1 h2 hp
  rw [if_pos hno] at h
  obtain ⟨g1, g2, g3, _⟩ := h
  refine ⟨((readDuration T.toHost e).run R s).2, ?_, g2, g3⟩
  have : (readDuration T.toHost e).run R s = (.ok (secs + nanos / 1000000000, nanos % 1000000000),
    ((readDuration T.toHost e).run R s).2) := by rw [← g1]
  simp only [decode]
  unfold M.map
  rw [M.run_bind_ok this]
  rfl

/-- C39 for system times: those which cannot be represented are rejected. -/
theorem C39_normalised_time_partial {cx : Cx} (hno : secs + nanos / 1000000000 < 2 ^ 64) :
    ∃ s', (decode T e .systemTime cx).run R s =
      (if secs + nanos / 1000000000 < 2 ^ 63 then
        .ok (.pair (.num (secs + nanos / 1000000000)) (.num (nanos % 1000000000)))
      else .error .invalidSystemTime, s') ∧ Inv s' ∧ pend s' = rest := by
  have h := duration_outcome (T := T) L hs h1 h2 hp
  rw [if_pos hno] at h
  obtain ⟨g1, g2, g3, _⟩ := h
  refine ⟨((readDuration T.toHost e).run R s).2, ?_, g2, g3⟩
  have : (readDuration T.toHost e).run R s = (.ok (secs + nanos / 1000000000, nanos % 1000000000),
    ((readDuration T.toHost e).run R s).2) := by rw [← g1]
  simp only [decode]
  rw [M.run_bind_ok this]
  simp only
  split <;> rfl

end

section
variable {T : Target} (hT : T.Ok) {e : Endian} {s n : Nat} (hs : s < 2 ^ 64) (hn : n < 1000000000)
include hT hs hn

/-- **C39**: every duration is written, in 12 bytes, and every reader reads it back, whatever follows. -/
theorem C39_duration (junk : Nat → UInt8) : ∃ bs, writeToVec T e .duration (.pair (.num s) (.num n)) junk = .ok bs ∧
    bs.length = 12 ∧ ∀ {σ : Type} {R : ReaderOps σ} {Inv : σ → Prop} {pend : σ → Bytes}, Lawful R Inv pend → ∀ x, Inv x →
      ∀ rest, pend x = bs ++ rest → ∃ x', (decode T e .duration Cx.std).run R x = (.ok (.pair (.num s) (.num n)), x') ∧
        pend x' = rest := by
  have hi : 12 ≤ T.isizeMax := by have := hT.lower; have := hT.isize; omega
  refine ⟨e.bytes 8 s ++ e.bytes 4 n, vec_ok hT (by simp [layoutOk]) (by simp [declOk]) (by simp [sliceOk])
    (by simp [hasTy, hs, hn]) (by simp [wire, Fmt.code]) (by simpa using hi), by simp, fun L x hx rest hp => ?_⟩
  obtain ⟨x', h1, _, h2⟩ := C39_normalised_partial (T := T) (cx := Cx.std) L hx hs (by omega) hp (by omega)
  rw [Nat.div_eq_of_lt hn, Nat.mod_eq_of_lt hn] at h1
  exact ⟨x', h1, h2⟩

/-- **C39**: every system time at or after the epoch is written, in 12 bytes, and every reader reads it back. -/
theorem C39_system_time (h0 : s < 2 ^ 63) (junk : Nat → UInt8) :
    ∃ bs, writeToVec T e .systemTime (.pair (.num s) (.num n)) junk = .ok bs ∧
    bs.length = 12 ∧ ∀ {σ : Type} {R : ReaderOps σ} {Inv : σ → Prop} {pend : σ → Bytes}, Lawful R Inv pend → ∀ x, Inv x →
      ∀ rest, pend x = bs ++ rest → ∃ x', (decode T e .systemTime Cx.std).run R x = (.ok (.pair (.num s) (.num n)), x') ∧
        pend x' = rest := by
  have hi : 12 ≤ T.isizeMax := by have := hT.lower; have := hT.isize; omega
  refine ⟨e.bytes 8 s ++ e.bytes 4 n, vec_ok hT (by simp [layoutOk]) (by simp [declOk]) (by simp [sliceOk])
    (by simp [hasTy, hs, hn]) (by simp only [wire, if_pos h0, Fmt.code]) (by simpa using hi), by simp, fun L x hx rest hp => ?_⟩
  obtain ⟨x', h1, _, h2⟩ := C39_normalised_time_partial (T := T) (cx := Cx.std) L hx hs (by omega) hp (by omega)
  rw [Nat.div_eq_of_lt hn, Nat.mod_eq_of_lt hn, Nat.add_zero, if_pos h0] at h1
  exact ⟨x', h1, h2⟩

end

/-- **C39**: a system time before the epoch gives `InvalidSystemTime` with every writer, which is not called at all. -/
theorem C39_before_epoch {T : Target} {e : Endian} {cx : Cx} {ω : Type} (W : WriterOps ω) (w : ω) {s n : Nat}
    (hs : ¬ s < 2 ^ 63) :
    (encode T e .systemTime cx (.pair (.num s) (.num n))).run W w = (.error .invalidSystemTime, w) := by
  simp only [encode, if_neg hs]
  rfl

/-- **C39 is false** if the seconds overflow: reading panics. -/
theorem C39_false :
    readFromBuffer x64 .little .duration 4096 (Endian.little.bytes 8 (2 ^ 64 - 1) ++ Endian.little.bytes 4 1000000000) =
      .error (.panic .arithOverflow) := by
  decide

example : ∃ s', (decode x64 .big .duration Cx.std).run (bufferReader Host.x64)
      (BufSt.init 4096 [0, 0, 0, 0, 0, 0, 0, 5, 255, 255, 255, 255, 7]) =
    (.ok (.pair (.num (5 + 4294967295 / 1000000000)) (.num (4294967295 % 1000000000))), s') ∧ s'.Inv Host.x64 ∧ s'.pend = [7] :=
  C39_normalised_partial (T := x64) (bufferReader_lawful Host.x64) (BufSt.init_inv (by decide)) (by decide) (by decide)
    (by decide) (by decide)

example := C39_duration x64_ok (e := .big) (s := 2 ^ 64 - 1) (n := 999999999) (by decide) (by decide) fun _ => 0
example := C39_system_time x64_ok (e := .big) (s := 2 ^ 63 - 1) (n := 999999999) (by decide) (by decide) (by decide) fun _ => 0
example := C39_before_epoch (T := x64) (e := .big) (cx := Cx.std) (writingCollector Host.x64 .big) ⟨[], []⟩
  (s := 2 ^ 64 - 1) (n := 5) (by decide)

/-! ## Cases -/

section Cases
open Samples

example := C39_normalised_time_partial (T := x64) (e := .big) (cx := Cx.std) (bufferReader_lawful Host.x64)
  (BufSt.init_inv (base := 4096) (buf := [0, 0, 0, 0, 0, 0, 0, 5, 255, 255, 255, 255, 7]) (by decide))
  (secs := 5) (nanos := 2 ^ 32 - 1) (rest := [7]) (by decide) (by decide) (by decide) (by decide)

end Cases

end Verif
