import Verif.RawVec
import Verif.PropsReader
import Verif.Samples

/-!
# Memory safety of reading vectors and arrays (C51)
-/

namespace Verif

open Samples

section
variable {σ : Type} {R : ReaderOps σ} {el : Elem} {h : Host} {e : Endian}

/-- **C51**: `read_vec` has no undefined behaviour, whatever the reader does and however large the vector is, and its result is
the one given by `readVec`.

Missing: capacities other than `length` for elements copied in bulk (see `C51_capacity_false`). -/
theorem C51_vec_defined_partial {cap length : Nat} (hc : length ≤ cap) (hp : el.prim = true → cap * el.size = length * el.size)
    (s : σ) : ∃ m, rawVec R h e el cap length s =
      .ok (((readVec h e el length).run R s).1, ((readVec h e el length).run R s).2, m) ∧
      (el.size ≠ 0 → FateOrLeak ((readVec h e el length).run R s).1 m) := by
  unfold rawVec readVec
  by_cases h1 : el.min * length > h.usizeMax
  · rw [if_pos h1, if_pos h1]
    exact ⟨_, rfl, fun _ => rfl⟩
  rw [if_neg h1, if_neg h1, run_canRead]
  by_cases h2 : R.canRead (el.min * length) s = some false
  · rw [if_pos h2, if_pos h2]
    exact ⟨_, rfl, fun _ => rfl⟩
  rw [if_neg h2, if_neg h2]
  by_cases h3 : length * el.size > h.isizeMax
  · rw [if_pos h3, if_pos h3]
    exact ⟨_, rfl, fun _ => rfl⟩
  rw [if_neg h3, if_neg h3, run_alloc]
  by_cases h4 : el.prim = true
  · rw [if_pos h4, if_pos h4, hp h4]
    rcases (M.bind (readBytes (length * el.size)) fun mem =>
      liftVals el (convSlice h e el (chunks el.size length mem))).run R s with ⟨er | vs, s'⟩
    · refine ⟨_, rfl, fun _ => ?_⟩
      cases er <;> rfl
    · exact ⟨_, rfl, fun _ => ⟨rfl, rfl⟩⟩
  rw [if_neg h4, if_neg h4]
  by_cases h5 : el.size = 0
  · rw [if_pos h5]
    unfold vecLoop
    rw [if_neg (by simp [h5])]
    refine ⟨.fresh el cap, ?_, fun h => absurd h5 h⟩
    unfold finish
    rw [values_fresh h5]
    rfl
  · rw [if_neg h5]
    obtain ⟨m', g1, g2⟩ := vec_loop (R := R) (el := el) (N := length) (by omega) (length + 1) 0 s
      (.fresh el cap) (by omega) (by omega) hc
      ⟨fun i hi => by omega, rfl, rfl⟩
    simp only [Nat.sub_zero, show (Places.fresh el cap).made = [] from rfl, List.nil_append] at g1 g2
    have hid : ∀ r : Except Err (List Val), r.map (fun x => x) = r := by intro r; cases r <;> rfl
    rw [hid] at g1 g2
    exact ⟨m', g1, fun _ => g2⟩

/-- **C51**: if the reader knows that the input is too short, there is no allocation. -/
theorem C51_refused {cap length : Nat} {s : σ} (hc : el.min * length > h.usizeMax ∨ R.canRead (el.min * length) s = some false) :
    ∃ m, rawVec R h e el cap length s = .ok (.error .unexpectedEndOfInput, s, m) ∧ m.cap = 0 ∧ m.made = [] := by
  unfold rawVec
  by_cases h1 : el.min * length > h.usizeMax
  · rw [if_pos h1]
    exact ⟨_, rfl, rfl, rfl⟩
  · rw [if_neg h1, if_pos (hc.resolve_left h1)]
    exact ⟨_, rfl, rfl, rfl⟩

/-- **C51**: every element which `read_vec` has read is in the result or, if there is an error, is dropped exactly once. (If
reading an element panics, those before it are leaked, which is safe.)

Missing: capacities other than `length` (see `C51_capacity_false`), zero-sized elements (false: `C51_false_zst`). -/
theorem C51_vec_partial {cap length : Nat} (hc : length ≤ cap) (hp : el.prim = true → cap = length) (hz : el.size ≠ 0) (s : σ) :
    ∃ r s' m, rawVec R h e el cap length s = .ok (r, s', m) ∧
      (∀ vs, r = .ok vs → m.made = vs ∧ m.dropped = []) ∧
      (∀ er, r = .error er → (∀ p, er ≠ .panic p) → m.dropped = m.made) ∧
      (∀ p, r = .error (.panic p) → m.dropped = []) := by
  obtain ⟨m, h1, h2⟩ := C51_vec_defined_partial (R := R) (h := h) (e := e) hc (fun x => by rw [hp x]) s
  refine ⟨_, _, m, h1, ?_⟩
  have h3 := h2 hz
  generalize ((readVec h e el length).run R s).1 = r at h3
  refine ⟨?_, ?_, ?_⟩
  · rintro vs rfl; exact h3
  · rintro er rfl hne
    cases er <;> first | exact absurd rfl (hne _) | exact h3
  · rintro p rfl; exact h3

/-- **C51**: reading an array has no undefined behaviour, its result is the one of `repeatM` (in `readArray`), and every element
which has been read is in the result or is dropped exactly once, also if there is a panic. -/
theorem C51_array (n : Nat) (s : σ) :
    ∃ m, rawArray R el n s = .ok (((repeatM n el.read).run R s).1, ((repeatM n el.read).run R s).2, m) ∧
      (∀ vs, ((repeatM n el.read).run R s).1 = .ok vs → m.made = vs ∧ m.dropped = []) ∧
      (∀ er, ((repeatM n el.read).run R s).1 = .error er → m.dropped = m.made) := by
  obtain ⟨m', g1, g2⟩ := array_loop (R := R) (el := el) (N := n) (n + 1) 0 s (.new n) (by omega) (by omega) (Nat.le_refl _)
    ⟨fun i hi => by omega, rfl, rfl⟩
  simp only [Nat.sub_zero, show (Places.new n).made = [] from rfl, List.nil_append] at g1 g2
  have hid : ∀ r : Except Err (List Val), r.map (fun x => x) = r := by intro r; cases r <;> rfl
  rw [hid] at g1 g2
  refine ⟨m', g1, fun vs hv => ?_, fun er he => ?_⟩
  · rw [hv] at g2; exact g2
  · rw [he] at g2; exact g2

/-- **C51 is false for vectors of zero-sized types** which are not copied in bulk: all the values returned have not been read
(and are dropped later). -/
theorem C51_false_zst {length cap : Nat} (hp : el.prim = false) (hz : el.size = 0) (s : σ)
    (h1 : el.min * length ≤ h.usizeMax) (h2 : R.canRead (el.min * length) s ≠ some false) :
    ∃ m, rawVec R h e el cap length s = .ok (.ok (List.replicate length el.zst), s, m) ∧ m.made = [] := by
  unfold rawVec
  rw [if_neg (by omega), if_neg h2, if_neg (by simp [hz]), if_neg (by simp [hp])]
  unfold vecLoop
  rw [if_neg (by simp [hz])]
  refine ⟨.fresh el cap, ?_, rfl⟩
  unfold finish
  rw [values_fresh hz]

end

/-! ## Examples -/

/-- How strings are read. -/
def strElem : Elem := elemOf x64 (.str .owned) (decode x64 .little (.str .owned) Cx.std)

/-- Strings (which have to be dropped), the third of which is cut short: the first two are dropped. -/
example : ∃ s' m, rawVec (bufferReader Host.x64) Host.x64 .little strElem 7 3
      (BufSt.init 4096 [1, 0, 0, 0, 97, 1, 0, 0, 0, 98, 9, 0, 0, 0]) = .ok (.error .unexpectedEndOfInput, s', m) ∧
    m.made = [.bytes [97], .bytes [98]] ∧ m.dropped = [.bytes [97], .bytes [98]] :=
  ⟨_, _, Eq.refl _, by decide, by decide⟩

/-- Two billion strings in six bytes. -/
example : ∃ m, rawVec (bufferReader Host.x64) Host.x64 .little strElem 2000000000 2000000000 (BufSt.init 4096 [1, 0, 0, 0, 97, 1]) =
      .ok (.error .unexpectedEndOfInput, BufSt.init 4096 [1, 0, 0, 0, 97, 1], m) ∧ m.cap = 0 ∧ m.made = [] :=
  C51_refused (.inr (by decide))

example : ∃ s' m, rawArray (bufferReader Host.x64) strElem 2 (BufSt.init 4096 [1, 0, 0, 0, 97, 1, 0, 0, 0, 98]) =
      .ok (.ok [.bytes [97], .bytes [98]], s', m) ∧ m.dropped = [] :=
  ⟨_, _, Eq.refl _, by decide⟩

/-- **C51 depends on the standard library**: `read_vec` reads as many bytes as there is capacity for. If `Vec::with_capacity`
chose more than was asked for (as its documentation permits), bytes which belong to the next value would be lost, or the end of
the input be reported too early. -/
theorem C51_capacity_false :
    (∃ s' m, rawVec (bufferReader Host.x64) Host.x64 .little (u8Elem x64 .little) 4 2 (BufSt.init 4096 [1, 2, 3, 4]) =
      .ok (.ok [.num 1, .num 2], s', m) ∧ s'.pend = []) ∧
    (∃ s', (readVec Host.x64 .little (u8Elem x64 .little) 2).run (bufferReader Host.x64) (BufSt.init 4096 [1, 2, 3, 4]) =
      (.ok [.num 1, .num 2], s') ∧ s'.pend = [3, 4]) ∧
    (∃ s' m, rawVec (bufferReader Host.x64) Host.x64 .little (u8Elem x64 .little) 4 2 (BufSt.init 4096 [1, 2, 3]) =
      .ok (.error .unexpectedEndOfInput, s', m)) :=
  ⟨⟨_, _, Eq.refl _, by decide⟩, ⟨_, Eq.refl _, by decide⟩, ⟨_, _, Eq.refl _⟩⟩

/-- `Vec<Token>` where `struct Token;` is not `Copy`: three tokens which have not been read. -/
example : ∃ m, rawVec (bufferReader Host.x64) Host.x64 .little ⟨0, 0, 1, false, M.fail .invalidChar, fun _ => .unit, .ok, .unit⟩ 3 3
      (BufSt.init 4096 []) = .ok (.ok [.unit, .unit, .unit], BufSt.init 4096 [], m) ∧ m.made = [] :=
  C51_false_zst rfl rfl _ (by decide) (by decide)

/-! ## Cases -/

section Cases
open Samples

/-- The same cases from the theorems. -/
example := C51_vec_partial (R := bufferReader Host.x64) (el := strElem) (h := Host.x64) (e := .little) (cap := 7) (length := 3) (by decide)
  (by decide) (by decide) (BufSt.init 4096 [1, 0, 0, 0, 97, 1, 0, 0, 0, 98, 9, 0, 0, 0])
example := C51_vec_defined_partial (R := bufferReader Host.x64) (el := strElem) (h := Host.x64) (e := .little) (cap := 7) (length := 3)
  (by decide) (by decide) (BufSt.init 4096 [1, 0, 0, 0, 97, 1, 0, 0, 0, 98, 9, 0, 0, 0])
example := C51_array (R := bufferReader Host.x64) (el := strElem) 2 (BufSt.init 4096 [1, 0, 0, 0, 97, 1, 0, 0, 0, 98])

end Cases

end Verif
