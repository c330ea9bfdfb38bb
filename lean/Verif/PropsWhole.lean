import Verif.PropsVarint

/-!
# A varint is written whole or not at all (C88)
-/

namespace Verif

/-- **C88**: if the output buffer has room for all bytes of a varint, they are written, one after another at the position, and nothing else
changes; otherwise the error is the one for a full buffer, and neither the buffer nor the position changes. -/
theorem C88_whole (h : Host) (e : Endian) {v : Nat} (hv : v < 2 ^ 64) (s : BufC) :
    (writeVarint h v).run (bufferCollector h e) s =
      if s.pos + (specVarint v).length ≤ s.buf.length
      then (.ok (), ⟨s.buf.take s.pos ++ specVarint v ++ s.buf.drop (s.pos + (specVarint v).length), s.pos + (specVarint v).length⟩)
      else (.error .unexpectedEndOfOutputBuffer, s) := by
  have hw := writes_varint (h := h) (e := e) hv
  have ho : (writeVarint h v).out h e = (specVarint v, .ok ()) := by
    simpa [Writes] using hw
  split
  · rename_i hs
    have := run_buffer (e := e) (roomOk_lenRaw h e .varint v) s (by rw [show (writeLenRaw h .varint v).out h e = _ from ho]; exact hs)
    rw [show (writeLenRaw h .varint v).out h e = _ from ho] at this
    exact this
  · rename_i hs
    rw [specVarint_length hv] at hs
    have hc : (bufferCollector h e).canWrite (viExtra v + 1) s = some false := by
      show some (decide _) = some false
      rw [viExtra_eq hv, decide_eq_false hs]
    simp only [writeVarint, writeLenRaw, WProg.run]
    rw [if_pos hc]

open Samples in
example : (writeVarint x64.toHost 300).run (bufferCollector x64.toHost .little) ⟨[9, 9, 9], 1⟩ = (.ok (), ⟨[9, 0x81, 0x2c], 3⟩) := by
  rw [C88_whole _ _ (by decide)]
  decide

open Samples in
/-- One byte short: nothing is written, though the first byte would fit. -/
example : (writeVarint x64.toHost 300).run (bufferCollector x64.toHost .little) ⟨[9, 9, 9], 2⟩ =
    (.error .unexpectedEndOfOutputBuffer, ⟨[9, 9, 9], 2⟩) := by
  rw [C88_whole _ _ (by decide)]
  decide

end Verif
