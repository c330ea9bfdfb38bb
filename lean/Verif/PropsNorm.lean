import Verif.Norm
import Verif.PropsRoundTrip
import Verif.PropsBugs

/-!
# Any value, written and read: C01, C25

The theorems in `PropsRoundTrip.lean` are about values which are read back as they are (`canon`). Here are all values: what is read
is `norm t v`, the value with the default in all skipped fields, and with inclusive ranges as they were before iterating.
-/

namespace Verif

section
variable {T : Target} (hT : T.Ok) {e : Endian} {t : Ty} {v : Val} {bs : Bytes} {junk : Nat → UInt8}
  (hl : layoutOk T t = true) (hd : declOk t = true) (hr : regular T e t = true) (hn : normable T t) (hv : hasTy T t v)
  (hc : tagFirst (Fmt.code T.toHost e) t v) (hw : writeToVec T e t v junk = .ok bs)
include hT hl hd hr hn hv hc hw

omit hc in
/-- The value without what is not written has the same encoding. -/
theorem norm_written (hm : bs.length ≤ T.isizeMax) (junk' : Nat → UInt8) : writeToVec T e t (norm t v) junk' = .ok bs := by
  obtain ⟨h1, _⟩ := vec_inv hT hl hd (regular_slice t hr) hv hw
  refine vec_ok hT hl hd (regular_slice t hr) (hasTy_norm t v hn hv) ?_ hm
  rw [wire_norm t _ v hn]
  exact h1

/-- **C01**, **C25**: whatever value has been written (also with other values in skipped fields than their defaults), reading
gives it with the defaults in skipped fields; nothing else changes.

Full claim: for all types and values.  Missing: types excluded by `regular`; enums with `peek_tag` whose payload does not begin with
the tag (`tagFirst`); skipped fields in the elements of sets and in the keys of maps, which may become equal (`C01_false_set_skip`);
lengths which look at skipped fields (`normable`). -/
theorem C01_any_value_partial {base : Nat} (he : ends true false t = true) (hm : InMem T base bs) :
    readFromBuffer T e t base bs = .ok (norm t v) :=
  C01_round_trip_partial hT hl hd hr (hasTy_norm t v hn hv) (canon_norm t v hn hv hc)
    (norm_written hT hl hd hr hn hv hw hm.fits.mem junk) he hm

/-- The same for both stream readers. -/
theorem C01_any_value_stream_partial {grow : Nat → Nat} (hg : ∀ n, n ≤ grow n) {buffered : Bool} {src : Src}
    (he : ends true false t = true) (hf : noRefs t = true) (hs : src.Clean) (hb : src.data = bs)
    (hm : Fits T bs) : (readFromStream T e t grow buffered src).1 = .ok (norm t v) :=
  C01_round_trip_stream_partial hT hl hd hr (hasTy_norm t v hn hv) (canon_norm t v hn hv hc)
    (norm_written hT hl hd hr hn hv hw hm.mem junk) hg he hf hs hb hm

/-- **C01**, exactly: a value is read back as it was if and only if it has the defaults in its skipped fields (and its inclusive
ranges have not been iterated to the end). -/
theorem C01_exact_partial {base : Nat} (he : ends true false t = true) (hm : InMem T base bs) :
    readFromBuffer T e t base bs = .ok v ↔ norm t v = v := by
  rw [C01_any_value_partial hT hl hd hr hn hv hc hw he hm]
  simp

end

/-- Two values have the same encoding only if they differ in what is not written (the converse of `norm_written`, and what
**C40** says of all values). -/
theorem C40_exact_partial {T : Target} (hT : T.Ok) {e : Endian} {t : Ty} {v w : Val} {bs : Bytes} {junk junk' : Nat → UInt8}
    (hl : layoutOk T t = true) (hd : declOk t = true) (hr : regular T e t = true) (hn : normable T t) (he : ends true false t = true)
    (hv : hasTy T t v) (hcv : tagFirst (Fmt.code T.toHost e) t v) (hwv : writeToVec T e t v junk = .ok bs)
    (hw : hasTy T t w) (hcw : tagFirst (Fmt.code T.toHost e) t w) {base : Nat} (hm : InMem T base bs) :
    writeToVec T e t w junk' = .ok bs ↔ norm t v = norm t w := by
  constructor
  · intro hww
    have h1 := C01_any_value_partial hT hl hd hr hn hv hcv hwv he hm
    rw [C01_any_value_partial hT hl hd hr hn hw hcw hww he hm] at h1
    simp only [Except.ok.injEq] at h1
    exact h1.symm
  · intro h
    obtain ⟨h1, _⟩ := vec_inv hT hl hd (regular_slice t hr) hv hwv
    refine vec_ok hT hl hd (regular_slice t hr) hw ?_ hm.fits.mem
    rw [← wire_norm t _ w hn, ← h, wire_norm t _ v hn]
    exact h1

open Samples

/-- `struct HitCount { id: u16, #[speedy(skip)] hits: u16 }` with the default 0 -/
def hitCount : Ty := .struct ⟨.rust, 4, 2, [0, 2], false⟩
  (.cons {} (.prim .u16) (.cons { skip := true, dflt := .num 0 } (.prim .u16) .nil))

/-- **C01 is false** for sets of structs with skipped fields which take part in `Eq`: two elements are read as one. -/
theorem C01_false_set_skip :
    Real (.set hitCount) (.list [.pair (.num 1) (.pair (.num 2) .unit), .pair (.num 1) (.pair (.num 3) .unit)]) ∧
    writeToVec x64 .little (.set hitCount) (.list [.pair (.num 1) (.pair (.num 2) .unit), .pair (.num 1) (.pair (.num 3) .unit)])
      (fun _ => 0) = .ok [2, 0, 0, 0, 1, 0, 1, 0] ∧
    readFromBuffer x64 .little (.set hitCount) 4096 [2, 0, 0, 0, 1, 0, 1, 0] =
      .ok (.list [.pair (.num 1) (.pair (.num 0) .unit)]) := by
  refine ⟨⟨by decide, by decide, ?_⟩, by decide, by decide⟩
  simp [hasTy, hasTyFields, hitCount, sizeOf, Prim.size] <;> decide

/-! ## Examples -/

/-- A vector of a struct with a skipped field which does not have its default, and an exhausted range. -/
example : readFromBuffer x64 .little (.pair (.seq .vec hitCount) (.pair (.rangeInc (.prim .u8)) .unit)) 4096
      [1, 0, 0, 0, 7, 0, 3, 3] =
    .ok (.pair (.list [.pair (.num 7) (.pair (.num 0) .unit)]) (.pair (.pair (.num 3) (.pair (.num 3) (.bool false))) .unit)) :=
  C01_any_value_partial (junk := fun _ => 0) x64_ok (by decide) (by decide) (by decide)
    (v := .pair (.list [.pair (.num 7) (.pair (.num 99) .unit)]) (.pair (.pair (.num 3) (.pair (.num 3) (.bool true))) .unit))
    (by simp [normable, normableFields, hitCount, hasTy]; decide)
    (by simp [hasTy, hasTyFields, hitCount, sizeOf, Prim.size]; decide)
    (tagFirst_unpeeked _ _ (by decide)) (by decide) (by decide) ⟨by decide, ⟨by decide, by decide⟩⟩

example : norm hitCount (.pair (.num 7) (.pair (.num 99) .unit)) = .pair (.num 7) (.pair (.num 0) .unit) := by decide

/-! ## Cases -/

section Cases
open Samples

/-- Written with `hits: 99` in the skipped field, read from a stream. -/
example : (readFromStream x64 .little hitCount (· + 100) true ⟨[7, 0], [.give 1]⟩).1 = .ok (.pair (.num 7) (.pair (.num 0) .unit)) :=
  C01_any_value_stream_partial (junk := fun _ => 0) (v := .pair (.num 7) (.pair (.num 99) .unit)) x64_ok (by decide) (by decide)
    (by decide) (by simp [normable, normableFields, hitCount, hasTy]; decide)
    (by simp [hasTy, hasTyFields, hitCount, Prim.size]) (tagFirst_unpeeked _ _ (by decide)) (by decide) (fun n => by omega) (by decide)
    (by decide) (by simp [Src.Clean]) rfl ⟨by decide, by decide⟩

/-- A value with the default in its skipped field is read back, the one with 99 is not. -/
example : readFromBuffer x64 .little hitCount 4096 [7, 0] = .ok (.pair (.num 7) (.pair (.num 0) .unit)) ∧
    readFromBuffer x64 .little hitCount 4096 [7, 0] ≠ .ok (.pair (.num 7) (.pair (.num 99) .unit)) := by
  have h := fun n (hn : n < 65536) => C01_exact_partial (junk := fun _ => 0) (v := .pair (.num 7) (.pair (.num n) .unit)) (t := hitCount)
    (e := .little) (base := 4096) (bs := [7, 0]) x64_ok (by decide) (by decide) (by decide)
    (by simp [normable, normableFields, hitCount, hasTy]; decide)
    (by simp [hasTy, hasTyFields, hitCount, Prim.size, hn]) (tagFirst_unpeeked _ _ (by decide)) rfl (by decide)
    ⟨by decide, by decide, by decide⟩
  exact ⟨(h 0 (by decide)).mpr (by decide), fun h' => absurd ((h 99 (by decide)).mp h') (by decide)⟩

/-- `7, hits: 99` is written as `7, hits: 5` is, and not as `8, hits: 99`. -/
example : writeToVec x64 .little hitCount (.pair (.num 7) (.pair (.num 5) .unit)) (fun _ => 0) = .ok [7, 0] ∧
    writeToVec x64 .little hitCount (.pair (.num 8) (.pair (.num 99) .unit)) (fun _ => 0) ≠ .ok [7, 0] := by
  have h := fun m n (hm : m < 65536) (hn : n < 65536) => C40_exact_partial (junk := fun _ => 0) (junk' := fun _ => 0) (t := hitCount)
    (v := .pair (.num 7) (.pair (.num 99) .unit)) (w := .pair (.num m) (.pair (.num n) .unit)) (e := .little) (base := 4096) (bs := [7, 0])
    x64_ok (by decide) (by decide) (by decide) (by simp [normable, normableFields, hitCount, hasTy]; decide) (by decide)
    (by simp [hasTy, hasTyFields, hitCount, Prim.size]) (tagFirst_unpeeked _ _ (by decide)) (by decide)
    (by simp [hasTy, hasTyFields, hitCount, Prim.size, hm, hn]) (tagFirst_unpeeked _ _ (by decide)) ⟨by decide, by decide, by decide⟩
  exact ⟨(h 7 5 (by decide) (by decide)).mpr (by decide), fun h' => absurd ((h 8 99 (by decide) (by decide)).mp h') (by decide)⟩

end Cases

end Verif
