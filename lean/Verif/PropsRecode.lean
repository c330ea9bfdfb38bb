import Verif.Settled
import Verif.PropsBugs

/-!
# Writing back what has been read: C66

`firm false T t`: each value of the type has one representation.  `firm true T t`: the same up to flags, which may be any byte but
zero for `true`.  `settled T F t`: no `peek_tag`.  All of them are decidable by looking at the declarations, and false for the types
of the `_false` theorems below.
-/

namespace Verif

section
variable {T : Target} (hT : T.Ok) {e : Endian} {t : Ty} (ha : Agreeable T e t)
include hT ha

theorem recode {fl : Bool} (hf : firm fl T t) {buf rest : Bytes} (hm : buf.length ≤ T.isizeMax) {v : Val}
    (h : parse T e t Cx.std buf = .ok v rest) (junk : Nat → UInt8) :
    hasTy T t v ∧ ∃ used ws, buf = used ++ rest ∧ Near fl used ws ∧ writeToVec T e t v junk = .ok ws := by
  obtain ⟨u, ws, h1, h2, h3, h4⟩ := parse_recodes hT (M := T.isizeMax) (Nat.le_refl _) t LenR.std Cx.std.inl
    ha.layout ha.reg (firm_std _) hf buf v rest hm h
  refine ⟨h4, u, ws, h1, h2, vec_ok hT ha.layout ha.decl (regular_slice t ha.reg) h4 h3 ?_⟩
  rw [← h2.length]
  rw [h1, List.length_append] at hm
  omega

/-- **C66**: what has been read from a buffer is written as exactly the bytes which were read.

Full claim: for all types.  Missing: flags, variable length integers, times, sets and maps, `default_on_eof`, conversions which
change their argument, for which it is false, and `length = ..`. -/
theorem C66_same_bytes_partial (hf : firm false T t) {base : Nat} {buf : Bytes} (hm : InMem T base buf) {v : Val} {n : Nat}
    (h : readWithLengthFromBuffer T e t base buf = (.ok v, n)) (junk : Nat → UInt8) :
    writeToVec T e t v junk = .ok (buf.take n) := by
  obtain ⟨rest, h1, rfl⟩ := (ha.buffer_iff hT hm v n).mp h
  obtain ⟨_, u, ws, rfl, h3, h4⟩ := recode hT ha hf hm.fits.mem h1 junk
  rw [h4, ← h3.eq]
  simp

/-- C66 for `read_from_buffer_copying_data`. -/
theorem C66_same_bytes_copying_partial (hf : firm false T t) {base : Nat} {buf : Bytes} (hm : InMem T base buf) (hn : noRefs t = true)
    {v : Val} {n : Nat} (h : readWithLengthFromBufferCopying T e t base buf = (.ok v, n)) (junk : Nat → UInt8) :
    writeToVec T e t v junk = .ok (buf.take n) := by
  obtain ⟨rest, h1, rfl⟩ := (ha.copying_iff hT hm hn v n).mp h
  obtain ⟨_, u, ws, rfl, h3, h4⟩ := recode hT ha hf hm.fits.mem h1 junk
  rw [h4, ← h3.eq]
  simp

/-- C66 for streams, buffered or not, in whatever pieces they deliver the bytes: what has been read is written as the beginning of
the stream. -/
theorem C66_same_bytes_stream_partial (hf : firm false T t) {grow : Nat → Nat} (hg : ∀ n, n ≤ grow n) (b : Bool) {src : Src}
    (hs : src.Clean) (hfits : Fits T src.data) (hn : noRefs t = true) {v : Val}
    (h : (readFromStream T e t grow b src).1 = .ok v) (junk : Nat → UInt8) :
    ∃ bs, writeToVec T e t v junk = .ok bs ∧ bs <+: src.data := by
  obtain ⟨rest, h1⟩ := (ha.stream_iff hT hg b hs hfits hn v).mp h
  obtain ⟨_, u, ws, h2, h3, h4⟩ := recode hT ha hf hfits.mem h1 junk
  exact ⟨ws, h4, rest, by rw [h2, h3.eq]⟩

/-- C66 with flags (`bool`, `Option`, `Result`): what has been read is written as bytes of the same number, which differ from those
which were read only where there is a one for some other byte which is not zero. -/
theorem C66_flags_partial (hf : firm true T t) {base : Nat} {buf : Bytes} (hm : InMem T base buf) {v : Val} {n : Nat}
    (h : readWithLengthFromBuffer T e t base buf = (.ok v, n)) (junk : Nat → UInt8) :
    ∃ bs : Bytes, writeToVec T e t v junk = .ok bs ∧ bs.length = n ∧
      ∀ (i : Nat) (u w : UInt8), buf[i]? = some u → bs[i]? = some w → u = w ∨ (u ≠ 0 ∧ w = 1) := by
  obtain ⟨rest, h1, rfl⟩ := (ha.buffer_iff hT hm v n).mp h
  obtain ⟨_, u, ws, rfl, h3, h4⟩ := recode hT ha hf hm.fits.mem h1 junk
  refine ⟨ws, h4, by simp [h3.length], ?_⟩
  clear h h1 h4 hm
  induction h3 with
  | nil => intro i u w _ h; simp at h
  | cons hb _ ih =>
    intro i u w h1 h2
    cases i with
    | zero =>
      simp only [List.cons_append, List.getElem?_cons_zero, Option.some.injEq] at h1 h2
      subst h1; subst h2
      simp only [nearByte, Bool.true_and, Bool.or_eq_true, beq_iff_eq, Bool.and_eq_true, bne_iff_ne, ne_eq] at hb
      exact hb
    | succ i => exact ih i u w (by simpa using h1) (by simpa using h2)

/-- What has been read is a value of the type: in particular its containers fit in memory, whatever the lengths in the input. -/
theorem C66_typed_partial (hf : firm true T t) {base : Nat} {buf : Bytes} (hm : InMem T base buf) {v : Val} {n : Nat}
    (h : readWithLengthFromBuffer T e t base buf = (.ok v, n)) : hasTy T t v := by
  obtain ⟨rest, h1, _⟩ := (ha.buffer_iff hT hm v n).mp h
  exact (recode hT ha hf hm.fits.mem h1 fun _ => 0).1

/-- **C66**: what has been read and written is read again as the same value, though it may be written as other bytes.

Full claim: for all types.  Missing: enums with `peek_tag`, for which it is false, and types which are excluded from C10. -/
theorem C66_again_partial (hs : settled T (Fmt.code T.toHost e) t) {base base' : Nat} {buf bs : Bytes} (hm : InMem T base buf)
    (hm' : InMem T base' bs) {v : Val} {n : Nat} (hv : hasTy T t v)
    (h : readWithLengthFromBuffer T e t base buf = (.ok v, n)) {junk : Nat → UInt8} (hw : writeToVec T e t v junk = .ok bs) :
    readWithLengthFromBuffer T e t base' bs = (.ok v, bs.length) := by
  obtain ⟨rest, h1, _⟩ := (ha.buffer_iff hT hm v n).mp h
  have hc := parse_canon t Cx.std ha.reg hs _ _ _ h1
  obtain ⟨_, h3⟩ := written_codes hT ha.layout ha.decl ha.reg hv hc hw ha.strict hm'.fits
  have h4 := h3.1 [] (by simp)
  simp only [List.append_nil] at h4
  exact (ha.buffer_iff hT hm' v _).mpr ⟨[], h4, rfl⟩

/-- The second time the bytes stay what they are: one round of reading and writing gives a normal form. -/
theorem C66_normal_partial (hs : settled T (Fmt.code T.toHost e) t) {base base' : Nat} {buf bs : Bytes} (hm : InMem T base buf)
    (hm' : InMem T base' bs) {v w : Val} {n m : Nat} (hv : hasTy T t v)
    (h : readWithLengthFromBuffer T e t base buf = (.ok v, n)) {junk junk' : Nat → UInt8} (hw : writeToVec T e t v junk = .ok bs)
    (h' : readWithLengthFromBuffer T e t base' bs = (.ok w, m)) : writeToVec T e t w junk' = .ok bs := by
  rw [C66_again_partial hT ha hs hm hm' hv h hw] at h'
  simp only [Prod.mk.injEq, Except.ok.injEq] at h'
  obtain ⟨rfl, _⟩ := h'
  obtain ⟨h1, h2⟩ := vec_inv hT ha.layout ha.decl (regular_slice t ha.reg) hv hw
  exact vec_ok hT ha.layout ha.decl (regular_slice t ha.reg) hv h1 hm'.fits.mem
end

/-! ## Where it is false -/

open Samples

/-- A value of a type which can be declared, was read from some bytes, and is written as others. -/
def Changed (t : Ty) (v : Val) (buf bs : Bytes) : Prop :=
  Real t v ∧ readWithLengthFromBuffer x64 .little t 4096 buf = (.ok v, buf.length) ∧
    writeToVec x64 .little t v (fun _ => 0) = .ok bs ∧ bs ≠ buf

/-- **C66 is false** for flags. -/
theorem C66_false_flag : Changed .bool (.bool true) [2] [1] := ⟨by real, by decide, by decide, by decide⟩

/-- **C66 is false** for variable length integers: leading zeros are dropped. -/
theorem C66_false_varint : Changed .varint64 (.num 5) [0x80, 5] [5] :=
  ⟨⟨rfl, rfl, by simp [hasTy]⟩, by decide, by decide, by decide⟩

/-- **C66 is false** for sets: an element which comes twice is written once. -/
theorem C66_false_set : Changed (.set (.prim .u8)) (.list [.num 5]) [2, 0, 0, 0, 5, 5] [1, 0, 0, 0, 5] :=
  ⟨by real, by decide, by decide, by decide⟩

/-- **C66 is false** for maps: of two values for a key the last is written. -/
theorem C66_false_map : Changed (.map (.prim .u8) (.prim .u8)) (.list [.pair (.num 5) (.pair (.num 2) .unit)])
    [2, 0, 0, 0, 5, 1, 5, 2] [1, 0, 0, 0, 5, 2] :=
  ⟨⟨rfl, rfl, by
    simp only [hasTy]
    exact ⟨fun kv h => ⟨.num 5, .num 2, by simpa using h, by simp [hasTy, Prim.size], by simp [hasTy, Prim.size]⟩, by decide, by decide, by decide⟩⟩, by decide, by decide, by decide⟩

/-- **C66 is false** for durations: nanoseconds are carried into seconds. -/
theorem C66_false_duration : Changed .duration (.pair (.num 1) (.num 0))
    [0, 0, 0, 0, 0, 0, 0, 0, 0, 202, 154, 59] [1, 0, 0, 0, 0, 0, 0, 0, 0, 0, 0, 0] :=
  ⟨⟨rfl, rfl, by simp [hasTy]⟩, by decide, by decide, by decide⟩

/-- `struct { #[speedy(default_on_eof)] a: u8 }`. -/
def lateByte : Ty := .struct ⟨.rust, 1, 1, [0], true⟩ (.cons { defaultOnEof := true, dflt := .num 0 } (.prim .u8) .nil)

/-- **C66 is false** for fields which are missing at the end: they are written. -/
theorem C66_false_default : Changed lateByte (.pair (.num 0) .unit) [] [0] :=
  ⟨⟨rfl, rfl, by simp [lateByte, hasTy, hasTyFields, Prim.size]⟩, by decide, by decide, by decide⟩

/-- `struct { n: u8, #[speedy(length = n)] xs: BTreeSet<u8> }`. -/
def countedSet : Ty := .struct ⟨.rust, 32, 8, [0, 8], true⟩ (.cons {} (.prim .u8)
  (.cons { len := some (.expr fun prev => match prev with | [.num n] => n | _ => 0) } (.set (.prim .u8)) .nil))

/-- **C66 is false**: what has been read may be impossible to write. -/
theorem C66_false_refused : Real countedSet (.pair (.num 2) (.pair (.list [.num 5]) .unit)) ∧
    readWithLengthFromBuffer x64 .little countedSet 4096 [2, 5, 5] = (.ok (.pair (.num 2) (.pair (.list [.num 5]) .unit)), 3) ∧
    writeToVec x64 .little countedSet (.pair (.num 2) (.pair (.list [.num 5]) .unit)) (fun _ => 0) = .error .lengthMismatch :=
  ⟨⟨by decide, by decide, by simp [countedSet, hasTy, hasTyFields, Prim.size, sizeOf]; decide⟩, by decide⟩

/-- `#[speedy(tag_type = u8, peek_tag)] enum { #[speedy(tag = 2)] A(bool), #[speedy(tag = 1)] B(u8) }`. -/
def flagPeek : Ty := .enum ⟨.u8, true, 2⟩ (.cons 2 (.cons {} .bool .nil) (.cons 1 (.cons {} (.prim .u8) .nil) .nil))

/-- **C66 is false** for enums with `peek_tag`: a value which has been read is written, and read again as another one. -/
theorem C66_false_peek : Changed flagPeek (.variant 0 (.pair (.bool true) .unit)) [2] [1] ∧
    readWithLengthFromBuffer x64 .little flagPeek 4096 [1] = (.ok (.variant 1 (.pair (.num 1) .unit)), 1) :=
  ⟨⟨⟨rfl, rfl, by simp [flagPeek, hasTy, hasTyFields, hasTyVariants]⟩, by decide, by decide, by decide⟩, by decide⟩

/-! ## Examples -/

theorem message_firm : firm false x64 message := by
  simp [message, shape, point, firm, firmFields, firmVariants, Attrs.wlen, LenR.firm]

/-- Any bytes which are read as a `Message` are what is written for it. -/
example {buf : Bytes} (hm : InMem x64 4096 buf) {v : Val} {n : Nat}
    (h : readWithLengthFromBuffer x64 .big message 4096 buf = (.ok v, n)) : writeToVec x64 .big message v (fun _ => 0) = .ok (buf.take n) :=
  C66_same_bytes_partial x64_ok (message_agreeable .big) message_firm hm h _

/-- … and there are such bytes. -/
example : writeToVec x64 .little message msg (fun _ => 0) = .ok (List.take 21 (msgLe ++ [1, 2, 3])) :=
  C66_same_bytes_partial (base := 4096) x64_ok (message_agreeable .little) message_firm ⟨by decide, by decide, by decide⟩ (by rfl) _

/-- `struct { n: u8, #[speedy(length = n)] name: String, last: Option<u16> }`. -/
def named : Ty := .struct ⟨.rust, 56, 8, [0, 8, 32], true⟩ (.cons {} (.prim .u8)
  (.cons { len := some (.expr fun prev => match prev with | [.num n] => n | _ => 0) } (.str .owned)
  (.cons {} (.option (.prim .u16)) .nil)))

theorem named_firm : firm true x64 named := by
  simp only [named, firm, firmFields, Bool.false_eq_true, if_false, and_true, true_and]
  refine ⟨?_, ?_, ?_⟩
  · exact fun _ _ => firm_std _
  · rintro prev ⟨p, v, rfl, rfl, hv⟩
    cases v <;> simp only [hasTy] at hv
    simp only [Prim.size] at hv
    show _ ≤ _
    simp only [List.nil_append]
    refine Nat.le_trans (Nat.le_of_lt hv) ?_
    decide
  · exact fun _ _ => firm_std _

example : ∃ bs : Bytes, writeToVec x64 .little named (.pair (.num 1) (.pair (.bytes [65]) (.pair (.some (.num 258)) .unit))) (fun _ => 0) = .ok bs ∧
    bs.length = 5 ∧ ∀ (i : Nat) (u w : UInt8), ([1, 65, 7, 2, 1] : Bytes)[i]? = some u → bs[i]? = some w → u = w ∨ (u ≠ 0 ∧ w = 1) :=
  C66_flags_partial (base := 4096) x64_ok ⟨by decide, by decide, by decide, by decide, by decide, by decide⟩ named_firm
    ⟨by decide, by decide, by decide⟩ (by decide) _

/-- Sets may be written as other bytes; these are read as the same set. -/
example : readWithLengthFromBuffer x64 .little (.set (.prim .u8)) 8192 [1, 0, 0, 0, 5] = (.ok (.list [.num 5]), 5) :=
  C66_again_partial (base := 4096) (buf := [2, 0, 0, 0, 5, 5]) (n := 6) (junk := fun _ => 0) x64_ok
    ⟨by decide, by decide, by decide, by decide, by decide, by decide⟩ (by simp [settled])
    ⟨by decide, by decide, by decide⟩ ⟨by decide, by decide, by decide⟩ C66_false_set.1.2.2 C66_false_set.2.1 C66_false_set.2.2.1

/-! ## Cases -/

section Cases
open Samples

/-- The set written again, and the set read from that. -/
example : writeToVec x64 .little (.set (.prim .u8)) (.list [.num 5]) (fun _ => 1) = .ok [1, 0, 0, 0, 5] :=
  C66_normal_partial (base := 4096) (base' := 8192) (buf := [2, 0, 0, 0, 5, 5]) (n := 6) (m := 5) (junk := fun _ => 0) x64_ok
    ⟨by decide, by decide, by decide, by decide, by decide, by decide⟩ (by simp [settled])
    ⟨by decide, by decide, by decide⟩ ⟨by decide, by decide, by decide⟩ C66_false_set.1.2.2 C66_false_set.2.1 C66_false_set.2.2.1 (by decide)

example {buf : Bytes} (hm : InMem x64 4096 buf) {v : Val} {n : Nat}
    (h : readWithLengthFromBufferCopying x64 .big message 4096 buf = (.ok v, n)) : writeToVec x64 .big message v (fun _ => 0) = .ok (buf.take n) :=
  C66_same_bytes_copying_partial x64_ok (message_agreeable .big) message_firm hm (by decide) h _

example {src : Src} (hs : src.Clean) (hf : Fits x64 src.data) {v : Val} (b : Bool)
    (h : (readFromStream x64 .big message (· + 100) b src).1 = .ok v) :
    ∃ bs, writeToVec x64 .big message v (fun _ => 0) = .ok bs ∧ bs <+: src.data :=
  C66_same_bytes_stream_partial x64_ok (message_agreeable .big) message_firm (fun n => by omega) b hs hf (by decide) h _

example : hasTy x64 named (.pair (.num 1) (.pair (.bytes [65]) (.pair (.some (.num 258)) .unit))) :=
  C66_typed_partial (e := .little) (base := 4096) (buf := [1, 65, 7, 2, 1]) (n := 5) x64_ok
    ⟨by decide, by decide, by decide, by decide, by decide, by decide⟩ named_firm ⟨by decide, by decide, by decide⟩ (by decide)

end Cases

end Verif
