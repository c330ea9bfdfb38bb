import Verif.PropsRoundTrip
import Verif.PropsDerive
import Verif.PropsBugs
import Verif.PropsPlace

/-!
# Exceptions as classes: C01, C21, C32

With `peek_tag` the tag is not written; on reading it is taken from the first bytes of the fields, which are read again as fields.
`C01_false_peek` shows that this goes wrong.  Here: it goes well exactly for the values whose encoding begins with the tag of their
variant.

`C32_false_empty` shows one panic; `C32_empty_elements` shows it for all types like that and all inputs.
-/

namespace Verif

/-- The fields of the value are canonical, whatever they begin with. -/
theorem canonVariants_peek {F : Fmt} {d : EnumDesc} (hp : d.peek = true) (hn : d.tagTy ≠ .varint) :
    ∀ {V : Variants} {i tag : Nat} {v : Val} {bs rest : Bytes}, canonVariants F { d with peek := false } V i v →
      V.tags[i]? = some tag → wireVariants F d V i v = .ok bs → bs = F.e.bytes d.tagTy.minSize tag ++ rest → canonVariants F d V i v
  | .nil, _, _, _, _, _, _, _, _, _ => trivial
  | .cons tag' fs V, 0, tag, v, bs, rest, hc, ht, hw, hb => by
    simp only [Variants.tags, List.getElem?_cons_zero, Option.some.injEq] at ht
    subst ht
    refine ⟨hc.1, fun _ => ⟨fun h => absurd h hn, rest, ?_⟩⟩
    simp only [wireVariants, hp, if_true] at hw
    have hnum : wireNum F.e d.tagTy tag' = F.e.bytes d.tagTy.minSize tag' := by
      cases h : d.tagTy <;> first | exact absurd h hn | rfl
    rw [hnum, ← hb, ← hw]
    cases wireFields F fs [] v <;> rfl
  | .cons tag' fs V, i + 1, tag, v, bs, rest, hc, ht, hw, hb =>
    canonVariants_peek hp hn (V := V) (i := i) hc (by simpa [Variants.tags] using ht) hw hb

/-- What is read as a value of a variant begins with the tag of the variant. -/
theorem peek_begins {T : Target} {e : Endian} {d : EnumDesc} {V : Variants} {i tag : Nat} {v : Val} {bs : Bytes} (hn : d.tagTy ≠ .varint)
    (ht : V.tags[i]? = some tag) {σ : Type} {R : ReaderOps σ} {Inv : σ → Prop} {pend : σ → Bytes} (L : Lawful R Inv pend) {s : σ} (hs : Inv s)
    (hb : pend s = bs) (h : ((decode T e (.enum d V) Cx.std).run R s).1 = .ok (.variant i v)) :
    ∃ rest, bs = e.bytes d.tagTy.minSize tag ++ rest := by
  obtain ⟨tag', h1, h2⟩ := C21_only_own_tag L hs (fun h => absurd h hn) h
  rw [if_neg hn, hb] at h2
  rw [ht, Option.some.injEq] at h1
  subst h1
  refine ⟨bs.drop d.tagTy.minSize, ?_⟩
  have hb := e.bytes_num (bs.take d.tagTy.minSize)
  rw [List.length_take, Nat.min_eq_left h2.1, h2.2] at hb
  rw [hb, List.take_append_drop]

section
variable {T : Target} (hT : T.Ok) {e : Endian} {d : EnumDesc} {V : Variants} {i tag : Nat} {v : Val} {bs : Bytes} {junk : Nat → UInt8}
  (hp : d.peek = true) (hn : d.tagTy ≠ .varint) (ht : V.tags[i]? = some tag)
  (hl : layoutOk T (.enum d V) = true) (hd : declOk (.enum d V) = true) (hr : regular T e (.enum d V) = true)
  (hv : hasTy T (.enum d V) (.variant i v))
  (hc : canon (Fmt.code T.toHost e) (.enum { d with peek := false } V) (.variant i v))
  (hw : writeToVec T e (.enum d V) (.variant i v) junk = .ok bs)
include hT hp hn ht hl hd hr hv hc hw

/-- **C01**, exactly: a value of an enum with `peek_tag` is read back from its encoding if and only if the encoding begins with the tag of
its variant.  `hc` is what would be asked of the value if the enum had no `peek_tag`. -/
theorem C01_peek_exact {base : Nat} (he : ends true false (.enum d V) = true) (hm : InMem T base bs) :
    readFromBuffer T e (.enum d V) base bs = .ok (.variant i v) ↔ ∃ rest, bs = e.bytes d.tagTy.minSize tag ++ rest := by
  constructor
  · intro h
    unfold readFromBuffer readWithLengthFromBuffer at h
    split at h
    · simp at h
    · exact peek_begins hn ht (bufferReader_lawful T.toHost) (BufSt.init_inv hm.top) (BufSt.init_pend _ _) h
  · rintro ⟨rest, hb⟩
    obtain ⟨hw', _⟩ := vec_inv hT hl hd (regular_slice _ hr) hv hw
    exact C01_round_trip_partial hT hl hd hr hv (canonVariants_peek hp hn hc ht hw' hb) hw he hm

/-- The same with copying. -/
theorem C01_peek_exact_copying {base : Nat} (he : ends true false (.enum d V) = true) (hs : noRefs (.enum d V) = true) (hm : InMem T base bs) :
    readFromBufferCopying T e (.enum d V) base bs = .ok (.variant i v) ↔ ∃ rest, bs = e.bytes d.tagTy.minSize tag ++ rest := by
  constructor
  · intro h
    unfold readFromBufferCopying readWithLengthFromBufferCopying at h
    split at h
    · simp at h
    · exact peek_begins hn ht (copyingReader_lawful T.toHost) (BufSt.init_inv hm.top) (BufSt.init_pend _ _) h
  · rintro ⟨rest, hb⟩
    obtain ⟨hw', _⟩ := vec_inv hT hl hd (regular_slice _ hr) hv hw
    exact C01_round_trip_copying_partial hT hl hd hr hv (canonVariants_peek hp hn hc ht hw' hb) hw he hs hm

/-- The same from streams. -/
theorem C01_peek_exact_stream {grow : Nat → Nat} (hg : ∀ n, n ≤ grow n) {buffered : Bool} {src : Src} (he : ends true false (.enum d V) = true)
    (hs : noRefs (.enum d V) = true) (hcl : src.Clean) (hda : src.data = bs) (hf : Fits T bs) :
    (readFromStream T e (.enum d V) grow buffered src).1 = .ok (.variant i v) ↔ ∃ rest, bs = e.bytes d.tagTy.minSize tag ++ rest := by
  constructor
  · intro h
    exact peek_begins hn ht (streamReader_lawful hg) (StreamSt.init_inv hcl) (by rw [StreamSt.init_pend, hda]) h
  · rintro ⟨rest, hb⟩
    obtain ⟨hw', _⟩ := vec_inv hT hl hd (regular_slice _ hr) hv hw
    exact C01_round_trip_stream_partial hT hl hd hr hv (canonVariants_peek hp hn hc ht hw' hb) hw hg he hs hcl hda hf

end

/-! ## Elements without a size -/

/-- The length of a container, read from a buffer. -/
theorem std_length {T : Target} (e : Endian) {base : Nat} {buf : Bytes} (hm : InMem T base buf) (h4 : 4 ≤ buf.length) :
    ∃ n s, (readLenR T.toHost e Cx.std.len).run (bufferReader T.toHost) (BufSt.init base buf) = (.ok (some n), s) ∧ s.Inv T.toHost ∧
      n = e.num (buf.take 4) ∧ s.pend = buf.drop 4 := by
  have h := refines_readLenR (B := buf.length) (bufferReader_lawful T.toHost) T.toHost e LenR.std (BufSt.init base buf) (BufSt.init_inv hm.top)
    (by rw [BufSt.init_pend]; exact Nat.le_refl _)
  have hq : pLenR T.toHost e LenR.std (BufSt.init base buf).pend = .ok (some (e.num (buf.take 4))) (buf.drop 4) := by
    rw [BufSt.init_pend]
    show P.map some (P.map e.num (pTake 4)) buf = _
    have : pTake 4 buf = .ok (buf.take 4) (buf.drop 4) := by unfold pTake; rw [if_pos h4]
    simp only [P.map, P.bind, this, P.pure]
  rw [hq] at h
  exact ⟨_, _, Prod.ext h.1 rfl, h.2.1, rfl, h.2.2.1⟩

section
variable {T : Target} {e : Endian} {base : Nat} {buf : Bytes} (he : e.conv T.toHost = false) (hm : InMem T base buf) (h4 : 4 ≤ buf.length)
include he hm h4

/-- **C32 is false** for all sets of elements which are plain memory and have no size: reading them from a buffer in the byte order of the
machine panics, whatever is in the buffer. -/
theorem C32_false_sets {t : Ty} (hp : isPrimitive T t = true) (hz : sizeOf T t = 0) :
    readFromBuffer T e (.set t) base buf = .error (.panic .divByZero) := by
  obtain ⟨n, s, h1, h2, _⟩ := std_length e hm h4
  unfold readFromBuffer readWithLengthFromBuffer
  rw [if_neg (by simp only [minBytes]; omega)]
  simp only [decode]
  rw [M.run_bind_ok h1]
  simp only []
  rw [M.run_map]
  unfold readCollection
  simp only [elemOf, hp, hz, he, Nat.mul_zero, Bool.not_false, Bool.or_true, Bool.and_true, if_true]
  rw [if_neg (by omega)]
  rcases bufBorrow_cases h2 0 with ⟨_, s', hb, _⟩ | ⟨hlt, _⟩
  · have : ∀ (k : Option (Except Err (Nat × Bytes)) → M (List Val)), (Prog.borrowR 0 k).run (bufferReader T.toHost) s =
        (k (some (.ok (s.ptr, s.pend.take 0)))).run (bufferReader T.toHost) s' := by
      intro k
      show (k (bufBorrow T.toHost 0 s).1).run _ (bufBorrow T.toHost 0 s).2 = _
      rw [hb]
    rw [this]
    rfl
  · omega

/-- The same for maps from such elements to such elements. -/
theorem C32_false_maps {k v : Ty} (hp : isPrimitive T k = true) (hz : sizeOf T k = 0) (hp' : isPrimitive T v = true) (hz' : sizeOf T v = 0) :
    readFromBuffer T e (.map k v) base buf = .error (.panic .divByZero) := by
  obtain ⟨n, s, h1, h2, _⟩ := std_length e hm h4
  unfold readFromBuffer readWithLengthFromBuffer
  rw [if_neg (by simp only [minBytes]; omega)]
  simp only [decode]
  rw [M.run_bind_ok h1]
  simp only []
  rw [M.run_map]
  unfold readKV
  simp only [elemOf, hp, hz, hp', hz', he, Nat.mul_zero, Nat.add_zero, Bool.not_false, Bool.or_true, Bool.and_true, if_true]
  rw [if_neg (by omega)]
  rcases bufBorrow_cases h2 0 with ⟨_, s', hb, _⟩ | ⟨hlt, _⟩
  · have : ∀ (k : Option (Except Err (Nat × Bytes)) → M (List Val)), (Prog.borrowR 0 k).run (bufferReader T.toHost) s =
        (k (some (.ok (s.ptr, s.pend.take 0)))).run (bufferReader T.toHost) s' := by
      intro k
      show (k (bufBorrow T.toHost 0 s).1).run _ (bufBorrow T.toHost 0 s).2 = _
      rw [hb]
    rw [this]
    rfl
  · omega

/-- The same for `Cow<[T]>`, if the elements have no alignment. -/
theorem C32_false_cows {t : Ty} (hp : isPrimitive T t = true) (hz : sizeOf T t = 0) (ha : alignOf T t = 1) :
    readFromBuffer T e (.seq .cow t) base buf = .error (.panic .divByZero) := by
  obtain ⟨n, s, h1, h2, _⟩ := std_length e hm h4
  unfold readFromBuffer readWithLengthFromBuffer
  rw [if_neg (by simp only [minBytes]; omega)]
  simp only [decode]
  rw [if_neg (by simp), M.run_bind_ok h1]
  simp only [readSeq]
  rw [M.run_map]
  unfold readCow
  have hw : wmul T.toHost n 0 = 0 := by simp [wmul]
  simp only [elemOf, hp, hz, ha, he, hw, Bool.not_false, Bool.or_true, Bool.and_true, if_true]
  rcases bufBorrow_cases h2 0 with ⟨_, s', hb, _⟩ | ⟨hlt, _⟩
  · rw [run_borrow_ok hb]
    rfl
  · omega
end

/-- **C06 is false** for all vectors of elements which have no size and are not plain memory: of whatever the buffer holds only the length is
read, and as many values made of nothing.  (If enough bytes are there that the elements could be; otherwise it is an error.) -/
theorem C06_false_vecs {T : Target} (hT : T.Ok) {e : Endian} {base : Nat} {buf : Bytes} (hm : InMem T base buf) (h4 : 4 ≤ buf.length) {t : Ty}
    (hl : layoutOk T t = true) (hp : isPrimitive T t = false) (hz : sizeOf T t = 0) (hn : minBytes T t * e.num (buf.take 4) ≤ buf.length - 4) :
    readWithLengthFromBuffer T e (.seq .vec t) base buf = (.ok (.list (List.replicate (e.num (buf.take 4)) (zstVal t))), 4) := by
  have hpa : parse T e (.seq .vec t) Cx.std buf = .ok (.list (List.replicate (e.num (buf.take 4)) (zstVal t))) (buf.drop 4) := by
    have ht : pTake 4 buf = .ok (buf.take 4) (buf.drop 4) := by unfold pTake; rw [if_pos h4]
    have h1 : pLenR T.toHost e Cx.std.len buf = .ok (some (e.num (buf.take 4))) (buf.drop 4) := by
      show P.map some (P.map e.num (pTake 4)) buf = _
      simp only [P.map, P.bind, ht, P.pure]
    have hi := hT.isize
    have hmem := hm.fits.mem
    have h2 : pVec T e t (parse T e t Cx.std) (e.num (buf.take 4)) (buf.drop 4) =
        .ok (List.replicate (e.num (buf.take 4)) (zstVal t)) (buf.drop 4) := by
      unfold pVec
      simp only [hp, hz, Bool.false_and, Bool.false_eq_true, if_false, Nat.mul_zero, Bool.not_false, Bool.true_and, beq_self_eq_true, if_true,
        List.length_drop]
      rw [if_neg (by omega), if_neg (by omega), if_neg (by omega)]
    simp only [parse]
    rw [if_neg (by simp), P.bind_ok h1]
    simp only [pSeq, P.map]
    rw [P.bind_ok h2]
    rfl
  have hb := buffer_ok hT (t := .seq .vec t) (e := e) (by simpa [layoutOk] using hl) hm (by simp only [minBytes]; omega) hpa
  rw [hb, List.length_drop]
  congr 1
  omega

/-! ## Cases -/

section Cases
open Samples

/-- `A { x: 1 }` begins with its tag; `A { x: 2 }` does not, and is not read back. -/
example : readFromBuffer x64 .little peekEnum 4096 [1] = .ok (.variant 0 (.pair (.num 1) .unit)) :=
  (C01_peek_exact x64_ok (d := ⟨.u8, true, 0⟩) (i := 0) (tag := 1) (junk := fun _ => 0) rfl (by decide) rfl (by decide) (by decide) (by decide)
    (by simp [hasTy, hasTyFields, hasTyVariants, Prim.size]) (by simp [canon, canonVariants, canonFields]) (by decide) (by decide)
    ⟨by decide, by decide, by decide⟩).2 ⟨[], by decide⟩

example : readFromBuffer x64 .little peekEnum 4096 [2] ≠ .ok (.variant 0 (.pair (.num 2) .unit)) := fun h => by
  obtain ⟨rest, h⟩ := (C01_peek_exact x64_ok (e := .little) (d := ⟨.u8, true, 0⟩)
    (V := .cons 1 (.cons {} (.prim .u8) .nil) (.cons 2 (.cons {} (.prim .u8) (.cons {} (.prim .u8) .nil)) .nil))
    (i := 0) (tag := 1) (v := .pair (.num 2) .unit) (bs := [2]) (junk := fun _ => 0) rfl (by decide) rfl (by decide) (by decide) (by decide)
    (by simp [hasTy, hasTyFields, hasTyVariants, Prim.size]) (by simp [canon, canonVariants, canonFields]) (by decide) (by decide)
    ⟨by decide, by decide, by decide⟩).1 h
  simp [Endian.bytes, leBytes, LenTy.minSize] at h

example : (readFromStream x64 .little peekEnum (· + 100) true ⟨[2, 7], [.give 1]⟩).1 = .ok (.variant 1 (.pair (.num 2) (.pair (.num 7) .unit))) :=
  (C01_peek_exact_stream x64_ok (d := ⟨.u8, true, 0⟩) (i := 1) (tag := 2) (bs := [2, 7]) (junk := fun _ => 0) rfl (by decide) rfl (by decide)
    (by decide) (by decide) (by simp [hasTy, hasTyFields, hasTyVariants, Prim.size]) (by simp [canon, canonVariants, canonFields]) (by decide)
    (fun n => by omega) (by decide) (by decide) (by simp [Src.Clean]) rfl ⟨by decide, by decide⟩).2 ⟨[7], by decide⟩

example : readFromBufferCopying x64 .little peekEnum 4096 [2, 7] = .ok (.variant 1 (.pair (.num 2) (.pair (.num 7) .unit))) :=
  (C01_peek_exact_copying x64_ok (d := ⟨.u8, true, 0⟩) (i := 1) (tag := 2) (bs := [2, 7]) (junk := fun _ => 0) rfl (by decide) rfl (by decide)
    (by decide) (by decide) (by simp [hasTy, hasTyFields, hasTyVariants, Prim.size]) (by simp [canon, canonVariants, canonFields]) (by decide)
    (by decide) (by decide) ⟨by decide, by decide, by decide⟩).2 ⟨[7], by decide⟩

/-- Nothing, and anything. -/
example (buf : Bytes) (hm : InMem x64 4096 (0 :: 0 :: 0 :: 0 :: buf)) :
    readFromBuffer x64 .little (.set empty) 4096 (0 :: 0 :: 0 :: 0 :: buf) = .error (.panic .divByZero) :=
  C32_false_sets (by decide) hm (by simp) (by decide) (by decide)
example : readFromBuffer x64 .little (.map empty empty) 4096 [7, 0, 0, 0] = .error (.panic .divByZero) :=
  C32_false_maps (by decide) ⟨by decide, by decide, by decide⟩ (by decide) (by decide) (by decide) (by decide) (by decide)
example : readFromBuffer x64 .little (.seq .cow empty) 4096 [7, 0, 0, 0] = .error (.panic .divByZero) :=
  C32_false_cows (by decide) ⟨by decide, by decide, by decide⟩ (by decide) (by decide) (by decide) (by decide)

/-- An enum with one variant, of which 4 bytes are written. -/
example : readWithLengthFromBuffer x64 .little (.seq .vec only) 4096 [1, 0, 0, 0, 0, 0, 0, 0, 7] = (.ok (.list [.variant 0 .unit]), 4) :=
  C06_false_vecs x64_ok ⟨by decide, by decide, by decide⟩ (by decide) (by decide) (by decide) (by decide) (by decide)

end Cases

end Verif
