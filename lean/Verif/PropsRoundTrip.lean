import Verif.Samples

/-!
# Round trips: C01, C06, C07, C40

`writeToVec`, `readFromBuffer`, … are the entry points of the library;
`junk` is what an uninitialised vector happens to contain, `base` the address of
the input.  The hypotheses, defined in `Spec.lean` and `Regular.lean`:
* `T.Ok`: the machine has at least 32 bits, …;
* `layoutOk T t`, `declOk t`: the compiler's layout is a possible one and the
  derive macro accepts the declarations;
* `hasTy T t v`: `v` is a value of type `t`;
* `regular T e t`, `canon F t v`, `ends …`: exclude the types and values for which the
  property is false — the counterexamples are proved below and in `PropsBugs.lean`;
* `InMem T base bs`: the bytes are somewhere in memory.
-/

namespace Verif

section
variable {T : Target} (hT : T.Ok) {e : Endian} {t : Ty} {v : Val} {bs : Bytes} {junk : Nat → UInt8}
  (hl : layoutOk T t = true) (hd : declOk t = true) (hr : regular T e t = true) (hv : hasTy T t v)
  (hc : canon (Fmt.code T.toHost e) t v) (hw : writeToVec T e t v junk = .ok bs)
include hT hl hd hr hv hc hw

/-- What was written satisfies the minimum size, and parses. -/
theorem written_codes {tl st : Bool} (he : ends tl st t = true) (hf : Fits T bs) :
    minBytes T t ≤ bs.length ∧ Codes tl st (parse T e t Cx.std) bs v := by
  obtain ⟨hw, _⟩ := vec_inv hT hl hd (regular_slice t hr) hv hw
  have h1 := parse_codes hT (e := e) t tl LenR.std Cx.std.inl v bs (st := st) hl hd hr he (lenOk_std _ _ _)
    hv hc hw hf
  have h2 := wire_min (e := e) t LenR.std v bs hl hd hr hv hc hw
  rw [minAt_std] at h2
  exact ⟨h2, h1⟩

/-- **C01**: reading what was written returns the value.

Full claim: for all types and values.  Missing: types excluded by `regular` and
values excluded by `canon`, for which it is false (see `PropsBugs.lean`). -/
theorem C01_round_trip_partial {base : Nat} (he : ends true false t = true) (hm : InMem T base bs) :
    readFromBuffer T e t base bs = .ok v := by
  obtain ⟨h2, h1⟩ := written_codes hT hl hd hr hv hc hw he hm.fits
  have h3 := h1.1 [] (by simp)
  simp only [List.append_nil] at h3
  unfold readFromBuffer
  rw [buffer_ok hT hl hm h2 h3]

/-- C01 for `read_from_buffer_copying_data` (and `read_from_file`). -/
theorem C01_round_trip_copying_partial {base : Nat} (he : ends true false t = true) (hn : noRefs t = true)
    (hm : InMem T base bs) : readFromBufferCopying T e t base bs = .ok v := by
  obtain ⟨h2, h1⟩ := written_codes hT hl hd hr hv hc hw he hm.fits
  have h3 := h1.1 [] (by simp)
  simp only [List.append_nil] at h3
  unfold readFromBufferCopying
  rw [copying_ok hT hl hm hn h2 h3]

/-- C01 for both stream readers, whatever the sizes of the pieces in which the
stream delivers the bytes. -/
theorem C01_round_trip_stream_partial {grow : Nat → Nat} (hg : ∀ n, n ≤ grow n) {buffered : Bool} {src : Src}
    (he : ends true false t = true) (hn : noRefs t = true) (hs : src.Clean) (hb : src.data = bs)
    (hf : Fits T bs) : (readFromStream T e t grow buffered src).1 = .ok v := by
  obtain ⟨h2, h1⟩ := written_codes hT hl hd hr hv hc hw he hf
  have h3 := h1.1 [] (by simp)
  simp only [List.append_nil] at h3
  subst hb
  have h4 := stream_outcome hT hl (e := e) hg (b := buffered) hs hf hn
  rw [h3] at h4
  exact h4.1

/-- **C06**: an encoding is read back as its value whatever follows it, and the
reported length is its length.

Full claim: for all types without `length = ..`.  Missing: the exceptions of C01. -/
theorem C06_self_delimiting_partial {base : Nat} {rest : Bytes} (he : ends false false t = true)
    (hm : InMem T base (bs ++ rest)) :
    readWithLengthFromBuffer T e t base (bs ++ rest) = (.ok v, bs.length) := by
  obtain ⟨h2, h1⟩ := written_codes hT hl hd hr hv hc hw he hm.fits.left
  have h3 := h1.1 rest (by simp)
  rw [buffer_ok hT hl hm (by simp only [List.length_append]; omega) h3]
  simp

/-- C06 for `read_with_length_from_buffer_copying_data`. -/
theorem C06_self_delimiting_copying_partial {base : Nat} {rest : Bytes} (he : ends false false t = true)
    (hn : noRefs t = true) (hm : InMem T base (bs ++ rest)) :
    readWithLengthFromBufferCopying T e t base (bs ++ rest) = (.ok v, bs.length) := by
  obtain ⟨h2, h1⟩ := written_codes hT hl hd hr hv hc hw he hm.fits.left
  have h3 := h1.1 rest (by simp)
  rw [copying_ok hT hl hm hn (by simp only [List.length_append]; omega) h3]
  simp

/-- C06 for any reader in the middle of its input: after `read_value` the bytes
following the encoding are next. -/
theorem C06_self_delimiting_reader_partial {σ : Type} {R : ReaderOps σ} {Inv : σ → Prop} {pend : σ → Bytes}
    (L : Lawful R Inv pend) {s : σ} (hs : Inv s) {rest : Bytes} (hp : pend s = bs ++ rest)
    (he : ends false false t = true) (hn : noRefs t = true ∨ Borrows R Inv) (hf : Fits T (bs ++ rest)) :
    ∃ s', (decode T e t Cx.std).run R s = (.ok v, s') ∧ Inv s' ∧ pend s' = rest := by
  obtain ⟨h2, h1⟩ := written_codes hT hl hd hr hv hc hw he hf.left
  have h3 := h1.1 rest (by simp)
  have h4 := decode_refines L hT (B := (bs ++ rest).length) hf.mem hf.fuel (e := e) t Cx.std hl hn s hs
    (by rw [hp]; exact Nat.le_refl _)
  rw [hp, h3] at h4
  exact ⟨_, Prod.ext h4.1 rfl, h4.2.1, h4.2.2.1⟩

/-- **C07**: a truncated encoding is not accepted by `read_from_buffer`.

Full claim: for all types without `length = ..` and `default_on_eof`.  Missing:
the exceptions of C01. -/
theorem C07_truncated_partial {base : Nat} {x y : Bytes} (he : ends false true t = true) (hxy : bs = x ++ y)
    (hy : y ≠ []) (hm : InMem T base bs) :
    ∃ er, readFromBuffer T e t base x = .error er ∧
      (er.isEof = true ∨ er = .inputBufferIsTooSmall x.length (minBytes T t)) := by
  obtain ⟨_, h1⟩ := written_codes hT hl hd hr hv hc hw he hm.fits
  have h3 := h1.2 rfl x y hxy hy
  subst hxy
  obtain ⟨er, h4, h5⟩ := buffer_fail hT hl hm.prefix h3
  refine ⟨er, h4, ?_⟩
  rcases h5 with h5 | h5
  · exact .inr h5
  · exact .inl (by simpa [Err.isEof] using h5)

/-- C07 for `read_from_buffer_copying_data`. -/
theorem C07_truncated_copying_partial {base : Nat} {x y : Bytes} (he : ends false true t = true)
    (hn : noRefs t = true) (hxy : bs = x ++ y) (hy : y ≠ []) (hm : InMem T base bs) :
    ∃ er, readFromBufferCopying T e t base x = .error er ∧
      (er.isEof = true ∨ er = .inputBufferIsTooSmall x.length (minBytes T t)) := by
  obtain ⟨_, h1⟩ := written_codes hT hl hd hr hv hc hw he hm.fits
  have h3 := h1.2 rfl x y hxy hy
  subst hxy
  obtain ⟨er, h4, h5⟩ := copying_fail hT hl hm.prefix hn h3
  refine ⟨er, h4, ?_⟩
  rcases h5 with h5 | h5
  · exact .inr h5
  · exact .inl (by simpa [Err.isEof] using h5)

/-- C07 for both stream readers. -/
theorem C07_truncated_stream_partial {grow : Nat → Nat} (hg : ∀ n, n ≤ grow n) {buffered : Bool} {src : Src}
    {y : Bytes} (he : ends false true t = true) (hn : noRefs t = true) (hs : src.Clean)
    (hxy : bs = src.data ++ y) (hy : y ≠ []) (hf : Fits T bs) :
    ∃ er, (readFromStream T e t grow buffered src).1 = .error er ∧ er.isEof = true := by
  obtain ⟨_, h1⟩ := written_codes hT hl hd hr hv hc hw he hf
  have h3 := h1.2 rfl _ y hxy hy
  have h4 := stream_outcome hT hl (e := e) hg (b := buffered) hs (by rw [hxy] at hf; exact hf.left) hn
  rw [h3] at h4
  obtain ⟨er, h5, h6, _⟩ := h4
  exact ⟨er, h5, by simpa [Err.isEof] using h6⟩

/-- **C40**: no encoding is a proper prefix of another, and different values have
different encodings.

Full claim: for all types without `length = ..` and skipped fields.  Missing: the
exceptions of C01. -/
theorem C40_prefix_free_partial {v' : Val} {rest : Bytes} {junk' : Nat → UInt8} (he : ends false false t = true)
    (hv' : hasTy T t v') (hc' : canon (Fmt.code T.toHost e) t v')
    (hw' : writeToVec T e t v' junk' = .ok (bs ++ rest)) (hf : Fits T (bs ++ rest)) : v' = v ∧ rest = [] := by
  have h1 := (written_codes hT hl hd hr hv hc hw he hf.left).2.1 rest (by simp)
  have h2 := (written_codes hT hl hd hr hv' hc' hw' he hf).2.1 [] (by simp)
  rw [List.append_nil, h1] at h2
  simp only [PRes.ok.injEq] at h2
  exact ⟨h2.1.symm, h2.2⟩

/-- C40 when `length = ..` is allowed at the end: different values have different
encodings. -/
theorem C40_injective_partial {v' : Val} {junk' : Nat → UInt8} (he : ends true false t = true)
    (hv' : hasTy T t v') (hc' : canon (Fmt.code T.toHost e) t v')
    (hw' : writeToVec T e t v' junk' = .ok bs) (hf : Fits T bs) : v' = v := by
  have h1 := (written_codes hT hl hd hr hv hc hw he hf).2.1 [] (by simp)
  have h2 := (written_codes hT hl hd hr hv' hc' hw' he hf).2.1 [] (by simp)
  rw [h1] at h2
  simp only [PRes.ok.injEq] at h2
  exact h2.1.symm

end

/-! The hypotheses are met by a struct with a string, a number, and an enum with
a vector of structs. -/

open Samples

example : readFromBuffer x64 .little message 4096 msgLe = .ok msg :=
  C01_round_trip_partial x64_ok message_layout message_decl (message_regular _) msg_ty (msg_canon _)
    (msg_vec fun _ => 0) message_ends msg_mem

example : readFromBufferCopying x64 .little message 4096 msgLe = .ok msg :=
  C01_round_trip_copying_partial x64_ok message_layout message_decl (message_regular _) msg_ty (msg_canon _)
    (msg_vec fun _ => 0) message_ends (by decide) msg_mem

/-- The stream delivers 1, 3, 2, … bytes. -/
example : (readFromStream x64 .little message (· + 100) true ⟨msgLe, [.give 1, .give 3, .give 2]⟩).1 = .ok msg :=
  C01_round_trip_stream_partial x64_ok message_layout message_decl (message_regular _) msg_ty (msg_canon _)
    (msg_vec fun _ => 0) (fun n => by omega) message_ends (by decide) (by simp [Src.Clean]) rfl msg_mem.fits

example : readWithLengthFromBuffer x64 .little message 4096 (msgLe ++ [1, 2, 3]) = (.ok msg, 21) :=
  C06_self_delimiting_partial x64_ok message_layout message_decl (message_regular _) msg_ty (msg_canon _)
    (msg_vec fun _ => 0) (by decide) ⟨by decide, by decide, by decide⟩

example : readWithLengthFromBufferCopying x64 .little message 4096 (msgLe ++ [1, 2, 3]) = (.ok msg, 21) :=
  C06_self_delimiting_copying_partial x64_ok message_layout message_decl (message_regular _) msg_ty (msg_canon _)
    (msg_vec fun _ => 0) (by decide) (by decide) ⟨by decide, by decide, by decide⟩

example : ∃ s', (decode x64 .little message Cx.std).run (bufferReader x64.toHost)
    (BufSt.init 4096 (msgLe ++ [1, 2, 3])) = (.ok msg, s') ∧ s'.Inv x64.toHost ∧ s'.pend = [1, 2, 3] :=
  C06_self_delimiting_reader_partial x64_ok message_layout message_decl (message_regular _) msg_ty (msg_canon _)
    (msg_vec fun _ => 0) (bufferReader_lawful _) (BufSt.init_inv (by decide)) (BufSt.init_pend _ _)
    (by decide) (.inl (by decide)) ⟨by decide, by decide⟩

example : ∃ er, readFromBuffer x64 .little message 4096 (msgLe.take 20) = .error er ∧
    (er.isEof = true ∨ er = .inputBufferIsTooSmall 20 (minBytes x64 message)) :=
  C07_truncated_partial x64_ok message_layout message_decl (message_regular _) msg_ty (msg_canon _)
    (msg_vec fun _ => 0) message_strict (x := msgLe.take 20) (y := [0]) rfl (by simp) msg_mem

example : ∃ er, readFromBufferCopying x64 .little message 4096 (msgLe.take 20) = .error er ∧
    (er.isEof = true ∨ er = .inputBufferIsTooSmall 20 (minBytes x64 message)) :=
  C07_truncated_copying_partial x64_ok message_layout message_decl (message_regular _) msg_ty (msg_canon _)
    (msg_vec fun _ => 0) message_strict (by decide) (x := msgLe.take 20) (y := [0]) rfl (by simp) msg_mem

example : ∃ er, (readFromStream x64 .little message (· + 100) false ⟨msgLe.take 20, [.give 5]⟩).1 = .error er ∧
    er.isEof = true :=
  C07_truncated_stream_partial x64_ok message_layout message_decl (message_regular _) msg_ty (msg_canon _)
    (msg_vec fun _ => 0) (fun n => by omega) message_strict (by decide) (by simp [Src.Clean]) (y := [0]) rfl
    (by simp) msg_mem.fits

/-- Only `msg` is encoded as `msgLe`. -/
example : ∀ (v' : Val) (junk : Nat → UInt8), hasTy x64 message v' → canon (Fmt.code x64.toHost .little) message v' →
    writeToVec x64 .little message v' junk = .ok msgLe → v' = msg := fun v' junk h1 h2 h3 =>
  C40_injective_partial x64_ok message_layout message_decl (message_regular _) msg_ty (msg_canon _)
    (msg_vec fun _ => 0) message_ends h1 h2 h3 msg_mem.fits

example : ∀ (v' : Val) (junk : Nat → UInt8), hasTy x64 message v' → canon (Fmt.code x64.toHost .little) message v' →
    writeToVec x64 .little message v' junk ≠ .ok (msgLe ++ [0]) := fun v' junk h1 h2 h3 =>
  absurd (C40_prefix_free_partial x64_ok message_layout message_decl (message_regular _) msg_ty (msg_canon _)
    (msg_vec fun _ => 0) (by decide) h1 h2 h3 ⟨by decide, by decide⟩).2 (by simp)

end Verif
