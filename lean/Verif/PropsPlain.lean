import Verif.Plain
import Verif.PropsAgree
import Verif.PropsSafe
import Verif.PropsStream

/-!
# Plain data: C55

For plain data (`plain`, a syntactic condition on the declarations) the conditions of the other theorems hold.
* `layoutOk`: the layout of structs obeys the rules of the Rust reference.
* `declOk`: the derive macro accepts the declarations.
* `hasTy T t v`: `v` is a value of the type, and fits into memory.
* `InMem`, `Fits`: the input is in memory, and not longer than `isize::MAX`.
-/

namespace Verif

section
variable {T : Target} (hT : T.Ok) {e : Endian} {t : Ty} (hp : plain t = true) (hl : layoutOk T t = true)
  (hd : declOk t = true)
include hT hp hl hd

/-- **C55**, writing: a stream which works receives the value exactly if all its lengths fit.  In this case all functions write the
same bytes, as many as `bytes_needed` says. -/
theorem C55_written {v : Val} (hv : hasTy T t v) :
    (∀ s : Sink, s.Works → ((∃ s', writeToStream T e t v s = (.ok (), s')) ↔ lengthsFit LenTy.u32.max t v)) ∧
    (lengthsFit LenTy.u32.max t v → ∃ bs,
      (∀ s : Sink, s.Works → ∃ s', writeToStream T e t v s = (.ok (), s') ∧ s'.got = s.got ++ bs) ∧
      (bs.length ≤ T.usizeMax → bytesNeeded T t v = .ok bs.length ∧
        ∀ buf : Bytes, bs.length ≤ buf.length → writeToBuffer T e t v buf = (.ok (), bs ++ buf.drop bs.length)) ∧
      (bs.length ≤ T.isizeMax → ∀ junk, writeToVec T e t v junk = .ok bs)) := by
  have hs := regular_slice t (plain_facts hT e t hp).regular
  have hi := wire_iff (F := Fmt.code T.toHost e) t v .u32 false hp hd hv (fun _ _ => rfl)
  refine ⟨fun s hw => ?_, fun hf => ?_⟩
  · have h3 := works_run (T := T) (e := e) hw (encode T e t Cx.std v)
    rw [← hi]
    constructor
    · rintro ⟨s', h⟩
      unfold writeToStream at h
      rw [h] at h3
      cases hwr : wire (Fmt.code T.toHost e) t LenR.std v with
      | ok bs => exact ⟨bs, hwr⟩
      | error er =>
        rw [out_err hT hl hd hs hv hwr] at h3
        simp at h3
    · rintro ⟨bs, h⟩
      rw [out_ok hT hl hd hs hv h] at h3
      exact ⟨_, Prod.ext h3.1 rfl⟩
  · obtain ⟨bs, h⟩ := hi.2 hf
    refine ⟨bs, fun s hw => ?_, fun hm => ⟨needed_ok hT hl hd hs hv h hm, fun buf hb => buf_ok hT hl hd hs hv h hb hm⟩,
      fun hm junk => vec_ok hT hl hd hs hv h hm⟩
    have h3 := works_run (T := T) (e := e) hw (encode T e t Cx.std v)
    rw [out_ok hT hl hd hs hv h] at h3
    exact ⟨_, Prod.ext h3.1 rfl, h3.2⟩

section
variable {v : Val} (hv : hasTy T t v) {bs : Bytes} {junk : Nat → UInt8} (hw : writeToVec T e t v junk = .ok bs)
include hv hw

/-- **C55**, reading: whatever follows the encoding, every function returns the value, and stops at its end. -/
theorem C55_read {rest : Bytes} {base : Nat} (hm : InMem T base (bs ++ rest)) :
    readWithLengthFromBuffer T e t base (bs ++ rest) = (.ok v, bs.length) ∧
    readWithLengthFromBufferCopying T e t base (bs ++ rest) = (.ok v, bs.length) ∧
    ∀ (grow : Nat → Nat), (∀ n, n ≤ grow n) → ∀ (src : Src), src.Clean → src.data = bs ++ rest →
      (readFromStream T e t grow true src).1 = .ok v ∧
      ∃ st, readFromStream T e t grow false src = (.ok v, st) ∧ st.src.data = rest := by
  have f := plain_facts hT e t hp
  have hc := plain_canon (Fmt.code T.toHost e) t v hp hv
  refine ⟨C06_self_delimiting_partial hT hl hd f.regular hv hc hw (f.ends _ _) hm,
    C06_self_delimiting_copying_partial hT hl hd f.regular hv hc hw (f.ends _ _) f.noRefs hm, ?_⟩
  intro grow hg src hs hb
  constructor
  · obtain ⟨s', h, _⟩ := C06_self_delimiting_reader_partial hT hl hd f.regular hv hc hw (streamReader_lawful hg)
      (s := StreamSt.init true src) (StreamSt.init_inv hs) (by rw [StreamSt.init_pend, hb]) (f.ends _ _) (.inl f.noRefs) hm.fits
    unfold readFromStream
    rw [h]
  · obtain ⟨st, h1, h2, _⟩ := C13_exact_position_partial hT hl hd f.regular hv hc hw hg hs hb (f.ends _ _) f.noRefs f.noPeek
      (by rw [hb]; exact hm.fits)
    exact ⟨st, h1, h2⟩

/-- **C55**, truncation: no function accepts a part of the encoding. -/
theorem C55_truncated {x y : Bytes} (hxy : bs = x ++ y) (hy : y ≠ []) {base : Nat} (hm : InMem T base bs) :
    (∃ er, readFromBuffer T e t base x = .error er ∧ (er.isEof = true ∨ er = .inputBufferIsTooSmall x.length (minBytes T t))) ∧
    (∃ er, readFromBufferCopying T e t base x = .error er ∧
      (er.isEof = true ∨ er = .inputBufferIsTooSmall x.length (minBytes T t))) ∧
    ∀ (grow : Nat → Nat), (∀ n, n ≤ grow n) → ∀ (b : Bool) (src : Src), src.Clean → src.data = x →
      ∃ er, (readFromStream T e t grow b src).1 = .error er ∧ er.isEof = true := by
  have f := plain_facts hT e t hp
  have hc := plain_canon (Fmt.code T.toHost e) t v hp hv
  refine ⟨C07_truncated_partial hT hl hd f.regular hv hc hw (f.ends _ _) hxy hy hm,
    C07_truncated_copying_partial hT hl hd f.regular hv hc hw (f.ends _ _) f.noRefs hxy hy hm, ?_⟩
  intro grow hg b src hs hb
  exact C07_truncated_stream_partial hT hl hd f.regular hv hc hw hg (f.ends _ _) f.noRefs hs (by rw [hb]; exact hxy) hy hm.fits

/-- **C55**: different values have different encodings, none of them the beginning of the other. -/
theorem C55_distinct {v' : Val} (hv' : hasTy T t v') {junk' : Nat → UInt8} {rest : Bytes}
    (hw' : writeToVec T e t v' junk' = .ok (bs ++ rest)) (hf : Fits T (bs ++ rest)) : v' = v ∧ rest = [] :=
  have f := plain_facts hT e t hp
  C40_prefix_free_partial hT hl hd f.regular hv (plain_canon _ t v hp hv) hw (f.ends _ _) hv' (plain_canon _ t v' hp hv') hw' hf

end

/-- **C55**, any input: all functions accept the same inputs, with the same value. -/
theorem C55_readers_agree {base base' : Nat} {buf : Bytes} (hm : InMem T base buf) (hm' : InMem T base' buf) (v : Val) :
    (∀ n, readWithLengthFromBuffer T e t base buf = (.ok v, n) ↔ readWithLengthFromBufferCopying T e t base' buf = (.ok v, n)) ∧
    ∀ (grow : Nat → Nat), (∀ n, n ≤ grow n) → ∀ (b : Bool) (src : Src), src.Clean → src.data = buf →
      ((readFromStream T e t grow b src).1 = .ok v ↔ readFromBuffer T e t base buf = .ok v) := by
  have f := plain_facts hT e t hp
  have ha : Agreeable T e t := ⟨hl, hd, f.regular, f.ends _ _, f.peekOk, f.cowOk _⟩
  refine ⟨fun n => C10_copying_agrees_partial hT ha hm hm' f.noRefs v n, ?_⟩
  intro grow hg b src hs hb
  subst hb
  exact stream_agrees hT ha hg b hs hm f.noRefs v

/-- **C55**, any input: what is read is a value of the type, and has consumed at least `minimum_bytes_needed` bytes of the input. -/
theorem C55_valid {base : Nat} {buf : Bytes} (hm : InMem T base buf) {v : Val} :
    (∀ n, (readWithLengthFromBuffer T e t base buf = (.ok v, n) ∨ readWithLengthFromBufferCopying T e t base buf = (.ok v, n)) →
      Valid T t v ∧ minBytes T t ≤ n ∧ n ≤ buf.length) ∧
    ∀ (grow : Nat → Nat), (∀ n, n ≤ grow n) → ∀ (b : Bool) (src : Src),
      (readFromStream T e t grow b src).1 = .ok v → Valid T t v := by
  have f := plain_facts hT e t hp
  refine ⟨fun n h => ⟨?_, C08_minimum_buffer_partial hT hl hd f.sane f.minOk hm.top h⟩, ?_⟩
  · refine C31_valid_buffer_partial (e := e) hT hl hd f.sane hm.top ?_
    unfold readFromBuffer readFromBufferCopying
    rcases h with h | h
    · exact .inl (by rw [h])
    · exact .inr (by rw [h])
  · intro grow hg b src h
    exact C31_valid_stream_partial (e := e) hT hl hd f.sane hg (Prod.ext h rfl)

/-- **C55**, any input, and streams which may fail in any way: reading neither panics nor loops forever, if there can be no `Vec`s of more than
`isize::MAX` bytes. -/
theorem C55_no_panic (hr : ample T LenTy.u32.max t = true) :
    (∀ base buf, InMem T base buf → ∀ r, (r = readFromBuffer T e t base buf ∨ r = readFromBufferCopying T e t base buf) →
      (∃ v, r = .ok v) ∨ ∃ er, r = .error er ∧ (∀ p, er ≠ .panic p) ∧ er ≠ .diverge) ∧
    ∀ (grow : Nat → Nat), (∀ n, n ≤ grow n) → ∀ (b : Bool) (src : Src), Fits T src.data →
      (∃ v, (readFromStream T e t grow b src).1 = .ok v) ∨
      ∃ er, (readFromStream T e t grow b src).1 = .error er ∧ (∀ p, er ≠ .panic p) ∧ er ≠ .diverge := by
  have f := plain_facts hT e t hp
  have hc := fun x B => plain_calm hT (e := e) (x := x) (B := B) t (Lim.std T.toHost) _ hp hd hr std_lim (fun _ _ => rfl)
  exact ⟨fun base buf hm r h => C32_no_panic_buffer_partial hT hl hd f.sane f.minOk hm (hc _ _) r h,
    fun grow hg b src hf => C32_no_panic_stream_partial hT hl hd f.sane f.minOk hg b hf (hc _ _)⟩

end

end Verif
