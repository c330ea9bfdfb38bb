import Verif.GoodTy
import Verif.PropsStream

/-!
# Safety: C08, C29, C31, C32

Hypotheses, besides those of `PropsRoundTrip.lean`, all of them on the type only (`Valid.lean`):
* `sane T t`: `&[T]` only with elements which may be made of arbitrary memory (`C31_false_reference`), defaults are values of their types, and no `Vec` has
  elements of a zero-sized type without values;
* `minOk T t`: excludes the types for which `minimum_bytes_needed` is not a lower bound (`C08_false`, …);
* `calm T e exact B l t`: excludes the types for which reading panics (`C32_false_duration`, …); whether lengths are
  small enough for `Vec::with_capacity` depends on the type of the lengths and, if the reader knows how much input is
  left (`exact`), on the size `B` of the input.

`Valid T t v` says that `v` is a value of type `t`.
-/

namespace Verif

/-- The result of a run on a buffer and the reservations made in it. -/
theorem buffer_run {T : Target} {α : Type} {μ : Mode} {m : Nat} {V : α → Prop} {p : M α} (hp : Good μ m V p)
    {base : Nat} {buf : Bytes} (hx : μ.exact = true) (hB : buf.length ≤ μ.B) (htop : base + buf.length ≤ T.usizeMax)
    {R : ReaderOps BufSt} (hR : R = bufferReader T.toHost ∨ R = copyingReader T.toHost) :
    BufAt T.toHost base buf (p.run R (BufSt.init base buf)).2 ∧
      μ.post m V buf.length (p.run R (BufSt.init base buf)).2.pend.length (p.run R (BufSt.init base buf)).1 ∧
      ∀ x ∈ p.allocs R BufSt.pend (BufSt.init base buf), μ.alloc x.1 x.2.1 x.2.2 := by
  have O : Orderly true R (BufAt T.toHost base buf) BufSt.pend := by
    rcases hR with rfl | rfl
    · exact (bufferReader_at _ _ _).orderly fun _ n s => by simp [bufferReader, bufCanRead]
    · exact (copyingReader_at _ _ _).orderly fun _ n s => by simp [copyingReader, bufCanRead]
  have hi : BufAt T.toHost base buf (BufSt.init base buf) := BufAt.init htop
  have hw := hp buf.length hB
  rw [hx] at hw
  have := O.run (p := p) hi (by rw [BufSt.init_pend]; exact hw)
  exact ⟨this.1, this.2.2.1, this.2.2.2⟩

/-- The result of a run on a stream, whatever it does. -/
theorem stream_run {α : Type} {μ : Mode} {m : Nat} {V : α → Prop} {p : M α} (hp : Good μ m V p)
    {grow : Nat → Nat} (hg : ∀ n, n ≤ grow n) (b : Bool) {src : Src} (hx : μ.exact = false) (hB : src.data.length ≤ μ.B) :
    (∃ k, (p.run (streamReader grow) (StreamSt.init b src)).2.pend = src.data.drop k) ∧
      μ.post m V src.data.length (p.run (streamReader grow) (StreamSt.init b src)).2.pend.length
        (p.run (streamReader grow) (StreamSt.init b src)).1 := by
  have hi : (StreamSt.init b src).buf.Inv := CBuf.withCapacity_inv _
  have hw := hp src.data.length hB
  rw [hx] at hw
  have := (streamReader_orderly hg).run (p := p) hi (by rw [StreamSt.init_pend]; exact hw)
  rw [StreamSt.init_pend] at this
  exact ⟨this.2.1, this.2.2.1⟩

/-! ## C08: `minimum_bytes_needed` -/

section
variable {T : Target} (hT : T.Ok) {e : Endian} {t : Ty} (hl : layoutOk T t = true) (hd : declOk t = true) (hs : sane T t)
include hT hl hd hs

theorem decode_uses (hm : minOk T t = true) (B : Nat) (x : Bool) :
    Good ⟨B, x, true, false⟩ (minBytes T t) (Valid T t) (decode T e t Cx.std) := by
  rw [← lowAt_std]
  exact decode_good hT (fun h => by cases h) t Cx.std (Lim.std T.toHost) hl hd hs (fun _ => hm) fun h => by cases h

/-- **C08**, reading from a buffer: the consumed length is at least `minimum_bytes_needed`, and at most the length of
the buffer.

Full claim: all types.  Missing: those excluded by `minOk`, for which it is false (`C08_false`, `C08_false_transparent`). -/
theorem C08_minimum_buffer_partial (hm : minOk T t = true) {base : Nat} {buf : Bytes}
    (htop : base + buf.length ≤ T.usizeMax) {v : Val} {n : Nat}
    (h : readWithLengthFromBuffer T e t base buf = (.ok v, n) ∨
      readWithLengthFromBufferCopying T e t base buf = (.ok v, n)) : minBytes T t ≤ n ∧ n ≤ buf.length := by
  have key : ∀ {R : ReaderOps BufSt}, (R = bufferReader T.toHost ∨ R = copyingReader T.toHost) →
      ((decode T e t Cx.std).run R (BufSt.init base buf)).1 = .ok v →
      wsub T.toHost ((decode T e t Cx.std).run R (BufSt.init base buf)).2.ptr base = n →
      minBytes T t ≤ n ∧ n ≤ buf.length := by
    intro R hR h1 h2
    obtain ⟨ha, hp, _⟩ := buffer_run (decode_uses (e := e) hT hl hd hs hm buf.length true) rfl (Nat.le_refl _) htop hR
    rw [h1] at hp
    have := hp.2.1 rfl
    have := ha.consumed
    omega
  rcases h with h | h
  · unfold readWithLengthFromBuffer at h
    split at h
    · cases h
    · simp only [Prod.mk.injEq] at h
      exact key (.inl rfl) h.1 h.2
  · unfold readWithLengthFromBufferCopying at h
    split at h
    · cases h
    · simp only [Prod.mk.injEq] at h
      exact key (.inr rfl) h.1 h.2

/-- **C08**, streams, whatever they do: what is left afterwards (in the stream and in the buffer of the reader) is
shorter by at least `minimum_bytes_needed`. -/
theorem C08_minimum_stream_partial (hm : minOk T t = true) {grow : Nat → Nat} (hg : ∀ n, n ≤ grow n) {b : Bool}
    {src : Src} {v : Val} {st : StreamSt} (h : readFromStream T e t grow b src = (.ok v, st)) :
    minBytes T t + st.pend.length ≤ src.data.length := by
  have := stream_run (decode_uses (e := e) hT hl hd hs hm src.data.length false) hg b rfl (Nat.le_refl _)
  unfold readFromStream at h
  rw [h] at this
  have := this.2.2.1 rfl
  simp only at this
  omega

/-- **C08**, any reader implemented by a user which delivers its bytes in order. -/
theorem C08_minimum_reader_partial (hm : minOk T t = true) {σ : Type} {x : Bool} {R : ReaderOps σ} {Inv : σ → Prop}
    {pend : σ → Bytes} (O : Orderly x R Inv pend) {s s' : σ} (hi : Inv s) {v : Val}
    (h : (decode T e t Cx.std).run R s = (.ok v, s')) : minBytes T t + (pend s').length ≤ (pend s).length := by
  have := O.run (p := decode T e t Cx.std) hi
    (decode_uses (e := e) hT hl hd hs hm (pend s).length x _ (Nat.le_refl _))
  rw [h] at this
  have := this.2.2.1.2.1 rfl
  simp only at this
  omega

/-- **C31**, buffers: only valid values are returned. -/
theorem C31_valid_buffer_partial {base : Nat} {buf : Bytes} (htop : base + buf.length ≤ T.usizeMax) {v : Val}
    (h : readFromBuffer T e t base buf = .ok v ∨ readFromBufferCopying T e t base buf = .ok v) : Valid T t v := by
  have hg : Good ⟨buf.length, true, false, false⟩ (lowAt T t Cx.std.len) (Valid T t) (decode T e t Cx.std) :=
    decode_good hT (fun h => by cases h) t Cx.std (Lim.std T.toHost) hl hd hs (fun h => by cases h)
      fun h => by cases h
  have key : ∀ {R : ReaderOps BufSt}, (R = bufferReader T.toHost ∨ R = copyingReader T.toHost) →
      ((decode T e t Cx.std).run R (BufSt.init base buf)).1 = .ok v → Valid T t v := by
    intro R hR h1
    obtain ⟨_, hp, _⟩ := buffer_run hg rfl (Nat.le_refl _) htop hR
    rw [h1] at hp
    exact hp.2.2
  rcases h with h | h
  · unfold readFromBuffer readWithLengthFromBuffer at h
    split at h
    · cases h
    · exact key (.inl rfl) h
  · unfold readFromBufferCopying readWithLengthFromBufferCopying at h
    split at h
    · cases h
    · exact key (.inr rfl) h

/-- **C31**, any reader, be it a stream which fails at any time: only valid values are returned.

Full claim: all types.  Missing: `Vec`s whose elements are of a zero-sized type without values (`C31_false`), and fields `&[T]` of
derived structs whose elements cannot be made of arbitrary memory (`C31_false_reference`). -/
theorem C31_valid_reader_partial {σ : Type} {x : Bool} {R : ReaderOps σ} {Inv : σ → Prop}
    {pend : σ → Bytes} (O : Orderly x R Inv pend) {s s' : σ} (hi : Inv s) {v : Val}
    (h : (decode T e t Cx.std).run R s = (.ok v, s')) : Valid T t v := by
  have hg : Good ⟨(pend s).length, x, false, false⟩ (lowAt T t Cx.std.len) (Valid T t) (decode T e t Cx.std) :=
    decode_good hT (fun h => by cases h) t Cx.std (Lim.std T.toHost) hl hd hs (fun h => by cases h)
      fun h => by cases h
  have := O.run (p := decode T e t Cx.std) hi (hg _ (Nat.le_refl _))
  rw [h] at this
  exact this.2.2.1.2.2

/-- **C31**, streams. -/
theorem C31_valid_stream_partial {grow : Nat → Nat} (hg : ∀ n, n ≤ grow n) {b : Bool} {src : Src} {v : Val}
    {st : StreamSt} (h : readFromStream T e t grow b src = (.ok v, st)) : Valid T t v :=
  C31_valid_reader_partial hT hl hd hs (streamReader_orderly hg) (s := StreamSt.init b src) (CBuf.withCapacity_inv _) h

/-- **C29**: whatever the input, whenever memory is reserved for `n` elements of which each needs at least `m` bytes,
`n * m` bytes are left in the input, or have been read already (a borrowed slice which is then copied).

`allocs` lists the reservations made in the run: bytes left, elements, `minimum_bytes_needed`. -/
theorem C29_reservations_partial (hm : minOk T t = true) {base : Nat} {buf : Bytes}
    (htop : base + buf.length ≤ T.usizeMax) {R : ReaderOps BufSt}
    (hR : R = bufferReader T.toHost ∨ R = copyingReader T.toHost) :
    ∀ x ∈ (decode T e t Cx.std).allocs R BufSt.pend (BufSt.init base buf),
      x.2.1 * x.2.2 ≤ x.1 ∨ x.2.1 * x.2.2 ≤ buf.length - x.1 := by
  intro x hx
  exact (buffer_run (decode_uses (e := e) hT hl hd hs hm buf.length true) rfl (Nat.le_refl _) htop hR).2.2 x hx rfl rfl

/-- **C32**, buffers: reading ends with a value or an error.

Full claim: all types and inputs.  Missing: types excluded by `calm`, in particular all with a `Duration`, for which it
is false (`C32_false_duration`, …). -/
theorem C32_no_panic_buffer_partial (hm : minOk T t = true) {base : Nat} {buf : Bytes} (hi : InMem T base buf)
    (hc : calm T e true buf.length (Lim.std T.toHost) t = true) (r : Except Err Val)
    (h : r = readFromBuffer T e t base buf ∨ r = readFromBufferCopying T e t base buf) :
    (∃ v, r = .ok v) ∨ ∃ er, r = .error er ∧ (∀ p, er ≠ .panic p) ∧ er ≠ .diverge := by
  have hg : Good ⟨buf.length, true, true, true⟩ (lowAt T t Cx.std.len) (Valid T t) (decode T e t Cx.std) :=
    decode_good hT (fun _ => ⟨hi.fits.mem, hi.fits.fuel, rfl⟩) t Cx.std (Lim.std T.toHost) hl hd hs (fun _ => hm)
      fun _ => ⟨hc, std_admits _⟩
  have key : ∀ {R : ReaderOps BufSt}, (R = bufferReader T.toHost ∨ R = copyingReader T.toHost) →
      r = ((decode T e t Cx.std).run R (BufSt.init base buf)).1 →
      (∃ v, r = .ok v) ∨ ∃ er, r = .error er ∧ (∀ p, er ≠ .panic p) ∧ er ≠ .diverge := by
    intro R hR h1
    obtain ⟨_, hp, _⟩ := buffer_run hg rfl (Nat.le_refl _) hi.top hR
    rw [← h1] at hp
    cases r with
    | ok v => exact .inl ⟨v, rfl⟩
    | error er =>
      have := hp.2 rfl
      exact .inr ⟨er, rfl, (fun p hp => by rw [hp] at this; cases this), (fun hp => by rw [hp] at this; cases this)⟩
  rcases h with h | h
  · unfold readFromBuffer readWithLengthFromBuffer at h
    split at h
    · exact .inr ⟨_, h, fun _ => by simp, by simp⟩
    · exact key (.inl rfl) h
  · unfold readFromBufferCopying readWithLengthFromBufferCopying at h
    split at h
    · exact .inr ⟨_, h, fun _ => by simp, by simp⟩
    · exact key (.inr rfl) h

/-- **C32**, streams, whatever they deliver and however they fail (`exact = false`: the sizes of containers must be
bounded by the types of their lengths). -/
theorem C32_no_panic_stream_partial (hm : minOk T t = true) {grow : Nat → Nat} (hgr : ∀ n, n ≤ grow n) (b : Bool)
    {src : Src} (hi : Fits T src.data) (hc : calm T e false src.data.length (Lim.std T.toHost) t = true) :
    (∃ v, (readFromStream T e t grow b src).1 = .ok v) ∨
      ∃ er, (readFromStream T e t grow b src).1 = .error er ∧ (∀ p, er ≠ .panic p) ∧ er ≠ .diverge := by
  have hg : Good ⟨src.data.length, false, true, true⟩ (lowAt T t Cx.std.len) (Valid T t) (decode T e t Cx.std) :=
    decode_good hT (fun _ => ⟨hi.mem, hi.fuel, rfl⟩) t Cx.std (Lim.std T.toHost) hl hd hs (fun _ => hm)
      fun _ => ⟨hc, std_admits _⟩
  have := (stream_run hg hgr b rfl (Nat.le_refl _)).2
  unfold readFromStream
  revert this
  generalize ((decode T e t Cx.std).run (streamReader grow) (StreamSt.init b src)) = r
  obtain ⟨r, s⟩ := r
  intro hp
  cases r with
  | ok v => exact .inl ⟨v, rfl⟩
  | error er =>
    have := hp.2 rfl
    exact .inr ⟨er, rfl, (fun p hp => by rw [hp] at this; cases this), (fun hp => by rw [hp] at this; cases this)⟩
end

theorem capOk_any {T : Target} {x : Bool} {B bound : Nat} {t : Ty} (h : capOk T false 0 bound t = true) :
    capOk T x B bound t = true := by
  simp only [capOk, Bool.false_and, Bool.or_false] at h
  simp [capOk, h]

mutual
/-- If the types of the lengths bound the sizes, nothing depends on the input. -/
theorem calm_any {T : Target} {e : Endian} {x : Bool} {B : Nat} : ∀ (t : Ty) (l : Lim), calm T e false 0 l t = true →
    calm T e x B l t = true
  | .str k, l, h => by
    cases k <;> simp only [calm, Bool.and_eq_true] at h ⊢
    · exact ⟨capOk_any h.1, h.2⟩
    · exact ⟨capOk_any h.1, h.2⟩
  | .seq k t, l, h => by
    cases k <;> simp only [calm, Bool.and_eq_true] at h ⊢
    · exact ⟨⟨⟨h.1.1.1, capOk_any h.1.1.2⟩, h.1.2⟩, calm_any t _ h.2⟩
    · exact ⟨⟨⟨⟨h.1.1.1.1, capOk_any h.1.1.1.2⟩, h.1.1.2⟩, h.1.2⟩, calm_any t _ h.2⟩
    · exact ⟨h.1, calm_any t _ h.2⟩
  | .set t, l, h => by
    simp only [calm, Bool.and_eq_true] at h ⊢
    exact ⟨h.1, calm_any t _ h.2⟩
  | .map k v, l, h => by
    simp only [calm, Bool.and_eq_true] at h ⊢
    exact ⟨⟨h.1.1, calm_any k _ h.1.2⟩, calm_any v _ h.2⟩
  | .array _ t, l, h => by
    simp only [calm, Bool.and_eq_true] at h ⊢
    exact ⟨h.1, calm_any t _ h.2⟩
  | .option t, l, h => by simp only [calm] at h ⊢; exact calm_any t _ h
  | .range t, l, h => by simp only [calm] at h ⊢; exact calm_any t _ h
  | .rangeInc t, l, h => by simp only [calm] at h ⊢; exact calm_any t _ h
  | .box t, l, h => by simp only [calm] at h ⊢; exact calm_any t _ h
  | .via c t, l, h => by simp only [calm, Bool.and_eq_true] at h ⊢; exact ⟨h.1, calm_any t _ h.2⟩
  | .result a b, l, h => by
    simp only [calm, Bool.and_eq_true] at h ⊢
    exact ⟨calm_any a _ h.1, calm_any b _ h.2⟩
  | .pair a b, l, h => by
    simp only [calm, Bool.and_eq_true] at h ⊢
    exact ⟨calm_any a _ h.1, calm_any b _ h.2⟩
  | .struct _ fs, l, h => by simp only [calm] at h ⊢; exact calm_anyFields fs h
  | .enum _ vs, l, h => by simp only [calm] at h ⊢; exact calm_anyVariants vs h
  | .prim _, _, _ | .usize, _, _ | .bool, _, _ | .char, _, _ | .nonZero _, _, _ | .atomic _, _, _ | .ipv4, _, _
  | .ipv6, _, _ | .ipAddr, _, _ | .endianness, _, _ | .varint64, _, _ | .uuid, _, _ | .refArray _ _, _, _
  | .unit, _, _ => by simp [calm]
  | .duration, _, h | .systemTime, _, h => by simp [calm] at h
/-- Fields. -/
theorem calm_anyFields {T : Target} {e : Endian} {x : Bool} {B : Nat} : ∀ (fs : Fields),
    calmFields T e false 0 fs = true → calmFields T e x B fs = true
  | .nil, _ => rfl
  | .cons a t fs, h => by
    simp only [calmFields, Bool.and_eq_true, Bool.or_eq_true] at h ⊢
    exact ⟨h.1.imp id fun h => ⟨calm_any t _ h.1, h.2⟩, calm_anyFields fs h.2⟩
/-- Variants. -/
theorem calm_anyVariants {T : Target} {e : Endian} {x : Bool} {B : Nat} : ∀ (vs : Variants),
    calmVariants T e false 0 vs = true → calmVariants T e x B vs = true
  | .nil, _ => rfl
  | .cons _ fs vs, h => by
    simp only [calmVariants, Bool.and_eq_true] at h ⊢
    exact ⟨calm_anyFields fs h.1, calm_anyVariants vs h.2⟩
end

/-! ## C29: huge lengths -/

theorem Prog.allocs_bind {α β σ : Type} (R : ReaderOps σ) (pend : σ → Bytes) (p : Prog α) (f : α → Prog β) (s : σ) :
    (p.bind f).allocs R pend s = p.allocs R pend s ++ (f (p.run R s).1).allocs R pend (p.run R s).2 := by
  induction p generalizing s with
  | ret a => rfl
  | read n k ih => simp only [Prog.bind, Prog.allocs, Prog.run]; exact ih _ _
  | peek n k ih => simp only [Prog.bind, Prog.allocs, Prog.run]; exact ih _ _
  | skip n k ih => simp only [Prog.bind, Prog.allocs, Prog.run]; exact ih _ _
  | canRead n k ih => simp only [Prog.bind, Prog.allocs, Prog.run]; exact ih _ _
  | borrow n k ih => simp only [Prog.bind, Prog.allocs, Prog.run]; exact ih _ _
  | borrowR n k ih => simp only [Prog.bind, Prog.allocs, Prog.run]; exact ih _ _
  | borrowEof k ih => simp only [Prog.bind, Prog.allocs, Prog.run]; exact ih _ _
  | alloc n m k ih => simp only [Prog.bind, Prog.allocs, Prog.run, List.cons_append]; rw [ih]

theorem readNum_allocs {σ : Type} (R : ReaderOps σ) (pend : σ → Bytes) (h : Host) (e : Endian) (n : Nat) (s : σ) :
    (readNum h e n).allocs R pend s = [] := by
  unfold readNum
  simp only [Prog.allocs]
  split
  · rfl
  · simp only [Prog.allocs]
    generalize (R.read n s) = r
    obtain ⟨r, s'⟩ := r
    cases r <;> rfl

theorem allocs_bind_ok {α β σ : Type} {R : ReaderOps σ} {pend : σ → Bytes} {p : M α} {f : α → M β} {s s' : σ} {a : α}
    (h : p.run R s = (.ok a, s')) : (M.bind p f).allocs R pend s = p.allocs R pend s ++ (f a).allocs R pend s' := by
  unfold M.bind; rw [Prog.allocs_bind, h]

theorem allocs_bind_err {α β σ : Type} {R : ReaderOps σ} {pend : σ → Bytes} {p : M α} {f : α → M β} {s s' : σ} {e : Err}
    (h : p.run R s = (.error e, s')) : (M.bind p f).allocs R pend s = p.allocs R pend s := by
  unfold M.bind; rw [Prog.allocs_bind, h]; simp [Prog.allocs]

/-- Not enough bytes for so many elements. -/
theorem readVec_huge {h : Host} {e : Endian} {el : Elem} {n : Nat} {s : BufSt} (hs : s.Inv h)
    {R : ReaderOps BufSt} (hR : R = bufferReader h ∨ R = copyingReader h) (hbig : s.pend.length < el.min * n) :
    (readVec h e el n).run R s = (.error .unexpectedEndOfInput, s) ∧ (readVec h e el n).allocs R BufSt.pend s = [] := by
  have O : Orderly true R (fun s => s.Inv h) BufSt.pend := by
    rcases hR with rfl | rfl
    · exact bufferReader_orderly _
    · exact copyingReader_orderly _
  unfold readVec
  split
  · exact ⟨rfl, rfl⟩
  · have : R.canRead (el.min * n) s = some false := by
      rcases O.canRead (el.min * n) s hs with h | h
      · cases h.1
      · rw [h, decide_eq_false (by omega)]
    simp only [Prog.run, Prog.allocs, this]
    exact ⟨rfl, rfl⟩

/-- **C29**: a `Vec` announcing more elements than there are bytes for, anywhere in a buffer, gives an end-of-input
error, and no memory is reserved. -/
theorem C29_huge_vec {T : Target} {e : Endian} {t : Ty} {s : BufSt} (hs : s.Inv T.toHost)
    {R : ReaderOps BufSt} (hR : R = bufferReader T.toHost ∨ R = copyingReader T.toHost) {len rest : Bytes}
    (hp : s.pend = len ++ rest) (h4 : len.length = 4) (hbig : rest.length < minBytes T t * e.num len) :
    ((decode T e (.seq .vec t) Cx.std).run R s).1 = .error .unexpectedEndOfInput ∧
      (decode T e (.seq .vec t) Cx.std).allocs R BufSt.pend s = [] := by
  have L : Lawful R (fun s => s.Inv T.toHost) BufSt.pend := by
    rcases hR with rfl | rfl
    · exact bufferReader_lawful _
    · exact copyingReader_lawful _
  have h1 := refines_readNum L (B := s.pend.length) T.toHost e 4 s hs (Nat.le_refl _)
  have h2 : pNum e 4 s.pend = .ok (e.num len) rest := by
    unfold pNum P.map P.bind pTake
    rw [hp, if_pos (by simp [h4])]
    simp [← h4, P.pure]
  rw [h2] at h1
  obtain ⟨h3, h5, h6, _⟩ := h1
  have hr : (readNum T.toHost e 4).run R s = (.ok (e.num len), ((readNum T.toHost e 4).run R s).2) :=
    Prod.ext h3 rfl
  have hv := readVec_huge (e := e) (el := elemOf T t (decode T e t Cx.std)) h5 hR (n := e.num len) (by rw [h6]; exact hbig)
  have hr' : (readLenR T.toHost e Cx.std.len).run R s =
      (.ok (some (e.num len)), ((readNum T.toHost e 4).run R s).2) := M.run_bind_ok hr
  have ha' : (readLenR T.toHost e Cx.std.len).allocs R BufSt.pend s = [] := by
    refine (allocs_bind_ok hr).trans ?_
    rw [readNum_allocs]
    rfl
  unfold decode
  rw [if_neg (by simp)]
  refine ⟨?_, ?_⟩
  · rw [M.run_bind_ok hr']
    exact congrArg Prod.fst (M.run_bind_err hv.1)
  · rw [allocs_bind_ok hr', ha', List.nil_append]
    exact (allocs_bind_err hv.1).trans hv.2

/-- **C29**: likewise a `String` announcing more bytes than are left. -/
theorem C29_huge_string {T : Target} {e : Endian} {s : BufSt} (hs : s.Inv T.toHost)
    {R : ReaderOps BufSt} (hR : R = bufferReader T.toHost ∨ R = copyingReader T.toHost) {len rest : Bytes}
    (hp : s.pend = len ++ rest) (h4 : len.length = 4) (hbig : rest.length < e.num len) :
    ((decode T e (.str .owned) Cx.std).run R s).1 = .error .unexpectedEndOfInput ∧
      (decode T e (.str .owned) Cx.std).allocs R BufSt.pend s = [] := by
  have L : Lawful R (fun s => s.Inv T.toHost) BufSt.pend := by
    rcases hR with rfl | rfl
    · exact bufferReader_lawful _
    · exact copyingReader_lawful _
  have h1 := refines_readNum L (B := s.pend.length) T.toHost e 4 s hs (Nat.le_refl _)
  have h2 : pNum e 4 s.pend = .ok (e.num len) rest := by
    unfold pNum P.map P.bind pTake
    rw [hp, if_pos (by simp [h4])]
    simp [← h4, P.pure]
  rw [h2] at h1
  obtain ⟨h3, h5, h6, _⟩ := h1
  have hr : (readNum T.toHost e 4).run R s = (.ok (e.num len), ((readNum T.toHost e 4).run R s).2) :=
    Prod.ext h3 rfl
  have hv := readVec_huge (e := e) (el := u8Elem T e) h5 hR (n := e.num len) (by
    rw [h6]; show rest.length < 1 * _; omega)
  have hr' : (readLenR T.toHost e Cx.std.len).run R s =
      (.ok (some (e.num len)), ((readNum T.toHost e 4).run R s).2) := M.run_bind_ok hr
  have ha' : (readLenR T.toHost e Cx.std.len).allocs R BufSt.pend s = [] := by
    refine (allocs_bind_ok hr).trans ?_
    rw [readNum_allocs]
    rfl
  unfold decode
  refine ⟨?_, ?_⟩
  · rw [M.run_bind_ok hr']
    exact congrArg Prod.fst (M.run_bind_err hv.1)
  · rw [allocs_bind_ok hr', ha', List.nil_append]
    exact (allocs_bind_err hv.1).trans hv.2

/-! ## Cases, and where the claims are false -/

open Samples

theorem message_sane : sane x64 message := by
  simp [message, shape, point, sane, saneFields, saneVariants]
  decide
theorem message_minOk : minOk x64 message = true := by decide

/-- The hypotheses hold for the message, on buffers and on streams. -/
example (src : Src) (hf : Fits x64 src.data) (b : Bool) :=
  C32_no_panic_stream_partial x64_ok message_layout message_decl message_sane message_minOk (e := .big)
    (grow := (· + 100)) (fun n => by omega) b hf (calm_any _ _ (by decide))

example (buf : Bytes) (hm : InMem x64 4096 buf) :=
  C32_no_panic_buffer_partial x64_ok message_layout message_decl message_sane message_minOk (e := .big) hm
    (calm_any _ _ (by decide))

example : 4096 + msgLe.length ≤ x64.usizeMax ∧
    readWithLengthFromBuffer x64 .little message 4096 msgLe = (.ok msg, 21) ∧ minBytes x64 message = 7 :=
  ⟨by decide, by decide, by decide⟩

example (n : Nat) (v : Val) (h : readWithLengthFromBuffer x64 .little message 4096 msgLe = (.ok v, n)) :=
  C08_minimum_buffer_partial x64_ok message_layout message_decl message_sane message_minOk (by decide) (.inl h)

example (v : Val) (h : readFromBuffer x64 .little message 4096 msgLe = .ok v) : Valid x64 message v :=
  C31_valid_buffer_partial x64_ok message_layout message_decl message_sane (by decide) (.inl h)

/-- The reservations made when reading the message: 2 bytes for the name, 2 points of 4 bytes. -/
example : (decode x64 .little message Cx.std).allocs (bufferReader x64.toHost) BufSt.pend (BufSt.init 4096 msgLe) =
    [(20, 2, 1), (8, 2, 4)] := by decide

example : ((decode x64 .little (.seq .vec point) Cx.std).run (bufferReader x64.toHost)
      (BufSt.init 4096 [0xff, 0xff, 0xff, 0xff, 1, 2, 3])).1 = .error .unexpectedEndOfInput :=
  (C29_huge_vec (len := [0xff, 0xff, 0xff, 0xff]) (rest := [1, 2, 3]) (BufSt.init_inv (by decide)) (.inl rfl)
    rfl rfl (by decide)).1

/-- **C08 is false** for enums with `peek_tag` and unit variants: `minimum_bytes_needed` counts the tag, which is not
consumed (so that two such enums in a struct of one remaining byte are rejected by a buffer). -/
theorem C08_false :
    minBytes x64 opcode = 1 ∧
      readWithLengthFromBuffer x64 .little opcode 4096 [3, 9] = (.ok (.variant 0 .unit), 0) := by
  decide

/-- `#[repr(transparent)] struct Tagged { #[speedy(constant_prefix = b"x")] n: u8 }`, which counts as primitive. -/
def tagged : Ty := .struct ⟨.transparent, 1, 1, [0], true⟩ (.cons { pre := [0x78] } (.prim .u8) .nil)

/-- **C08 is false** for arrays of transparent structs with attributes: they are copied as a whole, without the prefix
which `minimum_bytes_needed` counts; the whole input is rejected although only 2 bytes would be read. -/
theorem C08_false_transparent :
    minBytes x64 (.array 2 tagged) = 4 ∧
      readFromBuffer x64 .little (.array 2 tagged) 4096 [7, 8] = .error (.inputBufferIsTooSmall 2 4) ∧
      readWithLengthFromBuffer x64 .little (.array 2 tagged) 4096 [7, 8, 9, 9] =
        (.ok (.list [.pair (.num 7) .unit, .pair (.num 8) .unit]), 2) := by
  decide

/-- `enum Never {}` -/
def never : Ty := .enum ⟨.u32, false, 0⟩ .nil

/-- **C31 is false** for a `Vec` with elements of a zero-sized type without values: the elements are not read, and a
`Vec` of two of them is returned. -/
theorem C31_false :
    ∃ vs, readFromBuffer x64 .little (.seq .vec never) 4096
      [2, 0, 0, 0, 9, 9, 9, 9, 9, 9, 9, 9] = .ok (.list vs) ∧
    vs.length = 2 ∧ ∀ v, ¬ Valid x64 never v := by
  refine ⟨List.replicate 2 (zstVal never), by decide, rfl, fun v h => ?_⟩
  cases v <;> simp [never, Valid, ValidVariants] at h

/-- With the sizes of `bool`, `char`, `NonZero` and references as they are. -/
def x64Sizes : Target := { x64 with opaqueSize := fun t => match t with
  | .bool => 1
  | .char => 4
  | .nonZero p => p.size
  | .seq .ref _ => 16
  | _ => 24 }

/-- `struct Flags<'a> { flags: &'a [bool] }` -/
def flags : Ty := .struct ⟨.rust, 16, 8, [0], false⟩ (.cons {} (.seq .ref .bool) .nil)

/-- `struct Text<'a> { chars: &'a [char] }` -/
def chars : Ty := .struct ⟨.rust, 16, 8, [0], false⟩ (.cons {} (.seq .ref .char) .nil)

/-- `struct Ids<'a> { ids: &'a [NonZeroU8] }` -/
def ids : Ty := .struct ⟨.rust, 16, 8, [0], false⟩ (.cons {} (.seq .ref (.nonZero .u8)) .nil)

/-- **C31 is false** for references in derived structs: the elements are not checked.  A `bool` with the byte 2, a `char` which is a
surrogate and a `NonZeroU8` with the value 0 are returned. (`&[bool]` as such is not `Readable`; but the macro generates code for
such fields which does not rely on `ZeroCopyable`.) -/
theorem C31_false_reference :
    (∀ t ∈ [flags, chars, ids], layoutOk x64Sizes t = true ∧ declOk t = true) ∧
    (readFromBuffer x64Sizes .little flags 4096 [1, 0, 0, 0, 2] = .ok (.pair (.list [.num 2]) .unit) ∧
      ¬ Valid x64Sizes flags (.pair (.list [.num 2]) .unit)) ∧
    (readFromBuffer x64Sizes .little chars 4096 [1, 0, 0, 0, 0x00, 0xd8, 0, 0] = .ok (.pair (.list [.num 0xd800]) .unit) ∧
      ¬ Valid x64Sizes chars (.pair (.list [.num 0xd800]) .unit)) ∧
    readFromBuffer x64Sizes .little ids 4096 [1, 0, 0, 0, 0] = .ok (.pair (.list [.num 0]) .unit) ∧
      ¬ Valid x64Sizes ids (.pair (.list [.num 0]) .unit) := by
  refine ⟨by decide, ⟨by decide, ?_⟩, ⟨by decide, ?_⟩, by decide, ?_⟩
  · simp [flags, Valid, ValidFields]
  · simp [chars, Valid, ValidFields, isScalar]
  · simp [ids, Valid, ValidFields]

/-- **C32 is false** for durations: 2^64 - 1 seconds and 10^9 nanoseconds. -/
theorem C32_false_duration :
    readFromBuffer x64 .little .duration 4096 [255, 255, 255, 255, 255, 255, 255, 255, 0x00, 0xca, 0x9a, 0x3b] =
      .error (.panic .arithOverflow) := by
  decide

/-- **C32 is false** for strings read from a stream on a 32-bit machine: the length exceeds `isize::MAX`. -/
theorem C32_false_capacity :
    (readFromStream le32 .little (.str .owned) (· + 100) false ⟨[255, 255, 255, 255], []⟩).1 =
      .error (.panic .capacityOverflow) := by
  decide

/-- On a 64-bit machine with `length_type = u64`. -/
theorem C32_false_capacity64 :
    (readFromStream x64 .little (.struct ⟨.rust, 24, 8, [0], true⟩
        (.cons { len := some (.typed .u64) } (.str .owned) .nil))
        (· + 100) false ⟨[255, 255, 255, 255, 255, 255, 255, 255], []⟩).1 = .error (.panic .capacityOverflow) := by
  decide

/-- `struct Empty {}`, which counts as primitive and has size zero. -/
def empty : Ty := .struct ⟨.rust, 0, 1, [], true⟩ .nil

/-- **C32 is false** for `Cow<[Empty]>` and `HashSet<Empty>`: division by the size of the elements. -/
theorem C32_false_empty :
    readFromBuffer x64 .little (.seq .cow empty) 4096 [0, 0, 0, 0] = .error (.panic .divByZero) ∧
      readFromBuffer x64 .little (.set empty) 4096 [0, 0, 0, 0] = .error (.panic .divByZero) := by
  decide

/-- `struct Rest { #[speedy(length = ..)] all: Vec<Empty> }` -/
def restOfEmpty : Ty := .struct ⟨.rust, 24, 8, [0], true⟩ (.cons { len := some .untilEof } (.seq .vec empty) .nil)

/-- **C32 is false** for `length = ..` and elements which need no bytes: the loop does not end, however long it runs. -/
theorem C32_false_loop (fuel base : Nat) (e : Endian) (buf : Bytes) :
    readFromBuffer { x64 with fuel := fuel } e restOfEmpty base buf = .error .diverge := by
  have h : ∀ n s, (readUntilEof n (M.pure .unit)).run (bufferReader x64.toHost) s = (.error .diverge, s) := by
    intro n
    induction n with
    | zero => exact fun s => rfl
    | succ n ih =>
      intro s
      unfold readUntilEof
      rw [Prog.run_bind]
      exact M.run_bind_err (ih s)
  show ((decode { x64 with fuel := fuel } e restOfEmpty Cx.std).run (bufferReader x64.toHost) (BufSt.init base buf)).1 = _
  exact congrArg Prod.fst (M.run_bind_err (M.run_bind_err (h fuel _)))

/-! ## Cases -/

section Cases
open Samples

/-- A reader in the middle of its buffer. -/
example (v : Val) (s' : BufSt) (h : (decode x64 .little message Cx.std).run (bufferReader x64.toHost)
    ((bufferReader x64.toHost).skip 2 (BufSt.init 4096 ([1, 2] ++ msgLe ++ [9]))).2 = (.ok v, s')) :
    Valid x64 message v ∧ 7 + s'.pend.length ≤ 22 :=
  have hs : BufSt.Inv x64.toHost ((bufferReader x64.toHost).skip 2 (BufSt.init 4096 ([1, 2] ++ msgLe ++ [9]))).2 := by
    exact ⟨by decide, by decide, by decide, by decide, by decide⟩
  ⟨C31_valid_reader_partial x64_ok message_layout message_decl message_sane (bufferReader_orderly _) hs h, by
    have h1 := C08_minimum_reader_partial x64_ok message_layout message_decl message_sane message_minOk (bufferReader_orderly _) hs h
    have h2 : minBytes x64 message = 7 := by decide
    have h3 : ((bufferReader x64.toHost).skip 2 (BufSt.init 4096 ([1, 2] ++ msgLe ++ [9]))).2.pend.length = 22 := by decide
    rwa [h2, h3] at h1⟩

/-- A stream which fails in between, and goes on. -/
example (v : Val) (st : StreamSt)
    (h : readFromStream x64 .little message (· + 100) false ⟨msgLe ++ [9], [.give 1, .fault .interrupted, .give 3]⟩ = (.ok v, st)) :
    Valid x64 message v ∧ 7 + st.pend.length ≤ 22 :=
  ⟨C31_valid_stream_partial x64_ok message_layout message_decl message_sane (fun n => by omega) h,
    C08_minimum_stream_partial x64_ok message_layout message_decl message_sane message_minOk (fun n => by omega) h⟩

example : ((decode x64 .little (.str .owned) Cx.std).run (copyingReader x64.toHost)
      (BufSt.init 4096 [0xff, 0xff, 0xff, 0xff, 1, 2, 3])).1 = .error .unexpectedEndOfInput :=
  (C29_huge_string (len := [0xff, 0xff, 0xff, 0xff]) (rest := [1, 2, 3]) (BufSt.init_inv (by decide)) (.inr rfl)
    rfl rfl (by decide)).1

example := C29_reservations_partial x64_ok message_layout message_decl message_sane message_minOk (e := .little) (base := 4096)
  (buf := msgLe) (by decide) (.inl rfl) (8, 2, 4) (by decide)

end Cases

end Verif
