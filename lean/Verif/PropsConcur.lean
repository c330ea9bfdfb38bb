import Verif.PropsHostile
import Verif.PropsAgree
import Verif.PropsTwin

/-!
# All ways of reading recursive types agree: C79

C06, C07, C09, C10, C11 and C12 for types which contain themselves or each other.  As in C76 and C78 the functions of these types are those of
`deep c b n`: the types unrolled `n` times, with any types `b` further down, if `n` is the number of bytes plus two at least.
-/

set_option linter.unusedSectionVars false

namespace Verif

/-! ## Conditions on deeper unrollings -/

section
variable {T : Target} {e : Endian} {u u' : EnumDesc → Ty} (hB : Blind T) (hA : ∀ d, Likewise T (u d) (u' d))
include hB hA

mutual
theorem peekOk_deeper (hU : ∀ d, peekOk T (u' d) = true) : ∀ (c : Ty), peekOk T (fill u c) = true → peekOk T (fill u' c) = true
  | .seq _ t, h | .set t, h | .array _ t, h | .refArray _ t, h | .option t, h | .range t, h | .rangeInc t, h | .box t, h | .via _ t, h => by
    simp only [fill, peekOk] at h ⊢
    exact peekOk_deeper hU t h
  | .map a b, h | .result a b, h | .pair a b, h => by
    simp only [fill, peekOk, Bool.and_eq_true] at h ⊢
    exact ⟨peekOk_deeper hU a h.1, peekOk_deeper hU b h.2⟩
  | .struct d fs, h => by
    simp only [fill, peekOk] at h ⊢
    exact peekOkFields_deeper hU fs h
  | .enum d .nil, _ => by simpa only [fill] using hU d
  | .enum d (.cons tag fs vs), h => by
    simp only [fill, peekOk] at h ⊢
    exact peekOkVariants_deeper hU d (.cons tag fs vs) h
  | .prim _, h | .usize, h | .bool, h | .char, h | .nonZero _, h | .atomic _, h
  | .ipv4, h | .ipv6, h | .ipAddr, h | .duration, h | .systemTime, h | .endianness, h
  | .varint64, h | .uuid, h | .str _, h | .unit, h => by simpa only [fill] using h
theorem peekOkFields_deeper (hU : ∀ d, peekOk T (u' d) = true) : ∀ (fs : Fields), peekOkFields T (fillFields u fs) = true →
    peekOkFields T (fillFields u' fs) = true
  | .nil, h => h
  | .cons a t fs, h => by
    simp only [fillFields, peekOkFields, Bool.and_eq_true] at h ⊢
    exact ⟨peekOk_deeper hU t h.1, peekOkFields_deeper hU fs h.2⟩
theorem peekOkVariants_deeper (hU : ∀ d, peekOk T (u' d) = true) (d : EnumDesc) : ∀ (vs : Variants), peekOkVariants T d (fillVariants u vs) = true →
    peekOkVariants T d (fillVariants u' vs) = true
  | .nil, h => h
  | .cons tag fs vs, h => by
    simp only [fillVariants, peekOkVariants, minFields_akin hB hA fs] at h ⊢
    rw [Bool.and_eq_true, Bool.and_eq_true] at h ⊢
    exact ⟨⟨h.1.1, peekOkFields_deeper hU fs h.1.2⟩, peekOkVariants_deeper hU d vs h.2⟩
end

mutual
theorem cowOk_deeper (hU : ∀ d l, cowOk T l (u' d) = true) : ∀ (c : Ty) (l : Lim), cowOk T l (fill u c) = true → cowOk T l (fill u' c) = true
  | .seq k t, l, h => by
    simp only [fill, cowOk, prim_fill hB (fun d => (hA d).shape) t, size_fill hB (fun d => (hA d).shape) t] at h ⊢
    rw [Bool.and_eq_true] at h ⊢
    exact ⟨h.1, cowOk_deeper hU t _ h.2⟩
  | .set t, l, h | .array _ t, l, h | .refArray _ t, l, h | .range t, l, h | .rangeInc t, l, h | .box t, l, h | .via _ t, l, h => by
    simp only [fill, cowOk] at h ⊢
    exact cowOk_deeper hU t _ h
  | .option t, l, h => by
    simp only [fill, cowOk, limOpt_fill hA l t] at h ⊢
    exact cowOk_deeper hU t _ h
  | .map a b, l, h | .result a b, l, h | .pair a b, l, h => by
    simp only [fill, cowOk, Bool.and_eq_true] at h ⊢
    exact ⟨cowOk_deeper hU a _ h.1, cowOk_deeper hU b _ h.2⟩
  | .struct d fs, l, h => by
    simp only [fill, cowOk] at h ⊢
    exact cowOkFields_deeper hU fs h
  | .enum d .nil, l, _ => by simpa only [fill] using hU d l
  | .enum d (.cons tag fs vs), l, h => by
    simp only [fill, cowOk, cowOkVariants, Bool.and_eq_true] at h ⊢
    exact ⟨cowOkFields_deeper hU fs h.1, cowOkVariants_deeper hU vs h.2⟩
  | .prim _, _, h | .usize, _, h | .bool, _, h | .char, _, h | .nonZero _, _, h | .atomic _, _, h
  | .ipv4, _, h | .ipv6, _, h | .ipAddr, _, h | .duration, _, h | .systemTime, _, h | .endianness, _, h
  | .varint64, _, h | .uuid, _, h | .str _, _, h | .unit, _, h => by simp only [fill, cowOk]
theorem cowOkFields_deeper (hU : ∀ d l, cowOk T l (u' d) = true) : ∀ (fs : Fields), cowOkFields T (fillFields u fs) = true →
    cowOkFields T (fillFields u' fs) = true
  | .nil, h => h
  | .cons a t fs, h => by
    simp only [fillFields, cowOkFields, Bool.and_eq_true] at h ⊢
    exact ⟨cowOk_deeper hU t _ h.1, cowOkFields_deeper hU fs h.2⟩
theorem cowOkVariants_deeper (hU : ∀ d l, cowOk T l (u' d) = true) : ∀ (vs : Variants), cowOkVariants T (fillVariants u vs) = true →
    cowOkVariants T (fillVariants u' vs) = true
  | .nil, h => h
  | .cons tag fs vs, h => by
    simp only [fillVariants, cowOkVariants, Bool.and_eq_true] at h ⊢
    exact ⟨cowOkFields_deeper hU fs h.1, cowOkVariants_deeper hU vs h.2⟩
end

mutual
theorem lendable_deeper (hU : ∀ d l, lendable T e l (u' d) = true) : ∀ (c : Ty) (l : Lim), lendable T e l (fill u c) = true →
    lendable T e l (fill u' c) = true
  | .seq k t, l, h => by
    simp only [fill, lendable, prim_fill hB (fun d => (hA d).shape) t, size_fill hB (fun d => (hA d).shape) t, bulk_fill (fun d => (hA d).shape) t] at h ⊢
    rw [Bool.and_eq_true] at h ⊢
    exact ⟨h.1, lendable_deeper hU t _ h.2⟩
  | .set t, l, h | .array _ t, l, h | .refArray _ t, l, h | .range t, l, h | .rangeInc t, l, h | .box t, l, h | .via _ t, l, h => by
    simp only [fill, lendable] at h ⊢
    exact lendable_deeper hU t _ h
  | .option t, l, h => by
    simp only [fill, lendable, limOpt_fill hA l t] at h ⊢
    exact lendable_deeper hU t _ h
  | .map a b, l, h | .result a b, l, h | .pair a b, l, h => by
    simp only [fill, lendable, Bool.and_eq_true] at h ⊢
    exact ⟨lendable_deeper hU a _ h.1, lendable_deeper hU b _ h.2⟩
  | .struct d fs, l, h => by
    simp only [fill, lendable] at h ⊢
    exact lendableFields_deeper hU fs h
  | .enum d .nil, l, _ => by simpa only [fill] using hU d l
  | .enum d (.cons tag fs vs), l, h => by
    simp only [fill, lendable, lendableVariants, Bool.and_eq_true] at h ⊢
    exact ⟨lendableFields_deeper hU fs h.1, lendableVariants_deeper hU vs h.2⟩
  | .prim _, _, h | .usize, _, h | .bool, _, h | .char, _, h | .nonZero _, _, h | .atomic _, _, h
  | .ipv4, _, h | .ipv6, _, h | .ipAddr, _, h | .duration, _, h | .systemTime, _, h | .endianness, _, h
  | .varint64, _, h | .uuid, _, h | .str _, _, h | .unit, _, h => by simp only [fill, lendable]
theorem lendableFields_deeper (hU : ∀ d l, lendable T e l (u' d) = true) : ∀ (fs : Fields), lendableFields T e (fillFields u fs) = true →
    lendableFields T e (fillFields u' fs) = true
  | .nil, h => h
  | .cons a t fs, h => by
    simp only [fillFields, lendableFields, Bool.and_eq_true] at h ⊢
    exact ⟨lendable_deeper hU t _ h.1, lendableFields_deeper hU fs h.2⟩
theorem lendableVariants_deeper (hU : ∀ d l, lendable T e l (u' d) = true) : ∀ (vs : Variants), lendableVariants T e (fillVariants u vs) = true →
    lendableVariants T e (fillVariants u' vs) = true
  | .nil, h => h
  | .cons tag fs vs, h => by
    simp only [fillVariants, lendableVariants, Bool.and_eq_true] at h ⊢
    exact ⟨lendableFields_deeper hU fs h.1, lendableVariants_deeper hU vs h.2⟩
end

omit hB hA in
mutual
theorem noRefs_deeper (hU : ∀ d, noRefs (u' d) = true) : ∀ (c : Ty), noRefs (fill u c) = true → noRefs (fill u' c) = true
  | .seq k t, h => by
    cases k <;> simp only [fill, noRefs, Bool.and_eq_true] at h ⊢ <;> first | exact noRefs_deeper hU t h | exact ⟨h.1, noRefs_deeper hU t h.2⟩ | exact h
  | .refArray _ t, h => by simp only [fill, noRefs, Bool.false_eq_true] at h
  | .set t, h | .array _ t, h | .option t, h | .range t, h | .rangeInc t, h | .box t, h | .via _ t, h => by
    simp only [fill, noRefs] at h ⊢
    exact noRefs_deeper hU t h
  | .map a b, h | .result a b, h | .pair a b, h => by
    simp only [fill, noRefs, Bool.and_eq_true] at h ⊢
    exact ⟨noRefs_deeper hU a h.1, noRefs_deeper hU b h.2⟩
  | .struct d fs, h => by
    simp only [fill, noRefs] at h ⊢
    exact noRefsFields_deeper hU fs h
  | .enum d .nil, _ => by simpa only [fill] using hU d
  | .enum d (.cons tag fs vs), h => by
    simp only [fill, noRefs, noRefsVariants, Bool.and_eq_true] at h ⊢
    exact ⟨noRefsFields_deeper hU fs h.1, noRefsVariants_deeper hU vs h.2⟩
  | .prim _, h | .usize, h | .bool, h | .char, h | .nonZero _, h | .atomic _, h
  | .ipv4, h | .ipv6, h | .ipAddr, h | .duration, h | .systemTime, h | .endianness, h
  | .varint64, h | .uuid, h | .str _, h | .unit, h => by simpa only [fill] using h
theorem noRefsFields_deeper (hU : ∀ d, noRefs (u' d) = true) : ∀ (fs : Fields), noRefsFields (fillFields u fs) = true →
    noRefsFields (fillFields u' fs) = true
  | .nil, h => h
  | .cons a t fs, h => by
    simp only [fillFields, noRefsFields, Bool.and_eq_true] at h ⊢
    exact ⟨noRefs_deeper hU t h.1, noRefsFields_deeper hU fs h.2⟩
theorem noRefsVariants_deeper (hU : ∀ d, noRefs (u' d) = true) : ∀ (vs : Variants), noRefsVariants (fillVariants u vs) = true →
    noRefsVariants (fillVariants u' vs) = true
  | .nil, h => h
  | .cons tag fs vs, h => by
    simp only [fillVariants, noRefsVariants, Bool.and_eq_true] at h ⊢
    exact ⟨noRefsFields_deeper hU fs h.1, noRefsVariants_deeper hU vs h.2⟩
end
end

/-! ## All unrollings -/

section
variable {T : Target} {e : Endian} {c : EnumDesc → Ty}

theorem Ending.likewise (hB : Blind T) (hE : Ending c) (b b' : EnumDesc → Ty) (d : EnumDesc) : Likewise T (fill b (c d)) (fill b' (c d)) :=
  ⟨erase_guarded _ _ (c d) (hE.guarded d), min_fill hB _ _ (c d) (hE.min d)⟩

/-- What depends on the attributes of the field in which a type is used does not do so for structs and enums. -/
theorem cow_nominal {t : Ty} (hn : nominal t = true) (u : EnumDesc → Ty) (l l' : Lim) : cowOk T l (fill u t) = cowOk T l' (fill u t) ∧
    lendable T e l (fill u t) = lendable T e l' (fill u t) := by
  cases t <;> simp only [nominal, Bool.false_eq_true] at hn
  · simp only [fill, cowOk, lendable, and_self]
  · rename_i d vs
    cases vs <;> simp only [Bool.false_eq_true] at hn
    simp only [fill, cowOk, lendable, and_self]

/-- What C10 requires of owned recursive types. -/
structure Borrowable (T : Target) (e : Endian) (c : EnumDesc → Ty) : Prop where
  /-- The size of a type does not depend on what is behind pointers in it. -/
  blind : Blind T
  ending : Ending c
  nominal : ∀ d, nominal (c d) = true
  layout : ∀ d, layoutOk T (unroll c 1 d) = true ∧ layoutOk T (unroll c 2 d) = true
  refs : ∀ d, noRefs (unroll c 1 d) = true ∧ noRefs (unroll c 2 d) = true
  lend : ∀ d, lendable T e (Lim.std T.toHost) (unroll c 1 d) = true ∧ lendable T e (Lim.std T.toHost) (unroll c 2 d) = true

theorem borrowable_unroll (hK : Borrowable T e c) : ∀ (n : Nat) (d : EnumDesc), layoutOk T (unroll c (n + 1) d) = true ∧
    noRefs (unroll c (n + 1) d) = true ∧ ∀ l, lendable T e l (unroll c (n + 1) d) = true
  | 0, d => ⟨(hK.layout d).1, (hK.refs d).1, fun l => ((cow_nominal (hK.nominal d) _ l (Lim.std T.toHost)).2).trans (hK.lend d).1⟩
  | 1, d => ⟨(hK.layout d).2, (hK.refs d).2, fun l => ((cow_nominal (hK.nominal d) _ l (Lim.std T.toHost)).2).trans (hK.lend d).2⟩
  | n + 2, d => by
    have ih := borrowable_unroll hK (n + 1)
    obtain ⟨h1, h2, h3⟩ := ih d
    have hA : ∀ d, Likewise T (unroll c (n + 1) d) (unroll c (n + 2) d) := fun d => hK.ending.likewise hK.blind _ _ d
    exact ⟨layout_deeper hK.blind (fun d => (hA d).shape) (fun d => (ih d).1) (c d) h1, noRefs_deeper (fun d => (ih d).2.1) (c d) h2,
      fun l => lendable_deeper hK.blind hA (fun d l => (ih d).2.2 l) (c d) l (h3 l)⟩

/-- What the other properties require: C44 and C76, and the conditions of C11 for two unrollings. -/
structure Concordant (T : Target) (e : Endian) (c : EnumDesc → Ty) : Prop where
  ok : TemplateOk T e c
  ending : Ending c
  nominal : ∀ d, nominal (c d) = true
  strict : ∀ d, Verif.ends false true (unroll c 1 d) = true
  peek : ∀ d, peekOk T (unroll c 1 d) = true ∧ peekOk T (unroll c 2 d) = true
  cow : ∀ d, cowOk T (Lim.std T.toHost) (unroll c 1 d) = true ∧ cowOk T (Lim.std T.toHost) (unroll c 2 d) = true

theorem concordant_more (hK : Concordant T e c) : ∀ (n : Nat) (d : EnumDesc), peekOk T (unroll c (n + 1) d) = true ∧
    ∀ l, cowOk T l (unroll c (n + 1) d) = true
  | 0, d => ⟨(hK.peek d).1, fun l => ((cow_nominal (e := e) (hK.nominal d) _ l (Lim.std T.toHost)).1).trans (hK.cow d).1⟩
  | 1, d => ⟨(hK.peek d).2, fun l => ((cow_nominal (e := e) (hK.nominal d) _ l (Lim.std T.toHost)).1).trans (hK.cow d).2⟩
  | n + 2, d => by
    have ih := concordant_more hK (n + 1)
    obtain ⟨h1, h2⟩ := ih d
    have hA : ∀ d, Likewise T (unroll c (n + 1) d) (unroll c (n + 2) d) := fun d => hK.ending.likewise hK.ok.blind _ _ d
    exact ⟨peekOk_deeper hK.ok.blind hA (fun d => (ih d).1) (c d) h1,
      fun l => cowOk_deeper hK.ok.blind hA (fun d l => (ih d).2 l) (c d) l (h2 l)⟩

theorem concordant_unroll (hK : Concordant T e c) (n : Nat) (d : EnumDesc) : Agreeable T e (unroll c (n + 1) d) := by
  obtain ⟨h1, h2, h3, _, _⟩ := unroll_ok hK.ok n d
  obtain ⟨h4, h5⟩ := concordant_more hK n d
  exact ⟨h1, h2, h3, (alike_first hK.ok n d).ends _ _ ▸ hK.strict d, h4, h5 _⟩

/-- Reading a recursive type from a buffer, with the number of bytes, is reading any unrolling of it which is deep enough. -/
theorem deep_lengths (hB : Blind T) (hE : Ending c) (b : EnumDesc → Ty) {base : Nat} {buf : Bytes} (htop : base + buf.length ≤ T.usizeMax) {n m : Nat}
    (hn : buf.length + 2 ≤ n) (hm : buf.length + 2 ≤ m) (d : EnumDesc) :
    readWithLengthFromBuffer T e (deep c b n d) base buf = readWithLengthFromBuffer T e (unroll c m d) base buf ∧
    readWithLengthFromBufferCopying T e (deep c b n d) base buf = readWithLengthFromBufferCopying T e (unroll c m d) base buf := by
  have hi : BufAt T.toHost base buf (BufSt.init base buf) := BufAt.init htop
  have O1 : Orderly true (bufferReader T.toHost) (BufAt T.toHost base buf) BufSt.pend :=
    (bufferReader_at _ _ _).orderly fun _ n s => by simp [bufferReader, bufCanRead]
  have O2 : Orderly true (copyingReader T.toHost) (BufAt T.toHost base buf) BufSt.pend :=
    (copyingReader_at _ _ _).orderly fun _ n s => by simp [copyingReader, bufCanRead]
  have hp : (BufSt.init base buf).pend = buf := BufSt.init_pend _ _
  have h1 := C76_ends_partial O1 (T := T) (e := e) hB hE b (fun _ => noType) hi (n := n) (m := m) (by rw [hp]; exact hn) (by rw [hp]; exact hm) d Cx.std
  have h2 := C76_ends_partial O2 (T := T) (e := e) hB hE b (fun _ => noType) hi (n := n) (m := m) (by rw [hp]; exact hn) (by rw [hp]; exact hm) d Cx.std
  rw [deep_unroll] at h1 h2
  have hmin := deep_min hB hE b (T := T) (n := n) (m := m) (by omega) (by omega) d
  unfold readWithLengthFromBuffer readWithLengthFromBufferCopying
  rw [hmin, h1, h2]
  exact ⟨rfl, rfl⟩

theorem deep_stream (hB : Blind T) (hE : Ending c) (b : EnumDesc → Ty) {grow : Nat → Nat} (hg : ∀ n, n ≤ grow n) (buffered : Bool) (src : Src) {n m : Nat}
    (hn : src.data.length + 2 ≤ n) (hm : src.data.length + 2 ≤ m) (d : EnumDesc) :
    readFromStream T e (deep c b n d) grow buffered src = readFromStream T e (unroll c m d) grow buffered src := by
  have hs : (StreamSt.init buffered src).buf.Inv := CBuf.withCapacity_inv _
  have h1 := C76_ends_partial (streamReader_orderly hg) (T := T) (e := e) hB hE b (fun _ => noType) hs (n := n) (m := m)
    (by rw [StreamSt.init_pend]; exact hn) (by rw [StreamSt.init_pend]; exact hm) d Cx.std
  rw [deep_unroll] at h1
  exact h1

/-! ## C79 -/

/-- **C79**, slices: zero-copy reading and copying return the same for recursive types, the value or the error and the number of bytes, wherever the
bytes are in memory.

Full claim: all recursive types.  Missing: those excluded by C10 and C76, for which it is false.  Fields which depend on the end of the input are included. -/
theorem C79_buffers_partial (hT : T.Ok) (hK : Borrowable T e c) {base base' : Nat} {buf : Bytes} (hi : InMem T base buf) (hi' : InMem T base' buf)
    (b b' : EnumDesc → Ty) {n n' : Nat} (hn : buf.length + 2 ≤ n) (hn' : buf.length + 2 ≤ n') (d : EnumDesc) :
    readWithLengthFromBuffer T e (deep c b n d) base buf = readWithLengthFromBufferCopying T e (deep c b' n' d) base' buf := by
  obtain ⟨h1, h2, h3⟩ := borrowable_unroll hK (buf.length + 1) d
  rw [(deep_lengths hK.blind hK.ending b hi.top hn (Nat.le_refl _) d).1, (deep_lengths hK.blind hK.ending b' hi'.top hn' (Nat.le_refl _) d).2]
  exact C10_buffers_partial hT h1 h2 (h3 _) hi hi'

section
variable (hT : T.Ok) (hK : Concordant T e c) (b b' : EnumDesc → Ty) {d : EnumDesc}
include hT hK

/-- **C79**, streams: either reader returns a value exactly when reading all the bytes from a slice does, in whatever pieces they are delivered. -/
theorem C79_streams_partial (hr : noRefs (unroll c 1 d) = true) {grow : Nat → Nat} (hg : ∀ n, n ≤ grow n) (buffered : Bool) {src : Src} (hs : src.Clean)
    {base : Nat} (hi : InMem T base src.data) {n n' : Nat} (hn : src.data.length + 2 ≤ n) (hn' : src.data.length + 2 ≤ n') (v : Val) :
    (readFromStream T e (deep c b n d) grow buffered src).1 = .ok v ↔ readFromBuffer T e (deep c b' n' d) base src.data = .ok v := by
  have ha := concordant_unroll hK (src.data.length + 1) d
  have hr' := (unroll_ok hK.ok (src.data.length + 1) d).2.2.2.2.trans hr
  rw [deep_stream hK.ok.blind hK.ending b hg buffered src hn (Nat.le_refl _) d]
  have := (deep_lengths (e := e) hK.ok.blind hK.ending b' hi.top hn' (Nat.le_refl _) d).1
  unfold readFromBuffer
  rw [this]
  exact stream_agrees hT ha hg buffered hs hi hr' v

/-- **C79**, reported lengths: the bytes up to the reported length give the same value and length, whatever follows them. -/
theorem C79_reported_length_partial {base : Nat} {buf : Bytes} (hi : InMem T base buf) {n : Nat} (hn : buf.length + 2 ≤ n) {v : Val} {k : Nat}
    (h : readWithLengthFromBuffer T e (deep c b n d) base buf = (.ok v, k)) :
    k ≤ buf.length ∧ ∀ more, InMem T base (buf.take k ++ more) → ∀ m, (buf.take k ++ more).length + 2 ≤ m →
      readWithLengthFromBuffer T e (deep c b' m d) base (buf.take k ++ more) = (.ok v, k) := by
  have ha := concordant_unroll hK (buf.length + 1) d
  refine ⟨?_, fun more hm m hl => ?_⟩
  · rw [(deep_lengths (e := e) hK.ok.blind hK.ending b hi.top hn (Nat.le_refl _) d).1] at h
    exact (C09_reported_length_partial hT ha hi h).1
  · have hx : ∃ x, x + 1 = buf.length + 2 + ((buf.take k ++ more).length + 2) := ⟨_, rfl⟩
    obtain ⟨x, hx⟩ := hx
    have ha := concordant_unroll hK x d
    rw [(deep_lengths (e := e) hK.ok.blind hK.ending b hi.top hn (m := x + 1) (by omega) d).1] at h
    rw [(deep_lengths (e := e) hK.ok.blind hK.ending b' hm.top hl (m := x + 1) (by omega) d).1]
    exact (C09_reported_length_partial hT ha hi h).2.2 more hm

end

section
variable (hT : T.Ok) (hO : TemplateOk T e c) (hE : Ending c) (b : EnumDesc → Ty) {d : EnumDesc} {k : Nat} {v : Val} {junk : Nat → UInt8} {bs : Bytes}
  (hv : hasTy T (unroll c (k + 1) d) v) (hw : writeToVec T e (unroll c (k + 1) d) v junk = .ok bs) (hc : canon (Fmt.code T.toHost e) (unroll c (k + 1) d) v)
include hT hO hE hv hw hc

/-- **C79**, values in sequence: what was written is read back whatever follows it, and its length is reported.

Missing for the full claim, as in C01 and C76: the types excluded by `regular` and `late`, the values excluded by `canon`. -/
theorem C79_self_delimiting_partial (he : Verif.ends false false (unroll c 1 d) = true) {base : Nat} {rest : Bytes} (hi : InMem T base (bs ++ rest)) {n : Nat}
    (hn : (bs ++ rest).length + 2 ≤ n) : readWithLengthFromBuffer T e (deep c b n d) base (bs ++ rest) = (.ok v, bs.length) := by
  obtain ⟨x, hx⟩ : ∃ x, x = k + ((bs ++ rest).length + 1) := ⟨_, rfl⟩
  have hkx : k ≤ x := by omega
  obtain ⟨b1, b2, b3, _, _⟩ := unroll_ok hO x d
  rw [(deep_lengths (e := e) hO.blind hE b hi.top hn (m := x + 1) (by omega) d).1]
  exact C06_self_delimiting_partial hT b1 b2 b3 (hasTy_deeper hO hkx d v hv) ((agree_unroll c (Nat.succ_le_succ hkx) d).canon v hv hc)
    (C44_written_partial hO hT hv hkx junk hw) ((alike_first hO x d).ends _ _ ▸ he) hi

/-- **C79**, truncation: no proper prefix of what was written is accepted, if no field has a default for the end of the input. -/
theorem C79_truncated_partial (he : Verif.ends false true (unroll c 1 d) = true) {base : Nat} {x y : Bytes} (hxy : bs = x ++ y) (hy : y ≠ [])
    (hi : InMem T base bs) {n : Nat} (hn : x.length + 2 ≤ n) :
    ∃ er, readFromBuffer T e (deep c b n d) base x = .error er ∧
      (er.isEof = true ∨ er = .inputBufferIsTooSmall x.length (minBytes T (unroll c 1 d))) := by
  obtain ⟨z, hz⟩ : ∃ z, z = k + (x.length + 1) := ⟨_, rfl⟩
  have hkz : k ≤ z := by omega
  obtain ⟨b1, b2, b3, _, _⟩ := unroll_ok hO z d
  have hx : InMem T base x := by rw [hxy] at hi; exact hi.prefix
  have h := (deep_lengths (e := e) hO.blind hE b hx.top hn (m := z + 1) (by omega) d).1
  have hmin : minBytes T (unroll c 1 d) = minBytes T (unroll c (z + 1) d) := min_fill hO.blind _ _ (c d) (hE.min d)
  unfold readFromBuffer
  rw [h, hmin]
  exact C07_truncated_partial hT b1 b2 b3 (hasTy_deeper hO hkz d v hv) ((agree_unroll c (Nat.succ_le_succ hkz) d).canon v hv hc)
    (C44_written_partial hO hT hv hkz junk hw) ((alike_first hO z d).ends _ _ ▸ he) hxy hy hi

end
end

/-! ## Deciding the conditions, examples -/

def memberBorrowable (T : Target) (e : Endian) (c : EnumDesc → Ty) (t : Ty) : Bool :=
  let t1 := fill (unroll c 0) t
  let t2 := fill (unroll c 1) t
  nominal t && layoutOk T t1 && layoutOk T t2 && noRefs t1 && noRefs t2 && lendable T e (Lim.std T.toHost) t1 && lendable T e (Lim.std T.toHost) t2

theorem group_borrowable {T : Target} {e : Endian} (hB : Blind T) {t : Ty} {ts : List Ty} (hE : Ending (group t ts))
    (h : (t :: ts).all (memberBorrowable T e (group t ts)) = true) : Borrowable T e (group t ts) := by
  have key : ∀ d, memberBorrowable T e (group t ts) (group t ts d) = true := fun d => List.all_eq_true.mp h _ (group_mem t ts d)
  simp only [memberBorrowable, Bool.and_eq_true] at key
  exact {
    blind := hB
    ending := hE
    nominal := fun d => (key d).1.1.1.1.1.1
    layout := fun d => ⟨(key d).1.1.1.1.1.2, (key d).1.1.1.1.2⟩
    refs := fun d => ⟨(key d).1.1.1.2, (key d).1.1.2⟩
    lend := fun d => ⟨(key d).1.2, (key d).2⟩ }

def memberConcordant (T : Target) (c : EnumDesc → Ty) (t : Ty) : Bool :=
  let t1 := fill (unroll c 0) t
  let t2 := fill (unroll c 1) t
  nominal t && ends false true t1 && peekOk T t1 && peekOk T t2 && cowOk T (Lim.std T.toHost) t1 && cowOk T (Lim.std T.toHost) t2

theorem group_concordant {T : Target} {e : Endian} {t : Ty} {ts : List Ty} (hO : TemplateOk T e (group t ts)) (hE : Ending (group t ts))
    (h : (t :: ts).all (memberConcordant T (group t ts)) = true) : Concordant T e (group t ts) := by
  have key : ∀ d, memberConcordant T (group t ts) (group t ts d) = true := fun d => List.all_eq_true.mp h _ (group_mem t ts d)
  simp only [memberConcordant, Bool.and_eq_true] at key
  exact {
    ok := hO
    ending := hE
    nominal := fun d => (key d).1.1.1.1.1
    strict := fun d => (key d).1.1.1.1.2
    peek := fun d => ⟨(key d).1.1.1.2, (key d).1.1.2⟩
    cow := fun d => ⟨(key d).1.2, (key d).2⟩ }

open Samples

theorem expr_concordant (e : Endian) : Concordant x64 e (alone exprT) := by
  have h := expr_ok e
  rw [alone_group] at h ⊢
  exact group_concordant h (group_ending (by decide)) (by decide)

theorem list_concordant (e : Endian) : Concordant x64 e (alone listT) := by
  have h := list_ok e
  rw [alone_group] at h ⊢
  exact group_concordant h (group_ending (by decide)) (by decide)

/-- Any bytes read as an expression: zero-copy and copied, with anything in place of expressions which are nested deeper than there are bytes. -/
example (e : Endian) (base base' : Nat) (buf : Bytes) (hi : InMem x64 base buf) (hi' : InMem x64 base' buf) (b b' : EnumDesc → Ty) :
    readWithLengthFromBuffer x64 e (deep (alone exprT) b (buf.length + 2) self) base buf =
      readWithLengthFromBufferCopying x64 e (deep (alone exprT) b' (buf.length + 3) self) base' buf := by
  refine C79_buffers_partial x64_ok ?_ hi hi' b b' (Nat.le_refl _) (by omega) self
  rw [alone_group]
  exact group_borrowable x64_blind (group_ending (by decide)) (by cases e <;> decide)

/-- Any bytes read as an expression from a stream which delivers one byte at a time first. -/
example (e : Endian) (base : Nat) (buf : Bytes) (hi : InMem x64 base buf) (b b' : EnumDesc → Ty) (v : Val) :
    (readFromStream x64 e (deep (alone exprT) b (buf.length + 2) self) id true ⟨buf, [.give 1, .give 1, .give 1]⟩).1 = .ok v ↔
      readFromBuffer x64 e (deep (alone exprT) b' (buf.length + 2) self) base buf = .ok v :=
  C79_streams_partial (src := ⟨buf, [.give 1, .give 1, .give 1]⟩) x64_ok (expr_concordant e) b b' (by decide) (fun _ => Nat.le_refl _) true
    (by simp [Src.Clean]) hi (Nat.le_refl _) (Nat.le_refl _) v

/-- A list of any length, followed by anything; and cut off anywhere. -/
example (e : Endian) (k : Nat) (rest : Bytes) (base : Nat) (hi : InMem x64 base (countdownBytes k ++ rest)) (b : EnumDesc → Ty) :
    readWithLengthFromBuffer x64 e (deep (alone listT) b ((countdownBytes k ++ rest).length + 2) self) base (countdownBytes k ++ rest) =
      (.ok (countdown k), (countdownBytes k).length) := by
  obtain ⟨b1, b2, b3, _, _⟩ := unroll_ok (list_ok e) k self
  exact C79_self_delimiting_partial x64_ok (list_ok e) (list_concordant e).ending b (junk := fun _ => 0) (countdown_ty k)
    (vec_ok x64_ok b1 b2 (regular_slice _ b3) (countdown_ty k) (countdown_wire _ k) hi.fits.left.mem) (countdown_canon _ k) (by decide) hi (Nat.le_refl _)

example (e : Endian) (k : Nat) (x y : Bytes) (hxy : countdownBytes k = x ++ y) (hy : y ≠ []) (base : Nat) (hi : InMem x64 base (countdownBytes k))
    (b : EnumDesc → Ty) : ∃ er, readFromBuffer x64 e (deep (alone listT) b (x.length + 2) self) base x = .error er := by
  obtain ⟨b1, b2, b3, _, _⟩ := unroll_ok (list_ok e) k self
  obtain ⟨er, h, _⟩ := C79_truncated_partial x64_ok (list_ok e) (list_concordant e).ending b (junk := fun _ => 0) (countdown_ty k)
    (vec_ok x64_ok b1 b2 (regular_slice _ b3) (countdown_ty k) (countdown_wire _ k) hi.fits.mem) (countdown_canon _ k) (by decide) hxy hy hi (Nat.le_refl _)
  exact ⟨er, h⟩

/-! ## Cases -/

section Cases
open Samples

example (e : Endian) (base : Nat) (buf : Bytes) (hi : InMem x64 base buf) (b b' : EnumDesc → Ty) {v : Val} {k : Nat}
    (h : readWithLengthFromBuffer x64 e (deep (alone exprT) b (buf.length + 2) self) base buf = (.ok v, k)) :=
  C79_reported_length_partial x64_ok (expr_concordant e) b b' hi (Nat.le_refl _) h

end Cases

end Verif
