import Verif.PropsRecursive
import Verif.Wp
import Verif.Structs

/-!
# Reading recursive types comes to an end: C76

The functions of recursive types call themselves.  `deep c b n` is a recursive type unrolled `n` times with arbitrary types `b` in place of the calls
which are nested deeper.  If every call of itself comes after a byte has been consumed (`late`), then the result of reading does not depend on `b` as soon as `n` is larger than the
number of bytes in the input (by two): the calls are never nested deeper, whatever the input is.
-/

namespace Verif

/-- Types unrolled `n` times, with `b` for what is nested deeper. -/
def deep (c b : EnumDesc → Ty) : Nat → EnumDesc → Ty
  | 0 => b
  | n + 1 => fun d => fill (deep c b n) (c d)

theorem deep_unroll (c : EnumDesc → Ty) : ∀ n, deep c (fun _ => noType) n = unroll c n
  | 0 => rfl
  | n + 1 => by funext d; simp only [deep, unroll, deep_unroll c n]

/-! ## The specification: calls of itself come after a byte -/

/-- The length of a container in a field is read from the input. -/
def Attrs.lenPrefixed (a : Attrs) : Bool :=
  a.opaqueTy || match a.len with
    | none | some (.typed _) => true
    | _ => false

mutual
/-- Reading the type consumes a byte, or fails.  `p`: the length of a container is read from the input. -/
def consumes (p : Bool) : Ty → Bool
  | .str _ | .seq _ _ | .set _ | .map _ _ => p
  | .array n (.prim _) => n != 0
  | .array _ _ | .refArray _ _ | .unit => false
  | .range t | .rangeInc t | .box t | .via _ t => consumes true t
  | .pair a b => consumes true a || consumes true b
  | .struct _ fs => consumesFields fs
  | .enum _ .nil => false
  | .enum d (.cons _ fs vs) => !d.peek || (consumesFields fs && consumesVariants vs)
  | _ => true
/-- One of the fields consumes a byte. -/
def consumesFields : Fields → Bool
  | .nil => false
  | .cons a t fs => (!a.skip && !a.defaultOnEof && (a.varint || !a.pre.isEmpty || consumes a.lenPrefixed t)) || consumesFields fs
/-- All variants do. -/
def consumesVariants : Variants → Bool
  | .nil => true
  | .cons _ fs vs => consumesFields fs && consumesVariants vs
end

mutual
/-- The type calls itself (a hole in the template) only after a byte has been consumed. -/
def late (p : Bool) : Ty → Bool
  | .seq _ t | .set t => p || late true t
  | .map k v => p || (late true k && (consumes true k || late true v))
  | .array _ t | .range t | .rangeInc t | .box t | .via _ t => late true t
  | .pair a b => late true a && (consumes true a || late true b)
  | .struct _ fs => lateFields fs
  | .enum _ .nil => false
  | .enum d (.cons _ fs vs) => !d.peek || (lateFields fs && lateVariants vs)
  | _ => true
/-- Fields: those after the first which consumes a byte are free. -/
def lateFields : Fields → Bool
  | .nil => true
  | .cons a t fs =>
    if a.skip then lateFields fs
    else (a.varint || !a.pre.isEmpty || late a.lenPrefixed t) &&
      ((!a.defaultOnEof && (a.varint || !a.pre.isEmpty || consumes a.lenPrefixed t)) || lateFields fs)
/-- All variants. -/
def lateVariants : Variants → Bool
  | .nil => true
  | .cons _ fs vs => lateFields fs && lateVariants vs
end

/-! ## What containers ask of the type of their elements -/

section
variable {T : Target} (hB : Blind T)
include hB

mutual
theorem ofMem_erase : ∀ (t : Ty) (bs : Bytes), ofMem T t bs = ofMem T (erase t) bs
  | .struct d fs, bs => by simp only [erase, ofMem]; exact ofMemFields_erase fs d.offsets bs
  | .prim _, _ | .usize, _ | .bool, _ | .char, _ | .nonZero _, _ | .atomic _, _
  | .ipv4, _ | .ipv6, _ | .ipAddr, _ | .duration, _ | .systemTime, _ | .endianness, _
  | .varint64, _ | .uuid, _ | .str _, _ | .unit, _ | .seq _ _, _ | .set _, _ | .map _ _, _ | .option _, _ | .result _ _, _
  | .array _ _, _ | .refArray _ _, _ | .range _, _ | .rangeInc _, _ | .box _, _ | .via _ _, _ | .pair _ _, _ | .enum _ _, _ => by
    simp only [erase, ofMem]
theorem ofMemFields_erase : ∀ (fs : Fields) (offs : List Nat) (bs : Bytes), ofMemFields T fs offs bs = ofMemFields T (eraseFields fs) offs bs
  | .nil, _, _ => by simp only [eraseFields, ofMemFields]
  | .cons a t fs, [], _ => by simp only [eraseFields, ofMemFields]
  | .cons a t fs, off :: offs, bs => by
    simp only [eraseFields, ofMemFields]
    rw [← sizeOf_erase hB, ← ofMem_erase t, ← ofMemFields_erase fs]
end

mutual
theorem flipMem_erase : ∀ (t : Ty) (bs : Bytes), flipMem T t bs = flipMem T (erase t) bs
  | .struct d fs, bs => by simp only [erase, flipMem, length_erase, ← flipFields_erase fs d.offsets bs]
  | .prim _, _ | .usize, _ | .bool, _ | .char, _ | .nonZero _, _ | .atomic _, _
  | .ipv4, _ | .ipv6, _ | .ipAddr, _ | .duration, _ | .systemTime, _ | .endianness, _
  | .varint64, _ | .uuid, _ | .str _, _ | .unit, _ | .seq _ _, _ | .set _, _ | .map _ _, _ | .option _, _ | .result _ _, _
  | .array _ _, _ | .refArray _ _, _ | .range _, _ | .rangeInc _, _ | .box _, _ | .via _ _, _ | .pair _ _, _ | .enum _ _, _ => by
    simp only [erase, flipMem]
theorem flipFields_erase : ∀ (fs : Fields) (offs : List Nat) (bs : Bytes), flipFields T fs offs bs = flipFields T (eraseFields fs) offs bs
  | .nil, _, _ => by simp only [eraseFields, flipFields]
  | .cons a t fs, [], _ => by simp only [eraseFields, flipFields]
  | .cons a t fs, off :: offs, bs => by
    simp only [eraseFields, flipFields]
    rw [← sizeOf_erase hB, ← flipMem_erase t]
    cases flipMem T t ((bs.drop off).take (sizeOf T t)) with
    | error p => rfl
    | ok b => exact flipFields_erase fs _ _
end

theorem convMem_erase : ∀ (t : Ty) (bs : Bytes), convMem T t bs = convMem T (erase t) bs
  | .struct d .nil, bs => by simp only [erase, eraseFields]
  | .struct d (.cons a t .nil), bs => by
    have h := flipMem_erase hB (.struct d (.cons a t .nil)) bs
    simp only [erase, eraseFields] at h
    simp only [erase, eraseFields, convMem]
    rw [← convMem_erase t bs, h]
  | .struct d (.cons a t (.cons a' t' fs)), bs => by
    have h := flipMem_erase hB (.struct d (.cons a t (.cons a' t' fs))) bs
    simp only [erase, eraseFields] at h
    simp only [erase, eraseFields, convMem]
    rw [h]
  | .prim _, _ | .usize, _ | .bool, _ | .char, _ | .nonZero _, _ | .atomic _, _
  | .ipv4, _ | .ipv6, _ | .ipAddr, _ | .duration, _ | .systemTime, _ | .endianness, _
  | .varint64, _ | .uuid, _ | .str _, _ | .unit, _ | .seq _ _, _ | .set _, _ | .map _ _, _ | .option _, _ | .result _ _, _
  | .array _ _, _ | .refArray _ _, _ | .range _, _ | .rangeInc _, _ | .box _, _ | .via _ _, _ | .pair _ _, _ | .enum _ _, _ => by
    simp only [erase, convMem]

end

mutual
theorem zstVal_erase : ∀ (t : Ty), zstVal t = zstVal (erase t)
  | .pair a b => by simp only [erase, zstVal, ← zstVal_erase a, ← zstVal_erase b]
  | .array n t | .range t => by simp only [erase, zstVal, ← zstVal_erase t]
  | .struct d fs => by simp only [erase, zstVal, ← zstFields_erase fs]
  | .enum d .nil => by simp only [erase, eraseVariants]
  | .enum d (.cons tag fs vs) => by simp only [erase, eraseVariants, zstVal, ← zstFields_erase fs]
  | .prim _ | .usize | .bool | .char | .nonZero _ | .atomic _
  | .ipv4 | .ipv6 | .ipAddr | .duration | .systemTime | .endianness
  | .varint64 | .uuid | .str _ | .unit | .seq _ _ | .set _ | .map _ _ | .option _ | .result _ _
  | .refArray _ _ | .rangeInc _ | .box _ | .via _ _ => by simp only [erase, zstVal]
theorem zstFields_erase : ∀ (fs : Fields), zstFields fs = zstFields (eraseFields fs)
  | .nil => rfl
  | .cons a t fs => by simp only [eraseFields, zstFields, ← zstVal_erase t, ← zstFields_erase fs]
end

theorem alignOf_erase {T : Target} (t : Ty) : alignOf T t = alignOf T (erase t) := by cases t <;> rfl

theorem opt_erase (cx : Cx) (t : Ty) : cx.opt t = cx.opt (erase t) := by cases t <;> rfl

/-- Two types which look the same from outside. -/
structure Likewise (T : Target) (t t' : Ty) : Prop where
  shape : erase t = erase t'
  min : minBytes T t = minBytes T t'

section
variable {T : Target} (hB : Blind T) {u u' : EnumDesc → Ty} (hA : ∀ d, Likewise T (u d) (u' d))
include hB hA

mutual
theorem min_akin : ∀ (t : Ty), minBytes T (fill u t) = minBytes T (fill u' t)
  | .array n t | .range t | .rangeInc t | .box t | .via _ t => by simp only [fill, minBytes, min_akin t]
  | .refArray n t => by
    simp only [fill, minBytes]
    rw [size_fill hB (fun d => (hA d).shape) t]
  | .pair a b => by simp only [fill, minBytes, min_akin a, min_akin b]
  | .struct d fs => by simp only [fill, minBytes, minFields_akin fs]
  | .enum d .nil => by simpa only [fill] using (hA d).min
  | .enum d (.cons tag fs vs) => by simp only [fill, minBytes]
  | .prim _ | .usize | .bool | .char | .nonZero _ | .atomic _
  | .ipv4 | .ipv6 | .ipAddr | .duration | .systemTime | .endianness
  | .varint64 | .uuid | .str _ | .unit | .seq _ _ | .set _ | .map _ _ | .option _ | .result _ _ => by simp only [fill, minBytes]
theorem minFields_akin : ∀ (fs : Fields), fieldsMin T (fillFields u fs) = fieldsMin T (fillFields u' fs)
  | .nil => rfl
  | .cons a t fs => by
    have ho : (match fill u t with | .option _ => true | _ => false) = (match fill u' t with | .option _ => true | _ => false) := by
      have he := erase_fill (fun d => (hA d).shape) t
      have h1 : ∀ x : Ty, (match x with | .option _ => true | _ => false) = (match erase x with | .option _ => true | _ => false) := by
        intro x; cases x <;> rfl
      rw [h1, he, ← h1]
    simp only [fillFields, fieldsMin, minFields_akin fs, min_akin t]
    congr 1
    by_cases hd : (a.defaultOnEof || a.skip) = true
    · rw [if_pos hd, if_pos hd]
    · rw [if_neg hd, if_neg hd]
      cases a.len with
      | none => rfl
      | some k =>
        cases k <;> try rfl
        congr 1
        revert ho
        cases fill u t <;> cases fill u' t <;> simp
end

theorem akin_fill (t : Ty) : Likewise T (fill u t) (fill u' t) := ⟨erase_fill (fun d => (hA d).shape) t, min_akin hB hA t⟩

theorem elem_fill (t : Ty) (p q : M Val) : elemOf T (fill u' t) q = { elemOf T (fill u t) p with read := q } := by
  have he := erase_fill (fun d => (hA d).shape) t
  simp only [elemOf]
  congr 1
  · exact (min_akin hB hA t).symm
  · rw [sizeOf_erase hB, ← he, ← sizeOf_erase hB]
  · rw [alignOf_erase, ← he, ← alignOf_erase]
  · rw [isPrimitive_erase hB, ← he, ← isPrimitive_erase hB]
  · funext bs; rw [ofMem_erase hB, ← he, ← ofMem_erase hB]
  · funext bs; rw [convMem_erase hB, ← he, ← convMem_erase hB]
  · rw [zstVal_erase, ← he, ← zstVal_erase]

end

/-! ## Programs which do the same while at most `k` bytes are left -/

section
variable {σ : Type} {exact : Bool} {R : ReaderOps σ} {Inv : σ → Prop} {pend : σ → Bytes} (L : Orderly exact R Inv pend)

/-- A program only moves forward. -/
theorem Orderly.forward {α : Type} {exact : Bool} {R : ReaderOps σ} {Inv : σ → Prop} {pend : σ → Bytes} (L : Orderly exact R Inv pend)
    (p : Prog α) (s : σ) (hs : Inv s) : Inv (p.run R s).2 ∧ (pend (p.run R s).2).length ≤ (pend s).length := by
  refine Verif.run_inv (I := fun s' => Inv s' ∧ (pend s').length ≤ (pend s).length) ?_ ?_ ?_ ?_ ?_ ?_ p s ⟨hs, Nat.le_refl _⟩
  · rintro n s' ⟨h, hk⟩
    rcases L.read n s' h with ⟨s2, h1, _, h2, h3⟩ | ⟨er, s2, k, h1, _, h2, h3⟩ <;> rw [h1] <;>
      exact ⟨h2, by rw [h3, List.length_drop]; omega⟩
  · rintro n s' ⟨h, hk⟩
    rcases L.peek n s' h with ⟨s2, h1, _, h2, h3⟩ | ⟨er, s2, k, h1, _, h2, h3⟩ <;> rw [h1]
    · exact ⟨h2, by rw [h3]; exact hk⟩
    · exact ⟨h2, by rw [h3, List.length_drop]; omega⟩
  · rintro n s' ⟨h, hk⟩
    rcases L.skip n s' h with ⟨s2, h1, _, h2, h3⟩ | ⟨er, s2, k, h1, _, h2, h3⟩ <;> rw [h1] <;>
      exact ⟨h2, by rw [h3, List.length_drop]; omega⟩
  · rintro n s' ⟨h, hk⟩
    rcases L.borrow n s' h with h1 | ⟨a, s2, h1, _, h2, h3⟩ | ⟨er, s2, k, h1, _, h2, h3⟩ <;> rw [h1]
    · exact ⟨h, hk⟩
    · exact ⟨h2, by rw [h3, List.length_drop]; omega⟩
    · exact ⟨h2, by rw [h3, List.length_drop]; omega⟩
  · rintro n s' ⟨h, hk⟩
    rcases L.borrowR n s' h with h1 | ⟨a, s2, h1, _, h2, h3⟩ | ⟨er, s2, k, h1, _, h2, h3⟩ <;> rw [h1]
    · exact ⟨h, hk⟩
    · exact ⟨h2, by rw [h3, List.length_drop]; omega⟩
    · exact ⟨h2, by rw [h3, List.length_drop]; omega⟩
  · rintro s' ⟨h, hk⟩
    rcases L.borrowEof s' h with h1 | ⟨a, s2, h1, h2, h3⟩ <;> rw [h1]
    · exact ⟨h, hk⟩
    · exact ⟨h2, by rw [h3]; simp⟩

/-- The program consumes a byte or fails. -/
def Eats (R : ReaderOps σ) (Inv : σ → Prop) (pend : σ → Bytes) {α : Type} (p : M α) : Prop :=
  ∀ s, Inv s → ∀ v s', p.run R s = (.ok v, s') → (pend s').length < (pend s).length

include L

theorem Eats.bind {α β : Type} {p : M α} {f : α → M β} (h : Eats R Inv pend p ∨ ∀ a, Eats R Inv pend (f a)) :
    Eats R Inv pend (M.bind p f) := by
  intro s hs v s' hr
  have hfw := L.forward p s hs
  rcases hp : p.run R s with ⟨r | a, s1⟩
  · rw [M.run_bind_err hp] at hr; cases hr
  · rw [M.run_bind_ok hp] at hr
    rw [hp] at hfw
    have hfw2 := L.forward (f a) s1 hfw.1
    rw [hr] at hfw2
    have e1 := hfw.2
    have e2 := hfw2.2
    simp only at e1 e2
    rcases h with h | h
    · have := h s hs a s1 hp
      omega
    · have := h a s1 hfw.1 v s' hr
      omega

theorem Eats.map {α β : Type} {p : M α} {f : α → β} (h : Eats R Inv pend p) : Eats R Inv pend (M.map f p) :=
  Eats.bind L (.inl h)

omit L in
theorem Eats.fail {α : Type} {er : Err} : Eats R Inv pend (M.fail er : M α) := by
  intro s _ v s' h
  simp [M.fail, Prog.run] at h

theorem eats_readBytes {n : Nat} (hn : n ≠ 0) : Eats R Inv pend (readBytes n) := by
  intro s hs v s' hr
  rcases L.read n s hs with ⟨s2, h1, h0, h2, h3⟩ | ⟨er, s2, k, h1, _, h2, h3⟩
  · simp only [readBytes, Prog.run, h1, Prod.mk.injEq] at hr
    rw [← hr.2, h3, List.length_drop]
    omega
  · simp [readBytes, Prog.run, h1] at hr

theorem eats_readNum {h : Host} {e : Endian} {n : Nat} (hn : n ≠ 0) : Eats R Inv pend (readNum h e n) := by
  intro s hs v s' hr
  simp only [readNum, Prog.run] at hr
  by_cases hc : R.canRead n s = some false
  · rw [if_pos hc] at hr
    simp [M.fail, Prog.run] at hr
  · rw [if_neg hc] at hr
    rcases L.read n s hs with ⟨s2, h1, h0, h2, h3⟩ | ⟨er, s2, k, h1, _, h2, h3⟩
    · simp only [Prog.run, h1, M.pure, Prod.mk.injEq] at hr
      rw [← hr.2, h3, List.length_drop]
      omega
    · simp [Prog.run, h1, M.fail] at hr

theorem eats_readVarint {h : Host} {e : Endian} : Eats R Inv pend (readVarint h e) :=
  Eats.bind L (.inl (eats_readNum L (by decide)))

theorem eats_readLen {h : Host} {e : Endian} (lt : LenTy) : Eats R Inv pend (readLen h e lt) := by
  cases lt
  · exact Eats.bind L (.inl (eats_readNum L (by decide)))
  · exact eats_readNum L (by decide)
  · exact eats_readNum L (by decide)
  · exact eats_readNum L (by decide)
  · exact Eats.bind L (.inl (eats_readNum L (by decide)))
  · exact Eats.bind L (.inl (eats_readVarint L))

theorem eats_readBool {h : Host} {e : Endian} : Eats R Inv pend (readBool h e) :=
  Eats.map L (eats_readNum L (by decide))

omit L in
theorem Eats.ite {α : Type} {c : Prop} [Decidable c] {p q : M α} (hp : c → Eats R Inv pend p) (hq : ¬c → Eats R Inv pend q) :
    Eats R Inv pend (if c then p else q) := by
  by_cases h : c
  · rw [if_pos h]; exact hp h
  · rw [if_neg h]; exact hq h

theorem eats_readConstant {T : Target} {e : Endian} {bs : Bytes} (hn : bs ≠ []) :
    Eats R Inv pend (readConstant T.toHost e (u8Elem T e) bs) := by
  have hl : bs.length ≠ 0 := fun h => hn (List.length_eq_zero_iff.mp h)
  have hv : ∀ f : List Val → M Unit, Eats R Inv pend (M.bind (readVec T.toHost e (u8Elem T e) bs.length) f) := by
    intro f
    refine Eats.bind L (.inl ?_)
    intro s hs v s' hr
    unfold readVec at hr
    by_cases h1 : (u8Elem T e).min * bs.length > T.toHost.usizeMax
    · rw [if_pos h1] at hr; simp [M.fail, Prog.run] at hr
    · rw [if_neg h1] at hr
      simp only [Prog.run] at hr
      by_cases hc : R.canRead ((u8Elem T e).min * bs.length) s = some false
      · rw [if_pos hc] at hr; simp [M.fail, Prog.run] at hr
      · rw [if_neg hc] at hr
        by_cases h2 : bs.length * (u8Elem T e).size > T.toHost.isizeMax
        · rw [if_pos h2] at hr; simp [M.fail, Prog.run] at hr
        · rw [if_neg h2] at hr
          simp only [Prog.run] at hr
          have hp : (u8Elem T e).prim = true := by simp [u8Elem, elemOf, isPrimitive]
          have hz : (u8Elem T e).size = 1 := by simp [u8Elem, elemOf, sizeOf, Prim.size]
          rw [if_pos hp] at hr
          exact Eats.bind L (.inl (eats_readBytes L (by rw [hz]; omega))) s hs v s' hr
  intro s hs v s' hr
  rcases L.borrow bs.length s hs with h1 | ⟨a, s2, h1, h0, h2, h3⟩ | ⟨er, s2, k, h1, _, h2, h3⟩
  · simp only [readConstant, Prog.run, h1] at hr
    exact hv _ s hs v s' hr
  · simp only [readConstant, Prog.run, h1] at hr
    have hfw : (pend s').length ≤ (pend s2).length := by
      have := L.forward (if List.take bs.length (pend s) = bs then (M.pure () : M Unit) else M.fail (.expectedConstant bs)) s2 h2
      rw [hr] at this
      exact this.2
    rw [h3, List.length_drop] at hfw
    omega
  · simp [readConstant, M.fail, Prog.run, h1] at hr

/-- The two programs do the same in states in which at most `k` bytes are left. -/
def Upto (R : ReaderOps σ) (Inv : σ → Prop) (pend : σ → Bytes) (k : Nat) {α : Type} (p q : Prog α) : Prop :=
  ∀ s, Inv s → (pend s).length ≤ k → p.run R s = q.run R s

omit L in
theorem Upto.refl {α : Type} {k : Nat} (p : Prog α) : Upto R Inv pend k p p := fun _ _ _ => rfl

omit L in
theorem Upto.less {α : Type} {k j : Nat} {p q : Prog α} (h : Upto R Inv pend k p q) (hj : j ≤ k) : Upto R Inv pend j p q :=
  fun s hs hk => h s hs (Nat.le_trans hk hj)

theorem Upto.pbind {α β : Type} {k : Nat} {p q : Prog α} {f g : α → Prog β} (h : Upto R Inv pend k p q)
    (hf : ∀ a, Upto R Inv pend k (f a) (g a)) : Upto R Inv pend k (p.bind f) (q.bind g) := by
  intro s hs hk
  have hfw := L.forward p s hs
  rw [Prog.run_bind, Prog.run_bind, ← h s hs hk]
  exact hf _ _ hfw.1 (Nat.le_trans hfw.2 hk)

theorem Upto.bind {α β : Type} {k : Nat} {p q : M α} {f g : α → M β} (h : Upto R Inv pend k p q)
    (hf : ∀ a j, j ≤ k → (Eats R Inv pend p → j < k) → Upto R Inv pend j (f a) (g a)) :
    Upto R Inv pend k (M.bind p f) (M.bind q g) := by
  intro s hs hk
  have hfw := L.forward p s hs
  have hq := h s hs hk
  rcases hp : p.run R s with ⟨r | a, s1⟩
  · rw [M.run_bind_err hp, M.run_bind_err (hq ▸ hp)]
  · rw [M.run_bind_ok hp, M.run_bind_ok (hq ▸ hp)]
    rw [hp] at hfw
    refine hf a (pend s1).length (Nat.le_trans hfw.2 hk) ?_ s1 hfw.1 (Nat.le_refl _)
    intro he
    exact Nat.lt_of_lt_of_le (he s hs a s1 hp) hk

/-- The first program is the same and its result may say more. -/
theorem Upto.after {α β : Type} {k : Nat} {p : M α} {f g : α → M β} {Q : α → Nat → Prop}
    (hQ : ∀ s, Inv s → ∀ a s', (pend s).length ≤ k → p.run R s = (.ok a, s') → Q a (pend s').length)
    (hf : ∀ a j, j ≤ k → Q a j → Upto R Inv pend j (f a) (g a)) :
    Upto R Inv pend k (M.bind p f) (M.bind p g) := by
  intro s hs hk
  have hfw := L.forward p s hs
  rcases hp : p.run R s with ⟨r | a, s1⟩
  · rw [M.run_bind_err hp, M.run_bind_err hp]
  · rw [M.run_bind_ok hp, M.run_bind_ok hp]
    rw [hp] at hfw
    exact hf a (pend s1).length (Nat.le_trans hfw.2 hk) (hQ s hs a s1 hk hp) s1 hfw.1 (Nat.le_refl _)

theorem Upto.map {α β : Type} {k : Nat} {p q : M α} {f : α → β} (h : Upto R Inv pend k p q) :
    Upto R Inv pend k (M.map f p) (M.map f q) :=
  Upto.bind L h fun _ _ _ _ => Upto.refl _

omit L in
theorem Upto.ite {α : Type} {k : Nat} {c : Prop} [Decidable c] {p q p' q' : Prog α} (hp : c → Upto R Inv pend k p p')
    (hq : ¬c → Upto R Inv pend k q q') : Upto R Inv pend k (if c then p else q) (if c then p' else q') := by
  by_cases h : c
  · rw [if_pos h, if_pos h]; exact hp h
  · rw [if_neg h, if_neg h]; exact hq h

theorem Upto.onEof {α : Type} {k : Nat} {p q : M α} {d : α} (h : Upto R Inv pend k p q) :
    Upto R Inv pend k (onEof p d) (onEof q d) :=
  Upto.pbind L h fun _ => Upto.refl _

theorem same_repeat {k : Nat} {p q : M Val} : ∀ {n : Nat}, (n = 0 ∨ Upto R Inv pend k p q) → Upto R Inv pend k (repeatM n p) (repeatM n q)
  | 0, _ => Upto.refl _
  | n + 1, h => by
    have h : Upto R Inv pend k p q := by simpa using h
    simp only [repeatM]
    refine Upto.bind L h fun a j hj _ => ?_
    exact Upto.bind L (same_repeat (.inr (h.less hj))) fun _ _ _ _ => Upto.refl _

theorem same_untilEof {k : Nat} {p q : M Val} (h : Upto R Inv pend k p q) : ∀ {n : Nat},
    Upto R Inv pend k (readUntilEof n p) (readUntilEof n q)
  | 0 => Upto.refl _
  | n + 1 => by
    simp only [readUntilEof]
    refine Upto.pbind L h fun a => ?_
    cases a with
    | error er => exact Upto.refl _
    | ok v => exact Upto.bind L (same_untilEof h) fun _ _ _ _ => Upto.refl _

theorem same_readVec {h : Host} {e : Endian} {el : Elem} {q : M Val} {k n : Nat} (hs : n = 0 ∨ Upto R Inv pend k el.read q) :
    Upto R Inv pend k (readVec h e el n) (readVec h e { el with read := q } n) := by
  unfold readVec
  refine Upto.ite (fun _ => Upto.refl _) fun _ => ?_
  intro s hi hk
  simp only [Prog.run]
  refine Upto.ite (fun _ => Upto.refl _) (fun _ => ?_) s hi hk
  refine Upto.ite (fun _ => Upto.refl _) fun _ => ?_
  intro s hi hk
  simp only [Prog.run]
  refine Upto.ite (fun _ => Upto.refl _) (fun _ => ?_) s hi hk
  exact Upto.ite (fun _ => Upto.refl _) fun _ => same_repeat L hs

theorem same_readCow {h : Host} {e : Endian} {el : Elem} {q : M Val} {k n : Nat} (hs : n = 0 ∨ Upto R Inv pend k el.read q) :
    Upto R Inv pend k (readCow h e el n) (readCow h e { el with read := q } n) := by
  unfold readCow
  refine Upto.ite (fun _ => ?_) fun _ => Upto.map L (same_readVec L hs)
  intro s hi hk
  have hv := Upto.map L (f := CowVal.owned) (same_readVec L (h := h) (e := e) hs)
  rcases L.borrow (wmul h n el.size) s hi with h1 | ⟨a, s2, h1, h0, h2, h3⟩ | ⟨er, s2, k, h1, _, h2, h3⟩ <;> simp only [Prog.run, h1]
  exact hv s hi hk

theorem same_readCollection {h : Host} {e : Endian} {el : Elem} {q : M Val} {k n : Nat} (hs : n = 0 ∨ Upto R Inv pend k el.read q) :
    Upto R Inv pend k (readCollection h e el n) (readCollection h e { el with read := q } n) := by
  unfold readCollection
  refine Upto.ite (fun _ => ?_) fun _ => same_repeat L hs
  refine Upto.ite (fun _ => Upto.refl _) fun _ => ?_
  intro s hi hk
  rcases L.borrowR (n * el.size) s hi with h1 | ⟨a, s2, h1, h0, h2, h3⟩ | ⟨er, s2, k, h1, _, h2, h3⟩ <;> simp only [Prog.run, h1]
  exact same_repeat L hs s hi hk

theorem same_readKV {h : Host} {e : Endian} {ek ev : Elem} {p q : M Val} {k n : Nat}
    (hs : n = 0 ∨ Upto R Inv pend k (readPair ek ev) (readPair { ek with read := p } { ev with read := q })) :
    Upto R Inv pend k (readKV h e ek ev n) (readKV h e { ek with read := p } { ev with read := q } n) := by
  unfold readKV
  refine Upto.ite (fun _ => ?_) fun _ => same_repeat L hs
  refine Upto.ite (fun _ => Upto.refl _) fun _ => ?_
  intro s hi hk
  rcases L.borrowR (n * (ek.size + ev.size)) s hi with h1 | ⟨a, s2, h1, h0, h2, h3⟩ | ⟨er, s2, k, h1, _, h2, h3⟩ <;> simp only [Prog.run, h1]
  · exact same_repeat L hs s hi hk
  · rfl

theorem same_readArray {T : Target} {e : Endian} {b : Bool} {el : Elem} {q : M Val} {k n : Nat} (hs : Upto R Inv pend k el.read q) :
    Upto R Inv pend k (readArray T e b el n) (readArray T e b { el with read := q } n) := by
  unfold readArray
  exact Upto.ite (fun _ => Upto.refl _) fun _ => Upto.map L (same_repeat L (.inr hs))

theorem same_readSeq {T : Target} {e : Endian} {kd : SeqKind} {el : Elem} {q : M Val} {k : Nat} {len : Option Nat}
    (hs : len = some 0 ∨ Upto R Inv pend k el.read q) :
    Upto R Inv pend k (readSeq T e kd el len) (readSeq T e kd { el with read := q } len) := by
  cases len with
  | none =>
    have hs : Upto R Inv pend k el.read q := by simpa using hs
    cases kd
    · exact Upto.map L (same_untilEof L hs)
    · exact Upto.map L (same_untilEof L hs)
    · exact Upto.refl _
  | some n =>
    have hs : n = 0 ∨ Upto R Inv pend k el.read q := by simpa using hs
    cases kd
    · exact Upto.map L (same_readVec L hs)
    · exact Upto.map L (same_readCow L hs)
    · exact Upto.refl _

/-- A length which comes from the input: a byte has been consumed, or it is the default for the end of the input. -/
theorem len_prefixed {h : Host} {e : Endian} {lt : LenTy} {b : Bool} {s s' : σ} {a : Option Nat} (hs : Inv s)
    (hr : (readLenR h e (.typed lt b)).run R s = (.ok a, s')) : (pend s').length < (pend s).length ∨ (b = true ∧ a = some 0) := by
  cases b with
  | false => exact .inl (Eats.map L (eats_readLen L lt) s hs a s' hr)
  | true =>
    simp only [readLenR] at hr
    unfold M.map at hr
    rcases hp : (readLen h e lt).run R s with ⟨er | n, s1⟩
    · have : (onEof (readLen h e lt) 0).run R s = ((if er.isEof then (M.pure 0 : M Nat) else M.fail er).run R s1) := by
        unfold onEof; rw [Prog.run_bind, hp]
      by_cases he : er.isEof = true
      · rw [if_pos he] at this
        rw [M.run_bind_ok (a := 0) (s' := s1) (by rw [this]; rfl)] at hr
        simp only [M.pure, Prog.run, Prod.mk.injEq, Except.ok.injEq] at hr
        exact .inr ⟨rfl, hr.1.symm⟩
      · rw [if_neg he] at this
        rw [M.run_bind_err (e := er) (s' := s1) (by rw [this]; rfl)] at hr
        cases hr
    · have : (onEof (readLen h e lt) 0).run R s = (.ok n, s1) := by
        unfold onEof; rw [Prog.run_bind, hp]; rfl
      rw [M.run_bind_ok this] at hr
      simp only [M.pure, Prog.run, Prod.mk.injEq, Except.ok.injEq] at hr
      rw [← hr.2]
      exact .inl (eats_readLen L lt s hs n s1 hp)

/-! ## Types -/

omit L in
theorem cx_prefixed {T : Target} {a : Attrs} (h : a.lenPrefixed = true) (prev : List Val) :
    ∃ lt b, (a.cx T.toHost prev).len = .typed lt b ∧ (a.defaultOnEof = false → b = false) := by
  unfold Attrs.cx Attrs.wcx
  by_cases ho : a.opaqueTy = true
  · rw [if_pos ho]; exact ⟨_, _, rfl, fun _ => rfl⟩
  · rw [if_neg ho]
    unfold Attrs.lenPrefixed at h
    rw [Bool.eq_false_iff.mpr ho, Bool.false_or] at h
    cases hl : a.len with
    | none => exact ⟨_, _, rfl, id⟩
    | some k =>
      rw [hl] at h
      cases k with
      | typed lt => exact ⟨_, _, rfl, id⟩
      | expr f => simp at h
      | untilEof => simp at h

theorem eats_len {T : Target} {e : Endian} {p : Bool} {cx : Cx} (hp : p = true → ∃ lt, cx.len = .typed lt false) (h : p = true) :
    Eats R Inv pend (readLenR T.toHost e cx.len) := by
  obtain ⟨lt, hl⟩ := hp h
  rw [hl]
  exact Eats.map L (eats_readLen L lt)

theorem eats_tag {h : Host} {e : Endian} {d : EnumDesc} (hd : d.peek = false) : Eats R Inv pend (readTag h e d) := by
  unfold readTag
  rw [hd]
  cases d.tagTy
  · exact eats_readNum L (by decide)
  · exact eats_readNum L (by decide)
  · exact eats_readNum L (by decide)
  · exact eats_readNum L (by decide)
  · exact eats_readNum L (by decide)
  · exact eats_readVarint L

mutual
theorem eats_fill {T : Target} {e : Endian} (u : EnumDesc → Ty) : ∀ (t : Ty) (p : Bool) (cx : Cx), (p = true → ∃ lt, cx.len = .typed lt false) →
    consumes p t = true → Eats R Inv pend (decode T e (fill u t) cx)
  | .prim q, _, _, _, _ | .atomic q, _, _, _, _ => by
    simp only [fill, decode]; exact Eats.map L (eats_readNum L (by cases q <;> decide))
  | .nonZero q, _, _, _, _ => by simp only [fill, decode]; exact Eats.bind L (.inl (eats_readNum L (by cases q <;> decide)))
  | .usize, _, _, _, _ | .char, _, _, _, _ | .ipAddr, _, _, _, _ | .endianness, _, _, _, _ => by
    simp only [fill, decode]; exact Eats.bind L (.inl (eats_readNum L (by decide)))
  | .bool, _, _, _, _ => by simp only [fill, decode]; exact Eats.map L (eats_readBool L)
  | .ipv4, _, _, _, _ => by simp only [fill, decode]; exact Eats.map L (eats_readNum L (by decide))
  | .ipv6, _, _, _, _ => by simp only [fill, decode]; exact Eats.map L (eats_readBytes L (by decide))
  | .uuid, _, _, _, _ => by simp only [fill, decode]; exact Eats.map L (eats_readBytes L (by decide))
  | .duration, _, _, _, _ => by
    simp only [fill, decode]; exact Eats.map L (Eats.bind L (.inl (eats_readNum L (by decide))))
  | .systemTime, _, _, _, _ => by
    simp only [fill, decode]; exact Eats.bind L (.inl (Eats.bind L (.inl (eats_readNum L (by decide)))))
  | .varint64, _, _, _, _ => by simp only [fill, decode]; exact Eats.map L (eats_readVarint L)
  | .str k, p, cx, hp, h => by
    simp only [consumes] at h
    simp only [fill, decode]; exact Eats.bind L (.inl (eats_len L hp h))
  | .seq k t, p, cx, hp, h => by
    simp only [consumes] at h
    simp only [fill, decode]
    exact Eats.ite (fun _ => Eats.fail) fun _ => Eats.bind L (.inl (eats_len L hp h))
  | .set t, p, cx, hp, h => by
    simp only [consumes] at h
    simp only [fill, decode]; exact Eats.bind L (.inl (eats_len L hp h))
  | .map k v, p, cx, hp, h => by
    simp only [consumes] at h
    simp only [fill, decode]; exact Eats.bind L (.inl (eats_len L hp h))
  | .array n t, p, cx, hp, h => by
    cases t <;> simp only [consumes, Bool.false_eq_true] at h
    rename_i q
    simp only [bne_iff_ne, ne_eq] at h
    simp only [fill, decode, readArray]
    refine Eats.ite (fun _ => ?_) fun _ => Eats.map L ?_
    · refine Eats.bind L (.inl (eats_readBytes L ?_))
      simp only [elemOf, sizeOf]
      refine Nat.mul_ne_zero h ?_
      cases q <;> decide
    · cases n with
      | zero => exact absurd rfl h
      | succ n => exact Eats.bind L (.inl (Eats.map L (eats_readNum L (by cases q <;> decide))))
  | .refArray n t, _, _, _, h => by simp [consumes] at h
  | .unit, _, _, _, h => by simp [consumes] at h
  | .option t, p, cx, hp, h => by simp only [fill, decode]; exact Eats.bind L (.inl (eats_readBool L))
  | .result a b, p, cx, hp, h => by simp only [fill, decode]; exact Eats.bind L (.inl (eats_readBool L))
  | .range t, p, cx, hp, h => by
    simp only [consumes] at h
    simp only [fill, decode]; exact Eats.bind L (.inl (eats_fill u t true Cx.std (fun _ => ⟨_, rfl⟩) h))
  | .rangeInc t, p, cx, hp, h => by
    simp only [consumes] at h
    simp only [fill, decode]; exact Eats.bind L (.inl (eats_fill u t true Cx.std (fun _ => ⟨_, rfl⟩) h))
  | .box t, p, cx, hp, h => by
    simp only [consumes] at h
    simp only [fill, decode]; exact eats_fill u t true Cx.std (fun _ => ⟨_, rfl⟩) h
  | .via c t, p, cx, hp, h => by
    simp only [consumes] at h
    simp only [fill, decode]; exact Eats.bind L (.inl (eats_fill u t true Cx.std (fun _ => ⟨_, rfl⟩) h))
  | .pair a b, p, cx, hp, h => by
    simp only [consumes, Bool.or_eq_true] at h
    simp only [fill, decode]
    rcases h with h | h
    · exact Eats.bind L (.inl (eats_fill u a true Cx.std (fun _ => ⟨_, rfl⟩) h))
    · exact Eats.bind L (.inr fun _ => Eats.bind L (.inl (eats_fill u b true Cx.std (fun _ => ⟨_, rfl⟩) h)))
  | .struct d fs, p, cx, hp, h => by
    simp only [consumes] at h
    simp only [fill, decode]; exact eats_fillFields u fs [] h
  | .enum d .nil, p, cx, hp, h => by simp [consumes] at h
  | .enum d (.cons tag fs vs), p, cx, hp, h => by
    simp only [consumes, Bool.or_eq_true, Bool.not_eq_true', Bool.and_eq_true] at h
    simp only [fill, decode]
    rcases h with h | h
    · exact Eats.bind L (.inl (eats_tag L h))
    · refine Eats.bind L (.inr fun x => ?_)
      exact eats_fillVariants u (.cons tag fs vs) x 0 (by simp only [consumesVariants, Bool.and_eq_true]; exact h)
theorem eats_fillFields {T : Target} {e : Endian} (u : EnumDesc → Ty) : ∀ (fs : Fields) (prev : List Val), consumesFields fs = true →
    Eats R Inv pend (decodeFields T e (fillFields u fs) prev)
  | .nil, _, h => by simp [consumesFields] at h
  | .cons a t fs, prev, h => by
    simp only [consumesFields, Bool.or_eq_true, Bool.and_eq_true] at h
    simp only [fillFields, decodeFields]
    by_cases hs : a.skip = true
    · rw [if_pos hs]
      refine Eats.map L (eats_fillFields u fs prev ?_)
      rcases h with h | h
      · rw [hs] at h; simp at h
      · exact h
    · rw [if_neg hs]
      rcases h with ⟨⟨_, hd⟩, h⟩ | h
      · have hd : a.defaultOnEof = false := by simpa using hd
        rw [hd, if_neg Bool.false_ne_true]
        refine Eats.bind L (.inl ?_)
        by_cases hv : a.varint = true
        · rw [if_pos hv]
          refine Eats.ite (fun _ => Eats.map L (eats_readVarint L)) fun _ => ?_
          exact Eats.bind L (.inr fun _ => Eats.map L (eats_readVarint L))
        · rw [if_neg hv]
          refine Eats.ite (fun he => ?_) fun he => ?_
          · rcases h with (h | h) | h
            · exact absurd h hv
            · simp [he] at h
            · refine eats_fill u t a.lenPrefixed _ ?_ h
              intro hp
              obtain ⟨lt, b, h1, h2⟩ := cx_prefixed (T := T) hp prev
              exact ⟨lt, by rw [h1, h2 hd]⟩
          · refine Eats.bind L (.inl (eats_readConstant L ?_))
            intro hn
            rw [hn] at he
            exact he rfl
      · exact Eats.bind L (.inr fun v => Eats.map L (eats_fillFields u fs _ h))
theorem eats_fillVariants {T : Target} {e : Endian} (u : EnumDesc → Ty) : ∀ (vs : Variants) (x i : Nat), consumesVariants vs = true →
    Eats R Inv pend (decodeVariants T e (fillVariants u vs) x i)
  | .nil, _, _, _ => by simp only [fillVariants, decodeVariants]; exact Eats.fail
  | .cons tag fs vs, x, i, h => by
    simp only [consumesVariants, Bool.and_eq_true] at h
    simp only [fillVariants, decodeVariants]
    exact Eats.ite (fun _ => Eats.map L (eats_fillFields u fs [] h.1)) fun _ => eats_fillVariants u vs x (i + 1) h.2
end

theorem eats_own {T : Target} {e : Endian} (u : EnumDesc → Ty) (a : Attrs) (t : Ty) (prev : List Val) (hd : a.defaultOnEof = false)
    (h : (a.varint || !a.pre.isEmpty || consumes a.lenPrefixed t) = true) : Eats R Inv pend
      (if a.pre.isEmpty then (if a.varint then M.map .num (readVarint T.toHost e) else decode T e (fill u t) (a.cx T.toHost prev))
        else M.bind (readConstant T.toHost e (u8Elem T e) a.pre) fun _ =>
          if a.varint then M.map .num (readVarint T.toHost e) else decode T e (fill u t) (a.cx T.toHost prev)) := by
  simp only [Bool.or_eq_true] at h
  refine Eats.ite (fun he => ?_) fun he => ?_
  · refine Eats.ite (fun _ => Eats.map L (eats_readVarint L)) fun hv => ?_
    rcases h with (h | h) | h
    · exact absurd h hv
    · simp [he] at h
    · refine eats_fill L u t a.lenPrefixed _ ?_ h
      intro hp
      obtain ⟨lt, b, h1, h2⟩ := cx_prefixed (T := T) hp prev
      exact ⟨lt, by rw [h1, h2 hd]⟩
  · refine Eats.bind L (.inl (eats_readConstant L ?_))
    intro hn
    rw [hn] at he
    exact he rfl

/-- The calls of itself do the same with `k` bytes left; or with less, if they are late. -/
def Calls (R : ReaderOps σ) (Inv : σ → Prop) (pend : σ → Bytes) (T : Target) (e : Endian) (u u' : EnumDesc → Ty) (k : Nat) (b : Bool) : Prop :=
  (∀ d cx, Upto R Inv pend k (decode T e (u d) cx) (decode T e (u' d) cx)) ∨
  (b = true ∧ ∀ j, j < k → ∀ d cx, Upto R Inv pend j (decode T e (u d) cx) (decode T e (u' d) cx))

section
variable {T : Target} {e : Endian} {u u' : EnumDesc → Ty}

omit L in
theorem Calls.weaken {k : Nat} {b b' : Bool} (h : Calls R Inv pend T e u u' k b) (hb : b = true → b' = true) : Calls R Inv pend T e u u' k b' :=
  h.imp id fun h => ⟨hb h.1, h.2⟩

omit L in
theorem Calls.le {k j : Nat} {b : Bool} (h : Calls R Inv pend T e u u' k b) (hj : j ≤ k) : Calls R Inv pend T e u u' j b :=
  h.imp (fun h d cx => (h d cx).less hj) fun h => ⟨h.1, fun i hi => h.2 i (by omega)⟩

omit L in
theorem Calls.lt {k j : Nat} {b b' : Bool} (h : Calls R Inv pend T e u u' k b) (hj : j < k) : Calls R Inv pend T e u u' j b' := by
  rcases h with h | h
  · exact .inl fun d cx => (h d cx).less (by omega)
  · exact .inl (h.2 j hj)

omit L in
/-- After something which is late, and perhaps consumes. -/
theorem Calls.next {k j : Nat} {b c l : Bool} (h : Calls R Inv pend T e u u' k (b && (c || l))) (hj : j ≤ k) (hc : c = true → j < k) :
    Calls R Inv pend T e u u' j l := by
  cases c with
  | true => exact h.lt (hc rfl)
  | false => exact (h.weaken (by simp)).le hj

variable (hB : Blind T) (hA : ∀ d, Likewise T (u d) (u' d))
include hB hA

mutual
theorem same_fill : ∀ (t : Ty) (k : Nat) (p : Bool) (cx : Cx), (p = true → ∃ lt b, cx.len = .typed lt b) → Calls R Inv pend T e u u' k (late p t) →
    Upto R Inv pend k (decode T e (fill u t) cx) (decode T e (fill u' t) cx)
  | .prim _, _, _, _, _, _ | .usize, _, _, _, _, _ | .bool, _, _, _, _, _ | .char, _, _, _, _, _ | .nonZero _, _, _, _, _, _ | .atomic _, _, _, _, _, _
  | .ipv4, _, _, _, _, _ | .ipv6, _, _, _, _, _ | .ipAddr, _, _, _, _, _ | .duration, _, _, _, _, _ | .systemTime, _, _, _, _, _ | .endianness, _, _, _, _, _
  | .varint64, _, _, _, _, _ | .uuid, _, _, _, _, _ | .str _, _, _, _, _, _ | .unit, _, _, _, _, _ => by simp only [fill]; exact Upto.refl _
  | .seq kd t, k, p, cx, hp, h => by
    simp only [fill, decode]
    rw [size_fill hB (fun d => (hA d).shape) t]
    refine Upto.ite (fun _ => Upto.refl _) fun _ => ?_
    rw [elem_fill hB hA t (decode T e (fill u t) Cx.std) (decode T e (fill u' t) Cx.std)]
    cases p with
    | true =>
      obtain ⟨lt, b, hl⟩ := hp rfl
      rw [hl]
      refine Upto.after L (Q := fun a j => j < k ∨ a = some 0) ?_ ?_
      · intro s hs a s' hk hr
        rcases len_prefixed L hs hr with hq | hq
        · exact .inl (by omega)
        · exact .inr hq.2
      · intro a j hj hq
        refine same_readSeq L ?_
        rcases hq with hq | hq
        · exact .inr (same_fill t j true Cx.std (fun _ => ⟨_, _, rfl⟩) (h.lt hq))
        · exact .inl hq
    | false =>
      simp only [late, Bool.false_or] at h
      refine Upto.bind L (Upto.refl _) fun a j hj _ => ?_
      exact same_readSeq L (.inr (same_fill t j true Cx.std (fun _ => ⟨_, _, rfl⟩) (h.le hj)))
  | .set t, k, p, cx, hp, h => by
    simp only [fill, decode]
    rw [elem_fill hB hA t (decode T e (fill u t) Cx.std) (decode T e (fill u' t) Cx.std)]
    cases p with
    | true =>
      obtain ⟨lt, b, hl⟩ := hp rfl
      rw [hl]
      refine Upto.after L (Q := fun a j => j < k ∨ a = some 0) ?_ ?_
      · intro s hs a s' hk hr
        rcases len_prefixed L hs hr with hq | hq
        · exact .inl (by omega)
        · exact .inr hq.2
      · intro a j hj hq
        cases a with
        | none =>
          have hq : j < k := by simpa using hq
          exact Upto.map L (same_untilEof L (same_fill t j true Cx.std (fun _ => ⟨_, _, rfl⟩) (h.lt hq)))
        | some n =>
          refine Upto.map L (same_readCollection L ?_)
          rcases hq with hq | hq
          · exact .inr (same_fill t j true Cx.std (fun _ => ⟨_, _, rfl⟩) (h.lt hq))
          · exact .inl (by simpa using hq)
    | false =>
      simp only [late, Bool.false_or] at h
      refine Upto.bind L (Upto.refl _) fun a j hj _ => ?_
      have ht := same_fill t j true Cx.std (fun _ => ⟨_, _, rfl⟩) (h.le hj)
      cases a with
      | none => exact Upto.map L (same_untilEof L ht)
      | some n => exact Upto.map L (same_readCollection L (.inr ht))
  | .map a b, k, p, cx, hp, h => by
    simp only [fill, decode]
    rw [elem_fill hB hA a (decode T e (fill u a) Cx.std) (decode T e (fill u' a) Cx.std),
      elem_fill hB hA b (decode T e (fill u b) Cx.std) (decode T e (fill u' b) Cx.std)]
    have hpair : ∀ j, Calls R Inv pend T e u u' j (late true a && (consumes true a || late true b)) →
        Upto R Inv pend j (readPair (elemOf T (fill u a) (decode T e (fill u a) Cx.std)) (elemOf T (fill u b) (decode T e (fill u b) Cx.std)))
          (readPair { elemOf T (fill u a) (decode T e (fill u a) Cx.std) with read := decode T e (fill u' a) Cx.std }
            { elemOf T (fill u b) (decode T e (fill u b) Cx.std) with read := decode T e (fill u' b) Cx.std }) := by
      intro j hj
      refine Upto.bind L (same_fill a j true Cx.std (fun _ => ⟨_, _, rfl⟩) (hj.weaken (by simp +contextual))) fun x i hi he => ?_
      refine Upto.bind L (same_fill b i true Cx.std (fun _ => ⟨_, _, rfl⟩) (Calls.next hj hi fun hc => ?_)) fun _ _ _ _ => Upto.refl _
      exact he (eats_fill L u a true Cx.std (fun _ => ⟨_, rfl⟩) hc)
    cases p with
    | true =>
      obtain ⟨lt, b', hl⟩ := hp rfl
      rw [hl]
      refine Upto.after L (Q := fun a j => j < k ∨ a = some 0) ?_ ?_
      · intro s hs a s' hk hr
        rcases len_prefixed L hs hr with hq | hq
        · exact .inl (by omega)
        · exact .inr hq.2
      · intro x j hj hq
        cases x with
        | none =>
          have hq : j < k := by simpa using hq
          exact Upto.map L (same_untilEof L (hpair j (h.lt hq)))
        | some n =>
          refine Upto.map L (same_readKV L ?_)
          rcases hq with hq | hq
          · exact .inr (hpair j (h.lt hq))
          · exact .inl (by simpa using hq)
    | false =>
      simp only [late, Bool.false_or] at h
      refine Upto.bind L (Upto.refl _) fun x j hj _ => ?_
      cases x with
      | none => exact Upto.map L (same_untilEof L (hpair j (h.le hj)))
      | some n => exact Upto.map L (same_readKV L (.inr (hpair j (h.le hj))))
  | .array n t, k, p, cx, hp, h => by
    simp only [late] at h
    simp only [fill, decode]
    rw [elem_fill hB hA t (decode T e (fill u t) Cx.std) (decode T e (fill u' t) Cx.std)]
    exact same_readArray L (same_fill t k true Cx.std (fun _ => ⟨_, _, rfl⟩) h)
  | .refArray n t, k, p, cx, hp, h => by
    have he := erase_fill (fun d => (hA d).shape) t
    have ho : ofMem T (fill u t) = ofMem T (fill u' t) := by
      funext bs; rw [ofMem_erase hB, he, ← ofMem_erase hB]
    simp only [fill, decode]
    rw [size_fill hB (fun d => (hA d).shape) t, ho]
    exact Upto.refl _
  | .option t, k, p, cx, hp, h => by
    simp only [fill, decode]
    have ho : cx.opt (fill u t) = cx.opt (fill u' t) := by
      rw [opt_erase, erase_fill (fun d => (hA d).shape) t, ← opt_erase]
    rw [ho]
    refine Upto.bind L (Upto.refl _) fun a j hj he => ?_
    have hlt := he (eats_readBool L)
    exact Upto.ite (fun _ => Upto.map L (same_fill t j false _ (fun hf => by cases hf) (h.lt hlt))) fun _ => Upto.refl _
  | .result a b, k, p, cx, hp, h => by
    simp only [fill, decode]
    refine Upto.bind L (Upto.refl _) fun x j hj he => ?_
    have hlt := he (eats_readBool L)
    exact Upto.ite (fun _ => Upto.map L (same_fill a j false _ (fun hf => by cases hf) (h.lt hlt)))
      fun _ => Upto.map L (same_fill b j false _ (fun hf => by cases hf) (h.lt hlt))
  | .range t, k, p, cx, hp, h => by
    simp only [late] at h
    simp only [fill, decode]
    refine Upto.bind L (same_fill t k true Cx.std (fun _ => ⟨_, _, rfl⟩) h) fun _ j hj _ => ?_
    exact Upto.bind L (same_fill t j true Cx.std (fun _ => ⟨_, _, rfl⟩) (h.le hj)) fun _ _ _ _ => Upto.refl _
  | .rangeInc t, k, p, cx, hp, h => by
    simp only [late] at h
    simp only [fill, decode]
    refine Upto.bind L (same_fill t k true Cx.std (fun _ => ⟨_, _, rfl⟩) h) fun _ j hj _ => ?_
    exact Upto.bind L (same_fill t j true Cx.std (fun _ => ⟨_, _, rfl⟩) (h.le hj)) fun _ _ _ _ => Upto.refl _
  | .box t, k, p, cx, hp, h => by
    simp only [late] at h
    simp only [fill, decode]
    exact same_fill t k true Cx.std (fun _ => ⟨_, _, rfl⟩) h
  | .via c t, k, p, cx, hp, h => by
    simp only [late] at h
    simp only [fill, decode]
    exact Upto.bind L (same_fill t k true Cx.std (fun _ => ⟨_, _, rfl⟩) h) fun _ _ _ _ => Upto.refl _
  | .pair a b, k, p, cx, hp, h => by
    simp only [late] at h
    simp only [fill, decode]
    refine Upto.bind L (same_fill a k true Cx.std (fun _ => ⟨_, _, rfl⟩) (h.weaken (by simp +contextual))) fun _ j hj he => ?_
    refine Upto.bind L (same_fill b j true Cx.std (fun _ => ⟨_, _, rfl⟩) (Calls.next h hj fun hc => ?_)) fun _ _ _ _ => Upto.refl _
    exact he (eats_fill L u a true Cx.std (fun _ => ⟨_, rfl⟩) hc)
  | .struct d fs, k, p, cx, hp, h => by
    simp only [late] at h
    simp only [fill, decode]
    exact same_fillFields fs k [] h
  | .enum d .nil, k, p, cx, hp, h => by
    simp only [fill]
    rcases h with h | h
    · exact h d cx
    · simp [late] at h
  | .enum d (.cons tag fs vs), k, p, cx, hp, h => by
    simp only [fill, decode]
    refine Upto.bind L (Upto.refl _) fun x j hj he => ?_
    refine same_fillVariants (.cons tag fs vs) j x 0 ?_
    cases hd : d.peek with
    | false => exact h.lt (he (eats_tag L hd))
    | true =>
      refine (h.weaken ?_).le hj
      simp [late, hd, lateVariants]
theorem same_fillFields : ∀ (fs : Fields) (k : Nat) (prev : List Val), Calls R Inv pend T e u u' k (lateFields fs) →
    Upto R Inv pend k (decodeFields T e (fillFields u fs) prev) (decodeFields T e (fillFields u' fs) prev)
  | .nil, k, prev, h => by simp only [fillFields]; exact Upto.refl _
  | .cons a t fs, k, prev, h => by
    simp only [fillFields, decodeFields]
    by_cases hs : a.skip = true
    · simp only [lateFields, if_pos hs] at h
      rw [if_pos hs, if_pos hs]
      exact Upto.map L (same_fillFields fs k prev h)
    · simp only [lateFields, if_neg hs] at h
      rw [if_neg hs, if_neg hs]
      have hrest : ∀ j, j ≤ k → ((!a.defaultOnEof && (a.varint || !a.pre.isEmpty || consumes a.lenPrefixed t)) = true → j < k) → ∀ v,
          Upto R Inv pend j (M.map (Val.pair v) (decodeFields T e (fillFields u fs) (prev ++ [v])))
            (M.map (Val.pair v) (decodeFields T e (fillFields u' fs) (prev ++ [v]))) :=
        fun j hj hc v => Upto.map L (same_fillFields fs j _ (Calls.next h hj hc))
      have hown : Upto R Inv pend k
          (if a.pre.isEmpty then (if a.varint then M.map .num (readVarint T.toHost e) else decode T e (fill u t) (a.cx T.toHost prev))
            else M.bind (readConstant T.toHost e (u8Elem T e) a.pre) fun _ =>
              if a.varint then M.map .num (readVarint T.toHost e) else decode T e (fill u t) (a.cx T.toHost prev))
          (if a.pre.isEmpty then (if a.varint then M.map .num (readVarint T.toHost e) else decode T e (fill u' t) (a.cx T.toHost prev))
            else M.bind (readConstant T.toHost e (u8Elem T e) a.pre) fun _ =>
              if a.varint then M.map .num (readVarint T.toHost e) else decode T e (fill u' t) (a.cx T.toHost prev)) := by
        have hcx : a.lenPrefixed = true → ∃ lt b, (a.cx T.toHost prev).len = .typed lt b := fun hp =>
          (cx_prefixed (T := T) hp prev).imp fun _ => Exists.imp fun _ h => h.1
        refine Upto.ite (fun hpre => ?_) fun hpre => ?_
        · refine Upto.ite (fun _ => Upto.refl _) fun hv => ?_
          refine same_fill t k a.lenPrefixed _ hcx (h.weaken ?_)
          simp only [hpre, Bool.eq_false_iff.mpr hv, Bool.not_true, Bool.false_or, Bool.and_eq_true, and_imp]
          exact fun h _ => h
        · refine Upto.bind L (Upto.refl _) fun _ j hj he => ?_
          refine Upto.ite (fun _ => Upto.refl _) fun hv => ?_
          refine same_fill t j a.lenPrefixed _ hcx (h.lt (he (eats_readConstant L ?_)))
          intro hn
          rw [hn] at hpre
          exact hpre rfl
      by_cases hd : a.defaultOnEof = true
      · rw [if_pos hd, if_pos hd]
        refine Upto.bind L (Upto.onEof L hown) fun v j hj _ => hrest j hj (fun hc => ?_) v
        rw [hd] at hc
        simp at hc
      · rw [if_neg hd, if_neg hd]
        refine Upto.bind L hown fun v j hj he => hrest j hj (fun hc => he ?_) v
        have hd : a.defaultOnEof = false := by simpa using hd
        exact eats_own L u a t prev hd (by simpa [hd] using hc)
theorem same_fillVariants : ∀ (vs : Variants) (k x i : Nat), Calls R Inv pend T e u u' k (lateVariants vs) →
    Upto R Inv pend k (decodeVariants T e (fillVariants u vs) x i) (decodeVariants T e (fillVariants u' vs) x i)
  | .nil, k, x, i, h => by simp only [fillVariants]; exact Upto.refl _
  | .cons tag fs vs, k, x, i, h => by
    simp only [lateVariants] at h
    simp only [fillVariants, decodeVariants]
    exact Upto.ite (fun _ => Upto.map L (same_fillFields fs k [] (h.weaken (by simp +contextual))))
      fun _ => same_fillVariants vs k x (i + 1) (h.weaken (by simp +contextual))
end

end

/-! ## C76 -/

/-- What is required of recursive types: they are behind pointers (otherwise they would be infinitely large), computing their minimum size ends, and they
are read only after a byte has been consumed. -/
structure Ending (c : EnumDesc → Ty) : Prop where
  guarded : ∀ d, guarded (c d) = true
  min : ∀ d, minEnds (c d) = true
  late : ∀ d p, late p (c d) = true

/-- **C76**, except for the types excluded by `Ending` (see `C76_false_peek`, `C76_false_rest`): from an input of `k` bytes (also from a stream which fails at some time) the calls of the functions of recursive types are nested at most
`k + 2` deep: with any types in place of themselves further down the result is the same. -/
theorem C76_ends_partial {T : Target} {e : Endian} (hB : Blind T) {c : EnumDesc → Ty} (hK : Ending c) (b b' : EnumDesc → Ty) {s : σ} (hs : Inv s)
    {n m : Nat} (hn : (pend s).length + 2 ≤ n) (hm : (pend s).length + 2 ≤ m) (d : EnumDesc) (cx : Cx) :
    (decode T e (deep c b n d) cx).run R s = (decode T e (deep c b' m d) cx).run R s := by
  have key : ∀ k n m, k + 2 ≤ n → k + 2 ≤ m → ∀ d cx, Upto R Inv pend k (decode T e (deep c b n d) cx) (decode T e (deep c b' m d) cx) := by
    intro k
    induction k using Nat.strongRecOn with
    | ind k ih =>
      intro n m hn hm d cx
      obtain ⟨n, rfl⟩ : ∃ n', n = n' + 2 := ⟨n - 2, by omega⟩
      obtain ⟨m, rfl⟩ : ∃ m', m = m' + 2 := ⟨m - 2, by omega⟩
      refine same_fill L hB (u := deep c b (n + 1)) (u' := deep c b' (m + 1)) (fun d => ⟨?_, ?_⟩) (c d) k false cx (by simp) (.inr ⟨hK.late d _, ?_⟩)
      · exact erase_guarded _ _ (c d) (hK.guarded d)
      · exact min_fill hB _ _ (c d) (hK.min d)
      · intro j hj
        exact ih j hj (n + 1) (m + 1) (by omega) (by omega)
  exact key _ n m hn hm d cx s hs (Nat.le_refl _)

end

/-- In terms of the unrollings of C44. -/
theorem C76_unroll_partial {σ : Type} {exact : Bool} {R : ReaderOps σ} {Inv : σ → Prop} {pend : σ → Bytes} (L : Orderly exact R Inv pend)
    {T : Target} {e : Endian} (hB : Blind T) {c : EnumDesc → Ty} (hK : Ending c) {s : σ} (hs : Inv s)
    {n : Nat} (hn : (pend s).length + 2 ≤ n) (d : EnumDesc) (cx : Cx) :
    (decode T e (unroll c n d) cx).run R s = (decode T e (unroll c ((pend s).length + 2) d) cx).run R s := by
  rw [← deep_unroll, ← deep_unroll]
  exact C76_ends_partial L hB hK _ _ hs hn (Nat.le_refl _) d cx

/-! ## Examples -/

/-- The conditions for a group of types can be decided. -/
theorem group_ending {t : Ty} {ts : List Ty} (h : (t :: ts).all (fun x => guarded x && minEnds x && late true x && late false x) = true) :
    Ending (group t ts) := by
  have key : ∀ d, _ := fun d => List.all_eq_true.mp h _ (group_mem t ts d)
  simp only [Bool.and_eq_true] at key
  exact ⟨fun d => (key d).1.1.1, fun d => (key d).1.1.2, fun d p => by cases p; exact (key d).2; exact (key d).1.2⟩

theorem alone_ending {c : Ty} (h : (guarded c && minEnds c && late true c && late false c) = true) : Ending (alone c) := by
  rw [alone_group]
  exact group_ending (by simpa using h)

open Samples

example : Ending (alone treeT) ∧ Ending (alone listT) ∧ Ending (alone exprT) :=
  ⟨alone_ending (by decide), alone_ending (by decide), alone_ending (by decide)⟩

/-- Eight bytes which claim trees within trees: the calls are nested at most ten deep, whatever is further down. -/
example (b : EnumDesc → Ty) (e : Endian) (n : Nat) : (decode x64 e (deep (alone treeT) b (n + 10) self) Cx.std).run (bufferReader x64.toHost)
      (BufSt.init 4096 [1, 0, 0, 0, 1, 0, 0, 0]) =
    (decode x64 e (unroll (alone treeT) 10 self) Cx.std).run (bufferReader x64.toHost) (BufSt.init 4096 [1, 0, 0, 0, 1, 0, 0, 0]) := by
  rw [← deep_unroll]
  exact C76_ends_partial (bufferReader_orderly _) x64_blind (alone_ending (by decide)) _ _ (BufSt.init_inv (by decide)) (by simp [BufSt.init, BufSt.pend])
    (by simp [BufSt.init, BufSt.pend]) _ _

/-! ## There is no limit but the input -/

section
variable {σ : Type} {R : ReaderOps σ} {Inv : σ → Prop} {pend : σ → Bytes} (L : Lawful R Inv pend)
include L

theorem run_byte {h : Host} {e : Endian} {s : σ} (hs : Inv s) {x : UInt8} {rest : Bytes} (hp : pend s = x :: rest) :
    ∃ s', (readNum h e 1).run R s = (.ok x.toNat, s') ∧ Inv s' ∧ pend s' = rest := by
  obtain ⟨s', h1, h2, h3⟩ := L.read_ok 1 s hs (by rw [hp]; simp)
  refine ⟨s', ?_, h2, by rw [h3, hp]; rfl⟩
  have hc : R.canRead 1 s ≠ some false := by
    rcases L.canRead 1 s hs with h | h <;> rw [h]
    · simp
    · rw [hp]; simp
  have h4 : e.num [x] = x.toNat := by cases e <;> simp [Endian.num, ofLe]
  have h5 := conv_num h e [x]
  simp only [readNum, Prog.run, if_neg hc, h1, hp, M.pure, List.take_succ_cons, List.take_zero]
  rw [← h4, ← h5]
  rfl

theorem run_peekByte {h : Host} {e : Endian} {s : σ} (hs : Inv s) {x : UInt8} {rest : Bytes} (hp : pend s = x :: rest) :
    ∃ s', (peekNum h e 1).run R s = (.ok x.toNat, s') ∧ Inv s' ∧ pend s' = x :: rest := by
  obtain ⟨s', h1, h2, h3⟩ := L.peek_ok 1 s hs (by rw [hp]; simp)
  refine ⟨s', ?_, h2, h3.trans hp⟩
  have hc : R.canRead 1 s ≠ some false := by
    rcases L.canRead 1 s hs with h | h <;> rw [h]
    · simp
    · rw [hp]; simp
  have h4 : e.num [x] = x.toNat := by cases e <;> simp [Endian.num, ofLe]
  have h5 := conv_num h e [x]
  simp only [peekNum, Prog.run, if_neg hc, h1, hp, M.pure, List.take_succ_cons, List.take_zero]
  rw [← h4, ← h5]
  rfl

/-- A byte and the flag of the option, then the rest of the list. -/
theorem run_list {T : Target} {e : Endian} {u : EnumDesc → Ty} {s : σ} (hs : Inv s) {x : UInt8} {rest : Bytes} (hp : pend s = x :: 1 :: rest) :
    ∃ s', Inv s' ∧ pend s' = rest ∧
      (∀ er s2, (decode T e (u self) Cx.std).run R s' = (.error er, s2) → ∀ cx, (decode T e (fill u listT) cx).run R s = (.error er, s2)) ∧
      (∀ v s2, (decode T e (u self) Cx.std).run R s' = (.ok v, s2) → ∀ cx, ∃ w, (decode T e (fill u listT) cx).run R s = (.ok w, s2)) := by
  obtain ⟨s1, h1, h2, h3⟩ := run_byte L (h := T.toHost) (e := e) hs hp
  obtain ⟨s2, h4, h5, h6⟩ := run_byte L (h := T.toHost) (e := e) h2 h3
  have ha : (M.map Val.num (readNum T.toHost e Prim.u8.size)).run R s = (.ok (.num x.toNat), s1) := M.run_bind_ok h1
  have hb : (readBool T.toHost e).run R s1 = (.ok true, s2) := M.run_bind_ok h4
  refine ⟨s2, h5, h6, ?_, ?_⟩
  · intro er s3 hr cx
    simp only [listT, hole, fill, fillFields, decode, decodeFields, Bool.false_eq_true, if_false, List.isEmpty_nil, if_true]
    rw [M.run_bind_ok ha]
    refine M.run_bind_err (M.run_bind_err ?_)
    rw [M.run_bind_ok hb, if_pos rfl]
    exact M.run_bind_err hr
  · intro v s3 hr cx
    refine ⟨.pair (.num x.toNat) (.pair (.some v) .unit), ?_⟩
    simp only [listT, hole, fill, fillFields, decode, decodeFields, Bool.false_eq_true, if_false, List.isEmpty_nil, if_true]
    rw [M.run_bind_ok ha]
    refine M.run_map_ok (a := Val.pair (.some v) .unit) (s' := s3) ?_
    refine M.run_bind_ok (a := Val.some v) (s' := s3) ?_
    rw [M.run_bind_ok hb, if_pos rfl]
    exact M.run_bind_ok hr

/-- `2 * n` bytes: the beginning of a list with more than `n` elements. -/
def chain : Nat → Bytes
  | 0 => []
  | n + 1 => 7 :: 1 :: chain n

omit L in
theorem chain_length : ∀ n, (chain n).length = 2 * n
  | 0 => rfl
  | n + 1 => by simp only [chain, List.length_cons, chain_length n]; omega

/-- **C76**, the depth grows with the input: the library has no limit of its own.  With `2 * n` bytes the functions for `List` call each other `n` levels deep: what is there decides
about the result. -/
theorem C76_no_limit {T : Target} {e : Endian} : ∀ (n : Nat) (s : σ), Inv s → pend s = chain n → ∀ cx,
    (∃ v, ((decode T e (deep (alone listT) (fun _ => .unit) n self) cx).run R s).1 = .ok v) ∧
    (∃ er, ((decode T e (deep (alone listT) (fun _ => .prim .u8) n self) cx).run R s).1 = .error er)
  | 0, s, hs, hp, cx => by
    refine ⟨⟨.unit, rfl⟩, ?_⟩
    simp only [deep, decode]
    rcases hr : (M.map Val.num (readNum T.toHost e Prim.u8.size)).run R s with ⟨er | v, s'⟩
    · exact ⟨er, rfl⟩
    · have := Eats.map (L.orderly (exact := false) (fun h => by cases h)) (f := Val.num)
        (eats_readNum (L.orderly (exact := false) (fun h => by cases h)) (h := T.toHost) (e := e) (n := 1) (by decide)) s hs v s' hr
      rw [hp] at this
      simp [chain] at this
  | n + 1, s, hs, hp, cx => by
    constructor
    · obtain ⟨s', h1, h2, _, h3⟩ := run_list L (T := T) (e := e) (u := deep (alone listT) (fun _ => .unit) n) hs hp
      obtain ⟨v, hv⟩ := (C76_no_limit n s' h1 h2 Cx.std).1
      obtain ⟨w, hw⟩ := h3 v _ (Prod.ext hv rfl) cx
      exact ⟨w, congrArg Prod.fst hw⟩
    · obtain ⟨s', h1, h2, h3, _⟩ := run_list L (T := T) (e := e) (u := deep (alone listT) (fun _ => .prim .u8) n) hs hp
      obtain ⟨er, hv⟩ := (C76_no_limit n s' h1 h2 Cx.std).2
      exact ⟨er, congrArg Prod.fst (h3 er _ (Prod.ext hv rfl) cx)⟩

/-- `#[speedy(peek_tag, tag_type = u8)] enum Peeked { #[speedy(tag = 0)] Again(Box<Peeked>), #[speedy(tag = 1)] Byte(u8) }` -/
def peekedT : Ty := .enum ⟨.u8, true, 0⟩ (.cons 0 (.cons {} (.box hole) .nil) (.cons 1 (.cons {} (.prim .u8) .nil) .nil))

/-- **C76 is false** with `peek_tag` for a variant which begins with the type itself: nothing is consumed before the function calls itself, so that an input which begins with
the tag (one byte) nests the calls deeper than any depth `n`. -/
theorem C76_false_peek {T : Target} {e : Endian} {rest : Bytes} : ∀ (n : Nat) (s : σ), Inv s → pend s = 0 :: rest → ∀ cx,
    (∃ v, ((decode T e (deep (alone peekedT) (fun _ => .unit) n self) cx).run R s).1 = .ok v) ∧
    ((decode T e (deep (alone peekedT) (fun _ => hole) n self) cx).run R s).1 = .error .invalidEnumVariant
  | 0, s, hs, hp, cx => by
    refine ⟨⟨.unit, rfl⟩, ?_⟩
    obtain ⟨s1, h1, _⟩ := run_byte L (h := T.toHost) (e := e) hs hp
    simp only [deep, hole, decode]
    exact congrArg Prod.fst (M.run_bind_ok h1)
  | n + 1, s, hs, hp, cx => by
    obtain ⟨s1, h1, h2, h3⟩ := run_peekByte L (h := T.toHost) (e := e) hs hp
    have ih := C76_false_peek (T := T) (e := e) n s1 h2 h3 Cx.std
    have h1 : (readTag T.toHost e ⟨.u8, true, 0⟩).run R s = (.ok 0, s1) := h1
    constructor
    · obtain ⟨v, hv⟩ := ih.1
      refine ⟨.variant 0 (.pair v .unit), ?_⟩
      simp only [deep, alone, peekedT, hole, fill, fillFields, fillVariants, decode]
      rw [M.run_bind_ok h1]
      simp only [decodeVariants, decodeFields, decode, Bool.false_eq_true, if_false, List.isEmpty_nil, if_true]
      have hq : (decode T e (deep (alone peekedT) (fun _ => .unit) n self) Cx.std).run R s1 = (.ok v, _) := Prod.ext hv rfl
      exact congrArg Prod.fst (M.run_map_ok (M.run_bind_ok hq))
    · simp only [deep, alone, peekedT, hole, fill, fillFields, fillVariants, decode]
      rw [M.run_bind_ok h1]
      simp only [decodeVariants, decodeFields, decode, Bool.false_eq_true, if_false, List.isEmpty_nil, if_true]
      have hq : (decode T e (deep (alone peekedT) (fun _ => hole) n self) Cx.std).run R s1 = (.error .invalidEnumVariant, _) := Prod.ext ih.2 rfl
      exact congrArg Prod.fst (M.run_map_err (M.run_bind_err hq))

/-- `struct Rest { #[speedy(length = ..)] children: Vec<Rest> }` -/
def restT : Ty := .struct ⟨.rust, 24, 8, [0], true⟩ (.cons { len := some .untilEof } (.seq .vec hole) .nil)

/-- **C76 is false** for a container of the type itself with `length = ..`, if nothing comes before it: the first element is read without a byte having been consumed, and so on.
At every depth `n` the result is what happens there. -/
theorem C76_false_rest {T : Target} (hf : T.fuel ≠ 0) {e : Endian} {rest : Bytes} : ∀ (n : Nat) (s : σ), Inv s → pend s = 0 :: rest → ∀ cx,
    ((decode T e (deep (alone restT) (fun _ => .nonZero .u8) n self) cx).run R s).1 = .error .zeroNonZero ∧
    ((decode T e (deep (alone restT) (fun _ => hole) n self) cx).run R s).1 = .error .invalidEnumVariant := by
  have hstep : ∀ (u : EnumDesc → Ty) (s s' : σ) (er : Err), er.isEof = false → (decode T e (u self) Cx.std).run R s = (.error er, s') →
      ∀ cx, (decode T e (fill u restT) cx).run R s = (.error er, s') := by
    intro u s s' er he hr cx
    obtain ⟨f, hf⟩ : ∃ f, T.fuel = f + 1 := ⟨T.fuel - 1, by omega⟩
    simp only [restT, hole, fill, fillFields, decode, decodeFields, Bool.false_eq_true, if_false, List.isEmpty_nil, if_true]
    refine M.run_bind_err ?_
    rw [if_neg (by simp), M.run_bind_ok (a := none) (s' := s) rfl]
    refine M.run_map_err ?_
    simp only [hf, readUntilEof, Prog.run_bind, elemOf]
    have hr' : (decode T e (u ⟨.u8, false, 0⟩) Cx.std).run R s = (.error er, s') := hr
    rw [hr']
    simp only [he, Bool.false_eq_true, if_false]
    rfl
  intro n
  induction n with
  | zero =>
    intro s hs hp cx
    obtain ⟨s1, h1, _⟩ := run_byte L (h := T.toHost) (e := e) hs hp
    constructor
    · simp only [deep, decode]
      exact congrArg Prod.fst (M.run_bind_ok h1)
    · simp only [deep, hole, decode]
      exact congrArg Prod.fst (M.run_bind_ok h1)
  | succ n ih =>
    intro s hs hp cx
    have ih := ih s hs hp Cx.std
    exact ⟨congrArg Prod.fst (hstep _ _ _ _ rfl (Prod.ext ih.1 rfl) cx), congrArg Prod.fst (hstep _ _ _ _ rfl (Prod.ext ih.2 rfl) cx)⟩
end

example : late false peekedT = false ∧ late false restT = false := by decide

/-- A byte before the children is enough. -/
example : Ending (alone (.struct ⟨.rust, 32, 8, [24, 0], false⟩ (.cons {} (.prim .u8) (.cons { len := some .untilEof } (.seq .vec hole) .nil)))) :=
  alone_ending (by decide)

/-- If the variant reads something else first, the theorem applies. -/
example : Ending (alone (.enum ⟨.u8, true, 0⟩ (.cons 0 (.cons {} (.prim .u8) (.cons {} (.box hole) .nil)) (.cons 1 (.cons {} (.prim .u8) .nil) .nil)))) :=
  alone_ending (by decide)

/-! ## Cases -/

section Cases
open Samples

/-- Four nested lists, and any number. -/
example (e : Endian) (n : Nat) (h : (chain n).length < 2 ^ 62) := C76_no_limit (bufferReader_lawful x64.toHost) (T := x64) (e := e) n
  (BufSt.init 4096 (chain n)) (BufSt.init_inv (by show 4096 + _ ≤ 2 ^ 64 - 1; omega)) (BufSt.init_pend _ _) Cx.std

example (e : Endian) := C76_unroll_partial (bufferReader_orderly x64.toHost) (T := x64) (e := e) x64_blind (c := alone treeT) (alone_ending (by decide))
  (BufSt.init_inv (base := 4096) (buf := [1, 0, 0, 0, 1, 0, 0, 0]) (by decide)) (n := 50) (by decide) self Cx.std

end Cases

end Verif
