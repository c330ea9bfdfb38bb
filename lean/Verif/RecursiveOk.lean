import Verif.Recursive

/-!
# Conditions on recursive types need to be checked for two unrollings only
-/

namespace Verif

mutual
/-- A type without what is behind pointers. -/
def erase : Ty → Ty
  | .seq k _ => .seq k .unit
  | .set _ => .set .unit
  | .map _ _ => .map .unit .unit
  | .refArray n _ => .refArray n .unit
  | .box _ | .via _ _ => .box .unit
  | .array n t => .array n (erase t)
  | .option t => .option (erase t)
  | .result a b => .result (erase a) (erase b)
  | .range t => .range (erase t)
  | .rangeInc t => .rangeInc (erase t)
  | .pair a b => .pair (erase a) (erase b)
  | .struct d fs => .struct d (eraseFields fs)
  | .enum d vs => .enum d (eraseVariants vs)
  | t => t
/-- Fields. -/
def eraseFields : Fields → Fields
  | .nil => .nil
  | .cons a t fs => .cons a (erase t) (eraseFields fs)
/-- Variants. -/
def eraseVariants : Variants → Variants
  | .nil => .nil
  | .cons tag fs vs => .cons tag (eraseFields fs) (eraseVariants vs)
end

/-- The size of a type does not depend on the types behind pointers. -/
def Blind (T : Target) : Prop := ∀ t, T.opaqueSize t = T.opaqueSize (erase t)

mutual
/-- All holes are behind pointers (otherwise the type would be infinitely large, which the compiler rejects). -/
def guarded : Ty → Bool
  | .array _ t | .option t | .range t | .rangeInc t => guarded t
  | .result a b | .pair a b => guarded a && guarded b
  | .struct _ fs => guardedFields fs
  | .enum _ .nil => false
  | .enum _ (.cons _ fs vs) => guardedFields fs && guardedVariants vs
  | _ => true
/-- Fields. -/
def guardedFields : Fields → Bool
  | .nil => true
  | .cons _ t fs => guarded t && guardedFields fs
/-- Variants. -/
def guardedVariants : Variants → Bool
  | .nil => true
  | .cons _ fs vs => guardedFields fs && guardedVariants vs
end

mutual
theorem erase_guarded (u u' : EnumDesc → Ty) : ∀ (c : Ty), guarded c = true → erase (fill u c) = erase (fill u' c)
  | .array n t, h | .option t, h | .range t, h | .rangeInc t, h => by
    simp only [guarded] at h
    simp only [fill, erase]
    rw [erase_guarded u u' t h]
  | .result a b, h | .pair a b, h => by
    simp only [guarded, Bool.and_eq_true] at h
    simp only [fill, erase]
    rw [erase_guarded u u' a h.1, erase_guarded u u' b h.2]
  | .struct d fs, h => by
    simp only [guarded] at h
    simp only [fill, erase]
    rw [erase_guardedFields u u' fs h]
  | .enum d .nil, h => by simp [guarded] at h
  | .enum d (.cons tag fs vs), h => by
    simp only [guarded, Bool.and_eq_true] at h
    simp only [fill, erase, eraseVariants]
    rw [erase_guardedFields u u' fs h.1, erase_guardedVariants u u' vs h.2]
  | .prim _, _ | .usize, _ | .bool, _ | .char, _ | .nonZero _, _ | .atomic _, _
  | .ipv4, _ | .ipv6, _ | .ipAddr, _ | .duration, _ | .systemTime, _ | .endianness, _
  | .varint64, _ | .uuid, _ | .str _, _ | .unit, _ | .seq _ _, _ | .set _, _ | .map _ _, _ | .refArray _ _, _ | .box _, _ | .via _ _, _ => by
    simp only [fill, erase]
theorem erase_guardedFields (u u' : EnumDesc → Ty) : ∀ (fs : Fields), guardedFields fs = true →
    eraseFields (fillFields u fs) = eraseFields (fillFields u' fs)
  | .nil, _ => rfl
  | .cons a t fs, h => by
    simp only [guardedFields, Bool.and_eq_true] at h
    simp only [fillFields, eraseFields]
    rw [erase_guarded u u' t h.1, erase_guardedFields u u' fs h.2]
theorem erase_guardedVariants (u u' : EnumDesc → Ty) : ∀ (vs : Variants), guardedVariants vs = true →
    eraseVariants (fillVariants u vs) = eraseVariants (fillVariants u' vs)
  | .nil, _ => rfl
  | .cons tag fs vs, h => by
    simp only [guardedVariants, Bool.and_eq_true] at h
    simp only [fillVariants, eraseVariants]
    rw [erase_guardedFields u u' fs h.1, erase_guardedVariants u u' vs h.2]
end

section
variable {u u' : EnumDesc → Ty} (hu : ∀ d, erase (u d) = erase (u' d))
include hu
mutual
theorem erase_fill : ∀ (c : Ty), erase (fill u c) = erase (fill u' c)
  | .array n t | .option t | .range t | .rangeInc t => by
    simp only [fill, erase]
    rw [erase_fill t]
  | .result a b | .pair a b => by
    simp only [fill, erase]
    rw [erase_fill a, erase_fill b]
  | .struct d fs => by
    simp only [fill, erase]
    rw [erase_fillFields fs]
  | .enum d .nil => by simpa only [fill] using hu d
  | .enum d (.cons tag fs vs) => by
    simp only [fill, erase, eraseVariants]
    rw [erase_fillFields fs, erase_fillVariants vs]
  | .prim _ | .usize | .bool | .char | .nonZero _ | .atomic _
  | .ipv4 | .ipv6 | .ipAddr | .duration | .systemTime | .endianness
  | .varint64 | .uuid | .str _ | .unit | .seq _ _ | .set _ | .map _ _ | .refArray _ _ | .box _ | .via _ _ => by
    simp only [fill, erase]
theorem erase_fillFields : ∀ (fs : Fields), eraseFields (fillFields u fs) = eraseFields (fillFields u' fs)
  | .nil => rfl
  | .cons a t fs => by
    simp only [fillFields, eraseFields]
    rw [erase_fill t, erase_fillFields fs]
theorem erase_fillVariants : ∀ (vs : Variants), eraseVariants (fillVariants u vs) = eraseVariants (fillVariants u' vs)
  | .nil => rfl
  | .cons tag fs vs => by
    simp only [fillVariants, eraseVariants]
    rw [erase_fillFields fs, erase_fillVariants vs]
end
end

/-! ## What the erased type determines -/

mutual
theorem isZst_erase : ∀ (t : Ty), (erase t).isZst = t.isZst
  | .pair a b => by simp only [erase, Ty.isZst, isZst_erase a, isZst_erase b]
  | .array n t => by simp only [erase, Ty.isZst, isZst_erase t]
  | .range t => by simp only [erase, Ty.isZst, isZst_erase t]
  | .struct d fs => by simp only [erase, Ty.isZst]
  | .enum d vs => by simp only [erase, Ty.isZst, isZst_eraseVariants vs]
  | .prim _ | .usize | .bool | .char | .nonZero _ | .atomic _
  | .ipv4 | .ipv6 | .ipAddr | .duration | .systemTime | .endianness
  | .varint64 | .uuid | .str _ | .unit | .seq _ _ | .set _ | .map _ _ | .refArray _ _ | .box _ | .via _ _ | .option _ | .result _ _
  | .rangeInc _ => by simp only [erase, Ty.isZst]
theorem isZst_eraseFields : ∀ (fs : Fields), (eraseFields fs).isZst = fs.isZst
  | .nil => rfl
  | .cons a t fs => by simp only [eraseFields, Fields.isZst, isZst_erase t, isZst_eraseFields fs]
theorem isZst_eraseVariants : ∀ (vs : Variants), (eraseVariants vs).isZst = vs.isZst
  | .nil => rfl
  | .cons tag fs .nil => by simp only [eraseVariants, Variants.isZst, isZst_eraseFields fs]
  | .cons tag fs (.cons _ _ _) => by simp only [eraseVariants, Variants.isZst]
end

section
variable {T : Target} (hB : Blind T)
include hB

theorem sizeOf_erase (t : Ty) : sizeOf T t = sizeOf T (erase t) := by
  have h1 := isZst_erase t
  have h2 := hB t
  cases t <;> simp only [erase] at h1 h2 ⊢ <;> simp only [sizeOf] <;> simp only [h1, h2]

theorem sizes_erase : ∀ (fs : Fields), fs.sizes T = (eraseFields fs).sizes T
  | .nil => rfl
  | .cons a t fs => by simp only [eraseFields, Fields.sizes, ← sizes_erase fs, ← sizeOf_erase hB t]

theorem sizeSum_erase : ∀ (fs : Fields), fs.sizeSum T = (eraseFields fs).sizeSum T
  | .nil => rfl
  | .cons a t fs => by simp only [eraseFields, Fields.sizeSum, ← sizeSum_erase fs, ← sizeOf_erase hB t]

omit hB in
theorem length_erase : ∀ (fs : Fields), (eraseFields fs).length = fs.length
  | .nil => rfl
  | .cons a t fs => by simp only [eraseFields, Fields.length, length_erase fs]

omit hB in
theorem canBe_erase : ∀ (fs : Fields), (eraseFields fs).canBePrimitive = fs.canBePrimitive
  | .nil => rfl
  | .cons a t fs => by simp only [eraseFields, Fields.canBePrimitive, canBe_erase fs]

theorem structOk_erase (d : StructDesc) (fs : Fields) : structOk T d fs = structOk T d (eraseFields fs) := by
  unfold structOk extents
  rw [length_erase, ← sizes_erase hB, ← sizeSum_erase hB]

mutual
theorem isPrimitive_erase : ∀ (t : Ty), isPrimitive T t = isPrimitive T (erase t)
  | .struct d fs => by
    simp only [erase, isPrimitive]
    rw [length_erase, canBe_erase, ← sizeSum_erase hB, ← fieldsPrimitive_erase fs]
    cases fs <;> rfl
  | .prim _ | .usize | .bool | .char | .nonZero _ | .atomic _
  | .ipv4 | .ipv6 | .ipAddr | .duration | .systemTime | .endianness
  | .varint64 | .uuid | .str _ | .unit | .seq _ _ | .set _ | .map _ _ | .refArray _ _ | .box _ | .via _ _ | .option _ | .result _ _
  | .rangeInc _ | .pair _ _ | .array _ _ | .range _ | .enum _ _ => by simp only [erase, isPrimitive]
theorem fieldsPrimitive_erase : ∀ (fs : Fields), fieldsPrimitive T fs = fieldsPrimitive T (eraseFields fs)
  | .nil => rfl
  | .cons a t fs => by simp only [eraseFields, fieldsPrimitive, ← isPrimitive_erase t, ← fieldsPrimitive_erase fs]
end
end

mutual
theorem bulkPlain_erase : ∀ (t : Ty), bulkPlain (erase t) = bulkPlain t
  | .struct d fs => by simp only [erase, bulkPlain, canBe_erase, bulkPlain_eraseFields fs]
  | .prim _ | .usize | .bool | .char | .nonZero _ | .atomic _
  | .ipv4 | .ipv6 | .ipAddr | .duration | .systemTime | .endianness
  | .varint64 | .uuid | .str _ | .unit | .seq _ _ | .set _ | .map _ _ | .refArray _ _ | .box _ | .via _ _ | .option _ | .result _ _
  | .rangeInc _ | .pair _ _ | .array _ _ | .range _ | .enum _ _ => by simp only [erase, bulkPlain]
theorem bulkPlain_eraseFields : ∀ (fs : Fields), bulkPlainFields (eraseFields fs) = bulkPlainFields fs
  | .nil => rfl
  | .cons a t fs => by simp only [eraseFields, bulkPlainFields, bulkPlain_erase t, bulkPlain_eraseFields fs]
end

mutual
theorem flipOk_erase : ∀ (t : Ty), flipOk (erase t) = flipOk t
  | .struct d fs => by simp only [erase, flipOk, length_erase, flipOk_eraseFields fs]
  | .prim _ | .usize | .bool | .char | .nonZero _ | .atomic _
  | .ipv4 | .ipv6 | .ipAddr | .duration | .systemTime | .endianness
  | .varint64 | .uuid | .str _ | .unit | .seq _ _ | .set _ | .map _ _ | .refArray _ _ | .box _ | .via _ _ | .option _ | .result _ _
  | .rangeInc _ | .pair _ _ | .array _ _ | .range _ | .enum _ _ => by simp only [erase, flipOk]
theorem flipOk_eraseFields : ∀ (fs : Fields), flipOkFields (eraseFields fs) = flipOkFields fs
  | .nil => rfl
  | .cons a t fs => by simp only [eraseFields, flipOkFields, flipOk_erase t, flipOk_eraseFields fs]
end

theorem convOk_erase : ∀ (t : Ty), convOk (erase t) = convOk t
  | .struct d (.cons a t .nil) => by
    have h1 := flipOk_erase (.struct d (.cons a t .nil))
    simp only [erase, eraseFields] at h1 ⊢
    simp only [convOk, convOk_erase t, h1]
  | .struct d .nil => by simp only [erase, eraseFields]
  | .struct d (.cons a t (.cons b s fs)) => by
    have h1 := flipOk_erase (.struct d (.cons a t (.cons b s fs)))
    simp only [erase, eraseFields] at h1 ⊢
    simp only [convOk, h1]
  | .prim _ | .usize | .bool | .char | .nonZero _ | .atomic _
  | .ipv4 | .ipv6 | .ipAddr | .duration | .systemTime | .endianness
  | .varint64 | .uuid | .str _ | .unit | .seq _ _ | .set _ | .map _ _ | .refArray _ _ | .box _ | .via _ _ | .option _ | .result _ _
  | .rangeInc _ | .pair _ _ | .array _ _ | .range _ | .enum _ _ => by simp only [erase, convOk]

mutual
theorem zstEmpty_erase : ∀ (t : Ty), zstEmpty (erase t) = zstEmpty t
  | .struct d fs => by simp only [erase, zstEmpty, zstEmpty_eraseFields fs]
  | .pair a b => by simp only [erase, zstEmpty, zstEmpty_erase a, zstEmpty_erase b]
  | .array n t => by simp only [erase, zstEmpty, zstEmpty_erase t]
  | .range t => by simp only [erase, zstEmpty, zstEmpty_erase t]
  | .prim _ | .usize | .bool | .char | .nonZero _ | .atomic _
  | .ipv4 | .ipv6 | .ipAddr | .duration | .systemTime | .endianness
  | .varint64 | .uuid | .str _ | .unit | .seq _ _ | .set _ | .map _ _ | .refArray _ _ | .box _ | .via _ _ | .option _ | .result _ _
  | .rangeInc _ | .enum _ _ => by simp only [erase, zstEmpty]
theorem zstEmpty_eraseFields : ∀ (fs : Fields), zstEmptyFields (eraseFields fs) = zstEmptyFields fs
  | .nil => rfl
  | .cons a t fs => by simp only [eraseFields, zstEmptyFields, zstEmpty_erase t, zstEmpty_eraseFields fs]
end

theorem isContainer_erase (t : Ty) : (erase t).isContainer = t.isContainer := by
  cases t <;> simp only [erase, Ty.isContainer]

theorem isUnit_erase (t : Ty) : (erase t).isUnit = t.isUnit := by
  cases t <;> simp only [erase, Ty.isUnit]

/-- The same for the conditions on types. -/
structure Alike (T : Target) (e : Endian) (u u' : Ty) : Prop where
  shape : erase u = erase u'
  starts : Verif.starts u = Verif.starts u'
  elems : u.elemStarts = u'.elemStarts
  layout : layoutOk T u = layoutOk T u'
  decl : Verif.declOk u = Verif.declOk u'
  regular : Verif.regular T e u = Verif.regular T e u'
  ends : ∀ tail strict, Verif.ends tail strict u = Verif.ends tail strict u'
  noRefs : Verif.noRefs u = Verif.noRefs u'

theorem attrs_erase (a : Attrs) (t : Ty) : a.declOk (erase t) = a.declOk t := by
  cases t <;> simp only [erase, Attrs.declOk, isContainer_erase]
  all_goals simp only [Ty.isContainer]

theorem attrs_fill {u u' : EnumDesc → Ty} (hu : ∀ d, erase (u d) = erase (u' d)) (a : Attrs) (t : Ty) : a.declOk (fill u t) = a.declOk (fill u' t) := by
  rw [← attrs_erase, erase_fill hu, attrs_erase]

theorem tags_fill (u : EnumDesc → Ty) : ∀ (vs : Variants), (fillVariants u vs).tags = vs.tags
  | .nil => rfl
  | .cons tag fs vs => by simp only [fillVariants, Variants.tags, tags_fill u vs]

theorem isNil_fill (u : EnumDesc → Ty) (fs : Fields) : (fillFields u fs).isNil = fs.isNil := by cases fs <;> rfl

section
variable {T : Target} {e : Endian} {u u' : EnumDesc → Ty} (hB : Blind T) (hA : ∀ d, Alike T e (u d) (u' d))

include hA in
mutual
theorem starts_fill : ∀ (c : Ty), starts (fill u c) = starts (fill u' c)
  | .array n t | .range t | .rangeInc t | .box t | .via _ t => by simp only [fill, starts, starts_fill t]
  | .pair a b => by simp only [fill, starts, starts_fill a]
  | .struct d fs => by simp only [fill, starts, startsFields_fill fs]
  | .enum d .nil => by simpa only [fill] using (hA d).starts
  | .enum d (.cons tag fs vs) => by simp only [fill, starts]
  | .prim _ | .usize | .bool | .char | .nonZero _ | .atomic _
  | .ipv4 | .ipv6 | .ipAddr | .duration | .systemTime | .endianness
  | .varint64 | .uuid | .str _ | .unit | .seq _ _ | .set _ | .map _ _ | .refArray _ _ | .option _ | .result _ _ => by
    simp only [fill, starts]
theorem startsFields_fill : ∀ (fs : Fields), startsFields (fillFields u fs) = startsFields (fillFields u' fs)
  | .nil => rfl
  | .cons a t fs => by simp only [fillFields, startsFields, starts_fill t, startsFields_fill fs]
end

include hA in
theorem elems_fill (c : Ty) : (fill u c).elemStarts = (fill u' c).elemStarts := by
  cases c
  case enum d vs =>
    cases vs
    · simpa only [fill] using (hA d).elems
    · simp only [fill, Ty.elemStarts]
  all_goals simp only [fill, Ty.elemStarts]
  all_goals exact starts_fill hA _

include hB in
theorem prim_fill (hu : ∀ d, erase (u d) = erase (u' d)) (t : Ty) : isPrimitive T (fill u t) = isPrimitive T (fill u' t) := by
  rw [isPrimitive_erase hB, erase_fill hu, ← isPrimitive_erase hB]

include hB in
theorem size_fill (hu : ∀ d, erase (u d) = erase (u' d)) (t : Ty) : sizeOf T (fill u t) = sizeOf T (fill u' t) := by
  rw [sizeOf_erase hB, erase_fill hu, ← sizeOf_erase hB]

theorem plain_fill (hu : ∀ d, erase (u d) = erase (u' d)) (t : Ty) : bulkPlain (fill u t) = bulkPlain (fill u' t) := by
  rw [← bulkPlain_erase, erase_fill hu, bulkPlain_erase]

theorem conv_fill (hu : ∀ d, erase (u d) = erase (u' d)) (t : Ty) : convOk (fill u t) = convOk (fill u' t) := by
  rw [← convOk_erase, erase_fill hu, convOk_erase]

theorem zst_fill (hu : ∀ d, erase (u d) = erase (u' d)) (t : Ty) : zstEmpty (fill u t) = zstEmpty (fill u' t) := by
  rw [← zstEmpty_erase, erase_fill hu, zstEmpty_erase]

theorem unit_fill (hu : ∀ d, erase (u d) = erase (u' d)) (t : Ty) : (fill u t).isUnit = (fill u' t).isUnit := by
  rw [← isUnit_erase, erase_fill hu, isUnit_erase]

theorem bulk_fill (hu : ∀ d, erase (u d) = erase (u' d)) (t : Ty) : bulkOk T e (fill u t) = bulkOk T e (fill u' t) := by
  unfold bulkOk
  rw [plain_fill hu, conv_fill hu]

include hB in
theorem vec_fill (hu : ∀ d, erase (u d) = erase (u' d)) (t : Ty) : vecOk T e (fill u t) = vecOk T e (fill u' t) := by
  unfold vecOk
  rw [prim_fill hB hu, bulk_fill hu, size_fill hB hu, zst_fill hu]

include hB hA
mutual
theorem layout_fill : ∀ (c : Ty), layoutOk T (fill u c) = layoutOk T (fill u' c)
  | .seq _ t | .set t | .array _ t | .refArray _ t | .option t | .range t | .rangeInc t | .box t | .via _ t => by
    simp only [fill, layoutOk, layout_fill t]
  | .map a b | .result a b | .pair a b => by simp only [fill, layoutOk, layout_fill a, layout_fill b]
  | .struct d fs => by
    simp only [fill, layoutOk, layoutFields_fill fs]
    rw [structOk_erase hB, erase_fillFields (fun d => (hA d).shape), ← structOk_erase hB]
  | .enum d .nil => by simpa only [fill] using (hA d).layout
  | .enum d (.cons tag fs vs) => by simp only [fill, layoutOk, layoutOkVariants, layoutFields_fill fs, layoutVariants_fill vs]
  | .prim _ | .usize | .bool | .char | .nonZero _ | .atomic _
  | .ipv4 | .ipv6 | .ipAddr | .duration | .systemTime | .endianness
  | .varint64 | .uuid | .str _ | .unit => by simp only [fill, layoutOk]
theorem layoutFields_fill : ∀ (fs : Fields), layoutOkFields T (fillFields u fs) = layoutOkFields T (fillFields u' fs)
  | .nil => rfl
  | .cons a t fs => by simp only [fillFields, layoutOkFields, layout_fill t, layoutFields_fill fs]
theorem layoutVariants_fill : ∀ (vs : Variants), layoutOkVariants T (fillVariants u vs) = layoutOkVariants T (fillVariants u' vs)
  | .nil => rfl
  | .cons tag fs vs => by simp only [fillVariants, layoutOkVariants, layoutFields_fill fs, layoutVariants_fill vs]
end

omit hB in
mutual
theorem decl_fill : ∀ (c : Ty), declOk (fill u c) = declOk (fill u' c)
  | .seq _ t | .set t | .array _ t | .refArray _ t | .option t | .range t | .rangeInc t | .box t | .via _ t => by
    simp only [fill, declOk, decl_fill t]
  | .map a b | .result a b | .pair a b => by simp only [fill, declOk, decl_fill a, decl_fill b]
  | .struct d fs => by simp only [fill, declOk, declFields_fill fs]
  | .enum d .nil => by simpa only [fill] using (hA d).decl
  | .enum d (.cons tag fs vs) => by
    simp only [fill, declOk, declOkVariants, declFields_fill fs, declVariants_fill vs, Variants.tags, tags_fill]
  | .prim _ | .usize | .bool | .char | .nonZero _ | .atomic _
  | .ipv4 | .ipv6 | .ipAddr | .duration | .systemTime | .endianness
  | .varint64 | .uuid | .str _ | .unit => by simp only [fill, declOk]
theorem declFields_fill : ∀ (fs : Fields), declOkFields (fillFields u fs) = declOkFields (fillFields u' fs)
  | .nil => rfl
  | .cons a t fs => by
    simp only [fillFields, declOkFields, decl_fill t, declFields_fill fs, attrs_fill (fun d => (hA d).shape) a t]
    cases fs
    · rfl
    · simp only [fillFields]
      congr 1
      cases a.len
      · rfl
      · rename_i k
        cases k <;> rfl
theorem declVariants_fill : ∀ (vs : Variants), declOkVariants (fillVariants u vs) = declOkVariants (fillVariants u' vs)
  | .nil => rfl
  | .cons tag fs vs => by simp only [fillVariants, declOkVariants, declFields_fill fs, declVariants_fill vs]
end

omit hB in
mutual
theorem noRefs_fill : ∀ (c : Ty), noRefs (fill u c) = noRefs (fill u' c)
  | .seq _ t | .set t | .array _ t | .option t | .range t | .rangeInc t | .box t | .via _ t => by
    simp only [fill, noRefs, noRefs_fill t]
  | .map a b | .result a b | .pair a b => by simp only [fill, noRefs, noRefs_fill a, noRefs_fill b]
  | .struct d fs => by simp only [fill, noRefs, noRefsFields_fill fs]
  | .enum d .nil => by simpa only [fill] using (hA d).noRefs
  | .enum d (.cons tag fs vs) => by simp only [fill, noRefs, noRefsVariants, noRefsFields_fill fs, noRefsVariants_fill vs]
  | .prim _ | .usize | .bool | .char | .nonZero _ | .atomic _
  | .ipv4 | .ipv6 | .ipAddr | .duration | .systemTime | .endianness
  | .varint64 | .uuid | .str _ | .unit | .refArray _ _ => by simp only [fill, noRefs]
theorem noRefsFields_fill : ∀ (fs : Fields), noRefsFields (fillFields u fs) = noRefsFields (fillFields u' fs)
  | .nil => rfl
  | .cons a t fs => by simp only [fillFields, noRefsFields, noRefs_fill t, noRefsFields_fill fs]
theorem noRefsVariants_fill : ∀ (vs : Variants), noRefsVariants (fillVariants u vs) = noRefsVariants (fillVariants u' vs)
  | .nil => rfl
  | .cons tag fs vs => by simp only [fillVariants, noRefsVariants, noRefsFields_fill fs, noRefsVariants_fill vs]
end

omit hB in
mutual
theorem ends_fill : ∀ (c : Ty) (tail strict : Bool), ends tail strict (fill u c) = ends tail strict (fill u' c)
  | .seq _ t, _, _ | .set t, _, _ | .array _ t, _, _ | .refArray _ t, _, _ | .option t, _, _ | .range t, _, _
  | .rangeInc t, _, _ | .box t, _, _ | .via _ t, _, _ => by simp only [fill, ends, ends_fill t]
  | .map a b, _, _ | .result a b, _, _ => by simp only [fill, ends, ends_fill a, ends_fill b]
  | .pair a b, _, _ => by simp only [fill, ends, unit_fill (fun d => (hA d).shape) b, ends_fill a, ends_fill b]
  | .struct d fs, _, _ => by simp only [fill, ends, endsFields_fill fs]
  | .enum d .nil, _, _ => by simpa only [fill] using (hA d).ends _ _
  | .enum d (.cons tag fs vs), _, _ => by simp only [fill, ends, endsVariants, endsFields_fill fs, endsVariants_fill vs]
  | .prim _, _, _ | .usize, _, _ | .bool, _, _ | .char, _, _ | .nonZero _, _, _ | .atomic _
 , _, _ | .ipv4, _, _ | .ipv6, _, _ | .ipAddr, _, _ | .duration, _, _ | .systemTime, _, _ | .endianness
 , _, _ | .varint64, _, _ | .uuid, _, _ | .str _, _, _ | .unit, _, _ => by simp only [fill, ends]
theorem endsFields_fill : ∀ (fs : Fields) (tail strict : Bool), endsFields tail strict (fillFields u fs) = endsFields tail strict (fillFields u' fs)
  | .nil, _, _ => rfl
  | .cons a t fs, _, _ => by
    simp only [fillFields, endsFields, ends_fill t, endsFields_fill fs, isNil_fill, Attrs.ends, elems_fill hA t]
theorem endsVariants_fill : ∀ (vs : Variants) (tail strict : Bool), endsVariants tail strict (fillVariants u vs) = endsVariants tail strict (fillVariants u' vs)
  | .nil, _, _ => rfl
  | .cons tag fs vs, _, _ => by simp only [fillVariants, endsVariants, endsFields_fill fs, endsVariants_fill vs]
end

mutual
theorem regular_fill : ∀ (c : Ty), regular T e (fill u c) = regular T e (fill u' c)
  | .seq _ t | .set t | .array _ t | .refArray _ t => by
    simp only [fill, regular, regular_fill t, vec_fill hB (fun d => (hA d).shape) t, prim_fill hB (fun d => (hA d).shape) t, size_fill hB (fun d => (hA d).shape) t,
      bulk_fill (fun d => (hA d).shape) t, plain_fill (fun d => (hA d).shape) t]
  | .option t | .range t | .rangeInc t | .box t | .via _ t => by simp only [fill, regular, regular_fill t]
  | .map a b => by
    simp only [fill, regular, regular_fill a, regular_fill b, prim_fill hB (fun d => (hA d).shape) a, prim_fill hB (fun d => (hA d).shape) b,
      size_fill hB (fun d => (hA d).shape) a, size_fill hB (fun d => (hA d).shape) b, plain_fill (fun d => (hA d).shape) a, plain_fill (fun d => (hA d).shape) b]
  | .result a b | .pair a b => by simp only [fill, regular, regular_fill a, regular_fill b]
  | .struct d fs => by simp only [fill, regular, regularFields_fill fs]
  | .enum d .nil => by simpa only [fill] using (hA d).regular
  | .enum d (.cons tag fs vs) => by simp only [fill, regular, regularVariants, regularFields_fill fs, regularVariants_fill vs]
  | .prim _ | .usize | .bool | .char | .nonZero _ | .atomic _
  | .ipv4 | .ipv6 | .ipAddr | .duration | .systemTime | .endianness
  | .varint64 | .uuid | .str _ | .unit => by simp only [fill, regular]
theorem regularFields_fill : ∀ (fs : Fields), regularFields T e (fillFields u fs) = regularFields T e (fillFields u' fs)
  | .nil => rfl
  | .cons a t fs => by simp only [fillFields, regularFields, regular_fill t, regularFields_fill fs]
theorem regularVariants_fill : ∀ (vs : Variants), regularVariants T e (fillVariants u vs) = regularVariants T e (fillVariants u' vs)
  | .nil => rfl
  | .cons tag fs vs => by simp only [fillVariants, regularVariants, regularFields_fill fs, regularVariants_fill vs]
end

/-- Templates preserve likeness. -/
theorem alike_fill (c : Ty) : Alike T e (fill u c) (fill u' c) :=
  ⟨erase_fill (fun d => (hA d).shape) c, starts_fill hA c, elems_fill hA c, layout_fill hB hA c, decl_fill hA c, regular_fill hB hA c,
    ends_fill hA c, noRefs_fill hA c⟩

mutual
/-- Values of a type are values of deeper unrollings. -/
theorem hasTy_fill (hV : ∀ d v, hasTy T (u d) v → hasTy T (u' d) v) : ∀ (c : Ty) (v : Val), hasTy T (fill u c) v → hasTy T (fill u' c) v
  | .seq k t, v, hv => by
    simp only [fill] at hv ⊢
    cases v <;> simp only [hasTy] at hv ⊢
    rw [← size_fill hB (fun d => (hA d).shape) t]
    exact ⟨fun x hx => hasTy_fill hV t x (hv.1 x hx), hv.2⟩
  | .set t, v, hv => by
    simp only [fill] at hv ⊢
    cases v <;> simp only [hasTy] at hv ⊢
    rw [← size_fill hB (fun d => (hA d).shape) t]
    exact ⟨fun x hx => hasTy_fill hV t x (hv.1 x hx), hv.2⟩
  | .map a b, v, hv => by
    simp only [fill] at hv ⊢
    cases v <;> simp only [hasTy] at hv ⊢
    rw [← size_fill hB (fun d => (hA d).shape) a, ← size_fill hB (fun d => (hA d).shape) b]
    refine ⟨fun x hx => ?_, hv.2⟩
    obtain ⟨p, q, h, h1, h2⟩ := hv.1 x hx
    exact ⟨p, q, h, hasTy_fill hV a p h1, hasTy_fill hV b q h2⟩
  | .array n t, v, hv | .refArray n t, v, hv => by
    simp only [fill] at hv ⊢
    cases v <;> simp only [hasTy] at hv ⊢
    exact ⟨hv.1, fun x hx => hasTy_fill hV t x (hv.2 x hx)⟩
  | .option t, v, hv => by
    simp only [fill] at hv ⊢
    cases v <;> simp only [hasTy] at hv ⊢
    exact hasTy_fill hV t _ hv
  | .result a b, .variant 1 v, hv => by
    simp only [fill, hasTy] at hv ⊢
    exact hasTy_fill hV a _ hv
  | .result a b, .variant 0 v, hv => by
    simp only [fill, hasTy] at hv ⊢
    exact hasTy_fill hV b _ hv
  | .result a b, .variant (n + 2) v, hv => by
    simp only [fill, hasTy] at hv
  | .result a b, .num _, hv | .result a b, .bool _, hv | .result a b, .bytes _, hv | .result a b, .unit, hv
  | .result a b, .pair _ _, hv | .result a b, .list _, hv | .result a b, .none, hv | .result a b, .some _, hv => by
    simp only [fill, hasTy] at hv
  | .range t, v, hv => by
    simp only [fill] at hv ⊢
    cases v <;> first | (simp only [hasTy] at hv; done) | skip
    rename_i a b
    cases b <;> first | (simp only [hasTy] at hv; done) | skip
    rename_i b c
    cases c <;> simp only [hasTy] at hv
    exact ⟨hasTy_fill hV t a hv.1, hasTy_fill hV t b hv.2⟩
  | .rangeInc t, v, hv => by
    simp only [fill] at hv ⊢
    cases v <;> first | (simp only [hasTy] at hv; done) | skip
    rename_i a b
    cases b <;> first | (simp only [hasTy] at hv; done) | skip
    rename_i b c
    cases c <;> simp only [hasTy] at hv
    exact ⟨hasTy_fill hV t a hv.1, hasTy_fill hV t b hv.2⟩
  | .pair a b, v, hv => by
    simp only [fill] at hv ⊢
    cases v <;> simp only [hasTy] at hv ⊢
    exact ⟨hasTy_fill hV a _ hv.1, hasTy_fill hV b _ hv.2⟩
  | .box t, v, hv => by
    simp only [fill, hasTy] at hv ⊢
    exact hasTy_fill hV t v hv
  | .via c t, v, hv => by
    simp only [fill, hasTy] at hv ⊢
    exact ⟨hasTy_fill hV t v hv.1, hv.2⟩
  | .struct d fs, v, hv => by
    simp only [fill, hasTy] at hv ⊢
    exact hasTyFields_fill hV fs v hv
  | .enum d .nil, v, hv => by
    simp only [fill] at hv ⊢
    exact hV d v hv
  | .enum d (.cons tag fs vs), v, hv => by
    simp only [fill] at hv ⊢
    cases v <;> simp only [hasTy] at hv ⊢
    exact hasTyVariants_fill hV (.cons tag fs vs) _ _ hv
  | .prim _, _, hv | .usize, _, hv | .bool, _, hv | .char, _, hv | .nonZero _, _, hv | .atomic _, _, hv
  | .ipv4, _, hv | .ipv6, _, hv | .ipAddr, _, hv | .duration, _, hv | .systemTime, _, hv | .endianness, _, hv
  | .varint64, _, hv | .uuid, _, hv | .str _, _, hv | .unit, _, hv => by simpa only [fill] using hv
theorem hasTyFields_fill (hV : ∀ d v, hasTy T (u d) v → hasTy T (u' d) v) : ∀ (fs : Fields) (v : Val), hasTyFields T (fillFields u fs) v →
    hasTyFields T (fillFields u' fs) v
  | .nil, _, hv => hv
  | .cons a t fs, v, hv => by
    simp only [fillFields] at hv ⊢
    cases v <;> simp only [hasTyFields] at hv ⊢
    exact ⟨hasTy_fill hV t _ hv.1, hasTyFields_fill hV fs _ hv.2⟩
theorem hasTyVariants_fill (hV : ∀ d v, hasTy T (u d) v → hasTy T (u' d) v) : ∀ (vs : Variants) (i : Nat) (v : Val),
    hasTyVariants T (fillVariants u vs) i v → hasTyVariants T (fillVariants u' vs) i v
  | .nil, _, _, hv => hv
  | .cons tag fs vs, 0, v, hv => by
    simp only [fillVariants, hasTyVariants] at hv ⊢
    exact hasTyFields_fill hV fs v hv
  | .cons tag fs vs, i + 1, v, hv => by
    simp only [fillVariants, hasTyVariants] at hv ⊢
    exact hasTyVariants_fill hV vs i v hv
end

end

/-- Is this the place of the type itself? -/
def isHole : Ty → Bool
  | .enum _ .nil => true
  | _ => false

section
variable (T : Target) (u u' : EnumDesc → Ty)

/-- As many elements fit into memory (none, for types without values). -/
def roomyAt (t : Ty) : Bool := isHole t || decide (sizeOf T (fill u' t) ≤ sizeOf T (fill u t))

mutual
/-- Elements are not larger with `u'` than with `u`, or there are none. -/
def roomy : Ty → Bool
  | .seq _ t | .set t => roomyAt T u u' t && roomy t
  | .map a b => (isHole a || isHole b || decide (sizeOf T (fill u' a) + sizeOf T (fill u' b) ≤ sizeOf T (fill u a) + sizeOf T (fill u b))) &&
      roomy a && roomy b
  | .array _ t | .refArray _ t | .option t | .range t | .rangeInc t | .box t | .via _ t => roomy t
  | .result a b | .pair a b => roomy a && roomy b
  | .struct _ fs => roomyFields fs
  | .enum _ vs => roomyVariants vs
  | _ => true
/-- Fields. -/
def roomyFields : Fields → Bool
  | .nil => true
  | .cons _ t fs => roomy t && roomyFields fs
/-- Variants. -/
def roomyVariants : Variants → Bool
  | .nil => true
  | .cons _ fs vs => roomyFields fs && roomyVariants vs
end
end

theorem fill_hole {u : EnumDesc → Ty} {t : Ty} (h : isHole t = true) : ∃ d, fill u t = u d := by
  cases t <;> simp [isHole] at h
  rename_i d vs
  cases vs <;> simp at h
  exact ⟨d, by simp only [fill]⟩

section
variable {T : Target} {u u' : EnumDesc → Ty}

theorem none_of {α : Type} {vs : List α} {p : α → Prop} (h : ∀ v ∈ vs, p v) (hn : ∀ v, ¬ p v) : vs = [] := by
  cases vs with
  | nil => rfl
  | cons v vs => exact absurd (h v List.mem_cons_self) (hn v)

variable (hV : ∀ d v, ¬ hasTy T (u d) v)
include hV

mutual
/-- Values of the first unrolling are values of the second. -/
theorem hasTy_base : ∀ (c : Ty) (v : Val), roomy T u u' c = true → hasTy T (fill u c) v → hasTy T (fill u' c) v
  | .seq k t, v, hr, hv | .set t, v, hr, hv => by
    simp only [fill, roomy, roomyAt, Bool.and_eq_true, Bool.or_eq_true, decide_eq_true_eq] at hv hr ⊢
    cases v <;> simp only [hasTy] at hv ⊢
    obtain ⟨h1 | h1, h2⟩ := hr
    · obtain ⟨d, h1⟩ := fill_hole (u := u) h1
      rw [h1] at hv
      rw [none_of hv.1 (hV d)]
      simp
    · have := Nat.mul_le_mul_left (List.length ‹_›) h1
      refine ⟨fun x hx => hasTy_base t x h2 (hv.1 x hx), hv.2.1, ?_⟩
      first | omega | exact ⟨hv.2.2.1, by omega⟩
  | .map a b, v, hr, hv => by
    simp only [fill, roomy, Bool.and_eq_true, Bool.or_eq_true, decide_eq_true_eq] at hv hr ⊢
    cases v <;> simp only [hasTy] at hv ⊢
    obtain ⟨⟨h1, h2⟩, h3⟩ := hr
    rcases h1 with h1 | h1
    · have : ∀ kv : Val, ¬ ∃ p q, kv = .pair p (.pair q .unit) ∧ hasTy T (fill u a) p ∧ hasTy T (fill u b) q := by
        rintro kv ⟨p, q, _, hp, hq⟩
        rcases h1 with h1 | h1
        · obtain ⟨d, h1⟩ := fill_hole (u := u) h1
          rw [h1] at hp
          exact hV d _ hp
        · obtain ⟨d, h1⟩ := fill_hole (u := u) h1
          rw [h1] at hq
          exact hV d _ hq
      rw [none_of hv.1 this]
      simp [keys]
    · have := Nat.mul_le_mul_left (List.length ‹_›) h1
      refine ⟨fun x hx => ?_, hv.2.1, hv.2.2.1, by omega⟩
      obtain ⟨p, q, h, hp, hq⟩ := hv.1 x hx
      exact ⟨p, q, h, hasTy_base a p h2 hp, hasTy_base b q h3 hq⟩
  | .array n t, v, hr, hv | .refArray n t, v, hr, hv => by
    simp only [fill, roomy] at hv hr ⊢
    cases v <;> simp only [hasTy] at hv ⊢
    exact ⟨hv.1, fun x hx => hasTy_base t x hr (hv.2 x hx)⟩
  | .option t, v, hr, hv => by
    simp only [fill, roomy] at hv hr ⊢
    cases v <;> simp only [hasTy] at hv ⊢
    exact hasTy_base t _ hr hv
  | .result a b, .variant 1 v, hr, hv => by
    simp only [fill, hasTy, roomy, Bool.and_eq_true] at hv hr ⊢
    exact hasTy_base a _ hr.1 hv
  | .result a b, .variant 0 v, hr, hv => by
    simp only [fill, hasTy, roomy, Bool.and_eq_true] at hv hr ⊢
    exact hasTy_base b _ hr.2 hv
  | .result a b, .variant (n + 2) v, hr, hv => by
    simp only [fill, hasTy] at hv
  | .result a b, .num _, _, hv | .result a b, .bool _, _, hv | .result a b, .bytes _, _, hv | .result a b, .unit, _, hv
  | .result a b, .pair _ _, _, hv | .result a b, .list _, _, hv | .result a b, .none, _, hv | .result a b, .some _, _, hv => by
    simp only [fill, hasTy] at hv
  | .range t, v, hr, hv | .rangeInc t, v, hr, hv => by
    simp only [fill, roomy] at hv hr ⊢
    cases v <;> first | (simp only [hasTy] at hv; done) | skip
    rename_i a b
    cases b <;> first | (simp only [hasTy] at hv; done) | skip
    rename_i b c
    cases c <;> simp only [hasTy] at hv
    exact ⟨hasTy_base t a hr hv.1, hasTy_base t b hr hv.2⟩
  | .pair a b, v, hr, hv => by
    simp only [fill, roomy, Bool.and_eq_true] at hv hr ⊢
    cases v <;> simp only [hasTy] at hv ⊢
    exact ⟨hasTy_base a _ hr.1 hv.1, hasTy_base b _ hr.2 hv.2⟩
  | .box t, v, hr, hv => by
    simp only [fill, hasTy, roomy] at hv hr ⊢
    exact hasTy_base t v hr hv
  | .via c t, v, hr, hv => by
    simp only [fill, hasTy, roomy] at hv hr ⊢
    exact ⟨hasTy_base t v hr hv.1, hv.2⟩
  | .struct d fs, v, hr, hv => by
    simp only [fill, hasTy, roomy] at hv hr ⊢
    exact hasTyFields_base fs v hr hv
  | .enum d .nil, v, hr, hv => by
    simp only [fill] at hv ⊢
    exact absurd hv (hV d v)
  | .enum d (.cons tag fs vs), v, hr, hv => by
    simp only [fill, roomy] at hv hr ⊢
    cases v <;> simp only [hasTy] at hv ⊢
    exact hasTyVariants_base (.cons tag fs vs) _ _ hr hv
  | .prim _, _, _, hv | .usize, _, _, hv | .bool, _, _, hv | .char, _, _, hv | .nonZero _, _, _, hv | .atomic _, _, _, hv
  | .ipv4, _, _, hv | .ipv6, _, _, hv | .ipAddr, _, _, hv | .duration, _, _, hv | .systemTime, _, _, hv | .endianness, _, _, hv
  | .varint64, _, _, hv | .uuid, _, _, hv | .str _, _, _, hv | .unit, _, _, hv => by simpa only [fill] using hv
theorem hasTyFields_base : ∀ (fs : Fields) (v : Val), roomyFields T u u' fs = true → hasTyFields T (fillFields u fs) v →
    hasTyFields T (fillFields u' fs) v
  | .nil, _, _, hv => hv
  | .cons a t fs, v, hr, hv => by
    simp only [fillFields, roomyFields, Bool.and_eq_true] at hv hr ⊢
    cases v <;> simp only [hasTyFields] at hv ⊢
    exact ⟨hasTy_base t _ hr.1 hv.1, hasTyFields_base fs _ hr.2 hv.2⟩
theorem hasTyVariants_base : ∀ (vs : Variants) (i : Nat) (v : Val), roomyVariants T u u' vs = true →
    hasTyVariants T (fillVariants u vs) i v → hasTyVariants T (fillVariants u' vs) i v
  | .nil, _, _, _, hv => hv
  | .cons tag fs vs, 0, v, hr, hv => by
    simp only [fillVariants, hasTyVariants, roomyVariants, Bool.and_eq_true] at hv hr ⊢
    exact hasTyFields_base fs v hr.1 hv
  | .cons tag fs vs, i + 1, v, hr, hv => by
    simp only [fillVariants, hasTyVariants, roomyVariants, Bool.and_eq_true] at hv hr ⊢
    exact hasTyVariants_base vs i v hr.2 hv
end

end

section
variable {T : Target} (hB : Blind T) {u u' : EnumDesc → Ty} (hu : ∀ d, erase (u d) = erase (u' d))
include hB hu

mutual
theorem layout_deeper (hU : ∀ d, layoutOk T (u' d) = true) : ∀ (c : Ty), layoutOk T (fill u c) = true → layoutOk T (fill u' c) = true
  | .seq _ t, h | .set t, h | .array _ t, h | .refArray _ t, h | .option t, h | .range t, h | .rangeInc t, h | .box t, h | .via _ t, h => by
    simp only [fill, layoutOk] at h ⊢
    exact layout_deeper hU t h
  | .map a b, h | .result a b, h | .pair a b, h => by
    simp only [fill, layoutOk, Bool.and_eq_true] at h ⊢
    exact ⟨layout_deeper hU a h.1, layout_deeper hU b h.2⟩
  | .struct d fs, h => by
    simp only [fill, layoutOk, Bool.and_eq_true] at h ⊢
    refine ⟨?_, layoutFields_deeper hU fs h.2⟩
    rw [structOk_erase hB, ← erase_fillFields hu, ← structOk_erase hB]
    exact h.1
  | .enum d .nil, _ => by simpa only [fill] using hU d
  | .enum d (.cons tag fs vs), h => by
    simp only [fill, layoutOk, layoutOkVariants, Bool.and_eq_true] at h ⊢
    exact ⟨layoutFields_deeper hU fs h.1, layoutVariants_deeper hU vs h.2⟩
  | .prim _, h | .usize, h | .bool, h | .char, h | .nonZero _, h | .atomic _, h
  | .ipv4, h | .ipv6, h | .ipAddr, h | .duration, h | .systemTime, h | .endianness, h
  | .varint64, h | .uuid, h | .str _, h | .unit, h => by simpa only [fill] using h
theorem layoutFields_deeper (hU : ∀ d, layoutOk T (u' d) = true) : ∀ (fs : Fields), layoutOkFields T (fillFields u fs) = true →
    layoutOkFields T (fillFields u' fs) = true
  | .nil, h => h
  | .cons a t fs, h => by
    simp only [fillFields, layoutOkFields, Bool.and_eq_true] at h ⊢
    exact ⟨layout_deeper hU t h.1, layoutFields_deeper hU fs h.2⟩
theorem layoutVariants_deeper (hU : ∀ d, layoutOk T (u' d) = true) : ∀ (vs : Variants), layoutOkVariants T (fillVariants u vs) = true →
    layoutOkVariants T (fillVariants u' vs) = true
  | .nil, h => h
  | .cons tag fs vs, h => by
    simp only [fillVariants, layoutOkVariants, Bool.and_eq_true] at h ⊢
    exact ⟨layoutFields_deeper hU fs h.1, layoutVariants_deeper hU vs h.2⟩
end
end

end Verif
