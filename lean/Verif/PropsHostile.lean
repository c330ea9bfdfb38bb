import Verif.PropsDepth
import Verif.PropsSafe
import Verif.Frugal

/-!
# Hostile input for recursive types: C78

C29, C31 and C32 are about types of the model, which are finite.  Types which contain themselves or each other are templates (`Recursive.lean`).  Here the conditions of these
properties are shown to hold for all unrollings if they hold for two, and, as the calls are nested at most as deep as the input has bytes plus two (C76), the properties hold for the
functions of the recursive types.
-/

namespace Verif

/-! ## What is determined by the erased type -/

mutual
theorem raw_erase : ∀ (t : Ty), raw (erase t) = raw t
  | .struct d fs => by simp only [erase, raw, raw_eraseFields fs]
  | .prim _ | .usize | .bool | .char | .nonZero _ | .atomic _
  | .ipv4 | .ipv6 | .ipAddr | .duration | .systemTime | .endianness
  | .varint64 | .uuid | .str _ | .unit | .seq _ _ | .set _ | .map _ _ | .refArray _ _ | .box _ | .via _ _ | .option _ | .result _ _
  | .rangeInc _ | .pair _ _ | .array _ _ | .range _ | .enum _ _ => by simp only [erase, raw]
theorem raw_eraseFields : ∀ (fs : Fields), rawFields (eraseFields fs) = rawFields fs
  | .nil => rfl
  | .cons a t fs => by simp only [eraseFields, rawFields, raw_erase t, raw_eraseFields fs]
end

mutual
theorem inhab_erase : ∀ (t : Ty), inhab (erase t) = inhab t
  | .struct d fs => by simp only [erase, inhab, inhab_eraseFields fs]
  | .pair a b => by simp only [erase, inhab, inhab_erase a, inhab_erase b]
  | .array n t => by simp only [erase, inhab, inhab_erase t]
  | .range t => by simp only [erase, inhab, inhab_erase t]
  | .enum d .nil => by simp only [erase, eraseVariants, inhab]
  | .enum d (.cons tag fs vs) => by simp only [erase, eraseVariants, inhab, inhab_eraseFields fs]
  | .prim _ | .usize | .bool | .char | .nonZero _ | .atomic _
  | .ipv4 | .ipv6 | .ipAddr | .duration | .systemTime | .endianness
  | .varint64 | .uuid | .str _ | .unit | .seq _ _ | .set _ | .map _ _ | .refArray _ _ | .box _ | .via _ _ | .option _ | .result _ _
  | .rangeInc _ => by simp only [erase, inhab]
theorem inhab_eraseFields : ∀ (fs : Fields), inhabFields (eraseFields fs) = inhabFields fs
  | .nil => rfl
  | .cons a t fs => by simp only [eraseFields, inhabFields, inhab_erase t, inhab_eraseFields fs]
end

/-! ## Values of unrollings -/

section
variable {T : Target} {u u' : EnumDesc → Ty} (hV : ∀ d v, Valid T (u d) v → Valid T (u' d) v)
include hV

mutual
/-- Values of a type are values of deeper unrollings. -/
theorem valid_fill : ∀ (c : Ty) (v : Val), Valid T (fill u c) v → Valid T (fill u' c) v
  | .seq k t, v, hv => by
    simp only [fill] at hv ⊢
    cases v <;> simp only [Valid] at hv ⊢
    exact fun x hx => valid_fill t x (hv x hx)
  | .set t, v, hv => by
    simp only [fill] at hv ⊢
    cases v <;> simp only [Valid] at hv ⊢
    exact ⟨fun x hx => valid_fill t x (hv.1 x hx), hv.2⟩
  | .map a b, v, hv => by
    simp only [fill] at hv ⊢
    cases v <;> simp only [Valid] at hv ⊢
    refine ⟨fun x hx => ?_, hv.2⟩
    obtain ⟨p, q, h, h1, h2⟩ := hv.1 x hx
    exact ⟨p, q, h, valid_fill a p h1, valid_fill b q h2⟩
  | .array n t, v, hv | .refArray n t, v, hv => by
    simp only [fill] at hv ⊢
    cases v <;> simp only [Valid] at hv ⊢
    exact ⟨hv.1, fun x hx => valid_fill t x (hv.2 x hx)⟩
  | .option t, v, hv => by
    simp only [fill] at hv ⊢
    cases v <;> simp only [Valid] at hv ⊢
    exact valid_fill t _ hv
  | .result a b, .variant 1 v, hv => by
    simp only [fill, Valid] at hv ⊢
    exact valid_fill a _ hv
  | .result a b, .variant 0 v, hv => by
    simp only [fill, Valid] at hv ⊢
    exact valid_fill b _ hv
  | .result a b, .variant (n + 2) v, hv => by
    simp only [fill, Valid] at hv
  | .result a b, .num _, hv | .result a b, .bool _, hv | .result a b, .bytes _, hv | .result a b, .unit, hv
  | .result a b, .pair _ _, hv | .result a b, .list _, hv | .result a b, .none, hv | .result a b, .some _, hv => by
    simp only [fill, Valid] at hv
  | .range t, v, hv => by
    simp only [fill] at hv ⊢
    cases v <;> first | (simp only [Valid] at hv; done) | skip
    rename_i a b
    cases b <;> first | (simp only [Valid] at hv; done) | skip
    rename_i b c
    cases c <;> simp only [Valid] at hv
    exact ⟨valid_fill t a hv.1, valid_fill t b hv.2⟩
  | .rangeInc t, v, hv => by
    simp only [fill] at hv ⊢
    cases v <;> first | (simp only [Valid] at hv; done) | skip
    rename_i a b
    cases b <;> first | (simp only [Valid] at hv; done) | skip
    rename_i b c
    cases c <;> simp only [Valid] at hv
    exact ⟨valid_fill t a hv.1, valid_fill t b hv.2⟩
  | .pair a b, v, hv => by
    simp only [fill] at hv ⊢
    cases v <;> simp only [Valid] at hv ⊢
    exact ⟨valid_fill a _ hv.1, valid_fill b _ hv.2⟩
  | .box t, v, hv => by
    simp only [fill, Valid] at hv ⊢
    exact valid_fill t v hv
  | .via c t, v, hv => by
    simp only [fill, Valid] at hv ⊢
    obtain ⟨w, h1, h2⟩ := hv
    exact ⟨w, valid_fill t w h1, h2⟩
  | .struct d fs, v, hv => by
    simp only [fill, Valid] at hv ⊢
    exact validFields_fill fs v hv
  | .enum d .nil, v, hv => by
    simp only [fill] at hv ⊢
    exact hV d v hv
  | .enum d (.cons tag fs vs), v, hv => by
    simp only [fill] at hv ⊢
    cases v <;> simp only [Valid] at hv ⊢
    exact validVariants_fill (.cons tag fs vs) _ _ hv
  | .prim _, _, hv | .usize, _, hv | .bool, _, hv | .char, _, hv | .nonZero _, _, hv | .atomic _, _, hv
  | .ipv4, _, hv | .ipv6, _, hv | .ipAddr, _, hv | .duration, _, hv | .systemTime, _, hv | .endianness, _, hv
  | .varint64, _, hv | .uuid, _, hv | .str _, _, hv | .unit, _, hv => by simpa only [fill] using hv
theorem validFields_fill : ∀ (fs : Fields) (v : Val), ValidFields T (fillFields u fs) v → ValidFields T (fillFields u' fs) v
  | .nil, _, hv => hv
  | .cons a t fs, v, hv => by
    simp only [fillFields] at hv ⊢
    cases v <;> simp only [ValidFields] at hv ⊢
    exact ⟨valid_fill t _ hv.1, validFields_fill fs _ hv.2⟩
theorem validVariants_fill : ∀ (vs : Variants) (i : Nat) (v : Val),
    ValidVariants T (fillVariants u vs) i v → ValidVariants T (fillVariants u' vs) i v
  | .nil, _, _, hv => hv
  | .cons tag fs vs, 0, v, hv => by
    simp only [fillVariants, ValidVariants] at hv ⊢
    exact validFields_fill fs v hv
  | .cons tag fs vs, i + 1, v, hv => by
    simp only [fillVariants, ValidVariants] at hv ⊢
    exact validVariants_fill vs i v hv
end
end

theorem valid_deeper {T : Target} (c : EnumDesc → Ty) : ∀ (n : Nat) (d : EnumDesc) (v : Val), Valid T (unroll c n d) v → Valid T (unroll c (n + 1) d) v
  | 0, d, v, h => by
    simp only [unroll, noType, Valid] at h
    cases v <;> simp only [ValidFields] at h
    rename_i a b
    cases a <;> simp only [Valid, ValidVariants] at h <;> exact absurd h.1 id
  | n + 1, d, v, h => valid_fill (valid_deeper c n) (c d) v h

/-! ## Conditions on deeper unrollings -/

section
variable {T : Target} {e : Endian} {u u' : EnumDesc → Ty} (hB : Blind T) (hA : ∀ d, Likewise T (u d) (u' d))
include hB hA

omit hB in
theorem raw_fill (t : Ty) : raw (fill u t) = raw (fill u' t) := by
  rw [← raw_erase, erase_fill (fun d => (hA d).shape), raw_erase]

omit hB in
theorem inhab_fill (t : Ty) : inhab (fill u t) = inhab (fill u' t) := by
  rw [← inhab_erase, erase_fill (fun d => (hA d).shape), inhab_erase]

omit hB in
mutual
theorem decl_deeper (hU : ∀ d, declOk (u' d) = true) : ∀ (c : Ty), declOk (fill u c) = true → declOk (fill u' c) = true
  | .seq _ t, h | .set t, h | .array _ t, h | .refArray _ t, h | .option t, h | .range t, h | .rangeInc t, h | .box t, h => by
    simp only [fill, declOk] at h ⊢
    exact decl_deeper hU t h
  | .via _ t, h => by
    simp only [fill, declOk] at h ⊢
    exact decl_deeper hU t h
  | .map a b, h | .result a b, h | .pair a b, h => by
    simp only [fill, declOk, Bool.and_eq_true] at h ⊢
    exact ⟨decl_deeper hU a h.1, decl_deeper hU b h.2⟩
  | .struct d fs, h => by
    simp only [fill, declOk] at h ⊢
    exact declFields_deeper hU fs h
  | .enum d .nil, _ => by simpa only [fill] using hU d
  | .enum d (.cons tag fs vs), h => by
    simp only [fill, declOk, declOkVariants, Variants.tags, tags_fill, Bool.and_eq_true] at h ⊢
    exact ⟨h.1, declFields_deeper hU fs h.2.1, declVariants_deeper hU vs h.2.2⟩
  | .prim _, h | .usize, h | .bool, h | .char, h | .nonZero _, h | .atomic _, h
  | .ipv4, h | .ipv6, h | .ipAddr, h | .duration, h | .systemTime, h | .endianness, h
  | .varint64, h | .uuid, h | .str _, h | .unit, h => by simpa only [fill] using h
theorem declFields_deeper (hU : ∀ d, declOk (u' d) = true) : ∀ (fs : Fields), declOkFields (fillFields u fs) = true →
    declOkFields (fillFields u' fs) = true
  | .nil, h => h
  | .cons a t fs, h => by
    simp only [fillFields, declOkFields, Bool.and_eq_true, attrs_fill (fun d => (hA d).shape) a t] at h ⊢
    refine ⟨⟨⟨h.1.1.1, decl_deeper hU t h.1.1.2⟩, declFields_deeper hU fs h.1.2⟩, ?_⟩
    have h2 := h.2
    cases fs with
    | nil => exact h2
    | cons b t' fs =>
      simp only [fillFields] at h2 ⊢
      revert h2
      cases a.len with
      | none => exact id
      | some k => cases k <;> exact id
theorem declVariants_deeper (hU : ∀ d, declOk (u' d) = true) : ∀ (vs : Variants), declOkVariants (fillVariants u vs) = true →
    declOkVariants (fillVariants u' vs) = true
  | .nil, h => h
  | .cons tag fs vs, h => by
    simp only [fillVariants, declOkVariants, Bool.and_eq_true] at h ⊢
    exact ⟨declFields_deeper hU fs h.1, declVariants_deeper hU vs h.2⟩
end

mutual
theorem min_deeper (hU : ∀ d, minOk T (u' d) = true) : ∀ (c : Ty), minOk T (fill u c) = true → minOk T (fill u' c) = true
  | .seq .cow t, h | .array _ t, h => by
    simp only [fill, minOk, Bool.and_eq_true, prim_fill hB (fun d => (hA d).shape) t, plain_fill (fun d => (hA d).shape) t] at h ⊢
    exact ⟨h.1, min_deeper hU t h.2⟩
  | .seq .vec t, h | .seq .ref t, h | .set t, h | .option t, h | .range t, h | .rangeInc t, h | .box t, h | .via _ t, h => by
    simp only [fill, minOk] at h ⊢
    exact min_deeper hU t h
  | .map a b, h | .result a b, h | .pair a b, h => by
    simp only [fill, minOk, Bool.and_eq_true] at h ⊢
    exact ⟨min_deeper hU a h.1, min_deeper hU b h.2⟩
  | .struct d fs, h => by
    simp only [fill, minOk] at h ⊢
    exact minFields_deeper hU fs h
  | .enum d .nil, _ => by simpa only [fill] using hU d
  | .enum d (.cons tag fs vs), h => by
    simp only [fill, minOk] at h ⊢
    exact minVariants_deeper hU d (.cons tag fs vs) h
  | .prim _, h | .usize, h | .bool, h | .char, h | .nonZero _, h | .atomic _, h
  | .ipv4, h | .ipv6, h | .ipAddr, h | .duration, h | .systemTime, h | .endianness, h
  | .varint64, h | .uuid, h | .str _, h | .unit, h | .refArray _ _, h => by simp only [fill, minOk]
theorem minFields_deeper (hU : ∀ d, minOk T (u' d) = true) : ∀ (fs : Fields), minOkFields T (fillFields u fs) = true →
    minOkFields T (fillFields u' fs) = true
  | .nil, h => h
  | .cons a t fs, h => by
    simp only [fillFields, minOkFields, Bool.and_eq_true] at h ⊢
    exact ⟨min_deeper hU t h.1, minFields_deeper hU fs h.2⟩
theorem minVariants_deeper (hU : ∀ d, minOk T (u' d) = true) (d : EnumDesc) : ∀ (vs : Variants), minOkVariants T d (fillVariants u vs) = true →
    minOkVariants T d (fillVariants u' vs) = true
  | .nil, h => h
  | .cons tag fs vs, h => by
    simp only [fillVariants, minOkVariants, Bool.and_eq_true, minFields_akin hB hA fs] at h ⊢
    exact ⟨⟨h.1.1, minFields_deeper hU fs h.1.2⟩, minVariants_deeper hU d vs h.2⟩
end

mutual
theorem sane_deeper (hV : ∀ d v, Valid T (u d) v → Valid T (u' d) v) (hU : ∀ d, sane T (u' d)) : ∀ (c : Ty), sane T (fill u c) → sane T (fill u' c)
  | .seq k t, h => by
    cases k <;> simp only [fill, sane] at h ⊢
    · exact ⟨by rw [← prim_fill hB (fun d => (hA d).shape) t, ← size_fill hB (fun d => (hA d).shape) t, ← inhab_fill hA t]; exact h.1, sane_deeper hV hU t h.2⟩
    · exact ⟨by rw [← prim_fill hB (fun d => (hA d).shape) t, ← size_fill hB (fun d => (hA d).shape) t, ← inhab_fill hA t]; exact h.1, sane_deeper hV hU t h.2⟩
    · exact ⟨by rw [← raw_fill hA t]; exact h.1, sane_deeper hV hU t h.2⟩
  | .refArray n t, h => by
    simp only [fill, sane] at h ⊢
    rw [← raw_fill hA t]; exact h
  | .set t, h | .array _ t, h | .option t, h | .range t, h | .rangeInc t, h | .box t, h | .via _ t, h => by
    simp only [fill, sane] at h ⊢
    exact sane_deeper hV hU t h
  | .map a b, h | .result a b, h | .pair a b, h => by
    simp only [fill, sane] at h ⊢
    exact ⟨sane_deeper hV hU a h.1, sane_deeper hV hU b h.2⟩
  | .struct d fs, h => by
    simp only [fill, sane] at h ⊢
    exact saneFields_deeper hV hU fs h
  | .enum d .nil, _ => by simpa only [fill] using hU d
  | .enum d (.cons tag fs vs), h => by
    simp only [fill, sane, saneVariants] at h ⊢
    exact ⟨saneFields_deeper hV hU fs h.1, saneVariants_deeper hV hU vs h.2⟩
  | .prim _, h | .usize, h | .bool, h | .char, h | .nonZero _, h | .atomic _, h
  | .ipv4, h | .ipv6, h | .ipAddr, h | .duration, h | .systemTime, h | .endianness, h
  | .varint64, h | .uuid, h | .str _, h | .unit, h => by simp only [fill, sane]
theorem saneFields_deeper (hV : ∀ d v, Valid T (u d) v → Valid T (u' d) v) (hU : ∀ d, sane T (u' d)) : ∀ (fs : Fields), saneFields T (fillFields u fs) →
    saneFields T (fillFields u' fs)
  | .nil, h => h
  | .cons a t fs, h => by
    simp only [fillFields, saneFields] at h ⊢
    exact ⟨fun hh => valid_fill hV t _ (h.1 hh), sane_deeper hV hU t h.2.1, saneFields_deeper hV hU fs h.2.2⟩
theorem saneVariants_deeper (hV : ∀ d v, Valid T (u d) v → Valid T (u' d) v) (hU : ∀ d, sane T (u' d)) : ∀ (vs : Variants), saneVariants T (fillVariants u vs) →
    saneVariants T (fillVariants u' vs)
  | .nil, h => h
  | .cons tag fs vs, h => by
    simp only [fillVariants, saneVariants] at h ⊢
    exact ⟨saneFields_deeper hV hU fs h.1, saneVariants_deeper hV hU vs h.2⟩
end

theorem capOk_fill (x : Bool) (B b : Nat) (t : Ty) : capOk T x B b (fill u t) = capOk T x B b (fill u' t) := by
  unfold capOk
  rw [size_fill hB (fun d => (hA d).shape) t, min_akin hB hA t]

theorem convs_fill (t : Ty) : convs T e (fill u t) = convs T e (fill u' t) := by
  unfold convs
  rw [prim_fill hB (fun d => (hA d).shape) t, conv_fill (fun d => (hA d).shape) t]

omit hB in
theorem limOpt_fill (l : Lim) (t : Ty) : l.opt T.toHost (fill u t) = l.opt T.toHost (fill u' t) := by
  have key : ∀ t : Ty, l.opt T.toHost t = l.opt T.toHost (erase t) := fun t => by cases t <;> rfl
  rw [key, erase_fill (fun d => (hA d).shape), ← key]

mutual
theorem calm_deeper {x : Bool} {B : Nat} (hU : ∀ d l, calm T e x B l (u' d) = true) : ∀ (c : Ty) (l : Lim), calm T e x B l (fill u c) = true →
    calm T e x B l (fill u' c) = true
  | .seq k t, l, h => by
    simp only [fill, calm, convs_fill hB hA t, capOk_fill hB hA _ _ _ t, min_akin hB hA t, prim_fill hB (fun d => (hA d).shape) t,
      size_fill hB (fun d => (hA d).shape) t] at h ⊢
    rw [Bool.and_eq_true] at h ⊢
    exact ⟨h.1, calm_deeper hU t _ h.2⟩
  | .set t, l, h | .array _ t, l, h => by
    simp only [fill, calm, convs_fill hB hA t, min_akin hB hA t, prim_fill hB (fun d => (hA d).shape) t,
      size_fill hB (fun d => (hA d).shape) t] at h ⊢
    rw [Bool.and_eq_true] at h ⊢
    exact ⟨h.1, calm_deeper hU t _ h.2⟩
  | .map a b, l, h => by
    simp only [fill, calm, min_akin hB hA a, prim_fill hB (fun d => (hA d).shape) a,
      size_fill hB (fun d => (hA d).shape) a, min_akin hB hA b, prim_fill hB (fun d => (hA d).shape) b,
      size_fill hB (fun d => (hA d).shape) b] at h ⊢
    rw [Bool.and_eq_true, Bool.and_eq_true] at h ⊢
    exact ⟨⟨h.1.1, calm_deeper hU a _ h.1.2⟩, calm_deeper hU b _ h.2⟩
  | .option t, l, h => by
    simp only [fill, calm, limOpt_fill hA l t] at h ⊢
    exact calm_deeper hU t _ h
  | .via c t, l, h => by
    simp only [fill, calm, Bool.and_eq_true] at h ⊢
    exact ⟨h.1, calm_deeper hU t _ h.2⟩
  | .range t, l, h | .rangeInc t, l, h | .box t, l, h => by
    simp only [fill, calm] at h ⊢
    exact calm_deeper hU t _ h
  | .result a b, l, h | .pair a b, l, h => by
    simp only [fill, calm, Bool.and_eq_true] at h ⊢
    exact ⟨calm_deeper hU a _ h.1, calm_deeper hU b _ h.2⟩
  | .struct d fs, l, h => by
    simp only [fill, calm] at h ⊢
    exact calmFields_deeper hU fs h
  | .enum d .nil, l, _ => by simpa only [fill] using hU d l
  | .enum d (.cons tag fs vs), l, h => by
    simp only [fill, calm, calmVariants, Bool.and_eq_true] at h ⊢
    exact ⟨calmFields_deeper hU fs h.1, calmVariants_deeper hU vs h.2⟩
  | .prim _, l, h | .usize, l, h | .bool, l, h | .char, l, h | .nonZero _, l, h | .atomic _, l, h
  | .ipv4, l, h | .ipv6, l, h | .ipAddr, l, h | .duration, l, h | .systemTime, l, h | .endianness, l, h
  | .varint64, l, h | .uuid, l, h | .str _, l, h | .unit, l, h | .refArray _ _, l, h => by simpa only [fill, calm] using h
theorem calmFields_deeper {x : Bool} {B : Nat} (hU : ∀ d l, calm T e x B l (u' d) = true) : ∀ (fs : Fields), calmFields T e x B (fillFields u fs) = true →
    calmFields T e x B (fillFields u' fs) = true
  | .nil, h => h
  | .cons a t fs, h => by
    simp only [fillFields, calmFields, Bool.and_eq_true, Bool.or_eq_true] at h ⊢
    exact ⟨h.1.imp id (fun h => ⟨calm_deeper hU t _ h.1, h.2⟩), calmFields_deeper hU fs h.2⟩
theorem calmVariants_deeper {x : Bool} {B : Nat} (hU : ∀ d l, calm T e x B l (u' d) = true) : ∀ (vs : Variants), calmVariants T e x B (fillVariants u vs) = true →
    calmVariants T e x B (fillVariants u' vs) = true
  | .nil, h => h
  | .cons tag fs vs, h => by
    simp only [fillVariants, calmVariants, Bool.and_eq_true] at h ⊢
    exact ⟨calmFields_deeper hU fs h.1, calmVariants_deeper hU vs h.2⟩
end

mutual
theorem thrifty_deeper (hU : ∀ d, thrifty T (u' d) = true) : ∀ (c : Ty), thrifty T (fill u c) = true → thrifty T (fill u' c) = true
  | .seq k t, h => by
    simp only [fill, thrifty, min_akin hB hA t, prim_fill hB (fun d => (hA d).shape) t, size_fill hB (fun d => (hA d).shape) t] at h ⊢
    rw [Bool.and_eq_true] at h ⊢
    exact ⟨h.1, thrifty_deeper hU t h.2⟩
  | .set t, h | .array _ t, h | .option t, h | .range t, h | .rangeInc t, h | .box t, h | .via _ t, h => by
    simp only [fill, thrifty] at h ⊢
    exact thrifty_deeper hU t h
  | .map a b, h | .result a b, h | .pair a b, h => by
    simp only [fill, thrifty, Bool.and_eq_true] at h ⊢
    exact ⟨thrifty_deeper hU a h.1, thrifty_deeper hU b h.2⟩
  | .struct d fs, h => by
    simp only [fill, thrifty] at h ⊢
    exact thriftyFields_deeper hU fs h
  | .enum d .nil, _ => by simpa only [fill] using hU d
  | .enum d (.cons tag fs vs), h => by
    simp only [fill, thrifty, thriftyVariants, Bool.and_eq_true] at h ⊢
    exact ⟨thriftyFields_deeper hU fs h.1, thriftyVariants_deeper hU vs h.2⟩
  | .prim _, h | .usize, h | .bool, h | .char, h | .nonZero _, h | .atomic _, h
  | .ipv4, h | .ipv6, h | .ipAddr, h | .duration, h | .systemTime, h | .endianness, h
  | .varint64, h | .uuid, h | .str _, h | .unit, h | .refArray _ _, h => by simp only [fill, thrifty]
theorem thriftyFields_deeper (hU : ∀ d, thrifty T (u' d) = true) : ∀ (fs : Fields), thriftyFields T (fillFields u fs) = true →
    thriftyFields T (fillFields u' fs) = true
  | .nil, h => h
  | .cons a t fs, h => by
    simp only [fillFields, thriftyFields, Bool.and_eq_true] at h ⊢
    exact ⟨thrifty_deeper hU t h.1, thriftyFields_deeper hU fs h.2⟩
theorem thriftyVariants_deeper (hU : ∀ d, thrifty T (u' d) = true) : ∀ (vs : Variants), thriftyVariants T (fillVariants u vs) = true →
    thriftyVariants T (fillVariants u' vs) = true
  | .nil, h => h
  | .cons tag fs vs, h => by
    simp only [fillVariants, thriftyVariants, Bool.and_eq_true] at h ⊢
    exact ⟨thriftyFields_deeper hU fs h.1, thriftyVariants_deeper hU vs h.2⟩
end

end

/-! ## All unrollings -/

/-- Structs and enums: only these can contain themselves. -/
def nominal : Ty → Bool
  | .struct _ _ | .enum _ (.cons _ _ _) => true
  | _ => false

/-- What is required of recursive types: C76, and the conditions of C29, C31 and C32 for two unrollings. -/
structure Harmless (T : Target) (e : Endian) (x : Bool) (B : Nat) (c : EnumDesc → Ty) : Prop where
  /-- The size of a type does not depend on what is behind pointers in it. -/
  blind : Blind T
  ending : Ending c
  nominal : ∀ d, nominal (c d) = true
  layout : ∀ d, layoutOk T (unroll c 1 d) = true ∧ layoutOk T (unroll c 2 d) = true
  decl : ∀ d, declOk (unroll c 1 d) = true ∧ declOk (unroll c 2 d) = true
  sane : ∀ d, sane T (unroll c 1 d) ∧ Verif.sane T (unroll c 2 d)
  min : ∀ d, minOk T (unroll c 1 d) = true ∧ minOk T (unroll c 2 d) = true
  calm : ∀ d, calm T e x B (Lim.std T.toHost) (unroll c 1 d) = true ∧ Verif.calm T e x B (Lim.std T.toHost) (unroll c 2 d) = true

section
variable {T : Target} {e : Endian} {x : Bool} {B : Nat} {c : EnumDesc → Ty} (hK : Harmless T e x B c)
include hK

theorem likewise_next (b b' : EnumDesc → Ty) (d : EnumDesc) : Likewise T (fill b (c d)) (fill b' (c d)) :=
  ⟨erase_guarded _ _ (c d) (hK.ending.guarded d), min_fill hK.blind _ _ (c d) (hK.ending.min d)⟩

theorem calm_nominal (u : EnumDesc → Ty) (d : EnumDesc) (l l' : Lim) (h : calm T e x B l (fill u (c d)) = true) : calm T e x B l' (fill u (c d)) = true := by
  have hn := hK.nominal d
  generalize c d = t at h hn ⊢
  cases t <;> simp only [Verif.nominal, Bool.false_eq_true] at hn
  · simpa only [fill, Verif.calm] using h
  · rename_i d vs
    cases vs <;> simp only [Bool.false_eq_true] at hn
    simpa only [fill, Verif.calm] using h

/-- The conditions hold at every depth. -/
theorem harmless_unroll : ∀ (n : Nat) (d : EnumDesc), layoutOk T (unroll c (n + 1) d) = true ∧ declOk (unroll c (n + 1) d) = true ∧
    Verif.sane T (unroll c (n + 1) d) ∧ minOk T (unroll c (n + 1) d) = true ∧ ∀ l, Verif.calm T e x B l (unroll c (n + 1) d) = true
  | 0, d => ⟨(hK.layout d).1, (hK.decl d).1, (hK.sane d).1, (hK.min d).1, fun _ => calm_nominal hK _ d _ _ (hK.calm d).1⟩
  | 1, d => ⟨(hK.layout d).2, (hK.decl d).2, (hK.sane d).2, (hK.min d).2, fun _ => calm_nominal hK _ d _ _ (hK.calm d).2⟩
  | n + 2, d => by
    have ih := harmless_unroll (n + 1)
    obtain ⟨h1, h2, h3, h4, h5⟩ := ih d
    have hA : ∀ d, Likewise T (unroll c (n + 1) d) (unroll c (n + 2) d) := fun d => likewise_next hK _ _ d
    exact ⟨layout_deeper hK.blind (fun d => (hA d).shape) (fun d => (ih d).1) (c d) h1, decl_deeper hA (fun d => (ih d).2.1) (c d) h2,
      sane_deeper hK.blind hA (fun d v => valid_deeper c (n + 1) d v) (fun d => (ih d).2.2.1) (c d) h3,
      min_deeper hK.blind hA (fun d => (ih d).2.2.2.1) (c d) h4,
      fun l => calm_deeper hK.blind hA (fun d l => (ih d).2.2.2.2 l) (c d) l (h5 l)⟩

end

/-! ## C78 -/

section
variable {T : Target} {e : Endian} {c : EnumDesc → Ty}

theorem deep_min (hB : Blind T) (hE : Ending c) (b : EnumDesc → Ty) {n m : Nat} (hn : n ≠ 0) (hm : m ≠ 0) (d : EnumDesc) :
    minBytes T (deep c b n d) = minBytes T (unroll c m d) := by
  obtain ⟨n, rfl⟩ := Nat.exists_eq_succ_of_ne_zero hn
  obtain ⟨m, rfl⟩ := Nat.exists_eq_succ_of_ne_zero hm
  exact min_fill hB _ _ (c d) (hE.min d)

/-- Reading a recursive type from a buffer is reading an unrolling of it. -/
theorem deep_buffer (hB : Blind T) (hE : Ending c) (b : EnumDesc → Ty) {base : Nat} {buf : Bytes} (htop : base + buf.length ≤ T.usizeMax) {n : Nat}
    (hn : buf.length + 2 ≤ n) (d : EnumDesc) :
    readFromBuffer T e (deep c b n d) base buf = readFromBuffer T e (unroll c (buf.length + 2) d) base buf ∧
    readFromBufferCopying T e (deep c b n d) base buf = readFromBufferCopying T e (unroll c (buf.length + 2) d) base buf := by
  have hi : BufAt T.toHost base buf (BufSt.init base buf) := BufAt.init htop
  have O1 : Orderly true (bufferReader T.toHost) (BufAt T.toHost base buf) BufSt.pend :=
    (bufferReader_at _ _ _).orderly fun _ n s => by simp [bufferReader, bufCanRead]
  have O2 : Orderly true (copyingReader T.toHost) (BufAt T.toHost base buf) BufSt.pend :=
    (copyingReader_at _ _ _).orderly fun _ n s => by simp [copyingReader, bufCanRead]
  have hp : (BufSt.init base buf).pend = buf := BufSt.init_pend _ _
  have h1 := C76_ends_partial O1 (T := T) (e := e) hB hE b (fun _ => noType) hi (n := n) (m := buf.length + 2) (by rw [hp]; exact hn) (by rw [hp]; exact Nat.le_refl _) d Cx.std
  have h2 := C76_ends_partial O2 (T := T) (e := e) hB hE b (fun _ => noType) hi (n := n) (m := buf.length + 2) (by rw [hp]; exact hn) (by rw [hp]; exact Nat.le_refl _) d Cx.std
  rw [deep_unroll] at h1 h2
  have hmin := deep_min hB hE b (T := T) (n := n) (m := buf.length + 2) (by omega) (by omega) d
  unfold readFromBuffer readFromBufferCopying readWithLengthFromBuffer readWithLengthFromBufferCopying
  rw [hmin, h1, h2]
  exact ⟨rfl, rfl⟩

/-- **C78**, buffers: whatever the bytes are, reading a recursive type returns a value of the type or an error; it does not panic, and does not run forever.

`deep c b n d` is the type unrolled `n` times, with any types `b` further down: the result is the same for all of them, that is, it is the result of the function which calls itself.

Full claim: all recursive types.  Missing: those excluded by C29, C31, C32 and C76, for which it is false. -/
theorem C78_buffer_partial (hT : T.Ok) {base : Nat} {buf : Bytes} (hK : Harmless T e true buf.length c) (hi : InMem T base buf) (b : EnumDesc → Ty)
    {n : Nat} (hn : buf.length + 2 ≤ n) (d : EnumDesc) (r : Except Err Val)
    (h : r = readFromBuffer T e (deep c b n d) base buf ∨ r = readFromBufferCopying T e (deep c b n d) base buf) :
    (∃ v, r = .ok v ∧ Valid T (unroll c (buf.length + 2) d) v) ∨ ∃ er, r = .error er ∧ (∀ p, er ≠ .panic p) ∧ er ≠ .diverge := by
  obtain ⟨h1, h2⟩ := deep_buffer (e := e) hK.blind hK.ending b hi.top hn d
  rw [h1, h2] at h
  obtain ⟨a1, a2, a3, a4, a5⟩ := harmless_unroll hK (buf.length + 1) d
  rcases C32_no_panic_buffer_partial hT a1 a2 a3 a4 hi (a5 _) r h with ⟨v, rfl⟩ | hr
  · exact .inl ⟨v, rfl, C31_valid_buffer_partial (e := e) hT a1 a2 a3 hi.top (h.imp Eq.symm Eq.symm)⟩
  · exact .inr hr

/-- **C78**, streams, whatever they deliver and however they fail. -/
theorem C78_stream_partial (hT : T.Ok) {src : Src} (hK : Harmless T e false src.data.length c) (hi : Fits T src.data) {grow : Nat → Nat} (hgr : ∀ n, n ≤ grow n)
    (buffered : Bool) (b : EnumDesc → Ty) {n : Nat} (hn : src.data.length + 2 ≤ n) (d : EnumDesc) :
    (∃ v, (readFromStream T e (deep c b n d) grow buffered src).1 = .ok v ∧ Valid T (unroll c (src.data.length + 2) d) v) ∨
      ∃ er, (readFromStream T e (deep c b n d) grow buffered src).1 = .error er ∧ (∀ p, er ≠ .panic p) ∧ er ≠ .diverge := by
  have hs : (StreamSt.init buffered src).buf.Inv := CBuf.withCapacity_inv _
  have h1 := C76_ends_partial (streamReader_orderly hgr) (T := T) (e := e) hK.blind hK.ending b (fun _ => noType) hs (n := n) (m := src.data.length + 2)
    (by rw [StreamSt.init_pend]; exact hn) (by rw [StreamSt.init_pend]; exact Nat.le_refl _) d Cx.std
  rw [deep_unroll] at h1
  have h2 : readFromStream T e (deep c b n d) grow buffered src = readFromStream T e (unroll c (src.data.length + 2) d) grow buffered src := h1
  rw [h2]
  obtain ⟨a1, a2, a3, a4, a5⟩ := harmless_unroll hK (src.data.length + 1) d
  rcases C32_no_panic_stream_partial hT a1 a2 a3 a4 hgr buffered hi (a5 _) with ⟨v, hv⟩ | hr
  · exact .inl ⟨v, hv, C31_valid_stream_partial (e := e) hT a1 a2 a3 hgr (Prod.ext hv rfl)⟩
  · exact .inr hr

/-- **C78**, memory: whenever memory is reserved for `k` elements of which each needs at least `m` bytes, at whatever depth, `k * m` bytes are left in the input or have just been borrowed from it. -/
theorem C78_reservations_partial (hT : T.Ok) {base : Nat} {buf : Bytes} (hK : Harmless T e true buf.length c)
    (htop : base + buf.length ≤ T.usizeMax) {R : ReaderOps BufSt} (hR : R = bufferReader T.toHost ∨ R = copyingReader T.toHost) (n : Nat) (d : EnumDesc) :
    ∀ x ∈ (decode T e (unroll c (n + 1) d) Cx.std).allocs R BufSt.pend (BufSt.init base buf), x.2.1 * x.2.2 ≤ x.1 ∨ x.2.1 * x.2.2 ≤ buf.length - x.1 := by
  obtain ⟨a1, a2, a3, a4, _⟩ := harmless_unroll hK n d
  exact C29_reservations_partial hT a1 a2 a3 a4 htop hR

end

/-! ## Deciding the conditions, examples -/

/-- The conditions for one of the types, except `sane`. -/
def memberHarmless (T : Target) (e : Endian) (x : Bool) (B : Nat) (c : EnumDesc → Ty) (t : Ty) : Bool :=
  let t1 := fill (unroll c 0) t
  let t2 := fill (unroll c 1) t
  nominal t && layoutOk T t1 && layoutOk T t2 && declOk t1 && declOk t2 && minOk T t1 && minOk T t2 &&
  calm T e x B (Lim.std T.toHost) t1 && calm T e x B (Lim.std T.toHost) t2

theorem group_harmless {T : Target} {e : Endian} {x : Bool} {B : Nat} (hB : Blind T) {t : Ty} {ts : List Ty} (hE : Ending (group t ts))
    (h : (t :: ts).all (memberHarmless T e x B (group t ts)) = true)
    (hs : ∀ u ∈ t :: ts, sane T (fill (unroll (group t ts) 0) u) ∧ sane T (fill (unroll (group t ts) 1) u)) : Harmless T e x B (group t ts) := by
  have key : ∀ d, memberHarmless T e x B (group t ts) (group t ts d) = true := fun d => List.all_eq_true.mp h _ (group_mem t ts d)
  simp only [memberHarmless, Bool.and_eq_true] at key
  exact {
    blind := hB
    ending := hE
    nominal := fun d => (key d).1.1.1.1.1.1.1.1
    layout := fun d => ⟨(key d).1.1.1.1.1.1.1.2, (key d).1.1.1.1.1.1.2⟩
    decl := fun d => ⟨(key d).1.1.1.1.1.2, (key d).1.1.1.1.2⟩
    min := fun d => ⟨(key d).1.1.1.2, (key d).1.1.2⟩
    calm := fun d => ⟨(key d).1.2, (key d).2⟩
    sane := fun d => hs _ (group_mem t ts d) }

theorem Harmless.any {T : Target} {e : Endian} {x : Bool} {B : Nat} {c : EnumDesc → Ty} (h : Harmless T e false 0 c) : Harmless T e x B c :=
  { h with calm := fun d => ⟨calm_any _ _ (h.calm d).1, calm_any _ _ (h.calm d).2⟩ }

open Samples

theorem tree_harmless (e : Endian) {x : Bool} {B : Nat} : Harmless x64 e x B (alone treeT) := by
  rw [alone_group]
  refine (group_harmless x64_blind (by rw [← alone_group]; exact alone_ending (by decide)) (by cases e <;> decide) ?_).any
  intro u hu
  simp only [List.mem_cons, List.not_mem_nil, or_false] at hu
  subst hu
  simp [treeT, hole, fill, fillFields, unroll, noType, group, sane, saneFields, saneVariants, sizeOf]

theorem list_harmless (e : Endian) {x : Bool} {B : Nat} : Harmless x64 e x B (alone listT) := by
  rw [alone_group]
  refine (group_harmless x64_blind (by rw [← alone_group]; exact alone_ending (by decide)) (by cases e <;> decide) ?_).any
  intro u hu
  simp only [List.mem_cons, List.not_mem_nil, or_false] at hu
  subst hu
  simp [listT, hole, fill, fillFields, unroll, noType, group, sane, saneFields, saneVariants]

theorem expr_harmless (e : Endian) {x : Bool} {B : Nat} : Harmless x64 e x B (alone exprT) := by
  rw [alone_group]
  refine (group_harmless x64_blind (by rw [← alone_group]; exact alone_ending (by decide)) (by cases e <;> decide) ?_).any
  intro u hu
  simp only [List.mem_cons, List.not_mem_nil, or_false] at hu
  subst hu
  refine ⟨?_, ?_⟩ <;> simp [exprT, hole, fill, fillFields, fillVariants, unroll, noType, group, sane, saneFields, saneVariants, sizeOf, Ty.isZst, Variants.isZst, x64, onHost]

theorem folders_harmless (e : Endian) {x : Bool} {B : Nat} : Harmless x64 e x B folders := by
  rw [folders_group]
  refine (group_harmless x64_blind (group_ending (by decide)) (by cases e <;> decide) ?_).any
  intro u hu
  simp only [List.mem_cons, List.not_mem_nil, or_false] at hu
  rcases hu with rfl | rfl <;>
    simp [folders, folderHole, entryHole, fill, fillFields, fillVariants, unroll, noType, group, sane, saneFields, saneVariants, sizeOf, Ty.isZst, Variants.isZst, x64, onHost]

/-- Any bytes read as an expression, with anything in place of the expressions nested deeper than there are bytes. -/
example (e : Endian) (base : Nat) (buf : Bytes) (hi : InMem x64 base buf) (b : EnumDesc → Ty) :
    (∃ v, readFromBuffer x64 e (deep (alone exprT) b (buf.length + 2) self) base buf = .ok v ∧ Valid x64 (unroll (alone exprT) (buf.length + 2) self) v) ∨
      ∃ er, readFromBuffer x64 e (deep (alone exprT) b (buf.length + 2) self) base buf = .error er ∧ (∀ p, er ≠ .panic p) ∧ er ≠ .diverge :=
  C78_buffer_partial x64_ok (expr_harmless e) hi b (Nat.le_refl _) self _ (.inl rfl)

/-- Any bytes read as a list from a stream which fails after the first three of them. -/
example (b : EnumDesc → Ty) (buf : Bytes) (hi : Fits x64 buf) :
    let src : Src := ⟨buf, [.give 3, .fault (.other 5)]⟩
    (∃ v, (readFromStream x64 .little (deep (alone listT) b (buf.length + 2) self) id true src).1 = .ok v ∧ Valid x64 (unroll (alone listT) (buf.length + 2) self) v) ∨
      ∃ er, (readFromStream x64 .little (deep (alone listT) b (buf.length + 2) self) id true src).1 = .error er ∧ (∀ p, er ≠ .panic p) ∧ er ≠ .diverge :=
  C78_stream_partial (src := ⟨buf, [.give 3, .fault (.other 5)]⟩) x64_ok (list_harmless _) hi (fun _ => Nat.le_refl _) true b (Nat.le_refl _) self

/-- A tree which claims to have four billion children: nothing is reserved for them. -/
example : readFromBuffer x64 .little (unroll (alone treeT) 14 self) 4096 [1, 0, 0, 0, 255, 255, 255, 255, 0, 0, 0, 0] = .error .unexpectedEndOfInput ∧
    (decode x64 .little (unroll (alone treeT) 14 self) Cx.std).allocs (bufferReader x64.toHost) BufSt.pend
      (BufSt.init 4096 [1, 0, 0, 0, 255, 255, 255, 255, 0, 0, 0, 0]) = [] := by
  decide +kernel

/-! ## Cases -/

section Cases
open Samples

example (e : Endian) (base : Nat) (buf : Bytes) (h : base + buf.length ≤ x64.usizeMax) :=
  C78_reservations_partial x64_ok (c := alone exprT) (expr_harmless e) h (.inl rfl) 30 self

end Cases

end Verif
