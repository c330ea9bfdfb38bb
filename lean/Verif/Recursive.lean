import Verif.PropsRoundTrip

/-!
# Recursive types

Types which contain themselves or each other are given by templates: types in which enums without variants stand for the
types themselves (told apart by their `EnumDesc`, in particular by the name in it).
`unroll c n` replaces them `n` times, and finally by a type without values: its values are the values of the recursive types which
are nested at most `n` deep.  The functions of the library for the recursive types call themselves; as long as a call is not nested deeper than `n` they do
the same as those for `unroll c n`.
-/

namespace Verif

mutual
/-- Put types into the holes of a template. -/
def fill (u : EnumDesc → Ty) : Ty → Ty
  | .seq k t => .seq k (fill u t)
  | .set t => .set (fill u t)
  | .map a b => .map (fill u a) (fill u b)
  | .array n t => .array n (fill u t)
  | .refArray n t => .refArray n (fill u t)
  | .option t => .option (fill u t)
  | .result a b => .result (fill u a) (fill u b)
  | .range t => .range (fill u t)
  | .rangeInc t => .rangeInc (fill u t)
  | .pair a b => .pair (fill u a) (fill u b)
  | .box t => .box (fill u t)
  | .via c t => .via c (fill u t)
  | .struct d fs => .struct d (fillFields u fs)
  | .enum d .nil => u d
  | .enum d (.cons tag fs vs) => .enum d (.cons tag (fillFields u fs) (fillVariants u vs))
  | t => t
/-- Fields. -/
def fillFields (u : EnumDesc → Ty) : Fields → Fields
  | .nil => .nil
  | .cons a t fs => .cons a (fill u t) (fillFields u fs)
/-- Variants. -/
def fillVariants (u : EnumDesc → Ty) : Variants → Variants
  | .nil => .nil
  | .cons tag fs vs => .cons tag (fillFields u fs) (fillVariants u vs)
end

/-- A hole. -/
def hole : Ty := .enum ⟨.u8, false, 0⟩ .nil

/-- A type without values (of size 1). -/
def noType : Ty := .struct ⟨.rust, 1, 1, [0], false⟩ (.cons {} (.enum ⟨.u8, false, 0⟩ .nil) .nil)

/-- The values of recursive types which are nested at most `n` deep. -/
def unroll (c : EnumDesc → Ty) : Nat → EnumDesc → Ty
  | 0, _ => noType
  | n + 1, d => fill (unroll c n) (c d)

theorem noType_empty {T : Target} (v : Val) : ¬ hasTy T noType v := by
  intro h
  simp only [noType, hasTy] at h
  cases v <;> simp only [hasTyFields] at h
  rename_i a b
  cases a <;> simp only [hasTy, hasTyVariants] at h <;> exact h.1

/-! ## Encodings do not depend on the depth -/

theorem catAll_congr {f g : Val → Except Err Bytes} {vs : List Val} (h : ∀ v ∈ vs, f v = g v) : catAll f vs = catAll g vs := by
  induction vs with
  | nil => rfl
  | cons v vs ih =>
    simp only [catAll]
    rw [h v List.mem_cons_self, ih fun x hx => h x (List.mem_cons_of_mem _ hx)]

/-- On the values of `u`, `u'` is the same type. -/
structure Agree (T : Target) (F : Fmt) (u u' : Ty) : Prop where
  opt : ∀ v, hasTy T u v → ∀ l : LenR, l.opt u = l.opt u'
  wire : ∀ v, hasTy T u v → ∀ l, wire F u l v = Verif.wire F u' l v
  canon : ∀ v, hasTy T u v → canon F u v → Verif.canon F u' v

section
variable {T : Target} {F : Fmt} {u u' : EnumDesc → Ty} (hA : ∀ d, Agree T F (u d) (u' d))
include hA

theorem opt_fill (t : Ty) (v : Val) (hv : hasTy T (fill u t) v) (l : LenR) : l.opt (fill u t) = l.opt (fill u' t) := by
  cases t <;> try rfl
  rename_i d vs
  cases vs
  · exact (hA d).opt v hv l
  · rfl

mutual
theorem wire_fill : ∀ (c : Ty) (l : LenR) (v : Val), hasTy T (fill u c) v → wire F (fill u c) l v = wire F (fill u' c) l v
  | .seq k t, l, v, hv => by
    simp only [fill] at hv ⊢
    cases v <;> simp only [hasTy] at hv
    simp only [wire]
    rw [catAll_congr fun x hx => wire_fill t LenR.std x (hv.1 x hx)]
  | .set t, l, v, hv => by
    simp only [fill] at hv ⊢
    cases v <;> simp only [hasTy] at hv
    simp only [wire]
    rw [catAll_congr fun x hx => wire_fill t LenR.std x (hv.1 x hx)]
  | .map a b, l, v, hv => by
    simp only [fill] at hv ⊢
    cases v <;> simp only [hasTy] at hv
    simp only [wire]
    congr 1
    refine catAll_congr fun x hx => ?_
    obtain ⟨p, q, rfl, h1, h2⟩ := hv.1 x hx
    simp only
    rw [wire_fill a LenR.std p h1, wire_fill b LenR.std q h2]
  | .array n t, l, v, hv => by
    simp only [fill] at hv ⊢
    cases v <;> simp only [hasTy] at hv
    simp only [wire]
    rw [catAll_congr fun x hx => wire_fill t LenR.std x (hv.2 x hx)]
  | .refArray n t, l, v, hv => by
    simp only [fill] at hv ⊢
    cases v <;> simp only [hasTy] at hv
    simp only [wire]
    rw [catAll_congr fun x hx => wire_fill t LenR.std x (hv.2 x hx)]
  | .option t, l, v, hv => by
    simp only [fill] at hv ⊢
    cases v <;> simp only [hasTy] at hv
    · rfl
    · simp only [wire]
      rw [opt_fill hA t _ hv, wire_fill t _ _ hv]
  | .result a b, l, .variant 1 v, hv => by
    simp only [fill, hasTy, wire] at hv ⊢
    rw [wire_fill a _ _ hv]
  | .result a b, l, .variant 0 v, hv => by
    simp only [fill, hasTy, wire] at hv ⊢
    rw [wire_fill b _ _ hv]
  | .result a b, l, .variant (n + 2) v, hv => by simp [fill, hasTy] at hv
  | .result a b, l, .unit, hv | .result a b, l, .num _, hv | .result a b, l, .bool _, hv | .result a b, l, .bytes _, hv
  | .result a b, l, .list _, hv | .result a b, l, .pair _ _, hv | .result a b, l, .none, hv | .result a b, l, .some _, hv => by
    simp [fill, hasTy] at hv
  | .range t, l, v, hv => by
    simp only [fill] at hv ⊢
    cases v <;> first | (simp only [hasTy] at hv; done) | skip
    rename_i a b
    cases b <;> first | (simp only [hasTy] at hv; done) | skip
    rename_i b c
    cases c <;> simp only [hasTy] at hv
    simp only [wire]
    rw [wire_fill t _ _ hv.1, wire_fill t _ _ hv.2]
  | .rangeInc t, l, v, hv => by
    simp only [fill] at hv ⊢
    cases v <;> first | (simp only [hasTy] at hv; done) | skip
    rename_i a b
    cases b <;> first | (simp only [hasTy] at hv; done) | skip
    rename_i b c
    cases c <;> simp only [hasTy] at hv
    simp only [wire]
    rw [wire_fill t _ _ hv.1, wire_fill t _ _ hv.2]
  | .pair a b, l, v, hv => by
    simp only [fill] at hv ⊢
    cases v <;> simp only [hasTy] at hv
    simp only [wire]
    rw [wire_fill a _ _ hv.1, wire_fill b _ _ hv.2]
  | .box t, l, v, hv => by
    simp only [fill, hasTy, wire] at hv ⊢
    exact wire_fill t _ _ hv
  | .via c t, l, v, hv => by
    simp only [fill, hasTy, wire] at hv ⊢
    exact wire_fill t _ _ hv.1
  | .struct d fs, l, v, hv => by
    simp only [fill, hasTy, wire] at hv ⊢
    exact wire_fillFields fs [] v hv
  | .enum d .nil, l, v, hv => by
    simp only [fill] at hv ⊢
    exact (hA d).wire v hv l
  | .enum d (.cons tag fs vs), l, v, hv => by
    simp only [fill] at hv ⊢
    cases v <;> simp only [hasTy] at hv
    simp only [wire]
    exact wire_fillVariants d (.cons tag fs vs) _ _ hv
  | .prim _, _, _, _ | .usize, _, _, _ | .bool, _, _, _ | .char, _, _, _ | .nonZero _, _, _, _ | .atomic _, _, _, _
  | .ipv4, _, _, _ | .ipv6, _, _, _ | .ipAddr, _, _, _ | .duration, _, _, _ | .systemTime, _, _, _ | .endianness, _, _, _
  | .varint64, _, _, _ | .uuid, _, _, _ | .str _, _, _, _ | .unit, _, _, _ => by simp only [fill]
theorem wire_fillFields : ∀ (fs : Fields) (prev : List Val) (v : Val), hasTyFields T (fillFields u fs) v →
    wireFields F (fillFields u fs) prev v = wireFields F (fillFields u' fs) prev v
  | .nil, _, _, _ => rfl
  | .cons a t fs, prev, v, hv => by
    simp only [fillFields] at hv ⊢
    cases v <;> simp only [hasTyFields] at hv
    rename_i x rest
    simp only [wireFields]
    rw [wire_fillFields fs prev rest hv.2, wire_fillFields fs (prev ++ [x]) rest hv.2, wire_fill t _ _ hv.1]
theorem wire_fillVariants (d : EnumDesc) : ∀ (vs : Variants) (i : Nat) (v : Val), hasTyVariants T (fillVariants u vs) i v →
    wireVariants F d (fillVariants u vs) i v = wireVariants F d (fillVariants u' vs) i v
  | .nil, _, _, _ => rfl
  | .cons tag fs vs, 0, v, hv => by
    simp only [fillVariants, hasTyVariants, wireVariants] at hv ⊢
    rw [wire_fillFields fs [] v hv]
  | .cons tag fs vs, i + 1, v, hv => by
    simp only [fillVariants, hasTyVariants, wireVariants] at hv ⊢
    exact wire_fillVariants d vs i v hv
end

mutual
theorem canon_fill : ∀ (c : Ty) (v : Val), hasTy T (fill u c) v → canon F (fill u c) v → canon F (fill u' c) v
  | .seq k t, v, hv, hc => by
    simp only [fill] at hv hc ⊢
    cases v <;> simp only [hasTy] at hv
    simp only [canon] at hc ⊢
    exact fun x hx => canon_fill t x (hv.1 x hx) (hc x hx)
  | .set t, v, hv, hc => by
    simp only [fill] at hv hc ⊢
    cases v <;> simp only [hasTy] at hv
    simp only [canon] at hc ⊢
    exact fun x hx => canon_fill t x (hv.1 x hx) (hc x hx)
  | .map a b, v, hv, hc => by
    simp only [fill] at hv hc ⊢
    cases v <;> simp only [hasTy] at hv
    simp only [canon] at hc ⊢
    intro p q hx
    obtain ⟨p', q', h, h1, h2⟩ := hv.1 _ hx
    cases h
    exact ⟨canon_fill a p h1 (hc p q hx).1, canon_fill b q h2 (hc p q hx).2⟩
  | .array n t, v, hv, hc => by
    simp only [fill] at hv hc ⊢
    cases v <;> simp only [hasTy] at hv
    simp only [canon] at hc ⊢
    exact fun x hx => canon_fill t x (hv.2 x hx) (hc x hx)
  | .refArray n t, v, hv, hc => by
    simp only [fill] at hv hc ⊢
    cases v <;> simp only [hasTy] at hv
    simp only [canon] at hc ⊢
    exact fun x hx => canon_fill t x (hv.2 x hx) (hc x hx)
  | .option t, v, hv, hc => by
    simp only [fill] at hv hc ⊢
    cases v <;> simp only [hasTy] at hv
    · simp [canon]
    · simp only [canon] at hc ⊢
      exact canon_fill t _ hv hc
  | .result a b, .variant 1 v, hv, hc => by
    simp only [fill, hasTy, canon] at hv hc ⊢
    exact canon_fill a v hv hc
  | .result a b, .variant 0 v, hv, hc => by
    simp only [fill, hasTy, canon] at hv hc ⊢
    exact canon_fill b v hv hc
  | .result a b, .variant (n + 2) v, hv, _ => by simp [fill, hasTy] at hv
  | .result a b, .unit, hv, _ | .result a b, .num _, hv, _ | .result a b, .bool _, hv, _ | .result a b, .bytes _, hv, _
  | .result a b, .list _, hv, _ | .result a b, .pair _ _, hv, _ | .result a b, .none, hv, _ | .result a b, .some _, hv, _ => by
    simp [fill, hasTy] at hv
  | .range t, v, hv, hc => by
    simp only [fill] at hv hc ⊢
    cases v <;> first | (simp only [hasTy] at hv; done) | skip
    rename_i a b
    cases b <;> first | (simp only [hasTy] at hv; done) | skip
    rename_i b c
    cases c <;> simp only [hasTy] at hv
    simp only [canon] at hc ⊢
    exact ⟨canon_fill t a hv.1 hc.1, canon_fill t b hv.2 hc.2⟩
  | .rangeInc t, v, hv, hc => by
    simp only [fill] at hv hc ⊢
    cases v <;> first | (simp only [hasTy] at hv; done) | skip
    rename_i a b
    cases b <;> first | (simp only [hasTy] at hv; done) | skip
    rename_i b c
    cases c <;> simp only [hasTy] at hv
    simp only [canon] at hc ⊢
    exact ⟨hc.1, canon_fill t a hv.1 hc.2.1, canon_fill t b hv.2 hc.2.2⟩
  | .pair a b, v, hv, hc => by
    simp only [fill] at hv hc ⊢
    cases v <;> simp only [hasTy] at hv
    simp only [canon] at hc ⊢
    exact ⟨canon_fill a _ hv.1 hc.1, canon_fill b _ hv.2 hc.2⟩
  | .box t, v, hv, hc => by
    simp only [fill, hasTy, canon] at hv hc ⊢
    exact canon_fill t v hv hc
  | .via c t, v, hv, hc => by
    simp only [fill, hasTy, canon] at hv hc ⊢
    exact canon_fill t v hv.1 hc
  | .struct d fs, v, hv, hc => by
    simp only [fill, hasTy, canon] at hv hc ⊢
    exact canon_fillFields fs v hv hc
  | .enum d .nil, v, hv, hc => by
    simp only [fill] at hv hc ⊢
    exact (hA d).canon v hv hc
  | .enum d (.cons tag fs vs), v, hv, hc => by
    simp only [fill] at hv hc ⊢
    cases v <;> simp only [hasTy] at hv
    simp only [canon] at hc ⊢
    exact canon_fillVariants d (.cons tag fs vs) _ _ hv hc
  | .prim _, _, _, hc | .usize, _, _, hc | .bool, _, _, hc | .char, _, _, hc | .nonZero _, _, _, hc | .atomic _, _, _, hc
  | .ipv4, _, _, hc | .ipv6, _, _, hc | .ipAddr, _, _, hc | .duration, _, _, hc | .systemTime, _, _, hc | .endianness, _, _, hc
  | .varint64, _, _, hc | .uuid, _, _, hc | .str _, _, _, hc | .unit, _, _, hc => by simpa only [fill] using hc
theorem canon_fillFields : ∀ (fs : Fields) (v : Val), hasTyFields T (fillFields u fs) v → canonFields F (fillFields u fs) v →
    canonFields F (fillFields u' fs) v
  | .nil, _, _, hc => hc
  | .cons a t fs, v, hv, hc => by
    simp only [fillFields] at hv hc ⊢
    cases v <;> simp only [hasTyFields] at hv
    simp only [canonFields] at hc ⊢
    refine ⟨?_, canon_fillFields fs _ hv.2 hc.2⟩
    have h1 := hc.1
    by_cases hs : a.skip = true
    · rw [if_pos hs] at h1 ⊢
      exact h1
    · rw [if_neg hs] at h1 ⊢
      exact canon_fill t _ hv.1 h1
theorem canon_fillVariants (d : EnumDesc) : ∀ (vs : Variants) (i : Nat) (v : Val), hasTyVariants T (fillVariants u vs) i v →
    canonVariants F d (fillVariants u vs) i v → canonVariants F d (fillVariants u' vs) i v
  | .nil, _, _, _, hc => hc
  | .cons tag fs vs, 0, v, hv, hc => by
    simp only [fillVariants, hasTyVariants, canonVariants] at hv hc ⊢
    refine ⟨canon_fillFields fs v hv hc.1, fun hp => ?_⟩
    rw [← wire_fillFields hA fs [] v hv]
    exact hc.2 hp
  | .cons tag fs vs, i + 1, v, hv, hc => by
    simp only [fillVariants, hasTyVariants, canonVariants] at hv hc ⊢
    exact canon_fillVariants d vs i v hv hc
end

/-- Templates preserve agreement. -/
theorem agree_fill (c : Ty) : Agree T F (fill u c) (fill u' c) :=
  ⟨opt_fill hA c, fun v hv l => wire_fill hA c l v hv, canon_fill hA c⟩

end

theorem agree_noType {T : Target} {F : Fmt} (u : Ty) : Agree T F noType u :=
  ⟨fun v h => absurd h (noType_empty v), fun v h => absurd h (noType_empty v), fun v h => absurd h (noType_empty v)⟩

/-- Deeper unrollings treat the values in the same way. -/
theorem agree_unroll {T : Target} {F : Fmt} (c : EnumDesc → Ty) : ∀ {n m : Nat}, n ≤ m → ∀ d, Agree T F (unroll c n d) (unroll c m d)
  | 0, _, _, _ => agree_noType _
  | n + 1, m + 1, h, d => agree_fill (agree_unroll c (Nat.le_of_succ_le_succ h)) (c d)

end Verif
