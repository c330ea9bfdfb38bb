import Verif.Settled
import Verif.Recursive

/-!
# Newer versions of a type

`Older T t t'`: the type `t'` is `t` with variants added to enums somewhere in it.  `wire_older`: values of the old type are
written as before.  `parse_older`: what the old type accepts, the new one reads as the same value.
-/

namespace Verif

mutual
/-- `t'` is `t` with variants added to enums.  The compiler may choose another layout for structs which are affected. -/
inductive Older (T : Target) : Ty → Ty → Prop
  | refl (t : Ty) : Older T t t
  | seq {k : SeqKind} {t t' : Ty} : Older T t t' → Older T (.seq k t) (.seq k t')
  | set {t t' : Ty} : Older T t t' → Older T (.set t) (.set t')
  | map {a a' b b' : Ty} : Older T a a' → Older T b b' → Older T (.map a b) (.map a' b')
  | array {n : Nat} {t t' : Ty} : Older T t t' → Older T (.array n t) (.array n t')
  | option {t t' : Ty} : Older T t t' → Older T (.option t) (.option t')
  | result {a a' b b' : Ty} : Older T a a' → Older T b b' → Older T (.result a b) (.result a' b')
  | range {t t' : Ty} : Older T t t' → Older T (.range t) (.range t')
  | rangeInc {t t' : Ty} : Older T t t' → Older T (.rangeInc t) (.rangeInc t')
  | pair {a a' b b' : Ty} : Older T a a' → Older T b b' → Older T (.pair a b) (.pair a' b')
  | box {t t' : Ty} : Older T t t' → Older T (.box t) (.box t')
  | struct {d d' : StructDesc} {fs fs' : Fields} : OlderFields T fs fs' →
      (d = d' ∨ (isPrimitive T (.struct d fs) = false ∧ isPrimitive T (.struct d' fs') = false ∧ zstEmptyFields fs = false)) →
      Older T (.struct d fs) (.struct d' fs')
  | enum {d : EnumDesc} {vs vs' : Variants} : OlderVariants T vs vs' → Older T (.enum d vs) (.enum d vs')
/-- Fields keep their number, order and attributes. -/
inductive OlderFields (T : Target) : Fields → Fields → Prop
  | nil : OlderFields T .nil .nil
  | cons {a : Attrs} {t t' : Ty} {fs fs' : Fields} : Older T t t' → OlderFields T fs fs' →
      OlderFields T (.cons a t fs) (.cons a t' fs')
/-- Variants are added at the end. -/
inductive OlderVariants (T : Target) : Variants → Variants → Prop
  | nil (vs : Variants) : OlderVariants T .nil vs
  | cons {tag : Nat} {fs fs' : Fields} {vs vs' : Variants} : OlderFields T fs fs' → OlderVariants T vs vs' →
      OlderVariants T (.cons tag fs vs) (.cons tag fs' vs')
end

variable {T : Target}

theorem OlderFields.length : ∀ {fs fs' : Fields}, OlderFields T fs fs' → fs.length = fs'.length
  | .nil, _, h => by cases h; rfl
  | .cons .., _, h => by cases h with | cons _ h => simp only [Fields.length, h.length]

theorem OlderFields.canBe : ∀ {fs fs' : Fields}, OlderFields T fs fs' → fs.canBePrimitive = fs'.canBePrimitive
  | .nil, _, h => by cases h; rfl
  | .cons .., _, h => by cases h with | cons _ h => simp only [Fields.canBePrimitive, h.canBe]

mutual
/-- Plain memory contains no enums. -/
theorem older_prim : ∀ (t t' : Ty), Older T t t' → isPrimitive T t = isPrimitive T t' ∧ (isPrimitive T t = true → t = t')
  | .struct d fs, _, h => by
    cases h with
    | refl => exact ⟨rfl, fun _ => rfl⟩
    | struct h hd =>
      rcases hd with rfl | ⟨h1, h2, _⟩
      · obtain ⟨h1, h2⟩ := older_primFields fs _ h
        cases hp : fieldsPrimitive T fs with
        | true => rw [h2 hp]; exact ⟨rfl, fun _ => rfl⟩
        | false =>
          have hp' := h1.symm.trans hp
          have e1 : ∀ gs : Fields, fieldsPrimitive T gs = false → isPrimitive T (.struct d gs) = false := fun gs hg => by
            cases gs with
            | nil => simp [fieldsPrimitive] at hg
            | cons => simp only [isPrimitive, hg]; simp
          rw [e1 _ hp, e1 _ hp']
          exact ⟨rfl, fun h => by cases h⟩
      · rw [h1, h2]; exact ⟨rfl, fun h => by cases h⟩
  | .prim _, _, h | .usize, _, h | .bool, _, h | .char, _, h | .nonZero _, _, h
  | .atomic _, _, h | .ipv4, _, h | .ipv6, _, h | .ipAddr, _, h
  | .duration, _, h | .systemTime, _, h | .endianness, _, h
  | .varint64, _, h | .uuid, _, h | .str _, _, h | .seq _ _, _, h
  | .set _, _, h | .map _ _, _, h | .array _ _, _, h | .refArray _ _, _, h
  | .option _, _, h | .result _ _, _, h | .range _, _, h | .rangeInc _, _, h
  | .unit, _, h | .pair _ _, _, h | .box _, _, h | .via _ _, _, h | .enum _ _, _, h => by
    cases h <;> first
      | exact ⟨rfl, fun _ => rfl⟩
      | exact ⟨rfl, fun h => by simp [isPrimitive] at h⟩
theorem older_primFields : ∀ (fs fs' : Fields), OlderFields T fs fs' →
    fieldsPrimitive T fs = fieldsPrimitive T fs' ∧ (fieldsPrimitive T fs = true → fs = fs')
  | .nil, _, h => by cases h; exact ⟨rfl, fun _ => rfl⟩
  | .cons a t fs, _, h => by
    cases h with
    | cons h1 h2 =>
      obtain ⟨a1, a2⟩ := older_prim t _ h1
      obtain ⟨b1, b2⟩ := older_primFields fs _ h2
      simp only [fieldsPrimitive, a1, b1]
      refine ⟨trivial, fun h => ?_⟩
      rw [← a1, ← b1, Bool.and_eq_true] at h
      rw [a2 h.1, b2 h.2]
end

mutual
/-- Types without encoding do not change. -/
theorem older_zst : ∀ (t t' : Ty), Older T t t' → zstEmpty t = zstEmpty t' ∧
    (zstEmpty t = true → zstVal t = zstVal t' ∧ t.isZst = t'.isZst)
  | .pair a b, _, h => by
    cases h with
    | refl => exact ⟨rfl, fun _ => ⟨rfl, rfl⟩⟩
    | pair h1 h2 =>
      obtain ⟨a1, a2⟩ := older_zst a _ h1
      obtain ⟨b1, b2⟩ := older_zst b _ h2
      simp only [zstEmpty, a1, b1]
      refine ⟨trivial, fun h => ?_⟩
      rw [← a1, ← b1, Bool.and_eq_true] at h
      simp only [zstVal, Ty.isZst, (a2 h.1).1, (b2 h.2).1, (a2 h.1).2, (b2 h.2).2, and_self]
  | .array n t, _, h => by
    cases h with
    | refl => exact ⟨rfl, fun _ => ⟨rfl, rfl⟩⟩
    | array h1 =>
      obtain ⟨a1, a2⟩ := older_zst t _ h1
      simp only [zstEmpty, a1]
      refine ⟨trivial, fun h => ?_⟩
      rw [← a1, Bool.or_eq_true, beq_iff_eq] at h
      rcases h with rfl | h
      · simp [zstVal, Ty.isZst]
      · simp only [zstVal, Ty.isZst, (a2 h).1, (a2 h).2, and_self]
  | .range t, _, h => by
    cases h with
    | refl => exact ⟨rfl, fun _ => ⟨rfl, rfl⟩⟩
    | range h1 =>
      obtain ⟨a1, a2⟩ := older_zst t _ h1
      simp only [zstEmpty, a1]
      refine ⟨trivial, fun h => ?_⟩
      rw [← a1] at h
      simp only [zstVal, Ty.isZst, (a2 h).1, (a2 h).2, and_self]
  | .struct d fs, _, h => by
    cases h with
    | refl => exact ⟨rfl, fun _ => ⟨rfl, rfl⟩⟩
    | struct h hd =>
      obtain ⟨a1, a2⟩ := older_zstFields fs _ h
      simp only [zstEmpty, a1]
      refine ⟨trivial, fun h => ?_⟩
      rw [← a1] at h
      rcases hd with rfl | ⟨_, _, h3⟩
      · simp only [zstVal, Ty.isZst, a2 h, and_self]
      · rw [h] at h3; cases h3
  | .prim _, _, h | .usize, _, h | .bool, _, h | .char, _, h | .nonZero _, _, h
  | .atomic _, _, h | .ipv4, _, h | .ipv6, _, h | .ipAddr, _, h
  | .duration, _, h | .systemTime, _, h | .endianness, _, h
  | .varint64, _, h | .uuid, _, h | .str _, _, h | .seq _ _, _, h
  | .set _, _, h | .map _ _, _, h | .refArray _ _, _, h
  | .option _, _, h | .result _ _, _, h | .rangeInc _, _, h
  | .unit, _, h | .box _, _, h | .via _ _, _, h | .enum _ _, _, h => by
    cases h <;> first
      | exact ⟨rfl, fun _ => ⟨rfl, rfl⟩⟩
      | exact ⟨rfl, fun h => by simp [zstEmpty] at h⟩
theorem older_zstFields : ∀ (fs fs' : Fields), OlderFields T fs fs' → zstEmptyFields fs = zstEmptyFields fs' ∧
    (zstEmptyFields fs = true → zstFields fs = zstFields fs')
  | .nil, _, h => by cases h; exact ⟨rfl, fun _ => rfl⟩
  | .cons a t fs, _, h => by
    cases h with
    | cons h1 h2 =>
      obtain ⟨a1, a2⟩ := older_zst t _ h1
      obtain ⟨b1, b2⟩ := older_zstFields fs _ h2
      simp only [zstEmptyFields, a1, b1]
      refine ⟨trivial, fun h => ?_⟩
      rw [← a1, ← b1] at h
      simp only [Bool.and_eq_true] at h
      simp only [zstFields, (a2 h.1.1.1).1, b2 h.2]
end

/-- The size of a type without encoding stays zero, or stays not zero. -/
theorem older_size (hT : T.Ok) {t t' : Ty} (h : Older T t t') (hz : zstEmpty t = true) : sizeOf T t = 0 ↔ sizeOf T t' = 0 := by
  have key : ∀ u : Ty, sizeOf T u = 0 ↔ u.isZst = true := fun u => by
    have := hT.opaque_pos u
    unfold sizeOf
    split
    · cases ‹Prim› <;> simp [Prim.size, Ty.isZst]
    · simp [Ty.isZst]
    · cases hu : u.isZst <;> simp <;> omega
  rw [key, key, ((older_zst t t' h).2 hz).2]

theorem older_opt (cx : Cx) {t t' : Ty} (h : Older T t t') : cx.opt t = cx.opt t' := by cases h <;> rfl
theorem older_lopt (l : LenR) {t t' : Ty} (h : Older T t t') : l.opt t = l.opt t' := by cases h <;> rfl

mutual
/-- The minimum sizes are those of before. -/
theorem older_min : ∀ (t t' : Ty), Older T t t' → minBytes T t = minBytes T t'
  | .array n t, _, h => by
    cases h with
    | refl => rfl
    | array h => simp only [minBytes, older_min t _ h]
  | .range t, _, h => by
    cases h with
    | refl => rfl
    | range h => simp only [minBytes, older_min t _ h]
  | .rangeInc t, _, h => by
    cases h with
    | refl => rfl
    | rangeInc h => simp only [minBytes, older_min t _ h]
  | .pair a b, _, h => by
    cases h with
    | refl => rfl
    | pair h1 h2 => simp only [minBytes, older_min a _ h1, older_min b _ h2]
  | .box t, _, h => by
    cases h with
    | refl => rfl
    | box h => simp only [minBytes, older_min t _ h]
  | .struct d fs, _, h => by
    cases h with
    | refl => rfl
    | struct h => simp only [minBytes, older_minFields fs _ h]
  | .prim _, _, h | .usize, _, h | .bool, _, h | .char, _, h | .nonZero _, _, h
  | .atomic _, _, h | .ipv4, _, h | .ipv6, _, h | .ipAddr, _, h
  | .duration, _, h | .systemTime, _, h | .endianness, _, h
  | .varint64, _, h | .uuid, _, h | .str _, _, h | .seq _ _, _, h
  | .set _, _, h | .map _ _, _, h | .refArray _ _, _, h
  | .option _, _, h | .result _ _, _, h
  | .unit, _, h | .via _ _, _, h | .enum _ _, _, h => by cases h <;> first | rfl | simp only [minBytes]
theorem older_minFields : ∀ (fs fs' : Fields), OlderFields T fs fs' → fieldsMin T fs = fieldsMin T fs'
  | .nil, _, h => by cases h; rfl
  | .cons a t fs, _, h => by
    cases h with
    | cons h1 h2 =>
      have ho : ∀ n : Nat, (match t with | .option _ => 1 | _ => n) = (match ‹Ty› with | .option _ => 1 | _ => n) := fun n => by
        cases h1 <;> rfl
      simp only [fieldsMin, older_min t _ h1, older_minFields fs _ h2]
      cases h1 <;> rfl
end

/-! ## Writing -/

theorem range_ty {t : Ty} {v : Val} (h : hasTy T (.range t) v) : ∃ a b, v = .pair a (.pair b .unit) ∧ hasTy T t a ∧ hasTy T t b := by
  unfold hasTy at h
  split at h <;> first | contradiction | skip
  all_goals simp_all
  exact ⟨_, _, ⟨rfl, rfl⟩, h⟩

theorem rangeInc_ty {t : Ty} {v : Val} (h : hasTy T (.rangeInc t) v) :
    ∃ a b x, v = .pair a (.pair b (.bool x)) ∧ hasTy T t a ∧ hasTy T t b := by
  unfold hasTy at h
  split at h <;> first | contradiction | skip
  all_goals simp_all
  exact ⟨_, _, ⟨rfl, rfl⟩, h⟩

mutual
/-- Values of the old type are written as before. -/
theorem wire_older {F : Fmt} : ∀ (t t' : Ty), Older T t t' → ∀ (l : LenR) (v : Val), hasTy T t v → wire F t l v = wire F t' l v
  | .seq k t, _, h, l, v, hv => by
    cases h with
    | refl => rfl
    | seq h =>
      cases v <;> simp only [hasTy] at hv
      simp only [wire]
      rw [catAll_congr fun v hm => wire_older t _ h LenR.std v (hv.1 v hm)]
  | .set t, _, h, l, v, hv => by
    cases h with
    | refl => rfl
    | set h =>
      cases v <;> simp only [hasTy] at hv
      simp only [wire]
      rw [catAll_congr fun v hm => wire_older t _ h LenR.std v (hv.1 v hm)]
  | .map a b, _, h, l, v, hv => by
    cases h with
    | refl => rfl
    | map h1 h2 =>
      cases v <;> simp only [hasTy] at hv
      simp only [wire]
      congr 1
      refine catAll_congr fun v hm => ?_
      obtain ⟨x, y, rfl, hx, hy⟩ := hv.1 v hm
      simp only
      rw [wire_older a _ h1 LenR.std x hx, wire_older b _ h2 LenR.std y hy]
  | .array n t, _, h, l, v, hv => by
    cases h with
    | refl => rfl
    | array h =>
      cases v <;> simp only [hasTy] at hv
      simp only [wire]
      rw [catAll_congr fun v hm => wire_older t _ h LenR.std v (hv.2 v hm)]
  | .option t, _, h, l, v, hv => by
    cases h with
    | refl => rfl
    | option h =>
      cases v <;> simp only [hasTy] at hv
      · simp only [wire]
      · simp only [wire]
        rw [wire_older t _ h _ _ hv, older_lopt l h]
  | .result a b, _, h, l, v, hv => by
    cases h with
    | refl => rfl
    | result h1 h2 =>
      cases v with
      | variant i u =>
        match i, hv with
        | 0, hv => simp only [hasTy] at hv; simp only [wire]; rw [wire_older b _ h2 _ _ hv]
        | 1, hv => simp only [hasTy] at hv; simp only [wire]; rw [wire_older a _ h1 _ _ hv]
        | _ + 2, hv => simp only [hasTy] at hv
      | _ => simp only [hasTy] at hv
  | .range t, _, h, l, v, hv => by
    cases h with
    | refl => rfl
    | range h =>
      obtain ⟨a, b, rfl, ha, hb⟩ := range_ty hv
      simp only [wire]
      rw [wire_older t _ h _ _ ha, wire_older t _ h _ _ hb]
  | .rangeInc t, _, h, l, v, hv => by
    cases h with
    | refl => rfl
    | rangeInc h =>
      obtain ⟨a, b, x, rfl, ha, hb⟩ := rangeInc_ty hv
      simp only [wire]
      rw [wire_older t _ h _ _ ha, wire_older t _ h _ _ hb]
  | .pair a b, _, h, l, v, hv => by
    cases h with
    | refl => rfl
    | pair h1 h2 =>
      cases v <;> simp only [hasTy] at hv
      simp only [wire]
      rw [wire_older a _ h1 _ _ hv.1, wire_older b _ h2 _ _ hv.2]
  | .box t, _, h, l, v, hv => by
    cases h with
    | refl => rfl
    | box h =>
      simp only [hasTy] at hv
      simp only [wire]
      rw [wire_older t _ h _ _ hv]
  | .struct d fs, _, h, l, v, hv => by
    cases h with
    | refl => rfl
    | struct h =>
      simp only [hasTy] at hv
      simp only [wire]
      rw [wireFields_older fs _ h _ _ hv]
  | .enum d vs, _, h, l, v, hv => by
    cases h with
    | refl => rfl
    | enum h =>
      cases v <;> simp only [hasTy] at hv
      simp only [wire]
      rw [wireVariants_older d vs _ h _ _ hv]
  | .prim _, _, h, _, _, _ | .usize, _, h, _, _, _ | .bool, _, h, _, _, _ | .char, _, h, _, _, _ | .nonZero _, _, h, _, _, _
  | .atomic _, _, h, _, _, _ | .ipv4, _, h, _, _, _ | .ipv6, _, h, _, _, _ | .ipAddr, _, h, _, _, _
  | .duration, _, h, _, _, _ | .systemTime, _, h, _, _, _ | .endianness, _, h, _, _, _
  | .varint64, _, h, _, _, _ | .uuid, _, h, _, _, _ | .str _, _, h, _, _, _ | .refArray _ _, _, h, _, _, _
  | .unit, _, h, _, _, _ | .via _ _, _, h, _, _, _ => by cases h; rfl
theorem wireFields_older {F : Fmt} : ∀ (fs fs' : Fields), OlderFields T fs fs' → ∀ (prev : List Val) (v : Val), hasTyFields T fs v →
    wireFields F fs prev v = wireFields F fs' prev v
  | .nil, _, h, _, _, _ => by cases h; rfl
  | .cons a t fs, _, h, prev, v, hv => by
    cases h with
    | cons h1 h2 =>
      cases v <;> simp only [hasTyFields] at hv
      simp only [wireFields]
      rw [wire_older t _ h1 _ _ hv.1, wireFields_older fs _ h2 _ _ hv.2, wireFields_older fs _ h2 _ _ hv.2]
theorem wireVariants_older {F : Fmt} (d : EnumDesc) : ∀ (vs vs' : Variants), OlderVariants T vs vs' → ∀ (i : Nat) (v : Val),
    hasTyVariants T vs i v → wireVariants F d vs i v = wireVariants F d vs' i v
  | .nil, _, _, _, _, hv => by simp only [hasTyVariants] at hv
  | .cons tag fs vs, _, h, i, v, hv => by
    cases h with
    | cons h1 h2 =>
      cases i with
      | zero =>
        simp only [hasTyVariants] at hv
        simp only [wireVariants]
        rw [wireFields_older fs _ h1 _ _ hv]
      | succ i =>
        simp only [hasTyVariants] at hv
        simp only [wireVariants]
        exact wireVariants_older d vs _ h2 i v hv
end

mutual
/-- Values of the old type which are read back as they are still are. -/
theorem canon_older {F : Fmt} : ∀ (t t' : Ty), Older T t t' → ∀ (v : Val), hasTy T t v → canon F t v → canon F t' v
  | .seq k t, _, h, v, hv, hc => by
    cases h with
    | refl => exact hc
    | seq h =>
      cases v <;> simp only [hasTy] at hv
      simp only [canon] at hc ⊢
      exact fun v hm => canon_older t _ h v (hv.1 v hm) (hc v hm)
  | .set t, _, h, v, hv, hc => by
    cases h with
    | refl => exact hc
    | set h =>
      cases v <;> simp only [hasTy] at hv
      simp only [canon] at hc ⊢
      exact fun v hm => canon_older t _ h v (hv.1 v hm) (hc v hm)
  | .map a b, _, h, v, hv, hc => by
    cases h with
    | refl => exact hc
    | map h1 h2 =>
      cases v <;> simp only [hasTy] at hv
      simp only [canon] at hc ⊢
      intro x y hm
      obtain ⟨_, _, he, hx, hy⟩ := hv.1 _ hm
      simp only [Val.pair.injEq, and_true] at he
      obtain ⟨rfl, rfl⟩ := he
      exact ⟨canon_older a _ h1 _ hx (hc _ _ hm).1, canon_older b _ h2 _ hy (hc _ _ hm).2⟩
  | .array n t, _, h, v, hv, hc => by
    cases h with
    | refl => exact hc
    | array h =>
      cases v <;> simp only [hasTy] at hv
      simp only [canon] at hc ⊢
      exact fun v hm => canon_older t _ h v (hv.2 v hm) (hc v hm)
  | .option t, _, h, v, hv, hc => by
    cases h with
    | refl => exact hc
    | option h =>
      cases v <;> simp only [hasTy] at hv
      · simp only [canon]
      · simp only [canon] at hc ⊢
        exact canon_older t _ h _ hv hc
  | .result a b, _, h, v, hv, hc => by
    cases h with
    | refl => exact hc
    | result h1 h2 =>
      cases v with
      | variant i u =>
        match i, hv, hc with
        | 0, hv, hc => simp only [hasTy] at hv; simp only [canon] at hc ⊢; exact canon_older b _ h2 _ hv hc
        | 1, hv, hc => simp only [hasTy] at hv; simp only [canon] at hc ⊢; exact canon_older a _ h1 _ hv hc
        | _ + 2, hv, _ => simp only [hasTy] at hv
      | _ => simp only [hasTy] at hv
  | .range t, _, h, v, hv, hc => by
    cases h with
    | refl => exact hc
    | range h =>
      obtain ⟨a, b, rfl, ha, hb⟩ := range_ty hv
      simp only [canon] at hc ⊢
      exact ⟨canon_older t _ h _ ha hc.1, canon_older t _ h _ hb hc.2⟩
  | .rangeInc t, _, h, v, hv, hc => by
    cases h with
    | refl => exact hc
    | rangeInc h =>
      obtain ⟨a, b, x, rfl, ha, hb⟩ := rangeInc_ty hv
      simp only [canon] at hc ⊢
      exact ⟨hc.1, canon_older t _ h _ ha hc.2.1, canon_older t _ h _ hb hc.2.2⟩
  | .pair a b, _, h, v, hv, hc => by
    cases h with
    | refl => exact hc
    | pair h1 h2 =>
      cases v <;> simp only [hasTy] at hv
      simp only [canon] at hc ⊢
      exact ⟨canon_older a _ h1 _ hv.1 hc.1, canon_older b _ h2 _ hv.2 hc.2⟩
  | .box t, _, h, v, hv, hc => by
    cases h with
    | refl => exact hc
    | box h =>
      simp only [hasTy] at hv
      simp only [canon] at hc ⊢
      exact canon_older t _ h _ hv hc
  | .struct d fs, _, h, v, hv, hc => by
    cases h with
    | refl => exact hc
    | struct h =>
      simp only [hasTy] at hv
      simp only [canon] at hc ⊢
      exact canonFields_older fs _ h _ hv hc
  | .enum d vs, _, h, v, hv, hc => by
    cases h with
    | refl => exact hc
    | enum h =>
      cases v <;> simp only [hasTy] at hv
      simp only [canon] at hc ⊢
      exact canonVariants_older d vs _ h _ _ hv hc
  | .prim _, _, h, _, _, hc | .usize, _, h, _, _, hc | .bool, _, h, _, _, hc | .char, _, h, _, _, hc | .nonZero _, _, h, _, _, hc
  | .atomic _, _, h, _, _, hc | .ipv4, _, h, _, _, hc | .ipv6, _, h, _, _, hc | .ipAddr, _, h, _, _, hc
  | .duration, _, h, _, _, hc | .systemTime, _, h, _, _, hc | .endianness, _, h, _, _, hc
  | .varint64, _, h, _, _, hc | .uuid, _, h, _, _, hc | .str _, _, h, _, _, hc | .refArray _ _, _, h, _, _, hc
  | .unit, _, h, _, _, hc | .via _ _, _, h, _, _, hc => by cases h; exact hc
theorem canonFields_older {F : Fmt} : ∀ (fs fs' : Fields), OlderFields T fs fs' → ∀ (v : Val), hasTyFields T fs v →
    canonFields F fs v → canonFields F fs' v
  | .nil, _, h, _, _, hc => by cases h; exact hc
  | .cons a t fs, _, h, v, hv, hc => by
    cases h with
    | cons h1 h2 =>
      cases v <;> simp only [hasTyFields] at hv
      simp only [canonFields] at hc ⊢
      refine ⟨?_, canonFields_older fs _ h2 _ hv.2 hc.2⟩
      have h := hc.1
      split
      · rwa [if_pos ‹_›] at h
      · rw [if_neg ‹_›] at h; exact canon_older t _ h1 _ hv.1 h
theorem canonVariants_older {F : Fmt} (d : EnumDesc) : ∀ (vs vs' : Variants), OlderVariants T vs vs' → ∀ (i : Nat) (v : Val),
    hasTyVariants T vs i v → canonVariants F d vs i v → canonVariants F d vs' i v
  | .nil, _, _, _, _, hv, _ => by simp only [hasTyVariants] at hv
  | .cons tag fs vs, _, h, i, v, hv, hc => by
    cases h with
    | cons h1 h2 =>
      cases i with
      | zero =>
        simp only [hasTyVariants] at hv
        simp only [canonVariants] at hc ⊢
        rw [← wireFields_older fs _ h1 _ _ hv]
        exact ⟨canonFields_older fs _ h1 _ hv hc.1, hc.2⟩
      | succ i =>
        simp only [hasTyVariants] at hv
        simp only [canonVariants] at hc ⊢
        exact canonVariants_older d vs _ h2 i v hv hc
end

/-! ## Reading -/

/-- A failure with one of some errors (or no claim), while another result is `other`. -/
def Stuck {α : Type} (S : Err → Prop) (r other : PRes α) : Prop :=
  r = .unspec ∨ ∃ er, S er ∧ (r = .fail er ∨ (r = .amb er ∧ ∀ a rest, other ≠ .ok a rest))

/-- The elements of the new type need too much memory. -/
def TooLarge (er : Err) : Prop := er = .panic .capacityOverflow

/-- The old type does not know the variant, or its elements need too much memory. -/
def Unknown (er : Err) : Prop := er = .invalidEnumVariant ∨ er = .panic .capacityOverflow

theorem tooLarge_eof {er : Err} (h : TooLarge er) : er.isEof = false := by rw [h]; rfl
theorem unknown_eof {er : Err} (h : Unknown er) : er.isEof = false := by rcases h with rfl | rfl <;> rfl

/-- Results with the old and the new type. -/
def Akin {α : Type} (r r' : PRes α) : Prop := r = r' ∨ Stuck Unknown r r' ∨ Stuck TooLarge r' r

/-- The same for parsers. -/
def Grows {α : Type} (p p' : P α) : Prop := ∀ bs, Akin (p bs) (p' bs)

section
variable {α β : Type}

theorem stuck_fail {S : Err → Prop} {er : Err} (h : S er) (r : PRes α) : Stuck S (.fail er) r := .inr ⟨er, h, .inl rfl⟩

theorem stuck_bind {S : Err → Prop} {p p' : P α} {f f' : α → P β} {bs : Bytes} (h : Stuck S (p bs) (p' bs)) :
    Stuck S (P.bind p f bs) (P.bind p' f' bs) := by
  rcases h with h | ⟨er, hs, h | ⟨h, h'⟩⟩
  · exact .inl (by simp [P.bind, h])
  · exact .inr ⟨er, hs, .inl (by simp [P.bind, h])⟩
  · refine .inr ⟨er, hs, .inr ⟨by simp [P.bind, h], fun a rest => ?_⟩⟩
    simp only [P.bind]
    cases hp : p' bs with
    | ok a rest => exact absurd hp (h' _ _)
    | _ => simp

theorem stuck_onEof {S : Err → Prop} (hS : ∀ {er}, S er → er.isEof = false) {p p' : P α} {d : α} {bs : Bytes}
    (h : Stuck S (p bs) (p' bs)) : Stuck S (pOnEof p d bs) (pOnEof p' d bs) := by
  rcases h with h | ⟨er, hs, h | ⟨h, h'⟩⟩
  · exact .inl (by simp [pOnEof, h])
  · exact .inr ⟨er, hs, .inl (by simp [pOnEof, h, hS hs])⟩
  · exact .inl (by simp [pOnEof, h])

theorem stuck_untilEof {S : Err → Prop} (hS : ∀ {er}, S er → er.isEof = false) {p p' : P Val} {n : Nat} {bs : Bytes}
    (h : Stuck S (p bs) (p' bs)) : Stuck S (pUntilEof (n + 1) p bs) (pUntilEof (n + 1) p' bs) := by
  rcases h with h | ⟨er, hs, h | ⟨h, h'⟩⟩
  · exact .inl (by simp [pUntilEof, h])
  · exact .inr ⟨er, hs, .inl (by simp [pUntilEof, h, hS hs])⟩
  · exact .inl (by simp [pUntilEof, h])

theorem stuck_rest {S : Err → Prop} {r r' : PRes (List Val)} {v : Val} : Stuck S r r' →
    Stuck S (match r with | .ok vs rest' => .ok (v :: vs) rest' | r => r)
      (match r' with | .ok vs rest' => .ok (v :: vs) rest' | r => r) := by
  intro h
  rcases h with rfl | ⟨er, hs, rfl | ⟨rfl, h'⟩⟩
  · exact .inl rfl
  · exact .inr ⟨er, hs, .inl rfl⟩
  · refine .inr ⟨er, hs, .inr ⟨rfl, fun a rest => ?_⟩⟩
    cases r' with
    | ok a rest => exact absurd rfl (h' _ _)
    | _ => simp

theorem stuck_precheck {S : Err → Prop} (hS : ∀ {er}, S er → er.isEof = false) {r r' : PRes α} (h : Stuck S r r') :
    Stuck S (precheck r) (precheck r') := by
  have hn : ∀ a rest, precheck r' ≠ .ok a rest := fun a rest => by
    cases r' with
    | fail e => simp only [precheck]; split <;> simp
    | _ => simp [precheck]
  rcases h with rfl | ⟨er, hs, rfl | ⟨rfl, _⟩⟩
  · exact .inl rfl
  · exact .inr ⟨er, hs, .inr ⟨by simp [precheck, hS hs], hn⟩⟩
  · exact .inr ⟨er, hs, .inr ⟨rfl, hn⟩⟩

theorem Grows.refl (p : P α) : Grows p p := fun _ => .inl rfl

theorem grows_bind {p p' : P α} {f f' : α → P β} (hp : Grows p p') (hf : ∀ a, Grows (f a) (f' a)) :
    Grows (P.bind p f) (P.bind p' f') := fun bs => by
  rcases hp bs with h | h | h
  · simp only [P.bind, h]
    split
    · exact hf _ _
    all_goals exact .inl rfl
  · exact .inr (.inl (stuck_bind h))
  · exact .inr (.inr (stuck_bind h))

theorem grows_map {p p' : P α} (f : α → β) (hp : Grows p p') : Grows (P.map f p) (P.map f p') :=
  grows_bind hp fun _ => Grows.refl _

theorem grows_rep {p p' : P α} (hp : Grows p p') : ∀ n, Grows (pRep n p) (pRep n p')
  | 0 => Grows.refl _
  | n + 1 => grows_bind hp fun _ => grows_bind (grows_rep hp n) fun _ => Grows.refl _

theorem grows_onEof {p p' : P α} (hp : Grows p p') (d : α) : Grows (pOnEof p d) (pOnEof p' d) := fun bs => by
  rcases hp bs with h | h | h
  · exact .inl (by simp only [pOnEof, h])
  · exact .inr (.inl (stuck_onEof unknown_eof h))
  · exact .inr (.inr (stuck_onEof tooLarge_eof h))

theorem grows_untilEof {p p' : P Val} (hp : Grows p p') : ∀ n, Grows (pUntilEof n p) (pUntilEof n p')
  | 0 => Grows.refl _
  | n + 1 => fun bs => by
    rcases hp bs with h | h | h
    · simp only [pUntilEof, h]
      split
      · split
        · rename_i v rest _ _
          rcases grows_untilEof hp n rest with h | h | h
          · exact .inl (by rw [h])
          · exact .inr (.inl (stuck_rest h))
          · exact .inr (.inr (stuck_rest h))
        · exact .inl rfl
      all_goals exact .inl rfl
    · exact .inr (.inl (stuck_untilEof unknown_eof h))
    · exact .inr (.inr (stuck_untilEof tooLarge_eof h))

theorem grows_pair {p p' q q' : P Val} (hp : Grows p p') (hq : Grows q q') : Grows (pPair p q) (pPair p' q') :=
  grows_bind hp fun _ => grows_bind hq fun _ => Grows.refl _

theorem grows_precheck {r r' : PRes α} (h : Akin r r') : Akin (precheck r) (precheck r') := by
  rcases h with h | h | h
  · exact .inl (by rw [h])
  · exact .inr (.inl (stuck_precheck unknown_eof h))
  · exact .inr (.inr (stuck_precheck tooLarge_eof h))
end

theorem grows_vec (hT : T.Ok) {e : Endian} {t t' : Ty} (h : Older T t t') (hr : vecOk T e t = true) (hr' : vecOk T e t' = true)
    (hq : isPrimitive T t = false) {p p' : P Val} (hp : Grows p p') (n : Nat) : Grows (pVec T e t p n) (pVec T e t' p' n) := fun bs => by
  have h1 := (older_prim t t' h).1
  have hm := older_min t t' h
  have hq' := h1.symm.trans hq
  simp only [vecOk, hq, hq', Bool.false_eq_true, if_false, Bool.or_eq_true, bne_iff_ne] at hr hr'
  have hz : (sizeOf T t = 0 ↔ sizeOf T t' = 0) ∧ (sizeOf T t = 0 → zstVal t = zstVal t') := by
    cases hz : zstEmpty t with
    | true => exact ⟨older_size hT h hz, fun _ => ((older_zst t t' h).2 hz).1⟩
    | false =>
      have hz' := ((older_zst t t' h).1).symm.trans hz
      rw [hz] at hr
      rw [hz'] at hr'
      simp_all
  simp only [pVec, hq, hq', hm, Bool.false_and, Bool.false_eq_true, if_false, Bool.not_false, Bool.true_and]
  split
  · exact .inl rfl
  have core : Akin (if n * sizeOf T t > T.isizeMax then PRes.fail (.panic .capacityOverflow)
      else if sizeOf T t == 0 then .ok (List.replicate n (zstVal t)) bs else pRep n p bs)
      (if n * sizeOf T t' > T.isizeMax then PRes.fail (.panic .capacityOverflow)
      else if sizeOf T t' == 0 then .ok (List.replicate n (zstVal t')) bs else pRep n p' bs) := by
    by_cases c1 : n * sizeOf T t > T.isizeMax
    · rw [if_pos c1]; exact .inr (.inl (stuck_fail (.inr rfl) _))
    by_cases c2 : n * sizeOf T t' > T.isizeMax
    · rw [if_pos c2]; exact .inr (.inr (stuck_fail (S := TooLarge) rfl _))
    rw [if_neg c1, if_neg c2]
    by_cases h0 : sizeOf T t = 0
    · rw [if_pos (by simpa using h0), if_pos (by simpa using hz.1.mp h0), hz.2 h0]
      exact .inl rfl
    · rw [if_neg (by simpa using h0), if_neg (by simpa using fun h => h0 (hz.1.mpr h))]
      exact grows_rep hp n bs
  split
  · exact grows_precheck core
  · exact core

mutual
/-- Reading with the old and the new type. -/
theorem parse_older (hT : T.Ok) {e : Endian} : ∀ (t t' : Ty), Older T t t' → regular T e t = true → regular T e t' = true →
    ∀ cx, Grows (parse T e t cx) (parse T e t' cx)
  | .seq k t, _, h, hr, hr', cx => by
    cases h with
    | refl => exact Grows.refl _
    | @seq _ _ t' h =>
      simp only [regular, Bool.and_eq_true] at hr hr'
      have hp := parse_older hT t t' h hr.1.2 hr'.1.2 Cx.std
      obtain ⟨h1, h2⟩ := older_prim t t' h
      cases hq : isPrimitive T t with
      | true => obtain rfl := h2 hq; exact Grows.refl _
      | false =>
        have hq' := h1.symm.trans hq
        have hk : (k == .ref) = false := by
          cases k with
          | ref => simp [hq] at hr
          | _ => rfl
        simp only [parse, hk, Bool.false_and, Bool.false_eq_true, if_false]
        refine grows_bind (Grows.refl _) fun len => ?_
        have hv := grows_vec hT h hr.1.1 hr'.1.1 hq hp
        cases k with
        | ref => simp at hk
        | vec =>
          cases len with
          | none => exact grows_map _ (grows_untilEof hp _)
          | some n => exact grows_map _ (hv n)
        | cow =>
          cases len with
          | none => exact grows_map _ (grows_untilEof hp _)
          | some n =>
            refine grows_map _ ?_
            simp only [pCow, hq, hq', Bool.false_and, Bool.false_eq_true, if_false]
            exact hv n
  | .set t, _, h, hr, hr', cx => by
    cases h with
    | refl => exact Grows.refl _
    | @set _ t' h =>
      simp only [regular, Bool.and_eq_true] at hr hr'
      have hp := parse_older hT t t' h hr.2 hr'.2 Cx.std
      obtain ⟨h1, h2⟩ := older_prim t t' h
      cases hq : isPrimitive T t with
      | true => obtain rfl := h2 hq; exact Grows.refl _
      | false =>
        have hq' := h1.symm.trans hq
        simp only [parse]
        refine grows_bind (Grows.refl _) fun len => ?_
        cases len with
        | none => exact grows_map _ (grows_untilEof hp _)
        | some n =>
          refine grows_map _ ?_
          simp only [pColl, hq, hq', Bool.false_and, Bool.false_eq_true, if_false]
          exact grows_rep hp n
  | .map a b, _, h, hr, hr', cx => by
    cases h with
    | refl => exact Grows.refl _
    | @map _ a' _ b' h h' =>
      simp only [regular, Bool.and_eq_true] at hr hr'
      have hp := parse_older hT a a' h hr.1.2 hr'.1.2 Cx.std
      have hp' := parse_older hT b b' h' hr.2 hr'.2 Cx.std
      obtain ⟨h1, h2⟩ := older_prim a a' h
      obtain ⟨h1', h2'⟩ := older_prim b b' h'
      cases hq : isPrimitive T a && isPrimitive T b with
      | true =>
        rw [Bool.and_eq_true] at hq
        obtain rfl := h2 hq.1
        obtain rfl := h2' hq.2
        exact Grows.refl _
      | false =>
        have hq' := hq
        rw [h1, h1'] at hq'
        simp only [parse]
        refine grows_bind (Grows.refl _) fun len => ?_
        cases len with
        | none => exact grows_map _ (grows_untilEof (grows_pair hp hp') _)
        | some n =>
          refine grows_map _ ?_
          simp only [pKV, hq, hq', Bool.false_and, Bool.false_eq_true, if_false]
          exact grows_rep (grows_pair hp hp') n
  | .array n t, _, h, hr, hr', cx => by
    cases h with
    | refl => exact Grows.refl _
    | @array _ _ t' h =>
      simp only [regular, Bool.and_eq_true] at hr hr'
      have hp := parse_older hT t t' h hr.2 hr'.2 Cx.std
      obtain ⟨h1, h2⟩ := older_prim t t' h
      cases hq : isPrimitive T t with
      | true => obtain rfl := h2 hq; exact Grows.refl _
      | false =>
        have hq' := h1.symm.trans hq
        simp only [parse, pArray, hq, hq', Bool.false_and, Bool.and_false, Bool.false_eq_true, if_false]
        exact grows_map _ (grows_rep hp n)
  | .option t, _, h, hr, hr', cx => by
    cases h with
    | refl => exact Grows.refl _
    | @option _ t' h =>
      simp only [regular] at hr hr'
      simp only [parse, ← older_opt cx h]
      refine grows_bind (Grows.refl _) fun flag => ?_
      split
      · exact grows_map _ (parse_older hT t t' h hr hr' _)
      · exact Grows.refl _
  | .result a b, _, h, hr, hr', cx => by
    cases h with
    | refl => exact Grows.refl _
    | @result _ a' _ b' h h' =>
      simp only [regular, Bool.and_eq_true] at hr hr'
      simp only [parse]
      refine grows_bind (Grows.refl _) fun flag => ?_
      split
      · exact grows_map _ (parse_older hT a a' h hr.1 hr'.1 _)
      · exact grows_map _ (parse_older hT b b' h' hr.2 hr'.2 _)
  | .range t, _, h, hr, hr', cx => by
    cases h with
    | refl => exact Grows.refl _
    | @range _ t' h =>
      simp only [regular] at hr hr'
      have hp := parse_older hT t t' h hr hr' Cx.std
      simp only [parse]
      exact grows_bind hp fun _ => grows_bind hp fun _ => Grows.refl _
  | .rangeInc t, _, h, hr, hr', cx => by
    cases h with
    | refl => exact Grows.refl _
    | @rangeInc _ t' h =>
      simp only [regular] at hr hr'
      have hp := parse_older hT t t' h hr hr' Cx.std
      simp only [parse]
      exact grows_bind hp fun _ => grows_bind hp fun _ => Grows.refl _
  | .pair a b, _, h, hr, hr', cx => by
    cases h with
    | refl => exact Grows.refl _
    | @pair _ a' _ b' h h' =>
      simp only [regular, Bool.and_eq_true] at hr hr'
      simp only [parse]
      exact grows_bind (parse_older hT a a' h hr.1 hr'.1 _) fun _ =>
        grows_bind (parse_older hT b b' h' hr.2 hr'.2 _) fun _ => Grows.refl _
  | .box t, _, h, hr, hr', cx => by
    cases h with
    | refl => exact Grows.refl _
    | @box _ t' h =>
      simp only [regular] at hr hr'
      simp only [parse]
      exact parse_older hT t t' h hr hr' Cx.std
  | .struct d fs, _, h, hr, hr', cx => by
    cases h with
    | refl => exact Grows.refl _
    | @struct _ _ _ fs' h =>
      simp only [regular] at hr hr'
      simp only [parse]
      exact parseFields_older hT fs fs' h hr hr' _
  | .enum d vs, _, h, hr, hr', cx => by
    cases h with
    | refl => exact Grows.refl _
    | @enum _ _ vs' h =>
      simp only [regular] at hr hr'
      simp only [parse]
      exact grows_bind (Grows.refl _) fun tag => parseVariants_older hT vs vs' h hr hr' _ _
  | .prim _, _, h, _, _, _ | .usize, _, h, _, _, _ | .bool, _, h, _, _, _ | .char, _, h, _, _, _ | .nonZero _, _, h, _, _, _
  | .atomic _, _, h, _, _, _ | .ipv4, _, h, _, _, _ | .ipv6, _, h, _, _, _ | .ipAddr, _, h, _, _, _
  | .duration, _, h, _, _, _ | .systemTime, _, h, _, _, _ | .endianness, _, h, _, _, _
  | .varint64, _, h, _, _, _ | .uuid, _, h, _, _, _ | .str _, _, h, _, _, _ | .refArray _ _, _, h, _, _, _
  | .unit, _, h, _, _, _ | .via _ _, _, h, _, _, _ => by cases h; exact Grows.refl _
theorem parseFields_older (hT : T.Ok) {e : Endian} : ∀ (fs fs' : Fields), OlderFields T fs fs' → regularFields T e fs = true →
    regularFields T e fs' = true → ∀ prev, Grows (parseFields T e fs prev) (parseFields T e fs' prev)
  | .nil, _, h, _, _, _ => by cases h; exact Grows.refl _
  | .cons a t fs, _, h, hr, hr', prev => by
    cases h with
    | @cons _ _ t' _ fs' h1 h2 =>
      simp only [regularFields, Bool.and_eq_true] at hr hr'
      have hf := parseFields_older hT fs fs' h2 hr.2 hr'.2
      have ht := parse_older hT t t' h1 hr.1.2 hr'.1.2
      simp only [parseFields]
      split
      · exact grows_map _ (hf _)
      refine grows_bind ?_ fun v => grows_map _ (hf _)
      have h1 : Grows (if a.varint = true then P.map Val.num pVarint else parse T e t (a.cx T.toHost prev))
          (if a.varint = true then P.map Val.num pVarint else parse T e t' (a.cx T.toHost prev)) := by
        split
        · exact Grows.refl _
        · exact ht _
      have h2 : Grows (if a.pre.isEmpty = true then (if a.varint = true then P.map Val.num pVarint else parse T e t (a.cx T.toHost prev))
            else P.bind (pConst T a.pre) fun _ => if a.varint = true then P.map Val.num pVarint else parse T e t (a.cx T.toHost prev))
          (if a.pre.isEmpty = true then (if a.varint = true then P.map Val.num pVarint else parse T e t' (a.cx T.toHost prev))
            else P.bind (pConst T a.pre) fun _ => if a.varint = true then P.map Val.num pVarint else parse T e t' (a.cx T.toHost prev)) := by
        split
        · exact h1
        · exact grows_bind (Grows.refl _) fun _ => h1
      split
      · exact grows_onEof h2 _
      · exact h2
theorem parseVariants_older (hT : T.Ok) {e : Endian} : ∀ (vs vs' : Variants), OlderVariants T vs vs' → regularVariants T e vs = true →
    regularVariants T e vs' = true → ∀ tag i, Grows (parseVariants T e vs tag i) (parseVariants T e vs' tag i)
  | .nil, _, _, _, _, _, _ => fun _ => .inr (.inl (stuck_fail (.inl rfl) _))
  | .cons tag' fs vs, _, h, hr, hr', tag, i => by
    cases h with
    | @cons _ _ fs' _ vs' h1 h2 =>
      simp only [regularVariants, Bool.and_eq_true] at hr hr'
      simp only [parseVariants]
      split
      · exact grows_map _ (parseFields_older hT fs fs' h1 hr.1 hr'.1 _)
      · exact parseVariants_older hT vs vs' h2 hr.2 hr'.2 _ _
end

end Verif
