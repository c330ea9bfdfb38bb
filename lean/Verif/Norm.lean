import Verif.RoundTripTy
import Verif.Regular

/-!
# What becomes of any value which is written and read (C01, C25)

`canon` excludes values with skipped fields which do not have their default, and exhausted inclusive ranges. Here such values
are included: `norm` is what remains of them.
-/

namespace Verif

mutual
/-- The value without what is not written: skipped fields have their default, inclusive ranges have not been iterated to their
end. -/
def norm : Ty → Val → Val
  | .seq _ t, .list vs | .set t, .list vs | .array _ t, .list vs | .refArray _ t, .list vs => .list (vs.map (norm t))
  | .map k w, .list vs => .list (vs.map fun kv => match kv with
      | .pair a (.pair b .unit) => .pair (norm k a) (.pair (norm w b) .unit)
      | x => x)
  | .option t, .some v => .some (norm t v)
  | .result t _, .variant 1 v => .variant 1 (norm t v)
  | .result _ er, .variant 0 v => .variant 0 (norm er v)
  | .range t, .pair a (.pair b .unit) => .pair (norm t a) (.pair (norm t b) .unit)
  | .rangeInc t, .pair a (.pair b (.bool _)) => .pair (norm t a) (.pair (norm t b) (.bool false))
  | .pair a b, .pair x y => .pair (norm a x) (norm b y)
  | .box t, v | .via _ t, v => norm t v
  | .struct _ fs, v => normFields fs v
  | .enum _ vs, .variant i v => .variant i (normVariants vs i v)
  | _, v => v
/-- Fields. -/
def normFields : Fields → Val → Val
  | .cons a t fs, .pair v rest => .pair (if a.skip then a.dflt else norm t v) (normFields fs rest)
  | _, v => v
/-- The `i`-th variant. -/
def normVariants : Variants → Nat → Val → Val
  | .nil, _, v => v
  | .cons _ fs _, 0, v => normFields fs v
  | .cons _ _ vs, i + 1, v => normVariants vs i v
end

mutual
/-- Types without skipped fields and inclusive ranges: everything is written. -/
def still : Ty → Bool
  | .seq _ t | .set t | .array _ t | .refArray _ t | .option t | .range t | .box t | .via _ t => still t
  | .map a b | .result a b | .pair a b => still a && still b
  | .rangeInc _ => false
  | .struct _ fs => stillFields fs
  | .enum _ vs => stillVariants vs
  | _ => true
/-- Fields. -/
def stillFields : Fields → Bool
  | .nil => true
  | .cons a t fs => !a.skip && still t && stillFields fs
/-- Variants. -/
def stillVariants : Variants → Bool
  | .nil => true
  | .cons _ fs vs => stillFields fs && stillVariants vs
end

/-- Earlier fields without what is not written. -/
def normPrev (ts : List Ty) (prev : List Val) : List Val := List.zipWith norm ts prev

mutual
/-- Skipped fields have a default of their type; the elements of sets, the keys of maps and types with a conversion have no skipped
fields (two of them could become equal); lengths given by an expression do not look at skipped fields. -/
def normable (T : Target) : Ty → Prop
  | .seq _ t | .array _ t | .refArray _ t | .option t | .range t | .rangeInc t | .box t => normable T t
  | .set t => still t = true ∧ normable T t
  | .via _ t => still t = true ∧ normable T t
  | .map a b => still a = true ∧ normable T a ∧ normable T b
  | .result a b | .pair a b => normable T a ∧ normable T b
  | .struct _ fs => normableFields T [] fs
  | .enum _ vs => normableVariants T vs
  | _ => True
/-- Fields; the types of those before them which are not skipped are given. -/
def normableFields (T : Target) : List Ty → Fields → Prop
  | _, .nil => True
  | ts, .cons a t fs =>
    if a.skip then hasTy T t a.dflt ∧ normableFields T ts fs
    else (a.varint = true → t = .prim .u64) ∧ normable T t ∧
      (∀ f, a.len = some (.expr f) → ∀ prev, prev.length = ts.length → f (normPrev ts prev) = f prev) ∧
      normableFields T (ts ++ [t]) fs
/-- Variants. -/
def normableVariants (T : Target) : Variants → Prop
  | .nil => True
  | .cons _ fs vs => normableFields T [] fs ∧ normableVariants T vs
end

mutual
/-- The payload of an enum with `peek_tag` begins with the tag (the part of `canon` which remains). -/
def tagFirst (F : Fmt) : Ty → Val → Prop
  | .seq _ t, .list vs | .set t, .list vs | .array _ t, .list vs | .refArray _ t, .list vs => ∀ v ∈ vs, tagFirst F t v
  | .map k v, .list vs => ∀ a b, Val.pair a (.pair b .unit) ∈ vs → tagFirst F k a ∧ tagFirst F v b
  | .option t, .some v => tagFirst F t v
  | .result t _, .variant 1 v => tagFirst F t v
  | .result _ er, .variant 0 v => tagFirst F er v
  | .range t, .pair a (.pair b _) => tagFirst F t a ∧ tagFirst F t b
  | .rangeInc t, .pair a (.pair b _) => tagFirst F t a ∧ tagFirst F t b
  | .pair a b, .pair x y => tagFirst F a x ∧ tagFirst F b y
  | .box t, v | .via _ t, v => tagFirst F t v
  | .struct _ fs, v => tagFirstFields F fs v
  | .enum d vs, .variant i v => tagFirstVariants F d vs i v
  | _, _ => True
/-- Fields. -/
def tagFirstFields (F : Fmt) : Fields → Val → Prop
  | .cons a t fs, .pair v rest => (a.skip = false → tagFirst F t v) ∧ tagFirstFields F fs rest
  | _, _ => True
/-- Variants. -/
def tagFirstVariants (F : Fmt) (d : EnumDesc) : Variants → Nat → Val → Prop
  | .nil, _, _ => True
  | .cons tag fs _, 0, v => tagFirstFields F fs v ∧ (d.peek = true → (d.tagTy = .varint → tag < 128) ∧
      ∃ bs, wireFields F fs [] v = .ok (wireNum F.e d.tagTy tag ++ bs))
  | .cons _ _ vs, i + 1, v => tagFirstVariants F d vs i v
end

mutual
/-- No enum has `peek_tag`. -/
def unpeeked : Ty → Bool
  | .seq _ t | .set t | .array _ t | .refArray _ t | .option t | .range t | .rangeInc t | .box t | .via _ t => unpeeked t
  | .map a b | .result a b | .pair a b => unpeeked a && unpeeked b
  | .struct _ fs => unpeekedFields fs
  | .enum d vs => !d.peek && unpeekedVariants vs
  | _ => true
/-- Fields. -/
def unpeekedFields : Fields → Bool
  | .nil => true
  | .cons _ t fs => unpeeked t && unpeekedFields fs
/-- Variants. -/
def unpeekedVariants : Variants → Bool
  | .nil => true
  | .cons _ fs vs => unpeekedFields fs && unpeekedVariants vs
end

/-! ## Types which are written completely -/

theorem map_id {f : Val → Val} {vs : List Val} (h : ∀ v ∈ vs, f v = v) : vs.map f = vs := by
  induction vs with
  | nil => rfl
  | cons v vs ih => rw [List.map_cons, h v (by simp), ih fun w hw => h w (by simp [hw])]

theorem norm_result (a b : Ty) (v : Val) : (∃ w, v = .variant 1 w ∧ norm (.result a b) v = .variant 1 (norm a w)) ∨
    (∃ w, v = .variant 0 w ∧ norm (.result a b) v = .variant 0 (norm b w)) ∨
    ((∀ w, v ≠ .variant 1 w) ∧ (∀ w, v ≠ .variant 0 w) ∧ norm (.result a b) v = v) := by
  rcases v with _ | _ | _ | _ | _ | _ | _ | _ | ⟨_ | _ | _, w⟩ <;> simp [norm]

theorem norm_range (t : Ty) (v : Val) : (∃ x y, v = .pair x (.pair y .unit) ∧
      norm (.range t) v = .pair (norm t x) (.pair (norm t y) .unit)) ∨
    ((∀ x y, v ≠ .pair x (.pair y .unit)) ∧ norm (.range t) v = v) := by
  by_cases h : ∃ x y, v = .pair x (.pair y .unit)
  · obtain ⟨x, y, rfl⟩ := h
    exact .inl ⟨x, y, rfl, by simp only [norm]⟩
  · refine .inr ⟨fun x y e => h ⟨x, y, e⟩, ?_⟩
    unfold norm
    split
    all_goals first | rfl | (exfalso; simp_all)

theorem norm_rangeInc (t : Ty) (v : Val) : (∃ x y z, v = .pair x (.pair y (.bool z)) ∧
      norm (.rangeInc t) v = .pair (norm t x) (.pair (norm t y) (.bool false))) ∨
    ((∀ x y z, v ≠ .pair x (.pair y (.bool z))) ∧ norm (.rangeInc t) v = v) := by
  by_cases h : ∃ x y z, v = .pair x (.pair y (.bool z))
  · obtain ⟨x, y, z, rfl⟩ := h
    exact .inl ⟨x, y, z, rfl, by simp only [norm]⟩
  · refine .inr ⟨fun x y z e => h ⟨x, y, z, e⟩, ?_⟩
    unfold norm
    split
    all_goals first | rfl | (exfalso; simp_all)

mutual
theorem norm_still : ∀ (t : Ty) (v : Val), still t = true → norm t v = v
  | .seq _ t, v, h | .set t, v, h | .array _ t, v, h | .refArray _ t, v, h => by
    simp only [still] at h
    cases v <;> simp only [norm]
    rw [map_id fun v _ => norm_still t v h]
  | .map a b, v, h => by
    simp only [still, Bool.and_eq_true] at h
    cases v <;> simp only [norm]
    rw [map_id]
    intro v _
    split
    · rw [norm_still a _ h.1, norm_still b _ h.2]
    · rfl
  | .option t, v, h => by
    simp only [still] at h
    cases v <;> simp only [norm]
    rw [norm_still t _ h]
  | .result a b, v, h => by
    simp only [still, Bool.and_eq_true] at h
    rcases norm_result a b v with ⟨w, rfl, e⟩ | ⟨w, rfl, e⟩ | ⟨_, _, e⟩
    · rw [e, norm_still a w h.1]
    · rw [e, norm_still b w h.2]
    · exact e
  | .range t, v, h => by
    simp only [still] at h
    rcases norm_range t v with ⟨x, y, rfl, e⟩ | ⟨_, e⟩
    · rw [e, norm_still t x h, norm_still t y h]
    · exact e
  | .rangeInc t, v, h => by simp [still] at h
  | .pair a b, v, h => by
    simp only [still, Bool.and_eq_true] at h
    cases v <;> simp only [norm]
    rw [norm_still a _ h.1, norm_still b _ h.2]
  | .box t, v, h | .via _ t, v, h => by
    simp only [still] at h
    simp only [norm]
    exact norm_still t v h
  | .struct _ fs, v, h => by
    simp only [still] at h
    simp only [norm]
    exact norm_stillFields fs v h
  | .enum _ vs, v, h => by
    simp only [still] at h
    cases v <;> simp only [norm]
    rw [norm_stillVariants vs _ _ h]
  | .prim _, _, _ | .usize, _, _ | .bool, _, _ | .char, _, _ | .nonZero _, _, _
  | .atomic _, _, _ | .ipv4, _, _ | .ipv6, _, _ | .ipAddr, _, _
  | .duration, _, _ | .systemTime, _, _ | .endianness, _, _
  | .varint64, _, _ | .uuid, _, _ | .str _, _, _ | .unit, _, _ => by simp only [norm]
theorem norm_stillFields : ∀ (fs : Fields) (v : Val), stillFields fs = true → normFields fs v = v
  | .nil, v, _ => by simp only [normFields]
  | .cons a t fs, v, h => by
    simp only [stillFields, Bool.and_eq_true, Bool.not_eq_true'] at h
    cases v <;> simp only [normFields]
    rw [h.1.1, norm_still t _ h.1.2, norm_stillFields fs _ h.2]
    rfl
theorem norm_stillVariants : ∀ (vs : Variants) (i : Nat) (v : Val), stillVariants vs = true → normVariants vs i v = v
  | .nil, _, v, _ => by simp only [normVariants]
  | .cons _ fs vs, 0, v, h => by
    simp only [stillVariants, Bool.and_eq_true] at h
    simp only [normVariants]
    exact norm_stillFields fs v h.1
  | .cons _ fs vs, i + 1, v, h => by
    simp only [stillVariants, Bool.and_eq_true] at h
    simp only [normVariants]
    exact norm_stillVariants vs i v h.2
end

/-! ## The encoding does not change -/

theorem catAll_map {f : Val → Except Err Bytes} {g : Val → Val} {vs : List Val} (h : ∀ v ∈ vs, f (g v) = f v) :
    catAll f (vs.map g) = catAll f vs := by
  induction vs with
  | nil => rfl
  | cons v vs ih => rw [List.map_cons, catAll, catAll, h v (by simp), ih fun w hw => h w (by simp [hw])]

mutual
theorem wire_norm {T : Target} {F : Fmt} : ∀ (t : Ty) (l : LenR) (v : Val), normable T t → wire F t l (norm t v) = wire F t l v
  | .seq _ t, l, v, h => by
    simp only [normable] at h
    cases v <;> simp only [norm, wire]
    rw [List.length_map, catAll_map fun v _ => wire_norm t _ v h]
  | .set t, l, v, h => by
    simp only [normable] at h
    cases v <;> simp only [norm, wire]
    rw [List.length_map, catAll_map fun v _ => wire_norm t _ v h.2]
  | .array _ t, l, v, h | .refArray _ t, l, v, h => by
    simp only [normable] at h
    cases v <;> simp only [norm, wire]
    rw [List.length_map, catAll_map fun v _ => wire_norm t _ v h]
  | .map a b, l, v, h => by
    simp only [normable] at h
    cases v <;> simp only [norm, wire]
    rw [List.length_map, catAll_map]
    intro v _
    by_cases hv : ∃ x y, v = .pair x (.pair y .unit)
    · obtain ⟨x, y, rfl⟩ := hv
      simp only
      rw [wire_norm a _ x h.2.1, wire_norm b _ y h.2.2]
    · congr 1
      split
      · exact absurd ⟨_, _, rfl⟩ hv
      · rfl
  | .option t, l, v, h => by
    simp only [normable] at h
    cases v <;> simp only [norm, wire]
    rw [wire_norm t _ _ h]
  | .result a b, l, v, h => by
    simp only [normable] at h
    rcases norm_result a b v with ⟨w, rfl, e⟩ | ⟨w, rfl, e⟩ | ⟨_, _, e⟩
    · rw [e]; simp only [wire]; rw [wire_norm a _ w h.1]
    · rw [e]; simp only [wire]; rw [wire_norm b _ w h.2]
    · rw [e]
  | .range t, l, v, h => by
    simp only [normable] at h
    rcases norm_range t v with ⟨x, y, rfl, e⟩ | ⟨_, e⟩
    · rw [e]; simp only [wire]; rw [wire_norm t _ x h, wire_norm t _ y h]
    · rw [e]
  | .rangeInc t, l, v, h => by
    simp only [normable] at h
    rcases norm_rangeInc t v with ⟨x, y, z, rfl, e⟩ | ⟨_, e⟩
    · rw [e]; simp only [wire]; rw [wire_norm t _ x h, wire_norm t _ y h]
    · rw [e]
  | .pair a b, l, v, h => by
    simp only [normable] at h
    cases v <;> simp only [norm, wire]
    rw [wire_norm a _ _ h.1, wire_norm b _ _ h.2]
  | .box t, l, v, h => by
    simp only [normable] at h
    simp only [norm, wire]
    exact wire_norm t _ v h
  | .via _ t, l, v, h => by
    simp only [normable] at h
    simp only [norm, wire]
    exact wire_norm t _ v h.2
  | .struct _ fs, l, v, h => by
    simp only [normable] at h
    simp only [norm, wire]
    exact wire_normFields fs [] [] v rfl h
  | .enum d vs, l, v, h => by
    simp only [normable] at h
    cases v <;> simp only [norm, wire]
    exact wire_normVariants d vs _ _ h
  | .prim _, _, _, _ | .usize, _, _, _ | .bool, _, _, _ | .char, _, _, _ | .nonZero _, _, _, _
  | .atomic _, _, _, _ | .ipv4, _, _, _ | .ipv6, _, _, _ | .ipAddr, _, _, _
  | .duration, _, _, _ | .systemTime, _, _, _ | .endianness, _, _, _
  | .varint64, _, _, _ | .uuid, _, _, _ | .str _, _, _, _ | .unit, _, _, _ => by simp only [norm]
theorem wire_normFields {T : Target} {F : Fmt} : ∀ (fs : Fields) (ts : List Ty) (prev : List Val) (v : Val),
    prev.length = ts.length → normableFields T ts fs →
    wireFields F fs (normPrev ts prev) (normFields fs v) = wireFields F fs prev v
  | .nil, _, _, v, _, _ => by cases v <;> simp only [normFields, wireFields]
  | .cons a t fs, ts, prev, v, hp, h => by
    simp only [normableFields] at h
    cases v <;> simp only [normFields, wireFields]
    rename_i x y
    by_cases hs : a.skip = true
    · rw [if_pos hs] at h
      simp only [hs, if_true]
      exact wire_normFields fs ts prev y hp h.2
    · rw [if_neg hs] at h
      obtain ⟨h1, h2, h3, h4⟩ := h
      simp only [hs, Bool.false_eq_true, if_false]
      have hl : a.wlen (normPrev ts prev) = a.wlen prev := by
        unfold Attrs.wlen
        split
        · rfl
        · split
          all_goals first | rfl | (rename_i f hf; rw [h3 f hf prev hp])
      have hb : (if a.varint then (match norm t x with | .num n => .ok (specVarint n) | _ => .error .illTyped)
          else wire F t (a.wlen (normPrev ts prev)) (norm t x)) =
          (if a.varint then (match x with | .num n => .ok (specVarint n) | _ => .error .illTyped) else wire F t (a.wlen prev) x) := by
        by_cases hv : a.varint = true
        · rw [if_pos hv, if_pos hv, h1 hv]; simp only [norm]
        · rw [if_neg hv, if_neg hv, hl, wire_norm t _ x h2]
      have hq : normPrev ts prev ++ [norm t x] = normPrev (ts ++ [t]) (prev ++ [x]) := by
        unfold normPrev
        rw [List.zipWith_append (by omega)]
        rfl
      rw [hq, wire_normFields fs (ts ++ [t]) (prev ++ [x]) y (by simp [hp]) h4]
      exact congrArg (fun b => cat (cat (.ok a.pre) b) (wireFields F fs (prev ++ [x]) y)) hb
theorem wire_normVariants {T : Target} {F : Fmt} (d : EnumDesc) : ∀ (vs : Variants) (i : Nat) (v : Val), normableVariants T vs →
    wireVariants F d vs i (normVariants vs i v) = wireVariants F d vs i v
  | .nil, _, v, _ => by simp only [normVariants]
  | .cons _ fs vs, 0, v, h => by
    simp only [normableVariants] at h
    simp only [normVariants, wireVariants]
    rw [show wireFields F fs [] (normFields fs v) = wireFields F fs [] v from wire_normFields fs [] [] v rfl h.1]
  | .cons _ fs vs, i + 1, v, h => by
    simp only [normableVariants] at h
    simp only [normVariants, wireVariants]
    exact wire_normVariants d vs i v h.2
end

/-! ## It is a value of the type -/

mutual
theorem hasTy_norm {T : Target} : ∀ (t : Ty) (v : Val), normable T t → hasTy T t v → hasTy T t (norm t v)
  | .seq _ t, v, h, hv => by
    simp only [normable] at h
    cases v <;> simp only [norm, hasTy] at hv ⊢
    rw [List.length_map]
    refine ⟨fun w hw => ?_, hv.2⟩
    obtain ⟨u, hu, rfl⟩ := List.mem_map.1 hw
    exact hasTy_norm t u h (hv.1 u hu)
  | .set t, v, h, hv => by
    simp only [normable] at h
    rw [norm_still (.set t) v (by simp only [still]; exact h.1)]
    exact hv
  | .array _ t, v, h, hv | .refArray _ t, v, h, hv => by
    simp only [normable] at h
    cases v <;> simp only [norm, hasTy] at hv ⊢
    rw [List.length_map]
    refine ⟨hv.1, fun w hw => ?_⟩
    obtain ⟨u, hu, rfl⟩ := List.mem_map.1 hw
    exact hasTy_norm t u h (hv.2 u hu)
  | .map a b, v, h, hv => by
    simp only [normable] at h
    cases v <;> simp only [norm, hasTy] at hv ⊢
    rename_i vs
    obtain ⟨h1, h2, h3⟩ := hv
    rw [List.length_map]
    refine ⟨fun w hw => ?_, ?_, h3⟩
    · obtain ⟨u, hu, rfl⟩ := List.mem_map.1 hw
      obtain ⟨x, y, rfl, hx, hy⟩ := h1 u hu
      exact ⟨_, _, rfl, hasTy_norm a x h.2.1 hx, hasTy_norm b y h.2.2 hy⟩
    · have : ∀ vs : List Val, (∀ kv ∈ vs, ∃ x y, kv = .pair x (.pair y .unit) ∧ hasTy T a x ∧ hasTy T b y) →
          keys (vs.map fun kv => match kv with
            | .pair x (.pair y .unit) => .pair (norm a x) (.pair (norm b y) .unit)
            | x => x) = keys vs := by
        intro vs
        induction vs with
        | nil => intro _; rfl
        | cons v vs ih =>
          intro hvs
          obtain ⟨x, y, rfl, _, _⟩ := hvs v (by simp)
          simp only [List.map_cons, keys, norm_still a x h.1]
          rw [ih fun w hw => hvs w (by simp [hw])]
      rw [this vs h1]
      exact h2
  | .option t, v, h, hv => by
    simp only [normable] at h
    cases v <;> simp only [norm, hasTy] at hv ⊢
    exact hasTy_norm t _ h hv
  | .result a b, v, h, hv => by
    simp only [normable] at h
    rcases norm_result a b v with ⟨w, rfl, e⟩ | ⟨w, rfl, e⟩ | ⟨_, _, e⟩
    · rw [e]; simp only [hasTy] at hv ⊢; exact hasTy_norm a w h.1 hv
    · rw [e]; simp only [hasTy] at hv ⊢; exact hasTy_norm b w h.2 hv
    · rw [e]; exact hv
  | .range t, v, h, hv => by
    simp only [normable] at h
    rcases norm_range t v with ⟨x, y, rfl, e⟩ | ⟨_, e⟩
    · rw [e]; simp only [hasTy] at hv ⊢; exact ⟨hasTy_norm t x h hv.1, hasTy_norm t y h hv.2⟩
    · rw [e]; exact hv
  | .rangeInc t, v, h, hv => by
    simp only [normable] at h
    rcases norm_rangeInc t v with ⟨x, y, z, rfl, e⟩ | ⟨_, e⟩
    · rw [e]; simp only [hasTy] at hv ⊢; exact ⟨hasTy_norm t x h hv.1, hasTy_norm t y h hv.2⟩
    · rw [e]; exact hv
  | .pair a b, v, h, hv => by
    simp only [normable] at h
    cases v <;> simp only [norm, hasTy] at hv ⊢
    exact ⟨hasTy_norm a _ h.1 hv.1, hasTy_norm b _ h.2 hv.2⟩
  | .box t, v, h, hv => by
    simp only [normable] at h
    simp only [norm, hasTy] at hv ⊢
    exact hasTy_norm t v h hv
  | .via c t, v, h, hv => by
    simp only [normable] at h
    rw [norm_still (.via c t) v (by simp only [still]; exact h.1)]
    exact hv
  | .struct _ fs, v, h, hv => by
    simp only [normable] at h
    simp only [norm, hasTy] at hv ⊢
    exact hasTy_normFields fs [] v h hv
  | .enum d vs, v, h, hv => by
    simp only [normable] at h
    cases v <;> simp only [norm, hasTy] at hv ⊢
    exact hasTy_normVariants vs _ _ h hv
  | .prim _, _, _, hv | .usize, _, _, hv | .bool, _, _, hv | .char, _, _, hv | .nonZero _, _, _, hv
  | .atomic _, _, _, hv | .ipv4, _, _, hv | .ipv6, _, _, hv | .ipAddr, _, _, hv
  | .duration, _, _, hv | .systemTime, _, _, hv | .endianness, _, _, hv
  | .varint64, _, _, hv | .uuid, _, _, hv | .str _, _, _, hv | .unit, _, _, hv => by simp only [norm]; exact hv
theorem hasTy_normFields {T : Target} : ∀ (fs : Fields) (ts : List Ty) (v : Val), normableFields T ts fs → hasTyFields T fs v →
    hasTyFields T fs (normFields fs v)
  | .nil, _, v, _, hv => by simp only [normFields]; exact hv
  | .cons a t fs, ts, v, h, hv => by
    simp only [normableFields] at h
    cases v <;> simp only [normFields, hasTyFields] at hv ⊢
    by_cases hs : a.skip = true
    · rw [if_pos hs] at h
      rw [if_pos hs]
      exact ⟨h.1, hasTy_normFields fs ts _ h.2 hv.2⟩
    · rw [if_neg hs] at h
      rw [if_neg hs]
      exact ⟨hasTy_norm t _ h.2.1 hv.1, hasTy_normFields fs _ _ h.2.2.2 hv.2⟩
theorem hasTy_normVariants {T : Target} : ∀ (vs : Variants) (i : Nat) (v : Val), normableVariants T vs → hasTyVariants T vs i v →
    hasTyVariants T vs i (normVariants vs i v)
  | .nil, _, v, _, hv => by simp only [normVariants]; exact hv
  | .cons _ fs vs, 0, v, h, hv => by
    simp only [normableVariants] at h
    simp only [normVariants, hasTyVariants] at hv ⊢
    exact hasTy_normFields fs [] v h.1 hv
  | .cons _ fs vs, i + 1, v, h, hv => by
    simp only [normableVariants] at h
    simp only [normVariants, hasTyVariants] at hv ⊢
    exact hasTy_normVariants vs i v h.2 hv
end

/-! ## It is canonical -/

mutual
theorem canon_norm {T : Target} {F : Fmt} : ∀ (t : Ty) (v : Val), normable T t → hasTy T t v → tagFirst F t v → canon F t (norm t v)
  | .seq _ t, v, h, hv, hc => by
    simp only [normable] at h
    cases v <;> simp only [norm, hasTy, canon, tagFirst] at hv hc ⊢
    intro w hw
    obtain ⟨u, hu, rfl⟩ := List.mem_map.1 hw
    exact canon_norm t u h (hv.1 u hu) (hc u hu)
  | .set t, v, h, hv, hc => by
    simp only [normable] at h
    cases v <;> simp only [norm, hasTy, canon, tagFirst] at hv hc ⊢
    intro w hw
    obtain ⟨u, hu, rfl⟩ := List.mem_map.1 hw
    exact canon_norm t u h.2 (hv.1 u hu) (hc u hu)
  | .array _ t, v, h, hv, hc | .refArray _ t, v, h, hv, hc => by
    simp only [normable] at h
    cases v <;> simp only [norm, hasTy, canon, tagFirst] at hv hc ⊢
    intro w hw
    obtain ⟨u, hu, rfl⟩ := List.mem_map.1 hw
    exact canon_norm t u h (hv.2 u hu) (hc u hu)
  | .map a b, v, h, hv, hc => by
    simp only [normable] at h
    cases v <;> simp only [norm, hasTy, canon, tagFirst] at hv hc ⊢
    intro x y hw
    obtain ⟨u, hu, he⟩ := List.mem_map.1 hw
    obtain ⟨p, q, rfl, hp, hq⟩ := hv.1 u hu
    simp only [Val.pair.injEq, and_true] at he
    rw [← he.1, ← he.2]
    have := hc p q hu
    exact ⟨canon_norm a p h.2.1 hp this.1, canon_norm b q h.2.2 hq this.2⟩
  | .option t, v, h, hv, hc => by
    simp only [normable] at h
    cases v <;> simp only [norm, hasTy, canon, tagFirst] at hv hc ⊢
    exact canon_norm t _ h hv hc
  | .result a b, v, h, hv, hc => by
    simp only [normable] at h
    rcases norm_result a b v with ⟨w, rfl, e⟩ | ⟨w, rfl, e⟩ | ⟨h1, h0, e⟩
    · rw [e]; simp only [hasTy, canon, tagFirst] at hv hc ⊢; exact canon_norm a w h.1 hv hc
    · rw [e]; simp only [hasTy, canon, tagFirst] at hv hc ⊢; exact canon_norm b w h.2 hv hc
    · exfalso
      rcases v with _ | _ | _ | _ | _ | _ | _ | _ | ⟨_ | _ | _, w⟩ <;> simp [hasTy] at hv h1 h0
  | .range t, v, h, hv, hc => by
    simp only [normable] at h
    rcases norm_range t v with ⟨x, y, rfl, e⟩ | ⟨h1, e⟩
    · rw [e]; simp only [hasTy, canon, tagFirst] at hv hc ⊢
      exact ⟨canon_norm t x h hv.1 hc.1, canon_norm t y h hv.2 hc.2⟩
    · exfalso
      unfold hasTy at hv
      split at hv <;> simp_all
  | .rangeInc t, v, h, hv, hc => by
    simp only [normable] at h
    rcases norm_rangeInc t v with ⟨x, y, z, rfl, e⟩ | ⟨h1, e⟩
    · rw [e]; simp only [hasTy, canon, tagFirst] at hv hc ⊢
      exact ⟨trivial, canon_norm t x h hv.1 hc.1, canon_norm t y h hv.2 hc.2⟩
    · exfalso
      unfold hasTy at hv
      split at hv <;> simp_all
  | .pair a b, v, h, hv, hc => by
    simp only [normable] at h
    cases v <;> simp only [norm, hasTy, canon, tagFirst] at hv hc ⊢
    exact ⟨canon_norm a _ h.1 hv.1 hc.1, canon_norm b _ h.2 hv.2 hc.2⟩
  | .box t, v, h, hv, hc => by
    simp only [normable] at h
    simp only [norm, hasTy, canon, tagFirst] at hv hc ⊢
    exact canon_norm t v h hv hc
  | .via c t, v, h, hv, hc => by
    simp only [normable] at h
    simp only [norm, hasTy, canon, tagFirst] at hv hc ⊢
    exact canon_norm t v h.2 hv.1 hc
  | .struct _ fs, v, h, hv, hc => by
    simp only [normable] at h
    simp only [norm, hasTy, canon, tagFirst] at hv hc ⊢
    exact canon_normFields fs [] v h hv hc
  | .enum d vs, v, h, hv, hc => by
    simp only [normable] at h
    cases v <;> simp only [norm, hasTy, canon, tagFirst] at hv hc ⊢
    exact canon_normVariants d vs _ _ h hv hc
  | .prim _, _, _, _, _ | .usize, _, _, _, _ | .bool, _, _, _, _ | .char, _, _, _, _ | .nonZero _, _, _, _, _
  | .atomic _, _, _, _, _ | .ipv4, _, _, _, _ | .ipv6, _, _, _, _ | .ipAddr, _, _, _, _
  | .duration, _, _, _, _ | .systemTime, _, _, _, _ | .endianness, _, _, _, _
  | .varint64, _, _, _, _ | .uuid, _, _, _, _ | .str _, _, _, _, _ | .unit, _, _, _, _ => by simp only [canon]
theorem canon_normFields {T : Target} {F : Fmt} : ∀ (fs : Fields) (ts : List Ty) (v : Val), normableFields T ts fs →
    hasTyFields T fs v → tagFirstFields F fs v → canonFields F fs (normFields fs v)
  | .nil, _, v, _, _, _ => by simp only [canonFields]
  | .cons a t fs, ts, v, h, hv, hc => by
    simp only [normableFields] at h
    cases v <;> simp only [normFields, hasTyFields, canonFields, tagFirstFields] at hv hc ⊢
    by_cases hs : a.skip = true
    · rw [if_pos hs] at h
      simp only [hs, if_true]
      exact ⟨trivial, canon_normFields fs ts _ h.2 hv.2 hc.2⟩
    · rw [if_neg hs] at h
      simp only [hs, Bool.false_eq_true, if_false]
      exact ⟨canon_norm t _ h.2.1 hv.1 (hc.1 (by simpa using hs)), canon_normFields fs _ _ h.2.2.2 hv.2 hc.2⟩
theorem canon_normVariants {T : Target} {F : Fmt} (d : EnumDesc) : ∀ (vs : Variants) (i : Nat) (v : Val), normableVariants T vs →
    hasTyVariants T vs i v → tagFirstVariants F d vs i v → canonVariants F d vs i (normVariants vs i v)
  | .nil, _, v, _, _, _ => by simp only [canonVariants]
  | .cons tag fs vs, 0, v, h, hv, hc => by
    simp only [normableVariants] at h
    simp only [normVariants, hasTyVariants, canonVariants, tagFirstVariants] at hv hc ⊢
    refine ⟨canon_normFields fs [] v h.1 hv hc.1, fun hp => ?_⟩
    rw [show wireFields F fs [] (normFields fs v) = wireFields F fs [] v from wire_normFields fs [] [] v rfl h.1]
    exact hc.2 hp
  | .cons _ fs vs, i + 1, v, h, hv, hc => by
    simp only [normableVariants] at h
    simp only [normVariants, hasTyVariants, canonVariants, tagFirstVariants] at hv hc ⊢
    exact canon_normVariants d vs i v h.2 hv hc
end

/-! ## Types without `peek_tag` -/

mutual
theorem tagFirst_unpeeked {F : Fmt} : ∀ (t : Ty) (v : Val), unpeeked t = true → tagFirst F t v
  | .seq _ t, v, h | .set t, v, h | .array _ t, v, h | .refArray _ t, v, h => by
    simp only [unpeeked] at h
    cases v <;> simp only [tagFirst]
    exact fun w _ => tagFirst_unpeeked t w h
  | .map a b, v, h => by
    simp only [unpeeked, Bool.and_eq_true] at h
    cases v <;> simp only [tagFirst]
    exact fun x y _ => ⟨tagFirst_unpeeked a x h.1, tagFirst_unpeeked b y h.2⟩
  | .option t, v, h => by
    simp only [unpeeked] at h
    cases v <;> simp only [tagFirst]
    exact tagFirst_unpeeked t _ h
  | .result a b, v, h => by
    simp only [unpeeked, Bool.and_eq_true] at h
    rcases v with _ | _ | _ | _ | _ | _ | _ | _ | ⟨_ | _ | _, w⟩
    case variant.zero => simp only [tagFirst]; exact tagFirst_unpeeked b w h.2
    case variant.succ.zero => exact tagFirst_unpeeked a w h.1
    all_goals simp [tagFirst]
  | .range t, v, h | .rangeInc t, v, h => by
    simp only [unpeeked] at h
    rcases v with _ | _ | _ | _ | _ | ⟨x, _ | _ | _ | _ | _ | ⟨y, z⟩ | _ | _ | _⟩ | _ | _ | _ <;> simp only [tagFirst]
    exact ⟨tagFirst_unpeeked t x h, tagFirst_unpeeked t y h⟩
  | .pair a b, v, h => by
    simp only [unpeeked, Bool.and_eq_true] at h
    cases v <;> simp only [tagFirst]
    exact ⟨tagFirst_unpeeked a _ h.1, tagFirst_unpeeked b _ h.2⟩
  | .box t, v, h | .via _ t, v, h => by
    simp only [unpeeked] at h
    simp only [tagFirst]
    exact tagFirst_unpeeked t v h
  | .struct _ fs, v, h => by
    simp only [unpeeked] at h
    simp only [tagFirst]
    exact tagFirst_unpeekedFields fs v h
  | .enum d vs, v, h => by
    simp only [unpeeked, Bool.and_eq_true, Bool.not_eq_true'] at h
    cases v <;> simp only [tagFirst]
    exact tagFirst_unpeekedVariants d h.1 vs _ _ h.2
  | .prim _, _, _ | .usize, _, _ | .bool, _, _ | .char, _, _ | .nonZero _, _, _
  | .atomic _, _, _ | .ipv4, _, _ | .ipv6, _, _ | .ipAddr, _, _
  | .duration, _, _ | .systemTime, _, _ | .endianness, _, _
  | .varint64, _, _ | .uuid, _, _ | .str _, _, _ | .unit, _, _ => by simp only [tagFirst]
theorem tagFirst_unpeekedFields {F : Fmt} : ∀ (fs : Fields) (v : Val), unpeekedFields fs = true → tagFirstFields F fs v
  | .nil, _, _ => by simp only [tagFirstFields]
  | .cons a t fs, v, h => by
    simp only [unpeekedFields, Bool.and_eq_true] at h
    cases v <;> simp only [tagFirstFields]
    exact ⟨fun _ => tagFirst_unpeeked t _ h.1, tagFirst_unpeekedFields fs _ h.2⟩
theorem tagFirst_unpeekedVariants {F : Fmt} (d : EnumDesc) (hd : d.peek = false) : ∀ (vs : Variants) (i : Nat) (v : Val),
    unpeekedVariants vs = true → tagFirstVariants F d vs i v
  | .nil, _, _, _ => by simp only [tagFirstVariants]
  | .cons _ fs vs, 0, v, h => by
    simp only [unpeekedVariants, Bool.and_eq_true] at h
    simp only [tagFirstVariants]
    exact ⟨tagFirst_unpeekedFields fs v h.1, fun hp => by rw [hd] at hp; cases hp⟩
  | .cons _ fs vs, i + 1, v, h => by
    simp only [unpeekedVariants, Bool.and_eq_true] at h
    simp only [tagFirstVariants]
    exact tagFirst_unpeekedVariants d hd vs i v h.2
end

end Verif
