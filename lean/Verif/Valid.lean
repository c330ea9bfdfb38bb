import Verif.Layout
import Verif.Codes

/-!
# Valid values, and declarations under which reading is safe
-/

namespace Verif

mutual
/-- The values of a type: numbers in range, scalar values, no zero in a `NonZero`, UTF-8, existing variants, no
duplicates. -/
def Valid (T : Target) : Ty → Val → Prop
  | .prim p, .num v => v < 256 ^ p.size
  | .usize, .num v => v ≤ T.usizeMax
  | .bool, .bool _ => True
  | .char, .num v => isScalar v = true
  | .nonZero p, .num v => v < 256 ^ p.size ∧ v ≠ 0
  | .atomic p, .num v => v < 256 ^ p.size
  | .ipv4, .num v => v < 256 ^ 4
  | .ipv6, .bytes bs => bs.length = 16
  | .ipAddr, .variant 0 (.num v) => v < 256 ^ 4
  | .ipAddr, .variant 1 (.bytes bs) => bs.length = 16
  | .duration, .pair (.num s) (.num n) => s < 2 ^ 64 ∧ n < 1000000000
  | .systemTime, .pair (.num s) (.num n) => s < 2 ^ 63 ∧ n < 1000000000
  | .endianness, .variant 0 .unit => True
  | .endianness, .variant 1 .unit => True
  | .varint64, .num v => v < 2 ^ 64
  | .uuid, .bytes bs => bs.length = 16
  | .str _, .bytes bs => utf8Valid bs = true
  | .seq _ t, .list vs => ∀ v ∈ vs, Valid T t v
  | .set t, .list vs => (∀ v ∈ vs, Valid T t v) ∧ vs.Nodup
  | .map k v, .list vs =>
      (∀ kv ∈ vs, ∃ a b, kv = .pair a (.pair b .unit) ∧ Valid T k a ∧ Valid T v b) ∧ (keys vs).Nodup
  | .array n t, .list vs => vs.length = n ∧ ∀ v ∈ vs, Valid T t v
  | .refArray n t, .list vs => vs.length = n ∧ ∀ v ∈ vs, Valid T t v
  | .option _, .none => True
  | .option t, .some v => Valid T t v
  | .result t _, .variant 1 v => Valid T t v
  | .result _ er, .variant 0 v => Valid T er v
  | .range t, .pair a (.pair b .unit) => Valid T t a ∧ Valid T t b
  | .rangeInc t, .pair a (.pair b (.bool _)) => Valid T t a ∧ Valid T t b
  | .unit, .unit => True
  | .pair a b, .pair x y => Valid T a x ∧ Valid T b y
  | .box t, v => Valid T t v
  | .via c t, v => ∃ u, Valid T t u ∧ c.apply u = .ok v
  | .struct _ fs, v => ValidFields T fs v
  | .enum _ vs, .variant i v => ValidVariants T vs i v
  | _, _ => False
/-- Fields. -/
def ValidFields (T : Target) : Fields → Val → Prop
  | .nil, .unit => True
  | .cons _ t fs, .pair v rest => Valid T t v ∧ ValidFields T fs rest
  | _, _ => False
/-- The `i`-th variant. -/
def ValidVariants (T : Target) : Variants → Nat → Val → Prop
  | .nil, _, _ => False
  | .cons _ fs _, 0, v => ValidFields T fs v
  | .cons _ _ vs, i + 1, v => ValidVariants T vs i v
end

mutual
/-- Types every value of which can be made of arbitrary memory: `ZeroCopyable` — src/utils.rs:21-33 and
speedy-derive/src/lib.rs:316-323, 2232-2246 (numbers and structs of such types). -/
def raw : Ty → Bool
  | .prim _ => true
  | .struct _ fs => rawFields fs
  | _ => false
/-- Fields. -/
def rawFields : Fields → Bool
  | .nil => true
  | .cons _ t fs => raw t && rawFields fs
end

mutual
/-- A zero-sized type which has a value: no enum without variants in it. -/
def inhab : Ty → Bool
  | .unit => true
  | .pair a b => inhab a && inhab b
  | .array n t => n == 0 || inhab t
  | .range t => inhab t
  | .struct _ fs => inhabFields fs
  | .enum _ (.cons _ fs _) => inhabFields fs
  | _ => false
/-- Fields. -/
def inhabFields : Fields → Bool
  | .nil => true
  | .cons _ t fs => inhab t && inhabFields fs
end

mutual
/-- * references are to elements which may be made of arbitrary memory (the compiler requires it of `&[T]`, except in fields of derived
  structs: `C31_false_reference`);
* zero-sized elements of a `Vec` have a value;
* defaults are valid (they are values of the program). -/
def sane (T : Target) : Ty → Prop
  | .seq .ref t => raw t = true ∧ sane T t
  | .seq _ t => (isPrimitive T t = true ∨ sizeOf T t ≠ 0 ∨ inhab t = true) ∧ sane T t
  | .refArray _ t => raw t = true
  | .set t | .array _ t | .option t | .range t | .rangeInc t | .box t | .via _ t => sane T t
  | .map a b | .result a b | .pair a b => sane T a ∧ sane T b
  | .struct _ fs => saneFields T fs
  | .enum _ vs => saneVariants T vs
  | _ => True
/-- Fields. -/
def saneFields (T : Target) : Fields → Prop
  | .nil => True
  | .cons a t fs => (a.skip = true ∨ a.defaultOnEof = true → Valid T t a.dflt) ∧ sane T t ∧ saneFields T fs
/-- Variants. -/
def saneVariants (T : Target) : Variants → Prop
  | .nil => True
  | .cons _ fs vs => saneFields T fs ∧ saneVariants T vs
end

mutual
/-- Where `minimum_bytes_needed` is a lower bound:
* elements copied in bulk have no attributes inside `repr(transparent)` structs;
* variants of an enum with `peek_tag` need at least the bytes of the tag. -/
def minOk (T : Target) : Ty → Bool
  | .seq .cow t | .array _ t => (!isPrimitive T t || bulkPlain t) && minOk T t
  | .seq _ t | .set t | .option t | .range t | .rangeInc t | .box t | .via _ t => minOk T t
  | .refArray _ _ => true
  | .map a b | .result a b | .pair a b => minOk T a && minOk T b
  | .struct _ fs => minOkFields T fs
  | .enum d vs => minOkVariants T d vs
  | _ => true
/-- Fields. -/
def minOkFields (T : Target) : Fields → Bool
  | .nil => true
  | .cons _ t fs => minOk T t && minOkFields T fs
/-- Variants. -/
def minOkVariants (T : Target) (d : EnumDesc) : Variants → Bool
  | .nil => true
  | .cons _ fs vs => (!d.peek || decide (d.tagTy.minSize ≤ fieldsMin T fs)) && minOkFields T fs && minOkVariants T d vs
end

/-- What is known of a length: at most `bound`, or (`rest`) that it is `..`. -/
structure Lim where
  bound : Nat
  rest : Bool

/-- Largest length. -/
def LenTy.cap (h : Host) (lt : LenTy) : Nat := min lt.max h.usizeMax

/-- Without attributes. -/
def Lim.std (h : Host) : Lim := ⟨LenTy.u32.cap h, false⟩

/-- By the attributes of a field.  (A length expression may have any value.) -/
def Attrs.lim (h : Host) (a : Attrs) : Lim :=
  if a.opaqueTy then Lim.std h
  else match a.len with
    | none => Lim.std h
    | some (.typed lt) => ⟨lt.cap h, false⟩
    | some (.expr _) => ⟨h.usizeMax, false⟩
    | some .untilEof => ⟨0, true⟩

/-- The macro looks through one `Option`. -/
def Lim.opt (h : Host) (l : Lim) : Ty → Lim
  | .option _ => Lim.std h
  | _ => l

/-- A length as it is found when reading. -/
def Lim.admits (h : Host) (l : Lim) : LenR → Prop
  | .typed lt _ => lt.cap h ≤ l.bound
  | .fixed n => n ≤ l.bound
  | .untilEof => l.rest = true

/-- `Vec::with_capacity` does not overflow: the largest length is small enough, or the reader (with `B` bytes) has
checked that there are enough bytes. -/
def capOk (T : Target) (exact : Bool) (B bound : Nat) (t : Ty) : Bool :=
  decide (bound * sizeOf T t ≤ T.isizeMax) ||
    (exact && decide (minBytes T t ≠ 0) && decide (B * sizeOf T t ≤ T.isizeMax))

/-- `speedy_convert_slice_endianness` does not panic. -/
def convs (T : Target) (e : Endian) (t : Ty) : Bool := !isPrimitive T t || !e.conv T.toHost || convOk t

/-- Conversions which do not panic. -/
def Conv.calm : Conv → Bool
  | .dateTime _ => false
  | _ => true

mutual
/-- Types for which nothing panics or loops. -/
def calm (T : Target) (e : Endian) (exact : Bool) (B : Nat) : Lim → Ty → Bool
  | _, .duration | _, .systemTime => false
  | l, .str k => (match k with
      | .ref => true
      | _ => capOk T exact B l.bound (.prim .u8) && decide (l.bound ≤ T.usizeMax))
  | l, .seq k t => (match k with
      | .vec => convs T e t && capOk T exact B l.bound t && (!l.rest || decide (minBytes T t ≠ 0))
      | .cow => convs T e t && capOk T exact B l.bound t && (!l.rest || decide (minBytes T t ≠ 0)) &&
          (!isPrimitive T t || (decide (sizeOf T t ≠ 0) && decide (l.bound * sizeOf T t ≤ T.usizeMax)))
      | .ref => !l.rest || decide (sizeOf T t ≠ 0)) && calm T e exact B (Lim.std T.toHost) t
  | l, .set t => (!isPrimitive T t || decide (sizeOf T t ≠ 0)) && (!l.rest || decide (minBytes T t ≠ 0)) &&
      calm T e exact B (Lim.std T.toHost) t
  | l, .map k v => (!(isPrimitive T k && isPrimitive T v) || decide (sizeOf T k + sizeOf T v ≠ 0)) &&
      (!l.rest || decide (minBytes T k + minBytes T v ≠ 0)) &&
      calm T e exact B (Lim.std T.toHost) k && calm T e exact B (Lim.std T.toHost) v
  | _, .array _ t => convs T e t && calm T e exact B (Lim.std T.toHost) t
  | l, .option t => calm T e exact B (l.opt T.toHost t) t
  | _, .via c t => c.calm && calm T e exact B (Lim.std T.toHost) t
  | _, .range t | _, .rangeInc t | _, .box t => calm T e exact B (Lim.std T.toHost) t
  | _, .result a b | _, .pair a b =>
      calm T e exact B (Lim.std T.toHost) a && calm T e exact B (Lim.std T.toHost) b
  | _, .struct _ fs => calmFields T e exact B fs
  | _, .enum _ vs => calmVariants T e exact B vs
  | _, _ => true
/-- Fields. -/
def calmFields (T : Target) (e : Endian) (exact : Bool) (B : Nat) : Fields → Bool
  | .nil => true
  | .cons a t fs => (a.skip || (calm T e exact B (a.lim T.toHost) t && decide (a.pre.length ≤ T.isizeMax))) &&
      calmFields T e exact B fs
/-- Variants. -/
def calmVariants (T : Target) (e : Endian) (exact : Bool) (B : Nat) : Variants → Bool
  | .nil => true
  | .cons _ fs vs => calmFields T e exact B fs && calmVariants T e exact B vs
end

/-! ## Memory -/

mutual
theorem prim_raw {T : Target} : ∀ (t : Ty), isPrimitive T t = true → raw t = true
  | .prim _, _ => rfl
  | .struct d fs, h => by
    simp only [raw]
    unfold isPrimitive at h
    split at h
    · exact prim_rawFields fs h
    · split at h
      · cases fs with
        | nil => rfl
        | cons a t fs =>
          simp only [Bool.false_or, Bool.and_eq_true] at h
          exact prim_rawFields _ h.1.1
      · cases h
  | .usize, hp | .bool, hp | .char, hp | .nonZero _, hp | .atomic _, hp | .ipv4, hp | .ipv6, hp | .ipAddr, hp
  | .duration, hp | .systemTime, hp | .endianness, hp | .varint64, hp | .uuid, hp | .str _, hp | .seq _ _, hp
  | .set _, hp | .map _ _, hp | .array _ _, hp | .refArray _ _, hp | .option _, hp | .result _ _, hp | .range _, hp
  | .rangeInc _, hp | .unit, hp | .pair _ _, hp | .box _, hp | .via _ _, hp | .enum _ _, hp => by simp [isPrimitive] at hp
theorem prim_rawFields {T : Target} : ∀ (fs : Fields), fieldsPrimitive T fs = true → rawFields fs = true
  | .nil, _ => rfl
  | .cons _ t fs, h => by
    simp only [fieldsPrimitive, Bool.and_eq_true] at h
    simp only [rawFields, prim_raw t h.1, prim_rawFields fs h.2, Bool.and_self]
end

mutual
theorem ofMem_valid {T : Target} : ∀ (t : Ty) (m : Bytes), raw t = true → layoutOk T t = true →
    (∀ p, t = .prim p → m.length ≤ p.size) → Valid T t (ofMem T t m)
  | .prim p, m, _, _, hm => by
    simp only [ofMem, Valid]
    exact Nat.lt_of_lt_of_le (Endian.num_lt _ _) (Nat.pow_le_pow_right (by omega) (hm p rfl))
  | .struct d fs, m, hr, hl, _ => by
    simp only [raw] at hr
    simp only [layoutOk, structOk, Bool.and_eq_true, beq_iff_eq] at hl
    simp only [ofMem, Valid]
    exact ofMemFields_valid fs d.offsets m hr hl.2 hl.1.1.1.1.1.1
  | .usize, _, hp, _, _ | .bool, _, hp, _, _ | .char, _, hp, _, _ | .nonZero _, _, hp, _, _ | .atomic _, _, hp, _, _
  | .ipv4, _, hp, _, _ | .ipv6, _, hp, _, _ | .ipAddr, _, hp, _, _ | .duration, _, hp, _, _ | .systemTime, _, hp, _, _
  | .endianness, _, hp, _, _ | .varint64, _, hp, _, _ | .uuid, _, hp, _, _ | .str _, _, hp, _, _
  | .seq _ _, _, hp, _, _ | .set _, _, hp, _, _ | .map _ _, _, hp, _, _ | .array _ _, _, hp, _, _
  | .refArray _ _, _, hp, _, _ | .option _, _, hp, _, _ | .result _ _, _, hp, _, _ | .range _, _, hp, _, _
  | .rangeInc _, _, hp, _, _ | .unit, _, hp, _, _ | .pair _ _, _, hp, _, _ | .box _, _, hp, _, _ | .via _ _, _, hp, _, _
  | .enum _ _, _, hp, _, _ => by simp [raw] at hp
theorem ofMemFields_valid {T : Target} : ∀ (fs : Fields) (offs : List Nat) (m : Bytes), rawFields fs = true →
    layoutOkFields T fs = true → offs.length = fs.length → ValidFields T fs (ofMemFields T fs offs m)
  | .nil, _, _, _, _, _ => by simp [ofMemFields, ValidFields]
  | .cons a t fs, [], m, _, _, h => by simp [Fields.length] at h
  | .cons a t fs, off :: offs, m, hr, hl, h => by
    simp only [rawFields, Bool.and_eq_true] at hr
    simp only [layoutOkFields, Bool.and_eq_true] at hl
    simp only [Fields.length, List.length_cons, Nat.add_right_cancel_iff] at h
    simp only [ofMemFields, ValidFields]
    refine ⟨ofMem_valid t _ hr.1 hl.1 ?_, ofMemFields_valid fs offs m hr.2 hl.2 h⟩
    rintro p rfl
    simp only [List.length_take, sizeOf]
    omega
end

theorem convMem_prim_length {T : Target} {p : Prim} {m m' : Bytes} (h : convMem T (.prim p) m = .ok m') :
    m'.length = m.length := by
  simp only [convMem, flipMem, Except.ok.injEq] at h
  rw [← h, List.length_reverse]

/-! ## Zero-sized types -/

theorem sizeOf_zst {T : Target} (hT : T.Ok) {t : Ty} (h : sizeOf T t = 0) : t.isZst = true := by
  unfold sizeOf at h
  split at h
  · rename_i p; cases p <;> simp [Prim.size] at h
  · simpa [Ty.isZst] using h
  · split at h
    · assumption
    · have := hT.opaque_pos t; omega

theorem zst_sizes {T : Target} {d : StructDesc} {fs : Fields} (hl : structOk T d fs = true) (hd : d.size = 0) :
    ∀ n ∈ fs.sizes T, n = 0 := by
  simp only [structOk, Bool.and_eq_true, beq_iff_eq, List.all_eq_true, decide_eq_true_eq, hd] at hl
  have h1 := hl.1.1.1.1.1
  have h2 := hl.1.1.1.1.2
  intro n hn
  rw [← Fields.sizes_length T] at h1
  obtain ⟨i, hi, rfl⟩ := List.mem_iff_getElem.mp hn
  have := h2 (d.offsets[i], (fs.sizes T)[i]) (by
    unfold extents
    rw [List.mem_iff_getElem]
    exact ⟨i, by simp; omega, by simp⟩)
  simp only at this
  omega

mutual
theorem zst_valid {T : Target} (hT : T.Ok) : ∀ (t : Ty), t.isZst = true → layoutOk T t = true → inhab t = true →
    Valid T t (zstVal t)
  | .unit, _, _, _ => by simp [zstVal, Valid]
  | .pair a b, h, hl, hi => by
    simp only [Ty.isZst, Bool.and_eq_true] at h
    simp only [layoutOk, Bool.and_eq_true] at hl
    simp only [inhab, Bool.and_eq_true] at hi
    simp only [zstVal, Valid]
    exact ⟨zst_valid hT a h.1 hl.1 hi.1, zst_valid hT b h.2 hl.2 hi.2⟩
  | .array n t, h, hl, hi => by
    simp only [Ty.isZst, Bool.or_eq_true, beq_iff_eq] at h
    simp only [layoutOk] at hl
    simp only [inhab, Bool.or_eq_true, beq_iff_eq] at hi
    simp only [zstVal, Valid]
    refine ⟨List.length_replicate, fun v hv => ?_⟩
    obtain ⟨hn, rfl⟩ := List.mem_replicate.mp hv
    exact zst_valid hT t (h.resolve_left hn) hl (hi.resolve_left hn)
  | .range t, h, hl, hi => by
    simp only [Ty.isZst] at h
    simp only [layoutOk] at hl
    simp only [inhab] at hi
    simp only [zstVal, Valid]
    exact ⟨zst_valid hT t h hl hi, zst_valid hT t h hl hi⟩
  | .struct d fs, h, hl, hi => by
    simp only [Ty.isZst, beq_iff_eq] at h
    simp only [layoutOk, Bool.and_eq_true] at hl
    simp only [inhab] at hi
    simp only [zstVal, Valid]
    exact zst_validFields hT fs (fun n hn => zst_sizes hl.1 h n hn) hl.2 hi
  | .enum d (.cons tag fs vs), h, hl, hi => by
    simp only [layoutOk, layoutOkVariants, Bool.and_eq_true] at hl
    simp only [inhab] at hi
    simp only [zstVal, Valid, ValidVariants]
    cases vs with
    | nil =>
      simp only [Ty.isZst, Variants.isZst] at h
      exact zst_validFields' hT fs h hl.1 hi
    | cons _ _ _ => simp [Ty.isZst, Variants.isZst] at h
  | .enum d .nil, _, _, hi => by simp [inhab] at hi
  | .prim _, h, _, _ | .usize, h, _, _ | .bool, h, _, _ | .char, h, _, _ | .nonZero _, h, _, _ | .atomic _, h, _, _
  | .ipv4, h, _, _ | .ipv6, h, _, _ | .ipAddr, h, _, _ | .duration, h, _, _ | .systemTime, h, _, _
  | .endianness, h, _, _ | .varint64, h, _, _ | .uuid, h, _, _ | .str _, h, _, _ | .seq _ _, h, _, _ | .set _, h, _, _
  | .map _ _, h, _, _ | .refArray _ _, h, _, _ | .option _, h, _, _ | .result _ _, h, _, _ | .rangeInc _, h, _, _
  | .box _, h, _, _ | .via _ _, h, _, _ => by simp [Ty.isZst] at h
theorem zst_validFields {T : Target} (hT : T.Ok) : ∀ (fs : Fields), (∀ n ∈ fs.sizes T, n = 0) →
    layoutOkFields T fs = true → inhabFields fs = true → ValidFields T fs (zstFields fs)
  | .nil, _, _, _ => by simp [zstFields, ValidFields]
  | .cons a t fs, h, hl, hi => by
    simp only [layoutOkFields, Bool.and_eq_true] at hl
    simp only [inhabFields, Bool.and_eq_true] at hi
    simp only [zstFields, ValidFields]
    simp only [Fields.sizes, List.mem_cons, forall_eq_or_imp] at h
    exact ⟨zst_valid hT t (sizeOf_zst hT h.1) hl.1 hi.1, zst_validFields hT fs h.2 hl.2 hi.2⟩
theorem zst_validFields' {T : Target} (hT : T.Ok) : ∀ (fs : Fields), fs.isZst = true →
    layoutOkFields T fs = true → inhabFields fs = true → ValidFields T fs (zstFields fs)
  | .nil, _, _, _ => by simp [zstFields, ValidFields]
  | .cons a t fs, h, hl, hi => by
    simp only [layoutOkFields, Bool.and_eq_true] at hl
    simp only [inhabFields, Bool.and_eq_true] at hi
    simp only [zstFields, ValidFields]
    simp only [Fields.isZst, Bool.and_eq_true] at h
    exact ⟨zst_valid hT t h.1 hl.1 hi.1, zst_validFields' hT fs h.2 hl.2 hi.2⟩
end

theorem setOf_spec (vs : List Val) : (setOf vs).Nodup ∧ ∀ v ∈ setOf vs, v ∈ vs := by
  suffices h : ∀ (vs acc : List Val), acc.Nodup →
      (vs.foldl (fun acc v => if v ∈ acc then acc else acc ++ [v]) acc).Nodup ∧
      ∀ v ∈ vs.foldl (fun acc v => if v ∈ acc then acc else acc ++ [v]) acc, v ∈ acc ∨ v ∈ vs by
    have := h vs [] List.nodup_nil
    exact ⟨this.1, fun v hv => (this.2 v hv).elim (by simp) id⟩
  intro vs
  induction vs with
  | nil => intro acc h; exact ⟨h, fun v hv => .inl hv⟩
  | cons w vs ih =>
    intro acc h
    simp only [List.foldl_cons]
    split
    · have := ih acc h
      exact ⟨this.1, fun v hv => (this.2 v hv).imp id (List.mem_cons_of_mem _)⟩
    · rename_i hw
      have := ih (acc ++ [w]) (by
        rw [List.nodup_append]
        exact ⟨h, by simp, by rintro a ha b hb rfl; simp at hb; subst hb; exact hw ha⟩)
      refine ⟨this.1, fun v hv => ?_⟩
      rcases this.2 v hv with h1 | h1
      · rw [List.mem_append, List.mem_singleton] at h1
        rcases h1 with h1 | rfl
        · exact .inl h1
        · exact .inr List.mem_cons_self
      · exact .inr (List.mem_cons_of_mem _ h1)

theorem mapInsert_spec {P : Val → Val → Prop} {k v : Val} (hkv : P k v) : ∀ {acc : List Val},
    (∀ x ∈ acc, ∃ a b, x = .pair a b ∧ P a b) → (keys acc).Nodup →
    (∀ x ∈ mapInsert k v acc, ∃ a b, x = .pair a b ∧ P a b) ∧ (keys (mapInsert k v acc)).Nodup ∧
      ∀ x ∈ keys (mapInsert k v acc), x = k ∨ x ∈ keys acc
  | [], _, _ => by
    refine ⟨?_, ?_, ?_⟩
    · intro x hx; simp only [mapInsert, List.mem_singleton] at hx; exact ⟨k, v, hx, hkv⟩
    · simp [mapInsert, keys]
    · intro x hx; simpa [mapInsert, keys] using hx
  | x :: acc, h, hn => by
    obtain ⟨a, b, rfl, hab⟩ := h x List.mem_cons_self
    have h' := fun x hx => h x (List.mem_cons_of_mem _ hx)
    simp only [keys, List.nodup_cons] at hn
    have ih := mapInsert_spec hkv h' hn.2
    simp only [mapInsert]
    split
    · rename_i hk
      subst hk
      refine ⟨?_, by simp only [keys, List.nodup_cons]; exact hn, ?_⟩
      · intro x hx
        simp only [List.mem_cons] at hx
        rcases hx with rfl | hx
        · exact ⟨a, v, rfl, hkv⟩
        · exact h' x hx
      · intro x hx; simp only [keys, List.mem_cons] at hx ⊢; exact .inr hx
    · rename_i hk
      refine ⟨?_, ?_, ?_⟩
      · intro x hx
        simp only [List.mem_cons] at hx
        rcases hx with rfl | hx
        · exact ⟨a, b, rfl, hab⟩
        · exact ih.1 x hx
      · simp only [keys, List.nodup_cons]
        refine ⟨fun hm => ?_, ih.2.1⟩
        rcases ih.2.2 a hm with h1 | h1
        · exact hk h1
        · exact hn.1 h1
      · intro x hx
        simp only [keys, List.mem_cons] at hx ⊢
        rcases hx with rfl | hx
        · exact .inr (.inl rfl)
        · rcases ih.2.2 x hx with h1 | h1
          · exact .inl h1
          · exact .inr (.inr h1)

theorem mapOf_spec {P : Val → Val → Prop} {vs : List Val} (h : ∀ x ∈ vs, ∃ a b, x = .pair a b ∧ P a b) :
    (keys (mapOf vs)).Nodup ∧ ∀ x ∈ mapOf vs, ∃ a b, x = .pair a b ∧ P a b := by
  suffices hh : ∀ (vs acc : List Val), (∀ x ∈ vs, ∃ a b, x = .pair a b ∧ P a b) →
      (∀ x ∈ acc, ∃ a b, x = .pair a b ∧ P a b) → (keys acc).Nodup →
      (keys (vs.foldl mapStep acc)).Nodup ∧ ∀ x ∈ vs.foldl mapStep acc, ∃ a b, x = .pair a b ∧ P a b from
    hh vs [] h (by simp) (by simp [keys])
  intro vs
  induction vs with
  | nil => intro acc _ h1 h2; exact ⟨h2, h1⟩
  | cons w vs ih =>
    intro acc h0 h1 h2
    obtain ⟨a, b, rfl, hab⟩ := h0 w List.mem_cons_self
    have := mapInsert_spec (P := P) hab h1 h2
    exact ih _ (fun x hx => h0 x (List.mem_cons_of_mem _ hx)) this.1 this.2.1

end Verif
