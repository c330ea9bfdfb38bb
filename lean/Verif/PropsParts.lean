import Verif.PropsInterchange
import Verif.PropsStream
import Verif.PropsPortable

/-!
# Values may be written and read in parts (C95)
-/

namespace Verif

/-! ## Parts -/

/-- A value of some type. -/
abbrev Part := Ty × Val

/-- A number of elements, as the `u32` before them (README.md:104-123); `none` if it is too large for one. -/
def countPart (n : Nat) : Option Part := if n < 2 ^ 32 then some (.prim .u32, .num n) else none

/-- The bytes of a string or of a constant. -/
def byteParts (bs : Bytes) : List Part := bs.map fun b => (.prim .u8, .num b.toNat)

/-- Elements of one type. -/
def elemParts (t : Ty) (vs : List Val) : List Part := vs.map fun v => (t, v)

/-- The tag of a variant, as a number of the type of tags. -/
def tagPart : LenTy → Nat → Part
  | .u7, n | .u8, n => (.prim .u8, .num n)
  | .u16, n => (.prim .u16, .num n)
  | .u32, n => (.prim .u32, .num n)
  | .u64, n => (.prim .u64, .num n)
  | .varint, n => (.varint64, .num n)

/-- What is in a collection, and how many elements it has. -/
def content : Ty → Val → Option (Nat × List Part)
  | .str _, .bytes bs => some (bs.length, byteParts bs)
  | .seq _ t, .list vs | .set t, .list vs => some (vs.length, elemParts t vs)
  | .map k v, .list vs => some (vs.length, elemParts (.two k v) vs)
  | _, _ => none

/-- A collection with an attribute for its length: with `length_type` after the number of elements in that type; with `length` without (README.md:139-178). -/
def lenParts (l : LenKind) (prev : List Val) (t : Ty) (v : Val) : Option (List Part) :=
  match content t v, l with
  | some (n, ps), .typed lt => if n ≤ lt.max then some (tagPart lt n :: ps) else none
  | some (n, ps), .expr f => if n = f prev then some ps else none
  | some (_, ps), .untilEof => some ps
  | none, _ => none

/-- A field. -/
def fieldPart (a : Attrs) (prev : List Val) (t : Ty) (v : Val) : Option (List Part) :=
  match a.len with
  | none => some [(if a.varint then .varint64 else t, v)]
  | some l => if a.varint then none else match t, v with
    | .option _, .none => some [(.prim .u8, .num 0)]
    | .option t, .some v => (lenParts l prev t v).map ((.prim .u8, .num 1) :: ·)
    | t, v => lenParts l prev t v

/-- The fields which are not skipped, each after its constant. -/
def fieldParts : Fields → List Val → Val → Option (List Part)
  | .nil, _, .unit => some []
  | .cons a t fs, prev, .pair v rest =>
    if a.skip then fieldParts fs prev rest
    else match fieldPart a prev t v, fieldParts fs (prev ++ [v]) rest with
      | some ps, some qs => some (byteParts a.pre ++ ps ++ qs)
      | _, _ => none
  | _, _, _ => none

/-- The `i`-th variant: the tag, unless `peek_tag`, and the fields. -/
def variantParts (d : EnumDesc) : Variants → Nat → Val → Option (List Part)
  | .nil, _, _ => none
  | .cons tag fs _, 0, v => (fieldParts fs [] v).map fun ps => if d.peek then ps else tagPart d.tagTy tag :: ps
  | .cons _ _ vs, i + 1, v => variantParts d vs i v

/-- What one would write instead of a value: its parts one after another. -/
def parts : Ty → Val → Option (List Part)
  | .str _, .bytes bs => (countPart bs.length).map (· :: byteParts bs)
  | .seq _ t, .list vs | .set t, .list vs => (countPart vs.length).map (· :: elemParts t vs)
  | .map k v, .list vs => (countPart vs.length).map (· :: elemParts (.two k v) vs)
  | .array _ t, .list vs | .refArray _ t, .list vs => some (elemParts t vs)
  | .option _, .none => some [(.prim .u8, .num 0)]
  | .option t, .some v | .result t _, .variant 1 v => some [(.prim .u8, .num 1), (t, v)]
  | .result _ t, .variant 0 v => some [(.prim .u8, .num 0), (t, v)]
  | .range t, .pair a (.pair b .unit) | .rangeInc t, .pair a (.pair b (.bool _)) => some [(t, a), (t, b)]
  | .pair a b, .pair x y => some [(a, x), (b, y)]
  | .duration, .pair (.num s) (.num n) => some [(.prim .u64, .num s), (.prim .u32, .num n)]
  | .box t, v | .via _ t, v => some [(t, v)]
  | .struct _ fs, v => fieldParts fs [] v
  | .enum d vs, .variant i v => variantParts d vs i v
  | _, _ => none

/-! ## The format -/

/-- Parts one after another. -/
def wireParts (F : Fmt) : List Part → Except Err Bytes
  | [] => .ok []
  | p :: ps => cat (wire F p.1 LenR.std p.2) (wireParts F ps)

theorem wireParts_append (F : Fmt) : ∀ ps qs : List Part, wireParts F (ps ++ qs) = cat (wireParts F ps) (wireParts F qs)
  | [], qs => (cat_nil_left _).symm
  | p :: ps, qs => by simp only [List.cons_append, wireParts, wireParts_append F ps qs, cat_assoc]

theorem wireParts_bytes (F : Fmt) : ∀ bs : Bytes, wireParts F (byteParts bs) = .ok bs
  | [] => rfl
  | b :: bs => by
    have := wireParts_bytes F bs
    simp only [byteParts] at this
    simp only [byteParts, List.map_cons, wireParts, this, wire, Prim.size, bytes_one, cat, List.cons_append, List.nil_append]

theorem wireParts_elems (F : Fmt) (t : Ty) : ∀ vs : List Val, wireParts F (elemParts t vs) = catAll (wire F t LenR.std) vs
  | [] => rfl
  | v :: vs => by
    have := wireParts_elems F t vs
    simp only [elemParts] at this
    simp only [elemParts, List.map_cons, wireParts, this, catAll]

theorem wire_count (F : Fmt) {n : Nat} {p : Part} (h : countPart n = some p) (b : Bool) :
    wireLen F.e n (.typed .u32 b) = wire F p.1 LenR.std p.2 := by
  unfold countPart at h
  split at h
  · cases h
    rename_i hn
    have : ¬ n > LenTy.u32.max := by simp only [LenTy.max]; omega
    simp only [wireLen, this, if_false, wire, wireNum, LenTy.minSize, Prim.size]
  · cases h

theorem wire_tag (F : Fmt) (lt : LenTy) (n : Nat) : wire F (tagPart lt n).1 LenR.std (tagPart lt n).2 = .ok (wireNum F.e lt n) := by
  cases lt <;> simp only [tagPart, wire, wireNum, LenTy.minSize, Prim.size]

theorem wire_content (F : Fmt) {T : Target} {t : Ty} {v : Val} {n : Nat} {ps : List Part} (l : LenR) (hv : hasTy T t v)
    (h : content t v = some (n, ps)) : wire F t l v = cat (wireLen F.e n l) (wireParts F ps) := by
  unfold content at h
  split at h
  · cases h; simp only [wire, wireParts_bytes]
  · cases h; simp only [wire, wireParts_elems]
  · cases h; simp only [wire, wireParts_elems]
  · rename_i k u vs
    cases h
    have hk : ∀ kv ∈ vs, ∃ a b, kv = .pair a (.pair b .unit) := fun kv hkv => by
      unfold hasTy at hv
      obtain ⟨a, b, h, _⟩ := hv.1 kv hkv
      exact ⟨a, b, h⟩
    simp only [wire, wireParts_elems]
    congr 1
    clear hv
    induction vs with
    | nil => rfl
    | cons kv vs ih =>
      obtain ⟨a, b, rfl⟩ := hk kv List.mem_cons_self
      simp only [catAll, ih fun kv hkv => hk kv (List.mem_cons_of_mem _ hkv), Ty.two, wire, cat_nil]
  · cases h

theorem wire_len (F : Fmt) {T : Target} {t : Ty} {v : Val} {l : LenKind} {prev : List Val} {ps : List Part} {a : Attrs} (hv : hasTy T t v)
    (ha : a.len = some l) (ho : a.opaqueTy = false) (h : lenParts l prev t v = some ps) : wire F t (a.wlen prev) v = wireParts F ps := by
  unfold lenParts at h
  split at h
  · rename_i n qs lt hc
    split at h
    · cases h
      rename_i hn
      have : ¬ n > lt.max := by omega
      simp only [wire_content F _ hv hc, Attrs.wlen, ho, ha, wireLen, this, if_false, wireParts, wire_tag, Bool.false_eq_true]
    · cases h
  · rename_i n qs f hc
    split at h
    · cases h
      rename_i hn
      simp only [wire_content F _ hv hc, Attrs.wlen, ho, ha, wireLen, hn, if_true, Bool.false_eq_true, if_false, cat_nil_left]
    · cases h
  · rename_i n qs hc
    cases h
    simp only [wire_content F _ hv hc, Attrs.wlen, ho, ha, wireLen, Bool.false_eq_true, if_false, cat_nil_left]
  · cases h

theorem wire_field (F : Fmt) {T : Target} {t : Ty} {v : Val} {prev : List Val} {ps : List Part} {a : Attrs} (hd : a.declOk t = true)
    (hv : hasTy T t v) (h : fieldPart a prev t v = some ps) :
    (if a.varint then (match (generalizing := false) v with | .num n => .ok (specVarint n) | _ => .error .illTyped) else wire F t (a.wlen prev) v) = wireParts F ps := by
  have one : F.e.bytes 1 1 = [1] := by cases F.e <;> rfl
  have zero : F.e.bytes 1 0 = [0] := by cases F.e <;> rfl
  unfold fieldPart at h
  split at h
  · rename_i hn
    cases h
    simp only [wireParts, cat_nil]
    split
    · cases v <;> simp [wire]
    · simp only [Attrs.wlen, hn]
      split
      · rfl
      · exact congrFun (wire_typed .u32 _ false t) v
  · rename_i l hn
    split at h
    · cases h
    · rename_i hvar
      rw [if_neg hvar]
      have ho : a.opaqueTy = false := by
        simp only [Attrs.declOk, hn] at hd
        cases l <;> simp only [Bool.and_eq_true, Bool.not_eq_true'] at hd <;> exact hd.1.1
      split at h
      · cases h
        simp only [wire, wireParts, Prim.size, zero, cat_nil]
      · rename_i t v
        simp only [Option.map_eq_some_iff] at h
        obtain ⟨qs, hq, rfl⟩ := h
        have hcont : ∀ u, t ≠ .option u := by
          rintro u rfl
          simp only [Attrs.declOk, hn] at hd
          cases l <;> simp [Ty.isContainer] at hd
        have : ∀ l : LenR, l.opt t = l := by
          intro l
          cases t <;> simp_all [LenR.opt]
        unfold hasTy at hv
        simp only [wire, this, wireParts, Prim.size, one, wire_len F hv hn ho hq]
      · exact wire_len F hv hn ho h

theorem wire_fields (F : Fmt) {T : Target} : ∀ (fs : Fields) (prev : List Val) (v : Val) {ps : List Part}, declOkFields fs = true →
    hasTyFields T fs v → fieldParts fs prev v = some ps → wireFields F fs prev v = wireParts F ps
  | .nil, prev, .unit, ps, _, _, h => by cases h; rfl
  | .cons a t fs, prev, .pair v rest, ps, hd, hv, h => by
    simp only [declOkFields, Bool.and_eq_true] at hd
    simp only [hasTyFields] at hv
    simp only [fieldParts] at h
    simp only [wireFields]
    split at h
    · rename_i hs
      rw [if_pos hs]
      exact wire_fields F fs prev rest hd.1.2 hv.2 h
    · rename_i hs
      rw [if_neg hs]
      split at h
      · rename_i qs rs hq hr
        cases h
        rw [wire_fields F fs (prev ++ [v]) rest hd.1.2 hv.2 hr, wireParts_append, wireParts_append, wireParts_bytes]
        congr 2
        have := wire_field F hd.1.1.1 hv.1 hq
        cases v <;> exact this
      · cases h
  | .nil, _, .pair _ _, _, _, _, h => by cases h
  | .cons _ _ _, _, .unit, _, _, _, h => by cases h

theorem wire_variants (F : Fmt) {T : Target} (d : EnumDesc) : ∀ (vs : Variants) (i : Nat) (v : Val) {ps : List Part}, declOkVariants vs = true →
    hasTyVariants T vs i v → variantParts d vs i v = some ps → wireVariants F d vs i v = wireParts F ps
  | .nil, i, v, ps, _, _, h => by cases h
  | .cons tag fs vs, 0, v, ps, hd, hv, h => by
    simp only [declOkVariants, Bool.and_eq_true] at hd
    simp only [hasTyVariants] at hv
    simp only [variantParts, Option.map_eq_some_iff] at h
    obtain ⟨qs, hq, rfl⟩ := h
    simp only [wireVariants, wire_fields F fs [] v hd.1 hv hq]
    split
    · exact cat_nil_left _
    · simp only [wireParts, wire_tag]
  | .cons _ _ vs, i + 1, v, ps, hd, hv, h => by
    simp only [declOkVariants, Bool.and_eq_true] at hd
    simp only [hasTyVariants] at hv
    exact wire_variants F d vs i v hd.2 hv h

theorem wire_parts (F : Fmt) {T : Target} {t : Ty} {v : Val} {ps : List Part} (hd : declOk t = true) (hv : hasTy T t v) (h : parts t v = some ps) :
    wire F t LenR.std v = wireParts F ps := by
  have count : ∀ {n : Nat} {rest : List Part}, (countPart n).map (· :: rest) = some ps →
      cat (wireLen F.e n LenR.std) (wireParts F rest) = wireParts F ps := by
    intro n rest h
    simp only [Option.map_eq_some_iff] at h
    obtain ⟨p, hp, rfl⟩ := h
    simp only [wireParts, LenR.std_eq, wire_count F hp]
  have one : F.e.bytes 1 1 = [1] := by cases F.e <;> rfl
  have zero : F.e.bytes 1 0 = [0] := by cases F.e <;> rfl
  unfold parts at h
  split at h
  · rw [← count h, wireParts_bytes]; simp only [wire]
  · rw [← count h, wireParts_elems]; simp only [wire]
  · rw [← count h, wireParts_elems]; simp only [wire]
  · rename_i k u vs
    rw [← count h, wireParts_elems]
    simp only [wire]
    congr 1
    have hk' : ∀ kv ∈ vs, ∃ a b, kv = .pair a (.pair b .unit) := fun kv hkv => by
      unfold hasTy at hv
      obtain ⟨a, b, h, _⟩ := hv.1 kv hkv
      exact ⟨a, b, h⟩
    clear hv h count
    induction vs with
    | nil => rfl
    | cons kv vs ih =>
      obtain ⟨a, b, rfl⟩ := hk' kv (.head _)
      simp only [catAll, ih fun kv h => hk' kv (.tail _ h), Ty.two, wire, cat_nil]
  · cases h
    unfold hasTy at hv
    simp only [wire, wireParts_elems, hv.1, ne_eq, not_true, if_false]
  · cases h
    unfold hasTy at hv
    simp only [wire, wireParts_elems, hv.1, ne_eq, not_true, if_false]
  · cases h; simp only [wire, wireParts, Prim.size, zero, cat_nil]
  · cases h; simp only [wire, wireParts, Prim.size, one, cat_nil, LenR.std_opt]
  · cases h; simp only [wire, wireParts, Prim.size, one, cat_nil]
  · cases h; simp only [wire, wireParts, Prim.size, zero, cat_nil]
  · cases h; simp only [wire, wireParts, cat_nil]
  · cases h; simp only [wire, wireParts, cat_nil]
  · cases h; simp only [wire, wireParts, cat_nil]
  · cases h; simp only [wire, wireParts, Prim.size, cat, List.append_nil]
  · cases h; simp only [wire, wireParts, cat_nil]
  · cases h; simp only [wire, wireParts, cat_nil]
  · simp only [wire]
    exact wire_fields F _ [] _ (by simpa [declOk] using hd) (by simpa only [hasTy] using hv) h
  · simp only [wire]
    exact wire_variants F _ _ _ _ (by simp only [declOk, Bool.and_eq_true] at hd; exact hd.2) (by simpa only [hasTy] using hv) h
  · cases h

/-! ## Conditions on the parts follow from those on the value -/

/-- The conditions under which the format is known (see `EncodeWire.lean`). -/
structure Fine (T : Target) (p : Part) : Prop where
  layout : layoutOk T p.1 = true
  decl : declOk p.1 = true
  slices : sliceOk T p.1 = true
  ty : hasTy T p.1 p.2

theorem fine_byte {T : Target} {n : Nat} (h : n < 256) : Fine T (.prim .u8, .num n) := ⟨rfl, rfl, rfl, by simpa [hasTy, Prim.size] using h⟩

theorem fine_bytes {T : Target} (bs : Bytes) : ∀ p ∈ byteParts bs, Fine T p := by
  intro p hp
  simp only [byteParts, List.mem_map] at hp
  obtain ⟨b, _, rfl⟩ := hp
  exact fine_byte b.toNat_lt

theorem fine_count {T : Target} {n : Nat} {p : Part} (h : countPart n = some p) : Fine T p := by
  unfold countPart at h
  split at h
  · cases h
    refine ⟨rfl, rfl, rfl, ?_⟩
    simp only [hasTy, Prim.size]
    omega
  · cases h

theorem fine_elems {T : Target} {t : Ty} (hl : layoutOk T t = true) (hd : declOk t = true) (hs : sliceOk T t = true) {vs : List Val}
    (hv : ∀ v ∈ vs, hasTy T t v) : ∀ p ∈ elemParts t vs, Fine T p := by
  intro p hp
  simp only [elemParts, List.mem_map] at hp
  obtain ⟨v, h, rfl⟩ := hp
  exact ⟨hl, hd, hs, hv v h⟩

theorem fine_tag {T : Target} {lt : LenTy} {n : Nat} (h : n ≤ lt.max) : Fine T (tagPart lt n) := by
  cases lt <;> simp only [LenTy.max] at h <;> refine ⟨rfl, rfl, rfl, ?_⟩ <;> simp only [tagPart, hasTy, Prim.size] <;> omega

theorem fine_content {T : Target} {t : Ty} {v : Val} {n : Nat} {ps : List Part} (hf : Fine T (t, v)) (h : content t v = some (n, ps)) :
    ∀ p ∈ ps, Fine T p := by
  obtain ⟨hl, hd, hs, hv⟩ := hf
  simp only at hl hd hs hv
  unfold content at h
  split at h
  · cases h; exact fine_bytes _
  · simp only [layoutOk, declOk, sliceOk, Bool.and_eq_true, hasTy] at hl hd hs hv
    cases h
    exact fine_elems hl hd hs.2 hv.1
  · simp only [layoutOk, declOk, sliceOk, Bool.and_eq_true, hasTy] at hl hd hs hv
    cases h
    exact fine_elems hl hd hs.2 hv.1
  · simp only [layoutOk, declOk, sliceOk, Bool.and_eq_true, hasTy] at hl hd hs hv
    cases h
    refine fine_elems (by simp [Ty.two, layoutOk, hl]) (by simp [Ty.two, declOk, hd]) (by simp [Ty.two, sliceOk, hs]) fun kv hkv => ?_
    obtain ⟨a, b, rfl, h1, h2⟩ := hv.1 kv hkv
    exact ⟨h1, h2, trivial⟩
  · cases h

theorem fine_len {T : Target} {t : Ty} {v : Val} {l : LenKind} {prev : List Val} {ps : List Part} (hf : Fine T (t, v))
    (h : lenParts l prev t v = some ps) : ∀ p ∈ ps, Fine T p := by
  unfold lenParts at h
  split at h
  · rename_i n qs lt hc
    split at h
    · cases h
      rename_i hn
      intro p hp
      rcases List.mem_cons.mp hp with rfl | hp
      · exact fine_tag hn
      · exact fine_content hf hc p hp
    · cases h
  · rename_i n qs f hc
    split at h
    · cases h
      exact fine_content hf hc
    · cases h
  · rename_i n qs hc
    cases h
    exact fine_content hf hc
  · cases h

theorem fine_field {T : Target} {t : Ty} {v : Val} {prev : List Val} {ps : List Part} {a : Attrs} (hd : a.declOk t = true)
    (hf : Fine T (t, v)) (h : fieldPart a prev t v = some ps) : ∀ p ∈ ps, Fine T p := by
  unfold fieldPart at h
  split at h
  · cases h
    intro p hp
    simp only [List.mem_singleton] at hp
    subst hp
    split
    · rename_i hvar
      have ht : t = .prim .u64 := by
        simp only [Attrs.declOk, hvar, Bool.and_eq_true, Bool.not_true, Bool.false_or] at hd
        have := hd.2
        split at this
        · rfl
        · cases this
      subst ht
      refine ⟨rfl, rfl, rfl, ?_⟩
      have h1 := hf.ty
      cases v <;> simp only [hasTy, Prim.size] at h1 ⊢
      omega
    · exact hf
  · split at h
    · cases h
    · split at h
      · cases h
        intro p hp
        simp only [List.mem_singleton] at hp
        subst hp
        exact fine_byte (by omega)
      · simp only [Option.map_eq_some_iff] at h
        obtain ⟨qs, hq, rfl⟩ := h
        intro p hp
        rcases List.mem_cons.mp hp with rfl | hp
        · exact fine_byte (by omega)
        · obtain ⟨hl, hd, hs, hv⟩ := hf
          simp only [layoutOk, declOk, sliceOk, hasTy] at hl hd hs hv
          exact fine_len ⟨hl, hd, hs, hv⟩ hq p hp
      · exact fine_len hf h

theorem fine_fields {T : Target} : ∀ (fs : Fields) (prev : List Val) (v : Val) {ps : List Part}, layoutOkFields T fs = true →
    declOkFields fs = true → sliceOkFields T fs = true → hasTyFields T fs v → fieldParts fs prev v = some ps → ∀ p ∈ ps, Fine T p
  | .nil, _, .unit, ps, _, _, _, _, h => by cases h; simp
  | .cons a t fs, prev, .pair v rest, ps, hl, hd, hs, hv, h => by
    simp only [layoutOkFields, Bool.and_eq_true] at hl
    simp only [declOkFields, Bool.and_eq_true] at hd
    simp only [sliceOkFields, Bool.and_eq_true] at hs
    simp only [hasTyFields] at hv
    simp only [fieldParts] at h
    split at h
    · exact fine_fields fs prev rest hl.2 hd.1.2 hs.2 hv.2 h
    · split at h
      · rename_i qs rs hq hr
        cases h
        intro p hp
        simp only [List.mem_append] at hp
        rcases hp with (hp | hp) | hp
        · exact fine_bytes _ p hp
        · exact fine_field hd.1.1.1 ⟨hl.1, hd.1.1.2, hs.1, hv.1⟩ hq p hp
        · exact fine_fields fs _ rest hl.2 hd.1.2 hs.2 hv.2 hr p hp
      · cases h
  | .nil, _, .pair _ _, _, _, _, _, _, h => by cases h
  | .cons _ _ _, _, .unit, _, _, _, _, _, h => by cases h

theorem fine_variants {T : Target} (d : EnumDesc) : ∀ (vs : Variants) (i : Nat) (v : Val) {ps : List Part}, layoutOkVariants T vs = true →
    declOkVariants vs = true → vs.tags.all (· ≤ d.tagTy.max) = true → sliceOkVariants T vs = true → hasTyVariants T vs i v →
    variantParts d vs i v = some ps → ∀ p ∈ ps, Fine T p
  | .nil, i, v, ps, _, _, _, _, _, h => by cases h
  | .cons tag fs vs, 0, v, ps, hl, hd, ht, hs, hv, h => by
    simp only [layoutOkVariants, Bool.and_eq_true] at hl
    simp only [declOkVariants, Bool.and_eq_true] at hd
    simp only [sliceOkVariants, Bool.and_eq_true] at hs
    simp only [hasTyVariants] at hv
    simp only [Variants.tags, List.all_cons, Bool.and_eq_true, decide_eq_true_eq] at ht
    simp only [variantParts, Option.map_eq_some_iff] at h
    obtain ⟨qs, hq, rfl⟩ := h
    have key := fine_fields fs [] v hl.1 hd.1 hs.1 hv hq
    intro p hp
    split at hp
    · exact key p hp
    · rcases List.mem_cons.mp hp with rfl | hp
      · exact fine_tag ht.1
      · exact key p hp
  | .cons _ _ vs, i + 1, v, ps, hl, hd, ht, hs, hv, h => by
    simp only [layoutOkVariants, Bool.and_eq_true] at hl
    simp only [declOkVariants, Bool.and_eq_true] at hd
    simp only [sliceOkVariants, Bool.and_eq_true] at hs
    simp only [hasTyVariants] at hv
    simp only [Variants.tags, List.all_cons, Bool.and_eq_true] at ht
    exact fine_variants d vs i v hl.2 hd.2 ht.2 hs.2 hv h

theorem fine_parts {T : Target} {t : Ty} {v : Val} {ps : List Part} (hf : Fine T (t, v)) (h : parts t v = some ps) : ∀ p ∈ ps, Fine T p := by
  obtain ⟨hl, hd, hs, hv⟩ := hf
  simp only at hl hd hs hv
  have zero : Fine T (.prim .u8, .num 0) := fine_byte (by omega)
  have one : Fine T (.prim .u8, .num 1) := fine_byte (by omega)
  have count : ∀ {n : Nat} {rest : List Part}, (countPart n).map (· :: rest) = some ps → (∀ p ∈ rest, Fine T p) → ∀ p ∈ ps, Fine T p := by
    intro n rest h hr p hp
    simp only [Option.map_eq_some_iff] at h
    obtain ⟨q, hq, rfl⟩ := h
    rcases List.mem_cons.mp hp with rfl | hp
    · exact fine_count hq
    · exact hr p hp
  unfold parts at h
  split at h
  · exact count h (fine_bytes _)
  · simp only [layoutOk, declOk, sliceOk, Bool.and_eq_true, hasTy] at hl hd hs hv
    exact count h (fine_elems hl hd hs.2 hv.1)
  · simp only [layoutOk, declOk, sliceOk, Bool.and_eq_true, hasTy] at hl hd hs hv
    exact count h (fine_elems hl hd hs.2 hv.1)
  · simp only [layoutOk, declOk, sliceOk, Bool.and_eq_true, hasTy] at hl hd hs hv
    refine count h (fine_elems (by simp [Ty.two, layoutOk, hl]) (by simp [Ty.two, declOk, hd]) (by simp [Ty.two, sliceOk, hs]) fun kv hkv => ?_)
    obtain ⟨a, b, rfl, h1, h2⟩ := hv.1 kv hkv
    exact ⟨h1, h2, trivial⟩
  · simp only [layoutOk, declOk, sliceOk, Bool.and_eq_true, hasTy] at hl hd hs hv
    cases h
    exact fine_elems hl hd hs.2 hv.2
  · simp only [layoutOk, declOk, sliceOk, Bool.and_eq_true, hasTy] at hl hd hs hv
    cases h
    exact fine_elems hl hd hs.2 hv.2
  · cases h
    simpa using zero
  · simp only [layoutOk, declOk, sliceOk, Bool.and_eq_true, hasTy] at hl hd hs hv
    cases h
    simpa using ⟨one, ⟨hl, hd, hs, hv⟩⟩
  · simp only [layoutOk, declOk, sliceOk, Bool.and_eq_true, hasTy] at hl hd hs hv
    cases h
    simpa using ⟨one, ⟨hl.1, hd.1, hs.1, hv⟩⟩
  · simp only [layoutOk, declOk, sliceOk, Bool.and_eq_true, hasTy] at hl hd hs hv
    cases h
    simpa using ⟨zero, ⟨hl.2, hd.2, hs.2, hv⟩⟩
  · simp only [layoutOk, declOk, sliceOk, Bool.and_eq_true, hasTy] at hl hd hs hv
    cases h
    simpa using ⟨⟨hl, hd, hs, hv.1⟩, ⟨hl, hd, hs, hv.2⟩⟩
  · simp only [layoutOk, declOk, sliceOk, Bool.and_eq_true, hasTy] at hl hd hs hv
    cases h
    simpa using ⟨⟨hl, hd, hs, hv.1⟩, ⟨hl, hd, hs, hv.2⟩⟩
  · simp only [layoutOk, declOk, sliceOk, Bool.and_eq_true, hasTy] at hl hd hs hv
    cases h
    simpa using ⟨⟨hl.1, hd.1, hs.1, hv.1⟩, ⟨hl.2, hd.2, hs.2, hv.2⟩⟩
  · rename_i s n
    simp only [hasTy] at hv
    cases h
    have h1 : Fine T (.prim .u64, .num s) := ⟨rfl, rfl, rfl, by simp only [hasTy, Prim.size]; omega⟩
    have h2 : Fine T (.prim .u32, .num n) := ⟨rfl, rfl, rfl, by simp only [hasTy, Prim.size]; omega⟩
    simpa using ⟨h1, h2⟩
  · simp only [layoutOk, declOk, sliceOk, hasTy] at hl hd hs hv
    cases h
    simpa using ⟨hl, hd, hs, hv⟩
  · simp only [layoutOk, declOk, sliceOk, hasTy] at hl hd hs hv
    cases h
    simpa using ⟨hl, hd, hs, hv.1⟩
  · simp only [layoutOk, declOk, sliceOk, Bool.and_eq_true, hasTy] at hl hd hs hv
    exact fine_fields _ _ _ hl.2 hd hs hv h
  · simp only [layoutOk, declOk, sliceOk, Bool.and_eq_true, hasTy] at hl hd hs hv
    exact fine_variants _ _ _ _ hl hd.2 hd.1.2 hs hv h
  · cases h


theorem cat_ok {a b : Except Err Bytes} {bs : Bytes} : cat a b = .ok bs ↔ ∃ x y, a = .ok x ∧ b = .ok y ∧ bs = x ++ y := by
  cases a <;> cases b <;> simp [cat, eq_comm]

/-! ## What can be written has parts -/

/-- Types of values which have parts. -/
def Ty.composite : Ty → Bool
  | .str _ | .seq _ _ | .set _ | .map _ _ | .array _ _ | .refArray _ _ | .option _ | .result _ _ | .range _ | .rangeInc _ | .pair _ _ | .duration
  | .box _ | .via _ _ | .struct _ _ | .enum _ _ => true
  | _ => false

theorem count_some {F : Fmt} {n : Nat} {x : Bytes} (h : wireLen F.e n LenR.std = .ok x) : ∃ p, countPart n = some p := by
  simp only [LenR.std_eq, wireLen] at h
  split at h
  · cases h
  · rename_i hn
    simp only [LenTy.max] at hn
    exact ⟨_, if_pos (by omega)⟩

theorem content_some {T : Target} {t : Ty} {v : Val} (hc : t.isContainer = true) (hv : hasTy T t v) : ∃ n ps, content t v = some (n, ps) := by
  cases t <;> simp only [Ty.isContainer, Bool.false_eq_true] at hc <;> cases v <;> unfold hasTy at hv <;> simp_all [content]

theorem len_some {F : Fmt} {T : Target} {t : Ty} {v : Val} {l : LenKind} {prev : List Val} {a : Attrs} {bs : Bytes} (hc : t.isContainer = true)
    (hv : hasTy T t v) (ha : a.len = some l) (ho : a.opaqueTy = false) (h : wire F t (a.wlen prev) v = .ok bs) :
    ∃ ps, lenParts l prev t v = some ps := by
  obtain ⟨n, ps, hp⟩ := content_some hc hv
  rw [wire_content F _ hv hp, cat_ok] at h
  obtain ⟨x, _, h, _⟩ := h
  simp only [Attrs.wlen, ho, ha, Bool.false_eq_true, if_false] at h
  unfold lenParts
  rw [hp]
  cases l with
  | typed lt =>
    simp only [wireLen] at h
    split at h
    · cases h
    · rename_i hn
      exact ⟨_, if_pos (by omega)⟩
  | expr f =>
    simp only [wireLen] at h
    split at h
    · rename_i hn
      exact ⟨_, if_pos hn⟩
    · cases h
  | untilEof => exact ⟨_, rfl⟩

theorem field_some {F : Fmt} {T : Target} {t : Ty} {v : Val} {prev : List Val} {a : Attrs} {bs : Bytes} (hd : a.declOk t = true) (hv : hasTy T t v)
    (h : a.varint = false → wire F t (a.wlen prev) v = .ok bs) : ∃ ps, fieldPart a prev t v = some ps := by
  unfold fieldPart
  split
  · exact ⟨_, rfl⟩
  · rename_i l hn
    have hvar : a.varint = false := by
      cases hvar : a.varint with
      | false => rfl
      | true =>
        simp only [Attrs.declOk, hn, hvar, Bool.and_eq_true, Bool.not_true, Bool.false_or] at hd
        cases t <;> simp at hd
        cases l <;> simp [Ty.isContainer] at hd
    have h := h hvar
    have ho : a.opaqueTy = false := by
      simp only [Attrs.declOk, hn] at hd
      cases l <;> simp only [Bool.and_eq_true, Bool.not_eq_true'] at hd <;> exact hd.1.1
    rw [if_neg (by simp [hvar])]
    split
    · exact ⟨_, rfl⟩
    · rename_i t v _
      have hcont : t.isContainer = true := by
        simp only [Attrs.declOk, hn] at hd
        cases l <;> simp only [Bool.and_eq_true] at hd
        · exact hd.1.2
        · simp [Ty.isContainer] at hd
        · simp [Ty.isContainer] at hd
      have : ∀ l : LenR, l.opt t = l := by
        intro l
        cases t <;> simp_all [LenR.opt, Ty.isContainer]
      unfold hasTy at hv
      simp only [wire, this, cat_ok] at h
      obtain ⟨_, y, _, h, _⟩ := h
      obtain ⟨ps, hp⟩ := len_some hcont hv hn ho h
      exact ⟨_, by rw [hp]; rfl⟩
    · rename_i h1 h2
      have hcont : t.isContainer = true := by
        simp only [Attrs.declOk, hn] at hd
        cases l <;> simp only [Bool.and_eq_true] at hd
        · have h3 := hd.1.2
          split at h3
          · exfalso
            cases v with
            | none => exact h1 _ rfl rfl
            | some v => exact h2 _ _ rfl rfl
            | _ => simp [hasTy] at hv
          · exact h3
        · exact hd.1.2
        · exact hd.1.2
      exact len_some hcont hv hn ho h

theorem fields_some {F : Fmt} {T : Target} : ∀ (fs : Fields) (prev : List Val) (v : Val) {bs : Bytes}, declOkFields fs = true →
    hasTyFields T fs v → wireFields F fs prev v = .ok bs → ∃ ps, fieldParts fs prev v = some ps
  | .nil, _, .unit, _, _, _, _ => ⟨_, rfl⟩
  | .cons a t fs, prev, .pair v rest, bs, hd, hv, h => by
    simp only [declOkFields, Bool.and_eq_true] at hd
    simp only [hasTyFields] at hv
    simp only [fieldParts]
    simp only [wireFields] at h
    split at h
    · rename_i hs
      rw [if_pos hs]
      exact fields_some fs prev rest hd.1.2 hv.2 h
    · rename_i hs
      rw [if_neg hs]
      obtain ⟨x, y, h1, h2, _⟩ := cat_ok.mp h
      obtain ⟨x1, x2, _, h3, _⟩ := cat_ok.mp h1
      obtain ⟨qs, hq⟩ := fields_some fs _ rest hd.1.2 hv.2 h2
      obtain ⟨ps, hp⟩ := field_some (F := F) (bs := x2) (prev := prev) hd.1.1.1 hv.1 (fun hn => by rw [if_neg (by simp [hn])] at h3; exact h3)
      exact ⟨_, by rw [hp, hq]⟩
  | .nil, _, .pair _ _, _, _, hv, _ => by simp [hasTyFields] at hv
  | .cons _ _ _, _, .unit, _, _, hv, _ => by simp [hasTyFields] at hv

theorem variants_some {F : Fmt} {T : Target} (d : EnumDesc) : ∀ (vs : Variants) (i : Nat) (v : Val) {bs : Bytes}, declOkVariants vs = true →
    hasTyVariants T vs i v → wireVariants F d vs i v = .ok bs → ∃ ps, variantParts d vs i v = some ps
  | .nil, i, v, _, _, hv, _ => by simp [hasTyVariants] at hv
  | .cons tag fs vs, 0, v, bs, hd, hv, h => by
    simp only [declOkVariants, Bool.and_eq_true] at hd
    simp only [hasTyVariants] at hv
    simp only [wireVariants] at h
    obtain ⟨x, y, _, h2, _⟩ := cat_ok.mp h
    obtain ⟨ps, hp⟩ := fields_some fs [] v hd.1 hv h2
    exact ⟨_, by simp only [variantParts, hp]; rfl⟩
  | .cons _ _ vs, i + 1, v, bs, hd, hv, h => by
    simp only [declOkVariants, Bool.and_eq_true] at hd
    simp only [hasTyVariants] at hv
    exact variants_some d vs i v hd.2 hv h

theorem parts_some {F : Fmt} {T : Target} {t : Ty} {v : Val} {bs : Bytes} (hc : t.composite = true) (hd : declOk t = true) (hv : hasTy T t v)
    (h : wire F t LenR.std v = .ok bs) : ∃ ps, parts t v = some ps := by
  unfold parts
  split
  all_goals first
    | exact ⟨_, rfl⟩
    | (simp only [wire, cat_ok] at h
       obtain ⟨x, _, h, _⟩ := h
       obtain ⟨p, hp⟩ := count_some h
       exact ⟨_, by rw [hp]; rfl⟩)
    | (simp only [wire] at h
       exact fields_some _ _ _ (by simpa [declOk] using hd) (by simpa only [hasTy] using hv) h)
    | (simp only [wire] at h
       exact variants_some _ _ _ _ (by simp only [declOk, Bool.and_eq_true] at hd; exact hd.2) (by simpa only [hasTy] using hv) h)
    | skip
  rename_i h1 h2 h3 h4 h5 h6 h7 h8 h9 h10 h11 h12 h13 h14 h15 h16 h17 h18
  exfalso
  cases t <;> simp only [Ty.composite, Bool.false_eq_true] at hc
  all_goals first
    | exact h1 _ rfl
    | exact h2 _ _ rfl
    | exact h3 _ _ rfl
    | (unfold hasTy at hv
       split at hv
       all_goals first
         | exact hv
         | contradiction
         | exact h4 _ _ rfl rfl
         | exact h5 _ _ _ rfl rfl
         | exact h6 _ _ rfl rfl
         | exact h7 _ _ _ rfl rfl
         | exact h8 _ _ _ rfl rfl
         | exact h9 _ _ _ rfl rfl
         | exact h10 _ rfl rfl
         | exact h11 _ _ rfl rfl
         | exact h12 _ _ _ rfl rfl
         | exact h13 _ _ _ rfl rfl
         | exact h14 _ _ _ rfl rfl
         | exact h15 _ _ _ _ rfl rfl
         | exact h16 _ _ _ _ rfl rfl
         | exact h17 _ _ rfl rfl
         | exact h18 _ _ _ _ rfl rfl)

/-! ## Writing -/

/-- `write_to_vec` of each part, the results one after another. -/
def vecParts (T : Target) (e : Endian) (junk : Nat → UInt8) : List Part → Except Err Bytes
  | [] => .ok []
  | p :: ps => match writeToVec T e p.1 p.2 junk with
    | .error er => .error er
    | .ok bs => match vecParts T e junk ps with
      | .error er => .error er
      | .ok cs => .ok (bs ++ cs)

theorem vecParts_ok {T : Target} {e : Endian} {junk : Nat → UInt8} (hT : T.Ok) : ∀ (ps : List Part) (bs : Bytes), (∀ p ∈ ps, Fine T p) →
    bs.length ≤ T.isizeMax → (vecParts T e junk ps = .ok bs ↔ wireParts (Fmt.code T.toHost e) ps = .ok bs)
  | [], bs, _, _ => by simp [vecParts, wireParts]
  | p :: ps, bs, hf, hm => by
    have hp := hf p List.mem_cons_self
    have ih := fun cs hc => vecParts_ok (e := e) (junk := junk) hT ps cs (fun q hq => hf q (List.mem_cons_of_mem _ hq)) hc
    simp only [wireParts, cat_ok]
    constructor
    · intro h
      simp only [vecParts] at h
      split at h
      · cases h
      · rename_i x hx
        split at h
        · cases h
        · rename_i y hy
          cases h
          simp only [List.length_append] at hm
          exact ⟨x, y, (vec_inv hT hp.layout hp.decl hp.slices hp.ty hx).1, (ih y (by omega)).mp hy, rfl⟩
    · rintro ⟨x, y, hx, hy, rfl⟩
      simp only [List.length_append] at hm
      simp only [vecParts, vec_ok hT hp.layout hp.decl hp.slices hp.ty (junk := junk) hx (by omega), (ih y (by omega)).mpr hy]

/-- **C95**, writing: the bytes of a value are those of its parts.

Partial: as for the format (see `C03`). -/
theorem C95_written_partial {T : Target} (hT : T.Ok) {e : Endian} {junk : Nat → UInt8} {t : Ty} {v : Val} {ps : List Part} {bs : Bytes}
    (hl : layoutOk T t = true) (hd : declOk t = true) (hs : sliceOk T t = true) (hv : hasTy T t v) (hp : parts t v = some ps) :
    writeToVec T e t v junk = .ok bs ↔ vecParts T e junk ps = .ok bs ∧ bs.length ≤ T.isizeMax := by
  have hf := fine_parts ⟨hl, hd, hs, hv⟩ hp
  have hw := wire_parts (Fmt.code T.toHost e) hd hv hp
  constructor
  · intro h
    obtain ⟨h1, h2⟩ := vec_inv hT hl hd hs hv h
    exact ⟨(vecParts_ok hT ps bs hf h2).mpr (hw ▸ h1), h2⟩
  · rintro ⟨h1, h2⟩
    exact vec_ok hT hl hd hs hv (hw.trans ((vecParts_ok hT ps bs hf h2).mp h1)) h2

/-- **C95**: every value which can be written has parts, unless its type is one of the smallest.

Partial: as `C95_written_partial`. -/
theorem C95_parts_partial {T : Target} (hT : T.Ok) {e : Endian} {junk : Nat → UInt8} {t : Ty} {v : Val} {bs : Bytes}
    (hl : layoutOk T t = true) (hd : declOk t = true) (hs : sliceOk T t = true) (hv : hasTy T t v) (hc : t.composite = true)
    (hw : writeToVec T e t v junk = .ok bs) : ∃ ps, parts t v = some ps ∧ vecParts T e junk ps = .ok bs := by
  obtain ⟨ps, hp⟩ := parts_some hc hd hv (vec_inv hT hl hd hs hv hw).1
  exact ⟨ps, hp, ((C95_written_partial hT hl hd hs hv hp).mp hw).1⟩

/-- `write_to_stream` of one part after another. -/
def streamParts (T : Target) (e : Endian) : List Part → Sink → Except Err Unit × Sink
  | [], s => (.ok (), s)
  | p :: ps, s => match writeToStream T e p.1 p.2 s with
    | (.error er, s) => (.error er, s)
    | (.ok _, s) => streamParts T e ps s

/-- **C95**, streams: a stream which works gets the same bytes from the value and from its parts.

Partial: as `C95_written_partial`. -/
theorem C95_stream_partial {T : Target} (hT : T.Ok) {e : Endian} {junk : Nat → UInt8} {t : Ty} {v : Val} {ps : List Part} {bs : Bytes}
    (hl : layoutOk T t = true) (hd : declOk t = true) (hs : sliceOk T t = true) (hv : hasTy T t v) (hp : parts t v = some ps)
    (hw : writeToVec T e t v junk = .ok bs) (s : Sink) (hk : s.Works) :
    (∃ s', writeToStream T e t v s = (.ok (), s') ∧ s'.got = s.got ++ bs) ∧
    ∃ s', streamParts T e ps s = (.ok (), s') ∧ s'.got = s.got ++ bs := by
  refine ⟨(C04_same_bytes_partial hT hl hd hs hv hw).2.2 s hk, ?_⟩
  have hf := fine_parts ⟨hl, hd, hs, hv⟩ hp
  obtain ⟨h1, -⟩ := (C95_written_partial hT hl hd hs hv hp).mp hw
  clear hp hw hl hd hs hv
  induction ps generalizing s bs with
  | nil => cases h1; exact ⟨s, rfl, by simp⟩
  | cons p ps ih =>
    have hp := hf p List.mem_cons_self
    simp only [vecParts] at h1
    split at h1
    · cases h1
    · rename_i x hx
      split at h1
      · cases h1
      · rename_i y hy
        cases h1
        obtain ⟨s1, h3, h4⟩ := (C04_same_bytes_partial hT hp.layout hp.decl hp.slices hp.ty hx).2.2 s hk
        have h5 : s1.Works := by
          have := (run_stream (h := T.toHost) (e := e) (encode T e p.1 Cx.std p.2) s).2.2
          rw [show (encode T e p.1 Cx.std p.2).run (writingCollector T.toHost e) s = (.ok (), s1) from h3] at this
          exact fun ev hev => hk ev (this ev hev)
        obtain ⟨s2, h6, h7⟩ := ih s1 h5 (fun q hq => hf q (List.mem_cons_of_mem _ hq)) hy
        exact ⟨s2, by simp only [streamParts, h3, h6], by rw [h7, h4, List.append_assoc]⟩

/-! ## Reading -/

/-- **C95**, reading the whole: what was written in parts is read as the value.

Partial: as `C01_round_trip_partial`. -/
theorem C95_read_whole_partial {T : Target} (hT : T.Ok) {e : Endian} {junk : Nat → UInt8} {t : Ty} {v : Val} {ps : List Part} {bs : Bytes}
    {base : Nat} (hl : layoutOk T t = true) (hd : declOk t = true) (hr : regular T e t = true) (hv : hasTy T t v)
    (hc : canon (Fmt.code T.toHost e) t v) (he : ends true false t = true) (hp : parts t v = some ps)
    (hw : vecParts T e junk ps = .ok bs) (hb : bs.length ≤ T.isizeMax) (hm : InMem T base bs) : readFromBuffer T e t base bs = .ok v :=
  C01_round_trip_partial hT hl hd hr hv hc ((C95_written_partial hT hl hd (regular_slice _ hr) hv hp).mpr ⟨hw, hb⟩) he hm

theorem parts_messages {T : Target} {e : Endian} {junk : Nat → UInt8} : ∀ (ps : List Part) {bs : Bytes}, (∀ p ∈ ps, Fine T p) →
    (∀ p ∈ ps, regular T e p.1 = true ∧ canon (Fmt.code T.toHost e) p.1 p.2 ∧ ends false false p.1 = true) → vecParts T e junk ps = .ok bs →
    ∃ ms : List Message, (∀ m ∈ ms, m.Ok T ∧ (m.t, m.v) ∈ ps) ∧ messageBytes ms = bs ∧
      (ms.map fun m => (m.e, m.t)) = ps.map (fun p => (e, p.1)) ∧ ms.map Message.v = ps.map Prod.snd
  | [], bs, _, _, h => by cases h; exact ⟨[], by simp, rfl, rfl, rfl⟩
  | p :: ps, bs, hf, hr, h => by
    have hp := hf p List.mem_cons_self
    obtain ⟨hr1, hr2, hr3⟩ := hr p List.mem_cons_self
    simp only [vecParts] at h
    split at h
    · cases h
    · rename_i x hx
      split at h
      · cases h
      · rename_i y hy
        cases h
        obtain ⟨ms, h2, h3, h4, h5⟩ := parts_messages ps (fun q hq => hf q (List.mem_cons_of_mem _ hq)) (fun q hq => hr q (List.mem_cons_of_mem _ hq)) hy
        refine ⟨⟨e, p.1, p.2, x⟩ :: ms, ?_, ?_, ?_, ?_⟩
        · intro m hm
          rcases List.mem_cons.mp hm with rfl | hm
          · exact ⟨⟨hp.layout, hp.decl, hr1, hp.ty, hr2, hr3, junk, hx⟩, List.mem_cons_self⟩
          · exact ⟨(h2 m hm).1, List.mem_cons_of_mem _ (h2 m hm).2⟩
        · rw [messageBytes_cons, h3]
        · simp only [List.map_cons, h4]
        · simp only [List.map_cons, h5]

/-- **C95**, reading in parts: what was written as the value is read by reading the types of its parts, one after another; what follows is left.

Partial: as `C41_messages_buffer_partial`, for each of the parts. -/
theorem C95_read_parts_partial {T : Target} (hT : T.Ok) {e : Endian} {junk : Nat → UInt8} {t : Ty} {v : Val} {ps : List Part} {bs : Bytes}
    (hl : layoutOk T t = true) (hd : declOk t = true) (hs : sliceOk T t = true) (hv : hasTy T t v) (hp : parts t v = some ps)
    (hr : ∀ p ∈ ps, regular T e p.1 = true ∧ canon (Fmt.code T.toHost e) p.1 p.2 ∧ ends false false p.1 = true)
    (hw : writeToVec T e t v junk = .ok bs) (base : Nat) (rest : Bytes) (hm : InMem T base (bs ++ rest)) :
    readMessagesBuf T (ps.map fun p => (e, p.1)) base (bs ++ rest) = (.ok (ps.map Prod.snd), bs.length) := by
  obtain ⟨h1, -⟩ := (C95_written_partial hT hl hd hs hv hp).mp hw
  obtain ⟨ms, h2, rfl, h4, h5⟩ := parts_messages ps (fine_parts ⟨hl, hd, hs, hv⟩ hp) hr h1
  rw [← h4, ← h5]
  exact C41_messages_buffer_partial hT ms (fun m hm => (h2 m hm).1) base rest hm

/-- **C95**, reading in parts from a stream, whatever the pieces in which it delivers the bytes.

Partial: as `C41_messages_stream_partial`, for each of the parts. -/
theorem C95_read_stream_partial {T : Target} (hT : T.Ok) {e : Endian} {junk : Nat → UInt8} {t : Ty} {v : Val} {ps : List Part} {bs : Bytes}
    (hl : layoutOk T t = true) (hd : declOk t = true) (hs : sliceOk T t = true) (hv : hasTy T t v) (hp : parts t v = some ps)
    (hr : ∀ p ∈ ps, regular T e p.1 = true ∧ canon (Fmt.code T.toHost e) p.1 p.2 ∧ ends false false p.1 = true)
    (hn : ∀ p ∈ ps, noRefs p.1 = true ∧ noPeek p.1 = true) (hw : writeToVec T e t v junk = .ok bs) {grow : Nat → Nat} (hg : ∀ n, n ≤ grow n)
    (src : Src) (hc : src.Clean) (rest : Bytes) (hb : src.data = bs ++ rest) (hf : Fits T src.data) :
    ∃ src', readMessages T grow (ps.map fun p => (e, p.1)) src = (.ok (ps.map Prod.snd), src') ∧ src'.data = rest := by
  obtain ⟨h1, -⟩ := (C95_written_partial hT hl hd hs hv hp).mp hw
  obtain ⟨ms, h2, rfl, h4, h5⟩ := parts_messages ps (fine_parts ⟨hl, hd, hs, hv⟩ hp) hr h1
  rw [← h4, ← h5]
  exact C41_messages_stream_partial hT hg ms (fun m hm => ⟨(h2 m hm).1, hn _ (h2 m hm).2⟩) src hc rest hb hf

/-! ## Cases -/

section
open Samples

/-- The parts of the message of `Samples`: the length of the name as an `u8` (`length_type`), its letters, the number, the constant, the shape. -/
def msgParts : List Part := [(.prim .u8, .num 2), (.prim .u8, .num 0x68), (.prim .u8, .num 0x69), (.prim .u32, .num 0x01020304),
  (.prim .u8, .num 0x53), (shape, .variant 1 (.pair (.list [.pair (.num 5) (.pair (.num 6) .unit), .pair (.num 7) (.pair (.num 8) .unit)]) .unit))]

theorem msg_parts : parts message msg = some msgParts := rfl

theorem msgParts_vec (junk : Nat → UInt8) : vecParts x64 .little junk msgParts = .ok msgLe :=
  ((C95_written_partial x64_ok message_layout message_decl (regular_slice _ (message_regular .little)) msg_ty msg_parts).mp (msg_vec junk)).1

example : vecParts x64 .little (fun _ => 7) msgParts = .ok msgLe ∧ msgLe.length ≤ x64.isizeMax :=
  (C95_written_partial x64_ok message_layout message_decl (regular_slice _ (message_regular .little)) msg_ty msg_parts).mp (msg_vec _)

example : ∃ ps, parts message msg = some ps ∧ vecParts x64 .little (fun _ => 7) ps = .ok msgLe :=
  C95_parts_partial x64_ok message_layout message_decl (regular_slice _ (message_regular .little)) msg_ty rfl (msg_vec _)

example : ∃ s', streamParts x64 .little msgParts ⟨[9], [.accept 3]⟩ = (.ok (), s') ∧ s'.got = [9] ++ msgLe :=
  (C95_stream_partial x64_ok message_layout message_decl (regular_slice _ (message_regular .little)) msg_ty msg_parts (msg_vec fun _ => 0)
    ⟨[9], [.accept 3]⟩ (by simp [Sink.Works])).2

example : readFromBuffer x64 .little message 4096 msgLe = .ok msg :=
  C95_read_whole_partial x64_ok message_layout message_decl (message_regular _) msg_ty (msg_canon _) (by decide) msg_parts
    (msgParts_vec fun _ => 0) (by decide) ⟨by decide, by decide, by decide⟩

theorem msgParts_fine : ∀ p ∈ msgParts, regular x64 .little p.1 = true ∧ canon (Fmt.code x64.toHost .little) p.1 p.2 ∧ ends false false p.1 = true := by
  intro p hp
  simp only [msgParts, List.mem_cons, List.not_mem_nil, or_false] at hp
  rcases hp with rfl | rfl | rfl | rfl | rfl | rfl <;> refine ⟨by decide, ?_, by decide⟩ <;>
    simp [canon, canonFields, canonVariants, shape, point]

example : ∃ src', readMessages x64 (· + 100) (msgParts.map fun p => (.little, p.1)) ⟨msgLe ++ [7], [.give 20, .give 2]⟩ =
    (.ok (msgParts.map Prod.snd), src') ∧ src'.data = [7] :=
  C95_read_stream_partial x64_ok message_layout message_decl (regular_slice _ (message_regular .little)) msg_ty msg_parts msgParts_fine (by
    intro p hp
    simp only [msgParts, List.mem_cons, List.not_mem_nil, or_false] at hp
    rcases hp with rfl | rfl | rfl | rfl | rfl | rfl <;> decide)
    (msg_vec fun _ => 0) (fun n => by omega) _ (by simp [Src.Clean]) [7] rfl ⟨by decide, by decide⟩

example : readMessagesBuf x64 [(.little, .prim .u8), (.little, .prim .u8), (.little, .prim .u8), (.little, .prim .u32), (.little, .prim .u8),
      (.little, shape)] 4096 (msgLe ++ [7]) = (.ok (msgParts.map Prod.snd), 21) :=
  C95_read_parts_partial x64_ok message_layout message_decl (regular_slice _ (message_regular .little)) msg_ty msg_parts msgParts_fine
    (msg_vec fun _ => 0) 4096 [7] ⟨by decide, by decide, by decide⟩

/-- A pair of a number and an `Option<String>`. -/
example : parts (.two (.prim .u16) (.option (.str .owned))) (.two (.num 3) (.some (.bytes [0x68]))) =
    some [(.prim .u16, .num 3), (.pair (.option (.str .owned)) .unit, .pair (.some (.bytes [0x68])) .unit)] := rfl

end

end Verif
