import Verif.Regular

/-!
# `minimum_bytes_needed` bounds the length of encodings
-/

namespace Verif

theorem cat_eq_ok {a b : Except Err Bytes} {bs : Bytes} (h : cat a b = .ok bs) :
    ∃ x y, a = .ok x ∧ b = .ok y ∧ bs = x ++ y := by
  cases a <;> cases b <;> simp [cat] at h
  exact ⟨_, _, rfl, rfl, h.symm⟩

/-! ## `minimum_bytes_needed` and the length of encodings -/

/-- Smallest size of a length. -/
def LenR.min : LenR → Nat
  | .typed lt _ => lt.minSize
  | _ => 0

/-- `minimum_bytes_needed`, taking a length attribute into account. -/
def minAt (T : Target) (t : Ty) (l : LenR) : Nat := if t.isContainer then l.min else minBytes T t

theorem wireNum_length (e : Endian) (lt : LenTy) {n : Nat} (hn : n ≤ lt.max) :
    lt.minSize ≤ (wireNum e lt n).length := by
  cases lt <;> simp [wireNum, LenTy.minSize]
  rw [specVarint_length (by simp only [LenTy.max] at hn; omega)]; omega

theorem wireLen_min {e : Endian} {n : Nat} {l : LenR} {bs : Bytes} (h : wireLen e n l = .ok bs) :
    l.min ≤ bs.length := by
  cases l with
  | typed lt d =>
    simp only [wireLen] at h
    split at h
    · simp at h
    · rename_i hn
      simp only [Except.ok.injEq] at h
      subst h
      exact wireNum_length e lt (by omega)
  | fixed m => exact Nat.zero_le _
  | untilEof => exact Nat.zero_le _

theorem catAll_min {f : Val → Except Err Bytes} {m : Nat} : ∀ {vs : List Val} {bs : Bytes},
    catAll f vs = .ok bs → (∀ v ∈ vs, ∀ b, f v = .ok b → m ≤ b.length) → m * vs.length ≤ bs.length
  | [], _, h, _ => by simp
  | v :: vs, bs, h, hm => by
    obtain ⟨x, y, h1, h2, rfl⟩ := cat_eq_ok h
    have h3 := hm v List.mem_cons_self x h1
    have h4 := catAll_min h2 fun w hw => hm w (List.mem_cons_of_mem _ hw)
    simp only [List.length_cons, List.length_append]
    rw [Nat.mul_succ]; omega

theorem Attrs.wlen_min {a : Attrs} {prev : List Val} :
    (a.wlen prev).min = if a.opaqueTy then 4 else match a.len with
      | some (.typed lt) => lt.minSize
      | some _ => 0
      | none => 4 := by
  unfold Attrs.wlen
  split
  · rfl
  · cases a.len with
    | none => rfl
    | some k => cases k <;> rfl

theorem isContainer_min {T : Target} {t : Ty} (h : t.isContainer = true) : minBytes T t = 4 := by
  cases t <;> simp [Ty.isContainer] at h <;> rfl

theorem minAt_std (T : Target) (t : Ty) : minAt T t LenR.std = minBytes T t := by
  unfold minAt
  split
  · rename_i h; rw [isContainer_min h]; rfl
  · rfl

/-- What `fieldsMin` counts for one field is at most what the field needs. -/
theorem fieldsMin_cons {T : Target} {a : Attrs} {t : Ty} (fs : Fields) (prev : List Val)
    (hd : a.declOk t = true) (hs : a.skip = false) :
    fieldsMin T (.cons a t fs) ≤
      a.pre.length + (if a.varint then 1 else minAt T t (a.wlen prev)) + fieldsMin T fs := by
  simp only [fieldsMin, hs, Bool.or_false]
  split
  · omega
  simp only [Attrs.declOk, Bool.and_eq_true] at hd
  obtain ⟨h1, h2⟩ := hd
  cases hl : a.len with
  | none =>
    simp only
    by_cases hv : a.varint = true
    · simp [hv]
    · simp only [hv, if_false]
      have : (a.wlen prev).min = 4 := by
        rw [Attrs.wlen_min, hl]; simp
      unfold minAt
      simp only [Bool.false_eq_true, if_false]
      by_cases hc : t.isContainer = true
      · rw [if_pos hc, isContainer_min hc, this]; omega
      · rw [if_neg hc]; omega
  | some k =>
    cases k with
    | typed lt =>
      simp only
      rw [hl] at h1
      simp only [Bool.and_eq_true, Bool.not_eq_true'] at h1
      have hm : (a.wlen prev).min = lt.minSize := by
        rw [Attrs.wlen_min, hl, h1.1]; simp
      have hv : a.varint = false := by
        cases hv : a.varint with
        | false => rfl
        | true =>
          rw [hv] at h2
          simp only [Bool.not_true, Bool.false_or] at h2
          split at h2
          · simp [Ty.isContainer] at h1
          · simp at h2
      rw [hv]
      simp only [Bool.false_eq_true, if_false]
      cases t <;> first
        | (simp [Ty.isContainer] at h1; done)
        | (simp only [minAt, Ty.isContainer, if_true, hm]; omega)
        | (simp [minAt, Ty.isContainer, minBytes]; try omega)
    | expr f => simp only; omega
    | untilEof => simp only; omega

mutual
/-- No encoding is shorter than `minimum_bytes_needed`. -/
theorem wire_min {T : Target} {e : Endian} {F : Fmt} : ∀ (t : Ty) (l : LenR) (v : Val) (bs : Bytes),
    layoutOk T t = true → declOk t = true → regular T e t = true → hasTy T t v → canon F t v →
    wire F t l v = .ok bs → minAt T t l ≤ bs.length
  | .prim p, _, v, bs, _, _, _, hv, _, hw => by
    cases v <;> simp only [hasTy] at hv
    simp only [wire, Except.ok.injEq] at hw
    subst hw; simp [minAt, Ty.isContainer, minBytes]
  | .usize, _, v, bs, _, _, _, hv, _, hw => by
    cases v <;> simp only [hasTy] at hv
    simp only [wire, Except.ok.injEq] at hw
    subst hw; simp [minAt, Ty.isContainer, minBytes]
  | .bool, _, v, bs, _, _, _, hv, _, hw => by
    cases v <;> simp only [hasTy] at hv
    simp only [wire, Except.ok.injEq] at hw
    subst hw; simp [minAt, Ty.isContainer, minBytes]
  | .char, _, v, bs, _, _, _, hv, _, hw => by
    cases v <;> simp only [hasTy] at hv
    simp only [wire, Except.ok.injEq] at hw
    subst hw; simp [minAt, Ty.isContainer, minBytes]
  | .nonZero p, _, v, bs, _, _, _, hv, _, hw => by
    cases v <;> simp only [hasTy] at hv
    simp only [wire, Except.ok.injEq] at hw
    subst hw; simp [minAt, Ty.isContainer, minBytes]
  | .atomic p, _, v, bs, _, _, _, hv, _, hw => by
    cases v <;> simp only [hasTy] at hv
    simp only [wire, Except.ok.injEq] at hw
    subst hw; simp [minAt, Ty.isContainer, minBytes]
  | .ipv4, _, v, bs, _, _, _, hv, _, hw => by
    cases v <;> simp only [hasTy] at hv
    simp only [wire, Except.ok.injEq] at hw
    subst hw; simp [minAt, Ty.isContainer, minBytes]
  | .ipv6, _, v, bs, _, _, _, hv, _, hw => by
    cases v <;> simp only [hasTy] at hv
    simp only [wire, Except.ok.injEq] at hw
    subst hw
    split <;> simp [minAt, Ty.isContainer, minBytes, hv]
  | .ipAddr, _, .variant 0 (.num x), bs, _, _, _, hv, _, hw => by
    simp only [wire, Except.ok.injEq] at hw
    subst hw; simp [minAt, Ty.isContainer, minBytes]
  | .ipAddr, _, .variant 1 (.bytes x), bs, _, _, _, hv, _, hw => by
    simp only [hasTy] at hv
    simp only [wire, Except.ok.injEq] at hw
    subst hw
    split <;> simp [minAt, Ty.isContainer, minBytes, hv]
  | .duration, _, .pair (.num s) (.num n), bs, _, _, _, hv, _, hw => by
    simp only [wire, Except.ok.injEq] at hw
    subst hw; simp [minAt, Ty.isContainer, minBytes]
  | .systemTime, _, .pair (.num s) (.num n), bs, _, _, _, hv, _, hw => by
    simp only [wire] at hw
    split at hw
    · simp only [Except.ok.injEq] at hw
      subst hw; simp [minAt, Ty.isContainer, minBytes]
    · simp at hw
  | .endianness, _, .variant 0 .unit, bs, _, _, _, hv, _, hw => by
    simp only [wire, Except.ok.injEq] at hw
    subst hw; simp [minAt, Ty.isContainer, minBytes]
  | .endianness, _, .variant 1 .unit, bs, _, _, _, hv, _, hw => by
    simp only [wire, Except.ok.injEq] at hw
    subst hw; simp [minAt, Ty.isContainer, minBytes]
  | .varint64, _, v, bs, _, _, _, hv, _, hw => by
    cases v <;> simp only [hasTy] at hv
    simp only [wire, Except.ok.injEq] at hw
    subst hw
    rw [specVarint_length hv]
    simp [minAt, Ty.isContainer, minBytes]
  | .uuid, _, v, bs, _, _, _, hv, _, hw => by
    cases v <;> simp only [hasTy] at hv
    simp only [wire, Except.ok.injEq] at hw
    subst hw; simp [minAt, Ty.isContainer, minBytes, hv]
  | .str k, l, v, bs, _, _, _, hv, _, hw => by
    cases v <;> simp only [hasTy] at hv
    obtain ⟨x, y, h1, h2, rfl⟩ := cat_eq_ok hw
    have := wireLen_min h1
    simp only [minAt, Ty.isContainer, if_true, List.length_append]; omega
  | .seq k t, l, v, bs, _, _, _, hv, _, hw => by
    cases v <;> simp only [hasTy] at hv
    obtain ⟨x, y, h1, h2, rfl⟩ := cat_eq_ok hw
    have := wireLen_min h1
    simp only [minAt, Ty.isContainer, if_true, List.length_append]; omega
  | .set t, l, v, bs, _, _, _, hv, _, hw => by
    cases v <;> simp only [hasTy] at hv
    obtain ⟨x, y, h1, h2, rfl⟩ := cat_eq_ok hw
    have := wireLen_min h1
    simp only [minAt, Ty.isContainer, if_true, List.length_append]; omega
  | .map k t, l, v, bs, _, _, _, hv, _, hw => by
    cases v <;> simp only [hasTy] at hv
    obtain ⟨x, y, h1, h2, rfl⟩ := cat_eq_ok hw
    have := wireLen_min h1
    simp only [minAt, Ty.isContainer, if_true, List.length_append]; omega
  | .array n t, l, v, bs, hl, hd, hr, hv, hc, hw => by
    cases v <;> simp only [hasTy] at hv
    simp only [layoutOk] at hl
    simp only [declOk] at hd
    simp only [regular, Bool.and_eq_true] at hr
    simp only [canon] at hc
    simp only [wire] at hw
    rw [if_neg (fun hh => hh hv.1)] at hw
    have := catAll_min (m := minBytes T t) hw fun x hx b hb => by
      rw [← minAt_std]
      exact wire_min t LenR.std x b hl hd hr.2 (hv.2 x hx) (hc x hx) hb
    rw [hv.1] at this
    simpa [minAt, Ty.isContainer, minBytes] using this
  | .refArray n t, l, v, bs, hl, hd, hr, hv, hc, hw => by
    cases v <;> simp only [hasTy] at hv
    simp only [layoutOk] at hl
    simp only [declOk] at hd
    simp only [regular, Bool.and_eq_true] at hr
    simp only [canon] at hc
    simp only [wire] at hw
    rw [if_neg (fun hh => hh hv.1)] at hw
    have := catAll_min (m := minBytes T t) hw fun x hx b hb => by
      rw [← minAt_std]
      exact wire_min t LenR.std x b hl hd hr.2 (hv.2 x hx) (hc x hx) hb
    rw [hv.1, minBytes_prim t hr.1.1.1 hl hr.1.1.2] at this
    simpa [minAt, Ty.isContainer, minBytes] using this
  | .option t, l, v, bs, hl, hd, hr, hv, hc, hw => by
    cases v with
    | none =>
      simp only [wire, Except.ok.injEq] at hw
      subst hw; simp [minAt, Ty.isContainer, minBytes]
    | some v =>
      obtain ⟨x, y, h1, h2, rfl⟩ := cat_eq_ok hw
      simp only [Except.ok.injEq] at h1
      subst h1
      simp [minAt, Ty.isContainer, minBytes]
    | _ => simp [hasTy] at hv
  | .result t er, l, .variant 1 v, bs, hl, hd, hr, hv, hc, hw => by
    obtain ⟨x, y, h1, h2, rfl⟩ := cat_eq_ok hw
    simp only [Except.ok.injEq] at h1
    subst h1
    simp [minAt, Ty.isContainer, minBytes]
  | .result t er, l, .variant 0 v, bs, hl, hd, hr, hv, hc, hw => by
    obtain ⟨x, y, h1, h2, rfl⟩ := cat_eq_ok hw
    simp only [Except.ok.injEq] at h1
    subst h1
    simp [minAt, Ty.isContainer, minBytes]
  | .range t, l, .pair a (.pair b .unit), bs, hl, hd, hr, hv, hc, hw => by
    simp only [layoutOk] at hl
    simp only [declOk] at hd
    simp only [regular] at hr
    simp only [canon] at hc
    simp only [hasTy] at hv
    obtain ⟨x, y, h1, h2, rfl⟩ := cat_eq_ok hw
    have h3 := wire_min t LenR.std a x hl hd hr hv.1 hc.1 h1
    have h4 := wire_min t LenR.std b y hl hd hr hv.2 hc.2 h2
    rw [minAt_std] at h3 h4
    simp only [minAt, Ty.isContainer, Bool.false_eq_true, if_false, minBytes, List.length_append]; omega
  | .rangeInc t, l, .pair a (.pair b (.bool _)), bs, hl, hd, hr, hv, hc, hw => by
    simp only [layoutOk] at hl
    simp only [declOk] at hd
    simp only [regular] at hr
    simp only [canon] at hc
    simp only [hasTy] at hv
    obtain ⟨x, y, h1, h2, rfl⟩ := cat_eq_ok hw
    have h3 := wire_min t LenR.std a x hl hd hr hv.1 hc.2.1 h1
    have h4 := wire_min t LenR.std b y hl hd hr hv.2 hc.2.2 h2
    rw [minAt_std] at h3 h4
    simp only [minAt, Ty.isContainer, Bool.false_eq_true, if_false, minBytes, List.length_append]; omega
  | .unit, _, v, bs, _, _, _, hv, _, hw => by simp [minAt, Ty.isContainer, minBytes]
  | .pair a b, l, v, bs, hl, hd, hr, hv, hc, hw => by
    simp only [layoutOk, Bool.and_eq_true] at hl
    simp only [declOk, Bool.and_eq_true] at hd
    simp only [regular, Bool.and_eq_true] at hr
    cases v <;> simp only [hasTy] at hv
    simp only [canon] at hc
    obtain ⟨x, y, h1, h2, rfl⟩ := cat_eq_ok hw
    have h3 := wire_min a LenR.std _ x hl.1 hd.1 hr.1 hv.1 hc.1 h1
    have h4 := wire_min b LenR.std _ y hl.2 hd.2 hr.2 hv.2 hc.2 h2
    rw [minAt_std] at h3 h4
    simp only [minAt, Ty.isContainer, Bool.false_eq_true, if_false, minBytes, List.length_append]; omega
  | .box t, l, v, bs, hl, hd, hr, hv, hc, hw => by
    simp only [layoutOk] at hl
    simp only [declOk] at hd
    simp only [regular] at hr
    simp only [canon] at hc
    simp only [hasTy] at hv
    simp only [wire] at hw
    have h3 := wire_min t LenR.std v bs hl hd hr hv hc hw
    rw [minAt_std] at h3
    simpa only [minAt, Ty.isContainer, Bool.false_eq_true, if_false, minBytes] using h3
  | .via c t, l, v, bs, hl, hd, hr, hv, hc, hw => by
    simp only [layoutOk] at hl
    simp only [declOk] at hd
    simp only [regular] at hr
    simp only [canon] at hc
    simp only [hasTy] at hv
    simp only [wire] at hw
    have h3 := wire_min t LenR.std v bs hl hd hr hv.1 hc hw
    rw [minAt_std] at h3
    simpa only [minAt, Ty.isContainer, Bool.false_eq_true, if_false, minBytes] using h3
  | .struct d fs, l, v, bs, hl, hd, hr, hv, hc, hw => by
    simp only [layoutOk, Bool.and_eq_true] at hl
    simp only [declOk] at hd
    simp only [regular] at hr
    simp only [canon] at hc
    simp only [hasTy] at hv
    simp only [wire] at hw
    have := wireFields_min fs [] v bs hl.2 hd hr hv hc hw
    simpa only [minAt, Ty.isContainer, Bool.false_eq_true, if_false, minBytes] using this
  | .enum d vs, l, v, bs, hl, hd, hr, hv, hc, hw => by
    simp only [layoutOk] at hl
    simp only [declOk, Bool.and_eq_true] at hd
    cases v with
    | variant i v =>
      simp only [canon] at hc
      simp only [hasTy] at hv
      simp only [wire] at hw
      have := wireVariants_min (T := T) d vs i v bs hd.1.2 hc hw
      simp only [minAt, Ty.isContainer, Bool.false_eq_true, if_false, minBytes]
      split <;> omega
    | _ => simp [hasTy] at hv
theorem wireFields_min {T : Target} {e : Endian} {F : Fmt} : ∀ (fs : Fields) (prev : List Val) (v : Val)
    (bs : Bytes), layoutOkFields T fs = true → declOkFields fs = true → regularFields T e fs = true →
    hasTyFields T fs v → canonFields F fs v → wireFields F fs prev v = .ok bs → fieldsMin T fs ≤ bs.length
  | .nil, _, v, bs, _, _, _, hv, _, hw => by simp [fieldsMin]
  | .cons a t fs, prev, v, bs, hl, hd, hr, hv, hc, hw => by
    simp only [layoutOkFields, Bool.and_eq_true] at hl
    simp only [declOkFields, Bool.and_eq_true] at hd
    simp only [regularFields, Bool.and_eq_true] at hr
    cases v with
    | pair v rest =>
      simp only [hasTyFields] at hv
      simp only [canonFields] at hc
      simp only [wireFields] at hw
      by_cases hsk : a.skip = true
      · rw [if_pos hsk] at hw
        have := wireFields_min fs prev rest bs hl.2 hd.1.2 hr.2 hv.2 hc.2 hw
        simpa [fieldsMin, hsk] using this
      rw [if_neg hsk] at hw hc
      obtain ⟨x, y, h1, h2, rfl⟩ := cat_eq_ok hw
      obtain ⟨x1, x2, h3, h4, rfl⟩ := cat_eq_ok h1
      simp only [Except.ok.injEq] at h3
      subst h3
      have i1 := wireFields_min fs _ rest y hl.2 hd.1.2 hr.2 hv.2 hc.2 h2
      have i2 := fieldsMin_cons (T := T) fs prev hd.1.1.1 (by simpa using hsk)
      have i3 : (if a.varint then 1 else minAt T t (a.wlen prev)) ≤ x2.length := by
        by_cases hvar : a.varint = true
        · rw [if_pos hvar] at h4 ⊢
          cases v <;> simp at h4
          subst h4
          unfold specVarint
          simp only
          split <;> simp
        · rw [if_neg hvar] at h4 ⊢
          exact wire_min t _ v x2 hl.1 hd.1.1.2 hr.1.2 hv.1 hc.1 h4
      simp only [List.length_append]
      omega
    | _ => simp [hasTyFields] at hv
theorem wireVariants_min {T : Target} {F : Fmt} (d : EnumDesc) : ∀ (vs : Variants) (i : Nat) (v : Val)
    (bs : Bytes), vs.tags.all (· ≤ d.tagTy.max) = true → canonVariants F d vs i v →
    wireVariants F d vs i v = .ok bs → d.tagTy.minSize ≤ bs.length
  | .nil, _, _, _, _, _, hw => by simp [wireVariants] at hw
  | .cons tag fs vs, 0, v, bs, ht, hc, hw => by
    simp only [Variants.tags, List.all_cons, Bool.and_eq_true, decide_eq_true_eq] at ht
    simp only [canonVariants] at hc
    simp only [wireVariants] at hw
    have hm := wireNum_length F.e d.tagTy ht.1
    obtain ⟨x, y, h1, h2, rfl⟩ := cat_eq_ok hw
    simp only [Except.ok.injEq] at h1
    by_cases hp : d.peek = true
    · obtain ⟨_, bs', h3⟩ := hc.2 hp
      rw [h3] at h2
      simp only [Except.ok.injEq] at h2
      subst h2
      simp only [List.length_append]; omega
    · rw [if_neg hp] at h1
      subst h1
      simp only [List.length_append]; omega
  | .cons tag fs vs, i + 1, v, bs, ht, hc, hw => by
    simp only [Variants.tags, List.all_cons, Bool.and_eq_true, decide_eq_true_eq] at ht
    exact wireVariants_min (T := T) d vs i v bs ht.2 hc hw
end

end Verif
