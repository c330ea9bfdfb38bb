import Verif.Total
import Verif.Valid
import Verif.Connect
import Verif.StrictTy

/-!
# Plain data

A class of types, described by what is written in a program, which meet all the conditions of the other theorems.
-/

namespace Verif

/-- Attributes of a field of plain data: at most `length_type`, `varint` and a `constant_prefix` of at most 2 GB.  Not
`skip`, `default_on_eof`, `length = expr` and `length = ..`. -/
def Attrs.simple (a : Attrs) : Bool :=
  !a.skip && !a.defaultOnEof && decide (a.pre.length < 2 ^ 31) &&
    (match a.len with | some (.expr _) | some .untilEof => false | _ => true)

mutual
/-- Plain data: types made of numbers, `bool`, `char`, addresses, times, UUIDs, `String` and `Cow<str>` with `Vec`, `Box`, `Option`,
`Result`, tuples, arrays, `Range`, sets, maps, and derived structs and enums of these.  Left out are
* references, `Cow<[T]>`, `RangeInclusive`, hand-written implementations;
* `repr(transparent)` and `peek_tag`, and the attributes not mentioned at `Attrs.simple`;
* containers with zero-sized elements. -/
def plain : Ty → Bool
  | .str k => k != .ref
  | .seq k t => k == .vec && !t.isZst && plain t
  | .set t => !t.isZst && plain t
  | .map k v => !k.isZst && !v.isZst && plain k && plain v
  | .array _ t | .option t | .range t | .box t => plain t
  | .result a b | .pair a b => plain a && plain b
  | .struct d fs => d.repr != .transparent && plainFields fs
  | .enum d vs => !d.peek && plainVariants vs
  | .refArray _ _ | .rangeInc _ | .via _ _ => false
  | _ => true
/-- Fields. -/
def plainFields : Fields → Bool
  | .nil => true
  | .cons a t fs => a.simple && plain t && plainFields fs
/-- Variants. -/
def plainVariants : Variants → Bool
  | .nil => true
  | .cons _ fs vs => plainFields fs && plainVariants vs
end

/-! ## Types with a size -/

theorem sizeOf_pos {T : Target} (hT : T.Ok) {t : Ty} (h : t.isZst = false) : sizeOf T t ≠ 0 := by
  unfold sizeOf
  split
  · rename_i p; cases p <;> simp [Prim.size]
  · rename_i d fs; simpa [Ty.isZst] using h
  · rw [h]
    have := hT.opaque_pos t
    simp; omega

/-! ## Plain types which can be copied in bulk -/

mutual
theorem plain_bulk {T : Target} : ∀ (t : Ty), plain t = true → isPrimitive T t = true →
    bulkPlain t = true ∧ flipOk t = true
  | .prim _, _, _ => by simp [bulkPlain, flipOk]
  | .struct d fs, h, hp => by
    simp only [plain, Bool.and_eq_true, bne_iff_ne, ne_eq] at h
    have ht : (d.repr == .transparent) = false := by simpa using h.1
    unfold isPrimitive at hp
    simp only [ht, Bool.false_and] at hp
    simp only [Bool.false_eq_true, if_false] at hp
    split at hp
    · rename_i hc
      simp only [Bool.and_eq_true] at hc
      have hf : fieldsPrimitive T fs = true := by
        cases fs with
        | nil => rfl
        | cons a t fs => simp only [Bool.false_or, Bool.and_eq_true] at hp; exact hp.1.1
      have := plain_bulkFields fs h.2 hf
      simp [bulkPlain, flipOk, ht, hc.1, this]
    · cases hp
  | .usize, _, hp | .bool, _, hp | .char, _, hp | .nonZero _, _, hp | .atomic _, _, hp | .ipv4, _, hp | .ipv6, _, hp
  | .ipAddr, _, hp | .duration, _, hp | .systemTime, _, hp | .endianness, _, hp | .varint64, _, hp | .uuid, _, hp
  | .str _, _, hp | .seq _ _, _, hp | .set _, _, hp | .map _ _, _, hp | .array _ _, _, hp | .refArray _ _, _, hp
  | .option _, _, hp | .result _ _, _, hp | .range _, _, hp | .rangeInc _, _, hp | .unit, _, hp | .pair _ _, _, hp
  | .box _, _, hp | .via _ _, _, hp | .enum _ _, _, hp => by simp [isPrimitive] at hp
theorem plain_bulkFields {T : Target} : ∀ (fs : Fields), plainFields fs = true → fieldsPrimitive T fs = true →
    bulkPlainFields fs = true ∧ flipOkFields fs = true
  | .nil, _, _ => by simp [bulkPlainFields, flipOkFields]
  | .cons a t fs, h, hp => by
    simp only [plainFields, Bool.and_eq_true] at h
    simp only [fieldsPrimitive, Bool.and_eq_true] at hp
    have h1 := plain_bulk t h.1.2 hp.1
    have h2 := plain_bulkFields fs h.2 hp.2
    simp [bulkPlainFields, flipOkFields, h1, h2]
end

theorem plain_conv {T : Target} {t : Ty} (h : plain t = true) (hp : isPrimitive T t = true) : convOk t = true := by
  have hf := (plain_bulk t h hp).2
  cases t with
  | prim p => rfl
  | struct d fs =>
    simp only [plain, Bool.and_eq_true, bne_iff_ne, ne_eq] at h
    have ht : (d.repr == .transparent) = false := by simpa using h.1
    cases fs with
    | nil => exact hf
    | cons a t fs => cases fs <;> simp [convOk, ht] <;> exact hf
  | _ => simp [isPrimitive] at hp

theorem plain_bulkOk {T : Target} {e : Endian} {t : Ty} (h : plain t = true) :
    (!isPrimitive T t || bulkOk T e t) = true := by
  cases hp : isPrimitive T t
  · rfl
  · simp [bulkOk, (plain_bulk t h hp).1, plain_conv h hp]

theorem plain_bulkPlain {T : Target} {t : Ty} (h : plain t = true) : (!isPrimitive T t || bulkPlain t) = true := by
  cases hp : isPrimitive T t
  · rfl
  · simp [(plain_bulk t h hp).1]

theorem plain_vecOk {T : Target} (hT : T.Ok) {e : Endian} {t : Ty} (h : plain t = true) (hz : t.isZst = false) :
    vecOk T e t = true := by
  have := plain_bulkOk (T := T) (e := e) h
  have hz := sizeOf_pos hT hz
  unfold vecOk
  split
  · simp_all
  · simp [hz]

/-! ## Plain types meet all conditions -/

/-- The conditions used in other theorems. -/
structure PlainFacts (T : Target) (e : Endian) (t : Ty) : Prop where
  regular : regular T e t = true
  ends : ∀ tail strict, ends tail strict t = true
  noRefs : noRefs t = true
  peekOk : peekOk T t = true
  cowOk : ∀ l, cowOk T l t = true
  minOk : minOk T t = true
  noPeek : noPeek t = true
  sane : sane T t

/-- The same for fields. -/
structure PlainFactsF (T : Target) (e : Endian) (fs : Fields) : Prop where
  regular : regularFields T e fs = true
  ends : ∀ tail strict, endsFields tail strict fs = true
  noRefs : noRefsFields fs = true
  peekOk : peekOkFields T fs = true
  cowOk : cowOkFields T fs = true
  minOk : minOkFields T fs = true
  noPeek : noPeekFields fs = true
  sane : saneFields T fs

/-- The same for variants. -/
structure PlainFactsV (T : Target) (e : Endian) (d : EnumDesc) (vs : Variants) : Prop where
  regular : regularVariants T e vs = true
  ends : ∀ tail strict, endsVariants tail strict vs = true
  noRefs : noRefsVariants vs = true
  peekOk : peekOkVariants T d vs = true
  cowOk : cowOkVariants T vs = true
  minOk : minOkVariants T d vs = true
  noPeek : noPeekVariants vs = true
  sane : saneVariants T vs

mutual
theorem plain_facts {T : Target} (hT : T.Ok) (e : Endian) : ∀ (t : Ty), plain t = true → PlainFacts T e t
  | .prim _, _ | .usize, _ | .bool, _ | .char, _ | .nonZero _, _ | .atomic _, _ | .ipv4, _ | .ipv6, _ | .ipAddr, _
  | .duration, _ | .systemTime, _ | .endianness, _ | .varint64, _ | .uuid, _ | .unit, _ => by
    constructor <;> intros <;>
      simp [Verif.regular, Verif.ends, Verif.noRefs, Verif.peekOk, Verif.cowOk, Verif.minOk, Verif.noPeek, Verif.sane]
  | .str k, h => by
    simp only [plain] at h
    constructor <;> intros <;>
      simp_all [Verif.regular, Verif.ends, Verif.noRefs, Verif.peekOk, Verif.cowOk, Verif.minOk, Verif.noPeek, Verif.sane]
  | .seq k t, h => by
    simp only [plain, Bool.and_eq_true, beq_iff_eq, Bool.not_eq_true'] at h
    obtain ⟨⟨rfl, hz⟩, ht⟩ := h
    have ih := plain_facts hT e t ht
    have hv := plain_vecOk hT (e := e) ht hz
    exact ⟨by simp [Verif.regular, hv, ih.regular], by intros; simp [Verif.ends, ih.ends], by simp [Verif.noRefs, ih.noRefs],
      by simp [Verif.peekOk, ih.peekOk], by intros; simp [Verif.cowOk, ih.cowOk], by simp [Verif.minOk, ih.minOk],
      by simp [Verif.noPeek, ih.noPeek], by simp [Verif.sane, ih.sane, sizeOf_pos hT hz]⟩
  | .set t, h => by
    simp only [plain, Bool.and_eq_true, Bool.not_eq_true'] at h
    have ih := plain_facts hT e t h.2
    have hb := plain_bulkPlain (T := T) h.2
    exact ⟨by simp [Verif.regular, ih.regular, sizeOf_pos hT h.1] at hb ⊢; exact hb,
      by intros; simp [Verif.ends, ih.ends], by simp [Verif.noRefs, ih.noRefs],
      by simp [Verif.peekOk, ih.peekOk], by intros; simp [Verif.cowOk, ih.cowOk], by simp [Verif.minOk, ih.minOk],
      by simp [Verif.noPeek, ih.noPeek], by simp [Verif.sane, ih.sane]⟩
  | .map k v, h => by
    simp only [plain, Bool.and_eq_true, Bool.not_eq_true'] at h
    have ih := plain_facts hT e k h.1.2
    have ih' := plain_facts hT e v h.2
    have hb := plain_bulkPlain (T := T) h.1.2
    have hb' := plain_bulkPlain (T := T) h.2
    have := sizeOf_pos hT h.1.1.1
    exact ⟨by simp [Verif.regular, ih.regular, ih'.regular, this] at hb hb' ⊢; exact ⟨hb, hb'⟩,
      by intros; simp [Verif.ends, ih.ends, ih'.ends], by simp [Verif.noRefs, ih.noRefs, ih'.noRefs],
      by simp [Verif.peekOk, ih.peekOk, ih'.peekOk], by intros; simp [Verif.cowOk, ih.cowOk, ih'.cowOk],
      by simp [Verif.minOk, ih.minOk, ih'.minOk], by simp [Verif.noPeek, ih.noPeek, ih'.noPeek],
      by simp [Verif.sane, ih.sane, ih'.sane]⟩
  | .array n t, h => by
    simp only [plain] at h
    have ih := plain_facts hT e t h
    have hb := plain_bulkPlain (T := T) h
    have hb' := plain_bulkOk (T := T) (e := e) h
    exact ⟨by simp [Verif.regular, ih.regular] at hb' ⊢; exact hb',
      by intros; simp [Verif.ends, ih.ends], by simp [Verif.noRefs, ih.noRefs],
      by simp [Verif.peekOk, ih.peekOk], by intros; simp [Verif.cowOk, ih.cowOk],
      by simp [Verif.minOk, ih.minOk] at hb ⊢; exact hb,
      by simp [Verif.noPeek, ih.noPeek], by simp [Verif.sane, ih.sane]⟩
  | .option t, h | .range t, h | .box t, h => by
    simp only [plain] at h
    have ih := plain_facts hT e t h
    exact ⟨by simp [Verif.regular, ih.regular], by intros; simp [Verif.ends, ih.ends], by simp [Verif.noRefs, ih.noRefs],
      by simp [Verif.peekOk, ih.peekOk], by intros; simp [Verif.cowOk, ih.cowOk], by simp [Verif.minOk, ih.minOk],
      by simp [Verif.noPeek, ih.noPeek], by simp [Verif.sane, ih.sane]⟩
  | .result k v, h | .pair k v, h => by
    simp only [plain, Bool.and_eq_true] at h
    have ih := plain_facts hT e k h.1
    have ih' := plain_facts hT e v h.2
    exact ⟨by simp [Verif.regular, ih.regular, ih'.regular],
      by intros; simp [Verif.ends, ih.ends, ih'.ends], by simp [Verif.noRefs, ih.noRefs, ih'.noRefs],
      by simp [Verif.peekOk, ih.peekOk, ih'.peekOk], by intros; simp [Verif.cowOk, ih.cowOk, ih'.cowOk],
      by simp [Verif.minOk, ih.minOk, ih'.minOk], by simp [Verif.noPeek, ih.noPeek, ih'.noPeek],
      by simp [Verif.sane, ih.sane, ih'.sane]⟩
  | .struct d fs, h => by
    simp only [plain, Bool.and_eq_true] at h
    have ih := plain_factsF hT e fs h.2
    exact ⟨by simp [Verif.regular, ih.regular], by intros; simp [Verif.ends, ih.ends], by simp [Verif.noRefs, ih.noRefs],
      by simp [Verif.peekOk, ih.peekOk], by intros; simp [Verif.cowOk, ih.cowOk], by simp [Verif.minOk, ih.minOk],
      by simp [Verif.noPeek, ih.noPeek], by simp [Verif.sane, ih.sane]⟩
  | .enum d vs, h => by
    simp only [plain, Bool.and_eq_true, Bool.not_eq_true'] at h
    have ih := plain_factsV hT e d vs h.1 h.2
    exact ⟨by simp [Verif.regular, ih.regular], by intros; simp [Verif.ends, ih.ends], by simp [Verif.noRefs, ih.noRefs],
      by simp [Verif.peekOk, ih.peekOk], by intros; simp [Verif.cowOk, ih.cowOk], by simp [Verif.minOk, ih.minOk],
      by simp [Verif.noPeek, ih.noPeek, h.1], by simp [Verif.sane, ih.sane]⟩
  | .refArray _ _, h | .rangeInc _, h | .via _ _, h => by simp [plain] at h
theorem plain_factsF {T : Target} (hT : T.Ok) (e : Endian) : ∀ (fs : Fields), plainFields fs = true → PlainFactsF T e fs
  | .nil, _ => by
    constructor <;> intros <;> simp [regularFields, endsFields, noRefsFields, peekOkFields, cowOkFields, minOkFields,
      noPeekFields, saneFields]
  | .cons a t fs, h => by
    simp only [plainFields, Attrs.simple, Bool.and_eq_true, Bool.not_eq_true', decide_eq_true_eq] at h
    obtain ⟨⟨⟨⟨⟨hk, hd⟩, hp⟩, hlen⟩, ht⟩, hfs⟩ := h
    have ih := plain_facts hT e t ht
    have ih' := plain_factsF hT e fs hfs
    have hpre : a.pre.length ≤ T.isizeMax := by have := hT.lower; have := hT.isize; omega
    refine ⟨by simp [regularFields, ih.regular, ih'.regular, hpre], ?_, by simp [noRefsFields, ih.noRefs, ih'.noRefs],
      by simp [peekOkFields, ih.peekOk, ih'.peekOk], by simp [cowOkFields, ih.cowOk, ih'.cowOk],
      by simp [minOkFields, ih.minOk, ih'.minOk], by simp [noPeekFields, ih.noPeek, ih'.noPeek],
      by simp [saneFields, ih.sane, ih'.sane, hk, hd]⟩
    intro tail strict
    simp only [endsFields, ih.ends, ih'.ends, Attrs.ends, hk, hd, Bool.and_false, Bool.not_false, Bool.true_and,
      Bool.false_or, Bool.and_true]
    split
    · rename_i hu; simp [hu] at hlen
    · rfl
theorem plain_factsV {T : Target} (hT : T.Ok) (e : Endian) (d : EnumDesc) : ∀ (vs : Variants), d.peek = false →
    plainVariants vs = true → PlainFactsV T e d vs
  | .nil, _, _ => by
    constructor <;> intros <;> simp [regularVariants, endsVariants, noRefsVariants, peekOkVariants, cowOkVariants,
      minOkVariants, noPeekVariants, saneVariants]
  | .cons tag fs vs, hp, h => by
    simp only [plainVariants, Bool.and_eq_true] at h
    have ih := plain_factsF hT e fs h.1
    have ih' := plain_factsV hT e d vs hp h.2
    exact ⟨by simp [regularVariants, ih.regular, ih'.regular],
      by intros; simp [endsVariants, ih.ends, ih'.ends], by simp [noRefsVariants, ih.noRefs, ih'.noRefs],
      by simp [peekOkVariants, ih.peekOk, ih'.peekOk, hp], by simp [cowOkVariants, ih.cowOk, ih'.cowOk],
      by simp [minOkVariants, ih.minOk, ih'.minOk, hp], by simp [noPeekVariants, ih.noPeek, ih'.noPeek],
      by simp [saneVariants, ih.sane, ih'.sane]⟩
end

/-! ## Every value is represented by its encoding -/

mutual
theorem plain_canon {T : Target} (F : Fmt) : ∀ (t : Ty) (v : Val), plain t = true → hasTy T t v → canon F t v
  | .prim _, v, _, _ | .usize, v, _, _ | .bool, v, _, _ | .char, v, _, _ | .nonZero _, v, _, _ | .atomic _, v, _, _
  | .ipv4, v, _, _ | .ipv6, v, _, _ | .ipAddr, v, _, _ | .duration, v, _, _ | .systemTime, v, _, _ | .endianness, v, _, _
  | .varint64, v, _, _ | .uuid, v, _, _ | .str _, v, _, _ | .unit, v, _, _ => by cases v <;> simp [canon]
  | .seq _ t, v, h, hv | .set t, v, h, hv | .array _ t, v, h, hv => by
    cases v <;> simp only [hasTy] at hv
    simp only [plain, Bool.and_eq_true] at h
    simp only [canon]
    intro w hw
    first
      | exact plain_canon F t w h.2 (hv.1 w hw)
      | exact plain_canon F t w h (hv.2 w hw)
  | .map k t, v, h, hv => by
    cases v <;> simp only [hasTy] at hv
    simp only [plain, Bool.and_eq_true] at h
    simp only [canon]
    intro a b hw
    obtain ⟨a', b', he, ha, hb⟩ := hv.1 _ hw
    cases he
    exact ⟨plain_canon F k a h.1.2 ha, plain_canon F t b h.2 hb⟩
  | .option t, v, h, hv => by
    simp only [plain] at h
    cases v <;> simp only [hasTy] at hv <;> simp only [canon]
    exact plain_canon F t _ h hv
  | .result a b, v, h, hv => by
    simp only [plain, Bool.and_eq_true] at h
    cases v <;> try (simp [hasTy] at hv; done)
    rename_i i v
    match i with
    | 0 => simp only [hasTy] at hv; simp only [canon]; exact plain_canon F b v h.2 hv
    | 1 => simp only [hasTy] at hv; simp only [canon]; exact plain_canon F a v h.1 hv
    | _ + 2 => simp [hasTy] at hv
  | .range t, v, h, hv => by
    simp only [plain] at h
    cases v <;> try (simp [hasTy] at hv; done)
    rename_i a b
    cases b <;> try (simp [hasTy] at hv; done)
    rename_i b c
    cases c <;> simp only [hasTy] at hv
    simp only [canon]
    exact ⟨plain_canon F t a h hv.1, plain_canon F t b h hv.2⟩
  | .pair a b, v, h, hv => by
    simp only [plain, Bool.and_eq_true] at h
    cases v <;> simp only [hasTy] at hv
    exact ⟨plain_canon F a _ h.1 hv.1, plain_canon F b _ h.2 hv.2⟩
  | .box t, v, h, hv => by
    simp only [plain] at h
    simp only [hasTy] at hv
    simp only [canon]
    exact plain_canon F t v h hv
  | .struct d fs, v, h, hv => by
    simp only [plain, Bool.and_eq_true] at h
    simp only [hasTy] at hv
    simp only [canon]
    exact plain_canonFields F fs v h.2 hv
  | .enum d vs, v, h, hv => by
    simp only [plain, Bool.and_eq_true, Bool.not_eq_true'] at h
    cases v <;> simp only [hasTy] at hv
    simp only [canon]
    exact plain_canonVariants F d vs _ _ h.1 h.2 hv
  | .refArray _ _, _, h, _ | .rangeInc _, _, h, _ | .via _ _, _, h, _ => by simp [plain] at h
theorem plain_canonFields {T : Target} (F : Fmt) : ∀ (fs : Fields) (v : Val), plainFields fs = true →
    hasTyFields T fs v → canonFields F fs v
  | .nil, v, _, _ => by cases v <;> simp [canonFields]
  | .cons a t fs, v, h, hv => by
    simp only [plainFields, Attrs.simple, Bool.and_eq_true, Bool.not_eq_true'] at h
    cases v <;> simp only [hasTyFields] at hv
    simp only [canonFields, h.1.1.1.1.1]
    exact ⟨plain_canon F t _ h.1.2 hv.1, plain_canonFields F fs _ h.2 hv.2⟩
theorem plain_canonVariants {T : Target} (F : Fmt) (d : EnumDesc) : ∀ (vs : Variants) (i : Nat) (v : Val),
    d.peek = false → plainVariants vs = true → hasTyVariants T vs i v → canonVariants F d vs i v
  | .nil, _, _, _, _, hv => by simp [hasTyVariants] at hv
  | .cons tag fs vs, 0, v, hp, h, hv => by
    simp only [plainVariants, Bool.and_eq_true] at h
    simp only [hasTyVariants] at hv
    simp only [canonVariants, hp]
    exact ⟨plain_canonFields F fs v h.1 hv, by simp⟩
  | .cons tag fs vs, i + 1, v, hp, h, hv => by
    simp only [plainVariants, Bool.and_eq_true] at h
    simp only [hasTyVariants] at hv
    simp only [canonVariants]
    exact plain_canonVariants F d vs i v hp h.2 hv
end

/-! ## Which values can be written -/

/-- The largest length of the container in a field. -/
def Attrs.maxLen (a : Attrs) : Nat :=
  match a.len with
  | some (.typed lt) => lt.max
  | _ => LenTy.u32.max

mutual
/-- All strings and containers have lengths which can be written: at most `m` for the value itself (if it is a string, a container, or
one of them in an `Option`), at most what the field's `length_type` allows, or else `u32::MAX`; and no system time is before 1970. -/
def lengthsFit : Nat → Ty → Val → Prop
  | m, .str _, .bytes bs => bs.length ≤ m
  | m, .seq _ t, .list vs | m, .set t, .list vs => vs.length ≤ m ∧ ∀ v ∈ vs, lengthsFit LenTy.u32.max t v
  | m, .map k t, .list vs => vs.length ≤ m ∧ ∀ a b, Val.pair a (.pair b .unit) ∈ vs →
      lengthsFit LenTy.u32.max k a ∧ lengthsFit LenTy.u32.max t b
  | _, .array _ t, .list vs => ∀ v ∈ vs, lengthsFit LenTy.u32.max t v
  | m, .option t, .some v => lengthsFit m t v
  | _, .result _ t, .variant 0 v => lengthsFit LenTy.u32.max t v
  | _, .result t _, .variant 1 v => lengthsFit LenTy.u32.max t v
  | _, .range t, .pair a (.pair b _) => lengthsFit LenTy.u32.max t a ∧ lengthsFit LenTy.u32.max t b
  | _, .pair a b, .pair x y => lengthsFit LenTy.u32.max a x ∧ lengthsFit LenTy.u32.max b y
  | _, .box t, v => lengthsFit LenTy.u32.max t v
  | _, .systemTime, .pair (.num s) _ => s < 2 ^ 63
  | _, .struct _ fs, v => lengthsFitFields fs v
  | _, .enum _ vs, .variant i v => lengthsFitVariants vs i v
  | _, _, _ => True
/-- Fields. -/
def lengthsFitFields : Fields → Val → Prop
  | .cons a t fs, .pair v rest => lengthsFit a.maxLen t v ∧ lengthsFitFields fs rest
  | _, _ => True
/-- Variants. -/
def lengthsFitVariants : Variants → Nat → Val → Prop
  | .nil, _, _ => True
  | .cons _ fs _, 0, v => lengthsFitFields fs v
  | .cons _ _ vs, i + 1, v => lengthsFitVariants vs i v
end

/-- Something has been written. -/
def Wrote (r : Except Err Bytes) : Prop := ∃ bs, r = .ok bs

theorem wrote_ok (bs : Bytes) : Wrote (.ok bs) := ⟨bs, rfl⟩

theorem wrote_cat {a b : Except Err Bytes} : Wrote (cat a b) ↔ Wrote a ∧ Wrote b := by
  unfold Wrote cat
  cases a <;> cases b <;> simp

theorem wrote_catAll {f : Val → Except Err Bytes} : ∀ {vs : List Val}, Wrote (catAll f vs) ↔ ∀ v ∈ vs, Wrote (f v)
  | [] => by simp [catAll, wrote_ok]
  | v :: vs => by simp [catAll, wrote_cat, wrote_catAll (vs := vs)]

theorem wrote_len {e : Endian} {n : Nat} {lt : LenTy} {d : Bool} : Wrote (wireLen e n (.typed lt d)) ↔ n ≤ lt.max := by
  simp only [Wrote, wireLen]
  split
  · simp; omega
  · simp; omega

theorem simple_wlen {a : Attrs} {t : Ty} (h : a.simple = true) (hd : a.declOk t = true) (prev : List Val) :
    ∃ lt d, a.wlen prev = .typed lt d ∧ a.maxLen = lt.max ∧ ∀ u, t = .option (.option u) → lt = .u32 := by
  simp only [Attrs.simple, Bool.and_eq_true] at h
  simp only [Attrs.declOk, Bool.and_eq_true] at hd
  unfold Attrs.wlen Attrs.maxLen
  cases ho : a.opaqueTy <;> cases hl : a.len with
  | none => exact ⟨.u32, _, rfl, rfl, fun _ _ => rfl⟩
  | some k =>
    cases k with
    | typed lt =>
      simp only [hl, ho, Bool.not_true, Bool.not_false, Bool.false_and, Bool.true_and] at hd
      first
        | exact ⟨lt, _, rfl, rfl, fun u hu => by subst hu; simp [Ty.isContainer] at hd⟩
        | exact absurd hd.1 (by simp)
    | expr f => simp [hl] at h
    | untilEof => simp [hl] at h

mutual
/-- A value can be written exactly if its lengths fit. -/
theorem wire_iff {T : Target} {F : Fmt} : ∀ (t : Ty) (v : Val) (lt : LenTy) (d : Bool), plain t = true → declOk t = true →
    hasTy T t v → (∀ u, t = .option (.option u) → lt = .u32) →
    (Wrote (wire F t (.typed lt d) v) ↔ lengthsFit lt.max t v)
  | .prim _, v, _, _, _, _, hv, _ | .usize, v, _, _, _, _, hv, _ | .bool, v, _, _, _, _, hv, _ | .char, v, _, _, _, _, hv, _
  | .nonZero _, v, _, _, _, _, hv, _ | .atomic _, v, _, _, _, _, hv, _ | .ipv4, v, _, _, _, _, hv, _
  | .ipv6, v, _, _, _, _, hv, _ | .varint64, v, _, _, _, _, hv, _ | .uuid, v, _, _, _, _, hv, _ | .unit, v, _, _, _, _, hv, _ => by
    cases v <;> simp only [hasTy] at hv <;> simp [wire, lengthsFit, wrote_ok]
  | .ipAddr, v, _, _, _, _, hv, _ | .endianness, v, _, _, _, _, hv, _ => by
    unfold hasTy at hv
    split at hv <;> simp_all [wire, lengthsFit, wrote_ok]
  | .duration, v, _, _, _, _, hv, _ => by
    unfold hasTy at hv
    split at hv <;> simp_all [wire, lengthsFit, wrote_ok]
  | .systemTime, v, _, _, _, _, hv, _ => by
    unfold hasTy at hv
    split at hv <;> simp_all [wire, lengthsFit]
    rename_i s n
    by_cases hs : s < 9223372036854775808
    · simp [hs, wrote_ok]
    · simp [hs, Wrote]
  | .str _, v, lt, d, _, _, hv, _ => by
    cases v <;> simp only [hasTy] at hv
    simp [wire, lengthsFit, wrote_cat, wrote_len, wrote_ok]
  | .seq _ t, v, lt, d, h, hd, hv, _ | .set t, v, lt, d, h, hd, hv, _ => by
    cases v <;> simp only [hasTy] at hv
    simp only [plain, Bool.and_eq_true] at h
    simp only [declOk] at hd
    simp only [wire, lengthsFit, wrote_cat, wrote_len, wrote_catAll]
    refine and_congr Iff.rfl (forall_congr' fun w => forall_congr' fun hw => ?_)
    exact wire_iff t w .u32 false h.2 hd (hv.1 w hw) (fun _ _ => rfl)
  | .map k t, v, lt, d, h, hd, hv, _ => by
    cases v <;> simp only [hasTy] at hv
    simp only [plain, Bool.and_eq_true] at h
    simp only [declOk, Bool.and_eq_true] at hd
    simp only [wire, lengthsFit, wrote_cat, wrote_len, wrote_catAll]
    refine and_congr Iff.rfl ⟨fun hh a b hab => ?_, fun hh w hw => ?_⟩
    · obtain ⟨a', b', he, ha, hb⟩ := hv.1 _ hab
      cases he
      have := hh _ hab
      simp only [wrote_cat] at this
      exact ⟨(wire_iff k a .u32 false h.1.2 hd.1 ha (fun _ _ => rfl)).1 this.1,
        (wire_iff t b .u32 false h.2 hd.2 hb (fun _ _ => rfl)).1 this.2⟩
    · obtain ⟨a, b, rfl, ha, hb⟩ := hv.1 _ hw
      have := hh a b hw
      simp only [wrote_cat]
      exact ⟨(wire_iff k a .u32 false h.1.2 hd.1 ha (fun _ _ => rfl)).2 this.1,
        (wire_iff t b .u32 false h.2 hd.2 hb (fun _ _ => rfl)).2 this.2⟩
  | .array n t, v, lt, d, h, hd, hv, _ => by
    cases v <;> simp only [hasTy] at hv
    simp only [plain] at h
    simp only [declOk] at hd
    simp only [wire, lengthsFit, hv.1, ne_eq, not_true_eq_false, if_false, wrote_catAll]
    refine forall_congr' fun w => forall_congr' fun hw => ?_
    exact wire_iff t w .u32 false h hd (hv.2 w hw) (fun _ _ => rfl)
  | .option t, v, lt, d, h, hd, hv, hl => by
    simp only [plain] at h
    simp only [declOk] at hd
    cases v <;> simp only [hasTy] at hv
    · simp [wire, lengthsFit, wrote_ok]
    · rename_i w
      simp only [wire, lengthsFit, wrote_cat, wrote_ok, true_and]
      have key := fun d' => wire_iff (F := F) t w lt d' h hd hv (fun u hu => hl _ (by rw [hu]))
      cases t <;> first
        | exact key d
        | (have := hl _ rfl; subst this; exact key false)
  | .result a b, v, lt, d, h, hd, hv, _ => by
    simp only [plain, Bool.and_eq_true] at h
    simp only [declOk, Bool.and_eq_true] at hd
    cases v <;> try (simp [hasTy] at hv; done)
    rename_i i v
    match i with
    | 0 =>
      simp only [hasTy] at hv
      simp only [wire, lengthsFit, wrote_cat, wrote_ok, true_and]
      exact wire_iff b v .u32 false h.2 hd.2 hv (fun _ _ => rfl)
    | 1 =>
      simp only [hasTy] at hv
      simp only [wire, lengthsFit, wrote_cat, wrote_ok, true_and]
      exact wire_iff a v .u32 false h.1 hd.1 hv (fun _ _ => rfl)
    | _ + 2 => simp [hasTy] at hv
  | .range t, v, lt, d, h, hd, hv, _ => by
    simp only [plain] at h
    simp only [declOk] at hd
    cases v <;> try (simp [hasTy] at hv; done)
    rename_i a b
    cases b <;> try (simp [hasTy] at hv; done)
    rename_i b c
    cases c <;> simp only [hasTy] at hv
    simp only [wire, lengthsFit, wrote_cat]
    exact and_congr (wire_iff t a .u32 false h hd hv.1 (fun _ _ => rfl)) (wire_iff t b .u32 false h hd hv.2 (fun _ _ => rfl))
  | .pair a b, v, lt, d, h, hd, hv, _ => by
    simp only [plain, Bool.and_eq_true] at h
    simp only [declOk, Bool.and_eq_true] at hd
    cases v <;> simp only [hasTy] at hv
    simp only [wire, lengthsFit, wrote_cat]
    exact and_congr (wire_iff a _ .u32 false h.1 hd.1 hv.1 (fun _ _ => rfl))
      (wire_iff b _ .u32 false h.2 hd.2 hv.2 (fun _ _ => rfl))
  | .box t, v, lt, d, h, hd, hv, _ => by
    simp only [plain] at h
    simp only [declOk] at hd
    simp only [hasTy] at hv
    simp only [wire, lengthsFit]
    exact wire_iff t v .u32 false h hd hv (fun _ _ => rfl)
  | .struct _ fs, v, lt, d, h, hd, hv, _ => by
    simp only [plain, Bool.and_eq_true] at h
    simp only [declOk] at hd
    simp only [hasTy] at hv
    simp only [wire, lengthsFit]
    exact wireFields_iff fs [] v h.2 hd hv
  | .enum ed vs, v, lt, d, h, hd, hv, _ => by
    simp only [plain, Bool.and_eq_true] at h
    simp only [declOk, Bool.and_eq_true] at hd
    cases v <;> simp only [hasTy] at hv
    simp only [wire, lengthsFit]
    exact wireVariants_iff ed vs _ _ h.2 hd.2 hv
  | .refArray _ _, _, _, _, h, _, _, _ | .rangeInc _, _, _, _, h, _, _, _ | .via _ _, _, _, _, h, _, _, _ => by
    simp [plain] at h
theorem wireFields_iff {T : Target} {F : Fmt} : ∀ (fs : Fields) (prev : List Val) (v : Val), plainFields fs = true →
    declOkFields fs = true → hasTyFields T fs v → (Wrote (wireFields F fs prev v) ↔ lengthsFitFields fs v)
  | .nil, _, v, _, _, hv => by
    cases v <;> simp only [hasTyFields] at hv
    simp [wireFields, lengthsFitFields, wrote_ok]
  | .cons a t fs, prev, v, h, hd, hv => by
    simp only [plainFields, Bool.and_eq_true] at h
    simp only [declOkFields, Bool.and_eq_true] at hd
    cases v <;> simp only [hasTyFields] at hv
    rename_i v rest
    have hk : a.skip = false := by
      have := h.1.1
      simp only [Attrs.simple, Bool.and_eq_true, Bool.not_eq_true'] at this
      exact this.1.1.1
    obtain ⟨lt, d, hw, hm, ho⟩ := simple_wlen h.1.1 hd.1.1.1 prev
    simp only [wireFields, lengthsFitFields, hk, Bool.false_eq_true, if_false, wrote_cat, wrote_ok, true_and, hw, hm]
    refine and_congr ?_ (wireFields_iff fs _ rest h.2 hd.1.2 hv.2)
    split
    · rename_i hva
      have := hd.1.1.1
      simp only [Attrs.declOk, hva, Bool.and_eq_true, Bool.not_true, Bool.false_or] at this
      have ht := this.2
      split at ht
      · have := hv.1
        cases v <;> simp only [hasTy] at this
        simp [lengthsFit, wrote_ok]
      · cases ht
    · exact wire_iff t v lt d h.1.2 hd.1.1.2 hv.1 ho
theorem wireVariants_iff {T : Target} {F : Fmt} (d : EnumDesc) : ∀ (vs : Variants) (i : Nat) (v : Val),
    plainVariants vs = true → declOkVariants vs = true → hasTyVariants T vs i v →
    (Wrote (wireVariants F d vs i v) ↔ lengthsFitVariants vs i v)
  | .nil, _, _, _, _, hv => by simp [hasTyVariants] at hv
  | .cons tag fs vs, 0, v, h, hd, hv => by
    simp only [plainVariants, Bool.and_eq_true] at h
    simp only [declOkVariants, Bool.and_eq_true] at hd
    simp only [hasTyVariants] at hv
    simp only [wireVariants, lengthsFitVariants, wrote_cat, wrote_ok, true_and]
    exact wireFields_iff fs [] v h.1 hd.1 hv
  | .cons tag fs vs, i + 1, v, h, hd, hv => by
    simp only [plainVariants, Bool.and_eq_true] at h
    simp only [declOkVariants, Bool.and_eq_true] at hd
    simp only [hasTyVariants] at hv
    simp only [wireVariants, lengthsFitVariants]
    exact wireVariants_iff d vs i v h.2 hd.2 hv
end

/-! ## Types for which reading does not panic -/

mutual
/-- No `Duration` and `SystemTime`, and the memory of a `Vec` or string of the largest length which can be read is at most
`isize::MAX` bytes.  `m` as in `lengthsFit`. -/
def ample (T : Target) : Nat → Ty → Bool
  | _, .duration | _, .systemTime => false
  | m, .str _ => decide (m ≤ T.isizeMax)
  | m, .seq _ t => decide (m * sizeOf T t ≤ T.isizeMax) && ample T LenTy.u32.max t
  | m, .option t => ample T m t
  | _, .set t | _, .array _ t | _, .range t | _, .box t => ample T LenTy.u32.max t
  | _, .map a b | _, .result a b | _, .pair a b => ample T LenTy.u32.max a && ample T LenTy.u32.max b
  | _, .struct _ fs => ampleFields T fs
  | _, .enum _ vs => ampleVariants T vs
  | _, _ => true
/-- Fields. -/
def ampleFields (T : Target) : Fields → Bool
  | .nil => true
  | .cons a t fs => ample T a.maxLen t && ampleFields T fs
/-- Variants. -/
def ampleVariants (T : Target) : Variants → Bool
  | .nil => true
  | .cons _ fs vs => ampleFields T fs && ampleVariants T vs
end

theorem cap_of_le {T : Target} {x : Bool} {B b m : Nat} {t : Ty} (hb : b ≤ m) (h : m * sizeOf T t ≤ T.isizeMax) :
    capOk T x B b t = true := by
  have := Nat.mul_le_mul_right (sizeOf T t) hb
  simp only [capOk, Bool.or_eq_true, decide_eq_true_eq]
  left; omega

theorem simple_lim {a : Attrs} {t : Ty} (h : a.simple = true) (hd : a.declOk t = true) (h0 : Host) :
    (a.lim h0).rest = false ∧ (a.lim h0).bound ≤ a.maxLen ∧ (a.lim h0).bound ≤ h0.usizeMax ∧
      ∀ u, t = .option (.option u) → a.maxLen = LenTy.u32.max := by
  simp only [Attrs.simple, Bool.and_eq_true] at h
  simp only [Attrs.declOk, Bool.and_eq_true] at hd
  unfold Attrs.lim Attrs.maxLen
  cases ho : a.opaqueTy <;> cases hl : a.len with
  | none => exact ⟨rfl, Nat.min_le_left _ _, Nat.min_le_right _ _, fun _ _ => rfl⟩
  | some k =>
    cases k with
    | typed lt =>
      simp only [hl, ho, Bool.not_true, Bool.not_false, Bool.false_and, Bool.true_and] at hd
      first
        | exact ⟨rfl, Nat.min_le_left _ _, Nat.min_le_right _ _, fun u hu => by subst hu; simp [Ty.isContainer] at hd⟩
        | exact absurd hd.1 (by simp)
    | expr f => simp [hl] at h
    | untilEof => simp [hl] at h

section
variable {T : Target} (hT : T.Ok) {e : Endian} {x : Bool} {B : Nat}
include hT

omit hT in
theorem plain_convs {t : Ty} (h : plain t = true) : convs T e t = true := by
  unfold convs
  cases hp : isPrimitive T t
  · rfl
  · simp [plain_conv h hp]

omit hT in
theorem std_lim : (Lim.std T.toHost).rest = false ∧ (Lim.std T.toHost).bound ≤ LenTy.u32.max ∧
    (Lim.std T.toHost).bound ≤ T.usizeMax := ⟨rfl, Nat.min_le_left _ _, Nat.min_le_right _ _⟩

mutual
theorem plain_calm : ∀ (t : Ty) (l : Lim) (m : Nat), plain t = true → declOk t = true → ample T m t = true →
    l.rest = false ∧ l.bound ≤ m ∧ l.bound ≤ T.usizeMax → (∀ u, t = .option (.option u) → m = LenTy.u32.max) →
    calm T e x B l t = true
  | .prim _, _, _, _, _, _, _, _ | .usize, _, _, _, _, _, _, _ | .bool, _, _, _, _, _, _, _ | .char, _, _, _, _, _, _, _
  | .nonZero _, _, _, _, _, _, _, _ | .atomic _, _, _, _, _, _, _, _ | .ipv4, _, _, _, _, _, _, _
  | .ipv6, _, _, _, _, _, _, _ | .ipAddr, _, _, _, _, _, _, _ | .endianness, _, _, _, _, _, _, _
  | .varint64, _, _, _, _, _, _, _ | .uuid, _, _, _, _, _, _, _ | .unit, _, _, _, _, _, _, _ => by simp [calm]
  | .duration, _, _, _, _, hr, _, _ | .systemTime, _, _, _, _, hr, _, _ => by simp [ample] at hr
  | .str k, l, m, h, _, hr, hl, _ => by
    simp only [ample, decide_eq_true_eq] at hr
    have : capOk T x B l.bound (.prim .u8) = true := cap_of_le hl.2.1 (by simpa [sizeOf, Prim.size] using hr)
    cases k <;> simp [calm, this, hl.2.2]
  | .seq k t, l, m, h, hd, hr, hl, _ => by
    simp only [plain, Bool.and_eq_true, beq_iff_eq, Bool.not_eq_true'] at h
    obtain ⟨⟨rfl, hz⟩, ht⟩ := h
    simp only [declOk] at hd
    simp only [ample, Bool.and_eq_true, decide_eq_true_eq] at hr
    simp [calm, plain_convs ht, cap_of_le hl.2.1 hr.1, hl.1,
      plain_calm t (Lim.std T.toHost) _ ht hd hr.2 std_lim (fun _ _ => rfl)]
  | .set t, l, m, h, hd, hr, hl, _ => by
    simp only [plain, Bool.and_eq_true, Bool.not_eq_true'] at h
    simp only [declOk] at hd
    simp only [ample] at hr
    simp [calm, hl.1, sizeOf_pos hT h.1, plain_calm t (Lim.std T.toHost) _ h.2 hd hr std_lim (fun _ _ => rfl)]
  | .map k t, l, m, h, hd, hr, hl, _ => by
    simp only [plain, Bool.and_eq_true, Bool.not_eq_true'] at h
    simp only [declOk, Bool.and_eq_true] at hd
    simp only [ample, Bool.and_eq_true] at hr
    simp [calm, hl.1, sizeOf_pos hT h.1.1.1, plain_calm k (Lim.std T.toHost) _ h.1.2 hd.1 hr.1 std_lim (fun _ _ => rfl),
      plain_calm t (Lim.std T.toHost) _ h.2 hd.2 hr.2 std_lim (fun _ _ => rfl)]
  | .array n t, l, m, h, hd, hr, hl, _ => by
    simp only [plain] at h
    simp only [declOk] at hd
    simp only [ample] at hr
    simp [calm, plain_convs h, plain_calm t (Lim.std T.toHost) _ h hd hr std_lim (fun _ _ => rfl)]
  | .option t, l, m, h, hd, hr, hl, ho => by
    simp only [plain] at h
    simp only [declOk] at hd
    simp only [ample] at hr
    simp only [calm]
    refine plain_calm t _ m h hd hr ?_ (fun u hu => ho _ (by rw [hu]))
    cases t <;> first
      | exact hl
      | (rw [ho _ rfl]; exact std_lim)
  | .range t, l, m, h, hd, hr, hl, _ | .box t, l, m, h, hd, hr, hl, _ => by
    simp only [plain] at h
    simp only [declOk] at hd
    simp only [ample] at hr
    simp [calm, plain_calm t (Lim.std T.toHost) _ h hd hr std_lim (fun _ _ => rfl)]
  | .result k t, l, m, h, hd, hr, hl, _ | .pair k t, l, m, h, hd, hr, hl, _ => by
    simp only [plain, Bool.and_eq_true] at h
    simp only [declOk, Bool.and_eq_true] at hd
    simp only [ample, Bool.and_eq_true] at hr
    simp [calm, plain_calm k (Lim.std T.toHost) _ h.1 hd.1 hr.1 std_lim (fun _ _ => rfl),
      plain_calm t (Lim.std T.toHost) _ h.2 hd.2 hr.2 std_lim (fun _ _ => rfl)]
  | .struct _ fs, l, m, h, hd, hr, hl, _ => by
    simp only [plain, Bool.and_eq_true] at h
    simp only [declOk] at hd
    simp only [ample] at hr
    simp [calm, plain_calmFields fs h.2 hd hr]
  | .enum d vs, l, m, h, hd, hr, hl, _ => by
    simp only [plain, Bool.and_eq_true] at h
    simp only [declOk, Bool.and_eq_true] at hd
    simp only [ample] at hr
    simp [calm, plain_calmVariants vs h.2 hd.2 hr]
  | .refArray _ _, _, _, h, _, _, _, _ | .rangeInc _, _, _, h, _, _, _, _ | .via _ _, _, _, h, _, _, _, _ => by
    simp [plain] at h
theorem plain_calmFields : ∀ (fs : Fields), plainFields fs = true → declOkFields fs = true → ampleFields T fs = true →
    calmFields T e x B fs = true
  | .nil, _, _, _ => by simp [calmFields]
  | .cons a t fs, h, hd, hr => by
    simp only [plainFields, Bool.and_eq_true] at h
    simp only [declOkFields, Bool.and_eq_true] at hd
    simp only [ampleFields, Bool.and_eq_true] at hr
    have hl := simple_lim h.1.1 hd.1.1.1 T.toHost
    have hpre : a.pre.length ≤ T.isizeMax := by
      have h1 := h.1.1
      simp only [Attrs.simple, Bool.and_eq_true, decide_eq_true_eq] at h1
      have := h1.1.2; have := hT.lower; have := hT.isize; omega
    simp [calmFields, hpre, plain_calmFields fs h.2 hd.1.2 hr.2,
      plain_calm t _ _ h.1.2 hd.1.1.2 hr.1 ⟨hl.1, hl.2.1, hl.2.2.1⟩ hl.2.2.2]
theorem plain_calmVariants : ∀ (vs : Variants), plainVariants vs = true → declOkVariants vs = true →
    ampleVariants T vs = true → calmVariants T e x B vs = true
  | .nil, _, _, _ => by simp [calmVariants]
  | .cons _ fs vs, h, hd, hr => by
    simp only [plainVariants, Bool.and_eq_true] at h
    simp only [declOkVariants, Bool.and_eq_true] at hd
    simp only [ampleVariants, Bool.and_eq_true] at hr
    simp [calmVariants, plain_calmFields fs h.1 hd.1 hr.1, plain_calmVariants vs h.2 hd.2 hr.2]
end

end

end Verif
