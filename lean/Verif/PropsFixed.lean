import Verif.PropsParts
import Verif.PropsSafe
import Verif.PropsAgree
import Verif.PropsFeed

/-!
# Values of a fixed size can be found by their position (C96)
-/

namespace Verif

/-! ## Types of a fixed size -/

/-- There are no variants. -/
def Variants.isNil : Variants → Bool
  | .nil => true
  | _ => false

mutual
/-- The number of bytes of every value of a type, if it does not depend on the value (README.md:56-103): numbers, and what consists of a given number
of values of fixed sizes.  Enums and `Result`: if all variants have the same size. -/
def fixedSize : Ty → Option Nat
  | .prim p | .nonZero p | .atomic p => some p.size
  | .refArray n (.prim p) => some (n * p.size)
  | .bool | .endianness => some 1
  | .char | .ipv4 => some 4
  | .usize => some 8
  | .duration | .systemTime => some 12
  | .ipv6 | .uuid => some 16
  | .unit => some 0
  | .array n t => (fixedSize t).map (n * ·)
  | .range t | .rangeInc t => (fixedSize t).map (2 * ·)
  | .box t | .via _ t => fixedSize t
  | .pair a b => match fixedSize a, fixedSize b with
    | some n, some m => some (n + m)
    | _, _ => none
  | .result a b => match fixedSize a, fixedSize b with
    | some n, some m => if n = m then some (1 + n) else none
    | _, _ => none
  | .struct _ fs => fixedFields fs
  | .enum d vs => if d.peek || d.tagTy == .varint then none else (fixedVariants vs).map (d.tagTy.minSize + ·)
  | _ => none
/-- Fields. -/
def fixedFields : Fields → Option Nat
  | .nil => some 0
  | .cons a t fs =>
    if a.skip then fixedFields fs
    else if a.varint || a.defaultOnEof then none
    else match fixedSize t, fixedFields fs with
      | some n, some m => some (a.pre.length + n + m)
      | _, _ => none
/-- Variants. -/
def fixedVariants : Variants → Option Nat
  | .nil => none
  | .cons _ fs vs => match fixedFields fs, fixedVariants vs with
    | some n, some m => if n = m then some n else none
    | some n, none => if vs.isNil then some n else none
    | none, _ => none
end

theorem fixed_pair {a b : Ty} {k : Nat} (h : fixedSize (.pair a b) = some k) :
    ∃ n m, fixedSize a = some n ∧ fixedSize b = some m ∧ k = n + m := by
  simp only [fixedSize] at h
  split at h
  · rename_i n m h1 h2; cases h; exact ⟨n, m, h1, h2, rfl⟩
  · cases h

theorem fixed_result {a b : Ty} {k : Nat} (h : fixedSize (.result a b) = some k) :
    ∃ n, fixedSize a = some n ∧ fixedSize b = some n ∧ k = 1 + n := by
  simp only [fixedSize] at h
  split at h
  · rename_i n m h1 h2
    split at h
    · rename_i hn; subst hn; cases h; exact ⟨n, h1, h2, rfl⟩
    · cases h
  · cases h

theorem fixed_cons {a : Attrs} {t : Ty} {fs : Fields} {k : Nat} (h : fixedFields (.cons a t fs) = some k) :
    (a.skip = true ∧ fixedFields fs = some k) ∨ (a.skip = false ∧ a.varint = false ∧ a.defaultOnEof = false ∧
      ∃ n m, fixedSize t = some n ∧ fixedFields fs = some m ∧ k = a.pre.length + n + m) := by
  simp only [fixedFields] at h
  split at h
  · rename_i hs; exact .inl ⟨hs, h⟩
  · rename_i hs
    split at h
    · cases h
    · rename_i hn
      simp only [Bool.or_eq_true, not_or, Bool.not_eq_true] at hn
      split at h
      · rename_i n m h1 h2; cases h; exact .inr ⟨by simpa using hs, hn.1, hn.2, n, m, h1, h2, rfl⟩
      · cases h

theorem fixed_variant {tag : Nat} {fs : Fields} {vs : Variants} {n : Nat} (h : fixedVariants (.cons tag fs vs) = some n) :
    fixedFields fs = some n ∧ (vs = .nil ∨ fixedVariants vs = some n) := by
  simp only [fixedVariants] at h
  split at h
  · rename_i a b h1 h2
    split at h
    · rename_i hn; subst hn; cases h; exact ⟨h1, .inr h2⟩
    · cases h
  · rename_i a h1 h2
    split at h
    · rename_i hn; cases h; exact ⟨h1, .inl (by cases vs <;> simp_all [Variants.isNil])⟩
    · cases h
  · cases h

theorem fixed_enum {d : EnumDesc} {vs : Variants} {k : Nat} (h : fixedSize (.enum d vs) = some k) :
    d.peek = false ∧ d.tagTy ≠ .varint ∧ ∃ n, fixedVariants vs = some n ∧ k = d.tagTy.minSize + n := by
  simp only [fixedSize] at h
  split at h
  · cases h
  · rename_i hn
    simp only [Bool.or_eq_true, not_or, Bool.not_eq_true] at hn
    simp only [Option.map_eq_some_iff] at h
    obtain ⟨n, h1, rfl⟩ := h
    exact ⟨hn.1, fun hc => by simp [hc] at hn, n, h1, rfl⟩

theorem fixed_refArray {n : Nat} {t : Ty} {k : Nat} (h : fixedSize (.refArray n t) = some k) : ∃ p, t = .prim p ∧ k = n * p.size := by
  cases t <;> simp [fixedSize] at h
  exact ⟨_, rfl, h.symm⟩

/-! ## Writing -/

theorem catAll_fixed {f : Val → Except Err Bytes} {n : Nat} : ∀ (vs : List Val) {bs : Bytes},
    (∀ v ∈ vs, ∀ x, f v = .ok x → x.length = n) → catAll f vs = .ok bs → bs.length = vs.length * n
  | [], bs, _, h => by cases h; simp
  | v :: vs, bs, hf, h => by
    simp only [catAll] at h
    obtain ⟨x, y, h1, h2, rfl⟩ := cat_ok.mp h
    have a := hf v List.mem_cons_self x h1
    have b := catAll_fixed vs (fun w hw => hf w (List.mem_cons_of_mem _ hw)) h2
    simp only [List.length_append, List.length_cons, a, b, Nat.succ_mul]
    omega

theorem wireNum_fixed (e : Endian) {lt : LenTy} (n : Nat) (h : lt ≠ .varint) : (wireNum e lt n).length = lt.minSize := by
  cases lt <;> simp_all [wireNum, LenTy.minSize]

mutual
theorem wire_fixed {F : Fmt} {T : Target} : ∀ (t : Ty) (l : LenR) (v : Val) {n : Nat} {bs : Bytes}, fixedSize t = some n → hasTy T t v →
    wire F t l v = .ok bs → bs.length = n
  | .prim p, l, v, n, bs, hn, hv, h => by
    cases v <;> simp only [hasTy] at hv
    simp only [fixedSize, Option.some.injEq] at hn
    simp only [wire, Except.ok.injEq] at h
    subst h hn; simp
  | .nonZero p, l, v, n, bs, hn, hv, h => by
    cases v <;> simp only [hasTy] at hv
    simp only [fixedSize, Option.some.injEq] at hn
    simp only [wire, Except.ok.injEq] at h
    subst h hn; simp
  | .atomic p, l, v, n, bs, hn, hv, h => by
    cases v <;> simp only [hasTy] at hv
    simp only [fixedSize, Option.some.injEq] at hn
    simp only [wire, Except.ok.injEq] at h
    subst h hn; simp
  | .bool, l, v, n, bs, hn, hv, h => by
    cases v <;> simp only [hasTy] at hv
    simp only [fixedSize, Option.some.injEq] at hn
    simp only [wire, Except.ok.injEq] at h
    subst h hn; simp
  | .char, l, v, n, bs, hn, hv, h => by
    cases v <;> simp only [hasTy] at hv
    simp only [fixedSize, Option.some.injEq] at hn
    simp only [wire, Except.ok.injEq] at h
    subst h hn; simp
  | .ipv4, l, v, n, bs, hn, hv, h => by
    cases v <;> simp only [hasTy] at hv
    simp only [fixedSize, Option.some.injEq] at hn
    simp only [wire, Except.ok.injEq] at h
    subst h hn; simp
  | .usize, l, v, n, bs, hn, hv, h => by
    cases v <;> simp only [hasTy] at hv
    simp only [fixedSize, Option.some.injEq] at hn
    simp only [wire, Except.ok.injEq] at h
    subst h hn; simp
  | .endianness, l, v, n, bs, hn, hv, h => by
    simp only [fixedSize, Option.some.injEq] at hn
    subst hn
    unfold hasTy at hv
    unfold wire at h
    split at h <;> first | (cases h; rfl) | (split at hv <;> simp_all)
  | .duration, l, v, n, bs, hn, hv, h => by
    simp only [fixedSize, Option.some.injEq] at hn
    subst hn
    have : ∃ s k, v = .pair (.num s) (.num k) := by
      unfold hasTy at hv
      split at hv <;> simp_all
    obtain ⟨s, k, rfl⟩ := this
    simp only [wire, Except.ok.injEq] at h
    subst h; simp
  | .systemTime, l, v, n, bs, hn, hv, h => by
    simp only [fixedSize, Option.some.injEq] at hn
    subst hn
    have : ∃ s k, v = .pair (.num s) (.num k) := by
      unfold hasTy at hv
      split at hv <;> simp_all
    obtain ⟨s, k, rfl⟩ := this
    simp only [wire] at h
    split at h <;> simp only [Except.ok.injEq, reduceCtorEq] at h
    subst h; simp
  | .ipv6, l, v, n, bs, hn, hv, h => by
    cases v <;> simp only [hasTy] at hv
    simp only [fixedSize, Option.some.injEq] at hn
    simp only [wire, Except.ok.injEq] at h
    subst h hn; split <;> simp [hv]
  | .uuid, l, v, n, bs, hn, hv, h => by
    cases v <;> simp only [hasTy] at hv
    simp only [fixedSize, Option.some.injEq] at hn
    simp only [wire, Except.ok.injEq] at h
    subst h hn; exact hv
  | .unit, l, v, n, bs, hn, hv, h => by
    cases v <;> simp only [hasTy] at hv
    simp only [fixedSize, Option.some.injEq] at hn
    simp only [wire, Except.ok.injEq] at h
    subst h hn; rfl
  | .array m t, l, v, n, bs, hn, hv, h => by
    cases v <;> simp only [hasTy] at hv
    simp only [fixedSize, Option.map_eq_some_iff] at hn
    obtain ⟨k, hk, rfl⟩ := hn
    simp only [wire, hv.1, ne_eq, not_true, if_false] at h
    rw [catAll_fixed _ (fun w hw x hx => wire_fixed t _ w hk (hv.2 w hw) hx) h, hv.1]
  | .refArray m t, l, v, n, bs, hn, hv, h => by
    obtain ⟨p, rfl, rfl⟩ := fixed_refArray hn
    cases v <;> simp only [hasTy] at hv
    simp only [wire, hv.1, ne_eq, not_true, if_false] at h
    rw [catAll_fixed (n := p.size) _ (fun w hw x hx => by
      have := hv.2 w hw
      cases w <;> simp only [hasTy] at this
      simp only [wire, Except.ok.injEq] at hx
      subst hx; simp) h, hv.1]
  | .range t, l, v, n, bs, hn, hv, h => by
    simp only [fixedSize, Option.map_eq_some_iff] at hn
    obtain ⟨k, hk, rfl⟩ := hn
    match v, hv, h with
    | .pair a (.pair b .unit), hv, h =>
      simp only [hasTy] at hv
      simp only [wire] at h
      obtain ⟨x, y, h1, h2, rfl⟩ := cat_ok.mp h
      have := wire_fixed t _ a hk hv.1 h1
      have := wire_fixed t _ b hk hv.2 h2
      simp only [List.length_append]; omega
  | .rangeInc t, l, v, n, bs, hn, hv, h => by
    simp only [fixedSize, Option.map_eq_some_iff] at hn
    obtain ⟨k, hk, rfl⟩ := hn
    match v, hv, h with
    | .pair a (.pair b (.bool _)), hv, h =>
      simp only [hasTy] at hv
      simp only [wire] at h
      obtain ⟨x, y, h1, h2, rfl⟩ := cat_ok.mp h
      have := wire_fixed t _ a hk hv.1 h1
      have := wire_fixed t _ b hk hv.2 h2
      simp only [List.length_append]; omega
  | .box t, l, v, n, bs, hn, hv, h => by
    simp only [fixedSize] at hn
    simp only [hasTy] at hv
    simp only [wire] at h
    exact wire_fixed t _ v hn hv h
  | .via c t, l, v, n, bs, hn, hv, h => by
    simp only [fixedSize] at hn
    simp only [hasTy] at hv
    simp only [wire] at h
    exact wire_fixed t _ v hn hv.1 h
  | .pair a b, l, v, n, bs, hn, hv, h => by
    obtain ⟨i, j, h1, h2, rfl⟩ := fixed_pair hn
    match v, hv, h with
    | .pair x y, hv, h =>
      simp only [hasTy] at hv
      simp only [wire] at h
      obtain ⟨p, q, h3, h4, rfl⟩ := cat_ok.mp h
      have := wire_fixed a _ x h1 hv.1 h3
      have := wire_fixed b _ y h2 hv.2 h4
      simp only [List.length_append]; omega
  | .result a b, l, v, n, bs, hn, hv, h => by
    obtain ⟨i, h1, h2, rfl⟩ := fixed_result hn
    match v, hv, h with
    | .variant 0 y, hv, h =>
      simp only [hasTy] at hv
      simp only [wire] at h
      obtain ⟨p, q, h3, h4, rfl⟩ := cat_ok.mp h
      cases h3
      have := wire_fixed b _ y h2 hv h4
      simp only [List.length_append, List.length_singleton]; omega
    | .variant 1 x, hv, h =>
      simp only [hasTy] at hv
      simp only [wire] at h
      obtain ⟨p, q, h3, h4, rfl⟩ := cat_ok.mp h
      cases h3
      have := wire_fixed a _ x h1 hv h4
      simp only [List.length_append, List.length_singleton]; omega
  | .struct d fs, l, v, n, bs, hn, hv, h => by
    simp only [fixedSize] at hn
    simp only [hasTy] at hv
    simp only [wire] at h
    exact wireFields_fixed fs _ v hn hv h
  | .enum d vs, l, v, n, bs, hn, hv, h => by
    obtain ⟨hp, hv', k, hk, rfl⟩ := fixed_enum hn
    match v, hv, h with
    | .variant i w, hv, h =>
      simp only [hasTy] at hv
      simp only [wire] at h
      exact wireVariants_fixed d vs i w hp hv' hk hv h
theorem wireFields_fixed {F : Fmt} {T : Target} : ∀ (fs : Fields) (prev : List Val) (v : Val) {n : Nat} {bs : Bytes}, fixedFields fs = some n →
    hasTyFields T fs v → wireFields F fs prev v = .ok bs → bs.length = n
  | .nil, prev, v, n, bs, hn, hv, h => by
    cases v <;> simp only [hasTyFields] at hv
    simp only [fixedFields, Option.some.injEq] at hn
    simp only [wireFields, Except.ok.injEq] at h
    subst h hn; rfl
  | .cons a t fs, prev, v, n, bs, hn, hv, h => by
    cases v <;> simp only [hasTyFields] at hv
    simp only [wireFields] at h
    rcases fixed_cons hn with ⟨hs, hn⟩ | ⟨hs, hvar, -, i, j, h1, h2, rfl⟩
    · rw [if_pos hs] at h
      exact wireFields_fixed fs _ _ hn hv.2 h
    · rw [if_neg (by simp [hs]), hvar, if_neg (by simp)] at h
      obtain ⟨x, y, h3, h4, rfl⟩ := cat_ok.mp h
      obtain ⟨p, q, h5, h6, rfl⟩ := cat_ok.mp h3
      cases h5
      have := wire_fixed t _ _ h1 hv.1 h6
      have := wireFields_fixed fs _ _ h2 hv.2 h4
      simp only [List.length_append]; omega
theorem wireVariants_fixed {F : Fmt} {T : Target} (d : EnumDesc) : ∀ (vs : Variants) (i : Nat) (v : Val) {n : Nat} {bs : Bytes}, d.peek = false →
    d.tagTy ≠ .varint → fixedVariants vs = some n → hasTyVariants T vs i v → wireVariants F d vs i v = .ok bs → bs.length = d.tagTy.minSize + n
  | .nil, i, v, n, bs, _, _, hn, hv, h => by simp [hasTyVariants] at hv
  | .cons tag fs vs, 0, v, n, bs, hp, ht, hn, hv, h => by
    simp only [hasTyVariants] at hv
    simp only [wireVariants, hp, Bool.false_eq_true, if_false] at h
    obtain ⟨x, y, h3, h4, rfl⟩ := cat_ok.mp h
    cases h3
    have := wireFields_fixed fs _ v (fixed_variant hn).1 hv h4
    simp only [List.length_append, wireNum_fixed _ _ ht]; omega
  | .cons tag fs vs, i + 1, v, n, bs, hp, ht, hn, hv, h => by
    simp only [hasTyVariants] at hv
    simp only [wireVariants] at h
    rcases (fixed_variant hn).2 with rfl | hn
    · simp [hasTyVariants] at hv
    · exact wireVariants_fixed d vs i v hp ht hn hv h
end

/-- **C96**, writing: if the number of bytes of a type is fixed, every value of it which can be written has this number of bytes, which is also what
`bytes_needed` gives.

Partial: as for the format (see `C03`). -/
theorem C96_written_partial {T : Target} (hT : T.Ok) {e : Endian} {junk : Nat → UInt8} {t : Ty} {v : Val} {n : Nat} {bs : Bytes}
    (hl : layoutOk T t = true) (hd : declOk t = true) (hs : sliceOk T t = true) (hv : hasTy T t v) (hn : fixedSize t = some n)
    (hw : writeToVec T e t v junk = .ok bs) : bs.length = n ∧ bytesNeeded T t v = .ok n := by
  obtain ⟨h1, h2⟩ := vec_inv hT hl hd hs hv hw
  have h3 := wire_fixed t _ v hn hv h1
  refine ⟨h3, ?_⟩
  rw [needed_ok hT hl hd hs hv h1 (by have := hT.isize; omega), h3]

/-! ## Positions -/

/-- The number of bytes of values of these types one after another, if it is fixed. -/
def fixedSizes : List Ty → Option Nat
  | [] => some 0
  | t :: ts => match fixedSize t, fixedSizes ts with
    | some n, some m => some (n + m)
    | _, _ => none

theorem fixedSizes_cons {t : Ty} {ts : List Ty} {k : Nat} (h : fixedSizes (t :: ts) = some k) :
    ∃ n m, fixedSize t = some n ∧ fixedSizes ts = some m ∧ k = n + m := by
  simp only [fixedSizes] at h
  split at h
  · rename_i n m h1 h2; cases h; exact ⟨n, m, h1, h2, rfl⟩
  · cases h

theorem fixedSizes_elems {t : Ty} {n : Nat} (hn : fixedSize t = some n) : ∀ vs : List Val,
    fixedSizes ((elemParts t vs).map Prod.fst) = some (vs.length * n)
  | [] => by simp [elemParts, fixedSizes]
  | v :: vs => by
    have := fixedSizes_elems hn vs
    simp only [elemParts] at this
    simp only [elemParts, List.map_cons, fixedSizes, hn, this, List.length_cons, Nat.succ_mul, Option.some.injEq]
    omega

theorem fixedSizes_append : ∀ {ts us : List Ty} {n m : Nat}, fixedSizes ts = some n → fixedSizes us = some m → fixedSizes (ts ++ us) = some (n + m)
  | [], us, n, m, h1, h2 => by simp only [fixedSizes, Option.some.injEq] at h1; subst h1; simpa using h2
  | t :: ts, us, n, m, h1, h2 => by
    obtain ⟨a, b, h3, h4, rfl⟩ := fixedSizes_cons h1
    simp only [List.cons_append, fixedSizes, h3, fixedSizes_append h4 h2, Nat.add_assoc]

theorem wireParts_fixed {F : Fmt} {T : Target} : ∀ (ps : List Part) {off : Nat} {bs : Bytes}, (∀ p ∈ ps, Fine T p) →
    fixedSizes (ps.map Prod.fst) = some off → wireParts F ps = .ok bs → bs.length = off
  | [], off, bs, _, ho, h => by
    simp only [List.map_nil, fixedSizes, Option.some.injEq] at ho
    cases h; exact ho
  | p :: ps, off, bs, hf, ho, h => by
    simp only [List.map_cons] at ho
    obtain ⟨n, m, h1, h2, rfl⟩ := fixedSizes_cons ho
    simp only [wireParts] at h
    obtain ⟨x, y, h3, h4, rfl⟩ := cat_ok.mp h
    have := wire_fixed _ _ _ h1 (hf p List.mem_cons_self).ty h3
    have := wireParts_fixed ps (fun q hq => hf q (List.mem_cons_of_mem _ hq)) h2 h4
    simp only [List.length_append]; omega

section
variable {T : Target} (hT : T.Ok) {e : Endian} {junk : Nat → UInt8} {t : Ty} {v : Val} {before after : List Part} {p : Part} {off : Nat}
  {bs : Bytes} (hl : layoutOk T t = true) (hd : declOk t = true) (hv : hasTy T t v)
  (hp : parts t v = some (before ++ p :: after)) (ho : fixedSizes (before.map Prod.fst) = some off)
include hT hl hd hv hp ho

theorem position_split (hs : sliceOk T t = true) (hw : writeToVec T e t v junk = .ok bs) : ∃ x y z, bs = x ++ y ++ z ∧ x.length = off ∧
    writeToVec T e p.1 p.2 junk = .ok y ∧ wireParts (Fmt.code T.toHost e) before = .ok x ∧ wireParts (Fmt.code T.toHost e) after = .ok z := by
  have hf := fine_parts ⟨hl, hd, hs, hv⟩ hp
  obtain ⟨h1, h2⟩ := vec_inv hT hl hd hs hv hw
  rw [wire_parts _ hd hv hp, wireParts_append] at h1
  obtain ⟨x, r, h3, h4, rfl⟩ := cat_ok.mp h1
  simp only [wireParts] at h4
  obtain ⟨y, z, h5, h6, rfl⟩ := cat_ok.mp h4
  have hfp := hf p (by simp)
  have h7 := wireParts_fixed before (fun q hq => hf q (by simp [hq])) ho h3
  simp only [List.length_append] at h2
  exact ⟨x, y, z, by simp, h7, vec_ok hT hfp.layout hfp.decl hfp.slices hfp.ty h5 (by omega), h3, h6⟩

/-- **C96**, positions: a part after parts of fixed sizes is at the sum of these sizes: the bytes there are those of the part.

Partial: as for the format (see `C03`). -/
theorem C96_position_partial (hs : sliceOk T t = true) (hw : writeToVec T e t v junk = .ok bs) :
    ∃ y, writeToVec T e p.1 p.2 junk = .ok y ∧ (bs.drop off).take y.length = y := by
  obtain ⟨x, y, z, rfl, rfl, h, -⟩ := position_split hT hl hd hv hp ho hs hw
  exact ⟨y, h, by simp⟩

/-- **C96**, reading only a part: from its position, whatever else the value contains, and whatever follows it.

Partial: for regular types and values as written (see `C01`). -/
theorem C96_read_partial (hs : sliceOk T t = true) (hr : regular T e p.1 = true) (hc : canon (Fmt.code T.toHost e) p.1 p.2)
    (he : ends false false p.1 = true) (hw : writeToVec T e t v junk = .ok bs) {base : Nat} {rest : Bytes} (hm : InMem T base (bs ++ rest)) :
    ∃ y, writeToVec T e p.1 p.2 junk = .ok y ∧
      readWithLengthFromBuffer T e p.1 (base + off) ((bs ++ rest).drop off) = (.ok p.2, y.length) := by
  have hfp := fine_parts ⟨hl, hd, hs, hv⟩ hp p (by simp)
  obtain ⟨x, y, z, rfl, rfl, h, -⟩ := position_split hT hl hd hv hp ho hs hw
  have : (x ++ y ++ z ++ rest).drop x.length = y ++ (z ++ rest) := by simp
  rw [this]
  refine ⟨y, h, C06_self_delimiting_partial hT hfp.layout hfp.decl hr hfp.ty hc h he ⟨?_, ?_, ?_⟩⟩
  · have := hm.top; simp only [List.length_append] at this ⊢; omega
  all_goals
    have h1 := hm.fits.1
    have h2 := hm.fits.2
    simp only [List.length_append] at h1 h2 ⊢; omega

/-- **C96**, overwriting: to replace a part of a fixed size by another value, its bytes can be overwritten where they are; all others stay.

Partial: as for the format (see `C03`). -/
theorem C96_overwrite_partial (hs : sliceOk T t = true) (hw : writeToVec T e t v junk = .ok bs) {n : Nat} (hn : fixedSize p.1 = some n) {w v' : Val}
    {y : Bytes} (hv' : hasTy T t v') (hp' : parts t v' = some (before ++ (p.1, w) :: after)) (hy : writeToVec T e p.1 w junk = .ok y) :
    writeToVec T e t v' junk = .ok (bs.take off ++ y ++ bs.drop (off + n)) := by
  have hfp := fine_parts ⟨hl, hd, hs, hv⟩ hp p (by simp)
  have hfw := fine_parts ⟨hl, hd, hs, hv'⟩ hp' (p.1, w) (by simp)
  have hm := (vec_inv hT hl hd hs hv hw).2
  obtain ⟨x, o, z, rfl, rfl, h, h1, h2⟩ := position_split hT hl hd hv hp ho hs hw
  have h3 := wire_fixed _ _ _ hn hfp.ty (vec_inv hT hfp.layout hfp.decl hfp.slices hfp.ty h).1
  have h4 := vec_inv hT hfw.layout hfw.decl hfw.slices hfw.ty hy
  have h5 := wire_fixed _ _ _ hn hfw.ty h4.1
  have h6 : (x ++ o ++ z).take x.length = x := by simp
  have h7 : (x ++ o ++ z).drop (x.length + n) = z := by
    rw [← h3, ← List.length_append, List.drop_left]
  rw [h6, h7]
  refine vec_ok hT hl hd hs hv' ?_ (by simp only [List.length_append] at hm ⊢; omega)
  rw [wire_parts _ hd hv' hp', wireParts_append]
  simp only [wireParts, h1, h2, h4.1, cat, List.append_assoc]
end

/-! ## Elements -/

/-- The elements of a collection or an array, and how many bytes are before the first: their number, or nothing in an array (README.md:72-80). -/
def elemsOf : Ty → Option (Nat × Ty)
  | .seq _ t | .set t => some (4, t)
  | .map k v => some (4, .two k v)
  | .array _ t | .refArray _ t => some (0, t)
  | _ => none

theorem elems_parts {F : Fmt} {t u : Ty} {k : Nat} (h : elemsOf t = some (k, u)) {vs : List Val} {bs : Bytes} (hw : wire F t LenR.std (.list vs) = .ok bs) :
    ∃ hs, fixedSizes (hs.map Prod.fst) = some k ∧ ∀ ws : List Val, ws.length = vs.length → parts t (.list ws) = some (hs ++ elemParts u ws) := by
  cases t <;> simp only [elemsOf, Option.some.injEq, Prod.mk.injEq, reduceCtorEq] at h <;> obtain ⟨rfl, rfl⟩ := h
  case seq | set | map =>
    simp only [wire, cat_ok] at hw
    obtain ⟨x, _, hx, _⟩ := hw
    obtain ⟨p, hp⟩ := count_some hx
    refine ⟨[p], ?_, fun ws hl => by simp only [parts, hl, hp, Option.map_some, List.singleton_append]⟩
    unfold countPart at hp
    split at hp <;> cases hp
    rfl
  case array | refArray => exact ⟨[], rfl, fun ws _ => rfl⟩

section
variable {T : Target} (hT : T.Ok) {e : Endian} {junk : Nat → UInt8} {t u : Ty} {k n i : Nat} {vs : List Val} {w : Val} {bs : Bytes}
  (hl : layoutOk T t = true) (hd : declOk t = true) (hs : sliceOk T t = true) (hv : hasTy T t (.list vs)) (hu : elemsOf t = some (k, u))
  (hn : fixedSize u = some n) (hi : i < vs.length) (hw : writeToVec T e t (.list vs) junk = .ok bs)
include hT hl hd hs hv hu hn hi hw

theorem element_parts : ∃ before after, parts t (.list vs) = some (before ++ (u, vs[i]) :: after) ∧
    fixedSizes (before.map Prod.fst) = some (k + i * n) ∧ ∀ w, parts t (.list (vs.set i w)) = some (before ++ (u, w) :: after) := by
  obtain ⟨hd', h1, h2⟩ := elems_parts hu (vec_inv hT hl hd hs hv hw).1
  refine ⟨hd' ++ elemParts u (vs.take i), elemParts u (vs.drop (i + 1)), ?_, ?_, fun w => ?_⟩
  · have h3 : vs = vs.take i ++ vs[i] :: vs.drop (i + 1) := by rw [← List.drop_eq_getElem_cons hi, List.take_append_drop]
    have h4 : elemParts u vs = elemParts u (vs.take i) ++ (u, vs[i]) :: elemParts u (vs.drop (i + 1)) := by
      have := congrArg (elemParts u) h3
      rwa [show elemParts u (vs.take i ++ vs[i] :: vs.drop (i + 1)) = elemParts u (vs.take i) ++ (u, vs[i]) :: elemParts u (vs.drop (i + 1)) by
        simp only [elemParts, List.map_append, List.map_cons]] at this
    rw [h2 vs rfl, h4, List.append_assoc]
  · have h3 := fixedSizes_elems hn (vs.take i)
    rw [List.length_take, Nat.min_eq_left (by omega)] at h3
    rw [List.map_append]
    exact fixedSizes_append h1 h3
  · rw [h2 _ (by simp), List.set_eq_take_append_cons_drop, if_pos hi]
    simp [elemParts]

/-- **C96**, elements: the `i`-th element of a collection of elements of `n` bytes is after the `i` elements before it.

Partial: as for the format (see `C03`). -/
theorem C96_element_partial : writeToVec T e u vs[i] junk = .ok ((bs.drop (k + i * n)).take n) := by
  obtain ⟨b, a, h1, h2, -⟩ := element_parts hT hl hd hs hv hu hn hi hw
  obtain ⟨y, h3, h4⟩ := C96_position_partial hT hl hd hv h1 h2 hs hw
  have hf := fine_parts ⟨hl, hd, hs, hv⟩ h1 (u, vs[i]) (by simp)
  rw [(C96_written_partial hT hf.layout hf.decl hf.slices hf.ty hn h3).1] at h4
  rw [h4]
  exact h3

/-- **C96**, reading one element of a collection without reading those before it.

Partial: for regular types and values as written (see `C01`). -/
theorem C96_read_element_partial (hr : regular T e u = true) (hc : canon (Fmt.code T.toHost e) u vs[i]) (he : ends false false u = true) {base : Nat}
    {rest : Bytes} (hm : InMem T base (bs ++ rest)) :
    readWithLengthFromBuffer T e u (base + (k + i * n)) ((bs ++ rest).drop (k + i * n)) = (.ok vs[i], n) := by
  obtain ⟨b, a, h1, h2, -⟩ := element_parts hT hl hd hs hv hu hn hi hw
  have hf := fine_parts ⟨hl, hd, hs, hv⟩ h1 (u, vs[i]) (by simp)
  obtain ⟨y, h3, h4⟩ := C96_read_partial hT hl hd hv h1 h2 hs hr hc he hw hm
  rw [h4, (C96_written_partial hT hf.layout hf.decl hf.slices hf.ty hn h3).1]

/-- **C96**, overwriting one element of a collection where it is.

Partial: as for the format (see `C03`). -/
theorem C96_overwrite_element_partial {y : Bytes} (hv' : hasTy T t (.list (vs.set i w))) (hy : writeToVec T e u w junk = .ok y) :
    writeToVec T e t (.list (vs.set i w)) junk = .ok (bs.take (k + i * n) ++ y ++ bs.drop (k + i * n + n)) := by
  obtain ⟨b, a, h1, h2, h3⟩ := element_parts hT hl hd hs hv hu hn hi hw
  exact C96_overwrite_partial hT hl hd hv h1 h2 hs hw hn hv' (h3 w) hy
end

/-! ## Reading -/

/-- A parser which takes `n` bytes whenever it succeeds, and never asks for more. -/
structure TakesN {α : Type} (n : Nat) (p : P α) : Prop where
  took : ∀ bs v rest, p bs = .ok v rest → bs.length = n + rest.length
  enough : ∀ bs er, n ≤ bs.length → p bs = .fail er → er.wantsMore = false
  sure : ∀ bs er, p bs ≠ .amb er

section
variable {α β : Type} {n m : Nat}

theorem takesN_pure (a : α) : TakesN 0 (P.pure a) := by
  refine ⟨?_, fun bs er _ h => (by cases h), fun bs er h => by cases h⟩
  intro bs v rest h
  simp only [P.pure, PRes.ok.injEq] at h
  rw [h.2]; omega

theorem takesN_fail {er : Err} (h : er.wantsMore = false) : TakesN n (P.fail er : P α) :=
  ⟨fun bs v rest h => (by cases h), fun bs er _ h' => (by cases h'; exact h), fun bs er h => by cases h⟩

theorem takesN_unspec : TakesN n (P.unspec : P α) := ⟨fun bs v rest h => (by cases h), fun bs er _ h => (by cases h), fun bs er h => by cases h⟩

theorem takesN_bind {p : P α} {f : α → P β} (hp : TakesN n p) (hf : ∀ a, TakesN m (f a)) : TakesN (n + m) (P.bind p f) := by
  constructor
  · intro bs v rest h
    simp only [P.bind] at h
    split at h
    · rename_i a r hr
      have := hp.took _ _ _ hr
      have := (hf _).took _ _ _ h
      omega
    all_goals cases h
  · intro bs er hl h
    simp only [P.bind] at h
    split at h
    · rename_i a r hr
      have := hp.took _ _ _ hr
      exact (hf a).enough r er (by omega) h
    · rename_i er' hr
      cases h
      exact hp.enough bs er (by omega) hr
    all_goals cases h
  · intro bs er h
    simp only [P.bind] at h
    split at h
    · exact (hf _).sure _ _ h
    · cases h
    · rename_i hr; cases h; exact hp.sure _ _ hr
    · cases h

theorem takesN_check {p : P α} {f : α → P β} (hp : TakesN n p) (hf : ∀ a, TakesN 0 (f a)) : TakesN n (P.bind p f) := takesN_bind hp hf

theorem takesN_map {p : P α} {f : α → β} (hp : TakesN n p) : TakesN n (P.map f p) := takesN_check hp fun _ => takesN_pure _

theorem takesN_ite {c : Prop} [Decidable c] {p q : P α} (hp : TakesN n p) (hq : TakesN n q) : TakesN n (if c then p else q) := by split <;> assumption

theorem takesN_take (n : Nat) : TakesN n (pTake n) := by
  constructor
  · intro bs v rest h
    simp only [pTake] at h
    split at h
    · cases h
      simp only [List.length_drop]; omega
    · cases h
  · intro bs er hl h
    simp only [pTake, if_pos hl] at h
    cases h
  · intro bs er h
    simp only [pTake] at h
    split at h <;> cases h

theorem takesN_num (e : Endian) (n : Nat) : TakesN n (pNum e n) := takesN_map (takesN_take n)

theorem takesN_rep {p : P α} (hp : TakesN n p) : ∀ k, TakesN (k * n) (pRep k p)
  | 0 => by rw [Nat.zero_mul]; exact takesN_pure []
  | k + 1 => by
    have := takesN_bind hp fun v => takesN_check (takesN_rep hp k) fun vs => takesN_pure (v :: vs)
    rw [show (k + 1) * n = n + k * n by rw [Nat.succ_mul, Nat.add_comm]]
    exact this
end

theorem convert_enough {c : Conv} {v : Val} {er : Err} (h : c.apply v = .error er) : er.wantsMore = false := by
  unfold Conv.apply at h
  split at h
  · split at h <;> cases h; rfl
  · split at h <;> cases h; rfl
  · cases h
  · split at h <;> cases h; rfl
  · cases h; rfl

theorem takesN_duration (e : Endian) : TakesN 12 (pDuration e) :=
  takesN_bind (takesN_num e 8) fun _ => takesN_check (takesN_num e 4) fun _ => takesN_ite (takesN_pure _) (takesN_fail rfl)

theorem takesN_const (T : Target) (c : Bytes) : TakesN c.length (pConst T c) :=
  takesN_ite takesN_unspec (takesN_check (takesN_take _) fun _ => takesN_ite (takesN_pure _) (takesN_fail rfl))

mutual
theorem parse_fixed {T : Target} {e : Endian} : ∀ (t : Ty) (cx : Cx) {n : Nat}, fixedSize t = some n → TakesN n (parse T e t cx)
  | .prim p, cx, n, hn | .atomic p, cx, n, hn => by
    simp only [fixedSize, Option.some.injEq] at hn
    subst hn
    simp only [parse]
    exact takesN_map (takesN_num e _)
  | .nonZero p, cx, n, hn => by
    simp only [fixedSize, Option.some.injEq] at hn
    subst hn
    simp only [parse]
    exact takesN_check (takesN_num e _) fun _ => takesN_ite (takesN_fail rfl) (takesN_pure _)
  | .bool, cx, n, hn => by
    simp only [fixedSize, Option.some.injEq] at hn
    subst hn
    simp only [parse]
    exact takesN_map (takesN_map (takesN_num e _))
  | .char, cx, n, hn => by
    simp only [fixedSize, Option.some.injEq] at hn
    subst hn
    simp only [parse]
    exact takesN_check (takesN_num e _) fun _ => takesN_ite (takesN_pure _) (takesN_fail rfl)
  | .ipv4, cx, n, hn => by
    simp only [fixedSize, Option.some.injEq] at hn
    subst hn
    simp only [parse]
    exact takesN_map (takesN_num e _)
  | .usize, cx, n, hn => by
    simp only [fixedSize, Option.some.injEq] at hn
    subst hn
    simp only [parse]
    exact takesN_check (takesN_num e _) fun _ => takesN_ite (takesN_fail rfl) (takesN_pure _)
  | .endianness, cx, n, hn => by
    simp only [fixedSize, Option.some.injEq] at hn
    subst hn
    simp only [parse]
    exact takesN_check (takesN_num e _) fun _ => takesN_ite (takesN_pure _) (takesN_ite (takesN_pure _) (takesN_fail rfl))
  | .duration, cx, n, hn => by
    simp only [fixedSize, Option.some.injEq] at hn
    subst hn
    simp only [parse]
    exact takesN_map (takesN_duration e)
  | .systemTime, cx, n, hn => by
    simp only [fixedSize, Option.some.injEq] at hn
    subst hn
    simp only [parse]
    exact takesN_check (takesN_duration e) fun _ => takesN_ite (takesN_pure _) (takesN_fail rfl)
  | .ipv6, cx, n, hn => by
    simp only [fixedSize, Option.some.injEq] at hn
    subst hn
    simp only [parse]
    exact takesN_map (takesN_take _)
  | .uuid, cx, n, hn => by
    simp only [fixedSize, Option.some.injEq] at hn
    subst hn
    simp only [parse]
    exact takesN_map (takesN_take _)
  | .unit, cx, n, hn => by
    simp only [fixedSize, Option.some.injEq] at hn
    subst hn
    simp only [parse]
    exact takesN_pure _
  | .array m t, cx, n, hn => by
    simp only [fixedSize, Option.map_eq_some_iff] at hn
    obtain ⟨k, hk, rfl⟩ := hn
    simp only [parse, pArray]
    exact takesN_ite takesN_unspec (takesN_map (takesN_rep (parse_fixed t _ hk) m))
  | .refArray m t, cx, n, hn => by
    obtain ⟨p, rfl, rfl⟩ := fixed_refArray hn
    simp only [parse]
    exact takesN_ite (takesN_fail rfl) (takesN_ite (takesN_map (takesN_rep (takesN_map (takesN_num e _)) m)) takesN_unspec)
  | .range t, cx, n, hn | .rangeInc t, cx, n, hn => by
    simp only [fixedSize, Option.map_eq_some_iff] at hn
    obtain ⟨k, hk, rfl⟩ := hn
    simp only [parse]
    have := takesN_bind (parse_fixed (T := T) (e := e) t Cx.std hk) fun a => takesN_check (parse_fixed (T := T) (e := e) t Cx.std hk) fun b =>
      takesN_pure (Val.pair a (.pair b .unit))
    have := takesN_bind (parse_fixed (T := T) (e := e) t Cx.std hk) fun a => takesN_check (parse_fixed (T := T) (e := e) t Cx.std hk) fun b =>
      takesN_pure (Val.pair a (.pair b (.bool false)))
    rw [show 2 * k = k + k by omega]
    assumption
  | .box t, cx, n, hn => by
    simp only [fixedSize] at hn
    simp only [parse]
    exact parse_fixed t _ hn
  | .via c t, cx, n, hn => by
    simp only [fixedSize] at hn
    simp only [parse]
    refine takesN_check (parse_fixed t _ hn) fun v => ?_
    unfold pConvert
    split
    · exact takesN_pure _
    · rename_i h; exact takesN_fail (convert_enough h)
  | .pair a b, cx, n, hn => by
    obtain ⟨i, j, h1, h2, rfl⟩ := fixed_pair hn
    simp only [parse]
    exact takesN_bind (parse_fixed a _ h1) fun _ => takesN_check (parse_fixed b _ h2) fun _ => takesN_pure _
  | .result a b, cx, n, hn => by
    obtain ⟨i, h1, h2, rfl⟩ := fixed_result hn
    simp only [parse]
    exact takesN_bind (takesN_map (takesN_num e 1)) fun _ => takesN_ite (takesN_map (parse_fixed a _ h1)) (takesN_map (parse_fixed b _ h2))
  | .struct d fs, cx, n, hn => by
    simp only [fixedSize] at hn
    simp only [parse]
    exact parseFields_fixed fs _ hn
  | .enum d vs, cx, n, hn => by
    obtain ⟨hp, hv, k, hk, rfl⟩ := fixed_enum hn
    simp only [parse]
    refine takesN_bind ?_ fun tag => parseVariants_fixed vs tag 0 hk
    unfold pTag
    rw [hp]
    cases hd : d.tagTy <;> first | exact takesN_num e _ | exact absurd hd hv
  | .ipAddr, _, _, hn | .varint64, _, _, hn | .str _, _, _, hn | .seq _ _, _, _, hn | .set _, _, _, hn | .map _ _, _, _, hn
  | .option _, _, _, hn => by simp [fixedSize] at hn
theorem parseFields_fixed {T : Target} {e : Endian} : ∀ (fs : Fields) (prev : List Val) {n : Nat}, fixedFields fs = some n →
    TakesN n (parseFields T e fs prev)
  | .nil, prev, n, hn => by
    simp only [fixedFields, Option.some.injEq] at hn
    subst hn
    simp only [parseFields]
    exact takesN_pure _
  | .cons a t fs, prev, n, hn => by
    simp only [parseFields]
    rcases fixed_cons hn with ⟨hs, hn⟩ | ⟨hs, hvar, hd, i, j, h1, h2, rfl⟩
    · rw [if_pos hs]
      exact takesN_map (parseFields_fixed fs _ hn)
    · rw [if_neg (by simp [hs]), hd, hvar]
      simp only [Bool.false_eq_true, if_false]
      refine takesN_bind ?_ fun v => takesN_map (parseFields_fixed fs _ h2)
      split
      · rename_i he
        rw [List.isEmpty_iff.mp he]
        simpa using parse_fixed t _ h1
      · exact takesN_bind (takesN_const T _) fun _ => parse_fixed t _ h1
theorem parseVariants_fixed {T : Target} {e : Endian} : ∀ (vs : Variants) (tag i : Nat) {n : Nat}, fixedVariants vs = some n →
    TakesN n (parseVariants T e vs tag i)
  | .nil, tag, i, n, hn => by simp [fixedVariants] at hn
  | .cons tag' fs vs, tag, i, n, hn => by
    obtain ⟨h1, h2⟩ := fixed_variant hn
    simp only [parseVariants]
    refine takesN_ite (takesN_map (parseFields_fixed fs _ h1)) ?_
    rcases h2 with rfl | h2
    · simp only [parseVariants]; exact takesN_fail rfl
    · exact parseVariants_fixed vs tag (i + 1) h2
end

/-- **C96**, reading: whatever the bytes, a value of a type of a fixed size takes this number of them.

Partial: for the types of `C10`. -/
theorem C96_consumed_partial {T : Target} (hT : T.Ok) {e : Endian} {t : Ty} (ha : Agreeable T e t) {n k : Nat} (hn : fixedSize t = some n) {base : Nat}
    {buf : Bytes} (hm : InMem T base buf) {v : Val} (h : readWithLengthFromBuffer T e t base buf = (.ok v, k)) : k = n := by
  obtain ⟨rest, h1, rfl⟩ := (ha.buffer_iff hT hm v k).mp h
  have := (parse_fixed t _ hn).took _ _ _ h1
  omega

/-- C96, reading, for `read_with_length_from_buffer_copying_data`. -/
theorem C96_consumed_copying_partial {T : Target} (hT : T.Ok) {e : Endian} {t : Ty} (ha : Agreeable T e t) {n k : Nat} (hn : fixedSize t = some n)
    {base : Nat} {buf : Bytes} (hm : InMem T base buf) (hr : noRefs t = true) {v : Val}
    (h : readWithLengthFromBufferCopying T e t base buf = (.ok v, k)) : k = n := by
  obtain ⟨rest, h1, rfl⟩ := (ha.copying_iff hT hm hr v k).mp h
  have := (parse_fixed t _ hn).took _ _ _ h1
  omega

/-- C96, reading from a stream, buffered or not: it only succeeds if there are that many bytes.

Partial: for the types of `C10`. -/
theorem C96_stream_partial {T : Target} (hT : T.Ok) {e : Endian} {t : Ty} (ha : Agreeable T e t) {n : Nat} (hn : fixedSize t = some n) {grow : Nat → Nat}
    (hg : ∀ n, n ≤ grow n) (b : Bool) {src : Src} (hs : src.Clean) (hf : Fits T src.data) (hr : noRefs t = true) {v : Val}
    (h : (readFromStream T e t grow b src).1 = .ok v) : n ≤ src.data.length := by
  obtain ⟨rest, h1⟩ := (ha.stream_iff hT hg b hs hf hr v).mp h
  have := (parse_fixed t _ hn).took _ _ _ h1
  omega

theorem fixed_noLen {a : Attrs} {t : Ty} {n : Nat} (h : fixedSize t = some n) (hd : a.declOk t = true) : a.len = none := by
  cases h2 : a.len with
  | none => rfl
  | some l =>
    unfold Attrs.declOk at hd
    rw [h2] at hd
    cases l <;> cases t <;> simp_all [fixedSize, Ty.isContainer]

mutual
/-- The minimum which is tested before reading is not above the size. -/
theorem min_le_fixed {T : Target} : ∀ (t : Ty) {n : Nat}, fixedSize t = some n → declOk t = true → minBytes T t ≤ n
  | .prim p, n, hn, _ | .atomic p, n, hn, _ | .nonZero p, n, hn, _ | .bool, n, hn, _ | .char, n, hn, _ | .ipv4, n, hn, _ | .usize, n, hn, _
  | .endianness, n, hn, _ | .duration, n, hn, _ | .systemTime, n, hn, _ | .ipv6, n, hn, _ | .uuid, n, hn, _ | .unit, n, hn, _ => by
    simp only [fixedSize, Option.some.injEq] at hn
    subst hn
    simp only [minBytes]
    omega
  | .array m t, n, hn, hd => by
    simp only [fixedSize, Option.map_eq_some_iff] at hn
    obtain ⟨k, hk, rfl⟩ := hn
    simp only [declOk] at hd
    simp only [minBytes]
    rw [Nat.mul_comm]
    exact Nat.mul_le_mul_left _ (min_le_fixed t hk hd)
  | .refArray m t, n, hn, _ => by
    obtain ⟨p, rfl, rfl⟩ := fixed_refArray hn
    simp only [minBytes, sizeOf]
    rw [Nat.mul_comm]
    exact Nat.le_refl _
  | .range t, n, hn, hd | .rangeInc t, n, hn, hd => by
    simp only [fixedSize, Option.map_eq_some_iff] at hn
    obtain ⟨k, hk, rfl⟩ := hn
    simp only [declOk] at hd
    have := min_le_fixed (T := T) t hk hd
    simp only [minBytes]
    omega
  | .box t, n, hn, hd | .via _ t, n, hn, hd => by
    simp only [fixedSize] at hn
    simp only [declOk] at hd
    simp only [minBytes]
    exact min_le_fixed t hn hd
  | .pair a b, n, hn, hd => by
    obtain ⟨i, j, h1, h2, rfl⟩ := fixed_pair hn
    simp only [declOk, Bool.and_eq_true] at hd
    have := min_le_fixed (T := T) a h1 hd.1
    have := min_le_fixed (T := T) b h2 hd.2
    simp only [minBytes]
    omega
  | .result a b, n, hn, hd => by
    obtain ⟨i, h1, h2, rfl⟩ := fixed_result hn
    simp only [minBytes]
    omega
  | .struct d fs, n, hn, hd => by
    simp only [fixedSize] at hn
    simp only [declOk] at hd
    simp only [minBytes]
    exact fieldsMin_le_fixed fs hn hd
  | .enum d vs, n, hn, hd => by
    obtain ⟨hp, hv, k, hk, rfl⟩ := fixed_enum hn
    simp only [minBytes, hp]
    simp
  | .ipAddr, _, hn, _ | .varint64, _, hn, _ | .str _, _, hn, _ | .seq _ _, _, hn, _ | .set _, _, hn, _ | .map _ _, _, hn, _
  | .option _, _, hn, _ => by simp [fixedSize] at hn
theorem fieldsMin_le_fixed {T : Target} : ∀ (fs : Fields) {n : Nat}, fixedFields fs = some n → declOkFields fs = true → fieldsMin T fs ≤ n
  | .nil, n, hn, _ => by simp [fieldsMin]
  | .cons a t fs, n, hn, hd => by
    simp only [declOkFields, Bool.and_eq_true] at hd
    rcases fixed_cons hn with ⟨hs, hn⟩ | ⟨hs, hvar, hde, i, j, h1, h2, rfl⟩
    · have := fieldsMin_le_fixed (T := T) fs hn hd.1.2
      simp only [fieldsMin, hs, Bool.or_true, if_true]
      omega
    · have := fieldsMin_le_fixed (T := T) fs h2 hd.1.2
      have := min_le_fixed (T := T) t h1 hd.1.1.2
      have h3 := fixed_noLen h1 hd.1.1.1
      simp only [fieldsMin, hs, hde, hvar, h3]
      simp only [Bool.or_self, Bool.false_eq_true, if_false]
      omega
end

/-- **C96**, reading: with this number of bytes, an error never says that the input is too short.

Partial: for the types of `C10`. -/
theorem C96_enough_partial {T : Target} (hT : T.Ok) {e : Endian} {t : Ty} (ha : Agreeable T e t) {n : Nat} (hn : fixedSize t = some n) {base : Nat}
    {buf : Bytes} (hm : InMem T base buf) (hl : n ≤ buf.length) : wantsMore (readWithLengthFromBuffer T e t base buf).1 = false := by
  have h0 := min_le_fixed (T := T) t hn ha.decl
  have h1 := buffer_outcome hT ha.layout (e := e) hm
  have h2 := parse_fixed (T := T) (e := e) t Cx.std hn
  have h3 := ha.tot hT buf
  unfold readWithLengthFromBuffer
  rw [if_neg (by omega)]
  cases hp : parse T e t Cx.std buf with
  | ok v rest =>
    rw [hp] at h1
    simp only [h1.1, wantsMore]
  | fail er =>
    rw [hp] at h1
    obtain ⟨er', h4, h5, _⟩ := h1
    have h6 := h2.enough _ _ hl hp
    rw [show er.isEof = false by cases er <;> first | rfl | exact h6] at h5
    simp only [Bool.false_eq_true, if_false] at h5
    subst h5
    simp only [h4, wantsMore, h6]
  | amb er => exact absurd hp (h2.sure _ _)
  | unspec => exact absurd hp h3

/-- C96, reading: fewer bytes are never enough. -/
theorem C96_short_partial {T : Target} (hT : T.Ok) {e : Endian} {t : Ty} (ha : Agreeable T e t) {n : Nat} (hn : fixedSize t = some n) {base : Nat}
    {buf : Bytes} (hm : InMem T base buf) (hl : buf.length < n) (v : Val) : readFromBuffer T e t base buf ≠ .ok v := by
  intro h
  obtain ⟨rest, h1, _⟩ := (ha.buffer_iff hT hm v (readWithLengthFromBuffer T e t base buf).2).mp (Prod.ext h rfl)
  have := (parse_fixed t _ hn).took _ _ _ h1
  omega

/-- C96, reading: bytes after this number do not matter, neither for the value nor for the error. -/
theorem C96_after_partial {T : Target} (hT : T.Ok) {e : Endian} {t : Ty} (ha : Agreeable T e t) {n : Nat} (hn : fixedSize t = some n) {base : Nat}
    {x y : Bytes} (hm : InMem T base (x ++ y)) (hl : x.length = n) :
    readWithLengthFromBuffer T e t base (x ++ y) = readWithLengthFromBuffer T e t base x :=
  C85_final_partial ha.strict hm.top (C96_enough_partial hT ha hn hm.prefix (Nat.le_of_eq hl.symm))

/-! ## Cases -/

section
open Samples

/-- `enum Turn { Left(u16), Right(u16) }` with tags of one byte, and a constant before the number in `Right`, which is then smaller. -/
def turnTy : Ty := .enum ⟨.u8, false, 0⟩ (.cons 0 (.cons {} (.prim .u16) .nil) (.cons 1 (.cons { pre := [0x53] } (.prim .u8) .nil) .nil))

example : fixedSize point = some 4 := rfl
example : fixedSize turnTy = some 3 := rfl
example : fixedSize (.result point (.array 4 .bool)) = some 5 := rfl
example : fixedSize message = none := rfl
example : fixedSize (.option (.prim .u8)) = none := rfl

/-- `Vec<Point>` -/
def points : Ty := .seq .vec point
/-- A point. -/
def pt (x y : Nat) : Val := .pair (.num x) (.pair (.num y) .unit)
/-- Three points. -/
def somePoints : List Val := [pt 5 6, pt 7 8, pt 9 10]
/-- In little endian. -/
def somePointsLe : Bytes := [3, 0, 0, 0, 5, 0, 6, 0, 7, 0, 8, 0, 9, 0, 10, 0]

theorem somePoints_ty : hasTy x64 points (.list somePoints) := by
  simp [hasTy, hasTyFields, points, point, somePoints, pt, Prim.size]
  decide
theorem otherPoints_ty : hasTy x64 points (.list (somePoints.set 1 (pt 11 12))) := by
  simp [hasTy, hasTyFields, points, point, somePoints, pt, Prim.size]
  decide
theorem points_layout : layoutOk x64 points = true := by decide
theorem points_decl : declOk points = true := by decide
theorem points_regular (e : Endian) : regular x64 e points = true := by cases e <;> decide

theorem somePoints_vec (junk : Nat → UInt8) : writeToVec x64 .little points (.list somePoints) junk = .ok somePointsLe :=
  vec_ok x64_ok points_layout points_decl (regular_slice _ (points_regular .little)) somePoints_ty (by rfl) (by decide)

theorem pt_vec (junk : Nat → UInt8) : writeToVec x64 .little point (pt 11 12) junk = .ok [11, 0, 12, 0] :=
  vec_ok x64_ok (by decide) (by decide) (by decide) (by simp [hasTy, hasTyFields, point, pt, Prim.size]) (by rfl) (by decide)

example : [11, 0, 12, 0].length = 4 ∧ bytesNeeded x64 point (pt 11 12) = .ok 4 :=
  C96_written_partial x64_ok (by decide) (by decide) (by decide) (by simp [hasTy, hasTyFields, point, pt, Prim.size]) rfl (pt_vec fun _ => 0)

/-- The second point is at 4 + 1 * 4. -/
example : writeToVec x64 .little point (pt 7 8) (fun _ => 0) = .ok [7, 0, 8, 0] :=
  C96_element_partial (i := 1) (t := points) (vs := somePoints) x64_ok points_layout points_decl (by decide) somePoints_ty rfl rfl (by decide)
    (somePoints_vec _)

example : readWithLengthFromBuffer x64 .little point 4104 [7, 0, 8, 0, 9, 0, 10, 0, 99] = (.ok (pt 7 8), 4) :=
  C96_read_element_partial (i := 1) (t := points) (vs := somePoints) (base := 4096) (rest := [99]) x64_ok points_layout points_decl (by decide)
    somePoints_ty rfl rfl (by decide) (somePoints_vec fun _ => 0) (by decide) (by simp [canon, canonFields, point, pt, somePoints]) (by decide)
    ⟨by decide, by decide, by decide⟩

example : writeToVec x64 .little points (.list [pt 5 6, pt 11 12, pt 9 10]) (fun _ => 0) =
    .ok [3, 0, 0, 0, 5, 0, 6, 0, 11, 0, 12, 0, 9, 0, 10, 0] :=
  C96_overwrite_element_partial (i := 1) (t := points) (vs := somePoints) x64_ok points_layout points_decl (by decide) somePoints_ty rfl rfl (by decide)
    (somePoints_vec _) otherPoints_ty (pt_vec _)

/-- `struct Place { id: u32, #[speedy(constant_prefix = b"S")] at: Point, name: String }` -/
def placeTy : Ty := .struct ⟨.rust, 32, 8, [24, 28, 0], true⟩
  (.cons {} (.prim .u32) (.cons { pre := [0x53] } point (.cons {} (.str .owned) .nil)))
/-- A place. -/
def rec1 (p : Val) : Val := .pair (.num 1) (.pair p (.pair (.bytes [0x68, 0x69]) .unit))

theorem rec1_ty {x y : Nat} (hx : x < 2 ^ 16) (hy : y < 2 ^ 16) : hasTy x64 placeTy (rec1 (pt x y)) := by
  simp only [hasTy, hasTyFields, placeTy, rec1, point, pt, Prim.size, and_true]
  exact ⟨by decide, ⟨by omega, by omega⟩, by decide, by decide⟩

theorem rec1_vec (junk : Nat → UInt8) : writeToVec x64 .little placeTy (rec1 (pt 7 8)) junk =
    .ok [1, 0, 0, 0, 0x53, 7, 0, 8, 0, 2, 0, 0, 0, 0x68, 0x69] :=
  vec_ok x64_ok (by decide) (by decide) (by decide) (rec1_ty (by decide) (by decide)) (by rfl) (by decide)

/-- The point is after the number and the constant; the name, whose size is not fixed, after it. -/
theorem rec1_parts (x y : Nat) : parts placeTy (rec1 (pt x y)) = some ([(.prim .u32, .num 1), (.prim .u8, .num 0x53)] ++ (point, pt x y) ::
    [(.str .owned, .bytes [0x68, 0x69])]) := rfl

example : ∃ bs, writeToVec x64 .little point (pt 7 8) (fun _ => 0) = .ok bs ∧ [7, 0, 8, 0, 2, 0, 0, 0, 0x68, 0x69].take bs.length = bs :=
  C96_position_partial x64_ok (by decide) (by decide) (rec1_ty (by decide) (by decide)) (rec1_parts 7 8) (off := 5) rfl (by decide) (rec1_vec _)

example : ∃ bs, writeToVec x64 .little point (pt 7 8) (fun _ => 0) = .ok bs ∧
    readWithLengthFromBuffer x64 .little point 4101 [7, 0, 8, 0, 2, 0, 0, 0, 0x68, 0x69] = (.ok (pt 7 8), bs.length) :=
  C96_read_partial (base := 4096) (rest := []) x64_ok (by decide) (by decide) (rec1_ty (by decide) (by decide)) (rec1_parts 7 8) (off := 5) rfl
    (by decide) (by decide) (by simp [canon, canonFields, point, pt]) (by decide) (rec1_vec _) ⟨by decide, by decide, by decide⟩

example : writeToVec x64 .little placeTy (rec1 (pt 11 12)) (fun _ => 0) = .ok [1, 0, 0, 0, 0x53, 11, 0, 12, 0, 2, 0, 0, 0, 0x68, 0x69] :=
  C96_overwrite_partial x64_ok (by decide) (by decide) (rec1_ty (by decide) (by decide)) (rec1_parts 7 8) (off := 5) rfl (by decide) (rec1_vec _) rfl
    (rec1_ty (by decide) (by decide)) (rec1_parts 11 12) (pt_vec _)

/-- Any 4 bytes are a point. -/
example (a b c d : UInt8) (rest : Bytes) (v : Val) (k : Nat) (hm : InMem x64 4096 (a :: b :: c :: d :: rest))
    (h : readWithLengthFromBuffer x64 .little point 4096 (a :: b :: c :: d :: rest) = (.ok v, k)) : k = 4 :=
  C96_consumed_partial x64_ok ⟨by decide, by decide, by decide, by decide, by decide, by decide⟩
    rfl hm h

example (a b c d : UInt8) (rest : Bytes) (v : Val) (k : Nat) (hm : InMem x64 4096 (a :: b :: c :: d :: rest))
    (h : readWithLengthFromBufferCopying x64 .big turnTy 4096 (a :: b :: c :: d :: rest) = (.ok v, k)) : k = 3 :=
  C96_consumed_copying_partial x64_ok ⟨by decide, by decide, by decide, by decide, by decide, by decide⟩ rfl hm (by decide) h

/-- 3 bytes are enough for a turn: there may be an error, but not for want of input.  What comes after them does not matter. -/
example (a b c : UInt8) (rest : Bytes) (hm : InMem x64 4096 (a :: b :: c :: rest)) :
    wantsMore (readWithLengthFromBuffer x64 .big turnTy 4096 (a :: b :: c :: rest)).1 = false :=
  C96_enough_partial x64_ok ⟨by decide, by decide, by decide, by decide, by decide, by decide⟩ rfl hm (n := 3) (by simp)
example (a b c : UInt8) (rest : Bytes) (hm : InMem x64 4096 ([a, b, c] ++ rest)) :
    readWithLengthFromBuffer x64 .big turnTy 4096 ([a, b, c] ++ rest) = readWithLengthFromBuffer x64 .big turnTy 4096 [a, b, c] :=
  C96_after_partial x64_ok ⟨by decide, by decide, by decide, by decide, by decide, by decide⟩ rfl hm rfl
example : (readWithLengthFromBuffer x64 .big turnTy 4096 [1, 0x53, 9, 1, 2]).1 = .ok (.variant 1 (.pair (.num 9) .unit)) ∧
    readFromBuffer x64 .big turnTy 4096 [1, 0x54, 9] = .error (.expectedConstant [0x53]) ∧
    readFromBuffer x64 .big turnTy 4096 [2, 0x54, 9] = .error .invalidEnumVariant := ⟨by rfl, by rfl, by rfl⟩
example (a b : UInt8) (hm : InMem x64 4096 [a, b]) (v : Val) : readFromBuffer x64 .big turnTy 4096 [a, b] ≠ .ok v :=
  C96_short_partial x64_ok ⟨by decide, by decide, by decide, by decide, by decide, by decide⟩ rfl hm (n := 3) (by simp) v

example : readWithLengthFromBuffer x64 .big (.pair .duration .systemTime) 4096 (List.replicate 30 0) =
    (.ok (.pair (.pair (.num 0) (.num 0)) (.pair (.num 0) (.num 0))), 24) := by rfl

example (src : Src) (hs : src.Clean) (hf : Fits x64 src.data) (v : Val)
    (h : (readFromStream x64 .big (.pair .duration .systemTime) (· + 100) true src).1 = .ok v) : 24 ≤ src.data.length :=
  C96_stream_partial x64_ok ⟨by decide, by decide, by decide, by decide, by decide, by decide⟩ rfl (fun n => by omega) true hs hf (by decide) h

end

end Verif
