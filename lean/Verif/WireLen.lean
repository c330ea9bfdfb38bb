import Verif.WriterRun

/-!
# Encodings in different formats, and `bytes_needed`
-/

namespace Verif

/-! ## What depends on the format -/

/-- The type of the length prefix. -/
def LenR.lenTy : LenR → Option LenTy
  | .typed lt _ => some lt
  | _ => none

/-- The type of the length prefix of a field. -/
def Attrs.lenTy (a : Attrs) : Option LenTy :=
  if a.opaqueTy then some .u32
  else match a.len with
    | some (.typed lt) => some lt
    | some _ => none
    | none => some .u32

/-- Lengths of `Option` fields. -/
def optLenTy (l : Option LenTy) : Ty → Option LenTy
  | .option _ => some .u32
  | _ => l

/-- Only numbers of the allowed sizes. -/
def lenTyOk (num : Nat → Bool) : Option LenTy → Bool
  | some .varint => true
  | some lt => num lt.minSize
  | none => true

mutual
/-- Only numbers with sizes allowed by `num` occur in encodings, and IPv6
addresses only if `ip6`. -/
def fmtOk (num : Nat → Bool) (ip6 : Bool) : Ty → Option LenTy → Bool
  | .prim p, _ | .nonZero p, _ | .atomic p, _ => num p.size
  | .usize, _ => num 8
  | .char, _ | .ipv4, _ => num 4
  | .ipv6, _ => ip6
  | .ipAddr, _ => num 4 && ip6
  | .duration, _ | .systemTime, _ => num 8 && num 4
  | .str _, l => lenTyOk num l
  | .seq _ t, l | .set t, l => lenTyOk num l && fmtOk num ip6 t (some .u32)
  | .map k v, l => lenTyOk num l && fmtOk num ip6 k (some .u32) && fmtOk num ip6 v (some .u32)
  | .array _ t, _ | .refArray _ t, _ | .range t, _ | .rangeInc t, _ | .box t, _ | .via _ t, _ => fmtOk num ip6 t (some .u32)
  | .option t, l => fmtOk num ip6 t (optLenTy l t)
  | .result a b, _ | .pair a b, _ => fmtOk num ip6 a (some .u32) && fmtOk num ip6 b (some .u32)
  | .struct _ fs, _ => fmtOkFields num ip6 fs
  | .enum d vs, _ => lenTyOk num (some d.tagTy) && fmtOkVariants num ip6 vs
  | _, _ => true
/-- Fields. -/
def fmtOkFields (num : Nat → Bool) (ip6 : Bool) : Fields → Bool
  | .nil => true
  | .cons a t fs => (a.skip || a.varint || fmtOk num ip6 t a.lenTy) && fmtOkFields num ip6 fs
/-- Variants. -/
def fmtOkVariants (num : Nat → Bool) (ip6 : Bool) : Variants → Bool
  | .nil => true
  | .cons _ fs vs => fmtOkFields num ip6 fs && fmtOkVariants num ip6 vs
end

theorem wlen_lenTy (a : Attrs) (prev : List Val) : (a.wlen prev).lenTy = a.lenTy := by
  unfold Attrs.wlen Attrs.lenTy
  split
  · rfl
  · cases a.len with
    | none => rfl
    | some k => cases k <;> rfl

theorem opt_lenTy (l : LenR) (t : Ty) : (l.opt t).lenTy = optLenTy l.lenTy t := by cases t <;> rfl

/-- Relations between encodings in two formats. -/
structure FmtRel (F F' : Fmt) (num : Nat → Bool) (ip6 : Bool)
    (R : Except Err Bytes → Except Err Bytes → Prop) : Prop where
  refl : ∀ w, R w w
  cat : ∀ {a b c d}, R a b → R c d → R (cat a c) (cat b d)
  num : ∀ n v, num n = true → R (.ok (F.e.bytes n v)) (.ok (F'.e.bytes n v))
  ip6 : ip6 = true → ∀ bs, R (.ok (if F.rev6 then bs.reverse else bs)) (.ok (if F'.rev6 then bs.reverse else bs))

section
variable {F F' : Fmt} {num : Nat → Bool} {ip6 : Bool} {R : Except Err Bytes → Except Err Bytes → Prop}
variable (H : FmtRel F F' num ip6 R)
include H

theorem FmtRel.wireNum (lt : LenTy) (n : Nat) (hl : lenTyOk num (some lt) = true) :
    R (.ok (wireNum F.e lt n)) (.ok (Verif.wireNum F'.e lt n)) := by
  cases lt
  case varint => exact H.refl _
  all_goals exact H.num _ _ hl

theorem FmtRel.wireLen (n : Nat) (l : LenR) (hl : lenTyOk num l.lenTy = true) :
    R (wireLen F.e n l) (Verif.wireLen F'.e n l) := by
  cases l with
  | typed lt d =>
    simp only [Verif.wireLen]
    split
    · exact H.refl _
    · exact H.wireNum lt n hl
  | fixed m => exact H.refl _
  | untilEof => exact H.refl _

theorem FmtRel.catAll {f g : Val → Except Err Bytes} (vs : List Val) (h : ∀ v, R (f v) (g v)) :
    R (catAll f vs) (Verif.catAll g vs) := by
  induction vs with
  | nil => exact H.refl _
  | cons v vs ih => exact H.cat (h v) ih

mutual
theorem wire_rel : ∀ (t : Ty) (l : LenR) (v : Val), fmtOk num ip6 t l.lenTy = true →
    R (wire F t l v) (wire F' t l v)
  | .prim p, l, v, h | .nonZero p, l, v, h | .atomic p, l, v, h => by
    cases v <;> first | exact H.refl _ | exact H.num _ _ h
  | .usize, l, v, h | .char, l, v, h | .ipv4, l, v, h => by
    cases v <;> first | exact H.refl _ | exact H.num _ _ h
  | .bool, l, v, _ | .varint64, l, v, _ | .uuid, l, v, _ | .unit, l, v, _ => by
    cases v <;> exact H.refl _
  | .endianness, l, v, _ => by
    unfold wire; split <;> first | contradiction | exact H.refl _ | (simp_all; done)
  | .ipv6, l, v, h => by
    cases v <;> first | exact H.refl _ | exact H.ip6 h _
  | .ipAddr, l, v, h => by
    simp only [fmtOk, Bool.and_eq_true] at h
    cases v
    case variant i v =>
      match i, v with
      | 0, .num n => exact H.cat (H.refl (.ok [0])) (H.num 4 n h.1)
      | 1, .bytes bs => exact H.cat (H.refl (.ok [1])) (H.ip6 h.2 bs)
      | i + 2, _ => simp only [wire]; exact H.refl _
      | 0, .unit | 0, .bool _ | 0, .bytes _ | 0, .list _ | 0, .pair _ _ | 0, .none | 0, .some _ | 0, .variant _ _
      | 1, .unit | 1, .bool _ | 1, .num _ | 1, .list _ | 1, .pair _ _ | 1, .none | 1, .some _ | 1, .variant _ _ =>
        simp only [wire]; exact H.refl _
    all_goals simp only [wire]; exact H.refl _
  | .duration, l, v, h => by
    simp only [fmtOk, Bool.and_eq_true] at h
    unfold wire; split <;> first | contradiction | exact H.refl _ | skip
    exact H.cat (H.num 8 _ h.1) (H.num 4 _ h.2)
  | .systemTime, l, v, h => by
    simp only [fmtOk, Bool.and_eq_true] at h
    unfold wire; split <;> first | contradiction | exact H.refl _ | skip
    split
    · exact H.cat (H.num 8 _ h.1) (H.num 4 _ h.2)
    · exact H.refl _
  | .str _, l, v, h => by
    cases v <;> first | exact H.refl _ | exact H.cat (H.wireLen _ l h) (H.refl _)
  | .seq _ t, l, v, h => by
    simp only [fmtOk, Bool.and_eq_true] at h
    cases v
    case list vs => exact H.cat (H.wireLen _ l h.1) (H.catAll vs fun v => wire_rel t LenR.std v h.2)
    all_goals exact H.refl _
  | .set t, l, v, h => by
    simp only [fmtOk, Bool.and_eq_true] at h
    cases v
    case list vs => exact H.cat (H.wireLen _ l h.1) (H.catAll vs fun v => wire_rel t LenR.std v h.2)
    all_goals exact H.refl _
  | .map k t, l, v, h => by
    simp only [fmtOk, Bool.and_eq_true] at h
    cases v
    case list vs =>
      refine H.cat (H.wireLen _ l h.1.1) (H.catAll vs fun kv => ?_)
      split
      · exact H.cat (wire_rel k LenR.std _ h.1.2) (wire_rel t LenR.std _ h.2)
      · exact H.refl _
    all_goals exact H.refl _
  | .array n t, l, v, h => by
    simp only [fmtOk] at h
    cases v
    case list vs =>
      simp only [wire]
      split
      · exact H.refl _
      · exact H.catAll vs fun v => wire_rel t LenR.std v h
    all_goals exact H.refl _
  | .refArray n t, l, v, h => by
    simp only [fmtOk] at h
    cases v
    case list vs =>
      simp only [wire]
      split
      · exact H.refl _
      · exact H.catAll vs fun v => wire_rel t LenR.std v h
    all_goals exact H.refl _
  | .option t, l, v, h => by
    simp only [fmtOk] at h
    cases v
    case some v => exact H.cat (H.refl _) (wire_rel t (l.opt t) v (by rw [opt_lenTy]; exact h))
    all_goals exact H.refl _
  | .result t er, l, v, h => by
    simp only [fmtOk, Bool.and_eq_true] at h
    cases v
    case variant i v =>
      match i with
      | 0 => exact H.cat (H.refl _) (wire_rel er LenR.std v h.2)
      | 1 => exact H.cat (H.refl _) (wire_rel t LenR.std v h.1)
      | i + 2 => simp only [wire]; exact H.refl _
    all_goals simp only [wire]; exact H.refl _
  | .range t, l, v, h => by
    simp only [fmtOk] at h
    cases v
    case pair a b =>
      cases b
      case pair b c =>
        cases c
        case unit => exact H.cat (wire_rel t LenR.std a h) (wire_rel t LenR.std b h)
        all_goals simp only [wire]; exact H.refl _
      all_goals simp only [wire]; exact H.refl _
    all_goals simp only [wire]; exact H.refl _
  | .rangeInc t, l, v, h => by
    simp only [fmtOk] at h
    cases v
    case pair a b =>
      cases b
      case pair b c =>
        cases c
        case bool => exact H.cat (wire_rel t LenR.std a h) (wire_rel t LenR.std b h)
        all_goals simp only [wire]; exact H.refl _
      all_goals simp only [wire]; exact H.refl _
    all_goals simp only [wire]; exact H.refl _
  | .pair a b, l, v, h => by
    simp only [fmtOk, Bool.and_eq_true] at h
    cases v
    case pair x y => exact H.cat (wire_rel a LenR.std x h.1) (wire_rel b LenR.std y h.2)
    all_goals simp only [wire]; exact H.refl _
  | .box t, l, v, h | .via _ t, l, v, h => by
    simp only [fmtOk] at h
    simp only [wire]
    exact wire_rel t LenR.std v h
  | .struct d fs, l, v, h => by
    simp only [fmtOk] at h
    simp only [wire]
    exact wireFields_rel fs [] v h
  | .enum d vs, l, v, h => by
    simp only [fmtOk, Bool.and_eq_true] at h
    cases v
    case variant i v => exact wireVariants_rel d vs i v h.1 h.2
    all_goals simp only [wire]; exact H.refl _
theorem wireFields_rel : ∀ (fs : Fields) (prev : List Val) (v : Val), fmtOkFields num ip6 fs = true →
    R (wireFields F fs prev v) (wireFields F' fs prev v)
  | .nil, prev, v, _ => by cases v <;> exact H.refl _
  | .cons a t fs, prev, v, h => by
    simp only [fmtOkFields, Bool.and_eq_true, Bool.or_eq_true] at h
    cases v
    case pair v rest =>
      simp only [wireFields]
      split
      · exact wireFields_rel fs prev rest h.2
      · rename_i hs
        refine H.cat (H.cat (H.refl _) ?_) (wireFields_rel fs _ rest h.2)
        split
        · exact H.refl _
        · rename_i hv
          exact wire_rel t _ v (by
            rw [wlen_lenTy]
            rcases h.1 with (h1 | h1) | h1
            · exact absurd h1 hs
            · exact absurd h1 hv
            · exact h1)
    all_goals simp only [wireFields]; exact H.refl _
theorem wireVariants_rel (d : EnumDesc) : ∀ (vs : Variants) (i : Nat) (v : Val),
    lenTyOk num (some d.tagTy) = true → fmtOkVariants num ip6 vs = true →
    R (wireVariants F d vs i v) (wireVariants F' d vs i v)
  | .nil, _, _, _, _ => H.refl _
  | .cons tag fs vs, 0, v, h1, h => by
    simp only [fmtOkVariants, Bool.and_eq_true] at h
    simp only [wireVariants]
    refine H.cat ?_ (wireFields_rel fs [] v h.1)
    split
    · exact H.refl _
    · exact H.wireNum _ _ h1
  | .cons _ _ vs, i + 1, v, h1, h => by
    simp only [fmtOkVariants, Bool.and_eq_true] at h
    simp only [wireVariants]
    exact wireVariants_rel d vs i v h1 h.2
end

end

/-- Same length, or the same error. -/
def SameLen : Except Err Bytes → Except Err Bytes → Prop
  | .ok a, .ok b => a.length = b.length
  | .error a, .error b => a = b
  | _, _ => False

mutual
theorem fmtOk_all : ∀ (t : Ty) (l : Option LenTy), fmtOk (fun _ => true) true t l = true
  | .prim _, _ | .usize, _ | .bool, _ | .char, _ | .nonZero _, _ | .atomic _, _ | .ipv4, _ | .ipv6, _ | .ipAddr, _
  | .duration, _ | .systemTime, _ | .endianness, _ | .varint64, _ | .uuid, _ | .unit, _ => by simp [fmtOk]
  | .str _, l => by simp only [fmtOk]; cases l with | none => rfl | some lt => cases lt <;> rfl
  | .seq _ t, l | .set t, l => by
    simp only [fmtOk, fmtOk_all t, Bool.and_true]; cases l with | none => rfl | some lt => cases lt <;> rfl
  | .map k t, l => by
    simp only [fmtOk, fmtOk_all t, fmtOk_all k, Bool.and_true]
    cases l with | none => rfl | some lt => cases lt <;> rfl
  | .array _ t, _ | .refArray _ t, _ | .option t, _ | .range t, _ | .rangeInc t, _ | .box t, _ | .via _ t, _ => by
    simp only [fmtOk, fmtOk_all t]
  | .result a b, _ | .pair a b, _ => by simp only [fmtOk, fmtOk_all a, fmtOk_all b, Bool.and_true]
  | .struct _ fs, _ => by simp only [fmtOk, fmtOkFields_all fs]
  | .enum d vs, _ => by
    simp only [fmtOk, fmtOkVariants_all vs, Bool.and_true]
    cases d.tagTy <;> rfl
theorem fmtOkFields_all : ∀ fs : Fields, fmtOkFields (fun _ => true) true fs = true
  | .nil => by simp [fmtOkFields]
  | .cons a t fs => by simp [fmtOkFields, fmtOk_all t, fmtOkFields_all fs]
theorem fmtOkVariants_all : ∀ vs : Variants, fmtOkVariants (fun _ => true) true vs = true
  | .nil => by simp [fmtOkVariants]
  | .cons _ fs vs => by simp [fmtOkVariants, fmtOkFields_all fs, fmtOkVariants_all vs]
end

/-- The length of an encoding does not depend on the format. -/
theorem wire_sameLen (F F' : Fmt) (t : Ty) (l : LenR) (v : Val) : SameLen (wire F t l v) (wire F' t l v) := by
  refine wire_rel (num := fun _ => true) (ip6 := true) ⟨?_, ?_, ?_, ?_⟩ t l v (fmtOk_all t _)
  · intro w; cases w <;> simp [SameLen]
  · intro a b c d h1 h2
    cases a <;> cases b <;> cases c <;> cases d <;> simp_all [SameLen, cat]
  · intro n v _; simp [SameLen]
  · intro _ bs; simp only [SameLen]; split <;> split <;> simp

/-! ## `bytes_needed` -/

theorem addNeeded_ok (h : Host) (a b : Nat) : addNeeded h (.ok (h.wrap a)) (.ok (h.wrap b)) = .ok (h.wrap (a + b)) := by
  simp only [addNeeded, Host.wrap_add_left, Host.wrap_add_right]

theorem addNeeded_ok_right (h : Host) (a b : Nat) : addNeeded h (.ok a) (.ok (h.wrap b)) = .ok (h.wrap (a + b)) := by
  simp only [addNeeded, Host.wrap_add_right]

theorem sumNeeded_cat {h : Host} {f : Val → Except Err Bytes} {g : Val → Except Err Nat} :
    ∀ {n : Nat} {vs : List Val} {bs : Bytes},
    catAll f vs = .ok bs → (∀ v ∈ vs, ∀ b, f v = .ok b → g v = .ok (h.wrap b.length)) →
    sumNeeded h g (h.wrap n) vs = .ok (h.wrap (n + bs.length))
  | n, [], bs, h, _ => by simp only [catAll, Except.ok.injEq] at h; subst h; rfl
  | n, v :: vs, bs, h, hg => by
    obtain ⟨x, y, h1, h2, rfl⟩ := cat_eq_ok h
    simp only [sumNeeded]
    rw [hg v List.mem_cons_self x h1]
    simp only [Host.wrap_add_left, Host.wrap_add_right]
    rw [sumNeeded_cat h2 fun w hw => hg w (List.mem_cons_of_mem _ hw)]
    simp [Nat.add_assoc]

theorem isLength_ok {n : Nat} {r : Except Err Nat} (hn : n < 2 ^ 32) : isLength n r = r := by
  unfold isLength
  rw [if_neg (by omega)]

theorem catAll_length {f : Val → Except Err Bytes} {m : Nat} : ∀ {vs : List Val} {bs : Bytes},
    catAll f vs = .ok bs → (∀ v ∈ vs, ∀ b, f v = .ok b → b.length = m) → bs.length = vs.length * m
  | [], bs, h, _ => by simp only [catAll, Except.ok.injEq] at h; subst h; simp
  | v :: vs, bs, h, hg => by
    obtain ⟨x, y, h1, h2, rfl⟩ := cat_eq_ok h
    have := catAll_length h2 fun w hw => hg w (List.mem_cons_of_mem _ hw)
    have := hg v List.mem_cons_self x h1
    simp only [List.length_append, List.length_cons, Nat.succ_mul]
    omega

/-- The encoding of a bulk-copied value has the size of its memory. -/
theorem wire_prim_length {T : Target} {F : Fmt} {t : Ty} {l : LenR} {v : Val} {bs : Bytes}
    (hp : isPrimitive T t = true) (hl : layoutOk T t = true) (hb : bulkPlain t = true) (hv : hasTy T t v)
    (hw : wire F t l v = .ok bs) : bs.length = sizeOf T t := by
  obtain ⟨h1, h2⟩ := toMem_wire (r := F.rev6) t l v hp hl hb hv
  have := wire_sameLen F ⟨T.native, F.rev6⟩ t l v
  rw [hw, h1] at this
  simp only [SameLen] at this
  omega

theorem sizeNeeded_eq {T : Target} (hT : T.Ok) {F : Fmt} {t : Ty} {v : Val} {bs : Bytes} (hl : layoutOk T t = true)
    (hd : declOk t = true) (hs : sliceOk T t = true) (hv : hasTy T t v) (hw : wire F t LenR.std v = .ok bs) :
    sizeNeeded T t v = .ok (T.wrap bs.length) := by
  have h1 := encode_wire (e := T.native) hT t Cx.std v hl hd hs hv
  have h2 := wire_sameLen F (Fmt.code T.toHost T.native) t LenR.std v
  rw [hw] at h2
  unfold sizeNeeded
  have h0 : T.wrap 0 = 0 := by simp [Host.wrap]
  rw [← h0, run_size (h := T.toHost) (e := T.native)]
  cases hw' : wire (Fmt.code T.toHost T.native) t LenR.std v with
  | error er => rw [hw'] at h2; simp [SameLen] at h2
  | ok bs' =>
    rw [hw'] at h2
    simp only [SameLen] at h2
    have h3 : Cx.std.len = LenR.std := rfl
    rw [h3, hw'] at h1
    have h1 : (encode T T.native t Cx.std v).out T.toHost T.native = (bs', .ok ()) := h1
    rw [h1]
    simp [h2]

theorem wireLen_std {e : Endian} {n : Nat} {bs : Bytes} (h : wireLen e n LenR.std = .ok bs) : bs.length = 4 := by
  simp only [wireLen, LenR.std] at h
  split at h
  · simp at h
  · simp only [Except.ok.injEq] at h; subst h; simp [wireNum, LenTy.minSize]

theorem wireLen_small {e : Endian} {n : Nat} {bs : Bytes} (h : wireLen e n LenR.std = .ok bs) : n < 2 ^ 32 := by
  simp only [wireLen, LenR.std] at h
  split at h
  · simp at h
  · simp only [LenTy.max] at *; omega

/-- `bytes_needed` is the length of the encoding. -/
theorem bytesNeeded_eq {T : Target} (hT : T.Ok) {F : Fmt} : ∀ (t : Ty) (l : LenR) (v : Val) (bs : Bytes),
    (t.isContainer = true ∨ (∃ u, t = .option u) → l = LenR.std) →
    layoutOk T t = true → declOk t = true → sliceOk T t = true → hasTy T t v → wire F t l v = .ok bs →
    bytesNeeded T t v = .ok (T.wrap bs.length)
  | .prim p, _, v, bs, _, _, _, _, hv, hw | .nonZero p, _, v, bs, _, _, _, _, hv, hw
  | .atomic p, _, v, bs, _, _, _, _, hv, hw => by
    cases v <;> simp only [hasTy] at hv
    simp only [wire, Except.ok.injEq] at hw
    subst hw
    cases p <;> simp [bytesNeeded, Prim.size, Host.wrap_small hT.toOk]
  | .usize, _, v, bs, _, _, _, _, hv, hw | .bool, _, v, bs, _, _, _, _, hv, hw
  | .char, _, v, bs, _, _, _, _, hv, hw | .ipv4, _, v, bs, _, _, _, _, hv, hw
  | .unit, _, v, bs, _, _, _, _, hv, hw => by
    cases v <;> simp only [hasTy] at hv
    simp only [wire, Except.ok.injEq] at hw
    subst hw
    simp [bytesNeeded, Host.wrap_small hT.toOk]
  | .ipv6, _, v, bs, _, _, _, _, hv, hw => by
    cases v <;> simp only [hasTy] at hv
    simp only [wire, Except.ok.injEq] at hw
    subst hw
    simp only [bytesNeeded]
    split <;> simp [hv, Host.wrap_small hT.toOk]
  | .uuid, _, v, bs, _, _, _, _, hv, hw => by
    cases v <;> simp only [hasTy] at hv
    simp only [wire, Except.ok.injEq] at hw
    subst hw
    simp [bytesNeeded, hv, Host.wrap_small hT.toOk]
  | .ipAddr, _, .variant 0 (.num x), bs, _, _, _, _, hv, hw => by
    simp only [wire, Except.ok.injEq] at hw
    subst hw
    simp [bytesNeeded, Host.wrap_small hT.toOk]
  | .ipAddr, _, .variant 1 (.bytes x), bs, _, _, _, _, hv, hw => by
    simp only [wire, Except.ok.injEq] at hw
    simp only [hasTy] at hv
    subst hw
    simp only [bytesNeeded]
    split <;> simp [hv, Host.wrap_small hT.toOk]
  | .duration, _, .pair (.num s) (.num n), bs, _, _, _, _, hv, hw => by
    simp only [wire, Except.ok.injEq] at hw
    subst hw
    simp [bytesNeeded, Host.wrap_small hT.toOk]
  | .systemTime, _, .pair (.num s) (.num n), bs, _, _, _, _, hv, hw => by
    simp only [wire] at hw
    split at hw
    · simp only [Except.ok.injEq] at hw
      subst hw
      simp [bytesNeeded, Host.wrap_small hT.toOk]
    · simp at hw
  | .endianness, _, .variant 0 .unit, bs, _, _, _, _, hv, hw
  | .endianness, _, .variant 1 .unit, bs, _, _, _, _, hv, hw => by
    simp only [wire, Except.ok.injEq] at hw
    subst hw
    simp [bytesNeeded, Host.wrap_small hT.toOk]
  | .varint64, _, v, bs, _, _, _, _, hv, hw => by
    cases v <;> simp only [hasTy] at hv
    simp only [wire, Except.ok.injEq] at hw
    subst hw
    simp only [bytesNeeded]
    rw [specVarint_length hv, viExtra_eq hv, Host.wrap_small hT.toOk (by have := specExtra_le ‹Nat›; omega)]
  | .str k, l, v, bs, hstd, _, _, _, hv, hw => by
    rw [hstd (.inl rfl)] at hw
    cases v <;> simp only [hasTy] at hv
    obtain ⟨x, y, h1, h2, rfl⟩ := cat_eq_ok hw
    simp only [Except.ok.injEq] at h2
    subst h2
    simp only [bytesNeeded]
    rw [isLength_ok (wireLen_small h1), Host.wrap_add_right, List.length_append, wireLen_std h1, Nat.mul_one]
  | .seq k t, l, v, bs, hstd, hl, hd, hs, hv, hw => by
    rw [hstd (.inl rfl)] at hw
    cases v <;> simp only [hasTy] at hv
    rename_i vs
    simp only [layoutOk] at hl
    simp only [declOk] at hd
    simp only [sliceOk, Bool.and_eq_true, Bool.or_eq_true, Bool.not_eq_true'] at hs
    obtain ⟨x, y, h1, h2, rfl⟩ := cat_eq_ok hw
    simp only [bytesNeeded]
    rw [isLength_ok (wireLen_small h1)]
    split
    · rename_i hp
      have hb : bulkPlain t = true := by
        rcases hs.1 with h | h
        · rw [hp] at h; simp at h
        · exact h
      rw [Host.wrap_add_right, List.length_append, wireLen_std h1,
        catAll_length h2 fun w hw' b hb' => wire_prim_length hp hl hb (hv.1 w hw') hb']
    · rw [← Host.wrap_small hT.toOk (n := 4) (by omega), sumNeeded_cat h2 fun w hw' b hb' =>
        bytesNeeded_eq hT t LenR.std w b (fun _ => rfl) hl hd hs.2 (hv.1 w hw') hb']
      rw [List.length_append, wireLen_std h1]
  | .set t, l, v, bs, hstd, hl, hd, hs, hv, hw => by
    rw [hstd (.inl rfl)] at hw
    cases v <;> simp only [hasTy] at hv
    rename_i vs
    simp only [layoutOk] at hl
    simp only [declOk] at hd
    simp only [sliceOk, Bool.and_eq_true] at hs
    obtain ⟨x, y, h1, h2, rfl⟩ := cat_eq_ok hw
    simp only [bytesNeeded]
    rw [isLength_ok (wireLen_small h1), ← Host.wrap_small hT.toOk (n := 4) (by omega), sumNeeded_cat h2 fun w hw' b hb' =>
        bytesNeeded_eq hT t LenR.std w b (fun _ => rfl) hl hd hs.2 (hv.1 w hw') hb']
    rw [List.length_append, wireLen_std h1]
  | .map k t, l, v, bs, hstd, hl, hd, hs, hv, hw => by
    rw [hstd (.inl rfl)] at hw
    cases v <;> simp only [hasTy] at hv
    rename_i vs
    simp only [layoutOk, Bool.and_eq_true] at hl
    simp only [declOk, Bool.and_eq_true] at hd
    simp only [sliceOk, Bool.and_eq_true] at hs
    obtain ⟨x, y, h1, h2, rfl⟩ := cat_eq_ok hw
    simp only [bytesNeeded]
    rw [isLength_ok (wireLen_small h1), ← Host.wrap_small hT.toOk (n := 4) (by omega), sumNeeded_cat h2 fun w hw' b hb' => ?_,
      List.length_append, wireLen_std h1]
    obtain ⟨a, c, rfl, ha, hc⟩ := hv.1 w hw'
    obtain ⟨b1, b2, g1, g2, rfl⟩ := cat_eq_ok hb'
    simp only
    rw [bytesNeeded_eq hT k LenR.std a b1 (fun _ => rfl) hl.1 hd.1 hs.1.2 ha g1,
      bytesNeeded_eq hT t LenR.std c b2 (fun _ => rfl) hl.2 hd.2 hs.2 hc g2, addNeeded_ok, List.length_append]
  | .array n t, l, v, bs, _, hl, hd, hs, hv, hw | .refArray n t, l, v, bs, _, hl, hd, hs, hv, hw => by
    cases v <;> simp only [hasTy] at hv
    rename_i vs
    simp only [layoutOk] at hl
    simp only [declOk] at hd
    simp only [sliceOk, Bool.and_eq_true] at hs
    simp only [wire] at hw
    rw [if_neg (fun hh => hh hv.1)] at hw
    simp only [bytesNeeded]
    have h := sumNeeded_cat (h := T.toHost) (n := 0) hw fun w hw' b hb' =>
        bytesNeeded_eq hT t LenR.std w b (fun _ => rfl) hl hd hs.2 (hv.2 w hw') hb'
    rwa [Host.wrap_small hT.toOk (by omega), Nat.zero_add] at h
  | .option t, l, v, bs, hstd, hl, hd, hs, hv, hw => by
    rw [hstd (.inr ⟨t, rfl⟩)] at hw
    simp only [layoutOk] at hl
    simp only [declOk] at hd
    simp only [sliceOk] at hs
    cases v with
    | none =>
      simp only [wire, Except.ok.injEq] at hw
      subst hw; simp [bytesNeeded, Host.wrap_small hT.toOk]
    | some v =>
      simp only [hasTy] at hv
      obtain ⟨x, y, h1, h2, rfl⟩ := cat_eq_ok hw
      simp only [Except.ok.injEq] at h1
      subst h1
      simp only [bytesNeeded]
      rw [bytesNeeded_eq hT t _ v y (fun _ => by cases t <;> rfl) hl hd hs hv h2, addNeeded_ok_right, List.length_append]
      simp [bytesNeeded, Host.wrap_small hT.toOk]
    | _ => simp [hasTy] at hv
  | .result t er, l, .variant 1 v, bs, _, hl, hd, hs, hv, hw => by
    simp only [layoutOk, Bool.and_eq_true] at hl
    simp only [declOk, Bool.and_eq_true] at hd
    simp only [sliceOk, Bool.and_eq_true] at hs
    simp only [hasTy] at hv
    obtain ⟨x, y, h1, h2, rfl⟩ := cat_eq_ok hw
    simp only [Except.ok.injEq] at h1
    subst h1
    simp only [bytesNeeded]
    rw [bytesNeeded_eq hT t LenR.std v y (fun _ => rfl) hl.1 hd.1 hs.1 hv h2, addNeeded_ok_right, List.length_append]
    rfl
  | .result t er, l, .variant 0 v, bs, _, hl, hd, hs, hv, hw => by
    simp only [layoutOk, Bool.and_eq_true] at hl
    simp only [declOk, Bool.and_eq_true] at hd
    simp only [sliceOk, Bool.and_eq_true] at hs
    simp only [hasTy] at hv
    obtain ⟨x, y, h1, h2, rfl⟩ := cat_eq_ok hw
    simp only [Except.ok.injEq] at h1
    subst h1
    simp only [bytesNeeded]
    rw [bytesNeeded_eq hT er LenR.std v y (fun _ => rfl) hl.2 hd.2 hs.2 hv h2, addNeeded_ok_right, List.length_append]
    rfl
  | .range t, l, .pair a (.pair b .unit), bs, _, hl, hd, hs, hv, hw
  | .rangeInc t, l, .pair a (.pair b (.bool _)), bs, _, hl, hd, hs, hv, hw => by
    simp only [layoutOk] at hl
    simp only [declOk] at hd
    simp only [sliceOk] at hs
    simp only [hasTy] at hv
    obtain ⟨x, y, h1, h2, rfl⟩ := cat_eq_ok hw
    simp only [bytesNeeded]
    rw [bytesNeeded_eq hT t LenR.std a x (fun _ => rfl) hl hd hs hv.1 h1,
      bytesNeeded_eq hT t LenR.std b y (fun _ => rfl) hl hd hs hv.2 h2, addNeeded_ok, List.length_append]
  | .pair a b, l, v, bs, _, hl, hd, hs, hv, hw => by
    simp only [layoutOk, Bool.and_eq_true] at hl
    simp only [declOk, Bool.and_eq_true] at hd
    simp only [sliceOk, Bool.and_eq_true] at hs
    cases v <;> simp only [hasTy] at hv
    obtain ⟨x, y, h1, h2, rfl⟩ := cat_eq_ok hw
    simp only [bytesNeeded]
    rw [bytesNeeded_eq hT a LenR.std _ x (fun _ => rfl) hl.1 hd.1 hs.1 hv.1 h1,
      bytesNeeded_eq hT b LenR.std _ y (fun _ => rfl) hl.2 hd.2 hs.2 hv.2 h2, addNeeded_ok, List.length_append]
  | .box t, l, v, bs, _, hl, hd, hs, hv, hw => by
    simp only [layoutOk] at hl
    simp only [declOk] at hd
    simp only [sliceOk] at hs
    simp only [hasTy] at hv
    simp only [wire] at hw
    simp only [bytesNeeded]
    exact bytesNeeded_eq hT t LenR.std v bs (fun _ => rfl) hl hd hs hv hw
  | .via c t, l, v, bs, _, hl, hd, hs, hv, hw => by
    simp only [layoutOk] at hl
    simp only [declOk] at hd
    simp only [sliceOk] at hs
    simp only [hasTy] at hv
    simp only [wire] at hw
    simp only [bytesNeeded]
    exact bytesNeeded_eq hT t LenR.std v bs (fun _ => rfl) hl hd hs hv.1 hw
  | .struct d fs, l, v, bs, _, hl, hd, hs, hv, hw => by
    simp only [bytesNeeded]
    exact sizeNeeded_eq hT hl hd hs hv (by simpa only [wire] using hw)
  | .enum d vs, l, v, bs, _, hl, hd, hs, hv, hw => by
    simp only [bytesNeeded]
    refine sizeNeeded_eq (F := F) hT hl hd hs hv ?_
    cases v <;> simp only [hasTy] at hv
    simpa only [wire] using hw

end Verif
