import Verif.PropsAttrs

/-!
# Skipped fields (C25)
-/

namespace Verif

open Samples

/-- Lists of the same length whose elements are related one by one. -/
def Pairwise2 (r : Val → Val → Prop) : List Val → List Val → Prop
  | [], [] => True
  | v :: vs, w :: ws => r v w ∧ Pairwise2 r vs ws
  | _, _ => False

mutual
/-- The values differ at most in skipped fields, anywhere inside, and in the flag of
`RangeInclusive` which says that it has been iterated to its end.  Elements of slices which are
copied in bulk are equal, and so are the values of length expressions. -/
def alike (T : Target) : Ty → Val → Val → Prop
  | .seq _ t, .list vs, .list ws | .array _ t, .list vs, .list ws =>
      Pairwise2 (fun v w => if isPrimitive T t then v = w else alike T t v w) vs ws
  | .set t, .list vs, .list ws | .refArray _ t, .list vs, .list ws => Pairwise2 (alike T t) vs ws
  | .map k u, .list vs, .list ws => Pairwise2 (fun v w => ∃ a b a' b', v = .pair a (.pair b .unit) ∧
      w = .pair a' (.pair b' .unit) ∧ alike T k a a' ∧ alike T u b b') vs ws
  | .option t, .some v, .some w => alike T t v w
  | .result t _, .variant 1 v, .variant 1 w => alike T t v w
  | .result _ er, .variant 0 v, .variant 0 w => alike T er v w
  | .range t, .pair a (.pair b .unit), .pair a' (.pair b' .unit) => alike T t a a' ∧ alike T t b b'
  | .rangeInc t, .pair a (.pair b (.bool _)), .pair a' (.pair b' (.bool _)) => alike T t a a' ∧ alike T t b b'
  | .pair a b, .pair x y, .pair x' y' => alike T a x x' ∧ alike T b y y'
  | .box t, v, w | .via _ t, v, w => alike T t v w
  | .struct _ fs, v, w => alikeFields T fs [] [] v w
  | .enum _ vs, .variant i v, .variant j w => i = j ∧ alikeVariants T vs i v w
  | _, v, w => v = w
/-- Fields, after the given ones. -/
def alikeFields (T : Target) : Fields → List Val → List Val → Val → Val → Prop
  | .nil, _, _, v, w => v = w
  | .cons a t fs, prev, prev', .pair v vs, .pair w ws =>
    if a.skip then alikeFields T fs prev prev' vs ws
    else (if a.varint then v = w else alike T t v w) ∧
      (match a.len with | some (.expr f) => f prev = f prev' | _ => True) ∧
      alikeFields T fs (prev ++ [v]) (prev' ++ [w]) vs ws
  | .cons _ _ _, _, _, v, w => v = w ∧ False
/-- Variants. -/
def alikeVariants (T : Target) : Variants → Nat → Val → Val → Prop
  | .nil, _, v, w => v = w
  | .cons _ fs _, 0, v, w => alikeFields T fs [] [] v w
  | .cons _ _ vs, i + 1, v, w => alikeVariants T vs i v w
end

theorem each_alike {f : Val → WProg} {r : Val → Val → Prop} (h : ∀ v w, r v w → f v = f w) :
    ∀ {vs ws : List Val}, Pairwise2 r vs ws → writeEach f vs = writeEach f ws
  | [], [], _ => rfl
  | v :: vs, w :: ws, hp => by
    simp only [writeEach, h v w hp.1, each_alike h hp.2]
  | [], _ :: _, hp => hp.elim
  | _ :: _, [], hp => hp.elim

theorem pairwise_length {r : Val → Val → Prop} : ∀ {vs ws : List Val}, Pairwise2 r vs ws → vs.length = ws.length
  | [], [], _ => rfl
  | v :: vs, w :: ws, hp => by simp only [List.length_cons, pairwise_length hp.2]
  | [], _ :: _, hp => hp.elim
  | _ :: _, [], hp => hp.elim

theorem pairwise_eq : ∀ {vs ws : List Val}, Pairwise2 (fun v w => v = w) vs ws → vs = ws
  | [], [], _ => rfl
  | v :: vs, w :: ws, hp => by
    have h1 : v = w := hp.1
    rw [h1, pairwise_eq hp.2]
  | [], _ :: _, hp => hp.elim
  | _ :: _, [], hp => hp.elim

theorem slice_alike {T : Target} {e : Endian} {t : Ty} {f : Val → WProg} (h : ∀ v w, alike T t v w → f v = f w)
    {vs ws : List Val} (hp : Pairwise2 (fun v w => if isPrimitive T t then v = w else alike T t v w) vs ws) :
    writeSlice T e t f vs = writeSlice T e t f ws := by
  by_cases ht : isPrimitive T t = true
  · simp only [ht, if_true] at hp
    rw [pairwise_eq hp]
  · simp only [ht, Bool.false_eq_true, if_false] at hp
    unfold writeSlice
    simp only [ht, Bool.false_eq_true, if_false, Bool.false_and]
    exact each_alike h hp

mutual
/-- **C25**: values which differ only in skipped fields are written in the same way: the
same calls are made on the writer. -/
theorem C25_same {T : Target} {e : Endian} : ∀ (t : Ty) (cx : Cx) (v w : Val), alike T t v w →
    encode T e t cx v = encode T e t cx w
  | .seq k t, cx, v, w, h => by
    unfold alike at h
    split at h <;> try contradiction
    · rename_i heq
      injection heq with h1 h2
      subst h1 h2
      simp only [encode, pairwise_length h]
      rw [slice_alike (fun v w => C25_same _ Cx.std v w) h]
    · rw [h]
  | .array n t, cx, v, w, h => by
    unfold alike at h
    split at h <;> try contradiction
    · rename_i heq
      injection heq with h1 h2
      subst h1 h2
      simp only [encode, pairwise_length h]
      rw [slice_alike (fun v w => C25_same _ Cx.std v w) h, each_alike (r := fun v w => if isPrimitive T _ then v = w
        else alike T _ v w) (fun v w h => by
          split at h
          · rw [h]
          · exact C25_same _ Cx.std v w h) h]
    · rw [h]
  | .set t, cx, v, w, h => by
    unfold alike at h
    split at h <;> try contradiction
    · rename_i heq; cases heq
      simp only [encode, pairwise_length h]
      rw [each_alike (fun v w => C25_same _ Cx.std v w) h]
    · rw [h]
  | .refArray n t, cx, v, w, h => by
    unfold alike at h
    split at h <;> try contradiction
    · rename_i heq; cases heq
      simp only [encode, pairwise_length h]
      rw [each_alike (fun v w => C25_same _ Cx.std v w) h]
    · rw [h]
  | .map k u, cx, v, w, h => by
    unfold alike at h
    split at h <;> try contradiction
    · rename_i heq; cases heq
      simp only [encode, pairwise_length h]
      congr 1
      refine each_alike ?_ h
      rintro v w ⟨a, b, a', b', rfl, rfl, h1, h2⟩
      simp only
      rw [C25_same _ Cx.std a a' h1, C25_same _ Cx.std b b' h2]
    · rw [h]
  | .option t, cx, v, w, h => by
    unfold alike at h
    split at h <;> try contradiction
    · rename_i heq; cases heq
      simp only [encode]
      rw [C25_same _ _ _ _ h]
    · rw [h]
  | .result a b, cx, v, w, h => by
    unfold alike at h
    split at h <;> try contradiction
    · rename_i heq; cases heq
      simp only [encode]
      rw [C25_same _ _ _ _ h]
    · rename_i heq; cases heq
      simp only [encode]
      rw [C25_same _ _ _ _ h]
    · rw [h]
  | .range t, cx, v, w, h => by
    unfold alike at h
    split at h <;> try contradiction
    · rename_i heq; cases heq
      simp only [encode]
      rw [C25_same _ _ _ _ h.1, C25_same _ _ _ _ h.2]
    · rw [h]
  | .rangeInc t, cx, v, w, h => by
    unfold alike at h
    split at h <;> try contradiction
    · rename_i heq; cases heq
      simp only [encode]
      rw [C25_same _ _ _ _ h.1, C25_same _ _ _ _ h.2]
    · rw [h]
  | .pair a b, cx, v, w, h => by
    unfold alike at h
    split at h <;> try contradiction
    · rename_i heq; cases heq
      simp only [encode]
      rw [C25_same _ _ _ _ h.1, C25_same _ _ _ _ h.2]
    · rw [h]
  | .box t, cx, v, w, h | .via _ t, cx, v, w, h => by
    simp only [alike] at h
    simp only [encode]
    exact C25_same t _ v w h
  | .struct d fs, cx, v, w, h => by
    simp only [alike] at h
    simp only [encode]
    exact C25_sameFields fs [] [] v w h
  | .enum d vs, cx, v, w, h => by
    unfold alike at h
    split at h <;> try contradiction
    · rename_i heq; cases heq
      obtain ⟨rfl, h⟩ := h
      simp only [encode]
      exact C25_sameVariants d _ _ _ _ h
    · rw [h]
  | .prim _, cx, v, w, h => by unfold alike at h; rw [h]
  | .usize, cx, v, w, h => by unfold alike at h; rw [h]
  | .bool, cx, v, w, h => by unfold alike at h; rw [h]
  | .char, cx, v, w, h => by unfold alike at h; rw [h]
  | .nonZero _, cx, v, w, h => by unfold alike at h; rw [h]
  | .atomic _, cx, v, w, h => by unfold alike at h; rw [h]
  | .ipv4, cx, v, w, h => by unfold alike at h; rw [h]
  | .ipv6, cx, v, w, h => by unfold alike at h; rw [h]
  | .ipAddr, cx, v, w, h => by unfold alike at h; rw [h]
  | .duration, cx, v, w, h => by unfold alike at h; rw [h]
  | .systemTime, cx, v, w, h => by unfold alike at h; rw [h]
  | .endianness, cx, v, w, h => by unfold alike at h; rw [h]
  | .varint64, cx, v, w, h => by unfold alike at h; rw [h]
  | .uuid, cx, v, w, h => by unfold alike at h; rw [h]
  | .str _, cx, v, w, h => by unfold alike at h; rw [h]
  | .unit, cx, v, w, h => by unfold alike at h; rw [h]
/-- Fields. -/
theorem C25_sameFields {T : Target} {e : Endian} : ∀ (fs : Fields) (prev prev' : List Val) (v w : Val),
    alikeFields T fs prev prev' v w → encodeFields T e fs prev v = encodeFields T e fs prev' w
  | .nil, prev, prev', v, w, h => by
    simp only [alikeFields] at h
    subst h
    cases v <;> rfl
  | .cons a t fs, prev, prev', v, w, h => by
    unfold alikeFields at h
    split at h
    · contradiction
    · rename_i prev prev' _ _ _ _ _ _ _ _ _ _ _ _ heq
      injection heq with h1 h2 h3
      subst h1 h2 h3
      simp only [encodeFields]
      split at h
      · rename_i hsk
        simp only [hsk, if_true]
        exact C25_sameFields _ _ _ _ _ h
      · rename_i hsk
        obtain ⟨h1, h2, h3⟩ := h
        have hcx : a.wcx prev = a.wcx prev' := by
          unfold Attrs.wcx
          split
          · rfl
          · generalize a.len = l at h2 ⊢
            rcases l with _ | _ | _ | _ <;> simp_all
        simp only [hsk, Bool.false_eq_true, if_false]
        rw [C25_sameFields _ _ _ _ _ h3]
        by_cases hv : a.varint = true
        · simp only [hv, if_true] at h1 ⊢
          rw [h1]
        · simp only [hv, Bool.false_eq_true, if_false] at h1 ⊢
          rw [hcx, C25_same t _ _ _ h1]
    · exact h.2.elim
/-- Variants. -/
theorem C25_sameVariants {T : Target} {e : Endian} (d : EnumDesc) : ∀ (vs : Variants) (i : Nat) (v w : Val),
    alikeVariants T vs i v w → encodeVariants T e d vs i v = encodeVariants T e d vs i w
  | .nil, i, v, w, h => by simp only [encodeVariants]
  | .cons tag fs vs, 0, v, w, h => by
    simp only [alikeVariants] at h
    simp only [encodeVariants]
    rw [C25_sameFields fs [] [] v w h]
  | .cons tag fs vs, i + 1, v, w, h => by
    simp only [alikeVariants] at h
    simp only [encodeVariants]
    exact C25_sameVariants d vs i v w h
end

/-! ## Without the skipped fields -/

/-- The struct without its skipped fields. -/
def Fields.unskip : Fields → Fields
  | .nil => .nil
  | .cons a t fs => if a.skip then fs.unskip else .cons a t fs.unskip

/-- The values without those of the skipped fields. -/
def Fields.unskipVal : Fields → Val → Val
  | .cons a _ fs, .pair v rest => if a.skip then fs.unskipVal rest else .pair v (fs.unskipVal rest)
  | _, v => v

/-- **C25**: a skipped field contributes no bytes: the struct is written like the one
declared without its skipped fields. -/
theorem C25_no_bytes {T : Target} {e : Endian} : ∀ (fs : Fields) (prev : List Val) (v : Val), hasTyFields T fs v →
    encodeFields T e fs prev v = encodeFields T e fs.unskip prev (fs.unskipVal v)
  | .nil, prev, v, h => rfl
  | .cons a t fs, prev, v, h => by
    cases v <;> simp only [hasTyFields] at h
    simp only [Fields.unskip, Fields.unskipVal]
    by_cases hsk : a.skip = true
    · simp only [encodeFields, hsk, if_true]
      exact C25_no_bytes fs prev _ h.2
    · simp only [hsk, Bool.false_eq_true, if_false, encodeFields]
      rw [C25_no_bytes fs _ _ h.2]

/-! ## Reading -/

section
variable {T : Target} (hT : T.Ok) {e : Endian} {t : Ty} {v w : Val} {bs : Bytes} {junk : Nat → UInt8}
  (hl : layoutOk T t = true) (hd : declOk t = true) (hr : regular T e t = true) (hv : hasTy T t v) (hw : hasTy T t w)
  (ha : alike T t v w) (hc : canon (Fmt.code T.toHost e) t w) (hb : writeToVec T e t v junk = .ok bs)
include hT hl hd hr hv hw ha hc hb

/-- The same bytes are written. -/
theorem vec_alike : writeToVec T e t w junk = .ok bs := by
  obtain ⟨h1, h2⟩ := vec_inv hT hl hd (regular_slice t hr) hv hb
  refine vec_ok hT hl hd (regular_slice t hr) hw ?_ h2
  have h3 := out_ok hT hl hd (regular_slice t hr) hv h1
  rw [C25_same t Cx.std v w ha] at h3
  cases h4 : wire (Fmt.code T.toHost e) t LenR.std w with
  | error er =>
    have := out_err hT hl hd (regular_slice t hr) hw h4
    rw [h3] at this
    simp at this
  | ok bs' =>
    have := out_ok hT hl hd (regular_slice t hr) hw h4
    rw [h3] at this
    simp only [Prod.mk.injEq] at this
    rw [this.1]

/-- **C25**, reading: if `w` is the value with the default in each skipped field, then `w`
is read from what was written for `v`: skipped fields get their defaults and all
others their values.

Missing: the exceptions of C01. -/
theorem C25_read_partial {base : Nat} (he : ends true false t = true) (hm : InMem T base bs) :
    readFromBuffer T e t base bs = .ok w :=
  C01_round_trip_partial hT hl hd hr hw hc (vec_alike hT hl hd hr hv hw ha hc hb) he hm

/-- C25 for both stream readers. -/
theorem C25_read_stream_partial {grow : Nat → Nat} (hg : ∀ n, n ≤ grow n) {buffered : Bool} {src : Src}
    (he : ends true false t = true) (hn : noRefs t = true) (hs : src.Clean) (hi : src.data = bs)
    (hf : Fits T bs) : (readFromStream T e t grow buffered src).1 = .ok w :=
  C01_round_trip_stream_partial hT hl hd hr hw hc (vec_alike hT hl hd hr hv hw ha hc hb) hg he hn hs hi hf

end

/-- `struct Cached { id: u16, #[speedy(skip)] cache: String, tail: u8 }` -/
def cached : Ty := .struct ⟨.rust, 32, 8, [24, 0, 26], true⟩
  (.cons {} (.prim .u16) (.cons { skip := true, dflt := .bytes [] } (.str .owned) (.cons {} (.prim .u8) .nil)))

/-- A value of it. -/
def cachedVal (cache : Bytes) : Val := .pair (.num 0x0102) (.pair (.bytes cache) (.pair (.num 7) .unit))

theorem cached_ty {cache : Bytes} (h : utf8Valid cache = true) (h2 : cache.length < 100) :
    hasTy x64 cached (cachedVal cache) := by
  have : x64.isizeMax = 2 ^ 63 - 1 := rfl
  simp only [cached, cachedVal, hasTy, hasTyFields, Prim.size, h, and_true, true_and]
  omega

/-- In a `Vec`. -/
example : readFromBuffer x64 .little (.seq .vec cached) 4096 [1, 0, 0, 0, 2, 1, 7] = .ok (.list [cachedVal []]) :=
  C25_read_partial x64_ok (v := .list [cachedVal [0x68, 0x69]]) (junk := fun _ => 0) (by decide) (by decide) (by decide)
    (by simp only [hasTy, List.mem_singleton, forall_eq]; exact ⟨cached_ty (by decide) (by decide), by decide, by decide⟩)
    (by simp only [hasTy, List.mem_singleton, forall_eq]; exact ⟨cached_ty (by decide) (by decide), by decide, by decide⟩)
    (by
      have hp : isPrimitive x64 cached = false := by decide
      simp [alike, Pairwise2, hp]
      simp [cached, cachedVal, alike, alikeFields])
    (by simp [canon, canonFields, cached, cachedVal])
    (by decide) (by decide) ⟨by decide, by decide, by decide⟩

/-- `#[repr(transparent)] struct Hidden { #[speedy(skip)] n: u8 }`, which counts as primitive. -/
def hidden : Ty := .struct ⟨.transparent, 1, 1, [0], true⟩ (.cons { skip := true } (.prim .u8) .nil)

/-- **C25 is false** for slices of transparent structs: their memory is copied, including the
skipped field. -/
theorem C25_false :
    (encode x64 .little hidden Cx.std (.pair (.num 5) .unit)).out Host.x64 .little = ([], .ok ()) ∧
    (encode x64 .little (.seq .vec hidden) Cx.std (.list [.pair (.num 5) .unit])).out Host.x64 .little =
      ([1, 0, 0, 0, 5], .ok ()) := by
  decide

/-! ## Cases -/

section Cases
open Samples

/-- The skipped cache takes no bytes: as in a struct without the field. -/
example := C25_no_bytes (T := x64) (e := .little)
  (.cons {} (.prim .u16) (.cons { skip := true, dflt := .bytes [] } (.str .owned) (.cons {} (.prim .u8) .nil))) []
  (cachedVal [0x68, 0x69]) (by
    have h := cached_ty (cache := [0x68, 0x69]) (by decide) (by decide)
    simpa only [cached, hasTy] using h)

example : (readFromStream x64 .little cached (· + 100) false ⟨[2, 1, 7], [.give 2]⟩).1 = .ok (cachedVal []) :=
  C25_read_stream_partial x64_ok (v := cachedVal [0x68, 0x69]) (junk := fun _ => 0) (by decide) (by decide) (by decide)
    (cached_ty (by decide) (by decide)) (cached_ty (by decide) (by decide)) (by simp [cached, cachedVal, alike, alikeFields])
    (by simp [canon, canonFields, cached, cachedVal]) (by decide) (fun n => by omega) (by decide) (by decide) (by simp [Src.Clean]) rfl
    ⟨by decide, by decide⟩

example : encode x64 .little cached Cx.std (cachedVal [0x68, 0x69]) = encode x64 .little cached Cx.std (cachedVal []) :=
  C25_same _ _ _ _ (by simp [cached, cachedVal, alike, alikeFields])

end Cases

end Verif
