import Verif.PropsSafe
import Verif.PropsAttrs

/-!
# Bulk copies (C27) and plain memory (C28)

`isPrimitive T t` is `speedy_is_primitive`, `bulkPlain t` means that no field has an attribute,
`bulkOk T e t` in addition that the byte order of the memory can be converted if necessary; `writeSlice`, `readVec`,
… are the functions of the library with the fast path, `writeEach` and `repeatM` write and read elements one at a time.
-/

namespace Verif

open Samples

/-! ## C27 -/

/-- Two readings give the same: equal values and the same rest of the input, or both an end-of-input error. -/
def Same {σ α : Type} (pend : σ → Bytes) (a b : Except Err α × σ) : Prop :=
  (∃ v, a.1 = .ok v ∧ b.1 = .ok v ∧ pend a.2 = pend b.2) ∨
  (∃ e1 e2, a.1 = .error e1 ∧ b.1 = .error e2 ∧ e1.isEof = true ∧ e2.isEof = true)

/-- The parser is definite. -/
def Definite {α : Type} : PRes α → Prop
  | .ok _ _ => True
  | .fail e => e.isEof = true
  | _ => False

theorem same_of {σ α : Type} {Inv : σ → Prop} {pend : σ → Bytes} {s : σ} {x : PRes α} {a b : Except Err α × σ}
    (hx : Definite x) (ha : Outcome Inv pend s x a) (hb : Outcome Inv pend s x b) : Same pend a b := by
  cases x with
  | ok v rest => exact .inl ⟨v, ha.1, hb.1, by rw [ha.2.2.1, hb.2.2.1]⟩
  | fail e =>
    obtain ⟨e1, h1, h2, _⟩ := ha
    obtain ⟨e2, h3, h4, _⟩ := hb
    have : e.isEof = true := hx
    rw [if_pos this] at h2 h4
    exact .inr ⟨e1, e2, h1, h3, h2, h4⟩
  | amb e => exact hx.elim
  | unspec => exact hx.elim

mutual
theorem prim_noRefs {T : Target} : ∀ (t : Ty), isPrimitive T t = true → noRefs t = true
  | .prim _, _ => rfl
  | .struct d fs, h => by
    simp only [noRefs]
    unfold isPrimitive at h
    split at h
    · exact prim_noRefsFields fs h
    · split at h
      · cases fs with
        | nil => rfl
        | cons a t fs =>
          simp only [Bool.false_or, Bool.and_eq_true] at h
          exact prim_noRefsFields _ h.1.1
      · cases h
  | .usize, hp | .bool, hp | .char, hp | .nonZero _, hp | .atomic _, hp | .ipv4, hp | .ipv6, hp | .ipAddr, hp
  | .duration, hp | .systemTime, hp | .endianness, hp | .varint64, hp | .uuid, hp | .str _, hp | .seq _ _, hp
  | .set _, hp | .map _ _, hp | .array _ _, hp | .refArray _ _, hp | .option _, hp | .result _ _, hp | .range _, hp
  | .rangeInc _, hp | .unit, hp | .pair _ _, hp | .box _, hp | .via _ _, hp | .enum _ _, hp => by simp [isPrimitive] at hp
theorem prim_noRefsFields {T : Target} : ∀ (fs : Fields), fieldsPrimitive T fs = true → noRefsFields fs = true
  | .nil, _ => rfl
  | .cons _ t fs, h => by
    simp only [fieldsPrimitive, Bool.and_eq_true] at h
    simp only [noRefsFields, prim_noRefs t h.1, prim_noRefsFields fs h.2, Bool.and_self]
end

mutual
theorem prim_decl {T : Target} : ∀ (t : Ty), isPrimitive T t = true → bulkPlain t = true → declOk t = true
  | .prim _, _, _ => rfl
  | .struct d fs, h, hb => by
    simp only [declOk]
    simp only [bulkPlain, Bool.and_eq_true] at hb
    unfold isPrimitive at h
    split at h
    · exact prim_declFields fs h hb.1 hb.2
    · split at h
      · cases fs with
        | nil => rfl
        | cons a t fs =>
          simp only [Bool.false_or, Bool.and_eq_true] at h
          exact prim_declFields _ h.1.1 hb.1 hb.2
      · cases h
  | .usize, hp, _ | .bool, hp, _ | .char, hp, _ | .nonZero _, hp, _ | .atomic _, hp, _ | .ipv4, hp, _ | .ipv6, hp, _
  | .ipAddr, hp, _ | .duration, hp, _ | .systemTime, hp, _ | .endianness, hp, _ | .varint64, hp, _ | .uuid, hp, _
  | .str _, hp, _ | .seq _ _, hp, _ | .set _, hp, _ | .map _ _, hp, _ | .array _ _, hp, _ | .refArray _ _, hp, _
  | .option _, hp, _ | .result _ _, hp, _ | .range _, hp, _ | .rangeInc _, hp, _ | .unit, hp, _ | .pair _ _, hp, _
  | .box _, hp, _ | .via _ _, hp, _ | .enum _ _, hp, _ => by simp [isPrimitive] at hp
theorem prim_declFields {T : Target} : ∀ (fs : Fields), fieldsPrimitive T fs = true → fs.canBePrimitive = true →
    bulkPlainFields fs = true → declOkFields fs = true
  | .nil, _, _, _ => rfl
  | .cons a t fs, h, hc, hb => by
    simp only [fieldsPrimitive, Bool.and_eq_true] at h
    simp only [Fields.canBePrimitive, Bool.and_eq_true, Attrs.canBePrimitive, Bool.not_eq_true', Option.isNone_iff_eq_none] at hc
    simp only [bulkPlainFields, Bool.and_eq_true] at hb
    simp [declOkFields, Attrs.declOk, prim_decl t h.1 hb.1, prim_declFields fs h.2 hc.2 hb.2, hc.1.1.1.1.2, hc.1.1.2]
end

mutual
theorem prim_slice {T : Target} : ∀ (t : Ty), isPrimitive T t = true → sliceOk T t = true
  | .prim _, _ => rfl
  | .struct d fs, h => by
    simp only [sliceOk]
    unfold isPrimitive at h
    split at h
    · exact prim_sliceFields fs h
    · split at h
      · cases fs with
        | nil => rfl
        | cons a t fs =>
          simp only [Bool.false_or, Bool.and_eq_true] at h
          exact prim_sliceFields _ h.1.1
      · cases h
  | .usize, hp | .bool, hp | .char, hp | .nonZero _, hp | .atomic _, hp | .ipv4, hp | .ipv6, hp | .ipAddr, hp
  | .duration, hp | .systemTime, hp | .endianness, hp | .varint64, hp | .uuid, hp | .str _, hp | .seq _ _, hp
  | .set _, hp | .map _ _, hp | .array _ _, hp | .refArray _ _, hp | .option _, hp | .result _ _, hp | .range _, hp
  | .rangeInc _, hp | .unit, hp | .pair _ _, hp | .box _, hp | .via _ _, hp | .enum _ _, hp => by simp [isPrimitive] at hp
theorem prim_sliceFields {T : Target} : ∀ (fs : Fields), fieldsPrimitive T fs = true → sliceOkFields T fs = true
  | .nil, _ => rfl
  | .cons _ t fs, h => by
    simp only [fieldsPrimitive, Bool.and_eq_true] at h
    simp only [sliceOkFields, prim_slice t h.1, prim_sliceFields fs h.2, Bool.and_self]
end

section
variable {T : Target} {e : Endian} {t : Ty} (hp : isPrimitive T t = true) (hl : layoutOk T t = true)
  (hb : bulkPlain t = true)
include hp hl hb

theorem rep_definite (n : Nat) (bs : Bytes) : Definite (pRep n (parse T e t Cx.std) bs) := by
  obtain ⟨h1, h2⟩ := pRep_prim (cx := Cx.std) (e := e) hp hl hb n bs
  by_cases h : n * sizeOf T t ≤ bs.length
  · rw [h1 h]; trivial
  · rw [h2 (by omega)]; rfl

/-- **C27**, writing: in a host's byte order the elements are copied as a whole; the bytes are those of writing one element after
the other.  In the other byte order and for other types elements are written one after the other anyway.

Full claim: all primitive types.  Missing: `repr(transparent)` structs with attributes, for which it is false (`C27_false`). -/
theorem C27_write_partial (hT : T.Ok) {vs : List Val} (hv : ∀ v ∈ vs, hasTy T t v) :
    (writeSlice T e t (encode T e t Cx.std) vs).out T.toHost e = (writeEach (encode T e t Cx.std) vs).out T.toHost e := by
  by_cases hc : (isPrimitive T t && (sizeOf T t == 1 || !e.conv T.toHost)) = true
  rotate_left
  · unfold writeSlice
    rw [if_neg hc]
  · have hd : declOk t = true := prim_decl t hp hb
    have hs : sliceOk T t = true := prim_slice t hp
    have hf : ∀ v ∈ vs, Writes T.toHost e (encode T e t Cx.std v) (wire (Fmt.code T.toHost e) t LenR.std v) := fun v hv' =>
      encode_wire hT t Cx.std v hl hd hs (hv v hv')
    have h1 := writes_slice vs hl (by simp [hb]) hv hf
    have h2 := writes_each vs hf
    have hok : ∃ bs, catAll (wire (Fmt.code T.toHost e) t LenR.std) vs = .ok bs := by
      clear h1 h2 hf
      simp only [Bool.and_eq_true] at hc
      induction vs with
      | nil => exact ⟨_, rfl⟩
      | cons v vs ih =>
        obtain ⟨bs, h⟩ := ih fun x hx => hv x (List.mem_cons_of_mem _ hx)
        refine ⟨toMem T t v ++ bs, ?_⟩
        simp only [catAll]
        rw [h, show wire (Fmt.code T.toHost e) t LenR.std v = .ok (toMem T t v) from
          toMem_native hc.1 hl hb (hv v List.mem_cons_self) hc.2]
        rfl
    obtain ⟨bs, hbs⟩ := hok
    rw [hbs] at h1 h2
    exact Eq.trans h1 (Eq.symm h2)

theorem vec_rep {n : Nat} (hT : T.Ok) (hc : bulkOk T e t = true) (hn : n * sizeOf T t ≤ T.isizeMax) (bs : Bytes) :
    pVec T e t (parse T e t Cx.std) n bs = pRep n (parse T e t Cx.std) bs := by
  have hm : minBytes T t = sizeOf T t := minBytes_prim t hp hl hb
  have hu : sizeOf T t * n ≤ T.usizeMax := by
    have h1 := hT.toOk.isize
    rw [Nat.mul_comm]
    omega
  unfold pVec
  simp only [hp, hc, hm]
  rw [if_neg (by simp), if_neg (by omega)]
  have ho : ¬ n * sizeOf T t > T.isizeMax := by omega
  simp only [ho, if_false]
  simp only [Bool.not_true, Bool.false_and, if_neg Bool.false_ne_true]
  split
  · rename_i h
    rw [(pRep_prim hp hl hb n bs).2 (by rw [Nat.mul_comm]; omega)]
    rfl
  · rfl

end

section
variable {σ : Type} {R : ReaderOps σ} {Inv : σ → Prop} {pend : σ → Bytes} (L : Lawful R Inv pend)
variable {T : Target} (hT : T.Ok) {e : Endian} {t : Ty} (hp : isPrimitive T t = true) (hl : layoutOk T t = true)
  (hc : bulkOk T e t = true) {s : σ} (hi : Inv s) (hB : (pend s).length ≤ T.isizeMax) (hF : (pend s).length < T.fuel)
  (n : Nat)
include L hT hp hl hc hi hB hF

/-- **C27**, reading a `Vec` (and everything based on it): the elements are what reading them one after the other
gives, and as much of the input is consumed; if the input is too short both report it.  For every reader, byte order and host.

Full claim: all primitive types.  Missing: types which are not `bulkOk`, for which it is false (`C27_false`), and
sizes greater than `isize::MAX`, for which a vector panics. -/
theorem C27_vec_partial (hn : n * sizeOf T t ≤ T.isizeMax) :
    Same pend ((readVec T.toHost e (elemOf T t (decode T e t Cx.std)) n).run R s)
      ((repeatM n (decode T e t Cx.std)).run R s) := by
  have hb : bulkPlain t = true := by simp only [bulkOk, Bool.and_eq_true] at hc; exact hc.1
  have hd := decode_refines L hT hB hF (e := e) t Cx.std hl (.inl (prim_noRefs t hp))
  have h1 := refines_readVec L hl hd n s hi (Nat.le_refl _)
  rw [vec_rep hp hl hb hT hc hn] at h1
  exact same_of (rep_definite hp hl hb n _) h1 (refines_repeat hd n s hi (Nat.le_refl _))

/-- **C27**, reading a `Cow<[T]>`: the same. -/
theorem C27_cow_partial (hz : sizeOf T t ≠ 0) (hn : n * sizeOf T t ≤ T.isizeMax) :
    Same pend ((M.map CowVal.vals (readCow T.toHost e (elemOf T t (decode T e t Cx.std)) n)).run R s)
      ((repeatM n (decode T e t Cx.std)).run R s) := by
  have hb : bulkPlain t = true := by simp only [bulkOk, Bool.and_eq_true] at hc; exact hc.1
  have hd := decode_refines L hT hB hF (e := e) t Cx.std hl (.inl (prim_noRefs t hp))
  have h1 := refines_readCow L hB hl hd n s hi (Nat.le_refl _)
  have h2 := hT.toOk.isize
  have h3 : pCow T e t (parse T e t Cx.std) n = pVec T e t (parse T e t Cx.std) n := by
    unfold pCow
    rw [if_neg]
    simp only [Bool.and_eq_true, Bool.or_eq_true, decide_eq_true_eq, beq_iff_eq, hz, or_false, not_and]
    intro _
    omega
  rw [h3, vec_rep hp hl hb hT hc hn] at h1
  exact same_of (rep_definite hp hl hb n _) h1 (refines_repeat hd n s hi (Nat.le_refl _))

/-- **C27**, reading the elements of a set: the same. -/
theorem C27_set_partial (hz : sizeOf T t ≠ 0) (hn : n * sizeOf T t ≤ T.usizeMax) :
    Same pend ((readCollection T.toHost e (elemOf T t (decode T e t Cx.std)) n).run R s)
      ((repeatM n (decode T e t Cx.std)).run R s) := by
  have hb : bulkPlain t = true := by simp only [bulkOk, Bool.and_eq_true] at hc; exact hc.1
  have hd := decode_refines L hT hB hF (e := e) t Cx.std hl (.inl (prim_noRefs t hp))
  have h1 := refines_readCollection L hl hd n s hi (Nat.le_refl _)
  have h3 : pColl T e t (parse T e t Cx.std) n = pRep n (parse T e t Cx.std) := by
    unfold pColl
    rw [if_neg (c := n * sizeOf T t > T.usizeMax) (by omega), if_neg (c := (!bulkPlain t || _) = true) (by simp [hb, hz])]
    split <;> rfl
  rw [h3] at h1
  exact same_of (rep_definite hp hl hb n _) h1 (refines_repeat hd n s hi (Nat.le_refl _))

/-- **C27**, reading an array: the same. -/
theorem C27_array_partial (inl : Bool) :
    Same pend ((readArray T e inl (elemOf T t (decode T e t Cx.std)) n).run R s)
      ((M.map Val.list (repeatM n (decode T e t Cx.std))).run R s) := by
  have hb : bulkPlain t = true := by simp only [bulkOk, Bool.and_eq_true] at hc; exact hc.1
  have hd := decode_refines L hT hB hF (e := e) t Cx.std hl (.inl (prim_noRefs t hp))
  have h1 := refines_readArray L hl hd inl n s hi (Nat.le_refl _)
  have h3 : pArray T e inl t (parse T e t Cx.std) n = P.map .list (pRep n (parse T e t Cx.std)) := by
    unfold pArray
    rw [if_neg (by simp [hc])]
  rw [h3] at h1
  refine same_of ?_ h1 (refines_map _ (refines_repeat hd n) s hi (Nat.le_refl _))
  have := rep_definite (e := e) hp hl hb n (pend s)
  unfold P.map P.bind
  generalize pRep n (parse T e t Cx.std) (pend s) = x at this
  cases x with
  | ok => trivial
  | fail => exact this
  | amb => exact this
  | unspec => exact this

omit hp hl hc in
/-- **C27**, reading the entries of a map: the keys and values are what reading them one after the other gives. -/
theorem C27_map_partial {k v : Ty} (hpk : isPrimitive T k = true) (hpv : isPrimitive T v = true)
    (hlk : layoutOk T k = true) (hlv : layoutOk T v = true) (hbk : bulkPlain k = true) (hbv : bulkPlain v = true)
    (hz : sizeOf T k + sizeOf T v ≠ 0) (hn : n * (sizeOf T k + sizeOf T v) ≤ T.usizeMax) :
    Same pend ((readKV T.toHost e (elemOf T k (decode T e k Cx.std)) (elemOf T v (decode T e v Cx.std)) n).run R s)
      ((repeatM n (M.bind (decode T e k Cx.std) fun a => M.bind (decode T e v Cx.std) fun b =>
        M.pure (.pair a (.pair b .unit)))).run R s) := by
  have hdk := decode_refines L hT hB hF (e := e) k Cx.std hlk (.inl (prim_noRefs k hpk))
  have hdv := decode_refines L hT hB hF (e := e) v Cx.std hlv (.inl (prim_noRefs v hpv))
  have h1 := refines_readKV L hlk hlv hdk hdv n s hi (Nat.le_refl _)
  have h2 : Refines R Inv pend (pend s).length (M.bind (decode T e k Cx.std) fun a => M.bind (decode T e v Cx.std) fun b =>
        M.pure (.pair a (.pair b .unit))) (pPair (parse T e k Cx.std) (parse T e v Cx.std)) :=
    refines_bind hdk fun _ => refines_bind hdv fun _ => refines_pure _
  have h3 : pKV T e k v (parse T e k Cx.std) (parse T e v Cx.std) n =
      pRep n (pPair (parse T e k Cx.std) (parse T e v Cx.std)) := by
    unfold pKV
    rw [if_neg (c := n * _ > T.usizeMax) (by omega), if_neg (c := (!(bulkPlain k && bulkPlain v) || _) = true)
      (by simp [hbk, hbv]; omega)]
    split <;> rfl
  rw [h3] at h1
  refine same_of ?_ h1 (refines_repeat h2 n s hi (Nat.le_refl _))
  obtain ⟨k1, k2⟩ := pRep_pair (e := e) (cx := Cx.std) (cx' := Cx.std) hpk hpv hlk hlv hbk hbv n (pend s)
  by_cases h : n * (sizeOf T k + sizeOf T v) ≤ (pend s).length
  · rw [k1 h]; trivial
  · rw [k2 (by omega)]; rfl

end

/-- `Point`s are copied as a whole, on both hosts, in both byte orders, and the order of the bytes can be converted. -/
example : isPrimitive x64 point = true ∧ isPrimitive be64 point = true ∧ layoutOk x64 point = true ∧ bulkPlain point = true ∧
    bulkOk x64 .big point = true ∧ bulkOk be64 .little point = true ∧ hasTy x64 point (.pair (.num 5) (.pair (.num 6) .unit)) ∧
    ((writeSlice x64 .little point (encode x64 .little point Cx.std)
      [.pair (.num 5) (.pair (.num 6) .unit), .pair (.num 7) (.pair (.num 8) .unit)]).out Host.x64 .little).1 =
      [5, 0, 6, 0, 7, 0, 8, 0] := by
  refine ⟨by decide, by decide, by decide, by decide, by decide, by decide, ?_, by decide⟩
  simp [point, hasTy, hasTyFields, Prim.size]

/-- Reading in the other byte order. -/
example : ((readVec x64.toHost .big (elemOf x64 point (decode x64 .big point Cx.std)) 2).run (bufferReader Host.x64)
      (BufSt.init 4096 [0, 5, 0, 6, 0, 7, 0, 8, 9])).1 =
    .ok [.pair (.num 5) (.pair (.num 6) .unit), .pair (.num 7) (.pair (.num 8) .unit)] := by decide

/-- `#[repr(transparent)] struct Meters(u32)` -/
def meters : Ty := .struct ⟨.transparent, 4, 4, [0], true⟩ (.cons {} (.prim .u32) .nil)

/-- `#[repr(C)] struct Step { length: Meters }` -/
def step : Ty := .struct ⟨.c, 4, 4, [0], true⟩ (.cons {} meters .nil)

/-- **C27 is false** for `repr(transparent)` structs with attributes, whose prefix is missing in a slice; and for structs which
contain `repr(transparent)` structs: in the other byte order reading a `Vec<Step>` panics (`speedy_flip_endianness` is not defined for
`Meters`) where reading a `Step` is fine. -/
theorem C27_false :
    (isPrimitive x64 tagged = true ∧ layoutOk x64 tagged = true ∧
      (writeSlice x64 .little tagged (encode x64 .little tagged Cx.std) [.pair (.num 7) .unit]).out Host.x64 .little =
        ([7], .ok ()) ∧
      (writeEach (encode x64 .little tagged Cx.std) [.pair (.num 7) .unit]).out Host.x64 .little = ([0x78, 7], .ok ())) ∧
    (isPrimitive x64 step = true ∧ layoutOk x64 step = true ∧ bulkPlain step = true ∧
      readFromBuffer x64 .big (.seq .vec step) 4096 [0, 0, 0, 1, 0, 0, 0, 7] = .error (.panic .notImplemented) ∧
      readFromBuffer x64 .big step 4096 [0, 0, 0, 7] = .ok (.pair (.pair (.num 7) .unit) .unit) ∧
      readFromBuffer x64 .little (.seq .vec step) 4096 [1, 0, 0, 0, 7, 0, 0, 0] =
        .ok (.list [.pair (.pair (.num 7) .unit) .unit])) := by
  decide

/-! ## C28 -/

/-- The bytes of a field (offset, size) in the memory of a struct. -/
def fieldBytes (mem : Bytes) (a : Nat × Nat) : Bytes := (mem.drop a.1).take a.2

theorem tiled_concat {mem : Bytes} : ∀ {L : List (Nat × Nat)} {pos : Nat}, Tiled pos L →
    L.flatMap (fieldBytes mem) = (mem.drop pos).take ((L.map (·.2)).sum)
  | [], _, _ => by simp
  | a :: L, pos, h => by
    have h1 : fieldBytes mem a = (mem.drop pos).take a.2 := by
      unfold fieldBytes
      rcases h.1 with h | h
      · simp [h]
      · rw [h]
    rw [List.flatMap_cons, tiled_concat h.2, h1, List.map_cons, List.sum_cons, List.take_add, List.drop_drop]

theorem extents_sizes {T : Target} {d : StructDesc} {fs : Fields} (h : d.offsets.length = fs.length) :
    (extents T d fs).map (·.2) = fs.sizes T := by
  have hz : ∀ {fs : Fields} {os : List Nat}, os.length = fs.length → (os.zip (fs.sizes T)).map (·.2) = fs.sizes T := by
    intro fs
    induction fs using Fields.rec (motive_1 := fun _ => True) (motive_3 := fun _ => True) with
    | nil => intro os h; cases os <;> rfl
    | cons a t fs _ ih =>
      intro os h
      cases os with
      | nil => simp [Fields.length] at h
      | cons o os => simpa [Fields.sizes] using ih (by simpa [Fields.length] using h)
    | _ => trivial
  exact hz h

theorem sum_sizes {T : Target} : ∀ (fs : Fields), (fs.sizes T).sum = fs.sizeSum T
  | .nil => rfl
  | .cons _ _ fs => by simp [Fields.sizes, Fields.sizeSum, sum_sizes fs]

/-- **C28**: if `speedy_is_primitive` says a struct is primitive, then all its fields are primitive, and there is no padding: its size
is the sum of the sizes of the fields, and any memory of that size is the concatenation of the bytes of the fields in the order of
declaration.  For all layouts, also of structs without `repr`, for which the compiler may choose any order.

Full claim: all layouts permitted.  Missing: the reference does not promise that a `repr(packed)` struct (without `C`) keeps
the order of the fields; that it does is assumed in `structOk` (`C28_false_packed`). -/
theorem C28_memory_partial {T : Target} {d : StructDesc} {fs : Fields} (hp : isPrimitive T (.struct d fs) = true)
    (hl : structOk T d fs = true) :
    fieldsPrimitive T fs = true ∧ d.size = (fs.sizes T).sum ∧
      ∀ mem : Bytes, mem.length = d.size → (extents T d fs).flatMap (fieldBytes mem) = mem := by
  obtain ⟨h1, h2, h3, h4⟩ := prim_struct hp hl
  refine ⟨h1, by rw [sum_sizes, h2], fun mem hm => ?_⟩
  rw [tiled_concat h4, extents_sizes h3, sum_sizes, h2, List.drop_zero, ← hm, List.take_length]

/-- **C28**, the title: the memory of a value of a primitive struct is its encoding in the host's byte order.

Full claim: all primitive structs.  Missing: transparent structs with attributes, for which it is false (`C28_false_transparent`). -/
theorem C28_encoding_partial {T : Target} (hT : T.Ok) {t : Ty} (hp : isPrimitive T t = true) (hl : layoutOk T t = true)
    (hb : bulkPlain t = true) {v : Val} (hv : hasTy T t v) :
    (encode T T.native t Cx.std v).out T.toHost T.native = (toMem T t v, .ok ()) ∧ (toMem T t v).length = sizeOf T t := by
  have h := encode_wire hT (e := T.native) t Cx.std v hl (prim_decl t hp hb) (prim_slice t hp) hv
  have h2 := toMem_wire (r := (Fmt.code T.toHost T.native).2) t Cx.std.len v hp hl hb hv
  rw [show Fmt.code T.toHost T.native = ⟨T.native, (Fmt.code T.toHost T.native).2⟩ from rfl, h2.1] at h
  exact ⟨h, h2.2⟩

/-- `struct Pixel { r: u8, g: u8, b: u8, a: u8 }` without `repr`: primitive if the compiler happens to keep the order … -/
def pixel (offsets : List Nat) : Ty := .struct ⟨.rust, 4, 1, offsets, true⟩
  (.cons {} (.prim .u8) (.cons {} (.prim .u8) (.cons {} (.prim .u8) (.cons {} (.prim .u8) .nil))))

/-- … and not otherwise. -/
example : layoutOk x64 (pixel [0, 1, 2, 3]) = true ∧ isPrimitive x64 (pixel [0, 1, 2, 3]) = true ∧
    layoutOk x64 (pixel [3, 0, 1, 2]) = true ∧ isPrimitive x64 (pixel [3, 0, 1, 2]) = false ∧
    toMem x64 (pixel [0, 1, 2, 3]) (.pair (.num 1) (.pair (.num 2) (.pair (.num 3) (.pair (.num 4) .unit)))) = [1, 2, 3, 4] ∧
    toMem x64 (pixel [3, 0, 1, 2]) (.pair (.num 1) (.pair (.num 2) (.pair (.num 3) (.pair (.num 4) .unit)))) = [2, 3, 4, 1] := by
  decide

/-- Padding: `#[repr(C)] struct { a: u8, b: u16 }` is not primitive. -/
example : isPrimitive x64 (.struct ⟨.c, 4, 2, [0, 2], true⟩ (.cons {} (.prim .u8) (.cons {} (.prim .u16) .nil))) = false := by
  decide

/-- `#[repr(packed)] struct { a: u8, b: u16 }` laid out with `b` first: fields inside, not overlapping, all aligned to 1, which is
all the reference promises. -/
def swapped : StructDesc := ⟨.packed, 3, 1, [2, 0], true⟩

/-- **C28** cannot be had from the reference's promises alone: the order of the fields of a `repr(packed)` struct is not checked,
so that with this layout the struct is primitive though its memory is not its encoding (rustc does keep the order). -/
theorem C28_false_packed :
    let fs : Fields := .cons {} (.prim .u8) (.cons {} (.prim .u16) .nil)
    (extents x64 swapped fs).all (fun a => a.1 + a.2 ≤ swapped.size) = true ∧ allApart (extents x64 swapped fs) = true ∧
      isPrimitive x64 (.struct swapped fs) = true ∧
      (extents x64 swapped fs).flatMap (fieldBytes [1, 2, 3]) = [3, 1, 2] ∧
      (writeSlice x64 .little (.struct swapped fs) (encode x64 .little (.struct swapped fs) Cx.std)
        [.pair (.num 1) (.pair (.num 2) .unit)]).out Host.x64 .little = ([2, 0, 1], .ok ()) ∧
      (encode x64 .little (.struct swapped fs) Cx.std (.pair (.num 1) (.pair (.num 2) .unit))).out Host.x64 .little =
        ([1, 2, 0], .ok ()) := by
  decide

/-- **C28 is false** for transparent structs with attributes: they are treated as plain memory although the encoding has a prefix. -/
theorem C28_false_transparent :
    isPrimitive x64 tagged = true ∧ layoutOk x64 tagged = true ∧ toMem x64 tagged (.pair (.num 7) .unit) = [7] ∧
      (encode x64 .little tagged Cx.std (.pair (.num 7) .unit)).out Host.x64 .little = ([0x78, 7], .ok ()) := by
  decide

/-! ## Cases -/

section Cases
open Samples

/-- Points from a buffer, in the byte order which is not that of the machine: an array, a `Cow` and a `Vec` of two of them, a set of two
numbers. -/
example := C27_array_partial (bufferReader_lawful Host.x64) x64_ok (e := .big) (t := point) (by decide) (by decide) (by decide)
  (BufSt.init_inv (base := 4096) (buf := [0, 5, 0, 6, 0, 7, 0, 8, 9]) (by decide)) (by decide) (by decide) 2 true
example := C27_cow_partial (bufferReader_lawful Host.x64) x64_ok (e := .big) (t := point) (by decide) (by decide) (by decide)
  (BufSt.init_inv (base := 4096) (buf := [0, 5, 0, 6, 0, 7, 0, 8, 9]) (by decide)) (by decide) (by decide) 2 (by decide) (by decide)
example := C27_vec_partial (bufferReader_lawful Host.x64) x64_ok (e := .big) (t := point) (by decide) (by decide) (by decide)
  (BufSt.init_inv (base := 4096) (buf := [0, 5, 0, 6, 0, 7, 0, 8, 9]) (by decide)) (by decide) (by decide) 2 (by decide)
example := C27_set_partial (bufferReader_lawful Host.x64) x64_ok (e := .big) (t := .prim .u32) (by decide) (by decide) (by decide)
  (BufSt.init_inv (base := 4096) (buf := [0, 5, 0, 6, 0, 7, 0, 8, 9]) (by decide)) (by decide) (by decide) 2 (by decide) (by decide)

/-- Two entries, from `u16` to points. -/
example := C27_map_partial (bufferReader_lawful Host.x64) x64_ok (e := .big)
  (BufSt.init_inv (base := 4096) (buf := [0, 1, 0, 5, 0, 6, 0, 2, 0, 7, 0, 8, 9]) (by decide)) (by decide) (by decide) 2
  (k := .prim .u16) (v := point) (by decide) (by decide) (by decide) (by decide) (by decide) (by decide) (by decide) (by decide)

example := C27_write_partial (T := x64) (e := .big) (t := point) (by decide) (by decide) (by decide) x64_ok
  (vs := [.pair (.num 5) (.pair (.num 6) .unit), .pair (.num 7) (.pair (.num 8) .unit)]) (by simp [point, hasTy, hasTyFields, Prim.size])

example : (encode be64 .big point Cx.std (.pair (.num 5) (.pair (.num 6) .unit))).out be64.toHost .big =
    (toMem be64 point (.pair (.num 5) (.pair (.num 6) .unit)), .ok ()) :=
  (C28_encoding_partial be64_ok (t := point) (by decide) (by decide) (by decide) (by simp [point, hasTy, hasTyFields, Prim.size])).1

example := C28_memory_partial (T := x64) (d := ⟨.c, 4, 2, [0, 2], true⟩)
  (fs := .cons {} (.prim .u16) (.cons {} (.prim .u16) .nil)) (by decide) (by decide)

end Cases

end Verif
