import Verif.Encode
import Verif.Layout
import Verif.Spec

/-!
# What is written is the documented format
-/

namespace Verif

/-! ## Output of write programs -/

/-- A program writes these bytes and succeeds, or fails with this error. -/
def Writes (h : Host) (e : Endian) (p : WProg) : Except Err Bytes → Prop
  | .ok bs => p.out h e = (bs, .ok ())
  | .error er => (p.out h e).2 = .error er

theorem out_seq (h : Host) (e : Endian) (p q : WProg) :
    (p.seq q).out h e = match p.out h e with
      | (bs, .ok _) => (bs ++ (q.out h e).1, (q.out h e).2)
      | (bs, .error er) => (bs, .error er) := by
  induction p with
  | done r => cases r <;> simp [WProg.seq, WProg.out]
  | bytes bs k ih =>
    simp only [WProg.seq, WProg.out, ih]
    cases hk : k.out h e with
    | mk a r => cases r <;> simp
  | num n v k ih =>
    simp only [WProg.seq, WProg.out, ih]
    cases hk : k.out h e with
    | mk a r => cases r <;> simp
  | room n k ih => simp only [WProg.seq, WProg.out, ih]

theorem numBytes_eq (h : Host) (e : Endian) (n v : Nat) : numBytes h e n v = e.bytes n v := by
  unfold numBytes
  split
  · rename_i hc
    rw [bytes_swapBytes, Endian.conv_flip hc]
    cases h.native <;> simp [Endian.bytes, Endian.flip]
  · rename_i hc
    rw [Endian.not_conv (e := e) (h := h) (by simpa using hc)]

section
variable {h : Host} {e : Endian}

theorem writes_ok : Writes h e .ok (.ok []) := rfl

theorem writes_fail (er : Err) : Writes h e (.fail er) (.error er) := rfl

theorem writes_bytes (bs : Bytes) {k : WProg} {w : Except Err Bytes} (hk : Writes h e k w) :
    Writes h e (.bytes bs k) (cat (.ok bs) w) := by
  cases w <;> simp_all [Writes, WProg.out, cat]

theorem writes_num (n v : Nat) {k : WProg} {w : Except Err Bytes} (hk : Writes h e k w) :
    Writes h e (.num n v k) (cat (.ok (e.bytes n v)) w) := by
  cases w <;> simp_all [Writes, WProg.out, cat, numBytes_eq]

theorem writes_room (n : Nat) {k : WProg} {w : Except Err Bytes} (hk : Writes h e k w) :
    Writes h e (.room n k) w := by
  cases w <;> simp_all [Writes, WProg.out]

theorem writes_seq {p q : WProg} {w w' : Except Err Bytes} (hp : Writes h e p w) (hq : Writes h e q w') :
    Writes h e (p.seq q) (cat w w') := by
  cases w with
  | ok bs =>
    have hp : p.out h e = (bs, .ok ()) := hp
    cases w' with
    | ok bs' =>
      have hq : q.out h e = (bs', .ok ()) := hq
      simp [Writes, cat, out_seq, hp, hq]
    | error er =>
      have hq : (q.out h e).2 = .error er := hq
      simp [Writes, cat, out_seq, hp, hq]
  | error er =>
    have hp : (p.out h e).2 = .error er := hp
    show ((p.seq q).out h e).2 = .error er
    rw [out_seq]
    cases hpo : p.out h e with
    | mk a r =>
      rw [hpo] at hp
      simp only at hp
      subst hp
      rfl

theorem cat_nil (w : Except Err Bytes) : cat w (.ok []) = w := by cases w <;> simp [cat]
theorem cat_nil_left (w : Except Err Bytes) : cat (.ok []) w = w := by cases w <;> simp [cat]

theorem cat_assoc (a b c : Except Err Bytes) : cat (cat a b) c = cat a (cat b c) := by
  cases a <;> cases b <;> cases c <;> simp [cat]

theorem writes_one (n v : Nat) : Writes h e (.num n v .ok) (.ok (e.bytes n v)) := by
  have := writes_num (h := h) (e := e) n v writes_ok
  rwa [cat_nil] at this

theorem writes_raw (bs : Bytes) : Writes h e (.bytes bs .ok) (.ok bs) := by
  have := writes_bytes (h := h) (e := e) bs writes_ok
  rwa [cat_nil] at this

theorem bytes_one (b : UInt8) : e.bytes 1 b.toNat = [b] := by
  cases e <;> simp [Endian.bytes, leBytes]

theorem writes_varint {v : Nat} (hv : v < 2 ^ 64) : Writes h e (writeVarint h v) (.ok (specVarint v)) := by
  unfold writeVarint writeLenRaw
  refine writes_room _ ?_
  rw [← specVarint_eq h hv]
  have h1 : (.ok (viFirst v :: viRest h v) : Except Err Bytes) = cat (.ok (e.bytes 1 (viFirst v).toNat)) (.ok (viRest h v)) := by
    rw [bytes_one]; rfl
  rw [h1]
  refine writes_num _ _ ?_
  split
  · rename_i hz
    have : viRest h v = [] := by unfold viRest; rw [hz]; simp
    rw [this]; exact writes_ok
  · exact writes_raw _

theorem writes_lenRaw (lt : LenTy) {n : Nat} (hn : n ≤ lt.max) :
    Writes h e (writeLenRaw h lt n) (.ok (wireNum e lt n)) := by
  cases lt
  case varint => exact writes_varint (by simp only [LenTy.max] at hn; omega)
  all_goals exact writes_one _ _

theorem writes_lenR {n : Nat} (hn : n < 2 ^ 64) (l : LenR) :
    Writes h e (writeLenR h n l) (wireLen e n l) := by
  cases l with
  | typed lt d =>
    simp only [writeLenR, wireLen]
    have hmax : ¬ n > lt.max → n ≤ lt.max := by omega
    cases lt <;> simp only [writeLen]
    case u64 => rw [if_neg (by simp only [LenTy.max]; omega)]; exact writes_one _ _
    case varint => rw [if_neg (by simp only [LenTy.max]; omega)]; exact writes_varint hn
    all_goals
      split
      · exact writes_fail _
      · rename_i hh; exact writes_lenRaw _ (hmax hh)
  | fixed m =>
    simp only [writeLenR, wireLen]
    split
    · exact writes_ok
    · exact writes_fail _
  | untilEof => exact writes_ok

theorem writes_each {f : Val → WProg} {g : Val → Except Err Bytes} (vs : List Val)
    (hf : ∀ v ∈ vs, Writes h e (f v) (g v)) : Writes h e (writeEach f vs) (catAll g vs) := by
  induction vs with
  | nil => exact writes_ok
  | cons v vs ih =>
    exact writes_seq (hf v List.mem_cons_self) (ih fun x hx => hf x (List.mem_cons_of_mem _ hx))

end

/-! ## Memory is the encoding -/

theorem bytes_small (e e' : Endian) (n v : Nat) (h : n ≤ 1) : e.bytes n v = e'.bytes n v := by
  have : n = 0 ∨ n = 1 := by omega
  rcases this with rfl | rfl <;> cases e <;> cases e' <;> simp [Endian.bytes, leBytes]

mutual
theorem toMem_wire {T : Target} {r : Bool} : ∀ (t : Ty) (l : LenR) (v : Val), isPrimitive T t = true →
    layoutOk T t = true → bulkPlain t = true → hasTy T t v →
    wire ⟨T.native, r⟩ t l v = .ok (toMem T t v) ∧ (toMem T t v).length = sizeOf T t
  | .prim p, l, v, _, _, _, hv => by
    cases v <;> simp only [hasTy] at hv
    simp only [wire, toMem]
    simp [sizeOf]
  | .struct d fs, l, v, hp, hl, hb, hv => by
    simp only [layoutOk, Bool.and_eq_true] at hl
    simp only [bulkPlain, Bool.and_eq_true] at hb
    simp only [hasTy] at hv
    obtain ⟨h1, h2, h3, h4⟩ := prim_struct hp hl.1
    obtain ⟨bs, k1, k2, k3⟩ := toMemFields_wire fs [] v h1 hl.2 hb.1 hb.2 hv
    have k4 := k3 d.offsets [] (List.replicate d.size 0) h3 h4 (by simp; omega)
    have k5 : toMem T (.struct d fs) v = bs := by
      simp only [toMem]
      simp only [List.nil_append] at k4
      rw [k4]
      simp; omega
    simp only [wire]
    rw [k5]
    exact ⟨k1, by rw [k2, h2]; rfl⟩
  | .usize, _, _, hp, _, _, _ | .bool, _, _, hp, _, _, _ | .char, _, _, hp, _, _, _ | .nonZero _, _, _, hp, _, _, _
  | .atomic _, _, _, hp, _, _, _ | .ipv4, _, _, hp, _, _, _ | .ipv6, _, _, hp, _, _, _ | .ipAddr, _, _, hp, _, _, _
  | .duration, _, _, hp, _, _, _ | .systemTime, _, _, hp, _, _, _ | .endianness, _, _, hp, _, _, _
  | .varint64, _, _, hp, _, _, _ | .uuid, _, _, hp, _, _, _ | .str _, _, _, hp, _, _, _ | .seq _ _, _, _, hp, _, _, _
  | .set _, _, _, hp, _, _, _ | .map _ _, _, _, hp, _, _, _ | .array _ _, _, _, hp, _, _, _
  | .refArray _ _, _, _, hp, _, _, _
  | .option _, _, _, hp, _, _, _ | .result _ _, _, _, hp, _, _, _ | .range _, _, _, hp, _, _, _
  | .rangeInc _, _, _, hp, _, _, _
  | .unit, _, _, hp, _, _, _ | .pair _ _, _, _, hp, _, _, _ | .box _, _, _, hp, _, _, _ | .via _ _, _, _, hp, _, _, _
  | .enum _ _, _, _, hp, _, _, _ => by
    simp [isPrimitive] at hp
theorem toMemFields_wire {T : Target} {r : Bool} : ∀ (fs : Fields) (prev : List Val) (v : Val),
    fieldsPrimitive T fs = true → layoutOkFields T fs = true → fs.canBePrimitive = true →
    bulkPlainFields fs = true → hasTyFields T fs v →
    ∃ bs, wireFields ⟨T.native, r⟩ fs prev v = .ok bs ∧ bs.length = fs.sizeSum T ∧
      ∀ offs pre m, offs.length = fs.length → Tiled pre.length (offs.zip (fs.sizes T)) →
        fs.sizeSum T ≤ m.length →
        toMemFields T fs offs v (pre ++ m) = pre ++ bs ++ m.drop (fs.sizeSum T)
  | .nil, prev, v, _, _, _, _, hv => by
    cases v <;> simp only [hasTyFields] at hv
    refine ⟨[], by simp [wireFields], rfl, ?_⟩
    intro offs pre m _ _ _
    cases offs <;> simp [toMemFields, Fields.sizeSum]
  | .cons a t fs, prev, v, hp, hl, hc, hb, hv => by
    cases v with
    | pair v rest =>
      simp only [fieldsPrimitive, Bool.and_eq_true] at hp
      simp only [layoutOkFields, Bool.and_eq_true] at hl
      simp only [Fields.canBePrimitive, Bool.and_eq_true] at hc
      simp only [bulkPlainFields, Bool.and_eq_true] at hb
      simp only [hasTyFields] at hv
      obtain ⟨a1, a2, a3, a4, a5⟩ := Attrs.plain hc.1
      obtain ⟨t1, t2⟩ := toMem_wire (r := r) t (a.wlen prev) v hp.1 hl.1 hb.1 hv.1
      obtain ⟨bs, k1, k2, k3⟩ := toMemFields_wire (r := r) fs (prev ++ [v]) rest hp.2 hl.2 hc.2 hb.2 hv.2
      refine ⟨toMem T t v ++ bs, ?_, ?_, ?_⟩
      · simp [wireFields, a3, a4, a5, t1, k1, cat]
      · simp [Fields.sizeSum, t2, k2]
      · intro offs pre m ho ht hm
        cases offs with
        | nil => simp [Fields.length] at ho
        | cons off offs =>
          simp only [Fields.length, List.length_cons] at ho
          simp only [Fields.sizes, List.zip_cons_cons, Tiled] at ht
          simp only [Fields.sizeSum] at hm
          simp only [toMemFields]
          have hsp : splice (pre ++ m) off (toMem T t v) = (pre ++ toMem T t v) ++ m.drop (sizeOf T t) := by
            rcases ht.1 with h | h
            · have : toMem T t v = [] := List.eq_nil_of_length_eq_zero (by omega)
              rw [this, splice_nil]; simp [h]
            · rw [h]; exact splice_mid _ _ _ _ t2
          rw [hsp, k3 offs (pre ++ toMem T t v) (m.drop (sizeOf T t)) (by omega)
            (by rw [List.length_append, t2]; exact ht.2) (by simp; omega)]
          simp [Fields.sizeSum, List.drop_drop, List.append_assoc]
    | _ => simp [hasTyFields] at hv
end

mutual
/-- Values of one byte have no byte order. -/
theorem wire_small {T : Target} {e e' : Endian} {r : Bool} : ∀ (t : Ty) (l : LenR) (v : Val),
    isPrimitive T t = true → layoutOk T t = true → bulkPlain t = true → sizeOf T t ≤ 1 →
    wire ⟨e, r⟩ t l v = wire ⟨e', r⟩ t l v
  | .prim p, l, v, _, _, _, hs => by
    cases v <;> simp only [wire]
    rw [bytes_small e e' _ _ (by simpa [sizeOf] using hs)]
  | .struct d fs, l, v, hp, hl, hb, hs => by
    simp only [layoutOk, Bool.and_eq_true] at hl
    simp only [bulkPlain, Bool.and_eq_true] at hb
    obtain ⟨h1, h2, h3, h4⟩ := prim_struct hp hl.1
    simp only [wire]
    exact wireFields_small fs [] v h1 hl.2 hb.1 hb.2 (by rw [h2]; exact hs)
  | .usize, _, _, hp, _, _, _ | .bool, _, _, hp, _, _, _ | .char, _, _, hp, _, _, _ | .nonZero _, _, _, hp, _, _, _
  | .atomic _, _, _, hp, _, _, _ | .ipv4, _, _, hp, _, _, _ | .ipv6, _, _, hp, _, _, _ | .ipAddr, _, _, hp, _, _, _
  | .duration, _, _, hp, _, _, _ | .systemTime, _, _, hp, _, _, _ | .endianness, _, _, hp, _, _, _
  | .varint64, _, _, hp, _, _, _ | .uuid, _, _, hp, _, _, _ | .str _, _, _, hp, _, _, _ | .seq _ _, _, _, hp, _, _, _
  | .set _, _, _, hp, _, _, _ | .map _ _, _, _, hp, _, _, _ | .array _ _, _, _, hp, _, _, _
  | .refArray _ _, _, _, hp, _, _, _
  | .option _, _, _, hp, _, _, _ | .result _ _, _, _, hp, _, _, _ | .range _, _, _, hp, _, _, _
  | .rangeInc _, _, _, hp, _, _, _
  | .unit, _, _, hp, _, _, _ | .pair _ _, _, _, hp, _, _, _ | .box _, _, _, hp, _, _, _ | .via _ _, _, _, hp, _, _, _
  | .enum _ _, _, _, hp, _, _, _ => by
    simp [isPrimitive] at hp
theorem wireFields_small {T : Target} {e e' : Endian} {r : Bool} : ∀ (fs : Fields) (prev : List Val) (v : Val),
    fieldsPrimitive T fs = true → layoutOkFields T fs = true → fs.canBePrimitive = true →
    bulkPlainFields fs = true → fs.sizeSum T ≤ 1 →
    wireFields ⟨e, r⟩ fs prev v = wireFields ⟨e', r⟩ fs prev v
  | .nil, prev, v, _, _, _, _, _ => by cases v <;> simp [wireFields]
  | .cons a t fs, prev, v, hp, hl, hc, hb, hs => by
    simp only [fieldsPrimitive, Bool.and_eq_true] at hp
    simp only [layoutOkFields, Bool.and_eq_true] at hl
    simp only [Fields.canBePrimitive, Bool.and_eq_true] at hc
    simp only [bulkPlainFields, Bool.and_eq_true] at hb
    simp only [Fields.sizeSum] at hs
    obtain ⟨a1, a2, a3, a4, a5⟩ := Attrs.plain hc.1
    cases v <;> simp only [wireFields, a3, a4, Bool.false_eq_true, if_false]
    rw [wire_small (e := e) (e' := e') t _ _ hp.1 hl.1 hb.1 (by omega),
      wireFields_small (e := e) (e' := e') fs _ _ hp.2 hl.2 hc.2 hb.2 (by omega)]
end

/-- The memory of a bulk-copied value is its encoding, in native byte order or
if it has one byte. -/
theorem toMem_native {T : Target} {e : Endian} {r : Bool} {t : Ty} {l : LenR} {v : Val}
    (hp : isPrimitive T t = true) (hl : layoutOk T t = true) (hb : bulkPlain t = true) (hv : hasTy T t v)
    (hn : (sizeOf T t == 1 || !e.conv T.toHost) = true) :
    wire ⟨e, r⟩ t l v = .ok (toMem T t v) := by
  by_cases hc : e.conv T.toHost = true
  · have hs : sizeOf T t = 1 := by simpa [hc] using hn
    rw [wire_small (e' := T.native) t l v hp hl hb (by omega)]
    exact (toMem_wire t l v hp hl hb hv).1
  · rw [Endian.not_conv (e := e) (h := T.toHost) (by simpa using hc)]
    exact (toMem_wire t l v hp hl hb hv).1

/-! ## All types -/

mutual
/-- Element types which are copied in bulk have no attributes inside
`repr(transparent)` structs (there the macro ignores them when it decides that
the type is plain memory). -/
def sliceOk (T : Target) : Ty → Bool
  | .seq _ t | .array _ t | .refArray _ t | .set t => (!isPrimitive T t || bulkPlain t) && sliceOk T t
  | .map a b => (!isPrimitive T a || bulkPlain a) && (!isPrimitive T b || bulkPlain b) && sliceOk T a && sliceOk T b
  | .option t | .range t | .rangeInc t | .box t | .via _ t => sliceOk T t
  | .result a b | .pair a b => sliceOk T a && sliceOk T b
  | .struct _ fs => sliceOkFields T fs
  | .enum _ vs => sliceOkVariants T vs
  | _ => true
/-- Fields. -/
def sliceOkFields (T : Target) : Fields → Bool
  | .nil => true
  | .cons _ t fs => sliceOk T t && sliceOkFields T fs
/-- Variants. -/
def sliceOkVariants (T : Target) : Variants → Bool
  | .nil => true
  | .cons _ fs vs => sliceOkFields T fs && sliceOkVariants T vs
end

/-- The format produced on a host: like the documented one, but the octets of
an `Ipv6Addr` are reversed if the byte order is the native one. -/
def Fmt.code (h : Host) (e : Endian) : Fmt := ⟨e, !e.conv h⟩

theorem writes_slice {T : Target} {e : Endian} {t : Ty} {f : Val → WProg} (vs : List Val)
    (hl : layoutOk T t = true) (hb : (!isPrimitive T t || bulkPlain t) = true) (hv : ∀ v ∈ vs, hasTy T t v)
    (hf : ∀ v ∈ vs, Writes T.toHost e (f v) (wire (Fmt.code T.toHost e) t LenR.std v)) :
    Writes T.toHost e (writeSlice T e t f vs) (catAll (wire (Fmt.code T.toHost e) t LenR.std) vs) := by
  unfold writeSlice
  split
  · rename_i hc
    simp only [Bool.and_eq_true] at hc
    have hb' : bulkPlain t = true := by simpa [hc.1] using hb
    have key : catAll (wire (Fmt.code T.toHost e) t LenR.std) vs = .ok (vs.map (toMem T t)).flatten := by
      clear hf
      induction vs with
      | nil => rfl
      | cons v vs ih =>
        simp only [catAll]
        rw [ih fun x hx => hv x (List.mem_cons_of_mem _ hx),
          show wire (Fmt.code T.toHost e) t LenR.std v = .ok (toMem T t v) from
            toMem_native hc.1 hl hb' (hv v List.mem_cons_self) hc.2]
        rfl
    rw [key]
    exact writes_raw _
  · exact writes_each vs hf

theorem Attrs.wcx_len (a : Attrs) (prev : List Val) : (a.wcx prev).len = a.wlen prev := by
  unfold Attrs.wcx Attrs.wlen
  split
  · rfl
  · cases a.len with
    | none => rfl
    | some k => cases k <;> rfl

theorem Cx.opt_len (cx : Cx) (t : Ty) : (cx.opt t).len = cx.len.opt t := by
  cases t <;> rfl

theorem u64_lt {T : Target} (hT : T.Ok) {n : Nat} (h : n ≤ T.usizeMax) : n < 2 ^ 64 := by
  have := hT.upper; omega

theorem isize_lt {T : Target} (hT : T.Ok) {n : Nat} (h : n ≤ T.isizeMax) : n < 2 ^ 64 := by
  have := hT.upper; have := hT.isize; omega

mutual
/-- Writing emits the encoding of the value. -/
theorem encode_wire {T : Target} (hT : T.Ok) {e : Endian} : ∀ (t : Ty) (cx : Cx) (v : Val),
    layoutOk T t = true → declOk t = true → sliceOk T t = true → hasTy T t v →
    Writes T.toHost e (encode T e t cx v) (wire (Fmt.code T.toHost e) t cx.len v)
  | .prim p, _, v, _, _, _, hv => by
    cases v <;> simp only [hasTy] at hv
    exact writes_one _ _
  | .usize, _, v, _, _, _, hv => by
    cases v <;> simp only [hasTy] at hv
    exact writes_one _ _
  | .bool, _, v, _, _, _, hv => by
    cases v with
    | bool b =>
      simp only [encode, wire]
      have : [if b then (1 : UInt8) else 0] = e.bytes 1 (if b then 1 else 0) := by
        cases b <;> cases e <;> rfl
      rw [this]
      exact writes_one _ _
    | _ => simp [hasTy] at hv
  | .char, _, v, _, _, _, hv => by
    cases v <;> simp only [hasTy] at hv
    exact writes_one _ _
  | .nonZero p, _, v, _, _, _, hv => by
    cases v <;> simp only [hasTy] at hv
    exact writes_one _ _
  | .atomic p, _, v, _, _, _, hv => by
    cases v <;> simp only [hasTy] at hv
    exact writes_one _ _
  | .ipv4, _, v, _, _, _, hv => by
    cases v <;> simp only [hasTy] at hv
    exact writes_one _ _
  | .ipv6, _, v, _, _, _, hv => by
    cases v <;> simp only [hasTy] at hv
    simp only [encode, wire, writeIpv6, Fmt.code]
    exact writes_raw _
  | .ipAddr, _, .variant 0 (.num x), _, _, _, _ => by
    simp only [encode, wire]
    exact writes_num 1 0 (writes_one 4 x) |> fun hh => by
      have h0 : e.bytes 1 0 = [0] := by cases e <;> rfl
      rwa [h0] at hh
  | .ipAddr, _, .variant 1 (.bytes bs), _, _, _, _ => by
    simp only [encode, wire, writeIpv6, Fmt.code]
    exact writes_num 1 1 (writes_raw _) |> fun hh => by
      have h0 : e.bytes 1 1 = [1] := by cases e <;> rfl
      rwa [h0] at hh
  | .duration, _, .pair (.num s) (.num n), _, _, _, _ => by
    simp only [encode, wire, writeDuration]
    exact writes_num 8 s (writes_one 4 n)
  | .systemTime, _, .pair (.num s) (.num n), _, _, _, _ => by
    simp only [encode, wire, writeDuration]
    split
    · exact writes_num 8 s (writes_one 4 n)
    · exact writes_fail _
  | .endianness, _, .variant 0 .unit, _, _, _, _ => by
    simp only [encode, wire]
    have h0 : [(0 : UInt8)] = e.bytes 1 0 := by cases e <;> rfl
    rw [h0]; exact writes_one _ _
  | .endianness, _, .variant 1 .unit, _, _, _, _ => by
    simp only [encode, wire]
    have h0 : [(1 : UInt8)] = e.bytes 1 1 := by cases e <;> rfl
    rw [h0]; exact writes_one _ _
  | .varint64, _, v, _, _, _, hv => by
    cases v <;> simp only [hasTy] at hv
    exact writes_varint hv
  | .uuid, _, v, _, _, _, hv => by
    cases v <;> simp only [hasTy] at hv
    exact writes_raw _
  | .str k, cx, v, _, _, _, hv => by
    cases v <;> simp only [hasTy] at hv
    exact writes_seq (writes_lenR (isize_lt hT hv.2) _) (writes_raw _)
  | .seq k t, cx, v, hl, hd, hs, hv => by
    cases v <;> simp only [hasTy] at hv
    simp only [layoutOk] at hl
    simp only [declOk] at hd
    simp only [sliceOk, Bool.and_eq_true] at hs
    exact writes_seq (writes_lenR (u64_lt hT hv.2.1) _)
      (writes_slice _ hl hs.1 hv.1 fun x hx => encode_wire hT t Cx.std x hl hd hs.2 (hv.1 x hx))
  | .set t, cx, v, hl, hd, hs, hv => by
    cases v <;> simp only [hasTy] at hv
    simp only [layoutOk] at hl
    simp only [declOk] at hd
    simp only [sliceOk, Bool.and_eq_true] at hs
    exact writes_seq (writes_lenR (u64_lt hT hv.2.2.1) _)
      (writes_each _ fun x hx => encode_wire hT t Cx.std x hl hd hs.2 (hv.1 x hx))
  | .map k t, cx, v, hl, hd, hs, hv => by
    cases v <;> simp only [hasTy] at hv
    simp only [layoutOk, Bool.and_eq_true] at hl
    simp only [declOk, Bool.and_eq_true] at hd
    simp only [sliceOk, Bool.and_eq_true] at hs
    refine writes_seq (writes_lenR (u64_lt hT hv.2.2.1) _) (writes_each _ fun x hx => ?_)
    obtain ⟨a, b, rfl, ha, hb⟩ := hv.1 x hx
    exact writes_seq (encode_wire hT k Cx.std a hl.1 hd.1 hs.1.2 ha)
      (encode_wire hT t Cx.std b hl.2 hd.2 hs.2 hb)
  | .array n t, cx, v, hl, hd, hs, hv => by
    cases v <;> simp only [hasTy] at hv
    simp only [layoutOk] at hl
    simp only [declOk] at hd
    simp only [sliceOk, Bool.and_eq_true] at hs
    have hn : ¬ (List.length _ ≠ n) := fun hh => hh hv.1
    simp only [encode, wire]
    rw [if_neg hn, if_neg hn]
    split
    · exact writes_slice _ hl hs.1 hv.2 fun x hx => encode_wire hT t Cx.std x hl hd hs.2 (hv.2 x hx)
    · exact writes_each _ fun x hx => encode_wire hT t Cx.std x hl hd hs.2 (hv.2 x hx)
  | .refArray n t, cx, v, hl, hd, hs, hv => by
    cases v <;> simp only [hasTy] at hv
    simp only [layoutOk] at hl
    simp only [declOk] at hd
    simp only [sliceOk, Bool.and_eq_true] at hs
    have hn : ¬ (List.length _ ≠ n) := fun hh => hh hv.1
    simp only [encode, wire]
    rw [if_neg hn, if_neg hn]
    exact writes_each _ fun x hx => encode_wire hT t Cx.std x hl hd hs.2 (hv.2 x hx)
  | .option t, cx, v, hl, hd, hs, hv => by
    simp only [layoutOk] at hl
    simp only [declOk] at hd
    simp only [sliceOk] at hs
    cases v with
    | none =>
      simp only [encode, wire]
      have h0 : [(0 : UInt8)] = e.bytes 1 0 := by cases e <;> rfl
      rw [h0]; exact writes_one _ _
    | some v =>
      simp only [hasTy] at hv
      simp only [encode, wire]
      have h0 : [(1 : UInt8)] = e.bytes 1 1 := by cases e <;> rfl
      rw [h0, ← Cx.opt_len]
      exact writes_num 1 1 (encode_wire hT t _ v hl hd hs hv)
    | _ => simp [hasTy] at hv
  | .result t er, cx, .variant 1 v, hl, hd, hs, hv => by
    simp only [layoutOk, Bool.and_eq_true] at hl
    simp only [declOk, Bool.and_eq_true] at hd
    simp only [sliceOk, Bool.and_eq_true] at hs
    simp only [hasTy] at hv
    simp only [encode, wire]
    have h0 : [(1 : UInt8)] = e.bytes 1 1 := by cases e <;> rfl
    rw [h0]
    exact writes_num 1 1 (encode_wire hT t Cx.std v hl.1 hd.1 hs.1 hv)
  | .result t er, cx, .variant 0 v, hl, hd, hs, hv => by
    simp only [layoutOk, Bool.and_eq_true] at hl
    simp only [declOk, Bool.and_eq_true] at hd
    simp only [sliceOk, Bool.and_eq_true] at hs
    simp only [hasTy] at hv
    simp only [encode, wire]
    have h0 : [(0 : UInt8)] = e.bytes 1 0 := by cases e <;> rfl
    rw [h0]
    exact writes_num 1 0 (encode_wire hT er Cx.std v hl.2 hd.2 hs.2 hv)
  | .range t, cx, .pair a (.pair b .unit), hl, hd, hs, hv => by
    simp only [layoutOk] at hl
    simp only [declOk] at hd
    simp only [sliceOk] at hs
    simp only [hasTy] at hv
    exact writes_seq (encode_wire hT t Cx.std a hl hd hs hv.1) (encode_wire hT t Cx.std b hl hd hs hv.2)
  | .rangeInc t, cx, .pair a (.pair b (.bool _)), hl, hd, hs, hv => by
    simp only [layoutOk] at hl
    simp only [declOk] at hd
    simp only [sliceOk] at hs
    simp only [hasTy] at hv
    exact writes_seq (encode_wire hT t Cx.std a hl hd hs hv.1) (encode_wire hT t Cx.std b hl hd hs hv.2)
  | .unit, _, v, _, _, _, hv => by
    cases v <;> simp only [hasTy] at hv
    exact writes_ok
  | .pair a b, cx, v, hl, hd, hs, hv => by
    simp only [layoutOk, Bool.and_eq_true] at hl
    simp only [declOk, Bool.and_eq_true] at hd
    simp only [sliceOk, Bool.and_eq_true] at hs
    cases v <;> simp only [hasTy] at hv
    exact writes_seq (encode_wire hT a Cx.std _ hl.1 hd.1 hs.1 hv.1)
      (encode_wire hT b Cx.std _ hl.2 hd.2 hs.2 hv.2)
  | .box t, cx, v, hl, hd, hs, hv => by
    simp only [layoutOk] at hl
    simp only [declOk] at hd
    simp only [sliceOk] at hs
    simp only [hasTy] at hv
    simp only [encode, wire]
    exact encode_wire hT t Cx.std v hl hd hs hv
  | .via c t, cx, v, hl, hd, hs, hv => by
    simp only [layoutOk] at hl
    simp only [declOk] at hd
    simp only [sliceOk] at hs
    simp only [hasTy] at hv
    simp only [encode, wire]
    exact encode_wire hT t Cx.std v hl hd hs hv.1
  | .struct d fs, cx, v, hl, hd, hs, hv => by
    simp only [layoutOk, Bool.and_eq_true] at hl
    simp only [declOk] at hd
    simp only [sliceOk] at hs
    simp only [hasTy] at hv
    simp only [encode, wire]
    exact encodeFields_wire hT fs [] v hl.2 hd hs hv
  | .enum d vs, cx, v, hl, hd, hs, hv => by
    simp only [layoutOk] at hl
    simp only [declOk, Bool.and_eq_true] at hd
    simp only [sliceOk] at hs
    cases v with
    | variant i v =>
      simp only [hasTy] at hv
      simp only [encode, wire]
      exact encodeVariants_wire hT d vs i v hl hd.1.2 hd.2 hs hv
    | _ => simp [hasTy] at hv
theorem encodeFields_wire {T : Target} (hT : T.Ok) {e : Endian} : ∀ (fs : Fields) (prev : List Val) (v : Val),
    layoutOkFields T fs = true → declOkFields fs = true → sliceOkFields T fs = true → hasTyFields T fs v →
    Writes T.toHost e (encodeFields T e fs prev v) (wireFields (Fmt.code T.toHost e) fs prev v)
  | .nil, _, v, _, _, _, hv => by
    cases v <;> simp only [hasTyFields] at hv
    exact writes_ok
  | .cons a t fs, prev, v, hl, hd, hs, hv => by
    simp only [layoutOkFields, Bool.and_eq_true] at hl
    simp only [declOkFields, Bool.and_eq_true] at hd
    simp only [sliceOkFields, Bool.and_eq_true] at hs
    cases v with
    | pair v rest =>
      simp only [hasTyFields] at hv
      simp only [encodeFields, wireFields]
      by_cases hsk : a.skip = true
      · rw [if_pos hsk, if_pos hsk]
        exact encodeFields_wire hT fs prev rest hl.2 hd.1.2 hs.2 hv.2
      rw [if_neg hsk, if_neg hsk]
      refine writes_seq ?_ (encodeFields_wire hT fs _ rest hl.2 hd.1.2 hs.2 hv.2)
      have hbody : Writes T.toHost e
          (if a.varint then (match (generalizing := false) v with | .num n => writeVarint T.toHost n | _ => .fail .illTyped)
            else encode T e t (a.wcx prev) v)
          (if a.varint then (match (generalizing := false) v with | .num n => .ok (specVarint n) | _ => .error .illTyped)
            else wire (Fmt.code T.toHost e) t (a.wlen prev) v) := by
        split
        · rename_i hvar
          have ht : t = .prim .u64 := by
            have := hd.1.1.1
            simp only [Attrs.declOk, hvar, Bool.and_eq_true] at this
            have h2 := this.2
            split at h2
            · rfl
            · simp at h2
          subst ht
          have hv1 := hv.1
          cases v <;> simp only [hasTy] at hv1
          exact writes_varint hv1
        · rw [← Attrs.wcx_len]
          exact encode_wire hT t _ v hl.1 hd.1.1.2 hs.1 hv.1
      by_cases hp : a.pre.isEmpty = true
      · rw [if_pos hp]
        have : a.pre = [] := by simpa using hp
        rw [this, cat_nil_left]
        exact hbody
      · rw [if_neg hp]
        exact writes_bytes _ hbody
    | _ => simp [hasTyFields] at hv
theorem encodeVariants_wire {T : Target} (hT : T.Ok) {e : Endian} (d : EnumDesc) : ∀ (vs : Variants) (i : Nat)
    (v : Val), layoutOkVariants T vs = true → vs.tags.all (· ≤ d.tagTy.max) = true → declOkVariants vs = true →
    sliceOkVariants T vs = true → hasTyVariants T vs i v →
    Writes T.toHost e (encodeVariants T e d vs i v) (wireVariants (Fmt.code T.toHost e) d vs i v)
  | .nil, _, _, _, _, _, _, hv => by simp [hasTyVariants] at hv
  | .cons tag fs vs, 0, v, hl, ht, hd, hs, hv => by
    simp only [layoutOkVariants, Bool.and_eq_true] at hl
    simp only [declOkVariants, Bool.and_eq_true] at hd
    simp only [sliceOkVariants, Bool.and_eq_true] at hs
    simp only [hasTyVariants] at hv
    simp only [Variants.tags, List.all_cons, Bool.and_eq_true, decide_eq_true_eq] at ht
    simp only [encodeVariants, wireVariants]
    refine writes_seq ?_ (encodeFields_wire hT fs [] v hl.1 hd.1 hs.1 hv)
    split
    · exact writes_ok
    · exact writes_lenRaw _ ht.1
  | .cons tag fs vs, i + 1, v, hl, ht, hd, hs, hv => by
    simp only [layoutOkVariants, Bool.and_eq_true] at hl
    simp only [declOkVariants, Bool.and_eq_true] at hd
    simp only [sliceOkVariants, Bool.and_eq_true] at hs
    simp only [hasTyVariants] at hv
    simp only [Variants.tags, List.all_cons, Bool.and_eq_true, decide_eq_true_eq] at ht
    simp only [encodeVariants, wireVariants]
    exact encodeVariants_wire hT d vs i v hl.2 ht.2 hd.2 hs.2 hv
end

end Verif
