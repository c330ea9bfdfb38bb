import Verif.PropsRoundTrip

/-!
# C74: types with the same format are interchangeable

What was written as a `&[T]` may be read as a `Vec<T>`, a `HashMap<K, V>` as a `Vec<(K, V)>`, an `Atomic` as a number, a struct as a tuple.
-/

namespace Verif

/-- Something which is written: a value, with the length attribute of its place; the elements of a container; the fields from some place on, with the
values before. -/
inductive Piece where
  | one (l : LenR) (t : Ty) (v : Val)
  | all (t : Ty) (vs : List Val)
  | fields (fs : Fields) (prev : List Val) (v : Val)

/-- A number as a value, for each byte. -/
def byteVals (bs : Bytes) : List Val := bs.map fun b => .num b.toNat

/-- The tag and the fields of a variant. -/
def Variants.nth : Variants → Nat → Option (Nat × Fields)
  | .nil, _ => none
  | .cons tag fs _, 0 => some (tag, fs)
  | .cons _ _ vs, i + 1 => vs.nth i

/-- A tuple of two. -/
def Ty.two (a b : Ty) : Ty := .pair a (.pair b .unit)
def Val.two (a b : Val) : Val := .pair a (.pair b .unit)

/-- Two things, possibly of different types, which the documentation gives the same format. -/
inductive SameFormat : Piece → Piece → Prop
  | refl (p : Piece) : SameFormat p p
  | symm {p q : Piece} : SameFormat p q → SameFormat q p
  | trans {p q r : Piece} : SameFormat p q → SameFormat q r → SameFormat p r
  /- numbers -/
  | prim (l : LenR) {p q : Prim} (n : Nat) : p.size = q.size → SameFormat (.one l (.prim p) (.num n)) (.one l (.prim q) (.num n))
  | nonZero (l : LenR) (p : Prim) (n : Nat) : SameFormat (.one l (.nonZero p) (.num n)) (.one l (.prim p) (.num n))
  | atomic (l : LenR) (p : Prim) (n : Nat) : SameFormat (.one l (.atomic p) (.num n)) (.one l (.prim p) (.num n))
  | usize (l : LenR) (n : Nat) : SameFormat (.one l .usize (.num n)) (.one l (.prim .u64) (.num n))
  | bool (l : LenR) (b : Bool) : SameFormat (.one l .bool (.bool b)) (.one l (.prim .u8) (.num b.toNat))
  | char (l : LenR) (n : Nat) : SameFormat (.one l .char (.num n)) (.one l (.prim .u32) (.num n))
  | ipv4 (l : LenR) (n : Nat) : SameFormat (.one l .ipv4 (.num n)) (.one l (.prim .u32) (.num n))
  | duration (l : LenR) (s n : Nat) :
      SameFormat (.one l .duration (.pair (.num s) (.num n))) (.one l (.two (.prim .u64) (.prim .u32)) (.two (.num s) (.num n)))
  /- strings and slices of any kind; also a set or map as a slice -/
  | str (l : LenR) (k k' : StrKind) (bs : Bytes) : SameFormat (.one l (.str k) (.bytes bs)) (.one l (.str k') (.bytes bs))
  | strBytes (l : LenR) (k : StrKind) (k' : SeqKind) (bs : Bytes) :
      SameFormat (.one l (.str k) (.bytes bs)) (.one l (.seq k' (.prim .u8)) (.list (byteVals bs)))
  | uuid (l : LenR) (bs : Bytes) : bs.length = 16 → SameFormat (.one l .uuid (.bytes bs)) (.one l (.array 16 (.prim .u8)) (.list (byteVals bs)))
  | seq (l : LenR) (k k' : SeqKind) {t t' : Ty} {vs vs' : List Val} : SameFormat (.all t vs) (.all t' vs') → vs.length = vs'.length →
      SameFormat (.one l (.seq k t) (.list vs)) (.one l (.seq k' t') (.list vs'))
  | set (l : LenR) (k : SeqKind) (t : Ty) (vs : List Val) : SameFormat (.one l (.set t) (.list vs)) (.one l (.seq k t) (.list vs))
  | map (l : LenR) (k : SeqKind) (t u : Ty) {vs : List Val} : (∀ kv ∈ vs, ∃ a b, kv = .two a b) →
      SameFormat (.one l (.map t u) (.list vs)) (.one l (.seq k (.two t u)) (.list vs))
  /- arrays -/
  | array (l : LenR) (n : Nat) {t t' : Ty} {vs vs' : List Val} : SameFormat (.all t vs) (.all t' vs') → vs.length = vs'.length →
      SameFormat (.one l (.array n t) (.list vs)) (.one l (.array n t') (.list vs'))
  | refArray (l : LenR) (n : Nat) (t : Ty) (vs : List Val) : SameFormat (.one l (.refArray n t) (.list vs)) (.one l (.array n t) (.list vs))
  | arrayNil (l : LenR) (t : Ty) : SameFormat (.one l (.array 0 t) (.list [])) (.one l .unit .unit)
  | arrayCons (l : LenR) (n : Nat) (t : Ty) (v : Val) {vs : List Val} : vs.length = n →
      SameFormat (.one l (.array (n + 1) t) (.list (v :: vs))) (.one l (.pair t (.array n t)) (.pair v (.list vs)))
  | nil (t t' : Ty) : SameFormat (.all t []) (.all t' [])
  | cons {t t' : Ty} {v v' : Val} {vs vs' : List Val} : SameFormat (.one .std t v) (.one .std t' v') → SameFormat (.all t vs) (.all t' vs') →
      SameFormat (.all t (v :: vs)) (.all t' (v' :: vs'))
  /- wrappers -/
  | box (t : Ty) (v : Val) : SameFormat (.one .std (.box t) v) (.one .std t v)
  | via (c : Conv) (t : Ty) (v : Val) : SameFormat (.one .std (.via c t) v) (.one .std t v)
  | single (t : Ty) (v : Val) : SameFormat (.one .std (.pair t .unit) (.pair v .unit)) (.one .std t v)
  /- `Option`, `Result`, ranges, tuples -/
  | none (l : LenR) (t t' : Ty) : SameFormat (.one l (.option t) .none) (.one l (.option t') .none)
  | some (l : LenR) {t t' : Ty} {v v' : Val} : SameFormat (.one (l.opt t) t v) (.one (l.opt t') t' v') →
      SameFormat (.one l (.option t) (.some v)) (.one l (.option t') (.some v'))
  | optionNone (l : LenR) (d : EnumDesc) (t : Ty) {vs : Variants} {i : Nat} : d.tagTy = .u8 → d.peek = false → vs.nth i = some (0, .nil) →
      SameFormat (.one l (.option t) .none) (.one l (.enum d vs) (.variant i .unit))
  | optionSome (d : EnumDesc) {t : Ty} {v : Val} {vs : Variants} {i : Nat} : d.tagTy = .u8 → d.peek = false →
      vs.nth i = some (1, .cons {} t .nil) → SameFormat (.one .std (.option t) (.some v)) (.one .std (.enum d vs) (.variant i (.pair v .unit)))
  | ok (l : LenR) {t t' : Ty} (u u' : Ty) {v v' : Val} : SameFormat (.one .std t v) (.one .std t' v') →
      SameFormat (.one l (.result t u) (.variant 1 v)) (.one l (.result t' u') (.variant 1 v'))
  | err (l : LenR) (t t' : Ty) {u u' : Ty} {v v' : Val} : SameFormat (.one .std u v) (.one .std u' v') →
      SameFormat (.one l (.result t u) (.variant 0 v)) (.one l (.result t' u') (.variant 0 v'))
  | range (l : LenR) (t : Ty) (a b : Val) : SameFormat (.one l (.range t) (.two a b)) (.one l (.two t t) (.two a b))
  | rangeInc (l : LenR) (t : Ty) (a b : Val) (x : Bool) : SameFormat (.one l (.rangeInc t) (.pair a (.pair b (.bool x)))) (.one l (.two t t) (.two a b))
  | pair (l : LenR) {t t' u u' : Ty} {a a' b b' : Val} : SameFormat (.one .std t a) (.one .std t' a') → SameFormat (.one .std u b) (.one .std u' b') →
      SameFormat (.one l (.pair t u) (.pair a b)) (.one l (.pair t' u') (.pair a' b'))
  /- structs and enums: with interchangeable fields; a struct without attributes is a tuple; a skipped field is not there -/
  | struct (l : LenR) (d d' : StructDesc) {fs fs' : Fields} {v v' : Val} : SameFormat (.fields fs [] v) (.fields fs' [] v') →
      SameFormat (.one l (.struct d fs) v) (.one l (.struct d' fs') v')
  | enum (l : LenR) {d d' : EnumDesc} {vs vs' : Variants} {i i' tag : Nat} {fs fs' : Fields} {v v' : Val} : d.tagTy = d'.tagTy → d.peek = d'.peek →
      vs.nth i = some (tag, fs) → vs'.nth i' = some (tag, fs') → SameFormat (.fields fs [] v) (.fields fs' [] v') →
      SameFormat (.one l (.enum d vs) (.variant i v)) (.one l (.enum d' vs') (.variant i' v'))
  | structNil (l : LenR) (d : StructDesc) : SameFormat (.one l (.struct d .nil) .unit) (.one l .unit .unit)
  | structCons (l : LenR) (d d' : StructDesc) (t : Ty) (fs : Fields) (v w : Val) : (∀ p, SameFormat (.fields fs p w) (.fields fs [] w)) →
      SameFormat (.one l (.struct d (.cons {} t fs)) (.pair v w)) (.one l (.pair t (.struct d' fs)) (.pair v w))
  | fieldsNil (p p' : List Val) : SameFormat (.fields .nil p .unit) (.fields .nil p' .unit)
  | field {a a' : Attrs} {t t' : Ty} {fs fs' : Fields} {p p' : List Val} {v v' w w' : Val} : a.skip = false → a'.skip = false →
      a.varint = false → a'.varint = false → a.pre = a'.pre → SameFormat (.one (a.wlen p) t v) (.one (a'.wlen p') t' v') →
      SameFormat (.fields fs (p ++ [v]) w) (.fields fs' (p' ++ [v']) w') →
      SameFormat (.fields (.cons a t fs) p (.pair v w)) (.fields (.cons a' t' fs') p' (.pair v' w'))
  | varint {a : Attrs} {t t' : Ty} {fs fs' : Fields} {p p' : List Val} {n : Nat} {w w' : Val} : a.skip = false → a.varint = true → a.pre = [] →
      SameFormat (.fields fs (p ++ [.num n]) w) (.fields fs' (p' ++ [.num n]) w') →
      SameFormat (.fields (.cons a t fs) p (.pair (.num n) w)) (.fields (.cons {} .varint64 fs') p' (.pair (.num n) w'))
  | skip {a : Attrs} {t : Ty} {fs fs' : Fields} {p p' : List Val} {v w w' : Val} : a.skip = true →
      SameFormat (.fields fs p w) (.fields fs' p' w') → SameFormat (.fields (.cons a t fs) p (.pair v w)) (.fields fs' p' w')

/-- The documented format of a piece. -/
def Piece.wire (F : Fmt) : Piece → Except Err Bytes
  | .one l t v => Verif.wire F t l v
  | .all t vs => catAll (Verif.wire F t LenR.std) vs
  | .fields fs p v => wireFields F fs p v


theorem LenR.std_eq : LenR.std = .typed .u32 false := rfl
theorem LenR.std_opt (t : Ty) : LenR.std.opt t = LenR.std := by cases t <;> rfl

theorem catAll_bytes (F : Fmt) (bs : Bytes) : catAll (wire F (.prim .u8) LenR.std) (byteVals bs) = .ok bs := by
  induction bs with
  | nil => rfl
  | cons b bs ih =>
    have : catAll (wire F (.prim .u8) LenR.std) (byteVals (b :: bs)) = cat (.ok (F.e.bytes 1 b.toNat)) (.ok bs) := by
      rw [← ih]; simp only [byteVals, List.map_cons, catAll, wire, Prim.size]
    rw [this, bytes_one]
    rfl

theorem wireVariants_nth {F : Fmt} {d : EnumDesc} : ∀ {vs : Variants} {i : Nat} {tag : Nat} {fs : Fields} (v : Val), vs.nth i = some (tag, fs) →
    wireVariants F d vs i v = cat (.ok (if d.peek then [] else wireNum F.e d.tagTy tag)) (wireFields F fs [] v)
  | .cons tag fs vs, 0, _, _, v, h => by
    simp only [Variants.nth, Option.some.injEq, Prod.mk.injEq] at h
    obtain ⟨rfl, rfl⟩ := h
    simp only [wireVariants]
  | .cons _ _ vs, i + 1, _, _, v, h => by
    simp only [wireVariants]
    exact wireVariants_nth (vs := vs) v h

/-- What has the same format is written in the same way. -/
theorem alike_wire (F : Fmt) {p q : Piece} (h : SameFormat p q) : p.wire F = q.wire F := by
  induction h with
  | refl => rfl
  | symm _ ih => exact ih.symm
  | trans _ _ ih ih' => exact ih.trans ih'
  | prim l n hs => simp only [Piece.wire, wire, hs]
  | nonZero | atomic | usize | char | ipv4 => simp only [Piece.wire, wire, Prim.size]
  | bool l b => cases b <;> simp only [Piece.wire, wire, Prim.size] <;> cases F.e <;> rfl
  | duration l s n => simp [Piece.wire, wire, Prim.size, Ty.two, Val.two, cat]
  | str => simp only [Piece.wire, wire]
  | strBytes l k k' bs => simp only [Piece.wire, wire, byteVals, List.length_map]; rw [← byteVals, catAll_bytes]
  | uuid l bs hb => simp only [Piece.wire, wire, byteVals, List.length_map, hb]; rw [← byteVals, catAll_bytes]; simp
  | seq l k k' _ hn ih => simp only [Piece.wire] at ih; simp only [Piece.wire, wire, hn, ih]
  | set l k t vs => simp only [Piece.wire, wire]
  | @map l k t u vs hk =>
    simp only [Piece.wire, wire]
    congr 1
    induction vs with
    | nil => rfl
    | cons kv vs ih =>
      obtain ⟨a, b, rfl⟩ := hk kv (.head _)
      simp only [catAll, ih fun kv h => hk kv (.tail _ h), Ty.two, Val.two, wire, cat_nil]
  | array l n _ hn ih => simp only [Piece.wire] at ih; simp only [Piece.wire, wire, hn, ih]
  | refArray => simp only [Piece.wire, wire]
  | arrayNil => simp [Piece.wire, wire, catAll]
  | arrayCons l n t v hn => simp [Piece.wire, wire, catAll, hn]
  | nil => simp only [Piece.wire, catAll]
  | cons _ _ ih ih' => simp only [Piece.wire] at ih ih'; simp only [Piece.wire, catAll, ih, ih']
  | box => simp only [Piece.wire, wire]
  | via => simp only [Piece.wire, wire]
  | single => simp only [Piece.wire, wire, cat_nil]
  | none => simp only [Piece.wire, wire]
  | some l _ ih => simp only [Piece.wire] at ih; simp only [Piece.wire, wire, ih]
  | optionNone l d t ht hp hn => simp only [Piece.wire, wire, wireVariants_nth _ hn, ht, hp, wireFields]; cases F.e <;> rfl
  | optionSome d ht hp hn =>
    simp only [Piece.wire, wire, wireVariants_nth _ hn, ht, hp, wireFields]
    have h1 : wireNum F.e .u8 1 = [1] := by cases F.e <;> rfl
    simp [h1, LenR.std_opt, Attrs.wlen, cat_nil, cat_nil_left, ← LenR.std_eq]
  | ok l u u' _ ih => simp only [Piece.wire] at ih; simp only [Piece.wire, wire, ih]
  | err l t t' _ ih => simp only [Piece.wire] at ih; simp only [Piece.wire, wire, ih]
  | range => simp only [Piece.wire, wire, Ty.two, Val.two, cat_nil]
  | rangeInc => simp only [Piece.wire, wire, Ty.two, Val.two, cat_nil]
  | pair l _ _ ih ih' => simp only [Piece.wire] at ih ih'; simp only [Piece.wire, wire, ih, ih']
  | struct l d d' _ ih => simp only [Piece.wire] at ih; simp only [Piece.wire, wire, ih]
  | enum l ht hp hn hn' _ ih =>
    simp only [Piece.wire] at ih
    simp only [Piece.wire, wire, wireVariants_nth _ hn, wireVariants_nth _ hn', ih, ht, hp]
  | structNil => simp only [Piece.wire, wire, wireFields]
  | structCons l d d' t fs v w _ ih =>
    simp only [Piece.wire] at ih
    simp [Piece.wire, wire, wireFields, Attrs.wlen, cat_nil_left, ih [v], ← LenR.std_eq]
  | fieldsNil => simp only [Piece.wire, wireFields]
  | field hs hs' hv hv' hp _ _ ih ih' =>
    simp only [Piece.wire] at ih ih'
    simp [Piece.wire, wireFields, hs, hs', hv, hv', hp, ih, ih']
  | varint hs hv hp _ ih =>
    simp only [Piece.wire] at ih
    simp [Piece.wire, wireFields, hs, hv, hp, ih, wire]
  | skip hs _ ih => simp only [Piece.wire] at ih; simp [Piece.wire, wireFields, hs, ih]

/-! ## C74 -/

section
variable {T : Target} (hT : T.Ok) {e : Endian} {t t' : Ty} {v v' : Val} (hf : SameFormat (.one .std t v) (.one .std t' v'))
  (hl : layoutOk T t = true) (hd : declOk t = true) (hs : sliceOk T t = true) (hv : hasTy T t v)
  (hl' : layoutOk T t' = true) (hd' : declOk t' = true) (hv' : hasTy T t' v')
include hT hf hl hd hs hv hl' hd' hv'

/-- **C74**: a value is written in the same way as any of the types which have its format; what can be written as one can be written as the other. -/
theorem C74_written_partial (hs' : sliceOk T t' = true) (junk junk' : Nat → UInt8) (bs : Bytes) :
    writeToVec T e t v junk = .ok bs ↔ writeToVec T e t' v' junk' = .ok bs := by
  have hw := alike_wire (Fmt.code T.toHost e) hf
  simp only [Piece.wire] at hw
  constructor
  · intro h
    obtain ⟨h1, h2⟩ := vec_inv hT hl hd hs hv h
    exact vec_ok hT hl' hd' hs' hv' (by rw [← hw]; exact h1) h2
  · intro h
    obtain ⟨h1, h2⟩ := vec_inv hT hl' hd' hs' hv' h
    exact vec_ok hT hl hd hs hv (by rw [hw]; exact h1) h2

variable (hr' : regular T e t' = true) (hc' : canon (Fmt.code T.toHost e) t' v') {bs : Bytes} {junk : Nat → UInt8}
  (hw : writeToVec T e t v junk = .ok bs) (he : ends true false t' = true)
include hr' hc' hw he

/-- **C74**: what was written as one type is read as another with the same format.

Full claim: for all types and values.  Missing: what is missing in C01 for the type which is read. -/
theorem C74_read_partial {base : Nat} (hm : InMem T base bs) : readFromBuffer T e t' base bs = .ok v' :=
  C01_round_trip_partial hT hl' hd' hr' hv' hc'
    ((C74_written_partial hT hf hl hd hs hv hl' hd' hv' (regular_slice t' hr') junk junk bs).1 hw) he hm

/-- C74 for `read_from_buffer_copying_data` and files. -/
theorem C74_read_copying_partial {base : Nat} (hn : noRefs t' = true) (hm : InMem T base bs) : readFromBufferCopying T e t' base bs = .ok v' :=
  C01_round_trip_copying_partial hT hl' hd' hr' hv' hc'
    ((C74_written_partial hT hf hl hd hs hv hl' hd' hv' (regular_slice t' hr') junk junk bs).1 hw) he hn hm

/-- C74 for both stream readers. -/
theorem C74_read_stream_partial {grow : Nat → Nat} (hg : ∀ n, n ≤ grow n) {buffered : Bool} {src : Src} (hn : noRefs t' = true) (hsrc : src.Clean)
    (hb : src.data = bs) (hF : Fits T bs) : (readFromStream T e t' grow buffered src).1 = .ok v' :=
  C01_round_trip_stream_partial hT hl' hd' hr' hv' hc'
    ((C74_written_partial hT hf hl hd hs hv hl' hd' hv' (regular_slice t' hr') junk junk bs).1 hw) hg he hn hsrc hb hF

end

/-! ## Cases -/

section
open Samples

/-- `HashMap<u8, &str>` … -/
def lentTable : Ty := .map (.prim .u8) (.str .ref)
/-- … and `Box<[(NonZeroU8, String)]>`. -/
def ownedTable : Ty := .box (.seq .vec (.two (.nonZero .u8) (.str .owned)))
def tableVal : Val := .list [.two (.num 7) (.bytes [0x68, 0x69]), .two (.num 9) (.bytes [])]

theorem table_alike : SameFormat (.one .std lentTable tableVal) (.one .std ownedTable tableVal) := by
  refine .trans (.map .std .vec (.prim .u8) (.str .ref) (by
    intro kv h; simp only [List.mem_cons, List.not_mem_nil, or_false] at h; rcases h with rfl | rfl <;> exact ⟨_, _, rfl⟩)) (.symm (.trans (.box _ _) (.symm ?_)))
  refine .seq .std .vec .vec ?_ rfl
  have h : ∀ (n : Nat) (bs : Bytes), SameFormat (.one .std (.two (.prim .u8) (.str .ref)) (.two (.num n) (.bytes bs)))
      (.one .std (.two (.nonZero .u8) (.str .owned)) (.two (.num n) (.bytes bs))) := fun n bs =>
    .pair _ (.symm (.nonZero _ _ _)) (.pair _ (.str _ _ _ _) (.refl _))
  exact .cons (h _ _) (.cons (h _ _) (.nil _ _))

/-- Written as the one, read as the other; the hypotheses of `C74_written_partial` and `C74_read_partial` hold. -/
example : writeToVec x64 .little lentTable tableVal (fun _ => 0) = .ok [2, 0, 0, 0, 7, 2, 0, 0, 0, 0x68, 0x69, 9, 0, 0, 0, 0] ∧
    readFromBuffer x64 .little ownedTable 4096 [2, 0, 0, 0, 7, 2, 0, 0, 0, 0x68, 0x69, 9, 0, 0, 0, 0] = .ok tableVal := by
  have hty : hasTy x64 lentTable tableVal := by
    refine ⟨?_, by decide, by decide, by decide⟩
    intro kv h; simp only [List.mem_cons, List.not_mem_nil, or_false] at h
    rcases h with rfl | rfl <;> exact ⟨_, _, rfl, by simp [hasTy, Prim.size], by simp only [hasTy]; decide⟩
  have hty' : hasTy x64 ownedTable tableVal := by
    simp [hasTy, ownedTable, tableVal, Val.two, Ty.two]; decide
  have hw : writeToVec x64 .little lentTable tableVal (fun _ => 0) = .ok [2, 0, 0, 0, 7, 2, 0, 0, 0, 0x68, 0x69, 9, 0, 0, 0, 0] := by decide +kernel
  exact ⟨hw, C74_read_partial x64_ok table_alike (by decide) (by decide) (by decide) hty (by decide) (by decide) hty' (by decide)
    (by simp [canon, ownedTable, tableVal, Ty.two, Val.two]) hw (by decide) ⟨by decide, by decide, by decide⟩⟩

/-- A struct without attributes is a tuple. -/
example (d : StructDesc) (a b : Nat) : SameFormat
    (.one .std (.struct d (.cons {} (.prim .u16) (.cons {} (.atomic .u32) .nil))) (.two (.num a) (.num b)))
    (.one .std (.two (.prim .u16) (.prim .u32)) (.two (.num a) (.num b))) :=
  .trans (.structCons _ _ d _ _ _ _ fun _ => .field rfl rfl rfl rfl rfl (.refl _) (.fieldsNil _ _))
    (.pair _ (.refl _) (.trans (.structCons _ _ d _ _ _ _ fun _ => .fieldsNil _ _) (.pair _ (.atomic _ _ _) (.structNil _ _))))

end

/-! ## Cases -/

section Cases
open Samples

theorem lentTable_ty : hasTy x64 lentTable tableVal := by
  refine ⟨?_, by decide, by decide, by decide⟩
  intro kv h; simp only [List.mem_cons, List.not_mem_nil, or_false] at h
  rcases h with rfl | rfl <;> exact ⟨_, _, rfl, by simp [hasTy, Prim.size], by simp only [hasTy]; decide⟩

theorem ownedTable_ty : hasTy x64 ownedTable tableVal := by
  simp [hasTy, ownedTable, tableVal, Val.two, Ty.two]; decide

theorem lentTable_vec : writeToVec x64 .little lentTable tableVal (fun _ => 0) = .ok [2, 0, 0, 0, 7, 2, 0, 0, 0, 0x68, 0x69, 9, 0, 0, 0, 0] := by
  decide +kernel

example (junk : Nat → UInt8) : writeToVec x64 .little ownedTable tableVal junk = .ok [2, 0, 0, 0, 7, 2, 0, 0, 0, 0x68, 0x69, 9, 0, 0, 0, 0] :=
  (C74_written_partial x64_ok table_alike (by decide) (by decide) (by decide) lentTable_ty (by decide) (by decide) ownedTable_ty (by decide)
    _ _ _).1 lentTable_vec

example : readFromBufferCopying x64 .little ownedTable 4096 [2, 0, 0, 0, 7, 2, 0, 0, 0, 0x68, 0x69, 9, 0, 0, 0, 0] = .ok tableVal :=
  C74_read_copying_partial x64_ok table_alike (by decide) (by decide) (by decide) lentTable_ty (by decide) (by decide) ownedTable_ty (by decide)
    (by simp [canon, ownedTable, tableVal, Ty.two, Val.two]) lentTable_vec (by decide) (by decide) ⟨by decide, by decide, by decide⟩

/-- Lent strings cannot be read from a stream, but those written so can be, as owned ones. -/
example : (readFromStream x64 .little ownedTable (· + 100) true
    ⟨[2, 0, 0, 0, 7, 2, 0, 0, 0, 0x68, 0x69, 9, 0, 0, 0, 0], [.give 5]⟩).1 = .ok tableVal :=
  C74_read_stream_partial x64_ok table_alike (by decide) (by decide) (by decide) lentTable_ty (by decide) (by decide) ownedTable_ty (by decide)
    (by simp [canon, ownedTable, tableVal, Ty.two, Val.two]) lentTable_vec (by decide) (fun n => by omega) (by decide) (by simp [Src.Clean])
    rfl ⟨by decide, by decide⟩

end Cases

end Verif
