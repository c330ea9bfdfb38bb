import Verif.RecursiveOk

/-!
# Recursive types: C44

Types which contain themselves or each other are given by templates `c`, in which enums without variants stand for the types themselves
(`Recursive.lean`).  Their functions in the library call each other with the same types; `unroll c n` are the types for values which
are nested less than `n` deep.  The theorems say that the depth does not matter: a value of a shallow unrolling is written in the same way, and
read back, by the functions of all deeper unrollings.
-/

namespace Verif

/-- What is required of templates, checked for two unrollings. -/
structure TemplateOk (T : Target) (e : Endian) (c : EnumDesc → Ty) : Prop where
  /-- The size of a type does not depend on what is behind pointers in it. -/
  blind : Blind T
  /-- The types contain themselves and each other behind pointers only. -/
  guarded : ∀ d, guarded (c d) = true
  /-- The conditions of the round trip (C01) hold for two unrollings. -/
  layout : ∀ d, layoutOk T (unroll c 1 d) = true ∧ layoutOk T (unroll c 2 d) = true
  decl : ∀ d, declOk (unroll c 1 d) = true ∧ declOk (unroll c 2 d) = true
  regular : ∀ d, regular T e (unroll c 1 d) = true ∧ regular T e (unroll c 2 d) = true
  ends : ∀ d tail strict, ends tail strict (unroll c 1 d) = ends tail strict (unroll c 2 d)
  ends' : ∀ d, Verif.ends true false (unroll c 1 d) = true
  starts : ∀ d, starts (unroll c 1 d) = starts (unroll c 2 d)
  elems : ∀ d, (unroll c 1 d).elemStarts = (unroll c 2 d).elemStarts
  refs : ∀ d, noRefs (unroll c 1 d) = noRefs (unroll c 2 d)
  /-- Sizes of elements do not grow with the second unrolling. -/
  room : ∀ d, roomy T (unroll c 0) (unroll c 1) (c d) = true

section
variable {T : Target} {e : Endian} {c : EnumDesc → Ty} (hK : TemplateOk T e c)
include hK

theorem alike_next : ∀ n d, Alike T e (unroll c (n + 1) d) (unroll c (n + 2) d)
  | 0, d => by
    refine ⟨?_, hK.starts d, hK.elems d, by rw [(hK.layout d).1, (hK.layout d).2], by rw [(hK.decl d).1, (hK.decl d).2],
      by rw [(hK.regular d).1, (hK.regular d).2], hK.ends d, hK.refs d⟩
    exact erase_guarded _ _ (c d) (hK.guarded d)
  | n + 1, d => alike_fill hK.blind (alike_next n) (c d)

theorem alike_first : ∀ n d, Alike T e (unroll c 1 d) (unroll c (n + 1) d)
  | 0, _ => ⟨rfl, rfl, rfl, rfl, rfl, rfl, fun _ _ => rfl, rfl⟩
  | n + 1, d => by
    have h1 := alike_first n d
    have h2 := alike_next hK n d
    exact ⟨h1.shape.trans h2.shape, h1.starts.trans h2.starts, h1.elems.trans h2.elems, h1.layout.trans h2.layout,
      h1.decl.trans h2.decl, h1.regular.trans h2.regular, fun a b => (h1.ends a b).trans (h2.ends a b), h1.noRefs.trans h2.noRefs⟩

/-- All unrollings from the second on are read as they are written. -/
theorem unroll_ok (n : Nat) (d : EnumDesc) : layoutOk T (unroll c (n + 1) d) = true ∧ declOk (unroll c (n + 1) d) = true ∧
    Verif.regular T e (unroll c (n + 1) d) = true ∧ Verif.ends true false (unroll c (n + 1) d) = true ∧
    noRefs (unroll c (n + 1) d) = noRefs (unroll c 1 d) := by
  have h := alike_first hK n d
  exact ⟨h.layout ▸ (hK.layout d).1, h.decl ▸ (hK.decl d).1, h.regular ▸ (hK.regular d).1, h.ends _ _ ▸ hK.ends' d, h.noRefs.symm⟩

/-- Values are values of deeper unrollings. -/
theorem hasTy_deeper : ∀ {n m : Nat}, n ≤ m → ∀ d v, hasTy T (unroll c (n + 1) d) v → hasTy T (unroll c (m + 1) d) v := by
  have hs : ∀ n d v, hasTy T (unroll c (n + 1) d) v → hasTy T (unroll c (n + 2) d) v := by
    intro n
    induction n with
    | zero => exact fun d v hv => hasTy_base (fun _ => noType_empty) (c d) v (hK.room d) hv
    | succ n ih => exact fun d v hv => hasTy_fill hK.blind (alike_next hK n) ih (c d) v hv
  intro n m h
  induction h with
  | refl => exact fun _ _ hv => hv
  | step _ ih => exact fun d v hv => hs _ d v (ih d v hv)

variable (hT : T.Ok) {n : Nat} {d : EnumDesc} {v : Val} {junk : Nat → UInt8} {bs : Bytes} (hv : hasTy T (unroll c (n + 1) d) v)
  (hw : writeToVec T e (unroll c (n + 1) d) v junk = .ok bs)
include hT hv

/-- **C44**: the bytes do not depend on how far the type is unrolled. -/
theorem C44_written_partial {m : Nat} (hm : n ≤ m) (junk' : Nat → UInt8) (hw : writeToVec T e (unroll c (n + 1) d) v junk = .ok bs) :
    writeToVec T e (unroll c (m + 1) d) v junk' = .ok bs := by
  obtain ⟨a1, a2, a3, _, _⟩ := unroll_ok hK n d
  obtain ⟨b1, b2, b3, _, _⟩ := unroll_ok hK m d
  obtain ⟨h1, h2⟩ := vec_inv hT a1 a2 (regular_slice _ a3) hv hw
  rw [(agree_unroll c (Nat.succ_le_succ hm) d).wire v hv] at h1
  exact vec_ok hT b1 b2 (regular_slice _ b3) (hasTy_deeper hK hm d v hv) h1 h2

variable (hc : canon (Fmt.code T.toHost e) (unroll c (n + 1) d) v)
include hw hc

/-- **C44**: reading what was written returns the value, whatever its depth: the functions for the recursive types behave on
this input like those of every unrolling which is deep enough.

Full claim: for all recursive types.  Missing: the exceptions of C01; types of which more than ten are needed to break all cycles. -/
theorem C44_round_trip_partial {m base : Nat} (hm : n ≤ m) (hi : InMem T base bs) :
    readFromBuffer T e (unroll c (m + 1) d) base bs = .ok v := by
  obtain ⟨b1, b2, b3, b4, _⟩ := unroll_ok hK m d
  exact C01_round_trip_partial hT b1 b2 b3 (hasTy_deeper hK hm d v hv) ((agree_unroll c (Nat.succ_le_succ hm) d).canon v hv hc)
    (C44_written_partial hK hT hv hm junk hw) b4 hi

/-- C44 for `read_from_buffer_copying_data`. -/
theorem C44_round_trip_copying_partial {m base : Nat} (hm : n ≤ m) (hn : noRefs (unroll c 1 d) = true) (hi : InMem T base bs) :
    readFromBufferCopying T e (unroll c (m + 1) d) base bs = .ok v := by
  obtain ⟨b1, b2, b3, b4, b5⟩ := unroll_ok hK m d
  exact C01_round_trip_copying_partial hT b1 b2 b3 (hasTy_deeper hK hm d v hv) ((agree_unroll c (Nat.succ_le_succ hm) d).canon v hv hc)
    (C44_written_partial hK hT hv hm junk hw) b4 (b5.trans hn) hi

/-- C44 for streams. -/
theorem C44_round_trip_stream_partial {m : Nat} (hm : n ≤ m) (hn : noRefs (unroll c 1 d) = true) {grow : Nat → Nat}
    (hg : ∀ n, n ≤ grow n) {buffered : Bool} {src : Src} (hs : src.Clean) (hb : src.data = bs) (hf : Fits T bs) :
    (readFromStream T e (unroll c (m + 1) d) grow buffered src).1 = .ok v := by
  obtain ⟨b1, b2, b3, b4, b5⟩ := unroll_ok hK m d
  exact C01_round_trip_stream_partial hT b1 b2 b3 (hasTy_deeper hK hm d v hv) ((agree_unroll c (Nat.succ_le_succ hm) d).canon v hv hc)
    (C44_written_partial hK hT hv hm junk hw) hg b4 (b5.trans hn) hs hb hf

end

/-! ## The minimum size -/

mutual
/-- The computation of the minimum size (`minimum_bytes_needed`) does not reach the type itself. -/
def minEnds : Ty → Bool
  | .array _ t | .range t | .rangeInc t | .box t | .via _ t => minEnds t
  | .refArray _ t => guarded t
  | .pair a b => minEnds a && minEnds b
  | .struct _ fs => minEndsFields fs
  | .enum _ .nil => false
  | _ => true
/-- Fields. -/
def minEndsFields : Fields → Bool
  | .nil => true
  | .cons a t fs => (a.defaultOnEof || a.skip || a.len.isSome || a.varint || minEnds t) && (match a.len with | some _ => guarded t | _ => true) &&
      minEndsFields fs
end

mutual
/-- The minimum size is the same whatever the type itself is: its computation does not call itself. -/
theorem min_fill {T : Target} (hB : Blind T) (u u' : EnumDesc → Ty) : ∀ (c : Ty), minEnds c = true → minBytes T (fill u c) = minBytes T (fill u' c)
  | .array n t, h | .range t, h | .rangeInc t, h | .box t, h | .via _ t, h => by
    simp only [minEnds] at h
    simp only [fill, minBytes, min_fill hB u u' t h]
  | .refArray n t, h => by
    simp only [minEnds] at h
    simp only [fill, minBytes]
    rw [sizeOf_erase hB, erase_guarded u u' t h, ← sizeOf_erase hB]
  | .pair a b, h => by
    simp only [minEnds, Bool.and_eq_true] at h
    simp only [fill, minBytes, min_fill hB u u' a h.1, min_fill hB u u' b h.2]
  | .struct d fs, h => by
    simp only [minEnds] at h
    simp only [fill, minBytes, minFields_fill hB u u' fs h]
  | .enum d .nil, h => by simp [minEnds] at h
  | .enum d (.cons tag fs vs), h => by simp only [fill, minBytes]
  | .prim _, _ | .usize, _ | .bool, _ | .char, _ | .nonZero _, _ | .atomic _, _
  | .ipv4, _ | .ipv6, _ | .ipAddr, _ | .duration, _ | .systemTime, _ | .endianness, _
  | .varint64, _ | .uuid, _ | .str _, _ | .unit, _ | .seq _ _, _ | .set _, _ | .map _ _, _ | .option _, _ | .result _ _, _ => by
    simp only [fill, minBytes]
theorem minFields_fill {T : Target} (hB : Blind T) (u u' : EnumDesc → Ty) : ∀ (fs : Fields), minEndsFields fs = true →
    fieldsMin T (fillFields u fs) = fieldsMin T (fillFields u' fs)
  | .nil, _ => rfl
  | .cons a t fs, h => by
    simp only [minEndsFields, Bool.and_eq_true] at h
    simp only [fillFields, fieldsMin, minFields_fill hB u u' fs h.2]
    congr 1
    by_cases hd : (a.defaultOnEof || a.skip) = true
    · rw [if_pos hd, if_pos hd]
    · rw [if_neg hd, if_neg hd]
      have h1 := h.1
      cases hlen : a.len with
      | none =>
        rw [hlen] at h1
        simp only [Option.isSome, Bool.or_false, Bool.or_eq_true, and_true] at h1
        simp only
        by_cases hva : a.varint = true
        · rw [if_pos hva, if_pos hva]
        · rw [if_neg hva, if_neg hva]
          have : minEnds t = true := by
            rcases h1 with (h1 | h1) | h1
            · exact absurd (by simpa using h1) hd
            · exact absurd h1 hva
            · exact h1
          rw [min_fill hB u u' t this]
      | some k =>
        rw [hlen] at h1
        cases k <;> try rfl
        congr 1
        cases t <;> try rfl
        rename_i d vs
        cases vs
        · simp [guarded] at h1
        · rfl
end

/-- **C44**: the minimum size of recursive types is the same at every depth. -/
theorem C44_minimum {T : Target} (hB : Blind T) {c : EnumDesc → Ty} {d : EnumDesc} (h : minEnds (c d) = true) (n m : Nat) :
    minBytes T (unroll c (n + 1) d) = minBytes T (unroll c (m + 1) d) := min_fill hB _ _ (c d) h

/-! ## Examples -/

/-! ## Deciding the conditions -/

/-- A group of types: the first one, and the others. The hole for the `i`-th of them has the name `i`. -/
def group (t : Ty) (ts : List Ty) : EnumDesc → Ty := fun d => (t :: ts).getD d.name t

/-- The conditions for one of the types. -/
def memberOk (T : Target) (e : Endian) (c : EnumDesc → Ty) (t : Ty) : Bool :=
  let t1 := fill (unroll c 0) t
  let t2 := fill (unroll c 1) t
  guarded t && layoutOk T t1 && layoutOk T t2 && declOk t1 && declOk t2 && regular T e t1 && regular T e t2 &&
  ends true true t1 == ends true true t2 && ends true false t1 == ends true false t2 && ends false true t1 == ends false true t2 &&
  ends false false t1 == ends false false t2 && ends true false t1 && starts t1 == starts t2 && t1.elemStarts == t2.elemStarts &&
  noRefs t1 == noRefs t2 && roomy T (unroll c 0) (unroll c 1) t

theorem group_mem (t : Ty) (ts : List Ty) (d : EnumDesc) : group t ts d ∈ t :: ts := by
  unfold group
  rw [List.getD_eq_getElem?_getD]
  cases h : (t :: ts)[d.name]? with
  | none => simp
  | some u => exact List.mem_of_getElem? h

/-- For a group of any number of types the conditions can be decided. -/
theorem group_ok {T : Target} {e : Endian} (hB : Blind T) {t : Ty} {ts : List Ty}
    (h : (t :: ts).all (memberOk T e (group t ts)) = true) : TemplateOk T e (group t ts) := by
  have key : ∀ d, memberOk T e (group t ts) (group t ts d) = true := fun d => List.all_eq_true.mp h _ (group_mem t ts d)
  simp only [memberOk, Bool.and_eq_true, beq_iff_eq] at key
  exact {
    blind := hB
    guarded := fun d => (key d).1.1.1.1.1.1.1.1.1.1.1.1.1.1.1
    layout := fun d => ⟨(key d).1.1.1.1.1.1.1.1.1.1.1.1.1.1.2, (key d).1.1.1.1.1.1.1.1.1.1.1.1.1.2⟩
    decl := fun d => ⟨(key d).1.1.1.1.1.1.1.1.1.1.1.1.2, (key d).1.1.1.1.1.1.1.1.1.1.1.2⟩
    regular := fun d => ⟨(key d).1.1.1.1.1.1.1.1.1.1.2, (key d).1.1.1.1.1.1.1.1.1.2⟩
    ends := fun d a b => by
      cases a <;> cases b
      · exact (key d).1.1.1.1.1.2
      · exact (key d).1.1.1.1.1.1.2
      · exact (key d).1.1.1.1.1.1.1.2
      · exact (key d).1.1.1.1.1.1.1.1.2
    ends' := fun d => (key d).1.1.1.1.2
    starts := fun d => (key d).1.1.1.2
    elems := fun d => (key d).1.1.2
    refs := fun d => (key d).1.2
    room := fun d => (key d).2 }

open Samples

theorem x64_blind : Blind x64 := fun _ => rfl

/-- One type which contains itself. -/
def alone (c : Ty) : EnumDesc → Ty := fun _ => c

theorem alone_group (c : Ty) : alone c = group c [] := by
  funext d
  unfold alone group
  rcases d with ⟨_, _, _ | n⟩ <;> rfl

theorem alone_ok {T : Target} {e : Endian} (hB : Blind T) {c : Ty} (h : memberOk T e (group c []) c = true) :
    TemplateOk T e (alone c) := by
  rw [alone_group]
  exact group_ok hB (by simpa using h)

/-- Its hole. -/
def self : EnumDesc := ⟨.u8, false, 0⟩

/-- `struct Tree { value: u32, children: Vec<Tree> }` -/
def treeT : Ty := .struct ⟨.rust, 32, 8, [24, 0], false⟩ (.cons {} (.prim .u32) (.cons {} (.seq .vec hole) .nil))

/-- `struct List { value: u8, next: Option<Box<List>> }` (the model gives all options the same size) -/
def listT : Ty := .struct ⟨.rust, 32, 8, [24, 0], false⟩ (.cons {} (.prim .u8) (.cons {} (.option (.box hole)) .nil))

/-- `enum Expr { Num(u64), Neg(Box<Expr>), Sum(Vec<Expr>) }` -/
def exprT : Ty := .enum ⟨.u32, false, 0⟩ (.cons 0 (.cons {} (.prim .u64) .nil) (.cons 1 (.cons {} (.box hole) .nil)
  (.cons 2 (.cons {} (.seq .vec hole) .nil) .nil)))

theorem tree_ok (e : Endian) : TemplateOk x64 e (alone treeT) := alone_ok x64_blind (by cases e <;> decide)

theorem list_ok (e : Endian) : TemplateOk x64 e (alone listT) := alone_ok x64_blind (by cases e <;> decide)

theorem expr_ok (e : Endian) : TemplateOk x64 e (alone exprT) := alone_ok x64_blind (by cases e <;> decide)

example : minBytes x64 (unroll (alone treeT) 1000 self) = 8 ∧ minBytes x64 (unroll (alone exprT) 1000 self) = 4 :=
  ⟨C44_minimum x64_blind (c := alone treeT) (d := self) (by decide) 999 0, C44_minimum x64_blind (c := alone exprT) (d := self) (by decide) 999 0⟩

/-- The list `0, …, n - 1` (modulo 256), backwards. -/
def countdown : Nat → Val
  | 0 => .pair (.num 0) (.pair .none .unit)
  | n + 1 => .pair (.num ((n + 1) % 256)) (.pair (.some (countdown n)) .unit)

theorem countdown_ty : ∀ n, hasTy x64 (unroll (alone listT) (n + 1) self) (countdown n)
  | 0 => by simp [unroll, alone, listT, fill, fillFields, countdown, hasTy, hasTyFields, Prim.size]
  | n + 1 => by
    have h := countdown_ty n
    rw [unroll]
    simp only [alone, listT, fill, fillFields, countdown, hasTy, hasTyFields, hole, and_true]
    exact ⟨Nat.mod_lt _ (by decide), h⟩

theorem countdown_canon (F : Fmt) : ∀ n, canon F (unroll (alone listT) (n + 1) self) (countdown n)
  | 0 => by simp [unroll, alone, listT, fill, fillFields, countdown, canon, canonFields]
  | n + 1 => by
    have h := countdown_canon F n
    rw [unroll]
    simp only [alone, listT, fill, fillFields, countdown, canon, canonFields, hole, self]
    exact ⟨trivial, h, trivial⟩

/-- Two bytes for each element. -/
def countdownBytes : Nat → Bytes
  | 0 => [0, 0]
  | n + 1 => UInt8.ofNat (n + 1) :: 1 :: countdownBytes n

theorem byte_u8 (e : Endian) (n : Nat) : e.bytes 1 (n % 256) = [UInt8.ofNat n] := by
  cases e <;> simp [Endian.bytes, leBytes, ← UInt8.ofNat_mod_size]

theorem countdown_wire (F : Fmt) : ∀ n, wire F (unroll (alone listT) (n + 1) self) LenR.std (countdown n) = .ok (countdownBytes n)
  | 0 => by
    have h := byte_u8 F.e 0
    rw [unroll]
    simp only [Nat.zero_mod] at h
    simp [alone, listT, fill, fillFields, countdown, wire, wireFields, countdownBytes, Prim.size, h, cat]
  | n + 1 => by
    have h := countdown_wire F n
    rw [unroll]
    simp only [alone, listT, fill, fillFields, countdown, wire, wireFields, hole, Prim.size, byte_u8]
    simp only [alone, listT, hole, self] at h
    simp [cat, h, countdownBytes]

/-- A list of any length is read back, at any depth of unrolling which suffices for it. -/
example (e : Endian) (n m : Nat) (hm : n ≤ m) (base : Nat) (hi : InMem x64 base (countdownBytes n)) :
    readFromBuffer x64 e (unroll (alone listT) (m + 1) self) base (countdownBytes n) = .ok (countdown n) := by
  obtain ⟨b1, b2, b3, _, _⟩ := unroll_ok (list_ok e) n self
  exact C44_round_trip_partial (list_ok e) x64_ok (junk := fun _ => 0) (countdown_ty n)
    (vec_ok x64_ok b1 b2 (regular_slice _ b3) (countdown_ty n) (countdown_wire _ n) hi.fits.mem) (countdown_canon _ n) hm hi

/-- `Expr::Sum(vec![Num(1), Neg(Num(2))])` -/
example : readFromBuffer x64 .little (unroll (alone exprT) 7 self) 4096
    [2, 0, 0, 0, 2, 0, 0, 0, 0, 0, 0, 0, 1, 0, 0, 0, 0, 0, 0, 0, 1, 0, 0, 0, 0, 0, 0, 0, 2, 0, 0, 0, 0, 0, 0, 0] =
    .ok (.variant 2 (.pair (.list [.variant 0 (.pair (.num 1) .unit),
      .variant 1 (.pair (.variant 0 (.pair (.num 2) .unit)) .unit)]) .unit)) := by
  decide +kernel

/-- The holes of two types which contain each other. -/
def folderHole : EnumDesc := ⟨.u8, false, 0⟩
/-- The second one. -/
def entryHole : EnumDesc := ⟨.u8, false, 1⟩

/-- `struct Folder { name: u16, entries: Vec<Entry> }` and `enum Entry { File(u32), Folder(Box<Folder>), Copies([Box<Entry>; 2]) }` -/
def folders (d : EnumDesc) : Ty :=
  if d.name = 1 then .enum ⟨.u8, false, 0⟩ (.cons 0 (.cons {} (.prim .u32) .nil) (.cons 1 (.cons {} (.box (.enum folderHole .nil)) .nil)
    (.cons 2 (.cons {} (.array 2 (.box (.enum entryHole .nil))) .nil) .nil)))
  else .struct ⟨.rust, 32, 8, [24, 0], false⟩ (.cons {} (.prim .u16) (.cons {} (.seq .vec (.enum entryHole .nil)) .nil))

theorem folders_group : folders = group (folders folderHole) [folders entryHole] := by
  funext d
  rcases d with ⟨_, _, _ | _ | n⟩ <;> rfl

theorem folders_ok (e : Endian) : TemplateOk x64 e folders := by
  rw [folders_group]
  exact group_ok x64_blind (by cases e <;> decide)

/-- Folders in folders, `n` deep. -/
def nested : Nat → Val
  | 0 => .pair (.num 0) (.pair (.list []) .unit)
  | n + 1 => .pair (.num ((n + 1) % 65536)) (.pair (.list [.variant 1 (.pair (nested n) .unit), .variant 0 (.pair (.num 7) .unit)]) .unit)

theorem enum_small (t : Ty) (h : (match t with | .enum _ _ => true | _ => false) = true) : sizeOf x64 t ≤ 24 := by
  cases t <;> simp at h
  unfold sizeOf
  simp only
  split
  · exact Nat.zero_le _
  · exact Nat.le_refl 24

theorem nested_ty : ∀ n, hasTy x64 (unroll folders (2 * n + 1) folderHole) (nested n)
  | 0 => by simp [unroll, folders, folderHole, fill, fillFields, nested, hasTy, hasTyFields, Prim.size, x64, Target.toHost]
  | n + 1 => by
    have h := nested_ty n
    rw [show 2 * (n + 1) + 1 = (2 * n + 1) + 1 + 1 from by omega, unroll]
    simp only [folders, folderHole, entryHole, show ((0 : Nat) = 1) = False from by simp, if_false, fill, fillFields, nested, hasTy, hasTyFields, and_true]
    refine ⟨Nat.mod_lt _ (by decide), ?_, ?_⟩
    · intro x hx
      simp only [List.mem_cons, List.not_mem_nil, or_false] at hx
      rw [unroll]
      simp only [folders, if_true, fill, fillFields, fillVariants]
      rcases hx with rfl | rfl
      · simpa only [hasTy, hasTyVariants, hasTyFields, and_true] using h
      · simp [hasTy, hasTyVariants, hasTyFields, Prim.size]
    · have := enum_small (unroll folders (2 * n + 1 + 1) entryHole) rfl
      simp only [List.length_cons, List.length_nil]
      refine ⟨by decide, ?_⟩
      exact Nat.le_trans (Nat.mul_le_mul_left _ this) (by decide)

theorem nested_canon (F : Fmt) : ∀ n, canon F (unroll folders (2 * n + 1) folderHole) (nested n)
  | 0 => by simp [unroll, folders, folderHole, fill, fillFields, nested, canon, canonFields]
  | n + 1 => by
    have h := nested_canon F n
    rw [show 2 * (n + 1) + 1 = (2 * n + 1) + 1 + 1 from by omega, unroll]
    simp only [folders, folderHole, entryHole, show ((0 : Nat) = 1) = False from by simp, if_false, fill, fillFields, nested, canon, canonFields, and_true]
    refine ⟨trivial, fun x hx => ?_⟩
    simp only [List.mem_cons, List.not_mem_nil, or_false] at hx
    rw [unroll]
    simp only [folders, if_true, fill, fillFields, fillVariants]
    rcases hx with rfl | rfl
    · simpa [canon, canonVariants, canonFields] using h
    · simp [canon, canonVariants, canonFields]

/-- Folders nested to any depth are read back. -/
example (e : Endian) (n m : Nat) (hm : 2 * n ≤ m) (base : Nat) (bs : Bytes) (hi : InMem x64 base bs)
    (hw : writeToVec x64 e (unroll folders (2 * n + 1) folderHole) (nested n) (fun _ => 0) = .ok bs) :
    readFromBuffer x64 e (unroll folders (m + 1) folderHole) base bs = .ok (nested n) :=
  C44_round_trip_partial (folders_ok e) x64_ok (nested_ty n) hw (nested_canon _ n) hm hi

/-- `Folder { name: 1, entries: vec![Entry::Folder(Folder { name: 2, entries: vec![Entry::File(3)] }), Entry::File(4)] }` -/
example : readFromBuffer x64 .little (unroll folders 7 folderHole) 4096
    [1, 0, 2, 0, 0, 0, 1, 2, 0, 1, 0, 0, 0, 0, 3, 0, 0, 0, 0, 4, 0, 0, 0] =
    .ok (.pair (.num 1) (.pair (.list [.variant 1 (.pair (.pair (.num 2) (.pair (.list [.variant 0 (.pair (.num 3) .unit)]) .unit)) .unit),
      .variant 0 (.pair (.num 4) .unit)]) .unit)) := by
  decide +kernel

/-! ## Cases -/

section Cases
open Samples

example (e : Endian) (n m : Nat) (hm : n ≤ m) (base : Nat) (hi : InMem x64 base (countdownBytes n)) :
    readFromBufferCopying x64 e (unroll (alone listT) (m + 1) self) base (countdownBytes n) = .ok (countdown n) ∧
    (∀ k, (readFromStream x64 e (unroll (alone listT) (m + 1) self) (· + 100) true ⟨countdownBytes n, [.give (k + 1)]⟩).1 = .ok (countdown n)) ∧
    writeToVec x64 e (unroll (alone listT) (m + 1) self) (countdown n) (fun _ => 0) = .ok (countdownBytes n) := by
  obtain ⟨b1, b2, b3, _, _⟩ := unroll_ok (list_ok e) n self
  have hw : writeToVec x64 e (unroll (alone listT) (n + 1) self) (countdown n) (fun _ => 0) = .ok (countdownBytes n) :=
    vec_ok x64_ok b1 b2 (regular_slice _ b3) (countdown_ty n) (countdown_wire _ n) hi.fits.mem
  exact ⟨C44_round_trip_copying_partial (list_ok e) x64_ok (countdown_ty n) hw (countdown_canon _ n) hm (by decide) hi,
    fun k => C44_round_trip_stream_partial (list_ok e) x64_ok (countdown_ty n) hw (countdown_canon _ n) hm (by decide)
      (fun n => by omega) (by simp [Src.Clean]) rfl hi.fits,
    C44_written_partial (list_ok e) x64_ok (countdown_ty n) hm _ hw⟩

end Cases

end Verif
