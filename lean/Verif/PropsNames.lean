import Verif.GenOk
import Verif.PropsBugs

/-!
# The names of fields (C87)

The macro puts the names of fields, and the expressions of `#[speedy(length = ...)]`, into code which has variables of its own: `_reader_`,
`_writer_`, `_length_`, `_flag_`, `kind_`.  `Gen` is that code.
-/

namespace Verif

open Gen Samples

/-- What the compiler and the macro ask for: fields have different names, `get_fields` accepts the attributes, and both generated functions
compile as far as names are concerned. -/
structure StructOk (ds : List FieldD) : Prop where
  nodup : (ds.map (·.name)).Nodup
  accepted : ∀ d ∈ ds, d.accepted = true
  reads : readChecks ds = true
  writes : writeChecks ds = true

/-- The same for an enum. -/
structure EnumOk (d : EnumDesc) (arms : List (Nat × List FieldD)) : Prop where
  nodup : ∀ a ∈ arms, (a.2.map (·.name)).Nodup
  accepted : ∀ a ∈ arms, ∀ f ∈ a.2, f.accepted = true
  reads : readEnumChecks arms = true
  writes : writeEnumChecks d arms = true

/-- The generated `read_from` of a struct reads the fields in their order, each by its own type and attributes, where the variables in a
length are the preceding fields — whatever the names. -/
theorem C87_read (T : Target) (e : Endian) (d : StructDesc) {ds : List FieldD} (h : StructOk ds) :
    readStruct T e ds = Prog.bind (decode T e (.struct d (fieldsOf [] ds)) Cx.std) fun r => .ret (some r) :=
  readStruct_eq h.nodup h.accepted h.reads (closed_struct h.nodup h.accepted h.reads h.writes)

/-- The generated `write_to` of a struct. -/
theorem C87_write (T : Target) (e : Endian) (d : StructDesc) {ds : List FieldD} (h : StructOk ds) {vs : List Val} (hl : ds.length = vs.length)
    (hty : hasTy T (.struct d (fieldsOf [] ds)) (chain vs .unit)) :
    writeStruct T e ds vs = some (encode T e (.struct d (fieldsOf [] ds)) Cx.std (chain vs .unit)) :=
  writeStruct_eq hl h.nodup h.accepted h.writes (closed_struct h.nodup h.accepted h.reads h.writes) hty

/-- Other names, in the lengths too, change nothing; if they compile. -/
theorem C87_rename (T : Target) (e : Endian) (d : StructDesc) {ρ : Ident → Ident} (hρ : ∀ x y, ρ x = ρ y → x = y) {ds : List FieldD} (h : StructOk ds)
    (h' : StructOk (ds.map (·.rename ρ))) :
    readStruct T e (ds.map (·.rename ρ)) = readStruct T e ds ∧
      ∀ vs, ds.length = vs.length → hasTy T (.struct d (fieldsOf [] ds)) (chain vs .unit) →
        writeStruct T e (ds.map (·.rename ρ)) vs = writeStruct T e ds vs := by
  have hf : fieldsOf [] (ds.map (·.rename ρ)) = fieldsOf [] ds := fieldsOf_rename hρ ds []
  refine ⟨by rw [C87_read T e d h, C87_read T e d h', hf], fun vs hl hty => ?_⟩
  rw [C87_write T e d h hl hty, C87_write T e d h' (by simpa using hl) (by rw [hf]; exact hty), hf]

/-- Which names compile: all except `_reader_` and `_writer_`.  In particular `_length_`, `_flag_` and `kind_` do. -/
theorem C87_compiles {ρ : Ident → Ident} (hρ : ∀ x y, ρ x = ρ y → x = y) {ds : List FieldD} (h : StructOk ds)
    (hr : ∀ d ∈ ds, ρ d.name ≠ readerId) (hw : ∀ d ∈ ds, ρ d.name ≠ writerId) : StructOk (ds.map (·.rename ρ)) := by
  have hcl := closed_rename (ρ := ρ) (closed_struct h.nodup h.accepted h.reads h.writes)
  refine ⟨nodup_rename hρ h.nodup, ?_, readChecks_of ?_ hcl, writeChecks_of ?_ hcl⟩
  · intro d hd
    obtain ⟨d', hd', rfl⟩ := List.mem_map.mp hd
    rw [accepted_rename]
    exact h.accepted d' hd'
  · rw [names_rename, List.map_map]
    intro hm
    obtain ⟨d, hd, hn⟩ := List.mem_map.mp hm
    exact hr d hd hn
  · intro hm
    have := kept_sub hm
    rw [names_rename, List.map_map] at this
    obtain ⟨d, hd, hn⟩ := List.mem_map.mp this
    exact hw d hd hn

/-- Enums, if no field is called `kind_`. -/
theorem C87_enum_partial (T : Target) (e : Endian) {d : EnumDesc} {arms : List (Nat × List FieldD)} (h : EnumOk d arms)
    (hkind : ∀ a ∈ arms, kindId ∉ a.2.map (·.name)) :
    readEnum T e d arms = Prog.bind (decode T e (.enum d (variantsOf arms)) Cx.std) (fun r => .ret (some r)) ∧
      ∀ i vs, (∀ a, arms[i]? = some a → a.2.length = vs.length) → hasTy T (.enum d (variantsOf arms)) (.variant i (chain vs .unit)) →
        writeEnum T e d arms i vs = some (encode T e (.enum d (variantsOf arms)) Cx.std (.variant i (chain vs .unit))) := by
  have hr := h.reads
  have hw := h.writes
  unfold readEnumChecks at hr
  unfold writeEnumChecks at hw
  rw [List.all_eq_true] at hr hw
  have hcl : ∀ a ∈ arms, (a.2.map (·.name)).Nodup ∧ (∀ f ∈ a.2, f.accepted = true) ∧ closed [] a.2 := by
    intro a ha
    have h1 := hr a ha
    have h2 := hw a ha
    simp only [Bool.and_eq_true] at h2
    exact ⟨h.nodup a ha, h.accepted a ha, closed_variant (h.nodup a ha) (h.accepted a ha) h1 h2.1 (hkind a ha)⟩
  refine ⟨readEnum_eq hcl h.reads, fun i vs hl hty => ?_⟩
  simp only [hasTy] at hty
  simp only [encode]
  exact writeEnum_eq hcl h.writes hl hty

theorem variantsOf_rename {ρ : Ident → Ident} (hρ : ∀ x y, ρ x = ρ y → x = y) : ∀ arms : List (Nat × List FieldD),
    variantsOf (arms.map fun a => (a.1, a.2.map (·.rename ρ))) = variantsOf arms
  | [] => rfl
  | (tag, ds) :: arms => by
    simp only [List.map_cons, variantsOf, variantsOf_rename hρ arms]
    congr 1
    exact fieldsOf_rename hρ ds []

/-- Other names for the fields of an enum, if none is `kind_` before or after. -/
theorem C87_enum_rename_partial (T : Target) (e : Endian) {ρ : Ident → Ident} (hρ : ∀ x y, ρ x = ρ y → x = y) {d : EnumDesc}
    {arms : List (Nat × List FieldD)} (h : EnumOk d arms) (h' : EnumOk d (arms.map fun a => (a.1, a.2.map (·.rename ρ))))
    (hkind : ∀ a ∈ arms, ∀ f ∈ a.2, f.name ≠ kindId ∧ ρ f.name ≠ kindId) :
    readEnum T e d (arms.map fun a => (a.1, a.2.map (·.rename ρ))) = readEnum T e d arms ∧
      ∀ i vs, (∀ a, arms[i]? = some a → a.2.length = vs.length) → hasTy T (.enum d (variantsOf arms)) (.variant i (chain vs .unit)) →
        writeEnum T e d (arms.map fun a => (a.1, a.2.map (·.rename ρ))) i vs = writeEnum T e d arms i vs := by
  have h1 := C87_enum_partial T e h (fun a ha hm => by
    obtain ⟨f, hf, hn⟩ := List.mem_map.mp hm
    exact (hkind a ha f hf).1 hn)
  have h2 := C87_enum_partial T e h' (fun a ha hm => by
    obtain ⟨a', ha', rfl⟩ := List.mem_map.mp ha
    rw [names_rename, List.map_map] at hm
    obtain ⟨f, hf, hn⟩ := List.mem_map.mp hm
    exact (hkind a' ha' f hf).2 hn)
  rw [variantsOf_rename hρ] at h2
  refine ⟨by rw [h1.1, h2.1], fun i vs hl hty => ?_⟩
  rw [h1.2 i vs hl hty, h2.2 i vs (fun a ha => ?_) hty]
  rw [List.getElem?_map] at ha
  cases hi : arms[i]? with
  | none => rw [hi] at ha; cases ha
  | some a' =>
    rw [hi] at ha
    simp only [Option.map_some, Option.some.injEq] at ha
    subst ha
    simpa using hl a' hi

/-! ## A struct whose fields are called like the variables of the macro -/

/-- The value of a number. -/
def numOf : List Val → Nat
  | [.num n] => n
  | _ => 0

/-- `struct S { n: u8, #[speedy(skip)] s: u16, #[speedy(length = n)] data: Vec<u8>, name: String }` -/
def plainNames : List FieldD :=
  [{ name := .named "n", ty := .prim .u8 },
   { name := .named "s", ty := .prim .u16, skip := true, dflt := .num 0 },
   { name := .named "data", ty := .seq .vec (.prim .u8), len := some (.expr ⟨[.named "n"], numOf⟩) },
   { name := .named "name", ty := .str .owned }]

/-- Exchange two names. -/
def swapId (a b x : Ident) : Ident := if x = a then b else if x = b then a else x

theorem swapId_inj (a b : Ident) (x y : Ident) (h : swapId a b x = swapId a b y) : x = y := by
  unfold swapId at h
  by_cases h1 : x = a <;> by_cases h2 : y = a
  · rw [h1, h2]
  · rw [if_pos h1, if_neg h2] at h
    by_cases h3 : y = b
    · rw [if_pos h3] at h; rw [h1, h3, h]
    · rw [if_neg h3] at h; exact absurd h.symm h3
  · rw [if_neg h1, if_pos h2] at h
    by_cases h3 : x = b
    · rw [if_pos h3] at h; rw [h2, h3, h]
    · rw [if_neg h3] at h; exact absurd h h3
  · rw [if_neg h1, if_neg h2] at h
    by_cases h3 : x = b <;> by_cases h4 : y = b
    · rw [h3, h4]
    · rw [if_pos h3, if_neg h4] at h; exact absurd h.symm h2
    · rw [if_neg h3, if_pos h4] at h; exact absurd h h1
    · rwa [if_neg h3, if_neg h4] at h

/-- `n` becomes `_length_`. -/
def toLength : Ident → Ident := swapId (.named "n") lengthId

theorem plainNames_ok : StructOk plainNames := ⟨by decide, by decide, by decide, by decide⟩

example : StructOk (plainNames.map (·.rename toLength)) :=
  C87_compiles (swapId_inj _ _) plainNames_ok (by decide) (by decide)

example (T : Target) (e : Endian) (d : StructDesc) : readStruct T e (plainNames.map (·.rename toLength)) = readStruct T e plainNames :=
  (C87_rename T e d (swapId_inj _ _) plainNames_ok (C87_compiles (swapId_inj _ _) plainNames_ok (by decide) (by decide))).1

/-- A tuple struct: `struct S(u8, #[speedy(skip)] u16, #[speedy(length = t0)] Vec<u8>, String)`. -/
example (T : Target) (e : Endian) (d : StructDesc) :
    readStruct T e (plainNames.map (·.rename (swapId (.named "n") (.nth 0)))) = readStruct T e plainNames :=
  (C87_rename T e d (swapId_inj _ _) plainNames_ok (C87_compiles (swapId_inj _ _) plainNames_ok (by decide) (by decide))).1

/-- The code of the renamed struct, on bytes. -/
example :
    ((readStruct x64 .little (plainNames.map (·.rename toLength))).run (bufferReader x64.toHost) (BufSt.init 4096 [2, 8, 9, 1, 0, 0, 0, 65])).1 =
      some (.ok (.pair (.num 2) (.pair (.num 0) (.pair (.list [.num 8, .num 9]) (.pair (.bytes [65]) .unit))))) := by
  decide

example : (writeStruct x64 .little (plainNames.map (·.rename toLength)) [.num 2, .num 7, .list [.num 8, .num 9], .bytes [65]]).map
    (fun p => (p.run (writingCollector x64.toHost .little) ⟨[], []⟩)) = some (.ok (), ⟨[2, 8, 9, 1, 0, 0, 0, 65], []⟩) := by
  decide

/-- Reading the renamed struct is reading the fields in their order. -/
example (T : Target) (e : Endian) (d : StructDesc) : readStruct T e (plainNames.map (·.rename toLength)) =
    Prog.bind (decode T e (.struct d (fieldsOf [] (plainNames.map (·.rename toLength)))) Cx.std) fun r => .ret (some r) :=
  C87_read T e d (C87_compiles (swapId_inj _ _) plainNames_ok (by decide) (by decide))

example (e : Endian) (d : StructDesc) : writeStruct x64 e plainNames [.num 2, .num 7, .list [.num 8, .num 9], .bytes [65]] =
    some (encode x64 e (.struct d (fieldsOf [] plainNames)) Cx.std (chain [.num 2, .num 7, .list [.num 8, .num 9], .bytes [65]] .unit)) :=
  C87_write x64 e d plainNames_ok rfl (by
    simp [plainNames, fieldsOf, chain, hasTy, hasTyFields, Prim.size, sizeOf]
    decide)

/-- A field called `_reader_` compiles if no field is read after it … -/
example : StructOk [{ name := .named "a", ty := .prim .u8 }, { name := readerId, ty := .prim .u8 }] := ⟨by decide, by decide, by decide, by decide⟩

/-- … and not otherwise. -/
example : readChecks [{ name := readerId, ty := .prim .u8 }, { name := .named "a", ty := .prim .u8 }] = false := by decide

/-- `struct S<'a> { #[speedy(varint)] n: u64, #[speedy(length = n)] data: &'a [u8], #[speedy(constant_prefix = b"S", default_on_eof)] last: u16 }` -/
def attributed : List FieldD :=
  [{ name := .named "n", ty := .prim .u64, varint := true },
    { name := .named "data", ty := .seq .ref (.prim .u8), len := some (.expr ⟨[.named "n"], numOf⟩) },
    { name := .named "last", ty := .prim .u16, pre := [0x53], defaultOnEof := true, dflt := .num 0 }]

theorem attributed_ok : StructOk attributed := ⟨by decide, by decide, by decide, by decide⟩

example (T : Target) (e : Endian) (d : StructDesc) : readStruct T e attributed =
    Prog.bind (decode T e (.struct d (fieldsOf [] attributed)) Cx.std) fun r => .ret (some r) := C87_read T e d attributed_ok

example : ((readStruct x64 .big attributed).run (bufferReader x64.toHost) (BufSt.init 4096 [2, 8, 9, 0x53, 1, 2])).1 =
    some (.ok (.pair (.num 2) (.pair (.list [.num 8, .num 9]) (.pair (.num 258) .unit)))) := by decide

/-- Other numbers cannot be `varint`, and only containers can have a `length`. -/
example : FieldD.accepted { name := .named "n", ty := .prim .u32, varint := true } = false ∧
    FieldD.accepted { name := .named "n", ty := .option (.str .owned), len := some .untilEof } = false := by decide

/-- `enum E { A { kind: u8, #[speedy(length = kind)] data: Vec<u8> } }` -/
def plainEnum : List (Nat × List FieldD) :=
  [(0, [{ name := .named "kind", ty := .prim .u8 },
    { name := .named "data", ty := .seq .vec (.prim .u8), len := some (.expr ⟨[.named "kind"], numOf⟩) }])]

theorem plainEnum_ok : EnumOk ⟨.u32, false, 0⟩ plainEnum := ⟨by decide, by decide, by decide, by decide⟩

example (T : Target) (e : Endian) : readEnum T e ⟨.u32, false, 0⟩ plainEnum =
    Prog.bind (decode T e (.enum ⟨.u32, false, 0⟩ (variantsOf plainEnum)) Cx.std) (fun r => .ret (some r)) :=
  (C87_enum_partial T e plainEnum_ok (by decide)).1

/-- `kind` becomes `_length_`. -/
example (T : Target) (e : Endian) :
    readEnum T e ⟨.u32, false, 0⟩ (plainEnum.map fun a => (a.1, a.2.map (·.rename (swapId (.named "kind") lengthId)))) =
      readEnum T e ⟨.u32, false, 0⟩ plainEnum :=
  (C87_enum_rename_partial T e (swapId_inj _ _) plainEnum_ok ⟨by decide, by decide, by decide, by decide⟩ (by decide)).1

/-- `enum E { A { #[speedy(length = kind_)] data: Vec<u8>, kind_: u8 } }` -/
def captured : List (Nat × List FieldD) :=
  [(0, [{ name := .named "data", ty := .seq .vec (.prim .u8), len := some (.expr ⟨[kindId], numOf⟩) }, { name := kindId, ty := .prim .u8 }])]

/-- **C87 is false** for an enum with a field called `kind_`, the variable of the macro which has the tag, if the length of an earlier field mentions it.
Both functions compile; writing uses the field, reading the tag: `E::A { data: vec![ 7 ], kind_: 1 }` is read back as
`E::A { data: vec![], kind_: 7 }`.  With any other name for the field the code does not compile, since the length mentions a field which is not read yet. -/
theorem C87_false :
    EnumOk ⟨.u32, false, 0⟩ captured ∧
    (writeEnum x64 .little ⟨.u32, false, 0⟩ captured 0 [.list [.num 7], .num 1]).map
      (fun p => p.run (writingCollector x64.toHost .little) ⟨[], []⟩) = some (.ok (), ⟨[0, 0, 0, 0, 7, 1], []⟩) ∧
    ((readEnum x64 .little ⟨.u32, false, 0⟩ captured).run (bufferReader x64.toHost) (BufSt.init 4096 [0, 0, 0, 0, 7, 1])).1 =
      some (.ok (.variant 0 (.pair (.list []) (.pair (.num 7) .unit)))) ∧
    readEnumChecks (captured.map fun a => (a.1, a.2.map (·.rename (swapId kindId (.named "count"))))) = false :=
  ⟨⟨by decide, by decide, by decide, by decide⟩, by decide, by decide, by decide⟩

end Verif
