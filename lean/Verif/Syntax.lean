import Verif.Derive

/-!
# The derive macro: types as they are written

`SynTy` is the part of `syn::Type` which the macro looks at.  It decides from the spelling of a type how a field is read and
written (`parseTy`), which bounds are needed (`usesGeneric`) and which variants of an enum are looked at for its minimum size
(`nonRecursive`).  Parsing of tokens (`syn`) is not modelled.
-/

namespace Verif

mutual
/-- `syn::Type`.  `qself`: `<T as Trait>::…`; `lead`: the path starts with `::`; the length of an array is a literal or another
expression; lifetimes are given by their names; `other` are the remaining kinds (`dyn Trait`, `impl Trait`, functions, macros, `_`). -/
inductive SynTy where
  | path (qself lead : Bool) (segs : SynSegs)
  | slice (t : SynTy)
  | tuple (ts : SynTys)
  | ref (lt : Option String) (mutable : Bool) (t : SynTy)
  | paren (t : SynTy)
  | ptr (t : SynTy)
  | group (t : SynTy)
  | array (t : SynTy) (len : Option Nat)
  | never
  | other
/-- A list of types. -/
inductive SynTys where
  | nil
  | cons (t : SynTy) (ts : SynTys)
/-- `syn::PathSegment`s: names with arguments. -/
inductive SynSegs where
  | nil
  | cons (name : String) (args : SynArgs) (segs : SynSegs)
/-- `syn::PathArguments`: none, `<…>` (`colon2`: written `::<…>`), `(…) -> …`. -/
inductive SynArgs where
  | none
  | angle (colon2 : Bool) (args : SynGens)
  | paren
/-- `syn::GenericArgument`s: lifetimes, types, `Name = Type`, others (constants, constraints). -/
inductive SynGens where
  | nil
  | lifetime (name : String) (rest : SynGens)
  | ty (t : SynTy) (rest : SynGens)
  | assoc (t : SynTy) (rest : SynGens)
  | other (rest : SynGens)
end

/-- A name without arguments. -/
def SynTy.name (s : String) : SynTy := .path false false (.cons s .none .nil)

/-- A name with arguments in angle brackets. -/
def SynTy.app (s : String) (args : SynGens) : SynTy := .path false false (.cons s (.angle false args) .nil)

/-- One type as argument. -/
def SynGens.one (t : SynTy) : SynGens := .ty t .nil

/-- Two types as arguments. -/
def SynGens.two (t u : SynTy) : SynGens := .ty t (.ty u .nil)

/-! ## Recognised types -/

/-- `parse_primitive_ty` — speedy-derive/src/lib.rs:257-284.  Arguments of the name are ignored. -/
def parsePrim : SynTy → Option Prim
  | .path false false (.cons s _ .nil) =>
    match s with
    | "u8" => some .u8
    | "u16" => some .u16
    | "u32" => some .u32
    | "u64" => some .u64
    | "u128" => some .u128
    | "i8" => some .i8
    | "i16" => some .i16
    | "i32" => some .i32
    | "i64" => some .i64
    | "i128" => some .i128
    | "f32" => some .f32
    | "f64" => some .f64
    | _ => none
  | _ => none

/-- `enum Ty` — lib.rs:967-990 (without lifetimes). -/
inductive MacroTy where
  | string
  | vec (t : SynTy)
  | cowSlice (t : SynTy)
  | cowStr
  | hashMap (k v : SynTy)
  | hashSet (t : SynTy)
  | btreeMap (k v : SynTy)
  | btreeSet (t : SynTy)
  | cowHashMap (k v : SynTy)
  | cowHashSet (t : SynTy)
  | cowBtreeMap (k v : SynTy)
  | cowBtreeSet (t : SynTy)
  | refSliceU8
  | refSlice (t : SynTy)
  | refStr
  | array (t : SynTy) (n : Nat)
  | primitive (p : Prim)
  | ty (t : SynTy)

/-- `extract_inner_ty` — lib.rs:992-1001. -/
def SynGens.inner : SynGens → Option SynTy
  | .ty t .nil => some t
  | _ => none

/-- `extract_inner_ty_2` — lib.rs:1003-1019. -/
def SynGens.inner2 : SynGens → Option (SynTy × SynTy)
  | .ty t (.ty u .nil) => some (t, u)
  | _ => none

/-- `extract_lifetime_and_inner_ty` — lib.rs:1021-1037. -/
def SynGens.innerLt : SynGens → Option SynTy
  | .lifetime _ (.ty t .nil) => some t
  | _ => none

/-- `is_bare_ty` — lib.rs:1048-1055. -/
def SynTy.isBare (t : SynTy) (name : String) : Bool :=
  match t with
  | .path false false (.cons s .none .nil) | .path false false (.cons s (.angle _ .nil) .nil) => s == name
  | _ => false

/-- `extract_option_inner_ty` — lib.rs:1057-1074. -/
def SynTy.optionInner : SynTy → Option SynTy
  | .path false false (.cons s (.angle false args) .nil) => if s == "Option" then args.inner else none
  | _ => none

/-- What is in a `Cow` — lib.rs:1104-1137; `extract_slice_inner_ty` — lib.rs:1039-1046. -/
def parseCow (t : SynTy) : Option MacroTy :=
  match t with
  | .slice t => some (.cowSlice t)
  | _ =>
    if t.isBare "str" then some .cowStr
    else match t with
      | .path false false (.cons s (.angle false args) .nil) =>
        match s with
        | "HashSet" => args.inner.map .cowHashSet
        | "BTreeSet" => args.inner.map .cowBtreeSet
        | "HashMap" => args.inner2.map fun p => .cowHashMap p.1 p.2
        | "BTreeMap" => args.inner2.map fun p => .cowBtreeMap p.1 p.2
        | _ => none
      | _ => none

/-- `parse_special_ty` — lib.rs:1080-1182. -/
def parseSpecial (t : SynTy) : Option MacroTy :=
  match parsePrim t with
  | some p => some (.primitive p)
  | none =>
    match t with
    | .path false false (.cons s .none .nil) => if s == "String" then some .string else none
    | .path false false (.cons s (.angle false args) .nil) =>
      match s with
      | "Vec" => args.inner.map .vec
      | "HashSet" => args.inner.map .hashSet
      | "BTreeSet" => args.inner.map .btreeSet
      | "Cow" => args.innerLt.bind parseCow
      | "HashMap" => args.inner2.map fun p => .hashMap p.1 p.2
      | "BTreeMap" => args.inner2.map fun p => .btreeMap p.1 p.2
      | _ => none
    | .array t (some n) => if n < 2 ^ 32 then some (.array t n) else none
    | .ref (some _) false t =>
      if t.isBare "str" then some .refStr
      else match t with
        | .slice t => if t.isBare "u8" then some .refSliceU8 else some (.refSlice t)
        | _ => none
    | _ => none

/-- `parse_ty` — lib.rs:1076-1078. -/
def parseTy (t : SynTy) : MacroTy := (parseSpecial t).getD (.ty t)

/-- `Opt<Ty>` of a field — lib.rs:1263-1267: is it an `Option`, and the type (in it). -/
def parseOpt (t : SynTy) : Bool × MacroTy :=
  match t.optionInner with
  | some u => (true, parseTy u)
  | none => (false, parseTy t)

/-- The types with `length` and `length_type` attributes — lib.rs:1269-1368. -/
def MacroTy.isContainer : MacroTy → Bool
  | .array _ _ | .primitive _ | .ty _ => false
  | _ => true

/-! ## Names in scope -/

/-- The type which the macro takes a field for; `ρ` gives the meaning of the types in it. -/
def MacroTy.meaning (ρ : SynTy → Ty) : MacroTy → Ty
  | .string => .str .owned
  | .vec t => .seq .vec (ρ t)
  | .cowSlice t => .seq .cow (ρ t)
  | .cowStr => .str .cow
  | .hashMap k v | .btreeMap k v | .cowHashMap k v | .cowBtreeMap k v => .map (ρ k) (ρ v)
  | .hashSet t | .btreeSet t | .cowHashSet t | .cowBtreeSet t => .set (ρ t)
  | .refSliceU8 => .seq .ref (.prim .u8)
  | .refSlice t => .seq .ref (ρ t)
  | .refStr => .str .ref
  | .array t n => .array n (ρ t)
  | .primitive p => .prim p
  | .ty t => ρ t

/-- The primitive types. -/
def primNames : List (String × Prim) :=
  [("u8", .u8), ("u16", .u16), ("u32", .u32), ("u64", .u64), ("u128", .u128), ("i8", .i8), ("i16", .i16), ("i32", .i32),
    ("i64", .i64), ("i128", .i128), ("f32", .f32), ("f64", .f64)]

/-- What a type means to the compiler, where the names of the standard library are not taken for other types (say by
`struct Vec<T>` or `type String = …` in the user's program).  Nothing is required of other types: there may be aliases for them. -/
structure StdScope (ρ : SynTy → Ty) : Prop where
  prim : ∀ s p args, (s, p) ∈ primNames → ρ (.path false false (.cons s args .nil)) = .prim p
  string : ρ (.name "String") = .str .owned
  vec : ∀ t, ρ (.app "Vec" (.one t)) = .seq .vec (ρ t)
  hashSet : ∀ t, ρ (.app "HashSet" (.one t)) = .set (ρ t)
  btreeSet : ∀ t, ρ (.app "BTreeSet" (.one t)) = .set (ρ t)
  hashMap : ∀ k v, ρ (.app "HashMap" (.two k v)) = .map (ρ k) (ρ v)
  btreeMap : ∀ k v, ρ (.app "BTreeMap" (.two k v)) = .map (ρ k) (ρ v)
  cowSlice : ∀ l t, ρ (.app "Cow" (.lifetime l (.one (.slice t)))) = .seq .cow (ρ t)
  cowStr : ∀ l t, t.isBare "str" = true → ρ (.app "Cow" (.lifetime l (.one t))) = .str .cow
  /-- A `Cow` of a collection is read and written as the collection — src/readable_impl.rs:261-311, src/writable_impl.rs:305-355. -/
  cowSet : ∀ l t, ρ (.app "Cow" (.lifetime l (.one (.app "HashSet" (.one t))))) = .set (ρ t) ∧
    ρ (.app "Cow" (.lifetime l (.one (.app "BTreeSet" (.one t))))) = .set (ρ t)
  cowMap : ∀ l k v, ρ (.app "Cow" (.lifetime l (.one (.app "HashMap" (.two k v))))) = .map (ρ k) (ρ v) ∧
    ρ (.app "Cow" (.lifetime l (.one (.app "BTreeMap" (.two k v))))) = .map (ρ k) (ρ v)
  option : ∀ t, ρ (.app "Option" (.one t)) = .option (ρ t)
  array : ∀ t n, ρ (.array t (some n)) = .array n (ρ t)
  refStr : ∀ l t, t.isBare "str" = true → ρ (.ref l false t) = .str .ref
  refSlice : ∀ l t, ρ (.ref l false (.slice t)) = .seq .ref (ρ t)

/-- A field: attributes, the type as it is written, and the value of `Default::default()`. -/
structure SynField where
  attrs : List RawAttr
  ty : SynTy
  dflt : Val

/-- The form used in `Derive.lean`. -/
def SynField.raw (ρ : SynTy → Ty) (f : SynField) : RawField :=
  { attrs := f.attrs, ty := ρ f.ty, known := (match (parseOpt f.ty).2 with | .ty _ => false | _ => true), dflt := f.dflt }

/-- The loop over the attributes of a field — lib.rs:1200-1249. -/
def synCollect (ty : SynTy) : List RawAttr → Collected → Except DeclErr Collected
  | [], c => .ok c
  | .defaultOnEof :: as, c =>
    if c.defaultOnEof then .error .duplicate else synCollect ty as { c with defaultOnEof := true }
  | .length k :: as, c =>
    if c.length.isSome then .error .duplicate else synCollect ty as { c with length := some k }
  | .lengthType t :: as, c =>
    if c.lengthType.isSome then .error .duplicate else synCollect ty as { c with lengthType := some t }
  | .skip :: as, c => synCollect ty as { c with skip := true }
  | .constantPrefix bs :: as, c =>
    if c.pre.isSome then .error .duplicate else synCollect ty as { c with pre := some bs }
  | .varint :: as, c =>
    if parsePrim ty ≠ some .u64 then .error .badVarint else synCollect ty as { c with varint := true }

/-- The checks of a field — lib.rs:1257-1368. -/
def synCheck (ty : SynTy) (c : Collected) : Except DeclErr Unit :=
  if c.lengthType.isSome && c.length.isSome then .error .lengthAndType
  else if c.length.isSome && !(!(parseOpt ty).1 && (parseOpt ty).2.isContainer) then .error .badLength
  else if c.lengthType.isSome && !(parseOpt ty).2.isContainer then .error .badLengthType
  else .ok ()

/-- The description of a field — lib.rs:1251-1255, 1370-1386. -/
def synAttrs (f : SynField) (c : Collected) : Attrs :=
  { skip := c.skip
    defaultOnEof := c.defaultOnEof
    dflt := f.dflt
    len := match c.length, c.lengthType with
      | some (some e), _ => some (.expr e)
      | some none, _ => some .untilEof
      | none, some t => some (.typed t)
      | none, none => none
    varint := c.varint
    pre := c.pre.getD []
    opaqueTy := match (parseOpt f.ty).2 with | .ty _ => true | _ => false }

/-- `get_fields` — lib.rs:1184-1390 — on types as they are written.  `seen` is `length_until_eof_seen`. -/
def synFields (ρ : SynTy → Ty) : Bool → List SynField → Except DeclErr Fields
  | _, [] => .ok .nil
  | true, _ :: _ => .error .notLast
  | false, f :: fs =>
    match synCollect f.ty f.attrs {} with
    | .error er => .error er
    | .ok c =>
      match synCheck f.ty c with
      | .error er => .error er
      | .ok () =>
        match synFields ρ (match c.length with | some none => true | _ => false) fs with
        | .error er => .error er
        | .ok rest => .ok (.cons (synAttrs f c) (ρ f.ty) rest)

/-! ## Type parameters -/

mutual
/-- `possibly_uses_generic_ty` — lib.rs:77-124. -/
def usesGeneric (gs : List String) : SynTy → Bool
  | .path false false segs => segsUseGeneric gs segs
  | .slice t | .ref _ _ t | .paren t | .ptr t | .group t => usesGeneric gs t
  | .tuple ts => tysUseGeneric gs ts
  | .array t len => usesGeneric gs t || len.isNone
  | .never => false
  | _ => true
/-- Any type in a list. -/
def tysUseGeneric (gs : List String) : SynTys → Bool
  | .nil => false
  | .cons t ts => usesGeneric gs t || tysUseGeneric gs ts
/-- Any segment of a path. -/
def segsUseGeneric (gs : List String) : SynSegs → Bool
  | .nil => false
  | .cons s args segs => gs.contains s || argsUseGeneric gs args || segsUseGeneric gs segs
/-- The arguments of a segment. -/
def argsUseGeneric (gs : List String) : SynArgs → Bool
  | .none => false
  | .angle _ args => gensUseGeneric gs args
  | .paren => true
/-- Any argument. -/
def gensUseGeneric (gs : List String) : SynGens → Bool
  | .nil => false
  | .lifetime _ rest => gensUseGeneric gs rest
  | .ty t rest | .assoc t rest => usesGeneric gs t || gensUseGeneric gs rest
  | .other _ => true
end

/-- `Field::bound_types` — lib.rs:778-806. -/
def boundTypes (raw : SynTy) : List SynTy :=
  match (parseOpt raw).2 with
  | .array t _ | .vec t | .hashSet t | .btreeSet t | .cowHashSet t | .cowBtreeSet t | .cowSlice t | .refSlice t => [t]
  | .hashMap k v | .btreeMap k v | .cowHashMap k v | .cowBtreeMap k v => [k, v]
  | .refSliceU8 | .refStr | .string | .cowStr | .primitive _ => []
  | .ty _ => [raw]

/-! ## Recursive types -/

/-- The names in `is_guaranteed_non_recursive` — lib.rs:170-175. -/
def knownNames : List String :=
  ["String", "Vec", "BTreeSet", "BTreeMap", "HashSet", "HashMap", "u8", "u16", "u32", "u64", "i8", "i16", "i32", "i64",
    "usize", "isize", "str"]

mutual
/-- `is_guaranteed_non_recursive` — lib.rs:161-217. -/
def nonRecursive : SynTy → Bool
  | .path false false (.cons s args .nil) => knownNames.contains s && argsNonRecursive args
  | .slice t | .ref _ _ t | .paren t | .ptr t | .group t => nonRecursive t
  | .tuple ts => tysNonRecursive ts
  | .array t len => nonRecursive t && len.isSome
  | .never => true
  | _ => false
/-- All types in a list. -/
def tysNonRecursive : SynTys → Bool
  | .nil => true
  | .cons t ts => nonRecursive t && tysNonRecursive ts
/-- All arguments of a segment. -/
def argsNonRecursive : SynArgs → Bool
  | .none => true
  | .angle _ args => gensNonRecursive args
  | .paren => false
/-- All arguments. -/
def gensNonRecursive : SynGens → Bool
  | .nil => true
  | .lifetime _ rest => gensNonRecursive rest
  | .ty t rest | .assoc t rest => nonRecursive t && gensNonRecursive rest
  | .other _ => false
end

end Verif
