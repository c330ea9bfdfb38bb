import Verif.Spec

/-!
# The derive macro: attributes of fields and tags of enums

The part of `speedy-derive` which accepts or rejects a declaration and turns it
into the form used in `Types.lean`.  Parsing of tokens (`syn`) is not modelled:
the input are parsed attributes and types.
-/

namespace Verif

/-- Why a declaration is rejected. -/
inductive DeclErr where
  | duplicate | tooBig | unsupported | sameTag | notLast | badVarint | lengthAndType | badLength | badLengthType | malformed
  deriving DecidableEq, Repr

/-- `FieldAttribute` — speedy-derive/src/lib.rs:830-855. -/
inductive RawAttr where
  | defaultOnEof
  | length (k : Option (List Val → Nat))   -- `none` is `..`
  | lengthType (t : LenTy)
  | skip
  | constantPrefix (bs : Bytes)
  | varint

/-- A field as written in the source.  `known`: the macro recognises its type (or the
type inside its `Option`) by its name, that is `parse_special_ty` (lib.rs:1080-1182)
does not return `None`; `dflt` is the value of `Default::default()`. -/
structure RawField where
  attrs : List RawAttr
  ty : Ty
  known : Bool
  dflt : Val

/-- The local variables of `get_fields` — lib.rs:1194-1199. -/
structure Collected where
  defaultOnEof : Bool := false
  length : Option (Option (List Val → Nat)) := none
  lengthType : Option LenTy := none
  skip : Bool := false
  varint : Bool := false
  pre : Option Bytes := none

/-- The loop over the attributes of a field — lib.rs:1200-1249. -/
def collectAttrs (f : RawField) : List RawAttr → Collected → Except DeclErr Collected
  | [], c => .ok c
  | .defaultOnEof :: as, c =>
    if c.defaultOnEof then .error .duplicate else collectAttrs f as { c with defaultOnEof := true }
  | .length k :: as, c =>
    if c.length.isSome then .error .duplicate else collectAttrs f as { c with length := some k }
  | .lengthType t :: as, c =>
    if c.lengthType.isSome then .error .duplicate else collectAttrs f as { c with lengthType := some t }
  | .skip :: as, c => collectAttrs f as { c with skip := true }
  | .constantPrefix bs :: as, c =>
    if c.pre.isSome then .error .duplicate else collectAttrs f as { c with pre := some bs }
  | .varint :: as, c =>
    match f.known, f.ty with
    | true, .prim .u64 => collectAttrs f as { c with varint := true }
    | _, _ => .error .badVarint

/-- Types which may have `length_type` — lib.rs:1314-1368. -/
def Ty.hasLengthType : Ty → Bool
  | .option t => t.isContainer
  | t => t.isContainer

/-- One field — lib.rs:1251-1386 (an empty `constant_prefix` is none: 1251-1255). -/
def finishField (f : RawField) (c : Collected) : Except DeclErr Attrs :=
  if c.lengthType.isSome && c.length.isSome then .error .lengthAndType
  else if c.length.isSome && !(f.known && f.ty.isContainer) then .error .badLength
  else if c.lengthType.isSome &&
      !(f.known && f.ty.hasLengthType) then
    .error .badLengthType
  else .ok {
    skip := c.skip
    defaultOnEof := c.defaultOnEof
    dflt := f.dflt
    len := match c.length, c.lengthType with
      | some (some e), _ => some (.expr e)
      | some none, _ => some .untilEof
      | none, some t => some (.typed t)
      | none, none => none
    varint := c.varint
    pre := c.pre.getD []
    opaqueTy := !f.known }

/-- `get_fields` — lib.rs:1184-1390.  `seen` is `length_until_eof_seen`. -/
def getFields : Bool → List RawField → Except DeclErr Fields
  | _, [] => .ok .nil
  | true, _ :: _ => .error .notLast
  | false, f :: fs =>
    match collectAttrs f f.attrs {} with
    | .error er => .error er
    | .ok c =>
      match finishField f c with
      | .error er => .error er
      | .ok a =>
        match getFields (match c.length with | some none => true | _ => false) fs with
        | .error er => .error er
        | .ok rest => .ok (.cons a f.ty rest)

/-- The discriminant of a variant: an integer literal or another expression. -/
inductive Discr where
  | lit (n : Nat)
  | other
  deriving DecidableEq, Repr

/-- A variant as written in the source: `#[speedy(tag = …)]` attributes,
discriminant, fields. -/
structure RawVariant where
  tags : List Nat
  discr : Option Discr
  fields : List RawField

/-- `collect_variant_attributes` and the parsing of the literals as `u64` —
lib.rs:444-454, 615-632. -/
def variantTag : List Nat → Except DeclErr (Option Nat)
  | [] => .ok none
  | [n] => if n < 2 ^ 64 then .ok (some n) else .error .tooBig
  | _ => .error .duplicate

/-- The tag of a variant — lib.rs:1889-1926. -/
def chooseTag (max : Nat) (prev : Option Nat) (v : RawVariant) : Except DeclErr Nat :=
  match variantTag v.tags with
  | .error er => .error er
  | .ok (some tag) => if tag > max then .error .tooBig else .ok tag
  | .ok none =>
    match v.discr with
    | none =>
      match prev with
      | some p => if p ≥ max then .error .tooBig else .ok (p + 1)
      | none => .ok 0
    | some (.lit n) =>
      if n < 2 ^ 64 then (if n > max then .error .tooBig else .ok n) else .error .tooBig
    | some .other => .error .unsupported

/-- The loop of `Enum::new` — lib.rs:1873-1962.  `seen` are the keys of
`tag_to_full_name`. -/
def deriveVariants (max : Nat) : Option Nat → List Nat → List RawVariant → Except DeclErr Variants
  | _, _, [] => .ok .nil
  | prev, seen, v :: vs =>
    match chooseTag max prev v with
    | .error er => .error er
    | .ok tag =>
      if tag ∈ seen then .error .sameTag
      else match getFields false v.fields with
        | .error er => .error er
        | .ok fs =>
          match deriveVariants max (some tag) (tag :: seen) vs with
          | .error er => .error er
          | .ok rest => .ok (.cons tag fs rest)

/-- `Enum::new` — lib.rs:1856-1970; `tag_type` (default `u32`, lib.rs:360)
and `peek_tag` attributes with the check for duplicates (668-697). -/
def deriveEnum (name : Nat) (tagTypes : List LenTy) (peeks : Nat) (vs : List RawVariant) :
    Except DeclErr (EnumDesc × Variants) :=
  match tagTypes with
  | _ :: _ :: _ => .error .duplicate
  | tts =>
    if peeks > 1 then .error .duplicate
    else
      let tagTy := tts.headD .u32
      match deriveVariants tagTy.max none [] vs with
      | .error er => .error er
      | .ok variants => .ok (⟨tagTy, peeks == 1, name⟩, variants)

end Verif
