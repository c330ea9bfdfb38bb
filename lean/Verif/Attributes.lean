import Verif.Derive

/-!
# The derive macro: attributes as they are written

Attributes of declarations, fields and variants before they are put together: any number of `#[speedy(...)]`, with any number of items in each,
between other attributes.  `Derive.lean` starts where the items have been collected.
-/

namespace Verif

/-- An attribute `#[path ...]` before a declaration, field or variant (`syn::Attribute`).
* `speedy`: `none` if it has no list (`#[speedy]`); otherwise its items, where an item which is not parsed (an unknown word, a number
  which does not fit) is `none`.
* `repr`: the tokens of the list, `none` if there is no list. -/
inductive OuterAttr (α : Type) where
  | speedy (items : Option (List (Option α)))
  | repr (tokens : Option (List String))
  | other

/-- `Punctuated::parse_terminated`: all items, or an error. -/
def parseItems {α : Type} : List (Option α) → Except DeclErr (List α)
  | [] => .ok []
  | none :: _ => .error .malformed
  | some a :: as => match parseItems as with
    | .error er => .error er
    | .ok rest => .ok (a :: rest)

/-- `parse_attributes` — speedy-derive/src/lib.rs:594-613. -/
def parseAttributes {α : Type} : List (OuterAttr α) → Except DeclErr (List α)
  | [] => .ok []
  | .speedy none :: _ => .error .malformed
  | .speedy (some items) :: as => match parseItems items with
    | .error er => .error er
    | .ok here => match parseAttributes as with
      | .error er => .error er
      | .ok rest => .ok (here ++ rest)
  | _ :: as => parseAttributes as

/-- `check_repr` — speedy-derive/src/lib.rs:566-580.  `result` is the local variable.  (Two streams of tokens are compared as strings; here one of
them is a single word.) -/
def checkRepr {α : Type} (value : String) : List (OuterAttr α) → Bool → Bool
  | [], result => result
  | .repr (some tokens) :: as, _ => checkRepr value as (tokens == [value])
  | _ :: as, result => checkRepr value as result

/-- What the macro takes for the representation of a struct: `is_packed`, `is_transparent` and `is_c` — speedy-derive/src/lib.rs:582-592, 2119-2124. -/
def seenRepr {α : Type} (as : List (OuterAttr α)) : Repr' :=
  if checkRepr "packed" as false then .packed
  else if checkRepr "transparent" as false then .transparent
  else if checkRepr "C" as false then .c
  else .rust

/-- `collect_toplevel_struct_attributes`: the only item is `unsafe_is_primitive = always` — speedy-derive/src/lib.rs:642-665, 411-414. -/
def collectStruct : List Unit → Bool → Except DeclErr Bool
  | [], forced => .ok forced
  | () :: as, forced => if forced then .error .duplicate else collectStruct as true

/-- `EnumAttribute` — speedy-derive/src/lib.rs:426-434. -/
inductive EnumAttr where
  | tagType (t : LenTy)
  | peekTag
  deriving DecidableEq

/-- `collect_enum_attributes` — speedy-derive/src/lib.rs:668-695. -/
def collectEnum : List EnumAttr → Option LenTy → Bool → Except DeclErr (Option LenTy × Bool)
  | [], tagType, peekTag => .ok (tagType, peekTag)
  | .tagType t :: as, tagType, peekTag =>
    if tagType.isSome then .error .duplicate else collectEnum as (some t) peekTag
  | .peekTag :: as, tagType, peekTag =>
    if peekTag then .error .duplicate else collectEnum as tagType true

/-- `collect_variant_attributes`: the only item is `tag = n`, with `n` parsed as `u64` (445-451) — speedy-derive/src/lib.rs:615-631. -/
def collectVariant : List Nat → Option Nat → Except DeclErr (Option Nat)
  | [], tag => .ok tag
  | n :: as, tag => if tag.isSome then .error .duplicate else collectVariant as (some n)

/-- A field with its attributes as written; `ty`, `known` and `dflt` as in `RawField`. -/
structure SrcField where
  attrs : List (OuterAttr RawAttr)
  ty : Ty
  known : Bool
  dflt : Val

/-- The field with its items. -/
def SrcField.raw (f : SrcField) (as : List RawAttr) : RawField := ⟨as, f.ty, f.known, f.dflt⟩

/-- Has the field `length = ..`? — speedy-derive/src/lib.rs:1216-1218. -/
def Collected.untilEof (c : Collected) : Bool :=
  match c.length with
  | some none => true
  | _ => false

/-- `get_fields` — speedy-derive/src/lib.rs:1184-1390, with the call of `parse_attributes` (1200). -/
def srcFields : Bool → List SrcField → Except DeclErr Fields
  | _, [] => .ok .nil
  | true, _ :: _ => .error .notLast
  | false, f :: fs =>
    match parseAttributes f.attrs with
    | .error er => .error er
    | .ok as =>
      match collectAttrs (f.raw as) as {} with
      | .error er => .error er
      | .ok c =>
        match finishField (f.raw as) c with
        | .error er => .error er
        | .ok a =>
          match srcFields c.untilEof fs with
          | .error er => .error er
          | .ok rest => .ok (.cons a f.ty rest)

/-- A variant with its attributes as written. -/
structure SrcVariant where
  attrs : List (OuterAttr Nat)
  discr : Option Discr
  fields : List SrcField

/-- The tag of a variant — speedy-derive/src/lib.rs:1889-1926. -/
def srcTag (max : Nat) (prev : Option Nat) (tag : Option Nat) (discr : Option Discr) : Except DeclErr Nat :=
  match tag with
  | some tag => if tag > max then .error .tooBig else .ok tag
  | none =>
    match discr with
    | none =>
      match prev with
      | some p => if p ≥ max then .error .tooBig else .ok (p + 1)
      | none => .ok 0
    | some (.lit n) =>
      if n < 2 ^ 64 then (if n > max then .error .tooBig else .ok n) else .error .tooBig
    | some .other => .error .unsupported

/-- The loop of `Enum::new` — speedy-derive/src/lib.rs:1873-1962. -/
def srcVariants (max : Nat) : Option Nat → List Nat → List SrcVariant → Except DeclErr Variants
  | _, _, [] => .ok .nil
  | prev, seen, v :: vs =>
    match parseAttributes v.attrs with
    | .error er => .error er
    | .ok as =>
      match collectVariant as none with
      | .error er => .error er
      | .ok own =>
        match srcTag max prev own v.discr with
        | .error er => .error er
        | .ok tag =>
          if tag ∈ seen then .error .sameTag
          else match srcFields false v.fields with
            | .error er => .error er
            | .ok fs =>
              match srcVariants max (some tag) (tag :: seen) vs with
              | .error er => .error er
              | .ok rest => .ok (.cons tag fs rest)

/-- `Enum::new` — speedy-derive/src/lib.rs:1856-1970. -/
def srcEnum (name : Nat) (attrs : List (OuterAttr EnumAttr)) (vs : List SrcVariant) : Except DeclErr (EnumDesc × Variants) :=
  match parseAttributes attrs with
  | .error er => .error er
  | .ok as =>
    match collectEnum as none false with
    | .error er => .error er
    | .ok (tagType, peek) =>
      match srcVariants (tagType.getD .u32).max none [] vs with
      | .error er => .error er
      | .ok variants => .ok (⟨tagType.getD .u32, peek, name⟩, variants)

/-- A struct: whether it is forced to be plain memory, and its fields — speedy-derive/src/lib.rs:2150-2153. -/
def srcStruct (attrs : List (OuterAttr Unit)) (fs : List SrcField) : Except DeclErr (Bool × Fields) :=
  match parseAttributes attrs with
  | .error er => .error er
  | .ok as =>
    match collectStruct as false with
    | .error er => .error er
    | .ok forced =>
      match srcFields false fs with
      | .error er => .error er
      | .ok F => .ok (forced, F)

/-- The fields of a struct of which `write_to` takes references (`let x = &self.x`), instead of copying them first: all which are not
skipped, unless the macro takes the struct for packed — speedy-derive/src/lib.rs:2343-2364. -/
def referenced (seen : Repr') : Fields → List Ty
  | .nil => []
  | .cons a t fs => if seen == .packed || a.skip then referenced seen fs else t :: referenced seen fs

/-! ## Literals -/

/-- `syn::Lit`, with the suffix of integers. -/
inductive Lit where
  | str (s : String)
  | byteStr (bs : Bytes)
  | byte (b : UInt8)
  | char (c : Char)
  | bool (b : Bool)
  | int (n : Nat) (suffix : String)
  | float
  | verbatim
  | other

/-- Why a prefix is rejected: with a message, or because `unwrap` panics in the macro. -/
inductive LitErr where
  | message | panic
  deriving DecidableEq, Repr

/-- The expression of `constant_prefix = ...`: a literal, a literal after `-`, or another one. -/
inductive PrefixExpr where
  | lit (l : Lit)
  | neg (l : Lit)
  | other

/-- The bytes of `constant_prefix` — speedy-derive/src/lib.rs:882-934.  `base10_parse::<u8>().unwrap()` panics if the number does not fit. -/
def prefixBytes : PrefixExpr → Except LitErr Bytes
  | .lit (.str s) => .ok s.toUTF8.toList
  | .lit (.byteStr bs) => .ok bs
  | .lit (.byte b) => .ok [b]
  | .lit (.char c) => .ok (String.singleton c).toUTF8.toList
  | .lit (.bool b) => .ok [if b then 1 else 0]
  | .lit (.int n suffix) =>
    if suffix = "u8" then (if n ≤ 255 then .ok [UInt8.ofNat n] else .error .panic) else .error .message
  | .lit _ => .error .message
  | .neg (.int n suffix) =>
    if suffix = "i8" then (if n ≤ 127 then .ok [0 - UInt8.ofNat n] else .error .panic) else .error .message
  | .neg _ => .error .message
  | .other => .error .message

end Verif
