import Verif.Attributes

/-!
# The derive macro: the tokens in `#[speedy(...)]`

`Attributes.lean` starts with the items of a `#[speedy(...)]`.  Here they are parsed from the tokens between the parentheses.  Expressions are
parsed by `syn`; how is a parameter.
-/

namespace Verif

/-- A token, as in `proc_macro`.  `word`: an identifier or keyword; `punct`: one character of punctuation and whether the next one follows without
a space (`..` is two tokens, `Spacing::Joint`); `other`: anything else, such as a group in parentheses.  Simplification: no groups without
delimiters (which come from the expansion of `macro_rules`). -/
inductive Tok where
  | word (s : String)
  | punct (c : Char) (joint : Bool)
  | lit (l : Lit)
  | other (n : Nat)

/-- `syn::Expr`: how an expression is parsed at the beginning of some tokens, the literal it is for `constant_prefix`, and its value as the
length of a field, given the fields before. -/
structure ExprSyntax (E : Type) where
  parse : List Tok → Option (E × List Tok)
  shape : E → PrefixExpr
  value : E → List Val → Nat

/-- A parser: what it has found and the tokens which follow. -/
abbrev TokParser (α : Type) := List Tok → Except DeclErr (α × List Tok)

/-- `input.parse::<Token![=]>()?` (`syn`, as called in speedy-derive/src/lib.rs:446); what follows without a space does not matter. -/
def parseEq : TokParser Unit
  | .punct c _ :: ts => if c = '=' then .ok ((), ts) else .error .malformed
  | _ => .error .malformed

/-- `Parse for BasicType` — speedy-derive/src/lib.rs:362-388. -/
def parseBasicType : TokParser LenTy
  | .word s :: ts =>
    if s = "u7" then .ok (.u7, ts)
    else if s = "u8" then .ok (.u8, ts)
    else if s = "u16" then .ok (.u16, ts)
    else if s = "u32" then .ok (.u32, ts)
    else if s = "u64" then .ok (.u64, ts)
    else if s = "u64_varint" then .ok (.varint, ts)
    else .error .malformed
  | _ => .error .malformed

/-- `Parse for IsPrimitive` — speedy-derive/src/lib.rs:395-407. -/
def parseIsPrimitive : TokParser Unit
  | .word s :: ts => if s = "always" then .ok ((), ts) else .error .malformed
  | _ => .error .malformed

/-- `parse_variant_attribute`, `Parse for VariantOrStructAttribute` (there are no attributes of structs: 463-469) —
speedy-derive/src/lib.rs:439-461, 527-540.  `base10_parse` ignores the suffix of the number; `syn::LitInt` may have a sign, which
`u64` does not admit. -/
def parseVariantItem : TokParser Nat
  | .word s :: ts =>
    if s = "tag" then
      match parseEq ts with
      | .error er => .error er
      | .ok (_, .lit (.int n _) :: ts) => if n < 2 ^ 64 then .ok (n, ts) else .error .malformed
      | .ok _ => .error .malformed
    else .error .malformed
  | _ => .error .malformed

/-- `parse_enum_attribute`, `Parse for EnumAttribute` — speedy-derive/src/lib.rs:471-495, 520-525. -/
def parseEnumItem : TokParser EnumAttr
  | .word s :: ts =>
    if s = "tag_type" then
      match parseEq ts with
      | .error er => .error er
      | .ok (_, ts) => match parseBasicType ts with
        | .error er => .error er
        | .ok (t, ts) => .ok (.tagType t, ts)
    else if s = "peek_tag" then .ok (.peekTag, ts)
    else .error .malformed
  | _ => .error .malformed

/-- `Parse for ToplevelStructAttribute` — speedy-derive/src/lib.rs:497-511. -/
def parseStructItem : TokParser Unit
  | .word s :: ts =>
    if s = "unsafe_is_primitive" then
      match parseEq ts with
      | .error er => .error er
      | .ok (_, ts) => parseIsPrimitive ts
    else .error .malformed
  | _ => .error .malformed

/-- `input.peek(Token![..])` (`syn`, as called in speedy-derive/src/lib.rs:820); `..=` and `...` also begin with `..`. -/
def peekDots : List Tok → Bool
  | .punct c joint :: .punct d _ :: _ => c == '.' && joint && d == '.'
  | _ => false

/-- `Parse for LengthKind` — speedy-derive/src/lib.rs:818-828. -/
def parseLengthKind {E : Type} (X : ExprSyntax E) (ts : List Tok) : Except DeclErr (Option (List Val → Nat) × List Tok) :=
  if peekDots ts then .ok (none, ts.drop 2)
  else match X.parse ts with
    | none => .error .malformed
    | some (e, ts) => .ok (some (X.value e), ts)

/-- `Parse for FieldAttribute` — speedy-derive/src/lib.rs:854-947.  Simplification: that `constant_prefix` makes the macro panic and that it is
rejected with a message are the same error here (they are told apart in `prefixBytes`). -/
def parseFieldItem {E : Type} (X : ExprSyntax E) : TokParser RawAttr
  | .word s :: ts =>
    if s = "default_on_eof" then .ok (.defaultOnEof, ts)
    else if s = "length" then
      match parseEq ts with
      | .error er => .error er
      | .ok (_, ts) => match parseLengthKind X ts with
        | .error er => .error er
        | .ok (k, ts) => .ok (.length k, ts)
    else if s = "length_type" then
      match parseEq ts with
      | .error er => .error er
      | .ok (_, ts) => match parseBasicType ts with
        | .error er => .error er
        | .ok (t, ts) => .ok (.lengthType t, ts)
    else if s = "skip" then .ok (.skip, ts)
    else if s = "constant_prefix" then
      match parseEq ts with
      | .error er => .error er
      | .ok (_, ts) => match X.parse ts with
        | none => .error .malformed
        | some (e, ts) => match prefixBytes (X.shape e) with
          | .error _ => .error .malformed
          | .ok bs => .ok (.constantPrefix bs, ts)
    else if s = "varint" then .ok (.varint, ts)
    else .error .malformed
  | _ => .error .malformed

/-- `Punctuated::<T, Token![,]>::parse_terminated` (`syn`), as called in speedy-derive/src/lib.rs:603-606.  The first argument bounds the number
of items. -/
def parseTerminated {α : Type} (item : TokParser α) : Nat → List Tok → Except DeclErr (List α)
  | _, [] => .ok []
  | 0, _ :: _ => .error .malformed
  | n + 1, t :: ts =>
    match item (t :: ts) with
    | .error er => .error er
    | .ok (a, []) => .ok [a]
    | .ok (a, .punct c _ :: us) =>
      if c = ',' then match parseTerminated item n us with
        | .error er => .error er
        | .ok as => .ok (a :: as)
      else .error .malformed
    | .ok (_, _) => .error .malformed

/-- The tokens of a `#[speedy(...)]`. -/
def parseTokens {α : Type} (item : TokParser α) (ts : List Tok) : Except DeclErr (List α) := parseTerminated item ts.length ts

/-- An attribute `#[path ...]` with its tokens (`syn::Attribute`); see `OuterAttr`. -/
inductive TokAttr where
  | speedy (tokens : Option (List Tok))
  | repr (tokens : Option (List String))
  | other

/-- `parse_attributes` — speedy-derive/src/lib.rs:594-613. -/
def tokAttributes {α : Type} (item : TokParser α) : List TokAttr → Except DeclErr (List α)
  | [] => .ok []
  | .speedy none :: _ => .error .malformed
  | .speedy (some ts) :: as => match parseTokens item ts with
    | .error er => .error er
    | .ok here => match tokAttributes item as with
      | .error er => .error er
      | .ok rest => .ok (here ++ rest)
  | _ :: as => tokAttributes item as

/-- The attribute with the items which were found in it; nothing is found if the tokens are rejected. -/
def TokAttr.outer {α : Type} (item : TokParser α) : TokAttr → OuterAttr α
  | .speedy none => .speedy none
  | .speedy (some ts) => match parseTokens item ts with
    | .error _ => .speedy (some [none])
    | .ok as => .speedy (some (as.map some))
  | .repr r => .repr r
  | .other => .other

/-! ## Declarations -/

/-- A field with the tokens of its attributes (`syn::Field`); see `SrcField`. -/
structure TokField where
  attrs : List TokAttr
  ty : Ty
  known : Bool
  dflt : Val

/-- A variant with the tokens of its attributes (`syn::Variant`); see `SrcVariant`. -/
structure TokVariant where
  attrs : List TokAttr
  discr : Option Discr
  fields : List TokField

section
variable {E : Type} (X : ExprSyntax E)

/-- The field with the items which are found — speedy-derive/src/lib.rs:1200. -/
def TokField.src (f : TokField) : SrcField := ⟨f.attrs.map (TokAttr.outer (parseFieldItem X)), f.ty, f.known, f.dflt⟩

/-- The variant with the items which are found — speedy-derive/src/lib.rs:1874-1886. -/
def TokVariant.src (v : TokVariant) : SrcVariant := ⟨v.attrs.map (TokAttr.outer parseVariantItem), v.discr, v.fields.map (TokField.src X)⟩

/-- What the macro makes of a struct — speedy-derive/src/lib.rs:2150-2153. -/
def tokStruct (attrs : List TokAttr) (fs : List TokField) : Except DeclErr (Bool × Fields) :=
  srcStruct (attrs.map (TokAttr.outer parseStructItem)) (fs.map (TokField.src X))

/-- What the macro makes of an enum — speedy-derive/src/lib.rs:1856-1970. -/
def tokEnum (name : Nat) (attrs : List TokAttr) (vs : List TokVariant) : Except DeclErr (EnumDesc × Variants) :=
  srcEnum name (attrs.map (TokAttr.outer parseEnumItem)) (vs.map (TokVariant.src X))

end

end Verif
