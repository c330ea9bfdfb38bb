import Verif.Syntax

/-!
# `minimum_bytes_needed` of types which may be recursive

Types of the model (`Ty`) are finite trees.  Here a program's types are any set `τ` with a map `res` which tells how
`minimum_bytes_needed` of a type is implemented; a declaration may lead back to itself.  A call which does not return is `none`.
-/

namespace Verif

/-- A declaration with `#[derive(Readable)]`. -/
inductive Decl where
  | struct (fields : List SynField)
  | enum (tagTy : LenTy) (peek : Bool) (variants : List (Bool × List SynField))

/-- The implementation of `minimum_bytes_needed` for a type:
* `const`: without further calls — numbers, strings, `Vec`, sets, maps, `Option`, `Result`, `Cow`, references … (src/readable_impl.rs:40-45,
  57-62, 76-81, 94-97, 111, 124, 138, 197, 212, 228, 242, 256, 269, 282, 295, 308, 355-358, 374-377, 386, 440, 455, 481, 520-583, 678-697;
  src/readable_unsized_impl.rs:24-80);
* `same`: that of another type — `Box<T>` (src/readable_impl.rs:661-663);
* `times`: that of another type times a number — `[T; N]` (645-647), `Range<T>` and `RangeInclusive<T>` with 2 (322-324, 336-338);
* `tuple`: the sum (405-411);
* `user`: derived; `ρ` are the types which the types written in the declaration mean, given the type arguments. -/
inductive Shape (τ : Type) where
  | const (k : Nat)
  | same (u : τ)
  | times (u : τ) (n : Nat)
  | tuple (us : List τ)
  | user (d : Decl) (ρ : SynTy → τ)

/-- The attributes of a field of an accepted declaration. -/
def SynField.collected (f : SynField) : Collected :=
  match synCollect f.ty f.attrs {} with
  | .ok c => c
  | .error _ => {}

/-- `get_minimum_bytes` — speedy-derive/src/lib.rs:1972-2028; `call t` is `<t as Readable>::minimum_bytes_needed()`.  A field without
a minimum counts 0. -/
def fieldMin (call : SynTy → Option Nat) (f : SynField) : Option Nat :=
  let c := f.collected
  if c.defaultOnEof || c.length.isSome || c.skip then some 0
  else
    Option.map (· + (c.pre.getD []).length)
      (match parseOpt f.ty with
      | (true, _) => some 1
      | (false, .array t n) => (call t).map (· * n)
      | (false, .primitive _) => if c.varint then some 1 else call f.ty
      | (false, .ty _) => call f.ty
      | (false, _) => some (c.lengthType.getD .u32).minSize)

/-- `sum` — lib.rs:2030-2041.  `usize` is unbounded here. -/
def sumMin {α : Type} (f : α → Option Nat) : List α → Option Nat
  | [] => some 0
  | x :: xs =>
    match f x with
    | none => none
    | some k => (sumMin f xs).map (k + ·)

/-- `min` — lib.rs:2043-2054: starts with 0. -/
def minOf {α : Type} (f : α → Option Nat) : List α → Nat → Option Nat
  | [], out => some out
  | x :: xs, out =>
    match f x with
    | none => none
    | some k => minOf f xs (min out k)

/-- The variants of an enum which are looked at — lib.rs:2266-2270, `Struct::is_guaranteed_non_recursive` (734-736): those with fields,
none of whose types can lead back to the enum.  The flag of a variant says that it is a unit. -/
def looksAt (v : Bool × List SynField) : Bool := !v.1 && v.2.all fun f => nonRecursive f.ty

/-- The body of `minimum_bytes_needed` — lib.rs:1705 for structs, 2272-2280 and 2305-2311 for enums. -/
def Decl.min (call : SynTy → Option Nat) : Decl → Option Nat
  | .struct fs => sumMin (fieldMin call) fs
  | .enum tagTy peek vs =>
    (minOf (fun v => sumMin (fieldMin call) v.2) (vs.filter looksAt) 0).map fun m =>
      if !peek then m + tagTy.minSize else max m tagTy.minSize

/-- `minimum_bytes_needed()` with at most `n` nested calls: `none` if more are needed. -/
def minCalls {τ : Type} (res : τ → Shape τ) : Nat → τ → Option Nat
  | 0, _ => none
  | n + 1, t =>
    match res t with
    | .const k => some k
    | .same u => minCalls res n u
    | .times u m => (minCalls res n u).map (· * m)
    | .tuple us => sumMin (minCalls res n) us
    | .user d ρ => d.min fun s => minCalls res n (ρ s)

/-- The types of a list. -/
def SynTys.types {τ : Type} (ρ : SynTy → τ) : SynTys → List τ
  | .nil => []
  | .cons t ts => ρ t :: ts.types ρ

/-- What the compiler takes written types for, where the names which the macro trusts are not taken for other types: references,
pointers and `!` are read (if at all) without calls, and so are the known names with any arguments. -/
structure StdShapes {τ : Type} (res : τ → Shape τ) (ρ : SynTy → τ) : Prop where
  known : ∀ s args, s ∈ knownNames → ∃ k, res (ρ (.path false false (.cons s args .nil))) = .const k
  prim : ∀ t p, parsePrim t = some p → ∃ k, res (ρ t) = .const k
  slice : ∀ t, ∃ k, res (ρ (.slice t)) = .const k
  ref : ∀ l m t, ∃ k, res (ρ (.ref l m t)) = .const k
  ptr : ∀ t, ∃ k, res (ρ (.ptr t)) = .const k
  never : ∃ k, res (ρ .never) = .const k
  paren : ∀ t, ρ (.paren t) = ρ t
  group : ∀ t, ρ (.group t) = ρ t
  tuple : ∀ ts, res (ρ (.tuple ts)) = .tuple (ts.types ρ)
  array : ∀ t n, res (ρ (.array t (some n))) = .times (ρ t) n

end Verif
