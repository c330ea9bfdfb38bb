import Verif.Basic

/-!
# UTF-8

`core::str::from_utf8` and `char::from_u32` of the Rust standard library.
-/

namespace Verif

/-- `char::from_u32`: is this number a Unicode scalar value? -/
def isScalar (n : Nat) : Bool := n < 0xD800 || (0xDFFF < n && n ≤ 0x10FFFF)

/-- Continuation byte. -/
def isCont (b : UInt8) : Bool := 0x80 ≤ b.toNat && b.toNat ≤ 0xBF

/-- `core::str::from_utf8`: well-formed UTF-8 byte sequences, as tabulated in
the Unicode standard (table 3-7). -/
def utf8Valid : Bytes → Bool
  | [] => true
  | a :: rest =>
    if a.toNat ≤ 0x7F then utf8Valid rest
    else match rest with
      | [] => false
      | b :: rest =>
        if 0xC2 ≤ a.toNat && a.toNat ≤ 0xDF then isCont b && utf8Valid rest
        else match rest with
          | [] => false
          | c :: rest =>
            if a.toNat == 0xE0 then 0xA0 ≤ b.toNat && b.toNat ≤ 0xBF && isCont c && utf8Valid rest
            else if a.toNat == 0xED then 0x80 ≤ b.toNat && b.toNat ≤ 0x9F && isCont c && utf8Valid rest
            else if 0xE1 ≤ a.toNat && a.toNat ≤ 0xEF then isCont b && isCont c && utf8Valid rest
            else match rest with
              | [] => false
              | d :: rest =>
                if a.toNat == 0xF0 then 0x90 ≤ b.toNat && b.toNat ≤ 0xBF && isCont c && isCont d && utf8Valid rest
                else if 0xF1 ≤ a.toNat && a.toNat ≤ 0xF3 then isCont b && isCont c && isCont d && utf8Valid rest
                else if a.toNat == 0xF4 then 0x80 ≤ b.toNat && b.toNat ≤ 0x8F && isCont c && isCont d && utf8Valid rest
                else false

end Verif
