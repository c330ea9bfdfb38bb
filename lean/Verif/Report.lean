import Verif.Basic

/-!
# `speedy::Error` with all its parts — src/error.rs

`Err` (`Basic.lean`) drops names of fields and texts; here they are kept.
-/

namespace Verif

/-- `std::io::ErrorKind`; `more` stands for the kinds which the code does not mention. -/
inductive StdKind where
  | unexpectedEof
  | invalidData
  | other
  | more (code : Nat)
  deriving DecidableEq, Repr

/-- `std::io::Error`: its kind and what `Display` prints.  `io::Error::new(kind, text)` prints `text` (standard library). -/
structure StdErr where
  kind : StdKind
  text : List Char
  deriving DecidableEq, Repr

/-- `ErrorKind` — src/error.rs:6-38.  `Error` (lines 1-4) contains nothing else. -/
inductive ErrKind where
  | invalidChar
  | invalidEnumVariant
  | invalidUtf8
  | invalidSystemTime
  | zeroNonZero
  | outOfRangeLength
  | outOfRangeUsize
  | unexpectedEndOfInput
  | unexpectedEndOfOutputBuffer
  | inputBufferIsTooSmall (actualSize expectedSize : Nat)
  | outputBufferIsTooSmall (actualSize expectedSize : Nat)
  | lengthIsNotTheSameAsLengthAttribute (fieldName : List Char)
  | expectedConstant (constant : Bytes)
  | unsized
  | endiannessMismatch
  | ioError (error : StdErr)
  deriving DecidableEq, Repr

/-- `Error::custom` — src/error.rs:45-53. -/
def ErrKind.custom (message : List Char) : ErrKind := .ioError ⟨.other, message⟩

/-- `Display` of a `usize`: decimal. -/
def decimal (n : Nat) : List Char := Nat.toDigits 10 n

/-- `Display for Error` — src/error.rs:87-112. -/
def ErrKind.display : ErrKind → List Char
  | .invalidChar => "out of range char".toList
  | .invalidEnumVariant => "invalid enum variant".toList
  | .invalidUtf8 => "encountered invalid utf-8".toList
  | .invalidSystemTime => "encountered invalid system time object".toList
  | .zeroNonZero => "a field which is supposed to be non-zero is zero".toList
  | .outOfRangeLength => "out of range length".toList
  | .outOfRangeUsize => "value cannot fit into an usize on this architecture".toList
  | .unexpectedEndOfInput => "unexpected end of input".toList
  | .unexpectedEndOfOutputBuffer => "unexpected end of output buffer".toList
  | .inputBufferIsTooSmall actual expected =>
    "input buffer is too small; expected at least ".toList ++ decimal expected ++ " bytes, got ".toList ++ decimal actual
  | .outputBufferIsTooSmall actual expected =>
    "output buffer is too small; expected at least ".toList ++ decimal expected ++ " bytes, got ".toList ++ decimal actual
  | .lengthIsNotTheSameAsLengthAttribute name =>
    "the length of '".toList ++ name ++ "' is not the same as its 'length' attribute".toList
  | .expectedConstant constant => "expected a predefined ".toList ++ decimal constant.length ++ " bytes(s) long constant".toList
  | .unsized => "type is unsized hence requires zero-copy deserialization; use `read_from_buffer` or similar to deserialize it".toList
  | .endiannessMismatch => "endianness mismatch".toList
  | .ioError error => error.text

/-- `IsEof for Error` — src/error.rs:128-141. -/
def ErrKind.isEof : ErrKind → Bool
  | .unexpectedEndOfInput => true
  | .unexpectedEndOfOutputBuffer => true
  | .ioError error => error.kind == .unexpectedEof
  | _ => false

/-- `From<Error> for std::io::Error` — src/error.rs:63-80. -/
def ErrKind.toStd : ErrKind → StdErr
  | .ioError error => error
  | k => ⟨if k.isEof then .unexpectedEof else .invalidData, k.display⟩

/-- `std::error::Error::source` — src/error.rs:114-122. -/
def ErrKind.source : ErrKind → Option StdErr
  | .ioError error => some error
  | _ => none

end Verif
