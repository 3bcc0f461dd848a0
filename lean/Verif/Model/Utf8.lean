import Verif.Spec.Utf8
/-!
# Model of `src/utf8.rs`
-/

namespace Verif.Utf8

/-- utf8.rs 4: `MAX_BYTES_PER_CHAR` -/
def maxBytesPerChar : Nat := 4

/-- utf8.rs 7–9: `is_1byte` -/
def is1byte (b : UInt8) : Bool := b ≤ 0x7F

/-- utf8.rs 11–19: `is_2byte_start` -/
def is2byteStart (b : UInt8) : Bool := (b &&& 0b11100000) == 0b11000000

/-- utf8.rs 21–29: `is_3byte_start` -/
def is3byteStart (b : UInt8) : Bool := (b &&& 0b11110000) == 0b11100000

/-- utf8.rs 31–39: `is_4byte_start` -/
def is4byteStart (b : UInt8) : Bool := (b &&& 0b11111000) == 0b11110000

/-- utf8.rs 41–50: `is_continuation` -/
def isContinuation (b : UInt8) : Bool := (b &&& 0b11000000) == 0b10000000

/-- utf8.rs 56: code point of a 2 byte sequence; `u32` arithmetic on values below 2^11, modelled on `Nat` -/
def codePoint2 (b0 b1 : UInt8) : Nat :=
  ((b0 &&& 0b00011111).toNat <<< 6) ||| (b1 &&& 0b00111111).toNat

/-- utf8.rs 65–67: code point of a 3 byte sequence -/
def codePoint3 (b0 b1 b2 : UInt8) : Nat :=
  ((b0 &&& 0b00001111).toNat <<< 12) ||| ((b1 &&& 0b00111111).toNat <<< 6) ||| (b2 &&& 0b00111111).toNat

/-- utf8.rs 78–81: code point of a 4 byte sequence -/
def codePoint4 (b0 b1 b2 b3 : UInt8) : Nat :=
  ((b0 &&& 0b00000111).toNat <<< 18) ||| ((b1 &&& 0b00111111).toNat <<< 12)
    ||| ((b2 &&& 0b00111111).toNat <<< 6) ||| (b3 &&& 0b00111111).toNat

/-- utf8.rs 53–59: `is_valid_2bytes`; `none` models the failing `debug_assert!` -/
def isValid2bytes (b0 b1 : UInt8) : Option Bool :=
  if is2byteStart b0 && isContinuation b1 then
    some (codePoint2 b0 b1 ≥ 0x80)
  else none

/-- utf8.rs 62–70: `is_valid_3bytes`; `none` models the failing `debug_assert!` -/
def isValid3bytes (b0 b1 b2 : UInt8) : Option Bool :=
  if is3byteStart b0 && isContinuation b1 && isContinuation b2 then
    some (codePoint3 b0 b1 b2 ≥ 0x800 && !(0xD800 ≤ codePoint3 b0 b1 b2 && codePoint3 b0 b1 b2 ≤ 0xDFFF))
  else none

/-- utf8.rs 73–85: `is_valid_4bytes`; `none` models the failing `debug_assert!` -/
def isValid4bytes (b0 b1 b2 b3 : UInt8) : Option Bool :=
  if is4byteStart b0 && isContinuation b1 && isContinuation b2 && isContinuation b3 then
    some (0x10000 ≤ codePoint4 b0 b1 b2 b3 && codePoint4 b0 b1 b2 b3 ≤ 0x10FFFF)
  else none

/-- Standard library, used at stream_reader.rs 1169. Model of `std::char::from_u32` -/
def charFromU32 (n : Nat) : Option Char :=
  if h : n.isValidChar then some (Char.ofNatAux n h) else none

/-- Used at utf8.rs 89–110, stream_reader.rs 181–190 and stream_writer.rs 584–732. Model of `std::str::from_utf8` (standard library, not part of the repository; modelled
by its specification: strict UTF-8 decoding, see `decodeUtf8_eq_some_iff`). -/
def decodeUtf8 : Bytes → Option Text
  | [] => some []
  | b0 :: t0 =>
    if b0.toNat < 0x80 then
      (decodeUtf8 t0).map (Char.ofNat b0.toNat :: ·)
    else match t0 with
    | [] => none
    | b1 :: t1 =>
      if !(0x80 ≤ b1.toNat && b1.toNat < 0xC0) then none
      else if 0xC2 ≤ b0.toNat && b0.toNat < 0xE0 then
        (decodeUtf8 t1).map (Char.ofNat ((b0.toNat - 0xC0) * 64 + (b1.toNat - 0x80)) :: ·)
      else match t1 with
      | [] => none
      | b2 :: t2 =>
        if !(0x80 ≤ b2.toNat && b2.toNat < 0xC0) then none
        else if 0xE0 ≤ b0.toNat && b0.toNat < 0xF0 then
          let cp := (b0.toNat - 0xE0) * 4096 + (b1.toNat - 0x80) * 64 + (b2.toNat - 0x80)
          if 0x800 ≤ cp && !(0xD800 ≤ cp && cp < 0xE000) then
            (decodeUtf8 t2).map (Char.ofNat cp :: ·)
          else none
        else match t2 with
        | [] => none
        | b3 :: t3 =>
          if !(0x80 ≤ b3.toNat && b3.toNat < 0xC0) then none
          else if 0xF0 ≤ b0.toNat && b0.toNat < 0xF8 then
            let cp := (b0.toNat - 0xF0) * 262144 + (b1.toNat - 0x80) * 4096 + (b2.toNat - 0x80) * 64 + (b3.toNat - 0x80)
            if 0x10000 ≤ cp && cp < 0x110000 then
              (decodeUtf8 t3).map (Char.ofNat cp :: ·)
            else none
          else none

/-- utf8.rs 98–111: `to_str_unchecked` / `to_string_unchecked` (both call the checking standard library
function and `unwrap()`); `none` models the panic of `debug_assert_valid_utf8`/`unwrap()`. -/
def toStrUnchecked (bs : Bytes) : Option Text := decodeUtf8 bs

end Verif.Utf8
