import Verif.Prelude
import Verif.Spec.Utf8
/-!
# Model of `src/json_number.rs`

`NumberBytesProvider::consume_current_peek_next` (json_number.rs 3–8) is the parameter `next`. The loops are
structural recursion on `fuel`; `oof` is the error for running out of fuel (proven unreachable for the callers).
-/

namespace Verif.JsonNumber

variable {ε σ : Type}

/-- Standard library, used at json_number.rs 38, 63, 76, 117 and 128: `u8::is_ascii_digit` -/
def isAsciiDigit (b : UInt8) : Bool := 0x30 ≤ b && b ≤ 0x39

/-- json_number.rs 29 and 102: the pattern `b'1'..=b'9'` -/
def isDigit19 (b : UInt8) : Bool := 0x31 ≤ b && b ≤ 0x39

/-- json_number.rs 31–43 and 69–80: the loops consuming digits. Returns `none` if the end of the input was reached
(Rust: `return Ok(Some(0))` in both places) and otherwise the first byte which is not a digit (Rust: `byte` after `break`). -/
def consumeDigits (next : M ε σ (Option UInt8)) (oof : ε) : Nat → M ε σ (Option UInt8)
  | 0 => M.fail oof
  | fuel + 1 => do
    match ← next with
    | none => pure none
    | some byte => if isAsciiDigit byte then consumeDigits next oof fuel else pure (some byte)

/-- json_number.rs 108–124: loop consuming the exponent digits. Result: `exponent_digits_count` and the byte
after the digits (`none` if the end was reached) -/
def consumeExpDigits (next : M ε σ (Option UInt8)) (oof : ε) : Nat → Nat → M ε σ (Nat × Option UInt8)
  | 0, _ => M.fail oof
  | fuel + 1, count => do
    match ← next with
    | none => pure (count, none)
    | some byte =>
      if isAsciiDigit byte then
        consumeExpDigits next oof fuel (if byte != 0x30 || count > 0 then count + 1 else count)
      else pure (count, some byte)

/-- json_number.rs 127–134: check of the byte behind the number -/
def finish (count : Nat) (byte : UInt8) : M ε σ (Option Nat) :=
  if isAsciiDigit byte || byte == 0x2D || byte == 0x2B || byte == 0x2E || byte == 0x65 || byte == 0x45 then pure none
  else pure (some count)

/-- json_number.rs 100–125: exponent digits, `byte` is the first one -/
def exponentDigits (next : M ε σ (Option UInt8)) (oof : ε) (fuel : Nat) (byte : UInt8) : M ε σ (Option Nat) :=
  if isDigit19 byte || byte == 0x30 then do
    match ← consumeExpDigits next oof fuel (if isDigit19 byte then 1 else 0) with
    | (count, none) => pure (some count)
    | (count, some b) => finish count b
  else pure none

/-- json_number.rs 83–134: exponent part and the final check -/
def exponentPart (next : M ε σ (Option UInt8)) (oof : ε) (fuel : Nat) (byte : UInt8) : M ε σ (Option Nat) :=
  if byte == 0x65 || byte == 0x45 then do
    match ← next with
    | none => pure none
    | some byte =>
      if byte == 0x2D || byte == 0x2B then do
        match ← next with
        | none => pure none
        | some byte => exponentDigits next oof fuel byte
      else exponentDigits next oof fuel byte
  else finish 0 byte

/-- json_number.rs 55–81: fraction part, followed by the exponent part -/
def fractionPart (next : M ε σ (Option UInt8)) (oof : ε) (fuel : Nat) (byte : UInt8) : M ε σ (Option Nat) :=
  if byte == 0x2E then do
    match ← next with
    | none => pure none
    | some byte =>
      if isAsciiDigit byte then do
        match ← consumeDigits next oof fuel with
        | none => pure (some 0)
        | some byte => exponentPart next oof fuel byte
      else pure none
  else exponentPart next oof fuel byte

/-- json_number.rs 29–53: integer part, followed by the other parts -/
def integerPart (next : M ε σ (Option UInt8)) (oof : ε) (fuel : Nat) (byte : UInt8) : M ε σ (Option Nat) :=
  if isDigit19 byte then do
    match ← consumeDigits next oof fuel with
    | none => pure (some 0)
    | some byte => fractionPart next oof fuel byte
  else if byte == 0x30 then do
    match ← next with
    | none => pure (some 0)
    | some byte => fractionPart next oof fuel byte
  else pure none

/-- json_number.rs 13–135: `consume_json_number`. `none`: malformed number, `some n`: number with `n` exponent digits -/
def consumeJsonNumber (next : M ε σ (Option UInt8)) (oof : ε) (fuel : Nat) (firstByte : UInt8) : M ε σ (Option Nat) :=
  if firstByte == 0x2D then do
    match ← next with
    | none => pure none
    | some byte => integerPart next oof fuel byte
  else integerPart next oof fuel firstByte

/-- json_number.rs 137–140: `BytesSliceNumberBytesProvider` -/
structure SliceProvider where
  bytes : Bytes
  index : Nat
deriving Repr, DecidableEq

/-- json_number.rs 142–150: its `consume_current_peek_next` -/
def SliceProvider.next : M Unit SliceProvider (Option UInt8) := ⟨fun s =>
  .ok (s.bytes[s.index + 1]?) { s with index := s.index + 1 }⟩

/-- json_number.rs 153–170: `is_valid_json_number` on the UTF-8 bytes of the argument. The provider cannot fail, so the
`Err` case of the Rust `unwrap()` only covers running out of fuel, which is unreachable (`isValidJsonNumber_iff`). -/
def isValidJsonNumber (value : Bytes) : Bool :=
  match value with
  | [] => false
  | first :: _ =>
    match (consumeJsonNumber SliceProvider.next () (value.length + 1) first).run ⟨value, 0⟩ with
    | .ok r s => r.isSome && s.index ≥ value.length
    | .err _ _ => false

end Verif.JsonNumber
