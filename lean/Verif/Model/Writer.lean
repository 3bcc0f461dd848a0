import Verif.Model.Sink
import Verif.Model.Utf8
import Verif.Model.JsonNumber
/-!
# Model of `JsonStreamWriter`, src/writer/stream_writer.rs (and the numbers of src/writer/mod.rs)

The `Debug` implementation is in `Verif.Model.Debug`; not modelled here: `serialize_value` (505–518, see `Verif.Model.Ser`).
The indentation level is a natural number (Rust: `u32`, so the model ignores an overflow for documents nested more than 2^32 levels deep).
-/

namespace Verif.Writer
open Utf8

/-- stream_writer.rs 29–92: `WriterSettings`; `separator` is `multi_top_level_value_separator` -/
structure WSettings where
  prettyPrint : Bool
  escapeAllControlChars : Bool
  escapeAllNonAscii : Bool
  separator : Option Text
deriving Repr, DecidableEq

/-- stream_writer.rs 94–108 -/
def WSettings.default : WSettings := ⟨false, false, false, none⟩

/-- stream_writer.rs 110–114: `StackValue` -/
inductive StackValue where
  | array
  | object
deriving Repr, DecidableEq

/-- Fields of `StringValueWriterImpl`, stream_writer.rs 627–643 -/
structure SvState where
  utf8Buf : Bytes
  utf8Pos : Nat
  utf8ExpectedLen : Nat
  error : Option WErr
deriving Repr, DecidableEq

/-- stream_writer.rs 538–550: the initial values in `string_value_writer` -/
def SvState.new : SvState := ⟨[0, 0, 0, 0], 0, 0, none⟩

/-- Fields of `JsonStreamWriter` except for those of `BufSink`, stream_writer.rs 131–148. `stack`: the top is the first element.
`sv`: the `StringValueWriterImpl` which borrows the writer (there cannot be more than one); not relevant if there is none. -/
structure Core where
  isEmpty : Bool
  expectsMemberName : Bool
  stack : List StackValue
  stringWriterActive : Bool
  indentationLevel : Nat
  settings : WSettings
  sv : SvState
deriving Repr, DecidableEq

/-- stream_writer.rs 160–173: `new_custom` -/
def Core.new (st : WSettings) : Core := ⟨true, false, [], false, 0, st, .new⟩

/-- Model only: a method of `JsonStreamWriter` -/
abbrev W := T WErr Core

/-- Standard library: `&bytes[i..j]`, panics if out of range -/
def slice (bytes : Bytes) (i j : Nat) : W Bytes :=
  if i ≤ j ∧ j ≤ bytes.length then pure ((bytes.take j).drop i) else T.internal .index

/-- Standard library: subtraction of `usize`, panics on underflow -/
def csub (a b : Nat) : W Nat := if b ≤ a then pure (a - b) else T.internal .index

/-- stream_writer.rs 205–207: `is_in_array` -/
def isInArray (c : Core) : Bool := c.stack.head? == some .array

/-- stream_writer.rs 209–213: `is_in_object` -/
def isInObject (c : Core) : Bool := c.stack.head? == some .object

/-- stream_writer.rs 215–217: `increase_indentation` -/
def increaseIndentation : W Unit := T.modify fun c => { c with indentationLevel := c.indentationLevel + 1 }

/-- stream_writer.rs 219–221: `decrease_indentation` -/
def decreaseIndentation : W Unit := do
  let c ← T.get
  let n ← csub c.indentationLevel 1
  T.modify fun c => { c with indentationLevel := n }

/-- stream_writer.rs 224–226: the loop of `write_indentation` -/
def writeIndentationLoop : Nat → W Unit
  | 0 => pure ()
  | n + 1 => do
    T.writeBytes [0x20, 0x20]
    writeIndentationLoop n

/-- stream_writer.rs 223–228: `write_indentation` -/
def writeIndentation : W Unit := do
  let c ← T.get
  writeIndentationLoop c.indentationLevel

/-- stream_writer.rs 230–248: `before_container_element` -/
def beforeContainerElement : W Unit := do
  let c ← T.get
  if c.isEmpty then
    if c.settings.prettyPrint then do
      T.writeBytes [0x0A]
      increaseIndentation
      writeIndentation
    else pure ()
  else if c.settings.prettyPrint then do
    T.writeBytes [0x2C, 0x0A]
    writeIndentation
  else T.writeBytes [0x2C]

/-- stream_writer.rs 258–271: the separator or comma in front of a value -/
def beforeValueSeparator : W Unit := do
  let c ← T.get
  if !c.isEmpty && c.stack.isEmpty then
    match c.settings.separator with
    | none => T.usage .multipleTopLevel
    | some separator => T.writeBytes (enc separator)
  else if isInArray c then beforeContainerElement
  else pure ()

/-- stream_writer.rs 250–280: `before_value` -/
def beforeValue : W Unit := do
  let c ← T.get
  if c.stringWriterActive then T.usage .valueStringWriterActive
  else if c.expectsMemberName then T.usage .valueWhenNameExpected
  else do
    beforeValueSeparator
    T.modify fun c => { c with isEmpty := false }
    T.modify fun c => if isInObject c then { c with expectsMemberName := true } else c

/-- stream_writer.rs 282–297: `on_container_end` -/
def onContainerEnd : W Unit := do
  T.modify fun c => { c with stack := c.stack.tail }
  let c ← T.get
  if !c.isEmpty && c.settings.prettyPrint then do
    T.writeBytes [0x0A]
    decreaseIndentation
    writeIndentation
  else pure ()
  T.modify fun c => { c with isEmpty := false }
  T.modify fun c => { c with expectsMemberName := isInObject c }

/-! ## Strings -/

/-- Standard library, used at stream_writer.rs 307: `char::is_control`: the general category Cc, i.e. U+0000–U+001F and U+007F–U+009F -/
def isControl (c : Char) : Bool := c.toNat < 0x20 || (0x7F ≤ c.toNat && c.toNat ≤ 0x9F)

/-- stream_writer.rs 302–308: `should_escape` -/
def shouldEscape (st : WSettings) (c : Char) : Bool :=
  (c == '"' || c == '\\') || c.toNat ≤ 0x1F || (st.escapeAllNonAscii && !(c.toNat < 0x80)) || (st.escapeAllControlChars && isControl c)

/-- stream_writer.rs 315–321: `to_hex` -/
def toHex (i : Nat) : W UInt8 :=
  if i ≤ 9 then pure (UInt8.ofNat (0x30 + i))
  else if i ≤ 15 then pure (UInt8.ofNat (0x41 + (i - 10)))
  else T.internal .unreachable

/-- stream_writer.rs 311–329: `get_unicode_escape`; `value` is a `u32` -/
def getUnicodeEscape (value : Nat) : W Bytes := do
  if 0xFFFF < value then T.internal .debugAssert
  else do
    let a ← toHex (value >>> 12 &&& 15)
    let b ← toHex (value >>> 8 &&& 15)
    let c ← toHex (value >>> 4 &&& 15)
    let d ← toHex (value &&& 15)
    pure [a, b, c, d]

/-- stream_writer.rs 331–340: the two-character escape sequences -/
def twoCharEscape (c : Char) : Option Bytes :=
  if c == '"' then some [0x5C, 0x22]
  else if c == '\\' then some [0x5C, 0x5C]
  else if c == '/' then some [0x5C, 0x2F]
  else if c.toNat = 0x08 then some [0x5C, 0x62]
  else if c.toNat = 0x0C then some [0x5C, 0x66]
  else if c == '\n' then some [0x5C, 0x6E]
  else if c == '\r' then some [0x5C, 0x72]
  else if c == '\t' then some [0x5C, 0x74]
  else none

/-- stream_writer.rs 310–360: `write_escaped_char` -/
def writeEscapedChar (c : Char) : W Unit :=
  match twoCharEscape c with
  | some escape => T.writeBytes escape
  | none =>
    if c.toNat ≤ 0xFFFF then do
      T.writeBytes [0x5C, 0x75]
      T.writeBytes (← getUnicodeEscape c.toNat)
    else do
      let temp ← csub c.toNat 0x10000
      let high := (temp >>> 10) + 0xD800
      let low := (temp &&& ((1 <<< 10) - 1)) + 0xDC00
      T.writeBytes [0x5C, 0x75]
      T.writeBytes (← getUnicodeEscape high)
      T.writeBytes [0x5C, 0x75]
      T.writeBytes (← getUnicodeEscape low)

/-- stream_writer.rs 366–374: the loop of `write_string_value_piece` over `value.char_indices()`; `bytes` are all bytes of the value.
The result is `next_to_write_index` behind the loop. -/
def pieceLoop (bytes : Bytes) : Text → (index next : Nat) → W Nat
  | [], _, next => pure next
  | c :: cs, index, next => do
    let s ← T.get
    if shouldEscape s.settings c then do
      if next < index then do
        T.writeBytes (← slice bytes next index)
      else pure ()
      writeEscapedChar c
      pieceLoop bytes cs (index + (String.utf8EncodeChar c).length) (index + (String.utf8EncodeChar c).length)
    else pieceLoop bytes cs (index + (String.utf8EncodeChar c).length) next

/-- stream_writer.rs 362–381: `write_string_value_piece` -/
def writeStringValuePiece (value : Text) : W Unit := do
  let bytes := enc value
  let next ← pieceLoop bytes value 0 0
  if next < bytes.length then do
    T.writeBytes (← slice bytes next bytes.length)
  else pure ()

/-- stream_writer.rs 383–387: `write_string_value` -/
def writeStringValue (value : Text) : W Unit := do
  T.writeBytes [0x22]
  writeStringValuePiece value
  T.writeBytes [0x22]

/-! ## Numbers, writer/mod.rs -/

/-- The integer types which implement `FiniteNumber`, writer/mod.rs 724; `usize` and `isize` have 64 bits in the model -/
inductive IntTy where
  | u8 | i8 | u16 | i16 | u32 | i32 | u64 | i64 | u128 | i128 | usize | isize
deriving Repr, DecidableEq

/-- writer/mod.rs 724: the number of bits -/
def IntTy.bits : IntTy → Nat
  | .u8 | .i8 => 8
  | .u16 | .i16 => 16
  | .u32 | .i32 => 32
  | .u64 | .i64 | .usize | .isize => 64
  | .u128 | .i128 => 128

/-- writer/mod.rs 724: whether the type is signed -/
def IntTy.signed : IntTy → Bool
  | .i8 | .i16 | .i32 | .i64 | .i128 | .isize => true
  | _ => false

/-- Standard library: `MIN` of the type -/
def IntTy.min (t : IntTy) : Int := if t.signed then -(2 ^ (t.bits - 1) : Nat) else 0
/-- Standard library: `MAX` of the type -/
def IntTy.max (t : IntTy) : Int := if t.signed then (2 ^ (t.bits - 1) : Nat) - 1 else (2 ^ t.bits : Nat) - 1

/-- Standard library, used at writer/mod.rs 732. Decimal digits -/
def natToString (n : Nat) : Text :=
  if n < 10 then [Char.ofNat (0x30 + n)] else natToString (n / 10) ++ [Char.ofNat (0x30 + n % 10)]

/-- Standard library, used at writer/mod.rs 732. Model of `to_string` for integers -/
def intToString (i : Int) : Text := if i < 0 then '-' :: natToString i.natAbs else natToString i.natAbs

/-- Values of the types implementing `FiniteNumber`, writer/mod.rs 724–752 and 786–803: `int` for the integer types, where `v` is in the range of `t`;
`transferred` is `TransferredNumber` -/
inductive FinNum where
  | int (t : IntTy) (v : Int)
  | transferred (text : Text)
deriving Repr, DecidableEq

/-- writer/mod.rs 753–783. Values of `f32` and `f64` as far as relevant here: whether the number is finite, and the result of `to_string` (for which the standard library is trusted) -/
structure FpNum where
  finite : Bool
  text : Text
deriving Repr, DecidableEq

/-- `is_valid_json_number`, json_number.rs 137 -/
def isValid (t : Text) : Bool := JsonNumber.isValidJsonNumber (enc t)

/-- writer/mod.rs 727–738 and 789–794: `FiniteNumber::use_json_number` -/
def FinNum.useJsonNumber (n : FinNum) (consumer : Text → W Unit) : W Unit := match n with
  | .int _ v =>
    let string := intToString v
    if isValid string then consumer string else T.internal .debugAssert
  | .transferred text => consumer text

/-- writer/mod.rs 740–744 and 796–798: `as_u64`, `try_into` succeeds if the value is in the range -/
def FinNum.asU64 : FinNum → Option Int
  | .int _ v => if IntTy.u64.min ≤ v ∧ v ≤ IntTy.u64.max then some v else none
  | .transferred _ => none

/-- writer/mod.rs 746–751 and 800–802: `as_i64` -/
def FinNum.asI64 : FinNum → Option Int
  | .int _ v => if IntTy.i64.min ≤ v ∧ v ≤ IntTy.i64.max then some v else none
  | .transferred _ => none

/-- writer/mod.rs 756–776: `FloatingPointNumber::use_json_number` -/
def FpNum.useJsonNumber (n : FpNum) (consumer : Text → W Unit) : W Unit :=
  if n.finite then
    if isValid n.text then consumer n.text else T.internal .debugAssert
  else T.fail .invalidNumber

/-! ## The methods of `JsonWriter` -/

/-- stream_writer.rs 399–405: `begin_object` -/
def beginObject : W Unit := do
  beforeValue
  T.modify fun c => { c with stack := .object :: c.stack }
  T.modify fun c => { c with isEmpty := true }
  T.modify fun c => { c with expectsMemberName := true }
  T.writeBytes [0x7B]

/-- stream_writer.rs 407–424: `name` -/
def name (n : Text) : W Unit := do
  let c ← T.get
  if !c.expectsMemberName then T.usage .nameNotExpected
  else if c.stringWriterActive then T.usage .nameStringWriterActive
  else do
    beforeContainerElement
    writeStringValue n
    let c ← T.get
    T.writeBytes (if c.settings.prettyPrint then [0x3A, 0x20] else [0x3A])
    T.modify fun c => { c with expectsMemberName := false }

/-- stream_writer.rs 426–438: `end_object` -/
def endObject : W Unit := do
  let c ← T.get
  if !isInObject c then T.usage .endObjectNotInObject
  else if c.stringWriterActive then T.usage .endObjectStringWriterActive
  else if !c.expectsMemberName then T.usage .endObjectValueExpected
  else do
    onContainerEnd
    T.writeBytes [0x7D]

/-- stream_writer.rs 440–449: `begin_array` -/
def beginArray : W Unit := do
  beforeValue
  T.modify fun c => { c with stack := .array :: c.stack }
  T.modify fun c => { c with isEmpty := true }
  T.modify fun c => { c with expectsMemberName := false }
  T.writeBytes [0x5B]

/-- stream_writer.rs 451–462: `end_array` -/
def endArray : W Unit := do
  let c ← T.get
  if !isInArray c then T.usage .endArrayNotInArray
  else if c.stringWriterActive then T.usage .endArrayStringWriterActive
  else do
    onContainerEnd
    T.writeBytes [0x5D]

/-- stream_writer.rs 464–467: `string_value` -/
def stringValue (value : Text) : W Unit := do
  beforeValue
  writeStringValue value

/-- stream_writer.rs 469–472: `bool_value` -/
def boolValue (value : Bool) : W Unit := do
  beforeValue
  T.writeBytes (if value then [0x74, 0x72, 0x75, 0x65] else [0x66, 0x61, 0x6C, 0x73, 0x65])

/-- stream_writer.rs 474–477: `null_value` -/
def nullValue : W Unit := do
  beforeValue
  T.writeBytes [0x6E, 0x75, 0x6C, 0x6C]

/-- stream_writer.rs 479–484: `number_value` -/
def numberValue (value : FinNum) : W Unit :=
  value.useJsonNumber fun s => do
    beforeValue
    T.writeBytes (enc s)

/-- stream_writer.rs 486–491: `fp_number_value` -/
def fpNumberValue (value : FpNum) : W Unit :=
  value.useJsonNumber fun s => do
    beforeValue
    T.writeBytes (enc s)

/-- stream_writer.rs 493–503: `number_value_from_string` -/
def numberValueFromString (value : Text) : W Unit :=
  if isValid value then do
    beforeValue
    T.writeBytes (enc value)
  else T.fail .invalidNumber

/-- stream_writer.rs 520–536: `finish_document` -/
def finishDocument : W Unit := do
  let c ← T.get
  if c.stringWriterActive then T.usage .finishStringWriterActive
  else if c.expectsMemberName then T.usage .finishNameExpected
  else if c.stack.isEmpty then
    if c.isEmpty then T.usage .finishNothingWritten
    else T.flush
  else T.usage .finishNotFinished

/-- stream_writer.rs 538–550: `string_value_writer` -/
def stringValueWriter : W Unit := do
  beforeValue
  T.writeBytes [0x22]
  T.modify fun c => { c with stringWriterActive := true, sv := .new }

/-! ## The string value writer -/

/-- stream_writer.rs 649–657: `decode_utf8_char`, with the model of `std::str::from_utf8` -/
def decodeUtf8Char (bytes : Bytes) : W Text :=
  match decodeUtf8 bytes with
  | none => T.fail .invalidUtf8
  | some s => if s.length = 1 then pure s else T.internal .debugAssert

/-- stream_writer.rs 714 and 732: `std::str::from_utf8(bytes).map_err(map_utf8_error)?` -/
def fromUtf8 (bytes : Bytes) : W Text :=
  match decodeUtf8 bytes with
  | none => T.fail .invalidUtf8
  | some s => pure s

/-- stream_writer.rs 659–735: `self.utf8_buf[pos..(pos + bytes.len())].copy_from_slice(bytes)`, panics if out of range -/
def setUtf8Buf (pos : Nat) (bytes : Bytes) : W Unit := do
  let c ← T.get
  if pos + bytes.length ≤ c.sv.utf8Buf.length then
    T.modify fun c => { c with sv := { c.sv with utf8Buf := overwrite c.sv.utf8Buf pos bytes } }
  else T.internal .index

/-- stream_writer.rs 659–735: `self.utf8_pos = n` -/
def setUtf8Pos (n : Nat) : W Unit := T.modify fun c => { c with sv := { c.sv with utf8Pos := n } }

/-- stream_writer.rs 666–678: completes a character which has been started by a previous call. The result is `start_pos`. -/
def completeChar (buf : Bytes) : W Nat := do
  let c ← T.get
  if 0 < c.sv.utf8Pos then do
    let missing ← csub c.sv.utf8ExpectedLen c.sv.utf8Pos
    let copyCount := min missing buf.length
    setUtf8Buf c.sv.utf8Pos (buf.take copyCount)
    setUtf8Pos (c.sv.utf8Pos + copyCount)
    if c.sv.utf8ExpectedLen ≤ c.sv.utf8Pos + copyCount then do
      setUtf8Pos 0
      let c ← T.get
      let s ← decodeUtf8Char (← slice c.sv.utf8Buf 0 c.sv.utf8ExpectedLen)
      writeStringValuePiece s
    else pure ()
    pure copyCount
  else pure 0

/-- stream_writer.rs 680–688: `max_or_offset_negative` -/
def maxOrOffsetNegative (a b bNegOff : Nat) : W Nat :=
  if b < a then T.internal .debugAssert
  else if b < bNegOff then pure a
  else csub b bNegOff

/-- stream_writer.rs 697–708: `expected_bytes_count`, `none` for continuation bytes; the caller has checked that it is not a single byte character -/
def expectedBytesCount (byte : UInt8) : W (Option Nat) :=
  if is2byteStart byte then pure (some 2)
  else if is3byteStart byte then pure (some 3)
  else if is4byteStart byte then pure (some 4)
  else if isContinuation byte then pure none
  else T.fail .invalidUtf8

/-- stream_writer.rs 690–737: the loop looking for an incomplete character at the end of `buf`, and what is behind it. The number of iterations is limited by
`fuel`; that it is sufficient is proven. -/
def writeImplLoop (buf : Bytes) (startPos : Nat) : Nat → Nat → W Nat
  | 0, _ => T.internal .outOfFuel
  | fuel + 1, i =>
    if h : i < buf.length then
      let byte := buf[i]
      if is1byte byte then writeImplLoop buf startPos fuel (i + 1)
      else do
        match ← expectedBytesCount byte with
        | none => writeImplLoop buf startPos fuel (i + 1)
        | some expected => do
          let remaining := buf.length - i
          if remaining < expected then do
            let s ← fromUtf8 (← slice buf startPos i)
            writeStringValuePiece s
            T.modify fun c => { c with sv := { c.sv with utf8ExpectedLen := expected } }
            setUtf8Pos remaining
            setUtf8Buf 0 (buf.drop i)
            pure buf.length
          else writeImplLoop buf startPos fuel (i + (expected - 1) + 1)
    else do
      let s ← fromUtf8 (← slice buf startPos buf.length)
      writeStringValuePiece s
      pure buf.length

/-- stream_writer.rs 660–738: `write_impl` -/
def writeImpl (buf : Bytes) : W Nat :=
  if buf.isEmpty then pure 0
  else do
    let startPos ← completeChar buf
    let i ← maxOrOffsetNegative startPos buf.length maxBytesPerChar
    writeImplLoop buf startPos (buf.length + 1) i

/-- stream_writer.rs 740–751: `check_previous_error` -/
def checkPreviousError : W Unit := do
  let c ← T.get
  match c.sv.error with
  | none => pure ()
  | some e => T.fail (.previous e)

/-- stream_writer.rs 753–763: `run_with_error_tracking` -/
def runWithErrorTracking {α : Type} (f : W α) : W α := do
  checkPreviousError
  match ← T.attempt f with
  | .ok a => pure a
  | .error e => do
    T.modify fun c => { c with sv := { c.sv with error := some e } }
    T.fail e

/-- stream_writer.rs 766–768: `Write::write` of the string value writer -/
def svWrite (buf : Bytes) : W Nat := runWithErrorTracking (writeImpl buf)

/-- stream_writer.rs 770–772: `Write::flush` of the string value writer -/
def svFlush : W Unit := runWithErrorTracking T.flush

/-- stream_writer.rs 777–789: `write_str` -/
def svWriteStr (s : Text) : W Unit := runWithErrorTracking do
  let c ← T.get
  if 0 < c.sv.utf8Pos then T.fail .incompleteUtf8
  else writeStringValuePiece s

/-- stream_writer.rs 791–806: `finish_value`; it consumes the string value writer (`sv := .new`) -/
def svFinishValue : W Unit := do
  checkPreviousError
  let c ← T.get
  if 0 < c.sv.utf8Pos then T.fail .incompleteUtf8
  else do
    T.writeBytes [0x22]
    T.modify fun c => { c with stringWriterActive := false, sv := .new }

/-! ## Sequences of calls -/

/-- stream_writer.rs 762–786. Calls of the methods of a string value writer, except for `finish_value` -/
inductive SvOp where
  | write (bs : Bytes)
  | writeStr (t : Text)
  | flush
deriving Repr, DecidableEq

/-- Model only: run a method call -/
def svOp : SvOp → W Nat
  | .write bs => svWrite bs
  | .writeStr t => do svWriteStr t; pure 0
  | .flush => do svFlush; pure 0

/-- Model only: the caller continues after errors -/
def svOps : List SvOp → W (List (Except WErr Nat))
  | [] => pure []
  | o :: os => do
    let r ← T.attempt (svOp o)
    let rs ← svOps os
    pure (r :: rs)

/-- writer/mod.rs 91–551: Calls of the methods of the writer. `stringValueWriter`: the methods which are called on the string value writer, and whether it is finished in the end -/
inductive WOp where
  | beginObject
  | name (n : Text)
  | endObject
  | beginArray
  | endArray
  | stringValue (t : Text)
  | boolValue (b : Bool)
  | nullValue
  | numberValue (n : FinNum)
  | fpNumberValue (n : FpNum)
  | numberValueFromString (t : Text)
  | stringValueWriter (ops : List SvOp) (finish : Bool)
  | finishDocument
deriving Repr, DecidableEq

/-- Model only. Result of a call: for string value writers the results of its methods (`Ok` of `write` with the number of bytes, otherwise `0`), and of `finish_value` if it was called -/
inductive WOut where
  | unit
  | string (rs : List (Except WErr Nat)) (finish : Option (Except WErr Unit))

/-- Model only: run a method call -/
def wop : WOp → W WOut
  | .beginObject => do beginObject; pure .unit
  | .name n => do name n; pure .unit
  | .endObject => do endObject; pure .unit
  | .beginArray => do beginArray; pure .unit
  | .endArray => do endArray; pure .unit
  | .stringValue t => do stringValue t; pure .unit
  | .boolValue b => do boolValue b; pure .unit
  | .nullValue => do nullValue; pure .unit
  | .numberValue n => do numberValue n; pure .unit
  | .fpNumberValue n => do fpNumberValue n; pure .unit
  | .numberValueFromString t => do numberValueFromString t; pure .unit
  | .stringValueWriter ops finish => do
    stringValueWriter
    let rs ← svOps ops
    if finish then do
      let r ← T.attempt svFinishValue
      pure (.string rs (some r))
    else pure (.string rs none)
  | .finishDocument => do finishDocument; pure .unit

/-- Model only. A sequence of calls. It is continued after `InvalidNumber` errors, but not after IO errors (behavior not specified, writer/mod.rs), panics, and
`finish_document` (which consumes the writer). The result is the list of the results of the calls; `p` is the panic which ended the sequence. -/
def wops : List WOp → T Empty Core (List (Except WErr WOut))
  | [] => pure []
  | o :: os => ⟨fun c => ((wop o).run c).bind fun
    | (.ok x, c') => if o = .finishDocument then .ret (.ok [.ok x], c') else ((wops os).run c').bind fun
      | (.ok rs, c'') => .ret (.ok (.ok x :: rs), c'')
      | (.error e, _) => nomatch e
    | (.error e, c') => if e = .invalidNumber then ((wops os).run c').bind fun
        | (.ok rs, c'') => .ret (.ok (.error e :: rs), c'')
        | (.error e, _) => nomatch e
      else .ret (.ok [.error e], c')⟩

/-- stream_writer.rs 159–173. A new writer with buffer size `N` and the given settings, and a sequence of calls. The result are the results of the calls, or the panic which ended the
sequence, and the underlying `Write`. -/
def execW (N : Nat) (st : WSettings) (sink : Sink) (ops : List WOp) : Except WPanic (List (Except WErr WOut)) × Sink :=
  match ((wops ops).run (Core.new st)).run.run (BufSink.new N sink) with
  | .ok (.ok rs, _) k => (.ok rs, k.sink)
  | .ok (.error e, _) _ => nomatch e
  | .err p k => (.error p, k.sink)

/-- Model only. As `wops`, but the caller ignores the documentation (writer/mod.rs) and continues also after IO errors. After a panic the sequence ends, and
`finish_document` consumes the writer also if it fails. -/
def wopsAll : List WOp → T Empty Core (List (Except WErr WOut))
  | [] => pure []
  | o :: os => ⟨fun c => ((wop o).run c).bind fun (r, c') =>
    if o = .finishDocument then .ret (.ok [r], c') else ((wopsAll os).run c').bind fun
      | (.ok rs, c'') => .ret (.ok (r :: rs), c'')
      | (.error e, _) => nomatch e⟩

/-- Model only. `execW` for `wopsAll` -/
def execAll (N : Nat) (st : WSettings) (sink : Sink) (ops : List WOp) : Except WPanic (List (Except WErr WOut)) × Sink :=
  match ((wopsAll ops).run (Core.new st)).run.run (BufSink.new N sink) with
  | .ok (.ok rs, _) k => (.ok rs, k.sink)
  | .ok (.error e, _) _ => nomatch e
  | .err p k => (.error p, k.sink)

end Verif.Writer
