import Verif.Model.Source
import Verif.Model.JsonNumber
/-!
# Model of `src/reader/stream_reader.rs` and of the provided methods of the trait `JsonReader` (`src/reader/mod.rs`)

Generic over the byte access, see `Verif.Model.Source`. Rust methods `fn f(&mut self, ..) -> Result<T, ReaderError>` are
`R σ T`. The counters of type `u32`/`u64` (`line`, `column`, `byte_pos`, `depth`, `consumed_bytes`, array index of the
JSON path, `stack.len() as u32`) are modelled as `Nat`, i.e. their overflow is not modelled.
Loops are recursive functions on `fuel`, with the number of remaining bytes (plus a constant) as initial fuel;
`RErr.outOfFuel` does not exist in Rust.
-/

namespace Verif

/-- reader/mod.rs 416–478: `SyntaxErrorKind` -/
inductive SyntaxKind where
  | commentsNotEnabled
  | incompleteComment
  | blockCommentNotClosed
  | invalidLiteral
  | trailingDataAfterLiteral
  | unexpectedClosingBracket
  | unexpectedComma
  | missingComma
  | trailingCommaNotEnabled
  | unexpectedColon
  | missingColon
  | malformedNumber
  | trailingDataAfterNumber
  | expectingMemberNameOrObjectEnd
  | malformedJson
  | notEscapedControlCharacter
  | unknownEscapeSequence
  | malformedEscapeSequence
  | unpairedSurrogatePairEscapeSequence
  | incompleteDocument
  | trailingData
deriving Repr, DecidableEq

/-- reader/mod.rs 481–507: `UnexpectedStructureKind` -/
inductive StructureKind where
  | tooShortArray (expectedIndex : Nat)
  | missingObjectMember (name : Text)
  | fewerElementsThanExpected
  | moreElementsThanExpected
deriving Repr, DecidableEq

/-- reader/mod.rs 227–242: `ValueType` -/
inductive ValueType where
  | array | object | string | number | boolean | null
deriving Repr, DecidableEq

/-- reader/mod.rs 37–58: `JsonPathPiece` -/
inductive PathPiece where
  | arrayItem (index : Nat)
  | objectMember (name : Text)
deriving Repr, DecidableEq

/-- reader/mod.rs 261–330: `JsonReaderPosition` with `LinePosition`; the stream reader always provides
`line_pos` and `data_pos` -/
structure Position where
  path : Option (List PathPiece)
  line : Nat
  column : Nat
  dataPos : Nat
deriving Repr, DecidableEq

/-- reader/mod.rs 578–586 and stream_reader.rs 1007–1012: `std::io::Error` as far as the reader creates or forwards it -/
inductive IoErr where
  /-- `ErrorKind::InvalidData`, "invalid UTF-8 data" (stream_reader.rs 1010) -/
  | invalidUtf8
  /-- error of the underlying `Read` -/
  | source (code : Nat)
deriving Repr, DecidableEq

/-- reader/mod.rs 513–583: `ReaderError`; additionally panics and `outOfFuel` -/
inductive RErr where
  | syntax (kind : SyntaxKind) (loc : Position)
  | unexpectedValueType (expected actual : ValueType) (loc : Position)
  | unexpectedStructure (kind : StructureKind) (loc : Position)
  | maxNestingDepthExceeded (max : Nat) (loc : Position)
  | unsupportedNumberValue (number : Text) (loc : Position)
  | io (e : IoErr) (loc : Position)
  | panic (p : Panic)
  | outOfFuel
deriving Repr, DecidableEq

/-- stream_reader.rs 20–35: `PeekedValue` -/
inductive Peeked where
  | null | booleanTrue | booleanFalse | numberStart | stringStart | nameStart
  | arrayStart | arrayEnd | objectStart | objectEnd
deriving Repr, DecidableEq

/-- stream_reader.rs 66–70: `StackValue` -/
inductive StackValue where
  | array | object
deriving Repr, DecidableEq

/-- stream_reader.rs 236–346: `ReaderSettings` -/
structure Settings where
  allowComments : Bool
  allowTrailingComma : Bool
  allowMultipleTopLevel : Bool
  trackPath : Bool
  maxNestingDepth : Option Nat
  restrictNumberValues : Bool
deriving Repr, DecidableEq

/-- stream_reader.rs 350–371: `ReaderSettings::default` -/
def Settings.default : Settings :=
  { allowComments := false, allowTrailingComma := false, allowMultipleTopLevel := false,
    trackPath := true, maxNestingDepth := some 128, restrictNumberValues := true }

/-- stream_reader.rs 123–153: `JsonStreamReader`. `stack` and `path` are stored in reversed order (the head is the
last element of the Rust `Vec`). -/
structure RState (σ : Type) where
  src : σ
  peeked : Option Peeked
  isEmpty : Bool
  expectsMemberName : Bool
  stack : List StackValue
  stringReaderActive : Bool
  line : Nat
  column : Nat
  bytePos : Nat
  path : Option (List PathPiece)
  settings : Settings
deriving Repr, DecidableEq

/-- Model only: a method of `JsonStreamReader` -/
abbrev R (σ α : Type) := M RErr (RState σ) α

namespace Reader

/-- stream_reader.rs 384–410: `new_custom` -/
def new {σ : Type} (src : σ) (settings : Settings) : RState σ :=
  { src, peeked := none, isEmpty := true, expectsMemberName := false, stack := [], stringReaderActive := false,
    line := 0, column := 0, bytePos := 0, path := if settings.trackPath then some [] else none, settings }

section
variable {σ : Type}

/-- stream_reader.rs 2359–2373: `current_position` -/
def currentPosition (s : RState σ) (includePath : Bool) : Position :=
  { path := if includePath then s.path.map List.reverse else none
    line := s.line, column := s.column, dataPos := s.bytePos }

/-- stream_reader.rs 430–432: `create_error_location` -/
def loc (s : RState σ) : Position := currentPosition s true

/-- stream_reader.rs 434–442: `create_syntax_value_error`, also the places which create a `JsonSyntaxError` directly -/
def syntaxErr {α : Type} (kind : SyntaxKind) : R σ α := ⟨fun s => .err (.syntax kind (loc s)) s⟩

/-- stream_reader.rs 867, 889, 1773, 1960 and 2028: `ReaderError::UnexpectedStructure` with the current location -/
def structureErr {α : Type} (kind : StructureKind) : R σ α := ⟨fun s => .err (.unexpectedStructure kind (loc s)) s⟩

/-- stream_reader.rs 1007–1012: an IO error with the current location -/
def ioErr {α : Type} (e : IoErr) : R σ α := ⟨fun s => .err (.io e (loc s)) s⟩

/-- `panic!("Incorrect reader usage: ..")`, see `UsagePanic` for the lines -/
def usagePanic {α : Type} (p : UsagePanic) : R σ α := M.fail (.panic (.usage p))

/-- other panics, see `InternalPanic` -/
def internalPanic {α : Type} (p : InternalPanic) : R σ α := M.fail (.panic (.internal p))

/-- stream_reader.rs 444–446: `is_behind_top_level` -/
def isBehindTopLevel (s : RState σ) : Bool := !s.isEmpty && s.stack.isEmpty

/-- stream_reader.rs 448–450: `is_in_array` -/
def isInArray (s : RState σ) : Bool := s.stack.head? == some .array

/-- stream_reader.rs 452–456: `is_in_object` -/
def isInObject (s : RState σ) : Bool := s.stack.head? == some .object

/-- stream_reader.rs 458–460: `expects_member_value` -/
def expectsMemberValue (s : RState σ) : Bool := isInObject s && !s.expectsMemberName

/-- stream_reader.rs 584–592, 620, 633, 668–679, 773, 913–915, 1627, 1789, 1837: The pairs of statements `self.column += columns; self.byte_pos += bytes;` -/
def advance (columns bytes : Nat) : R σ Unit :=
  M.modify fun s => { s with column := s.column + columns, bytePos := s.bytePos + bytes }

/-- Standard library, used for example at stream_reader.rs 698: `Option::unwrap` -/
def unwrap {α : Type} : Option α → R σ α
  | some a => pure a
  | none => internalPanic .unwrapNone

/-- byte access operation as reader operation: IO errors get the current location (stream_reader.rs 487) -/
def liftS {α : Type} (m : M SrcErr σ α) : R σ α := ⟨fun s =>
  match m.run s.src with
  | .ok a src => .ok a { s with src }
  | .err (.io c) src => .err (.io (.source c) (loc s)) { s with src }
  | .err (.panic p) src => .err (.panic p) { s with src }⟩

end

section
variable {σ : Type} [ByteSource σ]

/-- model only: initial fuel of loops -/
def fuel (s : RState σ) : Nat := ByteSource.remaining s.src + 2

/-- stream_reader.rs 515–522: `peek_byte` -/
def peekByte : R σ (Option UInt8) := liftS ByteSource.peekByte

/-- stream_reader.rs 524–529: `skip_peeked_byte` -/
def skipPeekedByte : R σ Unit := liftS ByteSource.skipPeekedByte

/-- stream_reader.rs 531–541: `read_byte` -/
def readByte (eofKind : SyntaxKind) : R σ UInt8 := do
  match ← peekByte with
  | some b => do
    skipPeekedByte
    pure b
  | none => syntaxErr eofKind

/-! ## UTF-8 and Unicode escapes -/

/-- stream_reader.rs 1014–1080: `if !utf8::is_valid_..(..) { return self.invalid_utf8_err(); }` followed by the result -/
def checkValid (valid : Option Bool) (bytes : Bytes) : R σ Bytes :=
  match valid with
  | none => internalPanic .debugAssert
  | some false => ioErr .invalidUtf8
  | some true => pure bytes

/-- stream_reader.rs 1019–1075: `Utf8MultibyteReader::read_utf8_multibyte`; `rb` is `Utf8MultibyteReader::read_byte` -/
def readUtf8Multibyte (rb : SyntaxKind → R σ UInt8) (byte0 : UInt8) : R σ Bytes := do
  let byte1 ← rb .incompleteDocument
  if !Utf8.isContinuation byte1 then ioErr .invalidUtf8
  else if Utf8.is2byteStart byte0 then
    checkValid (Utf8.isValid2bytes byte0 byte1) [byte0, byte1]
  else do
    let byte2 ← rb .incompleteDocument
    if !Utf8.isContinuation byte2 then ioErr .invalidUtf8
    else if Utf8.is3byteStart byte0 then
      checkValid (Utf8.isValid3bytes byte0 byte1 byte2) [byte0, byte1, byte2]
    else if Utf8.is4byteStart byte0 then do
      let byte3 ← rb .incompleteDocument
      if !Utf8.isContinuation byte3 then ioErr .invalidUtf8
      else checkValid (Utf8.isValid4bytes byte0 byte1 byte2 byte3) [byte0, byte1, byte2, byte3]
    else ioErr .invalidUtf8

/-- stream_reader.rs 1105–1115: `parse_unicode_escape_hex_digit` -/
def parseHexDigit (digit : UInt8) : R σ Nat :=
  if 0x30 ≤ digit && digit ≤ 0x39 then pure (digit.toNat - 0x30)
  else if 0x61 ≤ digit && digit ≤ 0x66 then pure (digit.toNat - 0x61 + 10)
  else if 0x41 ≤ digit && digit ≤ 0x46 then pure (digit.toNat - 0x41 + 10)
  else syntaxErr .malformedEscapeSequence

/-- stream_reader.rs 1117–1120: `read_hex_byte` -/
def readHexByte (rb : SyntaxKind → R σ UInt8) : R σ Nat := do
  let byte ← rb .malformedEscapeSequence
  parseHexDigit byte

/-- stream_reader.rs 1122–1129: `read_unicode_escape` -/
def readUnicodeEscape (rb : SyntaxKind → R σ UInt8) : R σ Nat := do
  let d1 ← readHexByte rb
  let d2 ← readHexByte rb
  let d3 ← readHexByte rb
  let d4 ← readHexByte rb
  pure (d4 ||| d3 <<< 4 ||| d2 <<< 8 ||| d1 <<< 12)

/-- stream_reader.rs 1168–1174: `char::from_u32(c).unwrap()`, together with the number of consumed chars -/
def escapedChar (c : Nat) (count : Nat) : R σ (Char × Nat) := do
  let ch ← unwrap (Utf8.charFromU32 c)
  pure (ch, count)

/-- stream_reader.rs 1155–1166: the low surrogate of a surrogate pair, after `\u` was read -/
def readLowSurrogate (rb : SyntaxKind → R σ UInt8) (c : Nat) : R σ (Char × Nat) := do
  let c2 ← readUnicodeEscape rb
  if !(0xDC00 ≤ c2 && c2 ≤ 0xDFFF) then syntaxErr .unpairedSurrogatePairEscapeSequence
  else escapedChar (((c - 0xD800) <<< 10 ||| (c2 - 0xDC00)) + 0x10000) 10

/-- stream_reader.rs 1134–1174: `read_unicode_escape_char` -/
def readUnicodeEscapeChar (rb : SyntaxKind → R σ UInt8) : R σ (Char × Nat) := do
  let c ← readUnicodeEscape rb
  if 0xDC00 ≤ c && c ≤ 0xDFFF then syntaxErr .unpairedSurrogatePairEscapeSequence
  else if 0xD800 ≤ c && c ≤ 0xDBFF then do
    let b1 ← rb .unpairedSurrogatePairEscapeSequence
    if b1 == 0x5C then do
      let b2 ← rb .unpairedSurrogatePairEscapeSequence
      if b2 == 0x75 then readLowSurrogate rb c
      else syntaxErr .unpairedSurrogatePairEscapeSequence
    else syntaxErr .unpairedSurrogatePairEscapeSequence
  else escapedChar c 4

/-! ## Whitespace and comments -/

/-- stream_reader.rs 568–594: handling of a skipped byte in `skip_to` -/
def skipToByte (byte : UInt8) (hasCr : Bool) : R σ Unit :=
  if byte == 0x0A then
    M.modify fun s => if hasCr then { s with bytePos := s.bytePos + 1 }
      else { s with column := 0, line := s.line + 1, bytePos := s.bytePos + 1 }
  else if byte == 0x0D then
    M.modify fun s => { s with column := 0, line := s.line + 1, bytePos := s.bytePos + 1 }
  else if Utf8.is1byte byte then advance 1 1
  else do
    let bytes ← readUtf8Multibyte readByte byte
    advance 1 bytes.length

/-- stream_reader.rs 546–603: loop of `skip_to` -/
def skipToLoop (stop : UInt8 → Bool) (eofKind : Option SyntaxKind) : Nat → Bool → R σ Unit
  | 0, _ => M.fail .outOfFuel
  | fuel + 1, hasCr => do
    match ← peekByte with
    | none =>
      match eofKind with
      | none => pure ()
      | some kind => syntaxErr kind
    | some byte =>
      if stop byte then pure ()
      else if byte < 0x20 && !(byte == 0x09 || byte == 0x0A || byte == 0x0D) then syntaxErr .notEscapedControlCharacter
      else do
        skipPeekedByte
        skipToByte byte hasCr
        skipToLoop stop eofKind fuel (byte == 0x0D)

/-- stream_reader.rs 546–603: `skip_to` -/
def skipTo (stop : UInt8 → Bool) (eofKind : Option SyntaxKind) : R σ Unit := do
  let s ← M.get
  skipToLoop stop eofKind (fuel s) false

/-- stream_reader.rs 605–611: `skip_to_line_comment_end` -/
def skipToLineCommentEnd (eofKind : Option SyntaxKind) : R σ Unit :=
  skipTo (fun byte => byte == 0x0A || byte == 0x0D) eofKind

/-- stream_reader.rs 613–640: `skip_to_block_comment_end` -/
def skipToBlockCommentEnd : Nat → R σ Unit
  | 0 => M.fail .outOfFuel
  | fuel + 1 => do
    skipTo (fun byte => byte == 0x2A) (some .blockCommentNotClosed)
    advance 1 1
    skipPeekedByte
    match ← peekByte with
    | none => syntaxErr .blockCommentNotClosed
    | some byte =>
      if byte == 0x2F then do
        skipPeekedByte
        advance 1 1
      else skipToBlockCommentEnd fuel

/-- stream_reader.rs 650: the bytes skipped by `skip_whitespace`: `b' ' | b'\t' | b'\n' | b'\r'` -/
def isWsByte (b : UInt8) : Bool := b == 0x20 || b == 0x09 || b == 0x0A || b == 0x0D

/-- stream_reader.rs 667–685: the comment behind a `/` -/
def skipComment (eofKind : Option SyntaxKind) : R σ Unit := do
  skipPeekedByte
  advance 1 1
  let b ← readByte .incompleteComment
  if b == 0x2A then do
    advance 1 1
    let s ← M.get
    skipToBlockCommentEnd (fuel s)
  else if b == 0x2F then do
    advance 1 1
    skipToLineCommentEnd eofKind
  else syntaxErr .incompleteComment

/-- stream_reader.rs 642–691: loop of `skip_whitespace` -/
def skipWhitespaceLoop (eofKind : Option SyntaxKind) : Nat → R σ (Option UInt8)
  | 0 => M.fail .outOfFuel
  | fuel + 1 => do
    skipTo (fun byte => !isWsByte byte) none
    match ← peekByte with
    | none =>
      match eofKind with
      | none => pure none
      | some kind => syntaxErr kind
    | some byte =>
      if byte == 0x2F then do
        let s ← M.get
        if !s.settings.allowComments then syntaxErr .commentsNotEnabled
        else do
          skipComment eofKind
          skipWhitespaceLoop eofKind fuel
      else pure (some byte)

/-- stream_reader.rs 642–691: `skip_whitespace` -/
def skipWhitespace (eofKind : Option SyntaxKind) : R σ (Option UInt8) := do
  let s ← M.get
  skipWhitespaceLoop eofKind (fuel s)

/-- stream_reader.rs 693–699: `skip_whitespace_no_eof` -/
def skipWhitespaceNoEof (eofKind : SyntaxKind) : R σ UInt8 := do
  let r ← skipWhitespace (some eofKind)
  unwrap r

/-! ## Peeking -/

/-- stream_reader.rs 711: bytes which may follow a literal or number -/
def isValueSeparator (b : UInt8) : Bool :=
  b == 0x2C || b == 0x5D || b == 0x7D || b == 0x20 || b == 0x09 || b == 0x0A || b == 0x0D || b == 0x2F || b == 0x3A

/-- stream_reader.rs 704–717: `verify_value_separator`, applied to the result of `peek_byte` (all callers only check if
there is a byte) -/
def verifyValueSeparator (kind : SyntaxKind) : R σ Unit := do
  match ← peekByte with
  | some byte => if isValueSeparator byte then pure () else syntaxErr kind
  | none => pure ()

/-- stream_reader.rs 720–725: loop of `consume_literal` -/
def consumeLiteralBytes : Bytes → R σ Unit
  | [] => pure ()
  | expected :: rest => do
    let byte ← readByte .invalidLiteral
    if byte != expected then syntaxErr .invalidLiteral
    else consumeLiteralBytes rest

/-- stream_reader.rs 719–734: `consume_literal` -/
def consumeLiteral (literal : Bytes) : R σ Unit := do
  consumeLiteralBytes literal
  verifyValueSeparator .trailingDataAfterLiteral

/-- stream_reader.rs 813: the literal `null` -/
def nullBytes : Bytes := [0x6E, 0x75, 0x6C, 0x6C]
/-- stream_reader.rs 818: the literal `true` -/
def trueBytes : Bytes := [0x74, 0x72, 0x75, 0x65]
/-- stream_reader.rs 823: the literal `false` -/
def falseBytes : Bytes := [0x66, 0x61, 0x6C, 0x73, 0x65]

/-- stream_reader.rs 1785–1795: `after_name` -/
def afterName : R σ Unit := do
  let byte ← skipWhitespaceNoEof .missingColon
  if byte == 0x3A then do
    skipPeekedByte
    advance 1 1
  else syntaxErr .missingColon

/-- stream_reader.rs 780–839: determine the type of the next token; the second component is `advance_reader` -/
def classify (byte : UInt8) : R σ (Peeked × Bool) := do
  let s ← M.get
  if s.expectsMemberName then
    if byte == 0x7D then pure (.objectEnd, true)
    else if byte == 0x22 then pure (.nameStart, true)
    else syntaxErr .expectingMemberNameOrObjectEnd
  else if byte == 0x5B then pure (.arrayStart, true)
  else if byte == 0x5D then
    if !isInArray s then syntaxErr .unexpectedClosingBracket
    else pure (.arrayEnd, true)
  else if byte == 0x7B then pure (.objectStart, true)
  else if byte == 0x7D then syntaxErr .unexpectedClosingBracket
  else if byte == 0x22 then pure (.stringStart, true)
  else if byte == 0x2D || (0x30 ≤ byte && byte ≤ 0x39) then pure (.numberStart, false)
  else if byte == 0x6E then do
    consumeLiteral nullBytes
    pure (.null, false)
  else if byte == 0x74 then do
    consumeLiteral trueBytes
    pure (.booleanTrue, false)
  else if byte == 0x66 then do
    consumeLiteral falseBytes
    pure (.booleanFalse, false)
  else if byte == 0x2C then syntaxErr .unexpectedComma
  else if byte == 0x3A then syntaxErr .unexpectedColon
  else syntaxErr .malformedJson

/-- stream_reader.rs 841–857: the end of `peek_internal_optional`, after the type of the next token was determined.
`comma` is the location (line, column, byte_pos) of the comma if there was one (Rust: `has_trailing_comma`,
`comma_line`, `comma_column`, `comma_byte_pos`). -/
def finishPeek (canHaveComma : Bool) (comma : Option (Nat × Nat × Nat)) (p : Peeked × Bool) :
    R σ (Option Peeked) := do
  let s ← M.get
  let setPeeked : R σ (Option Peeked) := do
    (if p.2 then skipPeekedByte else pure ())
    M.modify fun s => { s with peeked := some p.1 }
    pure (some p.1)
  if p.1 == .arrayEnd || p.1 == .objectEnd then
    match comma with
    | some (line, column, bytePos) =>
      if !s.settings.allowTrailingComma then do
        M.set { s with line, column, bytePos }
        syntaxErr .trailingCommaNotEnabled
      else setPeeked
    | none => setPeeked
  else if canHaveComma && comma.isNone then syntaxErr .missingComma
  else setPeeked

/-- stream_reader.rs 753–857: `peek_internal_optional` after the checks and after the end of the member name -/
def peekToken : R σ (Option Peeked) := do
  match ← skipWhitespace none with
  | none => pure none
  | some byte => do
    let s ← M.get
    let canHaveComma := !s.isEmpty && (isInArray s || s.expectsMemberName)
    if byte == 0x2C then
      if !canHaveComma then syntaxErr .unexpectedComma
      else do
        skipPeekedByte
        advance 1 1
        let byte ← skipWhitespaceNoEof .incompleteDocument
        let p ← classify byte
        finishPeek canHaveComma (some (s.line, s.column, s.bytePos)) p
    else do
      let p ← classify byte
      finishPeek canHaveComma none p

/-- stream_reader.rs 736–858: `peek_internal_optional` -/
def peekInternalOptional : R σ (Option Peeked) := do
  let s ← M.get
  if s.stringReaderActive then usagePanic .peekStringReaderActive
  else if s.peeked.isSome then pure s.peeked
  else if isBehindTopLevel s && !s.settings.allowMultipleTopLevel then usagePanic .peekAfterTopLevel
  else if expectsMemberValue s then do
    afterName
    peekToken
  else peekToken

/-- stream_reader.rs 860–877: `peek_internal` -/
def peekInternal : R σ Peeked := do
  match ← peekInternalOptional with
  | some p => pure p
  | none => do
    let s ← M.get
    if isBehindTopLevel s && s.settings.allowMultipleTopLevel then structureErr .fewerElementsThanExpected
    else syntaxErr .incompleteDocument

/-- stream_reader.rs 879–899: `map_peeked` -/
def mapPeeked : Peeked → R σ ValueType
  | .objectStart => pure .object
  | .objectEnd => internalPanic .unreachable
  | .nameStart => internalPanic .unreachable
  | .arrayStart => pure .array
  | .arrayEnd => structureErr .fewerElementsThanExpected
  | .stringStart => pure .string
  | .numberStart => pure .number
  | .null => pure .null
  | .booleanTrue => pure .boolean
  | .booleanFalse => pure .boolean

/-- stream_reader.rs 902–912: number of bytes which were consumed from the source when peeking -/
def peekedLength : Peeked → Nat
  | .objectStart => 1
  | .objectEnd => 1
  | .arrayStart => 1
  | .arrayEnd => 1
  | .stringStart => 1
  | .nameStart => 1
  | .numberStart => 0
  | .null => 4
  | .booleanTrue => 4
  | .booleanFalse => 5

/-- stream_reader.rs 901–917: `consume_peeked` -/
def consumePeeked : R σ Unit := do
  let s ← M.get
  let p ← unwrap s.peeked
  M.set { s with peeked := none, column := s.column + peekedLength p, bytePos := s.bytePos + peekedLength p }

/-! ## Values -/

/-- stream_reader.rs 933–945: check of the nesting depth -/
def depthExceeded (s : RState σ) : Option Nat :=
  match s.settings.maxNestingDepth with
  | some max => if s.stack.length ≥ max then some max else none
  | none => none

/-- stream_reader.rs 921–956: `start_expected_value_type` -/
def startExpectedValueType (expected : ValueType) (checkDepth : Bool) : R σ Peeked := do
  let s ← M.get
  if s.expectsMemberName then usagePanic .valueWhenExpectingName
  else do
    let peekedInternal ← peekInternal
    let peeked ← mapPeeked peekedInternal
    let s ← M.get
    if peeked == expected then
      match (if checkDepth then depthExceeded s else none) with
      | some max => M.fail (.maxNestingDepthExceeded max (loc s))
      | none => do
        consumePeeked
        pure peekedInternal
    else M.fail (.unexpectedValueType expected peeked (loc s))

/-- stream_reader.rs 958–969: `on_container_start` -/
def onContainerStart (expected : ValueType) (v : StackValue) : R σ Unit := do
  let _ ← startExpectedValueType expected true
  M.modify fun s => { s with stack := v :: s.stack, isEmpty := true }

/-- stream_reader.rs 980–998: `on_value_end` -/
def onValueEnd : R σ Unit := do
  let s ← M.get
  let path ← (match isInArray s, s.path with
    | true, some p =>
      match p with
      | .arrayItem i :: ps => pure (some (.arrayItem (i + 1) :: ps))
      | .objectMember _ :: _ => internalPanic .unreachable
      | [] => internalPanic .unwrapNone
    | _, p => pure p)
  M.set { s with path, expectsMemberName := if isInObject s then true else s.expectsMemberName, isEmpty := false }

/-- stream_reader.rs 971–978: `on_container_end` -/
def onContainerEnd : R σ Unit := do
  M.modify fun s => { s with stack := s.stack.tail, path := s.path.map List.tail }
  onValueEnd

/-! ## Strings and names -/

/-- result of reading a simple escape sequence: `some b` for the byte represented by `\` followed by the given byte,
`none` if it is not a simple escape sequence (stream_reader.rs 1571–1576, 1667–1692) -/
def simpleEscape (b : UInt8) : Option UInt8 :=
  if b == 0x22 || b == 0x5C || b == 0x2F then some b
  else if b == 0x62 then some 0x08
  else if b == 0x66 then some 0x0C
  else if b == 0x6E then some 0x0A
  else if b == 0x72 then some 0x0D
  else if b == 0x74 then some 0x09
  else none

/-- stream_reader.rs 1554–1630: `read_string_bytes`; returns whether the end was reached and the bytes which are passed to
the consumer. The Rust code calls the consumer only after the complete char has been read successfully, therefore
returning the bytes at the end is equivalent. -/
def readStringBytes : R σ (Bool × Bytes) := do
  let byte ← readByte .incompleteDocument
  if byte == 0x5C then do
    let byte ← readByte .malformedEscapeSequence
    match simpleEscape byte with
    | some b => do
      advance 2 2
      pure (false, [b])
    | none =>
      if byte == 0x75 then do
        let (c, count) ← readUnicodeEscapeChar readByte
        advance (2 + count) (2 + count)
        pure (false, String.utf8EncodeChar c)
      else syntaxErr .unknownEscapeSequence
  else if byte == 0x22 then do
    advance 1 1
    pure (true, [])
  else if byte < 0x20 then syntaxErr .notEscapedControlCharacter
  else if byte < 0x80 then do
    advance 1 1
    pure (false, [byte])
  else do
    let bytes ← readUtf8Multibyte readByte byte
    advance 1 bytes.length
    pure (false, bytes)

/-- stream_reader.rs 1632–1646: `skip_all_string_bytes` (and `read_all_string_bytes`, which is only used by it) -/
def skipAllStringBytesLoop : Nat → R σ Unit
  | 0 => M.fail .outOfFuel
  | fuel + 1 => do
    let (reachedEnd, _) ← readStringBytes
    if reachedEnd then pure () else skipAllStringBytesLoop fuel

/-- stream_reader.rs 1644–1646: `skip_all_string_bytes` -/
def skipAllStringBytes : R σ Unit := do
  let s ← M.get
  skipAllStringBytesLoop (fuel s)

/-- stream_reader.rs 1350: `peek_byte_optional(None)` -/
def vPeek : R σ (Option UInt8) := liftS ByteSource.vPeek

/-- stream_reader.rs 1406–1415: `BytesValueReader::read_byte`, including `peek_byte_optional(Some(eof_error_kind))` -/
def vReadByte (eofKind : SyntaxKind) : R σ UInt8 := do
  match ← vPeek with
  | some b => do
    liftS ByteSource.vConsume
    pure b
  | none => syntaxErr eofKind

/-- stream_reader.rs 1535–1540: `AsUnicodeEscapeReader::read_byte` -/
def vReadByteSkip (eofKind : SyntaxKind) : R σ UInt8 := do
  let byte ← vReadByte eofKind
  liftS ByteSource.vSkipPrevious
  pure byte

/-- stream_reader.rs 1661–1720: an escape sequence in `read_string`, behind the `\` -/
def readStringEscape : R σ Unit := do
  liftS ByteSource.vSkipPrevious
  let byte ← vReadByte .malformedEscapeSequence
  match simpleEscape byte with
  | some b =>
    if b == byte then advance 2 2
    else do
      liftS ByteSource.vSkipPrevious
      liftS (ByteSource.vPush [b])
      advance 2 2
  | none =>
    if byte == 0x75 then do
      liftS ByteSource.vSkipPrevious
      let (c, count) ← readUnicodeEscapeChar vReadByteSkip
      advance count count
      liftS (ByteSource.vPush (String.utf8EncodeChar c))
      advance 2 2
    else syntaxErr .unknownEscapeSequence

/-- stream_reader.rs 1657–1756: loop of `read_string` -/
def readStringLoop (requiresBorrowed : Bool) : Nat → R σ Unit
  | 0 => M.fail .outOfFuel
  | fuel + 1 => do
    let byte ← vReadByte .incompleteDocument
    if byte == 0x5C then do
      readStringEscape
      readStringLoop requiresBorrowed fuel
    else if byte == 0x22 then do
      advance 1 1
      liftS ByteSource.vSkipFinal
      liftS (ByteSource.vGet requiresBorrowed)
    else if byte < 0x20 then syntaxErr .notEscapedControlCharacter
    else if byte < 0x80 then do
      advance 1 1
      readStringLoop requiresBorrowed fuel
    else do
      let bytes ← readUtf8Multibyte vReadByte byte
      advance 1 bytes.length
      readStringLoop requiresBorrowed fuel

/-- stream_reader.rs 1653–1760: `read_string` -/
def readString (requiresBorrowed : Bool) : R σ Unit := do
  liftS ByteSource.vNew
  let s ← M.get
  readStringLoop requiresBorrowed (fuel s)

/-! ## Numbers -/

/-- stream_reader.rs 1874–1880 and 1909–1914: `consume_current_peek_next` of the two number readers; the second component of
the state is `consumed_bytes` -/
def numberNext (consume : R σ Unit) (peek : R σ (Option UInt8)) : M RErr (RState σ × Nat) (Option UInt8) := ⟨fun s =>
  match (do consume; peek : R σ (Option UInt8)).run s.1 with
  | .ok b s' => .ok b (s', s.2 + 1)
  | .err e s' => .err e (s', s.2 + 1)⟩

/-- stream_reader.rs 1816–1823: peek at the first byte and run `consume_json_number`; returns the exponent digits count and the
number of consumed bytes -/
def consumeNumber (create : R σ Unit) (consume : R σ Unit) (peek : R σ (Option UInt8)) : R σ (Nat × Nat) := do
  let first ← peekByte
  let firstByte ← unwrap first
  create
  let r ← (⟨fun s =>
    match (JsonNumber.consumeJsonNumber (numberNext consume peek) .outOfFuel (fuel s) firstByte).run (s, 0) with
    | .ok r (s', n) => .ok (r, n) s'
    | .err e (s', _) => .err e s'⟩ : R σ (Option Nat × Nat))
  match r.1 with
  | none => syntaxErr .malformedNumber
  | some count => pure (count, r.2)

/-- stream_reader.rs 1837–1845: end of `collect_next_number_bytes!` -/
def finishNumber (consumedBytes : Nat) : R σ Unit := do
  advance consumedBytes consumedBytes
  verifyValueSeparator .trailingDataAfterNumber
  onValueEnd

/-- stream_reader.rs 1855–1864: `read_number_bytes`, with `collect_next_number_bytes!` (1812–1847) for `NumberBytesValueReader` -/
def readNumberBytes (requiresBorrowed : Bool) : R σ Unit := do
  let _ ← startExpectedValueType .number false
  let (exponentDigits, consumedBytes) ← consumeNumber (liftS ByteSource.vNew) (liftS ByteSource.vConsume) vPeek
  let s ← M.get
  if s.settings.restrictNumberValues && (exponentDigits > 2 || consumedBytes > 100) then do
    liftS (ByteSource.vGet false)
    let number ← liftS ByteSource.getString
    let s ← M.get
    M.fail (.unsupportedNumberValue number (loc s))
  else do
    liftS (ByteSource.vGet requiresBorrowed)
    finishNumber consumedBytes

/-- stream_reader.rs 2143–2148: `collect_next_number_bytes!` for `SkippingNumberBytesReader` -/
def skipNumber : R σ Unit := do
  let _ ← startExpectedValueType .number false
  let (_, consumedBytes) ← consumeNumber (pure ()) skipPeekedByte peekByte
  finishNumber consumedBytes

/-! ## `JsonReader` methods -/

/-- stream_reader.rs 1934–1940: `peek` -/
def peek : R σ ValueType := do
  let s ← M.get
  if s.expectsMemberName then usagePanic .valueWhenExpectingName
  else do
    let p ← peekInternal
    mapPeeked p

/-- stream_reader.rs 1942–1952: `begin_array` -/
def beginArray : R σ Unit := do
  onContainerStart .array .array
  M.modify fun s => { s with path := s.path.map (.arrayItem 0 :: ·), expectsMemberName := false }

/-- stream_reader.rs 1954–1968: `end_array` -/
def endArray : R σ Unit := do
  let s ← M.get
  if !isInArray s then usagePanic .endArrayNotInArray
  else do
    let p ← peekInternal
    if p != .arrayEnd then structureErr .moreElementsThanExpected
    else do
      consumePeeked
      onContainerEnd

/-- stream_reader.rs 1976: placeholder `<?>` -/
def pathPlaceholder : Text := ['<', '?', '>']

/-- stream_reader.rs 1970–1981: `begin_object` -/
def beginObject : R σ Unit := do
  onContainerStart .object .object
  M.modify fun s => { s with path := s.path.map (.objectMember pathPlaceholder :: ·), expectsMemberName := true }

/-- stream_reader.rs 2059–2086: `has_next` -/
def hasNext : R σ Bool := do
  let s ← M.get
  if expectsMemberValue s then usagePanic .hasNextExpectsValue
  else do
    let p ← (if s.stack.isEmpty then
      if s.isEmpty then usagePanic .hasNextTopLevelNotStarted
      else if !s.settings.allowMultipleTopLevel then usagePanic .hasNextMultiDisabled
      else peekInternalOptional
    else do
      let p ← peekInternal
      pure (some p))
    match p with
    | none => pure false
    | some p => do
      let s ← M.get
      if !(!s.expectsMemberName || p == .nameStart || p == .objectEnd) then internalPanic .debugAssert
      else pure (p != .arrayEnd && p != .objectEnd)

/-- stream_reader.rs 1764–1783: `before_name` -/
def beforeName : R σ Unit := do
  let s ← M.get
  if !s.expectsMemberName then usagePanic .nameNotExpected
  else if s.stringReaderActive then usagePanic .nameStringReaderActive
  else do
    if ← hasNext then do
      M.modify fun s => { s with expectsMemberName := false }
      consumePeeked
    else structureErr .fewerElementsThanExpected

/-- stream_reader.rs 1988–1993, 2010–2013 and 2098–2101: set the member name of the last path piece -/
def setPathName (name : Text) : R σ Unit := do
  let s ← M.get
  match s.path with
  | none => pure ()
  | some (.objectMember _ :: ps) => M.set { s with path := some (.objectMember name :: ps) }
  | some (.arrayItem _ :: _) => internalPanic .unreachable
  | some [] => internalPanic .unwrapNone

/-- stream_reader.rs 1983–1996: `next_name_owned` -/
def nextNameOwned : R σ Text := do
  beforeName
  readString false
  let name ← liftS ByteSource.getString
  setPathName name
  pure name

/-- stream_reader.rs 1998–2017: `next_name` -/
def nextName : R σ Text := do
  beforeName
  readString true
  let s ← M.get
  (if s.path.isSome then do
    let name ← liftS ByteSource.getStrPeek
    setPathName name
  else pure ())
  liftS ByteSource.getStr

/-- stream_reader.rs 2019–2040: `end_object` -/
def endObject : R σ Unit := do
  let s ← M.get
  if !isInObject s then usagePanic .endObjectNotInObject
  else if expectsMemberValue s then usagePanic .endObjectExpectsValue
  else do
    let p ← peekInternal
    if p != .objectEnd then structureErr .moreElementsThanExpected
    else do
      consumePeeked
      M.modify fun s => { s with expectsMemberName := false }
      onContainerEnd

/-- stream_reader.rs 2042–2051: `next_bool` -/
def nextBool : R σ Bool := do
  let p ← startExpectedValueType .boolean false
  let value ← (match p with
    | .booleanTrue => pure true
    | .booleanFalse => pure false
    | _ => internalPanic .unreachable)
  onValueEnd
  pure value

/-- stream_reader.rs 2053–2057: `next_null` -/
def nextNull : R σ Unit := do
  let _ ← startExpectedValueType .null false
  onValueEnd

/-- stream_reader.rs 2088–2107: `skip_name` -/
def skipName : R σ Unit := do
  beforeName
  let s ← M.get
  if s.path.isSome then do
    readString false
    let name ← liftS ByteSource.getString
    setPathName name
  else skipAllStringBytes

/-- stream_reader.rs 2165–2170: `next_string` -/
def nextString : R σ Text := do
  let _ ← startExpectedValueType .string false
  readString false
  let t ← liftS ByteSource.getString
  onValueEnd
  pure t

/-- stream_reader.rs 2172–2177: `next_str` -/
def nextStr : R σ Text := do
  let _ ← startExpectedValueType .string false
  readString true
  onValueEnd
  liftS ByteSource.getStr

/-- stream_reader.rs 2192–2194: `next_number_as_string` -/
def nextNumberAsString : R σ Text := do
  readNumberBytes false
  liftS ByteSource.getString

/-- stream_reader.rs 2196–2198: `next_number_as_str`, also `next_number` (reader/mod.rs 1162–1165) before the conversion by
`FromStr`, which is not modelled -/
def nextNumberAsStr : R σ Text := do
  readNumberBytes true
  liftS ByteSource.getStr

/-- stream_reader.rs 2128–2154: skipping of a value, except that for an array or object only the start is consumed; returns the
change of `depth` -/
def skipValueStart : R σ Nat := do
  match ← peek with
  | .array => do
    beginArray
    pure 1
  | .object => do
    beginObject
    pure 1
  | .string => do
    let _ ← startExpectedValueType .string false
    skipAllStringBytes
    onValueEnd
    pure 0
  | .number => do
    skipNumber
    pure 0
  | .boolean => do
    let _ ← nextBool
    pure 0
  | .null => do
    nextNull
    pure 0

/-- stream_reader.rs 2117–2121: end the current array or object -/
def endContainer : R σ Unit := do
  let s ← M.get
  if isInArray s then endArray else endObject

/-- stream_reader.rs 2124–2126: `if self.expects_member_name { self.skip_name()?; }` -/
def skipNameIfExpected : R σ Unit := do
  let s ← M.get
  if s.expectsMemberName then skipName else pure ()

/-- stream_reader.rs 2116: `depth > 0 && !self.has_next()?` -/
def atContainerEnd (depth : Nat) : R σ Bool :=
  if depth > 0 then do
    let b ← hasNext
    pure (!b)
  else pure false

/-- stream_reader.rs 2115–2160: loop of `skip_value` -/
def skipValueLoop : Nat → Nat → R σ Unit
  | 0, _ => M.fail .outOfFuel
  | fuel + 1, depth => do
    let atEnd ← atContainerEnd depth
    let depth ← (if atEnd then do
      endContainer
      pure (depth - 1)
    else do
      skipNameIfExpected
      let d ← skipValueStart
      pure (depth + d))
    if depth == 0 then pure () else skipValueLoop fuel depth

/-- stream_reader.rs 2109–2163: `skip_value` -/
def skipValue : R σ Unit := do
  let s ← M.get
  if s.expectsMemberName then usagePanic .valueWhenExpectingName
  else skipValueLoop (fuel s) 0

/-- `while self.has_next()? { self.skip_value()?; }` (stream_reader.rs 2232–2234, reader/mod.rs 1588–1590) -/
def skipItems : Nat → R σ Unit
  | 0 => M.fail .outOfFuel
  | fuel + 1 => do
    if ← hasNext then do
      skipValue
      skipItems fuel
    else pure ()

/-- `while self.has_next()? { self.skip_name()?; self.skip_value()?; }` (stream_reader.rs 2238–2241, reader/mod.rs 1595–1598) -/
def skipMembers : Nat → R σ Unit
  | 0 => M.fail .outOfFuel
  | fuel + 1 => do
    if ← hasNext then do
      skipName
      skipValue
      skipMembers fuel
    else pure ()

/-- skip the remaining items and end the array (stream_reader.rs 2232–2235, reader/mod.rs 1588–1591) -/
def finishArray : R σ Unit := do
  let s ← M.get
  skipItems (fuel s)
  endArray

/-- skip the remaining members and end the object (stream_reader.rs 2238–2242, reader/mod.rs 1595–1599) -/
def finishObject : R σ Unit := do
  let s ← M.get
  skipMembers (fuel s)
  endObject

/-- stream_reader.rs 2229–2245: loop of `skip_to_top_level` -/
def skipToTopLevelLoop : Nat → R σ Unit
  | 0 => do
    let s ← M.get
    if s.stack.isEmpty then pure () else M.fail .outOfFuel
  | fuel + 1 => do
    let s ← M.get
    match s.stack with
    | [] => pure ()
    | .array :: _ => do
      finishArray
      skipToTopLevelLoop fuel
    | .object :: _ => do
      finishObject
      skipToTopLevelLoop fuel

/-- stream_reader.rs 2217–2247: `skip_to_top_level` -/
def skipToTopLevel : R σ Unit := do
  let s ← M.get
  if s.stringReaderActive then usagePanic .skipTopStringReaderActive
  else do
    (if expectsMemberValue s then skipValue else pure ())
    skipToTopLevelLoop s.stack.length

/-- stream_reader.rs 2339–2357: `consume_trailing_whitespace` -/
def consumeTrailingWhitespace : R σ Unit := do
  let s ← M.get
  if s.stringReaderActive then usagePanic .trailingStringReaderActive
  else if s.stack.isEmpty then
    if s.isEmpty then usagePanic .trailingNotConsumed
    else do
      match ← skipWhitespace none with
      | some _ => syntaxErr .trailingData
      | none => pure ()
  else usagePanic .trailingNotFullyConsumed

/-- reader/mod.rs 1485–1500: the `for` loop over the array items; `remaining` counts the remaining iterations minus one -/
def seekItems (index : Nat) : Nat → R σ Unit
  | 0 => do
    if ← hasNext then pure () else structureErr (.tooShortArray index)
  | remaining + 1 => do
    if ← hasNext then do
      skipValue
      seekItems index remaining
    else structureErr (.tooShortArray index)

/-- reader/mod.rs 1505–1521: the `while` loop over the object members -/
def seekMembers (name : Text) : Nat → R σ Unit
  | 0 => M.fail .outOfFuel
  | fuel + 1 => do
    if ← hasNext then do
      let n ← nextName
      if n == name then pure ()
      else do
        skipValue
        seekMembers name fuel
    else structureErr (.missingObjectMember name)

/-- reader/mod.rs 1482–1522: one iteration of the loop of `seek_to` -/
def seekToPiece : PathPiece → R σ Unit
  | .arrayItem index => do
    beginArray
    seekItems index index
  | .objectMember name => do
    beginObject
    let s ← M.get
    seekMembers name (fuel s)

/-- reader/mod.rs 1480–1523: loop of `seek_to` -/
def seekToLoop : List PathPiece → R σ Unit
  | [] => pure ()
  | p :: ps => do
    seekToPiece p
    seekToLoop ps

/-- reader/mod.rs 1475–1526: `seek_to` -/
def seekTo (path : List PathPiece) : R σ Unit := do
  let _ ← peek
  seekToLoop path

/-- reader/mod.rs 1584–1604: loop of `seek_back`, on the reversed path -/
def seekBackLoop : List PathPiece → R σ Unit
  | [] => pure ()
  | .arrayItem _ :: ps => do
    finishArray
    seekBackLoop ps
  | .objectMember _ :: ps => do
    finishObject
    seekBackLoop ps

/-- reader/mod.rs 1582–1606: `seek_back` -/
def seekBack (path : List PathPiece) : R σ Unit := seekBackLoop path.reverse

/-! ## `StringValueReader` -/

/-- stream_reader.rs 2378–2392: `StringValueReader` (without `json_reader`); `error` is the previous error -/
structure StrReader where
  utf8Buf : Bytes
  utf8Start : Nat
  utf8Count : Nat
  reachedEnd : Bool
  error : Option RErr
deriving Repr, DecidableEq

/-- stream_reader.rs 2376: `STRING_VALUE_READER_BUF_SIZE` -/
def strReaderBufSize : Nat := Utf8.maxBytesPerChar - 1

/-- stream_reader.rs 2182–2189: initial state of the string value reader -/
def StrReader.new : StrReader :=
  { utf8Buf := List.replicate strReaderBufSize 0, utf8Start := 0, utf8Count := 0, reachedEnd := false, error := none }

/-- stream_reader.rs 2179–2190: `next_string_reader` -/
def nextStringReader : R σ StrReader := do
  let _ ← startExpectedValueType .string false
  M.modify fun s => { s with stringReaderActive := true }
  pure StrReader.new

/-- stream_reader.rs 2422–2431: the consumer passed to `read_string_bytes`, applied to the bytes of a char. `out` is the filled part
of `buf` (its length is `pos`), `len` is `buf.len()` -/
def strConsume (len : Nat) : Bytes → StrReader → Bytes → R σ (StrReader × Bytes)
  | [], sr, out => pure (sr, out)
  | b :: bs, sr, out =>
    if out.length < len then strConsume len bs sr (out ++ [b])
    else if sr.utf8Count < sr.utf8Buf.length then
      strConsume len bs { sr with utf8Buf := sr.utf8Buf.set sr.utf8Count b, utf8Count := sr.utf8Count + 1 } out
    else internalPanic .index

/-- stream_reader.rs 2415–2453: the `while` loop of `read_impl`. Each iteration adds at least one byte to `buf` or ends the loop, so
`len` is sufficient fuel. -/
def strReadLoop (len : Nat) : Nat → StrReader → Bytes → R σ (StrReader × Bytes)
  | 0, sr, out => if out.length < len then M.fail .outOfFuel else pure (sr, out)
  | fuel + 1, sr, out =>
    if out.length < len then
      if !(sr.utf8Start == 0 && sr.utf8Count == 0) then internalPanic .debugAssert
      else do
        let (reachedEnd, bytes) ← readStringBytes
        let (sr, out) ← strConsume len bytes sr out
        if reachedEnd then do
          M.modify fun s => { s with stringReaderActive := false }
          onValueEnd
          pure ({ sr with reachedEnd := true }, out)
        else strReadLoop len fuel sr out
    else pure (sr, out)

/-- stream_reader.rs 2398–2413: serve remaining bytes of the UTF-8 buffer first -/
def strDrain (len : Nat) (sr : StrReader) : R σ (StrReader × Bytes) :=
  if sr.utf8Count > 0 then
    let copyCount := min sr.utf8Count len
    match BufSrc.slice? sr.utf8Buf sr.utf8Start (sr.utf8Start + copyCount) with
    | none => internalPanic .index
    | some bytes =>
      if copyCount == sr.utf8Count then pure ({ sr with utf8Start := 0, utf8Count := 0 }, bytes)
      else pure ({ sr with utf8Start := sr.utf8Start + copyCount, utf8Count := sr.utf8Count - copyCount }, bytes)
  else pure (sr, [])

/-- stream_reader.rs 2393–2455: `read_impl`; `len` is `buf.len()`, the result are the bytes `buf[..pos]` -/
def strReadImpl (len : Nat) (sr : StrReader) : R σ (StrReader × Bytes) :=
  if sr.reachedEnd || len == 0 then pure (sr, [])
  else do
    let (sr, out) ← strDrain len sr
    strReadLoop len len sr out

/-- stream_reader.rs 2457–2480. Result of `Read::read` of the string value reader. `err e` is an `io::Error` of kind `Other` wrapping `e`, `previous e` the one with
the message "previous error ..." -/
inductive StrReadResult where
  | ok (bytes : Bytes)
  | err (e : RErr)
  | previous (e : RErr)
deriving Repr, DecidableEq

/-- stream_reader.rs 2457–2480: `check_previous_error` and `Read::read`. Simplification: for an error the changes `read_impl` made to the
other fields before the error are dropped; they cannot be observed because all following calls return the previous error. -/
def strRead (len : Nat) (sr : StrReader) : R σ (StrReader × StrReadResult) :=
  match sr.error with
  | some e => pure (sr, .previous e)
  | none => ⟨fun s =>
    match (strReadImpl len sr).run s with
    | .ok (sr, bytes) s' => .ok (sr, .ok bytes) s'
    | .err (.panic p) s' => .err (.panic p) s'
    | .err .outOfFuel s' => .err .outOfFuel s'
    | .err e s' => .ok ({ sr with error := some e }, .err e) s'⟩

/-- Model only: the caller of stream_reader.rs 2471. A sequence of `read` calls with the given buffer sizes -/
def strReads : List Nat → StrReader → R σ (StrReader × List StrReadResult)
  | [], sr => pure (sr, [])
  | len :: lens, sr => do
    let (sr, r) ← strRead len sr
    let (sr, rs) ← strReads lens sr
    pure (sr, r :: rs)

/-- Model only: the caller of stream_reader.rs 2471. A sequence of `read` calls with the given buffer sizes which ends at the first error; the result is the data of the `read` calls. The error
is the one which is wrapped in the `io::Error` returned by `Read::read`. -/
def strReadsOk : List Nat → StrReader → R σ (StrReader × List Bytes)
  | [], sr => pure (sr, [])
  | len :: lens, sr => do
    let (sr, bytes) ← strReadImpl len sr
    let (sr, rs) ← strReadsOk lens sr
    pure (sr, bytes :: rs)

/-! ## Operations as data, for statements about arbitrary sequences of method calls -/

/-- reader/mod.rs 744: the trait `JsonReader`. A call of a `JsonReader` method. `stringReader lens`: `next_string_reader`, followed by `read` calls with buffers of the
given sizes, ending at the first error. (`consume_trailing_whitespace` consumes the reader, it is always the last call.) -/
inductive Op where
  | peek | beginArray | endArray | beginObject | endObject | nextName | nextNameOwned | nextString | nextStr
  | stringReader (lens : List Nat)
  | nextNumberAsStr | nextNumberAsString | nextBool | nextNull | hasNext | skipName | skipValue
  | skipToTopLevel | seekTo (path : List PathPiece) | seekBack (path : List PathPiece)
  | currentPosition (includePath : Bool) | consumeTrailingWhitespace
deriving Repr, DecidableEq

/-- reader/mod.rs 744: the trait `JsonReader`. Value returned by a method -/
inductive Out where
  | unit
  | type (t : ValueType)
  | bool (b : Bool)
  | text (t : Text)
  | reads (rs : List Bytes)
  | position (p : Position)
deriving Repr, DecidableEq

/-- Model only: method without result -/
def unitOut (m : R σ Unit) : R σ Out := do
  m
  pure .unit

/-- Model only: method which returns a string -/
def textOut (m : R σ Text) : R σ Out := do
  let t ← m
  pure (.text t)

/-- Model only: method which returns a `bool` -/
def boolOut (m : R σ Bool) : R σ Out := do
  let b ← m
  pure (.bool b)

/-- Model only: Run a method call -/
def runOp : Op → R σ Out
  | .peek => do
    let t ← peek
    pure (.type t)
  | .beginArray => unitOut beginArray
  | .endArray => unitOut endArray
  | .beginObject => unitOut beginObject
  | .endObject => unitOut endObject
  | .nextName => textOut nextName
  | .nextNameOwned => textOut nextNameOwned
  | .nextString => textOut nextString
  | .nextStr => textOut nextStr
  | .stringReader lens => do
    let sr ← nextStringReader
    let (_, rs) ← strReadsOk lens sr
    pure (.reads rs)
  | .nextNumberAsStr => textOut nextNumberAsStr
  | .nextNumberAsString => textOut nextNumberAsString
  | .nextBool => boolOut nextBool
  | .nextNull => unitOut nextNull
  | .hasNext => boolOut hasNext
  | .skipName => unitOut skipName
  | .skipValue => unitOut skipValue
  | .skipToTopLevel => unitOut skipToTopLevel
  | .seekTo path => unitOut (seekTo path)
  | .seekBack path => unitOut (seekBack path)
  | .currentPosition includePath => do
    let s ← M.get
    pure (.position (currentPosition s includePath))
  | .consumeTrailingWhitespace => unitOut consumeTrailingWhitespace

end
end Reader
end Verif
