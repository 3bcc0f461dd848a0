import Verif.Model.Reader
import Verif.Model.Writer
/-!
# Model: texts of positions and of errors (`Display`)

Integers are formatted by `natToString`. `strum::Display` writes the name of the variant, `thiserror` the text given in `#[error(...)]`.
-/

namespace Verif.Display
open Reader
open Writer (natToString)

/-- reader/mod.rs 73–83: `format_abs_json_path` -/
def formatAbsJsonPath (path : List PathPiece) : Text :=
  '$' :: path.flatMap fun p => match p with
    | .arrayItem index => '[' :: (natToString index ++ [']'])
    | .objectMember name => '.' :: name

/-- reader/mod.rs 277–281: `Display` of `LinePosition` -/
def linePosition (line column : Nat) : Text := "line ".toList ++ natToString line ++ ", column ".toList ++ natToString column

/-- reader/mod.rs 296–353: `JsonReaderPosition`, where all parts are optional -/
structure FullPosition where
  path : Option (List PathPiece)
  linePos : Option (Nat × Nat)
  dataPos : Option Nat
deriving Repr, DecidableEq

/-- reader/mod.rs 367–393: `Display` of `JsonReaderPosition` -/
def position (p : FullPosition) : Text :=
  match p.path with
  | some path => "path '".toList ++ formatAbsJsonPath path ++ "'".toList ++
    match p.linePos with
    | some (line, column) => ", ".toList ++ linePosition line column ++
      match p.dataPos with
      | some dataPos => " (data pos ".toList ++ natToString dataPos ++ ")".toList
      | none => []
    | none =>
      match p.dataPos with
      | some dataPos => ", data pos ".toList ++ natToString dataPos
      | none => []
  | none =>
    match p.linePos with
    | some (line, column) => linePosition line column ++
      match p.dataPos with
      | some dataPos => " (data pos ".toList ++ natToString dataPos ++ ")".toList
      | none => []
    | none =>
      match p.dataPos with
      | some dataPos => "data pos ".toList ++ natToString dataPos
      | none => "<location unavailable>".toList

/-- stream_reader.rs 2359–2373: a position of the stream reader, which always has line, column and offset -/
def full (p : Position) : FullPosition := ⟨p.path, some (p.line, p.column), some p.dataPos⟩

/-- reader/mod.rs 226–242: `Display` of `ValueType` -/
def valueType : ValueType → Text
  | .array => "Array".toList
  | .object => "Object".toList
  | .string => "String".toList
  | .number => "Number".toList
  | .boolean => "Boolean".toList
  | .null => "Null".toList

/-- reader/mod.rs 414–478: `Display` of `SyntaxErrorKind` -/
def syntaxKind : SyntaxKind → Text
  | .commentsNotEnabled => "CommentsNotEnabled".toList
  | .incompleteComment => "IncompleteComment".toList
  | .blockCommentNotClosed => "BlockCommentNotClosed".toList
  | .invalidLiteral => "InvalidLiteral".toList
  | .trailingDataAfterLiteral => "TrailingDataAfterLiteral".toList
  | .unexpectedClosingBracket => "UnexpectedClosingBracket".toList
  | .unexpectedComma => "UnexpectedComma".toList
  | .missingComma => "MissingComma".toList
  | .trailingCommaNotEnabled => "TrailingCommaNotEnabled".toList
  | .unexpectedColon => "UnexpectedColon".toList
  | .missingColon => "MissingColon".toList
  | .malformedNumber => "MalformedNumber".toList
  | .trailingDataAfterNumber => "TrailingDataAfterNumber".toList
  | .expectingMemberNameOrObjectEnd => "ExpectingMemberNameOrObjectEnd".toList
  | .malformedJson => "MalformedJson".toList
  | .notEscapedControlCharacter => "NotEscapedControlCharacter".toList
  | .unknownEscapeSequence => "UnknownEscapeSequence".toList
  | .malformedEscapeSequence => "MalformedEscapeSequence".toList
  | .unpairedSurrogatePairEscapeSequence => "UnpairedSurrogatePairEscapeSequence".toList
  | .incompleteDocument => "IncompleteDocument".toList
  | .trailingData => "TrailingData".toList

/-- reader/mod.rs 479–507: `Display` of `UnexpectedStructureKind` -/
def structureKind : StructureKind → Text
  | .tooShortArray i => "TooShortArray(expected_index = ".toList ++ natToString i ++ ")".toList
  | .missingObjectMember name => "MissingObjectMember(\"".toList ++ name ++ "\")".toList
  | .fewerElementsThanExpected => "FewerElementsThanExpected".toList
  | .moreElementsThanExpected => "MoreElementsThanExpected".toList

/-- reader/mod.rs 405 and 513–595: `Display` of `JsonSyntaxError` and `ReaderError`. Text of `std::io::Error` is a parameter; panics have no text. -/
def readerError (ioError : IoErr → Text) : RErr → Text
  | .syntax kind l => "syntax error: ".toList ++ ("JSON syntax error ".toList ++ syntaxKind kind ++ " at ".toList ++ position (full l))
  | .unexpectedValueType expected actual l => "expected JSON value type ".toList ++ valueType expected ++ " but got ".toList ++ valueType actual ++ " at ".toList ++ position (full l)
  | .unexpectedStructure kind l => "unexpected JSON structure ".toList ++ structureKind kind ++ " at ".toList ++ position (full l)
  | .maxNestingDepthExceeded max l => "maximum nesting depth ".toList ++ natToString max ++ " exceeded at ".toList ++ position (full l)
  | .unsupportedNumberValue number l => "unsupported number value '".toList ++ number ++ "' at ".toList ++ position (full l)
  | .io e l => "IO error '".toList ++ ioError e ++ "' at (roughly) ".toList ++ position (full l)
  | .panic _ => []
  | .outOfFuel => []

end Verif.Display
