import Verif.Model.Reader
/-!
# Specification: what the text of an error has to tell
-/

namespace Verif.Message
open Reader

/-- an error without its location -/
inductive Cause where
  | syntax (kind : SyntaxKind)
  | unexpectedValueType (expected actual : ValueType)
  | unexpectedStructure (kind : StructureKind)
  | maxNestingDepthExceeded (max : Nat)
  | unsupportedNumberValue (number : Text)

/-- cause and location of the errors of the reader, except for IO errors (whose text comes from elsewhere) -/
def parts : RErr → Option (Cause × Position)
  | .syntax k l => some (.syntax k, l)
  | .unexpectedValueType e a l => some (.unexpectedValueType e a, l)
  | .unexpectedStructure k l => some (.unexpectedStructure k, l)
  | .maxNestingDepthExceeded m l => some (.maxNestingDepthExceeded m, l)
  | .unsupportedNumberValue n l => some (.unsupportedNumberValue n, l)
  | .io _ _ | .panic _ | .outOfFuel => none

/-- member names of a path do not contain `.` or `[` -/
def SimplePath (path : List PathPiece) : Prop := ∀ name, .objectMember name ∈ path → '.' ∉ name ∧ '[' ∉ name

/-- texts in the cause do not contain the quotation mark with which they are enclosed -/
def SimpleCause : Cause → Prop
  | .unexpectedStructure (.missingObjectMember name) => '"' ∉ name
  | .unsupportedNumberValue number => '\'' ∉ number
  | _ => True

/-- how lines and columns are shown -/
def lineText (line column : Nat) : Text := s!"line {line}, column {column}".toList

/-- how offsets are shown -/
def offsetText (offset : Nat) : Text := s!"data pos {offset}".toList

/-- how a piece of a path is shown -/
def pieceText : PathPiece → Text
  | .arrayItem index => s!"[{index}]".toList
  | .objectMember name => '.' :: name

/-- location of an error, also of IO errors -/
def location : RErr → Option Position
  | .syntax _ l | .unexpectedValueType _ _ l | .unexpectedStructure _ l | .maxNestingDepthExceeded _ l | .unsupportedNumberValue _ l | .io _ l => some l
  | .panic _ | .outOfFuel => none

/-- the names of the types, in the order of their declaration (reader/mod.rs 226–242) -/
def typeNames : List String := ["Array", "Object", "String", "Number", "Boolean", "Null"]

/-- the names of the kinds of syntax errors, in the order of their declaration (reader/mod.rs 414–478) -/
def kindNames : List String := ["CommentsNotEnabled", "IncompleteComment", "BlockCommentNotClosed", "InvalidLiteral", "TrailingDataAfterLiteral", "UnexpectedClosingBracket",
  "UnexpectedComma", "MissingComma", "TrailingCommaNotEnabled", "UnexpectedColon", "MissingColon", "MalformedNumber", "TrailingDataAfterNumber", "ExpectingMemberNameOrObjectEnd",
  "MalformedJson", "NotEscapedControlCharacter", "UnknownEscapeSequence", "MalformedEscapeSequence", "UnpairedSurrogatePairEscapeSequence", "IncompleteDocument", "TrailingData"]

/-- how an unexpected structure is shown -/
def structureText : StructureKind → Text
  | .tooShortArray index => s!"TooShortArray(expected_index = {index})".toList
  | .missingObjectMember name => "MissingObjectMember(".toList ++ ['"'] ++ name ++ ['"'] ++ ")".toList
  | .fewerElementsThanExpected => "FewerElementsThanExpected".toList
  | .moreElementsThanExpected => "MoreElementsThanExpected".toList

/-- how the cause of an error is shown: by its name in `kindNames` or `typeNames`, with the expected type in front of the actual one, and together with its details -/
def causeText : Cause → Text
  | .syntax kind => (kindNames.getD kind.ctorIdx "").toList
  | .unexpectedValueType expected actual => "expected JSON value type ".toList ++ (typeNames.getD expected.ctorIdx "").toList ++ " but got ".toList ++ (typeNames.getD actual.ctorIdx "").toList
  | .unexpectedStructure kind => structureText kind
  | .maxNestingDepthExceeded max => s!"maximum nesting depth {max} exceeded".toList
  | .unsupportedNumberValue number => ['\''] ++ number ++ ['\'']

end Verif.Message
