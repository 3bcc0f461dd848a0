import Verif.Model.Run
/-!
# Which method may fail with which error

Written from the documentation of `ReaderError`, `SyntaxErrorKind` and `UnexpectedStructureKind` (reader/mod.rs 335–583), of the settings (stream_reader.rs 236–346) and of
the methods of `JsonReader` (reader/mod.rs 744–1807, sections "Errors").
-/

namespace Verif.ErrorKinds
open Reader

/-- what a method does -/
structure Does where
  /-- it reads from the underlying reader (at least whitespace and comments) -/
  reads : Bool := true
  /-- it looks at the next token -/
  tokens : Bool := true
  /-- it reads or skips strings or member names -/
  strings : Bool := false
  /-- it reads or skips numbers -/
  numbers : Bool := false
  /-- it returns a number -/
  returnsNumber : Bool := false
  /-- it starts arrays or objects -/
  starts : Bool := false
  /-- it checks for trailing data -/
  trailing : Bool := false
  /-- the types of values it insists on -/
  wants : ValueType → Bool := fun _ => false
  /-- how the structure of the data can differ from the expected one -/
  structures : StructureKind → Bool := fun _ => false

/-- syntax errors -/
def SyntaxAllowed (st : Settings) (d : Does) : SyntaxKind → Prop
  | .commentsNotEnabled => d.reads = true ∧ st.allowComments = false
  | .incompleteComment => d.reads = true ∧ st.allowComments = true
  | .blockCommentNotClosed => d.reads = true ∧ st.allowComments = true
  | .incompleteDocument => d.reads = true
  /- also in comments -/
  | .notEscapedControlCharacter => d.reads = true
  | .trailingCommaNotEnabled => d.tokens = true ∧ st.allowTrailingComma = false
  | .malformedNumber => d.numbers = true
  | .trailingDataAfterNumber => d.numbers = true
  | .unknownEscapeSequence => d.strings = true
  | .malformedEscapeSequence => d.strings = true
  | .unpairedSurrogatePairEscapeSequence => d.strings = true
  | .trailingData => d.trailing = true
  | _ => d.tokens = true

/-- the errors which a method may report (panics are the subject of other properties) -/
def Allowed (st : Settings) (d : Does) : RErr → Prop
  | .syntax k _ => SyntaxAllowed st d k
  | .unexpectedValueType expected actual _ => d.wants expected = true ∧ expected ≠ actual
  | .unexpectedStructure k _ => d.structures k = true
  | .maxNestingDepthExceeded max _ => d.starts = true ∧ st.maxNestingDepth = some max
  | .unsupportedNumberValue _ _ => d.returnsNumber = true ∧ st.restrictNumberValues = true
  | .io _ _ => d.reads = true
  | .panic _ => True
  | .outOfFuel => True

/-- "fewer elements than expected" -/
def fewer (k : StructureKind) : Bool := k == .fewerElementsThanExpected
/-- "more elements than expected" -/
def more (k : StructureKind) : Bool := k == .moreElementsThanExpected
/-- the elements of the path which may be missing -/
def missing (path : List PathPiece) : StructureKind → Bool
  | .tooShortArray i => path.contains (.arrayItem i)
  | .missingObjectMember n => path.contains (.objectMember n)
  | _ => false

/-- a piece of a path for an array or object -/
def wantedBy (path : List PathPiece) : ValueType → Bool
  | .array => path.any fun | .arrayItem _ => true | .objectMember _ => false
  | .object => path.any fun | .arrayItem _ => false | .objectMember _ => true
  | _ => false

/-- What the methods do. `skip_to_top_level` and `seek_back` skip all what remains, whatever it is, so they have no expectations about types and structure. -/
def does : Op → Does
  | .peek => { structures := fewer }
  | .beginArray => { starts := true, wants := (· == .array), structures := fewer }
  | .beginObject => { starts := true, wants := (· == .object), structures := fewer }
  | .endArray => { structures := more }
  | .endObject => { structures := more }
  | .nextName => { strings := true, structures := fewer }
  | .nextNameOwned => { strings := true, structures := fewer }
  | .skipName => { strings := true, structures := fewer }
  | .nextString => { strings := true, wants := (· == .string), structures := fewer }
  | .nextStr => { strings := true, wants := (· == .string), structures := fewer }
  | .stringReader _ => { strings := true, wants := (· == .string), structures := fewer }
  | .nextNumberAsStr => { numbers := true, returnsNumber := true, wants := (· == .number), structures := fewer }
  | .nextNumberAsString => { numbers := true, returnsNumber := true, wants := (· == .number), structures := fewer }
  | .nextBool => { wants := (· == .boolean), structures := fewer }
  | .nextNull => { wants := (· == .null), structures := fewer }
  | .hasNext => {}
  | .skipValue => { strings := true, numbers := true, starts := true, structures := fewer }
  | .skipToTopLevel => { strings := true, numbers := true, starts := true }
  | .seekTo path => { strings := true, numbers := true, starts := true, wants := wantedBy path, structures := fun k => fewer k || missing path k }
  | .seekBack _ => { strings := true, numbers := true, starts := true }
  | .currentPosition _ => { reads := false, tokens := false }
  | .consumeTrailingWhitespace => { tokens := false, trailing := true }

/-- what `transfer_to` does (it is no `Op` because it has a writer as argument); numbers are passed to the writer, so they are checked -/
def transfers : Does := { strings := true, numbers := true, returnsNumber := true, starts := true, structures := fewer }

end Verif.ErrorKinds
