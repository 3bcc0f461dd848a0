import Verif.Model.Run
import Verif.Spec.Position
import Verif.Spec.Utf8
import Verif.Spec.Json
/-!
# Specification: locations of errors
-/

namespace Verif.ErrorLocation
open Reader Json

/-- the location which is part of an error -/
def location : RErr → Option Position
  | .syntax _ l => some l
  | .unexpectedValueType _ _ l => some l
  | .unexpectedStructure _ l => some l
  | .maxNestingDepthExceeded _ l => some l
  | .unsupportedNumberValue _ l => some l
  | .io _ l => some l
  | .panic _ => none
  | .outOfFuel => none

/-- the bytes begin with a byte which satisfies the condition -/
def Head (p : UInt8 → Prop) (bs : Bytes) : Prop := ∃ b t, bs = b :: t ∧ p b

/-- the literals `null`, `true` and `false` -/
def literals : List Bytes := [[0x6E, 0x75, 0x6C, 0x6C], [0x74, 0x72, 0x75, 0x65], [0x66, 0x61, 0x6C, 0x73, 0x65]]

/-- `,` `]` `}` `:` `/` and whitespace -/
def separators : Bytes := [0x2C, 0x5D, 0x7D, 0x3A, 0x2F, 0x20, 0x09, 0x0A, 0x0D]

/-- the bytes which can follow a `\`: `"` `\` `/` `b` `f` `n` `r` `t` `u` -/
def escapes : Bytes := [0x22, 0x5C, 0x2F, 0x62, 0x66, 0x6E, 0x72, 0x74, 0x75]

/-- `-` or a digit -/
def NumberStart (b : UInt8) : Prop := b = 0x2D ∨ (0x30 ≤ b.toNat ∧ b.toNat ≤ 0x39)

/-- space, tab, line feed and carriage return -/
def whitespace : Bytes := [0x20, 0x09, 0x0A, 0x0D]

/-- the bytes with which a value or a member name can begin: `"` `[` `{` `n` `t` `f` `-` and digits -/
def TokenStart (b : UInt8) : Prop := b ∈ ([0x22, 0x5B, 0x7B, 0x6E, 0x74, 0x66] : Bytes) ∨ NumberStart b

/-- digits, `-` `+` `.` `e` `E` -/
def NumberByte (b : UInt8) : Prop := b ∈ ([0x2D, 0x2B, 0x2E, 0x65, 0x45] : Bytes) ∨ (0x30 ≤ b.toNat ∧ b.toNat ≤ 0x39)

/-- the bytes begin with a value of the type -/
def StartsWith : ValueType → Bytes → Prop
  | .array, r => Head (· = 0x5B) r
  | .object, r => Head (· = 0x7B) r
  | .string, r => Head (· = 0x22) r
  | .number, r => Head NumberStart r
  | .boolean, r => [0x74, 0x72, 0x75, 0x65] <+: r ∨ [0x66, 0x61, 0x6C, 0x73, 0x65] <+: r
  | .null, r => [0x6E, 0x75, 0x6C, 0x6C] <+: r

/-- four hexadecimal digits which denote `n`, and what follows -/
def HexAt (t : Bytes) (n : Nat) (t' : Bytes) : Prop := ∃ h : Hex4, h.Is n ∧ t = h.bytes ++ t'

/-- the `\u` in front of the bytes is not followed by four hexadecimal digits -/
def NoHex (t : Bytes) : Prop := ∀ n t', ¬ HexAt t n t'

/-- a high (or leading) surrogate -/
def High (n : Nat) : Prop := 0xD800 ≤ n ∧ n < 0xDC00

/-- a low (or trailing) surrogate -/
def Low (n : Nat) : Prop := 0xDC00 ≤ n ∧ n < 0xE000

/-- Behind `\u`: hexadecimal digits are missing, either directly or in the second escape sequence of a surrogate pair. -/
def BrokenEscape (t : Bytes) : Prop := NoHex t ∨ ∃ n t', HexAt t n (0x5C :: 0x75 :: t') ∧ High n ∧ NoHex t'

/-- Behind `\u`: a low surrogate, or a high surrogate which is not followed by an escaped low surrogate. -/
def Unpaired (t : Bytes) : Prop := ∃ n t', HexAt t n t' ∧ (Low n ∨ (High n ∧ ∀ m t2 t3, t' = 0x5C :: 0x75 :: t2 → HexAt t2 m t3 → ¬ Low m))

/-- What is found in the input at the location of a syntax error; `r` are the bytes at and behind the location. -/
def SyntaxPoints (k : SyntaxKind) (r : Bytes) : Prop :=
  match k with
  | .commentsNotEnabled => Head (· = 0x2F) r
  /- the location is behind the `/` -/
  | .incompleteComment => ¬ Head (fun b => b = 0x2A ∨ b = 0x2F) r
  | .blockCommentNotClosed => r = []
  | .invalidLiteral => ∃ lit ∈ literals, r.head? = lit.head? ∧ ¬ lit <+: r
  | .trailingDataAfterLiteral => ∃ lit ∈ literals, ∃ t, r = lit ++ t ∧ Head (· ∉ separators) t
  | .unexpectedClosingBracket => Head (fun b => b = 0x5D ∨ b = 0x7D) r
  | .unexpectedComma => Head (· = 0x2C) r
  | .missingComma => Head TokenStart r
  /- the comma, whitespace and comments, and the closing bracket -/
  | .trailingCommaNotEnabled => ∃ (w : Ws) (comments : Bool) (t : Bytes), r = 0x2C :: (w.bytes ++ t) ∧ w.Ok comments ∧ Head (fun b => b = 0x5D ∨ b = 0x7D) t
  | .unexpectedColon => Head (· = 0x3A) r
  | .missingColon => r = [] ∨ Head (fun b => b ≠ 0x3A ∧ b ∉ whitespace) r
  /- no valid number which ends before another character of numbers -/
  | .malformedNumber => Head NumberStart r ∧ ∀ n t, r = n ++ t → IsNumber n → Head NumberByte t
  | .trailingDataAfterNumber => Head (fun b => b ∉ separators ∧ ¬ NumberByte b) r
  | .expectingMemberNameOrObjectEnd => Head (fun b => b ≠ 0x22 ∧ b ≠ 0x7D ∧ b ∉ whitespace) r
  | .malformedJson => Head (fun b => b ∉ [0x22, 0x5B, 0x7B, 0x5D, 0x7D, 0x2C, 0x3A, 0x6E, 0x74, 0x66, 0x2F, 0x20, 0x09, 0x0A, 0x0D] ∧ ¬ NumberStart b) r
  | .notEscapedControlCharacter => Head (·.toNat < 0x20) r
  | .unknownEscapeSequence => ∃ t, r = 0x5C :: t ∧ Head (· ∉ escapes) t
  | .malformedEscapeSequence => r = [0x5C] ∨ ∃ t, r = 0x5C :: 0x75 :: t ∧ BrokenEscape t
  | .unpairedSurrogatePairEscapeSequence => ∃ t, r = 0x5C :: 0x75 :: t ∧ Unpaired t
  /- only an incomplete UTF-8 encoded character can be left -/
  | .incompleteDocument => r = [] ∨ (Head (0x80 ≤ ·.toNat) r ∧ r.length < 4)
  | .trailingData => Head (· ∉ whitespace) r

/-- What is found in the input at the location of an error; `r` are the bytes at and behind the location. -/
def Points (e : RErr) (r : Bytes) : Prop :=
  match e with
  | .syntax k _ => SyntaxPoints k r
  | .unexpectedValueType expected actual _ => expected ≠ actual ∧ StartsWith actual r
  | .unexpectedStructure .moreElementsThanExpected _ => Head (fun b => b ≠ 0x5D ∧ b ≠ 0x7D) r
  | .unexpectedStructure _ _ => r = [] ∨ Head (fun b => b = 0x5D ∨ b = 0x7D) r
  | .maxNestingDepthExceeded _ _ => Head (fun b => b = 0x5B ∨ b = 0x7B) r
  | .unsupportedNumberValue number _ => enc number <+: r
  | .io .invalidUtf8 _ => Head (0x80 ≤ ·.toNat) r
  | .io (.source _) _ => True
  | .panic _ => True
  | .outOfFuel => True

/-- the location is the one behind the first `dataPos` bytes of the input -/
def LocationIn (bytes : Bytes) (l : Position) : Prop :=
  l.dataPos ≤ bytes.length ∧ l.line = Position.lineBreaks (bytes.take l.dataPos) ∧ l.column = Position.charCount (Position.lastLine (bytes.take l.dataPos))

/-- calls which read at most one token -/
def oneToken : Op → Bool
  | .skipValue | .skipToTopLevel | .seekTo _ | .seekBack _ => false
  | _ => true

end Verif.ErrorLocation
