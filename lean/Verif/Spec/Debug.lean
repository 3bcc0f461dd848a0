import Verif.Spec.Utf8
/-!
# Specification: how `Debug` shows the content of the buffers
-/

namespace Verif.DebugSpec

/-- The bytes do not start with a (complete and valid) character. -/
def NoChar (bs : Bytes) : Prop := ∀ c r, bs ≠ enc [c] ++ r

/-- The reader shows the number of the bytes, at most 45 characters from their beginning and `...` if this is not everything, and, if the shown characters
consist of less than 15 bytes but are followed by something else, up to 30 of the bytes which follow them. -/
structure ShowsStart (content : Bytes) (count : Nat) (str : Text) (raw : Option Bytes) : Prop where
  count : count = content.length
  text : ∃ t rest, content = enc t ++ rest ∧ t.length ≤ 45 ∧ (t.length < 45 → NoChar rest) ∧ str = t ++ (if rest = [] then [] else ['.', '.', '.']) ∧
    raw = if rest ≠ [] ∧ (enc t).length < 15 then some (rest.take 30) else none

/-- A text of more than 55 characters is shortened to the first 25 and the last 25 characters. -/
def shorten (t : Text) : Text := if t.length ≤ 55 then t else t.take 25 ++ [' ', '.', '.', '.', ' '] ++ t.drop (t.length - 25)

/-- The writer shows the number of the bytes, and, if they are not the encoding of a text, the shortest non-empty beginning which is followed by the
encoding of a text; and then this text, shortened. -/
structure ShowsEnd (content : Bytes) (count : Nat) (raw : Option Bytes) (str : Text) : Prop where
  count : count = content.length
  text : match raw with
    | none => ∃ t, content = enc t ∧ str = shorten t
    | some r => ¬ ValidUtf8 content ∧ ∃ t, content = r ++ enc t ∧ str = ['.', '.', '.'] ++ shorten t ∧
      ∀ r' t', r' ≠ [] → content = r' ++ enc t' → r.length ≤ r'.length

end Verif.DebugSpec
